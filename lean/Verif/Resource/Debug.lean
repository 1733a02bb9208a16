import Verif.Resource.Props
import Verif.Single.Resource

/-! # C101: the resource manager with its asserts

In a build without `NDEBUG` a failing `assert` ends the process. The asserts of resource.c about the counters, 186, 211, 234,
264, 280, 303, 335 and 336, are added here to the steps of `Verif/Resource/Model.lean` and to the calls of the build without threads,
`Verif/Single/Resource.lean`. Those about sizes and alignment, 132 and 214-285, are not: there are no addresses in the model. -/

namespace Verif.Resource.Debug

/-! ## Model -/

/-- The asserts about the counters at the next access of a thread. Line 264, which is between the exchange and the freeing of the handle,
is taken together with the exchange: see `C101_stays`. -/
def okay (s : State) : Pc → Bool
  -- resource.c:280
  | .incSelf _ a _ => 0 ≤ (s.counter a).inUse
  -- resource.c:303
  | .incAddr _ compare a => s.counter a ≠ compare ∨ 0 < compare.inUse + 1
  -- resource.c:211
  | .decSelf _ p _ => 0 < (s.counter p).inUse
  -- resource.c:234
  | .decRead _ p compare => s.counter p ≠ compare ∨ 0 ≤ compare.inUse - 1
  -- resource.c:264
  | .decFree _ p decremented => decremented.self.all fun q => s.counter q ≠ decremented ∨ p ≠ s.active
  | _ => true

/-- The asserts of `fiftyoneDegreesResourceReplace` about the new handle, resource.c:335-336. -/
def newOkay (s : State) : Bool := (s.setup.counter s.fresh).inUse = 0 ∧ (s.setup.counter s.fresh).self = some s.fresh

/-- The asserts a step makes: also resource.c:186, which is made before `manager->active` is compared with NULL. -/
def asserts (s : State) (t : Nat) : Act → Bool
  | .callReplace => newOkay s
  | .callFree => 0 ≤ (s.counter s.active).inUse ∧ newOkay s
  | .run => (s.pcs[t]?).all (okay s)
  | _ => true

/-- One step of a thread; `none` also when an assert fails. -/
def step (s : State) (t : Nat) (a : Act) : Option (State × Ret) := if asserts s t a then Resource.step s t a else none

/-- The state after a schedule. -/
def exec (s : State) : Schedule → Option State
  | [] => some s
  | (t, a) :: rest => do
    let (s, _) ← step s t a
    exec s rest

/-! ## With any number of threads -/

/-- No counter is negative. -/
def Counted (s : State) : Prop := ∀ p, 0 ≤ (s.counter p).inUse

/-- The counter of a handle that a thread counts as used. -/
theorem used_pos {s : State} (h : Inv s) {t p : Nat} {pc : Pc} (ht : s.pcs[t]? = some pc) (hu : pc.uses = some p) :
    s.counter p = ⟨some p, refs s p⟩ ∧ 0 < refs s p := by
  have hp := refs_pos ht hu
  refine ⟨?_, hp⟩
  cases hw : s.was p with
  | false => have := (h.notWas p hw).1; omega
  | true =>
    rcases h.cnt p hw with ⟨h1, -⟩ | ⟨-, h1, -⟩
    · exact h1
    · omega

theorem Counted.put {s s' : State} (h : Counted s) {q : Nat} {c : Counter} (hc : s'.counter = set s.counter q c)
    (hn : 0 ≤ c.inUse) : Counted s' := by
  intro p
  rw [hc]
  by_cases e : p = q
  · subst e; rw [set_self]; exact hn
  · rw [set_ne _ _ e]; exact h p

theorem Counted.step {s s' : State} (hc : Counted s) (h : Inv s) {t : Nat} {a : Act} {r : Ret}
    (hs : Resource.step s t a = some (s', r)) : Counted s' := by
  simp only [Resource.step, Option.bind_eq_bind] at hs
  cases ht : s.pcs[t]? with
  | none => simp [ht] at hs
  | some pc =>
    simp only [ht, Option.bind_some] at hs
    cases a with
    | callGet | callRelease p =>
      simp only at hs
      split at hs
      · cases hs; exact hc
      · cases hs
    | callReplace | callFree =>
      simp only at hs
      split at hs
      · cases hs; exact hc.put (q := s.fresh) (c := ⟨some s.fresh, 0⟩) rfl (Int.le_refl 0)
      · cases hs
    | run =>
      cases pc with
      | idle => cases hs
      | inc c | incActive c a | incSelf c a x | incRead c x | dec c p | decSelf c p x => cases hs; exact hc
      | incAddr c x a =>
        simp only [access] at hs
        split at hs
        · rename_i he
          have hx : 0 ≤ x.inUse + 1 := by have := hc a; rw [he] at this; omega
          obtain ⟨x1, x2⟩ := x
          cases c <;> cases x1 <;> cases hs <;> exact hc.put (q := a) rfl hx
        · cases hs; exact hc
      | swap c old =>
        cases c with
        | user => cases hs
        | replace n | free n =>
          simp only [access] at hs
          cases hs
          intro p
          simp only [State.goto]
          split <;> exact hc p
      | decRead c p x =>
        simp only [access] at hs
        split at hs
        · rename_i he
          obtain ⟨h1, h2⟩ := used_pos h ht (p := p) rfl
          have hx : 0 ≤ x.inUse - 1 := by rw [← he, h1]; simp only; omega
          split at hs <;> cases hs <;> exact hc.put (q := p) (c := ⟨x.self, x.inUse - 1⟩) rfl hx
        · cases hs; exact hc
      | decCheck c p x =>
        simp only [access] at hs
        split at hs <;> cases hs <;> exact hc
      | decFree c p x =>
        obtain ⟨x1, x2⟩ := x
        cases x1 with
        | none => cases hs
        | some q =>
          simp only [access] at hs
          split at hs
          · cases hs; exact hc.put (q := q) (c := ⟨none, 0⟩) rfl (Int.le_refl 0)
          · cases hs; exact hc
      | freeNew n => cases hs; exact hc

theorem Counted.start (n : Nat) : Counted (start n) := by
  intro p
  simp only [Resource.start]
  split <;> exact Int.le_refl 0

/-- No assert fails in a state with the invariants. -/
theorem asserts_hold {s : State} (hc : Counted s) (h : Inv s) (t : Nat) (a : Act) : asserts s t a = true := by
  have hnew : newOkay s = true := by simp [newOkay, State.setup]
  cases a with
  | callGet | callRelease p => rfl
  | callReplace => exact hnew
  | callFree => simp only [asserts, hnew, decide_eq_true_eq]; exact ⟨hc _, trivial⟩
  | run =>
    simp only [asserts]
    cases ht : s.pcs[t]? with
    | none => rfl
    | some pc =>
      simp only [Option.all_some]
      cases pc with
      | incSelf c a x => simpa [okay] using hc a
      | incAddr c x a =>
        simp only [okay, decide_eq_true_eq]
        by_cases e : s.counter a = x
        · right; have := hc a; rw [e] at this; omega
        · exact .inl e
      | decSelf c p x =>
        obtain ⟨h1, h2⟩ := used_pos h ht (p := p) rfl
        simp only [okay, h1, decide_eq_true_eq]; omega
      | decRead c p x =>
        obtain ⟨h1, h2⟩ := used_pos h ht (p := p) rfl
        simp only [okay, decide_eq_true_eq]
        by_cases e : s.counter p = x
        · right; rw [← e, h1]; simp only; omega
        · exact .inl e
      | decFree c p x =>
        have hf := h.found _ p (mem_of_getElem? ht) rfl
        simp [okay, Option.all_eq_true, hf]
      | _ => rfl

/-- C101: with any number of threads and whatever their schedule, no assert fails: a build with asserts does what one without
does. As in C11 the memory of a freed handle, which may be read by a get (`C11_useAfterFree_violated`), is taken to keep its
contents. Missing: a manager with nothing to free, see `C101_null_violated`. -/
theorem C101_same_partial (n : Nat) (sched : Schedule) : exec (start n) sched = Resource.exec (start n) sched := by
  have key : ∀ (sched : Schedule) (s : State), Counted s → Inv s → exec s sched = Resource.exec s sched := by
    intro sched
    induction sched with
    | nil => intro s _ _; rfl
    | cons c rest ih =>
      obtain ⟨t, a⟩ := c
      intro s hc h
      simp only [exec, Resource.exec, step, asserts_hold hc h t a, if_true, Option.bind_eq_bind]
      cases hs : Resource.step s t a with
      | none => rfl
      | some q =>
        obtain ⟨s1, r⟩ := q
        simp only [Option.bind_some]
        exact ih s1 (hc.step h hs) (h.step hs).1
  exact key sched _ (Counted.start n) (start_inv n)

/-- What was freed stays so. -/
theorem freed_keeps {s s' : State} {t : Nat} {a : Act} {r : Ret} (hs : Resource.step s t a = some (s', r)) {p : Nat}
    (hf : s.freed p ≠ 0) : s'.freed p ≠ 0 := by
  simp only [Resource.step, Option.bind_eq_bind] at hs
  cases ht : s.pcs[t]? with
  | none => simp [ht] at hs
  | some pc =>
    simp only [ht, Option.bind_some] at hs
    cases a with
    | callGet | callRelease q | callReplace | callFree =>
      simp only at hs
      split at hs
      · cases hs; exact hf
      · cases hs
    | run =>
      cases pc with
      | idle => cases hs
      | inc c | incActive c a | incSelf c a x | incRead c x | dec c p | decSelf c p x | freeNew n => cases hs; exact hf
      | incAddr c x a =>
        simp only [access] at hs
        split at hs
        · obtain ⟨x1, x2⟩ := x
          cases c <;> cases x1 <;> cases hs <;> exact hf
        · cases hs; exact hf
      | swap c old =>
        cases c with
        | user => cases hs
        | replace n | free n =>
          simp only [access] at hs
          cases hs
          simp only [State.goto]
          split <;> exact hf
      | decRead c q x =>
        simp only [access] at hs
        split at hs
        · split at hs <;> cases hs <;> exact hf
        · cases hs; exact hf
      | decCheck c q x =>
        simp only [access] at hs
        split at hs <;> cases hs <;> exact hf
      | decFree c q x =>
        obtain ⟨x1, x2⟩ := x
        cases x1 with
        | none => cases hs
        | some z =>
          simp only [access] at hs
          split at hs
          · cases hs
            show set s.freed z (s.freed z + 1) p ≠ 0
            by_cases e : p = z
            · subst e; simp
            · rw [set_ne _ _ e]; exact hf
          · cases hs; exact hf

/-- C101: a handle that was freed is not the active one at any later moment, whenever the assert of line 264 is made. -/
theorem C101_stays {s s' : State} (h : Reached s) {sched : Schedule} (hs : Resource.exec s sched = some s') {p : Nat}
    (hf : s.freed p ≠ 0) : p ≠ s'.active := by
  have more : ∀ (sched : Schedule) (s : State), Inv s → s.freed p ≠ 0 → Resource.exec s sched = some s' → Inv s' ∧ s'.freed p ≠ 0 := by
    intro sched
    induction sched with
    | nil => intro s h hf hs; cases hs; exact ⟨h, hf⟩
    | cons c rest ih =>
      obtain ⟨t, a⟩ := c
      intro s h hf hs
      simp only [Resource.exec, Option.bind_eq_bind] at hs
      cases h1 : Resource.step s t a with
      | none => simp [h1] at hs
      | some q =>
        obtain ⟨s1, r⟩ := q
        simp only [h1, Option.bind_some] at hs
        exact ih s1 (h.step h1).1 (freed_keeps h1 hf) hs
  obtain ⟨h1, h2⟩ := more sched s h.inv hf hs
  rcases freed_iff h1 p with h3 | ⟨-, -, h3⟩
  · exact absurd h3 h2
  · exact h3

/-! ## Without threads -/

open Verif.Single (Manager Client Op Event Allowed)

/-- `fiftyoneDegreesResourceHandleDecUse`, resource.c:198-271, with the assert of line 234. -/
def decUse (m : Manager) (p : Nat) : UB Manager := do
  let m ← m.count p (-1)
  let h ← m.heap p
  if 0 ≤ h.inUse then
    if h.inUse = 0 ∧ m.active ≠ h.self then Single.freeHandle m h.self else some m
  else none

/-- `fiftyoneDegreesResourceHandleIncUse`, resource.c:273-305, with the assert of line 303. -/
def incUse (m : Manager) : UB (Manager × Option Nat) := do
  let a ← m.active
  let m ← m.count a 1
  let h ← m.heap a
  if 0 < h.inUse then some (m, h.self) else none

/-- `fiftyoneDegreesResourceReplace`, resource.c:323-355, with the asserts of lines 335 and 336. -/
def replace (m : Manager) (memory : Option Nat) (resource : Option Nat) : UB (Manager × Nat) := do
  let a ← m.active
  let _ ← m.heap a
  let (m, new) ← Single.setup m memory resource
  let h ← m.heap new
  if h.inUse = 0 ∧ h.self = some new then do
    let (m, old) ← incUse m
    let old ← old
    let m ← decUse { m with active := some new } old
    some (m, new)
  else none

/-- `fiftyoneDegreesResourceManagerFree`, resource.c:179-196, with the assert of line 186, which reads through `manager->active` before
that is compared with NULL. -/
def managerFree (m : Manager) (memory : Option Nat) : UB Manager := do
  let a ← m.active
  let h ← m.heap a
  if 0 ≤ h.inUse then do
    let (m, new) ← replace m memory none
    let _ ← m.heap new
    some { m with heap := Single.put m.heap new none }
  else none

/-- One call, with the asserts. -/
def call (c : Client) : Op → UB (Client × Event × Option Nat)
  | .get => do
    let (m, p) ← incUse c.m
    let q ← p
    let h ← m.heap q
    some (⟨m, q :: c.held, c.closed⟩, .got h.inst, p)
  | .release p => do
    let h ← c.m.heap p
    let m ← decUse c.m p
    some (⟨m, c.held.erase p, c.closed⟩, .released h.inst, none)
  | .replace memory resource => do
    let (m, p) ← replace c.m (some memory) resource
    some (⟨m, c.held, c.closed⟩, .installed resource, some p)
  | .free memory => do
    let m ← managerFree c.m (some memory)
    some (⟨m, c.held, true⟩, .closed, none)

theorem count_heap {m m' : Manager} {p : Nat} {v : Int} (h : m.count p v = some m') {k : Single.Handle} (hk : m.heap p = some k) :
    m'.heap p = some { k with inUse := k.inUse + v } := by
  simp only [Manager.count, hk, Option.bind_eq_bind, Option.bind_some, Single.add] at h
  split at h
  · cases h; simp
  · cases h

theorem decUse_same {m : Manager} {p : Nat} (h : ∀ k, m.heap p = some k → 0 < k.inUse) : decUse m p = Single.decUse m p := by
  simp only [decUse, Single.decUse, Option.bind_eq_bind]
  cases hc : m.count p (-1) with
  | none => rfl
  | some m' =>
    simp only [Option.bind_some]
    cases hk : m.heap p with
    | none => simp [Manager.count, hk] at hc
    | some k =>
      have := h k hk
      rw [count_heap hc hk]
      simp only [Option.bind_some]
      rw [if_pos (by omega)]

theorem incUse_same {m : Manager} (h : ∀ a k, m.active = some a → m.heap a = some k → 0 ≤ k.inUse) : incUse m = Single.incUse m := by
  simp only [incUse, Single.incUse, Option.bind_eq_bind]
  cases ha : m.active with
  | none => rfl
  | some a =>
    simp only [Option.bind_some]
    cases hc : m.count a 1 with
    | none => rfl
    | some m' =>
      simp only [Option.bind_some]
      cases hk : m.heap a with
      | none => simp [Manager.count, hk] at hc
      | some k =>
        have := h a k ha hk
        rw [count_heap hc hk]
        simp only [Option.bind_some]
        rw [if_pos (by omega)]

theorem replace_same {m : Manager} {memory : Nat} (r : Option Nat) (h : ∀ p k, m.heap p = some k → 0 ≤ k.inUse ∧ k.self = some p)
    (hn : m.heap memory = none) : replace m (some memory) r = Single.replace m (some memory) r := by
  simp only [replace, Single.replace, Option.bind_eq_bind]
  cases ha : m.active with
  | none => rfl
  | some a =>
    simp only [Option.bind_some]
    cases hk : m.heap a with
    | none => rfl
    | some k =>
      obtain ⟨h1, h2⟩ := h a k hk
      have hne : a ≠ memory := by rintro rfl; rw [hk] at hn; cases hn
      simp only [Option.bind_some, Single.setup, Option.bind_eq_bind, Single.put_same, if_true, and_self]
      rw [incUse_same (fun a' k' e1 e2 => by
        simp only [ha, Option.some.injEq] at e1
        subst e1
        simp only [Single.put_other hne] at e2
        exact (h a k' e2).1)]
      generalize hm : (⟨Single.put m.heap memory (some ⟨some memory, 0, r, m.insts⟩), some a, m.calls, m.insts + 1⟩ : Manager) = m1
      have hk1 : m1.heap a = some k := by rw [← hm]; simp only [Single.put_other hne]; exact hk
      have ha1 : m1.active = some a := by rw [← hm]
      simp only [Single.incUse, Option.bind_eq_bind, ha, ha1, Option.bind_some]
      cases hc : m1.count a 1 with
      | none => simp [hm, hc]
      | some m2 =>
        have hk2 := count_heap hc hk1
        simp only [hm, hc, hk2, Option.bind_some, h2]
        rw [decUse_same (fun k' e => by
          simp only [hk2, Option.some.injEq] at e
          subst e
          simp only; omega)]

/-- C101: in a build without threads no assert fails for a program that keeps to the contract: each call does what it does without
asserts. -/
theorem C101_single {r : Option Nat} {c : Client} {es : List Event} (h : Single.Reached r c es) {op : Op} (ha : Allowed c op) :
    call c op = Single.step c op := by
  obtain ⟨hv, -⟩ := h.inv
  have hall : ∀ p k, c.m.heap p = some k → 0 ≤ k.inUse ∧ k.self = some p := by
    intro p k hk
    obtain ⟨h1, h2, -⟩ := hv.handle p k hk
    exact ⟨by omega, h1⟩
  cases op with
  | get =>
    simp only [call, Single.step]
    rw [incUse_same fun a k _ hk => (hall a k hk).1]
  | release p =>
    simp only [call, Single.step]
    rw [decUse_same fun k hk => by
      have h2 := (hv.handle p k hk).2.1
      have h3 := List.count_pos_iff.2 (show p ∈ c.held from ha)
      omega]
  | replace memory resource =>
    simp only [call, Single.step]
    rw [replace_same resource hall ha.2.2]
  | free memory =>
    cases hc : (Single.books r es).cur with
    | none => have := (hv.over hc).1; rw [ha.1] at this; cases this
    | some i =>
      obtain ⟨-, a, k, e1, hk, -⟩ := hv.cur i hc
      have h0 := (hall a k hk).1
      simp only [call, Single.step, managerFree, Single.managerFree, e1, hk, Option.bind_eq_bind, Option.bind_some, h0, if_true,
        replace_same none hall ha.2.2]

/-- C101: so each allowed call comes to its end. -/
theorem C101_single_ends {r : Option Nat} {c : Client} {es : List Event} (h : Single.Reached r c es) {op : Op} (ha : Allowed c op) :
    (call c op).isSome := by
  rw [C101_single h ha]
  exact Single.C92_defined h ha

/-- C101: the asserts stop a program that gives back a handle nobody holds, where without them its count falls below zero. -/
theorem C101_caught {r : Option Nat} {c : Client} {es : List Event} (h : Single.Reached r c es) {p : Nat} (hp : p ∉ c.held) :
    call c (.release p) = none := by
  obtain ⟨hv, -⟩ := h.inv
  simp only [call, Option.bind_eq_bind]
  cases hk : c.m.heap p with
  | none => rfl
  | some k =>
    have h2 := (hv.handle p k hk).2.1
    rw [List.count_eq_zero_of_not_mem hp] at h2
    have : decUse c.m p = none := by
      simp only [decUse, Option.bind_eq_bind]
      cases hc : c.m.count p (-1) with
      | none => rfl
      | some m =>
        simp only [count_heap hc hk, Option.bind_some]
        rw [if_neg (by omega)]
    simp [this]

/-- C101 does not hold of a manager with nothing to free: the assert of `ResourceManagerFree` reads through the pointer that the
next line compares with NULL. Without asserts the call does nothing. -/
theorem C101_null_violated (m : Manager) (h : m.active = none) (memory : Option Nat) :
    managerFree m memory = none ∧ Single.managerFree m memory = some m := by
  simp [managerFree, Single.managerFree, h]

/-! ## Examples -/

/-- One thread gets, replaces and releases; the manager is freed at the end. -/
example : ((exec (start 1) ([(0, .callGet)] ++ List.replicate 5 (0, .run) ++ [(0, .callReplace)] ++ List.replicate 9 (0, .run) ++
    [(0, .callRelease 0)] ++ List.replicate 5 (0, .run) ++ [(0, .callFree)])).map fun s => (s.freed 0, s.freed 1, s.active)) =
    some (1, 0, 1) := by decide +kernel

/-- Calls one after the other. -/
def callAll (c : Client) : List Op → Option (List Event)
  | [] => some []
  | op :: ops => do
    let (c, e, _) ← call c op
    let es ← callAll c ops
    some (e :: es)

/-- The calls from a manager at address 10 for the resource 100. -/
def calls (ops : List Op) : Option (List Event) := do
  let m ← Single.init (some 10) (some 100)
  callAll ⟨m, [], false⟩ ops

example : calls [.get, .get, .replace 20 (some 200), .get, .release 10, .release 10, .free 30, .release 20] =
    some [.got 0, .got 0, .installed (some 200), .got 1, .released 0, .released 0, .closed, .released 1] := by decide +kernel

/-- One release too many. -/
example : calls [.get, .release 10, .release 10] = none := by decide +kernel

example : calls [.get, .release 10] = some [.got 0, .released 0] := by decide +kernel

/-- A state with two handles held, where all the calls are allowed. -/
example : ∃ c es, Single.Reached (some 100) c es ∧ c.held = [20, 10] ∧ Allowed c (.release 10) ∧ Allowed c .get ∧
    Allowed c (.replace 30 none) ∧ Allowed c (.free 30) ∧ 30 ∉ c.held := by
  obtain ⟨m, hm⟩ : ∃ m, Single.init (some 10) (some 100) = some m := ⟨_, rfl⟩
  have r0 := Single.Reached.start hm
  simp only [Single.init, Single.setup, Option.bind_eq_bind, Option.bind_some, Option.some.injEq] at hm
  subst hm
  have r1 := r0.step (op := .get) ⟨rfl, by simp⟩ rfl
  have r2 := r1.step (op := .replace 20 (some 200)) ⟨rfl, by simp, rfl⟩ rfl
  have r3 := r2.step (op := .get) ⟨rfl, by simp, ⟩ rfl
  exact ⟨_, _, r3, rfl, by simp [Allowed], ⟨rfl, by simp⟩, ⟨rfl, by simp, rfl⟩, ⟨rfl, by simp, rfl⟩, by simp⟩

end Verif.Resource.Debug
