import Verif.Resource.Lemmas
import Mathlib.Data.List.Induction

/-! # Properties of the resource manager: C11, C12 -/

namespace Verif.Resource

/-- A state reached by some schedule of some number of threads after the manager was initialised. -/
def Reached (s : State) : Prop := ∃ n sched, exec (start n) sched = some s

theorem Inv.exec : ∀ {sched : Schedule} {s s' : State}, Inv s → exec s sched = some s' → Inv s' := by
  intro sched
  induction sched with
  | nil => intro s s' h he; cases he; exact h
  | cons c rest ih =>
    obtain ⟨t, a⟩ := c
    intro s s' h he
    simp only [Resource.exec, Option.bind_eq_bind] at he
    cases hs : Resource.step s t a with
    | none => simp [hs] at he
    | some q =>
      obtain ⟨s1, r⟩ := q
      simp only [hs, Option.bind_some] at he
      exact ih (h.step hs).1 he

theorem Reached.inv {s : State} (h : Reached s) : Inv s := by
  obtain ⟨n, sched, he⟩ := h
  exact (start_inv n).exec he

theorem freed_iff {s : State} (h : Inv s) (p : Nat) : s.freed p = 0 ∨ (s.freed p = 1 ∧ refs s p = 0 ∧ p ≠ s.active) := by
  cases hw : s.was p with
  | false => exact .inl (h.notWas p hw).2
  | true =>
    rcases h.cnt p hw with ⟨-, h1⟩ | ⟨-, h1, h2, h3⟩
    · exact .inl h1
    · exact .inr ⟨h2, h1, h3⟩

/-- C11: in every state reached by any schedule of any number of threads, no resource was freed more than once, no resource that
someone has got and not released was freed, nor one a call in progress still counts as used, nor the active one. (Partial: the
handles' own memory is accessed after it was freed, see below; here it keeps its contents.) Missing: see
`C11_useAfterFree_violated` and `C11_releaseRead_violated`. -/
theorem C11_safe_partial {s : State} (h : Reached s) :
    (∀ p, s.freed p ≤ 1) ∧ (∀ p, 0 < s.held p → s.freed p = 0) ∧
    (∀ (pc : Pc) (p : Nat), pc ∈ s.pcs → pc.uses = some p → s.freed p = 0) ∧ s.freed s.active = 0 := by
  have hi := h.inv
  refine ⟨fun p => ?_, fun p hp => ?_, fun pc p hm hu => ?_, ?_⟩
  · rcases freed_iff hi p with h1 | ⟨h1, -⟩ <;> omega
  · rcases freed_iff hi p with h1 | ⟨-, h1, -⟩
    · exact h1
    · simp only [refs] at h1; omega
  · rcases freed_iff hi p with h1 | ⟨-, h1, -⟩
    · exact h1
    · obtain ⟨i, hi', rfl⟩ := List.getElem_of_mem hm
      have := refs_pos (List.getElem?_eq_getElem hi') hu
      omega
  · rcases freed_iff hi s.active with h1 | ⟨-, -, h1⟩
    · exact h1
    · exact absurd rfl h1

/-- C11: what a get returns has not been freed, and it is counted as held from then on. Missing: a get that gives NULL, see
`C11_null_violated`. -/
theorem C11_got_partial {s s' : State} (h : Reached s) {t : Nat} {a : Act} {p : Nat}
    (hs : step s t a = some (s', .got (some p))) :
    s.freed p = 0 ∧ s'.freed p = 0 ∧ s'.held = set s.held p (s.held p + 1) := by
  have hi := h.inv
  obtain ⟨h1, h2⟩ := hi.step hs
  have h3 : s.was p = true ∧ s'.held = set s.held p (s.held p + 1) ∧ s.freed p = 0 := by
    cases a with
    | callRelease q =>
      simp only [step, Option.bind_eq_bind] at hs
      cases ht : s.pcs[t]? with
      | none => simp [ht] at hs
      | some pc =>
        simp only [ht, Option.bind_some] at hs
        split at hs <;> simp at hs
    | _ => exact h2
  refine ⟨h3.2.2, ?_, h3.2.1⟩
  rcases freed_iff h1 p with h4 | ⟨-, h4, -⟩
  · exact h4
  · simp only [refs, h3.2.1, set_self] at h4; omega

/-- All calls have returned. -/
def Quiet (s : State) : Prop := ∀ pc ∈ s.pcs, pc = Pc.idle

/-- C12: when no call is in progress, every resource that was active once, has been replaced and is not held by anybody has been
freed, once. Missing: replacements that overlap, see `C12_lost_violated`. -/
theorem C12_freed_partial {s : State} (h : Reached s) (hq : Quiet s) {p : Nat} (hw : s.was p = true)
    (ha : p ≠ s.active) (hh : s.held p = 0) : s.freed p = 1 := by
  have hi := h.inv
  rcases freed_iff hi p with h1 | ⟨h1, -⟩
  · exfalso
    rcases hi.live p hw ha h1 with h2 | ⟨pc, d, hm, hl⟩
    · have : s.pcs.countP (fun pc => pc.uses = some p) = 0 := by
        rw [List.countP_eq_zero]
        intro pc hm
        simp [hq pc hm, Pc.uses]
      simp only [refs, this, hh] at h2
      omega
    · rw [hq pc hm] at hl; cases hl
  · exact h1

/-! ## What a get returns -/

/-- The state of a thread. -/
theorem step_pc {s s' : State} {u : Nat} {a : Act} {r : Ret} (h : step s u a = some (s', r)) :
    ∃ old new, s.pcs[u]? = some old ∧ s'.pcs = s.pcs.set u new := by
  simp only [step, Option.bind_eq_bind] at h
  cases ht : s.pcs[u]? with
  | none => simp [ht] at h
  | some pc =>
    refine ⟨pc, ?_⟩
    simp only [ht, Option.bind_some] at h
    cases a with
    | callGet | callRelease | callReplace | callFree =>
      simp only at h
      split at h
      · simp at h; rw [← h.1]; exact ⟨_, rfl, rfl⟩
      · simp at h
    | run =>
      cases pc with
      | swap c old =>
        cases c <;> simp only [access, reduceCtorEq, Option.some.injEq, Prod.mk.injEq] at h
        · rw [← h.1]; exact ⟨.dec (.replace _) old, rfl, by split <;> rfl⟩
        · rw [← h.1]; exact ⟨.dec (.free _) old, rfl, by split <;> rfl⟩
      | incAddr c compare a =>
        simp only [access] at h
        split at h
        · split at h <;> simp at h <;> (rw [← h.1]; exact ⟨_, rfl, rfl⟩)
        · simp at h; rw [← h.1]; exact ⟨_, rfl, rfl⟩
      | decRead c p compare =>
        simp only [access] at h
        split at h
        · split at h <;> simp at h <;> (rw [← h.1]; exact ⟨_, rfl, rfl⟩)
        · simp at h; rw [← h.1]; exact ⟨_, rfl, rfl⟩
      | decFree c p d =>
        simp only [access] at h
        split at h
        · simp at h
        · split at h <;> simp at h <;> (rw [← h.1]; exact ⟨_, rfl, rfl⟩)
      | decCheck c p d =>
        simp only [access] at h
        split at h <;> simp at h <;> (rw [← h.1]; exact ⟨_, rfl, rfl⟩)
      | idle => simp [access] at h
      | _ => simp [access] at h; rw [← h.1]; exact ⟨_, rfl, rfl⟩

theorem step_other {s s' : State} {t u : Nat} {a : Act} {r : Ret} (h : step s u a = some (s', r)) (hne : t ≠ u) :
    s'.pcs[t]? = s.pcs[t]? := by
  obtain ⟨old, new, -, e⟩ := step_pc h
  rw [e, List.getElem?_set_ne (Ne.symm hne)]

theorem exec_append {s : State} {a b : Schedule} : exec s (a ++ b) = (exec s a).bind fun s => exec s b := by
  induction a generalizing s with
  | nil => rfl
  | cons c rest ih =>
    obtain ⟨t, x⟩ := c
    simp only [List.cons_append, exec, Option.bind_eq_bind]
    cases step s t x with
    | none => rfl
    | some q => simp [ih]

theorem step_addr {s s' : State} {u : Nat} {a : Act} {r : Ret} (h : step s u a = some (s', r)) {old new : Pc}
    (ho : s.pcs[u]? = some old) (hn : s'.pcs[u]? = some new) {x : Nat} (hx : new.addr = some x) :
    old.addr = some x ∨ s.active = x := by
  have hlt : u < s.pcs.length := (List.getElem?_eq_some_iff.1 ho).1
  have key : ∀ pc' : Pc, s'.pcs = s.pcs.set u pc' → new = pc' := by
    intro pc' e
    rw [e, List.getElem?_set_self hlt] at hn
    exact (Option.some.inj hn).symm
  simp only [step, ho, Option.bind_eq_bind, Option.bind_some] at h
  cases a with
  | callGet | callRelease | callReplace | callFree =>
    simp only at h
    split at h
    · simp at h; rw [key _ (by rw [← h.1]; rfl)] at hx; cases hx
    · simp at h
  | run =>
    cases old with
    | swap c old =>
      cases c <;> simp only [access, reduceCtorEq, Option.some.injEq, Prod.mk.injEq] at h
      · rw [key (.dec (.replace _) old) (by rw [← h.1]; split <;> rfl)] at hx; cases hx
      · rw [key (.dec (.free _) old) (by rw [← h.1]; split <;> rfl)] at hx; cases hx
    | incAddr c compare a =>
      simp only [access] at h
      split at h
      · split at h <;> simp at h <;> (rw [key _ (by rw [← h.1]; rfl)] at hx; cases hx)
      · simp at h; rw [key _ (by rw [← h.1]; rfl)] at hx; cases hx
    | decRead c p compare =>
      simp only [access] at h
      split at h
      · split at h <;> simp at h <;>
          (rw [key _ (by rw [← h.1]; rfl)] at hx; first | cases hx | (rw [afterDec_addr] at hx; cases hx))
      · simp at h; rw [key _ (by rw [← h.1]; rfl)] at hx; cases hx
    | decFree c p d =>
      simp only [access] at h
      split at h
      · simp at h
      · split at h <;> simp at h <;>
          (rw [key _ (by rw [← h.1]; rfl), afterDec_addr] at hx; cases hx)
    | decCheck c p d =>
      simp only [access] at h
      split at h <;> simp at h <;>
        (rw [key _ (by rw [← h.1]; rfl)] at hx; first | cases hx | (rw [afterDec_addr] at hx; cases hx))
    | idle => simp [access] at h
    | _ =>
      simp only [access, Option.some.injEq, Prod.mk.injEq] at h
      rw [key _ (by rw [← h.1]; rfl)] at hx
      first
        | exact .inl hx
        | exact .inr (by simpa [Pc.addr] using hx)
        | cases hx

/-- Whatever a thread has read from `manager->active` since it was idle was active at some moment since. -/
theorem read_since {s : State} {u : Nat} (hs : ∀ pc, s.pcs[u]? = some pc → pc.addr = none) :
    ∀ (sched : Schedule) (s' : State) (pc : Pc) (a : Nat), exec s sched = some s' → s'.pcs[u]? = some pc →
      pc.addr = some a → ∃ m1 m2 x, sched = m1 ++ m2 ∧ exec s m1 = some x ∧ x.active = a := by
  intro sched
  induction sched using List.reverseRecOn with
  | nil =>
    intro s' pc a he hp ha
    cases he
    rw [hs pc hp] at ha; cases ha
  | append_singleton l c ih =>
    obtain ⟨t, act⟩ := c
    intro s' pc a he hp ha
    rw [exec_append] at he
    cases h1 : exec s l with
    | none => simp [h1] at he
    | some s1 =>
      simp only [h1, Option.bind_some, exec, Option.bind_eq_bind] at he
      cases h2 : step s1 t act with
      | none => simp [h2] at he
      | some q =>
        obtain ⟨s2, r⟩ := q
        simp only [h2, Option.bind_some, Option.some.injEq] at he
        subst he
        have ext : (∃ m1 m2 x, l = m1 ++ m2 ∧ exec s m1 = some x ∧ x.active = a) →
            ∃ m1 m2 x, l ++ [(t, act)] = m1 ++ m2 ∧ exec s m1 = some x ∧ x.active = a := by
          rintro ⟨m1, m2, x, e, h3, h4⟩
          exact ⟨m1, m2 ++ [(t, act)], x, by rw [e, List.append_assoc], h3, h4⟩
        by_cases hut : u = t
        · subst hut
          obtain ⟨old, new, ho, -⟩ := step_pc h2
          rcases step_addr h2 ho hp ha with h3 | h3
          · exact ext (ih s1 old a h1 ho h3)
          · exact ⟨l, [(u, act)], s1, rfl, h1, h3⟩
        · rw [step_other h2 hut] at hp
          exact ext (ih s1 pc a h1 hp ha)

/-- The step in which a get returns a handle. -/
theorem got_incAddr {s s' : State} {u : Nat} {a : Act} {p : Nat} (h : step s u a = some (s', .got (some p))) :
    ∃ k b, s.pcs[u]? = some (.incAddr .user ⟨some p, k⟩ b) ∧ s.counter b = ⟨some p, k⟩ := by
  simp only [step, Option.bind_eq_bind] at h
  cases ht : s.pcs[u]? with
  | none => simp [ht] at h
  | some pc =>
    simp only [ht, Option.bind_some] at h
    have hafter : ∀ c, (afterDec c).2 ≠ .got (some p) := by intro c; cases c <;> simp [afterDec]
    cases a with
    | callGet | callRelease | callReplace | callFree =>
      simp only at h
      split at h <;> simp at h
    | run =>
      cases pc with
      | swap c old => cases c <;> simp [access] at h
      | incAddr c compare b =>
        simp only [access] at h
        split at h
        · rename_i hc
          obtain ⟨self, k⟩ := compare
          cases c <;> cases self <;> simp at h
          obtain ⟨-, rfl⟩ := h
          exact ⟨k, b, rfl, hc⟩
        · simp at h
      | decRead c q compare =>
        simp only [access] at h
        split at h
        · split at h <;> simp at h
          exact absurd h.2 (hafter c)
        · simp at h
      | decFree c q d =>
        simp only [access] at h
        split at h
        · simp at h
        · split at h <;> simp at h <;> exact absurd h.2 (hafter c)
      | decCheck c q d =>
        simp only [access] at h
        split at h <;> simp at h
        exact absurd h.2 (hafter c)
      | idle => simp [access] at h
      | _ => simp [access] at h

/-- C12: whatever other threads do meanwhile, the resource a get returns was the active one at some moment between the call and
the return. Missing: a get that gives NULL, see `C11_null_violated`. -/
theorem C12_recent_partial {s s1 s2 s3 : State} (h : Reached s) {u : Nat} {r : Ret} {mid : Schedule} {a : Act} {p : Nat}
    (hcall : step s u .callGet = some (s1, r)) (hmid : exec s1 mid = some s2)
    (hret : step s2 u a = some (s3, .got (some p))) :
    ∃ m1 m2 x, mid = m1 ++ m2 ∧ exec s1 m1 = some x ∧ x.active = p := by
  have hi1 := (h.inv.step hcall).1
  have hi2 := hi1.exec hmid
  obtain ⟨k, b, h1, h2⟩ := got_incAddr hret
  have hb : s2.was b = true := hi2.addr _ b (mem_of_getElem? h1) rfl
  have hpb : b = p := by
    rcases hi2.cnt b hb with ⟨h3, -⟩ | ⟨h3, -⟩
    · rw [h2] at h3; simpa using (congrArg Counter.self h3).symm
    · rw [h2] at h3; cases h3
  subst hpb
  refine read_since ?_ mid s2 _ b hmid h1 rfl
  intro pc hpc
  simp only [step, Option.bind_eq_bind] at hcall
  cases ht : s.pcs[u]? with
  | none => simp [ht] at hcall
  | some old =>
    simp only [ht, Option.bind_some] at hcall
    split at hcall
    · simp at hcall
      have hlt : u < s.pcs.length := (List.getElem?_eq_some_iff.1 ht).1
      rw [← hcall.1] at hpc
      simp only [State.goto, List.getElem?_set_self hlt, Option.some.injEq] at hpc
      rw [← hpc]; rfl
    · simp at hcall

/-! ## What a replace installs -/

/-- No thread but `t` is replacing the resource or freeing the manager. -/
def Sole (t : Nat) (s : State) : Prop := ∀ (u : Nat) (pc : Pc), u ≠ t → s.pcs[u]? = some pc → pc.new = none

/-- No further replacement or free starts. -/
def NoReplace (sched : Schedule) : Prop := ∀ c ∈ sched, c.2 ≠ .callReplace ∧ c.2 ≠ .callFree

theorem step_noNew {s s' : State} {u : Nat} {a : Act} {r : Ret} (h : step s u a = some (s', r)) {old : Pc}
    (ho : s.pcs[u]? = some old) (hnew : old.new = none) (ha : a ≠ .callReplace ∧ a ≠ .callFree) :
    s'.active = s.active ∧ ∃ new, s'.pcs = s.pcs.set u new ∧ new.new = none := by
  simp only [step, ho, Option.bind_eq_bind, Option.bind_some] at h
  cases a with
  | callReplace => exact absurd rfl ha.1
  | callFree => exact absurd rfl ha.2
  | callGet | callRelease =>
    simp only at h
    split at h
    · simp at h; rw [← h.1]; exact ⟨rfl, _, rfl, rfl⟩
    · simp at h
  | run =>
    cases old with
    | swap c old => cases c <;> simp [access, Pc.new, Ctx.new] at h hnew
    | incAddr c compare a =>
      have hc : c = .user := by cases c <;> simp_all [Pc.new, Ctx.new]
      subst hc
      simp only [access] at h
      split at h
      · obtain ⟨self, k⟩ := compare
        cases self <;> simp at h <;> (rw [← h.1]; exact ⟨rfl, _, rfl, rfl⟩)
      · simp at h; rw [← h.1]; exact ⟨rfl, _, rfl, rfl⟩
    | decRead c p compare =>
      simp only [access] at h
      split at h
      · split at h <;> simp at h <;> (rw [← h.1]; exact ⟨rfl, _, rfl, by first | rfl | exact afterDec_new c⟩)
      · simp at h; rw [← h.1]; exact ⟨rfl, _, rfl, rfl⟩
    | decFree c p d =>
      simp only [access] at h
      split at h
      · simp at h
      · split at h <;> simp at h <;> (rw [← h.1]; exact ⟨rfl, _, rfl, afterDec_new c⟩)
    | decCheck c p d =>
      simp only [access] at h
      split at h <;> simp at h <;> (rw [← h.1]; exact ⟨rfl, _, rfl, by first | rfl | exact afterDec_new c⟩)
    | idle => simp [access] at h
    | _ => simp [access] at h; rw [← h.1]; exact ⟨rfl, _, rfl, hnew⟩

/-- During the only replacement: the new handle is still to be made active, and the thread works on the handle that
is active, or it is active. -/
def During (t n a0 : Nat) (s : State) : Prop :=
  Sole t s ∧ ∃ pc, s.pcs[t]? = some pc ∧
    ((pc.new = some n ∧ s.active = a0 ∧ (∀ a, pc.addr = some a → a = a0) ∧ (∀ p, pc.uses = some p → p = a0)) ∨
     (pc.new = none ∧ s.active = n))

theorem Sole.set {t u : Nat} {s s' : State} (h : Sole t s) {new old : Pc} (ho : s.pcs[u]? = some old)
    (hp : s'.pcs = s.pcs.set u new) (hnew : u ≠ t → new.new = none) : Sole t s' := by
  intro i pc hi hpc
  rw [hp] at hpc
  rcases getElem?_set' ho hpc with ⟨rfl, rfl⟩ | ⟨-, h1⟩
  · exact hnew hi
  · exact h i pc hi h1

theorem During.step {t n a0 u : Nat} {s s' : State} {a : Act} {r : Ret} (hi : Inv s) (h : During t n a0 s)
    (hs : step s u a = some (s', r)) (ha : a ≠ .callReplace ∧ a ≠ .callFree) : During t n a0 s' := by
  obtain ⟨hsole, pc, hpc, h⟩ := h
  by_cases hut : u = t
  · subst hut
    have hlt : u < s.pcs.length := (List.getElem?_eq_some_iff.1 hpc).1
    rcases h with ⟨h1, h2, h3, h4⟩ | ⟨h1, h2⟩
    · -- the thread has not swapped yet
      have build : ∀ new : Pc, s'.pcs = s.pcs.set u new → s'.active = a0 → new.new = some n →
          (∀ a, new.addr = some a → a = a0) → (∀ p, new.uses = some p → p = a0) → During u n a0 s' := by
        intro new e1 e2 e3 e4 e5
        exact ⟨hsole.set hpc e1 (fun h => absurd rfl h), new, by rw [e1, List.getElem?_set_self hlt],
          .inl ⟨e3, e2, e4, e5⟩⟩
      simp only [Resource.step, hpc, Option.bind_eq_bind, Option.bind_some] at hs
      cases a with
      | callReplace => exact absurd rfl ha.1
      | callFree => exact absurd rfl ha.2
      | callGet | callRelease =>
        simp only at hs
        split at hs
        · rename_i hidle
          rw [hidle.1] at h1; cases h1
        · simp at hs
      | run =>
        cases pc with
        | inc c =>
          simp only [access, Option.some.injEq, Prod.mk.injEq] at hs
          refine build (.incActive c s.active) (by rw [← hs.1]; rfl) (by rw [← hs.1]; exact h2) h1 ?_ ?_
          · intro a e; simp [Pc.addr] at e; rw [← e]; exact h2
          · intro p e; cases e
        | incActive c a =>
          simp only [access, Option.some.injEq, Prod.mk.injEq] at hs
          exact build (.incSelf c a _) (by rw [← hs.1]; rfl) (by rw [← hs.1]; exact h2) h1 h3 (fun p e => by cases e)
        | incSelf c a self =>
          simp only [access, Option.some.injEq, Prod.mk.injEq] at hs
          exact build (.incRead c _) (by rw [← hs.1]; rfl) (by rw [← hs.1]; exact h2) h1 (fun a e => by cases e)
            (fun p e => by cases e)
        | incRead c compare =>
          simp only [access, Option.some.injEq, Prod.mk.injEq] at hs
          refine build (.incAddr c compare s.active) (by rw [← hs.1]; rfl) (by rw [← hs.1]; exact h2) h1 ?_ ?_
          · intro a e; simp [Pc.addr] at e; rw [← e]; exact h2
          · intro p e; cases e
        | incAddr c compare a =>
          have haa : a = a0 := h3 a rfl
          subst haa
          simp only [access] at hs
          split at hs
          · rename_i hcmp
            have hself : compare.self = some a := by
              have hw : s.was a = true := h2 ▸ hi.act
              rcases hi.cnt a hw with ⟨e, -⟩ | ⟨-, -, -, e⟩
              · rw [← hcmp, e]
              · exact absurd h2.symm e
            cases c with
            | user => cases h1
            | replace m | free m =>
              rw [hself] at hs
              simp at hs
              refine build (.swap _ a) (by rw [← hs.1]; rfl) (by rw [← hs.1]; exact h2) h1 (fun a e => by cases e) ?_
              intro p e; simpa [Pc.uses] using e.symm
          · simp at hs
            exact build (.inc c) (by rw [← hs.1]; rfl) (by rw [← hs.1]; exact h2) h1 (fun a e => by cases e)
              (fun p e => by cases e)
        | swap c old =>
          have hold : old = a0 := h4 old rfl
          subst hold
          cases c with
          | user => cases h1
          | replace m | free m =>
            simp only [Pc.new, Ctx.new, Option.some.injEq] at h1
            subst h1
            simp only [access, h2, if_true, Option.some.injEq, Prod.mk.injEq] at hs
            refine ⟨hsole.set hpc (new := .dec _ old) (by rw [← hs.1]; rfl) (fun h => absurd rfl h), .dec _ old,
              by rw [← hs.1]; simp only [State.goto, List.getElem?_set_self hlt]; rfl, .inr ⟨rfl, by rw [← hs.1]; rfl⟩⟩
        | _ => cases h1
    · obtain ⟨e1, new, e2, e3⟩ := step_noNew hs hpc h1 ha
      exact ⟨hsole.set hpc e2 (fun _ => e3), new, by rw [e2, List.getElem?_set_self hlt], .inr ⟨e3, by rw [e1, h2]⟩⟩
  · obtain ⟨old, -, ho, -⟩ := step_pc hs
    obtain ⟨e1, new, e2, e3⟩ := step_noNew hs ho (hsole u old hut ho) ha
    exact ⟨hsole.set ho e2 (fun _ => e3), pc, by rw [step_other hs (Ne.symm hut)]; exact hpc, by rw [e1]; exact h⟩

theorem During.exec {t n a0 : Nat} : ∀ {sched : Schedule} {s s' : State}, Inv s → During t n a0 s →
    exec s sched = some s' → NoReplace sched → During t n a0 s' := by
  intro sched
  induction sched with
  | nil => intro s s' _ h he _; cases he; exact h
  | cons c rest ih =>
    obtain ⟨u, a⟩ := c
    intro s s' hi h he hn
    simp only [Resource.exec, Option.bind_eq_bind] at he
    cases hs : Resource.step s u a with
    | none => simp [hs] at he
    | some q =>
      obtain ⟨s1, r⟩ := q
      simp only [hs, Option.bind_some] at he
      exact ih (hi.step hs).1 (h.step hi hs (hn (u, a) (by simp))) he (fun c hc => hn c (by simp [hc]))

/-- C12: a replace that does not overlap another one installs its resource: when the call has returned, the new handle (number
`s.fresh`) is the active one, and stays it as long as nobody replaces it. Missing: replacements that overlap, see
`C12_lost_violated`. -/
theorem C12_installed_partial {s s1 s2 : State} (h : Reached s) {t : Nat} {r : Ret} {rest : Schedule}
    (hcall : step s t .callReplace = some (s1, r)) (hsole : Sole t s) (hrest : exec s1 rest = some s2)
    (hno : NoReplace rest) (hdone : s2.pcs[t]? = some .idle) : s2.active = s.fresh := by
  have hi1 := (h.inv.step hcall).1
  have hd : During t s.fresh s.active s1 := by
    simp only [step, Option.bind_eq_bind] at hcall
    cases ht : s.pcs[t]? with
    | none => simp [ht] at hcall
    | some old =>
      simp only [ht, Option.bind_some] at hcall
      split at hcall
      · simp at hcall
        have hlt : t < s.pcs.length := (List.getElem?_eq_some_iff.1 ht).1
        refine ⟨hsole.set ht (new := .inc (.replace s.fresh)) (by rw [← hcall.1]; rfl) (fun h => absurd rfl h),
          .inc (.replace s.fresh), ?_, .inl ⟨rfl, by rw [← hcall.1]; rfl, fun a e => (by cases e), fun p e => (by cases e)⟩⟩
        rw [← hcall.1]
        exact List.getElem?_set_self hlt
      · simp at hcall
  obtain ⟨-, pc, hpc, h1⟩ := hd.exec hi1 hrest hno
  rw [hdone] at hpc
  cases hpc
  rcases h1 with ⟨h1, -⟩ | ⟨-, h1⟩
  · cases h1
  · exact h1

/-- C12: a get that starts after such a replace has returned gives the new resource. Missing: replacements that overlap, see
`C12_lost_violated`. -/
theorem C12_later_partial {s s1 s2 s3 s4 s5 : State} (h : Reached s) {t u : Nat} {r r' : Ret} {a : Act} {p : Nat}
    {rest mid : Schedule}
    (hcall : step s t .callReplace = some (s1, r)) (hsole : Sole t s) (hrest : exec s1 rest = some s2)
    (hdone : s2.pcs[t]? = some .idle) (hget : step s2 u .callGet = some (s3, r')) (hmid : exec s3 mid = some s4)
    (hret : step s4 u a = some (s5, .got (some p))) (hno : NoReplace rest) (hno' : NoReplace mid) : p = s.fresh := by
  obtain ⟨n, sched, hs⟩ := h
  have hr2 : Reached s2 := ⟨n, sched ++ (t, .callReplace) :: rest, by simp [exec_append, hs, exec, hcall, hrest]⟩
  obtain ⟨m1, m2, x, hm, hx, hp⟩ := C12_recent_partial hr2 hget hmid hret
  rw [← hp]
  have hi1 := (Reached.inv ⟨n, sched, hs⟩ |>.step hcall).1
  have h2 := C12_installed_partial ⟨n, sched, hs⟩ hcall hsole hrest hno hdone
  -- from `s2` on the handle stays active
  have hd2 : During t s.fresh s.fresh s2 := by
    refine ⟨?_, .idle, hdone, .inr ⟨rfl, h2⟩⟩
    -- no other thread has begun to replace
    have hsole1 : Sole t s1 := by
      obtain ⟨old, new, ho, e⟩ := step_pc hcall
      exact hsole.set ho e (fun h => absurd rfl h)
    have : ∀ {l : Schedule} {s s' : State}, Sole t s → exec s l = some s' → NoReplace l → Sole t s' := by
      intro l
      induction l with
      | nil => intro s s' h he _; cases he; exact h
      | cons c l ih =>
        obtain ⟨v, b⟩ := c
        intro s s' h he hn
        simp only [exec, Option.bind_eq_bind] at he
        cases hb : step s v b with
        | none => simp [hb] at he
        | some q =>
          obtain ⟨s1, r⟩ := q
          simp only [hb, Option.bind_some] at he
          refine ih ?_ he (fun c hc => hn c (by simp [hc]))
          obtain ⟨old, new, ho, e⟩ := step_pc hb
          by_cases hv : v = t
          · exact h.set ho e (fun h => absurd hv h)
          · obtain ⟨-, new, e, e'⟩ := step_noNew hb ho (h v old hv ho) (hn (v, b) (by simp))
            exact h.set ho e (fun _ => e')
    exact this hsole1 hrest hno
  have hd3 := hd2.step hr2.inv hget (by simp)
  have hdx := hd3.exec (hr2.inv.step hget).1 hx (fun c hc => hno' c (by rw [hm]; simp [hc]))
  obtain ⟨-, pc, -, h6⟩ := hdx
  rcases h6 with ⟨-, h6, -⟩ | ⟨-, h6⟩ <;> exact h6

/-! ## Schedules -/

/-- `k` accesses of thread `t`. -/
def runs (t k : Nat) : Schedule := List.replicate k (t, .run)

/-- A get by thread `t` without interruption. -/
def get (t : Nat) : Schedule := (t, .callGet) :: runs t 5

/-- A replace by thread `t` without interruption, of a resource nobody uses. -/
def replace (t : Nat) : Schedule := (t, .callReplace) :: runs t 11

/-- C11, counterexample: between the read of `manager->active` and the read of the counter in it, resource.c:279,
another thread may replace and free the handle, so that freed memory is read. -/
theorem C11_useAfterFree_violated : (start 2).gone 0 = false ∧ ∃ s s' r, exec (start 2)
    ((0, .callGet) :: runs 0 1 ++ replace 1) = some s ∧ s.uaf = false ∧ s.gone 0 = true ∧
    step s 0 .run = some (s', r) ∧ s'.uaf = true := by
  refine ⟨rfl, _, _, _, rfl, ?_, ?_, rfl, ?_⟩ <;> decide +kernel

/-- C11, counterexample: between the decrement to zero and the read of `handle->manager->active`, resource.c:234-235,
another thread may replace and free the handle, so that the release reads freed memory. -/
theorem C11_releaseRead_violated : ∃ s s' r, exec (start 2)
    (get 0 ++ (0, .callRelease 0) :: runs 0 3 ++ replace 1) = some s ∧ s.uaf = false ∧ s.gone 0 = true ∧
    step s 0 .run = some (s', r) ∧ s'.uaf = true := by
  refine ⟨_, _, _, rfl, ?_, ?_, rfl, ?_⟩ <;> decide +kernel

/-- C11, counterexample: even when freed memory keeps its contents, two replacements during a get can make it return
NULL, which `fiftyoneDegreesDataSetGet` and `fiftyoneDegreesResourceReplace` use without a check. -/
theorem C11_null_violated : ∃ s s', exec (start 2)
    ((0, .callGet) :: runs 0 1 ++ replace 1 ++ runs 0 3 ++ replace 1) = some s ∧
    step s 0 .run = some (s', .got none) ∧ s'.active = 2 := by
  refine ⟨_, _, rfl, rfl, ?_⟩
  decide +kernel

/-- C12, counterexample: of two replacements at the same time one may be lost: its handle never becomes active,
although the call returns, and its resource is never freed. -/
theorem C12_lost_violated : ∃ s, exec (start 2)
    ((0, .callReplace) :: runs 0 5 ++ (1, .callReplace) :: runs 1 5 ++ runs 0 4 ++ runs 1 6) = some s ∧
    Quiet s ∧ s.active = 1 ∧ s.fresh = 3 ∧ s.was 2 = false ∧ s.freed 2 = 0 ∧ s.held 2 = 0 ∧ s.freed 0 = 1 := by
  refine ⟨_, rfl, ?_⟩
  unfold Quiet
  decide +kernel

/-- The hypotheses of the theorems are met: a get, a replace while the first resource is held, a second get of the new
resource, a release of the first, which frees it. -/
example : ∃ s, exec (start 2) (get 0 ++ (1, .callReplace) :: runs 1 9 ++ get 1 ++ (0, .callRelease 0) :: runs 0 5) =
    some s ∧ Quiet s ∧ s.active = 1 ∧ s.held 1 = 1 ∧ s.held 0 = 0 ∧ s.freed 0 = 1 ∧ s.freed 1 = 0 ∧ s.was 0 = true := by
  refine ⟨_, rfl, ?_⟩
  unfold Quiet
  decide +kernel

/-- Before the release the first resource is held and not freed. -/
example : ∃ s, exec (start 2) (get 0 ++ (1, .callReplace) :: runs 1 9 ++ get 1) =
    some s ∧ Quiet s ∧ s.active = 1 ∧ s.held 0 = 1 ∧ s.freed 0 = 0 := by
  refine ⟨_, rfl, ?_⟩
  unfold Quiet
  decide +kernel

/-- A replace interleaved with a get that returns the new resource. -/
example : ∃ s s', exec (start 2) ((1, .callReplace) :: runs 1 5 ++ (0, .callGet) :: runs 0 3 ++ runs 1 6 ++ runs 0 6) =
    some s ∧ Sole 1 (start 2) ∧ s.pcs[1]? = some .idle ∧ step s 0 .run = some (s', .got (some 1)) := by
  refine ⟨_, _, rfl, ?_, by decide +kernel, rfl⟩
  intro u pc _ h
  match u with
  | 0 => cases h; rfl
  | 1 => cases h; rfl
  | u + 2 => simp [start] at h

/-- A free of the manager while a resource is held: the release frees it. -/
example : ∃ s, exec (start 1) (get 0 ++ (0, .callFree) :: runs 0 10 ++ (0, .callRelease 0) :: runs 0 5) =
    some s ∧ Quiet s ∧ s.active = 1 ∧ s.closed = true ∧ s.freed 0 = 1 ∧ s.freed 1 = 0 ∧ s.gone 1 = true := by
  refine ⟨_, rfl, ?_⟩
  unfold Quiet
  decide +kernel

end Verif.Resource
