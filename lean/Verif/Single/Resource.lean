import Verif.Base
import Mathlib.Data.List.Basic
import Mathlib.Data.List.Count
import Mathlib.Data.List.Induction
import Mathlib.Data.List.Perm.Basic

/-! # The resource manager without threads (resource.c with `FIFTYONE_DEGREES_NO_THREADING`)

The branches of resource.c that are compiled without threading, over a memory in which a handle that was freed is gone:
reading or writing through a NULL pointer or a freed handle is undefined (`none`), as is an overflow of the signed
counter. The allocator may give any address that is not in use, so that addresses are used again. The asserts are
compiled out, as in release builds. There is one manager, whose own memory stays until the last handle was released;
the method which frees a resource is the same for all resources of a manager and only recorded. -/

namespace Verif.Single

/-! ## Model -/

/-- `fiftyoneDegreesResourceHandle`, resource.h:158-170, with the `Counter`, resource.c:86-89. Not stored: the manager,
as there is one, and the method to free the resource. `inst` is a ghost that no step depends on: the how many-th
resource of the manager this is. -/
structure Handle where
  self : Option Nat
  inUse : Int
  resource : Option Nat
  inst : Nat
deriving DecidableEq, Repr

/-- `fiftyoneDegreesResourceManager`, resource.h:175-184, and the memory around it: the handles by their address, and
the resources passed to `freeResource` so far, oldest first. `insts` is a ghost: how many resources were set up. -/
structure Manager where
  heap : Nat → Option Handle
  active : Option Nat
  calls : List (Option Nat)
  insts : Nat

/-- A write to one address. -/
def put (f : Nat → Option Handle) (p : Nat) (v : Option Handle) : Nat → Option Handle :=
  fun x => if x = p then v else f x

/-- `add`, resource.c:100-102: the sum, undefined when it does not fit an `int32_t`. -/
def add (n value : Int) : UB Int :=
  if -2 ^ 31 ≤ n + value ∧ n + value < 2 ^ 31 then some (n + value) else none

/-- `add(&handle->counter, value)` through a pointer, resource.c:231 and 300. -/
def Manager.count (m : Manager) (p : Nat) (value : Int) : UB Manager := do
  let h ← m.heap p
  let n ← add h.inUse value
  some { m with heap := put m.heap p (some { h with inUse := n }) }

/-- `setupResource`, resource.c:125-160, with what `MallocAligned` gives, which is written to without a check: the
memory and `*resourceHandle`. -/
def setup (m : Manager) (memory : Option Nat) (resource : Option Nat) : UB (Manager × Nat) := do
  let p ← memory
  some (⟨put m.heap p (some ⟨some p, 0, resource, m.insts⟩), m.active, m.calls, m.insts + 1⟩, p)

/-- `freeHandle`, resource.c:162-165. -/
def freeHandle (m : Manager) (handle : Option Nat) : UB Manager := do
  let p ← handle
  let h ← m.heap p
  some { m with heap := put m.heap p none, calls := m.calls ++ [h.resource] }

/-- `fiftyoneDegreesResourceManagerInit`, resource.c:167-177, in memory without handles. -/
def init (memory : Option Nat) (resource : Option Nat) : UB Manager := do
  let (m, p) ← setup ⟨fun _ => none, none, [], 0⟩ memory resource
  some { m with active := some p }

/-- `fiftyoneDegreesResourceHandleDecUse`, resource.c:198-271, the branches at 231-232 and 268. -/
def decUse (m : Manager) (p : Nat) : UB Manager := do
  let m ← m.count p (-1)
  let h ← m.heap p
  if h.inUse = 0 ∧ m.active ≠ h.self then freeHandle m h.self else some m

/-- `fiftyoneDegreesResourceHandleIncUse`, resource.c:273-305, the branch at 300-301: the memory and the handle. -/
def incUse (m : Manager) : UB (Manager × Option Nat) := do
  let a ← m.active
  let m ← m.count a 1
  let h ← m.heap a
  some (m, h.self)

/-- `fiftyoneDegreesResourceHandleGetUse`, resource.c:307-315. -/
def getUse (m : Manager) : Option Nat → UB Int
  | none => some 0
  | some p => (m.heap p).map (·.inUse)

/-- `fiftyoneDegreesResourceReplace`, resource.c:323-355, the branch at 349-350: the memory and the new handle. -/
def replace (m : Manager) (memory : Option Nat) (resource : Option Nat) : UB (Manager × Nat) := do
  let a ← m.active
  let _ ← m.heap a
  let (m, new) ← setup m memory resource
  let (m, old) ← incUse m
  let old ← old
  let m ← decUse { m with active := some new } old
  some (m, new)

/-- `fiftyoneDegreesResourceManagerFree`, resource.c:179-196. The manager still has the address of the handle that was
freed last. -/
def managerFree (m : Manager) (memory : Option Nat) : UB Manager :=
  match m.active with
  | none => some m
  | some _ => do
    let (m, new) ← replace m memory none
    let _ ← m.heap new
    some { m with heap := put m.heap new none }

/-! ## The program using it -/

/-- The manager and what the program has: the handles it got and has not released, and whether it freed the manager. -/
structure Client where
  m : Manager
  held : List Nat
  closed : Bool

/-- A call, with the address the allocator gives where a handle is allocated. -/
inductive Op where
  /-- `ResourceHandleIncUse`. -/
  | get
  /-- `ResourceHandleDecUse`. -/
  | release (p : Nat)
  /-- `ResourceReplace`. -/
  | replace (memory : Nat) (resource : Option Nat)
  /-- `ResourceManagerFree`. -/
  | free (memory : Nat)
deriving DecidableEq, Repr

/-- What happened, for the books kept below. -/
inductive Event where
  | got (i : Nat)
  | released (i : Nat)
  | installed (resource : Option Nat)
  | closed
deriving DecidableEq, Repr

/-- One call: the state after it, what happened and the handle that was returned. -/
def step (c : Client) : Op → UB (Client × Event × Option Nat)
  | .get => do
    let (m, p) ← incUse c.m
    let q ← p
    let h ← m.heap q
    some (⟨m, q :: c.held, c.closed⟩, .got h.inst, p)
  | .release p => do
    let h ← c.m.heap p
    let m ← decUse c.m p
    some (⟨m, c.held.erase p, c.closed⟩, .released h.inst, none)
  | .replace memory resource => do
    let (m, p) ← replace c.m (some memory) resource
    some (⟨m, c.held, c.closed⟩, .installed resource, some p)
  | .free memory => do
    let m ← managerFree c.m (some memory)
    some (⟨m, c.held, true⟩, .closed, none)

/-! ## Specification -/

/-- The calls a program may make: it releases what it has, it does not use the manager after freeing it other than to
release, and has fewer than 2147483647 handles at once. The allocator gives memory that is not in use. -/
def Allowed (c : Client) : Op → Prop
  | .get => c.closed = false ∧ c.held.length < 2 ^ 31 - 1
  | .release p => p ∈ c.held
  | .replace memory _ => c.closed = false ∧ c.held.length < 2 ^ 31 - 1 ∧ c.m.heap memory = none
  | .free memory => c.closed = false ∧ c.held.length < 2 ^ 31 - 1 ∧ c.m.heap memory = none

/-- The states a program can reach from a manager for the resource `r`, with what happened on the way. -/
inductive Reached (r : Option Nat) : Client → List Event → Prop
  | start {memory : Nat} {m : Manager} : init (some memory) r = some m → Reached r ⟨m, [], false⟩ []
  | step {c c' : Client} {es : List Event} {op : Op} {e : Event} {x : Option Nat} :
    Reached r c es → Allowed c op → step c op = some (c', e, x) → Reached r c' (es ++ [e])

/-- The books of a shared resource. Resources are numbered in the order they were installed. -/
structure Books where
  /-- The resource now in use. -/
  cur : Option Nat
  /-- For each use that was not given back, which resource it is of. -/
  users : List Nat
  /-- The resources installed. -/
  resources : List (Option Nat)
  /-- The resources given back, in order. -/
  freed : List Nat
deriving DecidableEq, Repr

/-- A resource is given back when it is neither in use nor the one to be used. -/
def Books.retire (b : Books) (i : Nat) : Books :=
  if i ∈ b.users ∨ b.cur = some i then b else { b with freed := b.freed ++ [i] }

/-- The same when there is a resource. -/
def Books.retireCur (b : Books) : Option Nat → Books
  | none => b
  | some i => b.retire i

/-- What each event does to the books. -/
def Books.on (b : Books) : Event → Books
  | .got i => { b with users := i :: b.users }
  | .released i => Books.retire { b with users := b.users.erase i } i
  | .installed r =>
    Books.retireCur { b with cur := some b.resources.length, resources := b.resources ++ [r] } b.cur
  | .closed => Books.retireCur { b with cur := none } b.cur

/-- The books after what happened. -/
def books (r : Option Nat) (es : List Event) : Books := es.foldl Books.on ⟨some 0, [], [r], []⟩

/-! ## Invariant -/

@[simp] theorem put_same (f p v) : put f p v p = v := by simp [put]
theorem put_other {f p v q} (h : q ≠ p) : put f p v q = f q := by simp [put, h]

/-- What the books say about the memory. -/
structure Inv (c : Client) (b : Books) : Prop where
  handle : ∀ p h, c.m.heap p = some h → h.self = some p ∧ h.inUse = c.held.count p ∧
    b.users.count h.inst = c.held.count p ∧ b.resources[h.inst]? = some h.resource ∧
    (h.inst ∈ b.users ∨ b.cur = some h.inst)
  inj : ∀ p q h k, c.m.heap p = some h → c.m.heap q = some k → h.inst = k.inst → p = q
  held : ∀ p ∈ c.held, ∃ h, c.m.heap p = some h
  users : ∀ i ∈ b.users, ∃ p h, c.m.heap p = some h ∧ h.inst = i
  cur : ∀ i, b.cur = some i → c.closed = false ∧ ∃ a h, c.m.active = some a ∧ c.m.heap a = some h ∧ h.inst = i
  over : b.cur = none → c.closed = true ∧ ∀ p h, c.m.heap p = some h → c.m.active ≠ some p
  insts : c.closed = false → c.m.insts = b.resources.length
  calls : c.m.calls.map some = b.freed.map (b.resources[·]?)
  all : ∀ i, i < b.resources.length ↔ i ∈ b.freed ∨ i ∈ b.users ∨ b.cur = some i
  nodup : b.freed.Nodup
  apart : ∀ i ∈ b.freed, i ∉ b.users ∧ b.cur ≠ some i

theorem put_put (f : Nat → Option Handle) (p v w) : put (put f p v) p w = put f p w := by
  funext x; simp only [put]; split <;> rfl

theorem put_comm {f : Nat → Option Handle} {p q} (v w) (h : p ≠ q) :
    put (put f p v) q w = put (put f q w) p v := by
  funext x; simp only [put]; split <;> split <;> simp_all

theorem put_none {f : Nat → Option Handle} {p} (h : f p = none) : put f p none = f := by
  funext x; simp only [put]; split <;> simp_all

/-- `decUse` of a sound handle. -/
theorem decUse_eq {m : Manager} {p : Nat} {h : Handle} (hp : m.heap p = some h) (hs : h.self = some p)
    (lo : 0 < h.inUse) (hi : h.inUse < 2 ^ 31) :
    decUse m p = some (if h.inUse = 1 ∧ m.active ≠ some p
      then ⟨put m.heap p none, m.active, m.calls ++ [h.resource], m.insts⟩
      else ⟨put m.heap p (some ⟨h.self, h.inUse - 1, h.resource, h.inst⟩), m.active, m.calls, m.insts⟩) := by
  have e : add h.inUse (-1) = some (h.inUse - 1) := by
    simp only [add]; rw [if_pos (by omega)]; rfl
  simp only [decUse, Manager.count, hp, Option.bind_eq_bind, Option.bind_some, e, put_same]
  by_cases hc : h.inUse = 1 ∧ m.active ≠ some p
  · rw [if_pos ⟨by omega, by rw [hs]; exact hc.2⟩, if_pos hc]
    simp [freeHandle, hs, put_put]
  · rw [if_neg (by rw [hs]; exact fun hh => hc ⟨by omega, hh.2⟩), if_neg hc]

/-- `incUse` with a sound active handle. -/
theorem incUse_eq {m : Manager} {a : Nat} {h : Handle} (ha : m.active = some a) (hp : m.heap a = some h)
    (hs : h.self = some a) (lo : 0 ≤ h.inUse) (hi : h.inUse < 2 ^ 31 - 1) :
    incUse m =
      some (⟨put m.heap a (some ⟨h.self, h.inUse + 1, h.resource, h.inst⟩), m.active, m.calls, m.insts⟩, some a) := by
  have e : add h.inUse 1 = some (h.inUse + 1) := by
    simp only [add]; rw [if_pos (by omega)]
  simp [incUse, Manager.count, ha, hp, e, hs]

theorem count_erase' (l : List Nat) (i j : Nat) (h : i ∈ l) :
    (l.erase i).count j = if j = i then l.count j - 1 else l.count j := by
  rw [List.count_erase]
  by_cases e : j = i
  · subst e; simp
  · rw [if_neg e, if_neg (by simpa using fun e' => e e'.symm)]; rfl

/-- One use more of the active handle. -/
theorem Inv.inc {c : Client} {b : Books} (hv : Inv c b) {a : Nat} {h : Handle} (ha : c.m.active = some a)
    (hp : c.m.heap a = some h) :
    Inv ⟨⟨put c.m.heap a (some ⟨h.self, h.inUse + 1, h.resource, h.inst⟩), c.m.active, c.m.calls, c.m.insts⟩,
      a :: c.held, c.closed⟩ (b.on (.got h.inst)) := by
  have hh := hv.handle a h hp
  refine ⟨?_, ?_, ?_, ?_, ?_, ?_, hv.insts, hv.calls, ?_, hv.nodup, ?_⟩
  · intro p k hk
    by_cases e : p = a
    · subst e
      simp only [put_same, Option.some.injEq] at hk
      subst hk
      refine ⟨hh.1, ?_, ?_, hh.2.2.2.1, .inl (by simp [Books.on])⟩
      · simp [hh.2.1]
      · simp [Books.on, hh.2.2.1]
    · simp only [put_other e] at hk
      have hk' := hv.handle p k hk
      have ne : h.inst ≠ k.inst := fun e' => e (hv.inj _ _ _ _ hp hk e').symm
      refine ⟨hk'.1, ?_, ?_, hk'.2.2.2.1, ?_⟩
      · rw [hk'.2.1, List.count_cons_of_ne (Ne.symm e)]
      · simp only [Books.on]
        rw [List.count_cons_of_ne ne, List.count_cons_of_ne (Ne.symm e)]
        exact hk'.2.2.1
      · rcases hk'.2.2.2.2 with h1 | h1
        · exact .inl (by simp [Books.on, h1])
        · exact .inr h1
  · intro p q h1 k1 e1 e2 e3
    have get : ∀ p h1, put c.m.heap a (some ⟨h.self, h.inUse + 1, h.resource, h.inst⟩) p = some h1 →
        ∃ h2, c.m.heap p = some h2 ∧ h2.inst = h1.inst := by
      intro p h1 e
      by_cases e' : p = a
      · subst e'; simp at e; subst e; exact ⟨h, hp, rfl⟩
      · rw [put_other e'] at e; exact ⟨h1, e, rfl⟩
    obtain ⟨h2, a1, a2⟩ := get _ _ e1
    obtain ⟨k2, b1, b2⟩ := get _ _ e2
    exact hv.inj _ _ _ _ a1 b1 (by rw [a2, b2, e3])
  · intro p hp'
    by_cases e : p = a
    · subst e; exact ⟨_, put_same ..⟩
    · simp only [put_other e]
      exact hv.held p (by simpa [e] using hp')
  · intro i hi
    have : ∃ p h, c.m.heap p = some h ∧ h.inst = i := by
      simp only [Books.on, List.mem_cons] at hi
      rcases hi with rfl | hi
      · exact ⟨a, h, hp, rfl⟩
      · exact hv.users i hi
    obtain ⟨p, k, h1, h2⟩ := this
    by_cases e : p = a
    · subst e
      rw [hp] at h1; cases h1
      exact ⟨p, _, put_same .., h2⟩
    · exact ⟨p, k, by simpa only [put_other e] using h1, h2⟩
  · intro i hi
    obtain ⟨h1, a', k, h2, h3, h4⟩ := hv.cur i hi
    rw [ha] at h2; cases h2
    rw [hp] at h3; cases h3
    exact ⟨h1, a, _, ha, put_same .., h4⟩
  · intro hi
    exact absurd ha ((hv.over hi).2 a h hp)
  · intro i
    simp only [Books.on, List.mem_cons]
    rw [hv.all i]
    constructor
    · rintro (h1 | h1 | h1)
      · exact .inl h1
      · exact .inr (.inl (.inr h1))
      · exact .inr (.inr h1)
    · rintro (h1 | (h1 | h1) | h1)
      · exact .inl h1
      · exact h1 ▸ .inr hh.2.2.2.2
      · exact .inr (.inl h1)
      · exact .inr (.inr h1)
  · intro i hi
    have h1 := hv.apart i hi
    refine ⟨?_, h1.2⟩
    simp only [Books.on, List.mem_cons, not_or]
    refine ⟨?_, h1.1⟩
    rintro rfl
    rcases hh.2.2.2.2 with h2 | h2
    · exact h1.1 h2
    · exact h1.2 h2

/-- One use less of a handle. -/
theorem Inv.dec {c : Client} {b : Books} (hv : Inv c b) {p : Nat} {h : Handle} (hp : c.m.heap p = some h)
    (hm : p ∈ c.held) :
    Inv ⟨if h.inUse = 1 ∧ c.m.active ≠ some p
      then ⟨put c.m.heap p none, c.m.active, c.m.calls ++ [h.resource], c.m.insts⟩
      else ⟨put c.m.heap p (some ⟨h.self, h.inUse - 1, h.resource, h.inst⟩), c.m.active, c.m.calls, c.m.insts⟩,
      c.held.erase p, c.closed⟩ (b.on (.released h.inst)) := by
  have hh := hv.handle p h hp
  have hpos : 0 < c.held.count p := List.count_pos_iff.2 hm
  have hu : h.inst ∈ b.users := List.count_pos_iff.1 (by rw [hh.2.2.1]; exact hpos)
  have other : ∀ q k, q ≠ p → c.m.heap q = some k → k.inst ≠ h.inst :=
    fun q k e hk e' => e (hv.inj _ _ _ _ hk hp e')
  have hact : c.m.active = some p ↔ b.cur = some h.inst := by
    constructor
    · intro e
      cases hc : b.cur with
      | none => exact absurd e ((hv.over hc).2 p h hp)
      | some i =>
        obtain ⟨-, a, k, h2, h3, h4⟩ := hv.cur i hc
        rw [e] at h2; cases h2
        rw [hp] at h3; cases h3
        rw [h4]
    · intro e
      obtain ⟨-, a, k, h2, h3, h4⟩ := hv.cur _ e
      rw [h2, hv.inj _ _ _ _ h3 hp h4]
  have hlast : h.inUse = 1 ↔ h.inst ∉ b.users.erase h.inst := by
    rw [← List.count_eq_zero, count_erase' _ _ _ hu, if_pos rfl, hh.2.2.1, hh.2.1]
    omega
  by_cases hc : h.inUse = 1 ∧ c.m.active ≠ some p
  · have hno : ¬ (h.inst ∈ b.users.erase h.inst ∨ b.cur = some h.inst) := by
      rintro (h1 | h1)
      · exact hlast.1 hc.1 h1
      · exact hc.2 (hact.2 h1)
    have hone : c.held.count p = 1 := by have := hh.2.1; have := hc.1; omega
    rw [if_pos hc]
    simp only [Books.on, Books.retire]
    rw [if_neg hno]
    simp only [not_or] at hno
    refine ⟨?_, ?_, ?_, ?_, ?_, ?_, hv.insts, ?_, ?_, ?_, ?_⟩
    · intro q k hk
      by_cases e : q = p
      · subst e; simp at hk
      · simp only [put_other e] at hk
        have hk' := hv.handle q k hk
        have ne := other q k e hk
        refine ⟨hk'.1, ?_, ?_, hk'.2.2.2.1, ?_⟩
        · rw [hk'.2.1]; simp only; rw [count_erase' _ _ _ hm, if_neg e]
        · simp only
          rw [count_erase' _ _ _ hu, if_neg ne, count_erase' _ _ _ hm, if_neg e, hk'.2.2.1]
        · rcases hk'.2.2.2.2 with h1 | h1
          · exact .inl ((List.mem_erase_of_ne ne).2 h1)
          · exact .inr h1
    · intro q1 q2 k1 k2 e1 e2 e3
      have n1 : q1 ≠ p := by rintro rfl; simp at e1
      have n2 : q2 ≠ p := by rintro rfl; simp at e2
      simp only [put_other n1] at e1
      simp only [put_other n2] at e2
      exact hv.inj _ _ _ _ e1 e2 e3
    · intro q hq
      have hq' := List.mem_of_mem_erase hq
      have ne : q ≠ p := by
        rintro rfl
        have := List.count_pos_iff.2 hq
        rw [count_erase' _ _ _ hm] at this
        simp [hone] at this
      simp only [put_other ne]
      exact hv.held q hq'
    · intro i hi
      have ne : i ≠ h.inst := fun e => hno.1 (e ▸ hi)
      obtain ⟨q, k, h1, h2⟩ := hv.users i (List.mem_of_mem_erase hi)
      have e : q ≠ p := by rintro rfl; rw [hp] at h1; cases h1; exact ne h2.symm
      exact ⟨q, k, by simpa only [put_other e] using h1, h2⟩
    · intro i hi
      obtain ⟨h1, a, k, h2, h3, h4⟩ := hv.cur i hi
      have e : a ≠ p := by rintro rfl; exact hc.2 h2
      exact ⟨h1, a, k, h2, by simpa only [put_other e] using h3, h4⟩
    · intro hi
      refine ⟨(hv.over hi).1, fun q k hk => ?_⟩
      have e : q ≠ p := by rintro rfl; simp at hk
      simp only [put_other e] at hk
      exact (hv.over hi).2 q k hk
    · simp [hv.calls, hh.2.2.2.1]
    · intro i
      simp only [List.mem_append, List.mem_singleton]
      rw [hv.all i]
      by_cases e : i = h.inst
      · subst e; simp [hu]
      · rw [List.mem_erase_of_ne e]; simp [e]
    · rw [List.nodup_append]
      refine ⟨hv.nodup, by simp, ?_⟩
      intro x hx y hy
      simp only [List.mem_singleton] at hy
      subst hy
      rintro rfl
      exact (hv.apart _ hx).1 hu
    · intro i hi
      simp only [List.mem_append, List.mem_singleton] at hi
      rcases hi with hi | rfl
      · exact ⟨fun h1 => (hv.apart i hi).1 (List.mem_of_mem_erase h1), (hv.apart i hi).2⟩
      · exact hno
  · have hyes : h.inst ∈ b.users.erase h.inst ∨ b.cur = some h.inst := by
      by_cases h1 : h.inUse = 1
      · exact .inr (hact.1 (by by_contra h2; exact hc ⟨h1, h2⟩))
      · exact .inl (by by_contra h2; exact h1 (hlast.2 h2))
    rw [if_neg hc]
    simp only [Books.on, Books.retire]
    rw [if_pos hyes]
    refine ⟨?_, ?_, ?_, ?_, ?_, ?_, hv.insts, hv.calls, ?_, hv.nodup, ?_⟩
    · intro q k hk
      by_cases e : q = p
      · subst e
        simp only [put_same, Option.some.injEq] at hk
        subst hk
        refine ⟨hh.1, ?_, ?_, hh.2.2.2.1, hyes⟩
        · simp only
          rw [count_erase' _ _ _ hm, if_pos rfl, hh.2.1]; omega
        · simp only
          rw [count_erase' _ _ _ hu, if_pos rfl, count_erase' _ _ _ hm, if_pos rfl, hh.2.2.1]
      · simp only [put_other e] at hk
        have hk' := hv.handle q k hk
        have ne := other q k e hk
        refine ⟨hk'.1, ?_, ?_, hk'.2.2.2.1, ?_⟩
        · rw [hk'.2.1]; simp only; rw [count_erase' _ _ _ hm, if_neg e]
        · simp only
          rw [count_erase' _ _ _ hu, if_neg ne, count_erase' _ _ _ hm, if_neg e, hk'.2.2.1]
        · rcases hk'.2.2.2.2 with h1 | h1
          · exact .inl ((List.mem_erase_of_ne ne).2 h1)
          · exact .inr h1
    · intro q1 q2 k1 k2 e1 e2 e3
      have get : ∀ q h1, put c.m.heap p (some ⟨h.self, h.inUse - 1, h.resource, h.inst⟩) q = some h1 →
          ∃ h2, c.m.heap q = some h2 ∧ h2.inst = h1.inst := by
        intro q h1 e
        by_cases e' : q = p
        · subst e'; simp at e; subst e; exact ⟨h, hp, rfl⟩
        · rw [put_other e'] at e; exact ⟨h1, e, rfl⟩
      obtain ⟨h2, a1, a2⟩ := get _ _ e1
      obtain ⟨k2, b1, b2⟩ := get _ _ e2
      exact hv.inj _ _ _ _ a1 b1 (by rw [a2, b2, e3])
    · intro q hq
      by_cases e : q = p
      · subst e; exact ⟨_, put_same ..⟩
      · simp only [put_other e]
        exact hv.held q (List.mem_of_mem_erase hq)
    · intro i hi
      obtain ⟨q, k, h1, h2⟩ := hv.users i (List.mem_of_mem_erase hi)
      by_cases e : q = p
      · subst e
        rw [hp] at h1; cases h1
        exact ⟨q, _, put_same .., h2⟩
      · exact ⟨q, k, by simpa only [put_other e] using h1, h2⟩
    · intro i hi
      obtain ⟨h1, a, k, h2, h3, h4⟩ := hv.cur i hi
      by_cases e : a = p
      · subst e
        rw [hp] at h3; cases h3
        exact ⟨h1, a, _, h2, put_same .., h4⟩
      · exact ⟨h1, a, k, h2, by simpa only [put_other e] using h3, h4⟩
    · intro hi
      refine ⟨(hv.over hi).1, fun q k hk => ?_⟩
      by_cases e : q = p
      · subst e; exact (hv.over hi).2 q h hp
      · simp only [put_other e] at hk
        exact (hv.over hi).2 q k hk
    · intro i
      rw [hv.all i]
      by_cases e : i = h.inst
      · subst e
        rcases hyes with h1 | h1 <;> simp [h1, hu]
      · rw [List.mem_erase_of_ne e]
    · intro i hi
      exact ⟨fun h1 => (hv.apart i hi).1 (List.mem_of_mem_erase h1), (hv.apart i hi).2⟩

/-- A new handle becomes the active one while the last one is still in use. -/
theorem Inv.swap {c : Client} {b : Books} (hv : Inv c b) {p i : Nat} (r : Option Nat) (hn : c.m.heap p = none)
    (hi : b.cur = some i) (hu : i ∈ b.users) :
    Inv ⟨⟨put c.m.heap p (some ⟨some p, 0, r, c.m.insts⟩), some p, c.m.calls, c.m.insts + 1⟩, c.held, c.closed⟩
      { b with cur := some b.resources.length, resources := b.resources ++ [r] } := by
  have hopen : c.closed = false := (hv.cur i hi).1
  have hin := hv.insts hopen
  have hnp : p ∉ c.held := fun h => by
    obtain ⟨k, hk⟩ := hv.held p h
    rw [hn] at hk; cases hk
  have hlt : ∀ j, j ∈ b.freed ∨ j ∈ b.users → j < b.resources.length := by
    intro j hj
    rw [hv.all j]
    rcases hj with h1 | h1
    · exact .inl h1
    · exact .inr (.inl h1)
  have hnew : b.users.count b.resources.length = 0 := by
    rw [List.count_eq_zero]
    intro h1
    exact absurd (hlt _ (.inr h1)) (Nat.lt_irrefl _)
  have hle : ∀ q k, c.m.heap q = some k → k.inst < b.resources.length := by
    intro q k hk
    rw [hv.all]
    exact .inr (hv.handle q k hk).2.2.2.2
  refine ⟨?_, ?_, ?_, ?_, ?_, ?_, ?_, ?_, ?_, hv.nodup, ?_⟩
  · intro q k hk
    by_cases e : q = p
    · subst e
      simp only [put_same, Option.some.injEq] at hk
      subst hk
      refine ⟨rfl, ?_, ?_, ?_, .inr ?_⟩
      · simp [List.count_eq_zero.2 hnp]
      · rw [List.count_eq_zero.2 hnp]; simp only [hin]; exact hnew
      · simp [hin]
      · simp [hin]
    · simp only [put_other e] at hk
      have hk' := hv.handle q k hk
      refine ⟨hk'.1, hk'.2.1, hk'.2.2.1, ?_, ?_⟩
      · simp only
        rw [List.getElem?_append_left (hle q k hk)]
        exact hk'.2.2.2.1
      · rcases hk'.2.2.2.2 with h1 | h1
        · exact .inl h1
        · rw [hi] at h1; cases h1; exact .inl hu
  · intro q1 q2 k1 k2 e1 e2 e3
    by_cases n1 : q1 = p <;> by_cases n2 : q2 = p
    · rw [n1, n2]
    · subst n1
      simp only [put_other n2] at e2
      simp only [put_same, Option.some.injEq] at e1
      subst e1
      have := hle _ _ e2
      simp only at e3; omega
    · subst n2
      simp only [put_other n1] at e1
      simp only [put_same, Option.some.injEq] at e2
      subst e2
      have := hle _ _ e1
      simp only at e3; omega
    · simp only [put_other n1] at e1
      simp only [put_other n2] at e2
      exact hv.inj _ _ _ _ e1 e2 e3
  · intro q hq
    have e : q ≠ p := by rintro rfl; exact hnp hq
    simp only [put_other e]
    exact hv.held q hq
  · intro j hj
    obtain ⟨q, k, h1, h2⟩ := hv.users j hj
    have e : q ≠ p := by rintro rfl; rw [hn] at h1; cases h1
    exact ⟨q, k, by simpa only [put_other e] using h1, h2⟩
  · intro j hj
    simp only [Option.some.injEq] at hj
    exact ⟨hopen, p, _, rfl, put_same .., by simp only [hin]; exact hj⟩
  · intro h; simp at h
  · intro _; simp [hin]
  · simp only
    rw [hv.calls]
    apply List.map_congr_left
    intro j hj
    rw [List.getElem?_append_left (hlt j (.inl hj))]
  · intro j
    simp only [List.length_append, List.length_singleton, Option.some.injEq]
    have := hv.all j
    constructor
    · intro h1
      by_cases e : j < b.resources.length
      · rcases this.1 e with h2 | h2 | h2
        · exact .inl h2
        · exact .inr (.inl h2)
        · rw [hi] at h2; cases h2; exact .inr (.inl hu)
      · exact .inr (.inr (by omega))
    · rintro (h1 | h1 | h1)
      · have := hlt j (.inl h1); omega
      · have := hlt j (.inr h1); omega
      · omega
  · intro j hj
    refine ⟨(hv.apart j hj).1, ?_⟩
    have := hlt j (.inl hj)
    simp only [ne_eq, Option.some.injEq]; omega

/-- The manager gives up its handle while that is still in use: the active handle is one that is not there. -/
theorem Inv.close {c : Client} {b : Books} (hv : Inv c b) {p i : Nat} (n : Nat) (hn : c.m.heap p = none)
    (hi : b.cur = some i) (hu : i ∈ b.users) :
    Inv ⟨⟨c.m.heap, some p, c.m.calls, n⟩, c.held, true⟩ { b with cur := none } := by
  refine ⟨?_, hv.inj, hv.held, hv.users, ?_, ?_, ?_, hv.calls, ?_, hv.nodup, ?_⟩
  · intro q k hk
    have hk' := hv.handle q k hk
    refine ⟨hk'.1, hk'.2.1, hk'.2.2.1, hk'.2.2.2.1, ?_⟩
    rcases hk'.2.2.2.2 with h1 | h1
    · exact .inl h1
    · rw [hi] at h1; cases h1; exact .inl hu
  · intro j hj; simp at hj
  · intro _
    refine ⟨rfl, fun q k hk e => ?_⟩
    simp only [Option.some.injEq] at e
    subst e
    rw [hn] at hk; cases hk
  · intro h; simp at h
  · intro j
    rw [hv.all j, hi]
    simp only [Option.some.injEq, reduceCtorEq, or_false]
    constructor
    · rintro (h1 | h1 | h1)
      · exact .inl h1
      · exact .inr h1
      · exact .inr (h1 ▸ hu)
    · rintro (h1 | h1)
      · exact .inl h1
      · exact .inr (.inl h1)
  · intro j hj
    exact ⟨(hv.apart j hj).1, by simp⟩

theorem retire_erase (b : Books) (i : Nat) (x : Option Nat) (rs : List (Option Nat)) :
    Books.on ⟨x, i :: b.users, rs, b.freed⟩ (.released i) = Books.retire ⟨x, b.users, rs, b.freed⟩ i := by
  simp [Books.on]

/-- Replacing the resource. -/
theorem Inv.replace {c : Client} {b : Books} (hv : Inv c b) (hopen : c.closed = false)
    (hl : c.held.length < 2 ^ 31 - 1) {p : Nat} (hn : c.m.heap p = none) (r : Option Nat) :
    ∃ m, replace c.m (some p) r = some (m, p) ∧ Inv ⟨m, c.held, c.closed⟩ (b.on (.installed r)) := by
  cases hc : b.cur with
  | none => have := (hv.over hc).1; rw [hopen] at this; cases this
  | some i =>
    obtain ⟨-, a, h, ha, hp, rfl⟩ := hv.cur i hc
    have hh := hv.handle a h hp
    have hcount : c.held.count a ≤ c.held.length := List.count_le_length
    have hap : a ≠ p := by rintro rfl; rw [hn] at hp; cases hp
    have i1 := hv.inc ha hp
    have hu : h.inst ∈ (b.on (.got h.inst)).users := by simp [Books.on]
    have hn' : put c.m.heap a (some ⟨h.self, h.inUse + 1, h.resource, h.inst⟩) p = none := by
      rw [put_other (Ne.symm hap)]; exact hn
    have i2 := i1.swap r hn' hc hu
    have hp2 : put (put c.m.heap a (some ⟨h.self, h.inUse + 1, h.resource, h.inst⟩)) p
        (some ⟨some p, 0, r, c.m.insts⟩) a = some ⟨h.self, h.inUse + 1, h.resource, h.inst⟩ := by
      rw [put_other hap, put_same]
    have i3 := i2.dec hp2 (by simp)
    simp only [List.erase_cons_head] at i3
    have e : b.on (.installed r) = Books.on { b.on (.got h.inst) with
        cur := some (b.on (.got h.inst)).resources.length,
        resources := (b.on (.got h.inst)).resources ++ [r] } (.released h.inst) := by
      simp only [Books.on, hc, Books.retireCur, List.erase_cons_head]
    rw [e]
    refine ⟨_, ?_, i3⟩
    have s1 := incUse_eq (m := ⟨put c.m.heap p (some ⟨some p, 0, r, c.m.insts⟩), c.m.active, c.m.calls,
      c.m.insts + 1⟩) (a := a) (h := h) ha (by simp only [put_other hap]; exact hp) hh.1 (by omega) (by omega)
    simp only [Single.replace, ha, hp, setup, Option.bind_eq_bind, Option.bind_some]
    rw [ha] at s1
    rw [s1]
    simp only [Option.bind_some]
    rw [decUse_eq (h := ⟨h.self, h.inUse + 1, h.resource, h.inst⟩) (by simp) hh.1
      (by simp only; omega) (by simp only; omega)]
    simp only [Option.bind_some, Option.some.injEq, Prod.mk.injEq, and_true]
    rw [put_comm _ _ (Ne.symm hap)]

/-- Freeing the manager. -/
theorem Inv.free {c : Client} {b : Books} (hv : Inv c b) (hopen : c.closed = false)
    (hl : c.held.length < 2 ^ 31 - 1) {p : Nat} (hn : c.m.heap p = none) :
    ∃ m, managerFree c.m (some p) = some m ∧ Inv ⟨m, c.held, true⟩ (b.on .closed) := by
  cases hc : b.cur with
  | none => have := (hv.over hc).1; rw [hopen] at this; cases this
  | some i =>
    obtain ⟨-, a, h, ha, hp, rfl⟩ := hv.cur i hc
    have hh := hv.handle a h hp
    have hcount : c.held.count a ≤ c.held.length := List.count_le_length
    have hap : a ≠ p := by rintro rfl; rw [hn] at hp; cases hp
    have i1 := hv.inc ha hp
    have hu : h.inst ∈ (b.on (.got h.inst)).users := by simp [Books.on]
    have hn' : put c.m.heap a (some ⟨h.self, h.inUse + 1, h.resource, h.inst⟩) p = none := by
      rw [put_other (Ne.symm hap)]; exact hn
    have i2 := i1.close (c.m.insts + 1) hn' hc hu
    have i3 := i2.dec (put_same ..) (by simp)
    simp only [List.erase_cons_head] at i3
    have e : b.on .closed = Books.on { b.on (.got h.inst) with cur := none } (.released h.inst) := by
      simp only [Books.on, hc, Books.retireCur, List.erase_cons_head]
    rw [e]
    refine ⟨_, ?_, i3⟩
    have s1 := incUse_eq (m := ⟨put c.m.heap p (some ⟨some p, 0, none, c.m.insts⟩), c.m.active, c.m.calls,
      c.m.insts + 1⟩) (a := a) (h := h) ha (by simp only [put_other hap]; exact hp) hh.1 (by omega) (by omega)
    simp only [managerFree, Single.replace, ha, hp, setup, Option.bind_eq_bind, Option.bind_some]
    rw [ha] at s1
    rw [s1]
    simp only [Option.bind_some]
    rw [decUse_eq (h := ⟨h.self, h.inUse + 1, h.resource, h.inst⟩) (by simp) hh.1
      (by simp only; omega) (by simp only; omega)]
    simp only [Option.bind_some]
    have clear : ∀ x, put (put (put c.m.heap p (some ⟨some p, 0, none, c.m.insts⟩)) a x) p none =
        put c.m.heap a x := by
      intro x
      rw [put_comm _ _ hap, put_put, put_none hn]
    have there : ∀ x, put (put c.m.heap p (some ⟨some p, 0, none, c.m.insts⟩)) a x p =
        some ⟨some p, 0, none, c.m.insts⟩ := by
      intro x
      rw [put_other (Ne.symm hap), put_same]
    split
    · simp only [put_put, there, clear, Option.bind_some]
    · simp only [put_put, there, clear, Option.bind_some]

/-- The start. -/
theorem Inv.start {memory : Nat} {r : Option Nat} {m : Manager} (h : init (some memory) r = some m) :
    Inv ⟨m, [], false⟩ (books r []) := by
  simp only [init, setup, Option.bind_eq_bind, Option.bind_some, Option.some.injEq] at h
  subst h
  refine ⟨?_, ?_, ?_, ?_, ?_, ?_, ?_, ?_, ?_, ?_, ?_⟩
  · intro p h hp
    by_cases e : p = memory
    · subst e; simp at hp; subst hp; simp [books]
    · simp [put_other e] at hp
  · intro p q h k h1 h2 _
    have : ∀ p h, put (fun _ => none) memory (some ⟨some memory, 0, r, 0⟩) p = some h → p = memory := by
      intro p h h1
      by_contra e
      simp [put_other e] at h1
    rw [this p h h1, this q k h2]
  · simp
  · simp [books]
  · intro i hi
    simp only [books, List.foldl_nil, Option.some.injEq] at hi
    subst hi
    exact ⟨rfl, memory, ⟨some memory, 0, r, 0⟩, rfl, by simp, rfl⟩
  · simp [books]
  · simp [books]
  · simp [books]
  · simp [books]; omega
  · simp [books]
  · simp [books]

/-- Every call a program may make does something, and the books say what. -/
theorem Inv.step {c : Client} {b : Books} (hv : Inv c b) (hlen : c.held.length < 2 ^ 31) {op : Op}
    (ha : Allowed c op) :
    ∃ c' e x, step c op = some (c', e, x) ∧ Inv c' (b.on e) ∧ c'.held.length < 2 ^ 31 := by
  cases op with
  | get =>
    obtain ⟨hopen, hl⟩ := ha
    cases hc : b.cur with
    | none => have := (hv.over hc).1; rw [hopen] at this; cases this
    | some i =>
      obtain ⟨-, a, h, ha, hp, rfl⟩ := hv.cur i hc
      have hh := hv.handle a h hp
      have hcount : c.held.count a ≤ c.held.length := List.count_le_length
      have i1 := hv.inc ha hp
      refine ⟨_, .got h.inst, some a, ?_, i1, by simp only [List.length_cons]; omega⟩
      simp only [Single.step, incUse_eq ha hp hh.1 (by omega) (by omega), Option.bind_eq_bind, Option.bind_some,
        put_same]
  | release p =>
    obtain ⟨h, hp⟩ := hv.held p ha
    have hh := hv.handle p h hp
    have i1 := hv.dec hp ha
    have hpos : 0 < c.held.count p := List.count_pos_iff.2 ha
    have hcount : c.held.count p ≤ c.held.length := List.count_le_length
    refine ⟨_, .released h.inst, none, ?_, i1, Nat.lt_of_le_of_lt List.length_erase_le hlen⟩
    simp only [Single.step, hp, decUse_eq hp hh.1 (by omega) (by omega), Option.bind_eq_bind, Option.bind_some]
  | replace memory resource =>
    obtain ⟨m, h1, h2⟩ := hv.replace ha.1 ha.2.1 ha.2.2 resource
    exact ⟨_, .installed resource, some memory, by simp [Single.step, h1], h2, hlen⟩
  | free memory =>
    obtain ⟨m, h1, h2⟩ := hv.free ha.1 ha.2.1 ha.2.2
    exact ⟨_, .closed, none, by simp [Single.step, h1], h2, hlen⟩

theorem books_snoc (r : Option Nat) (es : List Event) (e : Event) : books r (es ++ [e]) = (books r es).on e := by
  simp [books]

theorem Reached.inv {r : Option Nat} {c : Client} {es : List Event} (h : Reached r c es) :
    Inv c (books r es) ∧ c.held.length < 2 ^ 31 := by
  induction h with
  | start h => exact ⟨.start h, by simp⟩
  | step _ ha hs ih =>
    obtain ⟨c1, e1, x1, h1, h2, h3⟩ := ih.1.step ih.2 ha
    rw [hs] at h1
    cases h1
    exact ⟨by rw [books_snoc]; exact h2, h3⟩

theorem retire_same (b : Books) (i : Nat) :
    (b.retire i).cur = b.cur ∧ (b.retire i).resources = b.resources ∧ (b.retire i).users = b.users := by
  simp only [Books.retire]; split <;> exact ⟨rfl, rfl, rfl⟩

theorem retireCur_same (b : Books) (x : Option Nat) :
    (b.retireCur x).cur = b.cur ∧ (b.retireCur x).resources = b.resources ∧ (b.retireCur x).users = b.users := by
  cases x with
  | none => exact ⟨rfl, rfl, rfl⟩
  | some i => exact retire_same b i

/-- What is to be used is what was installed last. -/
theorem books_cur (r : Option Nat) (es : List Event) (i : Nat) (h : (books r es).cur = some i) :
    i + 1 = (books r es).resources.length := by
  induction es using List.reverseRecOn with
  | nil => simp [books] at h; simp [books, ← h]
  | append_singleton es e ih =>
    rw [books_snoc] at h ⊢
    cases e with
    | got j => exact ih h
    | released j =>
      simp only [Books.on, retire_same] at h ⊢
      exact ih h
    | installed x =>
      simp only [Books.on, retireCur_same, Option.some.injEq] at h ⊢
      simp [h]
    | closed => simp [Books.on, retireCur_same] at h

/-! ## Theorems -/

/-- C92: no call that a program may make reads or writes memory that is not there, and none overflows. -/
theorem C92_defined {r : Option Nat} {c : Client} {es : List Event} (h : Reached r c es) {op : Op}
    (ha : Allowed c op) : (step c op).isSome := by
  obtain ⟨c', e, x, h1, -⟩ := h.inv.1.step h.inv.2 ha
  rw [h1]; rfl

/-- C92: getting gives a handle of the resource installed last, which is then held once more. -/
theorem C92_get {r : Option Nat} {c c' : Client} {es : List Event} (h : Reached r c es) (ha : Allowed c .get)
    {e : Event} {x : Option Nat} (hs : step c .get = some (c', e, x)) :
    ∃ p k i, x = some p ∧ c'.held = p :: c.held ∧ c'.m.heap p = some k ∧ e = .got i ∧ (books r es).cur = some i ∧
      (books r es).resources.getLast? = some k.resource := by
  obtain ⟨hv, hlen⟩ := h.inv
  obtain ⟨hopen, hl⟩ := ha
  cases hc : (books r es).cur with
  | none => have := (hv.over hc).1; rw [hopen] at this; cases this
  | some i =>
    obtain ⟨-, a, k, ha, hp, rfl⟩ := hv.cur i hc
    have hh := hv.handle a k hp
    have hcount : c.held.count a ≤ c.held.length := List.count_le_length
    simp only [step, incUse_eq ha hp hh.1 (by omega) (by omega), Option.bind_eq_bind, Option.bind_some,
      put_same, Option.some.injEq, Prod.mk.injEq] at hs
    obtain ⟨rfl, rfl, rfl⟩ := hs
    refine ⟨a, _, _, rfl, rfl, put_same .., rfl, rfl, ?_⟩
    rw [List.getLast?_eq_getElem?, ← books_cur _ _ _ hc, Nat.add_sub_cancel]
    exact hh.2.2.2.1

/-- C92: what a program has got and not released is there, with its resource, which was not freed, and the count of its
uses is how often the program has it, and 0 for NULL. -/
theorem C92_held {r : Option Nat} {c : Client} {es : List Event} (h : Reached r c es) {p : Nat} (hp : p ∈ c.held) :
    ∃ k i, c.m.heap p = some k ∧ (books r es).resources[i]? = some k.resource ∧ i ∈ (books r es).users ∧
      i ∉ (books r es).freed ∧ (books r es).users.count i = c.held.count p ∧
      getUse c.m (some p) = some (c.held.count p : Int) ∧ getUse c.m none = some 0 := by
  obtain ⟨hv, -⟩ := h.inv
  obtain ⟨k, hk⟩ := hv.held p hp
  have hh := hv.handle p k hk
  have hu : k.inst ∈ (books r es).users := by
    rw [← List.count_pos_iff, hh.2.2.1]; exact List.count_pos_iff.2 hp
  exact ⟨k, k.inst, hk, hh.2.2.2.1, hu, fun h1 => (hv.apart _ h1).1 hu, hh.2.2.1, by simp [getUse, hk, hh.2.1], rfl⟩

/-- C92: the resources passed to the method which frees them are those that the books say, in that order. -/
theorem C92_calls {r : Option Nat} {c : Client} {es : List Event} (h : Reached r c es) :
    c.m.calls.map some = (books r es).freed.map ((books r es).resources[·]?) := h.inv.1.calls

/-- C92: each resource is freed at most once, and has been freed exactly when it is not in use and not the one to be
used. -/
theorem C92_exact {r : Option Nat} {c : Client} {es : List Event} (h : Reached r c es) :
    (books r es).freed.Nodup ∧ ∀ i, i < (books r es).resources.length →
      (i ∈ (books r es).freed ↔ i ∉ (books r es).users ∧ (books r es).cur ≠ some i) := by
  obtain ⟨hv, -⟩ := h.inv
  refine ⟨hv.nodup, fun i hi => ⟨hv.apart i, fun h1 => ?_⟩⟩
  rcases (hv.all i).1 hi with h2 | h2 | h2
  · exact h2
  · exact absurd h2 h1.1
  · exact absurd h2 h1.2

/-- C92: a handle is in memory exactly as long as its resource is to be used or held. -/
theorem C92_memory {r : Option Nat} {c : Client} {es : List Event} (h : Reached r c es) (p : Nat) :
    (c.m.heap p).isSome ↔ p ∈ c.held ∨ (c.closed = false ∧ c.m.active = some p) := by
  obtain ⟨hv, -⟩ := h.inv
  constructor
  · intro hp
    obtain ⟨k, hk⟩ := Option.isSome_iff_exists.1 hp
    have hh := hv.handle p k hk
    rcases hh.2.2.2.2 with h1 | h1
    · exact .inl (List.count_pos_iff.1 (by rw [← hh.2.2.1]; exact List.count_pos_iff.2 h1))
    · obtain ⟨h2, a, k', h3, h4, h5⟩ := hv.cur _ h1
      exact .inr ⟨h2, by rw [h3, hv.inj _ _ _ _ h4 hk h5]⟩
  · rintro (h1 | ⟨h1, h2⟩)
    · obtain ⟨k, hk⟩ := hv.held p h1
      rw [hk]; rfl
    · cases hc : (books r es).cur with
      | none => have := (hv.over hc).1; rw [h1] at this; cases this
      | some i =>
        obtain ⟨-, a, k, h3, h4, -⟩ := hv.cur i hc
        rw [h2] at h3; cases h3
        rw [h4]; rfl

/-- C92: when the manager was freed and everything released, no handle is left in memory and every resource was passed
to the method which frees it, each once. -/
theorem C92_clean {r : Option Nat} {c : Client} {es : List Event} (h : Reached r c es) (hc : c.closed = true)
    (hh : c.held = []) : (∀ p, c.m.heap p = none) ∧ c.m.calls.Perm (books r es).resources := by
  obtain ⟨hv, -⟩ := h.inv
  have hcur : (books r es).cur = none := by
    cases e : (books r es).cur with
    | none => rfl
    | some i => have := (hv.cur i e).1; rw [hc] at this; cases this
  have hno : ∀ p, c.m.heap p = none := by
    intro p
    have := (C92_memory h p).not
    rw [hh, hc] at this
    simpa using this
  refine ⟨hno, ?_⟩
  have husers : (books r es).users = [] := by
    rw [List.eq_nil_iff_forall_not_mem]
    intro i hi
    obtain ⟨p, k, h1, -⟩ := hv.users i hi
    rw [hno p] at h1; cases h1
  have hperm : (books r es).freed.Perm (List.range (books r es).resources.length) := by
    rw [List.perm_ext_iff_of_nodup hv.nodup List.nodup_range]
    intro i
    rw [List.mem_range, hv.all i, hcur, husers]
    simp
  have h1 := hperm.map ((books r es).resources[·]?)
  rw [← hv.calls] at h1
  have h2 : (List.range (books r es).resources.length).map ((books r es).resources[·]?) =
      (books r es).resources.map some := by
    apply List.ext_getElem
    · simp
    · intro i h3 h4
      simp only [List.length_map, List.length_range] at h3
      simp [List.getElem?_eq_getElem h3]
  rw [h2] at h1
  exact (List.map_perm_map_iff (fun a b e => by simpa using e)).1 h1

/-- C92: with 2147483647 uses the next one overflows the counter, so that many programs cannot have. -/
theorem C92_limit {r : Option Nat} {c : Client} {es : List Event} (h : Reached r c es) {p : Nat}
    (ha : c.m.active = some p) (hn : c.held.count p = 2 ^ 31 - 1) : step c .get = none := by
  obtain ⟨hv, -⟩ := h.inv
  have hp : p ∈ c.held := List.count_pos_iff.1 (by omega)
  obtain ⟨k, hk⟩ := hv.held p hp
  have hh := hv.handle p k hk
  have : add k.inUse 1 = none := by
    simp only [add]; rw [if_neg (by omega)]
  simp [step, incUse, ha, Manager.count, hk, this]

/-- A program can come to that limit. -/
theorem many (r : Option Nat) : ∀ n, n ≤ 2 ^ 31 - 1 →
    ∃ c es, Reached r c es ∧ c.closed = false ∧ c.m.active = some 10 ∧ c.held = List.replicate n 10
  | 0, _ => ⟨_, _, .start (memory := 10) rfl, rfl, rfl, rfl⟩
  | n + 1, hn => by
    obtain ⟨c, es, h, h1, h2, h3⟩ := many r n (by omega)
    obtain ⟨hv, -⟩ := h.inv
    obtain ⟨k, hk⟩ := Option.isSome_iff_exists.1 ((C92_memory h 10).2 (.inr ⟨h1, h2⟩))
    have hh := hv.handle 10 k hk
    have hcount : c.held.count 10 ≤ c.held.length := List.count_le_length
    have hl : c.held.length < 2 ^ 31 - 1 := by rw [h3, List.length_replicate]; omega
    have hs : step c .get = some (⟨⟨put c.m.heap 10 (some ⟨k.self, k.inUse + 1, k.resource, k.inst⟩), c.m.active,
        c.m.calls, c.m.insts⟩, 10 :: c.held, c.closed⟩, .got k.inst, some 10) := by
      simp only [step, incUse_eq h2 hk hh.1 (by omega) (by omega), Option.bind_eq_bind, Option.bind_some, put_same]
    exact ⟨_, _, h.step (op := .get) ⟨h1, hl⟩ hs, h1, h2, by simp [h3, List.replicate_succ]⟩

example (r : Option Nat) : ∃ c es, Reached r c es ∧ c.held.length = 2 ^ 31 - 1 ∧ step c .get = none := by
  obtain ⟨c, es, h, -, h2, h3⟩ := many r (2 ^ 31 - 1) (Nat.le_refl _)
  exact ⟨c, es, h, by rw [h3, List.length_replicate], C92_limit h h2 (by rw [h3, List.count_replicate_self])⟩

/-! ## Examples -/

/-- Calls one after the other: what happened, what was freed, what is held and which of the addresses up to 40 are in
use. -/
def tryAll (c : Client) : List Op → Option (Client × List Event)
  | [] => some (c, [])
  | op :: ops => do
    let (c, e, _) ← step c op
    let (c, es) ← tryAll c ops
    some (c, e :: es)

/-- What can be seen of it. -/
structure Seen where
  events : List Event
  calls : List (Option Nat)
  held : List Nat
  used : List Nat
deriving DecidableEq, Repr

def seen (r : Nat) (ops : List Op) : Option Seen := do
  let m ← init (some 10) (some r)
  let (c, es) ← tryAll ⟨m, [], false⟩ ops
  some ⟨es, c.m.calls, c.held, (List.range 41).filter fun p => (c.m.heap p).isSome⟩

/-- The resource 100 is in use when it is replaced and freed on its release, its address is used again. The last
resource is in use when the manager is freed. -/
example : seen 100 [.get, .get, .replace 20 (some 200), .get, .release 10, .release 10, .replace 10 (some 300), .get,
    .free 30, .release 10, .release 20] =
    some ⟨[.got 0, .got 0, .installed (some 200), .got 1, .released 0, .released 0, .installed (some 300), .got 2,
      .closed, .released 2, .released 1], [some 100, some 300, some 200], [], []⟩ := by decide +kernel

/-- Before the last releases. -/
example : seen 100 [.get, .replace 20 (some 200), .get, .get, .release 20] =
    some ⟨[.got 0, .installed (some 200), .got 1, .got 1, .released 1], [], [20, 10], [10, 20]⟩ := by decide +kernel

/-- Out of contract: freeing the manager a second time reads the freed handle. -/
example : seen 100 [.free 20, .free 30] = none := by decide +kernel

/-- A state with two handles held that the hypotheses above apply to. -/
example : ∃ c es, Reached (some 100) c es ∧ c.held = [20, 10] ∧ Allowed c (.release 10) ∧ Allowed c .get ∧
    (books (some 100) es).users = [1, 0] ∧ (books (some 100) es).cur = some 1 := by
  obtain ⟨m, hm⟩ : ∃ m, init (some 10) (some 100) = some m := ⟨_, rfl⟩
  have r0 := Reached.start hm
  simp only [init, setup, Option.bind_eq_bind, Option.bind_some, Option.some.injEq] at hm
  subst hm
  have r1 := r0.step (op := .get) ⟨rfl, by simp⟩ rfl
  have r2 := r1.step (op := .replace 20 (some 200)) ⟨rfl, by simp, rfl⟩ rfl
  have r3 := r2.step (op := .get) ⟨rfl, by simp, ⟩ rfl
  exact ⟨_, _, r3, rfl, by simp [Allowed], ⟨rfl, by simp⟩, by decide +kernel, by decide +kernel⟩

end Verif.Single
