import Verif.Pool.Props
import Mathlib.Data.List.Nodup
import Mathlib.Data.List.TakeWhile

/-! # The pool without threads (pool.c with `FIFTYONE_DEGREES_NO_THREADING`)

`fiftyoneDegreesPoolItemGet` and `fiftyoneDegreesPoolItemRelease` as they are compiled without threading, on a pool
initialised by `init` of `Verif.Pool` whatever the results of creating the resources were. An access to an item outside
of the allocated memory is undefined (`none`). -/

namespace Verif.Single

open Verif.Pool

/-! ## Model -/

/-- `fiftyoneDegreesPoolItemGet`, pool.c:76-105, the branches at 84 and 102, with memory for `size` items: the pool and
the item, or `none` for NULL, which comes with the exception `INSUFFICIENT_HANDLES`. -/
def poolGet (size : Nat) (p : Pool) : UB (Pool × Option Nat) :=
  if p.head.index < size then
    match p.resource p.head.index with
    | none => some (p, none)
    | some _ => some ({ p with head := { p.head with index := p.next p.head.index } }, some p.head.index)
  else none

/-- `fiftyoneDegreesPoolItemRelease`, pool.c:107-124, the branch at 120-122. -/
def poolRelease (size : Nat) (p : Pool) (item : Nat) : UB Pool :=
  if item < size then
    some { p with next := set p.next item p.head.index, head := { p.head with index := item % 2 ^ 16 } }
  else none

/-- The pool and the items the program has. -/
structure User where
  pool : Pool
  held : List Nat

/-- A call. -/
inductive PoolOp where
  | get
  | release (item : Nat)
deriving DecidableEq, Repr

/-- What a call did. -/
inductive PoolEvent where
  | got (item : Nat)
  | failed
  | released (item : Nat)
deriving DecidableEq, Repr

/-- The result of a get. -/
def User.took (u : User) (p : Pool) : Option Nat → User × PoolEvent
  | none => (⟨p, u.held⟩, .failed)
  | some i => (⟨p, i :: u.held⟩, .got i)

/-- One call of the program. -/
def poolStep (size : Nat) (u : User) : PoolOp → UB (User × PoolEvent)
  | .get => do
    let (p, i) ← poolGet size u.pool
    some (u.took p i)
  | .release i => do
    let p ← poolRelease size u.pool i
    some (⟨p, u.held.erase i⟩, .released i)

/-! ## Specification -/

/-- A program releases the items it has. -/
def PoolAllowed (u : User) : PoolOp → Prop
  | .get => True
  | .release i => i ∈ u.held

/-- The states a program can reach from a pool initialised with what creating the resources gave, and what happened. -/
inductive PoolReached (created : List (Option Nat × Bool)) : User → List PoolEvent → Prop
  | start {p q : Pool} : Pool.init p true created = some q → PoolReached created ⟨q, []⟩ []
  | step {u u' : User} {es : List PoolEvent} {op : PoolOp} {e : PoolEvent} :
    PoolReached created u es → PoolAllowed u op → poolStep (created.length + 1) u op = some (u', e) →
    PoolReached created u' (es ++ [e])

/-- The items with a resource that come after the last one without, last first: item 1 has the first resource. -/
def usable (resources : List (Option Nat)) : List Nat :=
  ((List.range resources.length).reverse.takeWhile fun j => (resources[j]?.join).isSome).map (· + 1)

/-- A stack of items: getting takes the top, releasing puts on top. -/
def stackOn (l : List Nat) : PoolEvent → List Nat
  | .got _ => l.tail
  | .failed => l
  | .released i => i :: l

/-- The stack after what happened. -/
def stack (l : List Nat) (es : List PoolEvent) : List Nat := es.foldl stackOn l

/-! ## Invariant -/

/-- The items linked from an index. -/
def Chain (p : Pool) : Nat → List Nat → Prop
  | h, [] => p.resource h = none
  | h, i :: l => h = i ∧ (p.resource i).isSome ∧ Chain p (p.next i) l

theorem Chain.congr {p q : Pool} (hr : q.resource = p.resource) : ∀ {l : List Nat} {h : Nat},
    (∀ i ∈ l, q.next i = p.next i) → Chain p h l → Chain q h l
  | [], _, _, h1 => by simpa [Chain, hr] using h1
  | i :: l, h, hn, h1 => by
    refine ⟨h1.1, by rw [hr]; exact h1.2.1, ?_⟩
    rw [hn i (by simp)]
    exact Chain.congr hr (fun j hj => hn j (by simp [hj])) h1.2.2

/-- What holds with the free items `l`. -/
structure PoolInv (created : List (Option Nat × Bool)) (u : User) (l : List Nat) : Prop where
  chain : Chain u.pool u.pool.head.index l
  head : u.pool.head.index < created.length + 1
  next : ∀ i, 1 ≤ i → i ≤ (made created).length → u.pool.next i < created.length + 1
  perm : (l ++ u.held).Perm (usable (made created))
  resource : ∀ j (h : j < (made created).length), u.pool.resource (j + 1) = (made created)[j]

theorem made_length : ∀ created : List (Option Nat × Bool), (made created).length ≤ created.length
  | [] => by simp [made]
  | (r, ok) :: rest => by
    have := made_length rest
    cases ok <;> simp [made] <;> omega

theorem usable_nodup (rs : List (Option Nat)) : (usable rs).Nodup := by
  apply List.Nodup.map (fun a b h => by simpa using h)
  exact (List.nodup_reverse.2 List.nodup_range).sublist (List.takeWhile_sublist _)

theorem usable_range {rs : List (Option Nat)} {i : Nat} (h : i ∈ usable rs) :
    ∃ j r, i = j + 1 ∧ rs[j]? = some (some r) := by
  simp only [usable, List.mem_map] at h
  obtain ⟨j, h1, rfl⟩ := h
  have h2 := List.mem_takeWhile_imp h1
  simp only [Option.isSome_iff_exists] at h2
  obtain ⟨r, hr⟩ := h2
  refine ⟨j, r, rfl, ?_⟩
  cases h3 : rs[j]? with
  | none => rw [h3] at hr; cases hr
  | some x => rw [h3] at hr; simpa using hr

theorem init_chain {rs : List (Option Nat)} {q : Pool} (h0 : q.resource 0 = none)
    (h : ∀ j (h : j < rs.length), q.resource (1 + j) = rs[j] ∧ q.next (1 + j) + 1 = 1 + j) :
    ∀ m, m ≤ rs.length →
      Chain q m (((List.range m).reverse.takeWhile fun j => (rs[j]?.join).isSome).map (· + 1))
  | 0, _ => by simpa [Chain] using h0
  | m + 1, hm => by
    have hj := h m (by omega)
    rw [Nat.add_comm 1 m] at hj
    rw [List.range_succ, List.reverse_append, List.reverse_singleton, List.singleton_append, List.takeWhile_cons]
    have e : rs[m]?.join = rs[m] := by simp [List.getElem?_eq_getElem (show m < rs.length by omega)]
    split
    · rename_i h1
      rw [e] at h1
      refine ⟨rfl, by rw [hj.1]; exact h1, ?_⟩
      rw [show q.next (m + 1) = m by omega]
      exact init_chain h0 h m (by omega)
    · rename_i h1
      rw [e] at h1
      simp only [List.map_nil, Chain, hj.1]
      simpa using h1

theorem PoolInv.start {p q : Pool} {created : List (Option Nat × Bool)}
    (hi : Pool.init p true created = some q) : PoolInv created ⟨q, []⟩ (usable (made created)) := by
  simp only [Pool.init, if_true] at hi
  split at hi
  · simp at hi
  simp only [Option.some.injEq] at hi
  generalize hp : ({ p with
      count := 0, head := ⟨0, 0, 0⟩, stack := true, resource := set p.resource 0 none } : Pool) = p1 at hi
  have e0 : p1.resource 0 = none := by subst hp; simp
  obtain ⟨a1, a2, a3, a4, a5, a6, a7⟩ := initLoop_spec created p1 1 (by omega) (by subst hp; rfl) (by subst hp; rfl)
  rw [hi] at a1 a2 a3 a4 a5 a6 a7
  have hh : q.head.index = (made created).length := by rw [a3]; subst hp; simp
  have hm := made_length created
  refine ⟨?_, ?_, ?_, by simp, ?_⟩
  · simp only [hh]
    exact init_chain (by rw [(a5 0 (by omega)).1]; exact e0) a6 _ (Nat.le_refl _)
  · simp only [hh]; omega
  · intro i h1 h2
    have := (a6 (i - 1) (by omega)).2
    rw [show 1 + (i - 1) = i by omega] at this
    simp only; omega
  · intro j hj
    have := (a6 j hj).1
    rw [Nat.add_comm] at this
    exact this

theorem PoolInv.step {created : List (Option Nat × Bool)} (hc : created.length < 65535) {u : User} {l : List Nat}
    (hv : PoolInv created u l) {op : PoolOp} (ha : PoolAllowed u op) :
    ∃ u' e, poolStep (created.length + 1) u op = some (u', e) ∧ PoolInv created u' (stackOn l e) ∧
      (op = .get → l.head? = match e with | .got i => some i | _ => none) ∧
      (op = .get → l = [] → e = .failed) := by
  have hm := made_length created
  have hmem : ∀ i, i ∈ l ∨ i ∈ u.held → 1 ≤ i ∧ i ≤ (made created).length := by
    intro i hi
    have h1 : i ∈ usable (made created) := hv.perm.mem_iff.1 (List.mem_append.2 hi)
    obtain ⟨j, r, rfl, h2⟩ := usable_range h1
    have := (List.getElem?_eq_some_iff.1 h2).1
    omega
  cases op with
  | get =>
    cases l with
    | nil =>
      have h1 : u.pool.resource u.pool.head.index = none := hv.chain
      refine ⟨u, .failed, ?_, hv, fun _ => rfl, fun _ _ => rfl⟩
      simp only [poolStep, poolGet, if_pos hv.head, h1, Option.bind_eq_bind, Option.bind_some, User.took]
    | cons i l =>
      obtain ⟨h1, h2, h3⟩ := hv.chain
      obtain ⟨r, hr⟩ := Option.isSome_iff_exists.1 h2
      refine ⟨⟨{ u.pool with head := { u.pool.head with index := u.pool.next i } }, i :: u.held⟩, .got i, ?_, ?_,
        fun _ => rfl, fun _ h => by cases h⟩
      · have hi : i < created.length + 1 := h1 ▸ hv.head
        simp only [poolStep, poolGet, h1, if_pos hi, hr, Option.bind_eq_bind, Option.bind_some, User.took]
      · obtain ⟨k1, k2⟩ := hmem i (.inl (by simp))
        have h4 : Chain { u.pool with head := { u.pool.head with index := u.pool.next i } } (u.pool.next i) l :=
          Chain.congr (p := u.pool) (by rfl) (fun _ _ => rfl) h3
        refine ⟨h4, hv.next i k1 k2, hv.next, ?_, hv.resource⟩
        exact List.perm_middle.trans hv.perm
  | release i =>
    obtain ⟨k1, k2⟩ := hmem i (.inr ha)
    have hnd : (l ++ u.held).Nodup := hv.perm.nodup_iff.2 (usable_nodup _)
    have hnl : i ∉ l := fun h => (List.nodup_append.1 hnd).2.2 i h i ha rfl
    have hmod : i % 2 ^ 16 = i := Nat.mod_eq_of_lt (by omega)
    refine ⟨⟨{ u.pool with next := set u.pool.next i u.pool.head.index, head := { u.pool.head with
      index := i % 2 ^ 16 } }, u.held.erase i⟩, .released i, ?_, ?_, (fun h => by cases h), (fun h => by cases h)⟩
    · simp only [poolStep, poolRelease, if_pos (show i < created.length + 1 by omega), Option.bind_eq_bind,
        Option.bind_some]
    · have hu : i ∈ usable (made created) := hv.perm.mem_iff.1 (List.mem_append.2 (.inr ha))
      obtain ⟨j, r, rfl, h2⟩ := usable_range hu
      obtain ⟨h3, h4⟩ := List.getElem?_eq_some_iff.1 h2
      refine ⟨?_, ?_, ?_, ?_, hv.resource⟩
      · simp only [hmod]
        refine ⟨rfl, ?_, ?_⟩
        · simp only; rw [hv.resource j h3, h4]; rfl
        · simp only [set_self]
          refine Chain.congr (p := u.pool) (by rfl) ?_ hv.chain
          intro x hx
          exact set_ne _ _ (fun e => hnl (e ▸ hx))
      · simp only [hmod]; omega
      · intro x h5 h6
        by_cases e : x = j + 1
        · subst e; simp only [set_self]; exact hv.head
        · simp only [set_ne _ _ e]; exact hv.next x h5 h6
      · refine List.Perm.trans ?_ hv.perm
        simp only [stackOn, List.cons_append]
        exact List.perm_middle.symm.trans (List.Perm.append_left _ (List.perm_cons_erase ha).symm)

theorem PoolReached.inv {created : List (Option Nat × Bool)} (hc : created.length < 65535) {u : User}
    {es : List PoolEvent} (h : PoolReached created u es) :
    PoolInv created u (stack (usable (made created)) es) := by
  induction h with
  | start h => exact .start h
  | step _ ha hs ih =>
    obtain ⟨u1, e1, h1, h2, -⟩ := ih.step hc ha
    rw [hs] at h1
    cases h1
    simpa [stack] using h2

/-! ## Theorems -/

/-- C93: no call accesses memory outside of the pool. -/
theorem C93_defined {created : List (Option Nat × Bool)} (hc : created.length < 65535) {u : User}
    {es : List PoolEvent} (h : PoolReached created u es) {op : PoolOp} (ha : PoolAllowed u op) :
    (poolStep (created.length + 1) u op).isSome := by
  obtain ⟨u', e, h1, -⟩ := (h.inv hc).step hc ha
  rw [h1]; rfl

/-- C93: getting gives the item released last of those that are free, at first the one created last, and fails exactly
when none is free. -/
theorem C93_get {created : List (Option Nat × Bool)} (hc : created.length < 65535) {u u' : User}
    {es : List PoolEvent} {e : PoolEvent} (h : PoolReached created u es)
    (hs : poolStep (created.length + 1) u .get = some (u', e)) :
    e = match stack (usable (made created)) es with | [] => .failed | i :: _ => .got i := by
  obtain ⟨u1, e1, h1, -, h3, h4⟩ := (h.inv hc).step hc (op := .get) trivial
  rw [hs] at h1
  cases h1
  cases hl : stack (usable (made created)) es with
  | nil => exact h4 rfl hl
  | cons i l =>
    have := h3 rfl
    rw [hl] at this
    cases e with
    | got j => simp at this; rw [this]
    | failed => simp at this
    | released j => simp at this

/-- C93: the free items and those the program has are together the items created after the last that has no resource,
each once. -/
theorem C93_conserved {created : List (Option Nat × Bool)} (hc : created.length < 65535) {u : User}
    {es : List PoolEvent} (h : PoolReached created u es) :
    (stack (usable (made created)) es ++ u.held).Perm (usable (made created)) ∧
      (stack (usable (made created)) es ++ u.held).Nodup :=
  ⟨(h.inv hc).perm, (h.inv hc).perm.nodup_iff.2 (usable_nodup _)⟩

/-- C93: an item the program has comes with the resource created for it, and no other item of the program is the
same. -/
theorem C93_resource {created : List (Option Nat × Bool)} (hc : created.length < 65535) {u : User}
    {es : List PoolEvent} (h : PoolReached created u es) {i : Nat} (hi : i ∈ u.held) :
    u.held.count i = 1 ∧ ∃ j r, i = j + 1 ∧ (made created)[j]? = some (some r) ∧ u.pool.resource i = some r := by
  have hv := h.inv hc
  have hnd := (C93_conserved hc h).2
  refine ⟨List.count_eq_one_of_mem (List.nodup_append.1 hnd).2.1 hi, ?_⟩
  obtain ⟨j, r, rfl, h2⟩ := usable_range (hv.perm.mem_iff.1 (List.mem_append.2 (.inr hi)))
  obtain ⟨h3, h4⟩ := List.getElem?_eq_some_iff.1 h2
  exact ⟨j, r, rfl, h2, by rw [hv.resource j h3, h4]⟩

/-- C93: when every resource was created, as many items can be had as the pool was created for. -/
theorem C93_capacity {created : List (Option Nat × Bool)} (hc : created.length < 65535)
    (hall : ∀ c ∈ created, c.1.isSome ∧ c.2 = true) {u u' : User} {es : List PoolEvent} {e : PoolEvent}
    (h : PoolReached created u es) (hs : poolStep (created.length + 1) u .get = some (u', e)) :
    e = .failed ↔ u.held.length = created.length := by
  have hmade : made created = created.map (·.1) := by
    clear h hs hc
    induction created with
    | nil => rfl
    | cons c rest ih =>
      obtain ⟨r, ok⟩ := c
      have h1 := (hall (r, ok) (by simp)).2
      simp only at h1
      subst h1
      simp [made, ih fun c hc => hall c (by simp [hc])]
  have hlen : (usable (made created)).length = created.length := by
    rw [hmade]
    simp only [usable, List.length_map]
    rw [List.takeWhile_eq_self_iff.2]
    · simp
    · intro j hj
      simp only [List.mem_reverse, List.mem_range] at hj
      simp [List.getElem?_eq_getElem hj, (hall created[j] (by simp)).1]
  have hp := (C93_conserved hc h).1.length_eq
  rw [List.length_append, hlen] at hp
  rw [C93_get hc h hs]
  cases hl : stack (usable (made created)) es with
  | nil => rw [hl] at hp; simpa using hp
  | cons i l =>
    rw [hl] at hp
    simp only [List.length_cons] at hp
    simp only [reduceCtorEq, false_iff]
    omega

/-! ## Examples -/

/-- Calls one after the other on a new pool: what happened and what is held. -/
def poolTry (size : Nat) (u : User) : List PoolOp → Option (List PoolEvent × List Nat)
  | [] => some ([], u.held)
  | op :: ops => do
    let (u, e) ← poolStep size u op
    let (es, held) ← poolTry size u ops
    some (e :: es, held)

/-- Three items: the last created comes first, then the last released, and the fourth get fails. -/
example : ((Pool.init anyPool true [(some 7, true), (some 8, true), (some 9, true)]).bind fun q =>
      poolTry 4 ⟨q, []⟩ [.get, .get, .release 3, .get, .get, .get, .release 2, .get]) =
    some ([.got 3, .got 2, .released 3, .got 3, .got 1, .failed, .released 2, .got 2], [2, 1, 3]) := by decide +kernel

/-- The second has no resource: the first is never given. -/
example : usable (made [(some 7, true), (none, true), (some 8, true), (some 9, true)]) = [4, 3] ∧
    ((Pool.init anyPool true [(some 7, true), (none, true), (some 8, true), (some 9, true)]).bind fun q =>
      poolTry 5 ⟨q, []⟩ [.get, .get, .get]) = some ([.got 4, .got 3, .failed], [3, 4]) := by decide +kernel

/-- The creation of the last failed: nothing can be had. -/
example : usable (made [(some 7, true), (none, false), (some 9, true)]) = [] ∧
    ((Pool.init anyPool true [(some 7, true), (none, false), (some 9, true)]).bind fun q =>
      poolTry 4 ⟨q, []⟩ [.get]) = some ([.failed], []) := by decide +kernel

/-- A state with an item held that the hypotheses above apply to. -/
example : ∃ u es, PoolReached [(some 7, true), (some 8, true)] u es ∧ u.held = [2] ∧ PoolAllowed u (.release 2) := by
  obtain ⟨q, hq⟩ : ∃ q, Pool.init anyPool true [(some 7, true), (some 8, true)] = some q := ⟨_, rfl⟩
  have r0 := PoolReached.start hq
  obtain ⟨u, e, h1, -⟩ := (r0.inv (by decide)).step (by decide) (op := .get) trivial
  have h2 := C93_get (by decide) r0 h1
  have r1 := r0.step (op := .get) trivial h1
  have h3 : e = .got 2 := h2
  subst h3
  have h5 : u.held = [2] := by
    have := h1
    simp only [poolStep, Option.bind_eq_bind, Option.bind_eq_some_iff] at this
    obtain ⟨⟨p, i⟩, h6, h7⟩ := this
    cases i with
    | none => simp [User.took] at h7
    | some i =>
      simp only [User.took, Option.some.injEq, Prod.mk.injEq, PoolEvent.got.injEq] at h7
      rw [← h7.1, h7.2]
  exact ⟨u, _, r1, h5, by simp [PoolAllowed, h5]⟩

end Verif.Single
