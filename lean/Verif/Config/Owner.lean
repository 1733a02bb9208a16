import Verif.Base
import Mathlib.Data.List.Perm.Basic
import Mathlib.Data.List.Nodup

/-! # C112: the memory of required properties configurations -/

namespace Verif.Config.Owner
open Verif

/-! ## Model -/

/-- What an object of the class points to (`conf.array`, its elements, `conf.string`): blocks of memory, by number.
`conf.count` is the number of names. -/
structure Obj where
  names : List Nat
  array : Option Nat
  text : Option Nat
deriving DecidableEq, Repr

/-- Memory: the number of the next block, and the blocks in use. The objects made so far, `none` when destroyed. -/
structure State where
  next : Nat
  live : List Nat
  objs : List (Option Obj)
deriving DecidableEq, Repr

/-- What a program does with configurations. -/
inductive Op where
  /-- The constructor without parameters, or given a null pointer, RequiredPropertiesConfig.cpp:37-42. -/
  | nothing
  /-- The constructor from a list, 44-60. `refused` says which allocation is refused, if any: 0 is the array's, then
  those of the names in order. -/
  | list (names : List CStr) (refused : Option Nat)
  /-- The constructor from a text, 62-76; `refused` if there is no memory for it. -/
  | text (s : CStr) (refused : Bool)
  /-- A copy of object `i`: the class has no copy constructor, so its members are copied. -/
  | copy (i : Nat)
  /-- A query of object `i`, 91-156, which reads the array and names or the text. -/
  | query (i : Nat)
  /-- The destructor of object `i`, 78-89. -/
  | destroy (i : Nat)
deriving DecidableEq, Repr

/-- `Malloc`. -/
def State.malloc (s : State) : Nat × State := (s.next, { s with next := s.next + 1, live := s.next :: s.live })

/-- `Free`: undefined for a block that is not in use. -/
def State.free (s : State) (b : Nat) : UB State := if b ∈ s.live then some { s with live := s.live.erase b } else none

/-- Frees several blocks in order. -/
def State.freeAll (s : State) : List Nat → UB State
  | [] => some s
  | b :: bs => (s.free b).bind fun s => s.freeAll bs

/-- `strcpy` of a C string to a block of `size` bytes: undefined if it does not fit. -/
def strcpy (size : Nat) (str : CStr) : UB Unit := if (str.takeWhile (· ≠ 0)).length + 1 ≤ size then some () else none

/-- The loop over the names, RequiredPropertiesConfig.cpp:50-53, from the name `k` on: the blocks made. `strcpy` to
NULL is undefined. -/
def copyNames (refused : Option Nat) : Nat → List CStr → State → UB (List Nat × State)
  | _, [], s => some ([], s)
  | k, n :: ns, s =>
    if refused = some (k + 1) then none
    else
      (strcpy (n.length + 1) n).bind fun _ =>
      (copyNames refused (k + 1) ns s.malloc.2).map fun r => (s.malloc.1 :: r.1, r.2)

/-- The constructor from a list, RequiredPropertiesConfig.cpp:44-55. Without memory for the array the first name is
written to NULL; for an empty list NULL makes no difference. -/
def construct (names : List CStr) (refused : Option Nat) (s : State) : UB (Obj × State) :=
  if refused = some 0 then
    if names = [] then some (⟨[], none, none⟩, s) else none
  else (copyNames refused 0 names s.malloc.2).map fun r => (⟨r.1, some s.malloc.1, none⟩, r.2)

/-- The blocks that the destructor frees, in its order: the names and the array if there is an array (80-85), and the
text (86-88). -/
def Obj.blocks (o : Obj) : List Nat := (if o.array.isSome then o.names ++ o.array.toList else []) ++ o.text.toList

/-- The object with that number, if it is there. -/
def State.obj (s : State) (i : Nat) : Option Obj := (s.objs[i]?).join

/-- One operation. Using an object that is not there is not considered: nothing happens. -/
def step (s : State) : Op → UB State
  | .nothing => some { s with objs := s.objs ++ [some ⟨[], none, none⟩] }
  | .list names refused =>
    (construct names refused s).map fun r => { r.2 with objs := r.2.objs ++ [some r.1] }
  | .text str refused =>
    if refused then none
    else
      (strcpy (str.length + 1) str).bind fun _ =>
      some { s.malloc.2 with objs := s.malloc.2.objs ++ [some ⟨[], none, some s.malloc.1⟩] }
  | .copy i =>
    match s.obj i with
    | none => some s
    | some o => some { s with objs := s.objs ++ [some o] }
  | .query i =>
    match s.obj i with
    | none => some s
    | some o => if ∀ b ∈ o.blocks, b ∈ s.live then some s else none
  | .destroy i =>
    match s.obj i with
    | none => some s
    | some o => (s.freeAll o.blocks).map fun s => { s with objs := s.objs.set i none }

/-- A history. -/
def run (s : State) : List Op → UB State
  | [] => some s
  | o :: os => (step s o).bind fun s => run s os

/-- Before anything is made. -/
def start : State := ⟨0, [], []⟩

/-! ## Specification -/

/-- The blocks of the objects that are there. -/
def State.owned (s : State) : List Nat := s.objs.flatMap fun o => (o.map Obj.blocks).getD []

/-- No memory is refused by the operation, and it copies nothing that has memory. -/
def Fine (s : State) : Op → Prop
  | .nothing => True
  | .list names refused => refused = none ∨ names = [] ∧ refused = some 0
  | .text _ refused => refused = false
  | .copy i => ∀ o, s.obj i = some o → o.blocks = []
  | .query _ => True
  | .destroy _ => True

/-- Every operation of the history is fine when it is its turn. -/
def AllFine (s : State) : List Op → Prop
  | [] => True
  | o :: os => Fine s o ∧ ∀ s', step s o = some s' → AllFine s' os

/-! ## Lemmas -/

/-- The blocks in use are those of the objects, each once. -/
def Inv (s : State) : Prop := s.live.Nodup ∧ s.live.Perm s.owned ∧ ∀ b ∈ s.live, b < s.next

theorem strcpy_fits (n : CStr) : strcpy (n.length + 1) n = some () := by
  have := (List.takeWhile_sublist (l := n) (fun c => decide (c ≠ 0))).length_le
  simp only [strcpy]
  rw [if_pos (by omega)]

theorem freeAll_spec (bs rest : List Nat) (s : State) (hn : s.live.Nodup) (hp : s.live.Perm (bs ++ rest)) :
    ∃ l, s.freeAll bs = some { s with live := l } ∧ l.Nodup ∧ l.Perm rest := by
  induction bs generalizing s with
  | nil => exact ⟨s.live, rfl, hn, hp⟩
  | cons b bs ih =>
    have hb : b ∈ s.live := hp.mem_iff.mpr (by simp)
    have hp' : (s.live.erase b).Perm (bs ++ rest) := by
      have := hp.erase b
      simpa using this
    obtain ⟨l, h1, h2, h3⟩ := ih { s with live := s.live.erase b } (hn.erase b) hp'
    refine ⟨l, ?_, h2, h3⟩
    simp only [State.freeAll, State.free, if_pos hb, Option.bind_some]
    exact h1

theorem copyNames_spec (names : List CStr) (k : Nat) (s : State) :
    ∃ bs s', copyNames none k names s = some (bs, s') ∧ s'.live = bs.reverse ++ s.live ∧ s'.objs = s.objs ∧
      s.next ≤ s'.next ∧ bs.Nodup ∧ ∀ b ∈ bs, s.next ≤ b ∧ b < s'.next := by
  induction names generalizing k s with
  | nil => exact ⟨[], s, rfl, by simp⟩
  | cons n ns ih =>
    obtain ⟨bs, s', h1, h2, h3, h4, h5, h6⟩ := ih (k + 1) s.malloc.2
    have hm : s.malloc.2.next = s.next + 1 := rfl
    have hl : s.malloc.2.live = s.next :: s.live := rfl
    have hf : s.malloc.1 = s.next := rfl
    refine ⟨s.next :: bs, s', ?_, ?_, h3, by omega, ?_, ?_⟩
    · simp only [copyNames, reduceCtorEq, if_false, strcpy_fits, Option.bind_some, h1, Option.map_some, hf]
    · rw [h2, hl]; simp
    · rw [List.nodup_cons]
      exact ⟨fun h => by have := (h6 _ h).1; omega, h5⟩
    · intro b hb
      rcases List.mem_cons.mp hb with rfl | hb
      · omega
      · have := h6 b hb; omega

theorem owned_append (s : State) (o : Obj) :
    ({ s with objs := s.objs ++ [some o] } : State).owned = s.owned ++ o.blocks := by
  simp [State.owned]

/-- A new object with new blocks. -/
theorem inv_new {s : State} (h : Inv s) (bs : List Nat) (o : Obj) (next : Nat) (live : List Nat)
    (hl : live.Perm (bs ++ s.live)) (ho : o.blocks.Perm bs) (hn : bs.Nodup)
    (hb : ∀ b ∈ bs, s.next ≤ b ∧ b < next) (hle : s.next ≤ next) :
    Inv ⟨next, live, s.objs ++ [some o]⟩ := by
  obtain ⟨h1, h2, h3⟩ := h
  have hd : (bs ++ s.live).Nodup := by
    rw [List.nodup_append]
    refine ⟨hn, h1, ?_⟩
    rintro a ha b hb' rfl
    have := (hb a ha).1
    have := h3 a hb'
    omega
  refine ⟨hl.nodup_iff.mpr hd, ?_, ?_⟩
  · have e : (⟨next, live, s.objs ++ [some o]⟩ : State).owned = s.owned ++ o.blocks := by simp [State.owned]
    rw [e]
    exact hl.trans (List.perm_append_comm.trans (h2.append ho.symm))
  · intro b hb'
    have hb' := hl.mem_iff.mp hb'
    rcases List.mem_append.mp hb' with hb' | hb'
    · exact (hb b hb').2
    · have := h3 b hb'; exact Nat.lt_of_lt_of_le this hle

theorem owned_split (objs : List (Option Obj)) (i : Nat) (o : Obj) (h : (objs[i]?).join = some o) :
    (objs.flatMap fun o => (o.map Obj.blocks).getD []).Perm
      (o.blocks ++ (objs.set i none).flatMap fun o => (o.map Obj.blocks).getD []) := by
  induction objs generalizing i with
  | nil => simp at h
  | cons x objs ih =>
    cases i with
    | zero =>
      simp only [List.getElem?_cons_zero, Option.join_some] at h
      subst h
      simp
    | succ i =>
      have := ih i (by simpa using h)
      simp only [List.flatMap_cons, List.set_cons_succ]
      refine (this.append_left _).trans ?_
      rw [← List.append_assoc, ← List.append_assoc]
      exact List.perm_append_comm.append_right _

theorem step_inv {s : State} (h : Inv s) (o : Op) (hf : Fine s o) : ∃ s', step s o = some s' ∧ Inv s' := by
  cases o with
  | nothing =>
    refine ⟨_, rfl, ?_⟩
    exact inv_new h [] ⟨[], none, none⟩ s.next s.live (by simp) (by simp [Obj.blocks]) (by simp) (by simp)
      (Nat.le_refl _)
  | list names refused =>
    rcases hf with rfl | ⟨rfl, rfl⟩
    · obtain ⟨bs, s', h1, h2, h3, h4, h5, h6⟩ := copyNames_spec names 0 s.malloc.2
      have hm : s.malloc.2.next = s.next + 1 := rfl
      have hl : s.malloc.2.live = s.next :: s.live := rfl
      have ho : s.malloc.2.objs = s.objs := rfl
      have hc : construct names none s = some (⟨bs, some s.next, none⟩, s') := by
        simp only [construct, reduceCtorEq, if_false, h1, Option.map_some]
        rfl
      refine ⟨⟨s'.next, s'.live, s'.objs ++ [some ⟨bs, some s.next, none⟩]⟩, ?_, ?_⟩
      · simp only [step, hc, Option.map_some]
      · rw [h3, ho]
        refine inv_new h (s.next :: bs) _ _ _ ?_ ?_ ?_ ?_ (by omega)
        · rw [h2, hl]
          have : (bs.reverse ++ s.next :: s.live).Perm (bs ++ s.next :: s.live) :=
            (List.reverse_perm bs).append_right _
          exact this.trans List.perm_middle
        · simp only [Obj.blocks, Option.isSome_some, if_true, Option.toList_some, Option.toList_none,
            List.append_nil]
          exact List.perm_append_comm
        · rw [List.nodup_cons]
          exact ⟨fun hx => by have := (h6 _ hx).1; omega, h5⟩
        · intro b hb
          rcases List.mem_cons.mp hb with rfl | hb
          · omega
          · have := h6 b hb; omega
    · refine ⟨⟨s.next, s.live, s.objs ++ [some ⟨[], none, none⟩]⟩, by simp [step, construct], ?_⟩
      exact inv_new h [] ⟨[], none, none⟩ s.next s.live (by simp) (by simp [Obj.blocks]) (by simp) (by simp)
        (Nat.le_refl _)
  | text str refused =>
    simp only [Fine] at hf
    subst hf
    refine ⟨⟨s.next + 1, s.next :: s.live, s.objs ++ [some ⟨[], none, some s.next⟩]⟩, ?_, ?_⟩
    · simp only [step, Bool.false_eq_true, if_false, strcpy_fits, Option.bind_some, State.malloc]
    · exact inv_new h [s.next] _ _ _ (by simp) (by simp [Obj.blocks]) (by simp) (by simp) (by omega)
  | copy i =>
    simp only [step]
    rcases ho : s.obj i with _ | o
    · exact ⟨s, rfl, h⟩
    · have hb := hf o ho
      refine ⟨_, rfl, ?_⟩
      exact inv_new h [] o s.next s.live (by simp) (by rw [hb]) (by simp) (by simp) (Nat.le_refl _)
  | query i =>
    simp only [step]
    rcases ho : s.obj i with _ | o
    · exact ⟨s, rfl, h⟩
    · refine ⟨s, ?_, h⟩
      simp only
      rw [if_pos]
      intro b hb
      rw [h.2.1.mem_iff, State.owned, (owned_split s.objs i o ho).mem_iff]
      simp [hb]
  | destroy i =>
    simp only [step]
    rcases ho : s.obj i with _ | o
    · exact ⟨s, rfl, h⟩
    · have hp := h.2.1.trans (owned_split s.objs i o ho)
      obtain ⟨l, h1, h2, h3⟩ := freeAll_spec _ _ s h.1 hp
      refine ⟨⟨s.next, l, s.objs.set i none⟩, ?_, h2, h3, ?_⟩
      · simp only [h1, Option.map_some]
      · intro b hb
        refine h.2.2 b (hp.mem_iff.mpr ?_)
        exact List.mem_append.mpr (.inr (h3.mem_iff.mp hb))

theorem run_inv {s : State} (h : Inv s) (os : List Op) (hf : AllFine s os) : ∃ s', run s os = some s' ∧ Inv s' := by
  induction os generalizing s with
  | nil => exact ⟨s, rfl, h⟩
  | cons o os ih =>
    obtain ⟨s1, h1, h2⟩ := step_inv h o hf.1
    obtain ⟨s2, h3, h4⟩ := ih h2 (hf.2 s1 h1)
    exact ⟨s2, by simp only [run, h1, Option.bind_some, h3], h4⟩

/-! ## Theorems -/

/-- C112, partial: however many configurations are made from lists and texts, queried and destroyed, nothing is written
past a block, used after it was freed or freed twice, and at any time the blocks in use are those of the
configurations there are, each once. Missing: copies of configurations with memory, see `C112_copy_violated`; refused
memory, see `C112_refused_violated`. -/
theorem C112_owned_partial (os : List Op) (hf : AllFine start os) :
    ∃ s, run start os = some s ∧ s.live.Nodup ∧ s.live.Perm s.owned := by
  obtain ⟨s, h1, h2, h3, -⟩ := run_inv (s := start) ⟨by simp [start], by simp [start, State.owned], by simp [start]⟩ os hf
  exact ⟨s, h1, h2, h3⟩

/-- C112, partial: when all configurations have been destroyed no memory is left. Missing: as above. -/
theorem C112_freed_partial (os : List Op) (hf : AllFine start os) (s : State) (hr : run start os = some s)
    (hd : ∀ o ∈ s.objs, o = none) : s.live = [] := by
  obtain ⟨s', h1, -, h3⟩ := C112_owned_partial os hf
  rw [hr, Option.some.injEq] at h1
  subst h1
  have : s.owned = [] := by
    simp only [State.owned, List.flatMap_eq_nil_iff]
    intro o ho
    rw [hd o ho]
    rfl
  rw [this] at h3
  exact h3.eq_nil

/-- C112 is violated for every text: a configuration and its copy have the same block, so when both are destroyed it is
freed twice, and when one is destroyed a query of the other reads freed memory. -/
theorem C112_copy_violated (str : CStr) :
    run start [.text str false, .copy 0, .destroy 0, .destroy 1] = none ∧
    run start [.text str false, .copy 0, .destroy 0, .query 1] = none := by
  simp [run, step, start, strcpy_fits, State.malloc, State.obj, Obj.blocks, State.freeAll, State.free]

/-- C112 is violated: without memory the constructors write to NULL. -/
theorem C112_refused_violated (str : CStr) (names : List CStr) (k : Nat) (hk : k ≤ names.length) (hn : names ≠ []) :
    run start [.text str true] = none ∧ run start [.list names (some k)] = none := by
  refine ⟨rfl, ?_⟩
  have loop : ∀ (ns : List CStr) (j : Nat) (s : State), j < k → k ≤ j + ns.length →
      copyNames (some k) j ns s = none := by
    intro ns
    induction ns with
    | nil => intro j s h1 h2; simp at h2; omega
    | cons n ns ih =>
      intro j s h1 h2
      simp only [copyNames, Option.some.injEq]
      split
      · rfl
      · rw [strcpy_fits, Option.bind_some, ih (j + 1) _ (by omega) (by simp at h2; omega)]
        rfl
  simp only [run, step, construct, Option.some.injEq]
  by_cases h0 : k = 0
  · simp [h0, hn]
  · rw [if_neg h0, loop names 0 _ (by omega) (by omega)]
    rfl

/-- Two configurations, one destroyed; an empty one copied. -/
example : AllFine start [.list [c!"A", c!"Bc"] none, .nothing, .copy 1, .text c!"X,Y" false, .query 0, .destroy 0] ∧
    run start [.list [c!"A", c!"Bc"] none, .nothing, .copy 1, .text c!"X,Y" false, .query 0, .destroy 0] =
      some ⟨4, [3], [none, some ⟨[], none, none⟩, some ⟨[], none, none⟩, some ⟨[], none, some 3⟩]⟩ := by
  refine ⟨?_, by decide⟩
  refine ⟨.inl rfl, fun s1 h1 => ⟨trivial, fun s2 h2 => ⟨?_, fun s3 h3 => ⟨rfl, fun s4 h4 => ⟨trivial, fun s5 h5 =>
    ⟨trivial, fun _ _ => trivial⟩⟩⟩⟩⟩⟩
  have e1 : step start (.list [c!"A", c!"Bc"] none) = some ⟨3, [2, 1, 0], [some ⟨[1, 2], some 0, none⟩]⟩ := by decide
  rw [e1, Option.some.injEq] at h1
  subst h1
  simp only [step, Option.some.injEq] at h2
  subst h2
  intro o ho
  simp [State.obj] at ho
  subst ho
  rfl

end Verif.Config.Owner
