import Verif.Evidence.Props
import Mathlib.Data.List.Perm.Basic
import Mathlib.Data.List.Nodup

/-! # C97: evidence objects (EvidenceBase.cpp)

An object is a `map<string, string>` with a pointer to the array last made from it, whose items point into the texts of the
map. Memory is cells by address; use of a cell that is not there is undefined. -/

namespace Verif.Evidence.Object

/-! ## Model -/

/-- The pointers of a `fiftyoneDegreesEvidenceKeyValuePair`: the field is `skip` bytes into the text of the key. -/
structure Item where
  pfx : Nat
  keyAt : Nat
  skip : Nat
  valueAt : Nat
deriving DecidableEq, Repr

/-- What is at an address: the text of a string, or an array of evidence. -/
inductive Cell where
  | text (s : CStr)
  | array (items : List Item)
deriving DecidableEq, Repr

/-- The memory. -/
structure Mem where
  next : Nat
  cell : Nat → Option Cell

/-- New memory with this in it. -/
def Mem.new (m : Mem) (c : Cell) : Mem × Nat :=
  (⟨m.next + 1, fun a => if a = m.next then some c else m.cell a⟩, m.next)

/-- Memory given back. -/
def Mem.free (m : Mem) (a : Nat) : UB Mem :=
  match m.cell a with
  | none => none
  | some _ => some { m with cell := fun b => if b = a then none else m.cell b }

/-- Memory written to. -/
def Mem.write (m : Mem) (a : Nat) (c : Cell) : UB Mem :=
  match m.cell a with
  | none => none
  | some _ => some { m with cell := fun b => if b = a then some c else m.cell b }

/-- A node of the map: key and value, and where their texts are. -/
structure Entry where
  key : CStr
  keyAt : Nat
  value : CStr
  valueAt : Nat
deriving DecidableEq, Repr

/-- `EvidenceBase`, EvidenceBase.hpp:67-135: the nodes of the map in their order, and `evidence`, the pointer with what was
written there. -/
structure Obj where
  entries : List Entry
  evidence : Option (Nat × List Item)
deriving DecidableEq, Repr

/-- The constructor, EvidenceBase.cpp:29-31. -/
def Obj.empty : Obj := ⟨[], none⟩

/-- `std::less<string>`. -/
def keyLt : CStr → CStr → Bool
  | _, [] => false
  | [], _ :: _ => true
  | x :: a, y :: b => x < y || (x = y && keyLt a b)

/-- `evidence[k] = v` of the `map`: a value that is there already is assigned, either in its place or, if `moves`, in new
memory, as `string` does when there is not enough room. -/
def assign (moves : Bool) (k v : CStr) : List Entry → Mem → UB (Mem × List Entry)
  | [], m =>
    let (m, a) := m.new (.text k)
    let (m, b) := m.new (.text v)
    some (m, [⟨k, a, v, b⟩])
  | e :: es, m =>
    if e.key = k then
      if moves then do
        let m ← m.free e.valueAt
        let (m, b) := m.new (.text v)
        some (m, { e with value := v, valueAt := b } :: es)
      else do
        let m ← m.write e.valueAt (.text v)
        some (m, { e with value := v } :: es)
    else if keyLt k e.key then
      let (m, a) := m.new (.text k)
      let (m, b) := m.new (.text v)
      some (m, ⟨k, a, v, b⟩ :: e :: es)
    else do
      let (m, es) ← assign moves k v es m
      some (m, e :: es)

/-- The nodes destroyed. -/
def freeEntries (m : Mem) : List Entry → UB Mem
  | [] => some m
  | e :: es => do
    let m ← m.free e.keyAt
    let m ← m.free e.valueAt
    freeEntries m es

/-- `EvidenceFree`, evidence.c:71-74. `Free` of NULL does nothing, but `MemoryTrackingFree` looks NULL up and uses the record it
does not find, memory.c:157-183. -/
def freeEvidence (tracking : Bool) (m : Mem) : Option (Nat × List Item) → UB Mem
  | some p => m.free p.1
  | none => if tracking then none else some m

/-- `erase` of a range, EvidenceBase.cpp:87-91, from one position to before another; `erase` of a position, 81-85, is that of
one node, and `clear`, 75-79, that of all. -/
def erase (tracking : Bool) (i j : Nat) (m : Mem) (o : Obj) : UB (Mem × Obj) :=
  if i ≤ j ∧ j ≤ o.entries.length then do
    let m ← freeEntries m ((o.entries.take j).drop i)
    let m ← freeEvidence tracking m o.evidence
    some (m, ⟨o.entries.take i ++ o.entries.drop j, none⟩)
  else none

/-- The part of `get` and of the destructor that frees the array, EvidenceBase.cpp:34-37, 41-44. -/
def drop (m : Mem) : Option (Nat × List Item) → UB Mem
  | some p => m.free p.1
  | none => some m

/-- The items of the loop, EvidenceBase.cpp:47-59, with `EvidenceAddString`, evidence.c:76-90. -/
def build (isRelevant : Nat → Bool) (capacity : Nat) : List Entry → List Item → List Item
  | [], items => items
  | e :: es, items =>
    match mapPrefix e.key with
    | some p =>
      if isRelevant p.prefixEnum then
        if items.length < capacity then
          build isRelevant capacity es (items ++ [⟨p.prefixEnum, e.keyAt, p.prefixLength, e.valueAt⟩])
        else build isRelevant capacity es items
      else build isRelevant capacity es items
    | none => build isRelevant capacity es items

/-- `EvidenceBase::get`, EvidenceBase.cpp:40-62; `alloc` says whether `EvidenceCreate` succeeds. -/
def get (isRelevant : Nat → Bool) (alloc : Bool) (m : Mem) (o : Obj) : UB (Mem × Obj) := do
  let m ← drop m o.evidence
  if alloc then
    let items := build isRelevant o.entries.length o.entries []
    let (m, a) := m.new (.array items)
    some (m, { o with evidence := some (a, items) })
  else some (m, { o with evidence := none })

/-- The destructors of `EvidenceBase`, EvidenceBase.cpp:33-38, and of the map. -/
def destroy (m : Mem) (o : Obj) : UB Mem := do
  let m ← drop m o.evidence
  freeEntries m o.entries

/-- What can be done to an object. -/
inductive Op where
  | assign (moves : Bool) (k v : CStr)
  | erase (i j : Nat)
  | get (isRelevant : Nat → Bool) (alloc : Bool)

/-- A call. -/
def apply (tracking : Bool) (m : Mem) (o : Obj) : Op → UB (Mem × Obj)
  | .assign moves k v => (assign moves k v o.entries m).map fun r => (r.1, { o with entries := r.2 })
  | .erase i j => Object.erase tracking i j m o
  | .get isRelevant alloc => Object.get isRelevant alloc m o

/-- The copy constructor the compiler makes: the nodes are copied and the pointer is too. -/
def copyEntries (m : Mem) : List Entry → Mem × List Entry
  | [] => (m, [])
  | e :: es =>
    let (m, a) := m.new (.text e.key)
    let (m, b) := m.new (.text e.value)
    let (m, es) := copyEntries m es
    (m, ⟨e.key, a, e.value, b⟩ :: es)

/-- As above. -/
def copy (m : Mem) (o : Obj) : Mem × Obj :=
  let r := copyEntries m o.entries
  (r.1, ⟨r.2, o.evidence⟩)

/-- The calls of a program with several objects. -/
inductive Call where
  | create
  | destroy (i : Nat)
  | op (i : Nat) (op : Op)

/-- The memory and the objects; those destroyed are `none`. -/
structure World where
  mem : Mem
  objs : List (Option Obj)

/-- A call; one on an object that is not there is undefined. -/
def World.step (tracking : Bool) (w : World) : Call → UB World
  | .create => some { w with objs := w.objs ++ [some .empty] }
  | .destroy i =>
    match w.objs[i]? with
    | some (some o) => (Object.destroy w.mem o).map fun m => ⟨m, w.objs.set i none⟩
    | _ => none
  | .op i op =>
    match w.objs[i]? with
    | some (some o) => (apply tracking w.mem o op).map fun r => ⟨r.1, w.objs.set i (some r.2)⟩
    | _ => none

/-- Calls one after the other. -/
def World.run (tracking : Bool) (w : World) : List Call → UB World
  | [] => some w
  | c :: cs => do
    let w ← w.step tracking c
    w.run tracking cs

/-! ## What is wanted -/

/-- What a caller reads in an array: the pairs, `none` if a pointer is to memory that is not there or no text. -/
def readItem (m : Mem) (i : Item) : Option Pair :=
  match m.cell i.keyAt, m.cell i.valueAt with
  | some (.text k), some (.text v) => some ⟨i.pfx, k.drop i.skip, some v, none⟩
  | _, _ => none

/-- As above. -/
def read (m : Mem) (a : Nat) : Option (List Pair) :=
  match m.cell a with
  | some (.array items) => items.mapM (readItem m)
  | _ => none

/-- The keys and values of an object. -/
def Obj.pairs (o : Obj) : List (CStr × CStr) := o.entries.map fun e => (e.key, e.value)

/-- The memory of some nodes. -/
def entryCells (es : List Entry) : List (Nat × Cell) :=
  es.flatMap fun e => [(e.keyAt, .text e.key), (e.valueAt, .text e.value)]

/-- The memory of an object. -/
def Obj.cells (o : Obj) : List (Nat × Cell) :=
  entryCells o.entries ++ o.evidence.toList.map fun p => (p.1, .array p.2)

/-- The memory of several objects. -/
def allCells (os : List (Option Obj)) : List (Nat × Cell) := os.flatMap fun o => (o.map Obj.cells).getD []

/-- Exactly these cells are in memory, each at its own address. -/
structure Own (cs : List (Nat × Cell)) (m : Mem) : Prop where
  nodup : (cs.map Prod.fst).Nodup
  lt : ∀ p ∈ cs, p.1 < m.next
  cell : ∀ a c, m.cell a = some c ↔ (a, c) ∈ cs

/-! ## Lemmas -/

theorem Own.perm {cs ds : List (Nat × Cell)} {m : Mem} (h : Own cs m) (p : cs.Perm ds) : Own ds m :=
  ⟨(p.map Prod.fst).nodup_iff.1 h.nodup, fun q hq => h.lt q (p.mem_iff.2 hq), fun a c => (h.cell a c).trans p.mem_iff⟩

theorem Own.new {cs : List (Nat × Cell)} {m : Mem} (h : Own cs m) (c : Cell) :
    Own ((m.next, c) :: cs) (m.new c).1 := by
  have hn : ∀ d, (m.next, d) ∉ cs := fun d hd => Nat.lt_irrefl _ (h.lt _ hd)
  refine ⟨?_, ?_, ?_⟩
  · rw [List.map_cons, List.nodup_cons]
    refine ⟨fun hm => ?_, h.nodup⟩
    obtain ⟨q, hq, e⟩ := List.mem_map.1 hm
    have := h.lt q hq
    simp only at e
    omega
  · intro q hq
    show q.1 < m.next + 1
    rcases List.mem_cons.1 hq with rfl | hq
    · exact Nat.lt_succ_self _
    · exact Nat.lt_succ_of_lt (h.lt q hq)
  · intro a d
    show (if a = m.next then some c else m.cell a) = some d ↔ _
    by_cases ha : a = m.next
    · subst ha
      rw [if_pos rfl, List.mem_cons]
      constructor
      · intro e; cases e; exact .inl rfl
      · rintro (e | e)
        · cases e; rfl
        · exact absurd e (hn d)
    · rw [if_neg ha, h.cell, List.mem_cons]
      constructor
      · exact .inr
      · rintro (e | e)
        · cases e; exact absurd rfl ha
        · exact e

theorem Own.head_ne {cs : List (Nat × Cell)} {m : Mem} {a : Nat} {c : Cell} (h : Own ((a, c) :: cs) m) :
    ∀ d, (a, d) ∉ cs := by
  have := (List.nodup_cons.1 h.nodup).1
  intro d hd
  exact this (List.mem_map.2 ⟨_, hd, rfl⟩)

theorem Own.free {cs : List (Nat × Cell)} {m : Mem} {a : Nat} {c : Cell} (h : Own ((a, c) :: cs) m) :
    ∃ m', m.free a = some m' ∧ Own cs m' := by
  have hc : m.cell a = some c := (h.cell a c).2 (List.mem_cons_self ..)
  refine ⟨{ m with cell := fun b => if b = a then none else m.cell b }, by rw [Mem.free, hc], ?_, ?_, ?_⟩
  · exact (List.nodup_cons.1 h.nodup).2
  · exact fun q hq => h.lt q (List.mem_cons_of_mem _ hq)
  · intro b d
    show (if b = a then none else m.cell b) = some d ↔ _
    by_cases hb : b = a
    · subst hb
      rw [if_pos rfl]
      exact ⟨fun e => (nomatch e), fun e => absurd e (h.head_ne d)⟩
    · rw [if_neg hb, h.cell, List.mem_cons]
      constructor
      · rintro (e | e)
        · cases e; exact absurd rfl hb
        · exact e
      · exact .inr

theorem Own.write {cs : List (Nat × Cell)} {m : Mem} {a : Nat} {c : Cell} (h : Own ((a, c) :: cs) m) (d : Cell) :
    ∃ m', m.write a d = some m' ∧ Own ((a, d) :: cs) m' := by
  have hc : m.cell a = some c := (h.cell a c).2 (List.mem_cons_self ..)
  refine ⟨{ m with cell := fun b => if b = a then some d else m.cell b }, by rw [Mem.write, hc], ?_, ?_, ?_⟩
  · exact h.nodup
  · intro q hq
    rcases List.mem_cons.1 hq with rfl | hq
    · exact h.lt (a, c) (List.mem_cons_self ..)
    · exact h.lt q (List.mem_cons_of_mem _ hq)
  · intro b x
    show (if b = a then some d else m.cell b) = some x ↔ _
    by_cases hb : b = a
    · subst hb
      rw [if_pos rfl, List.mem_cons]
      constructor
      · intro e; cases e; exact .inl rfl
      · rintro (e | e)
        · cases e; rfl
        · exact absurd e (h.head_ne x)
    · rw [if_neg hb, h.cell, List.mem_cons, List.mem_cons]
      constructor
      · rintro (e | e)
        · cases e; exact absurd rfl hb
        · exact .inr e
      · rintro (e | e)
        · cases e; exact absurd rfl hb
        · exact .inr e

theorem entryCells_cons (e : Entry) (es : List Entry) :
    entryCells (e :: es) = (e.keyAt, .text e.key) :: (e.valueAt, .text e.value) :: entryCells es := rfl

theorem entryCells_append (es fs : List Entry) : entryCells (es ++ fs) = entryCells es ++ entryCells fs := by
  rw [entryCells, entryCells, entryCells, List.flatMap_append]

theorem freeEntries_own (es : List Entry) : ∀ {rest : List (Nat × Cell)} {m : Mem}, Own (entryCells es ++ rest) m →
    ∃ m', freeEntries m es = some m' ∧ Own rest m' := by
  induction es with
  | nil => intro rest m h; exact ⟨m, rfl, h⟩
  | cons e es ih =>
    intro rest m h
    obtain ⟨m1, e1, h1⟩ := Own.free h
    obtain ⟨m2, e2, h2⟩ := Own.free h1
    obtain ⟨m3, e3, h3⟩ := ih h2
    exact ⟨m3, by simp [freeEntries, e1, e2, e3], h3⟩

theorem drop_own {ev : Option (Nat × List Item)} {rest : List (Nat × Cell)} {m : Mem}
    (h : Own (ev.toList.map (fun p => (p.1, Cell.array p.2)) ++ rest) m) : ∃ m', drop m ev = some m' ∧ Own rest m' := by
  cases ev with
  | none => exact ⟨m, rfl, h⟩
  | some p => exact Own.free h

theorem assign_own (moves : Bool) (k v : CStr) (es : List Entry) : ∀ {rest : List (Nat × Cell)} {m : Mem},
    Own (entryCells es ++ rest) m →
    ∃ m' es', assign moves k v es m = some (m', es') ∧ Own (entryCells es' ++ rest) m' ∧
      (∀ e ∈ es, e.key ≠ k → e ∈ es') := by
  induction es with
  | nil =>
    intro rest m h
    have h2 := (h.new (.text k)).new (.text v)
    refine ⟨_, _, rfl, h2.perm (List.Perm.swap _ _ _), fun e he => absurd he (List.not_mem_nil)⟩
  | cons e es ih =>
    intro rest m h
    rw [assign]
    by_cases hk : e.key = k
    · rw [if_pos hk]
      have hv : Own ((e.valueAt, .text e.value) :: (e.keyAt, .text e.key) :: (entryCells es ++ rest)) m :=
        h.perm (List.Perm.swap _ _ _)
      cases moves with
      | true =>
        obtain ⟨m1, e1, h1⟩ := hv.free
        have h2 := h1.new (.text v)
        simp only [if_true]
        refine ⟨_, _, by rw [e1]; rfl, h2.perm (List.Perm.swap _ _ _), fun x hx hne => ?_⟩
        rcases List.mem_cons.1 hx with rfl | hx
        · exact absurd hk hne
        · exact List.mem_cons_of_mem _ hx
      | false =>
        obtain ⟨m1, e1, h1⟩ := hv.write (.text v)
        simp only [Bool.false_eq_true, if_false]
        refine ⟨_, _, by rw [e1]; rfl, h1.perm (List.Perm.swap _ _ _), fun x hx hne => ?_⟩
        rcases List.mem_cons.1 hx with rfl | hx
        · exact absurd hk hne
        · exact List.mem_cons_of_mem _ hx
    · rw [if_neg hk]
      by_cases hl : keyLt k e.key = true
      · rw [if_pos hl]
        have h2 := (h.new (.text k)).new (.text v)
        exact ⟨_, _, rfl, h2.perm (List.Perm.swap _ _ _), fun x hx _ => List.mem_cons_of_mem _ hx⟩
      · rw [if_neg hl]
        have h1 : Own (entryCells es ++ ((e.keyAt, .text e.key) :: (e.valueAt, .text e.value) :: rest)) m := by
          refine h.perm ?_
          rw [entryCells_cons, List.cons_append, List.cons_append]
          exact (List.perm_middle.trans (List.Perm.cons _ List.perm_middle)).symm
        obtain ⟨m', es', e1, h2, h3⟩ := ih h1
        rw [e1]
        refine ⟨_, _, rfl, h2.perm ?_, fun x hx hne => ?_⟩
        · rw [entryCells_cons, List.cons_append, List.cons_append]
          exact List.perm_middle.trans (List.Perm.cons _ List.perm_middle)
        · rcases List.mem_cons.1 hx with rfl | hx
          · exact List.mem_cons_self ..
          · exact List.mem_cons_of_mem _ (h3 x hx hne)

/-- A call that is allowed: positions within the map; and with memory tracking nothing is erased before there is an array. -/
def Allowed (tracking : Bool) (o : Obj) : Op → Prop
  | .assign _ _ _ => True
  | .erase i j => i ≤ j ∧ j ≤ o.entries.length ∧ (tracking = true → o.evidence ≠ none)
  | .get _ _ => True

theorem take_drop_split (es : List Entry) {i j : Nat} (h : i ≤ j) :
    es = es.take i ++ ((es.take j).drop i ++ es.drop j) := by
  have h1 : es.take i ++ (es.take j).drop i = es.take j := by
    conv_rhs => rw [← List.take_append_drop i (es.take j)]
    rw [List.take_take, Nat.min_eq_left h]
  rw [← List.append_assoc, h1, List.take_append_drop]

theorem apply_own {tracking : Bool} {o : Obj} {op : Op} (ha : Allowed tracking o op) {rest : List (Nat × Cell)} {m : Mem}
    (h : Own (o.cells ++ rest) m) :
    ∃ m' o', apply tracking m o op = some (m', o') ∧ Own (o'.cells ++ rest) m' := by
  rw [Obj.cells, List.append_assoc] at h
  cases op with
  | assign moves k v =>
    obtain ⟨m', es', e, h1, -⟩ := assign_own moves k v o.entries h
    refine ⟨m', { o with entries := es' }, by rw [apply, e]; rfl, ?_⟩
    rw [Obj.cells, List.append_assoc]
    exact h1
  | erase i j =>
    obtain ⟨h1, h2, h3⟩ := ha
    have hs := take_drop_split o.entries h1
    rw [hs, entryCells_append, entryCells_append] at h
    have hp : Own (entryCells ((o.entries.take j).drop i) ++
        (o.evidence.toList.map (fun p => (p.1, Cell.array p.2)) ++
          (entryCells (o.entries.take i ++ o.entries.drop j) ++ rest))) m := by
      refine h.perm ?_
      rw [entryCells_append]
      generalize entryCells (o.entries.take i) = A
      generalize entryCells ((o.entries.take j).drop i) = B
      generalize entryCells (o.entries.drop j) = C
      generalize (o.evidence.toList.map fun p => (p.1, Cell.array p.2)) = D
      rw [List.perm_iff_count]
      intro x
      simp only [List.count_append]
      omega
    obtain ⟨m1, e1, p1⟩ := freeEntries_own _ hp
    obtain ⟨m2, e2, p2⟩ := drop_own p1
    have e3 : freeEvidence tracking m1 o.evidence = some m2 := by
      cases hev : o.evidence with
      | some p => rw [hev] at e2; exact e2
      | none =>
        rw [hev] at e2 h3
        cases tracking with
        | true => exact absurd rfl (h3 rfl)
        | false => exact e2
    refine ⟨m2, ⟨o.entries.take i ++ o.entries.drop j, none⟩, ?_, ?_⟩
    · rw [apply, erase, if_pos ⟨h1, h2⟩]
      simp [e1, e3]
    · simpa [Obj.cells] using p2
  | get rel alloc =>
    have hp := h.perm (List.perm_append_comm_assoc (entryCells o.entries) _ rest)
    obtain ⟨m1, e1, p1⟩ := drop_own hp
    cases alloc with
    | true =>
      have p2 := p1.new (.array (build rel o.entries.length o.entries []))
      refine ⟨_, { o with evidence := some (m1.next, build rel o.entries.length o.entries []) }, ?_, p2.perm ?_⟩
      · rw [apply, get, e1]; rfl
      · rw [Obj.cells, List.append_assoc]
        exact List.perm_middle.symm
    | false =>
      refine ⟨m1, { o with evidence := none }, ?_, ?_⟩
      · rw [apply, get, e1]; rfl
      · simpa [Obj.cells] using p1

theorem destroy_own {o : Obj} {rest : List (Nat × Cell)} {m : Mem} (h : Own (o.cells ++ rest) m) :
    ∃ m', destroy m o = some m' ∧ Own rest m' := by
  rw [Obj.cells, List.append_assoc] at h
  obtain ⟨m1, e1, p1⟩ := drop_own (h.perm (List.perm_append_comm_assoc _ _ _))
  obtain ⟨m2, e2, p2⟩ := freeEntries_own _ p1
  exact ⟨m2, by rw [destroy, e1]; exact e2, p2⟩

theorem allCells_split {os : List (Option Obj)} {i : Nat} {x : Option Obj} (h : os[i]? = some x) :
    ∃ r, (∀ y, (allCells (os.set i y)).Perm ((y.map Obj.cells).getD [] ++ r)) := by
  have hi : i < os.length := (List.getElem?_eq_some_iff.1 h).1
  refine ⟨allCells (os.take i) ++ allCells (os.drop (i + 1)), fun y => ?_⟩
  rw [List.set_eq_take_append_cons_drop, if_pos hi, allCells, List.flatMap_append, List.flatMap_cons]
  exact List.perm_append_comm_assoc _ _ _

theorem set_self {os : List (Option Obj)} {i : Nat} {x : Option Obj} (h : os[i]? = some x) : os.set i x = os := by
  obtain ⟨hi, rfl⟩ := List.getElem?_eq_some_iff.1 h
  exact List.set_getElem_self hi

/-- A call that is allowed: the object is there, and the call on it is allowed. -/
def World.Allows (tracking : Bool) (w : World) : Call → Prop
  | .create => True
  | .destroy i => ∃ o, w.objs[i]? = some (some o)
  | .op i op => ∃ o, w.objs[i]? = some (some o) ∧ Allowed tracking o op

theorem step_own {tracking : Bool} {w : World} {c : Call} (ha : w.Allows tracking c) {rest : List (Nat × Cell)}
    (h : Own (allCells w.objs ++ rest) w.mem) :
    ∃ w', w.step tracking c = some w' ∧ Own (allCells w'.objs ++ rest) w'.mem := by
  cases c with
  | create =>
    refine ⟨_, rfl, ?_⟩
    have : allCells (w.objs ++ [some Obj.empty]) = allCells w.objs := by
      rw [allCells, List.flatMap_append]
      exact List.append_nil _
    rw [this]
    exact h
  | destroy i =>
    obtain ⟨o, ho⟩ := ha
    obtain ⟨r, hr⟩ := allCells_split ho
    have h1 := hr (some o)
    rw [set_self ho] at h1
    have h2 : Own (o.cells ++ (r ++ rest)) w.mem := by
      rw [← List.append_assoc]; exact h.perm (h1.append_right rest)
    obtain ⟨m', e, h3⟩ := destroy_own h2
    refine ⟨⟨m', w.objs.set i none⟩, by rw [World.step, ho]; simp [e], ?_⟩
    exact h3.perm ((hr none).append_right rest).symm
  | op i op =>
    obtain ⟨o, ho, hop⟩ := ha
    obtain ⟨r, hr⟩ := allCells_split ho
    have h1 := hr (some o)
    rw [set_self ho] at h1
    have h2 : Own (o.cells ++ (r ++ rest)) w.mem := by
      rw [← List.append_assoc]; exact h.perm (h1.append_right rest)
    obtain ⟨m', o', e, h3⟩ := apply_own hop h2
    refine ⟨⟨m', w.objs.set i (some o')⟩, by rw [World.step, ho]; simp [e], ?_⟩
    rw [← List.append_assoc] at h3
    exact h3.perm ((hr (some o')).append_right rest).symm

theorem allowed_of_step {tracking : Bool} {w w' : World} {c : Call} (h : w.step tracking c = some w') :
    w.Allows tracking c := by
  cases c with
  | create => trivial
  | destroy i =>
    rw [World.step] at h
    split at h
    · rename_i o ho; exact ⟨o, ho⟩
    · cases h
  | op i op =>
    rw [World.step] at h
    split at h
    · rename_i o ho
      refine ⟨o, ho, ?_⟩
      cases op with
      | assign moves k v => trivial
      | get rel alloc => trivial
      | erase a b =>
        rw [apply, erase] at h
        split at h
        · rename_i hab
          refine ⟨hab.1, hab.2, fun ht hev => ?_⟩
          rw [hev] at h
          simp only [freeEvidence, ht, if_true] at h
          cases hf : freeEntries w.mem ((o.entries.take b).drop a) <;> rw [hf] at h <;> simp at h
        · simp at h
    · cases h

theorem run_own {tracking : Bool} {rest : List (Nat × Cell)} (calls : List Call) : ∀ {w w' : World},
    Own (allCells w.objs ++ rest) w.mem → w.run tracking calls = some w' → Own (allCells w'.objs ++ rest) w'.mem := by
  induction calls with
  | nil => intro w w' h e; cases e; exact h
  | cons c cs ih =>
    intro w w' h e
    rw [World.run] at e
    cases h1 : w.step tracking c with
    | none => rw [h1] at e; cases e
    | some w1 =>
      rw [h1] at e
      obtain ⟨w2, e2, h2⟩ := step_own (allowed_of_step h1) h
      rw [h1] at e2
      cases e2
      exact ih h2 e

/-! ## Properties -/

/-- After any calls on any number of objects, none of which is undefined: the memory in use is what was in use before and that
of the objects still there, every text with what the map has, every array with what was written there. -/
theorem C97_memory {tracking : Bool} {rest : List (Nat × Cell)} {m : Mem} (hm : Own rest m) {calls : List Call} {w : World}
    (h : World.run tracking ⟨m, []⟩ calls = some w) :
    (∀ a c, w.mem.cell a = some c ↔ m.cell a = some c ∨ ∃ o, some o ∈ w.objs ∧ (a, c) ∈ o.cells) ∧
    ((allCells w.objs ++ rest).map Prod.fst).Nodup := by
  have h0 := run_own (rest := rest) calls (w := ⟨m, []⟩) hm h
  refine ⟨fun a c => ?_, h0.nodup⟩
  rw [h0.cell, hm.cell, List.mem_append, or_comm, allCells, List.mem_flatMap]
  refine or_congr Iff.rfl ⟨?_, ?_⟩
  · rintro ⟨x, hx, hc⟩
    cases x with
    | none => cases hc
    | some o => exact ⟨o, hx, hc⟩
  · rintro ⟨o, ho, hc⟩
    exact ⟨some o, ho, hc⟩

/-- When all objects have been destroyed the memory is as it was. -/
theorem C97_freed {tracking : Bool} {rest : List (Nat × Cell)} {m : Mem} (hm : Own rest m) {calls : List Call} {w : World}
    (h : World.run tracking ⟨m, []⟩ calls = some w) (hd : ∀ o ∈ w.objs, o = none) : w.mem.cell = m.cell := by
  funext a
  refine Option.ext fun c => ?_
  rw [(C97_memory hm h).1]
  refine ⟨?_, .inl⟩
  rintro (h | ⟨o, ho, -⟩)
  · exact h
  · cases hd _ ho

/-- After any such calls, the next one is not undefined either: reading, writing and freeing what is not there, or freeing it
twice. With memory tracking there must be an array when something is erased, see `C97_tracking_violated`; for copies see
`C97_copy_violated`. -/
theorem C97_safe_partial {tracking : Bool} {rest : List (Nat × Cell)} {m : Mem} (hm : Own rest m) {calls : List Call}
    {w : World} (h : World.run tracking ⟨m, []⟩ calls = some w) {c : Call} (ha : w.Allows tracking c) :
    ∃ w', w.step tracking c = some w' := by
  obtain ⟨w', e, -⟩ := step_own ha (run_own (rest := rest) calls (w := ⟨m, []⟩) hm h)
  exact ⟨w', e⟩

/-! ### The array -/

/-- The item made for a node. -/
def itemOf (rel : Nat → Bool) (e : Entry) : Option Item :=
  match mapPrefix e.key with
  | some p => if rel p.prefixEnum then some ⟨p.prefixEnum, e.keyAt, p.prefixLength, e.valueAt⟩ else none
  | none => none

theorem build_eq (rel : Nat → Bool) (n : Nat) (es : List Entry) : ∀ items : List Item, items.length + es.length ≤ n →
    build rel n es items = items ++ es.filterMap (itemOf rel) := by
  induction es with
  | nil => intro items _; rw [build, List.filterMap_nil, List.append_nil]
  | cons e es ih =>
    intro items h
    rw [List.length_cons] at h
    rw [build, List.filterMap_cons, itemOf]
    cases mapPrefix e.key with
    | none => simp only; exact ih items (by omega)
    | some p =>
      simp only
      by_cases hr : rel p.prefixEnum = true
      · rw [if_pos hr, if_pos (by omega), if_pos hr, ih _ (by rw [List.length_append, List.length_singleton]; omega)]
        simp only [List.append_assoc, List.singleton_append]
      · rw [if_neg hr, if_neg hr]
        exact ih items (by omega)

theorem mem_entryCells {es : List Entry} {e : Entry} (h : e ∈ es) :
    (e.keyAt, Cell.text e.key) ∈ entryCells es ∧ (e.valueAt, Cell.text e.value) ∈ entryCells es := by
  rw [entryCells, List.mem_flatMap, List.mem_flatMap]
  exact ⟨⟨e, h, by simp⟩, ⟨e, h, by simp⟩⟩

theorem readItems (rel : Nat → Bool) (m : Mem) (es : List Entry)
    (h : ∀ e ∈ es, m.cell e.keyAt = some (.text e.key) ∧ m.cell e.valueAt = some (.text e.value)) :
    (es.filterMap (itemOf rel)).mapM (readItem m) =
      some ((es.map fun e => (e.key, e.value)).filterMap (contribution rel)) := by
  induction es with
  | nil => rfl
  | cons e es ih =>
    have hi := ih fun x hx => h x (List.mem_cons_of_mem _ hx)
    obtain ⟨h1, h2⟩ := h e (List.mem_cons_self ..)
    rw [List.filterMap_cons, List.map_cons, List.filterMap_cons, contribution, itemOf]
    simp only
    cases mapPrefix e.key with
    | none => exact hi
    | some p =>
      simp only
      by_cases hr : rel p.prefixEnum = true
      · rw [if_pos hr, if_pos hr]
        simp only
        rw [List.mapM_cons, readItem]
        simp only [h1, h2, hi]
        rfl
      · rw [if_neg hr, if_neg hr]
        exact hi

/-- The array of the object shows the pairs of these nodes, which are still in the map. -/
theorem read_own {rest : List (Nat × Cell)} {m : Mem} {o : Obj} {es : List Entry} {rel : Nat → Bool} {a : Nat}
    (h : Own (o.cells ++ rest) m) (hev : o.evidence = some (a, es.filterMap (itemOf rel))) (hs : ∀ e ∈ es, e ∈ o.entries) :
    read m a = some ((es.map fun e => (e.key, e.value)).filterMap (contribution rel)) := by
  have hc : m.cell a = some (.array (es.filterMap (itemOf rel))) := by
    rw [h.cell, List.mem_append, Obj.cells, List.mem_append, hev]
    exact .inl (.inr (by simp))
  rw [read, hc]
  refine readItems rel m es fun e he => ?_
  obtain ⟨h1, h2⟩ := mem_entryCells (hs e he)
  rw [h.cell, h.cell, List.mem_append, List.mem_append, Obj.cells, List.mem_append, List.mem_append]
  exact ⟨.inl (.inl h1), .inl (.inl h2)⟩

/-- Calls after which the array of object `i` must still be good: not those that free it, and no assignment to a key that was in
the map when the array was made. -/
def Keeps (i : Nat) (keys : List CStr) : Call → Prop
  | .create => True
  | .destroy j => j ≠ i
  | .op j (.assign _ k _) => j = i → k ∉ keys
  | .op j _ => j ≠ i

/-- The object `i` has this array and still has these nodes. -/
def Stands (i : Nat) (ev : Nat × List Item) (es : List Entry) (w : World) : Prop :=
  ∃ o, w.objs[i]? = some (some o) ∧ o.evidence = some ev ∧ ∀ e ∈ es, e ∈ o.entries

theorem step_stands {tracking : Bool} {w w' : World} {c : Call} {rest : List (Nat × Cell)}
    (h : Own (allCells w.objs ++ rest) w.mem) (hw : w.step tracking c = some w') {i : Nat} {ev : Nat × List Item}
    {es : List Entry} (hs : Stands i ev es w) (hk : Keeps i (es.map (·.key)) c) : Stands i ev es w' := by
  obtain ⟨o, ho, hev, hin⟩ := hs
  cases c with
  | create =>
    cases hw
    refine ⟨o, ?_, hev, hin⟩
    show (w.objs ++ [some Obj.empty])[i]? = _
    rw [List.getElem?_append_left (List.getElem?_eq_some_iff.1 ho).1, ho]
  | destroy j =>
    rw [World.step] at hw
    split at hw
    · rename_i x hx
      cases hd : Object.destroy w.mem x with
      | none => rw [hd] at hw; cases hw
      | some m' =>
        rw [hd] at hw
        cases hw
        refine ⟨o, ?_, hev, hin⟩
        show (w.objs.set j none)[i]? = _
        rw [List.getElem?_set_ne hk, ho]
    · cases hw
  | op j op =>
    by_cases hj : j = i
    · subst hj
      cases op with
      | assign moves k v =>
        have hkk : k ∉ es.map (·.key) := hk rfl
        obtain ⟨r, hr⟩ := allCells_split ho
        have h1 := hr (some o)
        rw [set_self ho] at h1
        have h2 : Own (o.cells ++ (r ++ rest)) w.mem := by
          rw [← List.append_assoc]; exact h.perm (h1.append_right rest)
        rw [Obj.cells, List.append_assoc] at h2
        obtain ⟨m', es', e, -, h3⟩ := assign_own moves k v o.entries h2
        simp only [World.step, ho, apply, e] at hw
        cases hw
        have hlt := (List.getElem?_eq_some_iff.1 ho).1
        refine ⟨{ o with entries := es' }, ?_, hev, fun x hx => h3 x (hin x hx) fun he => hkk ?_⟩
        · show (w.objs.set j _)[j]? = _
          rw [List.getElem?_set_self hlt]
        · rw [← he]; exact List.mem_map.2 ⟨x, hx, rfl⟩
      | erase a b => exact absurd rfl hk
      | get rel alloc => exact absurd rfl hk
    · rw [World.step] at hw
      split at hw
      · rename_i x hx
        cases hd : apply tracking w.mem x op with
        | none => rw [hd] at hw; cases hw
        | some r =>
          rw [hd] at hw
          cases hw
          refine ⟨o, ?_, hev, hin⟩
          show (w.objs.set j _)[i]? = _
          rw [List.getElem?_set_ne hj, ho]
      · cases hw

theorem run_stands {tracking : Bool} {rest : List (Nat × Cell)} {i : Nat} {ev : Nat × List Item} {es : List Entry}
    (calls : List Call) : ∀ {w w' : World}, Own (allCells w.objs ++ rest) w.mem → w.run tracking calls = some w' →
    Stands i ev es w → (∀ c ∈ calls, Keeps i (es.map (·.key)) c) → Stands i ev es w' := by
  induction calls with
  | nil => intro w w' _ e hs _; cases e; exact hs
  | cons c cs ih =>
    intro w w' h e hs hk
    rw [World.run] at e
    cases h1 : w.step tracking c with
    | none => rw [h1] at e; cases e
    | some w1 =>
      rw [h1] at e
      obtain ⟨w2, e2, h2⟩ := step_own (allowed_of_step h1) h
      rw [h1] at e2
      cases e2
      exact ih h2 e (step_stands h h1 hs (hk c (List.mem_cons_self ..))) fun x hx => hk x (List.mem_cons_of_mem _ hx)

/-- `get` makes an array with a pair for every relevant key with a known prefix, in the order of the keys: and this is what is
read from it after any further calls, also on other objects, that are not `get`, `clear`, `erase` or the destructor of this one,
and do not assign to one of the keys the map had then: see `C97_assign_violated`. It remains the array of the object. -/
theorem C97_array_partial {tracking : Bool} {rest : List (Nat × Cell)} {m : Mem} (hm : Own rest m) {before : List Call}
    {w : World} (h : World.run tracking ⟨m, []⟩ before = some w) {i : Nat} {o : Obj} (ho : w.objs[i]? = some (some o))
    {rel : Nat → Bool} {after : List Call} {w' : World}
    (h' : w.run tracking (.op i (.get rel true) :: after) = some w')
    (hk : ∀ c ∈ after, Keeps i (o.pairs.map Prod.fst) c) :
    ∃ o' a items, w'.objs[i]? = some (some o') ∧ o'.evidence = some (a, items) ∧
      read w'.mem a = some (o.pairs.filterMap (contribution rel)) := by
  have h0 := run_own (rest := rest) before (w := ⟨m, []⟩) hm h
  have hfin := run_own (rest := rest) _ h0 h'
  rw [World.run] at h'
  cases h1 : w.step tracking (.op i (.get rel true)) with
  | none => rw [h1] at h'; cases h'
  | some w1 =>
    rw [h1] at h'
    obtain ⟨w2, e2, h2⟩ := step_own (allowed_of_step h1) h0
    rw [h1] at e2
    cases e2
    have hs : ∃ a, Stands i (a, o.entries.filterMap (itemOf rel)) o.entries w1 := by
      simp only [World.step, ho, apply, get] at h1
      cases hd : drop w.mem o.evidence with
      | none => rw [hd] at h1; cases h1
      | some m1 =>
        rw [hd] at h1
        cases h1
        refine ⟨m1.next, { o with evidence := some (m1.next, build rel o.entries.length o.entries []) }, ?_, ?_, fun e he => he⟩
        · show (w.objs.set i _)[i]? = _
          rw [List.getElem?_set_self (List.getElem?_eq_some_iff.1 ho).1]
          rfl
        · simp only
          rw [build_eq rel _ o.entries [] (by simp), List.nil_append]
    obtain ⟨a, hs⟩ := hs
    have hkeys : o.pairs.map Prod.fst = o.entries.map (·.key) := by
      rw [Obj.pairs, List.map_map]; rfl
    rw [hkeys] at hk
    obtain ⟨o', ho', hev, hin⟩ := run_stands (rest := rest) after h2 h' hs hk
    refine ⟨o', a, _, ho', hev, ?_⟩
    obtain ⟨r, hr⟩ := allCells_split ho'
    have h3 := hr (some o')
    rw [set_self ho'] at h3
    have h4 : Own (o'.cells ++ (r ++ rest)) w'.mem := by
      rw [← List.append_assoc]; exact hfin.perm (h3.append_right rest)
    exact read_own h4 hev hin

/-! ### The map -/

theorem keyLt_irrefl (a : CStr) : keyLt a a = false := by
  induction a with
  | nil => rfl
  | cons x a ih => simp [keyLt, ih]

theorem keyLt_trans (a : CStr) : ∀ {b c : CStr}, keyLt a b = true → keyLt b c = true → keyLt a c = true := by
  induction a with
  | nil =>
    intro b c h1 h2
    cases c with
    | nil => cases b <;> simp [keyLt] at h2
    | cons y c => rfl
  | cons x a ih =>
    intro b c h1 h2
    cases b with
    | nil => simp [keyLt] at h1
    | cons y b =>
      cases c with
      | nil => simp [keyLt] at h2
      | cons z c =>
        simp only [keyLt, Bool.or_eq_true, Bool.and_eq_true, decide_eq_true_eq] at h1 h2 ⊢
        rcases h1 with h1 | ⟨rfl, h1⟩
        · rcases h2 with h2 | ⟨rfl, h2⟩
          · exact .inl (UInt8.lt_trans h1 h2)
          · exact .inl h1
        · rcases h2 with h2 | ⟨rfl, h2⟩
          · exact .inl h2
          · exact .inr ⟨rfl, ih h1 h2⟩

theorem keyLt_total (a : CStr) : ∀ {b : CStr}, a ≠ b → keyLt a b = false → keyLt b a = true := by
  induction a with
  | nil => intro b h1 h2; cases b with
    | nil => exact absurd rfl h1
    | cons y b => simp [keyLt] at h2
  | cons x a ih =>
    intro b h1 h2
    cases b with
    | nil => rfl
    | cons y b =>
      simp only [keyLt, Bool.or_eq_false_iff, Bool.and_eq_false_iff, decide_eq_false_iff_not] at h2
      simp only [keyLt, Bool.or_eq_true, Bool.and_eq_true, decide_eq_true_eq]
      by_cases hxy : x = y
      · subst hxy
        refine .inr ⟨rfl, ih (fun h => h1 (by rw [h])) ?_⟩
        rcases h2.2 with h | h
        · exact absurd rfl h
        · exact h
      · refine .inl ?_
        rcases UInt8.lt_or_lt_of_ne hxy with h | h
        · exact absurd h h2.1
        · exact h

/-- The keys are in order, so that no key is there twice. -/
def Sorted (es : List Entry) : Prop := es.Pairwise fun a b => keyLt a.key b.key = true

theorem assign_map (moves : Bool) (k v : CStr) (es : List Entry) : ∀ {m m' : Mem} {es' : List Entry}, Sorted es →
    assign moves k v es m = some (m', es') →
    Sorted es' ∧ (∀ e' ∈ es', e'.key = k ∨ ∃ e ∈ es, e'.key = e.key) ∧
      ∀ x y, (x, y) ∈ es'.map (fun e => (e.key, e.value)) ↔
        (x = k ∧ y = v) ∨ (x ≠ k ∧ (x, y) ∈ es.map fun e => (e.key, e.value)) := by
  induction es with
  | nil =>
    intro m m' es' _ h
    cases h
    refine ⟨List.pairwise_singleton .., fun e' he => .inl ?_, fun x y => ?_⟩
    · rw [List.mem_singleton.1 he]
    · simp
  | cons e es ih =>
    intro m m' es' hs h
    obtain ⟨hs1, hs2⟩ := List.pairwise_cons.1 hs
    have hne : ∀ x ∈ es, x.key ≠ e.key := fun x hx he => by
      have := hs1 x hx
      rw [he, keyLt_irrefl] at this
      cases this
    rw [assign] at h
    by_cases hk : e.key = k
    · have hform : ∃ b, es' = ⟨e.key, e.keyAt, v, b⟩ :: es := by
        rw [if_pos hk] at h
        cases moves with
        | true =>
          simp only [if_true] at h
          cases hf : m.free e.valueAt with
          | none => rw [hf] at h; cases h
          | some m1 => rw [hf] at h; cases h; exact ⟨_, rfl⟩
        | false =>
          simp only [Bool.false_eq_true, if_false] at h
          cases hf : m.write e.valueAt (.text v) with
          | none => rw [hf] at h; cases h
          | some m1 => rw [hf] at h; cases h; exact ⟨_, rfl⟩
      obtain ⟨b, rfl⟩ := hform
      refine ⟨List.pairwise_cons.2 ⟨hs1, hs2⟩, fun e' he => ?_, fun x y => ?_⟩
      · rcases List.mem_cons.1 he with rfl | he
        · exact .inl hk
        · exact .inr ⟨e', List.mem_cons_of_mem _ he, rfl⟩
      · simp only [List.map_cons, List.mem_cons, Prod.mk.injEq, List.mem_map]
        constructor
        · rintro (⟨rfl, rfl⟩ | ⟨z, hz, rfl, rfl⟩)
          · exact .inl ⟨hk, rfl⟩
          · exact .inr ⟨by rw [← hk]; exact hne z hz, .inr ⟨z, hz, rfl, rfl⟩⟩
        · rintro (⟨rfl, rfl⟩ | ⟨h1, ⟨rfl, rfl⟩ | h2⟩)
          · exact .inl ⟨hk.symm, rfl⟩
          · exact absurd hk h1
          · exact .inr h2
    · rw [if_neg hk] at h
      by_cases hl : keyLt k e.key = true
      · rw [if_pos hl] at h
        cases h
        refine ⟨List.pairwise_cons.2 ⟨fun x hx => ?_, hs⟩, fun e' he => ?_, fun x y => ?_⟩
        · rcases List.mem_cons.1 hx with rfl | hx
          · exact hl
          · exact keyLt_trans _ hl (hs1 x hx)
        · rcases List.mem_cons.1 he with rfl | he
          · exact .inl rfl
          · exact .inr ⟨e', he, rfl⟩
        · rw [List.map_cons, List.mem_cons, Prod.mk.injEq]
          refine or_congr Iff.rfl ⟨fun hx => ⟨fun he => ?_, hx⟩, fun h => h.2⟩
          obtain ⟨z, hz, hz'⟩ := List.mem_map.1 hx
          cases hz'
          have hz2 : keyLt k z.key = true := by
            rcases List.mem_cons.1 hz with rfl | hz
            · exact hl
            · exact keyLt_trans _ hl (hs1 z hz)
          rw [he, keyLt_irrefl] at hz2
          cases hz2
      · rw [if_neg hl] at h
        cases hr : assign moves k v es m with
        | none => rw [hr] at h; cases h
        | some r =>
          rw [hr] at h
          cases h
          obtain ⟨i1, i2, i3⟩ := ih hs2 hr
          have hek : keyLt e.key k = true := keyLt_total _ (fun h => hk h.symm) (by simpa using hl)
          refine ⟨List.pairwise_cons.2 ⟨fun x hx => ?_, i1⟩, fun e' he => ?_, fun x y => ?_⟩
          · rcases i2 x hx with h | ⟨z, hz, h⟩
            · rw [h]; exact hek
            · rw [h]; exact hs1 z hz
          · rcases List.mem_cons.1 he with rfl | he
            · exact .inr ⟨_, List.mem_cons_self .., rfl⟩
            · rcases i2 e' he with h | ⟨z, hz, h⟩
              · exact .inl h
              · exact .inr ⟨z, List.mem_cons_of_mem _ hz, h⟩
          · rw [List.map_cons, List.mem_cons, i3, List.map_cons, List.mem_cons]
            constructor
            · rintro (h | h | ⟨h1, h2⟩)
              · cases h; exact .inr ⟨hk, .inl rfl⟩
              · exact .inl h
              · exact .inr ⟨h1, .inr h2⟩
            · rintro (h | ⟨h1, h | h2⟩)
              · exact .inr (.inl h)
              · exact .inl h
              · exact .inr (.inr ⟨h1, h2⟩)

/-- What a call does to the pairs of its object. -/
def Effect (pairs pairs' : List (CStr × CStr)) : Op → Prop
  | .assign _ k v => ∀ x y, (x, y) ∈ pairs' ↔ (x = k ∧ y = v) ∨ (x ≠ k ∧ (x, y) ∈ pairs)
  | .erase i j => pairs' = pairs.take i ++ pairs.drop j
  | .get _ _ => pairs' = pairs

theorem apply_map {tracking : Bool} {m m' : Mem} {o o' : Obj} {op : Op} (hs : Sorted o.entries)
    (h : apply tracking m o op = some (m', o')) : Sorted o'.entries ∧ Effect o.pairs o'.pairs op := by
  cases op with
  | assign moves k v =>
    rw [apply] at h
    cases hr : assign moves k v o.entries m with
    | none => rw [hr] at h; cases h
    | some r =>
      rw [hr] at h
      cases h
      obtain ⟨h1, -, h2⟩ := assign_map moves k v o.entries hs hr
      exact ⟨h1, h2⟩
  | erase i j =>
    rw [apply, erase] at h
    split at h
    · rename_i hij
      cases h1 : freeEntries m ((o.entries.take j).drop i) with
      | none => rw [h1] at h; cases h
      | some m1 =>
        rw [h1] at h
        cases h2 : freeEvidence tracking m1 o.evidence with
        | none => simp [h2] at h
        | some m2 =>
          simp only [h2, bind, Option.bind, Option.some.injEq, Prod.mk.injEq] at h
          obtain ⟨-, rfl⟩ := h
          refine ⟨hs.sublist ?_, ?_⟩
          · have := take_drop_split o.entries hij.1
            conv_rhs => rw [this]
            exact (List.Sublist.refl _).append (List.sublist_append_right _ _)
          · simp [Effect, Obj.pairs, List.map_take, List.map_drop]
    · cases h
  | get rel alloc =>
    rw [apply, get] at h
    cases h1 : drop m o.evidence with
    | none => rw [h1] at h; cases h
    | some m1 =>
      rw [h1] at h
      cases alloc <;> cases h <;> exact ⟨hs, rfl⟩

/-- All maps are in order. -/
def AllSorted (w : World) : Prop := ∀ o, some o ∈ w.objs → Sorted o.entries

theorem step_sorted {tracking : Bool} {w w' : World} {c : Call} (hs : AllSorted w) (h : w.step tracking c = some w') :
    AllSorted w' := by
  intro x hx
  cases c with
  | create =>
    cases h
    rcases List.mem_append.1 hx with hx | hx
    · exact hs x hx
    · cases List.mem_singleton.1 hx; exact List.Pairwise.nil
  | destroy i =>
    rw [World.step] at h
    split at h
    · rename_i o ho
      cases hd : Object.destroy w.mem o with
      | none => rw [hd] at h; cases h
      | some m1 =>
        rw [hd] at h
        cases h
        rcases List.mem_or_eq_of_mem_set hx with hx | hx
        · exact hs x hx
        · cases hx
    · cases h
  | op i op =>
    rw [World.step] at h
    split at h
    · rename_i o ho
      cases hd : apply tracking w.mem o op with
      | none => rw [hd] at h; cases h
      | some r =>
        rw [hd] at h
        cases h
        rcases List.mem_or_eq_of_mem_set hx with hx | hx
        · exact hs x hx
        · cases hx
          exact (apply_map (hs o (List.mem_of_getElem? ho)) hd).1
    · cases h

theorem run_sorted {tracking : Bool} (calls : List Call) : ∀ {w w' : World}, AllSorted w → w.run tracking calls = some w' →
    AllSorted w' := by
  induction calls with
  | nil => intro w w' h e; cases e; exact h
  | cons c cs ih =>
    intro w w' h e
    rw [World.run] at e
    cases h1 : w.step tracking c with
    | none => rw [h1] at e; cases e
    | some w1 => rw [h1] at e; exact ih (step_sorted h h1) e

/-- After any calls the object is a map with its keys in order, a call has the effect on it a map has, and none on the other
objects. -/
theorem C97_map {tracking : Bool} {m : Mem} {before : List Call} {w w' : World}
    (h : World.run tracking ⟨m, []⟩ before = some w) {i : Nat} {o : Obj} (ho : w.objs[i]? = some (some o)) {op : Op}
    (h' : w.step tracking (.op i op) = some w') :
    (o.pairs.map Prod.fst).Pairwise (fun a b => keyLt a b = true) ∧
      (∃ o', w'.objs[i]? = some (some o') ∧ Effect o.pairs o'.pairs op) ∧
      ∀ j, j ≠ i → w'.objs[j]? = w.objs[j]? := by
  have hs : AllSorted w := run_sorted before (w := ⟨m, []⟩) (fun x hx => absurd hx List.not_mem_nil) h
  have hso := hs o (List.mem_of_getElem? ho)
  refine ⟨?_, ?_⟩
  · rw [Obj.pairs, List.map_map, List.pairwise_map]
    exact hso
  · simp only [World.step, ho] at h'
    cases hd : apply tracking w.mem o op with
    | none => rw [hd] at h'; cases h'
    | some r =>
      rw [hd] at h'
      cases h'
      refine ⟨⟨r.2, List.getElem?_set_self (List.getElem?_eq_some_iff.1 ho).1, (apply_map hso hd).2⟩, fun j hj => ?_⟩
      exact List.getElem?_set_ne fun h => hj h.symm

/-! ### Copies -/

theorem copyEntries_own (es : List Entry) : ∀ {cs : List (Nat × Cell)} {m : Mem}, Own cs m →
    Own (entryCells (copyEntries m es).2 ++ cs) (copyEntries m es).1 ∧
      (copyEntries m es).2.map (fun e => (e.key, e.value)) = es.map fun e => (e.key, e.value) := by
  induction es with
  | nil => intro cs m h; exact ⟨h, rfl⟩
  | cons e es ih =>
    intro cs m h
    have h2 := (h.new (.text e.key)).new (.text e.value)
    obtain ⟨h3, h4⟩ := ih h2
    rw [copyEntries]
    refine ⟨h3.perm ?_, ?_⟩
    · rw [entryCells_cons, List.cons_append, List.cons_append]
      exact (List.perm_middle.trans (List.Perm.cons _ List.perm_middle)).trans (List.Perm.swap _ _ _)
    · rw [List.map_cons, List.map_cons]
      exact congrArg _ h4

/-- A copy of an object that has no array is an object of its own with the same pairs. Missing: one that has an array, see
`C97_copy_violated`. -/
theorem C97_copy_partial {o : Obj} {rest : List (Nat × Cell)} {m : Mem} (h : Own (o.cells ++ rest) m)
    (hev : o.evidence = none) :
    Own ((copy m o).2.cells ++ (o.cells ++ rest)) (copy m o).1 ∧ (copy m o).2.pairs = o.pairs := by
  obtain ⟨h1, h2⟩ := copyEntries_own o.entries h
  refine ⟨?_, h2⟩
  rw [copy]
  simpa [Obj.cells, hev] using h1

/-- A copy of an object that has an array has the same array: when both are destroyed it is freed twice. -/
theorem C97_copy_violated {o : Obj} {rest : List (Nat × Cell)} {m : Mem} (h : Own (o.cells ++ rest) m) {p : Nat × List Item}
    (hev : o.evidence = some p) :
    ∃ m', destroy (copy m o).1 (copy m o).2 = some m' ∧ destroy m' o = none := by
  obtain ⟨h1, -⟩ := copyEntries_own o.entries h
  have e : (copy m o).2.evidence = some p := hev
  have h2 : Own ((p.1, .array p.2) :: (entryCells (copy m o).2.entries ++ (entryCells o.entries ++ rest))) (copy m o).1 := by
    refine h1.perm ?_
    rw [Obj.cells, hev]
    show (entryCells (copy m o).2.entries ++ _).Perm _
    rw [List.perm_iff_count]
    intro x
    simp only [Option.toList_some, List.map_cons, List.map_nil, List.count_append, List.count_cons, List.count_nil]
    omega
  obtain ⟨m1, e1, h3⟩ := h2.free
  obtain ⟨m2, e2, h4⟩ := freeEntries_own _ h3
  refine ⟨m2, ?_, ?_⟩
  · rw [destroy, e, drop, e1]
    exact e2
  · rw [destroy, hev, drop]
    have : m2.cell p.1 = none := by
      cases hc : m2.cell p.1 with
      | none => rfl
      | some c =>
        have := (h4.cell _ _).1 hc
        exact absurd (List.mem_append_right _ this) (h2.head_ne c)
    rw [Mem.free, this]
    rfl

/-- With memory tracking, erasing from an object that has no array dereferences NULL. -/
theorem C97_tracking_violated (i j : Nat) (m : Mem) (o : Obj) (h : o.evidence = none) : erase true i j m o = none := by
  rw [erase]
  split
  · cases hf : freeEntries m ((o.entries.take j).drop i) with
    | none => rfl
    | some m1 => rw [h]; rfl
  · rfl

theorem assign_moved (v : CStr) (es : List Entry) : ∀ {rest : List (Nat × Cell)} {m m' : Mem} {es' : List Entry} {e : Entry},
    Sorted es → Own (entryCells es ++ rest) m → e ∈ es → assign true e.key v es m = some (m', es') →
    m'.cell e.valueAt = none ∧ ∀ q ∈ rest, m'.cell q.1 = some q.2 := by
  induction es with
  | nil => intro rest m m' es' e _ _ he _; cases he
  | cons x es ih =>
    intro rest m m' es' e hs h he hm
    obtain ⟨hs1, hs2⟩ := List.pairwise_cons.1 hs
    rw [assign] at hm
    by_cases hk : x.key = e.key
    · rw [if_pos hk] at hm
      have hx : e = x := by
        rcases List.mem_cons.1 he with rfl | he
        · rfl
        · have := hs1 e he
          rw [hk, keyLt_irrefl] at this
          cases this
      subst hx
      simp only [if_true] at hm
      have hv : Own ((e.valueAt, .text e.value) :: (e.keyAt, .text e.key) :: (entryCells es ++ rest)) m :=
        h.perm (List.Perm.swap _ _ _)
      obtain ⟨m1, e1, h1⟩ := hv.free
      rw [e1] at hm
      cases hm
      have h2 := h1.new (.text v)
      constructor
      · cases hc : (m1.new (.text v)).1.cell e.valueAt with
        | none => rfl
        | some c =>
          rcases List.mem_cons.1 ((h2.cell _ _).1 hc) with hc | hc
          · have hlt := hv.lt _ (List.mem_cons_self ..)
            have hnext : m1.next = m.next := by
              rw [Mem.free] at e1
              split at e1
              · cases e1
              · cases e1; rfl
            have := congrArg Prod.fst hc
            simp only at this hlt
            omega
          · exact absurd hc (hv.head_ne c)
      · intro q hq
        refine (h2.cell q.1 q.2).2 ?_
        exact List.mem_cons_of_mem _ (List.mem_cons_of_mem _ (List.mem_append_right _ hq))
    · rw [if_neg hk] at hm
      have he' : e ∈ es := by
        rcases List.mem_cons.1 he with rfl | he
        · exact absurd rfl hk
        · exact he
      have hlt := hs1 e he'
      have hnl : ¬ keyLt e.key x.key = true := fun hh => by
        have := keyLt_trans _ hh hlt
        rw [keyLt_irrefl] at this
        cases this
      rw [if_neg hnl] at hm
      have h1 : Own (entryCells es ++ ((x.keyAt, .text x.key) :: (x.valueAt, .text x.value) :: rest)) m := by
        refine h.perm ?_
        rw [entryCells_cons, List.cons_append, List.cons_append]
        exact (List.perm_middle.trans (List.Perm.cons _ List.perm_middle)).symm
      cases hr : assign true e.key v es m with
      | none => rw [hr] at hm; cases hm
      | some r =>
        rw [hr] at hm
        cases hm
        obtain ⟨i1, i2⟩ := ih hs2 h1 he' hr
        exact ⟨i1, fun q hq => i2 q (List.mem_cons_of_mem _ (List.mem_cons_of_mem _ hq))⟩

theorem mapM_none {m : Mem} {i : Item} (hi : readItem m i = none) (items : List Item) (h : i ∈ items) :
    items.mapM (readItem m) = none := by
  induction items with
  | nil => cases h
  | cons x xs ih =>
    rw [List.mapM_cons]
    rcases List.mem_cons.1 h with rfl | h
    · rw [hi]; rfl
    · rw [ih h]
      cases readItem m x <;> rfl

/-- A value that is in the array is assigned to, and its text is moved: the array stays that of the object, with a pointer to
memory that has been given back. -/
theorem C97_assign_violated {rest : List (Nat × Cell)} {m : Mem} {o : Obj} (h : Own (o.cells ++ rest) m)
    (hs : Sorted o.entries) {a : Nat} {rel : Nat → Bool} (hev : o.evidence = some (a, o.entries.filterMap (itemOf rel)))
    {e : Entry} (he : e ∈ o.entries) (hr : contribution rel (e.key, e.value) ≠ none) (v : CStr) :
    (read m a).isSome ∧ ∃ m' o', apply false m o (.assign true e.key v) = some (m', o') ∧
      o'.evidence = o.evidence ∧ (m'.cell a).isSome ∧ read m' a = none := by
  refine ⟨by rw [read_own h hev fun x hx => hx]; rfl, ?_⟩
  rw [Obj.cells, List.append_assoc] at h
  obtain ⟨m', es', e1, -, -⟩ := assign_own true e.key v o.entries h
  obtain ⟨h1, h2⟩ := assign_moved v o.entries hs h he e1
  have hc : m'.cell a = some (.array (o.entries.filterMap (itemOf rel))) :=
    h2 (a, .array (o.entries.filterMap (itemOf rel))) (List.mem_append_left _ (by rw [hev]; simp))
  refine ⟨m', { o with entries := es' }, by rw [apply, e1]; rfl, rfl, by rw [hc]; rfl, ?_⟩
  rw [read, hc]
  simp only
  rw [contribution] at hr
  simp only at hr
  cases hp : mapPrefix e.key with
  | none => rw [hp] at hr; exact absurd rfl hr
  | some p =>
    rw [hp] at hr
    simp only at hr
    by_cases hrel : rel p.prefixEnum = true
    · refine mapM_none (i := ⟨p.prefixEnum, e.keyAt, p.prefixLength, e.valueAt⟩) ?_ _ ?_
      · rw [readItem]
        simp only [h1]
        cases m'.cell e.keyAt with
        | none => rfl
        | some c => cases c <;> rfl
      · exact List.mem_filterMap.2 ⟨e, he, by rw [itemOf, hp]; simp [hrel]⟩
    · rw [if_neg hrel] at hr
      exact absurd rfl hr

/-! ## Examples -/

/-- No memory in use. -/
def none0 : Mem := ⟨0, fun _ => none⟩

example : Own [] none0 := ⟨List.nodup_nil, fun _ h => absurd h List.not_mem_nil, fun _ _ => by simp [none0]⟩

/-- Two objects; the first is given three keys, one of them unknown. -/
def calls0 : List Call :=
  [.create, .create, .op 0 (.assign false c!"query.b" c!"2"), .op 0 (.assign false c!"header.a" c!"1"),
    .op 0 (.assign false c!"other" c!"3"), .op 1 (.assign false c!"cookie.c" c!"4"), .op 0 (.get (fun _ => true) true)]

/-- What the array of an object shows. -/
def shown (i : Nat) (w : World) : Option (List Pair) :=
  match w.objs[i]? with
  | some (some o) => o.evidence.bind fun p => read w.mem p.1
  | _ => none

/-- The calls after `get` keep the array as it is: the second object is changed and destroyed, the first is given more keys. -/
example : let after := [Call.op 1 (.get (fun _ => true) true), .op 0 (.assign false c!"header.z" c!"9"), .destroy 1,
      .op 0 (.assign true c!"header.z" c!"8")]
    (∀ c ∈ after, Keeps 0 [c!"header.a", c!"other", c!"query.b"] c) ∧
    ((World.run false ⟨none0, []⟩ (calls0 ++ after)).bind (shown 0)) =
      some [⟨1, c!"a", some c!"1", none⟩, ⟨8, c!"b", some c!"2", none⟩] := by
  refine ⟨?_, by decide +kernel⟩
  intro c hc
  simp only [List.mem_cons, List.not_mem_nil, or_false] at hc
  rcases hc with rfl | rfl | rfl | rfl
  · exact (by decide : (1 : Nat) ≠ 0)
  · exact fun _ => by decide
  · exact (by decide : (1 : Nat) ≠ 0)
  · exact fun _ => by decide

/-- A value the array shows is assigned: in its place, or in new memory. -/
example : ((World.run false ⟨none0, []⟩ (calls0 ++ [.op 0 (.assign false c!"header.a" c!"x")])).bind (shown 0)) =
      some [⟨1, c!"a", some c!"x", none⟩, ⟨8, c!"b", some c!"2", none⟩] ∧
    ((World.run false ⟨none0, []⟩ (calls0 ++ [.op 0 (.assign true c!"header.a" c!"x")])).bind (shown 0)) = none := by
  decide +kernel

/-- All given back. -/
example : (World.run true ⟨none0, []⟩ (calls0 ++ [.op 0 (.erase 1 3), .op 0 (.get (fun _ => true) true), .destroy 0,
      .destroy 1])).map (fun w => (w.objs, (List.range 16).map w.mem.cell)) =
    some ([none, none], List.replicate 16 none) := by decide +kernel

/-- A copy made after `get`, and one made before. -/
example : ((World.run false ⟨none0, []⟩ calls0).bind fun w => (w.objs[0]?.bind id).bind fun o =>
      let c := copy w.mem o
      (destroy c.1 c.2).bind fun m => (destroy m o).map fun m => (List.range 20).map fun a => (m.cell a).isSome) = none ∧
    ((World.run false ⟨none0, []⟩ calls0).bind fun w => (w.objs[1]?.bind id).bind fun o =>
      let c := copy w.mem o
      (destroy c.1 c.2).bind fun m => (destroy m o).map fun m => (List.range 12).map fun a => (m.cell a).isSome) =
      some [true, true, true, true, true, true, false, false, true, false, false, false] := by decide +kernel

end Verif.Evidence.Object
