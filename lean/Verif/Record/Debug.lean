import Verif.Overrides.Model
import Verif.Record.Props

/-! # C103: collections and lists with their asserts

In a build without `NDEBUG` a failing `assert` ends the process. The asserts of collection.c:194, 211, 234 and 257, that an item in the
memory of a collection starts before the end of that memory, and those of list.c:42 and 43 are added here to the getters of
`Verif/Collection/Model.lean` and to the list of components of `Verif/Record/Model.lean`. The data may be any: nothing is assumed about
what the header says. -/

namespace Verif.Record.Debug

open Verif.Collection

/-! ## Model -/

/-- Where in the memory of a collection the item for a key is, counted from `firstByte`: collection.c:193, 210, 233, 256. -/
def place (m : Mem) (key : UInt32) : Nat := if m.elementSize = 0 then key.toNat else key.toNat * m.elementSize

/-- The check of the key, collection.c:192, 209, 232, 255. -/
def inMemory (m : Mem) (key : UInt32) : Bool := key.toNat < (if m.elementSize = 0 then m.size else m.count)

/-- The assert made when the item is in the memory of the collection: `lastByte` is `firstByte` and `size`, collection.c:620, 781. -/
def okay (m : Mem) (key : UInt32) : Bool := !inMemory m key || place m key < m.size

/-- `collection->get`, with the asserts. -/
def get (file : CStr) (fuel : Nat) (s : State) (key : UInt32) (item : Item) : Coll → UB Got
  | .memory m => if okay m key then (Coll.memory m).get file fuel s key item else none
  | .part m next => if okay m key then (Coll.part m next).get file fuel s key item else none
  | .back b f => (Coll.back b f).get file fuel s key item

/-- `fiftyoneDegreesListAdd`, list.c:39-45, to a list with room for `capacity` items, with the asserts. -/
def listAdd (capacity : Nat) (items : List Item) (item : Item) : UB (List Item) :=
  if items.length < capacity ∧ item.owner ≠ none then some (items ++ [item]) else none

/-- The loop of `fiftyoneDegreesComponentInitList`, component.c:107-122, with the asserts. -/
def listLoop (file : CStr) (fuel : Nat) (c : Coll) (count : Nat) : Nat → State → List Item → Nat → UB Listed
  | 0, _, _, _ => some .running
  | rounds + 1, s, items, offset =>
    if items.length < count then
      match get file fuel s (UInt32.ofNat offset) Item.new c with
      | none => none
      | some g =>
        match g.err with
        | some e => some (.ended g.state items (some e))
        | none =>
          match g.ptr with
          | none => listLoop file fuel c count rounds g.state items offset
          | some p =>
            match listAdd count items g.item with
            | none => none
            | some items =>
              match (view g.state p).bind fun bytes => Component.keyValuesCount bytes 0 with
              | none => none
              | some n => listLoop file fuel c count rounds g.state items ((offset + Component.finalSize n) % 2 ^ 32)
    else some (.ended s items none)

/-- `fiftyoneDegreesComponentInitList`, component.c:98-124, with the asserts. -/
def initList (file : CStr) (fuel : Nat) (c : Coll) (count rounds : Nat) (s : State) : UB Listed :=
  listLoop file fuel c count rounds s [] 0

/-- `fiftyoneDegreesOverrideValuesAdd`, overrides.c:317-352, with the asserts. The collection of the item is the dummy collection,
overrides.c:327, so that only the room can be missing. -/
def valuesAdd (idx : Nat) (capacity : Nat) : List (Nat × Overrides.Text) → List Overrides.Text → UB (List Overrides.Text × Nat)
  | [], list => some (list, 0)
  | it :: rest, list =>
    if list.length < capacity then
      if it.1 = idx then
        if list.length < capacity then (valuesAdd idx capacity rest (list ++ [it.2])).map fun r => (r.1, r.2 + 1) else none
      else valuesAdd idx capacity rest list
    else some (list, 0)

/-! ## C103 -/

/-- A collection made from a file of any contents with any header, in memory or in any other way. The length is a `uint32_t`, and the
collection in memory is not longer than the memory (collection.c:801-807). -/
def Made (file : CStr) (c : Coll) : Prop :=
  (∃ h : Header, h.start + h.length ≤ file.length ∧ c = createFromMemory file h) ∨
  ∃ (cfg : Config) (h : Header) (read : Reader), h.length < 2 ^ 32 ∧ createFromFile file cfg h read = some (some c)

/-- What is in the memory of a collection. -/
structure Sound (m : Mem) : Prop where
  size : m.size ≤ m.bytes.length
  count : m.elementSize ≠ 0 → m.count * m.elementSize ≤ m.size

theorem slice_length {file : CStr} {pos n : Nat} {b : CStr} (h : slice file pos n = some b) : b.length = n := by
  simp only [slice] at h
  split at h
  · cases h; simp; omega
  · cases h

theorem part_sound {file : CStr} {cfg : Config} {h : Header} {read : Reader} (hl : h.length < 2 ^ 32) {m : Mem}
    {next : Option (Back × FileColl)} (hc : createFromFile file cfg h read = some (some (.part m next))) : Sound m := by
  simp only [createFromFile] at hc
  split at hc
  · split at hc
    · cases hc
    · cases hc
    · next count size hload =>
      split at hc
      · cases hc
      · next bytes hb =>
        have key : m = ⟨bytes, size, count, h.elementSize⟩ := by
          split at hc <;> · cases hc; rfl
        subst key
        refine ⟨Nat.le_of_eq (slice_length hb).symm, fun he => ?_⟩
        simp only at he ⊢
        simp only [loadedSize, fileColl, he, ne_eq, not_false_eq_true, if_true, Option.some.injEq, Prod.mk.injEq] at hload
        obtain ⟨rfl, rfl⟩ := hload
        have h1 : (if cfg.loaded > h.count then h.count else cfg.loaded) ≤ h.count := by split <;> omega
        have h2 : h.count * h.elementSize ≤ h.length := by
          simp only [Header.elementSize]
          split
          · simp
          · exact Nat.mul_div_le _ _
        have h3 := Nat.mul_le_mul_right h.elementSize h1
        exact Nat.le_of_eq (Nat.mod_eq_of_lt (Nat.lt_of_le_of_lt (Nat.le_trans h3 h2) hl)).symm
  · cases hc

theorem memory_sound {file : CStr} {h : Header} (hl : h.start + h.length ≤ file.length) {m : Mem}
    (hc : Coll.memory m = createFromMemory file h) : Sound m := by
  simp only [createFromMemory] at hc
  injection hc with hc
  subst hc
  refine ⟨by simp; omega, fun he => ?_⟩
  simp only at he ⊢
  rw [if_pos he]
  exact Nat.div_mul_le_self _ _

theorem Made.memory {file : CStr} {m : Mem} (h : Made file (.memory m)) : Sound m := by
  rcases h with ⟨hd, h1, h2⟩ | ⟨cfg, hd, read, h1, h2⟩
  · exact memory_sound h1 h2
  · exfalso
    simp only [createFromFile] at h2
    split at h2
    · split at h2
      · cases h2
      · cases h2
      · split at h2
        · cases h2
        · split at h2 <;> cases h2
    · cases h2

theorem Made.part {file : CStr} {m : Mem} {next : Option (Back × FileColl)} (h : Made file (.part m next)) : Sound m := by
  rcases h with ⟨hd, h1, h2⟩ | ⟨cfg, hd, read, h1, h2⟩
  · cases h2
  · exact part_sound h1 h2

/-- An item in memory ends there: its first byte, or all of it if the size is fixed. -/
theorem Sound.place {m : Mem} (h : Sound m) {key : UInt32} (hi : inMemory m key = true) :
    Debug.place m key + max 1 m.elementSize ≤ m.size := by
  simp only [inMemory, decide_eq_true_eq] at hi
  simp only [Debug.place]
  split at hi
  · next he => rw [if_pos he, he]; simp only [Nat.zero_le, Nat.max_eq_left]; omega
  · next he =>
    rw [if_neg he]
    have h1 := h.count he
    have h2 : (key.toNat + 1) * m.elementSize ≤ m.count * m.elementSize := Nat.mul_le_mul_right _ hi
    rw [Nat.succ_mul] at h2
    omega

theorem Sound.okay {m : Mem} (h : Sound m) (key : UInt32) : okay m key = true := by
  simp only [Debug.okay, Bool.or_eq_true, Bool.not_eq_true', decide_eq_true_eq]
  cases hi : inMemory m key with
  | false => exact .inl rfl
  | true => have := h.place hi; exact .inr (by omega)

/-- C103: whatever is in the data and in the header, no get of an item fails an assert. -/
theorem C103_get {file : CStr} {c : Coll} (h : Made file c) (fuel : Nat) (s : State) (key : UInt32) (item : Item) :
    get file fuel s key item c = c.get file fuel s key item := by
  cases c with
  | memory m => simp only [get, h.memory.okay key, if_true]
  | back b f => rfl
  | part m next => simp only [get, h.part.okay key, if_true]

/-- C103: an item in the memory of a collection starts in that memory, and if the items are of a fixed size it ends there, whatever is
in the data and in the header. -/
theorem C103_inside {file : CStr} {c : Coll} (h : Made file c) {m : Mem} (hm : c = .memory m ∨ ∃ next, c = .part m next) {fuel : Nat}
    {s : State} {key : UInt32} {item : Item} (hi : key.toNat < (if m.elementSize = 0 then m.size else m.count)) :
    ∃ g bytes, c.get file fuel s key item = some g ∧ g.ptr = some (.memory bytes) ∧ bytes <:+ m.bytes ∧ bytes ≠ [] ∧
      m.elementSize ≤ bytes.length ∧ g.err = none := by
  have hsound : Sound m := by
    rcases hm with rfl | ⟨next, rfl⟩
    · exact h.memory
    · exact h.part
  have hp := hsound.place (key := key) (by simpa [inMemory] using hi)
  have hlen := hsound.size
  have fit : ∀ n, n = place m key → (m.bytes.drop n) ≠ [] ∧ m.elementSize ≤ (m.bytes.drop n).length := by
    rintro n rfl
    have h1 : (m.bytes.drop (place m key)).length = m.bytes.length - place m key := List.length_drop
    refine ⟨fun e => ?_, by omega⟩
    rw [e] at h1
    simp only [List.length_nil] at h1
    omega
  rcases hm with rfl | ⟨next, rfl⟩
  · simp only [Coll.get, getMemory]
    by_cases he : m.elementSize = 0
    · rw [if_pos he] at hi
      rw [if_pos he, if_pos hi]
      obtain ⟨f1, f2⟩ := fit key.toNat (by simp [place, he])
      exact ⟨_, _, rfl, rfl, List.drop_suffix _ _, f1, f2, rfl⟩
    · rw [if_neg he] at hi
      rw [if_neg he, if_pos hi]
      obtain ⟨f1, f2⟩ := fit (key.toNat * m.elementSize) (by simp [place, he])
      exact ⟨_, _, rfl, rfl, List.drop_suffix _ _, f1, f2, rfl⟩
  · simp only [Coll.get, getPartial, hi, if_true]
    obtain ⟨f1, f2⟩ := fit (if m.elementSize = 0 then key.toNat else key.toNat * m.elementSize) rfl
    exact ⟨_, _, rfl, rfl, List.drop_suffix _ _, f1, f2, rfl⟩

/-- A read without an exception returns a block. -/
theorem readItem_block {file : CStr} {f : FileColl} {h h' : Heap} {key : UInt32} {item item' : Item} {i : Option Nat}
    (hr : readItem file f h key item = some (h', item', i, none)) : i ≠ none := by
  rintro rfl
  simp only [readItem] at hr
  split at hr
  · simp only [readFixed] at hr
    repeat' split at hr
    all_goals first | (cases hr; done) | simp [Option.map_eq_some_iff] at hr
  · simp only [readVariable, readVariableAt] at hr
    repeat' split at hr
    all_goals first | (cases hr; done) | simp [Option.map_eq_some_iff] at hr

theorem file_owner {file : CStr} {f : FileColl} {h h' : Heap} {key : UInt32} {item item' : Item} {p : Option Ref}
    (hg : getFile file f h key item = some (h', item', p, none)) : item'.owner ≠ none := by
  simp only [getFile] at hg
  cases hr : readItem file f h key item with
  | none => rw [hr] at hg; cases hg
  | some r =>
    obtain ⟨h1, i1, b, e⟩ := r
    rw [hr] at hg
    cases b with
    | some i =>
      cases e with
      | none => cases hg; simp
      | some e => cases hg
    | none =>
      cases e with
      | none => exact absurd rfl (readItem_block hr)
      | some e => cases hg

theorem cache_owner {file : CStr} {f : FileColl} {fuel : Nat} {c c' : Cache.Cache CStr} {key : UInt32} {item item' : Item} {p : Option Ref}
    {e : Option Err} (hg : getFromCache file f fuel c key item = some (c', item', p, e)) : item'.owner ≠ none := by
  simp only [getFromCache, getFromCache.found] at hg
  split at hg
  · cases hg
  · split at hg
    · cases hg
    · split at hg <;> · cases hg; simp
    · split at hg <;> · cases hg; simp
    · cases hg; simp
    · cases hg; simp

theorem back_owner {file : CStr} {f : FileColl} {b : Back} {fuel : Nat} {s : State} {key : UInt32} {item : Item} {g : Got}
    (hg : getBack file fuel b f s key item = some g) (he : g.err = none) : g.item.owner ≠ none := by
  cases b with
  | file =>
    simp only [getBack, Option.map_eq_some_iff] at hg
    obtain ⟨⟨h, i, p, e⟩, h1, rfl⟩ := hg
    cases he
    exact file_owner h1
  | cache =>
    simp only [getBack, Option.map_eq_some_iff] at hg
    obtain ⟨⟨h, i, p, e⟩, h1, rfl⟩ := hg
    exact cache_owner h1

/-- C103: a get without an exception sets the collection in the item, whatever the collection and the item before. -/
theorem C103_owner {file : CStr} {c : Coll} {fuel : Nat} {s : State} {key : UInt32} {item : Item} {g : Got}
    (hg : c.get file fuel s key item = some g) (he : g.err = none) : g.item.owner ≠ none := by
  cases c with
  | memory m =>
    simp only [Coll.get, getMemory] at hg
    split at hg <;> split at hg
    · cases hg; simp
    · simp only [Option.map_eq_some_iff] at hg
      obtain ⟨_, _, rfl⟩ := hg; cases he
    · cases hg; simp
    · simp only [Option.map_eq_some_iff] at hg
      obtain ⟨_, _, rfl⟩ := hg; cases he
  | back b f => exact back_owner hg he
  | part m next =>
    simp only [Coll.get, getPartial] at hg
    by_cases hk : key.toNat < (if m.elementSize = 0 then m.size else m.count)
    · rw [if_pos hk] at hg
      cases hg; simp
    · rw [if_neg hk] at hg
      cases next with
      | some n =>
        simp only [Option.map_eq_some_iff] at hg
        obtain ⟨r, h1, rfl⟩ := hg
        exact back_owner (g := r) h1 he
      | none =>
        simp only [Option.map_eq_some_iff] at hg
        obtain ⟨_, _, rfl⟩ := hg; cases he

/-- C103: no assert fails while the components are listed, for any number of them, whatever is in the data. -/
theorem C103_list {file : CStr} {c : Coll} (h : Made file c) (fuel count rounds : Nat) (s : State) :
    initList file fuel c count rounds s = Record.initList file fuel c count rounds s := by
  suffices hs : ∀ (rounds : Nat) (s : State) (items : List Item) (offset : Nat),
      listLoop file fuel c count rounds s items offset = Record.listLoop file fuel c count rounds s items offset from hs _ _ _ _
  intro rounds
  induction rounds with
  | zero => intros; rfl
  | succ rounds ih =>
    intro s items offset
    simp only [listLoop, Record.listLoop, C103_get h]
    by_cases hl : items.length < count
    · simp only [if_pos hl]
      cases hg : c.get file fuel s (UInt32.ofNat offset) Item.new with
      | none => rfl
      | some g =>
        simp only
        cases he : g.err with
        | some e => rfl
        | none =>
          simp only
          cases hp : g.ptr with
          | none => exact ih _ _ _
          | some p =>
            simp only [listAdd, hl, C103_owner hg he, ne_eq, not_false_eq_true, and_self, if_true]
            cases hv : (view g.state p).bind fun bytes => Component.keyValuesCount bytes 0 with
            | none => rfl
            | some n => exact ih _ _ _
    · simp only [if_neg hl]

/-- C103: no assert fails while override values are added to a list, however full it is. -/
theorem C103_overrides (idx capacity : Nat) (items : List (Nat × Overrides.Text)) (list : List Overrides.Text) :
    valuesAdd idx capacity items list = some (Overrides.valuesAdd idx capacity items list) := by
  induction items generalizing list with
  | nil => rfl
  | cons it rest ih =>
    simp only [valuesAdd, Overrides.valuesAdd]
    by_cases hl : list.length < capacity
    · simp only [if_pos hl]
      by_cases hi : it.1 = idx
      · simp only [if_pos hi, ih, Option.map_some]
      · simp only [if_neg hi, ih]
    · simp only [if_neg hl]

/-! ## Cases -/

/-- A header with a length that is not a multiple of the count: in memory there is one item more than the header says. -/
def odd : Header := ⟨1, 11, 4⟩

/-- A file for it. -/
def oddFile : CStr := [9, 1, 2, 3, 4, 5, 6, 7, 8, 9, 10, 11]

example : Made oddFile (createFromMemory oddFile odd) := .inl ⟨odd, by decide, rfl⟩

example : Made oddFile (made oddFile ⟨2, 0, 0⟩ odd .fixed) := .inr ⟨⟨2, 0, 0⟩, odd, .fixed, by decide, rfl⟩

/-- The items in memory, and two in memory with the others in the file: out of range or not, no assert fails. -/
example : ([createFromMemory oddFile odd, made oddFile ⟨2, 0, 0⟩ odd .fixed].map fun c => [0, 1, 3, 4, 5].map fun key =>
      ((newState 1).bind fun s => get oddFile 12 s key Item.new c).map fun g => (g.err, decide (g.item.owner = none))) =
    [[some (none, false), some (none, false), some (none, false), some (none, false), some (some .indexOutOfRange, true)],
     [some (none, false), some (none, false), some (none, false), some (some .indexOutOfRange, true),
      some (some .indexOutOfRange, true)]] := by
  decide +kernel

/-- The asserts can fail: with a count of the header that is more than fits, and for an item no getter has filled. -/
example : okay ⟨[1, 2, 3, 4], 4, 3, 2⟩ 2 = false ∧ listAdd 1 [] Item.new = none ∧
    listAdd 0 [] ⟨none, 0, 0, none, some .memory⟩ = none := by
  decide +kernel

/-- Two values for one property and room for one. -/
example : valuesAdd 2 1 [(2, ⟨2, [65]⟩), (2, ⟨2, [66]⟩)] [] = some ([⟨2, [65]⟩], 1) := by decide +kernel

end Verif.Record.Debug
