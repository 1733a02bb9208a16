import Verif.Record.Values

/-! # C82: texts and coordinates behind offsets, over collections of any kind -/

namespace Verif.Record

open Verif.Collection
open Verif.Component (read16 read32 le16 le32 read32_le)
open Verif.Cache (Event eventsOf held)
open Verif.Lookup (Name)

/-! ## Model -/

/-- `MetaData::getString`, MetaData.cpp:36-55, and the same in EntityMetaDataBuilder.hpp:57-78: the text or the exception thrown, and
the strings. The item is released also if there is no string. -/
def getText (file : CStr) (fuel : Nat) (strings : Coll) (s : State) (offset : UInt32) : UB (Except Err CStr × State) :=
  match strings.get file fuel s offset Item.new with
  | none => none
  | some g =>
    match g.err with
    | some e => some (.error e, g.state)
    | none =>
      if g.ptr ≠ none then do
        let bytes ← bytesAt g.state g.item
        let text ← cstr (bytes.drop 2)
        let r ← strings.release fuel g.state g.item
        some (.ok text, r.1)
      else (strings.release fuel g.state g.item).map fun r => (.ok [], r.1)

/-- `EngineBase::appendString`, EngineBase.cpp:153-166: what is in the stream after, the exception thrown, and the strings. -/
def appendString (file : CStr) (fuel : Nat) (strings : Coll) (s : State) (stream : CStr) (offset : UInt32) :
    UB (CStr × Option Err × State) :=
  match strings.get file fuel s offset Item.new with
  | none => none
  | some g =>
    if g.ptr ≠ none ∧ g.err = none then do
      let bytes ← bytesAt g.state g.item
      let text ← cstr (bytes.drop 2)
      let r ← strings.release fuel g.state g.item
      some (stream ++ text, none, r.1)
    else some (stream, g.err, g.state)

/-- The strings of the records. -/
inductive Field where
  | propertyName
  | propertyDescription
  | propertyCategory
  | propertyUrl
  | valueName
  | valueDescription
  | valueUrl
  | componentName
deriving DecidableEq, Repr

/-- Where the offset of the string is in the record: property.h:84-113, value.h:71-81, component.h:78-91, all packed. -/
def Field.at : Field → Nat
  | .propertyName => 12
  | .propertyDescription => 16
  | .propertyCategory => 20
  | .propertyUrl => 24
  | .valueName => 2
  | .valueDescription => 6
  | .valueUrl => 10
  | .componentName => 1

/-- `fiftyoneDegreesPropertyGetName`, `...GetDescription`, `...GetCategory`, `...GetUrl`, property.c:39-85; `fiftyoneDegreesValueGetName`,
`...GetDescription`, `...GetUrl`, value.c:158-184; `fiftyoneDegreesComponentGetName`, component.c:53-63: on the bytes of the record.
An offset kept as an `int32_t` is converted to `uint32_t`. -/
def fieldString (file : CStr) (fuel : Nat) (strings : Coll) (f : Field) (record : CStr) (s : State) (item : Item) : UB Got := do
  let o ← read32 record f.at
  strings.get file fuel s (UInt32.ofNat o) item

/-- `fiftyoneDegreesIpiGetCoordinate`, coordinate.c:28-41: the two floats, and whether `CORRUPT_DATA` is set. `native` is
`FLOAT_TO_NATIVE` on four bytes. A pointer that is NULL or leads to less memory than is read is undefined. -/
def getCoordinate {α : Type} (native : CStr → α) (zero : α) (s : State) (item : Item) : UB ((α × α) × Bool) := do
  let bytes ← bytesAt s item
  let first ← bytes[2]?
  if first = 1 then
    if bytes.length ≥ 11 then some ((native ((bytes.drop 3).take 4), native ((bytes.drop 7).take 4)), false) else none
  else some ((zero, zero), true)

/-! ## Theorems -/

/-- The data file holds the strings. -/
structure HoldsTexts (file : CStr) (names : List Name) (h : Header) : Prop where
  strings : ∃ pre post, file = pre ++ (names.flatMap (encodeString ∘ stored) ++ post) ∧
    h = ⟨pre.length, (names.flatMap (encodeString ∘ stored)).length, 0⟩
  small : (names.flatMap (encodeString ∘ stored)).length < 2 ^ 31
  short : ∀ n ∈ names, (stored n).length < 2 ^ 15
  good : ∀ n ∈ names, GoodName n

/-- Where string `i` starts. -/
def offsetOf (names : List Name) (i : Nat) : Nat := startOf (encodeString ∘ stored) names i

variable {file : CStr} {fuel : Nat} {names : List Name} {h : Header} {cfg : Config} {c : Coll} {capacity : Nat} {s : State}
  {evs : List (Nat × Event UInt32 CStr)}

theorem HoldsTexts.get (hh : HoldsTexts file names h) (hc : Created file cfg h stringReader c)
    (rd : Ready file cfg h stringReader fuel capacity s evs) {i : Nat} {n : Name} (hn : names[i]? = some n) {item : Item}
    (io : ItemOk cfg item) :
    ∃ g s' item', c.get file fuel s (UInt32.ofNat (offsetOf names i)) item = some g ∧ Shows g (encodeString (stored n)) ∧
      c.release fuel g.state g.item = some (s', item') ∧ Kept file cfg h stringReader fuel capacity evs s s' := by
  obtain ⟨pre, post, hf, hhd⟩ := hh.strings
  have hsm := hh.small
  have hshort := hh.short
  clear hh
  subst hhd
  subst hf
  obtain ⟨w, hit⟩ := records (pre := pre) (post := post) (enc := encodeString ∘ stored) (rs := names) (n := 2) (g := stringSize)
    (fun t h => sized_string (hshort t h)) (by omega)
  have hkey := startOf_le (enc := encodeString ∘ stored) (rs := names) i
  obtain ⟨g, s', item', q1, q2, q3, -, -, q5⟩ := borrow w hc (hit i n hn) (goodKey (by omega) (fun _ => by omega)) rd io
  exact ⟨g, s', item', q1, q2, q3, q5⟩

/-- C82: the text copied is the one in the file, to the byte before the terminator, and what was taken from the strings is given
back. Missing: strings in other formats, see `C82_format_violated`; a cache in which all nodes of a shard are held, see
`C82_full_violated`. -/
theorem C82_text_partial (hh : HoldsTexts file names h) (hc : Created file cfg h stringReader c)
    (rd : Ready file cfg h stringReader fuel capacity s evs) {i : Nat} {text : CStr} (hn : names[i]? = some (.text text))
    (stream : CStr) :
    (∃ s', getText file fuel c s (UInt32.ofNat (offsetOf names i)) = some (.ok text, s') ∧
      Kept file cfg h stringReader fuel capacity evs s s') ∧
    ∃ s', appendString file fuel c s stream (UInt32.ofNat (offsetOf names i)) = some (stream ++ text, none, s') ∧
      Kept file cfg h stringReader fuel capacity evs s s' := by
  obtain ⟨g, s', item', g1, g2, g3, g4⟩ := hh.get hc rd hn (item := Item.new) ⟨fun _ => rfl, rfl⟩
  obtain ⟨tail, b⟩ := Shows.bytesAt g2
  obtain ⟨m1, -, ref, -, m2, -⟩ := g2
  have hp : g.ptr ≠ none := by rw [m2]; simp
  have e2 : cstr ((encodeString (stored (.text text)) ++ tail).drop 2) = some text := by
    rw [encodeString, List.append_assoc, List.drop_left' (le16_length _), stored, List.append_assoc]
    exact cstr_text text (hh.good _ (List.mem_of_getElem? hn)).1 tail
  constructor
  · refine ⟨s', ?_, g4⟩
    rw [getText, g1]
    simp only [m1, if_pos hp, b, Option.bind_eq_bind, Option.bind_some, e2, g3]
  · refine ⟨s', ?_, g4⟩
    rw [appendString, g1]
    simp only
    rw [if_pos ⟨hp, m1⟩]
    simp only [b, Option.bind_eq_bind, Option.bind_some, e2, g3]

/-- C82: an offset outside of the strings is reported, nothing is appended, and nothing is allocated. Missing: a cache in which all nodes
of a shard are held. -/
theorem C82_outside_partial (w : WellFormed file h stringReader) (hc : Created file cfg h stringReader c) {key : UInt32}
    (hn : h.length ≤ key.toNat) (hk : second cfg = .cache → key ≠ 0x80000000)
    (rd : Ready file cfg h stringReader fuel capacity s evs) (stream : CStr) :
    (∃ s', getText file fuel c s key = some (.error .offsetOutOfRange, s') ∧ s'.heap = s.heap) ∧
    ∃ s', appendString file fuel c s stream key = some (stream, some .offsetOutOfRange, s') ∧ s'.heap = s.heap := by
  obtain ⟨g, g1, g2, g3, g4, g5⟩ := C13_outside_partial (read := stringReader) w hc hn (fun hx => ⟨(rd.2 hx).1, hk hx⟩)
    (item := Item.new) (fun _ => rfl)
  have he : g.err = some .offsetOutOfRange := by
    rcases g5 with h | ⟨a, b⟩
    · exact h
    · exact absurd b (notFull rd hk a)
  refine ⟨⟨g.state, ?_, g3⟩, g.state, ?_, g3⟩
  · rw [getText, g1]; simp only [he]
  · rw [appendString, g1]; simp only; rw [if_neg (by rw [he]; simp), he]

/-! ### The records, field by field -/

/-- The members of `fiftyoneDegreesProperty`, property.h:85-113, in their order. -/
structure PropertyFields where
  componentIndex : UInt8
  displayOrder : UInt8
  isMandatory : UInt8
  isList : UInt8
  showValues : UInt8
  isObsolete : UInt8
  «show» : UInt8
  valueType : UInt8
  defaultValueIndex : Nat
  nameOffset : Nat
  descriptionOffset : Nat
  categoryOffset : Nat
  urlOffset : Nat
  firstValueIndex : Nat
  lastValueIndex : Nat
  mapCount : Nat
  firstMapIndex : Nat

/-- The packed structure. -/
def PropertyFields.pack (p : PropertyFields) : CStr :=
  [p.componentIndex, p.displayOrder, p.isMandatory, p.isList, p.showValues, p.isObsolete, p.show, p.valueType] ++
    (le32 p.defaultValueIndex ++ (le32 p.nameOffset ++ (le32 p.descriptionOffset ++ (le32 p.categoryOffset ++
      (le32 p.urlOffset ++ (le32 p.firstValueIndex ++ (le32 p.lastValueIndex ++ (le32 p.mapCount ++ le32 p.firstMapIndex))))))))

/-- The members of `fiftyoneDegreesValue`, value.h:72-80. -/
structure ValueFields where
  propertyIndex : Nat
  nameOffset : Nat
  descriptionOffset : Nat
  urlOffset : Nat

def ValueFields.pack (v : ValueFields) : CStr :=
  le16 v.propertyIndex ++ (le32 v.nameOffset ++ (le32 v.descriptionOffset ++ le32 v.urlOffset))

/-- The members of `fiftyoneDegreesComponent`, component.h:79-90, the key value pairs as one. -/
structure ComponentFields where
  componentId : UInt8
  nameOffset : Nat
  defaultProfileOffset : Nat
  keyValuesCount : Nat
  pairs : CStr

def ComponentFields.pack (c : ComponentFields) : CStr :=
  [c.componentId] ++ (le32 c.nameOffset ++ (le32 c.defaultProfileOffset ++ (le16 c.keyValuesCount ++ c.pairs)))

theorem read32_at {record : CStr} {n i : Nat} (before after : CStr) (hr : record = before ++ (le32 n ++ after))
    (hb : before.length = i) (hn : n < 2 ^ 32) : read32 record i = some n := by
  rw [← hb, hr]; exact read32_le before after n hn

/-- The record has a field, and the offset kept in it. -/
inductive Keeps : Field → Nat → CStr → Prop
  | propertyName (p : PropertyFields) : Keeps .propertyName p.nameOffset p.pack
  | propertyDescription (p : PropertyFields) : Keeps .propertyDescription p.descriptionOffset p.pack
  | propertyCategory (p : PropertyFields) : Keeps .propertyCategory p.categoryOffset p.pack
  | propertyUrl (p : PropertyFields) : Keeps .propertyUrl p.urlOffset p.pack
  | valueName (v : ValueFields) : Keeps .valueName v.nameOffset v.pack
  | valueDescription (v : ValueFields) : Keeps .valueDescription v.descriptionOffset v.pack
  | valueUrl (v : ValueFields) : Keeps .valueUrl v.urlOffset v.pack
  | componentName (c : ComponentFields) : Keeps .componentName c.nameOffset c.pack

theorem Keeps.read {f : Field} {o : Nat} {record : CStr} (hk : Keeps f o record) (ho : o < 2 ^ 32) : read32 record f.at = some o := by
  cases hk
  case componentName c => exact read32_at (c.pack.take 1) (c.pack.drop 5) rfl rfl ho
  case valueName v => exact read32_at (v.pack.take 2) (v.pack.drop 6) rfl rfl ho
  case valueDescription v => exact read32_at (v.pack.take 6) (v.pack.drop 10) rfl rfl ho
  case valueUrl v => exact read32_at (v.pack.take 10) (v.pack.drop 14) rfl rfl ho
  case propertyName p => exact read32_at (p.pack.take 12) (p.pack.drop 16) rfl rfl ho
  case propertyDescription p => exact read32_at (p.pack.take 16) (p.pack.drop 20) rfl rfl ho
  case propertyCategory p => exact read32_at (p.pack.take 20) (p.pack.drop 24) rfl rfl ho
  case propertyUrl p => exact read32_at (p.pack.take 24) (p.pack.drop 28) rfl rfl ho

/-- C82: where C80, C81 and C83 say that a property has a type, a name and a range of values, and a value a name, it is what the
structure holds under that name. -/
theorem C82_layout (p : PropertyFields) (v : ValueFields) (h1 : p.nameOffset < 2 ^ 32) (h2 : p.firstValueIndex < 2 ^ 32)
    (h3 : p.lastValueIndex < 2 ^ 32) (h4 : v.nameOffset < 2 ^ 32) :
    p.pack.length = 44 ∧ v.pack.length = 14 ∧ p.pack[7]? = some p.valueType ∧ read32 p.pack 12 = some p.nameOffset ∧
      read32 p.pack 28 = some p.firstValueIndex ∧ read32 p.pack 32 = some p.lastValueIndex ∧ read32 v.pack 2 = some v.nameOffset :=
  ⟨rfl, rfl, rfl, read32_at (p.pack.take 12) (p.pack.drop 16) rfl rfl h1, read32_at (p.pack.take 28) (p.pack.drop 32) rfl rfl h2,
    read32_at (p.pack.take 32) (p.pack.drop 36) rfl rfl h3, read32_at (v.pack.take 2) (v.pack.drop 6) rfl rfl h4⟩

/-- C82: the string of a record is the one at the offset kept in the field of that name, and can be given back. Missing: a cache in
which all nodes of a shard are held. -/
theorem C82_field_partial (hh : HoldsTexts file names h) (hc : Created file cfg h stringReader c)
    (rd : Ready file cfg h stringReader fuel capacity s evs) {i : Nat} {n : Name} (hn : names[i]? = some n) {item : Item}
    (io : ItemOk cfg item) {f : Field} {record : CStr} (hk : Keeps f (offsetOf names i) record) :
    ∃ g s' item', fieldString file fuel c f record s item = some g ∧
      Shows g (encodeString (stored n)) ∧ c.release fuel g.state g.item = some (s', item') ∧
      Kept file cfg h stringReader fuel capacity evs s s' := by
  obtain ⟨g, s', item', g1, g2, g3, g4⟩ := hh.get hc rd hn io
  refine ⟨g, s', item', ?_, g2, g3, g4⟩
  have hlt : offsetOf names i < 2 ^ 32 := by
    have := startOf_le (enc := encodeString ∘ stored) (rs := names) i
    have := hh.small
    rw [offsetOf]; omega
  simp only [fieldString, hk.read hlt, Option.bind_eq_bind, Option.bind_some, g1]

/-- C82: the coordinate of a string got from the collection is the pair of floats stored in it; for any other string the exception is
set and both are 0. Missing: an item without a string, see `C82_null_violated`. -/
theorem C82_coordinate_partial {α : Type} (native : CStr → α) (zero : α) (hh : HoldsTexts file names h)
    (hc : Created file cfg h stringReader c) (rd : Ready file cfg h stringReader fuel capacity s evs) {i : Nat} {n : Name}
    (hn : names[i]? = some n) {item : Item} (io : ItemOk cfg item) :
    ∃ g, c.get file fuel s (UInt32.ofNat (offsetOf names i)) item = some g ∧
      getCoordinate native zero g.state g.item =
        match n with
        | .coordinate lat lon => some ((native lat, native lon), false)
        | _ => some ((zero, zero), true) := by
  obtain ⟨g, s', item', g1, g2, -, -⟩ := hh.get hc rd hn io
  obtain ⟨tail, b⟩ := Shows.bytesAt g2
  refine ⟨g, g1, ?_⟩
  have hgood := hh.good n (List.mem_of_getElem? hn)
  have hd : (encodeString (stored n) ++ tail).drop 2 = stored n ++ tail := by
    rw [encodeString, List.append_assoc, List.drop_left' (le16_length _)]
  have h2 : (encodeString (stored n) ++ tail)[2]? = (stored n ++ tail)[0]? := by
    rw [← hd, List.getElem?_drop]
  have h3 : ∀ k, (encodeString (stored n) ++ tail).drop (2 + k) = (stored n ++ tail).drop k := by
    intro k; rw [← hd, List.drop_drop]
  have h31 := h3 1
  have h35 := h3 5
  simp only [Nat.reduceAdd] at h31 h35
  rw [getCoordinate, b]
  simp only [Option.bind_eq_bind, Option.bind_some]
  rw [h2, h31, h35]
  cases n with
  | missing b => exact hgood.elim
  | coordinate lat lon =>
    obtain ⟨a, b⟩ := hgood
    have hl : (encodeString (stored (.coordinate lat lon)) ++ tail).length ≥ 11 := by
      simp only [encodeString, stored, List.length_append, le16_length, List.length_cons]; omega
    rw [if_pos hl]
    simp only [stored, List.cons_append, List.getElem?_cons_zero, List.drop_succ_cons, List.drop_zero, List.append_assoc,
      Option.bind_some, if_true]
    rw [List.take_left' a, List.drop_left' a, List.take_left' b]
  | ip bytes =>
    simp only [stored, List.cons_append, List.getElem?_cons_zero, Option.bind_some]
    rw [if_neg (by decide)]
  | text x =>
    obtain ⟨a, b, c⟩ := hgood
    cases x with
    | nil =>
      simp only [stored, List.nil_append, List.cons_append, List.getElem?_cons_zero, Option.bind_some]
      rw [if_neg (by decide)]
    | cons x xs =>
      simp only [stored, List.cons_append, List.getElem?_cons_zero, Option.bind_some]
      rw [if_neg (by simpa using b)]

/-! ## Concrete runs -/

def textNames : List Name := [.text c!"ab", .coordinate [1, 2, 3, 4] [5, 6, 7, 8], .text c!"c"]
def textFile : CStr := [9] ++ textNames.flatMap (encodeString ∘ stored)
def textHeader : Header := ⟨1, 20, 0⟩
def textsOf (cfg : Config) : Coll := made textFile cfg textHeader stringReader

/-- The conditions are met, and the strings start at 0, 5 and 16. -/
example : HoldsTexts textFile textNames textHeader ∧ (List.range 3).map (offsetOf textNames) = [0, 5, 16] := by
  refine ⟨⟨⟨[9], [], by decide +kernel, by decide +kernel⟩, by decide +kernel, ?_, ?_⟩, by decide +kernel⟩
  · intro n hn
    simp only [textNames, List.mem_cons, List.not_mem_nil, or_false] at hn
    rcases hn with rfl | rfl | rfl <;> decide
  · intro n hn
    simp only [textNames, List.mem_cons, List.not_mem_nil, or_false] at hn
    rcases hn with rfl | rfl | rfl
    · exact ⟨by decide, by decide, by decide⟩
    · exact ⟨rfl, rfl⟩
    · exact ⟨by decide, by decide, by decide⟩

/-- The text, or the status of the exception thrown. -/
def shown : Except Err CStr × State → Option CStr × Option Err
  | (.ok t, _) => (some t, none)
  | (.error e, _) => (none, some e)

/-- A property whose category is the string at 16, and a value whose URL is the one at 0. -/
def textProperty : PropertyFields := ⟨1, 2, 0, 0, 1, 0, 1, 0, 7, 0, 5, 16, 0, 30, 40, 0, 0⟩
def textValue : ValueFields := ⟨3, 5, 16, 0⟩

example : Keeps .propertyCategory (offsetOf textNames 2) textProperty.pack ∧ Keeps .valueUrl (offsetOf textNames 0) textValue.pack :=
  ⟨.propertyCategory textProperty, .valueUrl textValue⟩

example : textProperty.nameOffset < 2 ^ 32 ∧ textProperty.firstValueIndex < 2 ^ 32 ∧ textProperty.lastValueIndex < 2 ^ 32 ∧
    textValue.nameOffset < 2 ^ 32 := by decide

example : ((newState 1).bind fun s => (getText textFile 12 (textsOf ⟨0, 1, 1⟩) s 16).map shown) = some (some c!"c", none) ∧
    ((newState 1).bind fun s => (getText textFile 12 (textsOf ⟨0, 0, 0⟩) s 20).map shown) = some (none, some .offsetOutOfRange) ∧
    ((newState 1).bind fun s => (appendString textFile 12 (textsOf ⟨0, 0, 0⟩) s c!"x" 0).map fun r => (r.1, r.2.1)) =
      some (c!"xab", none) ∧
    ((newState 1).bind fun s => ((textsOf ⟨0, 0, 0⟩).get textFile 12 s 5 Item.new).bind fun g =>
      getCoordinate id [] g.state g.item) = some (([1, 2, 3, 4], [5, 6, 7, 8]), false) ∧
    ((newState 1).bind fun s => ((textsOf ⟨0, 0, 0⟩).get textFile 12 s 0 Item.new).bind fun g =>
      getCoordinate id [] g.state g.item) = some (([], []), true) := by
  refine ⟨?_, ?_, ?_, ?_, ?_⟩ <;> decide +kernel

/-- C82 fails when all nodes of the cache are held by others: the text is empty, and there is no exception. -/
theorem C82_full_violated :
    ((newState 1).bind fun s => ((textsOf ⟨0, 1, 1⟩).get textFile 12 s 0 Item.new).bind fun g =>
      (getText textFile 12 (textsOf ⟨0, 1, 1⟩) g.state 16).map shown) = some (some [], none) := by
  decide +kernel

/-- C82 fails for a string that is a coordinate without zero bytes: it is copied as a text, past the end of its memory. -/
theorem C82_format_violated : ((newState 1).bind fun s => (getText textFile 12 (textsOf ⟨0, 0, 0⟩) s 5).map shown) = none := by
  decide +kernel

/-- C82 fails for the item of a get that failed: the pointer to the string is NULL and is followed. -/
theorem C82_null_violated {α : Type} (native : CStr → α) (zero : α) (s : State) (item : Item) (hi : item.ptr = none) :
    getCoordinate native zero s item = none := by
  rw [getCoordinate, bytesAt, hi]; rfl

end Verif.Record
