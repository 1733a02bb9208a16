import Verif.Record.Values

/-! # C83: the profiles with a named value of a named property, over collections of any kind -/

namespace Verif.Record

open Verif.Collection
open Verif.Component (read32 le32 read32_le)
open Verif.Cache (Event eventsOf held)
open Verif.Lookup (Name Env)

/-! ## Model -/

/-- The collections of a data set which the iteration uses. -/
structure Set5 (α : Type) where
  properties : α
  strings : α
  values : α
  offsets : α
  profiles : α

/-- What the iteration leaves: the states of the collections, the indexes in the table of the profiles for which the callback was
called, and the exception. -/
structure Named where
  states : Set5 State
  seen : List Nat
  err : Option Err

/-- The first and the last value of the property at a pointer, 28 and 32 bytes into it (property.h:84-113). -/
def parseRange (bytes : CStr) : UB Profile.Property := do
  let first ← read32 bytes 28
  let last ← read32 bytes 32
  some ⟨first, last⟩

/-- The handles which the local items have before they are first set. -/
structure Junk where
  property : Option Ref
  name : Option Ref
  offset : Option Ref
  profile : Option Ref

/-- profile.c:299-343: the profiles with the value that was found in `v`, if there is one, and no exception. -/
def profilesWith (file : CStr) (fuel : Nat) (cs : Set5 Coll) (js : Junk) (q : Profile.Property) (v : SearchEnd)
    (so st : State) : UB Iterated :=
  if v.ret ≥ 0 ∧ v.err = none then iterateProfiles file fuel cs.offsets cs.profiles js.offset js.profile q v.ret.toNat so st
  else some ⟨so, st, [], v.err⟩

/-- profile.c:292-345, with the property in `r`: the index of the value, the profiles, and the release of the property. -/
def profilesOf (file : CStr) (fuel : Nat) (cs : Set5 Coll) (js : Junk) (e : Env) (rounds : Nat) (value : CStr) (r : NameFound)
    (ss : Set5 State) : UB Named := do
  let bytes ← bytesAt r.properties r.item
  let q ← parseRange bytes
  let v ← valueIndex file fuel cs.values cs.strings e rounds q value ss.values r.strings
  let p ← profilesWith file fuel cs js q v ss.offsets ss.profiles
  let x ← cs.properties.release fuel r.properties r.item
  some ⟨⟨x.1, v.strings, v.values, p.offsets, p.profiles⟩, p.seen, p.err⟩

/-- `fiftyoneDegreesProfileIterateProfilesForPropertyAndValue`, profile.c:272-346; what it returns is the number of calls. `rounds`
bounds the search for the value. -/
def profilesByName (file : CStr) (fuel : Nat) (cs : Set5 Coll) (js : Junk) (e : Env) (rounds : Nat) (property value : CStr)
    (ss : Set5 State) : UB Named :=
  match getByName file fuel cs.properties cs.strings js.name property ss.properties (localItem js.property) ss.strings with
  | none => none
  | some r =>
    if r.index ≠ none ∧ r.err = none then profilesOf file fuel cs js e rounds value r ss
    else some ⟨⟨r.properties, r.strings, ss.values, ss.offsets, ss.profiles⟩, [], r.err⟩

/-! ## The data file -/

/-- The data file: the properties and their names, the values and their names, the strings of both, the table of the profiles, and the
profiles in the order of the table. -/
structure Data where
  recs : List CStr
  names : List CStr
  valueRecs : List CStr
  valueNames : List Name
  texts : List CStr
  profs : List Prof
  table : List (Nat × Nat)
  listed : List Prof

/-- Where the file has them. -/
structure Data.In (d : Data) (file : CStr) (hs : Set5 Header) : Prop where
  names : HoldsNames file d.recs d.names d.texts hs.properties hs.strings
  values : HoldsValues file d.valueRecs d.valueNames d.texts hs.values hs.strings
  profiles : Holds file d.profs d.table hs.offsets hs.profiles
  listing : Listing d.profs d.table d.listed
  some : d.recs ≠ [] ∧ d.table ≠ []

/-- The first property with the name has the range of values `q`. -/
def Data.Range (d : Data) (name : CStr) (q : Profile.Property) : Prop :=
  ∃ (j : Nat) (r : CStr), d.names[j]? = some name ∧ (∀ k, k < j → d.names[k]? ≠ some name) ∧ d.recs[j]? = some r ∧
    read32 r 28 = some q.first ∧ read32 r 32 = some q.last

/-- The profile has a value with the name among those of the property. -/
def Data.Has (d : Data) (q : Profile.Property) (value : CStr) (p : Prof) : Prop :=
  ∃ v ∈ p.values, q.first ≤ v ∧ v ≤ q.last ∧ d.valueNames[v]? = some (.text value)

/-- The collections were created from the file, each in its own way, and are ready for use. -/
structure Opened (file : CStr) (hs : Set5 Header) (fuel : Nat) (cfgs : Set5 Config) (cs : Set5 Coll) (capacities : Set5 Nat)
    (ss : Set5 State) (evs : Set5 (List (Nat × Event UInt32 CStr))) : Prop where
  properties : Created file cfgs.properties hs.properties .fixed cs.properties ∧
    Ready file cfgs.properties hs.properties .fixed fuel capacities.properties ss.properties evs.properties
  strings : Created file cfgs.strings hs.strings stringReader cs.strings ∧
    Ready file cfgs.strings hs.strings stringReader fuel capacities.strings ss.strings evs.strings
  values : Created file cfgs.values hs.values .fixed cs.values ∧
    Ready file cfgs.values hs.values .fixed fuel capacities.values ss.values evs.values
  offsets : Created file cfgs.offsets hs.offsets .fixed cs.offsets ∧
    Ready file cfgs.offsets hs.offsets .fixed fuel capacities.offsets ss.offsets evs.offsets
  profiles : Created file cfgs.profiles hs.profiles profileReader cs.profiles ∧
    Ready file cfgs.profiles hs.profiles profileReader fuel capacities.profiles ss.profiles evs.profiles

/-- All collections are as before: the same memory is allocated and the same nodes are held. -/
structure AllKept (file : CStr) (hs : Set5 Header) (fuel : Nat) (cfgs : Set5 Config) (capacities : Set5 Nat)
    (evs : Set5 (List (Nat × Event UInt32 CStr))) (ss ss' : Set5 State) : Prop where
  properties : Kept file cfgs.properties hs.properties .fixed fuel capacities.properties evs.properties ss.properties ss'.properties
  strings : Kept file cfgs.strings hs.strings stringReader fuel capacities.strings evs.strings ss.strings ss'.strings
  values : Kept file cfgs.values hs.values .fixed fuel capacities.values evs.values ss.values ss'.values
  offsets : Kept file cfgs.offsets hs.offsets .fixed fuel capacities.offsets evs.offsets ss.offsets ss'.offsets
  profiles : Kept file cfgs.profiles hs.profiles profileReader fuel capacities.profiles evs.profiles ss.profiles ss'.profiles

variable {file : CStr} {fuel : Nat} {d : Data} {hs : Set5 Header} {cfgs : Set5 Config} {cs : Set5 Coll} {capacities : Set5 Nat}
  {ss : Set5 State} {evs : Set5 (List (Nat × Event UInt32 CStr))}

theorem read32_within {r : CStr} {i : Nat} (h : i + 4 ≤ r.length) : ∃ v, read32 r i = some v := by
  simp only [read32, Component.read16, Component.byteAt]
  rw [List.getElem?_eq_getElem (by omega : i < r.length), List.getElem?_eq_getElem (by omega : i + 1 < r.length),
    List.getElem?_eq_getElem (by omega : i + 2 < r.length), List.getElem?_eq_getElem (by omega : i + 2 + 1 < r.length)]
  exact ⟨_, rfl⟩

/-- A value of the range has at most one index. -/
theorem sorted_unique {names : List Name} {lo hi : Nat} (h : Lookup.Sorted (fun v => ∃ s, v = .text s) names lo hi) {i j : Nat} {v : CStr}
    (hi1 : lo ≤ i) (hi2 : i ≤ hi) (hj1 : lo ≤ j) (hj2 : j ≤ hi) (h1 : names[i]? = some (.text v)) (h2 : names[j]? = some (.text v)) :
    i = j := by
  have irrefl : ∀ x : CStr, ¬ Profile.StrLt x x := by
    intro x hx
    have := (Profile.strcmp_neg x x).2 hx
    rw [(Profile.strcmp_zero x x).2 rfl] at this
    omega
  by_contra hne
  rcases Nat.lt_or_gt_of_ne hne with hlt | hlt
  · exact irrefl v (h.ascending i j _ _ hi1 hlt hj2 h1 h2)
  · exact irrefl v (h.ascending j i _ _ hj1 hlt hi2 h2 h1)

open Classical in
/-- C83: the callback is called for exactly the profiles which have a value with the name among those of the first property with the
name, in the order of the table; for none if there is no such property; and all that was got from the five collections on the way is
given back, whatever the handles of the local items were, each kept in any way such that releasing the strings with the collection of the properties and the profiles with
the collection of the offsets does the right thing. Missing: the other combinations of storage (`C83_wrong_violated`,
`C83_uninitialised_violated`); properties without values (`C83_empty_violated`); profiles for which the search for the value reads past the end (C75); a cache in
which all nodes of a shard are held (`C83_missed_violated`). -/
theorem C83_profiles_partial (hd : d.In file hs) (ho : Opened file hs fuel cfgs cs capacities ss evs)
    (ha : Agree cs.properties cs.strings cfgs.strings) (ha2 : Agree cs.offsets cs.profiles cfgs.profiles)
    (e : Env) (property value : CStr) {rounds : Nat} (js : Junk)
    (hr : ∀ q, d.Range property q → q.first ≤ q.last ∧
      Lookup.Sorted (fun v => ∃ s, v = .text s) d.valueNames q.first q.last ∧ q.last + 2 ≤ rounds ∧
      ∀ p ∈ d.listed, ∀ x, d.valueNames[x]? = some (.text value) → EndsWithin p q x) :
    ∃ n, profilesByName file fuel cs js e rounds property value ss = some n ∧ n.err = none ∧
      AllKept file hs fuel cfgs capacities evs ss n.states ∧
      n.seen = (List.range d.table.length).filter
        (fun k => ∃ p q, d.listed[k]? = some p ∧ d.Range property q ∧ d.Has q value p) := by
  obtain ⟨r, s', r1, r2, r3, r4, r5⟩ := C80_property_partial hd.names hd.some.1 ho.properties.1 ho.strings.1 ha ho.properties.2
    ho.strings.2 (item := localItem js.property) (fun _ => rfl) js.name property
  rw [profilesByName, r1]
  simp only
  cases hi : r.index with
  | none =>
    rw [hi] at r5
    obtain ⟨q1, q2⟩ := r5
    rw [if_neg (by simp)]
    refine ⟨_, rfl, r2, ⟨?_, r3, Kept.refl ho.values.2, Kept.refl ho.offsets.2, Kept.refl ho.profiles.2⟩, ?_⟩
    · rw [q2]; exact r4
    · symm
      rw [List.filter_eq_nil_iff]
      intro k _
      simp only [decide_eq_true_eq]
      rintro ⟨p, q, -, ⟨j, rc, h1, -⟩, -⟩
      exact q1 (List.mem_of_getElem? h1)
  | some j =>
    rw [hi] at r5
    obtain ⟨q1, q2, rc, tail, item', q3, q4, q5⟩ := r5
    rw [if_pos ⟨by simp, r2⟩]
    obtain ⟨f, p1⟩ := read32_within (r := rc) (i := 28) (by have := hd.names.size rc (List.mem_of_getElem? q3); omega)
    obtain ⟨l, p2⟩ := read32_within (r := rc) (i := 32) (by have := hd.names.size rc (List.mem_of_getElem? q3); omega)
    obtain ⟨q, rfl, rfl⟩ : ∃ q : Profile.Property, q.first = f ∧ q.last = l := ⟨⟨f, l⟩, rfl, rfl⟩
    have hq : d.Range property q := ⟨j, rc, q1, q2, q3, p1, p2⟩
    have huniq : ∀ q', d.Range property q' → q' = q := by
      rintro ⟨f, l⟩ ⟨j', rc', h1, h2, h3, h4, h5⟩
      have hj : j' = j := by
        by_contra hne
        rcases Nat.lt_or_gt_of_ne hne with hlt | hlt
        · exact q2 j' hlt h1
        · exact h2 j hlt q1
      subst hj
      rw [q3] at h3
      cases h3
      rw [p1] at h4
      rw [p2] at h5
      cases h4
      cases h5
      rfl
    obtain ⟨c1, c2, c3, c4⟩ := hr q hq
    have hsize := hd.names.size rc (List.mem_of_getElem? q3)
    have hp : parseRange (rc ++ tail) = some q := by
      rw [parseRange, read32_append (by omega), read32_append (by omega), p1, p2]
      rfl
    obtain ⟨evs', rd', up⟩ := Kept.ready ho.strings.2 r3
    obtain ⟨v, v1, v2, v3, v4, v5⟩ := C81_text_partial hd.values ho.values.1 ho.strings.1 ho.values.2 rd' e value c1 c2 c3
    rcases v5 with ⟨x, a1, a2, a3, a4⟩ | ⟨a1, a2⟩
    · obtain ⟨w, w1, w2, w3, w4, w5⟩ := C75_profiles_partial hd.profiles hd.listing hd.some.2 ho.offsets.1 ho.profiles.1 ha2
        ho.offsets.2 ho.profiles.2 a2 a3 (fun p hp => c4 p hp x a4) js.offset js.profile
      have hw : profilesWith file fuel cs js q v ss.offsets ss.profiles = some w := by
        rw [profilesWith, if_pos ⟨by omega, v2⟩, a1]
        exact w1
      refine ⟨⟨⟨s', v.strings, v.values, w.offsets, w.profiles⟩, w.seen, w.err⟩, ?_, w2, ⟨r4, up _ v4, v3, w4, w5⟩, ?_⟩
      · rw [profilesOf]
        simp only [q4, Option.bind_eq_bind, Option.bind_some, hp, v1, hw, q5]
      · rw [w3]
        apply List.filter_congr
        intro k hk
        have hk' : k < d.listed.length := by rw [hd.listing.length]; exact List.mem_range.1 hk
        rw [List.getElem?_eq_getElem hk', Option.any_some]
        apply decide_eq_decide.2
        constructor
        · intro hx
          exact ⟨_, q, rfl, hq, x, hx, a2, a3, a4⟩
        · rintro ⟨p, q', h1, h2, y, h3, h4, h5, h6⟩
          cases huniq q' h2
          cases h1
          rw [sorted_unique c2 a2 a3 h4 h5 a4 h6]
          exact h3
    · have hw : profilesWith file fuel cs js q v ss.offsets ss.profiles = some ⟨ss.offsets, ss.profiles, [], none⟩ := by
        rw [profilesWith, if_neg (by rw [a1]; simp), v2]
      refine ⟨⟨⟨s', v.strings, v.values, ss.offsets, ss.profiles⟩, [], none⟩, ?_, rfl,
        ⟨r4, up _ v4, v3, Kept.refl ho.offsets.2, Kept.refl ho.profiles.2⟩, ?_⟩
      · rw [profilesOf]
        simp only [q4, Option.bind_eq_bind, Option.bind_some, hp, v1, hw, q5]
      · symm
        rw [List.filter_eq_nil_iff]
        intro k _
        simp only [decide_eq_true_eq]
        rintro ⟨p, q', -, h2, y, -, h4, h5, h6⟩
        cases huniq q' h2
        exact a2 y h4 h5 h6

/-! ## Concrete runs -/

/-- A property with the offset of its name and the range of its values. -/
def rangeRecord (o first last : Nat) : CStr :=
  List.replicate 8 1 ++ le32 9 ++ le32 o ++ List.replicate 12 3 ++ le32 first ++ le32 last ++ List.replicate 8 4

/-- Two properties, "P" with the values "a" and "c" and "Q" with the value "a", and three profiles. -/
def wholeData : Data where
  recs := [rangeRecord 0 0 1, rangeRecord 4 2 2]
  names := [c!"P", c!"Q"]
  valueRecs := [valueRecord 8, valueRecord 12, valueRecord 8]
  valueNames := [.text c!"a", .text c!"c", .text c!"a"]
  texts := [c!"P" ++ [0], c!"Q" ++ [0], c!"a" ++ [0], c!"c" ++ [0]]
  profs := [⟨0, 3, [1, 2]⟩, ⟨0, 7, [0, 2]⟩, ⟨0, 12, [0, 1, 2]⟩]
  table := [(3, 0), (7, 17), (12, 34)]
  listed := [⟨0, 3, [1, 2]⟩, ⟨0, 7, [0, 2]⟩, ⟨0, 12, [0, 1, 2]⟩]

def wholeFile : CStr :=
  wholeData.recs.flatMap id ++ (wholeData.valueRecs.flatMap id ++ (wholeData.texts.flatMap encodeString ++
    (wholeData.table.flatMap encodeOffset ++ wholeData.profs.flatMap encodeProfile)))

def wholeHeaders : Set5 Header := ⟨⟨0, 88, 2⟩, ⟨130, 16, 0⟩, ⟨88, 42, 3⟩, ⟨146, 24, 3⟩, ⟨170, 55, 0⟩⟩

/-- The collections, for five ways to keep them. -/
def wholeColls (cfgs : Set5 Config) : Set5 Coll :=
  ⟨made wholeFile cfgs.properties wholeHeaders.properties .fixed, made wholeFile cfgs.strings wholeHeaders.strings stringReader,
    made wholeFile cfgs.values wholeHeaders.values .fixed, made wholeFile cfgs.offsets wholeHeaders.offsets .fixed,
    made wholeFile cfgs.profiles wholeHeaders.profiles profileReader⟩

/-- All in memory. -/
def wholeMemory : Set5 Coll :=
  ⟨createFromMemory wholeFile wholeHeaders.properties, createFromMemory wholeFile wholeHeaders.strings,
    createFromMemory wholeFile wholeHeaders.values, createFromMemory wholeFile wholeHeaders.offsets,
    createFromMemory wholeFile wholeHeaders.profiles⟩

/-- All handles happen to be NULL. -/
def noJunk : Junk := ⟨none, none, none, none⟩

/-- What the iteration reports: the indexes, the exception, and for each block of memory of the strings whether it is still
allocated. -/
def wholeRun (cs : Set5 Coll) (capacity : Nat) (property value : CStr) (js : Junk := noJunk) :
    UB (List Nat × Option Err × List Bool) :=
  (newState capacity).bind fun s =>
    (profilesByName wholeFile 12 cs js anyEnv 5 property value ⟨s, s, s, s, s⟩).map fun n =>
      (n.seen, n.err, (List.range n.states.strings.heap.next).map fun j => (n.states.strings.heap.block j).isSome)

/-- The same way for all. -/
def allSame (cfg : Config) : Set5 Config := ⟨cfg, cfg, cfg, cfg, cfg⟩

/-- In memory, in the file, cached with one node, and mixed; the value of another property with the same name; names which are not
there. -/
example : wholeRun wholeMemory 1 c!"P" c!"c" = some ([0, 2], none, []) ∧
    wholeRun wholeMemory 1 c!"P" c!"a" = some ([1, 2], none, []) ∧
    wholeRun (wholeColls (allSame ⟨0, 1, 1⟩)) 1 c!"Q" c!"a" = some ([0, 1, 2], none, []) ∧
    wholeRun (wholeColls (allSame ⟨0, 0, 0⟩)) 1 c!"P" c!"c" = some ([0, 2], none, [false, false, false]) ∧
    wholeRun (wholeColls (allSame ⟨0, 0, 0⟩)) 1 c!"P" c!"c" ⟨some (.block 8), some (.block 7), none, some (.node 0 1)⟩ =
      some ([0, 2], none, [false, false, false]) ∧
    wholeRun (wholeColls ⟨⟨1, 0, 0⟩, ⟨0, 1, 1⟩, ⟨0, 0, 0⟩, ⟨0, 1, 1⟩, ⟨0, 1, 1⟩⟩) 1 c!"P" c!"c" = some ([0, 2], none, []) ∧
    wholeRun wholeMemory 1 c!"P" c!"b" = some ([], none, []) ∧ wholeRun wholeMemory 1 c!"R" c!"a" = some ([], none, []) := by
  refine ⟨?_, ?_, ?_, ?_, ?_, ?_, ?_, ?_⟩ <;> decide +kernel

/-- The conditions of the theorem are met. -/
example : wholeData.In wholeFile wholeHeaders ∧ wholeData.Range c!"P" ⟨0, 1⟩ ∧
    Lookup.Sorted (fun v => ∃ s, v = .text s) wholeData.valueNames 0 1 ∧ (∀ p ∈ wholeData.listed, EndsWithin p ⟨0, 1⟩ 1) ∧
    Agree (wholeColls (allSame ⟨0, 1, 1⟩)).properties (wholeColls (allSame ⟨0, 1, 1⟩)).strings ⟨0, 1, 1⟩ := by
  refine ⟨⟨⟨⟨[], _, rfl, by decide +kernel⟩, ⟨wholeData.recs.flatMap id ++ wholeData.valueRecs.flatMap id,
      wholeData.table.flatMap encodeOffset ++ wholeData.profs.flatMap encodeProfile, by decide +kernel, by decide +kernel⟩, by decide +kernel,
      by decide +kernel, rfl, ?_, by decide +kernel, by decide +kernel⟩,
    ⟨⟨wholeData.recs.flatMap id, wholeData.texts.flatMap encodeString ++
      (wholeData.table.flatMap encodeOffset ++ wholeData.profs.flatMap encodeProfile), by decide +kernel, by decide +kernel⟩,
      ⟨wholeData.recs.flatMap id ++ wholeData.valueRecs.flatMap id,
      wholeData.table.flatMap encodeOffset ++ wholeData.profs.flatMap encodeProfile, by decide +kernel, by decide +kernel⟩, by decide +kernel,
      by decide +kernel, rfl, ?_, by decide +kernel, ?_⟩,
    ⟨⟨wholeData.recs.flatMap id ++ (wholeData.valueRecs.flatMap id ++ wholeData.texts.flatMap encodeString),
      wholeData.profs.flatMap encodeProfile, by decide +kernel, by decide +kernel⟩,
      ⟨wholeData.recs.flatMap id ++ (wholeData.valueRecs.flatMap id ++ (wholeData.texts.flatMap encodeString ++
        wholeData.table.flatMap encodeOffset)), [], by decide +kernel, by decide +kernel⟩, by decide +kernel⟩,
    ⟨rfl, by decide, ?_, ?_⟩, by simp [wholeData], by simp [wholeData]⟩,
    ⟨0, _, rfl, fun k hk => absurd hk (by omega), rfl, by decide +kernel, by decide +kernel⟩, ⟨by decide, ?_, ?_⟩, ?_,
    .inr (.inr ⟨⟨_, rfl⟩, fun m h => nomatch h⟩)⟩
  · intro i r n h1 h2
    have : i < 2 := (List.getElem?_eq_some_iff.1 h1).1
    have : i = 0 ∨ i = 1 := by omega
    rcases this with rfl | rfl <;> (cases h1; cases h2)
    · exact ⟨0, rfl, by decide +kernel⟩
    · exact ⟨1, rfl, by decide +kernel⟩
  · intro i r n h1 h2
    have : i < 3 := (List.getElem?_eq_some_iff.1 h1).1
    have : i = 0 ∨ i = 1 ∨ i = 2 := by omega
    rcases this with rfl | rfl | rfl <;> (cases h1; cases h2)
    · exact ⟨2, rfl, by decide +kernel⟩
    · exact ⟨3, rfl, by decide +kernel⟩
    · exact ⟨2, rfl, by decide +kernel⟩
  · intro n hn
    simp only [wholeData, List.mem_cons, List.not_mem_nil, or_false] at hn
    rcases hn with rfl | rfl | rfl <;> exact ⟨by decide, by decide, by decide⟩
  · intro i o p h1 h2
    have : i < 3 := (List.getElem?_eq_some_iff.1 h1).1
    have : i = 0 ∨ i = 1 ∨ i = 2 := by omega
    rcases this with rfl | rfl | rfl <;> (cases h1; cases h2)
    · exact ⟨0, rfl, by decide⟩
    · exact ⟨1, rfl, by decide⟩
    · exact ⟨2, rfl, by decide⟩
  · intro p hp
    unfold Profile.Ascending
    simp only [wholeData, List.mem_cons, List.not_mem_nil, or_false] at hp
    rcases hp with rfl | rfl | rfl <;> decide
  · intro i v h1 h2 hv
    have : i = 0 ∨ i = 1 := by omega
    rcases this with rfl | rfl <;> (cases hv; exact ⟨_, rfl⟩)
  · intro i j a b h1 h2 h3 ha hb
    have : i = 0 ∧ j = 1 := by omega
    rcases this with ⟨rfl, rfl⟩
    cases ha; cases hb
    exact (Profile.strcmp_neg _ _).1 (by decide)
  · intro p hp
    unfold EndsWithin
    simp only [wholeData, List.mem_cons, List.not_mem_nil, or_false] at hp
    rcases hp with rfl | rfl | rfl <;> decide

/-- C83 fails when the properties are in memory and the strings are cached: with one node the name "P" is never released, the property "Q"
is taken for one which is not there, its first value looked at for the one sought, and the callback is called for all the profiles
which have it. -/
theorem C83_wrong_violated :
    wholeRun ⟨wholeMemory.properties, (wholeColls (allSame ⟨0, 1, 1⟩)).strings, wholeMemory.values, wholeMemory.offsets, wholeMemory.profiles⟩ 1
      c!"R" c!"x" = some ([0, 1, 2], none, []) := by
  decide +kernel

/-- C83 fails when the strings are in memory and the properties cached, or the profiles in memory and the offsets in the file: an item
whose handle was never set is released. -/
theorem C83_uninitialised_violated :
    wholeRun ⟨(wholeColls (allSame ⟨0, 1, 1⟩)).properties, wholeMemory.strings, wholeMemory.values, wholeMemory.offsets, wholeMemory.profiles⟩ 1
      c!"P" c!"c" ⟨none, some (.block 7), none, none⟩ = none ∧
    wholeRun ⟨wholeMemory.properties, wholeMemory.strings, wholeMemory.values, (wholeColls (allSame ⟨0, 0, 0⟩)).offsets, wholeMemory.profiles⟩ 1
      c!"P" c!"c" ⟨none, none, none, some (.block 7)⟩ = none := by
  refine ⟨?_, ?_⟩ <;> decide +kernel

/-- C83 fails when all nodes of the cache of the profiles are held by others: there is no exception, and no profile is reported. -/
theorem C83_missed_violated :
    ((newState 1).bind fun s => ((wholeColls (allSame ⟨0, 1, 1⟩)).profiles.get wholeFile 12 s 0 Item.new).bind fun g =>
      (profilesByName wholeFile 12 (wholeColls (allSame ⟨0, 1, 1⟩)) noJunk anyEnv 5 c!"P" c!"a" ⟨s, s, s, s, g.state⟩).map fun n =>
        (n.seen, n.err)) = some ([], none) := by
  decide +kernel

/-- C83 fails for a property without values, whatever value is sought, unless the values are in memory: an item that was
never initialised is released. -/
theorem C83_empty_violated (hd : d.In file hs) (ho : Opened file hs fuel cfgs cs capacities ss evs)
    (ha : Agree cs.properties cs.strings cfgs.strings) (hm : ∀ m, cs.values ≠ .memory m) (js : Junk)
    (e : Env) (property value : CStr) (rounds : Nat) {q : Profile.Property} (hq : d.Range property q) (hlt : q.last < q.first) :
    profilesByName file fuel cs js e rounds property value ss = none := by
  obtain ⟨j, rc, h1, h2, h3, h4, h5⟩ := hq
  obtain ⟨r, s', r1, r2, r3, r4, r5⟩ := C80_property_partial hd.names hd.some.1 ho.properties.1 ho.strings.1 ha ho.properties.2
    ho.strings.2 (item := localItem js.property) (fun _ => rfl) js.name property
  rw [profilesByName, r1]
  simp only
  cases hi : r.index with
  | none =>
    rw [hi] at r5
    exact absurd (List.mem_of_getElem? h1) r5.1
  | some j' =>
    rw [hi] at r5
    obtain ⟨q1, q2, rc', tail, item', q3, q4, -⟩ := r5
    have hj : j = j' := by
      by_contra hne
      rcases Nat.lt_or_gt_of_ne hne with hl | hl
      · exact q2 j hl h1
      · exact h2 j' hl q1
    subst hj
    rw [q3] at h3
    cases h3
    have hsize := hd.names.size rc (List.mem_of_getElem? q3)
    have hp : parseRange (rc ++ tail) = some q := by
      rw [parseRange, read32_append (by omega), read32_append (by omega), h4, h5]
      rfl
    rw [if_pos ⟨by simp, r2⟩, profilesOf]
    simp only [q4, Option.bind_eq_bind, Option.bind_some, hp, C81_empty_violated _ _ _ _ _ _ _ _ _ _ hlt hm, Option.bind_none]

/-- Its conditions are met: a single property whose first value is above its last, with values that are cached. -/
example : read32 (rangeRecord 0 1 0) 28 = some 1 ∧ read32 (rangeRecord 0 1 0) 32 = some 0 ∧
    ((newState 1).bind fun s => (profilesByName (rangeRecord 0 1 0 ++ encodeString (c!"P" ++ [0])) 12
      ⟨createFromMemory (rangeRecord 0 1 0 ++ encodeString (c!"P" ++ [0])) ⟨0, 44, 1⟩,
        createFromMemory (rangeRecord 0 1 0 ++ encodeString (c!"P" ++ [0])) ⟨44, 4, 0⟩, (wholeColls (allSame ⟨0, 1, 1⟩)).values,
        wholeMemory.offsets, wholeMemory.profiles⟩ noJunk anyEnv 5 c!"P" c!"a" ⟨s, s, s, s, s⟩).map fun n => (n.seen, n.err)) = none := by
  decide +kernel

end Verif.Record
