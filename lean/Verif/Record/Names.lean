import Verif.Record.Iterate

/-! # C80: a property by its name, over collections of any kind -/

namespace Verif.Record

open Verif.Collection
open Verif.Component (read16 read32 le32 read32_le)
open Verif.Cache (Event eventsOf held)

/-! ## Model -/

/-- A C string at a pointer. Simplified: undefined without a terminator in the memory, even if a comparison would end before. -/
def cstr : CStr → UB CStr
  | [] => none
  | b :: rest => if b = 0 then some [] else (cstr rest).map (b :: ·)

/-- What a round of the loop leaves: the states of the properties and of the strings, the items, whether `property` is not NULL,
and the exception. -/
structure NameRound where
  properties : State
  item : Item
  strings : State
  nameItem : Item
  found : Bool
  err : Option Err

/-- property.c:129-140: the comparison and the releases, with the name in `p`. Both items are released with the collection of the
properties. -/
def nameCompare (fuel : Nat) (properties : Coll) (name : CStr) (g p : Got) : UB NameRound :=
  if p.err = none then do
    let bytes ← bytesAt p.state p.item
    let text ← cstr (bytes.drop 2)
    if Profile.strcmp text name ≠ 0 then do
      let a ← properties.release fuel g.state g.item
      let b ← properties.release fuel p.state p.item
      some ⟨a.1, a.2, b.1, b.2, false, none⟩
    else do
      let b ← properties.release fuel p.state p.item
      some ⟨g.state, g.item, b.1, b.2, true, none⟩
  else do
    let b ← properties.release fuel p.state p.item
    some ⟨g.state, g.item, b.1, b.2, true, p.err⟩

/-- The body of the loop of `fiftyoneDegreesPropertyGetByName`, property.c:113-142. When there is no name the property stays. The
offset of the name is 12 bytes into the property (property.h:84-113, packed). -/
def nameRound (file : CStr) (fuel : Nat) (properties strings : Coll) (name : CStr) (i : Nat) (s : State) (item : Item)
    (t : State) (nameItem : Item) : UB NameRound :=
  match properties.get file fuel s (UInt32.ofNat i) item with
  | none => none
  | some g =>
    if g.ptr ≠ none ∧ g.err = none then do
      let bytes ← bytesAt g.state g.item
      let o ← read32 bytes 12
      let p ← strings.get file fuel t (UInt32.ofNat o) nameItem
      if p.ptr = none then some ⟨g.state, g.item, p.state, p.item, true, p.err⟩
      else nameCompare fuel properties name g p
    else some ⟨g.state, g.item, t, nameItem, g.ptr.isSome, g.err⟩

/-- What the look-up leaves: the states, the item with the property, the index of the property returned, if it is not NULL, and
the exception. -/
structure NameFound where
  properties : State
  item : Item
  strings : State
  index : Option Nat
  err : Option Err

/-- The loop, property.c:111-143, for the next `n` indexes. -/
def nameLoop (file : CStr) (fuel : Nat) (properties strings : Coll) (name : CStr) :
    (n i : Nat) → State → Item → State → Item → UB NameFound
  | 0, _, s, item, t, _ => some ⟨s, item, t, none, none⟩
  | n + 1, i, s, item, t, nameItem =>
    match nameRound file fuel properties strings name i s item t nameItem with
    | none => none
    | some r =>
      if r.found = false ∧ r.err = none then
        nameLoop file fuel properties strings name n (i + 1) r.properties r.item r.strings r.nameItem
      else some ⟨r.properties, r.item, r.strings, if r.found then some i else none, r.err⟩

/-- `fiftyoneDegreesPropertyGetByName`, property.c:99-145. `nj` is the handle which the local item `propertyNameItem` has before it is
first set. -/
def getByName (file : CStr) (fuel : Nat) (properties strings : Coll) (nj : Option Ref) (name : CStr) (s : State) (item : Item)
    (t : State) : UB NameFound :=
  nameLoop file fuel properties strings name properties.getCount 0 s item t (localItem nj)

/-- `fiftyoneDegreesPropertyGetValueType`, property.c:147-161: the byte at 7, or 0, and the exception. -/
def getValueType (file : CStr) (fuel : Nat) (properties : Coll) (s : State) (key : UInt32) : UB (Nat × State × Option Err) :=
  match properties.get file fuel s key Item.new with
  | none => none
  | some g =>
    if g.ptr ≠ none ∧ g.err = none then do
      let bytes ← bytesAt g.state g.item
      let v ← bytes[7]?
      let r ← properties.release fuel g.state g.item
      some (v.toNat, r.1, none)
    else some (0, g.state, g.err)

/-- `fiftyoneDegreesComponentGetDefaultProfileId`, component.c:33-51, for the offset in the component: the id, or 0, and the
exception. The id is 1 byte into the profile. -/
def getDefaultProfileId (file : CStr) (fuel : Nat) (profiles : Coll) (s : State) (offset : UInt32) : UB (Nat × State × Option Err) :=
  match profiles.get file fuel s offset Item.new with
  | none => none
  | some g =>
    if g.ptr ≠ none ∧ g.err = none then do
      let bytes ← bytesAt g.state g.item
      let v ← read32 bytes 1
      let r ← profiles.release fuel g.state g.item
      some (v, r.1, none)
    else some (0, g.state, g.err)

/-! ## Lemmas -/

theorem cstr_text (text : CStr) (h : ∀ c ∈ text, c ≠ 0) (tail : CStr) : cstr (text ++ 0 :: tail) = some text := by
  induction text with
  | nil => simp [cstr]
  | cons c text ih =>
    have h1 : c ≠ 0 := h c (by simp)
    simp [cstr, h1, ih (fun x hx => h x (by simp [hx]))]

theorem byteAt_append {r tail : CStr} {i : Nat} (h : i < r.length) : Component.byteAt (r ++ tail) i = Component.byteAt r i := by
  rw [Component.byteAt, Component.byteAt, List.getElem?_append_left h]

theorem read32_append {r tail : CStr} {i : Nat} (h : i + 4 ≤ r.length) : read32 (r ++ tail) i = read32 r i := by
  simp only [read32, Component.read16]
  rw [byteAt_append (by omega), byteAt_append (by omega), byteAt_append (by omega), byteAt_append (by omega)]

/-- The data file holds the properties, 44 bytes each, and the strings, in any two places; each property has its name among
the strings. -/
structure HoldsNames (file : CStr) (recs names texts : List CStr) (h h2 : Header) : Prop where
  props : ∃ pre post, file = pre ++ (recs.flatMap id ++ post) ∧ h = ⟨pre.length, (recs.flatMap id).length, recs.length⟩
  strings : ∃ pre post, file = pre ++ (texts.flatMap encodeString ++ post) ∧
    h2 = ⟨pre.length, (texts.flatMap encodeString).length, 0⟩
  small : (recs.flatMap id).length < 2 ^ 32 ∧ (texts.flatMap encodeString).length < 2 ^ 31
  size : ∀ r ∈ recs, r.length = 44
  count : names.length = recs.length
  points : ∀ (i : Nat) (r n : CStr), recs[i]? = some r → names[i]? = some n →
    ∃ j, texts[j]? = some (n ++ [0]) ∧ read32 r 12 = some (startOf encodeString texts j)
  short : ∀ t ∈ texts, t.length < 2 ^ 15
  plain : ∀ n ∈ names, ∀ c ∈ n, c ≠ 0

variable {file : CStr} {fuel : Nat}

/-- A round for property `i`. -/
theorem nameRound_spec {recs names texts : List CStr} {h h2 : Header} (hh : HoldsNames file recs names texts h h2)
    {cfg cfg2 : Config} {c c2 : Coll} (hc : Created file cfg h .fixed c) (hc2 : Created file cfg2 h2 stringReader c2)
    (ha : Agree c c2 cfg2) {capacity capacity2 : Nat} {s t : State} {evs evs2 : List (Nat × Event UInt32 CStr)}
    (rd : Ready file cfg h .fixed fuel capacity s evs) (rd2 : Ready file cfg2 h2 stringReader fuel capacity2 t evs2)
    {item nameItem : Item} (io : ItemOk cfg item) (io2 : ItemOk cfg2 nameItem) {name : CStr} {i : Nat} {r n : CStr}
    (hr : recs[i]? = some r) (hn : names[i]? = some n) :
    ∃ q s' item', nameRound file fuel c c2 name i s item t nameItem = some q ∧ q.err = none ∧ q.found = decide (n = name) ∧
      ItemOk cfg2 q.nameItem ∧ Kept file cfg2 h2 stringReader fuel capacity2 evs2 t q.strings ∧
      Kept file cfg h .fixed fuel capacity evs s s' ∧ ItemOk cfg item' ∧
      (n = name → (∃ tail, bytesAt q.properties q.item = some (r ++ tail)) ∧
        c.release fuel q.properties q.item = some (s', item')) ∧
      (n ≠ name → q.properties = s' ∧ q.item = item') := by
  have hsm := hh.small
  have hrl := hh.size r (List.mem_of_getElem? hr)
  obtain ⟨j, hj, hoff⟩ := hh.points i r n hr hn
  have hlen2 := flatMap_length_const (rs := recs) (enc := (id : CStr → CStr)) (k := 44) (fun v hv => hh.size v hv)
  have hil := (List.getElem?_eq_some_iff.1 hr).1
  -- the property
  obtain ⟨g, s1, item1, g1, g2, g3, g4, g5⟩ : ∃ g s1 item1, c.get file fuel s (UInt32.ofNat i) item = some g ∧
      Shows g r ∧ c.release fuel g.state g.item = some (s1, item1) ∧ ItemOk cfg item1 ∧
      Kept file cfg h .fixed fuel capacity evs s s1 := by
    obtain ⟨pre, post, hf, hhd⟩ := hh.props
    subst hhd
    subst hf
    obtain ⟨w, hit⟩ := fixedRecords (pre := pre) (post := post) (enc := (id : CStr → CStr)) (k := 44) (by omega)
      (List.ne_nil_of_mem (List.mem_of_getElem? hr)) (fun v hv => hh.size v hv) hsm.1
    obtain ⟨g, s1, item1, q1, q2, q3, -, q4, q5⟩ := borrow w hc (hit i r hr) (goodKey (by omega) (fun _ => by omega)) rd io
    exact ⟨g, s1, item1, q1, q2, q3, q4, q5⟩
  -- the name
  obtain ⟨p, t1, item2, k1, k2, k3, k4, k5⟩ : ∃ p t1 item2, c2.get file fuel t (UInt32.ofNat (startOf encodeString texts j)) nameItem = some p ∧
      Shows p (encodeString (n ++ [0])) ∧ c.release fuel p.state p.item = some (t1, item2) ∧ ItemOk cfg2 item2 ∧
      Kept file cfg2 h2 stringReader fuel capacity2 evs2 t t1 := by
    obtain ⟨pre, post, hf, hhd⟩ := hh.strings
    subst hhd
    subst hf
    obtain ⟨w, hit⟩ := records (pre := pre) (post := post) (enc := encodeString) (rs := texts) (n := 2) (g := stringSize)
      (fun t h => sized_string (hh.short t h)) (by omega)
    have hkey := startOf_le (enc := encodeString) (rs := texts) j
    obtain ⟨p, t1, item2, q1, q2, q3, -, q4, q5⟩ := borrow w hc2 (hit j _ hj) (goodKey (by omega) (fun _ => by omega)) rd2 io2
    have hlive := borrow_live w hc2 (hit j _ hj) (goodKey (by omega) (fun _ => by omega)) rd2 io2 q1
    exact ⟨p, t1, item2, q1, q2, (release_other ha hc2 hlive fuel).trans q3, q4, q5⟩
  obtain ⟨tail, b1⟩ := Shows.bytesAt g2
  obtain ⟨tail2, b2⟩ := Shows.bytesAt k2
  obtain ⟨l1, -, ref, -, l2, -⟩ := g2
  obtain ⟨m1, -, ref2, -, m2, -⟩ := k2
  have e1 : read32 (r ++ tail) 12 = some (startOf encodeString texts j) := by rw [read32_append (by omega)]; exact hoff
  have e2 : cstr ((encodeString (n ++ [0]) ++ tail2).drop 2) = some n := by
    have : (encodeString (n ++ [0]) ++ tail2).drop 2 = n ++ 0 :: tail2 := by
      rw [encodeString, List.append_assoc, List.drop_left' (le16_length _)]; simp
    rw [this]; exact cstr_text n (hh.plain n (List.mem_of_getElem? hn)) tail2
  have hround : nameRound file fuel c c2 name i s item t nameItem = nameCompare fuel c name g p := by
    rw [nameRound, g1]
    simp only
    rw [if_pos ⟨by rw [l2]; simp, l1⟩]
    simp only [b1, Option.bind_eq_bind, Option.bind_some, e1, k1]
    rw [if_neg (by rw [m2]; simp)]
  by_cases hname : n = name
  · subst hname
    refine ⟨⟨g.state, g.item, t1, item2, true, none⟩, s1, item1, ?_, rfl, by simp, k4, k5, g5, g4, fun _ => ⟨⟨tail, b1⟩, g3⟩,
      fun hne => absurd rfl hne⟩
    rw [hround, nameCompare, if_pos m1]
    have hz : ¬ Profile.strcmp n n ≠ 0 := not_not.2 ((Profile.strcmp_zero n n).2 rfl)
    simp only [b2, Option.bind_eq_bind, Option.bind_some, e2]
    rw [if_neg hz]
    simp only [k3, Option.bind_some]
  · refine ⟨⟨s1, item1, t1, item2, false, none⟩, s1, item1, ?_, rfl, by simp [hname], k4, k5, g5, g4,
      fun he => absurd he hname, fun _ => ⟨rfl, rfl⟩⟩
    rw [hround, nameCompare, if_pos m1]
    have hz : Profile.strcmp n name ≠ 0 := fun e => hname ((Profile.strcmp_zero n name).1 e)
    simp only [b2, Option.bind_eq_bind, Option.bind_some, e2]
    rw [if_pos hz]
    simp only [g3, k3, Option.bind_some]

theorem nameLoop_spec {recs names texts : List CStr} {h h2 : Header} (hh : HoldsNames file recs names texts h h2)
    {cfg cfg2 : Config} {c c2 : Coll} (hc : Created file cfg h .fixed c) (hc2 : Created file cfg2 h2 stringReader c2)
    (ha : Agree c c2 cfg2) {capacity capacity2 : Nat} {name : CStr} :
    ∀ (n i : Nat) (s t : State) (evs evs2 : List (Nat × Event UInt32 CStr)) (item nameItem : Item), i + n = recs.length →
    (∀ k, k < i → names[k]? ≠ some name) →
    Ready file cfg h .fixed fuel capacity s evs → Ready file cfg2 h2 stringReader fuel capacity2 t evs2 →
    ItemOk cfg item → ItemOk cfg2 nameItem →
    ∃ r s', nameLoop file fuel c c2 name n i s item t nameItem = some r ∧ r.err = none ∧
      Kept file cfg2 h2 stringReader fuel capacity2 evs2 t r.strings ∧ Kept file cfg h .fixed fuel capacity evs s s' ∧
      match r.index with
      | none => name ∉ names ∧ r.properties = s'
      | some j => names[j]? = some name ∧ (∀ k, k < j → names[k]? ≠ some name) ∧
        ∃ rec tail item', recs[j]? = some rec ∧ bytesAt r.properties r.item = some (rec ++ tail) ∧
          c.release fuel r.properties r.item = some (s', item') := by
  intro n
  induction n with
  | zero =>
    intro i s t evs evs2 item nameItem hn hbefore rd rd2 io io2
    refine ⟨_, s, rfl, rfl, Kept.refl rd2, Kept.refl rd, ?_, rfl⟩
    intro hm
    obtain ⟨k, hk⟩ := List.mem_iff_getElem?.1 hm
    have := (List.getElem?_eq_some_iff.1 hk).1
    exact hbefore k (by rw [hh.count] at this; omega) hk
  | succ n ih =>
    intro i s t evs evs2 item nameItem hn hbefore rd rd2 io io2
    obtain ⟨r, hr⟩ : ∃ r, recs[i]? = some r := ⟨_, List.getElem?_eq_getElem (by omega)⟩
    obtain ⟨nm, hnm⟩ : ∃ nm, names[i]? = some nm := ⟨_, List.getElem?_eq_getElem (by rw [hh.count]; omega)⟩
    obtain ⟨q, s1, item1, q1, q2, q3, q4, q5, q6, q7, q8, q9⟩ :=
      nameRound_spec hh hc hc2 ha rd rd2 io io2 (name := name) hr hnm
    by_cases hname : nm = name
    · obtain ⟨⟨tail, w1⟩, w2⟩ := q8 hname
      refine ⟨⟨q.properties, q.item, q.strings, some i, none⟩, s1, ?_, rfl, q5, q6, by rw [hnm, hname], hbefore,
        r, tail, item1, hr, w1, w2⟩
      rw [nameLoop, q1]
      simp [q2, q3, hname]
    · obtain ⟨w1, w2⟩ := q9 hname
      obtain ⟨evs', rd', up⟩ := Kept.ready rd q6
      obtain ⟨evs2', rd2', up2⟩ := Kept.ready rd2 q5
      obtain ⟨r', s', u1, u2, u3, u4, u5⟩ := ih (i + 1) s1 q.strings evs' evs2' item1 q.nameItem (by omega)
        (fun k hk => by
          by_cases hki : k = i
          · subst hki; rw [hnm]; intro e; exact hname (Option.some.inj e)
          · exact hbefore k (by omega)) rd' rd2' q7 q4
      refine ⟨r', s', ?_, u2, up2 _ u3, up _ u4, u5⟩
      rw [nameLoop, q1]
      simp only [q2, q3, hname, decide_false, and_self, if_true, w1, w2]
      exact u1

/-- Two rounds which differ in the handles of the items at most. -/
structure NearName (c : Coll) (a b : NameRound) : Prop where
  properties : a.properties = b.properties
  item : SameBut a.item b.item
  strings : a.strings = b.strings
  nameItem : SameBut a.nameItem b.nameItem
  found : a.found = b.found
  err : a.err = b.err
  near : a.found = true → Near c a.item b.item

theorem nameRound_near (file : CStr) (fuel : Nat) {c c2 : Coll} (hc : Releases c c2) (name : CStr) (i : Nat) (s t : State)
    {item item' nameItem nameItem' : Item} (hi : SameBut item item') (hn : SameBut nameItem nameItem') :
    Both (NearName c) (nameRound file fuel c c2 name i s item t nameItem) (nameRound file fuel c c2 name i s item' t nameItem') := by
  have h1 := get_near file fuel c s (UInt32.ofNat i) hi
  rw [nameRound, nameRound]
  cases hg : c.get file fuel s (UInt32.ofNat i) item <;> cases hg' : c.get file fuel s (UInt32.ofNat i) item' <;> rw [hg, hg'] at h1
  · trivial
  · exact h1.elim
  · exact h1.elim
  · rename_i g g'
    obtain ⟨e1, e2, e3, e4⟩ := h1
    simp only [e1, e3, e4, bytesAt_near e2.same]
    split
    · refine Both.bind (Both.same (R := Eq) (fun _ => rfl) _) fun b b' hb => ?_
      subst hb
      refine Both.bind (Both.same (R := Eq) (fun _ => rfl) _) fun o o' ho' => ?_
      subst ho'
      refine Both.bind (get_near file fuel c2 t (UInt32.ofNat o) hn) fun p p' hpp => ?_
      obtain ⟨f1, f2, f3, f4⟩ := hpp
      simp only [f1, f3, f4]
      split
      · exact ⟨rfl, e2.same, rfl, f2.same, rfl, rfl, fun _ => e2⟩
      · rw [nameCompare, nameCompare]
        simp only [f1, f4, e1, bytesAt_near f2.same]
        split
        · refine Both.bind (Both.same (R := Eq) (fun _ => rfl) _) fun b b' hb => ?_
          subst hb
          refine Both.bind (Both.same (R := Eq) (fun _ => rfl) _) fun text text' hb => ?_
          subst hb
          split
          · refine Both.bind (release_near (Releases.own c) fuel _ e2) fun v v' hv => ?_
            refine Both.bind (release_near hc fuel _ f2) fun u u' hu => ?_
            exact ⟨hv.1, hv.2, hu.1, hu.2, rfl, rfl, fun h => nomatch h⟩
          · refine Both.bind (release_near hc fuel _ f2) fun u u' hu => ?_
            exact ⟨rfl, e2.same, hu.1, hu.2, rfl, rfl, fun _ => e2⟩
        · refine Both.bind (release_near hc fuel _ f2) fun u u' hu => ?_
          exact ⟨rfl, e2.same, hu.1, hu.2, rfl, rfl, fun _ => e2⟩
    · exact ⟨rfl, e2.same, rfl, hn, rfl, rfl, fun _ => e2⟩

/-- Two look-ups which differ in the handle of the item at most. -/
structure NearFound (c : Coll) (a b : NameFound) : Prop where
  properties : a.properties = b.properties
  item : SameBut a.item b.item
  strings : a.strings = b.strings
  index : a.index = b.index
  err : a.err = b.err
  near : a.index ≠ none → Near c a.item b.item

theorem nameLoop_near (file : CStr) (fuel : Nat) {c c2 : Coll} (hc : Releases c c2) (name : CStr) :
    ∀ (n i : Nat) (s t : State) (item item' nameItem nameItem' : Item), SameBut item item' → SameBut nameItem nameItem' →
    Both (NearFound c) (nameLoop file fuel c c2 name n i s item t nameItem) (nameLoop file fuel c c2 name n i s item' t nameItem') := by
  intro n
  induction n with
  | zero =>
    intro i s t item item' nameItem nameItem' hi _
    exact ⟨rfl, hi, rfl, rfl, rfl, fun h => absurd rfl h⟩
  | succ n ih =>
    intro i s t item item' nameItem nameItem' hi hn
    have h1 := nameRound_near file fuel hc name i s t hi hn
    rw [nameLoop, nameLoop]
    cases hg : nameRound file fuel c c2 name i s item t nameItem <;>
      cases hg' : nameRound file fuel c c2 name i s item' t nameItem' <;> rw [hg, hg'] at h1
    · trivial
    · exact h1.elim
    · exact h1.elim
    · rename_i r r'
      simp only [h1.properties, h1.strings, h1.found, h1.err]
      split
      · exact ih _ _ _ _ _ _ _ h1.item h1.nameItem
      · refine ⟨rfl, h1.item, rfl, rfl, rfl, fun h => h1.near ?_⟩
        rw [h1.found]
        cases hf : r'.found with
        | true => rfl
        | false => simp [hf] at h

/-- C80: the property returned is the first one with the name, its bytes are those of the file, releasing its item gives back all
that was taken, and NULL is returned exactly if there is none and then nothing is kept, whatever the handles of the items were, if
releasing with the collection of the properties does the right thing for strings. Missing: the other combinations of storage, see
`C80_wrong_violated`, `C80_leak_violated`, `C80_free_violated`, `C80_release_violated` and `C80_uninitialised_violated`; a cache in which all nodes of a shard are held. -/
theorem C80_property_partial {recs names texts : List CStr} {h h2 : Header} (hh : HoldsNames file recs names texts h h2)
    (hne : recs ≠ []) {cfg cfg2 : Config} {c c2 : Coll} (hc : Created file cfg h .fixed c)
    (hc2 : Created file cfg2 h2 stringReader c2)
    (ha : Agree c c2 cfg2) {capacity capacity2 : Nat} {s t : State} {evs evs2 : List (Nat × Event UInt32 CStr)}
    (rd : Ready file cfg h .fixed fuel capacity s evs) (rd2 : Ready file cfg2 h2 stringReader fuel capacity2 t evs2)
    {item : Item} (io : second cfg = .file → item.allocated = 0) (nj : Option Ref) (name : CStr) :
    ∃ r s', getByName file fuel c c2 nj name s item t = some r ∧ r.err = none ∧
      Kept file cfg2 h2 stringReader fuel capacity2 evs2 t r.strings ∧ Kept file cfg h .fixed fuel capacity evs s s' ∧
      match r.index with
      | none => name ∉ names ∧ r.properties = s'
      | some j => names[j]? = some name ∧ (∀ k, k < j → names[k]? ≠ some name) ∧
        ∃ rec tail item', recs[j]? = some rec ∧ bytesAt r.properties r.item = some (rec ++ tail) ∧
          c.release fuel r.properties r.item = some (s', item') := by
  have hcount : c.getCount = recs.length := by
    obtain ⟨pre, post, hf, hhd⟩ := hh.props
    have hsm := hh.small
    subst hhd
    subst hf
    obtain ⟨w, -⟩ := fixedRecords (pre := pre) (post := post) (enc := (id : CStr → CStr)) (k := 44) (by omega) hne
      (fun v hv => hh.size v hv) hsm.1
    exact C13_count w hc
  rw [getByName, hcount]
  obtain ⟨r, s', r1, r2, r3, r4, r5⟩ := nameLoop_spec hh hc hc2 ha recs.length 0 s t evs evs2 { item with handle := none } Item.new
    (name := name) (by omega) (fun k hk => absurd hk (by omega)) rd rd2 ⟨io, rfl⟩ ⟨fun _ => rfl, rfl⟩
  obtain ⟨u, u1, u2⟩ := (nameLoop_near file fuel ha.releases name recs.length 0 s t item { item with handle := none } (localItem nj)
    Item.new ⟨item.handle, rfl⟩ ⟨nj, rfl⟩).of_some r1
  refine ⟨u, s', u1, u2.err.trans r2, by rw [u2.strings]; exact r3, r4, ?_⟩
  have hidx := u2.index
  cases hu : r.index with
  | none =>
    rw [hu] at hidx r5
    rw [hidx, u2.properties]
    exact r5
  | some j =>
    rw [hu] at hidx r5
    rw [hidx]
    obtain ⟨q1, q2, rec, tail, item', q3, q4, q5⟩ := r5
    obtain ⟨x, x1, x2, -⟩ := (release_near (Releases.own c) fuel u.properties (u2.near (by rw [hidx]; simp))).of_some
      (by rw [u2.properties]; exact q5)
    refine ⟨q1, q2, rec, tail, x.2, q3, ?_, ?_⟩
    · rw [bytesAt_near u2.item, u2.properties]; exact q4
    · rw [x1]
      exact congrArg (fun y => some (y, x.2)) x2

/-! ## Single fields -/

/-- C80: the value type of a property is its eighth byte, and the item is given back. Missing: a cache in which all
nodes of a shard are held. -/
theorem C80_valueType_partial {pre post : CStr} {recs : List CStr} (hne : recs ≠ []) (hsize : ∀ r ∈ recs, r.length = 44)
    (hlen : (recs.flatMap id).length < 2 ^ 32) {cfg : Config} {c : Coll} {capacity : Nat} {s : State}
    {evs : List (Nat × Event UInt32 CStr)} :
    let file := pre ++ (recs.flatMap id ++ post)
    let h : Header := ⟨pre.length, (recs.flatMap id).length, recs.length⟩
    Created file cfg h .fixed c → Ready file cfg h .fixed fuel capacity s evs →
    ∀ (i : Nat) (r : CStr) (v : UInt8), recs[i]? = some r → r[7]? = some v →
      ∃ s', getValueType file fuel c s (UInt32.ofNat i) = some (v.toNat, s', none) ∧ Kept file cfg h .fixed fuel capacity evs s s' := by
  intro file h hc rd i r v hi hv
  obtain ⟨w, hit⟩ := fixedRecords (pre := pre) (post := post) (enc := (id : CStr → CStr)) (k := 44) (by omega) hne
    (fun v hv => hsize v hv) hlen
  have hlt := (List.getElem?_eq_some_iff.1 hi).1
  have hl := flatMap_length_const (rs := recs) (enc := (id : CStr → CStr)) (k := 44) (fun v hv => hsize v hv)
  obtain ⟨g, s', item', h1, h2, h3, -, -, h4⟩ := borrow w hc (hit i r hi) (goodKey (by omega) (fun _ => by omega)) rd
    (item := Item.new) ⟨fun _ => rfl, rfl⟩
  obtain ⟨tail, h5⟩ := Shows.bytesAt h2
  obtain ⟨q1, -, ref, -, q2, -⟩ := h2
  refine ⟨s', ?_, h4⟩
  have hr := hsize r (List.mem_of_getElem? hi)
  have h7 : (r ++ tail)[7]? = some v := by rw [List.getElem?_append_left (by omega)]; exact hv
  have h5' : bytesAt g.state g.item = some (r ++ tail) := h5
  rw [getValueType, h1]
  simp only
  rw [if_pos ⟨by rw [q2]; simp, q1⟩]
  simp only [h5', Option.bind_eq_bind, Option.bind_some, h7, h3]

/-- C80: the id of the default profile is that of the profile at the offset, and the item is given back. Missing: a
cache in which all nodes of a shard are held. -/
theorem C80_defaultProfile_partial {pre post : CStr} {ps : List Prof} (hlen : (ps.flatMap encodeProfile).length < 2 ^ 32)
    {cfg : Config} {c : Coll} {capacity : Nat} {s : State} {evs : List (Nat × Event UInt32 CStr)} :
    let file := pre ++ (ps.flatMap encodeProfile ++ post)
    let h : Header := ⟨pre.length, (ps.flatMap encodeProfile).length, 0⟩
    Created file cfg h profileReader c → Ready file cfg h profileReader fuel capacity s evs →
    ∀ i p, ps[i]? = some p → p.id < 2 ^ 32 → GoodKey cfg (startOf encodeProfile ps i) →
      ∃ s', getDefaultProfileId file fuel c s (UInt32.ofNat (startOf encodeProfile ps i)) = some (p.id, s', none) ∧
        Kept file cfg h profileReader fuel capacity evs s s' := by
  intro file h hc rd i p hi hp hk
  obtain ⟨g, s', item', h1, h2, h3, h4⟩ := C72_profile_partial (pre := pre) (post := post) hlen (item := Item.new)
    ⟨fun _ => rfl, rfl⟩ hc rd i p hi hk
  obtain ⟨tail, h5⟩ := Shows.bytesAt h2
  obtain ⟨q1, -, ref, -, q2, -⟩ := h2
  refine ⟨s', ?_, h4⟩
  have hr : read32 (encodeProfile p ++ tail) 1 = some p.id := by
    have := read32_le [p.component] (le32 p.values.length ++ (p.values.flatMap le32 ++ tail)) p.id hp
    simpa [encodeProfile, List.append_assoc] using this
  rw [getDefaultProfileId, h1]
  simp only
  rw [if_pos ⟨by rw [q2]; simp, q1⟩]
  simp only [h5, Option.bind_eq_bind, Option.bind_some, hr, h3]

/-- Outside of the collection the value type is 0, and there is an exception. -/
theorem C80_valueType_outside {h : Header} {read : Reader} (w : WellFormed file h read) {cfg : Config}
    {c : Coll} (hc : Created file cfg h read c) {key : UInt32} (hn : NotIn h key read) {capacity : Nat}
    {s : State} {evs : List (Nat × Event UInt32 CStr)} (hk : second cfg = .cache → key ≠ 0x80000000)
    (rd : Ready file cfg h read fuel capacity s evs) :
    (∃ s', getValueType file fuel c s key = some (0, s', some (wantedError read)) ∧ s'.heap = s.heap) ∧
    ∃ s', getDefaultProfileId file fuel c s key = some (0, s', some (wantedError read)) ∧ s'.heap = s.heap := by
  obtain ⟨g, g1, g2, g3, g4, g5⟩ := C13_outside_partial w hc hn (fun hx => ⟨(rd.2 hx).1, hk hx⟩) (item := Item.new) (fun _ => rfl)
  have he : g.err = some (wantedError read) := by
    rcases g5 with h | ⟨a, b⟩
    · exact h
    · exact absurd b (notFull rd hk a)
  have hno : ¬ (g.ptr ≠ none ∧ g.err = none) := by rw [he]; simp
  refine ⟨⟨g.state, ?_, g3⟩, g.state, ?_, g3⟩
  · rw [getValueType, g1]; simp only; rw [if_neg hno, he]
  · rw [getDefaultProfileId, g1]; simp only; rw [if_neg hno, he]

/-! ## Concrete runs -/

/-- A property with the value type and the offset of the name. -/
def propertyRecord (valueType : UInt8) (o : Nat) : CStr :=
  List.replicate 7 1 ++ [valueType] ++ le32 9 ++ le32 o ++ List.replicate 28 3

def namedProperties : List CStr := [propertyRecord 4 0, propertyRecord 5 5, propertyRecord 6 10]
def propertyNames : List CStr := [c!"ab", c!"cd", c!"ef"]
def propertyTexts : List CStr := [c!"ab" ++ [0], c!"cd" ++ [0], c!"ef" ++ [0]]

def namesFile : CStr := namedProperties.flatMap id ++ propertyTexts.flatMap encodeString

def namedHeader : Header := ⟨0, 132, 3⟩
def textsHeader : Header := ⟨132, 15, 0⟩

/-- What the look-up of the name reports: the index of the property, the exception, and for each block of memory of the strings
whether it is still allocated. -/
def nameRun (c c2 : Coll) (capacity : Nat) (name : CStr) (nj : Option Ref := none) : UB (Option Nat × Option Err × List Bool) :=
  (newState capacity).bind fun s =>
    (getByName namesFile 12 c c2 nj name s Item.new s).map fun r =>
      (r.index, r.err, (List.range r.strings.heap.next).map fun j => (r.strings.heap.block j).isSome)

def namedIn (cfg : Config) : Coll := made namesFile cfg namedHeader .fixed
def textsIn (cfg : Config) : Coll := made namesFile cfg textsHeader stringReader

/-- Both in memory, in the file, cached with one node; a name which is not there. -/
example : nameRun (createFromMemory namesFile namedHeader) (createFromMemory namesFile textsHeader) 1 c!"ef" = some (some 2, none, []) ∧
    nameRun (namedIn ⟨0, 0, 0⟩) (textsIn ⟨0, 0, 0⟩) 1 c!"ef" = some (some 2, none, [false, false, false]) ∧
    nameRun (namedIn ⟨0, 1, 1⟩) (textsIn ⟨0, 1, 1⟩) 1 c!"ef" = some (some 2, none, []) ∧
    nameRun (namedIn ⟨0, 1, 1⟩) (textsIn ⟨0, 1, 1⟩) 1 c!"e" = some (none, none, []) ∧
    nameRun (namedIn ⟨0, 1, 1⟩) (textsIn ⟨0, 1, 1⟩) 1 c!"ef" (some (.block 7)) = some (some 2, none, []) := by
  refine ⟨?_, ?_, ?_, ?_, ?_⟩ <;> decide +kernel

/-- The conditions of the theorem are met. -/
example : HoldsNames namesFile namedProperties propertyNames propertyTexts namedHeader textsHeader ∧
    Agree (namedIn ⟨0, 1, 1⟩) (textsIn ⟨0, 1, 1⟩) ⟨0, 1, 1⟩ := by
  refine ⟨⟨⟨[], propertyTexts.flatMap encodeString, by decide +kernel, by decide +kernel⟩,
    ⟨namedProperties.flatMap id, [], by decide +kernel, by decide +kernel⟩, by decide +kernel, by decide +kernel, rfl, ?_,
    by decide +kernel, by decide +kernel⟩,
    .inr (.inr ⟨⟨_, rfl⟩, fun m h => nomatch h⟩)⟩
  intro i r n h1 h2
  have hlt := (List.getElem?_eq_some_iff.1 h1).1
  have : i = 0 ∨ i = 1 ∨ i = 2 := by
    have : namedProperties.length = 3 := rfl
    omega
  rcases this with rfl | rfl | rfl <;> (cases h1; cases h2)
  · exact ⟨0, rfl, by decide +kernel⟩
  · exact ⟨1, rfl, by decide +kernel⟩
  · exact ⟨2, rfl, by decide +kernel⟩

/-- The value type of the second property, read through a cache with one node, and that of a property which is not there. -/
example : ((newState 1).bind fun s => (getValueType namesFile 12 (namedIn ⟨0, 1, 1⟩) s 1).map fun r => (r.1, r.2.2)) = some (5, none) ∧
    ((newState 1).bind fun s => (getValueType namesFile 12 (createFromMemory namesFile namedHeader) s 3).map fun r =>
      (r.1, r.2.2)) = some (0, some (wantedError .fixed)) := by
  decide +kernel

/-- The id of a default profile in the file. -/
example : ((newState 1).bind fun s => (getDefaultProfileId valueFile 12 (profilesIn ⟨0, 0, 0⟩) s 21).map fun r => (r.1, r.2.2)) =
    some (7, none) := by
  decide +kernel

/-- C80 fails when the properties are in memory and the strings are cached: no name is ever released, and when all nodes are held
there is no next name, without an exception, and the property is returned whatever its name. With one node the property "cd" is
returned for the name "ef", and for a name which no property has; with three nodes the right one is. -/
theorem C80_wrong_violated :
    nameRun (createFromMemory namesFile namedHeader) (textsIn ⟨0, 1, 1⟩) 1 c!"ef" = some (some 1, none, []) ∧
    nameRun (createFromMemory namesFile namedHeader) (textsIn ⟨0, 1, 1⟩) 1 c!"x" = some (some 1, none, []) ∧
    nameRun (createFromMemory namesFile namedHeader) (textsIn ⟨0, 3, 1⟩) 3 c!"ef" = some (some 2, none, []) := by
  refine ⟨?_, ?_, ?_⟩ <;> decide +kernel

/-- C80 fails when the properties are in memory and the strings in the file: the memory of a name is never freed. -/
theorem C80_leak_violated :
    nameRun (createFromMemory namesFile namedHeader) (textsIn ⟨0, 0, 0⟩) 1 c!"ab" = some (some 0, none, [true]) := by
  decide +kernel

/-- C80 fails when the properties are in the file and the strings are cached: the memory of the cache is freed. -/
theorem C80_free_violated : nameRun (namedIn ⟨0, 0, 0⟩) (textsIn ⟨0, 1, 1⟩) 1 c!"ab" = none := by
  decide +kernel

/-- C80 fails when the properties are cached and the strings are in the file: the memory of the name is taken for a node of the
cache. -/
theorem C80_release_violated : nameRun (namedIn ⟨0, 1, 1⟩) (textsIn ⟨0, 0, 0⟩) 1 c!"ab" = none := by
  decide +kernel

/-- C80 fails when the strings are in memory and the properties are in the file, or cached: the handle of the name's item was never
set, and what is there is freed, or taken for a node of the cache. With a handle that happens to be NULL all is well. -/
theorem C80_uninitialised_violated :
    nameRun (namedIn ⟨0, 0, 0⟩) (createFromMemory namesFile textsHeader) 1 c!"ef" (some (.block 7)) = none ∧
    nameRun (namedIn ⟨0, 1, 1⟩) (createFromMemory namesFile textsHeader) 1 c!"ef" (some (.block 7)) = none ∧
    nameRun (namedIn ⟨0, 1, 1⟩) (createFromMemory namesFile textsHeader) 1 c!"ef" none = some (some 2, none, []) := by
  refine ⟨?_, ?_, ?_⟩ <;> decide +kernel

end Verif.Record
