import Verif.Record.Junk

/-! # C75: the profiles with a value, over collections of any kind -/

namespace Verif.Record

open Verif.Collection
open Verif.Component (read32 le32 read32_le)
open Verif.Cache (Event eventsOf held)

/-! ## Model -/

/-- The values of a profile, from `off` on. -/
def parseValues (bytes : CStr) : (off n : Nat) → UB (List Nat)
  | _, 0 => some []
  | off, n + 1 => do
    let v ← read32 bytes off
    let r ← parseValues bytes (off + 4) n
    some (v :: r)

/-- The profile at a pointer (profile.h:86-95, packed: one byte, the id, the count of values, and then the values) and
the word after it. Simplified: undefined when any value is outside the memory, even if the search would not look at it. -/
def parseProfile (bytes : CStr) : UB Profile.Profile := do
  let n ← read32 bytes 5
  let values ← parseValues bytes 9 n
  some ⟨values, read32 bytes (9 + 4 * n)⟩

/-- What a round of the loop leaves: the states of the offsets and of the profiles, the items, whether the callback was called,
and the exception. -/
structure Round where
  offsets : State
  offsetItem : Item
  profiles : State
  profileItem : Item
  hit : Bool
  err : Option Err

/-- The body of the loop of `fiftyoneDegreesProfileIterateProfilesForPropertyAndValue`, profile.c:304-341. The profile's item is
released with the collection of the offsets (line 336). -/
def round (file : CStr) (fuel : Nat) (offsets profiles : Coll) (q : Profile.Property) (x i : Nat) (s : State) (offsetItem : Item)
    (t : State) (profileItem : Item) : UB Round :=
  match offsets.get file fuel s (UInt32.ofNat i) offsetItem with
  | none => none
  | some g =>
    if g.ptr ≠ none ∧ g.err = none then do
      let bytes ← bytesAt g.state g.item
      let o ← read32 bytes 4
      let p ← profiles.get file fuel t (UInt32.ofNat o) profileItem
      if p.ptr ≠ none ∧ p.err = none then do
        let bytes ← bytesAt p.state p.item
        let profile ← parseProfile bytes
        let hit ← Profile.hasValue profile q x
        let a ← offsets.release fuel p.state p.item
        let b ← offsets.release fuel g.state g.item
        some ⟨b.1, b.2, a.1, a.2, hit, none⟩
      else do
        let b ← offsets.release fuel g.state g.item
        some ⟨b.1, b.2, p.state, p.item, false, p.err⟩
    else some ⟨g.state, g.item, t, profileItem, false, g.err⟩

/-- What the iteration leaves: the states, the indexes for which the callback was called, and the exception. -/
structure Iterated where
  offsets : State
  profiles : State
  seen : List Nat
  err : Option Err

/-- The loop, profile.c:303-342, for the next `n` indexes. The items are those of the round before. Simplified: it ends with
the first exception, while the code goes on and gets the other offsets without releasing them; for that see
`Verif/Quiet/Iterate.lean`. -/
def roundsFrom (file : CStr) (fuel : Nat) (offsets profiles : Coll) (q : Profile.Property) (x : Nat) :
    (n i : Nat) → State → Item → State → Item → List Nat → UB Iterated
  | 0, _, s, _, t, _, seen => some ⟨s, t, seen, none⟩
  | n + 1, i, s, oi, t, pi, seen =>
    match round file fuel offsets profiles q x i s oi t pi with
    | none => none
    | some r =>
      let seen := if r.hit then seen ++ [i] else seen
      if r.err = none then roundsFrom file fuel offsets profiles q x n (i + 1) r.offsets r.offsetItem r.profiles r.profileItem seen
      else some ⟨r.offsets, r.profiles, seen, r.err⟩

/-- `fiftyoneDegreesProfileIterateProfilesForPropertyAndValue`, profile.c:272-347, from where the property and the index `x` of the value
have been found (for these see C49 and C50). `oj` and `pj` are the handles which the local items `offsetItem` and `profileItem`
have before they are first set. -/
def iterateProfiles (file : CStr) (fuel : Nat) (offsets profiles : Coll) (oj pj : Option Ref) (q : Profile.Property) (x : Nat)
    (s t : State) : UB Iterated :=
  roundsFrom file fuel offsets profiles q x offsets.getCount 0 s (localItem oj) t (localItem pj) []

/-! ## Reading a profile -/

theorem parseValues_spec (vs : List Nat) (hv : ∀ v ∈ vs, v < 2 ^ 32) : ∀ (pre tail : CStr),
    parseValues (pre ++ (vs.flatMap le32 ++ tail)) pre.length vs.length = some vs := by
  induction vs with
  | nil => intro pre tail; rfl
  | cons v vs ih =>
    intro pre tail
    have e1 := read32_le pre (vs.flatMap le32 ++ tail) v (hv v (by simp))
    have e2 := ih (fun w hw => hv w (by simp [hw])) (pre ++ le32 v) tail
    rw [List.length_append, le32_length, List.append_assoc] at e2
    rw [List.flatMap_cons, List.append_assoc, List.length_cons, parseValues]
    simp only [e1, e2, Option.bind_eq_bind, Option.bind_some]

theorem parse_profile {p : Prof} (hl : (encodeProfile p).length < 2 ^ 32) (hv : ∀ v ∈ p.values, v < 2 ^ 32) (tail : CStr) :
    parseProfile (encodeProfile p ++ tail) = some ⟨p.values, read32 tail 0⟩ := by
  have hlen := encodeProfile_length p
  have e1 := read32_le ([p.component] ++ le32 p.id) (p.values.flatMap le32 ++ tail) p.values.length (by omega)
  have e2 := parseValues_spec p.values hv ([p.component] ++ le32 p.id ++ le32 p.values.length) tail
  have e3 : ([p.component] ++ le32 p.id).length = 5 := rfl
  have e4 : ([p.component] ++ le32 p.id ++ le32 p.values.length).length = 9 := rfl
  rw [e3] at e1
  rw [e4] at e2
  have hs : encodeProfile p ++ tail = [p.component] ++ le32 p.id ++ (le32 p.values.length ++ (p.values.flatMap le32 ++ tail)) := by
    simp only [encodeProfile, List.append_assoc]
  have hs2 : encodeProfile p ++ tail = [p.component] ++ le32 p.id ++ le32 p.values.length ++ (p.values.flatMap le32 ++ tail) := by
    simp only [encodeProfile, List.append_assoc]
  have e5 : read32 (encodeProfile p ++ tail) (9 + 4 * p.values.length) = read32 tail 0 := by
    have : ∀ n k, n = 9 + 4 * p.values.length + k → Component.byteAt (encodeProfile p ++ tail) n = Component.byteAt tail k := by
      intro n k hn
      rw [Component.byteAt, Component.byteAt, List.getElem?_append_right (by omega)]
      congr 2
      omega
    simp only [read32, Component.read16]
    rw [this (9 + 4 * p.values.length) 0 rfl, this (9 + 4 * p.values.length + 1) 1 rfl,
      this (9 + 4 * p.values.length + 2) 2 rfl, this (9 + 4 * p.values.length + 2 + 1) 3 rfl]
  rw [← hs] at e1
  rw [← hs2] at e2
  rw [parseProfile]
  simp only [e1, e2, e5, Option.bind_eq_bind, Option.bind_some]

/-! ## Releasing with another collection -/

/-- Releasing an item of the second collection with the first one does the right thing: both are in memory, so that there is
nothing to do; the first is partly loaded, and asks the item's collection; or both are in the file, or both are cached. -/
def Agree (c c2 : Coll) (cfg2 : Config) : Prop :=
  (∃ m m2, c = .memory m ∧ c2 = .memory m2) ∨ (∃ m next, c = .part m next) ∨
    (∃ f, c = .back (second cfg2) f) ∧ ∀ m, c2 ≠ .memory m

theorem Agree.releases {c c2 : Coll} {cfg2 : Config} (h : Agree c c2 cfg2) : Releases c c2 := by
  intro hm
  rcases h with ⟨m, m2, rfl, -⟩ | h | ⟨-, h⟩
  · exact .inl ⟨m, rfl⟩
  · exact .inr h
  · obtain ⟨m, rfl⟩ := hm
    exact absurd rfl (h m)

theorem release_other {file : CStr} {c c2 : Coll} {cfg2 : Config} {h2 : Header} {read2 : Reader} (ha : Agree c c2 cfg2)
    (hc2 : Created file cfg2 h2 read2 c2) {s : State} {item : Item} {bytes : CStr} (hl : Live c2 cfg2 s item bytes) (fuel : Nat) :
    c.release fuel s item = c2.release fuel s item := by
  by_cases hh : item.handle = none
  · rw [release_nothing hh, release_nothing hh]
  · obtain ⟨o1, o2⟩ := release_own (fuel := fuel) hc2 hl hh
    rcases ha with ⟨m', m, rfl, rfl⟩ | ⟨m, next, rfl⟩ | ⟨⟨f, rfl⟩, -⟩
    · obtain ⟨ref, b, k1, k2, -, k3⟩ := hl
      cases ref with
      | memory _ => exact absurd k3.1 hh
      | block j => exact absurd rfl (k3.2.2.2 m)
      | node i n => exact absurd rfl (k3.2.2.2 m)
    · have hown : item.owner ≠ none := by
        obtain ⟨ref, b, k1, k2, -, k3⟩ := hl
        cases ref with
        | memory _ => rw [k3.2.1]; simp
        | block j => rw [k3.2.1]; simp
        | node i n => rw [k3.2.1]; simp
      rw [o1, Coll.release, releasePartial, if_neg hh, ← o2, Item.release]
      cases hw : item.owner with
      | none => exact absurd hw hown
      | some w => cases w <;> rfl
    · rw [o1]; rfl

variable {file : CStr} {cfg : Config} {h : Header} {read : Reader} {fuel capacity : Nat} {s s' : State}
  {evs : List (Nat × Event UInt32 CStr)}

theorem borrow_live (w : WellFormed file h read) {c : Coll} (hc : Created file cfg h read c) {key : UInt32} {bytes : CStr}
    (hi : IsItem file h key bytes read) (hk : second cfg = .cache → key ≠ 0x80000000)
    (rd : Ready file cfg h read fuel capacity s evs) {item : Item} (io : ItemOk cfg item) {g : Got}
    (hg : c.get file fuel s key item = some g) : Live c cfg g.state g.item bytes := by
  have hd : Holding file c cfg h read fuel capacity s evs s evs [] :=
    ⟨rd.1, rd.1, Nat.le_refl _, fun x hx => (nomatch hx), fun j => Nat.zero_le _, fun j hj => absurd rfl hj, fun j _ => rfl,
      fun hx => ⟨(rd.2 hx).1, rfl, fun i n => rfl⟩⟩
  obtain ⟨g', evs', g1, g2⟩ := hd.get_or w hc hi hk io.1 io.2
  rw [hg] at g1
  cases g1
  rcases g2 with ⟨-, g3⟩ | ⟨⟨a1, a2, -⟩, -⟩
  · exact g3.live (g.item, bytes) (by simp)
  · exact absurd a2 (notFull rd hk a1)

/-- A collection that is all in memory does not find memory in the item. -/
def Plain (c : Coll) (item : Item) : Prop := ((∃ m, c = .memory m) ∨ ∃ m, c = .part m none) → item.allocated = 0

theorem Plain.get {c c2 : Coll} {key : UInt32} {item : Item} (hp : Plain c2 item) (hn : item.handle = none) {g : Got}
    (hg : c2.get file fuel s key item = some g) {r : State × Item} (hr : c.release fuel g.state g.item = some r) :
    Plain c2 r.2 := by
  intro ha
  have h0 := hp ha
  have : g.item.allocated = 0 ∧ g.item.handle = none := by
    have hexc : getExceptionSet s.heap item = some (s.heap, Item.new) := by rw [getExceptionSet, if_neg (by omega)]
    rcases ha with ⟨m, rfl⟩ | ⟨m, rfl⟩
    · rw [Coll.get, getMemory, hexc] at hg
      split at hg <;> split at hg <;> cases hg <;> first | exact ⟨h0, hn⟩ | exact ⟨rfl, rfl⟩
    · rw [Coll.get, getPartial] at hg
      simp only [hexc] at hg
      split at hg <;> split at hg <;> cases hg <;> exact ⟨rfl, rfl⟩
  rw [release_nothing this.2] at hr
  cases hr
  exact this.1

/-! ## C75 -/

/-- The search for the value ends within the profile: it has it, or a value after all of those of the property, or none of the
property. -/
def EndsWithin (p : Prof) (q : Profile.Property) (x : Nat) : Prop :=
  x ∈ p.values ∨ (∃ v ∈ p.values, q.last < v) ∨ Profile.inRange q p.values = []

/-- Profiles as in a data file, in the order of the start of the table. -/
structure Begins (ps : List Prof) (tab : List (Nat × Nat)) (profs : List Prof) : Prop where
  length : profs.length ≤ tab.length
  fits : ∀ o ∈ tab, o.1 < 2 ^ 32 ∧ o.2 < 2 ^ 32
  points : ∀ (i : Nat) (o : Nat × Nat) (p : Prof), tab[i]? = some o → profs[i]? = some p → ∃ j, ps[j]? = some p ∧ o.2 = startOf encodeProfile ps j
  values : ∀ p ∈ profs, Profile.Ascending p.values ∧ ∀ v ∈ p.values, v < 2 ^ 32

/-- Profiles as in a data file, in the order of the table. -/
structure Listing (ps : List Prof) (tab : List (Nat × Nat)) (profs : List Prof) : Prop where
  length : profs.length = tab.length
  fits : ∀ o ∈ tab, o.1 < 2 ^ 32 ∧ o.2 < 2 ^ 32
  points : ∀ (i : Nat) (o : Nat × Nat) (p : Prof), tab[i]? = some o → profs[i]? = some p → ∃ j, ps[j]? = some p ∧ o.2 = startOf encodeProfile ps j
  values : ∀ p ∈ profs, Profile.Ascending p.values ∧ ∀ v ∈ p.values, v < 2 ^ 32

theorem Listing.begins {ps : List Prof} {tab : List (Nat × Nat)} {profs : List Prof} (h : Listing ps tab profs) : Begins ps tab profs :=
  ⟨h.length ▸ Nat.le_refl _, h.fits, h.points, h.values⟩

theorem round_spec {ps : List Prof} {tab : List (Nat × Nat)} {profs : List Prof} {h h2 : Header} (hh : Holds file ps tab h h2)
    (hl : Begins ps tab profs) {cfg cfg2 : Config} {c c2 : Coll} (hc : Created file cfg h .fixed c)
    (hc2 : Created file cfg2 h2 profileReader c2) (ha : Agree c c2 cfg2) {capacity capacity2 : Nat} {s t : State}
    {evs evs2 : List (Nat × Event UInt32 CStr)} (rd : Ready file cfg h .fixed fuel capacity s evs)
    (rd2 : Ready file cfg2 h2 profileReader fuel capacity2 t evs2) {oi pi : Item} (io : ItemOk cfg oi) (io2 : ItemOk cfg2 pi)
    {q : Profile.Property} {x : Nat} (h1 : q.first ≤ x) (hx : x ≤ q.last) {i : Nat} {p : Prof} (hi : profs[i]? = some p)
    (he : EndsWithin p q x) :
    ∃ r, round file fuel c c2 q x i s oi t pi = some r ∧ r.hit = decide (x ∈ p.values) ∧ r.err = none ∧
      ItemOk cfg r.offsetItem ∧ ItemOk cfg2 r.profileItem ∧ Kept file cfg h .fixed fuel capacity evs s r.offsets ∧
      Kept file cfg2 h2 profileReader fuel capacity2 evs2 t r.profiles ∧ (Plain c2 pi → Plain c2 r.profileItem) := by
  have hlt := (List.getElem?_eq_some_iff.1 hi).1
  have hlt := Nat.lt_of_lt_of_le hlt hl.length
  obtain ⟨o, ho⟩ : ∃ o, tab[i]? = some o := ⟨_, List.getElem?_eq_getElem hlt⟩
  obtain ⟨j, hj, hoff⟩ := hl.points i o p ho hi
  have hm := hl.fits o (List.mem_of_getElem? ho)
  obtain ⟨hasc, hval⟩ := hl.values p (List.mem_of_getElem? hi)
  have hsm := hh.small
  have hlt2 := flatMap_length_const (rs := tab) (enc := encodeOffset) (k := 8) (fun v _ => rfl)
  -- the offset
  obtain ⟨g, s1, item1, g1, g2, g3, g4, g5⟩ : ∃ g s1 item1, c.get file fuel s (UInt32.ofNat i) oi = some g ∧
      Shows g (encodeOffset o) ∧ c.release fuel g.state g.item = some (s1, item1) ∧ ItemOk cfg item1 ∧
      Kept file cfg h .fixed fuel capacity evs s s1 := by
    obtain ⟨pre, post, hf, hhd⟩ := hh.offsets
    subst hhd
    subst hf
    obtain ⟨w, hit⟩ := fixedRecords (pre := pre) (post := post) (enc := encodeOffset) (k := 8) (by omega)
      (List.ne_nil_of_mem (List.mem_of_getElem? ho)) (fun v _ => rfl) hsm.1
    obtain ⟨g, s1, item1, q1, q2, q3, -, q4, q5⟩ := borrow w hc (hit i o ho) (goodKey (by omega) (fun _ => by omega)) rd io
    exact ⟨g, s1, item1, q1, q2, q3, q4, q5⟩
  -- the profile
  have hp : p ∈ ps := List.mem_of_getElem? hj
  have hfit := profile_fits (ps := ps) (by omega) hp
  obtain ⟨g', t1, item2, k1, k2, k3, k4, k5⟩ : ∃ g' t1 item2, c2.get file fuel t (UInt32.ofNat o.2) pi = some g' ∧
      Shows g' (encodeProfile p) ∧ c.release fuel g'.state g'.item = some (t1, item2) ∧ ItemOk cfg2 item2 ∧
      Kept file cfg2 h2 profileReader fuel capacity2 evs2 t t1 := by
    obtain ⟨pre, post, hf, hhd⟩ := hh.profiles
    subst hhd
    subst hf
    obtain ⟨w, hit⟩ := records (pre := pre) (post := post) (enc := encodeProfile) (rs := ps) (n := 9) (g := profileSize)
      (fun t h => sized_profile (profile_fits (by omega) h)) (by omega)
    have hkey := prof_key (ps := ps) j hsm.2
    obtain ⟨g', t1, item2, q1, q2, q3, -, q4, q5⟩ := borrow w hc2 (hit j p hj) (goodKey (by omega) (fun _ => by omega)) rd2 io2
    have hlive := borrow_live w hc2 (hit j p hj) (goodKey (by omega) (fun _ => by omega)) rd2 io2 q1
    rw [← hoff] at q1
    exact ⟨g', t1, item2, q1, q2, (release_other ha hc2 hlive fuel).trans q3, q4, q5⟩
  obtain ⟨tail, b1⟩ := Shows.bytesAt g2
  obtain ⟨tail2, b2⟩ := Shows.bytesAt k2
  have e2 := (read_offset o hm.1 hm.2 tail).2
  obtain ⟨l1, -, ref, -, l2, -⟩ := g2
  obtain ⟨m1, -, ref2, -, m2, -⟩ := k2
  have hhas : Profile.hasValue ⟨p.values, read32 tail2 0⟩ q x = some (decide (x ∈ p.values)) :=
    (Profile.hasValue_exact _ q x h1 hx hasc).1 (.inr he)
  refine ⟨⟨s1, item1, t1, item2, decide (x ∈ p.values), none⟩, ?_, rfl, rfl, g4, k4, g5, k5, fun hp => hp.get io2.2 k1 k3⟩
  rw [round, g1]
  simp only
  rw [if_pos ⟨by rw [l2]; simp, l1⟩]
  simp only [b1, Option.bind_eq_bind, Option.bind_some, e2, k1]
  rw [if_pos ⟨by rw [m2]; simp, m1⟩]
  simp only [b2, Option.bind_some, parse_profile hfit hval, hhas, k3, g3]

theorem rounds_start {ps : List Prof} {tab : List (Nat × Nat)} {profs : List Prof} {h h2 : Header} (hh : Holds file ps tab h h2)
    (hl : Begins ps tab profs) {cfg cfg2 : Config} {c c2 : Coll} (hc : Created file cfg h .fixed c)
    (hc2 : Created file cfg2 h2 profileReader c2) (ha : Agree c c2 cfg2) {capacity capacity2 : Nat}
    {q : Profile.Property} {x : Nat} (h1 : q.first ≤ x) (hx : x ≤ q.last) (he : ∀ p ∈ profs, EndsWithin p q x) (m : Nat) :
    ∀ (n i : Nat) (s t : State) (evs evs2 : List (Nat × Event UInt32 CStr)) (oi pi : Item) (seen : List Nat),
    i + n ≤ profs.length → Ready file cfg h .fixed fuel capacity s evs → Ready file cfg2 h2 profileReader fuel capacity2 t evs2 →
    ItemOk cfg oi → ItemOk cfg2 pi →
    ∃ s' t' oi' pi', roundsFrom file fuel c c2 q x (n + m) i s oi t pi seen = roundsFrom file fuel c c2 q x m (i + n) s' oi' t' pi'
        (seen ++ (List.range' i n).filter (fun k => profs[k]?.any fun p => decide (x ∈ p.values))) ∧
      ItemOk cfg oi' ∧ ItemOk cfg2 pi' ∧ (Plain c2 pi → Plain c2 pi') ∧
      Kept file cfg h .fixed fuel capacity evs s s' ∧ Kept file cfg2 h2 profileReader fuel capacity2 evs2 t t' := by
  intro n
  induction n with
  | zero =>
    intro i s t evs evs2 oi pi seen _ rd rd2 io io2
    exact ⟨s, t, oi, pi, by simp, io, io2, id, Kept.refl rd, Kept.refl rd2⟩
  | succ n ih =>
    intro i s t evs evs2 oi pi seen hn rd rd2 io io2
    have hlt : i < profs.length := by omega
    have hp : profs[i]? = some profs[i] := List.getElem?_eq_getElem hlt
    obtain ⟨r, r1, r2, r3, r4, r5, r6, r7, r8⟩ := round_spec hh hl hc hc2 ha rd rd2 io io2 h1 hx hp (he _ (List.getElem_mem hlt))
    obtain ⟨evs', rd', up⟩ := Kept.ready rd r6
    obtain ⟨evs2', rd2', up2⟩ := Kept.ready rd2 r7
    obtain ⟨s', t', oi', pi', u1, u2, u3, u6, u4, u5⟩ := ih (i + 1) r.offsets r.profiles evs' evs2' r.offsetItem r.profileItem
      (if r.hit then seen ++ [i] else seen) (by omega) rd' rd2' r4 r5
    refine ⟨s', t', oi', pi', ?_, u2, u3, u6 ∘ r8, up _ u4, up2 _ u5⟩
    have e1 : n + 1 + m = n + m + 1 := by omega
    have e2 : i + (n + 1) = i + 1 + n := by omega
    rw [e1, e2, roundsFrom, r1]
    simp only [r3, if_true]
    rw [u1, List.range'_succ, r2]
    by_cases hm : x ∈ profs[i].values
    · rw [List.filter_cons_of_pos (by simpa [hp] using hm)]
      simp [hm]
    · rw [List.filter_cons_of_neg (by simpa [hp] using hm)]
      simp [hm]

theorem rounds_spec {ps : List Prof} {tab : List (Nat × Nat)} {profs : List Prof} {h h2 : Header} (hh : Holds file ps tab h h2)
    (hl : Listing ps tab profs) {cfg cfg2 : Config} {c c2 : Coll} (hc : Created file cfg h .fixed c)
    (hc2 : Created file cfg2 h2 profileReader c2) (ha : Agree c c2 cfg2) {capacity capacity2 : Nat}
    {q : Profile.Property} {x : Nat} (h1 : q.first ≤ x) (hx : x ≤ q.last) (he : ∀ p ∈ profs, EndsWithin p q x) :
    ∀ (n i : Nat) (s t : State) (evs evs2 : List (Nat × Event UInt32 CStr)) (oi pi : Item) (seen : List Nat),
    i + n = tab.length → Ready file cfg h .fixed fuel capacity s evs → Ready file cfg2 h2 profileReader fuel capacity2 t evs2 →
    ItemOk cfg oi → ItemOk cfg2 pi →
    ∃ r, roundsFrom file fuel c c2 q x n i s oi t pi seen = some r ∧ r.err = none ∧
      r.seen = seen ++ (List.range' i n).filter (fun k => profs[k]?.any fun p => decide (x ∈ p.values)) ∧
      Kept file cfg h .fixed fuel capacity evs s r.offsets ∧ Kept file cfg2 h2 profileReader fuel capacity2 evs2 t r.profiles := by
  intro n i s t evs evs2 oi pi seen hn rd rd2 io io2
  obtain ⟨s', t', oi', pi', u1, -, -, -, u4, u5⟩ := rounds_start hh hl.begins hc hc2 ha h1 hx he 0 n i s t evs evs2 oi pi seen
    (by rw [hl.length]; omega) rd rd2 io io2
  exact ⟨_, u1, rfl, rfl, u4, u5⟩

/-- The round for an offset outside of the profiles. -/
theorem round_outside {ps : List Prof} {tab : List (Nat × Nat)} {h h2 : Header} (hh : Holds file ps tab h h2)
    (hf : ∀ o ∈ tab, o.1 < 2 ^ 32 ∧ o.2 < 2 ^ 32) {cfg cfg2 : Config} {c c2 : Coll} (hc : Created file cfg h .fixed c)
    (hc2 : Created file cfg2 h2 profileReader c2) {capacity capacity2 : Nat} {s t : State}
    {evs evs2 : List (Nat × Event UInt32 CStr)} (rd : Ready file cfg h .fixed fuel capacity s evs)
    (rd2 : Ready file cfg2 h2 profileReader fuel capacity2 t evs2) {oi pi : Item} (io : ItemOk cfg oi)
    (hp : Plain c2 pi) {q : Profile.Property} {x i : Nat} {o : Nat × Nat} (ho : tab[i]? = some o) (hout : (ps.flatMap encodeProfile).length ≤ o.2)
    (hk : second cfg2 = .cache → o.2 ≠ 0x80000000) :
    ∃ r, round file fuel c c2 q x i s oi t pi = some r ∧ r.hit = false ∧ r.err = some .offsetOutOfRange ∧
      Kept file cfg h .fixed fuel capacity evs s r.offsets ∧ r.profiles.heap = t.heap := by
  have hm := hf o (List.mem_of_getElem? ho)
  have hsm := hh.small
  have hlt2 := flatMap_length_const (rs := tab) (enc := encodeOffset) (k := 8) (fun v _ => rfl)
  have hlt := (List.getElem?_eq_some_iff.1 ho).1
  obtain ⟨g, s1, item1, g1, g2, g3, g4, g5⟩ : ∃ g s1 item1, c.get file fuel s (UInt32.ofNat i) oi = some g ∧
      Shows g (encodeOffset o) ∧ c.release fuel g.state g.item = some (s1, item1) ∧ ItemOk cfg item1 ∧
      Kept file cfg h .fixed fuel capacity evs s s1 := by
    obtain ⟨pre, post, hf, hhd⟩ := hh.offsets
    subst hhd
    subst hf
    obtain ⟨w, hit⟩ := fixedRecords (pre := pre) (post := post) (enc := encodeOffset) (k := 8) (by omega)
      (List.ne_nil_of_mem (List.mem_of_getElem? ho)) (fun v _ => rfl) hsm.1
    obtain ⟨g, s1, item1, q1, q2, q3, -, q4, q5⟩ := borrow w hc (hit i o ho) (goodKey (by omega) (fun _ => by omega)) rd io
    exact ⟨g, s1, item1, q1, q2, q3, q4, q5⟩
  have hkey : (UInt32.ofNat o.2).toNat = o.2 := by rw [UInt32.toNat_ofNat']; exact Nat.mod_eq_of_lt hm.2
  have hk' : second cfg2 = .cache → UInt32.ofNat o.2 ≠ 0x80000000 := fun hx e => hk hx (by
    rw [← hkey, e]; rfl)
  obtain ⟨g', k1, k3, k4⟩ : ∃ g', c2.get file fuel t (UInt32.ofNat o.2) pi = some g' ∧ g'.err = some .offsetOutOfRange ∧
      g'.state.heap = t.heap := by
    obtain ⟨pre, post, hf, hhd⟩ := hh.profiles
    subst hhd
    subst hf
    obtain ⟨w, -⟩ := records (pre := pre) (post := post) (enc := encodeProfile) (rs := ps) (n := 9) (g := profileSize)
      (fun t h => sized_profile (profile_fits (by omega) h)) (by omega)
    obtain ⟨g', a1, -, a3, -, a5⟩ := C13_outside_partial (read := profileReader) w hc2 (key := UInt32.ofNat o.2)
      (show _ ≤ _ by rw [hkey]; exact hout) (fun hx => ⟨(rd2.2 hx).1, hk' hx⟩) (item := pi) hp
    refine ⟨g', a1, ?_, a3⟩
    rcases a5 with h | ⟨a, b⟩
    · exact h
    · exact absurd b (notFull rd2 hk' a)
  obtain ⟨tail, b1⟩ := Shows.bytesAt g2
  have e2 := (read_offset o hm.1 hm.2 tail).2
  obtain ⟨l1, -, ref, -, l2, -⟩ := g2
  refine ⟨⟨s1, item1, g'.state, g'.item, false, some .offsetOutOfRange⟩, ?_, rfl, rfl, g5, k4⟩
  rw [round, g1]
  simp only
  rw [if_pos ⟨by rw [l2]; simp, l1⟩]
  simp only [b1, Option.bind_eq_bind, Option.bind_some, e2, k1]
  rw [if_neg (by rw [k3]; simp)]
  simp only [g3, k3, Option.bind_some]

/-- Two rounds which differ in the handles of the items at most. -/
structure NearRound (a b : Round) : Prop where
  offsets : a.offsets = b.offsets
  offsetItem : SameBut a.offsetItem b.offsetItem
  profiles : a.profiles = b.profiles
  profileItem : SameBut a.profileItem b.profileItem
  hit : a.hit = b.hit
  err : a.err = b.err

theorem round_near (file : CStr) (fuel : Nat) {c c2 : Coll} (hc : Releases c c2) (q : Profile.Property) (x i : Nat) (s t : State)
    {oi oi' pi pi' : Item} (ho : SameBut oi oi') (hp : SameBut pi pi') :
    Both NearRound (round file fuel c c2 q x i s oi t pi) (round file fuel c c2 q x i s oi' t pi') := by
  have h1 := get_near file fuel c s (UInt32.ofNat i) ho
  rw [round, round]
  cases hg : c.get file fuel s (UInt32.ofNat i) oi <;> cases hg' : c.get file fuel s (UInt32.ofNat i) oi' <;> rw [hg, hg'] at h1
  · trivial
  · exact h1.elim
  · exact h1.elim
  · rename_i g g'
    obtain ⟨e1, e2, e3, e4⟩ := h1
    simp only [e1, e3, e4, bytesAt_near e2.same]
    split
    · refine Both.bind (Both.same (R := Eq) (fun _ => rfl) _) fun b b' hb => ?_
      subst hb
      refine Both.bind (Both.same (R := Eq) (fun _ => rfl) _) fun o o' ho' => ?_
      subst ho'
      refine Both.bind (get_near file fuel c2 t (UInt32.ofNat o) hp) fun p p' hpp => ?_
      obtain ⟨f1, f2, f3, f4⟩ := hpp
      simp only [f1, f3, f4, bytesAt_near f2.same]
      split
      · refine Both.bind (Both.same (R := Eq) (fun _ => rfl) _) fun b b' hb => ?_
        subst hb
        refine Both.bind (Both.same (R := Eq) (fun _ => rfl) _) fun pr pr' hb => ?_
        subst hb
        refine Both.bind (Both.same (R := Eq) (fun _ => rfl) _) fun hit hit' hb => ?_
        subst hb
        refine Both.bind (release_near hc fuel _ f2) fun u u' hu => ?_
        refine Both.bind (release_near (Releases.own c) fuel _ e2) fun v v' hv => ?_
        exact ⟨hv.1, hv.2, hu.1, hu.2, rfl, rfl⟩
      · refine Both.bind (release_near (Releases.own c) fuel _ e2) fun v v' hv => ?_
        exact ⟨hv.1, hv.2, rfl, f2.same, rfl, rfl⟩
    · exact ⟨rfl, e2.same, rfl, hp, rfl, rfl⟩

theorem rounds_near (file : CStr) (fuel : Nat) {c c2 : Coll} (hc : Releases c c2) (q : Profile.Property) (x : Nat) :
    ∀ (n i : Nat) (s t : State) (oi oi' pi pi' : Item) (seen : List Nat), SameBut oi oi' → SameBut pi pi' →
    roundsFrom file fuel c c2 q x n i s oi t pi seen = roundsFrom file fuel c c2 q x n i s oi' t pi' seen := by
  intro n
  induction n with
  | zero => intro i s t oi oi' pi pi' seen _ _; rfl
  | succ n ih =>
    intro i s t oi oi' pi pi' seen ho hp
    have h1 := round_near file fuel hc q x i s t ho hp
    rw [roundsFrom, roundsFrom]
    cases hg : round file fuel c c2 q x i s oi t pi <;> cases hg' : round file fuel c c2 q x i s oi' t pi' <;> rw [hg, hg'] at h1
    · exact h1.elim
    · exact h1.elim
    · simp only [h1.offsets, h1.profiles, h1.hit, h1.err]
      split
      · exact ih _ _ _ _ _ _ _ _ h1.offsetItem h1.profileItem
      · rfl

/-- C75: the callback is called for exactly the profiles which have the value, in the order of the table, and all that was got on
the way is given back, whatever the handles of the local items were, if releasing with the collection of the offsets does the right
thing for the profiles. Missing: the other combinations of storage, see `C75_skipped_violated`, `C75_leak_violated`,
`C75_free_violated` and `C75_uninitialised_violated`; profiles for which the search for the value reads past the end, see `C75_overrun_violated`; a cache in which all nodes of a shard are held. -/
theorem C75_profiles_partial {ps : List Prof} {tab : List (Nat × Nat)} {profs : List Prof} {h h2 : Header}
    (hh : Holds file ps tab h h2) (hl : Listing ps tab profs) (hne : tab ≠ []) {cfg cfg2 : Config} {c c2 : Coll}
    (hc : Created file cfg h .fixed c)
    (hc2 : Created file cfg2 h2 profileReader c2) (ha : Agree c c2 cfg2) {capacity capacity2 : Nat} {s t : State}
    {evs evs2 : List (Nat × Event UInt32 CStr)} (rd : Ready file cfg h .fixed fuel capacity s evs)
    (rd2 : Ready file cfg2 h2 profileReader fuel capacity2 t evs2) {q : Profile.Property} {x : Nat} (h1 : q.first ≤ x)
    (hx : x ≤ q.last) (he : ∀ p ∈ profs, EndsWithin p q x) (oj pj : Option Ref) :
    ∃ r, iterateProfiles file fuel c c2 oj pj q x s t = some r ∧ r.err = none ∧
      r.seen = (List.range tab.length).filter (fun k => profs[k]?.any fun p => decide (x ∈ p.values)) ∧
      Kept file cfg h .fixed fuel capacity evs s r.offsets ∧ Kept file cfg2 h2 profileReader fuel capacity2 evs2 t r.profiles := by
  have hcount : c.getCount = tab.length := by
    obtain ⟨pre, post, hf, hhd⟩ := hh.offsets
    have hsm := hh.small
    subst hhd
    subst hf
    obtain ⟨w, -⟩ := fixedRecords (pre := pre) (post := post) (enc := encodeOffset) (k := 8) (by omega) hne (fun v _ => rfl) hsm.1
    exact C13_count w hc
  obtain ⟨r, r1, r2, r3, r4, r5⟩ := rounds_spec hh hl hc hc2 ha h1 hx he tab.length 0 s t evs evs2 Item.new Item.new [] (by omega)
    rd rd2 ⟨fun _ => rfl, rfl⟩ ⟨fun _ => rfl, rfl⟩
  refine ⟨r, ?_, r2, ?_, r4, r5⟩
  · rw [iterateProfiles, hcount, ← r1]
    exact rounds_near file fuel ha.releases q x _ _ _ _ _ _ _ _ _ ⟨oj, rfl⟩ ⟨pj, rfl⟩
  rw [r3, List.nil_append, List.range_eq_range']

/-- C75: when the offset at some place of the table is outside of the profiles, there is an exception, and the callback was
called for exactly the profiles before it which have the value. Nothing more is allocated for the profiles, and what was got of the
offsets up to there is given back; what the rounds after that do see C95. Missing: as for `C75_profiles_partial`. -/
theorem C75_outside_partial {ps : List Prof} {tab : List (Nat × Nat)} {profs : List Prof} {h h2 : Header}
    (hh : Holds file ps tab h h2) (hl : Begins ps tab profs) {o : Nat × Nat} (ho : tab[profs.length]? = some o)
    (hout : (ps.flatMap encodeProfile).length ≤ o.2) {cfg cfg2 : Config} {c c2 : Coll} (hc : Created file cfg h .fixed c)
    (hc2 : Created file cfg2 h2 profileReader c2) (ha : Agree c c2 cfg2) (hk : second cfg2 = .cache → o.2 ≠ 0x80000000)
    {capacity capacity2 : Nat} {s t : State}
    {evs evs2 : List (Nat × Event UInt32 CStr)} (rd : Ready file cfg h .fixed fuel capacity s evs)
    (rd2 : Ready file cfg2 h2 profileReader fuel capacity2 t evs2) {q : Profile.Property} {x : Nat} (h1 : q.first ≤ x)
    (hx : x ≤ q.last) (he : ∀ p ∈ profs, EndsWithin p q x) (oj pj : Option Ref) :
    ∃ r, iterateProfiles file fuel c c2 oj pj q x s t = some r ∧ r.err = some .offsetOutOfRange ∧
      r.seen = (List.range profs.length).filter (fun k => profs[k]?.any fun p => decide (x ∈ p.values)) ∧
      Kept file cfg h .fixed fuel capacity evs s r.offsets ∧
      ∃ t', Kept file cfg2 h2 profileReader fuel capacity2 evs2 t t' ∧ r.profiles.heap = t'.heap := by
  have hne : tab ≠ [] := List.ne_nil_of_mem (List.mem_of_getElem? ho)
  have hcount : c.getCount = tab.length := by
    obtain ⟨pre, post, hf, hhd⟩ := hh.offsets
    have hsm := hh.small
    subst hhd
    subst hf
    obtain ⟨w, -⟩ := fixedRecords (pre := pre) (post := post) (enc := encodeOffset) (k := 8) (by omega) hne (fun v _ => rfl) hsm.1
    exact C13_count w hc
  have hlt := (List.getElem?_eq_some_iff.1 ho).1
  obtain ⟨m, hm⟩ : ∃ m, tab.length = profs.length + (m + 1) := ⟨tab.length - profs.length - 1, by omega⟩
  obtain ⟨s', t', oi', pi', r1, io, io2, hpl, k1, k2⟩ := rounds_start hh hl hc hc2 ha h1 hx he (m + 1) profs.length 0 s t evs evs2
    Item.new Item.new [] (by omega) rd rd2 ⟨fun _ => rfl, rfl⟩ ⟨fun _ => rfl, rfl⟩
  obtain ⟨evs', rd', up⟩ := Kept.ready rd k1
  obtain ⟨evs2', rd2', -⟩ := Kept.ready rd2 k2
  obtain ⟨r, e1, e2, e3, e4, e5⟩ := round_outside hh hl.fits hc hc2 rd' rd2' io (hpl fun _ => rfl) (q := q) (x := x) ho hout hk
  refine ⟨⟨r.offsets, r.profiles, (List.range profs.length).filter (fun k => profs[k]?.any fun p => decide (x ∈ p.values)),
    some .offsetOutOfRange⟩, ?_, rfl, rfl, up _ e4, t', k2, e5⟩
  have hn := rounds_near file fuel ha.releases q x tab.length 0 s t (localItem oj) Item.new (localItem pj) Item.new [] ⟨oj, rfl⟩
    ⟨pj, rfl⟩
  rw [iterateProfiles, hcount, hn, hm, r1, Nat.zero_add, roundsFrom, e1]
  simp only [e2, e3, List.nil_append]
  simp [List.range_eq_range']

/-! ### Concrete runs -/

/-- Three profiles: the first and the last have the value 4; the last values are those of another property. -/
def valueProfiles : List Prof := [⟨0, 3, [1, 4, 8]⟩, ⟨0, 7, [5, 9]⟩, ⟨0, 12, [4, 8]⟩]

def valueTable : List (Nat × Nat) := [(3, 0), (7, 21), (12, 38)]

def valueFile : CStr := valueTable.flatMap encodeOffset ++ valueProfiles.flatMap encodeProfile

def valueTableHeader : Header := ⟨0, 24, 3⟩
def valueHeader : Header := ⟨24, 55, 0⟩

/-- What the iteration for a property with the values 4 to 6 and its value 4 reports: the indexes passed to the callback, the
exception, and for each block of memory of the profiles whether it is still allocated. -/
def valueRun (c c2 : Coll) (capacity : Nat) (pj : Option Ref := none) : UB (List Nat × Option Err × List Bool) :=
  (newState capacity).bind fun s =>
    (iterateProfiles valueFile 12 c c2 none pj ⟨4, 6⟩ 4 s s).map fun r =>
      (r.seen, r.err, (List.range r.profiles.heap.next).map fun j => (r.profiles.heap.block j).isSome)

/-- The collections of the offsets and of the profiles. -/
def offsetsIn (cfg : Config) : Coll := made valueFile cfg valueTableHeader .fixed
def profilesIn (cfg : Config) : Coll := made valueFile cfg valueHeader profileReader

/-- Both in memory, in the file, cached with one node; the offsets partly loaded and the profiles cached. -/
example : valueRun (createFromMemory valueFile valueTableHeader) (createFromMemory valueFile valueHeader) 1 = some ([0, 2], none, []) ∧
    valueRun (offsetsIn ⟨0, 0, 0⟩) (profilesIn ⟨0, 0, 0⟩) 1 = some ([0, 2], none, [false, false, false]) ∧
    valueRun (offsetsIn ⟨0, 1, 1⟩) (profilesIn ⟨0, 1, 1⟩) 1 = some ([0, 2], none, []) ∧
    valueRun (offsetsIn ⟨1, 0, 0⟩) (profilesIn ⟨0, 1, 1⟩) 1 = some ([0, 2], none, []) ∧
    valueRun (offsetsIn ⟨0, 1, 1⟩) (profilesIn ⟨0, 1, 1⟩) 1 (some (.block 7)) = some ([0, 2], none, []) := by
  refine ⟨?_, ?_, ?_, ?_, ?_⟩ <;> decide +kernel

/-- The conditions of the theorem are met. -/
example : Holds valueFile valueProfiles valueTable valueTableHeader valueHeader ∧
    Listing valueProfiles valueTable valueProfiles ∧ (∀ p ∈ valueProfiles, EndsWithin p ⟨4, 6⟩ 4) ∧
    Agree (offsetsIn ⟨0, 1, 1⟩) (profilesIn ⟨0, 1, 1⟩) ⟨0, 1, 1⟩ := by
  refine ⟨⟨⟨[], valueProfiles.flatMap encodeProfile, rfl, by decide⟩,
    ⟨valueTable.flatMap encodeOffset, [], by decide, by decide⟩, by decide⟩, ⟨rfl, by decide, ?_, ?_⟩, ?_, .inr (.inr ⟨⟨_, rfl⟩, fun m h => nomatch h⟩)⟩
  · intro i o p h1 h2
    have hlt := (List.getElem?_eq_some_iff.1 h1).1
    have : i = 0 ∨ i = 1 ∨ i = 2 := by
      have : valueTable.length = 3 := rfl
      omega
    rcases this with rfl | rfl | rfl <;> (cases h1; cases h2)
    · exact ⟨0, rfl, by decide⟩
    · exact ⟨1, rfl, by decide⟩
    · exact ⟨2, rfl, by decide⟩
  · intro p hp
    unfold Profile.Ascending
    simp only [valueProfiles, List.mem_cons, List.not_mem_nil, or_false] at hp
    rcases hp with rfl | rfl | rfl <;> decide
  · intro p hp
    simp only [valueProfiles, List.mem_cons, List.not_mem_nil, or_false] at hp
    unfold EndsWithin
    rcases hp with rfl | rfl | rfl <;> decide

/-- A table whose last offset is outside of the profiles. -/
def brokenTable : List (Nat × Nat) := [(3, 0), (7, 21), (12, 55)]

def brokenFile : CStr := brokenTable.flatMap encodeOffset ++ valueProfiles.flatMap encodeProfile

example : (((newState 1).bind fun s => iterateProfiles brokenFile 12 (made brokenFile ⟨0, 0, 0⟩ valueTableHeader .fixed)
    (made brokenFile ⟨0, 0, 0⟩ valueHeader profileReader) none none ⟨4, 6⟩ 4 s s).map fun r => (r.seen, r.err)) =
    some ([0], some .offsetOutOfRange) := by decide +kernel

example : Holds brokenFile valueProfiles brokenTable valueTableHeader valueHeader ∧
    Begins valueProfiles brokenTable (valueProfiles.take 2) ∧ brokenTable[(valueProfiles.take 2).length]? = some (12, 55) ∧
    (valueProfiles.flatMap encodeProfile).length ≤ 55 := by
  refine ⟨⟨⟨[], valueProfiles.flatMap encodeProfile, rfl, by decide⟩,
    ⟨brokenTable.flatMap encodeOffset, [], by decide, by decide⟩, by decide⟩, ⟨by decide, by decide, ?_, ?_⟩, rfl, by decide⟩
  · intro i o p h1 h2
    have hlt := (List.getElem?_eq_some_iff.1 h2).1
    have : i = 0 ∨ i = 1 := by
      have : (valueProfiles.take 2).length = 2 := rfl
      omega
    rcases this with rfl | rfl <;> (cases h1; cases h2)
    · exact ⟨0, rfl, by decide⟩
    · exact ⟨1, rfl, by decide⟩
  · intro p hp
    unfold Profile.Ascending
    simp only [valueProfiles, List.take_succ_cons, List.take_zero, List.mem_cons, List.not_mem_nil, or_false] at hp
    rcases hp with rfl | rfl <;> decide

/-- C75 fails when the offsets are in memory and the profiles are cached: nothing is released, and when all nodes are held the
other profiles are left out, without an exception. With one node the callback is not called for the profile 12; with three it is. -/
theorem C75_skipped_violated :
    valueRun (createFromMemory valueFile valueTableHeader) (profilesIn ⟨0, 1, 1⟩) 1 = some ([0], none, []) ∧
    valueRun (createFromMemory valueFile valueTableHeader) (profilesIn ⟨0, 3, 1⟩) 3 = some ([0, 2], none, []) := by
  decide +kernel

/-- C75 fails when the offsets are in memory and the profiles in the file: the memory of the profiles is never freed. -/
theorem C75_leak_violated :
    valueRun (createFromMemory valueFile valueTableHeader) (profilesIn ⟨0, 0, 0⟩) 1 = some ([0, 2], none, [true]) := by
  decide +kernel

/-- C75 fails when the offsets are in the file and the profiles are cached: the memory of the cache is freed. -/
theorem C75_free_violated : valueRun (offsetsIn ⟨0, 0, 0⟩) (profilesIn ⟨0, 1, 1⟩) 1 = none := by
  decide +kernel

/-- C75 fails when the offsets are cached and the profiles are in the file: the memory of the profile is taken for a node of the
cache. -/
theorem C75_release_violated : valueRun (offsetsIn ⟨0, 1, 1⟩) (profilesIn ⟨0, 0, 0⟩) 1 = none := by
  decide +kernel

/-- C75 fails when the profiles are in memory and the offsets are in the file, or cached: the handle of the profile's item was never
set, and what is there is freed, or taken for a node of the cache. With a handle that happens to be NULL all is well. -/
theorem C75_uninitialised_violated :
    valueRun (offsetsIn ⟨0, 0, 0⟩) (createFromMemory valueFile valueHeader) 1 (some (.block 7)) = none ∧
    valueRun (offsetsIn ⟨0, 1, 1⟩) (createFromMemory valueFile valueHeader) 1 (some (.block 7)) = none ∧
    valueRun (offsetsIn ⟨0, 1, 1⟩) (createFromMemory valueFile valueHeader) 1 none = some ([0, 2], none, []) := by
  refine ⟨?_, ?_, ?_⟩ <;> decide +kernel

/-- C75 fails for a profile in the file whose last value is one of the property and which does not have the value: the word after
its memory is read. -/
theorem C75_overrun_violated :
    ((newState 1).bind fun s => (iterateProfiles (encodeOffset (3, 0) ++ encodeProfile ⟨0, 3, [5]⟩) 12
      (made (encodeOffset (3, 0) ++ encodeProfile ⟨0, 3, [5]⟩) ⟨0, 0, 0⟩ ⟨0, 8, 1⟩ .fixed)
      (made (encodeOffset (3, 0) ++ encodeProfile ⟨0, 3, [5]⟩) ⟨0, 0, 0⟩ ⟨8, 13, 0⟩ profileReader) none none ⟨4, 6⟩ 4 s s).map (·.seen)) = none ∧
    ((newState 1).bind fun s => (iterateProfiles (encodeOffset (3, 0) ++ encodeProfile ⟨0, 3, [5]⟩) 12
      (made (encodeOffset (3, 0) ++ encodeProfile ⟨0, 3, [5]⟩) ⟨0, 0, 0⟩ ⟨0, 8, 1⟩ .fixed)
      (made (encodeOffset (3, 0) ++ encodeProfile ⟨0, 3, [5]⟩) ⟨0, 0, 0⟩ ⟨8, 13, 0⟩ profileReader) none none ⟨4, 6⟩ 5 s s).map (·.seen)) =
      some [0] := by
  decide +kernel

end Verif.Record
