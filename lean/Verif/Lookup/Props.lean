import Verif.Lookup.Model
import Verif.Profile.Props
import Verif.Ip.Props

/-! # C42: values by name, for all name formats -/

namespace Verif.Lookup

open Verif.Search (Coll Out)
open Verif.Profile (Property strcmp StrLt strLt_trans strLt_total strLt_irrefl strcmp_zero strcmp_neg strcmp_pos)

theorem memcmp_take (n : Nat) (a b : List UInt8) (ha : n ≤ a.length) (hb : n ≤ b.length) :
    memcmp n a b = some (strcmp (a.take n) (b.take n)) := by
  induction n generalizing a b with
  | zero => simp [memcmp, strcmp]
  | succ n ih =>
    obtain ⟨x, a, rfl⟩ := List.exists_cons_of_length_pos (show 0 < a.length by omega)
    obtain ⟨y, b, rfl⟩ := List.exists_cons_of_length_pos (show 0 < b.length by omega)
    simp only [List.length_cons, Nat.add_le_add_iff_right] at ha hb
    simp only [memcmp, List.take_succ_cons, strcmp, ih a b ha hb]
    split <;> rfl

theorem memcmp_full (n : Nat) (a b : List UInt8) (ha : a.length = n) (hb : b.length = n) :
    memcmp n a b = some (strcmp a b) := by
  rw [memcmp_take n a b (by omega) (by omega), ← ha, List.take_length, ha, ← hb, List.take_length]

/-- Comparing with `strcmp` up to the shorter length and then by length is comparing whole. -/
theorem strcmp_take (a b : List UInt8) :
    (strcmp (a.take (min a.length b.length)) (b.take (min a.length b.length)) = 0 →
      strcmp a b = if a.length < b.length then -1 else if a.length > b.length then 1 else 0) ∧
    (strcmp (a.take (min a.length b.length)) (b.take (min a.length b.length)) ≠ 0 →
      strcmp a b = strcmp (a.take (min a.length b.length)) (b.take (min a.length b.length))) := by
  induction a generalizing b with
  | nil => cases b <;> simp [strcmp]
  | cons x a ih =>
    cases b with
    | nil => simp [strcmp]
    | cons y b =>
      have e : min (x :: a).length (y :: b).length = min a.length b.length + 1 := by
        simp only [List.length_cons]; omega
      rw [e]
      simp only [List.take_succ_cons, strcmp, List.length_cons]
      by_cases h : x = y
      · simp only [h, if_true, gt_iff_lt, Nat.add_lt_add_iff_right]; exact ih b
      · simp only [h, if_false, implies_true, and_true]
        intro h0; split at h0 <;> simp at h0

/-- What a name is compared by: its text, or the bytes of its coordinate or address. -/
def Name.bytes : Name → List UInt8
  | .text s => s
  | .coordinate lat lon => lat ++ lon
  | .ip b => b
  | .missing _ => []

/-- The names from `lo` to `hi` exist and are in ascending order of their bytes, all in one format. -/
structure Sorted (format : Name → Prop) (names : List Name) (lo hi : Nat) : Prop where
  inside : hi < names.length
  format : ∀ i v, lo ≤ i → i ≤ hi → names[i]? = some v → format v
  ascending : ∀ i j a b, lo ≤ i → i < j → j ≤ hi → names[i]? = some a → names[j]? = some b → StrLt a.bytes b.bytes

/-- When names are compared by their bytes with the bytes of what is sought, it is found exactly when it is there. -/
theorem found (e : Env) (format : Name → Prop) (names : List Name) (q : Property) (target : CStr) (key : List UInt8)
    (hs : Sorted format names q.first q.last) (hlen : names.length < 2 ^ 32) (fuel : Nat) (hf : q.last + 2 ≤ fuel)
    (hcmp : ∀ v, format v → ∃ r, compareName e target v = some (some r) ∧ (r = 0 ↔ strcmp v.bytes key = 0) ∧
      (r < 0 ↔ strcmp v.bytes key < 0)) :
    ∃ o, indexByName e names fuel q target = some o ∧ o.error = false ∧
      ((∃ i : Nat, o.ret = i ∧ q.first ≤ i ∧ i ≤ q.last ∧ o.held = some i ∧
          ∃ v, names[i]? = some v ∧ v.bytes = key) ∨
       (o.ret = -1 ∧ ∀ i v, q.first ≤ i → i ≤ q.last → names[i]? = some v → v.bytes ≠ key)) := by
  have hget : ∀ i, q.first ≤ i → i ≤ q.last → ∃ v r, names[i]? = some v ∧ format v ∧
      compareName e target v = some (some r) ∧ Search.at? (coll e names target) i = some r ∧
      (r = 0 ↔ strcmp v.bytes key = 0) ∧ (r < 0 ↔ strcmp v.bytes key < 0) := by
    intro i h1 h2
    have hi : i < names.length := by have := hs.inside; omega
    have hv : names[i]? = some names[i] := List.getElem?_eq_getElem hi
    have hfm := hs.format i _ h1 h2 hv
    obtain ⟨r, hr, h3, h4⟩ := hcmp _ hfm
    exact ⟨names[i], r, hv, hfm, hr, by simp [Search.at?, coll, hv, hr], h3, h4⟩
  have hord : Search.Ordered (coll e names target) q.first q.last := by
    constructor
    · intro i h1 h2
      obtain ⟨v, r, -, -, -, h, -⟩ := hget i h1 h2
      exact ⟨r, h⟩
    · intro i j r s h1 h2 h3 hr hs'
      obtain ⟨a, ra, ha, -, -, ha', a0, an⟩ := hget i h1 (by omega)
      obtain ⟨b, rb, hb, -, -, hb', b0, bn⟩ := hget j (by omega) h3
      rw [ha'] at hr; rw [hb'] at hs'
      cases hr; cases hs'
      rcases Nat.lt_or_eq_of_le h2 with hlt | rfl
      · have hab := hs.ascending i j a b h1 hlt h3 ha hb
        have key1 : 0 ≤ r → 0 < s := by
          intro h
          have : StrLt key b.bytes := by
            by_cases h0 : r = 0
            · have := (strcmp_zero _ _).1 (a0.1 h0); rw [← this]; exact hab
            · have hp : 0 < strcmp a.bytes key := by
                have h5 : ¬ strcmp a.bytes key = 0 := fun h => h0 (a0.2 h)
                have h6 : ¬ strcmp a.bytes key < 0 := fun h => by have := an.2 h; omega
                omega
              exact strLt_trans _ _ _ ((strcmp_pos _ _).1 hp) hab
          have hp := (strcmp_pos _ _).2 this
          have h5 : ¬ s = 0 := fun h => by have := b0.1 h; omega
          have h6 : ¬ s < 0 := fun h => by have := bn.1 h; omega
          omega
        exact ⟨fun h => by have := key1 h; omega, fun h => key1 (by omega)⟩
      · rw [ha] at hb; cases hb; rw [ha'] at hb'; cases hb'; exact ⟨id, id⟩
  obtain ⟨o, h1, h2, h3, h4⟩ := Search.C14_search_partial _ _ _ hord (by have := hs.inside; omega) fuel hf
  refine ⟨o, ?_, h2, ?_⟩
  · simp only [indexByName, h1]
    rw [if_pos]
    rw [List.all_eq_true]
    intro i hi
    obtain ⟨v, r, hv, -, hr, -⟩ := hget i (h3 i hi).1 (h3 i hi).2
    simp [defined, hv, hr]
  · rcases h4 with ⟨i, a, b, c, d, hheld⟩ | ⟨a, -, b⟩
    · obtain ⟨v, r, hv, -, -, hat, h0, -⟩ := hget i b c
      rw [hat] at d; cases d
      exact Or.inl ⟨i, a, b, c, hheld, v, hv, (strcmp_zero _ _).1 (h0.1 rfl)⟩
    · refine Or.inr ⟨a, ?_⟩
      intro i v h1 h2 hv hk
      obtain ⟨v', r, hv', -, -, hat, h0, -⟩ := hget i h1 h2
      rw [hv] at hv'; cases hv'
      have := h0.2 ((strcmp_zero _ _).2 hk)
      exact b i h1 h2 (by rw [hat, this])

/-- C42: among values named by IP addresses of any lengths, sorted by their bytes as in a data file, a text that
denotes an address (see C31) finds the value with exactly the bytes of the address, and -1 means there is none.
Missing: no memory for the address (`C42_memory_violated`). -/
theorem C42_ip_partial (e : Env) (he : e.memory = true) (names : List Name) (q : Property) (target : CStr) (a : Ip.Addr)
    (ha : Ip.parse target target.length = some a) (hty : a.ty = .v4 ∧ a.bytes.length = 4 ∨ a.ty = .v6 ∧ a.bytes.length = 16)
    (hs : Sorted (fun v => ∃ b, v = .ip b) names q.first q.last) (hlen : names.length < 2 ^ 32) (fuel : Nat)
    (hf : q.last + 2 ≤ fuel) :
    ∃ o, indexByName e names fuel q target = some o ∧ o.error = false ∧
      ((∃ i : Nat, o.ret = i ∧ q.first ≤ i ∧ i ≤ q.last ∧ names[i]? = some (.ip a.bytes)) ∨
       (o.ret = -1 ∧ ∀ i, q.first ≤ i → i ≤ q.last → names[i]? ≠ some (.ip a.bytes))) := by
  have hl : searchLength a.ty = a.bytes.length ∧ searchLength a.ty ≠ 0 := by
    rcases hty with ⟨h1, h2⟩ | ⟨h1, h2⟩ <;> simp [h1, h2, searchLength]
  have hl' : ¬ a.bytes.length = 0 := by rw [← hl.1]; exact hl.2
  obtain ⟨o, h1, h2, h3⟩ := found e _ names q target a.bytes hs hlen fuel hf (by
    rintro _ ⟨b, rfl⟩
    simp only [compareName, compareIp, he, if_true, ha, hl.1, hl', if_false, Name.bytes]
    rw [memcmp_take _ _ _ (Nat.min_le_left _ _) (Nat.min_le_right _ _)]
    obtain ⟨t0, t1⟩ := strcmp_take b a.bytes
    by_cases h : strcmp (b.take (min b.length a.bytes.length)) (a.bytes.take (min b.length a.bytes.length)) = 0
    · refine ⟨(b.length : Int) - a.bytes.length, by simp only [h, if_true, Option.map_some], ?_, ?_⟩
      · rw [t0 h]; split
        · omega
        · split <;> omega
      · rw [t0 h]; split
        · omega
        · split <;> omega
    · exact ⟨strcmp (b.take (min b.length a.bytes.length)) (a.bytes.take (min b.length a.bytes.length)),
        by simp only [h, if_false, Option.map_some], by rw [t1 h], by rw [t1 h]⟩)
  refine ⟨o, h1, h2, ?_⟩
  rcases h3 with ⟨i, r1, r2, r3, -, v, hv, hk⟩ | ⟨r1, r2⟩
  · obtain ⟨b, rfl⟩ := hs.format i v r2 r3 hv
    simp only [Name.bytes] at hk; subst hk
    exact Or.inl ⟨i, r1, r2, r3, hv⟩
  · exact Or.inr ⟨r1, fun i h4 h5 h6 => r2 i _ h4 h5 h6 rfl⟩

/-- The range of a search for what is never found. -/
theorem notFound (e : Env) (names : List Name) (q : Property) (target : CStr) (hin : q.last < names.length)
    (hlen : names.length < 2 ^ 32) (fuel : Nat) (hf : q.last + 2 ≤ fuel)
    (hcmp : ∀ i v, q.first ≤ i → i ≤ q.last → names[i]? = some v → compareName e target v = some (some (-1))) :
    ∃ o, indexByName e names fuel q target = some o ∧ o.error = false ∧ o.ret = -1 := by
  have hat : ∀ i, q.first ≤ i → i ≤ q.last → ∃ v, names[i]? = some v ∧
      compareName e target v = some (some (-1)) ∧ Search.at? (coll e names target) i = some (-1) := by
    intro i h1 h2
    have hv : names[i]? = some names[i] := List.getElem?_eq_getElem (by omega)
    have := hcmp i _ h1 h2 hv
    exact ⟨_, hv, this, by simp [Search.at?, coll, hv, this]⟩
  have hord : Search.Ordered (coll e names target) q.first q.last := by
    constructor
    · intro i h1 h2
      obtain ⟨v, -, -, h⟩ := hat i h1 h2
      exact ⟨_, h⟩
    · intro i j r s h1 h2 h3 hr hs
      obtain ⟨-, -, -, h⟩ := hat i h1 (by omega)
      rw [h] at hr; cases hr
      exact ⟨by omega, by omega⟩
  obtain ⟨o, h1, h2, h3, h4⟩ := Search.C14_search_partial _ _ _ hord (by omega) fuel hf
  refine ⟨o, ?_, h2, ?_⟩
  · simp only [indexByName, h1]
    rw [if_pos]
    rw [List.all_eq_true]
    intro i hi
    obtain ⟨v, hv, hc, -⟩ := hat i (h3 i hi).1 (h3 i hi).2
    simp [defined, hv, hc]
  · rcases h4 with ⟨i, -, b, c, d, -⟩ | ⟨a, -, -⟩
    · obtain ⟨-, -, -, h⟩ := hat i b c
      rw [h] at d; cases d
    · exact a

/-- C42: a text that is no address at all is not found among IP addresses. Missing: texts the parser is undefined for, and too
little memory, see `C42_malformed_violated` and `C42_memory_violated`. -/
theorem C42_notAddress_partial (e : Env) (he : e.memory = true) (names : List Name) (q : Property) (target : CStr)
    (a : Ip.Addr) (ha : Ip.parse target target.length = some a) (hty : a.ty = .invalid) (hin : q.last < names.length)
    (hip : ∀ i v, q.first ≤ i → i ≤ q.last → names[i]? = some v → ∃ b, v = .ip b) (hlen : names.length < 2 ^ 32)
    (fuel : Nat) (hf : q.last + 2 ≤ fuel) :
    ∃ o, indexByName e names fuel q target = some o ∧ o.error = false ∧ o.ret = -1 := by
  apply notFound e names q target hin hlen fuel hf
  intro i v h1 h2 hv
  obtain ⟨b, rfl⟩ := hip i v h1 h2 hv
  simp [compareName, compareIp, he, ha, hty, searchLength]

/-- C42: among values named by coordinates, sorted by their bytes as in a data file, a text with a comma finds the
value whose two floats are those the text denotes, and -1 means there is none. -/
theorem C42_coordinate (e : Env) (he : ∀ s, (e.num s).length = 4) (names : List Name) (q : Property)
    (lat lon : CStr) (hlat : 44 ∉ lat)
    (hs : Sorted (fun v => ∃ x y, v = .coordinate x y ∧ x.length = 4 ∧ y.length = 4) names q.first q.last)
    (hlen : names.length < 2 ^ 32) (fuel : Nat) (hf : q.last + 2 ≤ fuel) :
    ∃ o, indexByName e names fuel q (lat ++ 44 :: lon) = some o ∧ o.error = false ∧
      ((∃ i : Nat, o.ret = i ∧ q.first ≤ i ∧ i ≤ q.last ∧
          names[i]? = some (.coordinate (e.num (lat ++ 44 :: lon)) (e.num lon))) ∨
       (o.ret = -1 ∧ ∀ i, q.first ≤ i → i ≤ q.last →
          names[i]? ≠ some (.coordinate (e.num (lat ++ 44 :: lon)) (e.num lon)))) := by
  have hc : afterComma (lat ++ 44 :: lon) = some lon := by
    induction lat with
    | nil => simp [afterComma]
    | cons c cs ih =>
      simp only [List.mem_cons, not_or] at hlat
      simp only [List.cons_append, afterComma]
      rw [if_neg (Ne.symm hlat.1)]
      have := ih hlat.2
      exact this
  have app : ∀ a b c d : List UInt8, a.length = c.length →
      strcmp (a ++ b) (c ++ d) = if strcmp a c = 0 then strcmp b d else strcmp a c := by
    intro a
    induction a with
    | nil => intro b c d h; have := List.length_eq_zero_iff.1 h.symm; subst this; simp [strcmp]
    | cons x a ih =>
      intro b c d h
      obtain ⟨y, c, rfl⟩ := List.exists_cons_of_length_pos (l := c) (by rw [← h]; simp)
      simp only [List.cons_append, strcmp]
      by_cases hxy : x = y
      · simp only [hxy, if_true]; exact ih b c d (by simpa using h)
      · simp only [hxy, if_false]
        by_cases hlt : x.toNat < y.toNat <;> simp [hlt]
  obtain ⟨o, h1, h2, h3⟩ := found e _ names q (lat ++ 44 :: lon) (e.num (lat ++ 44 :: lon) ++ e.num lon) hs hlen fuel hf (by
    rintro _ ⟨x, y, rfl, hx, hy⟩
    simp only [compareName, compareCoordinate, hc, Name.bytes]
    rw [memcmp_full 4 x _ hx (he _)]
    simp only
    rw [memcmp_full 4 y _ hy (he _), app x y _ _ (by rw [hx, he])]
    by_cases h : strcmp x (e.num (lat ++ 44 :: lon)) = 0
    · exact ⟨strcmp y (e.num lon), by simp only [h, if_true, Option.map_some], by simp [h], by simp [h]⟩
    · exact ⟨strcmp x (e.num (lat ++ 44 :: lon)), by simp only [h, if_false, Option.map_some], by simp [h],
        by simp [h]⟩)
  refine ⟨o, h1, h2, ?_⟩
  rcases h3 with ⟨i, r1, r2, r3, -, v, hv, hk⟩ | ⟨r1, r2⟩
  · obtain ⟨x, y, rfl, hx, hy⟩ := hs.format i v r2 r3 hv
    simp only [Name.bytes] at hk
    obtain ⟨h5, h6⟩ := List.append_inj hk (by rw [hx, he])
    subst h5 h6
    exact Or.inl ⟨i, r1, r2, r3, hv⟩
  · exact Or.inr ⟨r1, fun i h4 h5 h6 => r2 i _ h4 h5 h6 rfl⟩

theorem afterComma_none (s : CStr) (h : 44 ∉ s) : afterComma s = none := by
  induction s with
  | nil => rfl
  | cons c cs ih =>
    simp only [List.mem_cons, not_or] at h
    simp only [afterComma, if_neg (Ne.symm h.1)]
    exact ih h.2

/-- C42: a text without a comma is not found among coordinates. -/
theorem C42_notCoordinate (e : Env) (names : List Name) (q : Property) (target : CStr) (ht : 44 ∉ target)
    (hin : q.last < names.length)
    (hco : ∀ i v, q.first ≤ i → i ≤ q.last → names[i]? = some v → ∃ x y, v = .coordinate x y)
    (hlen : names.length < 2 ^ 32) (fuel : Nat) (hf : q.last + 2 ≤ fuel) :
    ∃ o, indexByName e names fuel q target = some o ∧ o.error = false ∧ o.ret = -1 := by
  apply notFound e names q target hin hlen fuel hf
  intro i v h1 h2 hv
  obtain ⟨x, y, rfl⟩ := hco i v h1 h2 hv
  simp [compareName, compareCoordinate, afterComma_none target ht]

/-- C42: string names again, here with the value found, as `fiftyoneDegreesValueGetByName` returns it: the one with
the name among the property's values, or NULL when there is none or the property has no values. -/
theorem C42_getByName (e : Env) (names : List Name) (q : Property) (target : CStr)
    (hs : Sorted (fun v => ∃ s, v = .text s) names q.first q.last) (hlen : names.length < 2 ^ 32) (fuel : Nat)
    (hf : q.last + 2 ≤ fuel) (hne : q.first ≤ q.last) :
    (∃ i, getByName e names fuel q target = some (some i) ∧ q.first ≤ i ∧ i ≤ q.last ∧ names[i]? = some (.text target)) ∨
    (getByName e names fuel q target = some none ∧ ∀ i, q.first ≤ i → i ≤ q.last → names[i]? ≠ some (.text target)) := by
  have hq : q.first % 2 ^ 32 ≠ 2 ^ 32 - 1 := by have := hs.inside; omega
  obtain ⟨o, h1, h2, h3⟩ := found e _ names q target target hs hlen fuel hf (by
    rintro _ ⟨s, rfl⟩
    exact ⟨_, rfl, Iff.rfl, Iff.rfl⟩)
  rcases h3 with ⟨i, r1, r2, r3, r4, v, hv, hk⟩ | ⟨r1, r2⟩
  · obtain ⟨s, rfl⟩ := hs.format i v r2 r3 hv
    simp only [Name.bytes] at hk; subst hk
    refine Or.inl ⟨i, ?_, r2, r3, hv⟩
    simp only [getByName, hq, ne_eq, not_false_eq_true, if_true, h1, h2, and_true]
    rw [if_pos (by omega), r4]
  · refine Or.inr ⟨?_, fun i h4 h5 h6 => r2 i _ h4 h5 h6 rfl⟩
    simp only [getByName, hq, ne_eq, not_false_eq_true, if_true, h1]
    rw [if_neg (by omega)]

/-- C42: a property without values (its first value index is the largest `uint32_t`) has none to get. -/
theorem C42_noValues (e : Env) (names : List Name) (fuel last : Nat) (target : CStr) :
    getByName e names fuel ⟨2 ^ 32 - 1, last⟩ target = some none := by
  simp [getByName]

/-- C42 fails when there is no memory to parse the address sought: the first value looked at is returned. -/
theorem C42_memory_violated (num : CStr → List UInt8) :
    (indexByName ⟨num, false⟩ [.ip [10, 0, 0, 1], .ip [10, 0, 0, 2], .ip [10, 0, 0, 3]] 5 ⟨0, 2⟩ c!"8.8.8.8").map
      (fun o => (o.ret, o.error)) = some (1, false) := by rfl

/-- C42 fails when the name of a value is NULL without an exception, as it is when the cache of the strings is full
(`C13_full_violated`): the value is returned whatever its name is. -/
theorem C42_name_violated (num : CStr → List UInt8) :
    (indexByName ⟨num, true⟩ [.text c!"a", .missing false, .text c!"c"] 5 ⟨0, 2⟩ c!"zebra").map
      (fun o => (o.ret, o.error)) = some (1, false) := by rfl

/-- C42 fails for a text the address parser is undefined for (C31). -/
theorem C42_malformed_violated (num : CStr → List UInt8) :
    indexByName ⟨num, true⟩ [.ip [10, 0, 0, 1]] 5 ⟨0, 0⟩ c!"1.2.3.4:80" = none ∧
    indexByName ⟨num, true⟩ [.ip [10, 0, 1, 1]] 5 ⟨0, 0⟩ c!"10.0.1" = none := by
  constructor <;> rfl

example (num : CStr → List UInt8) :
    (indexByName ⟨num, true⟩ [.ip [10, 0, 0, 1], .ip [10, 0, 0, 2], .ip [10, 0, 0, 2, 7]] 5 ⟨0, 2⟩ c!"10.0.0.2").map
      (fun o => (o.ret, o.error)) = some (1, false) := by rfl
example : Sorted (fun v => ∃ b, v = .ip b) [.ip [10, 0, 0, 1], .ip [10, 0, 0, 2], .ip [10, 0, 0, 2, 7]] 0 2 := by
  refine ⟨by decide, ?_, ?_⟩
  · intro i v h1 h2 h
    have : i = 0 ∨ i = 1 ∨ i = 2 := by omega
    rcases this with rfl | rfl | rfl <;> simp at h <;> exact ⟨_, h.symm⟩
  · intro i j a b h1 h2 h3 ha hb
    have : (i = 0 ∧ j = 1) ∨ (i = 0 ∧ j = 2) ∨ (i = 1 ∧ j = 2) := by omega
    rcases this with ⟨rfl, rfl⟩ | ⟨rfl, rfl⟩ | ⟨rfl, rfl⟩ <;> simp at ha hb <;> subst ha hb <;>
      simp [Name.bytes, StrLt]
example : (indexByName ⟨fun s => [UInt8.ofNat s.length, 0, 0, 0], true⟩
    [.coordinate [3, 0, 0, 0] [1, 0, 0, 0], .coordinate [4, 0, 0, 0] [1, 0, 0, 0], .coordinate [4, 0, 0, 0] [2, 0, 0, 0]]
    5 ⟨0, 2⟩ c!"1,22").map (fun o => (o.ret, o.error)) = some (2, false) := by rfl

end Verif.Lookup
