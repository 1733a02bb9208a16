import Verif.Overrides.Model
import Mathlib.Tactic.Ring
import Mathlib.Data.List.Induction
import Verif.Str.Props
import Verif.Evidence.Props

/-! # C25, C26, C46, C47: overrides -/

namespace Verif.Overrides
open Verif.Evidence (Pair Arr iterate offer seen wanted C19_iterate)
open Verif.Str (fold)

/-! ## C25: a bounded map -/

/-- A sequence of additions; the second component are the answers. -/
def addAll (v : Values) : List (Int × CStr) → Values
  | [] => v
  | a :: rest => addAll (add v a.1 a.2).1 rest

theorem addAll_snoc (v : Values) (l : List (Int × CStr)) (a : Int × CStr) :
    addAll v (l ++ [a]) = (add (addAll v l) a.1 a.2).1 := by
  induction l generalizing v with
  | nil => rfl
  | cons b l ih => simp only [List.cons_append, addAll, ih]

/-- The properties named in a history (negative indexes name none), each once, by first addition. -/
def firstKeys : List (Int × CStr) → List Nat
  | [] => []
  | a :: rest => if a.1 ≥ 0 then a.1.toNat :: (firstKeys rest).filter (· ≠ a.1.toNat) else firstKeys rest

/-- The last value added for a property. -/
def lastFor (hist : List (Int × CStr)) (k : Nat) : Option CStr :=
  ((hist.filter fun a => a.1 = (k : Int)).getLast?).map (·.2)

theorem firstKeys_mem (l : List (Int × CStr)) (k : Nat) : k ∈ firstKeys l ↔ ∃ a ∈ l, a.1 = (k : Int) := by
  induction l with
  | nil => simp [firstKeys]
  | cons a l ih =>
    by_cases h : a.1 ≥ 0
    · simp only [firstKeys, h, if_true, List.mem_cons, List.mem_filter, decide_eq_true_eq, ih,
        exists_eq_or_imp]
      constructor
      · rintro (rfl | ⟨h1, _⟩)
        · left; omega
        · right; exact h1
      · rintro (h1 | h1)
        · left; omega
        · by_cases he : k = a.1.toNat
          · left; exact he
          · right; exact ⟨h1, he⟩
    · simp only [firstKeys, h, if_false, ih, List.mem_cons, exists_eq_or_imp]
      constructor
      · exact Or.inr
      · rintro (h1 | h1)
        · omega
        · exact h1

theorem firstKeys_snoc (l : List (Int × CStr)) (a : Int × CStr) :
    firstKeys (l ++ [a]) =
      if a.1 ≥ 0 ∧ a.1.toNat ∉ firstKeys l then firstKeys l ++ [a.1.toNat] else firstKeys l := by
  induction l with
  | nil => by_cases h : a.1 ≥ 0 <;> simp [firstKeys, h]
  | cons b l ih =>
    by_cases hb : b.1 ≥ 0
    · simp only [List.cons_append, firstKeys, hb, if_true, ih, List.mem_cons, List.mem_filter,
        decide_eq_true_eq, not_or, not_and]
      by_cases ha : a.1 ≥ 0
      · by_cases hm : a.1.toNat ∈ firstKeys l
        · simp only [ha, hm, not_true_eq_false, and_false, if_false, not_false_eq_true, forall_const]
          by_cases he : a.1.toNat = b.1.toNat <;> simp [he]
        · by_cases he : a.1.toNat = b.1.toNat
          · have hm' : b.1.toNat ∉ firstKeys l := he ▸ hm
            simp [ha, hm', he, List.filter_append]
          · simp [ha, hm, he, List.filter_append]
      · simp [ha]
    · simp only [List.cons_append, firstKeys, hb, if_false, ih]

theorem lastFor_snoc (l : List (Int × CStr)) (a : Int × CStr) (k : Nat) :
    lastFor (l ++ [a]) k = if a.1 = (k : Int) then some a.2 else lastFor l k := by
  by_cases h : a.1 = (k : Int) <;> simp [lastFor, List.filter_append, h]

theorem findItem_eq_length (k : Nat) (items : List (Nat × Text)) :
    findItem k items = items.length ↔ k ∉ items.map (·.1) := by
  induction items with
  | nil => simp [findItem]
  | cons it rest ih =>
    by_cases h : it.1 = k
    · simp [findItem, h]
    · have h' : k ≠ it.1 := fun e => h e.symm
      simp only [findItem, ne_eq, h, not_false_eq_true, if_true, List.length_cons, Nat.add_right_cancel_iff,
        ih, List.map_cons, List.mem_cons, h', false_or]

theorem set_spec (k : Nat) (t : Text) (items : List (Nat × Text)) (h : k ∈ items.map (·.1)) :
    (items.set (findItem k items) (k, t)).map (·.1) = items.map (·.1) ∧
    ∀ k', getFirstLoop k' (items.set (findItem k items) (k, t)) =
      if k' = k then some t else getFirstLoop k' items := by
  induction items with
  | nil => simp at h
  | cons it rest ih =>
    by_cases he : it.1 = k
    · simp only [findItem, he, ne_eq, not_true_eq_false, if_false, List.set_cons_zero, List.map_cons, true_and,
        getFirstLoop]
      intro k'
      by_cases hk : k' = k
      · simp [hk]
      · simp [hk, Ne.symm hk]
    · have hm : k ∈ rest.map (·.1) := by
        simp only [List.map_cons, List.mem_cons] at h
        rcases h with h | h
        · exact absurd h.symm he
        · exact h
      obtain ⟨h1, h2⟩ := ih hm
      simp only [findItem, he, ne_eq, not_false_eq_true, if_true, List.set_cons_succ, List.map_cons, h1, true_and,
        getFirstLoop]
      intro k'
      by_cases hk : it.1 = k'
      · have : k' ≠ k := fun e => he (hk.trans e)
        simp [hk, this]
      · simp [hk, h2]

theorem append_getFirst (k : Nat) (t : Text) (items : List (Nat × Text)) (k' : Nat) :
    getFirstLoop k' (items ++ [(k, t)]) =
      match getFirstLoop k' items with | some x => some x | none => if k = k' then some t else none := by
  induction items with
  | nil => simp [getFirstLoop]
  | cons it rest ih =>
    by_cases h : it.1 = k'
    · simp [getFirstLoop, h]
    · simp only [List.cons_append, getFirstLoop, h, if_false, ih]

theorem getFirst_none (items : List (Nat × Text)) (k : Nat) :
    getFirstLoop k items = none ↔ k ∉ items.map (·.1) := by
  induction items with
  | nil => simp [getFirstLoop]
  | cons it rest ih =>
    by_cases h : it.1 = k
    · simp [getFirstLoop, h]
    · have h' : k ≠ it.1 := fun e => h e.symm
      simp only [getFirstLoop, h, if_false, ih, List.map_cons, List.mem_cons, h', false_or]

/-- The stored form of a value: its text, and its size with terminator as an `int16_t`. -/
def stored (value : CStr) : Text := ⟨toInt16 (value.length + 1), value⟩

/-- What a value array holds for a history. -/
structure Holds (v : Values) (hist : List (Int × CStr)) : Prop where
  keys : v.items.map (·.1) = firstKeys hist
  vals : ∀ k, getFirst v k = (lastFor hist k).map stored

theorem holds_add {v : Values} {hist : List (Int × CStr)} (h : Holds v hist) (hlt : v.items.length < v.capacity)
    (a : Int × CStr) : Holds (add v a.1 a.2).1 (hist ++ [a]) ∧ (add v a.1 a.2).1.capacity = v.capacity := by
  by_cases ha : a.1 ≥ 0
  · have hk : ∀ k : Nat, a.1 = (k : Int) ↔ a.1.toNat = k := by intro k; omega
    simp only [add, ha, hlt, and_self, if_true]
    by_cases hm : a.1.toNat ∈ v.items.map (·.1)
    · have hne : ¬ findItem a.1.toNat v.items = v.items.length := by
        rw [findItem_eq_length]; exact not_not.mpr hm
      obtain ⟨h1, h2⟩ := set_spec a.1.toNat (stored a.2) v.items hm
      rw [if_neg hne]
      refine ⟨⟨?_, ?_⟩, rfl⟩
      · rw [firstKeys_snoc, ← h.keys]
        simpa [hm] using h1
      · intro k
        have hv := h.vals k
        simp only [getFirst] at hv ⊢
        have h2' := h2 k
        simp only [stored] at h2' ⊢
        rw [h2', hv, lastFor_snoc]
        by_cases he : a.1.toNat = k
        · simp [hk, he, stored]
        · simp [hk, he, Ne.symm he, stored]
    · have he : findItem a.1.toNat v.items = v.items.length := (findItem_eq_length _ _).mpr hm
      rw [if_pos he]
      refine ⟨⟨?_, ?_⟩, rfl⟩
      · rw [firstKeys_snoc, ← h.keys]
        simp only [ha, hm, not_false_eq_true, and_self, if_true, List.map_append, List.map_cons, List.map_nil]
      · intro k
        have hv := h.vals k
        simp only [getFirst] at hv ⊢
        rw [append_getFirst, lastFor_snoc]
        by_cases hc : a.1.toNat = k
        · have : getFirstLoop k v.items = none := (getFirst_none _ _).mpr (hc ▸ hm)
          simp [hk, hc, this, stored]
        · rw [hv]
          simp only [hk, hc, if_false]
          cases lastFor hist k <;> rfl
  · have hneg : ∀ k : Nat, ¬ a.1 = (k : Int) := by intro k; omega
    simp only [add, ha, false_and, if_false]
    refine ⟨⟨?_, ?_⟩, trivial⟩
    · rw [firstKeys_snoc]; simp [ha, h.keys]
    · intro k; rw [lastFor_snoc, h.vals k]; simp [hneg]

theorem add_full {v : Values} (hge : ¬ v.items.length < v.capacity) (a : Int × CStr) : (add v a.1 a.2).1 = v := by
  simp [add, hge]

/-- C25: after any history the array holds exactly the effect of its additions up to the one that filled
it: one value per property, the last one added, in order of first addition. Missing from the property:
once the array is full a later value for a property already held is dropped (`C25_violated`). -/
theorem C25_history_partial (capacity : Nat) (hist : List (Int × CStr)) :
    ∃ n ≤ hist.length, Holds (addAll (valuesCreate capacity) hist) (hist.take n) ∧
      (addAll (valuesCreate capacity) hist).items.length ≤ capacity ∧
      (n < hist.length → (addAll (valuesCreate capacity) hist).items.length = capacity) ∧
      (∀ m < n, (firstKeys (hist.take m)).length < capacity) ∧
      (addAll (valuesCreate capacity) hist).capacity = capacity := by
  induction hist using List.reverseRecOn with
  | nil =>
    exact ⟨0, by simp, ⟨by simp [addAll, valuesCreate, firstKeys], by intro k; rfl⟩, by simp [addAll, valuesCreate],
      by simp, by simp, rfl⟩
  | append_singleton l a ih =>
    obtain ⟨n, hn, hh, hcap, hfull, hmin, hc⟩ := ih
    rw [addAll_snoc]
    by_cases hlt : (addAll (valuesCreate capacity) l).items.length < (addAll (valuesCreate capacity) l).capacity
    · have hnl : n = l.length := by
        by_contra hne
        have := hfull (by omega)
        omega
      subst hnl
      rw [List.take_length] at hh
      obtain ⟨h1, h2⟩ := holds_add hh hlt a
      refine ⟨(l ++ [a]).length, Nat.le_refl _, ?_, ?_, by simp, ?_, h2.trans hc⟩
      · rw [List.take_length]; exact h1
      · have hk := congrArg List.length h1.keys
        have hk0 := congrArg List.length hh.keys
        rw [firstKeys_snoc] at hk
        simp only [List.length_map] at hk hk0
        have : (firstKeys l).length < capacity := by omega
        split at hk <;> (try simp at hk) <;> omega
      · intro m hm
        simp only [List.length_append, List.length_singleton] at hm
        by_cases hml : m < l.length
        · rw [List.take_append_of_le_length (by omega)]; exact hmin m hml
        · have : m = l.length := by omega
          subst this
          rw [List.take_append_of_le_length (by omega), List.take_length]
          have hk0 := congrArg List.length hh.keys
          simp only [List.length_map] at hk0
          omega
    · rw [add_full hlt]
      refine ⟨n, by simp; omega, ?_, hcap, fun _ => by omega, ?_, hc⟩
      · rw [List.take_append_of_le_length hn]; exact hh
      · intro m hm
        rw [List.take_append_of_le_length (by omega)]; exact hmin m hm

/-- C25: with room for one more property than the history names, the array is exactly the bounded map: one value per property, the
last one added, in order of first addition. Missing: arrays without that room, see `C25_violated`. -/
theorem C25_map_partial (capacity : Nat) (hist : List (Int × CStr)) (h : (firstKeys hist).length < capacity) :
    (addAll (valuesCreate capacity) hist).items.map (·.1) = firstKeys hist ∧
    ∀ k, getFirst (addAll (valuesCreate capacity) hist) k = (lastFor hist k).map stored := by
  obtain ⟨n, hn, hh, -, hfull, hmin, -⟩ := C25_history_partial capacity hist
  by_cases hl : n < hist.length
  · exfalso
    have := hfull hl
    have hk := congrArg List.length hh.keys
    simp only [List.length_map] at hk
    have mono : ∀ (l m : List (Int × CStr)), (firstKeys l).length ≤ (firstKeys (l ++ m)).length := by
      intro l m
      induction m using List.reverseRecOn with
      | nil => simp
      | append_singleton m b ihm =>
        rw [← List.append_assoc, firstKeys_snoc]
        split <;> (try simp) <;> omega
    have := mono (hist.take n) (hist.drop n)
    rw [List.take_append_drop] at this
    omega
  · have : n = hist.length := by omega
    subst this
    rw [List.take_length] at hh
    exact ⟨hh.keys, hh.vals⟩

/-- C25 fails in a full array: the second value for property 0 is dropped. -/
theorem C25_violated :
    lastFor [(0, c!"a"), (0, c!"b")] 0 = some c!"b" ∧
    getFirst (addAll (valuesCreate 1) [(0, c!"a"), (0, c!"b")]) 0 = some (stored c!"a") := by decide

/-- C25: a value shorter than 32767 characters is stored with its text and its true size. Missing: longer values, see
`C25_size_violated`. -/
theorem C25_size_partial (value : CStr) (h : value.length < 32767) :
    (stored value).value = value ∧ (stored value).size = value.length + 1 := by
  refine ⟨rfl, ?_⟩
  simp only [stored, toInt16]
  rw [Nat.mod_eq_of_lt (by omega), if_pos (by omega)]; simp

/-- C25 fails for a longer value: the size stored with it is negative. -/
theorem C25_size_violated (value : CStr) (h : value.length = 32767) : (stored value).size = -32768 := by
  simp [stored, toInt16, h]

example : (stored c!"Mobile").size = 7 := by decide
example : (List.replicate 32767 (65 : UInt8)).length = 32767 := List.length_replicate

/-- C25: reading says a value is present exactly when there is one to get. -/
theorem C25_hasValue (v : Values) (k : Nat) : hasValue v k = (getFirst v k).isSome := by
  unfold hasValue getFirst
  induction v.items with
  | nil => rfl
  | cons it rest ih => by_cases h : it.1 = k <;> simp [hasValueLoop, getFirstLoop, h, ih]

theorem valuesAdd_absent (k cap : Nat) (items : List (Nat × Text)) (list : List Text)
    (h : k ∉ items.map (·.1)) : valuesAdd k cap items list = (list, 0) := by
  induction items with
  | nil => rfl
  | cons it rest ih =>
    simp only [List.map_cons, List.mem_cons, not_or] at h
    by_cases hl : list.length < cap
    · simp [valuesAdd, hl, Ne.symm h.1, ih h.2]
    · simp [valuesAdd, hl]

/-- C25: adding a property's overrides to a list with room adds the value that `getFirst` reads, once. -/
theorem C25_valuesAdd (capacity : Nat) (hist : List (Int × CStr)) (k cap : Nat) (list : List Text)
    (hroom : list.length < cap) :
    let v := addAll (valuesCreate capacity) hist
    valuesAdd k cap v.items list =
      match getFirst v k with | some t => (list ++ [t], 1) | none => (list, 0) := by
  intro v
  obtain ⟨n, -, hh, -⟩ := C25_history_partial capacity hist
  have hnd : (v.items.map (·.1)).Nodup := by
    rw [hh.keys]
    generalize hist.take n = l
    induction l with
    | nil => simp [firstKeys]
    | cons a l ih =>
      simp only [firstKeys]
      split
      · refine List.nodup_cons.mpr ⟨by simp, ih.filter _⟩
      · exact ih
  clear_value v
  unfold getFirst
  generalize v.items = items at *
  induction items with
  | nil => rfl
  | cons it rest ih =>
    simp only [List.map_cons, List.nodup_cons] at hnd
    by_cases h : it.1 = k
    · subst h
      simp [valuesAdd, hroom, getFirstLoop, valuesAdd_absent _ _ _ _ hnd.1]
    · simp only [valuesAdd, hroom, if_true, h, if_false, getFirstLoop]
      exact ih hnd.2

/-- C25: resetting leaves an empty map. -/
theorem C25_reset (v : Values) (k : Nat) : getFirst (reset v) k = none ∧ hasValue (reset v) k = false ∧
    (reset v).items.length = 0 := ⟨rfl, rfl, rfl⟩

theorem offer_add (p : Props) (ps : List Pair) (v : Values) :
    (offer (addOverrideToResults p) ps v).1 =
      addAll v (ps.map fun q => (requiredPropertyIndexFromName p q.field, q.parsed.getD [])) := by
  have stop : ∀ (l : List (Int × CStr)) (v : Values), ¬ v.items.length < v.capacity → addAll v l = v := by
    intro l
    induction l with
    | nil => intros; rfl
    | cons a l ih => intro v hv; rw [addAll, add_full hv]; exact ih v hv
  induction ps generalizing v with
  | nil => rfl
  | cons q ps ih =>
    simp only [offer, List.map_cons, addAll]
    by_cases hk : (addOverrideToResults p v q).2 = true
    · rw [if_pos hk]; exact ih _
    · rw [if_neg hk]
      have : ¬ (addOverrideToResults p v q).1.items.length < (addOverrideToResults p v q).1.capacity := by
        simpa [addOverrideToResults, add] using hk
      exact (stop _ _ this).symm

/-- A pair from the query string or a cookie (evidence.h:144-145). -/
def fromClient (p : Pair) : Bool := p.pfx == 8 || p.pfx == 16

/-- The prefixes there are (evidence.h:133-148). -/
def prefixValues : List Nat := [1, 2, 4, 8, 16, 128]

theorem filter_wanted {ps : List Pair} (h : ∀ p ∈ ps, p.pfx ∈ prefixValues) :
    ps.filter (wanted COOKIE_OR_QUERY) = ps.filter fromClient := by
  apply List.filter_congr
  intro p hp
  have := h p hp
  simp only [prefixValues, List.mem_cons, List.not_mem_nil, or_false] at this
  rcases this with h | h | h | h | h | h <;> simp [wanted, fromClient, COOKIE_OR_QUERY, h]

/-- C25: extracting from evidence has the effect of adding, in evidence order, the value of every cookie and
query pair to the property its field names; with no overridable properties nothing happens. -/
theorem C25_extract (p : Props) (v : Values) (e : Arr) (he : ∀ q ∈ e.items ++ e.pseudo.getD [], q.pfx ∈ prefixValues) :
    (extractFromEvidence (some p) v e).1 = addAll v
      ((((e.items ++ e.pseudo.getD []).filter fromClient).map seen).map
        fun q => (requiredPropertyIndexFromName p q.field, q.parsed.getD [])) ∧
    extractFromEvidence none v e = (v, 0) := by
  refine ⟨?_, rfl⟩
  rw [← filter_wanted he]
  simp only [extractFromEvidence, (C19_iterate e COOKIE_OR_QUERY (addOverrideToResults p) v).1, offer_add]

example : (addAll (valuesCreate 3) [(4, c!"a"), (-1, c!"x"), (2, c!"b"), (4, c!"c")]).items =
    [(4, ⟨2, c!"c"⟩), (2, ⟨2, c!"b"⟩)] := by decide
example : firstKeys [(4, c!"a"), (-1, c!"x"), (2, c!"b"), (4, c!"c")] = [4, 2] := by decide
example : (extractFromEvidence (some ⟨true, [(3, c!"Is")]⟩) (valuesCreate 2)
    ⟨4, [⟨1, c!"Is", some c!"no", none⟩, ⟨8, c!"51d_is", some c!"yes", none⟩], none⟩).1.items =
    [(3, ⟨4, c!"yes"⟩)] := by decide

/-! ## C46: names of overrides -/

theorem compareLength_zero {a b : List UInt8} {n : Nat} (ha : n ≤ a.length) (hb : n ≤ b.length) :
    Str.compareLength a b n = some 0 ↔ fold (a.take n) = fold (b.take n) := by
  obtain ⟨d, h1, h2⟩ := Str.C16_compareLength_zero_iff a b n ha hb
  rw [h1, ← h2]; simp

theorem skipPrefix_long (name : CStr) (field : CStr) (h4 : field.length = 4) (hf : fold field = fold OVERRIDE_PREFIX)
    (h : 2 ≤ name.length) : skipPrefix true (field ++ name) = name := by
  have hc : Str.compareLength (field ++ name ++ [0]) (OVERRIDE_PREFIX ++ [0]) 4 = some 0 := by
    rw [compareLength_zero]
    · rw [List.append_assoc, List.take_append_of_le_length (by omega), List.take_of_length_le (by omega),
        List.take_append_of_le_length (by decide), List.take_of_length_le (by decide)]
      exact hf
    · simp; omega
    · decide
  rw [skipPrefix, if_pos ⟨rfl, by simp; omega, hc⟩, List.drop_append_of_le_length (by omega),
    List.drop_of_length_le (by omega), List.nil_append]

theorem skipPrefix_other (field : CStr) (h : fold (field.take 4) ≠ fold OVERRIDE_PREFIX) (pre : Bool) :
    skipPrefix pre field = field := by
  unfold skipPrefix
  rw [if_neg]
  rintro ⟨-, hl, hc⟩
  rw [compareLength_zero] at hc
  · rw [List.take_append_of_le_length (by omega), List.take_append_of_le_length (by decide),
      List.take_of_length_le (l := OVERRIDE_PREFIX) (by decide)] at hc
    exact h hc
  · simp; omega
  · decide

theorem indexLoop_spec (name : CStr) (items : List (Nat × CStr)) :
    indexLoop name items =
      match items.find? fun p => fold p.2 = fold name with | some p => (p.1 : Int) | none => -1 := by
  induction items with
  | nil => rfl
  | cons p rest ih =>
    by_cases h : fold p.2 = fold name
    · have := (Str.C16_compare_zero_iff p.2 name).mpr h
      simp [indexLoop, this, h]
    · have : ¬ Str.compare p.2 name = 0 := fun e => h ((Str.C16_compare_zero_iff _ _).mp e)
      simp only [indexLoop, this, if_false, ih, List.find?_cons, h, decide_false]

/-- The property an override name stands for: the first whose name it is, ignoring case; -1 if none. -/
def named (items : List (Nat × CStr)) (name : CStr) : Int :=
  match items.find? fun p => fold p.2 = fold name with | some p => (p.1 : Int) | none => -1

/-- C46: a field that does not start with the prefix names the property with that name in any case. -/
theorem C46_plain (p : Props) (field : CStr) (h : fold (field.take 4) ≠ fold c!"51D_") :
    requiredPropertyIndexFromName p field = named p.items field := by
  have h : fold (field.take 4) ≠ fold OVERRIDE_PREFIX := h
  rw [requiredPropertyIndexFromName, skipPrefix_other field h, indexLoop_spec]; rfl

/-- C46: without prefixing every field is taken as it is. -/
theorem C46_unprefixed (items : List (Nat × CStr)) (field : CStr) :
    requiredPropertyIndexFromName ⟨false, items⟩ field = named items field := by
  rw [requiredPropertyIndexFromName, show skipPrefix false field = field by simp [skipPrefix], indexLoop_spec]; rfl

/-- C46: with prefixing, the prefix (in any case) before a name of at least two characters is ignored.
Missing: names of one character (`C46_violated`). -/
theorem C46_prefixed_partial (items : List (Nat × CStr)) (pre name : CStr) (hp : fold pre = fold c!"51D_")
    (h : 2 ≤ name.length) :
    requiredPropertyIndexFromName ⟨true, items⟩ (pre ++ name) = named items name := by
  have hp : fold pre = fold OVERRIDE_PREFIX := hp
  have h4 : pre.length = 4 := by simpa [fold, OVERRIDE_PREFIX] using congrArg List.length hp
  rw [requiredPropertyIndexFromName, skipPrefix_long name pre h4 hp h, indexLoop_spec]; rfl

/-- C46 fails for a name of one character: the prefix is not removed. -/
theorem C46_violated : requiredPropertyIndexFromName ⟨true, [(0, c!"X")]⟩ (c!"51D_" ++ c!"X") = -1 ∧
    named [(0, c!"X")] c!"X" = 0 := by decide

theorem addOverridable_eq (filter : Nat → Bool) (i : Nat) (names : List CStr) (q : Nat × CStr) :
    q ∈ addOverridable filter i names ↔ ∃ j, q.1 = i + j ∧ names[j]? = some q.2 ∧ filter q.1 = true := by
  induction names generalizing i with
  | nil => simp [addOverridable]
  | cons n names ih =>
    simp only [addOverridable, List.mem_append, ih]
    constructor
    · rintro (h | ⟨j, h1, h2, h3⟩)
      · by_cases hf : filter i = true
        · simp [hf] at h; subst h; exact ⟨0, by simp, by simp, hf⟩
        · simp [hf] at h
      · exact ⟨j + 1, by omega, by simpa using h2, h3⟩
    · rintro ⟨j, h1, h2, h3⟩
      cases j with
      | zero =>
        left
        simp only [Nat.add_zero] at h1
        simp only [List.getElem?_cons_zero, Option.some.injEq] at h2
        obtain ⟨q1, q2⟩ := q
        simp only at h1 h2 h3
        subst h1; subst h2
        simp [h3]
      | succ j => right; exact ⟨j, by omega, by simpa using h2, h3⟩

theorem addOverridable_length (filter : Nat → Bool) (i : Nat) (names : List CStr) :
    (addOverridable filter i names).length = countOverridable filter i names := by
  induction names generalizing i with
  | nil => rfl
  | cons n names ih => by_cases h : filter i = true <;> simp [addOverridable, countOverridable, h, ih]; omega

/-- C46: the overridable properties are exactly the available ones passing the filter, with their indexes and
names, no more than were counted for the array, and there is no array only when there are none. Whether names need the prefix
is as the caller says. -/
theorem C46_overridable (names : List CStr) (pre : Bool) (filter : Nat → Bool) :
    (∀ p, propertiesCreate names pre filter = some p →
      p.pre = pre ∧ p.items.length = countOverridable filter 0 names ∧
      ∀ i name, (i, name) ∈ p.items ↔ names[i]? = some name ∧ filter i = true) ∧
    (propertiesCreate names pre filter = none ↔ ∀ i < names.length, filter i = false) := by
  have key : ∀ i name, (i, name) ∈ addOverridable filter 0 names ↔ names[i]? = some name ∧ filter i = true := by
    intro i name
    rw [addOverridable_eq]
    constructor
    · rintro ⟨j, h1, h2, h3⟩
      simp only [Nat.zero_add] at h1
      subst h1
      exact ⟨h2, h3⟩
    · rintro ⟨h1, h2⟩
      exact ⟨i, by simp, h1, h2⟩
  refine ⟨?_, ?_⟩
  · intro p hp
    simp only [propertiesCreate] at hp
    split at hp
    · simp only [Option.some.injEq] at hp
      subst hp
      exact ⟨rfl, addOverridable_length _ _ _, key⟩
    · simp at hp
  · simp only [propertiesCreate]
    have hl := addOverridable_length filter 0 names
    split
    · rename_i hc
      simp only [reduceCtorEq, false_iff, not_forall]
      rw [← hl] at hc
      obtain ⟨q, hq⟩ := List.exists_mem_of_length_pos hc
      obtain ⟨i, name⟩ := q
      obtain ⟨h1, h2⟩ := (key i name).mp hq
      obtain ⟨h3, -⟩ := List.getElem?_eq_some_iff.mp h1
      exact ⟨i, h3, by simp [h2]⟩
    · rename_i hc
      simp only [true_iff]
      intro i hi
      by_contra hf
      have : (i, names[i]) ∈ addOverridable filter 0 names := (key _ _).mpr ⟨by simp [hi], by simpa using hf⟩
      have := List.length_pos_of_mem this
      omega

example : requiredPropertyIndexFromName ⟨true, [(5, c!"IsMobile"), (7, c!"Id")]⟩ c!"51d_ID" = 7 := by decide
example : propertiesCreate [c!"A", c!"B", c!"C"] true (fun i => i ≠ 1) = some ⟨true, [(0, c!"A"), (2, c!"C")]⟩ := by
  decide

/-! ## C47: overriding properties -/

theorem startsWithLoop_spec (a b r r' : List UInt8) (h : b.length ≤ a.length) :
    startsWithLoop b.length (a ++ r) (b ++ r') = some (decide (b <+: a)) := by
  induction b generalizing a with
  | nil => simp [startsWithLoop]
  | cons y b ih =>
    cases a with
    | nil => simp at h
    | cons x a =>
      by_cases hxy : x = y
      · subst hxy
        simp only [List.cons_append, List.length_cons, startsWithLoop, ne_eq, not_true_eq_false, if_false,
          ih a (by simpa using h), List.cons_prefix_cons, true_and]
      · simp [startsWithLoop, hxy, List.cons_prefix_cons, Ne.symm hxy]

theorem startsWith_spec (s p : CStr) : startsWith s p = some (decide (p <+: s ∧ p ≠ s)) := by
  unfold startsWith
  split
  · rw [Nat.add_sub_cancel, startsWithLoop_spec _ _ _ _ (by omega)]
    have hne : p ≠ s := by rintro rfl; omega
    simp [hne]
  · rename_i h
    simp only [Option.some.injEq]
    symm
    rw [decide_eq_false_iff_not]
    rintro ⟨h1, h2⟩
    have := h1.length_le
    exact h2 (h1.eq_of_length (by omega))

theorem overridingLoop_spec (idx : Nat) (name : CStr) (l : List CStr) (i : Nat)
    (hc : ∀ j, i + j = idx → ∀ c, l[j]? = some c → c = name) :
    overridingLoop idx name i l =
      some (match l.findIdx? fun c => decide (name <+: c ∧ name ≠ c) with
        | some j => ((i + j : Nat) : Int) | none => -1) := by
  induction l generalizing i with
  | nil => rfl
  | cons c l ih =>
    have ih' := ih (i + 1) (fun j hj c' hc' => hc (j + 1) (by omega) c' (by simpa using hc'))
    rw [List.findIdx?_cons]
    by_cases hi : i = idx
    · have hcn : c = name := hc 0 (by omega) c (by simp)
      subst hcn
      subst hi
      simp only [overridingLoop, ne_eq, not_true_eq_false, if_false, and_false, decide_false, ih',
        Bool.false_eq_true, Option.some.injEq]
      cases l.findIdx? fun c' => decide (c <+: c' ∧ ¬ c = c') with
      | none => rfl
      | some j => simp; ring
    · simp only [overridingLoop, ne_eq, hi, not_false_eq_true, if_true, startsWith_spec]
      by_cases hp : name <+: c ∧ name ≠ c
      · simp [hp]
      · simp only [ne_eq] at hp
        simp only [hp, decide_false, ih', Bool.false_eq_true, if_false, ne_eq]
        cases l.findIdx? fun c' => decide (name <+: c' ∧ ¬ name = c') with
        | none => rfl
        | some j => simp; ring

/-- C47: the overriding property of an available property is the first one whose name strictly extends its
name (same case), -1 when there is none; the names are read within their bounds. -/
theorem C47_overriding (names : List CStr) (idx : Nat) (name : CStr) (h : names[idx]? = some name) :
    ∃ r, getOverriding names idx = some r ∧
      ((r = -1 ∧ ∀ (i : Nat) (c : CStr), names[i]? = some c → ¬ (name <+: c ∧ name ≠ c)) ∨
       ∃ (i : Nat) (c : CStr), r = (i : Int) ∧ names[i]? = some c ∧ name <+: c ∧ name ≠ c ∧
         ∀ (j : Nat) (c' : CStr), j < i → names[j]? = some c' → ¬ (name <+: c' ∧ name ≠ c')) := by
  have hs := overridingLoop_spec idx name names 0 (by
    intro j hj c hc
    have : j = idx := by omega
    subst this
    exact Option.some.inj (hc.symm.trans h))
  refine ⟨_, by simp only [getOverriding, h]; exact hs, ?_⟩
  rcases hf : names.findIdx? (fun c => decide (name <+: c ∧ name ≠ c)) with _ | i
  · left
    refine ⟨rfl, ?_⟩
    intro i c hc hp
    rw [List.findIdx?_eq_none_iff] at hf
    have := hf c (List.mem_of_getElem? hc)
    simp [hp] at this
  · right
    rw [List.findIdx?_eq_some_iff_getElem] at hf
    obtain ⟨hi, hp, hmin⟩ := hf
    simp only [decide_eq_true_eq] at hp
    refine ⟨i, names[i], by simp, by simp [hi], hp.1, hp.2, ?_⟩
    intro j c' hj hc' hp'
    have := hmin j hj
    obtain ⟨hj', hc'⟩ := List.getElem?_eq_some_iff.mp hc'
    rw [hc'] at this
    simp [hp'] at this

example : getOverriding [c!"X", c!"AbcJavaScript", c!"Abc"] 2 = some 1 := by decide
example : getOverriding [c!"X", c!"AbcJavaScript", c!"Abc"] 0 = some (-1) := by decide

/-! ## C26: profile ids -/

/-- The number a text of digits denotes. -/
def decimal : CStr → Nat
  | [] => 0
  | d :: ds => (d.toNat - 48) * 10 ^ ds.length + decimal ds

/-- The ten digits. -/
def numeral (c : UInt8) : Bool := decide (c ∈ c!"0123456789")

/-- The text cut at every character that is not a digit. -/
def cut : CStr → List CStr
  | [] => [[]]
  | c :: cs =>
    if numeral c then
      match cut cs with
      | [] => [[c]]
      | w :: ws => (c :: w) :: ws
    else [] :: cut cs

/-- The ids a text lists: the numbers denoted by its maximal runs of digits, in order. -/
def idsOf (s : CStr) : List Nat := ((cut s).filter (· ≠ [])).map decimal

theorem isDigit_eq (c : UInt8) : isDigit c = numeral c := by
  have e : (c!"0123456789" : CStr) = (List.range 10).map fun k => UInt8.ofNat (48 + k) := by decide
  rw [numeral, e, Bool.eq_iff_iff]
  simp only [isDigit, Bool.and_eq_true, decide_eq_true_eq, List.mem_map, List.mem_range]
  constructor
  · rintro ⟨h1, h2⟩
    refine ⟨c.toNat - 48, by omega, ?_⟩
    rw [show 48 + (c.toNat - 48) = c.toNat by omega]; simp
  · rintro ⟨k, hk, rfl⟩
    simp only [UInt8.toNat_ofNat']
    omega

theorem cut_cons (c : UInt8) (cs : CStr) : cut (c :: cs) = if isDigit c then
    (match cut cs with | [] => [[c]] | w :: ws => (c :: w) :: ws) else [] :: cut cs := by
  rw [isDigit_eq]; rfl

theorem decimal_fold (ds : CStr) (n : Nat) :
    ds.foldl (fun n c => n * 10 + (c.toNat - 48)) n = n * 10 ^ ds.length + decimal ds := by
  induction ds generalizing n with
  | nil => simp [decimal]
  | cons d ds ih =>
    rw [List.foldl_cons, ih, decimal, List.length_cons, Nat.pow_succ]
    ring

theorem takeWhile_digits (w rest : CStr) (hw : ∀ c ∈ w, isDigit c = true)
    (hr : ∀ c, rest.head? = some c → isDigit c = false) : (w ++ rest).takeWhile isDigit = w := by
  induction w with
  | nil =>
    cases rest with
    | nil => rfl
    | cons c cs => simp [hr c rfl]
  | cons c w ih =>
    have hc := hw c (by simp)
    simp only [List.cons_append, List.takeWhile_cons, hc, if_true, ih fun d hd => hw d (by simp [hd])]

theorem extractProfileId_run (w rest : CStr) (hw : ∀ c ∈ w, isDigit c = true)
    (hr : ∀ c, rest.head? = some c → isDigit c = false) (ids : List Nat) :
    extractProfileId (w ++ rest) ids =
      if w = [] then some ids else if decimal w < 2147483648 then some (ids ++ [decimal w]) else none := by
  cases w with
  | nil =>
    cases rest with
    | nil => rfl
    | cons c cs => simp [extractProfileId, hr c rfl]
  | cons c w =>
    have hc := hw c (by simp)
    simp only [List.cons_append, extractProfileId, hc, if_true, reduceCtorEq, if_false, atoi]
    rw [← List.cons_append, takeWhile_digits _ _ hw hr, decimal_fold]
    simp only [Nat.zero_mul, Nat.zero_add]
    split <;> rfl

theorem cut_ne_nil (s : CStr) : cut s ≠ [] := by
  cases s with
  | nil => simp [cut]
  | cons c cs =>
    simp only [cut_cons]
    split
    · split <;> simp
    · simp

/-- Ids of a text whose first run continues the digits `w`. -/
def idsFrom (w : CStr) (s : CStr) : List Nat :=
  match cut s with
  | [] => []
  | x :: xs => (((w ++ x) :: xs).filter (· ≠ [])).map decimal

theorem extractLoop_spec (w cs : CStr) (hw : ∀ c ∈ w, isDigit c = true) (ids : List Nat) :
    extractLoop (w ++ cs) cs ids =
      if ∀ n ∈ idsFrom w cs, n < 2147483648 then some (ids ++ idsFrom w cs) else none := by
  induction cs generalizing w ids with
  | nil =>
    have := extractProfileId_run w [] hw (by simp) ids
    simp only [List.append_nil] at this ⊢
    simp only [extractLoop, this, idsFrom, cut, List.append_nil]
    cases w with
    | nil => simp
    | cons c w => simp
  | cons c cs ih =>
    by_cases hc : isDigit c = true
    · have e : w ++ c :: cs = (w ++ [c]) ++ cs := by simp
      simp only [extractLoop, hc, Bool.true_eq_false, if_false]
      rw [e, ih (w ++ [c]) (by intro d hd; simp at hd; rcases hd with hd | rfl; exact hw d hd; exact hc)]
      have : idsFrom (w ++ [c]) cs = idsFrom w (c :: cs) := by
        simp only [idsFrom, cut_cons, hc, if_true]
        rcases hcut : cut cs with _ | ⟨x, xs⟩
        · exact absurd hcut (cut_ne_nil _)
        · simp
      rw [this]
    · have hc' : isDigit c = false := by simpa using hc
      have h1 := extractProfileId_run w (c :: cs) hw (by simp [hc']) ids
      simp only [extractLoop, hc', if_true, h1]
      have h2 : idsFrom w (c :: cs) = (if w = [] then [] else [decimal w]) ++ idsFrom [] cs := by
        simp only [idsFrom, cut_cons, hc', Bool.false_eq_true, if_false, List.append_nil, List.nil_append]
        rcases hcut : cut cs with _ | ⟨x, xs⟩
        · exact absurd hcut (cut_ne_nil _)
        · by_cases hw0 : w = [] <;> simp [hw0]
      have ih' := fun ids => ih [] (by simp) ids
      simp only [List.nil_append] at ih'
      rw [h2]
      by_cases hw0 : w = []
      · simp [hw0, ih']
      · simp only [hw0, if_false]
        by_cases hd : decimal w < 2147483648
        · simp only [hd, if_true, Option.bind_some, ih', List.cons_append, List.nil_append, List.forall_mem_cons,
            true_and, List.append_assoc]
        · simp [hd]

theorem idsFrom_nil (s : CStr) : idsFrom [] s = idsOf s := by
  simp only [idsFrom, idsOf]
  rcases hcut : cut s with _ | ⟨x, xs⟩
  · exact absurd hcut (cut_ne_nil _)
  · rfl

/-- C26: the ids reported from one text are exactly the numbers it lists, in order, whenever each fits an
`int` (otherwise `atoi` is undefined). -/
theorem C26_text (s : CStr) (ids : List Nat) (h : ∀ n ∈ idsOf s, n < 2147483648) :
    extractLoop s s ids = some (ids ++ idsOf s) := by
  have := extractLoop_spec [] s (by simp) ids
  rw [idsFrom_nil, if_pos h] at this
  exact this

/-- C26: what a text lists, described without cutting: the text is its runs of digits (some may be empty)
with one other character between consecutive ones. -/
theorem C26_cut_spec (s : CStr) :
    (∀ w ∈ cut s, ∀ c ∈ w, numeral c = true) ∧
    ∃ seps : List UInt8, seps.length + 1 = (cut s).length ∧ (∀ c ∈ seps, numeral c = false) ∧
      s = (List.zipWith (fun w c => w ++ [c]) (cut s) seps).flatten ++ (cut s).getLastD [] := by
  induction s with
  | nil => exact ⟨by simp [cut], [], by simp [cut], by simp, by simp [cut]⟩
  | cons c cs ih =>
    obtain ⟨h1, seps, h2, h3, h4⟩ := ih
    by_cases hc : numeral c = true
    · rcases hcut : cut cs with _ | ⟨x, xs⟩
      · exact absurd hcut (cut_ne_nil _)
      · rw [hcut] at h1 h2 h4
        simp only [cut, hc, if_true, hcut]
        refine ⟨?_, seps, by simpa using h2, h3, ?_⟩
        · intro w hw d hd
          simp only [List.mem_cons] at hw
          rcases hw with rfl | hw
          · simp only [List.mem_cons] at hd
            rcases hd with rfl | hd
            · exact hc
            · exact h1 x (by simp) d hd
          · exact h1 w (by simp [hw]) d hd
        · cases seps with
          | nil =>
            have : xs = [] := by simpa using h2.symm
            subst this
            simpa using h4
          | cons d ds =>
            cases xs with
            | nil => simp at h2
            | cons y ys => simp at h4 ⊢; rw [h4]
    · have hc' : numeral c = false := by simpa using hc
      simp only [cut, hc', Bool.false_eq_true, if_false]
      refine ⟨?_, c :: seps, by simp; omega, ?_, ?_⟩
      · intro w hw d hd
        simp only [List.mem_cons] at hw
        rcases hw with rfl | hw
        · simp at hd
        · exact h1 w hw d hd
      · intro d hd
        simp only [List.mem_cons] at hd
        rcases hd with rfl | hd
        · exact hc'
        · exact h3 d hd
      · rcases hcut : cut cs with _ | ⟨x, xs⟩
        · exact absurd hcut (cut_ne_nil _)
        · rw [hcut] at h4
          simp at h4 ⊢
          exact h4

/-- Whether a pair carries profile ids. -/
def carries (p : Pair) : Bool :=
  fold p.field = fold c!"ProfileIds" || fold p.field = fold c!"51D_ProfileIds"

theorem skip_profile (f : CStr) :
    (Str.compare (skipPrefix true f) c!"ProfileIds" = 0) ↔
      (fold f = fold c!"ProfileIds" ∨ fold f = fold c!"51D_ProfileIds") := by
  rw [Str.C16_compare_zero_iff]
  by_cases hp : fold (f.take 4) = fold OVERRIDE_PREFIX
  · by_cases hl : f.length > 5
    · have e : f = f.take 4 ++ f.drop 4 := (List.take_append_drop 4 f).symm
      have hs : skipPrefix true f = f.drop 4 := by
        conv_lhs => rw [e]
        exact skipPrefix_long _ _ (by simp; omega) hp (by simp; omega)
      rw [hs]
      have hf : fold f = fold OVERRIDE_PREFIX ++ fold (f.drop 4) := by
        conv_lhs => rw [e]
        rw [← hp]; simp [fold]
      constructor
      · intro h; right; rw [hf, h]; decide
      · rintro (h | h)
        · rw [hf] at h
          have := congrArg (List.take 4) h
          rw [List.take_append_of_le_length (by decide)] at this
          exact absurd this (by decide)
        · rw [hf] at h
          have := congrArg (List.drop 4) h
          rw [List.drop_append_of_le_length (by decide)] at this
          have e1 : List.drop 4 (fold OVERRIDE_PREFIX) = [] := by decide
          have e2 : List.drop 4 (fold c!"51D_ProfileIds") = fold c!"ProfileIds" := by decide
          rw [e1, e2] at this
          simpa using this
    · have hs : skipPrefix true f = f := by
        unfold skipPrefix
        rw [if_neg]; rintro ⟨-, h, -⟩; exact hl h
      rw [hs]
      constructor
      · exact Or.inl
      · rintro (h | h)
        · exact h
        · have := congrArg List.length h
          simp [fold] at this
          omega
  · rw [skipPrefix_other f hp]
    constructor
    · exact Or.inl
    · rintro (h | h)
      · exact h
      · exfalso; apply hp
        have := congrArg (List.take 4) h
        have e2 : List.take 4 (fold c!"51D_ProfileIds") = fold OVERRIDE_PREFIX := by decide
        rw [e2] at this
        rw [← this]; simp [fold, List.map_take]

/-- C26: the ids reported for evidence are those listed by its cookie and query pairs named `ProfileIds`
(any case, prefix allowed), in evidence order, whenever each fits an `int`. -/
theorem C26_evidence (e : Arr) (he : ∀ q ∈ e.items ++ e.pseudo.getD [], q.pfx ∈ prefixValues)
    (h : ∀ p ∈ (e.items ++ e.pseudo.getD []), ∀ n ∈ idsOf ((seen p).parsed.getD []), n < 2147483648) :
    overrideProfileIds e = some (((((e.items ++ e.pseudo.getD []).filter fromClient).map seen).filter
      carries).flatMap fun p => idsOf (p.parsed.getD [])) := by
  rw [← filter_wanted he]
  rw [overrideProfileIds, (C19_iterate e COOKIE_OR_QUERY iteratorProfileId (some [])).1]
  have key : ∀ (ps : List Pair) (ids : List Nat), (∀ p ∈ ps, ∀ n ∈ idsOf (p.parsed.getD []), n < 2147483648) →
      (offer iteratorProfileId ps (some ids)).1 =
        some (ids ++ (ps.filter carries).flatMap fun p => idsOf (p.parsed.getD [])) := by
    intro ps
    induction ps with
    | nil => intro ids _; simp [offer]
    | cons p ps ih =>
      intro ids hps
      have hstep : (iteratorProfileId (some ids) p).2 = true := rfl
      simp only [offer, hstep, if_true]
      by_cases hc : carries p = true
      · have : Str.compare (skipPrefix true p.field) c!"ProfileIds" = 0 := by
          rw [skip_profile]; simpa [carries] using hc
        simp only [iteratorProfileId, this, if_true, Option.bind_some]
        rw [C26_text _ _ (hps p (by simp)), ih _ fun q hq => hps q (by simp [hq])]
        simp [hc]
      · have : ¬ Str.compare (skipPrefix true p.field) c!"ProfileIds" = 0 := by
          rw [skip_profile]; simpa [carries] using hc
        simp only [iteratorProfileId, this, if_false]
        rw [ih _ fun q hq => hps q (by simp [hq])]
        simp [hc]
  rw [key _ _ ?_, List.nil_append]
  intro p hp n hn
  simp only [List.mem_map, List.mem_filter] at hp
  obtain ⟨q, ⟨hq, -⟩, rfl⟩ := hp
  exact h q hq n hn

example : idsOf c!"12|x 034--" = [12, 34] := by decide
example : overrideProfileIds ⟨2, [⟨8, c!"51d_profileids", some c!"17-42", none⟩], none⟩ = some [17, 42] := by decide

end Verif.Overrides
