import Verif.Profile.Model
import Verif.Search.Props

/-! # C29, C30, C42, C49, C50: profiles, values and properties -/

namespace Verif.Profile

/-! ## Specification -/

/-- The values of a profile that belong to a property. -/
def inRange (q : Property) (vs : List Nat) : List Nat := vs.filter fun v => q.first ≤ v ∧ v ≤ q.last

/-- Passing values to a callback in order until it stops or a value cannot be fetched: the values passed, and
whether fetching failed. -/
def visit (get : Nat → Bool) (cb : List Nat → Bool) (seen : List Nat) : List Nat → List Nat × Bool
  | [] => (seen, false)
  | v :: vs =>
    if get v then if cb (seen ++ [v]) then visit get cb (seen ++ [v]) vs else (seen ++ [v], false)
    else (seen, true)

/-- The values of the profile are in ascending order, as in a data file. -/
def Ascending (vs : List Nat) : Prop := vs.Pairwise (· ≤ ·)

theorem Ascending.le {vs : List Nat} (h : Ascending vs) {i j a b : Nat} (hij : i ≤ j) (ha : vs[i]? = some a)
    (hb : vs[j]? = some b) : a ≤ b := by
  rcases Nat.lt_or_eq_of_le hij with hlt | rfl
  · obtain ⟨hi, rfl⟩ := List.getElem?_eq_some_iff.mp ha
    obtain ⟨hj, rfl⟩ := List.getElem?_eq_some_iff.mp hb
    exact List.pairwise_iff_getElem.mp h i j hi hj hlt
  · rw [ha] at hb; cases hb; exact Nat.le_refl _

theorem bsearch_spec (q : Property) (vs : List Nat) (hs : Ascending vs) : ∀ (n l u : Nat), u - l = n →
    u ≤ vs.length → (∀ i v, vs[i]? = some v → q.first ≤ v → v ≤ q.last → l ≤ i ∧ i < u) →
    match bsearch q vs l u with
    | some m => ∃ v, vs[m]? = some v ∧ q.first ≤ v ∧ v ≤ q.last
    | none => ∀ v ∈ vs, ¬(q.first ≤ v ∧ v ≤ q.last) := by
  intro n
  induction n using Nat.strongRecOn with
  | _ n ih =>
    intro l u hn hu hin
    rw [bsearch]
    by_cases h : l < u
    · simp only [h, dif_pos]
      have hm : (l + u) / 2 < vs.length := by omega
      have hget : vs[(l + u) / 2]? = some vs[(l + u) / 2] := List.getElem?_eq_getElem hm
      simp only [hget]
      generalize hv : vs[(l + u) / 2] = v at *
      have hm1 : l ≤ (l + u) / 2 := by omega
      have hm2 : (l + u) / 2 < u := by omega
      generalize (l + u) / 2 = m at *
      by_cases hlt : v < q.first
      · have hc : compareValue q v = 1 := by simp [compareValue, hlt]
        rw [hc]
        simp only [show ¬((1 : Int) < 0) by omega, if_false, show (1 : Int) > 0 by omega, if_true]
        refine ih (u - (m + 1)) (by omega) (m + 1) u rfl hu ?_
        intro i w hw h1 h2
        have := hin i w hw h1 h2
        refine ⟨?_, this.2⟩
        rcases Nat.lt_or_ge m i with h | h
        · exact h
        · have := hs.le h hw hget; omega
      · by_cases hgt : v > q.last
        · have hc : compareValue q v = -1 := by simp [compareValue, hlt, hgt]
          rw [hc]
          simp only [show ((-1 : Int) < 0) by omega, if_true]
          refine ih (m - l) (by omega) l m rfl (by omega) ?_
          intro i w hw h1 h2
          have := hin i w hw h1 h2
          refine ⟨this.1, ?_⟩
          rcases Nat.lt_or_ge i m with h | h
          · exact h
          · have := hs.le h hget hw; omega
        · have hc : compareValue q v = 0 := by simp [compareValue, hlt, hgt]
          rw [hc]
          simp only [show ¬((0 : Int) < 0) by omega, if_false, show ¬((0 : Int) > 0) by omega]
          exact ⟨v, hget, by omega, by omega⟩
    · simp only [h, dif_neg, not_false_eq_true]
      intro v hv hr
      obtain ⟨i, hi, rfl⟩ := List.mem_iff_getElem.mp hv
      have := hin i _ (List.getElem?_eq_getElem hi) hr.1 hr.2
      omega

theorem moveBack_spec (q : Property) (vs : List Nat) (hs : Ascending vs) : ∀ i, i ≤ vs.length →
    moveBack q vs i ≤ i ∧ (∀ k v, moveBack q vs i ≤ k → k < i → vs[k]? = some v → q.first ≤ v) ∧
      (∀ k v, k < moveBack q vs i → vs[k]? = some v → v < q.first) := by
  intro i
  induction i with
  | zero => intro _; simp [moveBack]
  | succ i ih =>
    intro hi
    simp only [moveBack]
    have hget : vs[i]? = some vs[i] := List.getElem?_eq_getElem (by omega)
    simp only [hget]
    by_cases h : vs[i] ≥ q.first
    · simp only [h, if_true]
      obtain ⟨h1, h2, h3⟩ := ih (by omega)
      refine ⟨by omega, ?_, h3⟩
      intro k v hk1 hk2 hv
      by_cases hki : k = i
      · subst hki; rw [hget] at hv; cases hv; exact h
      · exact h2 k v hk1 (by omega) hv
    · simp only [h, if_false]
      refine ⟨Nat.le_refl _, by omega, ?_⟩
      intro k v hk hv
      have := hs.le (Nat.lt_succ_iff.mp hk) hv hget
      omega

theorem moveBack_fixed (q : Property) (vs : List Nat) (j : Nat)
    (h : ∀ k v, k < j → vs[k]? = some v → v < q.first) : moveBack q vs j = j := by
  cases j with
  | zero => rfl
  | succ j =>
    simp only [moveBack]
    split
    · rename_i v hv
      have := h j v (by omega) hv
      rw [if_neg (by omega)]
    · rfl

/-- Splitting the values at the first one of the property. -/
theorem inRange_drop (q : Property) (vs : List Nat) (j : Nat) (h1 : ∀ k v, k < j → vs[k]? = some v → v < q.first)
    (h2 : ∀ k v, j ≤ k → vs[k]? = some v → q.first ≤ v) :
    inRange q vs = (vs.drop j).filter fun v => v ≤ q.last := by
  have hsplit : inRange q vs = (vs.take j).filter (fun v => decide (q.first ≤ v ∧ v ≤ q.last)) ++
      (vs.drop j).filter (fun v => decide (q.first ≤ v ∧ v ≤ q.last)) := by
    rw [← List.filter_append, List.take_append_drop]; rfl
  rw [hsplit]
  have : (vs.take j).filter (fun v => decide (q.first ≤ v ∧ v ≤ q.last)) = [] := by
    rw [List.filter_eq_nil_iff]
    intro v hv
    obtain ⟨k, hk, rfl⟩ := List.mem_iff_getElem.mp hv
    simp only [List.length_take] at hk
    have := h1 k _ (by omega) (List.getElem?_eq_getElem (by omega))
    simp only [List.getElem_take, decide_eq_true_eq]
    omega
  rw [this, List.nil_append]
  apply List.filter_congr
  intro v hv
  obtain ⟨k, hk, rfl⟩ := List.mem_iff_getElem.mp hv
  simp only [List.length_drop] at hk
  have := h2 (j + k) _ (by omega) (List.getElem?_eq_getElem (by omega))
  simp only [List.getElem_drop, decide_eq_decide]
  omega

theorem iterateLoop_spec (get : Nat → Bool) (cb : List Nat → Bool) (p : Profile) (q : Property)
    (hs : Ascending p.values) : ∀ (n i fuel : Nat) (seen : List Nat),
    p.values.length - i = n → i ≤ p.values.length → n < fuel → (p.after ≠ none ∨ ∃ v ∈ p.values.drop i, q.last < v) →
    iterateLoop get cb p q fuel i seen false =
      some (visit get cb seen ((p.values.drop i).filter fun v => v ≤ q.last)) := by
  have hread : ∀ i, i ≤ p.values.length → (p.after ≠ none ∨ ∃ v ∈ p.values.drop i, q.last < v) → ∃ v, p.read i = some v := by
    intro i hi hw
    simp only [Profile.read]
    by_cases h : i < p.values.length
    · simp [h]
    · have : i = p.values.length := by omega
      subst this
      rcases hw with hw | ⟨v, hw, -⟩
      · obtain ⟨w, hw⟩ := Option.ne_none_iff_exists'.mp hw
        simp [hw]
      · simp at hw
  have hnext : ∀ i, (hlt : i < p.values.length) → p.values[i] ≤ q.last → (p.after ≠ none ∨ ∃ v ∈ p.values.drop i, q.last < v) →
      (p.after ≠ none ∨ ∃ v ∈ p.values.drop (i + 1), q.last < v) := by
    rintro i hlt hle (hw | ⟨v, hw, hl⟩)
    · exact .inl hw
    · rw [List.drop_eq_getElem_cons hlt] at hw
      rcases List.mem_cons.1 hw with rfl | hw
      · omega
      · exact .inr ⟨v, hw, hl⟩
  intro n
  induction n with
  | zero =>
    intro i fuel seen hn hi hf hw
    obtain ⟨fuel, rfl⟩ : ∃ k, fuel = k + 1 := ⟨fuel - 1, by omega⟩
    have he : i = p.values.length := by omega
    obtain ⟨v, hv⟩ := hread i hi hw
    simp only [iterateLoop, hv, Option.bind_eq_bind, Option.bind_some]
    rw [if_neg (by omega)]
    rw [he, List.drop_length]
    rfl
  | succ n ih =>
    intro i fuel seen hn hi hf hw
    obtain ⟨fuel, rfl⟩ : ∃ k, fuel = k + 1 := ⟨fuel - 1, by omega⟩
    have hlt : i < p.values.length := by omega
    have hv : p.read i = some p.values[i] := by simp [Profile.read, hlt]
    simp only [iterateLoop, hv, Option.bind_eq_bind, Option.bind_some]
    rw [List.drop_eq_getElem_cons hlt]
    by_cases hle : p.values[i] ≤ q.last
    · rw [if_pos ⟨hle, hlt, trivial⟩, List.filter_cons_of_pos (by simpa using hle)]
      by_cases hg : get p.values[i] = true
      · simp only [hg, if_true, visit]
        by_cases hc : cb (seen ++ [p.values[i]]) = true
        · simp only [hc, if_true]
          exact ih (i + 1) fuel _ (by omega) (by omega) (by omega) (hnext i hlt hle hw)
        · simp only [hc, if_false, Bool.false_eq_true]
      · simp only [hg, if_false, visit, Bool.false_eq_true]
        obtain ⟨fuel, rfl⟩ : ∃ k, fuel = k + 1 := ⟨fuel - 1, by omega⟩
        obtain ⟨v, hv⟩ := hread (i + 1) (by omega) (hnext i hlt hle hw)
        simp only [iterateLoop, hv, Option.bind_eq_bind, Option.bind_some]
        rw [if_neg (by simp)]
    · rw [if_neg (by omega)]
      have : (p.values[i] :: p.values.drop (i + 1)).filter (fun v => decide (v ≤ q.last)) = [] := by
        rw [List.filter_eq_nil_iff]
        intro v hv
        rw [← List.drop_eq_getElem_cons hlt] at hv
        obtain ⟨k, hk, rfl⟩ := List.mem_iff_getElem.mp hv
        simp only [List.length_drop] at hk
        have := hs.le (Nat.le_add_right i k) (List.getElem?_eq_getElem hlt) (List.getElem?_eq_getElem (by omega))
        simp only [List.getElem_drop, decide_eq_true_eq]
        omega
      rw [this]
      rfl

/-- The first value of a profile for a property. -/
theorem firstValue_spec (p : Profile) (q : Property) (hs : Ascending p.values) :
    match firstValue p q with
    | none => inRange q p.values = []
    | some j => j < p.values.length ∧ (∀ k v, k < j → p.values[k]? = some v → v < q.first) ∧
        (∀ k v, j ≤ k → p.values[k]? = some v → q.first ≤ v) := by
  have hb := bsearch_spec q p.values hs _ 0 p.values.length rfl (Nat.le_refl _) (by
    intro i v hv _ _
    exact ⟨by omega, (List.getElem?_eq_some_iff.mp hv).1⟩)
  unfold firstValue
  cases hbs : bsearch q p.values 0 p.values.length with
  | none =>
    simp only [hbs] at hb
    simp only [Option.map_none, inRange, List.filter_eq_nil_iff]
    intro v hv
    simpa using hb v hv
  | some m =>
    simp only [hbs] at hb
    simp only [Option.map_some]
    obtain ⟨v, hv, h1, h2⟩ := hb
    have hm := (List.getElem?_eq_some_iff.mp hv).1
    obtain ⟨a1, a2, a3⟩ := moveBack_spec q p.values hs m (by omega)
    refine ⟨by omega, a3, ?_⟩
    intro k w hk hw
    rcases Nat.lt_or_ge k m with h | h
    · exact a2 k w hk h hw
    · have := hs.le h hv hw; omega

/-- C29: iterating the values of a profile for a property passes to the callback exactly the profile's values in
the property's range, in order, until the callback stops or a value cannot be fetched; the count is theirs. Missing: when the
last value of the profile belongs to the property and no word can be read after it, see `C29_overrun_violated`. -/
theorem C29_values_partial (get : Nat → Bool) (cb : List Nat → Bool) (p : Profile) (q : Property)
    (hs : Ascending p.values) (hw : p.after ≠ none ∨ (∃ v ∈ p.values, q.last < v) ∨ inRange q p.values = []) :
    iterateForProperty get cb p q = some (visit get cb [] (inRange q p.values)) := by
  have hf := firstValue_spec p q hs
  unfold iterateForProperty
  cases h : firstValue p q with
  | none =>
    simp only [h] at hf
    rw [hf]; rfl
  | some j =>
    simp only [h] at hf
    obtain ⟨h1, h2, h3⟩ := hf
    simp only [iterateValues, moveBack_fixed q p.values j h2]
    have hw' : p.after ≠ none ∨ ∃ v ∈ p.values.drop j, q.last < v := by
      have later : ∀ v, v ∈ p.values → q.last < v → v ∈ p.values.drop j ∨ v < q.first := by
        intro v hv _
        obtain ⟨k, hk, rfl⟩ := List.mem_iff_getElem.mp hv
        rcases Nat.lt_or_ge k j with hkj | hkj
        · exact .inr (h2 k _ hkj (List.getElem?_eq_getElem hk))
        · exact .inl (List.mem_iff_getElem.mpr ⟨k - j, by simp; omega, by simp [Nat.add_sub_cancel' hkj]⟩)
      rcases hw with hw | ⟨v, hv, hl⟩ | hw
      · exact .inl hw
      · rcases later v hv hl with hv' | hv'
        · exact .inr ⟨v, hv', hl⟩
        · have := h3 j _ (Nat.le_refl _) (List.getElem?_eq_getElem h1)
          exact .inr ⟨p.values[j], List.mem_iff_getElem.mpr ⟨0, by simp; omega, by simp⟩, by omega⟩
      · have hv := h3 j _ (Nat.le_refl _) (List.getElem?_eq_getElem h1)
        rcases Nat.lt_or_ge q.last p.values[j] with hl | hl
        · exact .inr ⟨p.values[j], List.mem_iff_getElem.mpr ⟨0, by simp; omega, by simp⟩, hl⟩
        · have : p.values[j] ∈ inRange q p.values := by simp [inRange, hv, hl]
          rw [hw] at this
          simp at this
    rw [iterateLoop_spec get cb p q hs _ j _ [] rfl (by omega) (by omega) hw', inRange_drop q p.values j h2 h3]

/-- A profile with values 2, 5, 6, 7, 9 and a property with values 5 to 8: the callback, which stops after two,
gets 5 and 6. -/
example : iterateForProperty (fun _ => true) (fun seen => seen.length < 2) ⟨[2, 5, 6, 7, 9], some 1⟩ ⟨5, 8⟩ =
    some ([5, 6], false) := by
  rw [C29_values_partial _ _ _ _ (by unfold Ascending; decide) (.inl (by simp))]; decide

example : iterateForProperty (fun v => v ≠ 7) (fun _ => true) ⟨[2, 5, 6, 7, 9], none⟩ ⟨5, 8⟩ = some ([5, 6], true) := by
  rw [C29_values_partial _ _ _ _ (by unfold Ascending; decide) (.inr (.inl (by decide)))]; decide

theorem iterateLoop_overrun (get : Nat → Bool) (cb : List Nat → Bool) (p : Profile) (q : Property) (hw : p.after = none)
    (hg : ∀ v, v ∈ p.values → get v = true) (hcb : ∀ seen, cb seen = true) (hl : ∀ v, v ∈ p.values → v ≤ q.last) :
    ∀ (n i fuel : Nat) (seen : List Nat), p.values.length - i = n → i ≤ p.values.length →
    iterateLoop get cb p q fuel i seen false = none := by
  intro n
  induction n with
  | zero =>
    intro i fuel seen hn hi
    cases fuel with
    | zero => rfl
    | succ fuel =>
      have hv : p.read i = none := by simp [Profile.read, show i = p.values.length by omega, hw]
      simp [iterateLoop, hv]
  | succ n ih =>
    intro i fuel seen hn hi
    cases fuel with
    | zero => rfl
    | succ fuel =>
      have hlt : i < p.values.length := by omega
      have hv : p.read i = some p.values[i] := by simp [Profile.read, hlt]
      simp only [iterateLoop, hv, Option.bind_eq_bind, Option.bind_some]
      rw [if_pos ⟨hl _ (List.getElem_mem hlt), hlt, trivial⟩, if_pos (hg _ (List.getElem_mem hlt)), if_pos (hcb _)]
      exact ih (i + 1) fuel _ (by omega) (by omega)

/-- C29 fails whenever the last value of the profile belongs to the property and nothing can be read after it, if the callback does
not stop before. -/
theorem C29_overrun_violated (get : Nat → Bool) (cb : List Nat → Bool) (q : Property) (values : List Nat) (v : Nat)
    (hs : Ascending (values ++ [v])) (h1 : q.first ≤ v) (h2 : v ≤ q.last)
    (hg : ∀ w, w ∈ values ++ [v] → get w = true) (hcb : ∀ seen, cb seen = true) :
    iterateForProperty get cb ⟨values ++ [v], none⟩ q = none := by
  have hf := firstValue_spec ⟨values ++ [v], none⟩ q hs
  have hin : v ∈ inRange q (values ++ [v]) := by simp [inRange, h1, h2]
  unfold iterateForProperty
  cases h : firstValue ⟨values ++ [v], none⟩ q with
  | none =>
    simp only [h] at hf
    rw [hf] at hin
    simp at hin
  | some j =>
    simp only [h] at hf
    obtain ⟨h3, h4, h5⟩ := hf
    simp only [iterateValues, moveBack_fixed q (values ++ [v]) j h4]
    refine iterateLoop_overrun get cb ⟨values ++ [v], none⟩ q rfl hg hcb ?_ _ j _ [] rfl (Nat.le_of_lt h3)
    intro w hw
    have : w ≤ v := by
      rcases List.mem_append.1 hw with h | h
      · exact (List.pairwise_append.1 hs).2.2 w h v (by simp)
      · simp at h; omega
    omega

/-- C29 fails when nothing can be read after the profile: with the property's values last in the profile, the
word after the profile is read. -/
theorem C29_violated : iterateForProperty (fun _ => true) (fun _ => true) ⟨[2, 5, 6], none⟩ ⟨5, 8⟩ = none := by
  rw [iterateForProperty, firstValue, bsearch]
  simp [compareValue, moveBack, iterateValues, iterateLoop, Profile.read]

/-! ## C49: profiles with a value -/

/-- The search for the value ends within the profile, or the word after it can be read. -/
def Ends (p : Profile) (q : Property) (x : Nat) : Prop :=
  p.after ≠ none ∨ x ∈ p.values ∨ (∃ v ∈ p.values, q.last < v) ∨ inRange q p.values = []

theorem hasValueLoop_spec (p : Profile) (q : Property) (x : Nat) (hx : x ≤ q.last)
    (hs : Ascending p.values) : ∀ (n i fuel : Nat), p.values.length - i = n → i ≤ p.values.length → n < fuel →
    ((p.after ≠ none ∨ x ∈ p.values.drop i ∨ ∃ v ∈ p.values.drop i, q.last < v) →
      hasValueLoop p q x fuel i = some (decide (x ∈ p.values.drop i))) ∧
    (¬ (p.after ≠ none ∨ x ∈ p.values.drop i ∨ ∃ v ∈ p.values.drop i, q.last < v) → hasValueLoop p q x fuel i = none) := by
  intro n
  induction n with
  | zero =>
    intro i fuel hn hi hf
    obtain ⟨fuel, rfl⟩ : ∃ k, fuel = k + 1 := ⟨fuel - 1, by omega⟩
    have he : i = p.values.length := by omega
    subst he
    rw [List.drop_length]
    constructor
    · rintro (hw | hw | ⟨v, hw, -⟩)
      · obtain ⟨w, hw⟩ := Option.ne_none_iff_exists'.mp hw
        have hv : p.read p.values.length = some w := by simp [Profile.read, hw]
        simp only [hasValueLoop, hv, Option.bind_eq_bind, Option.bind_some]
        rw [if_neg (by omega)]
        simp
      · simp at hw
      · simp at hw
    · intro hw
      have hw : p.after = none := by
        by_cases h : p.after = none
        · exact h
        · exact absurd (Or.inl h) hw
      have hv : p.read p.values.length = none := by simp [Profile.read, hw]
      simp [hasValueLoop, hv]
  | succ n ih =>
    intro i fuel hn hi hf
    obtain ⟨fuel, rfl⟩ : ∃ k, fuel = k + 1 := ⟨fuel - 1, by omega⟩
    have hlt : i < p.values.length := by omega
    have hv : p.read i = some p.values[i] := by simp [Profile.read, hlt]
    have hcons := List.drop_eq_getElem_cons hlt
    simp only [hasValueLoop, hv, Option.bind_eq_bind, Option.bind_some]
    obtain ⟨ih1, ih2⟩ := ih (i + 1) fuel (by omega) (by omega) (by omega)
    by_cases hle : p.values[i] ≤ q.last
    · rw [if_pos ⟨hle, hlt⟩]
      have hmem : x ∈ p.values.drop i ↔ x = p.values[i] ∨ x ∈ p.values.drop (i + 1) := by
        rw [hcons, List.mem_cons]
      by_cases he : x = p.values[i]
      · rw [if_pos he, decide_eq_true (hmem.mpr (Or.inl he))]
        exact ⟨fun _ => rfl, fun hn => absurd (Or.inr (Or.inl (hmem.mpr (Or.inl he)))) hn⟩
      · rw [if_neg he]
        have hex : (∃ v ∈ p.values.drop i, q.last < v) ↔ ∃ v ∈ p.values.drop (i + 1), q.last < v := by
          rw [hcons]
          constructor
          · rintro ⟨v, hv, hl⟩
            rcases List.mem_cons.1 hv with rfl | hv
            · omega
            · exact ⟨v, hv, hl⟩
          · rintro ⟨v, hv, hl⟩
            exact ⟨v, List.mem_cons_of_mem _ hv, hl⟩
        simp only [hmem, he, false_or, hex]
        exact ⟨ih1, ih2⟩
    · rw [if_neg (by omega)]
      refine ⟨fun _ => ?_, fun hn => absurd (Or.inr (Or.inr ⟨p.values[i], by rw [hcons]; exact List.mem_cons_self, by omega⟩)) hn⟩
      congr 1
      symm
      rw [decide_eq_false_iff_not]
      intro hmem
      obtain ⟨k, hk, rfl⟩ := List.mem_iff_getElem.mp hmem
      simp only [List.length_drop] at hk
      have := hs.le (Nat.le_add_right i k) (List.getElem?_eq_getElem hlt) (List.getElem?_eq_getElem (by omega))
      simp only [List.getElem_drop] at hx
      omega

/-- Whether a profile has the value is determined correctly, unless the search for it needs to read the word after the profile
and cannot: then it is undefined. -/
theorem hasValue_exact (p : Profile) (q : Property) (x : Nat) (h1 : q.first ≤ x)
    (hx : x ≤ q.last) (hs : Ascending p.values) : (Ends p q x → hasValue p q x = some (decide (x ∈ p.values))) ∧
    (¬ Ends p q x → hasValue p q x = none) := by
  have hf := firstValue_spec p q hs
  unfold hasValue
  cases h : firstValue p q with
  | none =>
    simp only [h] at hf
    have : x ∉ p.values := by
      intro hm
      have : x ∈ inRange q p.values := by simp [inRange, hm, h1, hx]
      rw [hf] at this
      simp at this
    exact ⟨fun _ => by simp [this], fun hn => absurd (Or.inr (Or.inr (Or.inr hf))) hn⟩
  | some j =>
    simp only [h] at hf
    obtain ⟨a1, a2, a3⟩ := hf
    simp only
    have hdrop : ∀ v, q.first ≤ v → (v ∈ p.values.drop j ↔ v ∈ p.values) := by
      intro v hv
      constructor
      · exact List.mem_of_mem_drop
      · intro hm
        obtain ⟨k, hk, rfl⟩ := List.mem_iff_getElem.mp hm
        have hkj : j ≤ k := by
          rcases Nat.lt_or_ge k j with h | h
          · have := a2 k _ h (List.getElem?_eq_getElem hk); omega
          · exact h
        exact List.mem_iff_getElem.mpr ⟨k - j, by simp; omega, by simp [Nat.add_sub_cancel' hkj]⟩
    obtain ⟨l1, l2⟩ := hasValueLoop_spec p q x hx hs _ j (p.values.length + 1) rfl (by omega) (by omega)
    have hin : inRange q p.values ≠ [] ∨ ∃ v ∈ p.values, q.last < v := by
      have hv := a3 j _ (Nat.le_refl _) (List.getElem?_eq_getElem a1)
      rcases Nat.lt_or_ge q.last p.values[j] with hl | hl
      · exact .inr ⟨_, List.getElem_mem a1, hl⟩
      · refine .inl (List.ne_nil_of_mem (a := p.values[j]) ?_)
        simp [inRange, hv, hl]
    have hends : Ends p q x ↔ (p.after ≠ none ∨ x ∈ p.values.drop j ∨ ∃ v ∈ p.values.drop j, q.last < v) := by
      have hex : (∃ v ∈ p.values.drop j, q.last < v) ↔ ∃ v ∈ p.values, q.last < v := by
        constructor
        · rintro ⟨v, hv, hl⟩; exact ⟨v, List.mem_of_mem_drop hv, hl⟩
        · rintro ⟨v, hv, hl⟩; exact ⟨v, (hdrop v (by omega)).2 hv, hl⟩
      rw [hdrop x h1, hex, Ends]
      constructor
      · rintro (h | h | h | h)
        · exact .inl h
        · exact .inr (.inl h)
        · exact .inr (.inr h)
        · rcases hin with hin | hin
          · exact absurd h hin
          · exact .inr (.inr hin)
      · rintro (h | h | h)
        · exact .inl h
        · exact .inr (.inl h)
        · exact .inr (.inr (.inl h))
    rw [hends]
    refine ⟨fun he => ?_, l2⟩
    rw [l1 he]
    simp only [hdrop x h1]

/-- The indexes, counted from `i`, of the profiles that have a value. -/
def profilesWith (x : Nat) (i : Nat) : List Profile → List Nat
  | [] => []
  | p :: rest => if x ∈ p.values then i :: profilesWith x (i + 1) rest else profilesWith x (i + 1) rest

theorem profilesLoop_spec (q : Property) (x : Nat) (h1 : q.first ≤ x) (hx : x ≤ q.last) :
    ∀ (ps : List Profile) (i : Nat), (∀ p ∈ ps, Ascending p.values ∧ Ends p q x) →
    profilesLoop q x i ps = some (profilesWith x i ps) := by
  intro ps
  induction ps with
  | nil => intro i _; rfl
  | cons p ps ih =>
    intro i h
    obtain ⟨ha, hn⟩ := h p (by simp)
    simp only [profilesLoop, (hasValue_exact p q x h1 hx ha).1 hn, Option.bind_eq_bind, Option.bind_some]
    rw [ih (i + 1) (fun p hp => h p (by simp [hp]))]
    simp only [Option.bind_some, profilesWith]
    by_cases hm : x ∈ p.values <;> simp [hm]

/-! ## strcmp -/

/-- The order of `strcmp`: lexicographic in unsigned bytes. -/
def StrLt : CStr → CStr → Prop
  | _, [] => False
  | [], _ :: _ => True
  | x :: a, y :: b => x.toNat < y.toNat ∨ (x = y ∧ StrLt a b)

theorem strcmp_zero : ∀ a b : CStr, strcmp a b = 0 ↔ a = b
  | [], [] => by simp [strcmp]
  | [], _ :: _ => by simp [strcmp]
  | _ :: _, [] => by simp [strcmp]
  | x :: a, y :: b => by
    simp only [strcmp]
    by_cases h : x = y
    · simp [h, strcmp_zero a b]
    · simp only [h, if_false, List.cons.injEq, false_and, iff_false]
      split <;> omega

theorem strcmp_neg : ∀ a b : CStr, strcmp a b < 0 ↔ StrLt a b
  | [], [] => by simp [strcmp, StrLt]
  | [], _ :: _ => by simp [strcmp, StrLt]
  | _ :: _, [] => by simp [strcmp, StrLt]
  | x :: a, y :: b => by
    simp only [strcmp, StrLt]
    by_cases h : x = y
    · simp [h, strcmp_neg a b]
    · simp only [h, if_false, false_and, or_false]
      split <;> omega

theorem strLt_trans : ∀ a b c : CStr, StrLt a b → StrLt b c → StrLt a c
  | _, [], _ => by simp [StrLt]
  | _, _ :: _, [] => by simp [StrLt]
  | [], _ :: _, _ :: _ => by simp [StrLt]
  | x :: a, y :: b, z :: c => by
    simp only [StrLt]
    rintro (h1 | ⟨rfl, h1⟩) (h2 | ⟨rfl, h2⟩)
    · left; omega
    · left; omega
    · left; omega
    · right; exact ⟨rfl, strLt_trans a b c h1 h2⟩

theorem strLt_total (a b : CStr) : StrLt a b ∨ a = b ∨ StrLt b a := by
  induction a generalizing b with
  | nil => cases b <;> simp [StrLt]
  | cons x a ih =>
    cases b with
    | nil => simp [StrLt]
    | cons y b =>
      simp only [StrLt, List.cons.injEq]
      rcases Nat.lt_trichotomy x.toNat y.toNat with h | h | h
      · simp [h]
      · have := UInt8.toNat_inj.mp h
        subst this
        rcases ih b with h | h | h <;> simp [h]
      · simp [h]

theorem strLt_irrefl (a : CStr) : ¬ StrLt a a := by
  induction a with
  | nil => simp [StrLt]
  | cons x a ih => simp [StrLt, ih]

theorem strcmp_pos (a b : CStr) : 0 < strcmp a b ↔ StrLt b a := by
  have h0 := strcmp_zero a b
  have h1 := strcmp_neg a b
  constructor
  · intro h
    rcases strLt_total a b with h2 | h2 | h2
    · have := h1.mpr h2; omega
    · have := h0.mpr h2; omega
    · exact h2
  · intro h
    rcases Int.lt_trichotomy (strcmp a b) 0 with h2 | h2 | h2
    · exact absurd (strLt_trans _ _ _ (h1.mp h2) h) (strLt_irrefl a)
    · have := h0.mp h2; subst this; exact absurd h (strLt_irrefl a)
    · exact h2

/-! ## C42: values by name -/

/-- The names from `lo` to `hi` exist and are in ascending `strcmp` order. -/
def NamesSorted (names : List CStr) (lo hi : Nat) : Prop :=
  hi < names.length ∧ ∀ i j a b, lo ≤ i → i < j → j ≤ hi → names[i]? = some a → names[j]? = some b → StrLt a b

theorem valueColl_ordered (names : List CStr) (name : CStr) (lo hi : Nat) (h : NamesSorted names lo hi) :
    Search.Ordered (valueColl names name) lo hi := by
  have hat : ∀ i, Search.at? (valueColl names name) i = (names[i]?).map fun x => strcmp x name := by
    intro i
    simp only [Search.at?, valueColl]
    cases names[i]? <;> rfl
  constructor
  · intro i h1 h2
    have hi : i < names.length := by have := h.1; omega
    exact ⟨_, by rw [hat, List.getElem?_eq_getElem hi]; rfl⟩
  · intro i j r s h1 h2 h3 hr hs
    rw [hat] at hr hs
    obtain ⟨a, ha, rfl⟩ := Option.map_eq_some_iff.mp hr
    obtain ⟨b, hb, rfl⟩ := Option.map_eq_some_iff.mp hs
    rcases Nat.lt_or_eq_of_le h2 with hlt | rfl
    · have hab := h.2 i j a b h1 hlt h3 ha hb
      have a0 := strcmp_zero a name
      have ap := strcmp_pos a name
      have b0 := strcmp_zero b name
      have bp := strcmp_pos b name
      constructor
      · intro h
        rcases Int.lt_or_eq_of_le h with h | h
        · have := strLt_trans _ _ _ (ap.mp h) hab
          have := bp.mpr this; omega
        · have := a0.mp h.symm
          subst this
          have := bp.mpr hab; omega
      · intro h
        have := strLt_trans _ _ _ (ap.mp h) hab
        exact bp.mpr this
    · rw [ha] at hb; cases hb; exact ⟨id, id⟩

/-- C42: among string values sorted by name, as in a data file, the lookup finds the index of the value with
exactly that name in the property's range, and -1 exactly when there is none, without an exception. -/
theorem C42_string (names : List CStr) (q : Property) (name : CStr) (hs : NamesSorted names q.first q.last)
    (hlen : names.length < 2 ^ 32) (fuel : Nat) (hf : q.last + 2 ≤ fuel) :
    ∃ o, valueIndexByName names fuel q name = some o ∧ o.error = false ∧
      ((∃ i : Nat, o.ret = i ∧ q.first ≤ i ∧ i ≤ q.last ∧ names[i]? = some name) ∨
       (o.ret = -1 ∧ ∀ i : Nat, q.first ≤ i → i ≤ q.last → names[i]? ≠ some name)) := by
  have hat : ∀ i, Search.at? (valueColl names name) i = some 0 ↔ names[i]? = some name := by
    intro i
    simp only [Search.at?, valueColl]
    cases names[i]? with
    | none => simp
    | some x => simp [strcmp_zero]
  obtain ⟨o, h1, h2, -, h4⟩ := Search.C14_search_partial _ _ _ (valueColl_ordered names name _ _ hs)
    (by have := hs.1; omega) fuel hf
  refine ⟨o, h1, h2, ?_⟩
  rcases h4 with ⟨i, a, b, c, d, -⟩ | ⟨a, -, b⟩
  · exact Or.inl ⟨i, a, b, c, (hat i).mp d⟩
  · refine Or.inr ⟨a, ?_⟩
    intro i h1 h2 h3
    exact b i h1 h2 ((hat i).mpr h3)

example : (valueIndexByName [c!"zz", c!"False", c!"True", c!"Unknown", c!"a"] 5 ⟨1, 3⟩ c!"True").map (·.ret) = some 2 ∧
    (valueIndexByName [c!"zz", c!"False", c!"True", c!"Unknown", c!"a"] 5 ⟨1, 3⟩ c!"zz").map (·.ret) = some (-1) := by
  decide

/-! ## C50: properties by name -/

theorem propertyByNameFrom_spec (name : CStr) : ∀ (names : List CStr) (i : Nat),
    match propertyByNameFrom name i names with
    | some j => i ≤ j ∧ names[j - i]? = some name ∧ ∀ k, k < j - i → names[k]? ≠ some name
    | none => name ∉ names := by
  intro names
  induction names with
  | nil => intro i; simp [propertyByNameFrom]
  | cons n rest ih =>
    intro i
    simp only [propertyByNameFrom]
    by_cases h : strcmp n name = 0
    · have := (strcmp_zero n name).mp h
      subst this
      simp [h]
    · have hne : n ≠ name := fun e => h ((strcmp_zero n name).mpr e)
      rw [if_pos h]
      have := ih (i + 1)
      cases hr : propertyByNameFrom name (i + 1) rest with
      | none =>
        simp only [hr] at this
        simp only [List.mem_cons, not_or]
        exact ⟨fun e => hne e.symm, this⟩
      | some j =>
        simp only [hr] at this
        obtain ⟨a, b, c⟩ := this
        refine ⟨by omega, ?_, ?_⟩
        · rw [show j - i = (j - (i + 1)) + 1 by omega, List.getElem?_cons_succ]; exact b
        · intro k hk
          cases k with
          | zero => simpa using hne
          | succ k => rw [List.getElem?_cons_succ]; exact c k (by omega)

/-- C50: looking up a property by name returns the first property with exactly that name, and NULL exactly when
there is none. -/
theorem C50_property (names : List CStr) (name : CStr) :
    match propertyByName names name with
    | some j => names[j]? = some name ∧ ∀ k, k < j → names[k]? ≠ some name
    | none => name ∉ names := by
  have := propertyByNameFrom_spec name names 0
  unfold propertyByName
  cases h : propertyByNameFrom name 0 names with
  | none => simp only [h] at this; exact this
  | some j => simp only [h] at this; exact ⟨by simpa using this.2.1, by simpa using this.2.2⟩

example : propertyByName [c!"IsMobile", c!"ismobile", c!"Name"] c!"ismobile" = some 1 := by decide

/-- C49: when a property of the given name and a value of the given name in its range exist (value names sorted
in the range), the callback is called for exactly the profiles that have the value, in order, once each. Missing: profiles
without the value whose last value belongs to the property and after which no word can be read, see `C49_overrun_violated`. -/
theorem C49_profiles_partial (props : List (CStr × Property)) (valueNames : List CStr) (profiles : List Profile)
    (propertyName valueName : CStr) (i x : Nat) (q : Property)
    (hprop : props[i]? = some (propertyName, q)) (huniq : ∀ k, k < i → (props.map (·.1))[k]? ≠ some propertyName)
    (hs : NamesSorted valueNames q.first q.last) (hlen : valueNames.length < 2 ^ 32)
    (h1 : q.first ≤ x) (h2 : x ≤ q.last) (hx : valueNames[x]? = some valueName)
    (hp : ∀ p ∈ profiles, Ascending p.values ∧ Ends p q x) (fuel : Nat) (hf : q.last + 2 ≤ fuel) :
    profilesFor props valueNames profiles fuel propertyName valueName = some (profilesWith x 0 profiles) := by
  have hi : propertyByName (props.map (·.1)) propertyName = some i := by
    have hc := C50_property (props.map (·.1)) propertyName
    have him : (props.map (·.1))[i]? = some propertyName := by simp [hprop]
    cases h : propertyByName (props.map (·.1)) propertyName with
    | none =>
      simp only [h] at hc
      exact absurd (List.mem_of_getElem? him) hc
    | some j =>
      simp only [h] at hc
      rcases Nat.lt_trichotomy i j with hlt | rfl | hlt
      · exact absurd him (hc.2 i hlt)
      · rfl
      · exact absurd hc.1 (huniq j hlt)
  obtain ⟨o, ho, herr, hres⟩ := C42_string valueNames q valueName hs hlen fuel hf
  have hret : o.ret = x := by
    rcases hres with ⟨k, a, b, c, d⟩ | ⟨a, b⟩
    · rcases Nat.lt_trichotomy k x with h | h | h
      · exact absurd (hs.2 k x _ _ b h h2 d hx) (strLt_irrefl _)
      · rw [a, h]
      · exact absurd (hs.2 x k _ _ h1 h c hx d) (strLt_irrefl _)
    · exact absurd hx (b x h1 h2)
  simp only [profilesFor, hi, hprop, ho, hret, herr]
  rw [if_pos ⟨by omega, trivial⟩, Int.toNat_natCast]
  exact profilesLoop_spec q x h1 h2 profiles 0 hp

/-- C49: when there is no property with the name, or it has no value with the name, no profile is passed. -/
theorem C49_none (props : List (CStr × Property)) (valueNames : List CStr) (profiles : List Profile)
    (propertyName valueName : CStr) (fuel : Nat)
    (h : propertyName ∉ props.map (·.1) ∨ ∃ (i : Nat) (q : Property), props[i]? = some (propertyName, q) ∧
      (∀ k, k < i → (props.map (·.1))[k]? ≠ some propertyName) ∧ NamesSorted valueNames q.first q.last ∧
      valueNames.length < 2 ^ 32 ∧ (∀ x, q.first ≤ x → x ≤ q.last → valueNames[x]? ≠ some valueName) ∧
      q.last + 2 ≤ fuel) :
    profilesFor props valueNames profiles fuel propertyName valueName = some [] := by
  have hc := C50_property (props.map (·.1)) propertyName
  cases hp : propertyByName (props.map (·.1)) propertyName with
  | none => simp [profilesFor, hp]
  | some j =>
    simp only [hp] at hc
    rcases h with h | ⟨i, q, hi, hu, hs, hl, hv, hf⟩
    · exact absurd (List.mem_of_getElem? hc.1) h
    · have hij : j = i := by
        rcases Nat.lt_trichotomy i j with hlt | h | hlt
        · exact absurd (by simp [hi]) (hc.2 i hlt)
        · exact h.symm
        · exact absurd hc.1 (hu j hlt)
      subst hij
      obtain ⟨o, ho, herr, hres⟩ := C42_string valueNames q valueName hs hl fuel hf
      have hret : o.ret = -1 := by
        rcases hres with ⟨k, a, b, c, d⟩ | ⟨a, -⟩
        · exact absurd d (hv k b c)
        · exact a
      simp only [profilesFor, hp, hi, ho, hret]
      rw [if_neg (by omega)]

/-- Two properties, five values; profiles 0 and 2 have value 3 ("True" of property "B"). -/
example : profilesFor [(c!"A", ⟨0, 1⟩), (c!"B", ⟨2, 4⟩)] [c!"x", c!"y", c!"False", c!"True", c!"Unknown"]
    [⟨[0, 3], none⟩, ⟨[1, 2, 4], some 0⟩, ⟨[1, 3, 4], some 3⟩, ⟨[0, 1], none⟩, ⟨[2, 6], none⟩] 6 c!"B" c!"True" = some [0, 2] :=
  C49_profiles_partial _ _ _ _ _ 1 3 ⟨2, 4⟩ rfl
    (by intro k hk; obtain rfl : k = 0 := by omega
        decide)
    ⟨by decide, by
      intro i j a b h1 h2 h3 ha hb
      have : (i = 2 ∧ j = 3) ∨ (i = 2 ∧ j = 4) ∨ (i = 3 ∧ j = 4) := by simp only at h1 h3; omega
      rcases this with ⟨rfl, rfl⟩ | ⟨rfl, rfl⟩ | ⟨rfl, rfl⟩ <;> simp at ha hb <;> subst ha <;> subst hb <;> simp [StrLt]⟩
    (by decide) (by decide) (by decide) rfl
    (by intro p hp; simp at hp; unfold Ascending Ends; rcases hp with rfl | rfl | rfl | rfl | rfl <;> decide) 6 (by decide)

/-- C49 fails whenever nothing can be read after a profile which does not have the value and whose last value belongs to the
property. -/
theorem C49_overrun_violated (q : Property) (x : Nat) (h1 : q.first ≤ x) (hx : x ≤ q.last) (values : List Nat) (v : Nat)
    (hs : Ascending (values ++ [v])) (hv : q.first ≤ v) (hl : v ≤ q.last) (hn : x ∉ values ++ [v]) :
    hasValue ⟨values ++ [v], none⟩ q x = none := by
  refine (hasValue_exact _ q x h1 hx hs).2 ?_
  rintro (h | h | ⟨w, h, hw⟩ | h)
  · exact h rfl
  · exact hn h
  · have : w ≤ v := by
      rcases List.mem_append.1 h with h | h
      · exact (List.pairwise_append.1 hs).2.2 w h v (by simp)
      · simp at h; omega
    omega
  · have : v ∈ inRange q (values ++ [v]) := by simp [inRange, hv, hl]
    rw [h] at this
    simp at this

/-- C49 fails when nothing can be read after a profile whose last value belongs to the property. -/
theorem C49_violated : profilesFor [(c!"B", ⟨0, 1⟩)] [c!"False", c!"True"] [⟨[0], none⟩] 9 c!"B" c!"True" = none := by
  have h : hasValue ⟨[0], none⟩ ⟨0, 1⟩ 1 = none := by
    rw [hasValue, firstValue, bsearch]
    simp [compareValue, moveBack, hasValueLoop, Profile.read]
  have hs : (valueIndexByName [c!"False", c!"True"] 9 ⟨0, 1⟩ c!"True") = some ⟨1, false, [0, 1], some 1⟩ := by decide
  have hp : propertyByName [c!"B"] c!"B" = some 0 := by decide
  simp [profilesFor, hp, hs, profilesLoop, h]

/-! ## C30: profiles by id -/

/-- The records are in ascending order of profile id. -/
def IdsSorted (offs : List Offset) : Prop := offs.Pairwise fun a b => a.id < b.id

theorem offsetColl_ordered (offs : List Offset) (id : Nat) (hs : IdsSorted offs) (hne : offs ≠ []) :
    Search.Ordered (offsetColl offs (fun _ => true) id) 0 (offs.length - 1) := by
  have hlen : 0 < offs.length := List.length_pos_iff.mpr hne
  have hat : ∀ i, Search.at? (offsetColl offs (fun _ => true) id) i = (offs[i]?).map fun x => compareId id x.id := by
    intro i
    simp only [Search.at?, offsetColl, if_true]
    cases offs[i]? <;> rfl
  constructor
  · intro i h1 h2
    exact ⟨_, by rw [hat, List.getElem?_eq_getElem (by omega)]; rfl⟩
  · intro i j r s h1 h2 h3 hr hs'
    rw [hat] at hr hs'
    obtain ⟨a, ha, rfl⟩ := Option.map_eq_some_iff.mp hr
    obtain ⟨b, hb, rfl⟩ := Option.map_eq_some_iff.mp hs'
    have hle : a.id ≤ b.id := by
      rcases Nat.lt_or_eq_of_le h2 with hlt | rfl
      · obtain ⟨hi, rfl⟩ := List.getElem?_eq_some_iff.mp ha
        obtain ⟨hj, rfl⟩ := List.getElem?_eq_some_iff.mp hb
        exact Nat.le_of_lt (List.pairwise_iff_getElem.mp hs i j hi hj hlt)
      · rw [ha] at hb; cases hb; exact Nat.le_refl _
    simp only [compareId]
    constructor
    · intro h; split at h <;> split <;> (try split) <;> omega
    · intro h
      split at h
      · omega
      · split at h
        · rw [if_neg (by omega), if_pos (by omega)]; omega
        · omega

/-- C30: in a data set with profiles, looking up an id other than 0 returns the offset recorded for it, and no
profile exactly when no record has the id; id 0 is an exception. All records can be fetched and there is at least
one, see `C30_violated`. -/
theorem C30_lookup_partial (offs : List Offset) (hs : IdsSorted offs) (hne : offs ≠ []) (hlen : offs.length < 2 ^ 32)
    (id fuel : Nat) (hf : offs.length + 1 ≤ fuel) :
    ∃ r, offsetForId offs (fun _ => true) fuel id = some r ∧
      (id = 0 → r = .exception) ∧
      (id ≠ 0 → (∃ o, ⟨id, o⟩ ∈ offs ∧ r = .offset o) ∨ ((∀ o, ⟨id, o⟩ ∉ offs) ∧ r = .notFound)) := by
  by_cases h0 : id = 0
  · exact ⟨.exception, by simp [offsetForId, h0], fun _ => rfl, fun h => absurd h0 h⟩
  have hpos : 0 < offs.length := List.length_pos_iff.mpr hne
  have hu : (offs.length + (2 ^ 32 - 1)) % 2 ^ 32 = offs.length - 1 := by omega
  obtain ⟨o, h1, h2, -, h4⟩ := Search.C14_search_partial _ _ _ (offsetColl_ordered offs id hs hne)
    (by omega) fuel (by omega)
  have hat : ∀ i x, offs[i]? = some x → (Search.at? (offsetColl offs (fun _ => true) id) i = some 0 ↔ x.id = id) := by
    intro i x hx
    simp only [Search.at?, offsetColl, if_true, hx, Option.bind_some, Option.some.injEq, compareId]
    split
    · simp; omega
    · split
      · simp; omega
      · simp; omega
  simp only [offsetForId, h0, if_false, hu, h1]
  rcases h4 with ⟨i, a, b, c, d, e⟩ | ⟨a, -, b⟩
  · have hi : offs[i]? = some offs[i] := List.getElem?_eq_getElem (by omega)
    rw [if_pos (by omega)]
    simp only [e, Option.bind_some, hi]
    refine ⟨_, rfl, by simp [h0], fun _ => Or.inl ⟨_, ?_, rfl⟩⟩
    have := (hat i _ hi).mp d
    rw [← this]
    exact List.getElem_mem _
  · rw [if_neg (by omega)]
    refine ⟨_, rfl, by simp [h0], fun _ => Or.inr ⟨?_, rfl⟩⟩
    intro o' hm
    obtain ⟨i, hi, he⟩ := List.mem_iff_getElem.mp hm
    exact b i (by omega) (by omega) ((hat i _ (List.getElem?_eq_getElem hi)).mpr (by rw [he]))

example : offsetForId [⟨3, 100⟩, ⟨7, 40⟩, ⟨12, 0⟩, ⟨90, 8⟩] (fun _ => true) 5 12 = some (.offset 0) ∧
    offsetForId [⟨3, 100⟩, ⟨7, 40⟩, ⟨12, 0⟩, ⟨90, 8⟩] (fun _ => true) 5 13 = some .notFound := by decide

/-- C30 fails for a data set without profiles, and when a record cannot be fetched: instead of an exception, NULL
is dereferenced. -/
theorem C30_violated : offsetForId [] (fun _ => true) 5 12 = none ∧
    offsetForId [⟨3, 100⟩, ⟨7, 40⟩] (fun i => i ≠ 0) 5 7 = none := by decide

end Verif.Profile
