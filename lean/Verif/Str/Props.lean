import Verif.Str.Model

/-! # C16, C17: string comparison and search -/

namespace Verif.Str

/-- Specification: a string with ASCII case removed. -/
def fold (s : CStr) : CStr := s.map toLower

/-- Specification: strict dictionary order on lists of integers, a proper prefix being smaller. -/
inductive DictLt : List Int → List Int → Prop
  | nil {y b} : DictLt [] (y :: b)
  | head {x y a b} : x < y → DictLt (x :: a) (y :: b)
  | tail {x a b} : DictLt a b → DictLt (x :: a) (x :: b)

/-- Specification: the values the order is based on: the signed `char`s after removing case. -/
def keys (s : CStr) : List Int := s.map lowerInt

/-- C16: the comparison is 0 exactly for strings equal up to ASCII case. -/
theorem C16_compare_zero_iff (a b : CStr) : compare a b = 0 ↔ fold a = fold b := by
  induction a generalizing b with
  | nil => cases b <;> simp [compare, fold]
  | cons x a ih =>
    cases b with
    | nil => simp [compare, fold]
    | cons y b =>
      simp only [compare, fold, List.map_cons, List.cons.injEq]
      have := ih b
      simp only [fold] at this
      rw [← lowerInt_eq_iff]
      split
      · constructor <;> intro h <;> omega
      · rw [this]; constructor
        · intro h; exact ⟨by omega, h⟩
        · intro h; exact h.2

theorem DictLt.cons_inv {x y : Int} {a b : List Int} (h : DictLt (x :: a) (y :: b)) :
    x < y ∨ (x = y ∧ DictLt a b) := by
  cases h with
  | head h => exact .inl h
  | tail h => exact .inr ⟨rfl, h⟩

/-- C16: a negative result means strictly before in dictionary order of the case-folded characters. -/
theorem C16_compare_neg_iff (a b : CStr) : compare a b < 0 ↔ DictLt (keys a) (keys b) := by
  induction a generalizing b with
  | nil =>
    cases b with
    | nil => simp [compare, keys]; intro h; cases h
    | cons y b => simp [compare, keys]; exact .nil
  | cons x a ih =>
    cases b with
    | nil => simp [compare, keys]; intro h; cases h
    | cons y b =>
      simp only [compare, keys, List.map_cons]
      have := ih b
      simp only [keys] at this
      split
      · constructor
        · intro h; exact .head (by omega)
        · intro h
          rcases DictLt.cons_inv h with h | h <;> omega
      · rw [this]
        have e : lowerInt x = lowerInt y := by omega
        constructor
        · rw [e]; exact .tail
        · intro h
          rcases DictLt.cons_inv h with h | h
          · omega
          · exact h.2

/-- C16: swapping the arguments swaps the sign. -/
theorem C16_compare_antisymm (a b : CStr) : (compare a b).sign = - (compare b a).sign := by
  induction a generalizing b with
  | nil => cases b <;> simp [compare]
  | cons x a ih =>
    cases b with
    | nil => simp [compare]
    | cons y b =>
      simp only [compare]
      split
      · rw [if_pos (by omega), ← Int.sign_neg]; congr 1; omega
      · rw [if_neg (by omega)]; exact ih b

theorem DictLt.trans {a b c : List Int} (h : DictLt a b) (h' : DictLt b c) : DictLt a c := by
  induction h generalizing c with
  | nil => cases h' <;> exact .nil
  | head h => cases h' with
    | head h' => exact .head (by omega)
    | tail h' => exact .head h
  | tail h ih => cases h' with
    | head h' => exact .head h'
    | tail h' => exact .tail (ih h')

theorem keys_eq_iff {a b : CStr} : keys a = keys b ↔ fold a = fold b := by
  induction a generalizing b with
  | nil => cases b <;> simp [keys, fold]
  | cons x a ih => cases b with
    | nil => simp [keys, fold]
    | cons y b =>
      have := @ih b
      simp only [keys, fold] at this
      simp only [keys, fold, List.map_cons, List.cons.injEq, this, lowerInt_eq_iff]

/-- C16: the comparison is transitive, so sorting and searching with it are meaningful. -/
theorem C16_compare_trans (a b c : CStr) (h : compare a b ≤ 0) (h' : compare b c ≤ 0) :
    compare a c ≤ 0 := by
  rcases Int.lt_or_eq_of_le h with h | h <;> rcases Int.lt_or_eq_of_le h' with h' | h'
  · rw [C16_compare_neg_iff] at h h'
    have := (C16_compare_neg_iff a c).mpr (h.trans h'); omega
  · rw [C16_compare_neg_iff] at h
    rw [C16_compare_zero_iff, ← keys_eq_iff] at h'
    rw [h'] at h
    have := (C16_compare_neg_iff a c).mpr h; omega
  · rw [C16_compare_neg_iff] at h'
    rw [C16_compare_zero_iff, ← keys_eq_iff] at h
    rw [← h] at h'
    have := (C16_compare_neg_iff a c).mpr h'; omega
  · rw [C16_compare_zero_iff] at h h'
    have := (C16_compare_zero_iff a c).mpr (h.trans h'); omega

example : compare c!"User-Agent" c!"user-agent" = 0 := by decide
example : compare c!"User" c!"user-agent" < 0 := by decide

/-- C16: with `n` readable bytes at both pointers the bounded comparison is defined, and is 0 exactly
when the first `n` bytes are equal up to ASCII case. -/
theorem C16_compareLength_zero_iff (a b : List UInt8) (n : Nat)
    (ha : n ≤ a.length) (hb : n ≤ b.length) :
    ∃ d, compareLength a b n = some d ∧ (d = 0 ↔ fold (a.take n) = fold (b.take n)) := by
  induction n generalizing a b with
  | zero => exact ⟨0, by simp [compareLength], by simp [fold]⟩
  | succ n ih =>
    match a, b with
    | x :: a, y :: b =>
      simp only [List.length_cons, Nat.add_le_add_iff_right] at ha hb
      obtain ⟨d, hd, h⟩ := ih a b ha hb
      simp only [compareLength]
      by_cases e : lowerInt x = lowerInt y
      · refine ⟨d, by simp [e, hd], ?_⟩
        rw [h]; simp [fold, lowerInt_eq_iff.mp e]
      · refine ⟨lowerInt x - lowerInt y, ?_, ?_⟩
        · have : lowerInt x - lowerInt y ≠ 0 := by omega
          simp [this]
        · constructor
          · intro h; omega
          · intro h; simp [fold, ← lowerInt_eq_iff] at h; exact absurd h.1 e

/-- C16: and it is negative exactly when the first `n` bytes of the first come before those of the second in dictionary
order of the case-folded characters. -/
theorem C16_compareLength_neg_iff (a b : List UInt8) (n : Nat) (ha : n ≤ a.length) (hb : n ≤ b.length) :
    ∃ d, compareLength a b n = some d ∧ (d < 0 ↔ DictLt (keys (a.take n)) (keys (b.take n))) := by
  induction n generalizing a b with
  | zero => exact ⟨0, by simp [compareLength], by simp [keys]; intro h; cases h⟩
  | succ n ih =>
    match a, b with
    | x :: a, y :: b =>
      simp only [List.length_cons, Nat.add_le_add_iff_right] at ha hb
      obtain ⟨d, hd, h⟩ := ih a b ha hb
      simp only [compareLength]
      by_cases e : lowerInt x = lowerInt y
      · refine ⟨d, by simp [e, hd], ?_⟩
        rw [h]
        simp only [keys, List.take_succ_cons, List.map_cons, e]
        exact ⟨.tail, fun h => by rcases DictLt.cons_inv h with h | h; omega; exact h.2⟩
      · refine ⟨lowerInt x - lowerInt y, by rw [if_pos (by omega)], ?_⟩
        simp only [keys, List.take_succ_cons, List.map_cons]
        exact ⟨fun h => .head (by omega), fun h => by rcases DictLt.cons_inv h with h | h <;> omega⟩

/-- C16: swapping the arguments of the bounded comparison swaps the sign, whatever can be read. -/
theorem C16_compareLength_antisymm (a b : List UInt8) (n : Nat) :
    (compareLength a b n).map Int.sign = (compareLength b a n).map fun d => - d.sign := by
  induction n generalizing a b with
  | zero => simp [compareLength]
  | succ n ih =>
    match a, b with
    | [], [] => simp [compareLength]
    | [], _ :: _ => simp [compareLength]
    | _ :: _, [] => simp [compareLength]
    | x :: a, y :: b =>
      simp only [compareLength]
      split
      · rw [if_pos (by omega), Option.map_some, Option.map_some, ← Int.sign_neg]; congr 2; omega
      · rw [if_neg (by omega)]; exact ih a b

/-- C16: the bounded comparison is transitive. -/
theorem C16_compareLength_trans (a b c : List UInt8) (n : Nat) (d d' : Int) (h : compareLength a b n = some d)
    (h' : compareLength b c n = some d') (hd : d ≤ 0) (hd' : d' ≤ 0) (ha : n ≤ a.length) (hc : n ≤ c.length) :
    ∃ e, compareLength a c n = some e ∧ e ≤ 0 := by
  induction n generalizing a b c with
  | zero => exact ⟨0, by simp [compareLength], by omega⟩
  | succ n ih =>
    match a, b, c with
    | x :: a, [], _ => simp [compareLength] at h
    | x :: a, y :: b, z :: c =>
      simp only [List.length_cons, Nat.add_le_add_iff_right] at ha hc
      simp only [compareLength] at h h' ⊢
      split at h <;> split at h'
      · simp only [Option.some.injEq] at h h'
        exact ⟨_, if_pos (by omega), by omega⟩
      · simp only [Option.some.injEq] at h
        exact ⟨_, if_pos (by omega), by omega⟩
      · simp only [Option.some.injEq] at h'
        exact ⟨_, if_pos (by omega), by omega⟩
      · rw [if_neg (by omega)]
        exact ih a b c h h' ha hc

example : compareLength c!"HTTP_Host" c!"http_" 5 = some 0 := by decide
example : ∃ d, compareLength c!"Accept" c!"acf" 3 = some d ∧ d < 0 := ⟨-3, by decide, by decide⟩

/-- C16: the bounded comparison of two C strings whose contents differ in the first `n` bytes never
reads past the shorter string's terminator, is not 0, and its sign is the order of the two prefixes, in which the
terminator takes part as character 0 (so a shorter string comes after one that goes on with a byte of 128 or more). -/
theorem C16_compareLength_stops (a b : CStr) (n : Nat) (h : fold (a.take n) ≠ fold (b.take n))
    (ha : (0 : UInt8) ∉ a) (hb : (0 : UInt8) ∉ b) (ra rb : List UInt8) :
    ∃ d, compareLength (a ++ 0 :: ra) (b ++ 0 :: rb) n = some d ∧ d ≠ 0 ∧
      (d < 0 ↔ DictLt (keys ((a ++ [0]).take n)) (keys ((b ++ [0]).take n))) := by
  have diff : ∀ (x y : UInt8) (p q : List UInt8), lowerInt x - lowerInt y ≠ 0 →
      (lowerInt x - lowerInt y < 0 ↔ DictLt (keys (x :: p)) (keys (y :: q))) := fun x y p q hne => by
    simp only [keys, List.map_cons]
    exact ⟨fun h => .head (by omega), fun h => by rcases DictLt.cons_inv h with h | h <;> omega⟩
  have low0 : ∀ {x : UInt8}, x ≠ 0 → lowerInt x ≠ lowerInt 0 := by
    intro x hx h
    rw [lowerInt_eq_iff] at h
    simp only [toLower] at h
    split at h
    · rename_i hh
      have h1 := congrArg UInt8.toNat h
      simp [UInt8.toNat_add, UInt8.le_iff_toNat_le] at h1 hh
      omega
    · exact hx (by simpa using h)
  induction n generalizing a b with
  | zero => simp at h
  | succ n ih =>
    match a, b with
    | [], [] => simp at h
    | [], y :: b =>
      have : lowerInt 0 - lowerInt y ≠ 0 := by
        have := low0 (x := y) (by intro e; simp [e] at hb); omega
      exact ⟨_, by simp [compareLength, this], this, diff _ _ _ _ this⟩
    | x :: a, [] =>
      have : lowerInt x - lowerInt 0 ≠ 0 := by
        have := low0 (x := x) (by intro e; simp [e] at ha); omega
      exact ⟨_, by simp [compareLength, this], this, diff _ _ _ _ this⟩
    | x :: a, y :: b =>
      by_cases e : lowerInt x = lowerInt y
      · have : fold (a.take n) ≠ fold (b.take n) := by
          intro h'; apply h; simp only [List.take_succ_cons, fold, List.map_cons, lowerInt_eq_iff.mp e]
          simp only [fold] at h'; rw [h']
        obtain ⟨d, hd, h0, h1⟩ := ih a b this (by simp_all) (by simp_all)
        refine ⟨d, by simp [compareLength, e, hd], h0, h1.trans ?_⟩
        simp only [List.cons_append, List.take_succ_cons, keys, List.map_cons, e]
        exact ⟨.tail, fun h => by rcases DictLt.cons_inv h with h | h; omega; exact h.2⟩
      · have : lowerInt x - lowerInt y ≠ 0 := by omega
        exact ⟨_, by simp [compareLength, this], this, diff _ _ _ _ this⟩

example : compareLength (c!"Set" ++ [0]) (c!"SeX" ++ [0]) 3 = some (-4) := by decide
/-- Equal strings compared beyond their terminator are read out of bounds. -/
example : compareLength (c!"Set" ++ [0]) (c!"set" ++ [0]) 5 = none := by decide

/-! ## C17 -/

/-- Specification: `b` occurs in `a` at offset `i`, ignoring ASCII case. -/
def OccursAt (a b : CStr) (i : Nat) : Prop :=
  i + b.length ≤ a.length ∧ fold ((a.drop i).take b.length) = fold b

instance (a b : CStr) (i : Nat) : Decidable (OccursAt a b i) := by unfold OccursAt; infer_instance

/-- C17 is violated: a needle whose beginning matches the end of the haystack is reported as found.
`"Set"` is reported to contain `"SetHeader"`. -/
theorem C17_violated : ∃ a b i, subString a b = some i ∧ ∀ j, ¬ OccursAt a b j :=
  ⟨c!"Set", c!"SetHeader", 0, by decide, by intro j h; have := h.1; simp at this⟩

/-- What the inner loop establishes: the texts agree as far as both last. -/
theorem subInner_zero_iff (a b : CStr) :
    subInner a b = 0 ↔ fold (a.take b.length) = fold (b.take a.length) := by
  induction a generalizing b with
  | nil => simp [subInner, fold]
  | cons x a ih => cases b with
    | nil => simp [subInner, fold]
    | cons y b =>
      simp only [subInner]
      have := ih b
      split
      · rename_i h
        constructor
        · intro h'; omega
        · intro h'; simp [fold, ← lowerInt_eq_iff] at h'; omega
      · rename_i h
        have e : toLower x = toLower y := lowerInt_eq_iff.mp (by omega)
        rw [this]; simp [fold, e]

/-- `b` agrees with `a` from offset `i` for as long as both last; what the code really tests. -/
def AgreesAt (a b : CStr) (i : Nat) : Prop :=
  i < a.length ∧ fold ((a.drop i).take b.length) = fold (b.take (a.length - i))

theorem subStringFrom_spec (i : Nat) (a b : CStr) (hb : b ≠ []) :
    match subStringFrom i a b with
    | some j => i ≤ j ∧ AgreesAt a b (j - i) ∧ ∀ k, k < j - i → ¬ AgreesAt a b k
    | none => ∀ k, ¬ AgreesAt a b k := by
  induction a generalizing i with
  | nil => simp [subStringFrom, AgreesAt]
  | cons x a ih =>
    obtain ⟨y, b', rfl⟩ : ∃ y b', b = y :: b' := by
      cases b with
      | nil => exact absurd rfl hb
      | cons y b' => exact ⟨y, b', rfl⟩
    have agree0 : AgreesAt (x :: a) (y :: b') 0 ↔ (lowerInt x = lowerInt y ∧ subInner a b' = 0) := by
      rw [subInner_zero_iff, lowerInt_eq_iff]; simp [AgreesAt, fold]
    have agreeS : ∀ k, AgreesAt (x :: a) (y :: b') (k + 1) ↔ AgreesAt a (y :: b') k := by
      intro k; simp [AgreesAt]
    have rest : ¬ AgreesAt (x :: a) (y :: b') 0 →
        match subStringFrom (i + 1) a (y :: b') with
        | some j => i ≤ j ∧ AgreesAt (x :: a) (y :: b') (j - i) ∧ ∀ k, k < j - i → ¬ AgreesAt (x :: a) (y :: b') k
        | none => ∀ k, ¬ AgreesAt (x :: a) (y :: b') k := by
      intro h0
      have := ih (i + 1)
      split at this
      · rename_i j hj
        obtain ⟨h1, h2, h3⟩ := this
        refine ⟨by omega, ?_, ?_⟩
        · have : j - i = (j - (i + 1)) + 1 := by omega
          rw [this, agreeS]; exact h2
        · intro k hk
          cases k with
          | zero => exact h0
          | succ k => rw [agreeS]; exact h3 k (by omega)
      · rename_i hj
        intro k
        cases k with
        | zero => exact h0
        | succ k => rw [agreeS]; exact this k
    simp only [subStringFrom]
    by_cases e : lowerInt x - lowerInt y = 0
    · simp only [e, if_true]
      by_cases e' : subInner a b' = 0
      · simp only [e', if_true]
        exact ⟨Nat.le_refl _, by rw [Nat.sub_self, agree0]; exact ⟨by omega, e'⟩, by intro k hk; omega⟩
      · simp only [e', if_false]
        exact rest (by rw [agree0]; exact fun h => e' h.2)
    · simp only [e, if_false]
      exact rest (by rw [agree0]; exact fun h => e (by omega))

theorem OccursAt.agrees {a b : CStr} {i : Nat} (hb : b ≠ []) (h : OccursAt a b i) : AgreesAt a b i := by
  have : 0 < b.length := List.length_pos_iff.mpr hb
  refine ⟨by have := h.1; omega, ?_⟩
  rw [h.2, List.take_of_length_le]; have := h.1; omega

/-- C17, the part that holds. For a non-empty needle: (1) NULL is only returned when there is no
occurrence; (2) a returned offset with enough haystack left is the first occurrence; (3) a returned
offset is never after an occurrence. Missing: when fewer than `needle` bytes of haystack are left at the
returned offset, it is not an occurrence (`C17_violated`). -/
theorem C17_subString_partial (a b : CStr) (hb : b ≠ []) :
    (subString a b = none → ∀ i, ¬ OccursAt a b i) ∧
    (∀ i, subString a b = some i → i + b.length ≤ a.length →
      OccursAt a b i ∧ ∀ j, j < i → ¬ OccursAt a b j) ∧
    (∀ i j, subString a b = some i → OccursAt a b j → i ≤ j) := by
  have h := subStringFrom_spec 0 a b hb
  unfold subString
  refine ⟨?_, ?_, ?_⟩
  · intro hn i ho; rw [hn] at h; exact h i (ho.agrees hb)
  · intro i hi hl
    rw [hi] at h
    obtain ⟨-, h2, h3⟩ := h
    refine ⟨⟨hl, ?_⟩, fun j hj ho => h3 j (by omega) (ho.agrees hb)⟩
    have := h2.2
    rw [Nat.sub_zero] at this
    rw [this, List.take_of_length_le]; omega
  · intro i j hi ho
    rw [hi] at h
    have := h.2.2 j
    by_cases hij : j < i
    · exact absurd (ho.agrees hb) (this (by omega))
    · omega

/-- C17: the exact result, violation included. For a non-empty needle the offset returned is the first one from which
the haystack, up to its end, is the start of the needle or starts with it; NULL is returned exactly when there is no
such offset. -/
theorem C17_result (a b : CStr) (hb : b ≠ []) :
    (∀ i, subString a b = some i ↔ AgreesAt a b i ∧ ∀ j, j < i → ¬ AgreesAt a b j) ∧
    (subString a b = none ↔ ∀ i, ¬ AgreesAt a b i) := by
  have h := subStringFrom_spec 0 a b hb
  change match subString a b with | some _ => _ | none => _ at h
  generalize subString a b = r at h
  cases r with
  | some k =>
    simp only [Nat.sub_zero] at h
    obtain ⟨-, h2, h3⟩ := h
    refine ⟨fun i => Iff.intro (fun hi => ?_) (fun hi => ?_), Iff.intro (fun hn => by cases hn) (fun hn => absurd h2 (hn k))⟩
    · cases hi; exact ⟨h2, h3⟩
    · rcases Nat.lt_trichotomy i k with hl | hl | hl
      · exact absurd hi.1 (h3 i hl)
      · rw [hl]
      · exact absurd h2 (hi.2 k hl)
  | none =>
    exact ⟨fun i => Iff.intro (fun hi => by cases hi) (fun hi => absurd hi.1 (h i)), Iff.intro (fun _ => h) (fun _ => rfl)⟩

/-- C17 fails for the empty needle too: it occurs at the start of every text, and NULL is returned. -/
theorem C17_empty_violated (a : CStr) : OccursAt a [] 0 ∧ subString a [] = none := by
  refine ⟨⟨by simp, by simp⟩, ?_⟩
  cases a <;> rfl

example : subString c!"xSetHeaderBrowser" c!"SetHeader" = some 1 := by decide
example : OccursAt c!"xSetHeaderBrowser" c!"setheader" 1 := by decide

end Verif.Str
