import Verif.Value.Model

/-! # Result values: C45 -/

namespace Verif.Value

/-! ## What is wanted -/

/-- The values a property has. -/
def actual (s : Source) : List CStr := if s.has then s.values else []

/-- The kind of exception for a reason, Exceptions.hpp. -/
def Matches : Reason → Exn → Prop
  | .invalidProperty, .invalidProperty _ => True
  | .tooManyValues, .tooManyValues _ => True
  | .difference, .noValuesAvailable _ => True
  | .noMatchedNodes, .noValuesAvailable _ => True
  | .noResultForProperty, .noValuesAvailable _ => True
  | .noResults, .noValuesAvailable _ => True
  | .nullProfile, .noValuesAvailable _ => True
  | .unknown, .noValuesAvailable _ => True
  | _, _ => False

/-- The message of an exception. -/
def Exn.what : Exn → CStr
  | .invalidProperty m => m
  | .tooManyValues m => m
  | .noValuesAvailable m => m

/-- Reading gives the value when there is one and otherwise throws what matches the reason. -/
theorem getValue_spec {α : Type} (v : Value α) :
    (v.has = true → v.getValue = .ok v.value) ∧
    (v.has = false → ∃ e, v.getValue = .error e ∧ Matches v.reason e) := by
  refine ⟨fun h => by simp [Value.getValue, h], fun h => ?_⟩
  rw [Value.getValue]
  simp only [h]
  cases hr : v.reason <;> cases hm : v.message <;> exact ⟨_, rfl, trivial⟩

theorem join_false (l : List CStr) : join false l = l.flatMap fun v => 124 :: v := by
  induction l with
  | nil => rfl
  | cons v l ih => simp [join, ih]

theorem join_true (l : List CStr) : join true l = [124].intercalate l := by
  cases l with
  | nil => rfl
  | cons v l =>
    rw [join, join_false]
    simp only [if_true, List.nil_append]
    induction l generalizing v with
    | nil => simp [List.intercalate]
    | cons w l ih =>
      have := ih w
      simp only [List.flatMap_cons, List.intercalate, List.intersperse_cons_cons, List.flatten_cons] at this ⊢
      rw [← this]
      simp

/-- C45: the string conversion has a value exactly when the property has one, namely all of them joined by `|`; the
reason is the engine's when it says there are none. -/
theorem C45_string (s : Source) :
    ((getValueAsString s).has = true ↔ actual s ≠ []) ∧
    (actual s ≠ [] → (getValueAsString s).getValue = .ok ([124].intercalate (actual s))) ∧
    (actual s = [] → ∃ e, (getValueAsString s).getValue = .error e ∧ Matches (getValueAsString s).reason e) ∧
    (s.has = false → (getValueAsString s).reason = s.reason) := by
  have key : (getValueAsString s).has = decide (actual s ≠ []) ∧
      (actual s ≠ [] → (getValueAsString s).value = [124].intercalate (actual s)) ∧
      (s.has = false → (getValueAsString s).reason = s.reason) := by
    rcases s with ⟨has, reason, message, values⟩
    cases has with
    | false => simp [getValueAsString, actual, Value.new, Value.setNoValueReason]
    | true =>
      match values with
      | [] => simp [getValueAsString, actual, Value.new]
      | [v] => simp [getValueAsString, actual, Value.new, Value.setValue, List.intercalate]
      | v :: w :: vs =>
        refine ⟨by simp [getValueAsString, actual, Value.new, Value.setValue], ?_, by simp⟩
        intro _
        simp only [getValueAsString, actual, Value.new, Value.setValue]
        rw [← join_true]
        simp
  refine ⟨by rw [key.1]; simp, fun h => ?_, fun h => ?_, key.2.2⟩
  · rw [(getValue_spec _).1 (by rw [key.1]; simpa using h), key.2.1 h]
  · exact (getValue_spec _).2 (by rw [key.1]; simpa using h)

/-- What is wanted of a conversion to a single value. -/
def Single {α : Type} (convert : CStr → α) (s : Source) (v : Value α) : Prop :=
  (v.has = true ↔ ∃ x, actual s = [x]) ∧
  (∀ x, actual s = [x] → v.getValue = .ok (convert x)) ∧
  ((¬ ∃ x, actual s = [x]) → ∃ e, v.getValue = .error e ∧ Matches v.reason e) ∧
  (s.has = false → v.reason = s.reason) ∧
  (1 < (actual s).length → v.reason = .tooManyValues)

theorem getValueAs_spec {α : Type} (d : α) (convert : CStr → UB α) (f : CStr → α) (s : Source)
    (h : ∀ x, actual s = [x] → convert x = some (f x)) :
    ∃ v, getValueAs d convert s = some v ∧ Single f s v := by
  rcases s with ⟨has, reason, message, values⟩
  cases has with
  | false =>
    refine ⟨_, rfl, ?_, ?_, ?_, ?_, ?_⟩
    · simp [actual, Value.new, Value.setNoValueReason]
    · simp [actual]
    · intro _; exact (getValue_spec _).2 rfl
    · intro _; rfl
    · simp [actual]
  | true =>
    match values with
    | [] =>
      refine ⟨_, rfl, ?_, ?_, ?_, ?_, ?_⟩
      · simp [actual, Value.new]
      · simp [actual]
      · intro _; exact (getValue_spec _).2 rfl
      · simp
      · simp [actual]
    | [x] =>
      have hx := h x rfl
      refine ⟨(Value.new d).setValue (f x), by simp [getValueAs, hx], ?_, ?_, ?_, ?_, ?_⟩
      · simp [actual, Value.setValue]
      · intro y hy
        simp only [actual, if_true, List.cons.injEq, and_true] at hy
        subst hy
        exact (getValue_spec _).1 rfl
      · intro hn; exact absurd ⟨x, rfl⟩ hn
      · simp
      · simp [actual]
    | x :: y :: l =>
      refine ⟨(Value.new d).setNoValueReason .tooManyValues none, by simp [getValueAs], ?_, ?_, ?_, ?_, ?_⟩
      · simp [actual, Value.new, Value.setNoValueReason]
      · simp [actual]
      · intro _; exact (getValue_spec _).2 rfl
      · simp
      · intro _; rfl

/-- C45: the bool conversion, of every list of values: a value when there is exactly one, true when it is `True`. -/
theorem C45_bool (s : Source) :
    ∃ v, getValueAsBool s = some v ∧ Single (fun x => decide (x = c!"True")) s v := by
  refine getValueAs_spec _ _ _ s ?_
  intro x _
  rw [Option.some.injEq, Bool.eq_iff_iff]
  simp

/-- C45: the double conversion, with whatever `strtod` gives. -/
theorem C45_double {α : Type} (zero : α) (strtod : CStr → α) (s : Source) :
    ∃ v, getValueAsDouble zero strtod s = some v ∧ Single strtod s v :=
  getValueAs_spec _ _ _ s (fun _ _ => rfl)

/-- The number decimal digits stand for. -/
def decimal (ds : CStr) : Nat := ds.foldl (fun n c => n * 10 + (c.toNat - 48)) 0

/-- A decimal digit. -/
def Digit (c : UInt8) : Prop := 48 ≤ c.toNat ∧ c.toNat ≤ 57

/-- A space, tab, line feed, vertical tab, form feed or carriage return. -/
def Space (c : UInt8) : Prop := c ∈ [32, 9, 10, 11, 12, 13]

/-- The text starts with the integer: white space, perhaps a sign, and all the digits there are (none count as 0). -/
def Reads (x : CStr) (n : Int) : Prop :=
  ∃ space sgn ds rest : CStr, x = space ++ (sgn ++ (ds ++ rest)) ∧ (∀ c ∈ space, Space c) ∧ (∀ c ∈ ds, Digit c) ∧
    (∀ c, rest.head? = some c → ¬ Digit c) ∧
    ((sgn = [45] ∧ n = - (decimal ds : Int)) ∨ (sgn = [43] ∧ n = decimal ds) ∨
     (sgn = [] ∧ n = decimal ds ∧ ∀ c, (ds ++ rest).head? = some c → ¬ Space c ∧ c ≠ 43 ∧ c ≠ 45))

theorem isDigit_iff (c : UInt8) : isDigit c = true ↔ Digit c := by
  simp only [isDigit, Digit, Bool.and_eq_true, decide_eq_true_eq, UInt8.le_iff_toNat_le]
  exact Iff.rfl

theorem isSpace_iff (c : UInt8) : isSpace c = true ↔ Space c := by
  simp only [isSpace, Space, Bool.and_eq_true, Bool.or_eq_true, decide_eq_true_eq, UInt8.le_iff_toNat_le, List.mem_cons,
    List.not_mem_nil, or_false, ← UInt8.toNat_inj]
  have e0 : (32 : UInt8).toNat = 32 := rfl
  have e1 : (9 : UInt8).toNat = 9 := rfl
  have e2 : (10 : UInt8).toNat = 10 := rfl
  have e3 : (11 : UInt8).toNat = 11 := rfl
  have e4 : (12 : UInt8).toNat = 12 := rfl
  have e5 : (13 : UInt8).toNat = 13 := rfl
  omega

theorem digits_all (ds rest : CStr) (h : ∀ c ∈ ds, Digit c) (hr : ∀ c, rest.head? = some c → ¬ Digit c) (n : Nat) :
    digits n (ds ++ rest) = ds.foldl (fun n c => n * 10 + (c.toNat - 48)) n := by
  induction ds generalizing n with
  | nil =>
    cases rest with
    | nil => rfl
    | cons c t =>
      rw [List.nil_append, digits, if_neg]
      · rfl
      · rw [isDigit_iff]; exact hr c rfl
  | cons c t ih =>
    rw [List.cons_append, digits, if_pos ((isDigit_iff c).2 (h c (by simp))), ih (fun c hc => h c (by simp [hc]))]
    rfl

theorem dropWhile_space {sp r : CStr} (h : ∀ c ∈ sp, Space c) (hr : ∀ c, r.head? = some c → ¬ Space c) :
    (sp ++ r).dropWhile isSpace = r := by
  induction sp with
  | nil =>
    cases r with
    | nil => rfl
    | cons c t =>
      rw [List.nil_append, List.dropWhile_cons_of_neg]
      rw [isSpace_iff]; exact hr c rfl
  | cons c sp ih =>
    rw [List.cons_append, List.dropWhile_cons_of_pos ((isSpace_iff c).2 (h c (by simp)))]
    exact ih fun c hc => h c (by simp [hc])

theorem atoi_spec {x : CStr} {n : Int} (h : Reads x n) :
    atoi x = if - 2 ^ 31 ≤ n ∧ n < 2 ^ 31 then some n else none := by
  obtain ⟨sp, sgn, ds, rest, rfl, h1, h2, h3, h4⟩ := h
  have hd : digits 0 (ds ++ rest) = decimal ds := digits_all ds rest h2 h3 0
  rcases h4 with ⟨rfl, rfl⟩ | ⟨rfl, rfl⟩ | ⟨rfl, rfl, h5⟩
  · rw [atoi, dropWhile_space h1 (by
      intro c hc
      cases Option.some.inj hc
      simp [Space])]
    simp only [List.cons_append, List.nil_append, sign, if_true, hd]
  · rw [atoi, dropWhile_space h1 (by
      intro c hc
      cases Option.some.inj hc
      simp [Space])]
    simp only [List.cons_append, List.nil_append, sign, Bool.false_eq_true, if_false, hd]
  · rw [List.nil_append, atoi, dropWhile_space h1 (fun c hc => (h5 c hc).1)]
    have hm : sign (ds ++ rest) = (false, ds ++ rest) := by
      unfold sign
      split
      · rename_i e
        exact absurd rfl (h5 45 (by rw [e]; rfl)).2.2
      · rename_i e
        exact absurd rfl (h5 43 (by rw [e]; rfl)).2.1
      · rfl
    simp only [hm, Bool.false_eq_true, if_false, hd]

theorem span_digit (t : CStr) : ∃ ds rest : CStr, t = ds ++ rest ∧ (∀ c ∈ ds, Digit c) ∧
    ∀ c, rest.head? = some c → ¬ Digit c := by
  induction t with
  | nil => exact ⟨[], [], rfl, by simp, by simp⟩
  | cons c t ih =>
    by_cases hc : isDigit c = true
    · obtain ⟨ds, rest, rfl, h1, h2⟩ := ih
      refine ⟨c :: ds, rest, rfl, ?_, h2⟩
      intro d hd
      rcases List.mem_cons.1 hd with rfl | hd
      · exact (isDigit_iff _).1 hc
      · exact h1 d hd
    · refine ⟨[], c :: t, rfl, by simp, ?_⟩
      intro d hd
      cases Option.some.inj hd
      exact fun h => hc ((isDigit_iff _).2 h)

/-- C45: every text starts with an integer in that sense. -/
theorem C45_reads (x : CStr) : ∃ n, Reads x n := by
  have hsp : ∃ sp t : CStr, x = sp ++ t ∧ (∀ c ∈ sp, Space c) ∧ ∀ c, t.head? = some c → ¬ Space c := by
    induction x with
    | nil => exact ⟨[], [], rfl, by simp, by simp⟩
    | cons c t ih =>
      by_cases hc : isSpace c = true
      · obtain ⟨sp, r, rfl, h1, h2⟩ := ih
        refine ⟨c :: sp, r, rfl, ?_, h2⟩
        intro d hd
        rcases List.mem_cons.1 hd with rfl | hd
        · exact (isSpace_iff _).1 hc
        · exact h1 d hd
      · refine ⟨[], c :: t, rfl, by simp, ?_⟩
        intro d hd
        cases Option.some.inj hd
        exact fun h => hc ((isSpace_iff _).2 h)
  obtain ⟨sp, t, rfl, h1, h2⟩ := hsp
  by_cases h45 : t.head? = some 45
  · cases t with
    | nil => cases h45
    | cons c t =>
      cases Option.some.inj h45
      obtain ⟨ds, rest, rfl, h3, h4⟩ := span_digit t
      exact ⟨_, sp, [45], ds, rest, rfl, h1, h3, h4, .inl ⟨rfl, rfl⟩⟩
  · by_cases h43 : t.head? = some 43
    · cases t with
      | nil => cases h43
      | cons c t =>
        cases Option.some.inj h43
        obtain ⟨ds, rest, rfl, h3, h4⟩ := span_digit t
        exact ⟨_, sp, [43], ds, rest, rfl, h1, h3, h4, .inr (.inl ⟨rfl, rfl⟩)⟩
    · obtain ⟨ds, rest, rfl, h3, h4⟩ := span_digit t
      refine ⟨_, sp, [], ds, rest, rfl, h1, h3, h4, .inr (.inr ⟨rfl, rfl, ?_⟩)⟩
      intro c hc
      refine ⟨h2 c hc, ?_, ?_⟩
      · rintro rfl; exact h43 hc
      · rintro rfl; exact h45 hc

/-- C45: the integer conversion, when the value starts with an integer that is an `int`. Missing: other values, for which
see `C45_overflow_violated`. -/
theorem C45_integer_partial (s : Source) (f : CStr → Int)
    (h : ∀ x, actual s = [x] → Reads x (f x) ∧ - 2 ^ 31 ≤ f x ∧ f x < 2 ^ 31) :
    ∃ v, getValueAsInteger s = some v ∧ Single f s v := by
  refine getValueAs_spec _ _ _ s ?_
  intro x hx
  obtain ⟨h1, h2⟩ := h x hx
  rw [atoi_spec h1, if_pos h2]

/-- C45: the list of values is there exactly when the engine says the property has values. -/
theorem C45_values (s : Source) :
    ((getValues s).has = true ↔ s.has = true) ∧
    (s.has = true → (getValues s).getValue = .ok s.values) ∧
    (s.has = false → (getValues s).reason = s.reason ∧
      ∃ e, (getValues s).getValue = .error e ∧ Matches s.reason e) := by
  rcases s with ⟨has, reason, message, values⟩
  cases has with
  | false =>
    refine ⟨by simp [getValues, Value.new, Value.setNoValueReason], by simp, fun _ => ⟨rfl, ?_⟩⟩
    exact (getValue_spec (getValues ⟨false, reason, message, values⟩)).2 rfl
  | true => exact ⟨by simp [getValues, Value.setValue], fun _ => rfl, by simp⟩

/-- C45: the message of the exception is the engine's, if it gives one, for all reasons but the two in
`C45_message_violated`. -/
theorem C45_message_partial (s : Source) (m : CStr) (h : s.has = false) (hm : s.message s.reason = some m)
    (hr : s.reason ≠ .noMatchedNodes ∧ s.reason ≠ .nullProfile ∧ s.reason ≠ .tooManyValues) :
    ∃ e, (getValueAsString s).getValue = .error e ∧ e.what = m := by
  rcases s with ⟨has, reason, message, values⟩
  simp only at h hm hr
  subst h
  cases reason <;> simp_all [getValueAsString, Value.new, Value.setNoValueReason, Value.getValue, newInvalidProperty,
    newNoValuesAvailable, Exn.what]

/-- C45: when the engine gives no message, or the reason is that there are too many values, the message of the exception says
what kind of failure it is. -/
theorem C45_default (s : Source) (h : s.has = false) (hm : s.message s.reason = none ∨ s.reason = .tooManyValues) :
    ∃ e, (getValueAsString s).getValue = .error e ∧ e.what =
      match s.reason with
      | .invalidProperty => c!"Requested property is not available"
      | .tooManyValues => c!"Type conversation only available for properties with a single value"
      | _ => c!"No values are available for the property requested" := by
  rcases s with ⟨has, reason, message, values⟩
  simp only at h hm
  subst h
  cases reason <;> simp_all [getValueAsString, Value.new, Value.setNoValueReason, Value.getValue, newInvalidProperty,
    newNoValuesAvailable, newTooManyValues, Exn.what]

example : (getValueAsString ⟨false, .invalidProperty, fun _ => none, []⟩).getValue =
    .error (.invalidProperty c!"Requested property is not available") := rfl

/-- C45, counterexample: for a null profile (and for no matched nodes) the engine's message is dropped,
Value.hpp:149-150. -/
theorem C45_message_violated :
    (getValueAsString ⟨false, .nullProfile, fun _ => some c!"why", []⟩).getValue =
      .error (newNoValuesAvailable none) ∧
    (getValueAsString ⟨false, .noMatchedNodes, fun _ => some c!"why", []⟩).getValue =
      .error (newNoValuesAvailable none) := ⟨rfl, rfl⟩

/-- C45, counterexample: a value that starts with an integer that is not an `int` makes `atoi` undefined,
ResultsBase.cpp:172. -/
theorem C45_overflow_violated (reason : Reason) (message : Reason → Option CStr) (x : CStr) (n : Int) (h : Reads x n)
    (hn : ¬ (- 2 ^ 31 ≤ n ∧ n < 2 ^ 31)) : getValueAsInteger ⟨true, reason, message, [x]⟩ = none := by
  have : getValueAsInteger ⟨true, reason, message, [x]⟩ = (atoi x).map (Value.new 0).setValue := rfl
  rw [this, atoi_spec h, if_neg hn]
  rfl

/-- Such values are 2147483648 and -2147483649. -/
example : Reads c!"2147483648" 2147483648 ∧ Reads c!"-2147483649" (-2147483649) :=
  ⟨⟨[], [], c!"2147483648", [], rfl, by simp, by simp [Digit], by simp, .inr (.inr ⟨rfl, by decide, by simp [Space]⟩)⟩,
    ⟨[], [45], c!"2147483649", [], rfl, by simp, by simp [Digit], by simp, .inl ⟨rfl, by decide⟩⟩⟩

example : (getValueAsString ⟨true, .unknown, fun _ => none, [c!"a", c!"b", c!"c"]⟩).value = c!"a|b|c" ∧
    (getValueAsInteger ⟨true, .unknown, fun _ => none, [c!"-12"]⟩).map (·.value) = some (-12) ∧
    (getValueAsBool ⟨true, .unknown, fun _ => none, [c!"True"]⟩).map (·.value) = some true ∧
    (getValueAsBool ⟨true, .unknown, fun _ => none, [c!"True", c!"True"]⟩).map (·.reason) = some .tooManyValues := by
  decide

example : Reads c!" +42px" 42 ∧ atoi c!" +42px" = some 42 :=
  ⟨⟨[32], [43], c!"42", c!"px", rfl, by simp [Space], by simp [Digit], by simp [Digit], .inr (.inl ⟨rfl, by decide⟩)⟩, by decide⟩

end Verif.Value
