import Verif.Flt.Model
import Mathlib.Tactic.Ring
import Mathlib.Tactic.FieldSimp
import Mathlib.Tactic.NormNum
import Mathlib.Tactic.Linarith
import Mathlib.Tactic.Positivity

/-! # Properties of the stored float format: C18 -/

namespace Verif.Flt

/-- The rational numbers that binary32 has: 24 bit integers times a power of two from 2^-149 to 2^104. -/
def Representable (q : ℚ) : Prop := ∃ (n k : ℤ), |n| < 16777216 ∧ -149 ≤ k ∧ k ≤ 104 ∧ q = n * 2 ^ k

/-- A rounding as IEEE 754 has it leaves the values of the format alone. -/
def Exact (rnd : ℚ → ℚ) : Prop := ∀ q, Representable q → rnd q = q

/-- The value of a normal number with the given fields. -/
def normal (sign exponent mantissa : Nat) : ℚ := (-1) ^ sign * 2 ^ ((exponent : ℤ) - 127) * (1 + mantissa / 8388608)

/-- The value of a subnormal number with the given fields. -/
def subnormal (sign mantissa : Nat) : ℚ := (-1) ^ sign * 2 ^ (-126 : ℤ) * (mantissa / 8388608)

theorem rep {q : ℚ} (n k : ℤ) (h1 : |n| < 16777216) (h2 : -149 ≤ k) (h3 : k ≤ 104) (h4 : q = n * 2 ^ k) :
    Representable q := ⟨n, k, h1, h2, h3, h4⟩

theorem two_zpow_add (a b : ℤ) : (2 : ℚ) ^ (a + b) = 2 ^ a * 2 ^ b := zpow_add₀ (by norm_num) a b

theorem two23 : (2 : ℚ) ^ (-23 : ℤ) = 1 / 8388608 := by norm_num

theorem rep_int (n : ℤ) (h : |n| < 16777216) : Representable (n : ℚ) := rep n 0 h (by omega) (by omega) (by simp)

theorem rep_nat (n : ℕ) (h : n < 16777216) : Representable (n : ℚ) := by
  have := rep_int (n : ℤ) (by rw [abs_of_nonneg (by omega)]; omega)
  simpa using this

theorem rep_pow2 (k : ℤ) (h1 : -149 ≤ k) (h2 : k ≤ 127) : Representable ((2 : ℚ) ^ k) := by
  by_cases h : k ≤ 104
  · exact rep 1 k (by norm_num) h1 h (by simp)
  · refine rep (2 ^ 23) (k - 23) (by norm_num) (by omega) (by omega) ?_
    rw [show k = (k - 23) + 23 by ring, two_zpow_add]
    norm_num
    ring

theorem rep_frac (m : ℕ) (h : m < 8388608) : Representable ((m : ℚ) / 8388608) := by
  refine rep m (-23) (by rw [abs_of_nonneg (by omega)]; omega) (by omega) (by omega) ?_
  rw [two23]; push_cast; ring

theorem rep_one_frac (m : ℕ) (h : m < 8388608) : Representable (1 + (m : ℚ) / 8388608) := by
  refine rep (8388608 + m) (-23) (by rw [abs_of_nonneg (by omega)]; omega) (by omega) (by omega) ?_
  rw [two23]; push_cast; ring

theorem sign_cases (s : ℕ) : ((-1 : ℚ) ^ s = 1 ∧ (-1 : ℤ) ^ s = 1) ∨ ((-1 : ℚ) ^ s = -1 ∧ (-1 : ℤ) ^ s = -1) := by
  rcases Nat.even_or_odd s with h | h
  · left; exact ⟨h.neg_one_pow, h.neg_one_pow⟩
  · right; exact ⟨h.neg_one_pow, h.neg_one_pow⟩

theorem Representable.neg {q : ℚ} (h : Representable q) : Representable (-q) := by
  obtain ⟨n, k, h1, h2, h3, rfl⟩ := h
  exact rep (-n) k (by rwa [abs_neg]) h2 h3 (by push_cast; ring)

theorem Representable.sign {q : ℚ} (h : Representable q) (s : ℕ) : Representable ((-1) ^ s * q) := by
  rcases sign_cases s with ⟨e, -⟩ | ⟨e, -⟩ <;> rw [e]
  · simpa using h
  · simpa using h.neg

theorem rep_normal (s e m : ℕ) (h1 : 1 ≤ e) (h2 : e ≤ 254) (h3 : m < 8388608) : Representable (normal s e m) := by
  rw [normal, mul_assoc]
  apply Representable.sign
  refine rep (8388608 + m) ((e : ℤ) - 150) (by rw [abs_of_nonneg (by omega)]; omega) (by omega) (by omega) ?_
  rw [show (e : ℤ) - 127 = (e - 150) + 23 by ring, two_zpow_add]
  push_cast
  norm_num
  ring

theorem rep_subnormal (s m : ℕ) (h3 : m < 8388608) : Representable (subnormal s m) := by
  rw [subnormal, mul_assoc]
  apply Representable.sign
  refine rep m (-149) (by rw [abs_of_nonneg (by omega)]; omega) (by omega) (by omega) ?_
  rw [show (-126 : ℤ) = -149 + 23 by ring, two_zpow_add]
  push_cast
  norm_num
  ring

/-! ## From stored to native -/

theorem sgn_eq {rnd : ℚ → ℚ} (hr : Exact rnd) (s : ℕ) : sgn rnd s = (-1) ^ s := by
  apply hr
  have := (rep_int 1 (by norm_num)).sign s
  simpa using this

theorem pow2_eq {rnd : ℚ → ℚ} (hr : Exact rnd) {k : ℤ} (h1 : -149 ≤ k) (h2 : k ≤ 127) : pow2 rnd k = 2 ^ k :=
  hr _ (rep_pow2 k h1 h2)

theorem toNative_normal {rnd : ℚ → ℚ} (hr : Exact rnd) (s e m : ℕ) (h1 : 1 ≤ e) (h2 : e ≤ 254) (h3 : m < 8388608) :
    toNative rnd ⟨s, e, m⟩ = .num (normal s e m) := by
  have hne : normal s e m ≠ 0 := by
    rw [normal]
    have : (0 : ℚ) < 1 + m / 8388608 := by positivity
    have h2 : (0 : ℚ) < 2 ^ ((e : ℤ) - 127) := zpow_pos (by norm_num) _
    rcases sign_cases s with ⟨e, -⟩ | ⟨e, -⟩ <;> rw [e] <;> simp <;> constructor <;> positivity
  have e1 : rnd ((-1) ^ s * 2 ^ ((e : ℤ) - 127)) = (-1) ^ s * 2 ^ ((e : ℤ) - 127) :=
    hr _ ((rep_pow2 _ (by omega) (by omega)).sign s)
  have e2 : rnd (rnd (m : ℚ) / pow2 rnd 23) = m / 8388608 := by
    rw [hr _ (rep_nat m (by omega)), pow2_eq hr (by omega) (by omega)]
    have : (2 : ℚ) ^ (23 : ℤ) = 8388608 := by norm_num
    rw [this]
    exact hr _ (rep_frac m h3)
  have e3 := hr _ (rep_one_frac m h3)
  simp only [toNative, show e ≠ 0 by omega, show e ≠ 255 by omega, if_false]
  rw [sgn_eq hr, pow2_eq hr (by omega) (by omega), e1, e2, e3]
  have e4 := hr _ (rep_normal s e m h1 h2 h3)
  rw [normal] at e4
  rw [e4, ← normal, Native.ofRat, if_neg hne]

theorem toNative_subnormal {rnd : ℚ → ℚ} (hr : Exact rnd) (s m : ℕ) (h1 : 1 ≤ m) (h3 : m < 8388608) :
    toNative rnd ⟨s, 0, m⟩ = .num (subnormal s m) := by
  have hne : subnormal s m ≠ 0 := by
    rw [subnormal]
    have h1 : (0 : ℚ) < m := by exact_mod_cast h1
    have : (0 : ℚ) < m / 8388608 := by positivity
    rcases sign_cases s with ⟨e, -⟩ | ⟨e, -⟩ <;> rw [e] <;> simp <;> omega
  have e1 : rnd ((-1) ^ s * 2 ^ (-126 : ℤ)) = (-1) ^ s * 2 ^ (-126 : ℤ) :=
    hr _ ((rep_pow2 _ (by omega) (by omega)).sign s)
  have e2 : rnd (rnd (m : ℚ) / pow2 rnd 23) = m / 8388608 := by
    rw [hr _ (rep_nat m (by omega)), pow2_eq hr (by omega) (by omega)]
    have : (2 : ℚ) ^ (23 : ℤ) = 8388608 := by norm_num
    rw [this]
    exact hr _ (rep_frac m h3)
  simp only [toNative, show m ≠ 0 by omega, if_false, if_true]
  rw [sgn_eq hr, pow2_eq hr (by omega) (by omega), show (1 : ℤ) - 127 = -126 by ring, e1, e2]
  have e4 := hr _ (rep_subnormal s m h3)
  rw [subnormal] at e4
  rw [e4, ← subnormal, Native.ofRat, if_neg hne]

/-! ## From native to stored -/

theorem log_eq {q : ℚ} {k : ℤ} (h1 : 2 ^ k ≤ q) (h2 : q < 2 ^ (k + 1)) : Int.log 2 q = k := by
  have h0 : 0 < q := lt_of_lt_of_le (zpow_pos (by norm_num) _) h1
  have a := (Int.zpow_le_iff_le_log (b := 2) (by omega) h0 (x := k)).1 (by exact_mod_cast h1)
  have b := (Int.lt_zpow_iff_log_lt (b := 2) (by omega) h0 (x := k + 1)).1 (by exact_mod_cast h2)
  omega

theorem abs_sign (s : ℕ) (x : ℚ) (hx : 0 ≤ x) : |(-1) ^ s * x| = x := by
  rcases sign_cases s with ⟨e, -⟩ | ⟨e, -⟩ <;> rw [e] <;> simp [abs_of_nonneg hx]

theorem frac_bounds (m : ℕ) (h : m < 8388608) : (0 : ℚ) ≤ m / 8388608 ∧ (m : ℚ) / 8388608 < 1 := by
  have h' : (m : ℚ) < 8388608 := by exact_mod_cast h
  refine ⟨by positivity, ?_⟩
  rw [div_lt_one (by norm_num)]
  exact h'

theorem abs_normal (s e m : ℕ) : |normal s e m| = 2 ^ ((e : ℤ) - 127) * (1 + m / 8388608) := by
  have h2 : (0 : ℚ) < 2 ^ ((e : ℤ) - 127) := zpow_pos (by norm_num) _
  rw [normal, mul_assoc, abs_sign]
  positivity

theorem signField {s : ℕ} (hs : s < 2) {x : ℚ} (hx : 0 < x) :
    ((if (-1) ^ s * x ≥ 0 then (0 : Int) else -1) % 2).toNat = s := by
  obtain rfl | rfl : s = 0 ∨ s = 1 := by omega
  · rw [if_pos (by simp; linarith)]; rfl
  · rw [if_neg (by simp; linarith)]; rfl

/-- A normal native float is stored as the same three fields. -/
theorem toStored_normal {rnd : ℚ → ℚ} (hr : Exact rnd) (s e m : ℕ) (hs : s < 2) (h1 : 1 ≤ e) (h2 : e ≤ 254)
    (h3 : m < 8388608) : toStored rnd (.num (normal s e m)) = ⟨s, e, m⟩ := by
  obtain ⟨hf0, hf1⟩ := frac_bounds m h3
  have hp : (0 : ℚ) < 2 ^ ((e : ℤ) - 127) := zpow_pos (by norm_num) _
  have hab := abs_normal s e m
  have hlog : Int.log 2 |normal s e m| = (e : ℤ) - 127 := by
    rw [hab]
    apply log_eq
    · nlinarith
    · rw [two_zpow_add]; norm_num; nlinarith
  have hex : frexpExponent (normal s e m) = (e : ℤ) - 126 := by rw [frexpExponent, hlog]; ring
  have hsig : frexpSignificand (normal s e m) = (-1) ^ s * ((1 + m / 8388608) / 2) := by
    rw [frexpSignificand, hex, normal, show (e : ℤ) - 126 = (e - 127) + 1 by ring, two_zpow_add]
    field_simp
  have hrep : Representable ((1 + (m : ℚ) / 8388608) / 2) := by
    refine rep (8388608 + m) (-24) (by rw [abs_of_nonneg (by omega)]; omega) (by omega) (by omega) ?_
    rw [show (2 : ℚ) ^ (-24 : ℤ) = 1 / 16777216 by norm_num]; push_cast; ring
  have hnot : ¬ |normal s e m| < 2 ^ (-126 : ℤ) := by
    rw [hab, not_lt]
    have : (2 : ℚ) ^ (-126 : ℤ) ≤ 2 ^ ((e : ℤ) - 127) := zpow_le_zpow_right₀ (by norm_num) (by omega)
    refine le_trans this (le_mul_of_one_le_right hp.le (by linarith))
  have e1 : |rnd (frexpSignificand (normal s e m))| = (1 + (m : ℚ) / 8388608) / 2 := by
    rw [hsig, hr _ (hrep.sign s), abs_sign]
    positivity
  have e2 : rnd ((1 + (m : ℚ) / 8388608) / 2 * 2) = 1 + m / 8388608 := by
    rw [div_mul_cancel₀ _ (by norm_num)]; exact hr _ (rep_one_frac m h3)
  have e3 : rnd (1 + (m : ℚ) / 8388608 - 1) = m / 8388608 := by
    rw [add_sub_cancel_left]; exact hr _ (rep_frac m h3)
  have e4 : rnd ((m : ℚ) / 8388608 * pow2 rnd 23) = m := by
    rw [pow2_eq hr (by omega) (by omega), show (2 : ℚ) ^ (23 : ℤ) = 8388608 by norm_num,
      div_mul_cancel₀ _ (by norm_num)]
    exact hr _ (rep_nat m (by omega))
  simp only [toStored, if_neg hnot]
  rw [e1, e2, e3, e4, hex]
  simp only [Stored.make, trunc]
  congr 1
  · rw [normal, mul_assoc]
    exact signField hs (by positivity)
  · have : ((e : ℤ) - 126 - 1 + 127) % 256 = e := by omega
    rw [this]; rfl
  · rw [Int.floor_natCast]
    have : (m : ℤ) % 8388608 = m := by omega
    rw [this]; rfl

theorem abs_subnormal (s m : ℕ) : |subnormal s m| = m * 2 ^ (-149 : ℤ) := by
  rw [subnormal, mul_assoc, abs_sign _ _ (by positivity), show (-126 : ℤ) = -149 + 23 by ring, two_zpow_add]
  norm_num
  ring

/-- A subnormal native float is stored with the leading bits of its mantissa: `m * 2 ^ j` where `j` moves the first
set bit to bit 22. -/
theorem toStored_subnormal {rnd : ℚ → ℚ} (hr : Exact rnd) (s m j : ℕ) (hs : s < 2) (hm : 1 ≤ m)
    (hj1 : 4194304 ≤ m * 2 ^ j) (hj2 : m * 2 ^ j < 8388608) :
    toStored rnd (.num (subnormal s m)) = ⟨s, 0, m * 2 ^ j⟩ := by
  have hm' : (0 : ℚ) < m := by exact_mod_cast hm
  have hj1' : (4194304 : ℚ) ≤ m * 2 ^ j := by exact_mod_cast hj1
  have hj2' : (m : ℚ) * 2 ^ j < 8388608 := by exact_mod_cast hj2
  have hpj : (0 : ℚ) < 2 ^ j := by positivity
  have hab := abs_subnormal s m
  have hz : ∀ k : ℤ, (2 : ℚ) ^ (k - j) * 2 ^ j = 2 ^ k := by
    intro k
    rw [← zpow_natCast, ← two_zpow_add]
    congr 1; ring
  have hlog : Int.log 2 |subnormal s m| = -127 - (j : ℤ) := by
    rw [hab]
    have k1 : (0 : ℚ) < 2 ^ (-149 : ℤ) := zpow_pos (by norm_num) _
    apply log_eq
    · have a := hz (-127)
      have b : (2 : ℚ) ^ (-127 : ℤ) = 4194304 * 2 ^ (-149 : ℤ) := by
        rw [show (-127 : ℤ) = 22 + -149 by ring, two_zpow_add]; norm_num
      rw [b] at a
      rw [← mul_le_mul_iff_left₀ hpj, a]
      nlinarith
    · have a := hz (-126)
      have b : (2 : ℚ) ^ (-126 : ℤ) = 8388608 * 2 ^ (-149 : ℤ) := by
        rw [show (-126 : ℤ) = 23 + -149 by ring, two_zpow_add]; norm_num
      rw [b] at a
      rw [show -127 - (j : ℤ) + 1 = -126 - j by ring, ← mul_lt_mul_iff_left₀ hpj, a]
      nlinarith
  have hex : frexpExponent (subnormal s m) = -126 - (j : ℤ) := by rw [frexpExponent, hlog]; ring
  have hsig : frexpSignificand (subnormal s m) = (-1) ^ s * ((m * 2 ^ j : ℕ) / 8388608) := by
    have a := hz (-126)
    have k2 : (0 : ℚ) < 2 ^ (-126 - (j : ℤ)) := zpow_pos (by norm_num) _
    rw [frexpSignificand, hex, subnormal, ← a]
    push_cast
    field_simp
  have hlt : |subnormal s m| < 2 ^ (-126 : ℤ) := by
    rw [hab, show (-126 : ℤ) = 23 + -149 by ring, two_zpow_add]
    have k1 : (0 : ℚ) < 2 ^ (-149 : ℤ) := zpow_pos (by norm_num) _
    have : (m : ℚ) < 8388608 := by
      have : (1 : ℚ) ≤ 2 ^ j := one_le_pow₀ (by norm_num)
      nlinarith
    have : (2 : ℚ) ^ (23 : ℤ) = 8388608 := by norm_num
    rw [this]
    nlinarith
  have e1 : |rnd (frexpSignificand (subnormal s m))| = ((m * 2 ^ j : ℕ) : ℚ) / 8388608 := by
    rw [hsig, hr _ ((rep_frac _ hj2).sign s), abs_sign]
    positivity
  have e4 : rnd (((m * 2 ^ j : ℕ) : ℚ) / 8388608 * pow2 rnd 23) = (m * 2 ^ j : ℕ) := by
    rw [pow2_eq hr (by omega) (by omega), show (2 : ℚ) ^ (23 : ℤ) = 8388608 by norm_num,
      div_mul_cancel₀ _ (by norm_num)]
    exact hr _ (rep_nat _ (by omega))
  simp only [toStored, if_pos hlt]
  rw [e1, e4]
  simp only [Stored.make, trunc]
  congr 1
  · rw [subnormal, mul_assoc]
    exact signField hs (by positivity)
  · rw [Int.floor_natCast]
    generalize m * 2 ^ j = x at *
    have : (x : ℤ) % 8388608 = x := by omega
    rw [this]; rfl

/-! ## The properties -/

/-- C18: every normal single precision value comes back from the stored form, and its stored form has the three fields of the IEEE
754 encoding. Missing: see `C18_subnormal_violated` and `C18_special_violated`. -/
theorem C18_normal_partial {rnd : ℚ → ℚ} (hr : Exact rnd) (s e m : ℕ) (hs : s < 2) (h1 : 1 ≤ e) (h2 : e ≤ 254)
    (h3 : m < 8388608) :
    toStored rnd (.num (normal s e m)) = ⟨s, e, m⟩ ∧
    toNative rnd (toStored rnd (.num (normal s e m))) = .num (normal s e m) := by
  have := toStored_normal hr s e m hs h1 h2 h3
  exact ⟨this, by rw [this]; exact toNative_normal hr s e m h1 h2 h3⟩

/-- C18: positive zero and infinity come back, and a NaN comes back as a NaN. Zeros are stored as four zero bytes. Infinity and
NaN are stored with the sign 0, the exponent 255 and, for infinity alone, all bits of the mantissa. Missing: negative zero and
infinity, see `C18_special_violated`. -/
theorem C18_special_partial (rnd : ℚ → ℚ) :
    (∀ neg, (toStored rnd (.zero neg)).bytes = [0, 0, 0, 0]) ∧
    (∀ neg, toStored rnd (.inf neg) = ⟨0, 255, 8388607⟩) ∧
    (∀ neg p, ∃ m, toStored rnd (.nan neg p) = ⟨0, 255, m⟩ ∧ 0 < m ∧ m < 8388607) ∧
    toNative rnd (toStored rnd (.zero false)) = .zero false ∧
    toNative rnd (toStored rnd (.inf false)) = .inf false ∧
    ∀ neg p, ∃ neg' p', toNative rnd (toStored rnd (.nan neg p)) = .nan neg' p' :=
  ⟨fun _ => by simp [toStored, Stored.make, Stored.bytes], fun _ => by simp [toStored, Stored.make], fun _ _ => ⟨1, by simp [toStored, Stored.make], by omega, by omega⟩, by simp [toStored, Stored.make, toNative],
    by simp [toStored, Stored.make, toNative], fun _ _ => ⟨false, 4194304, by simp [toStored, Stored.make, toNative]⟩⟩

/-- C18: the upper half of the subnormal values come back. Missing: smaller values, see `C18_subnormal_violated`. -/
theorem C18_subnormal_partial {rnd : ℚ → ℚ} (hr : Exact rnd) (s m : ℕ) (hs : s < 2) (h1 : 4194304 ≤ m)
    (h3 : m < 8388608) :
    toNative rnd (toStored rnd (.num (subnormal s m))) = .num (subnormal s m) := by
  have := toStored_subnormal hr s m 0 hs (by omega) (by omega) (by omega)
  rw [this]
  have e : m * 2 ^ 0 = m := by omega
  rw [e]
  exact toNative_subnormal hr s m (by omega) h3

/-- C18: every stored normal value comes back from the native form. Missing: values that are not normal, see
`C18_special_violated`. -/
theorem C18_stored_partial {rnd : ℚ → ℚ} (hr : Exact rnd) (s e m : ℕ) (hs : s < 2) (h1 : 1 ≤ e) (h2 : e ≤ 254)
    (h3 : m < 8388608) : toStored rnd (toNative rnd ⟨s, e, m⟩) = ⟨s, e, m⟩ := by
  rw [toNative_normal hr s e m h1 h2 h3]
  exact toStored_normal hr s e m hs h1 h2 h3

/-- C18: every stored value is read as IEEE 754 defines it. (Partial: except zeros, whose sign is lost, and the exponent 255 with
the mantissa 0 or all ones.) Missing: these, see `C18_special_violated`. -/
theorem C18_read_partial {rnd : ℚ → ℚ} (hr : Exact rnd) (s m : ℕ) (h3 : m < 8388608) :
    (∀ e, 1 ≤ e → e ≤ 254 → toNative rnd ⟨s, e, m⟩ = .num (normal s e m)) ∧
    (1 ≤ m → toNative rnd ⟨s, 0, m⟩ = .num (subnormal s m)) ∧
    (1 ≤ m → m ≠ 8388607 → ∃ neg p, toNative rnd ⟨s, 255, m⟩ = .nan neg p) :=
  ⟨fun e h1 h2 => toNative_normal hr s e m h1 h2 h3, fun h => toNative_subnormal hr s m h h3,
   fun _ h => ⟨_, _, by simp [toNative, h]; exact ⟨rfl, rfl⟩⟩⟩

/-- C18, counterexample: no subnormal value below 2^-127 comes back: it is stored as its significand and the exponent is
lost, float.c:98-107. -/
theorem C18_subnormal_violated {rnd : ℚ → ℚ} (hr : Exact rnd) (s m : ℕ) (hs : s < 2) (h1 : 1 ≤ m) (h3 : m < 4194304) :
    toNative rnd (toStored rnd (.num (subnormal s m))) ≠ .num (subnormal s m) := by
  -- the shift that moves the first bit to bit 22
  obtain ⟨j, hj1, hj2⟩ : ∃ j, 4194304 ≤ m * 2 ^ j ∧ m * 2 ^ j < 8388608 := by
    refine ⟨22 - Nat.log 2 m, ?_, ?_⟩
    all_goals
      have a := Nat.pow_log_le_self 2 (show m ≠ 0 by omega)
      have b := Nat.lt_pow_succ_log_self (b := 2) (by omega) m
      have c : Nat.log 2 m < 22 := Nat.log_lt_of_lt_pow (by omega) (by omega)
      generalize Nat.log 2 m = l at *
    · calc 4194304 = 2 ^ l * 2 ^ (22 - l) := by rw [← pow_add, show l + (22 - l) = 22 by omega]; norm_num
        _ ≤ _ := Nat.mul_le_mul_right _ a
    · calc m * 2 ^ (22 - l) < 2 ^ (l + 1) * 2 ^ (22 - l) := Nat.mul_lt_mul_of_pos_right b (by positivity)
        _ = 8388608 := by rw [← pow_add, show l + 1 + (22 - l) = 23 by omega]; norm_num
  have hne : m * 2 ^ j ≠ m := by omega
  rw [toStored_subnormal hr s m j hs h1 hj1 hj2, toNative_subnormal hr s _ (by omega) hj2]
  intro e
  have e := Native.num.inj e
  have e := congrArg abs e
  rw [abs_subnormal, abs_subnormal] at e
  have k1 : (0 : ℚ) < 2 ^ (-149 : ℤ) := zpow_pos (by norm_num) _
  have := mul_right_cancel₀ (ne_of_gt k1) e
  exact hne (by exact_mod_cast this)

/-- C18, counterexample: the signs of negative zero and negative infinity are lost, and the encoding IEEE 754 has for
infinity is read as NaN, float.c:54-67. -/
theorem C18_special_violated (rnd : ℚ → ℚ) :
    toNative rnd (toStored rnd (.zero true)) = .zero false ∧ toNative rnd (toStored rnd (.inf true)) = .inf false ∧
    ∃ neg p, toNative rnd ⟨0, 255, 0⟩ = .nan neg p := ⟨rfl, rfl, _, _, rfl⟩

/-- C18: the comparison reads nothing but the two values and gives 0 exactly for equal stored values. -/
theorem C18_equal {a b : Stored} (ha : a.sign < 2 ∧ a.exponent < 256 ∧ a.mantissa < 8388608)
    (hb : b.sign < 2 ∧ b.exponent < 256 ∧ b.mantissa < 8388608) :
    (∃ r, isEqual a.bytes b.bytes = some r) ∧ (isEqual a.bytes b.bytes = some 0 ↔ a = b) := by
  have key : ∀ x y z w x' y' z' w' : UInt8, (∃ r, isEqual [x, y, z, w] [x', y', z', w'] = some r) ∧
      (isEqual [x, y, z, w] [x', y', z', w'] = some 0 ↔ x = x' ∧ y = y' ∧ z = z' ∧ w = w') := by
    intro x y z w x' y' z' w'
    by_cases h1 : x = x' <;> by_cases h2 : y = y' <;> by_cases h3 : z = z' <;> by_cases h4 : w = w' <;>
      simp [isEqual, List.range, List.range.loop, equalLoop, h1, h2, h3, h4]
  obtain ⟨s, e, m⟩ := a
  obtain ⟨s', e', m'⟩ := b
  simp only at ha hb
  rw [Stored.bytes, Stored.bytes]
  refine ⟨(key _ _ _ _ _ _ _ _).1, (key _ _ _ _ _ _ _ _).2.trans ?_⟩
  constructor
  · rintro ⟨h1, h2, h3, h4⟩
    have h1 := congrArg UInt8.toNat h1
    have h2 := congrArg UInt8.toNat h2
    have h3 := congrArg UInt8.toNat h3
    have h4 := congrArg UInt8.toNat h4
    simp only [UInt8.toNat_ofNat'] at h1 h2 h3 h4
    have : m + e * 8388608 + s * 2147483648 = m' + e' * 8388608 + s' * 2147483648 := by omega
    have hm : m = m' := by omega
    have he : e = e' := by omega
    have hs : s = s' := by omega
    rw [hm, he, hs]
  · intro h
    obtain ⟨rfl, rfl, rfl⟩ := Stored.mk.inj h
    exact ⟨rfl, rfl, rfl, rfl⟩

/-- The identity is such a rounding, and -6.5 is a normal number. -/
example : Exact id ∧ normal 1 129 5242880 = -6.5 ∧ toNative id ⟨1, 129, 5242880⟩ = .num (-6.5) := by
  have h : Exact id := fun _ _ => rfl
  have e : normal 1 129 5242880 = -6.5 := by norm_num [normal]
  exact ⟨h, e, by rw [toNative_normal h 1 129 5242880 (by omega) (by omega) (by omega), e]⟩

/-- The smallest positive number, 2^-149, comes back as 2^-127. -/
example : toNative id (toStored id (.num (2 ^ (-149 : ℤ)))) = .num (2 ^ (-127 : ℤ)) := by
  have h : Exact id := fun _ _ => rfl
  have e : (2 : ℚ) ^ (-149 : ℤ) = subnormal 0 1 := by norm_num [subnormal]
  rw [e, toStored_subnormal h 0 1 22 (by omega) (by omega) (by omega) (by omega),
    toNative_subnormal h 0 _ (by omega) (by omega)]
  norm_num [subnormal]

end Verif.Flt
