import Verif.Ip.Model

/-! # Lemmas about the IP address model -/

namespace Verif.Ip

/-- No character of the text is a separator. -/
def NoSep (t : CStr) : Prop := ∀ c ∈ t, isSep c = false

theorem NoSep.tail {c : UInt8} {t : CStr} (h : NoSep (c :: t)) : isSep c = false ∧ NoSep t :=
  ⟨h c (by simp), fun d hd => h d (by simp [hd])⟩

/-- Scanning a token that is followed by a separator and more text. -/
theorem scan_token (t : CStr) (ht : NoSep t) (c : UInt8) (hc : isSep c = true) (n : Nat) (rest : CStr) :
    ∀ (type cur : Ty) (st : Bool) (seg sa : CStr),
    scan (t.length + (n + 1)) type cur st seg sa (t ++ c :: rest) =
      (let r := step type cur (st && t.isEmpty) (seg ++ t) sa c
       let u := scan n r.1 r.2.1 false [] rest rest
       (u.1, r.2.2 ++ u.2)) := by
  induction t with
  | nil => intro type cur st seg sa; simp [scan, hc]
  | cons d t ih =>
    intro type cur st seg sa
    obtain ⟨hd, ht⟩ := ht.tail
    have e : (d :: t).length + (n + 1) = (t.length + (n + 1)) + 1 := by simp; omega
    have ih' := ih ht
    rw [e]
    generalize t.length + (n + 1) = m at ih' ⊢
    simp only [scan, List.cons_append, List.headD_cons, List.tail_cons, hd]
    simp only [Bool.false_eq_true, if_false]
    rw [ih']
    simp

/-- Scanning the last token. -/
theorem scan_last (t : CStr) (ht : NoSep t) (rest : CStr) (hc : isSep (rest.headD 0) = true) :
    ∀ (type cur : Ty) (st : Bool) (seg sa : CStr), seg ++ t ≠ [] →
    scan t.length type cur st seg sa (t ++ rest) =
      (let r := step type cur (st && t.isEmpty) (seg ++ t) sa (rest.headD 0); (r.1, r.2.2)) := by
  induction t with
  | nil =>
    intro type cur st seg sa h
    simp only [List.append_nil] at h
    simp only [List.length_nil, List.nil_append, scan, h, if_false, hc, if_true]
    simp
  | cons d t ih =>
    intro type cur st seg sa h
    obtain ⟨hd, ht⟩ := ht.tail
    simp only [List.length_cons, scan, List.cons_append, List.headD_cons, List.tail_cons, hd]
    simp only [Bool.false_eq_true, if_false]
    rw [ih ht]
    · simp
    · simp

theorem scan_zero_nil (type cur : Ty) (st : Bool) (sa rest : CStr) : scan 0 type cur st [] sa rest = (type, []) := by
  simp [scan]

theorem writeAll_eq (cap : Nat) : ∀ (bs w : List UInt8), w.length ≤ cap →
    writeAll cap w bs = if w.length + bs.length ≤ cap then some (w ++ bs) else none := by
  intro bs
  induction bs with
  | nil => intro w h; simp [writeAll, h]
  | cons b bs ih =>
    intro w h
    simp only [writeAll, write]
    by_cases hlt : w.length < cap
    · simp only [hlt, if_true, Option.bind_some]
      rw [ih _ (by simp; omega)]
      simp only [List.length_append, List.length_cons, List.length_nil, List.append_assoc, List.singleton_append]
      split <;> split <;> first | rfl | omega
    · simp only [hlt, if_false, Option.bind_none]
      rw [if_neg (by simp; omega)]

/-- Building is undefined exactly when the bytes do not fit. -/
theorem build_eq (cap present : Nat) : ∀ (gs : List Seg) (w : List UInt8), w.length ≤ cap →
    build cap present w gs =
      if w.length + (gs.flatMap (segBytes present)).length ≤ cap then some (w ++ gs.flatMap (segBytes present))
      else none := by
  intro gs
  induction gs with
  | nil => intro w h; simp [build, h]
  | cons g gs ih =>
    intro w h
    simp only [build, writeAll_eq cap _ w h, List.flatMap_cons, List.length_append]
    by_cases hlt : w.length + (segBytes present g).length ≤ cap
    · simp only [hlt, if_true, Option.bind_some]
      rw [ih _ (by simp; omega)]
      simp only [List.length_append, List.append_assoc]
      split <;> split <;> first | rfl | omega
    · simp only [hlt, if_false, Option.bind_none]
      rw [if_neg (by omega)]

/-- Decimal digits. -/
def isDec (c : UInt8) : Bool := 48 ≤ c && c ≤ 57

theorem isDec_spec {c : UInt8} (h : isDec c = true) : 48 ≤ c.toNat ∧ c.toNat ≤ 57 := by
  simp only [isDec, Bool.and_eq_true, decide_eq_true_eq, UInt8.le_iff_toNat_le] at h
  exact h

theorem isDec_noSep {c : UInt8} (h : isDec c = true) : isSep c = false := by
  have := isDec_spec h
  simp only [isSep, Bool.or_eq_false_iff, decide_eq_false_iff_not]
  refine ⟨⟨⟨⟨?_, ?_⟩, ?_⟩, ?_⟩, ?_⟩ <;> (rintro rfl; simp at this)

theorem sep_not_digit {c : UInt8} (h : isSep c = true) : digit c = none := by
  simp only [isSep, Bool.or_eq_true, decide_eq_true_eq] at h
  rcases h with (((h | h) | h) | h) | h <;> subst h <;> decide

/-- The number a decimal text denotes, most significant digit first. -/
def decNum (t : CStr) : Nat := t.foldl (fun acc c => acc * 10 + (c.toNat - 48)) 0

theorem digits_dec (t : CStr) (ht : ∀ c ∈ t, isDec c = true) (rest : CStr) (hr : isSep (rest.headD 0) = true) :
    ∀ acc, digits 10 acc (t ++ rest) = t.foldl (fun acc c => acc * 10 + (c.toNat - 48)) acc := by
  induction t with
  | nil =>
    intro acc
    cases rest with
    | nil => simp [digits]
    | cons c rest =>
      simp only [List.headD_cons] at hr
      simp [digits, sep_not_digit hr]
  | cons d t ih =>
    intro acc
    have hd := isDec_spec (ht d (by simp))
    have : digit d = some (d.toNat - 48) := by
      simp [digit, UInt8.le_iff_toNat_le, hd]
    simp only [List.cons_append, digits, this, List.foldl_cons]
    rw [if_pos (by omega), ih (fun c hc => ht c (by simp [hc]))]

theorem sign_digit {c : UInt8} {cs : CStr} (h : 48 ≤ c.toNat) : sign (c :: cs) = (false, c :: cs) := by
  have h1 : c ≠ 45 := by rintro rfl; simp at h
  have h2 : c ≠ 43 := by rintro rfl; simp at h
  simp [sign, h1, h2]

theorem skip_digit {c : UInt8} {cs : CStr} (h : 48 ≤ c.toNat) : skipSpace (c :: cs) = c :: cs := by
  have h1 : c ≠ 32 := by rintro rfl; simp at h
  have h2 : isSpace c = false := by
    simp only [isSpace, h1, decide_false, Bool.false_or, UInt8.le_iff_toNat_le, Bool.and_eq_false_iff,
      decide_eq_false_iff_not]
    right
    show ¬ c.toNat ≤ 13
    omega
  simp [skipSpace, h2]

theorem atoi_dec (t : CStr) (ht : ∀ c ∈ t, isDec c = true) (hne : t ≠ []) (hv : decNum t < 2 ^ 31) (rest : CStr)
    (hr : isSep (rest.headD 0) = true) : atoi (t ++ rest) = decNum t := by
  obtain ⟨d, t', rfl⟩ := List.exists_cons_of_ne_nil hne
  have hd := isDec_spec (ht d (by simp))
  have h1 : skipSpace (d :: t' ++ rest) = d :: t' ++ rest := skip_digit hd.1
  have h2 : sign (d :: t' ++ rest) = (false, d :: t' ++ rest) := sign_digit hd.1
  have h3 := digits_dec (d :: t') ht rest hr 0
  change digits 10 0 (d :: t' ++ rest) = decNum (d :: t') at h3
  simp only [atoi, strtol, h1, h2]
  have h5 : (if (10 : Nat) = 16 then skipPrefix (d :: t' ++ rest) else d :: t' ++ rest) = d :: t' ++ rest := rfl
  rw [h5, h3]
  generalize decNum (d :: t') = v at *
  simp only [Bool.false_eq_true, if_false]
  have : min v (2 ^ 63 - 1) = v := by omega
  rw [this]
  unfold toInt
  have : ((v : Int) % 2 ^ 32) = v := by omega
  rw [this, if_pos (by omega)]

theorem ipByte_min (v : Nat) : ipByte (v : Int) = UInt8.ofNat (min v 255) := by
  unfold ipByte
  rw [if_neg (by omega)]
  split
  · rw [Nat.min_eq_right (by omega)]; rfl
  · rw [Nat.min_eq_left (by omega)]; simp

theorem ipByte_nat {v : Nat} (hv : v < 256) : ipByte (v : Int) = UInt8.ofNat v := by
  unfold ipByte
  rw [if_neg (by omega), if_neg (by omega)]
  simp

/-- Hexadecimal digits and their values. -/
def hexVal (c : UInt8) : Nat :=
  if c.toNat ≤ 57 then c.toNat - 48 else if c.toNat ≤ 70 then c.toNat - 55 else c.toNat - 87

/-- `0`-`9`, `A`-`F`, `a`-`f`. -/
def isHex (c : UInt8) : Bool :=
  (48 ≤ c.toNat && c.toNat ≤ 57) || (65 ≤ c.toNat && c.toNat ≤ 70) || (97 ≤ c.toNat && c.toNat ≤ 102)

theorem isHex_spec {c : UInt8} (h : isHex c = true) : digit c = some (hexVal c) ∧ hexVal c < 16 ∧ 48 ≤ c.toNat ∧
    isSep c = false ∧ c ≠ 120 ∧ c ≠ 88 := by
  have key : ∀ n : Fin 256, isHex (UInt8.ofNat n) = true → digit (UInt8.ofNat n) = some (hexVal (UInt8.ofNat n)) ∧
      hexVal (UInt8.ofNat n) < 16 ∧ 48 ≤ (UInt8.ofNat n).toNat ∧
      isSep (UInt8.ofNat n) = false ∧ UInt8.ofNat n ≠ 120 ∧ UInt8.ofNat n ≠ 88 := by decide +kernel
  have := key ⟨c.toNat, c.toNat_lt⟩
  simp only [UInt8.ofNat_toNat] at this
  exact this h

theorem strtol_hex {a b : UInt8} (ha : isHex a = true) (hb : isHex b = true) :
    ipByte (toInt (strtol 16 [a, b])) = UInt8.ofNat (hexVal a * 16 + hexVal b) := by
  obtain ⟨a1, a2, a3, -, -, -⟩ := isHex_spec ha
  obtain ⟨b1, b2, -, -, b5, b6⟩ := isHex_spec hb
  have h3 : digits 16 0 [a, b] = hexVal a * 16 + hexVal b := by simp [digits, a1, b1, a2, b2]
  simp only [strtol, skip_digit a3, sign_digit a3]
  have h4 : skipPrefix [a, b] = [a, b] := by simp [skipPrefix, b5, b6]
  simp only [if_true, h4, h3]
  simp only [Bool.false_eq_true, if_false]
  have : min (hexVal a * 16 + hexVal b) (2 ^ 63 - 1) = hexVal a * 16 + hexVal b := by omega
  rw [this]
  have e : toInt ((hexVal a * 16 + hexVal b : Nat) : Int) = ((hexVal a * 16 + hexVal b : Nat) : Int) := by
    unfold toInt
    have : (((hexVal a * 16 + hexVal b : Nat) : Int) % 2 ^ 32) = ((hexVal a * 16 + hexVal b : Nat) : Int) := by omega
    rw [this, if_pos (by omega)]
  rw [e, ipByte_nat (by omega)]

end Verif.Ip
