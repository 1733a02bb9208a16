import Verif.Ip.Props

/-! # C31: texts that are not well formed

The parts of a dotted text are read with `atoi` and the groups of an IPv6 text with `strtol`, neither of which
reports characters it cannot read. Here is what they give for any characters at all. -/

namespace Verif.Ip

/-! ## Specification -/

/-- A space, tab, line feed, vertical tab, form feed or carriage return. -/
def Space (c : UInt8) : Prop := c ∈ [32, 9, 10, 11, 12, 13]

/-- A decimal digit. -/
def Digit (c : UInt8) : Prop := 48 ≤ c.toNat ∧ c.toNat ≤ 57

/-- The text starts with the integer: white space, perhaps a sign, and all the digits there are (none count as 0). -/
def Reads (x : CStr) (n : Int) : Prop :=
  ∃ space sgn ds rest : CStr, x = space ++ (sgn ++ (ds ++ rest)) ∧ (∀ c ∈ space, Space c) ∧ (∀ c ∈ ds, Digit c) ∧
    (∀ c, rest.head? = some c → ¬ Digit c) ∧
    ((sgn = [45] ∧ n = - (decNum ds : Int)) ∨ (sgn = [43] ∧ n = decNum ds) ∨
     (sgn = [] ∧ n = decNum ds ∧ ∀ c, (ds ++ rest).head? = some c → ¬ Space c ∧ c ≠ 43 ∧ c ≠ 45))

/-- The nearest of the numbers a byte can hold. -/
def nearest (n : Int) : UInt8 := UInt8.ofNat (min n.toNat 255)

/-- A part of a dotted text made of any characters but separators, not all of them white space, that starts with an
integer that fits an `int`. -/
structure AnyPart (t : CStr) (n : Int) : Prop where
  noSep : ∀ c ∈ t, c ∉ separators
  visible : ∃ c ∈ t, ¬ Space c
  reads : Reads t n
  fits : -2 ^ 31 ≤ n ∧ n < 2 ^ 31

/-! ## Reading a part -/

theorem isSpace_iff (c : UInt8) : isSpace c = true ↔ Space c := by
  simp only [isSpace, Space, Bool.and_eq_true, Bool.or_eq_true, decide_eq_true_eq, UInt8.le_iff_toNat_le, List.mem_cons,
    List.not_mem_nil, or_false, ← UInt8.toNat_inj]
  have e0 : (32 : UInt8).toNat = 32 := rfl
  have e1 : (9 : UInt8).toNat = 9 := rfl
  have e2 : (10 : UInt8).toNat = 10 := rfl
  have e3 : (11 : UInt8).toNat = 11 := rfl
  have e4 : (12 : UInt8).toNat = 12 := rfl
  have e5 : (13 : UInt8).toNat = 13 := rfl
  omega

theorem sep_not_Digit {c : UInt8} (h : isSep c = true) : ¬ Digit c := by
  simp only [isSep, Bool.or_eq_true, decide_eq_true_eq] at h
  rcases h with (((h | h) | h) | h) | h <;> subst h <;> simp [Digit]

theorem digit_of {c : UInt8} (h : Digit c) : digit c = some (c.toNat - 48) := by
  simp [digit, UInt8.le_iff_toNat_le, h.1, h.2]

/-- A character that is not a decimal digit stops the reading of a decimal number. -/
theorem digits_stop {c : UInt8} (h : ¬ Digit c) (acc : Nat) (cs : CStr) : digits 10 acc (c :: cs) = acc := by
  have key : ∀ n : Fin 256, ¬ (48 ≤ n.val ∧ n.val ≤ 57) →
      (digit (UInt8.ofNat n) = none ∨ ∃ d : Fin 17, 10 ≤ d.val ∧ digit (UInt8.ofNat n) = some d.val) := by decide +kernel
  have := key ⟨c.toNat, c.toNat_lt⟩ h
  simp only [UInt8.ofNat_toNat] at this
  rcases this with h | ⟨d, hd, h⟩
  · simp [digits, h]
  · simp only [digits, h]
    rw [if_neg (by omega)]

theorem digits_all (ds rest : CStr) (h : ∀ c ∈ ds, Digit c) (hr : ∀ c, rest.head? = some c → ¬ Digit c) :
    ∀ n, digits 10 n (ds ++ rest) = ds.foldl (fun n c => n * 10 + (c.toNat - 48)) n := by
  induction ds with
  | nil =>
    intro n
    cases rest with
    | nil => rfl
    | cons c t => exact digits_stop (hr c rfl) n t
  | cons c t ih =>
    intro n
    have hc := h c (by simp)
    simp only [List.cons_append, digits, digit_of hc]
    rw [if_pos (by have := hc.2; omega), ih (fun c hc => h c (by simp [hc]))]
    rfl

theorem skipSpace_all {sp r : CStr} (h : ∀ c ∈ sp, Space c) (hr : ∀ c, r.head? = some c → ¬ Space c) :
    skipSpace (sp ++ r) = r := by
  induction sp with
  | nil =>
    cases r with
    | nil => rfl
    | cons c t =>
      rw [List.nil_append, skipSpace, if_neg]
      rw [isSpace_iff]; exact hr c rfl
  | cons c sp ih =>
    rw [List.cons_append, skipSpace, if_pos ((isSpace_iff c).2 (h c (by simp)))]
    exact ih fun c hc => h c (by simp [hc])

theorem toInt_fits {n : Int} (h : -2 ^ 31 ≤ n ∧ n < 2 ^ 31) : toInt n = n := by
  unfold toInt
  split <;> omega

theorem atoi_reads {x : CStr} {n : Int} (h : Reads x n) (hn : -2 ^ 31 ≤ n ∧ n < 2 ^ 31) : atoi x = n := by
  obtain ⟨sp, sgn, ds, rest, rfl, h1, h2, h3, h4⟩ := h
  have hd : digits 10 0 (ds ++ rest) = decNum ds := digits_all ds rest h2 h3 0
  have h10 : ∀ t : CStr, (if (10 : Nat) = 16 then skipPrefix t else t) = t := fun t => rfl
  rw [atoi, strtol]
  rcases h4 with ⟨rfl, rfl⟩ | ⟨rfl, rfl⟩ | ⟨rfl, rfl, h5⟩
  · rw [skipSpace_all h1 (by intro c hc; cases Option.some.inj hc; simp [Space])]
    simp only [List.cons_append, List.nil_append, sign, if_true, h10, hd]
    rw [Nat.min_eq_left (by omega)]
    exact toInt_fits hn
  · rw [skipSpace_all h1 (by intro c hc; cases Option.some.inj hc; simp [Space])]
    have hm : sign ([43] ++ (ds ++ rest)) = (false, ds ++ rest) := rfl
    simp only [hm, h10, hd, Bool.false_eq_true, if_false]
    rw [Nat.min_eq_left (by omega)]
    exact toInt_fits hn
  · rw [List.nil_append, skipSpace_all h1 (fun c hc => (h5 c hc).1)]
    have hm : sign (ds ++ rest) = (false, ds ++ rest) := by
      cases hx : ds ++ rest with
      | nil => rfl
      | cons c t =>
        obtain ⟨-, k1, k2⟩ := h5 c (by rw [hx]; rfl)
        rw [sign, if_neg k2, if_neg k1]
    simp only [hm, h10, hd, Bool.false_eq_true, if_false]
    rw [Nat.min_eq_left (by omega)]
    exact toInt_fits hn

theorem Reads.append {t rest : CStr} {n : Int} (h : Reads t n) (hv : ∃ c ∈ t, ¬ Space c)
    (hr : isSep (rest.headD 0) = true) : Reads (t ++ rest) n := by
  obtain ⟨sp, sgn, ds, r, rfl, h1, h2, h3, h4⟩ := h
  refine ⟨sp, sgn, ds, r ++ rest, by simp, h1, h2, ?_, ?_⟩
  · intro c hc
    cases r with
    | nil =>
      cases rest with
      | nil => cases hc
      | cons d rest => cases Option.some.inj hc; exact sep_not_Digit hr
    | cons d r => exact h3 c hc
  · rcases h4 with h4 | h4 | ⟨h4, h5, h6⟩
    · exact .inl h4
    · exact .inr (.inl h4)
    · refine .inr (.inr ⟨h4, h5, ?_⟩)
      intro c hc
      cases hx : ds ++ r with
      | nil =>
        obtain ⟨d, hd, hs⟩ := hv
        rw [hx, h4] at hd
        simp only [List.nil_append, List.append_nil] at hd
        exact absurd (h1 d hd) hs
      | cons d y =>
        rw [← List.append_assoc, hx] at hc
        exact h6 c (by rw [hx]; exact hc)

theorem ipByte_nearest (n : Int) : ipByte n = nearest n := by
  unfold ipByte nearest
  split
  · rw [show n.toNat = 0 by omega]; rfl
  · split
    · rw [Nat.min_eq_right (by omega)]; rfl
    · rw [Nat.min_eq_left (by omega)]

theorem AnyPart.isSep {t : CStr} {n : Int} (h : AnyPart t n) : NoSep t := by
  intro c hc
  cases hs : Ip.isSep c with
  | false => rfl
  | true => exact absurd ((isSep_iff c).1 hs) (h.noSep c hc)

theorem AnyPart.nonempty {t : CStr} {n : Int} (h : AnyPart t n) : t ≠ [] := by
  rintro rfl
  obtain ⟨c, hc, -⟩ := h.visible
  cases hc

theorem AnyPart.bytes {t : CStr} {n : Int} (h : AnyPart t n) (present : Nat) (rest : CStr)
    (hr : Ip.isSep (rest.headD 0) = true) : segBytes present ⟨.v4, t, t ++ rest⟩ = [nearest n] := by
  simp only [segBytes]
  rw [atoi_reads (h.reads.append h.visible hr) h.fits, ipByte_nearest]

theorem iterate_any (a b c d tail : CStr) (ha : NoSep a) (hb : NoSep b) (hc : NoSep c) (hd : NoSep d) (na : a ≠ [])
    (nd : d ≠ []) (ht : isSep (tail.headD 0) = true) (type : Ty) (hty : type = .invalid ∨ type = .v4) :
    iterate ((Last.dotted a b c d).text ++ tail) (Last.dotted a b c d).text.length type =
      (.v4, dottedSegs a b c d tail) := by
  rw [dotted_length]
  simp only [iterate, Last.text, List.append_assoc, List.cons_append]
  rw [scan_token a ha 46 (by decide)]
  have e1 : (true && a.isEmpty) = false := by
    cases a with
    | nil => exact absurd rfl na
    | cons x y => rfl
  rw [e1, List.nil_append, step_v4 _ _ _ _ _ (by rcases hty with h | h <;> simp [h])]
  simp only [List.singleton_append]
  rw [scan_token b hb 46 (by decide)]
  simp only [Bool.false_and, List.nil_append]
  rw [step_v4 _ _ _ _ _ (Or.inl rfl)]
  rw [show c.length + (d.length + 1) = c.length + (d.length + 1) from rfl, scan_token c hc 46 (by decide)]
  simp only [Bool.false_and, List.nil_append]
  rw [step_v4 _ _ _ _ _ (Or.inl rfl)]
  rw [scan_last d hd tail ht _ _ _ _ _ (by simpa using nd)]
  simp only [Bool.false_and, List.nil_append]
  rw [step_v4 _ _ _ _ _ (Or.inl rfl)]
  rfl

/-- C31: a dotted text with four parts of any characters is accepted as an IPv4 address. Each byte is the nearest to
the integer its part starts with, negative ones included; what follows the integer is not looked at. -/
theorem C31_anyText (a b c d tail : CStr) (na nb nc nd : Int) (ha : AnyPart a na) (hb : AnyPart b nb)
    (hc : AnyPart c nc) (hd : AnyPart d nd) (ht : tail.headD 0 ∈ separators) :
    parse (a ++ 46 :: (b ++ 46 :: (c ++ 46 :: d)) ++ tail) (a ++ 46 :: (b ++ 46 :: (c ++ 46 :: d))).length =
      some ⟨.v4, [na, nb, nc, nd].map nearest⟩ := by
  have ht := isSep_of ht
  have h1 := iterate_any a b c d tail ha.isSep hb.isSep hc.isSep hd.isSep ha.nonempty hd.nonempty ht .invalid (Or.inl rfl)
  have h2 := iterate_any a b c d tail ha.isSep hb.isSep hc.isSep hd.isSep ha.nonempty hd.nonempty ht .v4 (Or.inr rfl)
  simp only [Last.text] at h1 h2
  simp only [parse, h1, h2]
  rw [build_eq _ _ _ _ (by simp)]
  simp only [dottedSegs, List.flatMap_cons, List.flatMap_nil]
  rw [ha.bytes _ _ rfl, hb.bytes _ _ rfl, hc.bytes _ _ rfl, hd.bytes _ _ ht]
  simp [capacity]

/-- C31 fails for texts that are not addresses: they are accepted, and the address is not invalid. -/
theorem C31_malformed_violated : parse c!"1x.-5.+7.abc" 12 = some ⟨.v4, [1, 0, 7, 0]⟩ ∧
    parse c!"4294967297.2147483648.9223372036854775808.-4294967290" 53 = some ⟨.v4, [1, 0, 0, 6]⟩ := by
  decide +kernel

example : parse c!"1x.-5.+7.abc" 12 = some ⟨.v4, [1, 0, 7, 0]⟩ :=
  C31_anyText c!"1x" c!"-5" c!"+7" c!"abc" [] 1 (-5) 7 0
    ⟨by decide, ⟨49, by decide, by simp [Space]⟩,
      ⟨[], [], c!"1", c!"x", rfl, by simp, by simp [Digit], by simp [Digit], .inr (.inr ⟨rfl, rfl, by simp [Space]⟩)⟩, by decide⟩
    ⟨by decide, ⟨45, by decide, by simp [Space]⟩,
      ⟨[], [45], c!"5", [], rfl, by simp, by simp [Digit], by simp, .inl ⟨rfl, rfl⟩⟩, by decide⟩
    ⟨by decide, ⟨43, by decide, by simp [Space]⟩,
      ⟨[], [43], c!"7", [], rfl, by simp, by simp [Digit], by simp, .inr (.inl ⟨rfl, rfl⟩)⟩, by decide⟩
    ⟨by decide, ⟨97, by decide, by simp [Space]⟩,
      ⟨[], [], [], c!"abc", rfl, by simp, by simp, by simp [Digit], .inr (.inr ⟨rfl, rfl, by simp [Space]⟩)⟩, by decide⟩
    (by decide)

/-! ## Groups of an IPv6 text -/

/-- The number two characters of a group are read as: a hexadecimal digit that the other does not follow counts alone,
white space and a plus are passed over, and anything else is nothing. -/
def pairNum (a b : UInt8) : Nat :=
  if isHex a then (if isHex b then hexVal a * 16 + hexVal b else hexVal a)
  else if a ∈ ([43, 32, 9, 10, 11, 12, 13] : List UInt8) ∧ isHex b then hexVal b else 0

theorem digit_none {c : UInt8} (h : isHex c = false) : digit c = none := by
  have key : ∀ n : Fin 256, isHex (UInt8.ofNat n) = false → digit (UInt8.ofNat n) = none := by decide +kernel
  have := key ⟨c.toNat, c.toNat_lt⟩
  simp only [UInt8.ofNat_toNat] at this
  exact this h

theorem pair_read (a b : UInt8) : ipByte (toInt (strtol 16 [a, b])) = UInt8.ofNat (pairNum a b) := by
  have big : ∀ c, hexVal c < 256 := by
    intro c
    have := c.toNat_lt
    unfold hexVal
    split
    · omega
    · split <;> omega
  have fits : ∀ n : Nat, n < 256 → ipByte (toInt ((min n (2 ^ 63 - 1) : Nat) : Int)) = UInt8.ofNat n := by
    intro n hn
    rw [Nat.min_eq_left (by omega), toInt_fits (by omega), ipByte_nat hn]
  unfold pairNum
  cases ha : isHex a with
  | true =>
    obtain ⟨a1, a2, a3, -, -, -⟩ := isHex_spec ha
    cases hb : isHex b with
    | true => simpa using strtol_hex ha hb
    | false =>
      simp only [if_true, Bool.false_eq_true, if_false]
      simp only [strtol, skip_digit a3, sign_digit a3, Bool.false_eq_true, if_false, if_true]
      have h0 : digits 16 0 (skipPrefix [a, b]) = hexVal a := by
        rw [skipPrefix]
        split
        · rename_i h
          simp [digits, show hexVal a = 0 by rw [h.1]; rfl]
        · simp [digits, a1, a2, digit_none hb]
      rw [h0]
      exact fits _ (big a)
  | false =>
    simp only [Bool.false_eq_true, if_false]
    have one : digits 16 0 [b] = if isHex b then hexVal b else 0 := by
      cases hb : isHex b with
      | true => obtain ⟨b1, b2, -⟩ := isHex_spec hb; simp [digits, b1, b2]
      | false => simp [digits, digit_none hb]
    have h48 : a ≠ 48 := by rintro rfl; exact absurd ha (by decide)
    have low : ∀ n : Nat, ipByte (toInt (-((min n (2 ^ 63) : Nat) : Int))) = 0 ∨ 2 ^ 31 < n := by
      intro n
      by_cases hn : n ≤ 2 ^ 31
      · left
        rw [Nat.min_eq_left (by omega), toInt_fits (by omega)]
        unfold ipByte
        split
        · rfl
        · rw [show n = 0 by omega]; rfl
      · right; omega
    cases hs : isSpace a with
    | true =>
      have hmem : a ∈ ([43, 32, 9, 10, 11, 12, 13] : List UInt8) :=
        List.mem_cons_of_mem _ ((isSpace_iff a).1 hs)
      have e1 : skipSpace [a, b] = skipSpace [b] := by rw [skipSpace, if_pos hs]
      have e2 : strtol 16 [a, b] = strtol 16 [b] := by rw [strtol, strtol, e1]
      rw [e2]
      cases hb : isHex b with
      | true =>
        obtain ⟨b1, b2, b3, -⟩ := isHex_spec hb
        simp only [strtol, skip_digit b3, sign_digit b3, Bool.false_eq_true, if_false, if_true, skipPrefix, one, hb]
        simp only [hmem, true_and, if_true]
        exact fits _ (big b)
      | false =>
        have z : strtol 16 [b] = 0 := by
          rw [strtol, skipSpace]
          by_cases hsb : isSpace b = true
          · simp [hsb, skipSpace, sign, skipPrefix, digits]
          · rw [if_neg hsb, sign]
            by_cases h45 : b = 45
            · simp [h45, skipPrefix, digits]
            · by_cases h43 : b = 43
              · simp [h43, skipPrefix, digits]
              · simp [h45, h43, skipPrefix, one, hb]
        rw [z]
        simp [ipByte, toInt]
    | false =>
      have hmem : a ≠ 43 → a ∉ ([43, 32, 9, 10, 11, 12, 13] : List UInt8) := by
        intro h h'
        rcases List.mem_cons.1 h' with h' | h'
        · exact h h'
        · rw [(isSpace_iff a).2 h'] at hs; cases hs
      have e1 : skipSpace [a, b] = [a, b] := by rw [skipSpace, if_neg (by simp [hs])]
      rw [strtol, e1]
      by_cases h45 : a = 45
      · subst h45
        have e2 : sign [45, b] = (true, [b]) := rfl
        simp only [e2, if_true, skipPrefix, one]
        rcases low (if isHex b then hexVal b else 0) with h | h
        · rw [h, if_neg (fun h => hmem (by decide) h.1)]; rfl
        · have := big b
          split at h <;> omega
      · by_cases h43 : a = 43
        · subst h43
          have e2 : sign [43, b] = (false, [b]) := rfl
          simp only [e2, if_true, skipPrefix, one, Bool.false_eq_true, if_false]
          cases hb : isHex b with
          | true => simpa using fits _ (big b)
          | false => simp [ipByte, toInt]
        · have e2 : sign [a, b] = (false, [a, b]) := by rw [sign, if_neg h45, if_neg h43]
          have e3 : skipPrefix [a, b] = [a, b] := by rw [skipPrefix, if_neg (fun h => h48 h.1)]
          simp only [e2, if_true, e3, Bool.false_eq_true, if_false]
          rw [if_neg (fun h => hmem h43 h.1)]
          simp [digits, digit_none ha, ipByte, toInt]

/-- The characters of a group counted from its end; where there are none it is as if there were zeros. -/
def lastChars (g : CStr) : Nat → UInt8 := fun i => (g.reverse ++ [48, 48, 48, 48]).getD i 48

/-- The bytes of a group of any characters: of its last four, two at a time. -/
def anyBytes (g : CStr) : List UInt8 :=
  [UInt8.ofNat (pairNum (lastChars g 3) (lastChars g 2)), UInt8.ofNat (pairNum (lastChars g 1) (lastChars g 0))]

/-- A group of any characters but separators. -/
def AnyGroup (g : CStr) : Prop := g ≠ [] ∧ ∀ c ∈ g, c ∉ separators

theorem AnyGroup.isSep {g : CStr} (h : AnyGroup g) : NoSep g := by
  intro c hc
  cases hs : Ip.isSep c with
  | false => rfl
  | true => exact absurd ((isSep_iff c).1 hs) (h.2 c hc)

theorem fromEnd_last (g : CStr) (i : Nat) (hi : i < 4) : fromEnd g i = lastChars g i := by
  unfold fromEnd lastChars
  rw [List.getD_eq_getElem?_getD, List.getElem?_append]
  split
  · rfl
  · rename_i h
    rw [List.getElem?_eq_none (by omega)]
    generalize i - g.reverse.length = j
    match j with
    | 0 => rfl
    | 1 => rfl
    | 2 => rfl
    | 3 => rfl
    | n + 4 => rfl

theorem v6Bytes_any (present : Nat) {g : CStr} (h : AnyGroup g) : v6Bytes present g = anyBytes g := by
  rw [v6Bytes, if_neg h.1, pair_read, pair_read, fromEnd_last g 3 (by omega), fromEnd_last g 2 (by omega),
    fromEnd_last g 1 (by omega), fromEnd_last g 0 (by omega)]
  rfl

theorem scan_anyGroups (rest : CStr) (n : Nat) : ∀ gs : List CStr, (∀ g ∈ gs, AnyGroup g) →
    scan ((colons gs).length + n) .v6 .v6 false [] (colons gs ++ rest) (colons gs ++ rest) =
      (let u := scan n .v6 .v6 false [] rest rest; (u.1, groupSegs gs rest ++ u.2)) := by
  intro gs
  induction gs with
  | nil => intro _; simp [colons, groupSegs]
  | cons g gs ih =>
    intro hg
    simp only [colons, List.append_assoc, List.cons_append]
    rw [show (g ++ 58 :: colons gs).length + n = g.length + (((colons gs).length + n) + 1) by simp; omega]
    rw [scan_token g (hg g (by simp)).isSep 58 (by decide)]
    simp only [List.nil_append, Bool.false_and]
    rw [step_colon _ _ (Or.inr rfl)]
    simp only
    rw [ih (fun x hx => hg x (by simp [hx]))]
    simp [groupSegs]

theorem anyGroup_bytes (present : Nat) (rest : CStr) : ∀ gs : List CStr, (∀ g ∈ gs, AnyGroup g) →
    (groupSegs gs rest).flatMap (segBytes present) = gs.flatMap anyBytes := by
  intro gs
  induction gs with
  | nil => intro _; rfl
  | cons g gs ih =>
    intro hg
    simp only [groupSegs, List.flatMap_cons, segBytes]
    rw [v6Bytes_any _ (hg g (by simp)), ih (fun x hx => hg x (by simp [hx]))]

theorem anyBytes_length (gs : List CStr) : (gs.flatMap anyBytes).length = 2 * gs.length := by
  induction gs with
  | nil => rfl
  | cons g gs ih => simp only [List.flatMap_cons, List.length_append, ih, List.length_cons]; simp [anyBytes]; omega

/-- C31: a text of two to eight groups of any characters, separated by colons, is accepted as an IPv6 address. The
bytes written for a group are those its last four characters are read as; characters before them are not looked at. -/
theorem C31_anyGroups (g : CStr) (gs : List CStr) (l tail : CStr) (hg : ∀ x ∈ g :: gs, AnyGroup x) (hl : AnyGroup l)
    (ht : Ends tail) (h8 : gs.length + 2 ≤ 8) :
    parse (colons (g :: gs) ++ l ++ tail) (colons (g :: gs) ++ l).length =
      some ⟨.v6, (g :: gs).flatMap anyBytes ++ anyBytes l⟩ := by
  have key : ∀ type, type = Ty.invalid ∨ type = .v6 →
      iterate (colons (g :: gs) ++ l ++ tail) (colons (g :: gs) ++ l).length type =
        (.v6, groupSegs (g :: gs) (l ++ tail) ++ [⟨.v6, l, l ++ tail⟩]) := by
    intro type hty
    simp only [iterate, List.append_assoc, List.length_append]
    simp only [colons, List.append_assoc, List.cons_append]
    rw [show (g ++ 58 :: colons gs).length + l.length = g.length + (((colons gs).length + l.length) + 1) by simp; omega]
    rw [scan_token g (hg g (by simp)).isSep 58 (by decide)]
    have e1 : (true && g.isEmpty) = false := by
      have := (hg g (by simp)).1
      cases g with
      | nil => exact absurd rfl this
      | cons x y => rfl
    rw [e1]
    simp only [List.nil_append]
    rw [step_colon _ _ hty]
    simp only
    rw [scan_anyGroups _ _ gs (fun x hx => hg x (by simp [hx]))]
    rw [scan_last l hl.isSep tail ht.isSep _ _ _ _ _ (by simpa using hl.1)]
    simp only [Bool.false_and, List.nil_append]
    rw [step_end _ _ _ _ ht]
    simp [groupSegs]
  have hb : ∀ p, (groupSegs (g :: gs) (l ++ tail) ++ ([⟨.v6, l, l ++ tail⟩] : List Seg)).flatMap (segBytes p) =
      (g :: gs).flatMap anyBytes ++ anyBytes l := by
    intro p
    rw [List.flatMap_append, anyGroup_bytes _ _ _ hg]
    simp only [List.flatMap_cons, List.flatMap_nil, segBytes, v6Bytes_any _ hl, List.append_nil]
  have := parse_of _ _ _ key
  rw [hb] at this
  refine this ?_
  rw [List.length_append, anyBytes_length]
  simp [anyBytes]
  omega

/-- C31 fails for groups that are not hexadecimal numbers below 65536: `123456` is read as 3456, `g` as 0, `-1` as 0
and the text, of three groups, is not invalid. -/
theorem C31_groups_violated : parse c!"123456:g:-1" 11 = some ⟨.v6, [0x34, 0x56, 0, 0, 0, 0]⟩ := by decide +kernel

example : parse c!"123456:g:-1,9" 11 = some ⟨.v6, [0x34, 0x56, 0, 0, 0, 0]⟩ :=
  C31_anyGroups c!"123456" [c!"g"] c!"-1" c!",9" (by simp only [AnyGroup]; decide) (by simp only [AnyGroup]; decide)
    (by right; right; rfl) (by decide)

end Verif.Ip
