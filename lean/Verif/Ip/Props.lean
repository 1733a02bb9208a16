import Verif.Ip.Lemmas
import Mathlib.Tactic.IntervalCases

/-! # C31, C32, C52, C53: IP addresses -/

namespace Verif.Ip

/-! ## Specification of well formed texts -/

/-- A decimal number that fits an `int`. -/
structure DecText (t : CStr) : Prop where
  digits : ∀ c ∈ t, isDec c = true
  nonempty : t ≠ []
  fits : decNum t < 2 ^ 31

/-- A part of a dotted address: decimal digits denoting at most 255. -/
structure DecPart (t : CStr) : Prop where
  digits : ∀ c ∈ t, isDec c = true
  nonempty : t ≠ []
  small : decNum t < 256

/-- The characters that end a part of an address: end of the string, comma, colon, dot and space. -/
def separators : List UInt8 := [0, 44, 58, 46, 32]

theorem isSep_iff (c : UInt8) : isSep c = true ↔ c ∈ separators := by
  simp only [isSep, separators, Bool.or_eq_true, decide_eq_true_eq, List.mem_cons, List.not_mem_nil, or_false]
  tauto

theorem isSep_of {c : UInt8} (h : c ∈ separators) : isSep c = true := (isSep_iff c).2 h

/-- A group of an IPv6 address: one to four hexadecimal digits. -/
structure HexGroup (t : CStr) : Prop where
  digits : ∀ c ∈ t, isHex c = true
  nonempty : t ≠ []
  short : t.length ≤ 4

/-- The number a hexadecimal text denotes. -/
def hexNum (t : CStr) : Nat := t.foldl (fun acc c => acc * 16 + hexVal c) 0

/-- The two bytes of a group, most significant first. -/
def groupBytes (t : CStr) : List UInt8 := [UInt8.ofNat (hexNum t / 256), UInt8.ofNat (hexNum t % 256)]

/-- The last part of an IPv6 text: a group or an embedded dotted address. -/
inductive Last where
  | group (g : CStr)
  | dotted (a b c d : CStr)

/-- The text of the last part. -/
def Last.text : Last → CStr
  | .group g => g
  | .dotted a b c d => a ++ 46 :: (b ++ 46 :: (c ++ 46 :: d))

/-- The bytes of the last part. -/
def Last.bytes : Last → List UInt8
  | .group g => groupBytes g
  | .dotted a b c d => [a, b, c, d].map fun t => UInt8.ofNat (decNum t)

/-- The last part is well formed. -/
def Last.wf : Last → Prop
  | .group g => HexGroup g
  | .dotted a b c d => DecPart a ∧ DecPart b ∧ DecPart c ∧ DecPart d

/-- Groups each followed by a colon. -/
def colons : List CStr → CStr
  | [] => []
  | g :: gs => g ++ 58 :: colons gs

/-! ## Dotted texts -/

theorem DecPart.text {t : CStr} (h : DecPart t) : DecText t := ⟨h.digits, h.nonempty, by have := h.small; omega⟩
theorem DecText.noSep {t : CStr} (h : DecText t) : NoSep t := fun c hc => isDec_noSep (h.digits c hc)
theorem DecPart.noSep {t : CStr} (h : DecPart t) : NoSep t := fun c hc => isDec_noSep (h.digits c hc)
theorem HexGroup.noSep {t : CStr} (h : HexGroup t) : NoSep t := fun c hc => (isHex_spec (h.digits c hc)).2.2.2.1

theorem step_v4 (cur : Ty) (seg sa : CStr) (c : UInt8) (type : Ty) (h : type = .v4 ∨ (type = .invalid ∧ c = 46)) :
    step type cur false seg sa c = (.v4, .v4, [⟨.v4, seg, sa⟩]) := by
  rcases h with rfl | ⟨rfl, rfl⟩ <;> simp [step, segType, typeFromSep]

/-- The calls made for a dotted text. -/
def dottedSegs (a b c d tail : CStr) : List Seg :=
  [⟨.v4, a, a ++ 46 :: (b ++ 46 :: (c ++ 46 :: (d ++ tail)))⟩, ⟨.v4, b, b ++ 46 :: (c ++ 46 :: (d ++ tail))⟩,
   ⟨.v4, c, c ++ 46 :: (d ++ tail)⟩, ⟨.v4, d, d ++ tail⟩]

theorem dotted_length (a b c d : CStr) : (Last.dotted a b c d).text.length =
    a.length + ((b.length + ((c.length + (d.length + 1)) + 1)) + 1) := by
  simp [Last.text]

theorem iterate_v4 (a b c d tail : CStr) (ha : DecText a) (hb : DecText b) (hc : DecText c) (hd : DecText d)
    (ht : isSep (tail.headD 0) = true) (type : Ty) (hty : type = .invalid ∨ type = .v4) :
    iterate ((Last.dotted a b c d).text ++ tail) (Last.dotted a b c d).text.length type =
      (.v4, dottedSegs a b c d tail) := by
  rw [dotted_length]
  simp only [iterate, Last.text, List.append_assoc, List.cons_append]
  rw [scan_token a ha.noSep 46 (by decide)]
  have e1 : (true && a.isEmpty) = false := by
    have := ha.nonempty
    cases a with
    | nil => exact absurd rfl this
    | cons x y => rfl
  rw [e1, List.nil_append, step_v4 _ _ _ _ _ (by rcases hty with h | h <;> simp [h])]
  simp only [List.singleton_append]
  rw [scan_token b hb.noSep 46 (by decide)]
  simp only [Bool.false_and, List.nil_append]
  rw [step_v4 _ _ _ _ _ (Or.inl rfl)]
  rw [show c.length + (d.length + 1) = c.length + (d.length + 1) from rfl, scan_token c hc.noSep 46 (by decide)]
  simp only [Bool.false_and, List.nil_append]
  rw [step_v4 _ _ _ _ _ (Or.inl rfl)]
  rw [scan_last d hd.noSep tail ht _ _ _ _ _ (by simpa using hd.nonempty)]
  simp only [Bool.false_and, List.nil_append]
  rw [step_v4 _ _ _ _ _ (Or.inl rfl)]
  rfl

theorem segBytes_v4 (present : Nat) (t rest : CStr) (ht : DecText t) (hr : isSep (rest.headD 0) = true) :
    segBytes present ⟨.v4, t, t ++ rest⟩ = [UInt8.ofNat (min (decNum t) 255)] := by
  simp only [segBytes]
  rw [atoi_dec t ht.digits ht.nonempty ht.fits rest hr, ipByte_min]

theorem dottedSegs_bytes (present : Nat) (a b c d tail : CStr) (ha : DecPart a) (hb : DecPart b) (hc : DecPart c)
    (hd : DecPart d) (ht : isSep (tail.headD 0) = true) :
    (dottedSegs a b c d tail).flatMap (segBytes present) = (Last.dotted a b c d).bytes := by
  simp only [dottedSegs, List.flatMap_cons, List.flatMap_nil, Last.bytes, List.map_cons, List.map_nil]
  rw [segBytes_v4 _ a _ ha.text rfl, segBytes_v4 _ b _ hb.text rfl, segBytes_v4 _ c _ hc.text rfl,
    segBytes_v4 _ d _ hd.text ht]
  have e : ∀ t, DecPart t → min (decNum t) 255 = decNum t := fun t h => Nat.min_eq_left (by have := h.small; omega)
  rw [e a ha, e b hb, e c hc, e d hd]
  rfl

/-- C31: a dotted text with four decimal parts, each at most 255, followed by the end of the string, a comma, a
space or any other separator, parses to an IPv4 address with exactly those four bytes. -/
theorem C31_v4 (a b c d tail : CStr) (ha : DecPart a) (hb : DecPart b) (hc : DecPart c) (hd : DecPart d)
    (ht : tail.headD 0 ∈ separators) :
    parse (a ++ 46 :: (b ++ 46 :: (c ++ 46 :: d)) ++ tail) (a ++ 46 :: (b ++ 46 :: (c ++ 46 :: d))).length =
      some ⟨.v4, [a, b, c, d].map fun t => UInt8.ofNat (decNum t)⟩ := by
  have ht := isSep_of ht
  have h1 := iterate_v4 a b c d tail ha.text hb.text hc.text hd.text ht .invalid (Or.inl rfl)
  have h2 := iterate_v4 a b c d tail ha.text hb.text hc.text hd.text ht .v4 (Or.inr rfl)
  simp only [Last.text] at h1 h2
  simp only [parse, h1, h2]
  rw [build_eq _ _ _ _ (by simp)]
  rw [dottedSegs_bytes _ a b c d tail ha hb hc hd ht]
  simp [Last.bytes, capacity]

/-- C31: in a dotted text a number above 255 (that fits an `int`) is read as 255; no byte wraps round. -/
theorem C31_clamped (a b c d tail : CStr) (ha : DecText a) (hb : DecText b) (hc : DecText c) (hd : DecText d)
    (ht : tail.headD 0 ∈ separators) :
    parse (a ++ 46 :: (b ++ 46 :: (c ++ 46 :: d)) ++ tail) (a ++ 46 :: (b ++ 46 :: (c ++ 46 :: d))).length =
      some ⟨.v4, [a, b, c, d].map fun t => UInt8.ofNat (min (decNum t) 255)⟩ := by
  have ht := isSep_of ht
  have h1 := iterate_v4 a b c d tail ha hb hc hd ht .invalid (Or.inl rfl)
  have h2 := iterate_v4 a b c d tail ha hb hc hd ht .v4 (Or.inr rfl)
  simp only [Last.text] at h1 h2
  simp only [parse, h1, h2]
  rw [build_eq _ _ _ _ (by simp)]
  simp only [dottedSegs, List.flatMap_cons, List.flatMap_nil]
  rw [segBytes_v4 _ a _ ha rfl, segBytes_v4 _ b _ hb rfl, segBytes_v4 _ c _ hc rfl, segBytes_v4 _ d _ hd ht]
  simp [capacity]

example : parse c!"999.168.0.256" 13 = some ⟨.v4, [255, 168, 0, 255]⟩ := by decide
example : parse c!"999.168.0.256" 13 = some ⟨.v4, [255, 168, 0, 255]⟩ :=
  C31_clamped c!"999" c!"168" c!"0" c!"256" [] ⟨by decide, by decide, by decide⟩ ⟨by decide, by decide, by decide⟩
    ⟨by decide, by decide, by decide⟩ ⟨by decide, by decide, by decide⟩ (by decide)

theorem decPart_of (t : CStr) (h : (t.all isDec && !t.isEmpty && decide (decNum t < 256)) = true) : DecPart t := by
  simp only [Bool.and_eq_true, List.all_eq_true, Bool.not_eq_true', decide_eq_true_eq] at h
  exact ⟨h.1.1, by rintro rfl; simp at h, h.2⟩

theorem hexGroup_of (t : CStr) (h : (t.all isHex && !t.isEmpty && decide (t.length ≤ 4)) = true) : HexGroup t := by
  simp only [Bool.and_eq_true, List.all_eq_true, Bool.not_eq_true', decide_eq_true_eq] at h
  exact ⟨h.1.1, by rintro rfl; simp at h, h.2⟩

example : parse c!"192.168.0.255, 1.1.1.1" 13 = some ⟨.v4, [192, 168, 0, 255]⟩ := by decide
example : parse c!"192.168.0.255, 1.1.1.1" 13 = some ⟨.v4, [192, 168, 0, 255]⟩ :=
  C31_v4 c!"192" c!"168" c!"0" c!"255" c!", 1.1.1.1" (decPart_of _ (by decide)) (decPart_of _ (by decide))
    (decPart_of _ (by decide)) (decPart_of _ (by decide)) (by decide)

/-! ## IPv6 texts -/

theorem two_eq {x y u v : Nat} (h1 : x = u) (h2 : y = v) :
    [UInt8.ofNat x, UInt8.ofNat y] = [UInt8.ofNat u, UInt8.ofNat v] := by rw [h1, h2]

theorem v6Bytes_group (present : Nat) (t : CStr) (h : HexGroup t) : v6Bytes present t = groupBytes t := by
  obtain ⟨hd, hne, hs⟩ := h
  simp only [v6Bytes, hne, if_false, groupBytes]
  have h0 : isHex 48 = true := by decide
  have v0 : hexVal 48 = 0 := by decide
  match t, hne, hs with
  | [a], _, _ =>
    have ha := hd a (by simp)
    have := (isHex_spec ha).2.1
    simp only [fromEnd, List.reverse_cons, List.reverse_nil, List.nil_append, List.getElem?_cons_zero,
      List.getElem?_cons_succ, List.getElem?_nil, Option.getD_some, Option.getD_none]
    rw [strtol_hex h0 h0, strtol_hex h0 ha]
    simp only [hexNum, List.foldl_cons, List.foldl_nil, v0]
    exact two_eq (by omega) (by omega)
  | [a, b], _, _ =>
    have ha := hd a (by simp)
    have hb := hd b (by simp)
    have := (isHex_spec ha).2.1
    have := (isHex_spec hb).2.1
    simp only [fromEnd, List.reverse_cons, List.reverse_nil, List.nil_append, List.getElem?_cons_zero,
      List.getElem?_cons_succ, List.getElem?_nil, Option.getD_some, Option.getD_none, List.cons_append]
    rw [strtol_hex h0 h0, strtol_hex ha hb]
    simp only [hexNum, List.foldl_cons, List.foldl_nil, v0]
    exact two_eq (by omega) (by omega)
  | [a, b, c], _, _ =>
    have ha := hd a (by simp)
    have hb := hd b (by simp)
    have hc := hd c (by simp)
    have := (isHex_spec ha).2.1
    have := (isHex_spec hb).2.1
    have := (isHex_spec hc).2.1
    simp only [fromEnd, List.reverse_cons, List.reverse_nil, List.nil_append, List.getElem?_cons_zero,
      List.getElem?_cons_succ, List.getElem?_nil, Option.getD_some, Option.getD_none, List.cons_append]
    rw [strtol_hex h0 ha, strtol_hex hb hc]
    simp only [hexNum, List.foldl_cons, List.foldl_nil, v0]
    exact two_eq (by omega) (by omega)
  | [a, b, c, d], _, _ =>
    have ha := hd a (by simp)
    have hb := hd b (by simp)
    have hc := hd c (by simp)
    have hd' := hd d (by simp)
    have := (isHex_spec ha).2.1
    have := (isHex_spec hb).2.1
    have := (isHex_spec hc).2.1
    have := (isHex_spec hd').2.1
    simp only [fromEnd, List.reverse_cons, List.reverse_nil, List.nil_append, List.getElem?_cons_zero,
      List.getElem?_cons_succ, List.getElem?_nil, Option.getD_some, Option.getD_none, List.cons_append]
    rw [strtol_hex ha hb, strtol_hex hc hd']
    simp only [hexNum, List.foldl_cons, List.foldl_nil]
    exact two_eq (by omega) (by omega)

theorem step_colon (type cur : Ty) (h : type = .invalid ∨ type = .v6) (st : Bool) (seg sa : CStr) :
    step type cur st seg sa 58 = (.v6, .v6, if st then [] else [⟨.v6, seg, sa⟩]) := by
  rcases h with rfl | rfl <;> simp [step, segType, typeFromSep]

/-- The calls made for groups each followed by a colon, before `rest`. -/
def groupSegs : List CStr → CStr → List Seg
  | [], _ => []
  | g :: gs, rest => ⟨.v6, g, g ++ 58 :: (colons gs ++ rest)⟩ :: groupSegs gs rest

theorem scan_groups (rest : CStr) (n : Nat) : ∀ gs : List CStr, (∀ g ∈ gs, HexGroup g) →
    scan ((colons gs).length + n) .v6 .v6 false [] (colons gs ++ rest) (colons gs ++ rest) =
      (let u := scan n .v6 .v6 false [] rest rest; (u.1, groupSegs gs rest ++ u.2)) := by
  intro gs
  induction gs with
  | nil => intro _; simp [colons, groupSegs]
  | cons g gs ih =>
    intro hg
    simp only [colons, List.append_assoc, List.cons_append]
    rw [show (g ++ 58 :: colons gs).length + n = g.length + (((colons gs).length + n) + 1) by simp; omega]
    rw [scan_token g (hg g (by simp)).noSep 58 (by decide)]
    simp only [List.nil_append, Bool.false_and]
    rw [step_colon _ _ (Or.inr rfl)]
    simp only
    rw [ih (fun x hx => hg x (by simp [hx]))]
    simp [groupSegs]

theorem groupSegs_bytes (present : Nat) (rest : CStr) : ∀ gs : List CStr, (∀ g ∈ gs, HexGroup g) →
    (groupSegs gs rest).flatMap (segBytes present) = gs.flatMap groupBytes := by
  intro gs
  induction gs with
  | nil => intro _; rfl
  | cons g gs ih =>
    intro hg
    simp only [groupSegs, List.flatMap_cons, segBytes]
    rw [v6Bytes_group _ _ (hg g (by simp)), ih (fun x hx => hg x (by simp [hx]))]

theorem groupSegs_count (rest : CStr) : ∀ gs : List CStr, (∀ g ∈ gs, HexGroup g) →
    countBytes (groupSegs gs rest) = 2 * gs.length := by
  intro gs
  induction gs with
  | nil => intro _; rfl
  | cons g gs ih =>
    intro hg
    simp only [groupSegs, countBytes, List.length_cons]
    rw [ih (fun x hx => hg x (by simp [hx]))]
    simp [(hg g (by simp)).nonempty]
    omega

/-- The calls made for the last part. -/
def Last.segs (l : Last) (tail : CStr) : List Seg :=
  match l with
  | .group g => [⟨.v6, g, g ++ tail⟩]
  | .dotted a b c d => dottedSegs a b c d tail

theorem step_dot (cur : Ty) (seg sa : CStr) : step .v6 cur false seg sa 46 = (.v6, .v4, [⟨.v4, seg, sa⟩]) := by
  simp [step, segType]

theorem step_end (cur : Ty) (seg sa : CStr) (c : UInt8) (h : c = 0 ∨ c = 32 ∨ c = 44) :
    step .v6 cur false seg sa c = (.v6, cur, [⟨cur, seg, sa⟩]) := by
  rcases h with rfl | rfl | rfl <;> simp [step, segType]

/-- The character after the text ends it: the end of the string, a space or a comma. -/
def Ends (tail : CStr) : Prop := tail.headD 0 = 0 ∨ tail.headD 0 = 32 ∨ tail.headD 0 = 44

theorem Ends.isSep {tail : CStr} (h : Ends tail) : isSep (tail.headD 0) = true := by
  rcases h with h | h | h <;> rw [h] <;> decide

theorem scan_lastPart (l : Last) (hl : l.wf) (tail : CStr) (ht : Ends tail) :
    scan l.text.length .v6 .v6 false [] (l.text ++ tail) (l.text ++ tail) = (.v6, l.segs tail) := by
  cases l with
  | group g =>
    simp only [Last.text, Last.segs]
    rw [scan_last g (HexGroup.noSep hl) tail ht.isSep _ _ _ _ _ (by simpa using HexGroup.nonempty hl)]
    simp only [Bool.false_and, List.nil_append]
    rw [step_end _ _ _ _ ht]
  | dotted a b c d =>
    obtain ⟨ha, hb, hc, hd⟩ := hl
    rw [dotted_length]
    simp only [Last.text, List.append_assoc, List.cons_append]
    rw [scan_token a ha.noSep 46 (by decide)]
    simp only [Bool.false_and, List.nil_append]
    rw [step_dot, scan_token b hb.noSep 46 (by decide)]
    simp only [Bool.false_and, List.nil_append]
    rw [step_dot, scan_token c hc.noSep 46 (by decide)]
    simp only [Bool.false_and, List.nil_append]
    rw [step_dot, scan_last d hd.noSep tail ht.isSep _ _ _ _ _ (by simpa using hd.nonempty)]
    simp only [Bool.false_and, List.nil_append]
    rw [step_end _ _ _ _ ht]
    rfl

theorem lastSegs_bytes (present : Nat) (l : Last) (hl : l.wf) (tail : CStr) (ht : Ends tail) :
    (l.segs tail).flatMap (segBytes present) = l.bytes := by
  cases l with
  | group g =>
    simp only [Last.segs, List.flatMap_cons, List.flatMap_nil, segBytes, List.append_nil, Last.bytes]
    exact v6Bytes_group _ _ hl
  | dotted a b c d => exact dottedSegs_bytes present a b c d tail hl.1 hl.2.1 hl.2.2.1 hl.2.2.2 ht.isSep

theorem lastSegs_count (l : Last) (hl : l.wf) (tail : CStr) : countBytes (l.segs tail) = l.bytes.length := by
  cases l with
  | group g => simp [Last.segs, countBytes, HexGroup.nonempty hl, Last.bytes, groupBytes]
  | dotted a b c d =>
    simp [Last.segs, dottedSegs, countBytes, hl.1.nonempty, hl.2.1.nonempty, hl.2.2.1.nonempty, hl.2.2.2.nonempty,
      Last.bytes]

theorem countBytes_append (a b : List Seg) : countBytes (a ++ b) = countBytes a + countBytes b := by
  induction a with
  | nil => simp [countBytes]
  | cons g a ih => simp only [List.cons_append, countBytes, ih]; omega

/-- Scanning from the start of the string, where the first group is not empty. -/
theorem scan_start (rest : CStr) (n : Nat) (type : Ty) (hty : type = .invalid ∨ type = .v6) (g : CStr)
    (gs : List CStr) (hg : ∀ x ∈ g :: gs, HexGroup x) :
    scan ((colons (g :: gs)).length + n) type .invalid true [] (colons (g :: gs) ++ rest) (colons (g :: gs) ++ rest) =
      (let u := scan n .v6 .v6 false [] rest rest; (u.1, groupSegs (g :: gs) rest ++ u.2)) := by
  simp only [colons, List.append_assoc, List.cons_append]
  rw [show (g ++ 58 :: colons gs).length + n = g.length + (((colons gs).length + n) + 1) by simp; omega]
  rw [scan_token g (hg g (by simp)).noSep 58 (by decide)]
  have e1 : (true && g.isEmpty) = false := by
    have := (hg g (by simp)).nonempty
    cases g with
    | nil => exact absurd rfl this
    | cons x y => rfl
  rw [e1]
  simp only [List.nil_append]
  rw [step_colon _ _ hty]
  simp only
  rw [scan_groups _ _ gs (fun x hx => hg x (by simp [hx]))]
  simp [groupSegs]

theorem parse_of (s : CStr) (stop : Nat) (gs : List Seg)
    (h : ∀ type, type = Ty.invalid ∨ type = .v6 → iterate s stop type = (.v6, gs))
    (hfit : (gs.flatMap (segBytes (countBytes gs % 256))).length ≤ 16) :
    parse s stop = some ⟨.v6, gs.flatMap (segBytes (countBytes gs % 256))⟩ := by
  simp only [parse, h .invalid (Or.inl rfl), h .v6 (Or.inr rfl)]
  rw [build_eq _ _ _ _ (by simp)]
  simp only [capacity, List.length_nil, Nat.zero_add, List.nil_append]
  rw [if_pos hfit]
  rfl

/-- C31: an IPv6 text without abbreviation (groups separated by colons, the last two groups possibly given as a
dotted address) that denotes 16 bytes parses to exactly these bytes. -/
theorem C31_v6_full (g : CStr) (gs : List CStr) (l : Last) (tail : CStr) (hg : ∀ x ∈ g :: gs, HexGroup x)
    (hl : l.wf) (ht : Ends tail) (h16 : ((g :: gs).flatMap groupBytes ++ l.bytes).length = 16) :
    parse (colons (g :: gs) ++ l.text ++ tail) (colons (g :: gs) ++ l.text).length =
      some ⟨.v6, (g :: gs).flatMap groupBytes ++ l.bytes⟩ := by
  have key : ∀ type, type = Ty.invalid ∨ type = .v6 →
      iterate (colons (g :: gs) ++ l.text ++ tail) (colons (g :: gs) ++ l.text).length type =
        (.v6, groupSegs (g :: gs) (l.text ++ tail) ++ l.segs tail) := by
    intro type hty
    simp only [iterate, List.append_assoc, List.length_append]
    rw [scan_start _ _ type hty g gs hg, scan_lastPart l hl tail ht]
  have hb : ∀ p, (groupSegs (g :: gs) (l.text ++ tail) ++ l.segs tail).flatMap (segBytes p) =
      (g :: gs).flatMap groupBytes ++ l.bytes := by
    intro p
    rw [List.flatMap_append, groupSegs_bytes _ _ _ hg, lastSegs_bytes _ l hl tail ht]
  have := parse_of _ _ _ key
  rw [hb] at this
  exact this (by omega)

/-- The part after `::`: nothing, or groups and a last part. -/
abbrev Post := Option (List CStr × Last)

/-- The text of the part after `::`. -/
def Post.text : Post → CStr
  | none => []
  | some (gs, l) => colons gs ++ l.text

/-- The bytes of the part after `::`. -/
def Post.bytes : Post → List UInt8
  | none => []
  | some (gs, l) => gs.flatMap groupBytes ++ l.bytes

/-- The part after `::` is well formed. -/
def Post.wf : Post → Prop
  | none => True
  | some (gs, l) => (∀ g ∈ gs, HexGroup g) ∧ l.wf

/-- The calls made for the part after `::`. -/
def Post.segs (p : Post) (tail : CStr) : List Seg :=
  match p with
  | none => []
  | some (gs, l) => groupSegs gs (l.text ++ tail) ++ l.segs tail

theorem scan_post (p : Post) (hp : p.wf) (tail : CStr) (ht : Ends tail) :
    scan (Post.text p).length .v6 .v6 false [] (Post.text p ++ tail) (Post.text p ++ tail) = (.v6, Post.segs p tail) := by
  match p, hp with
  | none, _ => simp [Post.text, Post.segs, scan_zero_nil]
  | some (gs, l), hp =>
    simp only [Post.text, Post.segs, List.append_assoc, List.length_append]
    rw [scan_groups _ _ gs hp.1, scan_lastPart l hp.2 tail ht]

theorem postSegs_bytes (present : Nat) (p : Post) (hp : p.wf) (tail : CStr) (ht : Ends tail) :
    (Post.segs p tail).flatMap (segBytes present) = Post.bytes p := by
  match p, hp with
  | none, _ => rfl
  | some (gs, l), hp =>
    simp only [Post.segs, Post.bytes]
    rw [List.flatMap_append, groupSegs_bytes _ _ _ hp.1, lastSegs_bytes _ l hp.2 tail ht]

theorem flatMap_groupBytes_length (gs : List CStr) : (gs.flatMap groupBytes).length = 2 * gs.length := by
  induction gs with
  | nil => rfl
  | cons g gs ih => rw [List.flatMap_cons, List.length_append, ih]; simp [groupBytes]; omega

theorem postSegs_count (p : Post) (hp : p.wf) (tail : CStr) :
    countBytes (Post.segs p tail) = (Post.bytes p).length := by
  match p, hp with
  | none, _ => rfl
  | some (gs, l), hp =>
    simp only [Post.segs, Post.bytes]
    rw [countBytes_append, groupSegs_count _ _ hp.1, lastSegs_count l hp.2, List.length_append,
      flatMap_groupBytes_length]

/-- The text with an abbreviation: the groups before it, `::`, and the part after it. -/
def abbrevText (pre : List CStr) (post : Post) : CStr :=
  (if pre = [] then [58] else colons pre) ++ 58 :: Post.text post

theorem abbrev_iterate (pre : List CStr) (post : Post) (tail : CStr) (hpre : ∀ x ∈ pre, HexGroup x)
    (hpost : post.wf) (ht : Ends tail) (type : Ty) (hty : type = .invalid ∨ type = .v6) :
    ∃ at_ rest, iterate (abbrevText pre post ++ tail) (abbrevText pre post).length type =
      (.v6, groupSegs pre rest ++ ⟨.v6, [], at_⟩ :: Post.segs post tail) := by
  cases pre with
  | nil =>
    refine ⟨58 :: (Post.text post ++ tail), [], ?_⟩
    simp only [abbrevText, if_true, iterate, List.cons_append, List.nil_append, List.length_cons]
    have h1 := scan_token [] (by intro c hc; simp at hc) 58 (by decide) ((Post.text post).length + 1)
      (58 :: (Post.text post ++ tail)) type .invalid true [] (58 :: 58 :: (Post.text post ++ tail))
    simp only [List.length_nil, Nat.zero_add, List.nil_append, List.isEmpty_nil, Bool.true_and] at h1
    rw [h1, step_colon _ _ hty]
    have h2 := scan_token [] (by intro c hc; simp at hc) 58 (by decide) (Post.text post).length
      (Post.text post ++ tail) .v6 .v6 false [] (58 :: (Post.text post ++ tail))
    simp only [List.length_nil, Nat.zero_add, List.nil_append, List.isEmpty_nil, Bool.false_and] at h2
    simp only [h2, step_colon _ _ (Or.inr rfl), scan_post post hpost tail ht]
    simp [groupSegs]
  | cons g gs =>
    refine ⟨58 :: (Post.text post ++ tail), 58 :: (Post.text post ++ tail), ?_⟩
    simp only [abbrevText, reduceCtorEq, if_false, iterate, List.append_assoc, List.cons_append, List.length_append,
      List.length_cons]
    rw [scan_start _ _ type hty g gs hpre]
    have h2 := scan_token [] (by intro c hc; simp at hc) 58 (by decide) (Post.text post).length
      (Post.text post ++ tail) .v6 .v6 false [] (58 :: (Post.text post ++ tail))
    simp only [List.length_nil, Nat.zero_add, List.nil_append, List.isEmpty_nil, Bool.false_and] at h2
    simp only [h2, step_colon _ _ (Or.inr rfl), scan_post post hpost tail ht]
    simp

/-- C31: an IPv6 text with one `::`, groups before it, and groups and possibly a dotted address after it, which
leaves out at least two bytes, parses to the bytes before, zeros, and the bytes after: 16 bytes in all. -/
theorem C31_v6_abbreviated (pre : List CStr) (post : Post) (tail : CStr) (hpre : ∀ x ∈ pre, HexGroup x)
    (hpost : post.wf) (ht : Ends tail) (h14 : (pre.flatMap groupBytes ++ Post.bytes post).length ≤ 14) :
    parse (abbrevText pre post ++ tail) (abbrevText pre post).length =
      some ⟨.v6, pre.flatMap groupBytes ++
        List.replicate (16 - (pre.flatMap groupBytes ++ Post.bytes post).length) 0 ++ Post.bytes post⟩ := by
  obtain ⟨at1, rest1, h1⟩ := abbrev_iterate pre post tail hpre hpost ht .invalid (Or.inl rfl)
  obtain ⟨at2, rest2, h2⟩ := abbrev_iterate pre post tail hpre hpost ht .v6 (Or.inr rfl)
  have hc : countBytes (groupSegs pre rest1 ++ ⟨.v6, [], at1⟩ :: Post.segs post tail) % 256 =
      (pre.flatMap groupBytes ++ Post.bytes post).length := by
    rw [countBytes_append]
    simp only [countBytes]
    rw [groupSegs_count _ _ hpre, postSegs_count post hpost]
    simp only [List.length_append, flatMap_groupBytes_length] at h14 ⊢
    simp
    omega
  simp only [parse, h1, h2, hc]
  rw [build_eq _ _ _ _ (by simp)]
  have hb : (groupSegs pre rest2 ++ ⟨.v6, [], at2⟩ :: Post.segs post tail).flatMap
      (segBytes (pre.flatMap groupBytes ++ Post.bytes post).length) =
      pre.flatMap groupBytes ++
        List.replicate (16 - (pre.flatMap groupBytes ++ Post.bytes post).length) 0 ++ Post.bytes post := by
    rw [List.flatMap_append, groupSegs_bytes _ _ _ hpre, List.flatMap_cons, postSegs_bytes _ post hpost tail ht]
    simp [segBytes, v6Bytes]
  rw [hb]
  simp only [capacity, List.length_nil, Nat.zero_add, List.nil_append]
  rw [if_pos]
  · rfl
  · simp only [List.length_append, List.length_replicate] at h14 ⊢
    omega

example : parse c!"2001:db8:0:0:0:FFFF:10.0.0.1" 28 =
    some ⟨.v6, [0x20, 1, 0xd, 0xb8, 0, 0, 0, 0, 0, 0, 255, 255, 10, 0, 0, 1]⟩ := by decide
example : parse c!"2001:db8:0:0:0:FFFF:10.0.0.1" 28 =
    some ⟨.v6, [0x20, 1, 0xd, 0xb8, 0, 0, 0, 0, 0, 0, 255, 255, 10, 0, 0, 1]⟩ :=
  C31_v6_full c!"2001" [c!"db8", c!"0", c!"0", c!"0", c!"FFFF"] (.dotted c!"10" c!"0" c!"0" c!"1") []
    (by intro x hx; simp at hx; rcases hx with rfl | rfl | rfl | rfl | rfl | rfl <;> exact hexGroup_of _ (by decide))
    ⟨decPart_of _ (by decide), decPart_of _ (by decide), decPart_of _ (by decide), decPart_of _ (by decide)⟩
    (Or.inl rfl) (by decide)
example : parse c!"fe80::1:2,x" 9 = some ⟨.v6, [0xfe, 0x80, 0, 0, 0, 0, 0, 0, 0, 0, 0, 0, 0, 1, 0, 2]⟩ :=
  C31_v6_abbreviated [c!"fe80"] (some ([c!"1"], .group c!"2")) c!",x"
    (by intro x hx; simp at hx; subst hx; exact hexGroup_of _ (by decide))
    ⟨by intro x hx; simp at hx; subst hx; exact hexGroup_of _ (by decide), hexGroup_of _ (by decide)⟩
    (Or.inr (Or.inr rfl)) (by decide)
example : parse c!"::" 2 = some ⟨.v6, List.replicate 16 0⟩ :=
  C31_v6_abbreviated [] none [] (by simp) trivial (Or.inl rfl) (by decide)

/-! ## Bounds -/

theorem step_length (type cur : Ty) (st : Bool) (seg sa : CStr) (c : UInt8) :
    (step type cur st seg sa c).2.2.length ≤ 1 := by
  simp only [step]; split <;> simp

theorem scan_cons_sep (n : Nat) (type cur : Ty) (st : Bool) (seg sa : CStr) (c : UInt8) (rest : CStr)
    (hc : isSep c = true) : scan (n + 1) type cur st seg sa (c :: rest) =
      ((scan n (step type cur st seg sa c).1 (step type cur st seg sa c).2.1 false [] rest rest).1,
        (step type cur st seg sa c).2.2 ++
          (scan n (step type cur st seg sa c).1 (step type cur st seg sa c).2.1 false [] rest rest).2) := by
  simp [scan, hc]

theorem scan_cons_not (n : Nat) (type cur : Ty) (st : Bool) (seg sa : CStr) (c : UInt8) (rest : CStr)
    (hc : ¬isSep c = true) : scan (n + 1) type cur st seg sa (c :: rest) =
      scan n type cur false (seg ++ [c]) sa rest := by
  simp [scan, hc]

theorem scan_length : ∀ (n : Nat) (type cur : Ty) (st : Bool) (seg sa rest : CStr), n ≤ rest.length →
    (scan n type cur st seg sa rest).2.length ≤ (rest.take n).countP isSep + 1 := by
  intro n
  induction n with
  | zero =>
    intro type cur st seg sa rest _
    simp only [scan]
    split
    · simp
    · split
      · have := step_length type cur st seg sa (rest.headD 0); simpa using this
      · simp
  | succ n ih =>
    intro type cur st seg sa rest hn
    cases rest with
    | nil => simp at hn
    | cons c rest =>
      simp only [List.length_cons, Nat.add_le_add_iff_right] at hn
      simp only [List.take_succ_cons]
      by_cases hc : isSep c = true
      · have := ih (step type cur st seg sa c).1 (step type cur st seg sa c).2.1 false [] rest rest hn
        have h1 := step_length type cur st seg sa c
        rw [scan_cons_sep _ _ _ _ _ _ _ _ hc, List.countP_cons_of_pos hc, List.length_append]
        omega
      · have := ih type cur false (seg ++ [c]) sa rest hn
        rw [scan_cons_not _ _ _ _ _ _ _ _ hc, List.countP_cons_of_neg hc]
        exact this

theorem scan_v4 : ∀ (n : Nat) (cur : Ty) (st : Bool) (seg sa rest : CStr),
    ∀ g ∈ (scan n .v4 cur st seg sa rest).2, g.ty = .v4 := by
  have hs : ∀ (cur : Ty) (st : Bool) (seg sa : CStr) (c : UInt8), ∀ g ∈ (step .v4 cur st seg sa c).2.2, g.ty = .v4 := by
    intro cur st seg sa c g hg
    cases st <;> simp [step, segType] at hg
    simp [hg]
  have ht : ∀ (cur : Ty) (st : Bool) (seg sa : CStr) (c : UInt8), (step .v4 cur st seg sa c).1 = .v4 := by
    intro cur st seg sa c; simp [step]
  intro n
  induction n with
  | zero =>
    intro cur st seg sa rest g hg
    simp only [scan] at hg
    split at hg
    · simp at hg
    · split at hg
      · exact hs _ _ _ _ _ g hg
      · simp at hg
  | succ n ih =>
    intro cur st seg sa rest g hg
    simp only [scan] at hg
    split at hg
    · rw [ht] at hg
      rcases List.mem_append.mp hg with h | h
      · exact hs _ _ _ _ _ g h
      · exact ih _ _ _ _ _ g h
    · exact ih _ _ _ _ _ g hg

/-- No two separators in a row. -/
def NoAdjacent (t : CStr) : Prop := ∀ i c d, t[i]? = some c → t[i + 1]? = some d → ¬(c ∈ separators ∧ d ∈ separators)

theorem NoAdjacent.tail {c : UInt8} {t : CStr} (h : NoAdjacent (c :: t)) : NoAdjacent t :=
  fun i a b ha hb => h (i + 1) a b (by simpa using ha) (by simpa using hb)

theorem scan_nonempty : ∀ (n : Nat) (type cur : Ty) (st : Bool) (seg sa rest : CStr), n ≤ rest.length →
    NoAdjacent (rest.take n) → (seg = [] → st = false → ∀ c, (rest.take n).head? = some c → isSep c = false) →
    ∀ g ∈ (scan n type cur st seg sa rest).2, g.text ≠ [] := by
  intro n
  induction n with
  | zero =>
    intro type cur st seg sa rest _ _ _ g hg
    simp only [scan] at hg
    split at hg
    · simp at hg
    · rename_i hne
      split at hg
      · cases st <;> simp [step] at hg
        simpa [hg] using hne
      · simp at hg
  | succ n ih =>
    intro type cur st seg sa rest hn hadj hfirst g hg
    cases rest with
    | nil => simp at hn
    | cons c rest =>
      simp only [List.length_cons, Nat.add_le_add_iff_right] at hn
      simp only [List.take_succ_cons] at hadj hfirst
      by_cases hc : isSep c = true
      · rw [scan_cons_sep _ _ _ _ _ _ _ _ hc] at hg
        rcases List.mem_append.mp hg with h | h
        · cases st <;> simp [step] at h
          intro he
          simp only [h] at he
          have := hfirst he rfl c (by simp)
          rw [hc] at this
          exact absurd this (by decide)
        · refine ih _ _ _ _ _ rest hn hadj.tail ?_ g h
          intro _ _ d hd
          have := hadj 0 c d (by simp) (by simpa [List.head?_eq_getElem?] using hd)
          simp only [← isSep_iff, not_and, Bool.not_eq_true] at this
          exact this hc
      · rw [scan_cons_not _ _ _ _ _ _ _ _ hc] at hg
        refine ih _ _ _ _ _ rest hn hadj.tail ?_ g hg
        intro h; simp at h

theorem step_type (type cur : Ty) (st : Bool) (seg sa : CStr) (c : UInt8) (h : type ≠ .invalid) :
    (step type cur st seg sa c).1 = type := by simp [step, h]

theorem scan_type : ∀ (n : Nat) (type cur : Ty) (st : Bool) (seg sa rest : CStr), type ≠ .invalid →
    (scan n type cur st seg sa rest).1 = type := by
  intro n
  induction n with
  | zero =>
    intro type cur st seg sa rest h
    simp only [scan]
    split
    · rfl
    · split
      · exact step_type type cur st seg sa _ h
      · rfl
  | succ n ih =>
    intro type cur st seg sa rest h
    simp only [scan]
    split
    · simp only [step_type _ _ _ _ _ _ h]; exact ih _ _ _ _ _ _ h
    · exact ih _ _ _ _ _ _ h

theorem scan_type_v4 : ∀ (n : Nat) (cur : Ty) (st : Bool) (seg sa rest : CStr), n ≤ rest.length →
    (scan n .invalid cur st seg sa rest).1 = .v4 →
    ((rest ++ [0]).take (n + 1)).find? (fun c => c = 46 || c = 58) = some 46 := by
  have hstep : ∀ (cur : Ty) (st : Bool) (seg sa : CStr) (c : UInt8),
      (step .invalid cur st seg sa c).1 = typeFromSep c := by
    intro cur st seg sa c
    simp only [step, segType, if_true]
  intro n
  induction n with
  | zero =>
    intro cur st seg sa rest _ h
    simp only [scan] at h
    have key : (rest ++ [0]).take (0 + 1) = [rest.headD 0] := by cases rest <;> simp
    split at h
    · simp at h
    · split at h
      · rw [hstep] at h
        rw [key]
        simp only [typeFromSep] at h
        split at h
        · rename_i h46; rw [h46]; rfl
        · split at h <;> simp at h
      · simp at h
  | succ n ih =>
    intro cur st seg sa rest hn h
    cases rest with
    | nil => simp at hn
    | cons c rest =>
      simp only [List.length_cons, Nat.add_le_add_iff_right] at hn
      simp only [List.cons_append, List.take_succ_cons]
      by_cases h46 : c = 46
      · subst h46; simp
      · by_cases h58 : c = 58
        · subst h58
          rw [scan_cons_sep _ _ _ _ _ _ _ _ (by decide), hstep] at h
          rw [scan_type _ _ _ _ _ _ _ (by simp [typeFromSep])] at h
          simp [typeFromSep] at h
        · rw [List.find?_cons_of_neg (by simp [h46, h58])]
          by_cases hc : isSep c = true
          · rw [scan_cons_sep _ _ _ _ _ _ _ _ hc, hstep] at h
            simp only [typeFromSep, h46, h58, if_false] at h
            exact ih _ _ _ _ _ hn h
          · rw [scan_cons_not _ _ _ _ _ _ _ _ hc] at h
            exact ih _ _ _ _ _ hn h

theorem flatMap_length_le {α β : Type} (f : α → List β) (k : Nat) : ∀ l : List α, (∀ x ∈ l, (f x).length ≤ k) →
    (l.flatMap f).length ≤ k * l.length := by
  intro l
  induction l with
  | nil => intro _; simp
  | cons x l ih =>
    intro h
    have h1 := h x (by simp)
    have h2 := ih (fun y hy => h y (by simp [hy]))
    rw [List.flatMap_cons, List.length_append, List.length_cons, Nat.mul_add]
    omega

/-- C31, bounds: a text with at most three separators, or with at most seven if a `:` comes before any `.`, and
without two separators in a row (that is, without abbreviation, for which see `C31_v6_abbreviated`) never makes
the parser write outside the bytes it allocated, well formed or not. Texts with more parts can, see
`C31_violated`. -/
theorem C31_bounds_partial (s : CStr) (stop : Nat) (hstop : stop ≤ s.length) (hadj : NoAdjacent (s.take stop))
    (hsep : (s.take stop).countP (· ∈ separators) ≤ 3 ∨ ((s.take stop).countP (· ∈ separators) ≤ 7 ∧
      ((s ++ [0]).take (stop + 1)).find? (fun c => c = 46 || c = 58) ≠ some 46)) :
    ∃ a, parse s stop = some a ∧ a.bytes.length ≤ capacity a.ty := by
  have hfun : (fun c => decide (c ∈ separators)) = isSep := by
    funext c; rw [Bool.eq_iff_iff, isSep_iff]; simp
  rw [hfun] at hsep
  simp only [parse]
  rw [build_eq _ _ _ _ (by simp)]
  have hl := scan_length stop (iterate s stop .invalid).1 .invalid true [] s s hstop
  have hne := scan_nonempty stop (iterate s stop .invalid).1 .invalid true [] s s hstop hadj (by simp)
  change (iterate s stop (iterate s stop .invalid).1).2.length ≤ _ at hl
  change ∀ g ∈ (iterate s stop (iterate s stop .invalid).1).2, _ at hne
  have hfit : ((iterate s stop (iterate s stop .invalid).1).2.flatMap
      (segBytes (countBytes (iterate s stop .invalid).2 % 256))).length ≤ capacity (iterate s stop .invalid).1 := by
    by_cases hv4 : (iterate s stop .invalid).1 = .v4
    · have hall := scan_v4 stop .invalid true [] s s
      change ∀ g ∈ (iterate s stop .v4).2, _ at hall
      rw [hv4] at hl ⊢
      have h3 : (s.take stop).countP isSep ≤ 3 := by
        rcases hsep with h | ⟨-, h⟩
        · exact h
        · exact absurd (scan_type_v4 stop .invalid true [] s s hstop hv4) h
      have := flatMap_length_le (segBytes (countBytes (iterate s stop .invalid).2 % 256)) 1
        (iterate s stop .v4).2 (by intro g hg; simp [segBytes, hall g hg])
      simp only [capacity]
      omega
    · have hcap : capacity (iterate s stop .invalid).1 = 16 := by
        cases h : (iterate s stop .invalid).1 <;> simp_all [capacity]
      rw [hcap]
      have := flatMap_length_le (segBytes (countBytes (iterate s stop .invalid).2 % 256)) 2
        (iterate s stop (iterate s stop .invalid).1).2 (by
          intro g hg
          have := hne g hg
          simp only [segBytes]
          split <;> simp [v6Bytes, this])
      omega
  simp only [List.length_nil, Nat.zero_add, hfit, if_true, List.nil_append]
  exact ⟨_, rfl, hfit⟩

example : ∃ a, parse c!"1.2-x.300" 9 = some a ∧ a.bytes.length ≤ capacity a.ty :=
  C31_bounds_partial _ _ (by decide) (by
    intro i c d h1 h2
    have : i < 9 := by
      rcases Nat.lt_or_ge i 9 with h | h
      · exact h
      · rw [List.getElem?_eq_none (by simpa using h)] at h1; simp at h1
    interval_cases i <;> simp at h1 h2 <;> subst h1 <;> subst h2 <;> decide) (Or.inl (by decide))

/-- C31 fails for texts with more parts than the type holds: an IPv4 address with a port, as a proxy may put in
X-Forwarded-For, and an IPv6 text with two abbreviations, are written outside the bytes allocated. -/
theorem C31_violated : parse c!"1.2.3.4:80" 10 = none ∧ parse c!"1::2::3" 7 = none := by decide

/-- C31 also fails for a text with fewer parts: three bytes of the four are written, the last one is not
initialised, though the address is reported as IPv4. -/
theorem C31_uninitialised_violated : parse c!"10.0.1" 6 = some ⟨.v4, [10, 0, 1]⟩ := by decide

/-! ## C32 -/

/-- The bytes as a big-endian number. -/
def beNum (a : List UInt8) : Nat := a.foldl (fun acc b => acc * 256 + b.toNat) 0

theorem foldl_be (a : List UInt8) : ∀ acc, a.foldl (fun acc b => acc * 256 + b.toNat) acc =
    acc * 256 ^ a.length + beNum a := by
  unfold beNum
  induction a with
  | nil => intro acc; simp
  | cons x a ih =>
    intro acc
    simp only [List.foldl_cons]
    rw [ih, ih (0 * 256 + x.toNat)]
    simp only [List.length_cons, Nat.pow_succ, Nat.zero_mul, Nat.zero_add]
    rw [Nat.add_mul, Nat.add_assoc, Nat.mul_assoc, Nat.mul_comm 256]

theorem beNum_cons (x : UInt8) (a : List UInt8) : beNum (x :: a) = x.toNat * 256 ^ a.length + beNum a := by
  have := foldl_be a x.toNat
  simpa [beNum] using this

theorem beNum_lt (a : List UInt8) : beNum a < 256 ^ a.length := by
  induction a with
  | nil => simp [beNum]
  | cons x a ih =>
    rw [beNum_cons, List.length_cons, Nat.pow_succ]
    have hx := x.toNat_lt
    have : x.toNat * 256 ^ a.length ≤ 255 * 256 ^ a.length := Nat.mul_le_mul_right _ (by omega)
    omega

theorem compareLoop_spec : ∀ (n : Nat) (a b : List UInt8), a.length = n → b.length = n →
    ∃ d, compareLoop n a b = some d ∧ (d = 0 ↔ a = b) ∧ (d < 0 ↔ beNum a < beNum b) ∧
      (d > 0 ↔ beNum a > beNum b) := by
  intro n
  induction n with
  | zero =>
    intro a b ha hb
    obtain rfl := List.eq_nil_of_length_eq_zero ha
    obtain rfl := List.eq_nil_of_length_eq_zero hb
    exact ⟨0, rfl, by simp, by simp, by simp⟩
  | succ n ih =>
    intro a b ha hb
    match a, b, ha, hb with
    | x :: a, y :: b, ha, hb =>
      simp only [List.length_cons, Nat.add_right_cancel_iff] at ha hb
      simp only [compareLoop]
      have hA := beNum_lt a
      have hB := beNum_lt b
      rw [ha] at hA
      rw [hb] at hB
      rw [beNum_cons, beNum_cons, ha, hb]
      by_cases h : (x.toNat : Int) - y.toNat = 0
      · rw [if_neg (by simpa using h)]
        obtain ⟨d, h1, h2, h3, h4⟩ := ih a b ha hb
        have hxy : x.toNat = y.toNat := by omega
        have hxy' : x = y := UInt8.toNat_inj.mp hxy
        refine ⟨d, h1, ?_, ?_, ?_⟩
        · rw [h2]; simp [hxy']
        · rw [h3, hxy]; omega
        · rw [h4, hxy]; omega
      · rw [if_pos h]
        have hlt : x.toNat < y.toNat ∨ y.toNat < x.toNat := by omega
        have h1 : x.toNat < y.toNat → x.toNat * 256 ^ n + 256 ^ n ≤ y.toNat * 256 ^ n := by
          intro h
          have : (x.toNat + 1) * 256 ^ n ≤ y.toNat * 256 ^ n := Nat.mul_le_mul_right _ (by omega)
          rwa [Nat.add_mul, Nat.one_mul] at this
        have h2 : y.toNat < x.toNat → y.toNat * 256 ^ n + 256 ^ n ≤ x.toNat * 256 ^ n := by
          intro h
          have : (y.toNat + 1) * 256 ^ n ≤ x.toNat * 256 ^ n := Nat.mul_le_mul_right _ (by omega)
          rwa [Nat.add_mul, Nat.one_mul] at this
        refine ⟨_, rfl, ?_, ?_, ?_⟩
        · constructor
          · intro h'; exact absurd h' h
          · intro h'
            simp only [List.cons.injEq] at h'
            rw [h'.1] at h; omega
        · rcases hlt with h | h
          · have := h1 h; omega
          · have := h2 h; omega
        · rcases hlt with h | h
          · have := h1 h; omega
          · have := h2 h; omega

/-- C32: comparing two complete addresses of the same type reads only their bytes and gives 0 exactly for equal
addresses, a negative number exactly when the first is the smaller big-endian number, and a positive one exactly
when it is the greater (so the comparison is a total order). -/
theorem C32_compare (a b : List UInt8) (ty : Ty) (hty : ty ≠ .invalid) (ha : a.length = capacity ty)
    (hb : b.length = capacity ty) : ∃ d, compare a b ty = some d ∧ (d = 0 ↔ a = b) ∧
      (d < 0 ↔ beNum a < beNum b) ∧ (d > 0 ↔ beNum a > beNum b) := by
  cases ty with
  | invalid => exact absurd rfl hty
  | v4 => exact compareLoop_spec 4 a b ha hb
  | v6 => exact compareLoop_spec 16 a b ha hb

example : compare [10, 0, 1, 7] [10, 0, 2, 1] .v4 = some (-1) := by decide

/-- C32: addresses of invalid type always compare as equal, without reading them. -/
theorem C32_invalid (a b : List UInt8) : compare a b .invalid = some 0 := rfl

/-! ## C52: lists of addresses -/

/-- A text that parses to an address whatever follows it, and has no list separator in it: by `C31_v4`,
`C31_v6_full` and `C31_v6_abbreviated` all well formed addresses are such. -/
structure Item (t : CStr) (a : Addr) : Prop where
  nonempty : t ≠ []
  noSep : ∀ c ∈ t, c ≠ 32 ∧ c ≠ 44 ∧ c ≠ 0
  parses : ∀ tail, Ends tail → parse (t ++ tail) t.length = some a

/-- Items separated by one comma or space each. -/
def joined : List (UInt8 × CStr) → CStr
  | [] => []
  | (c, t) :: rest => c :: (t ++ joined rest)

theorem joined_ends : ∀ l : List (UInt8 × CStr), (∀ x ∈ l, x.1 = 32 ∨ x.1 = 44) → Ends (joined l)
  | [], _ => Or.inl rfl
  | (c, t) :: l, h => by
    rcases h (c, t) (by simp) with h | h
    · exact Or.inr (Or.inl h)
    · exact Or.inr (Or.inr h)

theorem parseLoop_item (startAt : CStr) (tail : CStr) (ht : Ends tail) : ∀ (t : CStr) (x : UInt8) (m : Nat),
    (∀ c ∈ t, c ≠ 32 ∧ c ≠ 44 ∧ c ≠ 0) →
    parseLoop startAt m (x :: t ++ tail) =
      (parse startAt (m + t.length)).bind fun a => (parseLoop tail.tail 0 tail).map (a :: ·) := by
  intro t
  induction t with
  | nil =>
    intro x m _
    simp only [List.cons_append, List.nil_append, parseLoop, List.length_nil, Nat.add_zero]
    rw [if_pos]
    rcases ht with h | h | h
    · exact Or.inr (Or.inr h)
    · exact Or.inl h
    · exact Or.inr (Or.inl h)
  | cons y t ih =>
    intro x m hs
    have hy := hs y (by simp)
    have e : parseLoop startAt m (x :: (y :: t) ++ tail) = parseLoop startAt (m + 1) (y :: t ++ tail) := by
      simp only [List.cons_append]
      rw [parseLoop, if_neg (by simp [hy])]
    rw [e]
    have := ih y (m + 1) (fun c hc => hs c (by simp [hc]))
    rw [this, List.length_cons, Nat.add_assoc, Nat.add_comm 1]

/-- C52: well formed addresses separated by single commas or spaces parse to exactly these addresses, in order.
Only single separators are covered, see `C52_violated`. -/
theorem C52_single_partial (t : CStr) (a : Addr) (l : List (UInt8 × CStr × Addr)) (h0 : Item t a)
    (hl : ∀ x ∈ l, (x.1 = 32 ∨ x.1 = 44) ∧ Item x.2.1 x.2.2) :
    parseAll (t ++ joined (l.map fun x => (x.1, x.2.1))) = some (a :: l.map fun x => x.2.2) := by
  induction l generalizing t a with
  | nil =>
    obtain ⟨c, t', rfl⟩ := List.exists_cons_of_ne_nil h0.nonempty
    simp only [List.map_nil, joined, parseAll]
    rw [parseLoop_item _ [] (Or.inl rfl) t' c 1 (fun d hd => h0.noSep d (by simp [hd]))]
    have := h0.parses [] (Or.inl rfl)
    rw [Nat.add_comm, ← List.length_cons (a := c), this]
    rfl
  | cons x l ih =>
    obtain ⟨c, t', rfl⟩ := List.exists_cons_of_ne_nil h0.nonempty
    have hx := hl x (by simp)
    have he : Ends (joined ((x :: l).map fun x => (x.1, x.2.1))) := by
      apply joined_ends
      intro y hy
      obtain ⟨z, hz, rfl⟩ := List.mem_map.mp hy
      exact (hl z hz).1
    have hih := ih x.2.1 x.2.2 hx.2 (fun y hy => hl y (by simp [hy]))
    simp only [parseAll] at hih ⊢
    rw [parseLoop_item _ _ he t' c 1 (fun d hd => h0.noSep d (by simp [hd]))]
    have := h0.parses _ he
    rw [Nat.add_comm, ← List.length_cons (a := c), this]
    simp only [List.map_cons, joined, Option.bind_some, List.tail_cons]
    obtain ⟨d, u, hu⟩ := List.exists_cons_of_ne_nil hx.2.nonempty
    have hd := hx.2.noSep d (by simp [hu])
    rw [parseLoop, if_neg (by simp [hu, hd]), hih]
    rfl

example : parseAll c!"10.0.0.1,::1 8.8.8.8" =
    some [⟨.v4, [10, 0, 0, 1]⟩, ⟨.v6, [0, 0, 0, 0, 0, 0, 0, 0, 0, 0, 0, 0, 0, 0, 0, 1]⟩, ⟨.v4, [8, 8, 8, 8]⟩] := by
  decide

theorem item_10 : Item c!"10.0.0.1" ⟨.v4, [10, 0, 0, 1]⟩ :=
  ⟨by decide, by decide, fun tail ht => C31_v4 c!"10" c!"0" c!"0" c!"1" tail (decPart_of _ (by decide))
    (decPart_of _ (by decide)) (decPart_of _ (by decide)) (decPart_of _ (by decide)) ((isSep_iff _).1 ht.isSep)⟩

example : parseAll c!"10.0.0.1,10.0.0.1" = some [⟨.v4, [10, 0, 0, 1]⟩, ⟨.v4, [10, 0, 0, 1]⟩] :=
  C52_single_partial c!"10.0.0.1" _ [(44, c!"10.0.0.1", ⟨.v4, [10, 0, 0, 1]⟩)] item_10
    (by intro x hx; simp at hx; subst hx; exact ⟨Or.inr rfl, item_10⟩)

/-- What stands between two separators next to each other, or after the last one: nothing, which is read as an address of
invalid type; or a well formed address. -/
def Piece (t : CStr) (a : Addr) : Prop := (t = [] ∧ a = ⟨.invalid, []⟩) ∨ Item t a

theorem parse_nothing (s : CStr) (h : Ends s) : parse s 0 = some ⟨.invalid, []⟩ := by
  cases s with
  | nil => decide
  | cons c s =>
    rcases h with h | h | h <;> (obtain rfl : c = _ := h; rfl)

theorem parseLoop_pieces (l : List (UInt8 × CStr × Addr)) (hl : ∀ x ∈ l, (x.1 = 32 ∨ x.1 = 44) ∧ Piece x.2.1 x.2.2) :
    parseLoop (joined (l.map fun x => (x.1, x.2.1))).tail 0 (joined (l.map fun x => (x.1, x.2.1))) =
      some (l.map fun x => x.2.2) := by
  induction l with
  | nil => rfl
  | cons x l ih =>
    obtain ⟨c, t, a⟩ := x
    have hx := (hl (c, t, a) (by simp)).2
    have he : Ends (joined (l.map fun x => (x.1, x.2.1))) := by
      apply joined_ends
      intro y hy
      obtain ⟨z, hz, rfl⟩ := List.mem_map.mp hy
      exact (hl z (by simp [hz])).1
    have hih := ih (fun y hy => hl y (by simp [hy]))
    simp only [List.map_cons, joined, List.tail_cons]
    generalize joined (l.map fun x => (x.1, x.2.1)) = rest at he hih ⊢
    rcases hx with ⟨ht, ha⟩ | hx
    · simp only at ht ha
      subst ht ha
      rw [List.nil_append, parseLoop, if_pos (by rcases he with h | h | h; exacts [.inr (.inr h), .inl h, .inr (.inl h)]), parse_nothing _ he, hih]
      rfl
    · obtain ⟨d, u, hu⟩ := List.exists_cons_of_ne_nil hx.nonempty
      simp only at hu hx
      subst hu
      have hd := hx.noSep d (by simp)
      rw [parseLoop, if_neg (by simp [hd]), parseLoop_item _ _ he u d _ (fun e he => hx.noSep e (by simp [he])),
        Nat.zero_add, Nat.add_comm, ← List.length_cons (a := d), hx.parses _ he, hih]
      rfl

/-- C52: what any row of separators gives, violation included: after the first address, each comma or space is followed
by one address of the list, namely the one written after it or, if there is none before the next separator or the end,
one of invalid type. So a row of `n` separators adds `n - 1` addresses that are not in the text, and a separator at the
end one. -/
theorem C52_rows (t : CStr) (a : Addr) (l : List (UInt8 × CStr × Addr)) (h0 : Item t a)
    (hl : ∀ x ∈ l, (x.1 = 32 ∨ x.1 = 44) ∧ Piece x.2.1 x.2.2) :
    parseAll (t ++ joined (l.map fun x => (x.1, x.2.1))) = some (a :: l.map fun x => x.2.2) := by
  obtain ⟨c, t', rfl⟩ := List.exists_cons_of_ne_nil h0.nonempty
  have he : Ends (joined (l.map fun x => (x.1, x.2.1))) := by
    apply joined_ends
    intro y hy
    obtain ⟨z, hz, rfl⟩ := List.mem_map.mp hy
    exact (hl z hz).1
  rw [parseAll, parseLoop_item _ _ he t' c 1 (fun d hd => h0.noSep d (by simp [hd])), Nat.add_comm,
    ← List.length_cons (a := c), h0.parses _ he, parseLoop_pieces l hl]
  rfl

example : parseAll c!"10.0.0.1,  10.0.0.1 " = some [⟨.v4, [10, 0, 0, 1]⟩, ⟨.invalid, []⟩, ⟨.invalid, []⟩,
    ⟨.v4, [10, 0, 0, 1]⟩, ⟨.invalid, []⟩] :=
  C52_rows c!"10.0.0.1" _ [(44, [], ⟨.invalid, []⟩), (32, [], ⟨.invalid, []⟩), (32, c!"10.0.0.1", ⟨.v4, [10, 0, 0, 1]⟩),
      (32, [], ⟨.invalid, []⟩)] item_10 (by
    intro x hx
    simp only [List.mem_cons, List.not_mem_nil, or_false] at hx
    rcases hx with rfl | rfl | rfl | rfl
    · exact ⟨Or.inr rfl, Or.inl ⟨rfl, rfl⟩⟩
    · exact ⟨Or.inl rfl, Or.inl ⟨rfl, rfl⟩⟩
    · exact ⟨Or.inl rfl, Or.inr item_10⟩
    · exact ⟨Or.inl rfl, Or.inl ⟨rfl, rfl⟩⟩)

/-- C52 fails for the usual form with a comma and a space: a third address, of invalid type and with no byte
initialised, appears between the two. -/
theorem C52_violated : parseAll c!"10.0.0.1, 8.8.8.8" =
    some [⟨.v4, [10, 0, 0, 1]⟩, ⟨.invalid, []⟩, ⟨.v4, [8, 8, 8, 8]⟩] := by decide

/-! ## C53: freeing addresses -/

/-- C53: freeing an empty list frees nothing. Missing: every other list, see `C53_violated`. -/
theorem C53_empty_partial (alive : List Nat) : freeAddresses alive [] = some alive := rfl

/-- C53 fails for every list with an address in it: the pointer given to `free` is not the one `malloc` returned.
-/
theorem C53_violated (alive : List Nat) (b : Nat) (rest : List Nat) : freeAddresses alive (b :: rest) = none := by
  simp [freeAddresses, free, sizeofAddress]

example : freeAddresses [7, 3] [3] = none := by decide

end Verif.Ip
