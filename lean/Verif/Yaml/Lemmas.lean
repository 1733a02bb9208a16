import Verif.Yaml.Model

namespace Verif.Yaml

/-! ## Buffers -/

theorem cstr_of_take {b : List UInt8} {t : CStr} (h0 : ∀ c ∈ t, c ≠ 0) (h : b.take t.length = t)
    (hz : b[t.length]? = some 0) : cstr b = some t := by
  obtain ⟨hl, hz⟩ := List.getElem?_eq_some_iff.1 hz
  have hb : b = t ++ 0 :: b.drop (t.length + 1) := by
    have := List.take_append_drop t.length b
    rw [h, List.drop_eq_getElem_cons hl, hz] at this
    exact this.symm
  have hm : (0 : UInt8) ∈ b := by rw [hb]; simp
  rw [cstr, if_pos hm, hb]
  rw [List.takeWhile_append_of_pos (by simpa using h0)]
  simp

/-- The sizes of the buffers. -/
def lens (ps : List Pair) : List (Nat × Nat) := ps.map fun p => (p.1.length, p.2.length)

theorem lens_length (ps : List Pair) : (lens ps).length = ps.length := by simp [lens]

theorem lens_get {ps : List Pair} {i : Nat} {p : Pair} (h : ps[i]? = some p) :
    (lens ps)[i]? = some (p.1.length, p.2.length) := by simp [lens, h]

/-- What `write` does. -/
theorem write_spec (s : St) (p : Pair) (c : UInt8) (hp : s.pairs[s.slot]? = some p)
    (ho : s.off < (buf s).length) :
    ∃ ps, write s c = some { s with pairs := ps } ∧ lens ps = lens s.pairs ∧
      (∀ i, i ≠ s.slot → ps[i]? = s.pairs[i]?) ∧
      ps[s.slot]? = some (if s.inValue then (p.1, p.2.set s.off c) else (p.1.set s.off c, p.2)) ∧
      buf { s with pairs := ps } = (buf s).set s.off c := by
  have hlt := (List.getElem?_eq_some_iff.1 hp).1
  refine ⟨s.pairs.set s.slot (if s.inValue then (p.1, p.2.set s.off c) else (p.1.set s.off c, p.2)),
    by simp only [write, hp, if_pos ho], ?_, ?_, ?_, ?_⟩
  · apply List.ext_getElem?
    intro i
    simp only [lens, List.getElem?_map, List.getElem?_set]
    by_cases hi : s.slot = i
    · subst hi
      rw [hp, if_pos rfl, if_pos hlt]
      cases s.inValue <;> simp
    · rw [if_neg hi]
  · intro i hi
    rw [List.getElem?_set, if_neg (Ne.symm hi)]
  · rw [List.getElem?_set, if_pos rfl, if_pos hlt]
  · simp only [buf, hp, List.getElem?_set, hlt, if_true]
    cases s.inValue <;> simp

theorem run_cons (limit : Nat) (s s' : St) (c : UInt8) (cs : List UInt8) (h : step limit s c = some (s', false)) :
    run limit s (c :: cs) = run limit s' cs := by simp [run, h]

/-! ## The state between the characters -/

/-- The pairs before the current one hold `ps`, the current one is there, and the outputs so far. -/
structure Base (caps : List (Nat × Nat)) (ps : List (CStr × CStr)) (n : Nat)
    (o : List (List (Option CStr × Option CStr))) (s : St) : Prop where
  caps : lens s.pairs = caps
  index : s.index = ps.length
  slot : s.slot = ps.length
  lt : ps.length < s.pairs.length
  done : ∀ (i : Nat) (t : CStr × CStr), ps[i]? = some t →
    ∃ p, s.pairs[i]? = some p ∧ cstr p.1 = some t.1 ∧ cstr p.2 = some t.2
  count : s.count = n
  out : s.out = o

/-- Writing the key: `t` has been written. -/
structure InKey (caps : List (Nat × Nat)) (ps : List (CStr × CStr)) (n : Nat)
    (o : List (List (Option CStr × Option CStr))) (t : CStr) (s : St) : Prop extends Base caps ps n o s where
  inValue : s.inValue = false
  off : s.off = t.length
  take : (buf s).take t.length = t
  dash : s.dash = 0
  dot : s.dot = 0
  quote : s.quote = 0
  colon : s.colon = 0
  pos : s.pos = t.length

/-- Writing the value after the separator: the key is `k`, `t` of the value has been written. -/
structure InValue (caps : List (Nat × Nat)) (ps : List (CStr × CStr)) (n : Nat)
    (o : List (List (Option CStr × Option CStr))) (k t : CStr) (q : Bool) (s : St) : Prop extends Base caps ps n o s where
  inValue : s.inValue = true
  off : s.off = t.length
  take : (buf s).take t.length = t
  key : ∃ p, s.pairs[s.slot]? = some p ∧ cstr p.1 = some k
  dash : s.dash = 0
  dot : s.dot = 0
  quote : if q then 0 < s.quote else s.quote = 0
  colon : 0 < s.colon
  pos : s.colon + 1 ≤ s.pos
  first : s.colon + 1 = s.pos → t = [] ∧ q = false
  nl : s.nl = 0

variable {caps : List (Nat × Nat)} {ps : List (CStr × CStr)} {n : Nat}
  {o : List (List (Option CStr × Option CStr))} {k t : CStr} {q : Bool} {s : St}

theorem Base.cur (h : Base caps ps n o s) : ∃ p, s.pairs[s.slot]? = some p :=
  ⟨_, List.getElem?_eq_getElem (by rw [h.slot]; exact h.lt)⟩

theorem take_set (b : List UInt8) (t : CStr) (c : UInt8) (h : b.take t.length = t) (hl : t.length < b.length) :
    (b.set t.length c).take (t ++ [c]).length = t ++ [c] := by
  rw [List.length_append, List.length_singleton, List.take_add_one, List.take_set_of_le (Nat.le_refl _), h,
    List.getElem?_set, if_pos rfl, if_pos hl]
  rfl

theorem advance_buf (s : St) : buf (advance s) = buf s := rfl

/-- A character of the key. -/
theorem step_key (h : InKey caps ps n o t s) (limit : Nat) (c : UInt8) (h10 : c ≠ 10) (h13 : c ≠ 13)
    (h58 : c ≠ 58) (hfirst : t = [] → c ≠ 45 ∧ c ≠ 46) (hfit : t.length + 1 < (buf s).length) :
    ∃ s', step limit s c = some (s', false) ∧ InKey caps ps n o (t ++ [c]) s' ∧ (buf s').length = (buf s).length ∧
      s'.nl = 0 := by
  obtain ⟨p, hp⟩ := h.cur
  have e : step limit s c = (addCharacter (advance s) c).map fun s => (s, false) := by
    rw [step, if_neg (by simp [h10, h13]), if_neg, if_neg, if_neg (by simp [h58]), if_neg (by simp [h.colon])]
    · rintro ⟨h1, h2⟩
      rw [h.pos, h.dot] at h2
      exact (hfirst (by simpa using h2)).2 h1
    · rintro ⟨h1, h2⟩
      rw [h.pos, h.dash] at h2
      exact (hfirst (by simpa using h2)).1 h1
  have ho : (advance s).off < (buf (advance s)).length := by
    rw [advance_buf]; show s.off < _; rw [h.off]; omega
  obtain ⟨pairs, w1, w2, w3, w4, w5⟩ := write_spec (advance s) p c hp ho
  have ea : addCharacter (advance s) c =
      some { advance s with pairs := pairs, off := s.off + 1 } := by
    rw [addCharacter, if_pos, w1]
    · rfl
    · refine ⟨?_, ?_, ?_⟩
      · rw [advance_buf]; show s.off + 1 < _; rw [h.off]; omega
      · show s.index < s.pairs.length
        rw [h.index]; exact_mod_cast h.lt
      · simp [isValue, advance, h.colon]
  rw [advance_buf] at w5
  have w5' : buf { advance s with pairs := pairs, off := s.off + 1 } = (buf s).set s.off c := w5
  refine ⟨{ advance s with pairs := pairs, off := s.off + 1 }, by rw [e, ea]; rfl, ?_, by rw [w5']; simp, rfl⟩
  constructor
  · exact ⟨w2.trans h.caps, h.index, h.slot, by
        have : pairs.length = s.pairs.length := by
          rw [← lens_length, w2, lens_length]; rfl
        show _ < pairs.length
        rw [this]; exact h.lt, by
        intro i x hi
        have hne : i ≠ s.slot := by
          have := (List.getElem?_eq_some_iff.1 hi).1
          rw [h.slot]; omega
        obtain ⟨y, hy, h1⟩ := h.done i x hi
        exact ⟨y, (w3 i hne).trans hy, h1⟩, h.count, h.out⟩
  · exact h.inValue
  · show s.off + 1 = _; rw [h.off]; simp
  · rw [w5', h.off]; exact take_set _ _ _ h.take (by omega)
  · exact h.dash
  · exact h.dot
  · exact h.quote
  · exact h.colon
  · show s.pos + 1 = _; rw [h.pos]; simp

/-- A character of the value. -/
theorem step_value (h : InValue caps ps n o k t q s) (limit : Nat) (c : UInt8) (h10 : c ≠ 10) (h13 : c ≠ 13)
    (hfirst : q = false → t = [] → c ≠ 39) (hfit : t.length + 1 < (buf s).length) :
    ∃ s', step limit s c = some (s', false) ∧ InValue caps ps n o k (t ++ [c]) q s' ∧
      (buf s').length = (buf s).length := by
  obtain ⟨p, hp⟩ := h.cur
  have hpos := h.pos
  have hcol := h.colon
  have e : step limit s c = (addCharacter (advance s) c).map fun s => (s, false) := by
    rw [step, if_neg (by simp [h10, h13]), if_neg, if_neg, if_neg, if_neg]
    · rintro ⟨h1, h2, h3⟩
      obtain ⟨a, b⟩ := h.first h3
      exact hfirst b a h1
    · rintro ⟨h1, h2⟩; omega
    · rintro ⟨h1, h2⟩; rw [h.dot] at h2; omega
    · rintro ⟨h1, h2⟩; rw [h.dash] at h2; omega
  have ho : (advance s).off < (buf (advance s)).length := by
    rw [advance_buf]; show s.off < _; rw [h.off]; omega
  obtain ⟨pairs, w1, w2, w3, w4, w5⟩ := write_spec (advance s) p c hp ho
  have ea : addCharacter (advance s) c =
      some { advance s with pairs := pairs, off := s.off + 1 } := by
    rw [addCharacter, if_pos, w1]
    · rfl
    · refine ⟨?_, ?_, ?_⟩
      · rw [advance_buf]; show s.off + 1 < _; rw [h.off]; omega
      · show s.index < s.pairs.length
        rw [h.index]; exact_mod_cast h.lt
      · simp [isValue, advance]; omega
  rw [advance_buf] at w5
  have w5' : buf { advance s with pairs := pairs, off := s.off + 1 } = (buf s).set s.off c := w5
  refine ⟨{ advance s with pairs := pairs, off := s.off + 1 }, by rw [e, ea]; rfl, ?_, by rw [w5']; simp⟩
  constructor
  · exact ⟨w2.trans h.caps, h.index, h.slot, by
        have : pairs.length = s.pairs.length := by
          rw [← lens_length, w2, lens_length]; rfl
        show _ < pairs.length
        rw [this]; exact h.lt, by
        intro i x hi
        have hne : i ≠ s.slot := by
          have := (List.getElem?_eq_some_iff.1 hi).1
          rw [h.slot]; omega
        obtain ⟨y, hy, h1⟩ := h.done i x hi
        exact ⟨y, (w3 i hne).trans hy, h1⟩, h.count, h.out⟩
  · exact h.inValue
  · show s.off + 1 = _; rw [h.off]; simp
  · rw [w5', h.off]; exact take_set _ _ _ h.take (by omega)
  · obtain ⟨y, hy, h1⟩ := h.key
    rw [hp] at hy; cases hy
    refine ⟨(p.1, p.2.set s.off c), ?_, h1⟩
    have : (advance s).inValue = true := h.inValue
    rw [this] at w4
    exact w4
  · exact h.dash
  · exact h.dot
  · exact h.quote
  · exact h.colon
  · show s.colon + 1 ≤ s.pos + 1; omega
  · show s.colon + 1 = s.pos + 1 → _
    intro hh; omega
  · rfl

/-- The whole key. -/
theorem run_key (limit : Nat) (key rem rest : CStr) (h : InKey caps ps n o t s) (hk : t ++ rem = key)
    (hc : ∀ c ∈ key, c ≠ 10 ∧ c ≠ 13 ∧ c ≠ 58) (h45 : key.head? ≠ some 45) (h46 : key.head? ≠ some 46)
    (hfit : key.length < (buf s).length) :
    ∃ s', run limit s (rem ++ rest) = run limit s' rest ∧ InKey caps ps n o key s' ∧
      (buf s').length = (buf s).length := by
  induction rem generalizing s t with
  | nil =>
    rw [List.append_nil] at hk
    subst hk
    exact ⟨s, rfl, h, rfl⟩
  | cons c rem ih =>
    have hm : c ∈ key := by rw [← hk]; simp
    have hlen : key.length = t.length + (rem.length + 1) := by rw [← hk]; simp
    obtain ⟨s1, e1, k1, b1, -⟩ := step_key h limit c (hc c hm).1 (hc c hm).2.1 (hc c hm).2.2 (by
      rintro rfl
      subst hk
      exact ⟨fun e => h45 (by simp [e]), fun e => h46 (by simp [e])⟩) (by omega)
    obtain ⟨s2, e2, k2, b2⟩ := ih k1 (by rw [← hk]; simp) (by omega)
    exact ⟨s2, by rw [List.cons_append, run_cons limit s s1 c _ e1, e2], k2, b2.trans b1⟩

/-- The rest of a value. -/
theorem run_value (limit : Nat) (v rem rest : CStr) (h : InValue caps ps n o k t q s) (hv : t ++ rem = v)
    (hc : ∀ c ∈ v, c ≠ 10 ∧ c ≠ 13) (h39 : q = false → v.head? ≠ some 39)
    (hfit : v.length < (buf s).length) :
    ∃ s', run limit s (rem ++ rest) = run limit s' rest ∧ InValue caps ps n o k v q s' ∧
      (buf s').length = (buf s).length := by
  induction rem generalizing s t with
  | nil =>
    rw [List.append_nil] at hv
    subst hv
    exact ⟨s, rfl, h, rfl⟩
  | cons c rem ih =>
    have hm : c ∈ v := by rw [← hv]; simp
    have hlen : v.length = t.length + (rem.length + 1) := by rw [← hv]; simp
    obtain ⟨s1, e1, k1, b1⟩ := step_value h limit c (hc c hm).1 (hc c hm).2 (by
      rintro hq rfl
      subst hv
      exact fun e => h39 hq (by simp [e])) (by omega)
    obtain ⟨s2, e2, k2, b2⟩ := ih k1 (by rw [← hv]; simp) (by omega)
    exact ⟨s2, by rw [List.cons_append, run_cons limit s s1 c _ e1, e2], k2, b2.trans b1⟩

/-- The colon and the space after it. -/
theorem step_separator (h : InKey caps ps n o k s) (limit : Nat) (rest : CStr) (h0 : ∀ c ∈ k, c ≠ 0)
    (hfit : k.length < (buf s).length) :
    ∃ s', run limit s (58 :: 32 :: rest) = run limit s' rest ∧ InValue caps ps n o k [] false s' ∧
      caps[ps.length]?.map (·.2) = some (buf s').length ∧ s'.colon + 1 = s'.pos := by
  obtain ⟨p, hp⟩ := h.cur
  obtain ⟨pairs, w1, w2, w3, w4, w5⟩ := write_spec (advance s) p 0 hp (by
    rw [advance_buf]; show s.off < _; rw [h.off]; exact hfit)
  have hpl : pairs.length = s.pairs.length := by rw [← lens_length, w2, lens_length]; rfl
  have hin : (advance s).inValue = false := h.inValue
  rw [hin] at w4
  have w4' : pairs[s.slot]? = some (p.1.set s.off 0, p.2) := w4
  have e1 : step limit s 58 = some ({ advance s with pairs := pairs, slot := s.index.toNat, inValue := true, off := 0, colon := s.pos + 1 }, false) := by
    have h1 : setCurrent { advance s with pairs := pairs } true =
        some { advance s with pairs := pairs, slot := s.index.toNat, inValue := true, off := 0 } := by
      rw [setCurrent, if_pos]
      · rfl
      · show 0 ≤ s.index ∧ s.index < pairs.length
        rw [h.index, hpl]
        have := h.lt
        omega
    rw [step, if_neg (by decide), if_neg (by simp), if_neg (by simp), if_pos ⟨rfl, h.colon⟩, switchKeyValue, w1]
    simp only [Option.bind_some, h1, Option.map_some]
    rfl
  have hidx : s.index.toNat = s.slot := by rw [h.index, h.slot]; simp
  have e2 : step limit { advance s with pairs := pairs, slot := s.index.toNat, inValue := true, off := 0, colon := s.pos + 1 } 32 =
      some ({ advance s with pairs := pairs, slot := s.index.toNat, inValue := true, off := 0, colon := s.pos + 1, pos := s.pos + 2 }, false) := by
    have h1 : addCharacter (advance { advance s with pairs := pairs, slot := s.index.toNat, inValue := true, off := 0, colon := s.pos + 1 }) 32 =
        some (advance { advance s with pairs := pairs, slot := s.index.toNat, inValue := true, off := 0, colon := s.pos + 1 }) := by
      rw [addCharacter, if_neg]
      rintro ⟨-, -, h3⟩
      simp [isValue, advance] at h3
    rw [step, if_neg (by decide), if_neg (by simp), if_neg (by simp), if_neg (by simp), if_neg (by simp), h1]
    rfl
  refine ⟨_, by rw [run_cons _ _ _ _ _ e1, run_cons _ _ _ _ _ e2], ?_, ?_, rfl⟩
  · constructor
    · refine ⟨w2.trans h.caps, h.index, hidx.trans h.slot, by show _ < pairs.length; rw [hpl]; exact h.lt, ?_, h.count, h.out⟩
      intro i x hi
      have hne : i ≠ s.slot := by
        have := (List.getElem?_eq_some_iff.1 hi).1
        rw [h.slot]; omega
      obtain ⟨y, hy, h1⟩ := h.done i x hi
      exact ⟨y, (w3 i hne).trans hy, h1⟩
    · rfl
    · rfl
    · rfl
    · refine ⟨_, by show pairs[s.index.toNat]? = _; rw [hidx]; exact w4', ?_⟩
      have hb : buf s = p.1 := by simp [buf, hp, h.inValue]
      rw [hb] at hfit
      have ht := h.take
      rw [hb] at ht
      rw [h.off]
      apply cstr_of_take h0
      · rw [List.take_set_of_le (Nat.le_refl _), ht]
      · rw [List.getElem?_set, if_pos rfl, if_pos hfit]
    · exact h.dash
    · exact h.dot
    · exact h.quote
    · show 0 < s.pos + 1; omega
    · show s.pos + 1 + 1 ≤ s.pos + 2; omega
    · intro _; exact ⟨rfl, rfl⟩
    · rfl
  · have : pairs[ps.length]? = some (p.1.set s.off 0, p.2) := by rw [← h.slot]; exact w4'
    have h2 := lens_get this
    rw [show lens pairs = caps from w2.trans h.caps] at h2
    rw [h2]
    simp only [buf]
    show _ = some (match pairs[s.index.toNat]? with | none => [] | some p => if true = true then p.2 else p.1).length
    rw [hidx, w4']
    rfl

/-- The opening quote. -/
theorem step_quote (h : InValue caps ps n o k [] false s) (hp : s.colon + 1 = s.pos) (limit : Nat) (rest : CStr) :
    ∃ s', run limit s (39 :: rest) = run limit s' rest ∧ InValue caps ps n o k [] true s' ∧
      (buf s').length = (buf s).length := by
  have e : step limit s 39 = some ({ advance s with quote := s.pos + 1 }, false) := by
    rw [step, if_neg (by decide), if_neg (by simp), if_neg (by simp), if_neg (by simp),
      if_pos ⟨rfl, h.colon, hp⟩]
    rfl
  refine ⟨_, run_cons _ _ _ _ _ e, ?_, rfl⟩
  refine ⟨⟨h.caps, h.index, h.slot, h.lt, h.done, h.count, h.out⟩, h.inValue, h.off, h.take, h.key, h.dash, h.dot,
    ?_, h.colon, ?_, ?_, rfl⟩
  · simp
  · have := h.pos; show s.colon + 1 ≤ s.pos + 1; omega
  · show s.colon + 1 = s.pos + 1 → _
    intro; omega

/-- What is stored of a value: without the closing quote. -/
theorem close_value (h : InValue caps ps n o k t q s) (v : CStr)
    (hv : t = if q then v ++ [39] else v) :
    ∃ s', closeQuote s = some s' ∧ s' = { s with off := v.length } ∧ (buf s).take v.length = v := by
  cases q with
  | false =>
    have hq : s.quote = 0 := h.quote
    simp only [Bool.false_eq_true, if_false] at hv
    subst hv
    refine ⟨s, by rw [closeQuote, if_neg (by omega)], ?_, h.take⟩
    rw [← h.off]
  | true =>
    have hq : 0 < s.quote := h.quote
    simp only [if_true] at hv
    subst hv
    have ho : s.off = v.length + 1 := by rw [h.off]; simp
    have ht := h.take
    have hget : (buf s)[v.length]? = some 39 := by
      have := congrArg (fun l => l[v.length]?) ht
      simp only [List.getElem?_take, List.length_append, List.length_singleton] at this
      simpa using this
    refine ⟨{ s with off := v.length }, ?_, rfl, ?_⟩
    · rw [closeQuote, if_pos hq, if_neg (by omega), ho, Nat.add_sub_cancel, if_pos hget]
    · have := congrArg (List.take v.length) ht
      rw [List.take_take] at this
      simpa using this

/-- At the start of a line after the pairs `ps`. -/
structure AtLine (caps : List (Nat × Nat)) (ps : List (CStr × CStr)) (n : Nat)
    (o : List (List (Option CStr × Option CStr))) (s : St) : Prop extends InKey caps ps n o [] s where
  nl : s.nl = 1

/-- The end of a line with a pair. -/
theorem end_pair (h : InValue caps ps n o k t q s) (v : CStr) (hv : t = if q then v ++ [39] else v)
    (h0 : ∀ c ∈ v, c ≠ 0) (hfit : t.length < (buf s).length) (hroom : ps.length + 1 < caps.length)
    (h16 : ps.length < 32767) (limit : Nat) (c : UInt8) (hc : c = 10 ∨ c = 13) :
    ∃ s', step limit s c = some (s', false) ∧ AtLine caps (ps ++ [(k, v)]) n o s' := by
  obtain ⟨s1, e1, hs1, ht⟩ := close_value h v hv
  have hvt : v.length ≤ t.length := by rw [hv]; split <;> simp
  have hb1 : buf s1 = buf s := by rw [hs1]; rfl
  obtain ⟨p, hp⟩ := h.cur
  obtain ⟨pairs, w1, w2, w3, w4, w5⟩ := write_spec s1 p 0 (by rw [hs1]; exact hp) (by
    rw [hb1, hs1]; show v.length < _; omega)
  have hpl : pairs.length = s.pairs.length := by rw [← lens_length, w2, lens_length, hs1]
  have hcl : s.pairs.length = caps.length := by rw [← h.caps, lens_length]
  have hw : wrap16 (s.index + 1) = (ps.length + 1 : Nat) := by
    rw [wrap16, h.index, if_neg (by omega)]; rfl
  have e2 : nextPair s1 = some { s with pairs := pairs, off := 0, index := (ps.length + 1 : Nat), slot := ps.length + 1, inValue := false } := by
    rw [nextPair, w1, hs1, Option.bind_some, setCurrent]
    simp only [hw]
    rw [if_pos (by omega)]
    simp
  have e3 : step limit s c = some ({ newLine { s with pairs := pairs, off := 0, index := (ps.length + 1 : Nat), slot := ps.length + 1, inValue := false } with nl := 1 }, false) := by
    rw [step, if_pos hc, endLine, if_pos h.nl, e1, Option.bind_some, e2]; rfl
  refine ⟨_, e3, ⟨⟨⟨?_, ?_, ?_, ?_, ?_, h.count, h.out⟩, rfl, rfl, rfl, rfl, rfl, rfl, rfl, rfl⟩, rfl⟩⟩
  · show lens pairs = caps
    rw [w2, hs1]; exact h.caps
  · show ((ps.length + 1 : Nat) : Int) = _; simp
  · show ps.length + 1 = _; simp
  · show _ < pairs.length
    simp; omega
  · intro i x hi
    show ∃ p, pairs[i]? = some p ∧ _
    by_cases hl : i < ps.length
    · rw [List.getElem?_append_left hl] at hi
      obtain ⟨y, hy, h1⟩ := h.done i x hi
      refine ⟨y, ?_, h1⟩
      rw [w3 i (by rw [hs1]; show i ≠ s.slot; rw [h.slot]; omega), hs1]
      exact hy
    · have hi' : i = ps.length := by
        have := (List.getElem?_eq_some_iff.1 hi).1
        simp at this; omega
      subst hi'
      rw [List.getElem?_append_right (Nat.le_refl _)] at hi
      simp only [Nat.sub_self, List.getElem?_cons_zero, Option.some.injEq] at hi
      subst hi
      obtain ⟨y, hy, h1⟩ := h.key
      rw [hp] at hy; cases hy
      have w4' : pairs[s.slot]? = some (p.1, p.2.set v.length 0) := by
        rw [hs1] at w4
        simpa [h.inValue] using w4
      rw [h.slot] at w4'
      refine ⟨_, w4', h1, ?_⟩
      have hb : buf s = p.2 := by simp [buf, hp, h.inValue]
      rw [hb] at ht hfit
      apply cstr_of_take h0
      · rw [List.take_set_of_le (Nat.le_refl _), ht]
      · rw [List.getElem?_set, if_pos rfl, if_pos (by omega)]

/-- Further line ends. -/
theorem run_blank (h : AtLine caps ps n o s) (limit : Nat) (eol rest : CStr) (he : ∀ c ∈ eol, c = 10 ∨ c = 13) :
    run limit s (eol ++ rest) = run limit s rest := by
  induction eol with
  | nil => rfl
  | cons c eol ih =>
    have e : step limit s c = some (s, false) := by
      rw [step, if_pos (he c (by simp)), endLine, if_neg (by rw [h.nl]; decide)]
      simp only [Option.map_some, newLine, ← h.dash, ← h.dot, ← h.quote, ← h.colon, ← h.nl, Option.some.injEq,
        Prod.mk.injEq, and_true]
      have := h.pos
      have hd := h.dash; have ht := h.dot; have hq := h.quote; have hcl := h.colon; have hn := h.nl
      cases s
      simp_all
    rw [List.cons_append, run_cons _ _ _ _ _ e]
    exact ih (fun c hc => he c (by simp [hc]))

end Verif.Yaml
