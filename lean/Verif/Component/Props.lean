import Verif.Component.Model

/-! # C40, C51: components -/

namespace Verif.Component

/-! ## Specification: the data file format of components -/

/-- A component as stored in a data file. -/
structure Comp where
  id : UInt8
  name : Nat
  profile : Nat
  pairs : List (Nat × Nat)
deriving DecidableEq, Repr

/-- Little-endian bytes. -/
def le16 (n : Nat) : List UInt8 := [UInt8.ofNat n, UInt8.ofNat (n / 256)]
def le32 (n : Nat) : List UInt8 := le16 n ++ le16 (n / 65536)

/-- The stored pairs. -/
def encodePairs (ps : List (Nat × Nat)) : List UInt8 := ps.flatMap fun p => le32 p.1 ++ le32 p.2

/-- The stored component. -/
def encode (c : Comp) : List UInt8 :=
  [c.id] ++ le32 c.name ++ le32 c.profile ++ le16 c.pairs.length ++ encodePairs c.pairs

/-- The component's numbers fit their fields. -/
structure Fits (c : Comp) : Prop where
  count : c.pairs.length < 2 ^ 16
  pairs : ∀ p ∈ c.pairs, p.1 < 2 ^ 32 ∧ p.2 < 2 ^ 32

/-! ## Reading what was encoded -/

theorem getElem?_mid {α : Type} (pre l post : List α) (i : Nat) (h : i < l.length) :
    (pre ++ (l ++ post))[pre.length + i]? = l[i]? := by
  rw [List.getElem?_append_right (by omega), Nat.add_sub_cancel_left, List.getElem?_append_left h]

theorem read16_le (pre post : List UInt8) (n : Nat) (h : n < 2 ^ 16) :
    read16 (pre ++ (le16 n ++ post)) pre.length = some n := by
  have h0 := getElem?_mid pre (le16 n) post 0 (by simp [le16])
  have h1 := getElem?_mid pre (le16 n) post 1 (by simp [le16])
  simp only [Nat.add_zero] at h0
  simp only [read16, byteAt, h0, h1]
  simp only [le16, List.getElem?_cons_zero, List.getElem?_cons_succ, Option.map_some,
    Option.bind_eq_bind, Option.bind_some, UInt8.toNat_ofNat', Option.some.injEq]
  omega

theorem read32_le (pre post : List UInt8) (n : Nat) (h : n < 2 ^ 32) :
    read32 (pre ++ (le32 n ++ post)) pre.length = some n := by
  have h2 : le16 n = le16 (n % 65536) := by
    simp only [le16]
    congr 1
    · apply UInt8.toNat_inj.mp; simp only [UInt8.toNat_ofNat']; omega
    · congr 1; apply UInt8.toNat_inj.mp; simp only [UInt8.toNat_ofNat']; omega
  have e1 := read16_le pre (le16 (n / 65536) ++ post) (n % 65536) (by omega)
  have e2 := read16_le (pre ++ le16 (n % 65536)) post (n / 65536) (by omega)
  simp only [List.append_assoc, List.length_append] at e1 e2
  have hl : (le16 (n % 65536)).length = 2 := rfl
  rw [hl] at e2
  simp only [read32, le32, h2, List.append_assoc, e1, e2, Option.bind_eq_bind, Option.bind_some]
  congr 1
  omega

theorem encodePairs_append (a b : List (Nat × Nat)) : encodePairs (a ++ b) = encodePairs a ++ encodePairs b := by
  simp [encodePairs, List.flatMap_append]

theorem encodePairs_length (ps : List (Nat × Nat)) : (encodePairs ps).length = 8 * ps.length := by
  induction ps with
  | nil => rfl
  | cons p ps ih =>
    have : encodePairs (p :: ps) = le32 p.1 ++ le32 p.2 ++ encodePairs ps := rfl
    rw [this, List.length_append, ih]
    simp only [le32, le16, List.length_append, List.length_cons, List.length_nil]
    omega

theorem encode_length (c : Comp) : (encode c).length = 11 + 8 * c.pairs.length := by
  simp only [encode, List.length_append, encodePairs_length, le32, le16, List.length_cons, List.length_nil]

theorem keyValuesCount_encode (pre post : List UInt8) (c : Comp) (h : Fits c) :
    keyValuesCount (pre ++ (encode c ++ post)) pre.length = some c.pairs.length := by
  have := read16_le (pre ++ ([c.id] ++ le32 c.name ++ le32 c.profile)) (encodePairs c.pairs ++ post) c.pairs.length h.count
  simp only [List.append_assoc, List.length_append] at this
  have hl : [c.id].length + ((le32 c.name).length + (le32 c.profile).length) = 9 := rfl
  rw [hl] at this
  simp only [keyValuesCount, encode, List.append_assoc]
  exact this

theorem finalSize_eq (n : Nat) (h : n < 2 ^ 16) : finalSize n = 11 + 8 * n := by
  simp only [finalSize, toInt32]
  by_cases h0 : n = 0
  · subst h0; decide
  · have e : (((n : Int) - 1) % 2 ^ 64).toNat = n - 1 := by omega
    rw [e]
    have e2 : (n - 1) * 8 % 2 ^ 64 = (n - 1) * 8 := by omega
    have e3 : (n - 1) * 8 % 2 ^ 32 = (n - 1) * 8 := by omega
    rw [e2, e3, if_pos (by omega)]
    omega

/-- C40: for a component stored anywhere in the image, asking for pair `i` below the count gives a pointer at
which exactly that pair is read, and asking beyond the count is an exception. Asking for the pair at the count
itself is not covered, see `C40_violated`. -/
theorem C40_pairs_partial (pre post : List UInt8) (c : Comp) (h : Fits c) (i : Nat) (hi : i ≠ c.pairs.length) :
    ∃ r, getKeyValuePair (pre ++ (encode c ++ post)) pre.length i = some r ∧
      (∀ p, c.pairs[i]? = some p → ∃ q, r = some q ∧ readPair (pre ++ (encode c ++ post)) q = some p) ∧
      (c.pairs[i]? = none → r = none) := by
  simp only [getKeyValuePair, keyValuesCount_encode pre post c h, Option.bind_eq_bind, Option.bind_some]
  by_cases hgt : i > c.pairs.length
  · rw [if_pos hgt]
    refine ⟨none, rfl, ?_, fun _ => rfl⟩
    intro p hp
    rw [List.getElem?_eq_none (by omega)] at hp
    simp at hp
  · rw [if_neg hgt]
    refine ⟨_, rfl, ?_, ?_⟩
    · intro p hp
      refine ⟨_, rfl, ?_⟩
      obtain ⟨hlt, rfl⟩ := List.getElem?_eq_some_iff.mp hp
      have hsplit : c.pairs = c.pairs.take i ++ (c.pairs[i] :: c.pairs.drop (i + 1)) := by
        rw [← List.drop_eq_getElem_cons hlt, List.take_append_drop]
      obtain ⟨hk, hv⟩ := h.pairs c.pairs[i] (List.getElem_mem _)
      have himg : pre ++ (encode c ++ post) =
          (pre ++ ([c.id] ++ le32 c.name ++ le32 c.profile ++ le16 c.pairs.length ++ encodePairs (c.pairs.take i))) ++
            (le32 c.pairs[i].1 ++ (le32 c.pairs[i].2 ++ (encodePairs (c.pairs.drop (i + 1)) ++ post))) := by
        have he : encodePairs c.pairs = encodePairs (c.pairs.take i) ++
            (le32 c.pairs[i].1 ++ (le32 c.pairs[i].2 ++ encodePairs (c.pairs.drop (i + 1)))) := by
          have : encodePairs c.pairs = encodePairs (c.pairs.take i ++ (c.pairs[i] :: c.pairs.drop (i + 1))) :=
            congrArg encodePairs hsplit
          rw [this, encodePairs_append]
          show _ ++ (le32 c.pairs[i].1 ++ le32 c.pairs[i].2 ++ encodePairs (c.pairs.drop (i + 1))) = _
          rw [List.append_assoc]
        simp only [encode, he, List.append_assoc]
      have hlen : (pre ++ ([c.id] ++ le32 c.name ++ le32 c.profile ++ le16 c.pairs.length ++
          encodePairs (c.pairs.take i))).length = pre.length + 11 + 8 * i := by
        simp only [List.length_append, encodePairs_length, List.length_take]
        have : ([c.id]).length + (le32 c.name).length + (le32 c.profile).length + (le16 c.pairs.length).length = 11 := rfl
        omega
      rw [himg]
      generalize pre ++ ([c.id] ++ le32 c.name ++ le32 c.profile ++ le16 c.pairs.length ++
          encodePairs (c.pairs.take i)) = front at hlen
      have e1 := read32_le front (le32 c.pairs[i].2 ++ (encodePairs (c.pairs.drop (i + 1)) ++ post)) _ hk
      have e2 := read32_le (front ++ le32 c.pairs[i].1) (encodePairs (c.pairs.drop (i + 1)) ++ post) _ hv
      have hl4 : (le32 c.pairs[i].1).length = 4 := rfl
      rw [List.length_append, hl4, List.append_assoc] at e2
      rw [hlen] at e1 e2
      simp only [readPair, e1, e2, Option.bind_eq_bind, Option.bind_some]
    · intro hn
      rw [List.getElem?_eq_none_iff] at hn
      omega

/-- Component 2 with pairs (5, 1) and (7, 300), after three other bytes. -/
def sample : Comp := ⟨2, 100, 20, [(5, 1), (7, 300)]⟩

example : (getKeyValuePair ([9, 9, 9] ++ (encode sample ++ [])) 3 1).bind (fun r => r.bind (readPair ([9, 9, 9] ++ (encode sample ++ [])))) =
    some (7, 300) := by decide
theorem sample_fits : Fits sample := ⟨by decide, by decide⟩
example : ∃ r, getKeyValuePair ([9, 9, 9] ++ (encode sample ++ [])) 3 4 = some r ∧
      (∀ p, sample.pairs[4]? = some p → ∃ q, r = some q ∧ readPair ([9, 9, 9] ++ (encode sample ++ [])) q = some p) ∧
      (sample.pairs[4]? = none → r = none) := C40_pairs_partial [9, 9, 9] [] sample sample_fits 4 (by decide)

/-- C40 fails for the index equal to the count: instead of an exception, a pointer past the component is
returned; reading it is undefined at the end of the image, and reads the next component's bytes otherwise. -/
theorem C40_violated : getKeyValuePair (encode sample) 0 2 = some (some 27) ∧ readPair (encode sample) 27 = none ∧
    (readPair (encode sample ++ encode sample) 27).isSome := by decide

/-! ## C51 -/

/-- Where each component starts when stored one after another from `a`. -/
def offsets (a : Nat) : List Comp → List Nat
  | [] => []
  | c :: cs => a :: offsets (a + (encode c).length) cs

/-- Components stored one after another. -/
def encodeAll (cs : List Comp) : List UInt8 := cs.flatMap encode

theorem initLoop_spec (post : List UInt8) : ∀ (cs : List Comp) (pre : List UInt8), (∀ c ∈ cs, Fits c) →
    (pre ++ (encodeAll cs ++ post)).length < 2 ^ 32 →
    initLoop (pre ++ (encodeAll cs ++ post)) cs.length pre.length = some (offsets pre.length cs, false) := by
  intro cs
  induction cs with
  | nil => intro pre _ _; rfl
  | cons c cs ih =>
    intro pre hf hlen
    have himg : encodeAll (c :: cs) = encode c ++ encodeAll cs := rfl
    have hc := hf c (by simp)
    have hpos := encode_length c
    simp only [List.length_cons, initLoop]
    rw [himg] at hlen ⊢
    simp only [List.length_append] at hlen
    rw [if_pos (by simp only [List.length_append]; omega)]
    have hk := keyValuesCount_encode pre (encodeAll cs ++ post) c hc
    rw [List.append_assoc, hk]
    simp only [Option.bind_eq_bind, Option.bind_some]
    rw [finalSize_eq _ hc.count, ← hpos, Nat.mod_eq_of_lt (by omega)]
    have := ih (pre ++ encode c) (fun x hx => hf x (by simp [hx])) (by simp only [List.length_append]; omega)
    rw [List.append_assoc, List.length_append] at this
    rw [this]
    rfl

/-- C51: for a components collection in memory that holds components one after another, initialising the list
with their number gives, in order, one item for each component, at its start, without an exception. -/
theorem C51_list (cs : List Comp) (post : List UInt8) (hf : ∀ c ∈ cs, Fits c)
    (hlen : (encodeAll cs ++ post).length < 2 ^ 32) :
    initList (encodeAll cs ++ post) cs.length = some (offsets 0 cs, false) :=
  initLoop_spec post cs [] hf (by simpa using hlen)

/-- C51: the item at position `i` is where component `i` is stored. -/
theorem C51_items (cs : List Comp) (i : Nat) (c : Comp) (hc : cs[i]? = some c) :
    ∃ o pre post, (offsets 0 cs)[i]? = some o ∧ encodeAll cs = pre ++ (encode c ++ post) ∧ pre.length = o := by
  have key : ∀ (cs : List Comp) (a i : Nat), cs[i]? = some c →
      ∃ o pre post, (offsets a cs)[i]? = some o ∧ encodeAll cs = pre ++ (encode c ++ post) ∧ a + pre.length = o := by
    intro cs
    induction cs with
    | nil => intro a i h; simp at h
    | cons d cs ih =>
      intro a i h
      cases i with
      | zero =>
        simp only [List.getElem?_cons_zero, Option.some.injEq] at h
        subst h
        exact ⟨a, [], encodeAll cs, rfl, rfl, rfl⟩
      | succ i =>
        rw [List.getElem?_cons_succ] at h
        obtain ⟨o, pre, post, h1, h2, h3⟩ := ih (a + (encode d).length) i h
        refine ⟨o, encode d ++ pre, post, h1, ?_, ?_⟩
        · rw [List.append_assoc, ← h2]; rfl
        · rw [List.length_append, ← h3]; omega
  obtain ⟨o, pre, post, h1, h2, h3⟩ := key cs 0 i hc
  exact ⟨o, pre, post, h1, h2, by omega⟩

/-- C51: asking for more components than are stored ends with an exception after those that are. -/
theorem C51_beyond (cs : List Comp) (hf : ∀ c ∈ cs, Fits c) (hlen : (encodeAll cs).length < 2 ^ 32) (k : Nat) :
    initList (encodeAll cs) (cs.length + (k + 1)) = some (offsets 0 cs, true) := by
  have key : ∀ (cs : List Comp) (pre : List UInt8), (∀ c ∈ cs, Fits c) → (pre ++ encodeAll cs).length < 2 ^ 32 →
      initLoop (pre ++ encodeAll cs) (cs.length + (k + 1)) pre.length = some (offsets pre.length cs, true) := by
    intro cs
    induction cs with
    | nil =>
      intro pre _ _
      simp [initLoop, encodeAll, offsets]
    | cons c cs ih =>
      intro pre hf hlen
      have himg : encodeAll (c :: cs) = encode c ++ encodeAll cs := rfl
      have hc := hf c (by simp)
      have hpos := encode_length c
      have ih' := ih (pre ++ encode c) (fun x hx => hf x (by simp [hx]))
      rw [List.length_cons, show cs.length + 1 + (k + 1) = (cs.length + (k + 1)) + 1 by omega]
      generalize cs.length + (k + 1) = m at ih' ⊢
      simp only [initLoop]
      rw [himg] at hlen ⊢
      simp only [List.length_append] at hlen
      rw [if_pos (by simp only [List.length_append]; omega)]
      rw [keyValuesCount_encode pre (encodeAll cs) c hc]
      simp only [Option.bind_eq_bind, Option.bind_some]
      rw [finalSize_eq _ hc.count, ← hpos, Nat.mod_eq_of_lt (by omega)]
      have := ih' (by simp only [List.length_append]; omega)
      rw [List.append_assoc, List.length_append] at this
      rw [this]
      rfl
  exact key cs [] hf (by simpa using hlen)

example : initList (encodeAll [sample, ⟨0, 0, 0, []⟩, sample]) 3 = some ([0, 27, 38], false) := by decide
example : initList (encodeAll [sample, ⟨0, 0, 0, []⟩]) 3 = some ([0, 27], true) :=
  C51_beyond [sample, ⟨0, 0, 0, []⟩] (by intro c hc; simp at hc; rcases hc with rfl | rfl; exact sample_fits; exact ⟨by decide, by decide⟩)
    (by decide) 0

end Verif.Component
