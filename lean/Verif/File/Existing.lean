import Verif.File.Temp

/-! # Existing temporary files: C57, C58 -/

namespace Verif.File

/-! ## What is wanted -/

/-- Two contents agree on the given number of bytes at the start, on all if it is negative, and have the same length; of an
empty file nothing is asked. -/
def Agree (bytes : Int) (a b : CStr) : Prop :=
  (a = [] ∨ b.length = a.length) ∧ (bytes < 0 → b.take a.length = a) ∧ (0 ≤ bytes → b.take bytes.toNat = a.take bytes.toNat ∨ a = [])

/-- The file is a copy of the master file under another name which starts with the stem. -/
def IsCopy (fs : FS) (master stem : CStr) (bytes : Int) (p : CStr) : Prop :=
  ∃ a b name mname, fs.file master = some a ∧ fs.file p = some b ∧ Agree bytes a b ∧ Last p name ∧ Last master mname ∧
    stem <+: name ∧ name ≠ mname

/-- What is compared at once fits into the buffers. -/
def Fits (fs : FS) (master : CStr) (bytes : Int) : Prop :=
  bytes ≤ 1024 ∨ ∀ a, fs.file master = some a → a.length ≤ 1024

/-! ## Lemmas -/

theorem compareLoop_all (bytes : Int) (size : Nat) (hb : bytes < 0) : ∀ (fuel pos : Nat) (a b : CStr),
    a.length < fuel → pos + a.length = size →
    compareLoop bytes size fuel pos a b = some (decide (b.take a.length = a)) := by
  intro fuel
  induction fuel with
  | zero => intro _ _ _ h; omega
  | succ fuel ih =>
    intro pos a b hf hs
    rw [compareLoop]
    by_cases ha : a = []
    · subst ha
      simp at hs
      rw [if_neg (by omega)]; simp
    · have hpos : 0 < a.length := List.length_pos_iff.2 ha
      rw [if_pos ⟨by omega, .inl hb⟩]
      simp only
      rw [if_neg (by omega : ¬ bytes > 0), show size - pos = a.length by omega]
      generalize hr : min 1024 a.length = r
      rw [if_neg (by omega), if_neg (by omega)]
      by_cases hbl : b.length < r
      · rw [if_pos hbl]
        congr 1; symm
        rw [decide_eq_false_iff_not]
        intro h
        have := congrArg List.length h
        rw [List.length_take] at this
        omega
      · rw [if_neg hbl]
        by_cases ht : a.take r = b.take r
        · rw [if_neg (by simpa using ht), ih _ _ _ (by rw [List.length_drop]; omega) (by rw [List.length_drop]; omega)]
          congr 1
          rw [decide_eq_decide, List.length_drop]
          have e1 : b.take a.length = b.take r ++ (b.drop r).take (a.length - r) := by
            have := @List.take_add _ b r (a.length - r)
            rw [show r + (a.length - r) = a.length by omega] at this
            exact this
          rw [e1, ← ht]
          conv => rhs; rhs; rw [← List.take_append_drop r a]
          rw [List.append_cancel_left_eq]
        · rw [if_pos (by simpa using ht)]
          congr 1; symm
          rw [decide_eq_false_iff_not]
          intro h
          apply ht
          have := congrArg (List.take r) h
          rw [List.take_take, Nat.min_eq_left (by omega)] at this
          exact this.symm

theorem compareLoop_end (bytes : Int) (size fuel pos : Nat) (a b : CStr)
    (h : ¬ (pos < size ∧ (bytes < 0 ∨ (pos : Int) < bytes))) : compareLoop bytes size fuel pos a b = some true := by
  cases fuel with
  | zero => rfl
  | succ fuel => rw [compareLoop, if_neg h]

theorem compareLoop_spec (bytes : Int) (a b : CStr) (hfit : bytes ≤ 1024 ∨ a.length ≤ 1024)
    (hlen : a = [] ∨ b.length = a.length) :
    ∃ r, compareLoop bytes a.length (a.length + 1) 0 a b = some r ∧ (r = true ↔ Agree bytes a b) := by
  by_cases hb : bytes < 0
  · refine ⟨_, compareLoop_all bytes a.length hb _ 0 a b (by omega) (by omega), ?_⟩
    rw [decide_eq_true_iff]
    exact ⟨fun h => ⟨hlen, fun _ => h, fun h => by omega⟩, fun h => h.2.1 hb⟩
  · by_cases hz : bytes = 0 ∨ a = []
    · refine ⟨true, compareLoop_end _ _ _ _ _ _ ?_, by
        simp only [true_iff]
        refine ⟨hlen, fun h => absurd h hb, fun _ => ?_⟩
        rcases hz with rfl | h
        · left; simp
        · exact .inr h⟩
      rintro ⟨h1, h2⟩
      rcases hz with rfl | rfl
      · omega
      · simp at h1
    · have hbl : bytes > 0 := by omega
      have hpos : 0 < a.length := List.length_pos_iff.2 (fun h => hz (.inr h))
      have hl : b.length = a.length := by
        rcases hlen with h | h
        · exact absurd (.inr h) hz
        · exact h
      rw [compareLoop, if_pos ⟨hpos, .inr (by simpa using hbl)⟩]
      simp only
      rw [if_pos hbl, Nat.sub_zero, if_neg (by omega), if_neg (by omega), if_neg (by omega)]
      have hrest := compareLoop_end bytes a.length a.length (0 + min bytes.toNat a.length)
        (a.drop (min bytes.toNat a.length)) (b.drop (min bytes.toNat a.length)) (by omega)
      rw [hrest]
      have key : a.take (min bytes.toNat a.length) = b.take (min bytes.toNat a.length) ↔
          b.take bytes.toNat = a.take bytes.toNat := by
        rw [← List.take_eq_take_min]
        conv => lhs; rhs; rw [← hl]
        rw [← List.take_eq_take_min]
        exact eq_comm
      by_cases ht : a.take (min bytes.toNat a.length) = b.take (min bytes.toNat a.length)
      · refine ⟨true, by rw [if_neg (by simpa using ht)], ?_⟩
        simp only [true_iff]
        exact ⟨hlen, fun h => absurd h hb, fun _ => .inl (key.1 ht)⟩
      · refine ⟨false, by rw [if_pos (by simpa using ht)], ?_⟩
        simp only [Bool.false_eq_true, false_iff]
        intro h
        rcases h.2.2 (by omega) with h | h
        · exact ht (key.2 h)
        · exact hz (.inr h)

theorem compareFiles_spec (fs : FS) (master p : CStr) (bytes : Int) (hf : Fits fs master bytes) :
    ∃ r, compareFiles fs master p bytes = some r ∧
      (r = true ↔ ∃ a b, fs.file master = some a ∧ fs.file p = some b ∧ Agree bytes a b) := by
  rw [compareFiles]
  rcases hm : fs.file master with _ | a
  · refine ⟨false, ?_, by simp⟩
    simp only
    split <;> rfl
  · have s1 : fs.size master = a.length := by simp [FS.size, hm]
    rcases hp : fs.file p with _ | b
    · refine ⟨false, ?_, by simp⟩
      simp only
      split <;> rfl
    · have s2 : fs.size p = b.length := by simp [FS.size, hp]
      simp only [s1, s2]
      by_cases hl : a = [] ∨ b.length = a.length
      · rw [if_neg (by
          rintro ⟨h1, h2⟩
          rcases hl with rfl | h
          · simp at h1
          · apply h2; rw [h])]
        obtain ⟨r, h1, h2⟩ := compareLoop_spec bytes a b (hf.imp_right fun h => h a hm) hl
        refine ⟨r, h1, h2.trans ?_⟩
        constructor
        · intro h; exact ⟨a, b, rfl, rfl, h⟩
        · rintro ⟨a', b', ha, hb, h⟩; cases ha; cases hb; exact h
      · rw [if_pos (by
          refine ⟨?_, fun h => hl (.inr (by omega))⟩
          have := List.length_pos_iff.2 (fun h => hl (.inl h)); omega)]
        refine ⟨false, rfl, ?_⟩
        simp only [Bool.false_eq_true, false_iff]
        rintro ⟨a', b', ha, hb, h⟩; cases ha; cases hb
        exact hl h.1

theorem iteratorCompare_spec (fs : FS) (master base p : CStr) (bytes : Int) (hf : Fits fs master bytes) :
    ∃ r, iteratorCompare fs master base bytes p = some r ∧ (r = true ↔ IsCopy fs master base bytes p) := by
  rw [iteratorCompare]
  by_cases hpre : base.isPrefixOf (getNameFromPath p) = true
  · rw [if_pos hpre]
    obtain ⟨r, h1, h2⟩ := compareFiles_spec fs master p bytes hf
    rw [h1]
    cases r with
    | true =>
      refine ⟨_, rfl, ?_⟩
      rw [decide_eq_true_iff]
      obtain ⟨a, b, g1, g2, g3⟩ := h2.1 rfl
      constructor
      · intro h
        exact ⟨a, b, _, _, g1, g2, g3, last_name p, last_name master, List.isPrefixOf_iff_prefix.1 hpre, h⟩
      · rintro ⟨a', b', n, m, -, -, -, k1, k2, -, k3⟩
        rw [(C43_name _ _).2 k1, (C43_name _ _).2 k2]; exact k3
    | false =>
      refine ⟨false, rfl, ?_⟩
      simp only [Bool.false_eq_true, false_iff]
      rintro ⟨a', b', n, m, k1, k2, k3, -⟩
      exact absurd (h2.2 ⟨a', b', k1, k2, k3⟩) (by simp)
  · rw [if_neg hpre]
    refine ⟨false, rfl, ?_⟩
    simp only [Bool.false_eq_true, false_iff]
    rintro ⟨a', b', n, m, -, -, -, k1, -, k2, -⟩
    apply hpre
    rw [(C43_name _ _).2 k1]
    exact List.isPrefixOf_iff_prefix.2 k2

theorem findIn_spec (fs : FS) (master base : CStr) (bytes : Int) (pre : CStr) (hf : Fits fs master bytes) :
    ∀ es : List CStr, (∀ e ∈ es, (pre ++ e).length < maxPath) →
    ∃ r, findIn fs master base bytes pre es = some r ∧
      (∀ p, r = some p → (∃ e ∈ es, p = pre ++ e) ∧ IsCopy fs master base bytes p) ∧
      (r = none → ∀ e ∈ es, ¬ IsCopy fs master base bytes (pre ++ e)) := by
  intro es
  induction es with
  | nil => intro _; exact ⟨none, rfl, by simp, by simp⟩
  | cons e es ih =>
    intro hl
    rw [findIn, if_neg (by have := hl e (by simp); omega)]
    obtain ⟨r, h1, h2⟩ := iteratorCompare_spec fs master base (pre ++ e) bytes hf
    rw [h1]
    cases r with
    | true =>
      refine ⟨some (pre ++ e), rfl, ?_, by simp⟩
      intro p hp; cases hp
      exact ⟨⟨e, by simp, rfl⟩, h2.1 rfl⟩
    | false =>
      obtain ⟨r', g1, g2, g3⟩ := ih (fun e he => hl e (by simp [he]))
      refine ⟨r', g1, ?_, ?_⟩
      · intro p hp
        obtain ⟨⟨e', he, k⟩, k'⟩ := g2 p hp
        exact ⟨⟨e', by simp [he], k⟩, k'⟩
      · intro hr e' he
        rcases List.mem_cons.1 he with rfl | he
        · intro h; exact absurd (h2.2 h) (by simp)
        · exact g3 hr e' he

/-! ## C57 -/

/-- C57: a temporary file is given exactly if there is a copy of the master file in the first directory, and it is such a
copy. Missing: the other directories (`C57_missed_violated`), comparisons of more than 1024 bytes at once
(`C57_overflow_violated`), and empty master files, which have no length to compare (`C57_empty_violated`). -/
theorem C57_existing_partial (fs : FS) (list : CStr → List CStr) (master mname stem first : CStr) (rest : List CStr)
    (bytes : Int) (hm : Last master mname) (hs : Stem mname stem)
    (hd : (46 : UInt8) ∈ mname ∨ (46 : UInt8) ∉ master) (hp : master.length < 2 ^ 63) (hstem : stem.length < maxPath)
    (hf : Fits fs master bytes) (hdir : first.length < maxPath)
    (hl : ∀ e ∈ list first, (withSlash first ++ e).length < maxPath) :
    ∃ r, getExistingTempFile fs list master (first :: rest) bytes = some r ∧
      (∀ p, r = some p → (∃ e ∈ list first, p = withSlash first ++ e) ∧ IsCopy fs master stem bytes p) ∧
      (r = none → ∀ e ∈ list first, ¬ IsCopy fs master stem bytes (withSlash first ++ e)) := by
  rw [getExistingTempFile, C43_stem_partial master mname stem maxPath hm hs hd hp, if_pos hstem]
  simp only [List.length_cons]
  obtain ⟨r, h1, h2, h3⟩ := findIn_spec fs master stem bytes (withSlash first) hf (list first) hl
  have hit : iterateFind fs list master stem bytes first = some r := by
    rw [iterateFind, if_neg (by omega), h1]
  refine ⟨r, ?_, h2, h3⟩
  cases r with
  | some p => rw [existingLoop, hit]
  | none =>
    have : ∀ n, existingLoop fs list master stem bytes first n = some none := by
      intro n
      induction n with
      | zero => rfl
      | succ n ih => rw [existingLoop, hit]; exact ih
    exact this _

/-- C57: when all of a master file that is not empty is compared, the copy has its content. -/
theorem C57_same {fs : FS} {master stem p content : CStr} {bytes : Int} (h : IsCopy fs master stem bytes p)
    (hm : fs.file master = some content) (hne : content ≠ []) (hb : bytes < 0 ∨ (content.length : Int) ≤ bytes) :
    fs.file p = some content ∧ p ≠ master := by
  obtain ⟨a, b, n, m, h1, h2, h3, h4, h5, -, h6⟩ := h
  rw [hm] at h1; cases h1
  have hl : b.length = content.length := by
    rcases h3.1 with h | h
    · exact absurd h hne
    · exact h
  refine ⟨?_, ?_⟩
  · rw [h2]
    by_cases hneg : bytes < 0
    · have := h3.2.1 hneg
      rw [← hl, List.take_length] at this
      rw [this]
    · rcases h3.2.2 (by omega) with h | h
      · rw [List.take_of_length_le (by omega), List.take_of_length_le (by omega)] at h
        rw [h]
      · exact absurd h hne
  · rintro rfl
    exact h6 (last_unique h4 h5)

/-- A file system with these files. -/
def withFiles (files : List (CStr × CStr)) : FS where
  file p := files.lookup p
  canWrite _ := true
  room _ := none
  readLimit _ := none
  canSeek _ := true
  canDelete _ := true

/-- C57, counterexample: there is a copy in the second directory and it is not found, as the first one is searched
twice. -/
theorem C57_missed_violated :
    getExistingTempFile (withFiles [(c!"m.dat", c!"xyz"), (c!"b/m-1-A", c!"xyz")])
      (fun d => if d = c!"b" then [c!"m-1-A"] else []) c!"m.dat" [c!"a", c!"b"] (-1) = some none ∧
    IsCopy (withFiles [(c!"m.dat", c!"xyz"), (c!"b/m-1-A", c!"xyz")]) c!"m.dat" c!"m" (-1) c!"b/m-1-A" := by
  refine ⟨by decide, c!"xyz", c!"xyz", c!"m-1-A", c!"m.dat", by decide, by decide, ⟨.inr rfl, by decide, by decide⟩, ?_, ?_, ?_, by decide⟩
  · exact (C43_name _ _).1 (by decide)
  · exact (C43_name _ _).1 (by decide)
  · exact ⟨c!"-1-A", rfl⟩

/-- C57, counterexample: for every file of more than 1024 bytes, asking for a comparison of more than 1024 bytes writes
outside of the buffers, file.c:285-290. -/
theorem C57_overflow_violated (fs : FS) (master p a b : CStr) (bytes : Int) (hm : fs.file master = some a)
    (hp : fs.file p = some b) (hl : b.length = a.length) (h1 : 1024 < a.length) (h2 : 1024 < bytes) :
    compareFiles fs master p bytes = none := by
  rw [compareFiles]
  simp only [FS.size, hm, hp]
  rw [if_neg (by rintro ⟨-, h⟩; apply h; rw [hl]), compareLoop, if_pos ⟨by omega, .inr (by omega)⟩]
  simp only
  rw [if_pos (by omega : bytes > 0), if_pos (by omega)]

example : ∃ fs master p, compareFiles fs master p 2000 = none :=
  ⟨withFiles [(c!"a", List.replicate 2000 0), (c!"b", List.replicate 2000 0)], c!"a", c!"b",
    C57_overflow_violated _ _ _ (List.replicate 2000 0) (List.replicate 2000 0) _ rfl rfl rfl
      (by rw [List.length_replicate]; omega) (by omega)⟩

/-- C57, counterexample: for an empty master file any file is taken for a copy. -/
theorem C57_empty_violated :
    getExistingTempFile (withFiles [(c!"m.dat", []), (c!"a/m-1-A", c!"xyz")])
      (fun d => if d = c!"a" then [c!"m-1-A"] else []) c!"m.dat" [c!"a"] (-1) = some (some c!"a/m-1-A") := by decide

example : getExistingTempFile (withFiles [(c!"d/m.dat", c!"xyz"), (c!"a/m-1-A", c!"xyy"), (c!"a/m-1-B", c!"xyz")])
    (fun d => if d = c!"a" then [c!"m-1-A", c!"m-1-B"] else []) c!"d/m.dat" [c!"a"] (-1) = some (some c!"a/m-1-B") ∧
    getExistingTempFile (withFiles [(c!"d/m.dat", c!"xyz"), (c!"a/m-1-A", c!"xyy"), (c!"a/m-1-B", c!"xyz")])
      (fun d => if d = c!"a" then [c!"m-1-A", c!"m-1-B"] else []) c!"d/m.dat" [c!"a"] 2 = some (some c!"a/m-1-A") := by
  decide

/-! ## C58 -/

theorem isCopy_ne {fs : FS} {master stem p : CStr} {bytes : Int} (h : IsCopy fs master stem bytes p) : p ≠ master := by
  obtain ⟨a, b, n, m, -, -, -, h4, h5, -, h6⟩ := h
  rintro rfl
  exact h6 (last_unique h4 h5)

theorem isCopy_set {fs : FS} {master stem p q : CStr} {bytes : Int} (hq : q ≠ master) (hp : p ≠ q) :
    IsCopy (fs.set q none) master stem bytes p ↔ IsCopy fs master stem bytes p := by
  have e1 : (fs.set q none).file master = fs.file master := by simp [FS.set, Ne.symm hq]
  have e2 : (fs.set q none).file p = fs.file p := by simp [FS.set, hp]
  rw [IsCopy, IsCopy, e1, e2]

/-- What is to be deleted. -/
def Unused (fs : FS) (inUse : CStr → Bool) (master stem : CStr) (bytes : Int) (pre : CStr) (es : List CStr) (p : CStr) : Prop :=
  (∃ e ∈ es, p = pre ++ e) ∧ IsCopy fs master stem bytes p ∧ inUse p = false ∧ fs.canDelete p = true

theorem deleteIn_spec (inUse : CStr → Bool) (master base : CStr) (bytes : Int) (pre : CStr) :
    ∀ (es : List CStr) (fs : FS) (n : Nat), Fits fs master bytes → n < 256 → (∀ e ∈ es, (pre ++ e).length < maxPath) →
    ∃ fs', ∃ D : List CStr, deleteIn inUse master base bytes pre es fs n = some (fs', (n + D.length) % 256) ∧ D.Nodup ∧
      (∀ p, p ∈ D ↔ Unused fs inUse master base bytes pre es p) ∧
      (∀ p, fs'.file p = if p ∈ D then none else fs.file p) ∧ fs.Like fs' := by
  intro es
  induction es with
  | nil =>
    intro fs n _ hn _
    refine ⟨fs, [], by simp [deleteIn, Nat.mod_eq_of_lt hn], List.nodup_nil, ?_, by simp, like_refl fs⟩
    intro p; simp [Unused]
  | cons e es ih =>
    intro fs n hf hn hl
    rw [deleteIn, if_neg (by have := hl e (by simp); omega)]
    obtain ⟨r, h1, h2⟩ := iteratorCompare_spec fs master base (pre ++ e) bytes hf
    rw [h1]
    have hl' : ∀ e ∈ es, (pre ++ e).length < maxPath := fun e he => hl e (by simp [he])
    -- the entry is skipped
    have skip : ¬ (IsCopy fs master base bytes (pre ++ e) ∧ inUse (pre ++ e) = false ∧ fs.canDelete (pre ++ e) = true) →
        ∃ fs', ∃ D : List CStr, deleteIn inUse master base bytes pre es fs n = some (fs', (n + D.length) % 256) ∧ D.Nodup ∧
          (∀ p, p ∈ D ↔ Unused fs inUse master base bytes pre (e :: es) p) ∧
          (∀ p, fs'.file p = if p ∈ D then none else fs.file p) ∧ fs.Like fs' := by
      intro hno
      obtain ⟨fs', D, g1, g2, g3, g4, g5⟩ := ih fs n hf hn hl'
      refine ⟨fs', D, g1, g2, ?_, g4, g5⟩
      intro p
      rw [g3]
      constructor
      · rintro ⟨⟨e', he, k⟩, k'⟩; exact ⟨⟨e', by simp [he], k⟩, k'⟩
      · rintro ⟨⟨e', he, k⟩, k'⟩
        rcases List.mem_cons.1 he with rfl | he
        · subst k; exact absurd k' hno
        · exact ⟨⟨e', he, k⟩, k'⟩
    cases r with
    | false => exact skip (fun h => absurd (h2.2 h.1) (by simp))
    | true =>
      have hc := h2.1 rfl
      simp only
      by_cases hu : inUse (pre ++ e) = true
      · rw [if_pos hu]; exact skip (fun h => by rw [hu] at h; cases h.2.1)
      · rw [if_neg hu]
        by_cases hdel : fs.canDelete (pre ++ e) = true
        · have hne := isCopy_ne hc
          have hex : fs.file (pre ++ e) ≠ none := by
            obtain ⟨a, b, _, _, _, k, _⟩ := hc
            rw [k]; simp
          have hd : fs.delete (pre ++ e) = (fs.set (pre ++ e) none, true) := by
            simp [FS.delete, hdel, hex]
          rw [hd]
          simp only
          have hf' : Fits (fs.set (pre ++ e) none) master bytes := by
            refine hf.imp_right fun h a ha => h a ?_
            simpa [FS.set, Ne.symm hne] using ha
          obtain ⟨fs', D, g1, g2, g3, g4, g5⟩ := ih (fs.set (pre ++ e) none) ((n + 1) % 256) hf' (Nat.mod_lt _ (by decide)) hl'
          have hnot : pre ++ e ∉ D := by
            rw [g3]
            rintro ⟨-, ⟨a, b, _, _, _, k, _⟩, -⟩
            simp [FS.set] at k
          refine ⟨fs', (pre ++ e) :: D, ?_, List.nodup_cons.2 ⟨hnot, g2⟩, ?_, ?_, ?_⟩
          · rw [g1]; simp only [List.length_cons, Option.some.injEq, Prod.mk.injEq, true_and]; omega
          · intro p
            rw [List.mem_cons, g3]
            by_cases hpe : p = pre ++ e
            · subst hpe
              simp only [true_or, true_iff]
              exact ⟨⟨e, by simp, rfl⟩, hc, by simpa using hu, hdel⟩
            · simp only [hpe, false_or]
              rw [Unused, Unused, isCopy_set hne hpe]
              refine and_congr ?_ Iff.rfl
              constructor
              · rintro ⟨e', he, k⟩; exact ⟨e', by simp [he], k⟩
              · rintro ⟨e', he, k⟩
                rcases List.mem_cons.1 he with rfl | he
                · exact absurd k hpe
                · exact ⟨e', he, k⟩
          · intro p
            rw [g4]
            by_cases hpe : p = pre ++ e
            · subst hpe; simp [hnot, FS.set]
            · simp [FS.set, hpe]
          · exact like_trans ⟨rfl, rfl, rfl, rfl, rfl⟩ g5
        · have hd : fs.delete (pre ++ e) = (fs, false) := by simp [FS.delete, hdel]
          rw [hd]
          exact skip (fun h => hdel h.2.2)

/-- C58: exactly the copies of the master file in the first directory which are not in use, and can be deleted, are
deleted, nothing else changes, and the number of them is returned if it is less than 256. Missing: the other directories
(`C58_missed_violated`), greater numbers (`C58_count_violated`); and that what is deleted is a temporary file
(`C58_backup_violated`). -/
theorem C58_delete_partial (inUse : CStr → Bool) (fs : FS) (list : CStr → List CStr) (master mname stem first : CStr)
    (rest : List CStr) (bytes : Int) (hm : Last master mname) (hs : Stem mname stem)
    (hd : (46 : UInt8) ∈ mname ∨ (46 : UInt8) ∉ master) (hp : master.length < 2 ^ 63) (hstem : stem.length < maxPath)
    (hf : Fits fs master bytes) (hdir : first.length < maxPath)
    (hl : ∀ e ∈ list first, (withSlash first ++ e).length < maxPath) :
    ∃ fs' n, ∃ D : List CStr, deleteUnused inUse fs list master (first :: rest) bytes = some (fs', n) ∧
      List.Nodup D ∧ (∀ p, p ∈ D ↔ Unused fs inUse master stem bytes (withSlash first) (list first) p) ∧
      (∀ p, fs'.file p = if p ∈ D then none else fs.file p) ∧ (D.length < 256 → n = D.length) := by
  rw [deleteUnused, C43_stem_partial master mname stem maxPath hm hs hd hp, if_pos hstem]
  simp only [List.length_cons]
  obtain ⟨fs', D, h1, h2, h3, h4, h5⟩ := deleteIn_spec inUse master stem bytes (withSlash first) (list first) fs 0 hf
    (by decide) hl
  have hit : iterateDelete inUse list master stem bytes first fs 0 = some (fs', (0 + D.length) % 256) := by
    rw [iterateDelete, if_neg (by omega), h1]
  -- nothing is left for the other rounds
  have hmas : master ∉ D := fun h => isCopy_ne ((h3 master).1 h).2.1 rfl
  have again : ∀ k fs2 m, m < 256 → fs.Like fs2 → (∀ p, fs2.file p = if p ∈ D then none else fs.file p) →
      ∃ fs3, deleteLoop inUse list master stem bytes first k fs2 m = some (fs3, m) ∧
        ∀ p, fs3.file p = if p ∈ D then none else fs.file p := by
    intro k
    induction k with
    | zero => intro fs2 m _ _ hfile; exact ⟨fs2, rfl, hfile⟩
    | succ k ih =>
      intro fs2 m hm256 hlike hfile
      have hfits : Fits fs2 master bytes := by
        refine hf.imp_right fun h a ha => h a ?_
        rw [hfile, if_neg hmas] at ha; exact ha
      obtain ⟨fs3, D', g1, g2, g3, g4, g5⟩ := deleteIn_spec inUse master stem bytes (withSlash first) (list first) fs2 m
        hfits hm256 hl
      have hempty : D' = [] := by
        rw [List.eq_nil_iff_forall_not_mem]
        intro p hp'
        obtain ⟨k1, k2, k3, k4⟩ := (g3 p).1 hp'
        have hpD : p ∉ D := by
          intro h
          obtain ⟨a, b, _, _, _, k, _⟩ := k2
          rw [hfile, if_pos h] at k; cases k
        apply hpD
        rw [h3]
        refine ⟨k1, ?_, k3, ?_⟩
        · obtain ⟨a, b, n, m, j1, j2, j3⟩ := k2
          rw [hfile, if_neg hmas] at j1
          rw [hfile, if_neg hpD] at j2
          exact ⟨a, b, n, m, j1, j2, j3⟩
        · rw [← hlike.2.2.2.2]; exact k4
      subst hempty
      rw [deleteLoop, iterateDelete, if_neg (by omega), g1]
      simp only [List.length_nil, Nat.add_zero, Nat.mod_eq_of_lt hm256]
      obtain ⟨fs4, j1, j2⟩ := ih fs3 m hm256 (like_trans hlike g5) (fun p => by rw [g4]; simpa using hfile p)
      exact ⟨fs4, j1, j2⟩
  rw [deleteLoop, hit]
  simp only
  obtain ⟨fs4, j1, j2⟩ := again rest.length fs' _ (Nat.mod_lt (0 + D.length) (by decide)) h5 h4
  exact ⟨fs4, _, D, j1, h2, h3, j2, fun h => by omega⟩

/-- C58: the master file is not deleted. -/
theorem C58_master (inUse : CStr → Bool) (fs : FS) (list : CStr → List CStr) (master mname stem first : CStr)
    (rest : List CStr) (bytes : Int) (hm : Last master mname) (hs : Stem mname stem)
    (hd : (46 : UInt8) ∈ mname ∨ (46 : UInt8) ∉ master) (hp : master.length < 2 ^ 63) (hstem : stem.length < maxPath)
    (hf : Fits fs master bytes) (hdir : first.length < maxPath)
    (hl : ∀ e ∈ list first, (withSlash first ++ e).length < maxPath) :
    ∃ fs' n, deleteUnused inUse fs list master (first :: rest) bytes = some (fs', n) ∧ fs'.file master = fs.file master := by
  obtain ⟨fs', n, D, h1, -, h3, h4, -⟩ := C58_delete_partial inUse fs list master mname stem first rest bytes hm hs hd hp
    hstem hf hdir hl
  exact ⟨fs', n, h1, by rw [h4, if_neg (fun h => isCopy_ne ((h3 master).1 h).2.1 rfl)]⟩

/-- C58, counterexample: the copy in the second directory is not deleted. -/
theorem C58_missed_violated :
    (deleteUnused (fun _ => false) (withFiles [(c!"m.dat", c!"xyz"), (c!"b/m-1-A", c!"xyz")])
      (fun d => if d = c!"b" then [c!"m-1-A"] else []) c!"m.dat" [c!"a", c!"b"] (-1)).map
      (fun r => (r.2, r.1.file c!"b/m-1-A")) = some (0, some c!"xyz") := by decide

/-- C58, counterexample: a backup which the user made of the master file is deleted, and so is another file that has the
compared bytes and the length in common with it. -/
theorem C58_backup_violated :
    (deleteUnused (fun _ => false) (withFiles [(c!"m.dat", c!"xyz"), (c!"a/m.dat.bak", c!"xyz"), (c!"a/mine", c!"xyy")])
      (fun d => if d = c!"a" then [c!"m.dat.bak", c!"mine"] else []) c!"m.dat" [c!"a"] 2).map
      (fun r => (r.2, r.1.file c!"a/m.dat.bak", r.1.file c!"a/mine")) = some (2, none, none) := by decide

/-- The number of deleted files is kept in one byte: of `n` deleted files `n % 256` are reported. -/
theorem C58_count_violated (inUse : CStr → Bool) (master stem : CStr) (bytes : Int) (pre : CStr) (es : List CStr) (fs : FS)
    (hf : Fits fs master bytes) (hl : ∀ e ∈ es, (pre ++ e).length < maxPath) (D : List CStr) (hD : D.Nodup)
    (h : ∀ p, p ∈ D ↔ Unused fs inUse master stem bytes pre es p) (h256 : 256 ≤ D.length) :
    ∃ fs' n, deleteIn inUse master stem bytes pre es fs 0 = some (fs', n) ∧ n ≠ D.length := by
  obtain ⟨fs', D', h1, h2, h3, -⟩ := deleteIn_spec inUse master stem bytes pre es fs 0 hf (by decide) hl
  have hlen : D'.length = D.length := ((List.perm_ext_iff_of_nodup h2 hD).2 fun p => (h3 p).trans (h p).symm).length_eq
  refine ⟨fs', _, h1, ?_⟩
  rw [Nat.zero_add, hlen]
  have := Nat.mod_lt D.length (show 256 > 0 by decide)
  omega

example : (deleteUnused (fun p => p = c!"a/m-2-B") (withFiles [(c!"m.dat", c!"xyz"), (c!"a/m-1-A", c!"xyz"),
      (c!"a/m-2-B", c!"xyz"), (c!"a/m-3-C", c!"xyy"), (c!"a/m-4-D", c!"xyz")])
      (fun d => if d = c!"a" then [c!"m-1-A", c!"m-2-B", c!"m-3-C", c!"m-4-D"] else []) c!"m.dat" [c!"a", c!"b"] (-1)).map
      (fun r => (r.2, [c!"m.dat", c!"a/m-1-A", c!"a/m-2-B", c!"a/m-3-C", c!"a/m-4-D"].map r.1.file)) =
    some (2, [some c!"xyz", none, some c!"xyz", some c!"xyy", none]) := by decide

/-! ## Long paths and the working directory -/

/-- C57 and C58 fail for a directory whose name does not fit in the array with its terminator: `strcpy` writes after it,
file.c:358. -/
theorem C57_directory_violated (inUse : CStr → Bool) (fs : FS) (list : CStr → List CStr) (master mname stem first : CStr)
    (rest : List CStr) (bytes : Int) (hm : Last master mname) (hs : Stem mname stem)
    (hd : (46 : UInt8) ∈ mname ∨ (46 : UInt8) ∉ master) (hp : master.length < 2 ^ 63) (hstem : stem.length < 4096)
    (hdir : 4096 ≤ first.length) :
    getExistingTempFile fs list master (first :: rest) bytes = none ∧
    deleteUnused inUse fs list master (first :: rest) bytes = none := by
  have hst := C43_stem_partial master mname stem maxPath hm hs hd hp
  rw [if_pos (show stem.length < maxPath from hstem)] at hst
  constructor
  · rw [getExistingTempFile, hst]
    simp only [List.length_cons, existingLoop]
    rw [iterateFind, if_pos (show first.length ≥ maxPath from hdir)]
  · rw [deleteUnused, hst]
    simp only [List.length_cons, deleteLoop]
    rw [iterateDelete, if_pos (show first.length ≥ maxPath from hdir)]

/-- C57 and C58 fail for a directory that has, as its first entry, one whose path does not fit in the array: it is written
after it, file.c:421. The entry need not be a copy of the master file. -/
theorem C57_entry_violated (inUse : CStr → Bool) (fs : FS) (list : CStr → List CStr)
    (master mname stem first e : CStr) (rest es : List CStr) (bytes : Int) (hm : Last master mname) (hs : Stem mname stem)
    (hd : (46 : UInt8) ∈ mname ∨ (46 : UInt8) ∉ master) (hp : master.length < 2 ^ 63) (hstem : stem.length < 4096)
    (hl : list first = e :: es) (he : 4096 ≤ (withSlash first).length + e.length) :
    getExistingTempFile fs list master (first :: rest) bytes = none ∧
    deleteUnused inUse fs list master (first :: rest) bytes = none := by
  have hst := C43_stem_partial master mname stem maxPath hm hs hd hp
  rw [if_pos (show stem.length < maxPath from hstem)] at hst
  have hlong : (withSlash first ++ e).length ≥ maxPath := by rw [List.length_append]; exact he
  have h1 : iterateFind fs list master stem bytes first = none := by
    rw [iterateFind, hl, findIn, if_pos hlong]; simp
  have h2 : iterateDelete inUse list master stem bytes first fs 0 = none := by
    rw [iterateDelete, hl, deleteIn, if_pos hlong]; simp
  constructor
  · rw [getExistingTempFile, hst]
    simp only [List.length_cons, existingLoop, h1]
  · rw [deleteUnused, hst]
    simp only [List.length_cons, deleteLoop, h2]

/-- A directory `d` with one entry that has a long name. -/
def list1 : CStr → List CStr := fun d => if d = c!"d" then [List.replicate 4094 97] else []

example : list1 c!"d" = [List.replicate 4094 97] ∧ 4096 ≤ (withSlash c!"d").length + (List.replicate 4094 (97 : UInt8)).length :=
  ⟨rfl, by rw [List.length_replicate]; decide⟩

/-- C57 and C58 fail without directories: those of the working directory are to be looked at, but the directory opened is
the one with the empty name, which there is not (POSIX has `opendir` fail for it, so nothing is listed). No copy is found
and none is deleted. -/
theorem C57_working_violated (inUse : CStr → Bool) (fs : FS) (list : CStr → List CStr) (hlist : list [] = [])
    (master : CStr) (bytes : Int) (hp : master.length < 2 ^ 63) :
    getExistingTempFile fs list master [] bytes = some none ∧ deleteUnused inUse fs list master [] bytes = some (fs, 0) := by
  have hs := C43_stem_safe master maxPath hp
  have h0 : maxPath ≠ 0 := by decide
  constructor
  · rw [getExistingTempFile]
    cases hb : getBasename master maxPath with
    | none => exact absurd hb hs
    | some r =>
      obtain ⟨st, b⟩ := r
      cases st <;> simp [iterateFind, h0, hlist, findIn]
  · rw [deleteUnused]
    cases hb : getBasename master maxPath with
    | none => exact absurd hb hs
    | some r =>
      obtain ⟨st, b⟩ := r
      cases st <;> simp [iterateDelete, h0, hlist, deleteIn]

/-- C57 and C58 without directories on a platform that lists the working directory under the empty name: a file is found
exactly if there is a copy of the master file in it; and exactly the copies which are not in use, and can be deleted, are
deleted. Missing: POSIX, see `C57_working_violated`. -/
theorem C57_working_partial (inUse : CStr → Bool) (fs : FS) (list : CStr → List CStr) (master mname stem : CStr) (bytes : Int)
    (hm : Last master mname) (hs : Stem mname stem) (hd : (46 : UInt8) ∈ mname ∨ (46 : UInt8) ∉ master)
    (hp : master.length < 2 ^ 63) (hstem : stem.length < maxPath) (hf : Fits fs master bytes)
    (hl : ∀ e ∈ list [], e.length < maxPath) :
    (∃ r, getExistingTempFile fs list master [] bytes = some r ∧
      (∀ p, r = some p → p ∈ list [] ∧ IsCopy fs master stem bytes p) ∧
      (r = none → ∀ e ∈ list [], ¬ IsCopy fs master stem bytes e)) ∧
    ∃ fs' n, ∃ D : List CStr, deleteUnused inUse fs list master [] bytes = some (fs', n) ∧
      List.Nodup D ∧ (∀ p, p ∈ D ↔ Unused fs inUse master stem bytes [] (list []) p) ∧
      (∀ p, fs'.file p = if p ∈ D then none else fs.file p) ∧ (D.length < 256 → n = D.length) := by
  have h0 : maxPath ≠ 0 := by decide
  constructor
  · rw [getExistingTempFile, C43_stem_partial master mname stem maxPath hm hs hd hp, if_pos hstem]
    obtain ⟨r, h1, h2, h3⟩ := findIn_spec fs master stem bytes [] hf (list []) hl
    refine ⟨r, by simp [iterateFind, h0, withSlash, h1], fun p h => ?_, h3⟩
    obtain ⟨⟨e, he, k⟩, k'⟩ := h2 p h
    exact ⟨by rw [k]; exact he, k'⟩
  · rw [deleteUnused, C43_stem_partial master mname stem maxPath hm hs hd hp, if_pos hstem]
    obtain ⟨fs', D, h1, h2, h3, h4, -⟩ := deleteIn_spec inUse master stem bytes [] (list []) fs 0 hf (by decide) hl
    exact ⟨fs', _, D, by simp [iterateDelete, h0, withSlash, h1]; rfl, h2, h3, h4, fun h => by omega⟩

example : getExistingTempFile (withFiles [(c!"m.dat", c!"xyz"), (c!"m-1-A", c!"xyz")])
    (fun d => if d = [] then [c!"m.dat", c!"m-1-A"] else []) c!"m.dat" [] (-1) = some (some c!"m-1-A") := by decide

example : getExistingTempFile (withFiles [(c!"m.dat", c!"xyz"), (c!"m-1-A", c!"xyz")])
    (fun d => if d = c!"." then [c!"m.dat", c!"m-1-A"] else []) c!"m.dat" [] (-1) = some none := by decide

end Verif.File
