import Verif.File.Model
import Mathlib.Tactic.ByContra

/-! # File names: C43, first part -/

namespace Verif.File

/-! ## What is wanted -/

/-- `name` is the last component of the path: what follows the last slash or backslash, or the whole path. -/
def Last (path name : CStr) : Prop :=
  ∃ dir, path = dir ++ name ∧ (∀ c ∈ name, isSlash c = false) ∧
    (dir = [] ∨ ∃ d s, dir = d ++ [s] ∧ isSlash s = true)

/-- `stem` is the name without its extension: what precedes the last dot, or the whole name. -/
def Stem (name stem : CStr) : Prop :=
  (∃ ext, name = stem ++ 46 :: ext ∧ (46 : UInt8) ∉ ext) ∨ (stem = name ∧ (46 : UInt8) ∉ name)

/-! ## Lemmas -/

theorem nameLoop_spec (last t : CStr) :
    ((∀ c ∈ t, isSlash c = false) ∧ nameLoop last t = last) ∨
    ∃ d s n, t = d ++ s :: n ∧ isSlash s = true ∧ (∀ c ∈ n, isSlash c = false) ∧ nameLoop last t = n := by
  induction t generalizing last with
  | nil => left; simp [nameLoop]
  | cons c t ih =>
    rw [nameLoop]
    cases hc : isSlash c with
    | true =>
      right
      rcases ih t with ⟨h1, h2⟩ | ⟨d, s, n, h1, h2, h3, h4⟩
      · exact ⟨[], c, t, rfl, hc, h1, by simpa using h2⟩
      · exact ⟨c :: d, s, n, by rw [h1]; rfl, h2, h3, by simpa using h4⟩
    | false =>
      rcases ih last with ⟨h1, h2⟩ | ⟨d, s, n, h1, h2, h3, h4⟩
      · left
        refine ⟨?_, by simpa using h2⟩
        intro d hd
        rcases List.mem_cons.1 hd with rfl | hd
        · exact hc
        · exact h1 d hd
      · right; exact ⟨c :: d, s, n, by rw [h1]; rfl, h2, h3, by simpa using h4⟩

theorem last_unique {path a b : CStr} (ha : Last path a) (hb : Last path b) : a = b := by
  -- the shorter of the two is preceded by a slash, which is in the longer one
  have key : ∀ {a b : CStr}, Last path a → Last path b → a.length ≤ b.length → a = b := by
    rintro a b ⟨d1, e1, h1, h2⟩ ⟨d2, e2, h3, h4⟩ hl
    by_contra hne
    have hlt : a.length < b.length := by
      rcases Nat.lt_or_ge a.length b.length with h | h
      · exact h
      · have := List.append_inj_right' (e1.symm.trans e2) (by omega)
        exact absurd this hne
    rcases h2 with rfl | ⟨d, s, rfl, hs⟩
    · have := congrArg List.length (e1.symm.trans e2)
      simp at this; omega
    · have e : d ++ ([s] ++ a) = d2 ++ b := by rw [← List.append_assoc, ← e1, e2]
      have hsuf : ([s] ++ a) <:+ b :=
        List.suffix_of_suffix_length_le ⟨d, e⟩ ⟨d2, rfl⟩ (by simp; omega)
      have hm : s ∈ b := hsuf.subset (by simp)
      rw [h3 s hm] at hs
      cases hs
  rcases Nat.le_total a.length b.length with h | h
  · exact key ha hb h
  · exact (key hb ha h).symm

theorem last_name (path : CStr) : Last path (getNameFromPath path) := by
  rw [getNameFromPath]
  rcases nameLoop_spec path path with ⟨h1, h2⟩ | ⟨d, s, n, h1, h2, h3, h4⟩
  · rw [h2]; exact ⟨[], rfl, h1, .inl rfl⟩
  · rw [h4]; exact ⟨d ++ [s], by simp [h1], h3, .inr ⟨d, s, rfl, h2⟩⟩

theorem fileNameLoop_spec {d n : CStr} {s : UInt8} (hs : isSlash s = true) (hn : ∀ c ∈ n, isSlash c = false) :
    ∀ k, k ≤ n.length + 1 → fileNameLoop (d ++ s :: n) (d.length + k) = d.length := by
  intro k
  induction k with
  | zero =>
    intro _
    cases hd : d.length with
    | zero => rfl
    | succ m =>
      rw [Nat.add_zero, fileNameLoop, if_pos]
      rw [← hd, List.getElem?_append_right (Nat.le_refl _)]
      simp [hs]
  | succ k ih =>
    intro hk
    rw [← Nat.add_assoc, fileNameLoop, if_neg, ih (by omega)]
    rw [List.getElem?_append_right (by omega), show d.length + k + 1 - d.length = k + 1 by omega, List.getElem?_cons_succ]
    cases hx : n[k]? with
    | none => simp
    | some c => simp [hn c (List.mem_of_getElem? hx)]

theorem strrchr_some {c : UInt8} {s e : CStr} (he : c ∉ e) : strrchr c (s ++ c :: e) = some s.length := by
  have h0 : ∀ e : CStr, c ∉ e → strrchr c e = none := by
    intro e
    induction e with
    | nil => intro _; rfl
    | cons d e ih =>
      intro h
      rw [strrchr, ih (fun hm => h (by simp [hm]))]
      simp; rintro rfl; exact h (by simp)
  induction s with
  | nil => rw [List.nil_append, strrchr, h0 e he]; simp
  | cons d s ih => rw [List.cons_append, strrchr, ih]; rfl

theorem mem_last {c : UInt8} {s : CStr} (h : c ∈ s) : ∃ a b, s = a ++ c :: b ∧ c ∉ b := by
  induction s with
  | nil => cases h
  | cons d s ih =>
    by_cases hs : c ∈ s
    · obtain ⟨a, b, rfl, hb⟩ := ih hs
      exact ⟨d :: a, b, rfl, hb⟩
    · rcases List.mem_cons.1 h with rfl | h
      · exact ⟨[], s, rfl, hs⟩
      · exact absurd h hs

theorem strrchr_none {c : UInt8} {s : CStr} (h : c ∉ s) : strrchr c s = none := by
  induction s with
  | nil => rfl
  | cons d e ih =>
    rw [strrchr, ih (fun hm => h (by simp [hm]))]
    simp; rintro rfl; exact h (by simp)

theorem strrchr_spec {c : UInt8} {s : CStr} {i : Nat} (h : strrchr c s = some i) :
    s[i]? = some c ∧ i < s.length ∧ ∀ j, i < j → s[j]? ≠ some c := by
  induction s generalizing i with
  | nil => cases h
  | cons d s ih =>
    rw [strrchr] at h
    split at h
    · rename_i k hk
      cases h
      obtain ⟨h1, h2, h3⟩ := ih hk
      refine ⟨by simpa using h1, by simpa using h2, ?_⟩
      intro j hj
      cases j with
      | zero => omega
      | succ j => simpa using h3 j (by omega)
    · rename_i hk
      split at h
      · rename_i e
        cases h
        subst e
        refine ⟨rfl, by simp, ?_⟩
        intro j hj
        cases j with
        | zero => omega
        | succ j =>
          rw [List.getElem?_cons_succ]
          intro hj
          have hm := List.mem_of_getElem? hj
          have : ∃ i, strrchr d s = some i := by
            clear hk ih hj
            induction s with
            | nil => cases hm
            | cons x s ih =>
              rw [strrchr]
              rcases List.mem_cons.1 hm with rfl | hm
              · cases strrchr d s <;> simp
              · obtain ⟨i, hi⟩ := ih hm
                exact ⟨i + 1, by rw [hi]⟩
          obtain ⟨i, hi⟩ := this
          rw [hk] at hi; cases hi
      · cases h

theorem size_nonneg {n : Int} (h0 : 0 ≤ n) (h1 : n < 2 ^ 64) : size n = n.toNat := by
  rw [size, Int.emod_eq_of_lt h0 h1]

theorem size_neg {n : Int} (h0 : n < 0) (h1 : - 2 ^ 64 ≤ n) : size n = (n + 2 ^ 64).toNat := by
  have : n % 2 ^ 64 = n + 2 ^ 64 := by omega
  rw [size, this]

/-! ## The properties -/

/-- C43: the internal helper gives the last component of every path. -/
theorem C43_name (path name : CStr) : getNameFromPath path = name ↔ Last path name :=
  ⟨fun h => h ▸ last_name path, fun h => last_unique (last_name path) h⟩

/-- C43: so does the exported one, for every path that has a slash. Missing: paths without, see
`C43_fileName_violated`. -/
theorem C43_fileName_partial (path name : CStr) (h : ∃ c ∈ path, isSlash c = true) :
    getFileName path = some name ↔ Last path name := by
  have hl := last_name path
  obtain ⟨dir, e, h1, h2⟩ := hl
  obtain ⟨d, s, rfl, hs⟩ : ∃ d s, dir = d ++ [s] ∧ isSlash s = true := by
    rcases h2 with rfl | h2
    · obtain ⟨c, hc, hs⟩ := h
      rw [e] at hc
      rw [h1 c hc] at hs; cases hs
    · exact h2
  have e' : path = d ++ s :: getNameFromPath path := by simpa using e
  have hloop := fileNameLoop_spec (d := d) hs h1 ((getNameFromPath path).length + 1) (Nat.le_refl _)
  rw [← e'] at hloop
  have hlen : path.length = d.length + ((getNameFromPath path).length + 1) := by
    conv => lhs; rw [e']
    simp
  have : getFileName path = some (getNameFromPath path) := by
    rw [getFileName, hlen, hloop, if_pos (by omega)]
    rw [Option.some.injEq]
    conv => lhs; rw [e']
    rw [List.drop_append]
    simp
  rw [this, Option.some.injEq, C43_name]

/-- C43, counterexample: without a slash the first character is dropped; an empty path makes the result point outside of
the string. -/
theorem C43_fileName_violated : getFileName c!"data.dat" = some c!"ata.dat" ∧ getFileName [] = none := by decide

/-- C43: the base name of a path with a backslash and no slash is its last component, if that is not empty. Missing: all other
paths, see `C43_baseName_violated`. -/
theorem C43_baseName_partial (path name : CStr) (h47 : (47 : UInt8) ∉ path) (h92 : (92 : UInt8) ∈ path) (h : Last path name)
    (hne : name ≠ []) : getBaseName path = some name := by
  obtain ⟨dir, rfl, h1, h2⟩ := h
  obtain ⟨d, s, rfl, hs⟩ : ∃ d s, dir = d ++ [s] ∧ isSlash s = true := by
    rcases h2 with rfl | h2
    · have := h1 92 (by simpa using h92)
      cases this
    · exact h2
  have hs' : s = 92 := by
    simp only [isSlash, Bool.or_eq_true, decide_eq_true_eq] at hs
    rcases hs with rfl | rfl
    · exact absurd (by simp) h47
    · rfl
  subst hs'
  have hn : (92 : UInt8) ∉ name := fun hm => by have := h1 92 hm; cases this
  have e : strrchr 92 (d ++ [92] ++ name) = some d.length := by
    rw [List.append_assoc]; exact strrchr_some hn
  rw [getBaseName, strrchr_none h47, e]
  have hl : 0 < name.length := List.length_pos_iff.2 hne
  simp [hne]

/-- C43, counterexample: the base name of every path with a slash is NULL. -/
theorem C43_baseName_slash_violated (path : CStr) (h : (47 : UInt8) ∈ path) : getBaseName path = none := by
  obtain ⟨s, t, rfl, ht⟩ := mem_last h
  rw [getBaseName, strrchr_some ht]

/-- C43, counterexample: the base name of a path with a slash is NULL, and so is that of a plain name; only backslashes
are handled. -/
theorem C43_baseName_violated : getBaseName c!"dir/data.dat" = none ∧ getBaseName c!"data.dat" = none ∧
    getBaseName c!"dir\\data.dat" = some c!"data.dat" := by decide

/-- C43: the name without its extension is found when the name has one, or there is no dot in the whole path: it is
written if there is room for it, and otherwise the lack of memory is reported. Missing: names without extension in a
directory with a dot, see `C43_stem_violated`. -/
theorem C43_stem_partial (path name stem : CStr) (length : Nat) (hl : Last path name) (hs : Stem name stem)
    (hd : (46 : UInt8) ∈ name ∨ (46 : UInt8) ∉ path) (hp : path.length < 2 ^ 63) :
    getBasename path length =
      if stem.length < length then some (.success, stem) else some (.insufficientMemory, []) := by
  have hn := (C43_name path name).2 hl
  obtain ⟨dir, e, -, -⟩ := hl
  have hlen := congrArg List.length e
  rw [List.length_append] at hlen
  have fin : ∀ n : Nat, n = stem.length → name.take n = stem →
      (if size ((n : Int) + 1) > length then some (Status.insufficientMemory, ([] : CStr))
        else if n < length then some (.success, name.take n) else none) =
      if stem.length < length then some (.success, stem) else some (.insufficientMemory, []) := by
    intro n hn ht
    have hle : stem.length ≤ name.length := by rw [← ht, List.length_take]; omega
    rw [size_nonneg (by omega) (by omega)]
    have : ((n : Int) + 1).toNat = n + 1 := by omega
    rw [this, ht]
    by_cases h : stem.length < length
    · rw [if_neg (by omega), if_pos (by omega), if_pos h]
    · rw [if_pos (by omega), if_neg h]
  rw [getBasename]
  simp only [hn]
  rcases hs with ⟨ext, he, hx⟩ | ⟨rfl, hx⟩
  · have h1 : strrchr 46 path = some (dir ++ stem).length := by
      rw [e, he, ← List.append_assoc]; exact strrchr_some hx
    rw [h1]
    simp only
    have h2 : size (((dir ++ stem).length : Int) - ((path.length - name.length : Nat) : Int)) = stem.length := by
      rw [List.length_append, hlen]
      have h3 : ((dir.length + stem.length : Nat) : Int) - ((dir.length + name.length - name.length : Nat) : Int) =
          stem.length := by omega
      rw [h3, size_nonneg (by omega) (by rw [he] at hlen; simp at hlen; omega)]
      rfl
    rw [h2]
    exact fin _ rfl (by rw [he]; simp)
  · have h1 : (46 : UInt8) ∉ path := by
      rcases hd with h | h
      · exact absurd h hx
      · exact h
    rw [strrchr_none h1]
    exact fin _ rfl (by simp)

/-- C43: whatever the path and the memory, nothing is written outside of the memory. -/
theorem C43_stem_safe (path : CStr) (length : Nat) (hp : path.length < 2 ^ 63) : getBasename path length ≠ none := by
  obtain ⟨dir, e, h1, h2⟩ := last_name path
  have hlen := congrArg List.length e
  rw [List.length_append] at hlen
  have fin : ∀ n : Nat, n + 1 < 2 ^ 64 →
      (if size ((n : Int) + 1) > length then some (Status.insufficientMemory, ([] : CStr))
        else if n < length then some (.success, (getNameFromPath path).take n) else none) ≠ none := by
    intro n hn
    rw [size_nonneg (by omega) (by omega)]
    split
    · simp
    · rw [if_pos (by omega)]; simp
  rw [getBasename]
  cases hs : strrchr 46 path with
  | none =>
    simp only
    exact fin _ (by omega)
  | some dot =>
    obtain ⟨h3, h4, -⟩ := strrchr_spec hs
    simp only
    by_cases hdot : path.length - (getNameFromPath path).length ≤ dot
    · have h5 := size_nonneg (n := (dot : Int) - ((path.length - (getNameFromPath path).length : Nat) : Int))
        (by omega) (by omega)
      exact fin _ (by rw [h5]; omega)
    · -- the dot is in the directory, and not its last character
      have hne : dot + 1 ≠ path.length - (getNameFromPath path).length := by
        intro he
        rcases h2 with rfl | ⟨d, s, rfl, hsl⟩
        · simp at hlen; omega
        · have : path[dot]? = some s := by
            rw [e, List.getElem?_append_left (by omega)]
            have : dot = d.length := by simp at hlen; omega
            rw [this]; simp
          rw [h3] at this
          cases this
          cases hsl
      have h5 := size_neg (n := (dot : Int) - ((path.length - (getNameFromPath path).length : Nat) : Int))
        (by omega) (by omega)
      exact fin _ (by rw [h5]; omega)

/-- C43, counterexample: no name is found for a file without extension in a directory with a dot. -/
theorem C43_stem_violated : getBasename c!"./data" 4096 = some (.insufficientMemory, []) := by decide

example : Last c!"a/b\\c.d.dat" c!"c.d.dat" := (C43_name _ _).1 (by decide)

example : Stem c!"c.d.dat" c!"c.d" := .inl ⟨c!"dat", rfl, by decide⟩

example : getBasename c!"../x/c.d.dat" 4 = some (.success, c!"c.d") ∧
    getBasename c!"../x/c.d.dat" 3 = some (.insufficientMemory, []) := by decide

end Verif.File
