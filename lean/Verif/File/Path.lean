import Verif.File.Existing

/-! # Searching a file upwards from the current directory: C59 -/

namespace Verif.File

/-! ## What is wanted -/

/-- The directory or one of those it is in, without a slash at the end; the root directory is the empty text. -/
def Ancestor (cwd d : CStr) : Prop := d = cwd ∨ ∃ s r, cwd = d ++ s :: r ∧ isSlash s = true

/-- The file looked for in a directory. -/
def inDir (d folder name : CStr) : CStr := d ++ c!"/" ++ folder ++ c!"/" ++ name

/-- The directory is the nearest one with the file, other than the root. -/
def Nearest (fs : FS) (cwd folder name d : CStr) : Prop :=
  Ancestor cwd d ∧ d ≠ [] ∧ fs.file (inDir d folder name) ≠ none ∧
    ∀ d', Ancestor cwd d' → fs.file (inDir d' folder name) ≠ none → d'.length ≤ d.length

/-! ## Lemmas -/

theorem ancestor_take {cwd d : CStr} (h : Ancestor cwd d) :
    d = cwd.take d.length ∧ (d.length = cwd.length ∨ cwd[d.length]?.any isSlash = true) := by
  rcases h with rfl | ⟨s, r, rfl, hs⟩
  · simp
  · refine ⟨by simp, .inr ?_⟩
    rw [List.getElem?_append_right (Nat.le_refl _)]
    simp [hs]

theorem take_ancestor {cwd : CStr} {i : Nat} (h : i = cwd.length ∨ cwd[i]?.any isSlash = true) :
    Ancestor cwd (cwd.take i) ∧ (cwd.take i).length = i := by
  rcases h with rfl | h
  · simp [Ancestor]
  · cases hc : cwd[i]? with
    | none => rw [hc] at h; cases h
    | some s =>
      rw [hc] at h
      obtain ⟨hi, e⟩ := List.getElem?_eq_some_iff.1 hc
      refine ⟨.inr ⟨s, cwd.drop (i + 1), ?_, h⟩, by rw [List.length_take]; omega⟩
      rw [← e, List.getElem_cons_drop, List.take_append_drop]

theorem getPathLoop_spec (fs : FS) (cwd folder name : CStr) (size : Nat)
    (hfit : cwd.length + folder.length + name.length + 2 < maxPath) : ∀ i, i ≤ cwd.length →
    (∀ d', Ancestor cwd d' → fs.file (inDir d' folder name) ≠ none → d'.length ≤ i) →
    ((getPathLoop fs cwd folder name size i = (.fileNotFound, []) ∧
      ∀ d, Ancestor cwd d → d ≠ [] → fs.file (inDir d folder name) = none) ∨
    ∃ d, Nearest fs cwd folder name d ∧ getPathLoop fs cwd folder name size i =
      if (inDir d folder name).length < size then (.success, inDir d folder name)
      else (.insufficientMemory, (inDir d folder name).take (size - 1))) := by
  intro i
  induction i with
  | zero =>
    intro _ h
    refine .inl ⟨rfl, ?_⟩
    intro d hd hne
    by_cases hf : fs.file (inDir d folder name) = none
    · exact hf
    · have := h d hd hf
      have := List.length_pos_iff.2 hne
      omega
  | succ i ih =>
    intro hi h
    have next : (∀ d', Ancestor cwd d' → d'.length = i + 1 → fs.file (inDir d' folder name) = none) →
        ∀ d', Ancestor cwd d' → fs.file (inDir d' folder name) ≠ none → d'.length ≤ i := by
      intro hno d' hd' hf'
      have h1 := h d' hd' hf'
      rcases Nat.lt_or_ge i d'.length with h2 | h2
      · exact absurd (hno d' hd' (by omega)) hf'
      · exact h2
    rw [getPathLoop]
    by_cases hc : i + 1 = cwd.length ∨ cwd[i + 1]?.any isSlash = true
    · rw [if_pos hc]
      obtain ⟨ha, hal⟩ := take_ancestor hc
      simp only
      rw [if_neg (by simp only [List.length_append, List.length_cons, List.length_nil]; omega)]
      have ep : cwd.take (i + 1) ++ (c!"/" ++ folder ++ c!"/" ++ name) = inDir (cwd.take (i + 1)) folder name := by
        simp [inDir]
      rw [ep]
      by_cases hf : fs.file (inDir (cwd.take (i + 1)) folder name) = none
      · rw [hf]
        simp only [Option.isSome_none, Bool.false_eq_true, if_false]
        refine ih (by omega) (next ?_)
        intro d' hd' hl
        have e := (ancestor_take hd').1
        rw [hl] at e
        rw [e]; exact hf
      · right
        refine ⟨cwd.take (i + 1), ⟨ha, ?_, hf, ?_⟩, ?_⟩
        · intro e; rw [e] at hal; simp at hal
        · intro d' hd' hf'; rw [hal]; exact h d' hd' hf'
        · rw [if_pos (Option.isSome_iff_ne_none.2 hf)]
          by_cases hs : (inDir (cwd.take (i + 1)) folder name).length < size
          · rw [if_neg (by omega), if_pos hs]
          · rw [if_pos (by omega), if_neg hs]
    · rw [if_neg hc]
      refine ih (by omega) (next ?_)
      intro d' hd' hl
      have := (ancestor_take hd').2
      rw [hl] at this
      exact absurd this hc

/-! ## C59 -/

/-- C59: the file in the nearest directory that has it, from the current directory upwards, is found; its path is given if
there is room for it, and otherwise the lack of memory is reported. If no directory but perhaps the root has it, then it is
reported not to be found. Missing: the root directory, see `C59_root_violated`. -/
theorem C59_path_partial (fs : FS) (cwd folder name : CStr) (size : Nat)
    (hfit : cwd.length + folder.length + name.length + 2 < maxPath) :
    (∀ d, Nearest fs cwd folder name d → getPath fs (some cwd) folder name size =
      if (inDir d folder name).length < size then (.success, inDir d folder name)
      else (.insufficientMemory, (inDir d folder name).take (size - 1))) ∧
    ((∀ d, Ancestor cwd d → d ≠ [] → fs.file (inDir d folder name) = none) →
      getPath fs (some cwd) folder name size = (.fileNotFound, [])) := by
  rw [getPath]
  rcases getPathLoop_spec fs cwd folder name size hfit cwd.length (Nat.le_refl _) (by
    intro d' hd' _
    have := congrArg List.length (ancestor_take hd').1
    rw [List.length_take] at this
    omega) with ⟨h1, h2⟩ | ⟨d, h1, h2⟩
  · exact ⟨fun d hd => absurd (h2 d hd.1 hd.2.1) hd.2.2.1, fun _ => h1⟩
  · refine ⟨fun d' hd' => ?_, fun h => absurd (h d h1.1 h1.2.1) h1.2.2.1⟩
    have hl := Nat.le_antisymm (h1.2.2.2 d' hd'.1 hd'.2.2.1) (hd'.2.2.2 d h1.1 h1.2.2.1)
    have : d' = d := by rw [(ancestor_take hd'.1).1, (ancestor_take h1.1).1, hl]
    rw [this]; exact h2

/-- C59: when the current directory cannot be had the file is reported not to be found, and nothing is written. -/
theorem C59_noDirectory (fs : FS) (folder name : CStr) (size : Nat) :
    getPath fs none folder name size = (.fileNotFound, []) := rfl

/-- C59 fails in a directory deep enough for the path of the file in it not to fit in the array: the lack of memory is
reported at once, whatever room the caller gave, and the file is not looked for in the directories above, where its path may
fit. -/
theorem C59_deep_violated (fs : FS) (cwd folder name : CStr) (size : Nat) (hne : cwd ≠ []) (hcwd : cwd.length < 4096)
    (hfit : 4096 ≤ cwd.length + folder.length + name.length + 2) :
    getPath fs (some cwd) folder name size = (.insufficientMemory, []) := by
  rw [getPath]
  obtain ⟨n, hn⟩ : ∃ n, cwd.length = n + 1 := ⟨cwd.length - 1, by have := List.length_pos_iff.2 hne; omega⟩
  rw [hn, getPathLoop, if_pos (.inl hn.symm)]
  simp only
  rw [if_pos]
  simp only [List.length_append, List.length_cons, List.length_nil]
  show _ ≥ 4096 - (n + 1)
  omega

example : (List.replicate 4000 (97 : UInt8)) ≠ [] ∧ (List.replicate 4000 (97 : UInt8)).length < 4096 ∧
    4096 ≤ (List.replicate 4000 (97 : UInt8)).length + (List.replicate 88 (97 : UInt8)).length + c!"m.data".length + 2 := by
  refine ⟨fun h => absurd (congrArg List.length h) (by rw [List.length_replicate]; decide), ?_, ?_⟩ <;> simp only [List.length_replicate] <;> decide

/-- C59, counterexample: the file is in the root directory, in which the current directory is, and is not found. -/
theorem C59_root_violated :
    getPath (withFiles [(c!"/data/m.dat", c!"x")]) (some c!"/home/me") c!"data" c!"m.dat" 100 = (.fileNotFound, []) ∧
    Ancestor c!"/home/me" [] ∧ (withFiles [(c!"/data/m.dat", c!"x")]).file (inDir [] c!"data" c!"m.dat") = some c!"x" :=
  ⟨by decide, .inr ⟨47, c!"home/me", rfl, by decide⟩, by decide⟩

example : getPath (withFiles [(c!"/home/data/m.dat", c!"x"), (c!"/home/me/a/data/m.dat", c!"y")]) (some c!"/home/me/a/b")
    c!"data" c!"m.dat" 100 = (.success, c!"/home/me/a/data/m.dat") ∧
    getPath (withFiles [(c!"/home/data/m.dat", c!"x")]) (some c!"/home/me/a/b") c!"data" c!"m.dat" 10 =
      (.insufficientMemory, c!"/home/dat") := by decide

example : Nearest (withFiles [(c!"/home/data/m.dat", c!"x")]) c!"/home" c!"data" c!"m.dat" c!"/home" := by
  refine ⟨.inl rfl, by decide, by decide, ?_⟩
  intro d' hd' _
  have := congrArg List.length (ancestor_take hd').1
  rw [List.length_take] at this
  simp only [List.length_cons, List.length_nil] at this ⊢
  omega

end Verif.File
