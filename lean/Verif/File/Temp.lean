import Verif.File.Copy

/-! # Creating temporary files: C43, second part -/

namespace Verif.File

/-! ## What is wanted -/

/-- A file with that content can be created in the directory under any of the names. -/
def Usable (fs : FS) (names : List CStr) (content dir : CStr) : Prop :=
  ∀ n ∈ names, fs.canWrite (withSlash dir ++ n) = true ∧ Enough (fs.room (withSlash dir ++ n)) content.length

/-- The names are different, of one length, and not used in any of the directories. -/
structure Fresh (fs : FS) (dirs names : List CStr) (length : Nat) : Prop where
  nodup : names.Nodup
  length : ∀ n ∈ names, n.length = length
  unused : ∀ d ∈ dirs, ∀ n ∈ names, fs.file (withSlash d ++ n) = none

/-- The same but for the files. -/
def FS.Like (fs fs' : FS) : Prop :=
  fs'.canWrite = fs.canWrite ∧ fs'.room = fs.room ∧ fs'.readLimit = fs.readLimit ∧ fs'.canSeek = fs.canSeek ∧
    fs'.canDelete = fs.canDelete

/-! ## Lemmas -/

theorem like_refl (fs : FS) : fs.Like fs := ⟨rfl, rfl, rfl, rfl, rfl⟩

theorem only_like {fs fs' : FS} {p : CStr} (h : fs.Only fs' p) : fs.Like fs' := h.2

theorem like_trans {a b c : FS} (h1 : a.Like b) (h2 : b.Like c) : a.Like c :=
  ⟨h2.1.trans h1.1, h2.2.1.trans h1.2.1, h2.2.2.1.trans h1.2.2.1, h2.2.2.2.1.trans h1.2.2.2.1,
    h2.2.2.2.2.trans h1.2.2.2.2⟩

/-- After a copy to a fresh name the remaining names are fresh, and the master is as before. -/
theorem fresh_copy {fs : FS} {dirs names : List CStr} {n d master content : CStr} {len : Nat}
    (h : Fresh fs dirs (n :: names) len) (hd : d ∈ dirs) (hm : fs.Readable master content) :
    Fresh (fs.copy master (withSlash d ++ n)).1 dirs names len ∧
    (fs.copy master (withSlash d ++ n)).1.Readable master content ∧ master ≠ withSlash d ++ n := by
  have hne : master ≠ withSlash d ++ n := by
    intro e
    have := h.unused d hd n (by simp)
    rw [← e, hm.1] at this
    cases this
  have ho := copy_only fs master (withSlash d ++ n)
  refine ⟨⟨(List.nodup_cons.1 h.nodup).2, fun m hm => h.length m (by simp [hm]), ?_⟩, ?_, hne⟩
  · intro e he m hm'
    rw [ho.1]
    · exact h.unused e he m (by simp [hm'])
    · intro heq
      have := List.append_inj_right' heq (by rw [h.length m (by simp [hm']), h.length n (by simp)])
      exact (List.nodup_cons.1 h.nodup).1 (this ▸ hm')
  · refine ⟨?_, ?_, ?_⟩
    · rw [ho.1 _ hne]; exact hm.1
    · rw [ho.2.2.2.2.1]; exact hm.2.1
    · rw [ho.2.2.2.1]; exact hm.2.2

theorem copy_usable {fs : FS} {names : List CStr} {n d master content : CStr} (hu : Usable fs names content d)
    (hn : n ∈ names) (hm : fs.Readable master content) (hne : master ≠ withSlash d ++ n) :
    (fs.copy master (withSlash d ++ n)).2 = .success ∧
    (fs.copy master (withSlash d ++ n)).1.file (withSlash d ++ n) = some content := by
  obtain ⟨h1, h2⟩ := hu n hn
  have hf : (fs.set (withSlash d ++ n) (some [])).file master = some content := by simp [FS.set, hne, hm.1]
  have hc := (copyLoop_spec (fs.room (withSlash d ++ n)) (content.length + 1) content [] (by omega)
    (fun _ _ => Nat.zero_le _)).1 (by simpa using h2)
  rw [FS.copy, hm.1]
  simp only [h1, if_true, hf, Option.getD_some]
  have e1 : (fs.set (withSlash d ++ n) (some [])).readLimit master = none := hm.2.2
  have e2 : (fs.set (withSlash d ++ n) (some [])).canSeek master = true := hm.2.1
  have e3 : (fs.set (withSlash d ++ n) (some [])).room (withSlash d ++ n) = fs.room (withSlash d ++ n) := rfl
  rw [e1, e2, e3]
  simp only [limited, copyBytes, if_true, hc]
  exact ⟨trivial, by rw [set_self]; rfl⟩

theorem copy_success {fs : FS} {s d content : CStr} (hm : fs.Readable s content) (hne : s ≠ d)
    (h : (fs.copy s d).2 = .success) : (fs.copy s d).1.file d = some content := by
  -- as `C56_copy_partial`, whether or not files can be deleted
  have hf : (fs.set d (some [])).file s = some content := by simp [FS.set, hne, hm.1]
  have e1 : (fs.set d (some [])).readLimit s = none := hm.2.2
  have e2 : (fs.set d (some [])).canSeek s = true := hm.2.1
  have e3 : (fs.set d (some [])).room d = fs.room d := rfl
  rw [FS.copy, hm.1] at h ⊢
  cases hw : fs.canWrite d with
  | false => simp [hw] at h
  | true =>
    simp only [hw, if_true, hf, Option.getD_some, e1, e2, e3, limited, copyBytes] at h ⊢
    have hc := copyLoop_spec (fs.room d) (content.length + 1) content [] (by omega) (fun _ _ => Nat.zero_le _)
    simp only [List.length_nil, Nat.zero_add, List.nil_append] at hc
    by_cases hr : Enough (fs.room d) content.length
    · simp only [hc.1 hr, if_true]; exact set_self _ _ _
    · simp [hc.2 hr] at h

/-! ## The older function -/

theorem createTempLoop_spec {master content : CStr} (fs0 : FS) : ∀ (dirs : List CStr) (fs : FS) (st : Status) (names : List CStr),
    fs0.Like fs → Fresh fs dirs names (uniqueLength - 1) → fs.Readable master content →
    (∀ d ∈ dirs, d.length < maxPath) → dirs.length ≤ names.length →
    (∃ d ∈ dirs, (withSlash d).length + uniqueLength < maxPath ∧ Usable fs0 names content d) →
    ∃ fs' a d b n, createTempLoop master dirs fs st names = some (fs', .success, some (withSlash d ++ n)) ∧
      dirs = a ++ d :: b ∧ n ∈ names ∧ fs'.file (withSlash d ++ n) = some content ∧
      ∀ e ∈ a, ¬ ((withSlash e).length + uniqueLength < maxPath ∧ Usable fs0 names content e) := by
  intro dirs
  induction dirs with
  | nil => rintro _ _ _ _ _ _ _ _ ⟨d, hd, _⟩; cases hd
  | cons dir dirs ih =>
    intro fs st names hl hf hm hp hlen hu
    rw [createTempLoop, if_neg (by have := hp dir (by simp); omega)]
    cases names with
    | nil => simp at hlen
    | cons n names =>
      -- what is tried next, with the rest of the names
      have rest : ∀ fs2 st2 (nm : List CStr), fs0.Like fs2 → Fresh fs2 dirs nm (uniqueLength - 1) → fs2.Readable master content →
          dirs.length ≤ nm.length → (∀ m ∈ nm, m ∈ n :: names) →
          ¬ ((withSlash dir).length + uniqueLength < maxPath ∧ Usable fs0 (n :: names) content dir) →
          ∃ fs' a d b n', createTempLoop master dirs fs2 st2 nm = some (fs', .success, some (withSlash d ++ n')) ∧
            dir :: dirs = a ++ d :: b ∧ n' ∈ n :: names ∧ fs'.file (withSlash d ++ n') = some content ∧
            ∀ e ∈ a, ¬ ((withSlash e).length + uniqueLength < maxPath ∧ Usable fs0 (n :: names) content e) := by
        intro fs2 st2 nm h1 h2 h3 h4 h5 h6
        obtain ⟨d, hd, hdu⟩ := hu
        have hd' : d ∈ dirs := by
          rcases List.mem_cons.1 hd with rfl | hd
          · exact absurd hdu h6
          · exact hd
        obtain ⟨fs', a, d', b, n', g1, g2, g3, g4, g5⟩ := ih fs2 st2 nm h1 h2 h3 (fun e he => hp e (by simp [he])) h4
          ⟨d, hd', hdu.1, fun m hm => hdu.2 m (h5 m hm)⟩
        refine ⟨fs', dir :: a, d', b, n', g1, by rw [g2]; rfl, h5 n' g3, g4, ?_⟩
        intro e he
        rcases List.mem_cons.1 he with rfl | he
        · exact h6
        · intro ⟨k1, k2⟩; exact g5 e he ⟨k1, fun m hm => k2 m (h5 m hm)⟩
      by_cases hfit : (withSlash dir).length + uniqueLength < maxPath
      · rw [if_pos hfit]
        have hfree : fs.file (withSlash dir ++ n) = none := hf.unused dir (by simp) n (by simp)
        rw [legacyName, hfree]
        simp only [Option.isSome_none, Bool.false_eq_true, if_false]
        obtain ⟨f1, f2, f3⟩ := fresh_copy hf (d := dir) (by simp) hm
        have hl' := like_trans hl (only_like (copy_only fs master (withSlash dir ++ n)))
        by_cases hus : Usable fs0 (n :: names) content dir
        · have hus' : Usable fs (n :: names) content dir := by
            intro m hm; rw [hl.1, hl.2.1]; exact hus m hm
          obtain ⟨c1, c2⟩ := copy_usable hus' (n := n) (by simp) hm f3
          rcases hcopy : fs.copy master (withSlash dir ++ n) with ⟨fs2, st2⟩
          rw [hcopy] at c1 c2
          simp only at c1 c2
          subst c1
          exact ⟨fs2, [], dir, dirs, n, rfl, rfl, by simp, c2, by simp⟩
        · rcases hcopy : fs.copy master (withSlash dir ++ n) with ⟨fs2, st2⟩
          rw [hcopy] at f1 f2 hl'
          have f1' : Fresh fs2 dirs names (uniqueLength - 1) :=
            ⟨f1.nodup, f1.length, fun d hd => f1.unused d (by simp [hd])⟩
          by_cases hst : st2 = .success
          · subst hst
            have := copy_success hm f3 (by rw [hcopy])
            rw [hcopy] at this
            exact ⟨fs2, [], dir, dirs, n, rfl, rfl, by simp, this, by simp⟩
          · have := rest fs2 st2 names hl' f1' f2 (by simp at hlen; omega) (fun m hm => by simp [hm]) (fun h => hus h.2)
            cases st2 <;> first | exact absurd rfl hst | exact this
      · rw [if_neg hfit]
        have hf' : Fresh fs dirs (n :: names) (uniqueLength - 1) :=
          ⟨hf.nodup, hf.length, fun d hd => hf.unused d (by simp [hd])⟩
        exact rest fs .filePathTooLong (n :: names) hl hf' hm (by simp at hlen ⊢; omega) (fun m hm => hm) (fun h => hfit h.1)

/-- C43: the older function makes a copy of the master file in the first directory in which one can be made, if there
is any, and gives its path, for directories of less than 4096 characters. -/
theorem C43_create (fs : FS) (master content : CStr) (dirs random : List CStr) (hm : fs.Readable master content)
    (hf : Fresh fs dirs random (19)) (hp : ∀ d ∈ dirs, d.length < 4096)
    (hlen : dirs.length ≤ random.length)
    (hu : ∃ d ∈ dirs, (withSlash d).length + 20 < 4096 ∧ Usable fs random content d) :
    ∃ fs' a d b n, createTempFile fs master dirs random = some (fs', .success, some (withSlash d ++ n)) ∧
      dirs = a ++ d :: b ∧ n ∈ random ∧ fs'.file (withSlash d ++ n) = some content ∧
      ∀ e ∈ a, ¬ ((withSlash e).length + 20 < 4096 ∧ Usable fs random content e) := by
  have hne : dirs ≠ [] := by rintro rfl; obtain ⟨d, hd, -⟩ := hu; cases hd
  rw [createTempFile, if_neg hne]
  exact createTempLoop_spec fs dirs fs .notSet random (like_refl fs) hf hm hp hlen hu

/-- C43, counterexample: a directory of 4096 characters or more is written outside of the memory for the path, file.c:890. -/
theorem C43_create_violated (fs : FS) (master dir : CStr) (dirs random : List CStr) (h : 4096 ≤ dir.length) :
    createTempFile fs master (dir :: dirs) random = none := by
  rw [createTempFile, if_neg (by simp), createTempLoop, if_pos (show dir.length ≥ maxPath from h)]

example : 4096 ≤ (List.replicate 4096 (97 : UInt8)).length := by rw [List.length_replicate]; exact Nat.le_refl _

/-! ## The newer function -/

/-- The name of a temporary file. -/
def tempName (base pid r : CStr) : CStr := base ++ c!"-" ++ pid ++ c!"-" ++ r

theorem snprintf_fits {text : CStr} {cap length : Nat} (h1 : text.length < length) (h2 : text.length + 1 ≤ cap) :
    snprintf text cap length = some text := by
  rw [snprintf, if_neg (by omega), if_pos (by omega), List.take_of_length_le (by omega)]

theorem tempInDir_spec {fs : FS} {pid master dir base content : CStr} {length len : Nat} {r : CStr} {random dirs : List CStr}
    (hb : getBasename (getNameFromPath master) maxPath = some (.success, base))
    (hfit : (withSlash dir).length + (tempName base pid r).length + 1 < length) (hlt : length < 2 ^ 64)
    (hf : Fresh fs dirs ((r :: random).map (tempName base pid)) len) (hd : dir ∈ dirs) (_hm : fs.Readable master content) :
    ∃ dest, tempInDir fs pid master dir length (r :: random) =
      some ((fs.copy master (withSlash dir ++ tempName base pid r)).1,
        (fs.copy master (withSlash dir ++ tempName base pid r)).2, dest, random) ∧
      ((fs.copy master (withSlash dir ++ tempName base pid r)).2 = .success → dest = withSlash dir ++ tempName base pid r) := by
  rw [tempInDir]
  rw [snprintf_fits (by omega) (by omega)]
  simp only
  rw [if_neg (by omega), addTempFileName, hb]
  simp only
  have hsz : size ((length : Int) - (withSlash dir).length - 1) = length - (withSlash dir).length - 1 := by
    rw [size_nonneg (by omega) (by omega)]; omega
  rw [hsz, tempNameLoop]
  have hs := snprintf_fits (text := tempName base pid r) (cap := length - (withSlash dir).length)
    (length := length - (withSlash dir).length - 1) (by omega) (by omega)
  simp only [tempName] at hs
  rw [hs]
  simp only
  have hfree := hf.unused dir hd (tempName base pid r) (by simp)
  simp only [tempName] at hfree hfit
  rw [if_neg (by omega), hfree]
  simp only [Option.isSome_none, Bool.false_eq_true, if_false]
  simp only [tempName]
  generalize fs.copy master _ = x
  rcases x with ⟨fs2, st2⟩
  cases st2 <;> exact ⟨_, rfl, by simp⟩

theorem withPaths_spec {pid master base content : CStr} {length len : Nat} (fs0 : FS) (last : CStr)
    (hb : getBasename (getNameFromPath master) maxPath = some (.success, base)) (hlt : length < 2 ^ 64) :
    ∀ (dirs : List CStr) (fs : FS) (st : Status) (dest : CStr) (random : List CStr), fs0.Like fs →
    Fresh fs (dirs ++ [last]) (random.map (tempName base pid)) len → fs.Readable master content →
    (∀ d ∈ dirs ++ [last], ∀ r ∈ random, (withSlash d).length + (tempName base pid r).length + 1 < length) →
    dirs.length < random.length → Usable fs0 (random.map (tempName base pid)) content last →
    ∃ fs' n, createTempFileWithPaths pid master length (dirs ++ [last]) fs st dest random =
      some (fs', .success, withSlash last ++ n) ∧ n ∈ random.map (tempName base pid) ∧
      fs'.file (withSlash last ++ n) = some content := by
  intro dirs
  induction dirs with
  | nil =>
    intro fs st dest random hl hf hm hfit hlen hu
    cases random with
    | nil => simp at hlen
    | cons r random =>
      obtain ⟨d', h1, h2⟩ := tempInDir_spec hb (hfit last (by simp) r (by simp)) hlt hf (by simp) hm
      obtain ⟨-, -, f3⟩ := fresh_copy (n := tempName base pid r) (names := random.map (tempName base pid)) hf (d := last)
        (by simp) hm
      have hu' : Usable fs ((r :: random).map (tempName base pid)) content last := by
        intro m hm; rw [hl.1, hl.2.1]; exact hu m hm
      obtain ⟨c1, c2⟩ := copy_usable hu' (n := tempName base pid r) (by simp) hm f3
      refine ⟨_, tempName base pid r, ?_, by simp, c2⟩
      rw [List.nil_append, createTempFileWithPaths, h1]
      simp only [createTempFileWithPaths]
      rw [c1, h2 c1]
  | cons dir dirs ih =>
    intro fs st dest random hl hf hm hfit hlen hu
    cases random with
    | nil => simp at hlen
    | cons r random =>
      obtain ⟨d', h1, -⟩ := tempInDir_spec hb (hfit dir (by simp) r (by simp)) hlt hf (by simp) hm
      obtain ⟨f1, f2, -⟩ := fresh_copy (n := tempName base pid r) (names := random.map (tempName base pid)) hf (d := dir)
        (by simp) hm
      rw [List.cons_append, createTempFileWithPaths, h1]
      simp only
      obtain ⟨fs', n, g1, g2, g3⟩ := ih (fs.copy master (withSlash dir ++ tempName base pid r)).1
        (fs.copy master (withSlash dir ++ tempName base pid r)).2 d' random
        (like_trans hl (only_like (copy_only _ _ _)))
        ⟨f1.nodup, f1.length, fun d hd => f1.unused d (by simp only [List.cons_append, List.mem_cons]; exact .inr hd)⟩ f2
        (fun d hd r hr => hfit d (by simp only [List.cons_append, List.mem_cons]; exact .inr hd) r (by simp [hr]))
        (by simp at hlen; omega) (fun m hm => hu m (by simp only [List.map_cons, List.mem_cons]; exact .inr hm))
      exact ⟨fs', n, g1, by simp only [List.map_cons, List.mem_cons]; exact .inr g2, g3⟩

/-- C43: the newer function makes a copy of the master file and gives its path if a copy can be made in the last of the
directories, and the paths fit into the memory. Missing: when it can be made in another one, see
`C43_temp_violated`. -/
theorem C43_temp_partial (fs : FS) (pid master base content last : CStr) (dirs random : List CStr) (length len : Nat)
    (hm : fs.Readable master content) (hb : getBasename (getNameFromPath master) maxPath = some (.success, base))
    (hlt : length < 2 ^ 64) (hf : Fresh fs (dirs ++ [last]) (random.map (tempName base pid)) len)
    (hfit : ∀ d ∈ dirs ++ [last], ∀ r ∈ random, (withSlash d).length + (tempName base pid r).length + 1 < length)
    (hlen : dirs.length < random.length) (hu : Usable fs (random.map (tempName base pid)) content last) :
    ∃ fs' n, newTempFile fs pid master (dirs ++ [last]) length random = some (fs', .success, withSlash last ++ n) ∧
      fs'.file (withSlash last ++ n) = some content := by
  rw [newTempFile, if_neg (by simp)]
  obtain ⟨fs', n, h1, -, h3⟩ := withPaths_spec fs last hb hlt dirs fs .notSet [] random (like_refl fs) hf hm hfit hlen hu
  exact ⟨fs', n, h1, h3⟩

/-- C43: the name of a temporary file is added to the path if it is not used and is shorter than the length given;
when it is used the next random string is tried, and when it does not fit nothing is written. Missing: when it fits but for the terminator, see
`C43_truncated_violated`, and when it is used and no more random string can be had, see `C43_random_violated`. -/
theorem C43_tempName_partial (fs : FS) (pid master base «prefix» r : CStr) (cap length : Nat) (random : List CStr)
    (hb : getBasename master 4096 = some (.success, base)) (hcap : length ≤ cap) :
    ((tempName base pid r).length < length → fs.file («prefix» ++ tempName base pid r) = none →
      addTempFileName fs pid master «prefix» cap length (r :: random) =
        some (.success, «prefix» ++ tempName base pid r, random)) ∧
    ((tempName base pid r).length < length → fs.file («prefix» ++ tempName base pid r) ≠ none → random ≠ [] →
      addTempFileName fs pid master «prefix» cap length (r :: random) =
        addTempFileName fs pid master «prefix» cap length random) ∧
    (length < (tempName base pid r).length →
      addTempFileName fs pid master «prefix» cap length (r :: random) = some (.insufficientMemory, «prefix», random)) ∧
    addTempFileName fs pid master «prefix» cap length (r :: random) ≠ none := by
  have hb' : getBasename master maxPath = some (.success, base) := hb
  have safe : ∀ (l : List CStr) (dest : CStr), tempNameLoop fs pid base «prefix» cap length dest l ≠ none := by
    intro l
    induction l with
    | nil => simp [tempNameLoop]
    | cons r l ih =>
      intro dest
      rw [tempNameLoop]
      have : ∃ n, snprintf (base ++ c!"-" ++ pid ++ c!"-" ++ r) cap length = some n := by
        rw [snprintf]
        split
        · exact ⟨_, rfl⟩
        · rw [if_pos (by omega)]; exact ⟨_, rfl⟩
      obtain ⟨n, hn⟩ := this
      rw [hn]
      simp only
      split
      · simp
      · split
        · exact ih _
        · simp
  rw [addTempFileName, hb']
  simp only
  refine ⟨fun h1 h2 => ?_, fun h1 h2 h3 => ?_, fun h1 => ?_, safe _ _⟩
  · have hs := snprintf_fits (cap := cap) h1 (by omega)
    simp only [tempName] at hs h1 h2 ⊢
    rw [tempNameLoop]
    rw [hs]
    simp only
    rw [if_neg (by omega), h2]
    rfl
  · have hs := snprintf_fits (cap := cap) h1 (by omega)
    simp only [tempName] at hs h1 h2 ⊢
    rw [tempNameLoop]
    rw [hs]
    simp only
    rw [if_neg (by omega), if_pos (Option.isSome_iff_ne_none.2 h2), addTempFileName, hb']
    cases random with
    | nil => exact absurd rfl h3
    | cons r' random => rfl
  · simp only [tempName] at h1
    rw [tempNameLoop]
    have : ∃ n, snprintf (base ++ c!"-" ++ pid ++ c!"-" ++ r) cap length = some n := by
      rw [snprintf]
      split
      · exact ⟨_, rfl⟩
      · rw [if_pos (by omega)]; exact ⟨_, rfl⟩
    obtain ⟨n, hn⟩ := this
    rw [hn]
    simp only
    rw [if_pos (by omega), if_pos hcap]

/-- A file system with the file `m.dat` in which files can be written if their path starts with one of the texts. -/
def writable (starts : List CStr) : FS where
  file p := if p = c!"m.dat" then some c!"xyz" else none
  canWrite p := starts.any fun s => s.isPrefixOf p
  room _ := none
  readLimit _ := none
  canSeek _ := true
  canDelete _ := true

/-- C43: when the name of the master file cannot be had without its extension, that is reported and nothing is written. -/
theorem C43_tempName_failed (fs : FS) (pid master «prefix» base : CStr) (cap length : Nat) (random : List CStr) (st : Status)
    (hb : getBasename master 4096 = some (st, base)) (hst : st ≠ .success) :
    addTempFileName fs pid master «prefix» cap length random = some (st, «prefix», random) := by
  have hb' : getBasename master maxPath = some (st, base) := hb
  rw [addTempFileName, hb']
  cases st <;> first | exact absurd rfl hst | rfl

example : getBasename (List.replicate 4096 97) 4096 = some (.insufficientMemory, []) := by
  rw [C43_stem_partial (List.replicate 4096 97) (List.replicate 4096 97) (List.replicate 4096 97) 4096 ⟨[], rfl, ?_, .inl rfl⟩
    (.inr ⟨rfl, fun h => absurd (List.mem_replicate.1 h).2 (by decide)⟩)
    (.inr fun h => absurd (List.mem_replicate.1 h).2 (by decide)) (by rw [List.length_replicate]; omega),
    if_neg (by rw [List.length_replicate]; omega)]
  intro c hc
  rw [(List.mem_replicate.1 hc).2]; rfl

/-- C43: without directories the copy of the master file is made in the working directory, under the first of the names that is
not used, and its name is given. When it cannot be made, that is reported and no name is given. -/
theorem C43_working (fs : FS) (pid master base content r : CStr) (used random : List CStr) (length : Nat)
    (hm : fs.Readable master content) (hb : getBasename (getNameFromPath master) maxPath = some (.success, base))
    (hfit : ∀ u ∈ r :: used, (tempName base pid u).length < length)
    (hused : ∀ u ∈ used, fs.file (tempName base pid u) ≠ none) (hfree : fs.file (tempName base pid r) = none) :
    ∃ fs' st, fs.copy master (tempName base pid r) = (fs', st) ∧
      newTempFile fs pid master [] length (used ++ r :: random) =
        some (fs', st, if st = .success then tempName base pid r else []) ∧
      (fs.canWrite (tempName base pid r) = true → Enough (fs.room (tempName base pid r)) content.length →
        st = .success ∧ fs'.file (tempName base pid r) = some content) ∧
      (st = .success → fs'.file (tempName base pid r) = some content) := by
  have hne : master ≠ tempName base pid r := by
    intro e; rw [← e, hm.1] at hfree; cases hfree
  have hadd : addTempFileName fs pid (getNameFromPath master) [] length length (used ++ r :: random) =
      some (.success, tempName base pid r, random) := by
    induction used with
    | nil =>
      exact (C43_tempName_partial fs pid _ base [] r length length random hb (Nat.le_refl _)).1 (hfit r (by simp))
        (by simpa using hfree)
    | cons u used ih =>
      have := (C43_tempName_partial fs pid _ base [] u length length (used ++ r :: random) hb (Nat.le_refl _)).2.1
        (hfit u (by simp)) (by simpa using hused u (by simp)) (by simp)
      rw [List.cons_append, this]
      refine ih (fun v hv => hfit v ?_) (fun v hv => hused v (by simp [hv]))
      rcases List.mem_cons.1 hv with h | h <;> simp [h]
  have hu : fs.canWrite (tempName base pid r) = true → Enough (fs.room (tempName base pid r)) content.length →
      (fs.copy master (tempName base pid r)).2 = .success ∧
      (fs.copy master (tempName base pid r)).1.file (tempName base pid r) = some content := by
    intro h1 h2
    exact copy_usable (fs := fs) (names := [tempName base pid r]) (n := tempName base pid r) (d := [])
      (fun n hn => by rw [List.mem_singleton.1 hn]; exact ⟨h1, h2⟩) (by simp) hm hne
  have hs := copy_success hm hne
  rw [newTempFile, if_pos rfl, createTempFileWithoutPaths, hadd]
  simp only
  generalize hc : fs.copy master (tempName base pid r) = x at hu hs
  rcases x with ⟨fs', st⟩
  refine ⟨fs', st, rfl, ?_, hu, hs⟩
  cases st <;> rfl

/-- A file system with the file `m.dat` and a file named as a temporary one. -/
def withUsed : FS := { writable [c!"m-7-"] with file := fun p => [(c!"m.dat", c!"xyz"), (c!"m-7-RND", [])].lookup p }

example : (newTempFile withUsed c!"7" c!"m.dat" [] 100 [c!"RND", c!"STR"]).map
    (fun r => (r.2, r.1.file c!"m-7-STR")) = some ((.success, c!"m-7-STR"), some c!"xyz") := by decide

/-- C43: told of more memory than there is, a name that does not fit is written outside of it. -/
theorem C43_tempName_outside (fs : FS) (pid master base «prefix» r : CStr) (cap length : Nat) (random : List CStr)
    (hb : getBasename master 4096 = some (.success, base)) (h1 : (tempName base pid r).length < length)
    (h2 : cap ≤ (tempName base pid r).length) :
    addTempFileName fs pid master «prefix» cap length (r :: random) = none := by
  have hb' : getBasename master maxPath = some (.success, base) := hb
  rw [addTempFileName, hb']
  simp only [tempName] at h1 h2 ⊢
  rw [tempNameLoop]
  rw [snprintf, if_neg (by omega), if_neg (by omega)]

/-- C43, counterexample: the first directory is usable and the second is not. The call fails and gives no path, although
the copy has been made in the first (where it remains), file.c:812-847. -/
theorem C43_temp_violated :
    (newTempFile (writable [c!"a/"]) c!"7" c!"m.dat" [c!"a", c!"b"] 100 [c!"RND", c!"STR"]).map
      (fun r => (r.2, r.1.file c!"a/m-7-RND")) = some ((.fileWriteError, []), some c!"xyz") := by decide

/-- C43, counterexample: with two usable directories the second is used, not the first, and an unknown copy remains in
the first. -/
theorem C43_order_violated :
    (newTempFile (writable [c!"a/", c!"b/"]) c!"7" c!"m.dat" [c!"a", c!"b"] 100 [c!"RND", c!"STR"]).map
      (fun r => (r.2, r.1.file c!"a/m-7-RND")) = some ((.success, c!"b/m-7-STR"), some c!"xyz") := by decide

/-- C43, counterexample: for a directory whose length with the slash is that of the memory, the name is written outside
of the memory, file.c:829-835. -/
theorem C43_overflow_violated :
    newTempFile (writable [c!"abc/"]) c!"7" c!"m.dat" [c!"abc"] 4 [c!"RND"] = none := by decide

/-- C43, counterexample: a name as long as the memory loses its last character, and no lack of memory is reported,
file.c:757-767. -/
theorem C43_truncated_violated :
    addTempFileName (writable []) c!"7" c!"m.dat" [] 7 7 [c!"RND"] = some (.success, c!"m-7-RN", []) := by decide

/-- C43, counterexample: when no further random string can be had after a name that is used, an error is reported but the
destination keeps the name of the file which is not a temporary file of this process, file.c:744-746. -/
theorem C43_random_violated (fs : FS) (pid master base «prefix» r : CStr) (cap length : Nat)
    (hb : getBasename master 4096 = some (.success, base)) (hcap : length ≤ cap)
    (h1 : (tempName base pid r).length < length) (h2 : fs.file («prefix» ++ tempName base pid r) ≠ none) :
    addTempFileName fs pid master «prefix» cap length [r] = some (.tempFileError, «prefix» ++ tempName base pid r, []) := by
  have hb' : getBasename master maxPath = some (.success, base) := hb
  rw [addTempFileName, hb']
  have hs := snprintf_fits (cap := cap) h1 (by omega)
  simp only [tempName] at hs h1 h2 ⊢
  rw [tempNameLoop]
  rw [hs]
  simp only
  rw [if_neg (by omega), if_pos (Option.isSome_iff_ne_none.2 h2), tempNameLoop]

example : ∃ fs : FS, ∃ base, getBasename c!"m.dat" 4096 = some (.success, base) ∧
    fs.file (c!"a/" ++ tempName base c!"7" c!"RND") ≠ none :=
  ⟨{ writable [] with file := fun p => if p = c!"a/m-7-RND" then some [] else none }, c!"m", by decide, by decide⟩

example : Fresh (writable [c!"b/"]) ([c!"a"] ++ [c!"b"]) ([c!"RND", c!"STR"].map (tempName c!"m" c!"7")) 7 :=
  ⟨by decide, by decide, by decide⟩

example : Usable (writable [c!"b/"]) ([c!"RND", c!"STR"].map (tempName c!"m" c!"7")) c!"xyz" c!"b" := by
  intro n hn
  refine ⟨?_, fun r hr => (nomatch hr)⟩
  simp [writable, withSlash, isSlash, List.isPrefixOf]

example : (createTempFile (writable [c!"b/"]) c!"m.dat" [c!"a", c!"b", c!"b/c"] [c!"RND", c!"STR", c!"ING"]).map (·.2) =
    some (.success, some c!"b/STR") := by decide

end Verif.File
