import Verif.Work.Model
import Mathlib.Tactic.ByContra

/-! # The working file of a data set, C70, and whole files, C71 -/

namespace Verif.Work

open Verif.File

/-! ## Lemmas -/

theorem tempNameLoop_spec (fs : FS) (pid base pre : CStr) (cap length : Nat) : ∀ (random : List CStr) (dest : CStr) (r),
    tempNameLoop fs pid base pre cap length dest random = some r →
    (r.1 = .success → fs.file r.2.1 = none) ∧ (r.1 ≠ .success → r.1 ≠ .tempFileError → r.2.1 = pre) := by
  intro random
  induction random with
  | nil => intro dest r h; rw [tempNameLoop] at h; cases h; simp
  | cons x random ih =>
    intro dest r h
    rw [tempNameLoop] at h
    split at h
    · cases h
    · split at h
      · split at h
        · cases h; simp
        · cases h
      · split at h
        · exact ih _ _ h
        · rename_i hn
          cases h
          simp only [ne_eq, not_true_eq_false, false_imp_iff, and_true]
          intro _
          cases he : fs.file (pre ++ _) with
          | none => rfl
          | some _ => rw [he] at hn; exact absurd rfl hn

theorem addTempFileName_spec {fs : FS} {pid master pre : CStr} {cap length : Nat} {random : List CStr} {r}
    (h : addTempFileName fs pid master pre cap length random = some r) :
    (r.1 = .success → fs.file r.2.1 = none) ∧ (r.1 ≠ .success → r.1 ≠ .tempFileError → r.2.1 = pre) := by
  rw [addTempFileName] at h
  split at h
  · cases h
  · exact tempNameLoop_spec _ _ _ _ _ _ _ _ _ h
  · rename_i hne _
    cases h
    exact ⟨fun e => absurd e hne, fun _ _ => rfl⟩

/-- A copy to a name which is not used leaves nothing behind if it fails. -/
theorem copy_fail {fs : FS} {s d : CStr} (hd : fs.canDelete d = true) (hn : fs.file d = none)
    (h : (fs.copy s d).2 ≠ .success) : (fs.copy s d).1.file d = none := by
  rw [FS.copy] at h ⊢
  split
  · exact hn
  · rename_i hs
    rw [hs] at h
    simp only at h ⊢
    cases hw : fs.canWrite d with
    | false => simpa [hw] using hn
    | true =>
      simp only [hw, if_true] at h ⊢
      split
      · rename_i hr; rw [if_pos hr] at h; exact absurd rfl h
      · rw [FS.delete, if_pos ⟨hd, by simp [FS.set]⟩]
        simp [FS.set]

/-- What a step that makes a temporary file does: no file that was there is changed, and a name given is a new one. -/
structure Step (master : CStr) (fs fs' : FS) (st : Status) (dest : CStr) : Prop where
  keeps : ∀ q, fs.file q ≠ none → fs'.file q = fs.file q
  like : fs.Like fs'
  new : st = .success → fs.file dest = none
  content : ∀ m, fs.Readable master m → st = .success → fs'.file dest = some m
  none : st ≠ .success → st ≠ .tempFileError → dest = []
  only : (∀ q, fs.canDelete q = true) → ∀ q, q ≠ dest → fs'.file q = fs.file q

theorem step_copy {fs : FS} {s d : CStr} (hn : fs.file d = none) :
    Step s fs (fs.copy s d).1 (fs.copy s d).2 (if (fs.copy s d).2 = .success then d else []) := by
  have ho := copy_only fs s d
  refine ⟨fun q hq => ho.1 q (fun e => hq (e ▸ hn)), only_like ho, fun e => by rw [if_pos e, hn], ?_, fun e _ => by rw [if_neg e], ?_⟩
  · intro m hm e
    rw [if_pos e]
    exact copy_success hm (by rintro rfl; rw [hm.1] at hn; cases hn) e
  intro hd q hq
  by_cases e : q = d
  · subst e
    by_cases hs : (fs.copy s q).2 = .success
    · rw [if_pos hs] at hq; exact absurd rfl hq
    · rw [copy_fail (hd q) hn hs, hn]
  · exact ho.1 q e

theorem step_refl (master : CStr) (fs : FS) {st : Status} (h : st ≠ .success) : Step master fs fs st [] :=
  ⟨fun _ _ => rfl, like_refl fs, fun e => absurd e h, fun _ _ e => absurd e h, fun _ _ => rfl, fun _ _ _ => rfl⟩

theorem step_withoutPaths {fs fs' : FS} {pid master dest : CStr} {length : Nat} {random : List CStr} {st : Status}
    (h : createTempFileWithoutPaths fs pid master length random = some (fs', st, dest)) : Step master fs fs' st dest := by
  rw [createTempFileWithoutPaths] at h
  split at h
  · cases h
  · rename_i name _ ha
    have hn := (addTempFileName_spec ha).1 rfl
    have hs := step_copy (s := master) hn
    split at h
    · rename_i hc
      cases h
      rw [hc] at hs
      simpa using hs
    · rename_i hne hc
      cases h
      rw [hc] at hs
      simp only at hs
      rwa [if_neg hne] at hs
  · rename_i hne ha
    cases h
    have := (addTempFileName_spec ha).2
    have hst : st ≠ .success := hne
    exact ⟨fun _ _ => rfl, like_refl fs, fun e => absurd e hst, fun _ _ e => absurd e hst, fun h1 h2 => this h1 h2, fun _ _ _ => rfl⟩

theorem step_inDir {fs fs' : FS} {pid master dir dest : CStr} {length : Nat} {random random' : List CStr} {st : Status}
    (h : tempInDir fs pid master dir length random = some (fs', st, dest, random')) :
    Step master fs fs' st dest ∧ (st ≠ .success → dest = []) := by
  rw [tempInDir] at h
  split at h
  · cases h
  · split at h
    · cases h; exact ⟨step_refl _ fs (by simp), fun _ => rfl⟩
    · split at h
      · cases h
      · rename_i name _ ha
        have hn := (addTempFileName_spec ha).1 rfl
        have hs := step_copy (s := master) hn
        split at h
        · rename_i hc
          cases h
          rw [hc] at hs
          exact ⟨by simpa using hs, fun e => absurd rfl e⟩
        · rename_i hne hc
          cases h
          rw [hc] at hs
          simp only at hs
          rw [if_neg hne] at hs
          exact ⟨hs, fun _ => rfl⟩
      · rename_i hne ha
        cases h
        exact ⟨step_refl _ fs (hne), fun _ => rfl⟩

theorem keeps_trans {a b c : FS} (h1 : ∀ q, a.file q ≠ none → b.file q = a.file q)
    (h2 : ∀ q, b.file q ≠ none → c.file q = b.file q) : ∀ q, a.file q ≠ none → c.file q = a.file q := by
  intro q hq
  rw [h2 q (by rw [h1 q hq]; exact hq), h1 q hq]

/-- No file that was there is changed and a name given is new, but there may be more than one new file. -/
structure Steps (master : CStr) (fs fs' : FS) (st : Status) (dest : CStr) : Prop where
  keeps : ∀ q, fs.file q ≠ none → fs'.file q = fs.file q
  like : fs.Like fs'
  new : st = .success → fs.file dest = none
  content : ∀ m, fs.Readable master m → st = .success → fs'.file dest = some m
  none : st ≠ .success → st ≠ .tempFileError → dest = []

theorem steps_withPaths {pid master : CStr} {length : Nat} : ∀ (dirs : List CStr) {fs fs' : FS} {st0 st : Status} {dest0 dest : CStr}
    {random : List CStr}, dirs ≠ [] →
    createTempFileWithPaths pid master length dirs fs st0 dest0 random = some (fs', st, dest) → Steps master fs fs' st dest := by
  intro dirs
  induction dirs with
  | nil => intro _ _ _ _ _ _ _ h; exact absurd rfl h
  | cons dir dirs ih =>
    intro fs fs' st0 st dest0 dest random _ h
    rw [createTempFileWithPaths] at h
    split at h
    · cases h
    · rename_i fs1 st1 dest1 random1 h1
      obtain ⟨hs, -⟩ := step_inDir h1
      by_cases hd : dirs = []
      · subst hd
        rw [createTempFileWithPaths] at h
        cases h
        exact ⟨hs.keeps, hs.like, hs.new, hs.content, hs.none⟩
      · have h2 := ih hd h
        refine ⟨keeps_trans hs.keeps h2.keeps, like_trans hs.like h2.like, fun e => ?_, fun m hm => h2.content m ?_, h2.none⟩
        rotate_left
        · exact ⟨by rw [hs.keeps master (by rw [hm.1]; simp), hm.1], by rw [hs.like.2.2.2.1]; exact hm.2.1,
            by rw [hs.like.2.2.1]; exact hm.2.2⟩
        have hn := h2.new e
        by_contra hc
        rw [hs.keeps dest hc] at hn
        exact hc hn

theorem steps_new {fs fs' : FS} {pid master dest : CStr} {paths random : List CStr} {length : Nat} {st : Status}
    (h : newTempFile fs pid master paths length random = some (fs', st, dest)) : Steps master fs fs' st dest := by
  rw [newTempFile] at h
  split at h
  · have := step_withoutPaths h
    exact ⟨this.keeps, this.like, this.new, this.content, this.none⟩
  · rename_i hne
    exact steps_withPaths paths hne h

theorem step_new {fs fs' : FS} {pid master dest : CStr} {paths random : List CStr} {length : Nat} {st : Status}
    (hl : paths.length ≤ 1) (h : newTempFile fs pid master paths length random = some (fs', st, dest)) :
    Step master fs fs' st dest := by
  rw [newTempFile] at h
  split at h
  · exact step_withoutPaths h
  · rename_i hne
    match paths, hl, hne with
    | [dir], _, _ =>
      rw [createTempFileWithPaths] at h
      split at h
      · cases h
      · rename_i h1
        rw [createTempFileWithPaths] at h
        cases h
        exact (step_inDir h1).1

theorem init_fresh {fs fs1 : FS} {list : CStr → List CStr} {pid name : CStr} {random : List CStr} {d d1 : DataSet} {bytes : Int}
    {c : Config} {st : Status} (hc : d.config = some c) (hu : c.useTempFile = true) (hr : c.reuseTempFile = false)
    (hl : name.length < 4096) (h : initFromFile fs list pid random d name bytes = some (fs1, st, d1)) :
    newTempFile fs pid name c.tempDirs 4096 random = some (fs1, st, d1.fileName) ∧ d1.config = some c ∧
      d1.masterFileName = name := by
  rw [initFromFile, if_neg (by rw [maxPath]; omega)] at h
  simp only [hc, hu, if_true, initWithTempFile, hr] at h
  rw [Option.map_eq_some_iff] at h
  obtain ⟨⟨a, b, e⟩, h1, h2⟩ := h
  cases h2
  exact ⟨h1, rfl, rfl⟩

theorem delete_file (fs : FS) (p q : CStr) :
    (fs.delete p).1.file q = if q = p ∧ fs.canDelete p = true then none else fs.file q := by
  rw [FS.delete]
  by_cases h : fs.canDelete p = true ∧ fs.file p ≠ none
  · rw [if_pos h]
    by_cases e : q = p
    · simp [FS.set, e, h.1]
    · simp [FS.set, e]
  · rw [if_neg h]
    split
    · rename_i h1
      rw [h1.1]
      by_contra hn
      exact h ⟨h1.2, fun e => hn e⟩
    · rfl

/-! ## C70 -/

/-- C70: without temporary files the data file itself is used, and neither reading it in nor freeing the data set changes
any file. -/
theorem C70_direct (fs : FS) (list : CStr → List CStr) (pid name : CStr) (random : List CStr) (d : DataSet) (bytes : Int)
    (c : Config) (hc : d.config = some c) (hu : c.useTempFile = false) (hl : name.length < 4096) :
    ∃ d1 d2, initFromFile fs list pid random d name bytes = some (fs, .success, d1) ∧ d1.fileName = name ∧
      d1.masterFileName = name ∧ d1.free fs = some (fs, d2) := by
  refine ⟨{ d with fileName := name, masterFileName := name },
    { d with fileName := name, masterFileName := name, memory := none }, ?_, rfl, rfl, ?_⟩
  · rw [initFromFile, if_neg (by rw [maxPath]; omega)]
    simp [hc, hu]
  · simp [DataSet.free, hc, hu]

/-- C70: the name of a data file that does not fit is refused and nothing is changed. -/
theorem C70_long (fs : FS) (list : CStr → List CStr) (pid name : CStr) (random : List CStr) (d : DataSet) (bytes : Int)
    (hl : 4096 ≤ name.length) : initFromFile fs list pid random d name bytes = some (fs, .filePathTooLong, d) := by
  rw [initFromFile, if_pos (by rw [maxPath]; omega)]

/-- C70: with a temporary file, whatever happens, no file that was there before is changed, neither by the initialisation
nor when the data set is freed. The working file is a new one, and it has the contents of a data file
that can be read. Missing: reuse
of temporary files, see `C70_backup_violated`, and random names that cannot be had, see `C70_random_violated`. -/
theorem C70_keeps_partial (fs fs1 fs2 : FS) (list : CStr → List CStr) (pid name : CStr) (random : List CStr) (d d1 d2 : DataSet)
    (bytes : Int) (c : Config) (st : Status) (hc : d.config = some c) (hu : c.useTempFile = true) (hr : c.reuseTempFile = false)
    (hl : name.length < 4096) (he : fs.file [] = none)
    (h : initFromFile fs list pid random d name bytes = some (fs1, st, d1)) (ht : st ≠ .tempFileError)
    (h2 : d1.free fs1 = some (fs2, d2)) :
    (∀ q, fs.file q ≠ none → fs1.file q = fs.file q ∧ fs2.file q = fs.file q) ∧
    (st = .success → fs.file d1.fileName = none ∧ (∀ m, fs.Readable name m → fs1.file d1.fileName = some m) ∧
      (fs.canDelete d1.fileName = true → fs2.file d1.fileName = none)) := by
  obtain ⟨h1, hc1, -⟩ := init_fresh hc hu hr hl h
  have hs := steps_new h1
  simp only [DataSet.free, hc1, hu, if_true, Option.some.injEq, Prod.mk.injEq] at h2
  have hdel := hs.like.2.2.2.2
  have hnew : fs.file d1.fileName = none := by
    by_cases hst : st = .success
    · exact hs.new hst
    · rw [hs.none hst ht, he]
  refine ⟨fun q hq => ⟨hs.keeps q hq, ?_⟩, fun hst => ⟨hnew, fun m hm => hs.content m hm hst, fun hd => ?_⟩⟩
  · rw [← h2.1, delete_file, if_neg, hs.keeps q hq]
    rintro ⟨rfl, -⟩
    exact hq hnew
  · rw [← h2.1, delete_file, if_pos ⟨rfl, by rw [hdel]; exact hd⟩]

/-- C70: with at most one directory for temporary files, once the data set has been freed all files are as they were
before, whether or not the initialisation succeeded. Missing: more directories, see `C70_left_violated`. -/
theorem C70_restored_partial (fs fs1 fs2 : FS) (list : CStr → List CStr) (pid name : CStr) (random : List CStr)
    (d d1 d2 : DataSet) (bytes : Int) (c : Config) (st : Status) (hc : d.config = some c) (hu : c.useTempFile = true)
    (hr : c.reuseTempFile = false) (hdirs : c.tempDirs.length ≤ 1) (hl : name.length < 4096) (he : fs.file [] = none)
    (hdel : ∀ p, fs.canDelete p = true) (h : initFromFile fs list pid random d name bytes = some (fs1, st, d1))
    (ht : st ≠ .tempFileError) (h2 : d1.free fs1 = some (fs2, d2)) : fs2.file = fs.file := by
  obtain ⟨h1, hc1, -⟩ := init_fresh hc hu hr hl h
  have hs := step_new hdirs h1
  simp only [DataSet.free, hc1, hu, if_true, Option.some.injEq, Prod.mk.injEq] at h2
  have hd2 := hs.like.2.2.2.2
  have hnew : fs.file d1.fileName = none := by
    by_cases hst : st = .success
    · exact hs.new hst
    · rw [hs.none hst ht, he]
  funext q
  rw [← h2.1, delete_file]
  by_cases e : q = d1.fileName
  · rw [if_pos ⟨e, by rw [hd2]; exact hdel _⟩, e, hnew]
  · rw [if_neg (fun h => e h.1), hs.only hdel q e]

/-- C70: when a file can be written in the last of the directories, the working file of the data set is in it, and has the
contents of the data file. Missing: the other directories, see `C70_left_violated`. -/
theorem C70_copy_partial (fs : FS) (list : CStr → List CStr) (pid name base content last : CStr) (dirs random : List CStr)
    (len : Nat) (d : DataSet) (bytes : Int) (c : Config) (hc : d.config = some c) (hu : c.useTempFile = true)
    (hr : c.reuseTempFile = false) (hdirs : c.tempDirs = dirs ++ [last]) (hl : name.length < 4096)
    (hm : fs.Readable name content) (hb : getBasename (getNameFromPath name) 4096 = some (.success, base))
    (hf : Fresh fs (dirs ++ [last]) (random.map (tempName base pid)) len)
    (hfit : ∀ d ∈ dirs ++ [last], ∀ r ∈ random, (withSlash d).length + (tempName base pid r).length + 1 < 4096)
    (hlen : dirs.length < random.length) (hus : Usable fs (random.map (tempName base pid)) content last) :
    ∃ fs1 n d1, initFromFile fs list pid random d name bytes = some (fs1, .success, d1) ∧
      d1.fileName = withSlash last ++ n ∧ d1.masterFileName = name ∧ fs1.file d1.fileName = some content := by
  obtain ⟨fs1, n, h1, h2⟩ := C43_temp_partial fs pid name base content last dirs random 4096 len hm hb (by decide) hf hfit hlen hus
  refine ⟨fs1, n, { d with fileName := withSlash last ++ n, masterFileName := name }, ?_, rfl, rfl, h2⟩
  rw [initFromFile, if_neg (by rw [maxPath]; omega)]
  simp only [hc, hu, if_true, initWithTempFile, hr, hdirs]
  rw [show newTempFile fs pid name (dirs ++ [last]) maxPath random = _ from h1]
  rfl

/-- C70: when a copy of the data file is in the first directory and may be reused, no file is changed by the
initialisation, and the working file is a copy of the data file but not the data file. Missing: other directories, and
whose file it is, see `C70_backup_violated`. -/
theorem C70_reuse_partial (fs : FS) (list : CStr → List CStr) (pid name mname stem first content e : CStr) (rest random : List CStr)
    (d : DataSet) (bytes : Int) (c : Config) (hc : d.config = some c) (hu : c.useTempFile = true)
    (hr : c.reuseTempFile = true) (hdirs : c.tempDirs = first :: rest) (hl : name.length < 4096)
    (hm : Last name mname) (hs : Stem mname stem) (hdot : (46 : UInt8) ∈ mname ∨ (46 : UInt8) ∉ name)
    (hstem : stem.length < 4096) (hdir : first.length < 4096)
    (hl2 : ∀ e ∈ list first, (withSlash first ++ e).length < 4096) (hcont : fs.file name = some content) (hne : content ≠ [])
    (hb : bytes < 0) (hmem : e ∈ list first) (hcopy : IsCopy fs name stem bytes (withSlash first ++ e)) :
    ∃ d1, initFromFile fs list pid random d name bytes = some (fs, .success, d1) ∧ d1.masterFileName = name ∧
      d1.fileName ≠ name ∧ fs.file d1.fileName = some content := by
  obtain ⟨r, h1, h2, h3⟩ := C57_existing_partial fs list name mname stem first rest bytes hm hs hdot (by omega) hstem
    (.inl (by omega)) hdir hl2
  cases r with
  | none => exact absurd hcopy (h3 rfl e hmem)
  | some p =>
    obtain ⟨-, hp⟩ := h2 p rfl
    obtain ⟨h5, h6⟩ := C57_same hp hcont hne (.inl hb)
    refine ⟨{ d with fileName := p, masterFileName := name }, ?_, rfl, h6, h5⟩
    rw [initFromFile, if_neg (by rw [maxPath]; omega)]
    simp only [hc, hu, if_true, initWithTempFile, hr, hdirs, h1]
    rfl

/-! ### Counterexamples -/

/-- A data set that was reset and given a configuration. -/
def new (c : Config) : DataSet := { reset with config := some c }

/-- C70, counterexample: of two data sets that reuse one temporary file, the first one freed deletes the file of the
other, dataset.c:98-100. -/
theorem C70_shared_violated :
    let c : Config := ⟨true, true, [c!"t"]⟩
    let fs := withFiles [(c!"m.dat", c!"xyz"), (c!"t/m-7-RND", c!"xyz")]
    let list := fun d => if d = c!"t" then [c!"m-7-RND"] else []
    ∃ d1 d2, initFromFile fs list c!"7" [c!"STR"] (new c) c!"m.dat" (-1) = some (fs, .success, d1) ∧
      initFromFile fs list c!"8" [c!"ING"] (new c) c!"m.dat" (-1) = some (fs, .success, d2) ∧
      (d1.free fs).map (fun r => r.1.file d2.fileName) = some none ∧ fs.file d2.fileName = some c!"xyz" := by
  intro c fs list
  refine ⟨{ new c with fileName := c!"t/m-7-RND", masterFileName := c!"m.dat" },
    { new c with fileName := c!"t/m-7-RND", masterFileName := c!"m.dat" }, ?_, ?_, by decide, by decide⟩
  all_goals
    rw [initFromFile, if_neg (by decide)]
    simp only [new, c, if_true, initWithTempFile, fs, list]
    rw [show getExistingTempFile _ _ _ _ _ = some (some c!"t/m-7-RND") by decide]
    rfl

/-- C70, counterexample: a backup of the data file, made by the user in the directory for temporary files, is taken for a
temporary file and deleted when the data set is freed. -/
theorem C70_backup_violated :
    let c : Config := ⟨true, true, [c!"t"]⟩
    let fs := withFiles [(c!"m.dat", c!"xyz"), (c!"t/m.dat.bak", c!"xyz")]
    let list := fun d => if d = c!"t" then [c!"m.dat.bak"] else []
    ∃ d1, initFromFile fs list c!"7" [c!"STR"] (new c) c!"m.dat" (-1) = some (fs, .success, d1) ∧
      (d1.free fs).map (fun r => r.1.file c!"t/m.dat.bak") = some none := by
  intro c fs list
  refine ⟨{ new c with fileName := c!"t/m.dat.bak", masterFileName := c!"m.dat" }, ?_, by decide⟩
  rw [initFromFile, if_neg (by decide)]
  simp only [new, c, if_true, initWithTempFile, fs, list]
  rw [show getExistingTempFile _ _ _ _ _ = some (some c!"t/m.dat.bak") by decide]
  rfl

/-- C70, counterexample: with two directories a copy of the data file is left in the first one for ever. -/
theorem C70_left_violated :
    ((initFromFile (writable [c!"a/", c!"b/"]) (fun _ => []) c!"7" [c!"RND", c!"STR"] (new ⟨true, false, [c!"a", c!"b"]⟩)
      c!"m.dat" (-1)).bind fun r => (r.2.2.free r.1).map fun s => (r.2.1, r.2.2.fileName, s.1.file c!"a/m-7-RND")) =
      some (.success, c!"b/m-7-STR", some c!"xyz") := by decide

/-- C70, counterexample: when no second random name can be had, the data set is left with the name of a file that is not
its own, which is deleted when it is freed. -/
theorem C70_random_violated :
    let fs := withFiles [(c!"m.dat", c!"xyz"), (c!"m-7-RND", c!"abc")]
    ((initFromFile fs (fun _ => []) c!"7" [c!"RND"] (new ⟨true, false, []⟩) c!"m.dat" (-1)).bind fun r =>
      (r.2.2.free r.1).map fun s => (r.2.1, r.1.file c!"m-7-RND", s.1.file c!"m-7-RND")) =
      some (.tempFileError, some c!"abc", none) := by decide

/-- C70: a data set that has been reset has no configuration, no files and no memory, whatever it had before; so what has been
given a configuration and is freed at once leaves every file with a name as it was. -/
theorem C70_reset (fs : FS) (c : Config) (q : CStr) (hq : q ≠ []) :
    reset.config = none ∧ reset.fileName = [] ∧ reset.masterFileName = [] ∧ reset.memory = none ∧
    ∃ fs' d, ({ reset with config := some c } : DataSet).free fs = some (fs', d) ∧ fs'.file q = fs.file q := by
  refine ⟨rfl, rfl, rfl, rfl, ?_⟩
  simp only [DataSet.free]
  by_cases h : c.useTempFile = true
  · rw [if_pos h]
    refine ⟨_, _, rfl, ?_⟩
    have : q ≠ reset.fileName := hq
    rw [FS.delete]
    split
    · simp [FS.set, this]
    · rfl
  · rw [if_neg h]
    exact ⟨_, _, rfl, rfl⟩

/-- C70, counterexample: a data set that was only reset cannot be freed, as its configuration is read, dataset.c:98. -/
theorem C70_reset_violated (fs : FS) : reset.free fs = none := rfl

example : ∃ c : Config, c.useTempFile = true ∧ c.reuseTempFile = false ∧ c.tempDirs.length ≤ 1 ∧
    ((initFromFile (writable [c!"a/"]) (fun _ => []) c!"7" [c!"RND"] (new c) c!"m.dat" (-1)).bind fun r =>
      (r.2.2.free r.1).map fun s => (r.2.1, r.1.file c!"a/m-7-RND", s.1.file c!"a/m-7-RND")) =
      some (.success, some c!"xyz", none) :=
  ⟨⟨true, false, [c!"a"]⟩, by decide⟩

/-- The hypotheses of `C70_reuse_partial` can be met. -/
example : IsCopy (withFiles [(c!"m.dat", c!"xyz"), (c!"t/m-7-RND", c!"xyz")]) c!"m.dat" c!"m" (-1) (withSlash c!"t" ++ c!"m-7-RND") := by
  refine ⟨c!"xyz", c!"xyz", c!"m-7-RND", c!"m.dat", by decide, by decide, ⟨.inr rfl, by decide, by decide⟩, ?_, ?_, ?_, by decide⟩
  · exact (C43_name _ _).1 (by decide)
  · exact (C43_name _ _).1 (by decide)
  · exact ⟨c!"-7-RND", rfl⟩

/-! ## C71 -/

/-- C71: reading a whole file gives its contents. It succeeds exactly when the file is there, can be positioned and read to
the end, is not empty, and memory can be had; then what tracking counts grows by its size. Otherwise no memory is given.
Missing: empty files, see `C71_empty_violated`, and the tracked memory after a failure, see `C71_tracking_violated`. -/
theorem C71_read_partial (fs : FS) (p : CStr) (malloc : Bool) (tracked : Nat) :
    let r := readToByteArray fs p malloc tracked
    (r.1 = .success ↔ ∃ c, fs.file p = some c ∧ c ≠ [] ∧ fs.canSeek p = true ∧ Enough (fs.readLimit p) c.length ∧ malloc = true) ∧
    (r.1 = .success → r.2.1 = fs.file p ∧ ∀ c, fs.file p = some c → r.2.2 = tracked + c.length) ∧
    (r.1 ≠ .success → r.2.1 = none) ∧
    (r.1 = .fileNotFound ↔ fs.file p = none) ∧
    (r.1 = .insufficientMemory ↔ fs.file p ≠ none ∧ ¬ (malloc = true ∧ fs.canSeek p = true)) := by
  intro r
  simp only [r, readToByteArray]
  cases hf : fs.file p with
  | none => simp
  | some c =>
    simp only
    have hlim : (limited (fs.readLimit p) c).length = c.length ↔ Enough (fs.readLimit p) c.length := by
      cases fs.readLimit p with
      | none => simp [limited, Enough]
      | some n =>
        simp only [limited, Enough, List.length_take, Option.some.injEq, forall_eq']
        omega
    by_cases h1 : malloc = true ∧ fs.canSeek p = true
    · rw [if_pos h1]
      by_cases h2 : c ≠ [] ∧ (limited (fs.readLimit p) c).length = c.length
      · rw [if_pos h2]
        simp [h1.1, h1.2, h2.1, hlim.1 h2.2]
      · rw [if_neg h2]
        have h3 : ¬ (c ≠ [] ∧ Enough (fs.readLimit p) c.length) := fun h => h2 ⟨h.1, hlim.2 h.2⟩
        simp only [h1.1, h1.2]
        simp
        intro h h'
        exact h3 ⟨h, h'⟩
    · rw [if_neg h1]
      simp
      refine ⟨fun _ h _ => by cases malloc with | false => rfl | true => exact absurd ⟨rfl, h⟩ h1, fun hm => ?_⟩
      cases hseek : fs.canSeek p with
      | false => rfl
      | true => exact absurd ⟨hm, hseek⟩ h1

/-- C71, counterexample: an empty file that can be read is reported as a failure, file.c:1066. -/
theorem C71_empty_violated : readToByteArray (withFiles [(c!"e", [])]) c!"e" true 0 = (.fileFailure, none, 0) := by decide

/-- C71, counterexample: whenever the read fails, the memory that was given back is still counted as allocated, as it is
not given back by way of tracking, file.c:1070. -/
theorem C71_tracking_violated (fs : FS) (p c : CStr) (n tracked : Nat) (h : fs.file p = some c) (hs : fs.canSeek p = true)
    (hr : fs.readLimit p = some n) (hn : n < c.length) :
    readToByteArray fs p true tracked = (.fileFailure, none, tracked + c.length) := by
  simp only [readToByteArray, h, hs, hr, limited, and_self, if_true]
  rw [if_neg]
  rw [List.length_take]
  omega

example : (sample (some 2) true).file c!"a" = some c!"xyz" ∧ (sample (some 2) true).canSeek c!"a" = true ∧
    (sample (some 2) true).readLimit c!"a" = some 2 := by decide

/-- C71: writing a file changes no other file. It succeeds exactly when the file can be opened for writing and there is
room for the data, which must not be empty, and then the file has just the data. When it cannot be opened it is as before.
Missing: empty data, see `C71_write_empty_violated`, and a lack of room, see `C71_write_left_violated`. -/
theorem C71_write_partial (fs : FS) (p data : CStr) :
    let r := write fs p data
    (∀ q, q ≠ p → r.1.file q = fs.file q) ∧
    (r.2 = .success ↔ data ≠ [] ∧ fs.canWrite p = true ∧ Enough (fs.room p) data.length) ∧
    (r.2 = .success → r.1.file p = some data) ∧
    (fs.canWrite p = false → r = (fs, .fileWriteError)) := by
  intro r
  simp only [r, write]
  have hlim : (limited (fs.room p) data).length = data.length ↔ Enough (fs.room p) data.length := by
    cases fs.room p with
    | none => simp [limited, Enough]
    | some n =>
      simp only [limited, Enough, List.length_take, Option.some.injEq, forall_eq']
      omega
  have heq : Enough (fs.room p) data.length → limited (fs.room p) data = data := by
    intro h
    cases hr : fs.room p with
    | none => rfl
    | some n =>
      rw [limited]
      exact List.take_of_length_le (h n hr)
  cases hw : fs.canWrite p with
  | false => simp
  | true =>
    simp only [if_true]
    refine ⟨fun q hq => by simp [FS.set, hq], ?_, ?_, by simp⟩
    · split
      · rename_i h; simp [h.1, hlim.1 h.2]
      · rename_i h
        simp only [reduceCtorEq, false_iff]
        rintro ⟨h1, -, h2⟩
        exact h ⟨h1, hlim.2 h2⟩
    · intro h
      split at h
      · rename_i h1
        rw [set_self, heq (hlim.1 h1.2)]
      · cases h

/-- C71: what has been written is read. -/
theorem C71_roundtrip (fs : FS) (p data : CStr) (tracked : Nat) (hs : fs.canSeek p = true) (hr : fs.readLimit p = none)
    (h : (write fs p data).2 = .success) :
    readToByteArray (write fs p data).1 p true tracked = (.success, some data, tracked + data.length) := by
  obtain ⟨-, h2, h3, -⟩ := C71_write_partial fs p data
  have hne := (h2.1 h).1
  have hf := h3 h
  have hw := (h2.1 h).2.1
  have e1 : (write fs p data).1.canSeek p = true := by simp [write, hw, FS.set, hs]
  have e2 : (write fs p data).1.readLimit p = none := by simp [write, hw, FS.set, hr]
  simp [readToByteArray, hf, e1, e2, limited, hne]

/-- C71, counterexample: writing nothing makes the file empty, as asked, but is reported as a failure, file.c:587. -/
theorem C71_write_empty_violated (fs : FS) (p : CStr) (h : fs.canWrite p = true) (hr : fs.room p = none) :
    (write fs p []).2 = .fileFailure ∧ (write fs p []).1.file p = some [] := by
  simp [write, h, hr, limited, FS.set]

/-- C71, counterexample: when there is not enough room a part of the data is left in the file, and what was there before
is lost. -/
theorem C71_write_left_violated (fs : FS) (p data : CStr) (n : Nat) (h : fs.canWrite p = true) (hr : fs.room p = some n)
    (hn : n < data.length) :
    (write fs p data).2 = .fileFailure ∧ (write fs p data).1.file p = some (data.take n) := by
  simp only [write, h, hr, limited, FS.set, if_true, and_true]
  rw [if_neg]
  rw [List.length_take]
  omega

example : ∃ fs : FS, (write fs c!"a" c!"xyz").2 = .success ∧ fs.file c!"a" ≠ none :=
  ⟨withFiles [(c!"a", c!"b")], by decide, by decide⟩

/-- C71: a data set is in memory exactly when its working file has been read, and then it has the contents of the file. -/
theorem C71_memory (fs : FS) (d : DataSet) (malloc : Bool) (tracked : Nat) :
    let r := initInMemory fs d malloc tracked
    r.1 = (readToByteArray fs d.fileName malloc tracked).1 ∧
    (r.1 = .success → r.2.1 = { d with memory := fs.file d.fileName }) ∧ (r.1 ≠ .success → r.2.1 = d) := by
  intro r
  have h := (C71_read_partial fs d.fileName malloc tracked).2.1
  simp only [r, initInMemory]
  split
  · rename_i e
    rw [e] at h ⊢
    simp only at h ⊢
    have := (h trivial).1
    simp [this]
  · rename_i hne e
    rw [e]
    exact ⟨rfl, fun h => absurd h hne, fun _ => rfl⟩

/-- C71: a pool of readers is initialised exactly when files are asked for, memory can be had, the file is there and not
empty, and it can be opened that often. Then that many files are open and the length is that of the file. Otherwise the
number of open files, which are to be closed with the pool, is at most that. Missing: files that cannot be positioned, see
`C71_pool_violated`. -/
theorem C71_pool_partial (fs : FS) (p : CStr) (concurrency limit : Nat) (malloc : Bool) (hs : fs.canSeek p = true) :
    let r := poolInit fs p concurrency limit malloc
    (r.1 = .success ↔ 0 < concurrency ∧ concurrency ≤ limit ∧ malloc = true ∧ ∃ c, fs.file p = some c ∧ c ≠ []) ∧
    (r.1 = .success → r.2.1 = concurrency ∧ ∀ c, fs.file p = some c → r.2.2 = c.length) ∧
    r.2.1 ≤ concurrency ∧ (r.1 = .invalidConfig ↔ concurrency = 0) := by
  intro r
  simp only [r, poolInit]
  by_cases h0 : concurrency = 0
  · simp [h0]
  rw [if_neg h0]
  cases malloc with
  | false => simp [h0]
  | true =>
    simp only [if_true]
    cases hf : fs.file p with
    | none => simp [h0]
    | some c =>
      simp only [hs, if_true]
      by_cases hl : openFiles concurrency limit < concurrency
      · rw [if_pos hl]
        simp only [openFiles] at hl ⊢
        refine ⟨?_, by simp, by omega, by simp [h0]⟩
        simp only [reduceCtorEq, false_iff]
        omega
      · rw [if_neg hl]
        simp only [openFiles] at hl
        have hll : concurrency ≤ limit := by omega
        by_cases hc : c = []
        · simp [hc, h0]
        · have hcl : (c.length : Int) ≠ 0 := by
            have := List.length_pos_iff.2 hc
            omega
          rw [if_neg hcl]
          simp [hc, h0, hll]
          omega

/-- C71, counterexample: for a file that cannot be positioned, a length of -1 is set and success reported,
file.c:81-86, 977. -/
theorem C71_pool_violated (fs : FS) (p c : CStr) (concurrency limit : Nat) (h : fs.file p = some c) (hs : fs.canSeek p = false)
    (h0 : 0 < concurrency) (hl : concurrency ≤ limit) :
    poolInit fs p concurrency limit true = (.success, concurrency, -1) := by
  simp only [poolInit, h, hs, if_true]
  rw [if_neg (by omega), if_neg (by rw [openFiles]; omega)]
  rfl

example : (sample none true).canSeek c!"a" = true ∧ poolInit (sample none true) c!"a" 4 10 true = (.success, 4, 3) ∧
    poolInit (sample none true) c!"a" 4 2 true = (.fileNotFound, 2, 0) ∧ (sample none false).canSeek c!"a" = false := by decide

end Verif.Work
