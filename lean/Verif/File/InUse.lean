import Verif.File.Existing

/-! # C85: files in use

`isFileInUse` looks through the descriptors of all processes, as `/proc` shows them, for the path of a file. -/

namespace Verif.File

/-! ## Model -/

/-- An entry of `/proc`: the links in its directory `fd` (without `.` and `..`), or `none` if that cannot be opened, which
is so for all entries that are not processes, and for the processes of other users. A link is what it points to, or `none`
if that cannot be had. -/
structure Entry where
  links : Option (List (Option CStr))
deriving DecidableEq, Repr

/-- The inner loop of `isFileInUse`, file.c:505-529, over the links: whether one matches. `readlink` gives at most
`FILE_MAX_PATH` bytes, and `linkPath[written]` is outside of the array when it gives as many. The paths put together in
file.c:502 and 511-516 are taken to fit, as the names of processes and descriptors are numbers. -/
def linksMatch (path : CStr) : List (Option CStr) → UB Bool
  | [] => some false
  | none :: rest => linksMatch path rest
  | some target :: rest =>
    if (target.take maxPath).length < maxPath then
      let link := target.take maxPath
      if path.length ≤ link.length ∧ link.drop (link.length - path.length) = path then some true
      else linksMatch path rest
    else none

/-- The outer loop of `isFileInUse`, file.c:498-532. `closedir` is called even if the directory was not opened; `lenient`
says whether the library accepts that (glibc returns an error, others crash). -/
def procLoop (lenient : Bool) (path : CStr) : List Entry → UB Bool
  | [] => some false
  | e :: rest =>
    match e.links with
    | some links =>
      match linksMatch path links with
      | none => none
      | some true => some true
      | some false => procLoop lenient path rest
    | none => if lenient then procLoop lenient path rest else none

/-- `isFileInUse`, file.c:488-540; `proc` is what is in `/proc`, or `none` if it cannot be opened. -/
def isFileInUse (lenient : Bool) (proc : Option (List Entry)) (path : CStr) : UB Bool :=
  match proc with
  | some entries => procLoop lenient path entries
  | none => some true

/-! ## Specification -/

/-- A process whose descriptors can be seen has something open that the system calls `target`. -/
def Open (entries : List Entry) (target : CStr) : Prop :=
  ∃ e ∈ entries, ∃ links, e.links = some links ∧ some target ∈ links

/-- No link is longer than what there is room for with its terminator. -/
def Short (entries : List Entry) : Prop := ∀ t, Open entries t → t.length < 4096

/-! ## Proofs -/

theorem linksMatch_spec (path : CStr) : ∀ links : List (Option CStr), (∀ t, some t ∈ links → t.length < 4096) →
    ∃ r, linksMatch path links = some r ∧ (r = true ↔ ∃ t, some t ∈ links ∧ path <:+ t) := by
  intro links
  induction links with
  | nil => intro _; exact ⟨false, rfl, by simp⟩
  | cons x rest ih =>
    intro hs
    obtain ⟨r, h1, h2⟩ := ih fun t ht => hs t (List.mem_cons_of_mem _ ht)
    cases x with
    | none =>
      refine ⟨r, h1, h2.trans ?_⟩
      constructor
      · rintro ⟨t, ht, hp⟩; exact ⟨t, List.mem_cons_of_mem _ ht, hp⟩
      · rintro ⟨t, ht, hp⟩
        rcases List.mem_cons.1 ht with h | h
        · cases h
        · exact ⟨t, h, hp⟩
    | some target =>
      have hl : target.length < maxPath := hs target (by simp)
      have ht : target.take maxPath = target := List.take_of_length_le (by omega)
      rw [linksMatch]
      simp only [ht]
      rw [if_pos hl]
      have hsuf : (path.length ≤ target.length ∧ target.drop (target.length - path.length) = path) ↔ path <:+ target := by
        constructor
        · rintro ⟨-, h⟩; rw [← h]; exact List.drop_suffix _ _
        · intro h; exact ⟨h.length_le, (List.suffix_iff_eq_drop.1 h).symm⟩
      by_cases hm : path <:+ target
      · rw [if_pos (hsuf.2 hm)]
        exact ⟨true, rfl, by simp only [true_iff]; exact ⟨target, by simp, hm⟩⟩
      · rw [if_neg (fun h => hm (hsuf.1 h))]
        refine ⟨r, h1, h2.trans ?_⟩
        constructor
        · rintro ⟨t, ht, hp⟩; exact ⟨t, List.mem_cons_of_mem _ ht, hp⟩
        · rintro ⟨t, ht, hp⟩
          rcases List.mem_cons.1 ht with h | h
          · cases h; exact absurd hp hm
          · exact ⟨t, h, hp⟩

theorem procLoop_spec (path : CStr) : ∀ entries : List Entry, Short entries →
    ∃ r, procLoop true path entries = some r ∧ (r = true ↔ ∃ t, Open entries t ∧ path <:+ t) := by
  intro entries
  induction entries with
  | nil => intro _; exact ⟨false, rfl, by simp [Open]⟩
  | cons e rest ih =>
    intro hs
    have up : ∀ t, Open rest t → Open (e :: rest) t := by
      rintro t ⟨e', he, l, h⟩; exact ⟨e', List.mem_cons_of_mem _ he, l, h⟩
    obtain ⟨r, h1, h2⟩ := ih fun t ht => hs t (up t ht)
    cases hl : e.links with
    | none =>
      refine ⟨r, by rw [procLoop, hl]; exact h1, h2.trans ?_⟩
      constructor
      · rintro ⟨t, ht, hp⟩; exact ⟨t, up t ht, hp⟩
      · rintro ⟨t, ⟨e', he, l, h⟩, hp⟩
        rcases List.mem_cons.1 he with rfl | he
        · rw [hl] at h; cases h.1
        · exact ⟨t, ⟨e', he, l, h⟩, hp⟩
    | some links =>
      obtain ⟨r', g1, g2⟩ := linksMatch_spec path links fun t ht => hs t ⟨e, by simp, links, hl, ht⟩
      cases r' with
      | true =>
        refine ⟨true, by rw [procLoop, hl]; simp only [g1], ?_⟩
        simp only [true_iff]
        obtain ⟨t, ht, hp⟩ := g2.1 rfl
        exact ⟨t, ⟨e, by simp, links, hl, ht⟩, hp⟩
      | false =>
        refine ⟨r, by rw [procLoop, hl]; simp only [g1]; exact h1, h2.trans ?_⟩
        constructor
        · rintro ⟨t, ht, hp⟩; exact ⟨t, up t ht, hp⟩
        · rintro ⟨t, ⟨e', he, l, h⟩, hp⟩
          rcases List.mem_cons.1 he with rfl | he
          · rw [hl] at h
            cases h.1
            exact absurd (g2.2 ⟨t, h.2, hp⟩) (by simp)
          · exact ⟨t, ⟨e', he, l, h⟩, hp⟩

/-! ## C85 -/

/-- C85: a file is said to be in use exactly when its path is the end of that of something a process has open; so one that
is open under the very path asked for is. Missing: that nothing else is (`C85_suffix_violated`), files asked for by a
path that is not the one the system has (`C85_relative_violated`), links too long for the array
(`C85_long_violated`) and libraries that do not accept `closedir(NULL)` (`C85_null_violated`). -/
theorem C85_inUse_partial (entries : List Entry) (hs : Short entries) (path : CStr) :
    ∃ r, isFileInUse true (some entries) path = some r ∧ (r = true ↔ ∃ t, Open entries t ∧ path <:+ t) ∧
      (Open entries path → r = true) := by
  obtain ⟨r, h1, h2⟩ := procLoop_spec path entries hs
  exact ⟨r, h1, h2, fun h => h2.2 ⟨path, h, List.suffix_refl path⟩⟩

/-- C85: where the processes cannot be looked at, every file is said to be in use. -/
theorem C85_unknown (lenient : Bool) (path : CStr) : isFileInUse lenient none path = some true := rfl

/-- Processes: one entry that is not a process, one with a pipe, a closed link and a data file. -/
def somebody : List Entry :=
  [⟨none⟩, ⟨some [some c!"pipe:[17]", none, some c!"/home/me/tmp/m-1-A"]⟩, ⟨some []⟩]

theorem somebody_short : Short somebody := by
  rintro t ⟨e, he, links, hl, ht⟩
  simp only [somebody, List.mem_cons, List.not_mem_nil, or_false] at he
  rcases he with rfl | rfl | rfl
  · cases hl
  · cases hl
    simp only [List.mem_cons, List.not_mem_nil, or_false, Option.some.injEq, reduceCtorEq, false_or] at ht
    rcases ht with rfl | rfl <;> decide
  · cases hl; cases ht

example : isFileInUse true (some somebody) c!"/home/me/tmp/m-1-A" = some true ∧
    isFileInUse true (some somebody) c!"/home/me/tmp/m-1-B" = some false := by decide

/-- C85, counterexample: a file that nobody has open is said to be in use, since its path is the end of that of another
file. -/
theorem C85_suffix_violated : isFileInUse true (some somebody) c!"/tmp/m-1-A" = some true ∧
    ¬ Open somebody c!"/tmp/m-1-A" := by
  refine ⟨by decide, ?_⟩
  rintro ⟨e, he, links, hl, ht⟩
  simp only [somebody, List.mem_cons, List.not_mem_nil, or_false] at he
  rcases he with rfl | rfl | rfl
  · cases hl
  · cases hl; exact absurd ht (by decide)
  · cases hl; cases ht

/-- C85, counterexample: the file in use is not said to be when it is asked for, from the directory `/home/me`, by the
path `./tmp/m-1-A`, or through another name of a directory. -/
theorem C85_relative_violated : isFileInUse true (some somebody) c!"./tmp/m-1-A" = some false ∧
    isFileInUse true (some somebody) c!"/home/me/tmp//m-1-A" = some false := by decide

/-- C85 fails when a descriptor met on the way is for a path that fills the array: the terminator is written after it. -/
theorem C85_long_violated (lenient : Bool) (path target : CStr) (h : 4096 ≤ target.length) (links : List (Option CStr))
    (rest : List Entry) : isFileInUse lenient (some (⟨some (some target :: links)⟩ :: rest)) path = none := by
  have hl : ¬ (target.take maxPath).length < maxPath := by
    rw [List.length_take, Nat.min_eq_left (show maxPath ≤ target.length from h)]; omega
  have : linksMatch path (some target :: links) = none := by rw [linksMatch, if_neg hl]
  simp only [isFileInUse, procLoop, this]

example : 4096 ≤ (List.replicate 4096 (97 : UInt8)).length := by rw [List.length_replicate]; exact Nat.le_refl _

/-- C85 fails for every file, where `closedir` does not accept NULL, when the first entry of `/proc` is not a process. -/
theorem C85_null_violated (path : CStr) (rest : List Entry) : isFileInUse false (some (⟨none⟩ :: rest)) path = none := rfl

/-- C85 with C58: a copy of the master file that a process has open under the path it has in the directory is not deleted.
Missing: other paths to the directory, see `C85_deleted_violated`. -/
theorem C85_kept_partial (entries : List Entry) (hsh : Short entries) (fs : FS) (list : CStr → List CStr)
    (master mname stem first : CStr) (rest : List CStr) (bytes : Int) (hm : Last master mname) (hs : Stem mname stem)
    (hd : (46 : UInt8) ∈ mname ∨ (46 : UInt8) ∉ master) (hp : master.length < 2 ^ 63) (hstem : stem.length < maxPath)
    (hf : Fits fs master bytes) (hdir : first.length < maxPath)
    (hl : ∀ e ∈ list first, (withSlash first ++ e).length < maxPath) :
    ∃ fs' n, deleteUnused (fun p => (isFileInUse true (some entries) p).getD true) fs list master (first :: rest) bytes =
        some (fs', n) ∧ ∀ p, Open entries p → fs'.file p = fs.file p := by
  obtain ⟨fs', n, D, h1, -, h3, h4, -⟩ := C58_delete_partial (fun p => (isFileInUse true (some entries) p).getD true) fs
    list master mname stem first rest bytes hm hs hd hp hstem hf hdir hl
  refine ⟨fs', n, h1, fun p ho => ?_⟩
  rw [h4, if_neg]
  intro hD
  obtain ⟨r, k1, -, k3⟩ := C85_inUse_partial entries hsh p
  have := ((h3 p).1 hD).2.2.1
  simp only [k1, k3 ho] at this
  simp at this

/-- The file somebody has open stays, the other copy of the master file is deleted. -/
example : (deleteUnused (fun p => (isFileInUse true (some somebody) p).getD true)
      (withFiles [(c!"m.dat", c!"xyz"), (c!"/home/me/tmp/m-1-A", c!"xyz"), (c!"/home/me/tmp/m-1-B", c!"xyz")])
      (fun d => if d = c!"/home/me/tmp" then [c!"m-1-A", c!"m-1-B"] else []) c!"m.dat" [c!"/home/me/tmp"] (-1)).map
      (fun r => (r.2, r.1.file c!"/home/me/tmp/m-1-A", r.1.file c!"/home/me/tmp/m-1-B")) =
    some (1, some c!"xyz", none) := by decide

/-- C85 with C58, counterexample: asked for by a relative directory, the file in use is deleted. -/
theorem C85_deleted_violated :
    (deleteUnused (fun p => (isFileInUse true (some somebody) p).getD true)
      (withFiles [(c!"m.dat", c!"xyz"), (c!"./tmp/m-1-A", c!"xyz")])
      (fun d => if d = c!"./tmp" then [c!"m-1-A"] else []) c!"m.dat" [c!"./tmp"] (-1)).map
      (fun r => (r.2, r.1.file c!"./tmp/m-1-A")) = some (1, none) := by decide

end Verif.File
