import Verif.File.Temp

/-! # C105: the asserts of the functions that make temporary files

The functions are called with a pointer to the directories and their number, an `int`. They end with an assert that a status has
been set, which ends the process in a build with asserts; without asserts `NOT_SET` is returned. -/

namespace Verif.File

/-! ## Model -/

/-- How a call ends. -/
inductive Ended (α : Type) where
  | undefined
  | aborted
  | gives (a : α)
deriving DecidableEq, Repr

/-- A call whose assert, if there is one, holds. -/
def Ended.of {α : Type} : UB α → Ended α
  | none => .undefined
  | some a => .gives a

/-- `assert(status != NOT_SET)`, file.c:866 and 911. -/
def asserted {α : Type} (debug : Bool) (status : α → Status) : UB α → Ended α
  | none => .undefined
  | some a => if debug = true ∧ status a = .notSet then .aborted else .gives a

/-- The directories the loops look at, file.c:812 and 888: `count` of those there are. With a larger number than there are,
what is behind them is read. -/
def lookedAt (paths : List CStr) (count : Int) : UB (List CStr) :=
  if count.toNat ≤ paths.length then some (paths.take count.toNat) else none

/-- `fiftyoneDegreesFileNewTempFile` before the assert, file.c:850-865; `none` for the directories is NULL. -/
def newBody (fs : FS) (pid master : CStr) (paths : Option (List CStr)) (count : Int) (length : Nat) (random : List CStr) :
    UB (FS × Status × CStr) :=
  match paths with
  | none => createTempFileWithoutPaths fs pid master length random
  | some ps =>
    if count = 0 then createTempFileWithoutPaths fs pid master length random
    else (lookedAt ps count).bind fun ps => createTempFileWithPaths pid master length ps fs .notSet [] random

/-- `fiftyoneDegreesFileNewTempFile`, file.c:850-868. -/
def newTempFileC (debug : Bool) (fs : FS) (pid master : CStr) (paths : Option (List CStr)) (count : Int) (length : Nat)
    (random : List CStr) : Ended (FS × Status × CStr) :=
  asserted debug (fun a => a.2.1) (newBody fs pid master paths count length random)

/-- What `fiftyoneDegreesFileCreateTempFile` does without directories, file.c:881-887. -/
def createTempFileHere (fs : FS) (master : CStr) (random : List CStr) : UB (FS × Status × Option CStr) :=
  match legacyName fs [] none random with
  | none => none
  | some (path, _) =>
    match fs.copy master path with
    | (fs, .success) => some (fs, .success, some path)
    | (fs, st) => some (fs, st, none)

/-- `fiftyoneDegreesFileCreateTempFile` before the assert, file.c:870-910; `none` for the directories is NULL. -/
def oldBody (fs : FS) (master : CStr) (paths : Option (List CStr)) (count : Int) (random : List CStr) :
    UB (FS × Status × Option CStr) :=
  match paths with
  | none => createTempFileHere fs master random
  | some ps =>
    if count = 0 then createTempFileHere fs master random
    else (lookedAt ps count).bind fun ps => createTempLoop master ps fs .notSet random

/-- `fiftyoneDegreesFileCreateTempFile`, file.c:870-913. -/
def createTempFileC (debug : Bool) (fs : FS) (master : CStr) (paths : Option (List CStr)) (count : Int) (random : List CStr) :
    Ended (FS × Status × Option CStr) :=
  asserted debug (fun a => a.2.1) (oldBody fs master paths count random)

/-! ## Lemmas -/

theorem copy_set (fs : FS) (s d : CStr) : (fs.copy s d).2 ≠ .notSet := by
  rw [FS.copy]
  split
  · simp
  · split
    · dsimp only
      split <;> simp
    · simp

theorem basename_set {path : CStr} {length : Nat} {st : Status} {b : CStr} (h : getBasename path length = some (st, b)) :
    st ≠ .notSet := by
  simp only [getBasename] at h
  split at h <;> split at h <;> first
    | (cases h; simp; done)
    | (split at h <;> cases h; simp)

theorem nameLoop_set (fs : FS) (pid base pre : CStr) (cap length : Nat) : ∀ (random : List CStr) (dest : CStr) r,
    tempNameLoop fs pid base pre cap length dest random = some r → r.1 ≠ .notSet := by
  intro random
  induction random with
  | nil => intro dest r h; rw [tempNameLoop] at h; cases h; simp
  | cons x random ih =>
    intro dest r h
    simp only [tempNameLoop] at h
    split at h
    · cases h
    · split at h
      · split at h
        · cases h; simp
        · cases h
      · split at h
        · exact ih _ r h
        · cases h; simp

theorem addTemp_set {fs : FS} {pid master pre : CStr} {cap length : Nat} {random : List CStr} {r}
    (h : addTempFileName fs pid master pre cap length random = some r) : r.1 ≠ .notSet := by
  rw [addTempFileName] at h
  split at h
  · cases h
  · exact nameLoop_set _ _ _ _ _ _ _ _ _ h
  · rename_i hb
    cases h
    exact basename_set hb

theorem withoutPaths_set {fs : FS} {pid master : CStr} {length : Nat} {random : List CStr} {r}
    (h : createTempFileWithoutPaths fs pid master length random = some r) : r.2.1 ≠ .notSet := by
  rw [createTempFileWithoutPaths] at h
  split at h
  · cases h
  · split at h
    · cases h; simp
    · rename_i hc
      cases h
      have := copy_set fs master (by assumption)
      rw [hc] at this
      exact this
  · rename_i ha
    cases h
    exact addTemp_set ha

theorem inDir_set {fs : FS} {pid master dir : CStr} {length : Nat} {random : List CStr} {r}
    (h : tempInDir fs pid master dir length random = some r) : r.2.1 ≠ .notSet := by
  simp only [tempInDir] at h
  split at h
  · cases h
  · split at h
    · cases h; simp
    · split at h
      · cases h
      · split at h
        · cases h; simp
        · rename_i hc
          cases h
          have := copy_set fs master (by assumption)
          rw [hc] at this
          exact this
      · rename_i ha
        cases h
        have := addTemp_set ha
        exact this

theorem withPaths_set {pid master : CStr} {length : Nat} : ∀ (dirs : List CStr) (fs : FS) (st : Status) (dest : CStr)
    (random : List CStr) r, (st ≠ .notSet ∨ dirs ≠ []) →
    createTempFileWithPaths pid master length dirs fs st dest random = some r → r.2.1 ≠ .notSet := by
  intro dirs
  induction dirs with
  | nil =>
    intro fs st dest random r hs h
    rw [createTempFileWithPaths] at h
    cases h
    simpa using hs
  | cons d dirs ih =>
    intro fs st dest random r _ h
    rw [createTempFileWithPaths] at h
    split at h
    · cases h
    · rename_i ht
      exact ih _ _ _ _ r (.inl (inDir_set ht)) h

theorem loop_set {master : CStr} : ∀ (dirs : List CStr) (fs : FS) (st : Status) (random : List CStr) r,
    (st ≠ .notSet ∨ dirs ≠ []) → createTempLoop master dirs fs st random = some r → r.2.1 ≠ .notSet := by
  intro dirs
  induction dirs with
  | nil =>
    intro fs st random r hs h
    rw [createTempLoop] at h
    cases h
    simpa using hs
  | cons d dirs ih =>
    intro fs st random r _ h
    rw [createTempLoop] at h
    split at h
    · cases h
    · split at h
      · split at h
        · cases h
        · split at h
          · cases h; simp
          · rename_i hc
            have := copy_set fs master (by assumption)
            rw [hc] at this
            exact ih _ _ _ r (.inl this) h
      · exact ih _ _ _ r (.inl (by simp)) h

theorem here_set {fs : FS} {master : CStr} {random : List CStr} {r} (h : createTempFileHere fs master random = some r) :
    r.2.1 ≠ .notSet := by
  rw [createTempFileHere] at h
  split at h
  · cases h
  · split at h
    · cases h; simp
    · rename_i hc
      cases h
      have := copy_set fs master (by assumption)
      rw [hc] at this
      exact this

theorem asserted_set {α : Type} {status : α → Status} {x : UB α} (h : ∀ a, x = some a → status a ≠ .notSet) (debug : Bool) :
    asserted debug status x = .of x := by
  cases x with
  | none => rfl
  | some a => rw [asserted, if_neg (fun e => h a rfl e.2), Ended.of]

theorem lookedAt_ne {ps l : List CStr} {count : Int} (hc : 0 < count) (h : lookedAt ps count = some l) : l ≠ [] := by
  rw [lookedAt] at h
  split at h
  · cases h
    intro e
    have := congrArg List.length e
    rw [List.length_take, List.length_nil] at this
    omega
  · cases h

theorem newSet {fs : FS} {pid master : CStr} {paths : Option (List CStr)} {count : Int} {length : Nat} {random : List CStr}
    (hc : paths = none ∨ 0 ≤ count) (a : FS × Status × CStr)
    (h : newBody fs pid master paths count length random = some a) : a.2.1 ≠ .notSet := by
  cases paths with
  | none => exact withoutPaths_set h
  | some ps =>
    simp only [newBody] at h
    split at h
    · exact withoutPaths_set h
    · rename_i h0
      obtain ⟨l, h1, h2⟩ := Option.bind_eq_some_iff.1 h
      refine withPaths_set l fs .notSet [] random a (.inr (lookedAt_ne ?_ h1)) h2
      rcases hc with hc | hc
      · cases hc
      · omega

theorem oldSet {fs : FS} {master : CStr} {paths : Option (List CStr)} {count : Int} {random : List CStr}
    (hc : paths = none ∨ 0 ≤ count) (a : FS × Status × Option CStr)
    (h : oldBody fs master paths count random = some a) : a.2.1 ≠ .notSet := by
  cases paths with
  | none => exact here_set h
  | some ps =>
    simp only [oldBody] at h
    split at h
    · exact here_set h
    · rename_i h0
      obtain ⟨l, h1, h2⟩ := Option.bind_eq_some_iff.1 h
      refine loop_set l fs .notSet random a (.inr (lookedAt_ne ?_ h1)) h2
      rcases hc with hc | hc
      · cases hc
      · omega

/-! ## C105 -/

/-- C105: the newer function never ends the process, and never gives the status that none has been set, without directories or
with a number of them that is not negative. Missing: negative numbers, see `C105_negative_violated`. -/
theorem C105_new_partial (debug : Bool) (fs : FS) (pid master : CStr) (paths : Option (List CStr)) (count : Int) (length : Nat)
    (random : List CStr) (hc : paths = none ∨ 0 ≤ count) :
    newTempFileC debug fs pid master paths count length random ≠ .aborted ∧
    ∀ a, newTempFileC debug fs pid master paths count length random = .gives a → a.2.1 ≠ .notSet := by
  rw [newTempFileC, asserted_set (newSet hc)]
  have := newSet (fs := fs) (pid := pid) (master := master) (length := length) (random := random) hc
  cases hx : newBody fs pid master paths count length random with
  | none => simp [Ended.of]
  | some y => exact ⟨by simp [Ended.of], fun a e => by cases e; exact this _ hx⟩

/-- C105: the same of the older function. Missing: negative numbers, see `C105_negative_violated`. -/
theorem C105_old_partial (debug : Bool) (fs : FS) (master : CStr) (paths : Option (List CStr)) (count : Int) (random : List CStr)
    (hc : paths = none ∨ 0 ≤ count) :
    createTempFileC debug fs master paths count random ≠ .aborted ∧
    ∀ a, createTempFileC debug fs master paths count random = .gives a → a.2.1 ≠ .notSet := by
  rw [createTempFileC, asserted_set (oldSet hc)]
  have := oldSet (fs := fs) (master := master) (random := random) hc
  cases hx : oldBody fs master paths count random with
  | none => simp [Ended.of]
  | some y => exact ⟨by simp [Ended.of], fun a e => by cases e; exact this _ hx⟩

/-- C105: called with the directories there are, the functions give what C43 says. -/
theorem C105_same (debug : Bool) (fs : FS) (pid master : CStr) (paths : List CStr) (length : Nat) (random : List CStr) :
    newTempFileC debug fs pid master (some paths) paths.length length random =
      .of (newTempFile fs pid master paths length random) ∧
    createTempFileC debug fs master (some paths) paths.length random =
      .of (createTempFile fs master paths random) := by
  have hl : lookedAt paths paths.length = some paths := by simp [lookedAt]
  have h0 : ((paths.length : Int) = 0) ↔ paths = [] := by
    rw [← List.length_eq_zero_iff]; omega
  constructor
  · rw [newTempFileC, asserted_set (newSet (.inr (by omega))), newTempFile, newBody]
    by_cases h : paths = []
    · subst h; rfl
    · simp only [h0, h, if_false, hl, Option.bind_some]
  · rw [createTempFileC, asserted_set (oldSet (.inr (by omega))), createTempFile, oldBody]
    by_cases h : paths = []
    · subst h; rfl
    · simp only [h0, h, if_false, hl, Option.bind_some]

/-- C105 is violated by a negative number of directories: nothing is tried, the process ends in a build with asserts, and without
them the status is that none has been set. -/
theorem C105_negative_violated (fs : FS) (pid master : CStr) (paths : List CStr) (count : Int) (length : Nat)
    (random : List CStr) (hc : count < 0) :
    newTempFileC true fs pid master (some paths) count length random = .aborted ∧
    createTempFileC true fs master (some paths) count random = .aborted ∧
    newTempFileC false fs pid master (some paths) count length random = .gives (fs, .notSet, []) := by
  have h0 : count ≠ 0 := by omega
  have ht : count.toNat = 0 := by omega
  simp [newTempFileC, createTempFileC, newBody, oldBody, asserted, h0, lookedAt, ht, createTempFileWithPaths, createTempLoop]

example : (match newTempFileC true (writable [c!"a/"]) c!"7" c!"m.dat" (some [c!"a", c!"b"]) 1 100 [c!"RND"] with
    | .gives a => some a.2 | _ => none) = some (.success, c!"a/m-7-RND") := by decide

end Verif.File
