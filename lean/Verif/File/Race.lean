import Verif.File.Temp
import Verif.Status.Model

/-! # C104: temporary files made at the same time

Threads and processes share the file system. Each makes a temporary file as `fiftyoneDegreesFileNewTempFile` does, holds it
while its data set lives and deletes it. The calls of the operating system are the steps, and steps of different threads come in
any order. -/

namespace Verif.File

/-! ## Model -/

/-- `getRandomString`, file.c:204-226, for a length that is not zero: the characters before the terminator. `rand seed i` is what
the call number `i` of `rand` gives after `srand(seed)`. -/
def randomString (rand : Nat → Nat → Nat) (length seed : Nat) : CStr :=
  (List.range (length - 1)).map fun i => UInt8.ofNat (rand seed i % 26 + 65)

/-- A thread that makes a temporary file: the process it is part of, the path of its master file, the directory with its slash,
the name of the master file without extension, and whether it calls the older function. -/
structure Maker where
  pid : Nat
  master : CStr
  dir : CStr
  base : CStr
  old : Bool

/-- What is given: the threads, the numbers `getRandSeed` (file.c:180-194) gives to each one after the other, and `rand`. -/
structure Setting where
  maker : Nat → Maker
  seeds : Nat → List Nat
  rand : Nat → Nat → Nat

/-- The path of a temporary file: `fiftyoneDegreesFileAddTempFileName`, file.c:743-755, with `getpid` (process.c:37-43) in
decimal, and `getUniqueLegacyFileName`, file.c:238-247, in the older function. All paths are taken to fit, see C43. -/
def Setting.path (w : Setting) (t seed : Nat) : CStr :=
  let m := w.maker t
  if m.old then m.dir ++ randomString w.rand 20 seed
  else m.dir ++ tempName m.base (Status.digits m.pid) (randomString w.rand 21 seed)

/-- Where a thread is: about to read the clock, with the seeds it gives from then on; about to open the file it found not to be
there; writing it, with the number of bytes copied; about to delete what it could not write; using the file; done. -/
inductive Phase where
  | drawing (seeds : List Nat)
  | opening (p : CStr)
  | copying (p : CStr) (done : Nat)
  | undoing (p : CStr)
  | holding (p : CStr)
  | ended (ok : Bool)
deriving DecidableEq, Repr

/-- All threads and the file system. -/
structure Shared where
  fs : FS
  phase : Nat → Phase

/-- `fwrite` at a position of an open file; after the name has been removed nothing is seen of it. -/
def writeAt (old : Option CStr) (pos : Nat) (bytes : CStr) : Option CStr :=
  old.map fun b => b.take pos ++ List.replicate (pos - b.length) 0 ++ bytes ++ b.drop (pos + bytes.length)

/-- Thread `t` goes on to `q`, with that file system. -/
def Shared.go (s : Shared) (t : Nat) (fs : FS) (q : Phase) : Shared :=
  ⟨fs, fun u => if u = t then q else s.phase u⟩

/-- One round of the loop of `fileCopy`, file.c:154-161, in thread `t`. The master file can be positioned and read. -/
def copyStep (s : Shared) (t : Nat) (master p : CStr) (pos : Nat) : Shared :=
  let buffer := (((s.fs.file master).getD []).drop pos).take 8192
  if buffer.length > 0 then
    let w := limited ((s.fs.room p).map (· - pos)) buffer
    let fs := s.fs.set p (writeAt (s.fs.file p) pos w)
    if w.length ≠ buffer.length then s.go t fs (.undoing p) else s.go t fs (.copying p (pos + buffer.length))
  else s.go t s.fs (.holding p)

/-- The next step of thread `t`: the name and whether it exists (file.c:743-769); `fileOpen` of both files in
`fiftyoneDegreesFileCopy` (file.c:1019-1042), the second of which makes the file empty; the copy; the deletion after a failure;
and that by `fiftyoneDegreesDataSetFree` (dataset.c:71-101). -/
def Shared.step (w : Setting) (s : Shared) (t : Nat) : Shared :=
  match s.phase t with
  | .drawing [] => s.go t s.fs (.ended false)
  | .drawing (seed :: rest) =>
    if (s.fs.file (w.path t seed)).isSome then s.go t s.fs (.drawing rest) else s.go t s.fs (.opening (w.path t seed))
  | .opening p =>
    if (s.fs.file (w.maker t).master).isSome then
      if s.fs.canWrite p then s.go t (s.fs.set p (some [])) (.copying p 0) else s.go t s.fs (.ended false)
    else s.go t s.fs (.ended false)
  | .copying p pos => copyStep s t (w.maker t).master p pos
  | .undoing p => s.go t (s.fs.delete p).1 (.ended false)
  | .holding p => s.go t (s.fs.delete p).1 (.ended true)
  | .ended _ => s

/-- Nobody has begun. -/
def Setting.start (w : Setting) (fs : FS) : Shared := ⟨fs, fun t => .drawing (w.seeds t)⟩

/-- The threads take steps in that order. -/
def Setting.run (w : Setting) (fs : FS) (order : List Nat) : Shared := order.foldl (Shared.step w) (w.start fs)

/-! ## What is wanted -/

/-- The file a thread has chosen. -/
def Phase.chosen : Phase → Option CStr
  | .opening p => some p
  | .copying p _ => some p
  | .undoing p => some p
  | .holding p => some p
  | _ => none

/-- Only the newer function is called, and threads of one process are given different strings. -/
structure Apart (w : Setting) : Prop where
  new : ∀ t, (w.maker t).old = false
  strings : ∀ t u, t ≠ u → (w.maker t).pid = (w.maker u).pid → ∀ a ∈ w.seeds t, ∀ b ∈ w.seeds u,
    randomString w.rand 21 a ≠ randomString w.rand 21 b

/-! ## Names -/

/-- C104: the random part of a name has one character less than the memory for it, and all are capital letters. -/
theorem C104_string (rand : Nat → Nat → Nat) (length seed : Nat) :
    (randomString rand length seed).length = length - 1 ∧
    ∀ c ∈ randomString rand length seed, 65 ≤ c.toNat ∧ c.toNat ≤ 90 := by
  refine ⟨by simp [randomString], ?_⟩
  intro c hc
  simp only [randomString, List.mem_map] at hc
  obtain ⟨i, -, rfl⟩ := hc
  have := Nat.mod_lt (rand seed i) (show 26 > 0 by decide)
  simp only [UInt8.toNat_ofNat']
  omega

theorem string_dash (rand : Nat → Nat → Nat) (length seed : Nat) : (45 : UInt8) ∉ randomString rand length seed := by
  intro h
  have := (C104_string rand length seed).2 _ h
  simp at this

theorem digits_dash (n : Nat) : (45 : UInt8) ∉ Status.digits n := by
  intro h
  simp only [Status.digits, List.mem_map] at h
  obtain ⟨d, hd, e⟩ := h
  have hh := Nat.isDigit_of_mem_toDigits (by omega) (by omega) hd
  simp only [Char.isDigit, Bool.and_eq_true, decide_eq_true_eq] at hh
  have h1 : 48 ≤ d.toNat := hh.1
  have h2 : d.toNat ≤ 57 := hh.2
  have e := congrArg UInt8.toNat e
  simp at e
  omega

theorem dash_inj {a b x y : CStr} (hx : (45 : UInt8) ∉ x) (hy : (45 : UInt8) ∉ y) (h : a ++ 45 :: x = b ++ 45 :: y) :
    a = b ∧ x = y := by
  rcases List.append_eq_append_iff.1 h with ⟨l, h1, h2⟩ | ⟨l, h1, h2⟩
  · cases l with
    | nil => simp at h1 h2; exact ⟨h1.symm, h2⟩
    | cons c l =>
      simp only [List.cons_append, List.cons.injEq] at h2
      exact absurd (h2.2 ▸ (by simp : (45 : UInt8) ∈ l ++ 45 :: y)) hx
  · cases l with
    | nil => simp at h1 h2; exact ⟨h1, h2.symm⟩
    | cons c l =>
      simp only [List.cons_append, List.cons.injEq] at h2
      exact absurd (h2.2 ▸ (by simp : (45 : UInt8) ∈ l ++ 45 :: x)) hy

theorem digits_inj {m n : Nat} (h : Status.digits m = Status.digits n) : m = n := by
  have hc : ∀ n, ∀ c ∈ Nat.toDigits 10 n, c.toNat ≤ 57 := by
    intro n c hd
    have hh := Nat.isDigit_of_mem_toDigits (by omega) (by omega) hd
    simp only [Char.isDigit, Bool.and_eq_true, decide_eq_true_eq] at hh
    exact hh.2
  have key : ∀ (a b : List Char), (∀ c ∈ a, c.toNat ≤ 57) → (∀ c ∈ b, c.toNat ≤ 57) →
      (a.map fun c => UInt8.ofNat c.toNat) = (b.map fun c => UInt8.ofNat c.toNat) → a = b := by
    intro a
    induction a with
    | nil => intro b _ _ h; cases b with
      | nil => rfl
      | cons => simp at h
    | cons x a ih =>
      intro b ha hb h
      cases b with
      | nil => simp at h
      | cons y b =>
        simp only [List.map_cons, List.cons.injEq] at h
        have h1 := ha x (by simp)
        have h2 := hb y (by simp)
        have e := congrArg UInt8.toNat h.1
        simp only [UInt8.toNat_ofNat'] at e
        have : x = y := Char.toNat_inj.1 (by omega)
        rw [this, ih b (fun c hc => ha c (by simp [hc])) (fun c hc => hb c (by simp [hc])) h.2]
  have := key _ _ (hc m) (hc n) h
  have := congrArg (Nat.ofDigitChars 10 · 0) this
  simpa using this

/-- C104: the path of a temporary file says which process made it, and with which string: whatever the directories and the
master files are, the paths of different processes are different, and so are those with different strings. -/
theorem C104_path (w : Setting) (t u a b : Nat) (h1 : (w.maker t).old = false) (h2 : (w.maker u).old = false)
    (h : w.path t a = w.path u b) :
    (w.maker t).pid = (w.maker u).pid ∧ randomString w.rand 21 a = randomString w.rand 21 b := by
  simp only [Setting.path, h1, h2, Bool.false_eq_true, if_false, tempName] at h
  have e : ∀ (d b p r : CStr), d ++ (b ++ c!"-" ++ p ++ c!"-" ++ r) = (d ++ b ++ 45 :: p) ++ 45 :: r := by
    intro d b p r; simp [show c!"-" = [45] from rfl]
  rw [e, e] at h
  obtain ⟨h3, h4⟩ := dash_inj (string_dash _ _ _) (string_dash _ _ _) h
  obtain ⟨-, h5⟩ := dash_inj (digits_dash _) (digits_dash _) h3
  exact ⟨digits_inj h5, h4⟩

/-! ## The invariant -/

/-- What is known of a thread: its file has a name of its own that was not used at first, and has what has been copied. -/
structure Good (w : Setting) (fs0 fs : FS) (t : Nat) (q : Phase) : Prop where
  seeds : ∀ l, q = .drawing l → ∀ a ∈ l, a ∈ w.seeds t
  own : ∀ p, q.chosen = some p → (∃ a ∈ w.seeds t, p = w.path t a) ∧ fs0.file p = none
  opening : ∀ p, q = .opening p → fs.file p = none
  copying : ∀ p pos, q = .copying p pos →
    ∃ c, fs0.file (w.maker t).master = some c ∧ pos ≤ c.length ∧ fs.file p = some (c.take pos)
  holding : ∀ p, q = .holding p → ∃ c, fs0.file (w.maker t).master = some c ∧ fs.file p = some c

/-- What is known of all. -/
structure Inv (w : Setting) (fs0 : FS) (s : Shared) : Prop where
  masters : ∀ t, fs0.file (w.maker t).master ≠ none
  like : fs0.Like s.fs
  kept : ∀ p, fs0.file p ≠ none → s.fs.file p = fs0.file p
  good : ∀ t, Good w fs0 s.fs t (s.phase t)
  left : ∀ p, fs0.file p = none → s.fs.file p ≠ none → (∃ t, (s.phase t).chosen = some p) ∨ fs0.canDelete p = false

theorem good_other {w : Setting} {fs0 fs fs' : FS} {t : Nat} {q : Phase} (h : Good w fs0 fs t q)
    (hf : ∀ p, q.chosen = some p → fs'.file p = fs.file p) : Good w fs0 fs' t q := by
  refine ⟨h.seeds, h.own, ?_, ?_, ?_⟩
  · rintro p rfl; rw [hf p rfl]; exact h.opening p rfl
  · rintro p pos rfl; rw [hf p rfl]; exact h.copying p pos rfl
  · rintro p rfl; rw [hf p rfl]; exact h.holding p rfl

theorem good_apart {w : Setting} (ha : Apart w) {fs0 fs fs' : FS} {t u : Nat} {q r : Phase} {p p' : CStr} (htu : t ≠ u)
    (h1 : Good w fs0 fs t q) (h2 : Good w fs0 fs' u r) (hp : q.chosen = some p) (hp' : r.chosen = some p') : p ≠ p' := by
  obtain ⟨⟨a, ha1, rfl⟩, -⟩ := h1.own p hp
  obtain ⟨⟨b, hb1, rfl⟩, -⟩ := h2.own p' hp'
  intro e
  obtain ⟨e1, e2⟩ := C104_path w t u a b (ha.new t) (ha.new u) e
  exact ha.strings t u htu e1 a ha1 b hb1 e2

theorem inv_go {w : Setting} (ha : Apart w) {fs0 fs : FS} {s : Shared} {t : Nat} {q : Phase} (h : Inv w fs0 s)
    (hl : fs0.Like fs) (hg : Good w fs0 fs t q)
    (hf : ∀ p, (s.phase t).chosen ≠ some p → q.chosen ≠ some p → fs.file p = s.fs.file p)
    (hd : ∀ p, (s.phase t).chosen = some p → q.chosen ≠ some p → fs.file p ≠ none → fs0.canDelete p = false) :
    Inv w fs0 (s.go t fs q) := by
  refine ⟨h.masters, hl, ?_, ?_, ?_⟩
  · intro p hp
    rw [← h.kept p hp]
    exact hf p (fun e => hp ((h.good t).own p e).2) (fun e => hp (hg.own p e).2)
  · intro u
    by_cases hu : u = t
    · subst hu; simpa [Shared.go] using hg
    · simp only [Shared.go, if_neg hu]
      refine good_other (h.good u) fun p hp => hf p (fun e => ?_) (fun e => ?_)
      · exact good_apart ha hu (h.good u) (h.good t) hp e rfl
      · exact good_apart ha hu (h.good u) hg hp e rfl
  · intro p hp hne
    by_cases hq : q.chosen = some p
    · exact .inl ⟨t, by simpa [Shared.go] using hq⟩
    · by_cases hs : (s.phase t).chosen = some p
      · exact .inr (hd p hs hq hne)
      · have hne' : s.fs.file p ≠ none := by rw [← hf p hs hq]; exact hne
        rcases h.left p hp hne' with ⟨u, hu⟩ | hu
        · left
          refine ⟨u, ?_⟩
          have : u ≠ t := by rintro rfl; exact hs hu
          simpa [Shared.go, this] using hu
        · exact .inr hu

theorem like_set (fs : FS) (p : CStr) (v : Option CStr) : fs.Like (fs.set p v) := ⟨rfl, rfl, rfl, rfl, rfl⟩

theorem like_delete (fs : FS) (p : CStr) : fs.Like (fs.delete p).1 := by
  rw [FS.delete]; split
  · exact like_set fs p none
  · exact like_refl fs

theorem delete_other (fs : FS) {p q : CStr} (h : q ≠ p) : (fs.delete p).1.file q = fs.file q := by
  rw [FS.delete]; split
  · simp [FS.set, h]
  · rfl

theorem delete_own (fs : FS) {p : CStr} (h : (fs.delete p).1.file p ≠ none) : fs.canDelete p = false := by
  rw [FS.delete] at h
  split at h
  · simp [FS.set] at h
  · rename_i hn
    cases hc : fs.canDelete p with
    | false => rfl
    | true => exact absurd ⟨hc, h⟩ hn

theorem good_ended (w : Setting) (fs0 fs : FS) (t : Nat) (ok : Bool) : Good w fs0 fs t (.ended ok) := by
  constructor <;> intros <;> simp_all [Phase.chosen]

/-- What is chosen stays as it is. -/
theorem inv_keep {w : Setting} (ha : Apart w) {fs0 : FS} {s : Shared} {t : Nat} {q : Phase} (h : Inv w fs0 s)
    (hg : Good w fs0 s.fs t q) (hn : ∀ p, (s.phase t).chosen = some p → q.chosen ≠ some p → s.fs.file p = none) :
    Inv w fs0 (s.go t s.fs q) :=
  inv_go ha h h.like hg (fun _ _ _ => rfl) (fun p h1 h2 h3 => absurd (hn p h1 h2) h3)

theorem inv_delete {w : Setting} (ha : Apart w) {fs0 : FS} {s : Shared} {t : Nat} {p : CStr} (h : Inv w fs0 s) (ok : Bool)
    (hp : (s.phase t).chosen = some p) : Inv w fs0 (s.go t (s.fs.delete p).1 (.ended ok)) := by
  refine inv_go ha h (like_trans h.like (like_delete _ _)) (good_ended _ _ _ _ _) ?_ ?_
  · intro q hq _
    exact delete_other _ (fun e => hq (by rw [hp, e]))
  · intro q hq _ hne
    rw [hp] at hq; cases hq
    rw [← h.like.2.2.2.2]
    exact delete_own _ hne

theorem writeAt_end {b w : CStr} : writeAt (some b) b.length w = some (b ++ w) := by
  simp [writeAt]

theorem inv_step {w : Setting} (ha : Apart w) {fs0 : FS} {s : Shared} (h : Inv w fs0 s) (t : Nat) :
    Inv w fs0 (s.step w t) := by
  have hg := h.good t
  rw [Shared.step]
  split
  · exact inv_keep ha h (good_ended _ _ _ _ _) (fun p e => by rename_i hp; rw [hp] at e; cases e)
  · rename_i seed rest hp
    split
    · refine inv_keep ha h ⟨?_, ?_, ?_, ?_, ?_⟩ (fun p e => by rw [hp] at e; cases e)
      · intro l e a hm; cases e; exact hg.seeds _ hp a (by simp [hm])
      all_goals intros; simp_all [Phase.chosen]
    · rename_i hfree
      have hfree : s.fs.file (w.path t seed) = none := by simpa using hfree
      refine inv_keep ha h ⟨?_, ?_, ?_, ?_, ?_⟩ (fun p e => by rw [hp] at e; cases e)
      · intro l e; cases e
      · intro p e; cases e
        refine ⟨⟨seed, hg.seeds _ hp seed (by simp), rfl⟩, ?_⟩
        cases hf : fs0.file (w.path t seed) with
        | none => rfl
        | some c =>
          have := h.kept (w.path t seed) (by rw [hf]; simp)
          rw [hfree, hf] at this; cases this
      · intro p e; cases e; exact hfree
      all_goals intros; simp_all
  · rename_i p hp
    have hnone := hg.opening p hp
    have hend : Inv w fs0 (s.go t s.fs (.ended false)) :=
      inv_keep ha h (good_ended _ _ _ _ _) (fun q e _ => by rw [hp] at e; cases e; exact hnone)
    split
    · split
      · refine inv_go ha h (like_trans h.like (like_set _ _ _)) ⟨?_, ?_, ?_, ?_, ?_⟩ ?_ ?_
        · intro l e; cases e
        · intro q e; cases e; exact hg.own p (by rw [hp]; rfl)
        · intro q e; cases e
        · intro q pos e; cases e
          cases hc : fs0.file (w.maker t).master with
          | none => exact absurd hc (h.masters t)
          | some c => exact ⟨c, rfl, Nat.zero_le _, by simp [FS.set]⟩
        · intro q e; cases e
        · intro q h1 h2
          have : q ≠ p := fun e => h2 (by rw [e]; rfl)
          simp [FS.set, this]
        · intro q h1 h2
          rw [hp] at h1
          exact absurd h1 h2
      · exact hend
    · exact hend
  · rename_i p pos hp
    obtain ⟨c, hc, hpos, hfile⟩ := hg.copying p pos hp
    have hown := hg.own p (by rw [hp]; rfl)
    have hm : s.fs.file (w.maker t).master = some c := by rw [h.kept _ (h.masters t), hc]
    rw [copyStep]
    simp only [hm, Option.getD_some]
    split
    · have hset : ∀ q v, (s.phase t).chosen ≠ some q → (s.fs.set p v).file q = s.fs.file q := by
        intro q v hq
        have : q ≠ p := fun e => hq (by rw [hp, e]; rfl)
        simp [FS.set, this]
      split
      · refine inv_go ha h (like_trans h.like (like_set _ _ _)) ⟨?_, ?_, ?_, ?_, ?_⟩ (fun q h1 _ => hset q _ h1) ?_
        · intro l e; cases e
        · intro q e; cases e; exact hown
        · intro q e; cases e
        · intro q _ e; cases e
        · intro q e; cases e
        · intro q h1 h2; rw [hp] at h1; exact absurd h1 h2
      · rename_i hlen
        have hlen : (limited ((s.fs.room p).map (· - pos)) ((c.drop pos).take 8192)).length = ((c.drop pos).take 8192).length := by
          simpa using hlen
        have hw : limited ((s.fs.room p).map (· - pos)) ((c.drop pos).take 8192) = (c.drop pos).take 8192 := by
          cases hr : (s.fs.room p).map (· - pos) with
          | none => rfl
          | some n =>
            rw [hr] at hlen
            simp only [limited, List.length_take] at hlen ⊢
            rw [List.take_take]
            rw [List.length_drop] at hlen
            by_cases hn : 8192 ≤ n
            · rw [Nat.min_eq_right hn]
            · rw [List.take_of_length_le (by rw [List.length_drop]; omega), List.take_of_length_le (by rw [List.length_drop]; omega)]
        refine inv_go ha h (like_trans h.like (like_set _ _ _)) ⟨?_, ?_, ?_, ?_, ?_⟩ (fun q h1 _ => hset q _ h1) ?_
        · intro l e; cases e
        · intro q e; cases e; exact hown
        · intro q e; cases e
        · intro q _ e
          cases e
          refine ⟨c, hc, by rw [List.length_take, List.length_drop]; omega, ?_⟩
          have hl : (c.take pos).length = pos := by rw [List.length_take]; omega
          have := writeAt_end (b := c.take pos) (w := (c.drop pos).take 8192)
          rw [hl] at this
          simp only [FS.set, if_true, hfile, hw, this, Option.some.injEq]
          rw [List.take_add, List.length_take, ← List.take_eq_take_min]
        · intro q e; cases e
        · intro q h1 h2; rw [hp] at h1; exact absurd h1 h2
    · rename_i hz
      have hz : c.length ≤ pos := by
        rw [List.length_take, List.length_drop] at hz; omega
      refine inv_keep ha h ⟨?_, ?_, ?_, ?_, ?_⟩ (fun q h1 h2 => by rw [hp] at h1; exact absurd h1 h2)
      · intro l e; cases e
      · intro q e; cases e; exact hown
      · intro q e; cases e
      · intro q _ e; cases e
      · intro q e; cases e
        exact ⟨c, hc, by rw [hfile, List.take_of_length_le hz]⟩
  · rename_i p hp; exact inv_delete ha h false (by rw [hp]; rfl)
  · rename_i p hp; exact inv_delete ha h true (by rw [hp]; rfl)
  · exact h

theorem inv_run {w : Setting} (ha : Apart w) {fs : FS} (hm : ∀ t, fs.file (w.maker t).master ≠ none) (order : List Nat) :
    Inv w fs (w.run fs order) := by
  have : ∀ (order : List Nat) (s : Shared), Inv w fs s → Inv w fs (order.foldl (Shared.step w) s) := by
    intro order
    induction order with
    | nil => intro s h; exact h
    | cons t order ih => intro s h; exact ih _ (inv_step ha h t)
  refine this order _ ⟨hm, like_refl fs, fun _ _ => rfl, fun t => ⟨?_, ?_, ?_, ?_, ?_⟩, fun p h1 h2 => absurd h1 h2⟩
  · intro l e a hl; cases e; exact hl
  all_goals intros; simp_all [Setting.start, Phase.chosen]

/-! ## C104 -/

/-- C104: at no time have two threads chosen the same temporary file, in whatever order they take their steps, when they are of
different processes or are given different strings. Missing: threads of one process with the same string, see
`C104_threads_violated`, and the older function, see `C104_older_violated`. -/
theorem C104_distinct_partial (w : Setting) (ha : Apart w) (fs : FS) (hm : ∀ t, fs.file (w.maker t).master ≠ none)
    (order : List Nat) (t u : Nat) (htu : t ≠ u) (p q : CStr) (hp : ((w.run fs order).phase t).chosen = some p)
    (hq : ((w.run fs order).phase u).chosen = some q) : p ≠ q :=
  good_apart ha htu ((inv_run ha hm order).good t) ((inv_run ha hm order).good u) hp hq

/-- C104: while a thread uses its temporary file, it has the content of the thread's master file, whatever the other threads do.
Missing: threads given the same string, see `C104_emptied_violated`. -/
theorem C104_content_partial (w : Setting) (ha : Apart w) (fs : FS) (hm : ∀ t, fs.file (w.maker t).master ≠ none)
    (order : List Nat) (t : Nat) (p : CStr) (hp : (w.run fs order).phase t = .holding p) :
    (w.run fs order).fs.file p = fs.file (w.maker t).master ∧ fs.file p = none := by
  have h := (inv_run ha hm order).good t
  obtain ⟨c, h1, h2⟩ := h.holding p hp
  exact ⟨by rw [h1, h2], (h.own p (by rw [hp]; rfl)).2⟩

/-- C104: no file that was there before is changed or deleted. Missing: threads given the same string, see
`C104_threads_violated`. -/
theorem C104_kept_partial (w : Setting) (ha : Apart w) (fs : FS) (hm : ∀ t, fs.file (w.maker t).master ≠ none)
    (order : List Nat) (p : CStr) (hp : fs.file p ≠ none) : (w.run fs order).fs.file p = fs.file p :=
  (inv_run ha hm order).kept p hp

/-- C104: when nobody has a temporary file any more, all files are as they were before, if the files can be deleted. Missing:
threads given the same string, see `C104_threads_violated`. -/
theorem C104_restored_partial (w : Setting) (ha : Apart w) (fs : FS) (hm : ∀ t, fs.file (w.maker t).master ≠ none)
    (order : List Nat) (hd : ∀ p, fs.canDelete p = true) (hn : ∀ t, ((w.run fs order).phase t).chosen = none) :
    (w.run fs order).fs.file = fs.file := by
  have h := inv_run ha hm order
  funext p
  by_cases hp : fs.file p = none
  · rw [hp]
    by_cases hq : (w.run fs order).fs.file p = none
    · exact hq
    · rcases h.left p hp hq with ⟨t, ht⟩ | hc
      · rw [hn t] at ht; cases ht
      · rw [hd p] at hc; cases hc
  · exact h.kept p hp

/-- C104: a thread that goes on alone, with a name that is not used and a master file that can be copied, comes to use its
file: it is not held up by others that have chosen theirs. -/
theorem C104_ends (w : Setting) (s : Shared) (t seed : Nat) (rest : List Nat) (c : CStr) (hp : s.phase t = .drawing (seed :: rest))
    (hfree : s.fs.file (w.path t seed) = none) (hm : s.fs.file (w.maker t).master = some c)
    (hw : s.fs.canWrite (w.path t seed) = true) (hr : s.fs.room (w.path t seed) = none) :
    ∃ n, ((List.replicate n t).foldl (Shared.step w) s).phase t = .holding (w.path t seed) := by
  have hne : (w.maker t).master ≠ w.path t seed := fun e => by rw [e, hfree] at hm; cases hm
  -- the copy, with `k` bytes to go
  have copy : ∀ k (s : Shared) (pos : Nat), c.length - pos ≤ k → s.phase t = .copying (w.path t seed) pos →
      s.fs.file (w.maker t).master = some c → s.fs.room (w.path t seed) = none →
      ∃ n, ((List.replicate n t).foldl (Shared.step w) s).phase t = .holding (w.path t seed) := by
    intro k
    induction k with
    | zero =>
      intro s pos hk hp hm hr
      refine ⟨1, ?_⟩
      have : ((c.drop pos).take 8192).length = 0 := by rw [List.length_take, List.length_drop]; omega
      show (s.step w t).phase t = _
      rw [Shared.step]
      simp only [hp, copyStep, hm, Option.getD_some, this]
      simp [Shared.go]
    | succ k ih =>
      intro s pos hk hp hm hr
      by_cases hz : c.length ≤ pos
      · exact ih s pos (by omega) hp hm hr
      · have hpos : ((c.drop pos).take 8192).length > 0 := by rw [List.length_take, List.length_drop]; omega
        have e : s.step w t = s.go t (s.fs.set (w.path t seed) (writeAt (s.fs.file (w.path t seed)) pos ((c.drop pos).take 8192)))
            (.copying (w.path t seed) (pos + ((c.drop pos).take 8192).length)) := by
          rw [Shared.step]
          simp only [hp, copyStep, hm, hr, Option.getD_some, Option.map_none, limited, hpos, if_true, ne_eq, not_true_eq_false,
            if_false]
        obtain ⟨n, hn⟩ := ih (s.step w t) (pos + ((c.drop pos).take 8192).length) (by omega)
          (by rw [e]; simp [Shared.go]) (by rw [e]; simp [Shared.go, FS.set, hne, hm]) (by rw [e]; exact hr)
        exact ⟨n + 1, by rw [List.replicate_succ, List.foldl_cons]; exact hn⟩
  have e1 : s.step w t = s.go t s.fs (.opening (w.path t seed)) := by
    rw [Shared.step]; simp [hp, hfree]
  have e2 : (s.step w t).step w t = s.go t (s.fs.set (w.path t seed) (some [])) (.copying (w.path t seed) 0) := by
    rw [e1, Shared.step]
    have : (s.go t s.fs (.opening (w.path t seed))).phase t = .opening (w.path t seed) := by simp [Shared.go]
    simp only [this]
    simp only [Shared.go, hm, hw, Option.isSome_some, if_true]
    congr 1
    funext u
    by_cases hu : u = t <;> simp [hu]
  obtain ⟨n, hn⟩ := copy c.length ((s.step w t).step w t) 0 (by omega) (by rw [e2]; simp [Shared.go])
    (by rw [e2]; simp [Shared.go, FS.set, hne, hm]) (by rw [e2]; exact hr)
  exact ⟨n + 2, by rw [List.replicate_succ, List.replicate_succ, List.foldl_cons, List.foldl_cons]; exact hn⟩

/-! ## Counterexamples -/

/-- Two threads with the data file `m.dat` and the same directory. -/
def two (pid1 pid2 : Nat) (old : Bool) (seeds : Nat → List Nat) : Setting where
  maker t := ⟨if t = 0 then pid1 else pid2, c!"m.dat", c!"t/", c!"m", old⟩
  seeds := seeds
  rand seed i := seed + i

/-- Only the data file. -/
def onlyMaster : FS where
  file p := if p = c!"m.dat" then some c!"xyz" else none
  canWrite _ := true
  room _ := none
  readLimit _ := none
  canSeek _ := true
  canDelete _ := true

/-- C104, counterexample: two threads of one process for which the clock has the same nanoseconds are given the same string. Both
find that there is no such file, both take it for theirs, and when the first is done the file of the other is deleted. -/
theorem C104_threads_violated :
    ((two 7 7 false fun _ => [5]).run onlyMaster [0, 1, 0, 1, 0, 1, 0, 1]).phase 0 = .holding c!"t/m-7-FGHIJKLMNOPQRSTUVWXY" ∧
    ((two 7 7 false fun _ => [5]).run onlyMaster [0, 1, 0, 1, 0, 1, 0, 1]).phase 1 = .holding c!"t/m-7-FGHIJKLMNOPQRSTUVWXY" ∧
    ((two 7 7 false fun _ => [5]).run onlyMaster [0, 1, 0, 1, 0, 1, 0, 1, 0]).phase 1 = .holding c!"t/m-7-FGHIJKLMNOPQRSTUVWXY" ∧
    ((two 7 7 false fun _ => [5]).run onlyMaster [0, 1, 0, 1, 0, 1, 0, 1, 0]).fs.file c!"t/m-7-FGHIJKLMNOPQRSTUVWXY" = none := by
  decide +kernel

/-- C104, counterexample: in the older function the same happens to different processes, as their number is not in the name. -/
theorem C104_older_violated :
    ((two 7 8 true fun _ => [5]).run onlyMaster [0, 1, 0, 1, 0, 1, 0, 1]).phase 0 = .holding c!"t/FGHIJKLMNOPQRSTUVWX" ∧
    ((two 7 8 true fun _ => [5]).run onlyMaster [0, 1, 0, 1, 0, 1, 0, 1, 0]).phase 1 = .holding c!"t/FGHIJKLMNOPQRSTUVWX" ∧
    ((two 7 8 true fun _ => [5]).run onlyMaster [0, 1, 0, 1, 0, 1, 0, 1, 0]).fs.file c!"t/FGHIJKLMNOPQRSTUVWX" = none := by
  decide +kernel

/-- C104, counterexample: a thread can find the file of another complete, take it to be its own, and make it empty while the
other uses it. -/
theorem C104_emptied_violated :
    ((two 7 7 false fun _ => [5]).run onlyMaster [0, 1, 0, 0, 0, 1]).phase 0 = .holding c!"t/m-7-FGHIJKLMNOPQRSTUVWXY" ∧
    ((two 7 7 false fun _ => [5]).run onlyMaster [0, 1, 0, 0, 0, 1]).fs.file c!"t/m-7-FGHIJKLMNOPQRSTUVWXY" = some [] := by
  decide +kernel

/-- Processes with the same seeds are apart, and so are threads with seeds that give different strings. -/
example : Apart (two 7 8 false fun t => if t ≤ 1 then [5] else []) := by
  refine ⟨fun _ => rfl, ?_⟩
  intro t u htu hpid a ha b hb
  simp only [two] at hpid ha hb
  split at ha <;> split at hb <;> simp at ha hb
  split at hpid <;> split at hpid <;> omega

/-- Two processes with the same seed have files of their own, and one remains when the other is deleted. -/
example : ((two 7 8 false fun _ => [5]).run onlyMaster [0, 1, 0, 1, 0, 1, 0, 1, 0]).phase 1 = .holding c!"t/m-8-FGHIJKLMNOPQRSTUVWXY" ∧
    ((two 7 8 false fun _ => [5]).run onlyMaster [0, 1, 0, 1, 0, 1, 0, 1, 0]).fs.file c!"t/m-8-FGHIJKLMNOPQRSTUVWXY" = some c!"xyz" := by
  decide +kernel

end Verif.File
