import Verif.File.Names

/-! # Copying files: C56 -/

namespace Verif.File

/-- There is room for that many bytes. -/
def Enough (room : Option Nat) (n : Nat) : Prop := ∀ r, room = some r → n ≤ r

theorem copyLoop_spec (room : Option Nat) : ∀ (fuel : Nat) (source written : CStr), source.length < fuel →
    Enough room written.length →
    (Enough room (written.length + source.length) → copyLoop room fuel source written = (true, written ++ source)) ∧
    (¬ Enough room (written.length + source.length) → (copyLoop room fuel source written).1 = false) := by
  intro fuel
  induction fuel with
  | zero => intro _ _ h; omega
  | succ fuel ih =>
    intro source written hf hw
    rw [copyLoop]
    by_cases hs : source = []
    · subst hs; simpa using hw
    · have hpos : (source.take 8192).length > 0 := by
        have := List.length_pos_iff.2 hs
        rw [List.length_take]; omega
      simp only [hpos, if_true]
      have hsum : (source.take 8192).length + (source.drop 8192).length = source.length := by
        rw [← List.length_append, List.take_append_drop]
      -- whether the buffer is written completely
      by_cases hb : Enough room (written.length + (source.take 8192).length)
      · have hl : limited (room.map (· - written.length)) (source.take 8192) = source.take 8192 := by
          cases room with
          | none => rfl
          | some r =>
            have := hb r rfl
            simp only [Option.map_some, limited]
            exact List.take_of_length_le (by omega)
        rw [hl]
        simp only [ne_eq, not_true_eq_false, if_false]
        have := ih (source.drop 8192) (written ++ source.take 8192) (by omega) (by rw [List.length_append]; exact hb)
        rw [List.length_append, List.append_assoc, List.take_append_drop, Nat.add_assoc, hsum] at this
        exact this
      · obtain ⟨r, hr⟩ : ∃ r, room = some r ∧ r < written.length + (source.take 8192).length := by
          simp only [Enough, not_forall] at hb
          obtain ⟨r, h1, h2⟩ := hb
          exact ⟨r, h1, by omega⟩
        have hl : (limited (room.map (· - written.length)) (source.take 8192)).length ≠ (source.take 8192).length := by
          have := hw r hr.1
          rw [hr.1]
          simp only [Option.map_some, limited, List.length_take] at hr ⊢
          omega
        rw [if_pos hl]
        refine ⟨fun h => ?_, fun _ => rfl⟩
        have := h r hr.1
        omega

/-- The same but for the file. -/
def FS.Only (fs fs' : FS) (p : CStr) : Prop :=
  (∀ q, q ≠ p → fs'.file q = fs.file q) ∧ fs'.canWrite = fs.canWrite ∧ fs'.room = fs.room ∧
    fs'.readLimit = fs.readLimit ∧ fs'.canSeek = fs.canSeek ∧ fs'.canDelete = fs.canDelete

theorem only_refl (fs : FS) (p : CStr) : fs.Only fs p := ⟨fun _ _ => rfl, rfl, rfl, rfl, rfl, rfl⟩

theorem only_set (fs : FS) (p : CStr) (v : Option CStr) : fs.Only (fs.set p v) p :=
  ⟨fun q hq => by simp [FS.set, hq], rfl, rfl, rfl, rfl, rfl⟩

theorem only_trans {a b c : FS} {p : CStr} (h1 : a.Only b p) (h2 : b.Only c p) : a.Only c p :=
  ⟨fun q hq => (h2.1 q hq).trans (h1.1 q hq), h2.2.1.trans h1.2.1, h2.2.2.1.trans h1.2.2.1,
    h2.2.2.2.1.trans h1.2.2.2.1, h2.2.2.2.2.1.trans h1.2.2.2.2.1, h2.2.2.2.2.2.trans h1.2.2.2.2.2⟩

theorem only_delete (fs : FS) (p : CStr) : fs.Only (fs.delete p).1 p := by
  rw [FS.delete]
  split
  · exact only_set _ _ _
  · exact only_refl _ _

theorem set_self (fs : FS) (p : CStr) (v : Option CStr) : (fs.set p v).file p = v := by simp [FS.set]

theorem copy_only (fs : FS) (s d : CStr) : fs.Only (fs.copy s d).1 d := by
  rw [FS.copy]
  split
  · exact only_refl _ _
  · split
    · simp only
      split
      · exact only_trans (only_set _ _ _) (only_set _ _ _)
      · exact only_trans (only_trans (only_set _ _ _) (only_set _ _ _)) (only_delete _ _)
    · exact only_refl _ _

/-- The source can be read completely. -/
def FS.Readable (fs : FS) (p content : CStr) : Prop :=
  fs.file p = some content ∧ fs.canSeek p = true ∧ fs.readLimit p = none

/-- C56: copying changes no other file. It succeeds exactly when the source is there, the destination can be opened for
writing and there is room, and then the destination is a copy of the source. Otherwise the destination is as before or
does not exist. Missing: sources that cannot be positioned or read to the end, and a destination that is the source, see
`C56_read_violated`, `C56_seek_violated` and `C56_self_violated`. -/
theorem C56_copy_partial (fs : FS) (s d content : CStr) (hs : fs.Readable s content) (hne : s ≠ d)
    (hd : fs.canDelete d = true) :
    let r := fs.copy s d
    (∀ q, q ≠ d → r.1.file q = fs.file q) ∧
    (r.2 = .success ↔ fs.canWrite d = true ∧ Enough (fs.room d) content.length) ∧
    (r.2 = .success → r.1.file d = some content) ∧
    (r.2 ≠ .success → r.1.file d = fs.file d ∨ r.1.file d = none) := by
  obtain ⟨h1, h2, h3⟩ := hs
  have key : (fs.canWrite d = true → Enough (fs.room d) content.length →
        (fs.copy s d).2 = .success ∧ (fs.copy s d).1.file d = some content) ∧
      (fs.canWrite d = true → ¬ Enough (fs.room d) content.length →
        (fs.copy s d).2 = .fileCopyError ∧ (fs.copy s d).1.file d = none) ∧
      (fs.canWrite d = false → (fs.copy s d).2 = .fileWriteError ∧ (fs.copy s d).1.file d = fs.file d) := by
    have hf : (fs.set d (some [])).file s = some content := by simp [FS.set, hne, h1]
    have hc := copyLoop_spec (fs.room d) (content.length + 1) content [] (by omega) (fun _ _ => Nat.zero_le _)
    simp only [List.length_nil, Nat.zero_add, List.nil_append] at hc
    refine ⟨?_, ?_, ?_⟩
    · intro hw hr
      rw [FS.copy, h1]
      simp only [hw, if_true, hf, Option.getD_some]
      have e1 : (fs.set d (some [])).readLimit s = none := h3
      have e2 : (fs.set d (some [])).canSeek s = true := h2
      have e3 : (fs.set d (some [])).room d = fs.room d := rfl
      rw [e1, e2, e3]
      simp only [limited, copyBytes, if_true, hc.1 hr]
      exact ⟨trivial, set_self _ _ _⟩
    · intro hw hr
      rw [FS.copy, h1]
      simp only [hw, if_true, hf, Option.getD_some]
      have e1 : (fs.set d (some [])).readLimit s = none := h3
      have e2 : (fs.set d (some [])).canSeek s = true := h2
      have e3 : (fs.set d (some [])).room d = fs.room d := rfl
      rw [e1, e2, e3]
      simp only [limited, copyBytes, if_true, hc.2 hr, Bool.false_eq_true, if_false]
      refine ⟨trivial, ?_⟩
      rw [FS.delete, if_pos]
      · exact set_self _ _ _
      · exact ⟨hd, by rw [set_self]; simp⟩
    · intro hw
      rw [FS.copy, h1]
      simp [hw]
  refine ⟨(copy_only fs s d).1, ?_⟩
  cases hw : fs.canWrite d with
  | false =>
    obtain ⟨k1, k2⟩ := key.2.2 hw
    rw [k1, k2]
    simp
  | true =>
    by_cases hr : Enough (fs.room d) content.length
    · obtain ⟨k1, k2⟩ := key.1 hw hr
      rw [k1, k2]
      simp [hr]
    · obtain ⟨k1, k2⟩ := key.2.1 hw hr
      rw [k1, k2]
      simp [hr]

/-- A file system with the file `a`, containing "xyz", in which everything works but reading `a` if so told. -/
def sample (limit : Option Nat) (seek : Bool) : FS where
  file p := if p = c!"a" then some c!"xyz" else none
  canWrite _ := true
  room _ := none
  readLimit _ := limit
  canSeek _ := seek
  canDelete _ := true

/-- C56, counterexample: a read error ends the copy early, but success is reported, file.c:154-163. -/
theorem C56_read_violated : ((sample (some 2) true).copy c!"a" c!"b").2 = .success ∧
    ((sample (some 2) true).copy c!"a" c!"b").1.file c!"b" = some c!"xy" := by decide

/-- C56, counterexample: when the source cannot be positioned nothing is copied, but success is reported,
file.c:152. -/
theorem C56_seek_violated : ((sample none false).copy c!"a" c!"b").2 = .success ∧
    ((sample none false).copy c!"a" c!"b").1.file c!"b" = some [] := by decide

/-- C56, counterexample: copying a file to itself makes it empty. -/
theorem C56_self_violated : ((sample none true).copy c!"a" c!"a").2 = .success ∧
    ((sample none true).copy c!"a" c!"a").1.file c!"a" = some [] := by decide

example : (sample none true).Readable c!"a" c!"xyz" ∧ ((sample none true).copy c!"a" c!"b").1.file c!"b" = some c!"xyz" :=
  ⟨⟨rfl, rfl, rfl⟩, by decide⟩

end Verif.File
