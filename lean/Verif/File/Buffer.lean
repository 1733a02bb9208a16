import Verif.File.Model

/-! # C113: success of writing and copying files, and the buffer of the stream

The models of C56 and C71 let `fwrite` report what does not reach the file. Streams have a buffer, so part of the bytes
reaches the file only with `fclose`, whose result the code ignores, file.c:590, 1034. Here is the same code with a
buffer. Opening the files is in those models. -/

namespace Verif.File.Buffer
open Verif

/-! ## Model -/

/-- How the C library buffers output: how many of the bytes kept are passed to the system, given how many were passed
before and how many there are now. No more than `capacity` bytes stay. -/
structure Stdio where
  send : Nat → Nat → Nat
  capacity : Nat
  bound : ∀ sent n, n - send sent n ≤ capacity

/-- A file opened for writing: the bytes kept in the buffer, those in the file, and how many the file can have (`none`
for any number). -/
structure Out where
  pending : CStr
  disk : CStr
  room : Option Nat
deriving DecidableEq, Repr

/-- Passes `k` bytes to the system; says whether all of them were written. -/
def Out.push (o : Out) (k : Nat) : Bool × Out :=
  let w := limited (o.room.map (· - o.disk.length)) (o.pending.take k)
  (w.length = (o.pending.take k).length, { o with disk := o.disk ++ w, pending := o.pending.drop w.length })

/-- `fwrite` (C library): whether it reports that all was written. -/
def fwrite (io : Stdio) (o : Out) (data : CStr) : Bool × Out :=
  ({ o with pending := o.pending ++ data } : Out).push (io.send o.disk.length (o.pending ++ data).length)

/-- `fclose` (C library), its result ignored: what is then in the file. -/
def fclose (o : Out) : CStr := (o.push o.pending.length).2.disk

/-- `fiftyoneDegreesFileWrite`, file.c:580-593, after the file was opened: the status and the file. -/
def write (io : Stdio) (room : Option Nat) (data : CStr) : Status × CStr :=
  let r := fwrite io ⟨[], [], room⟩ data
  (if data ≠ [] ∧ r.1 = true then .success else .fileFailure, fclose r.2)

/-- The loop of `fileCopy`, file.c:154-161, as in `copyLoop`. -/
def loop (io : Stdio) : Nat → CStr → Out → Bool × Out
  | 0, _, o => (true, o)
  | fuel + 1, source, o =>
    let buffer := source.take 8192
    if buffer.length > 0 then
      let r := fwrite io o buffer
      if r.1 = true then loop io fuel (source.drop 8192) r.2 else (false, r.2)
    else (true, o)

/-- `fiftyoneDegreesFileCopy`, file.c:1019-1042, after both files were opened, for a source that can be read and positioned
and a destination that can be deleted: the status and the destination. -/
def copy (io : Stdio) (room : Option Nat) (source : CStr) : Status × Option CStr :=
  let r := loop io (source.length + 1) source ⟨[], [], room⟩
  if r.1 = true then (.success, some (fclose r.2)) else (.fileCopyError, none)

/-- A stream that keeps less than a block of `b` bytes once the buffer was full, as the GNU C library does with `b` =
4096. -/
def blocks (b : Nat) (hb : 0 < b) : Stdio where
  send := fun _ n => if n ≤ b then 0 else n - n % b
  capacity := b
  bound := by
    intro _ n
    show n - (if n ≤ b then 0 else n - n % b) ≤ b
    split
    · omega
    · have := Nat.mod_lt n hb
      have := Nat.mod_le n b
      omega

/-! ## Specification -/

/-- There is room for all of the data. -/
def Enough (room : Option Nat) (data : CStr) : Prop := ∀ n, room = some n → data.length ≤ n

/-! ## Lemmas -/

theorem limited_prefix (l : Option Nat) (b : CStr) : limited l b <+: b := by
  cases l with
  | none => exact List.prefix_refl b
  | some n => exact List.take_prefix n b

theorem push_all (o : Out) (k : Nat) : (o.push k).2.disk ++ (o.push k).2.pending = o.disk ++ o.pending := by
  obtain ⟨t, ht⟩ := (limited_prefix (o.room.map (· - o.disk.length)) (o.pending.take k)).trans (List.take_prefix k o.pending)
  simp only [Out.push, List.append_assoc]
  congr 1
  generalize limited (o.room.map (· - o.disk.length)) (o.pending.take k) = w at *
  rw [← ht]
  simp

theorem push_room (o : Out) (k : Nat) : (o.push k).2.room = o.room := rfl

/-- A push that reports success has passed all `k` bytes. -/
theorem push_true {o : Out} {k : Nat} (h : (o.push k).1 = true) :
    (o.push k).2 = { o with disk := o.disk ++ o.pending.take k, pending := o.pending.drop k } := by
  simp only [Out.push, decide_eq_true_eq] at h ⊢
  have e := (limited_prefix (o.room.map (· - o.disk.length)) (o.pending.take k)).eq_of_length h
  rw [e]
  congr 1
  rw [List.length_take]
  rcases Nat.le_total k o.pending.length with hk | hk
  · rw [Nat.min_eq_left hk]
  · rw [Nat.min_eq_right hk, List.drop_eq_nil_of_le hk, List.drop_eq_nil_of_le (Nat.le_refl _)]

/-- When a push reports success. -/
theorem push_ok (o : Out) (k : Nat) :
    (o.push k).1 = true ↔ ∀ n, o.room = some n → (o.pending.take k).length ≤ n - o.disk.length := by
  simp only [Out.push, decide_eq_true_eq]
  cases hr : o.room with
  | none => simp [limited]
  | some n =>
    simp only [Option.map_some, limited, List.length_take (i := n - o.disk.length), Option.some.injEq, forall_eq']
    omega

/-- What is in the file after closing. -/
theorem fclose_eq (o : Out) : ∀ n, o.room = some n → o.disk.length ≤ n → fclose o = (o.disk ++ o.pending).take n := by
  intro n hr hn
  simp only [fclose, Out.push, hr, Option.map_some, limited, List.take_length]
  rw [List.take_append, List.take_of_length_le hn]

theorem fclose_none (o : Out) (h : o.room = none) : fclose o = o.disk ++ o.pending := by
  simp [fclose, Out.push, h, limited]

theorem fclose_prefix (o : Out) : fclose o <+: o.disk ++ o.pending := by
  have := push_all o o.pending.length
  simp only [fclose]
  rw [← this]
  exact List.prefix_append _ _

/-- Nothing is taken out of the file by closing. -/
theorem fclose_length (o : Out) : o.disk.length ≤ (fclose o).length := by
  simp [fclose, Out.push]

theorem fwrite_all (io : Stdio) (o : Out) (data : CStr) :
    (fwrite io o data).2.disk ++ (fwrite io o data).2.pending = o.disk ++ o.pending ++ data := by
  simp only [fwrite]
  rw [push_all]
  simp

theorem fwrite_pending {io : Stdio} {o : Out} {data : CStr} (h : (fwrite io o data).1 = true) :
    (fwrite io o data).2.pending.length ≤ io.capacity := by
  simp only [fwrite] at h ⊢
  rw [push_true h, List.length_drop]
  exact io.bound _ _

/-- A write that reports success does the same with any room. -/
theorem fwrite_none {io : Stdio} {o : Out} {data : CStr} (h : (fwrite io o data).1 = true) :
    fwrite io { o with room := none } data = (true, { (fwrite io o data).2 with room := none }) := by
  have h' : (fwrite io { o with room := none } data).1 = true := by
    simp only [fwrite]
    rw [push_ok]
    intro n hn
    cases hn
  refine Prod.ext h' ?_
  simp only [fwrite] at h h' ⊢
  rw [push_true h, push_true h']

theorem fwrite_some {io : Stdio} {o : Out} {data : CStr} {n : Nat}
    (hn : (fwrite io { o with room := none } data).2.disk.length ≤ n) :
    fwrite io { o with room := some n } data =
      (true, { (fwrite io { o with room := none } data).2 with room := some n }) := by
  have h0 : (fwrite io { o with room := none } data).1 = true := by
    simp only [fwrite]
    rw [push_ok]
    intro m hm
    cases hm
  have h' : (fwrite io { o with room := some n } data).1 = true := by
    simp only [fwrite] at h0 hn ⊢
    rw [push_true h0] at hn
    rw [push_ok]
    intro m hm
    simp only [Option.some.injEq] at hm
    subst hm
    simp only [List.length_append] at hn ⊢
    omega
  refine Prod.ext h' ?_
  simp only [fwrite] at h0 h' ⊢
  rw [push_true h0, push_true h']

theorem fwrite_disk (io : Stdio) (o : Out) (data : CStr) : o.disk.length ≤ (fwrite io o data).2.disk.length := by
  simp [fwrite, Out.push]

theorem loop_disk (io : Stdio) (fuel : Nat) (source : CStr) (o : Out) :
    o.disk.length ≤ (loop io fuel source o).2.disk.length := by
  induction fuel generalizing source o with
  | zero => exact Nat.le_refl _
  | succ fuel ih =>
    simp only [loop]
    split
    · split
      · exact Nat.le_trans (fwrite_disk io o _) (ih _ _)
      · exact fwrite_disk io o _
    · exact Nat.le_refl _

theorem loop_le (io : Stdio) (fuel : Nat) (source : CStr) (o : Out) (n : Nat) (hr : o.room = some n)
    (hd : o.disk.length ≤ n) : (loop io fuel source o).2.disk.length ≤ n := by
  have hw : ∀ (o : Out) (data : CStr), o.room = some n → o.disk.length ≤ n → (fwrite io o data).2.disk.length ≤ n := by
    intro o data hr hd
    simp only [fwrite, Out.push, hr, Option.map_some, limited, List.length_append, List.length_take]
    omega
  induction fuel generalizing source o with
  | zero => exact hd
  | succ fuel ih =>
    simp only [loop]
    split
    · split
      · exact ih _ _ hr (hw _ _ hr hd)
      · exact hw _ _ hr hd
    · exact hd

theorem loop_room (io : Stdio) (fuel : Nat) (source : CStr) (o : Out) : (loop io fuel source o).2.room = o.room := by
  induction fuel generalizing source o with
  | zero => rfl
  | succ fuel ih =>
    simp only [loop]
    split
    · split
      · rw [ih]; rfl
      · rfl
    · rfl

/-- The loop, when no write fails, has passed on the whole source. -/
theorem loop_all (io : Stdio) (fuel : Nat) (source : CStr) (o : Out) (hf : source.length < fuel)
    (h : (loop io fuel source o).1 = true) :
    (loop io fuel source o).2.disk ++ (loop io fuel source o).2.pending = o.disk ++ o.pending ++ source ∧
    (o.pending.length ≤ io.capacity → (loop io fuel source o).2.pending.length ≤ io.capacity) := by
  induction fuel generalizing source o with
  | zero => omega
  | succ fuel ih =>
    simp only [loop] at h ⊢
    by_cases hb : (source.take 8192).length > 0
    · simp only [if_pos hb] at h ⊢
      by_cases hw : (fwrite io o (source.take 8192)).1 = true
      · simp only [if_pos hw] at h ⊢
        have hl : (source.drop 8192).length < fuel := by
          rw [List.length_take] at hb
          rw [List.length_drop]; omega
        obtain ⟨h1, h2⟩ := ih _ _ hl h
        refine ⟨?_, fun _ => h2 (fwrite_pending hw)⟩
        rw [h1, fwrite_all]
        simp [List.append_assoc]
      · simp only [if_neg hw] at h
        cases h
    · simp only [if_neg hb]
      have : source = [] := by
        rw [List.length_take] at hb
        exact List.eq_nil_of_length_eq_zero (by omega)
      subst this
      simp

theorem loop_none {io : Stdio} {fuel : Nat} {source : CStr} {o : Out} (h : (loop io fuel source o).1 = true) :
    loop io fuel source { o with room := none } = (true, { (loop io fuel source o).2 with room := none }) := by
  induction fuel generalizing source o with
  | zero => rfl
  | succ fuel ih =>
    simp only [loop] at h ⊢
    by_cases hb : (source.take 8192).length > 0
    · simp only [if_pos hb] at h ⊢
      by_cases hw : (fwrite io o (source.take 8192)).1 = true
      · simp only [if_pos hw] at h
        rw [fwrite_none hw]
        simp only [if_true, if_pos hw]
        exact ih h
      · simp only [if_neg hw] at h
        cases h
    · simp only [if_neg hb]

theorem loop_none_true (io : Stdio) (fuel : Nat) (source : CStr) (o : Out) (ho : o.room = none) :
    (loop io fuel source o).1 = true := by
  induction fuel generalizing source o with
  | zero => rfl
  | succ fuel ih =>
    simp only [loop]
    have hw : (fwrite io o (source.take 8192)).1 = true := by
      simp only [fwrite]
      rw [push_ok]
      intro n hn
      simp only [ho] at hn
      cases hn
    split
    · exact ih _ _ ho
    · rfl

theorem loop_some {io : Stdio} {fuel : Nat} {source : CStr} {o : Out} {n : Nat}
    (h : (loop io fuel source { o with room := none }).2.disk.length ≤ n) :
    loop io fuel source { o with room := some n } =
      (true, { (loop io fuel source { o with room := none }).2 with room := some n }) := by
  induction fuel generalizing source o with
  | zero => rfl
  | succ fuel ih =>
    have hw : (fwrite io { o with room := none } (source.take 8192)).1 = true := by
      simp only [fwrite]
      rw [push_ok]
      intro n hn
      cases hn
    simp only [loop] at h ⊢
    by_cases hb : (source.take 8192).length > 0
    · simp only [if_pos hb, if_pos hw] at h ⊢
      have hd := loop_disk io fuel (source.drop 8192) (fwrite io { o with room := none } (source.take 8192)).2
      rw [fwrite_some (Nat.le_trans hd h)]
      simp only [if_true]
      exact ih (o := (fwrite io { o with room := none } (source.take 8192)).2) h
    · simp only [if_neg hb]

/-- What the writes of a copy of that source have passed to the system before the file is closed. -/
def sent (io : Stdio) (source : CStr) : CStr := (loop io (source.length + 1) source ⟨[], [], none⟩).2.disk

theorem fwrite_start (io : Stdio) (data : CStr) :
    fwrite io ⟨[], [], none⟩ data = (true, ⟨data.drop (io.send 0 data.length), data.take (io.send 0 data.length), none⟩) := by
  have h' : (fwrite io ⟨[], [], none⟩ data).1 = true := by
    simp only [fwrite]
    rw [push_ok]
    intro n hn
    cases hn
  refine Prod.ext h' ?_
  simp only [fwrite] at h' ⊢
  rw [push_true h']
  simp

theorem loop_start (io : Stdio) (data : CStr) :
    sent io data ++ (loop io (data.length + 1) data ⟨[], [], none⟩).2.pending = data := by
  have := (loop_all io (data.length + 1) data ⟨[], [], none⟩ (by omega) (loop_none_true io _ _ _ rfl)).1
  simpa [sent] using this

theorem copy_some (io : Stdio) (n : Nat) (data : CStr) (h : (sent io data).length ≤ n) :
    copy io (some n) data = (.success, some (data.take n)) := by
  have e := loop_some (o := ⟨[], [], none⟩) h
  have hd := loop_start io data
  simp only [copy]
  simp only at e
  rw [e]
  simp only [if_true]
  simp only [sent] at hd h
  rw [fclose_eq (Out.mk _ _ (some n)) n rfl h]
  simp only
  rw [hd]

theorem write_some (io : Stdio) (n : Nat) (data : CStr) (h : (data.take (io.send 0 data.length)).length ≤ n)
    (hn : data ≠ []) : write io (some n) data = (.success, data.take n) := by
  have e := fwrite_some (io := io) (o := ⟨[], [], none⟩) (data := data) (n := n) (by simp only [fwrite_start]; exact h)
  simp only [fwrite_start] at e
  simp only [write]
  rw [e]
  simp only [hn, ne_eq, not_false_eq_true, and_self, if_true]
  rw [fclose_eq _ n rfl h]
  simp

/-! ## Theorems -/

/-- C113: with room for all of it, writing and copying succeed (writing nothing does not, see C71) and the file has exactly the
bytes, however the C library buffers. -/
theorem C113_room (io : Stdio) (room : Option Nat) (data : CStr) (h : Enough room data) :
    (data ≠ [] → write io room data = (.success, data)) ∧ copy io room data = (.success, some data) := by
  cases room with
  | none =>
    refine ⟨fun hn => ?_, ?_⟩
    · simp only [write, fwrite_start]
      rw [fclose_none _ rfl]
      simp [hn]
    · have ht := loop_none_true io (data.length + 1) data ⟨[], [], none⟩ rfl
      simp only [copy, ht, if_true]
      rw [fclose_none _ (loop_room io _ _ _)]
      have := loop_start io data
      simp only [sent] at this
      rw [this]
  | some n =>
    have hl := h n rfl
    refine ⟨fun hn => ?_, ?_⟩
    · rw [write_some io n data (by rw [List.length_take]; omega) hn, List.take_of_length_le hl]
    · rw [copy_some io n data ?_, List.take_of_length_le hl]
      have := congrArg List.length (loop_start io data)
      rw [List.length_append] at this
      omega

/-- C113: whatever happens the file has a beginning of the bytes, and a failed copy leaves no file. -/
theorem C113_prefix (io : Stdio) (room : Option Nat) (data : CStr) :
    (write io room data).2 <+: data ∧ (∀ c, (copy io room data).2 = some c → c <+: data) ∧
    ((copy io room data).1 ≠ .success → (copy io room data).2 = none) := by
  refine ⟨?_, ?_, ?_⟩
  · have := fclose_prefix (fwrite io ⟨[], [], room⟩ data).2
    rw [fwrite_all] at this
    exact this
  · intro c hc
    simp only [copy] at hc
    split at hc
    · rename_i hl
      have hp := fclose_prefix (loop io (data.length + 1) data ⟨[], [], room⟩).2
      rw [(loop_all io _ _ _ (by omega) hl).1] at hp
      simp only [Option.some.injEq] at hc
      rw [← hc]
      simpa using hp
    · cases hc
  · intro hs
    simp only [copy] at hs ⊢
    split at hs
    · exact absurd rfl hs
    · rename_i hl
      rw [if_neg hl]

/-- C113, partial: when success is reported, at most what fits the buffer is missing, at the end of the file; without a buffer
nothing is. Missing: that nothing is, see `C113_write_violated` and `C113_copy_violated`. -/
theorem C113_lost_partial (io : Stdio) (room : Option Nat) (data c : CStr)
    (h : write io room data = (.success, c) ∨ copy io room data = (.success, some c)) :
    c <+: data ∧ data.length ≤ c.length + io.capacity ∧ (io.capacity = 0 → c = data) := by
  have key : c <+: data ∧ data.length ≤ c.length + io.capacity := by
    rcases h with h | h
    · have hp := (C113_prefix io room data).1
      rw [h] at hp
      refine ⟨hp, ?_⟩
      simp only [write, Prod.mk.injEq] at h
      obtain ⟨h1, h2⟩ := h
      split at h1
      · rename_i hok
        have h3 := fwrite_pending hok.2
        have h4 := congrArg List.length (fwrite_all io ⟨[], [], room⟩ data)
        have h5 := fclose_length (fwrite io ⟨[], [], room⟩ data).2
        rw [h2] at h5
        simp only [List.length_append, List.length_nil] at h4
        omega
      · cases h1
    · have hp := (C113_prefix io room data).2.1 c (by rw [h])
      refine ⟨hp, ?_⟩
      simp only [copy] at h
      split at h
      · rename_i hl
        obtain ⟨h1, h2⟩ := loop_all io _ _ _ (by omega) hl
        have h2 := h2 (Nat.zero_le _)
        have h4 := congrArg List.length h1
        have h5 := fclose_length (loop io (data.length + 1) data ⟨[], [], room⟩).2
        simp only [Prod.mk.injEq, Option.some.injEq, true_and] at h
        rw [h] at h5
        simp only [List.length_append, List.length_nil] at h4
        omega
      · simp at h
  refine ⟨key.1, key.2, fun h0 => key.1.eq_of_length_le ?_⟩
  have := key.2
  omega

/-- C113: exactly when a copy succeeds, and what the file then has. -/
theorem C113_copy_success (io : Stdio) (n : Nat) (data : CStr) :
    ((copy io (some n) data).1 = .success ↔ (sent io data).length ≤ n) ∧
    ((copy io (some n) data).1 = .success → (copy io (some n) data).2 = some (data.take n)) := by
  have key : (copy io (some n) data).1 = .success → (sent io data).length ≤ n := by
    intro h
    simp only [copy] at h
    split at h
    · rename_i hl
      have e := loop_none hl
      simp only at e
      simp only [sent, e]
      exact loop_le io _ _ _ n rfl (Nat.zero_le _)
    · cases h
  refine ⟨⟨key, fun h => by rw [copy_some io n data h]⟩, fun h => by rw [copy_some io n data (key h)]⟩

/-- C113 is violated for every way of buffering, and everything written of which some bytes stay in the buffer: if there
is only room for the others, success is reported and the file is not complete. -/
theorem C113_write_violated (io : Stdio) (data : CStr) (h : io.send 0 data.length < data.length) :
    write io (some (io.send 0 data.length)) data = (.success, data.take (io.send 0 data.length)) ∧
    data.take (io.send 0 data.length) ≠ data := by
  refine ⟨write_some io _ data (by rw [List.length_take]; omega) (by rintro rfl; simp at h), ?_⟩
  intro e
  have := congrArg List.length e
  rw [List.length_take] at this
  omega

/-- C113 is violated: the same for copies. -/
theorem C113_copy_violated (io : Stdio) (data : CStr) (h : (sent io data).length < data.length) :
    copy io (some (sent io data).length) data = (.success, some (sent io data)) ∧ sent io data ≠ data := by
  refine ⟨?_, fun e => by rw [e] at h; omega⟩
  rw [copy_some io _ data (Nat.le_refl _)]
  have := loop_start io data
  generalize (loop io (data.length + 1) data ⟨[], [], none⟩).2.pending = q at this
  have e : data.take (sent io data).length = sent io data := by
    generalize sent io data = w at this
    rw [← this]
    simp
  rw [e]

/-- Ten bytes through a buffer of four: eight are sent, two are kept. With room for nine, one is lost and success is
reported; with room for seven the copy fails. -/
example : sent (blocks 4 (by decide)) c!"0123456789" = c!"01234567" ∧
    copy (blocks 4 (by decide)) (some 9) c!"0123456789" = (.success, some c!"012345678") ∧
    write (blocks 4 (by decide)) (some 9) c!"0123456789" = (.success, c!"012345678") ∧
    copy (blocks 4 (by decide)) (some 7) c!"0123456789" = (.fileCopyError, none) ∧
    write (blocks 4 (by decide)) (some 7) c!"0123456789" = (.fileFailure, c!"0123456") ∧
    Enough (some 10) c!"0123456789" := by
  refine ⟨by decide, by decide, by decide, by decide, by decide, ?_⟩
  intro n hn
  simp only [Option.some.injEq] at hn
  subst hn
  decide

/-- The hypotheses of the counterexamples are met by all that is no longer than the buffer. -/
example (b : Nat) (hb : 0 < b) (data : CStr) (hd : data ≠ []) (h : data.length ≤ b) :
    (blocks b hb).send 0 data.length < data.length := by
  show (if data.length ≤ b then 0 else _) < _
  rw [if_pos h]
  exact List.length_pos_iff.mpr hd

end Verif.File.Buffer
