import Verif.Collection.Props

/-! # C88: items read from the file by any number of threads

`getFile` (collection.c:272-297) with the read methods (945-1157) step by step, by any number of threads in any order, on
any collections of one data file. They share the handles of one pool. A handle is an open `FILE`, with a position of its own,
which `fseek` sets and `fread` starts from and moves. Each of the calls to get a handle, seek, read and give back is a step.

`fiftyoneDegreesPoolItemGet` and `ItemRelease` are one step each: some handle that is in the pool is taken, or there is none;
that this is so with any number of threads is C09 and C10. The memory an item is read to is the thread's own, see `readItem`.

`step` is `none` for a step that cannot be taken now and for undefined behaviour. -/

namespace Verif.Collection.Reading

/-- How a read fails: as it does alone, on an error of `fseek` or `fread` by the system, or with
`FIFTYONE_DEGREES_STATUS_INSUFFICIENT_HANDLES`, pool.c:94-97. -/
inductive Fail where
  | err (e : Err)
  | seek
  | read
  | noHandle
deriving DecidableEq, Repr

abbrev Result := Except Fail CStr

/-- Where a thread is. -/
inductive Pc where
  /-- In no call. -/
  | idle
  /-- Before `FileHandleGet`, collection.c:955, 1133; `place` is the position of the item in the file. -/
  | take (f : FileColl) (key : UInt32) (place : Nat)
  /-- Before `fseek`, collection.c:963, 1049. -/
  | seek (f : FileColl) (key : UInt32) (h place : Nat)
  /-- Before the first `fread`, collection.c:1002, 1053. -/
  | first (f : FileColl) (key : UInt32) (h : Nat)
  /-- Before the second `fread`, collection.c:1068. -/
  | rest (f : FileColl) (key : UInt32) (h : Nat) (initial : CStr) (left : Nat)
  /-- Before `FileHandleRelease`, collection.c:966, 1025, 1148. -/
  | give (f : FileColl) (key : UInt32) (h : Nat) (r : Result)
  /-- Before the return. -/
  | leave (f : FileColl) (key : UInt32) (r : Result)

/-- The positions of the handles, the handles in the pool, and the threads. -/
structure State where
  pos : Nat → Nat
  free : List Nat
  pcs : List Pc

/-- What a thread does next: a call, a handle it is given, the next step, or that step with an error of the system. -/
inductive Act where
  | get (f : FileColl) (key : UInt32)
  | handle (h : Nat)
  | run
  | fault

def State.goto (s : State) (t : Nat) (pc : Pc) : State := { s with pcs := s.pcs.set t pc }

def State.move (s : State) (h p : Nat) : State := { s with pos := fun x => if x = h then p else s.pos x }

/-- The tests before a handle is asked for: collection.c:985, 992, 952 and 1130. -/
def enter (f : FileColl) (key : UInt32) : Pc :=
  match f.read with
  | .fixed =>
    let offset := key.toNat * f.elementSize % 2 ^ 32
    if key.toNat < f.count then
      if offset < f.size then .take f key (f.offset + offset) else .leave f key (.error (.err .offsetOutOfRange))
    else .leave f key (.error (.err .indexOutOfRange))
  | .variable _ _ =>
    if key.toNat < f.size then .take f key (f.offset + key.toNat) else .leave f key (.error (.err .offsetOutOfRange))

/-- `fread(.., n, 1, handle->file)`: the bytes, and the position after. After a read that fails it is at the end. -/
def fread (file : CStr) (s : State) (h n : Nat) : Option CStr × State :=
  match slice file (s.pos h) n with
  | some bytes => (some bytes, s.move h (s.pos h + n))
  | none => (none, s.move h file.length)

/-- What follows the first `fread` of an item of variable size, collection.c:1056-1084. A size below that of the part read is
undefined: the part is copied to memory of that size. -/
def afterFirst (f : FileColl) (key : UInt32) (h n : Nat) (g : CStr → Nat) (initial : CStr) : Option Pc :=
  if g initial < n then none
  else if g initial - n > 0 then some (.rest f key h initial (g initial - n))
  else some (.give f key h (.ok initial))

/-- The next step of a thread. The second part is what a call that returns was for, and its result. -/
def State.run (file : CStr) (s : State) (t : Nat) : Pc → Option (State × Option (FileColl × UInt32 × Result))
  | .idle => none
  | .take f key _ => if s.free = [] then some (s.goto t (.leave f key (.error .noHandle)), none) else none
  | .seek f key h place => some ((s.move h place).goto t (.first f key h), none)
  | .first f key h =>
    match f.read with
    | .fixed =>
      match fread file s h f.elementSize with
      | (some bytes, s) => some (s.goto t (.give f key h (.ok bytes)), none)
      | (none, s) => some (s.goto t (.give f key h (.error (.err .fileReadFail))), none)
    | .variable n g =>
      match fread file s h n with
      | (some initial, s) => (afterFirst f key h n g initial).map fun pc => (s.goto t pc, none)
      | (none, s) => some (s.goto t (.give f key h (.error (.err .fileReadFail))), none)
  | .rest f key h initial left =>
    match fread file s h left with
    | (some bytes, s) => some (s.goto t (.give f key h (.ok (initial ++ bytes))), none)
    | (none, s) => some (s.goto t (.give f key h (.error (.err .fileReadFail))), none)
  | .give f key h r => some ({ s with free := h :: s.free }.goto t (.leave f key r), none)
  | .leave f key r => some (s.goto t .idle, some (f, key, r))

/-- A step with an error of `fseek` or `fread`; where that leaves the handle does not matter. -/
def State.fault (s : State) (t : Nat) : Pc → Option State
  | .seek f key h _ => some (s.goto t (.give f key h (.error .seek)))
  | .first f key h => some (s.goto t (.give f key h (.error .read)))
  | .rest f key h _ _ => some (s.goto t (.give f key h (.error .read)))
  | _ => none

/-- One step of one thread. -/
def step (file : CStr) (s : State) (t : Nat) (a : Act) : Option (State × Option (FileColl × UInt32 × Result)) :=
  match s.pcs[t]? with
  | none => none
  | some pc =>
    match a, pc with
    | .get f key, .idle => some (s.goto t (enter f key), none)
    | .handle h, .take f key place =>
      if h ∈ s.free then some ({ s with free := s.free.erase h }.goto t (.seek f key h place), none) else none
    | .run, pc => s.run file t pc
    | .fault, pc => (s.fault t pc).map (·, none)
    | _, _ => none

abbrev Schedule := List (Nat × Act)

/-- The steps of a schedule, with the results of the calls that returned, in the order of their returns. -/
def exec (file : CStr) (s : State) : Schedule → Option (State × List (FileColl × UInt32 × Result))
  | [] => some (s, [])
  | (t, a) :: rest => (step file s t a).bind fun r => (exec file r.1 rest).map fun q => (q.1, r.2.toList ++ q.2)

/-! ## Specification -/

/-- All handles are in the pool, at any position, and no thread is in a call. -/
structure Start (handles : List Nat) (s : State) : Prop where
  nodup : handles.Nodup
  free : s.free = handles
  idle : ∀ pc ∈ s.pcs, pc = .idle

/-- The state after any schedule, with the results. -/
def Reached (file : CStr) (handles : List Nat) (s : State) (log : List (FileColl × UInt32 × Result)) : Prop :=
  ∃ s0 sched, Start handles s0 ∧ exec file s0 sched = some (s, log)

/-- The handle a thread has. -/
def Pc.holds : Pc → Option Nat
  | .seek _ _ h _ | .first _ _ h | .rest _ _ h _ _ | .give _ _ h _ => some h
  | _ => none

/-- What the call is for. -/
def Pc.asked : Pc → Option (FileColl × UInt32)
  | .idle => none
  | .take f key _ | .seek f key _ _ | .first f key _ | .rest f key _ _ _ | .give f key _ _ | .leave f key _ => some (f, key)

/-- The result is the one of the same call with no other thread, or an error of the system, or that there is no handle. -/
def AsAlone (file : CStr) (f : FileColl) (key : UInt32) : Result → Prop
  | .ok bytes => loader file f key = some (bytes, none)
  | .error (.err e) => loader file f key = some ([], some e)
  | .error _ => True

/-- The number of steps a thread has left until its call returns, at most. -/
def Pc.left : Pc → Nat
  | .idle => 0
  | .leave .. => 1
  | .give .. => 2
  | .rest .. => 3
  | .first .. => 4
  | .seek .. => 5
  | .take .. => 6

/-! ## Lemmas -/

/-- Where the item is, and that the key is in range. -/
def place (f : FileColl) (key : UInt32) : Nat :=
  match f.read with
  | .fixed => f.offset + key.toNat * f.elementSize % 2 ^ 32
  | .variable _ _ => f.offset + key.toNat

def InRange (f : FileColl) (key : UInt32) : Prop :=
  match f.read with
  | .fixed => key.toNat < f.count ∧ key.toNat * f.elementSize % 2 ^ 32 < f.size
  | .variable _ _ => key.toNat < f.size

theorem loader_fixed {file : CStr} {f : FileColl} {key : UInt32} (hf : f.read = .fixed) (hr : InRange f key) :
    loader file f key = match slice file (place f key) f.elementSize with
      | some bytes => some (bytes, none)
      | none => some ([], some .fileReadFail) := by
  rw [InRange, hf] at hr
  rw [loader, getFile, readItem, place, hf]
  simp only
  rw [readFixed]
  simp only [hr.1, hr.2, if_true]
  rw [dataMalloc_clean (by rfl)]
  cases hs : slice file (f.offset + key.toNat * f.elementSize % 2 ^ 32) f.elementSize with
  | none =>
    simp only [hs, Heap.malloc, Heap.free, if_true, Option.map_some]
  | some bytes =>
    have hl := slice_length hs
    obtain ⟨h', w1, w2, -⟩ := write_fresh ⟨0, fun _ => none⟩ bytes
    rw [hl] at w1
    simp only [w1, Option.map_some]
    by_cases h0 : f.elementSize > 0
    · simp only [h0, if_true, w2, Option.map_some]
      rw [← hl, List.take_length]
    · have : bytes = [] := List.length_eq_zero_iff.1 (by omega)
      simp only [h0, if_false, this]

theorem loader_variable {file : CStr} {f : FileColl} {key : UInt32} {n : Nat} {g : CStr → Nat} (hf : f.read = .variable n g)
    (hr : InRange f key) :
    loader file f key = match slice file (place f key) n with
      | none => some ([], some .fileReadFail)
      | some initial =>
        if g initial < n then none
        else if g initial - n > 0 then
          match slice file (place f key + n) (g initial - n) with
          | some bytes => some (initial ++ bytes, none)
          | none => some ([], some .fileReadFail)
        else some (initial, none) := by
  rw [InRange, hf] at hr
  rw [loader, getFile, readItem, place, hf]
  simp only
  rw [readVariable]
  simp only at hr
  simp only [hr, if_true]
  rw [readVariableAt]
  cases hs : slice file (f.offset + key.toNat) n with
  | none => rfl
  | some initial =>
    have hl := slice_length hs
    simp only
    rw [dataMalloc_clean (by rfl)]
    simp only
    by_cases hn : g initial < n
    · rw [if_pos hn]
      simp only [Heap.malloc, Heap.write, if_true, List.length_replicate]
      rw [if_neg (by omega)]
    · rw [if_neg hn]
      obtain ⟨h1, w1, w2⟩ := write_at (h := (Heap.malloc ⟨0, fun _ => none⟩ (g initial)).1) (i := 0)
        (old := List.replicate (g initial) 0) rfl 0 initial (by simp; omega)
      have hleft : sub32 (g initial) n = g initial - n := by rw [sub32, if_pos (by omega)]
      simp only [w1, hleft]
      simp only [List.take_zero, List.nil_append, Nat.zero_add, List.drop_replicate] at w2
      by_cases hz : g initial - n > 0
      · simp only [hz, if_true]
        cases hs2 : slice file (f.offset + key.toNat + n) (g initial - n) with
        | none => simp only [Heap.free, w2]; rfl
        | some bytes =>
          have hl2 := slice_length hs2
          obtain ⟨h2, w3, w4⟩ := write_at w2 n bytes (by simp; omega)
          simp only [w3, Option.map_some]
          rw [List.take_left' hl] at w4
          rw [if_pos (by omega), w4, Option.map_some, List.take_left' (by simp; omega)]
      · simp only [hz, if_false]
        have hge : g initial = n := by omega
        by_cases h0 : g initial > 0
        · simp only [h0, if_true, w2, Option.map_some]
          rw [List.take_append_of_le_length (by omega), List.take_of_length_le (by omega)]
        · have : initial = [] := List.length_eq_zero_iff.1 (by omega)
          subst this
          simp only [h0, if_false]

theorem loader_outRange {file : CStr} {f : FileColl} {key : UInt32} {r : Result} (h : enter f key = .leave f key r) :
    AsAlone file f key r := by
  rw [enter] at h
  cases hf : f.read with
  | fixed =>
    simp only [hf] at h
    split at h
    · next h1 =>
      split at h
      · cases h
      · next h2 =>
        cases h
        rw [AsAlone, loader, getFile, readItem, hf]
        simp only
        rw [readFixed]
        simp only [h1, h2, if_true, if_false]
    · next h1 =>
      cases h
      rw [AsAlone, loader, getFile, readItem, hf]
      simp only
      rw [readFixed]
      simp only [h1, if_false]
  | «variable» n g =>
    simp only [hf] at h
    split at h
    · cases h
    · next h1 =>
      cases h
      rw [AsAlone, loader, getFile, readItem, hf]
      simp only
      rw [readVariable]
      simp only [h1, if_false]

theorem enter_cases (f : FileColl) (key : UInt32) :
    (∃ r, enter f key = .leave f key r) ∨ (enter f key = .take f key (place f key) ∧ InRange f key) := by
  rw [enter, place, InRange]
  cases hf : f.read with
  | fixed =>
    simp only
    split
    · next h1 =>
      split
      · next h2 => exact .inr ⟨rfl, h1, h2⟩
      · exact .inl ⟨_, rfl⟩
    · exact .inl ⟨_, rfl⟩
  | «variable» n g =>
    simp only
    split
    · next h1 => exact .inr ⟨rfl, h1⟩
    · exact .inl ⟨_, rfl⟩

/-- What is known of a thread, by the position of its handle. -/
def Pc.Ok (file : CStr) (pos : Nat → Nat) : Pc → Prop
  | .idle => True
  | .take f key p => InRange f key ∧ p = place f key
  | .seek f key _ p => InRange f key ∧ p = place f key
  | .first f key h => InRange f key ∧ pos h = place f key
  | .rest f key h initial left => InRange f key ∧ ∃ n g, f.read = .variable n g ∧ slice file (place f key) n = some initial ∧
      n ≤ g initial ∧ left = g initial - n ∧ 0 < left ∧ pos h = place f key + n
  | .give f key _ r | .leave f key r => AsAlone file f key r

structure RInv (file : CStr) (handles : List Nat) (s : State) : Prop where
  nodup : handles.Nodup
  all : (s.pcs.filterMap Pc.holds ++ s.free).Perm handles
  ok : ∀ pc ∈ s.pcs, pc.Ok file s.pos

/-- Another thread's handle is not moved. -/
theorem Pc.Ok.other {file : CStr} {pos pos' : Nat → Nat} {pc : Pc} (h : pc.Ok file pos)
    (hp : ∀ x, pc.holds = some x → pos' x = pos x) : pc.Ok file pos' := by
  cases pc with
  | first f key x => exact ⟨h.1, by rw [hp x rfl]; exact h.2⟩
  | rest f key x initial left =>
    obtain ⟨h1, n, g, h2, h3, h4, h5, h6, h7⟩ := h
    exact ⟨h1, n, g, h2, h3, h4, h5, h6, by rw [hp x rfl]; exact h7⟩
  | _ => exact h

theorem set_perm (f : Pc → Option Nat) {l : List Pc} {t : Nat} {old : Pc} (h : l[t]? = some old) :
    ∃ rest, (l.filterMap f).Perm ((f old).toList ++ rest) ∧
      ∀ x, ((l.set t x).filterMap f).Perm ((f x).toList ++ rest) := by
  induction l generalizing t with
  | nil => simp at h
  | cons a l ih =>
    cases t with
    | zero =>
      simp only [List.getElem?_cons_zero, Option.some.injEq] at h
      subst h
      refine ⟨l.filterMap f, ?_, fun x => ?_⟩
      · rw [List.filterMap_cons]; cases f a <;> exact .refl _
      · rw [List.set_cons_zero, List.filterMap_cons]; cases f x <;> exact .refl _
    | succ t =>
      simp only [List.getElem?_cons_succ] at h
      obtain ⟨rest, h1, h2⟩ := ih h
      have key : ∀ (m : List Pc) (x : Pc), (m.filterMap f).Perm ((f x).toList ++ rest) →
          ((a :: m).filterMap f).Perm ((f x).toList ++ ((f a).toList ++ rest)) := by
        intro m x hm
        have : ((a :: m).filterMap f).Perm ((f a).toList ++ m.filterMap f) := by
          rw [List.filterMap_cons]; cases f a <;> exact .refl _
        refine this.trans ((List.Perm.append_left _ hm).trans ?_)
        rw [← List.append_assoc, ← List.append_assoc]
        exact List.Perm.append_right _ List.perm_append_comm
      exact ⟨(f a).toList ++ rest, key l old h1, fun x => by rw [List.set_cons_succ]; exact key _ x (h2 x)⟩

variable {file : CStr} {handles : List Nat} {s s' : State} {log : List (FileColl × UInt32 × Result)}

theorem RInv.exclusive (h : RInv file handles s) {t u x : Nat} {pc pc' : Pc} (ht : s.pcs[t]? = some pc) (hu : s.pcs[u]? = some pc')
    (hx : pc.holds = some x) (hx' : pc'.holds = some x) : t = u := by
  refine Classical.byContradiction fun hne => ?_
  obtain ⟨rest, h1, h2⟩ := set_perm Pc.holds ht
  have hnd : (s.pcs.filterMap Pc.holds).Nodup := (List.nodup_append.1 (h.all.nodup_iff.2 h.nodup)).1
  have h3 := h1.nodup_iff.1 hnd
  rw [hx] at h3
  have h4 : (s.pcs.set t .idle)[u]? = some pc' := by rw [List.getElem?_set_ne hne]; exact hu
  have h5 : x ∈ (s.pcs.set t .idle).filterMap Pc.holds := List.mem_filterMap.2 ⟨pc', List.mem_of_getElem? h4, hx'⟩
  have h6 := (h2 .idle).mem_iff.1 h5
  exact (List.nodup_cons.1 h3).1 h6

/-- A step of a thread which keeps its handle, and moves no other. -/
theorem RInv.keep (h : RInv file handles s) {t : Nat} {pc pc' : Pc} (hpc : s.pcs[t]? = some pc)
    (e1 : s'.pcs = s.pcs.set t pc') (hh : pc'.holds = pc.holds) (e2 : s'.free = s.free) (hp : ∀ x, pc.holds ≠ some x → s'.pos x = s.pos x)
    (ok : pc'.Ok file s'.pos) : RInv file handles s' := by
  obtain ⟨rest, h1, h2⟩ := set_perm Pc.holds hpc
  refine ⟨h.nodup, ?_, ?_⟩
  · rw [e1, e2]
    refine (List.Perm.append_right _ ((h2 pc').trans ?_)).trans h.all
    rw [hh]; exact h1.symm
  · intro q hq
    rw [e1] at hq
    obtain ⟨u, hu⟩ := List.mem_iff_getElem?.1 hq
    by_cases htu : t = u
    · subst htu
      rw [List.getElem?_set_self (List.getElem?_eq_some_iff.1 hpc).1] at hu
      cases hu; exact ok
    · rw [List.getElem?_set_ne htu] at hu
      refine (h.ok q (List.mem_of_getElem? hu)).other fun x hx => hp x fun hx' => ?_
      exact htu (h.exclusive hpc hu hx' hx)

theorem AsAlone.fault {f : FileColl} {key : UInt32} : AsAlone file f key (.error .seek) ∧ AsAlone file f key (.error .read) ∧
    AsAlone file f key (.error .noHandle) := ⟨trivial, trivial, trivial⟩

theorem fread_spec (file : CStr) (s : State) (h n : Nat) :
    (∃ bytes, slice file (s.pos h) n = some bytes ∧ fread file s h n = (some bytes, s.move h (s.pos h + n))) ∨
    (slice file (s.pos h) n = none ∧ fread file s h n = (none, s.move h file.length)) := by
  rw [fread]
  cases hs : slice file (s.pos h) n with
  | none => exact .inr ⟨rfl, rfl⟩
  | some bytes => exact .inl ⟨bytes, rfl, rfl⟩

theorem move_ne {s : State} {h p x : Nat} (hx : (some h : Option Nat) ≠ some x) : (s.move h p).pos x = s.pos x := by
  show (if x = h then p else s.pos x) = s.pos x
  rw [if_neg (fun e => hx (by rw [e]))]

theorem RInv.run (h : RInv file handles s) {t : Nat} {pc : Pc} (hpc : s.pcs[t]? = some pc)
    {r : Option (FileColl × UInt32 × Result)} (hs : s.run file t pc = some (s', r)) :
    RInv file handles s' ∧ ∀ x ∈ r.toList, AsAlone file x.1 x.2.1 x.2.2 := by
  have hok := h.ok pc (List.mem_of_getElem? hpc)
  cases pc with
  | idle => cases hs
  | take f key p =>
    rw [State.run] at hs
    split at hs
    · cases hs
      exact ⟨h.keep hpc rfl rfl rfl (fun _ _ => rfl) trivial, by simp⟩
    · cases hs
  | seek f key x p =>
    cases hs
    refine ⟨h.keep hpc rfl rfl rfl (fun y hy => move_ne hy) ⟨hok.1, ?_⟩, by simp⟩
    show (if x = x then p else s.pos x) = place f key
    rw [if_pos rfl]; exact hok.2
  | first f key x =>
    obtain ⟨hr, hp⟩ := hok
    rw [State.run] at hs
    cases hf : f.read with
    | fixed =>
      simp only [hf] at hs
      have hl := loader_fixed (file := file) hf hr
      rcases fread_spec file s x f.elementSize with ⟨bytes, k1, k2⟩ | ⟨k1, k2⟩
      · rw [k2] at hs; cases hs
        refine ⟨h.keep hpc rfl rfl rfl (fun y hy => move_ne hy) ?_, by simp⟩
        rw [hp] at k1; rw [k1] at hl; exact hl
      · rw [k2] at hs; cases hs
        refine ⟨h.keep hpc rfl rfl rfl (fun y hy => move_ne hy) ?_, by simp⟩
        rw [hp] at k1; rw [k1] at hl; exact hl
    | «variable» n g =>
      simp only [hf] at hs
      have hl := loader_variable (file := file) hf hr
      rcases fread_spec file s x n with ⟨initial, k1, k2⟩ | ⟨k1, k2⟩
      · rw [k2] at hs
        simp only [Option.map_eq_some_iff] at hs
        obtain ⟨pc', h1, hs⟩ := hs
        cases hs
        rw [hp] at k1
        rw [k1] at hl
        simp only at hl
        rw [afterFirst] at h1
        split at h1
        · cases h1
        · next hn =>
          rw [if_neg hn] at hl
          split at h1
          · next hz =>
            cases h1
            refine ⟨h.keep hpc rfl rfl rfl (fun y hy => move_ne hy) ⟨hr, n, g, hf, k1, by omega, rfl, hz, ?_⟩, by simp⟩
            show (if x = x then s.pos x + n else s.pos x) = _
            rw [if_pos rfl, hp]
          · next hz =>
            cases h1
            rw [if_neg hz] at hl
            exact ⟨h.keep hpc rfl rfl rfl (fun y hy => move_ne hy) hl, by simp⟩
      · rw [k2] at hs; cases hs
        refine ⟨h.keep hpc rfl rfl rfl (fun y hy => move_ne hy) ?_, by simp⟩
        rw [hp] at k1; rw [k1] at hl; exact hl
  | rest f key x initial left =>
    obtain ⟨hr, n, g, h1, h2, h3, h4, h5, h6⟩ := hok
    rw [State.run] at hs
    have hl := loader_variable (file := file) h1 hr
    rw [h2] at hl
    simp only at hl
    rw [if_neg (by omega), if_pos (by omega), ← h4, ← h6] at hl
    rcases fread_spec file s x left with ⟨bytes, k1, k2⟩ | ⟨k1, k2⟩
    · rw [k2] at hs; cases hs
      rw [k1] at hl
      exact ⟨h.keep hpc rfl rfl rfl (fun y hy => move_ne hy) hl, by simp⟩
    · rw [k2] at hs; cases hs
      rw [k1] at hl
      exact ⟨h.keep hpc rfl rfl rfl (fun y hy => move_ne hy) hl, by simp⟩
  | give f key x r' =>
    cases hs
    obtain ⟨rest, h1, h2⟩ := set_perm Pc.holds hpc
    refine ⟨⟨h.nodup, ?_, ?_⟩, by simp⟩
    · refine ((h2 (.leave f key r')).append_right _).trans ?_
      refine List.Perm.trans ?_ ((h1.append_right s.free).symm.trans h.all)
      show (rest ++ x :: s.free).Perm (x :: (rest ++ s.free))
      exact List.perm_middle
    · intro q hq
      rcases List.mem_or_eq_of_mem_set hq with hq | rfl
      · exact h.ok q hq
      · exact hok
  | leave f key r' =>
    cases hs
    refine ⟨h.keep hpc rfl rfl rfl (fun _ _ => rfl) trivial, fun x hx => ?_⟩
    simp only [Option.toList_some, List.mem_singleton] at hx
    subst hx
    exact hok

theorem RInv.step (h : RInv file handles s) {t : Nat} {a : Act} {r : Option (FileColl × UInt32 × Result)}
    (hs : Reading.step file s t a = some (s', r)) : RInv file handles s' ∧ ∀ x ∈ r.toList, AsAlone file x.1 x.2.1 x.2.2 := by
  rw [Reading.step] at hs
  cases hpc : s.pcs[t]? with
  | none => rw [hpc] at hs; cases hs
  | some pc =>
    rw [hpc] at hs
    simp only at hs
    have hok := h.ok pc (List.mem_of_getElem? hpc)
    cases a with
    | run => exact h.run hpc hs
    | fault =>
      simp only [Option.map_eq_some_iff] at hs
      obtain ⟨s1, h1, hs⟩ := hs
      cases hs
      cases pc with
      | seek f key x p => cases h1; exact ⟨h.keep hpc rfl rfl rfl (fun _ _ => rfl) trivial, by simp⟩
      | first f key x => cases h1; exact ⟨h.keep hpc rfl rfl rfl (fun _ _ => rfl) trivial, by simp⟩
      | rest f key x initial left => cases h1; exact ⟨h.keep hpc rfl rfl rfl (fun _ _ => rfl) trivial, by simp⟩
      | _ => cases h1
    | get f key =>
      cases pc with
      | idle =>
        cases hs
        refine ⟨?_, by simp⟩
        rcases enter_cases f key with ⟨r, he⟩ | ⟨he, hr⟩
        · exact h.keep hpc (pc' := enter f key) rfl (by rw [he]; rfl) rfl (fun _ _ => rfl) (by rw [he]; exact loader_outRange he)
        · exact h.keep hpc (pc' := enter f key) rfl (by rw [he]; rfl) rfl (fun _ _ => rfl) (by rw [he]; exact ⟨hr, rfl⟩)
      | _ => cases hs
    | handle x =>
      cases pc with
      | take f key p =>
        simp only at hs
        split at hs
        · next hx =>
          cases hs
          obtain ⟨rest, h1, h2⟩ := set_perm Pc.holds hpc
          refine ⟨⟨h.nodup, ?_, ?_⟩, by simp⟩
          · refine ((h2 (.seek f key x p)).append_right _).trans ?_
            refine List.Perm.trans ?_ ((h1.append_right s.free).symm.trans h.all)
            show (x :: (rest ++ s.free.erase x)).Perm (rest ++ s.free)
            exact List.perm_middle.symm.trans ((List.perm_cons_erase hx).symm.append_left rest)
          · intro q hq
            rcases List.mem_or_eq_of_mem_set hq with hq | rfl
            · exact h.ok q hq
            · exact hok
        · cases hs
      | _ => cases hs

theorem RInv.exec {sched : Schedule} : ∀ {s s' : State} {log : List (FileColl × UInt32 × Result)}, RInv file handles s →
    Reading.exec file s sched = some (s', log) → RInv file handles s' ∧ ∀ x ∈ log, AsAlone file x.1 x.2.1 x.2.2 := by
  induction sched with
  | nil => intro s s' log h he; cases he; exact ⟨h, by simp⟩
  | cons x rest ih =>
    intro s s' log h he
    obtain ⟨t, a⟩ := x
    rw [Reading.exec, Option.bind_eq_some_iff] at he
    obtain ⟨⟨s1, r⟩, h1, he⟩ := he
    rw [Option.map_eq_some_iff] at he
    obtain ⟨⟨s2, q⟩, h2, he⟩ := he
    cases he
    obtain ⟨i1, r1⟩ := h.step h1
    obtain ⟨i2, r2⟩ := ih i1 h2
    refine ⟨i2, fun y hy => ?_⟩
    rcases List.mem_append.1 hy with hy | hy
    · exact r1 y hy
    · exact r2 y hy

theorem Start.inv (h : Start handles s) : RInv file handles s := by
  refine ⟨h.nodup, ?_, fun pc hpc => by rw [h.idle pc hpc]; trivial⟩
  have : s.pcs.filterMap Pc.holds = [] := by
    rw [List.filterMap_eq_nil_iff]
    intro pc hpc
    rw [h.idle pc hpc]; rfl
  rw [this, h.free]; exact .refl _

theorem Reached.inv (h : Reached file handles s log) : RInv file handles s ∧ ∀ x ∈ log, AsAlone file x.1 x.2.1 x.2.2 := by
  obtain ⟨s0, sched, h0, he⟩ := h
  exact h0.inv.exec he

/-! ## C88 -/

/-- C88: whatever the other threads read meanwhile, a read has the result it has with no other thread, unless there is no handle
left for it or the system reports an error. -/
theorem C88_alone (h : Reached file handles s log) {f : FileColl} {key : UInt32} {r : Result} (hr : (f, key, r) ∈ log) :
    AsAlone file f key r := h.inv.2 _ hr

/-- C88: so it gives the bytes of the item, or that the key is not in the collection. -/
theorem C88_item (h : Reached file handles s log) {hd : Header} {read : Reader} (w : WellFormed file hd read) {key : UInt32}
    {r : Result} (hr : (fileColl hd read, key, r) ∈ log) :
    (∀ bytes, IsItem file hd key bytes read → r = .ok bytes ∨ r = .error .noHandle ∨ r = .error .seek ∨ r = .error .read) ∧
    (NotIn hd key read → r = .error (.err (wantedError read)) ∨ r = .error .noHandle ∨ r = .error .seek ∨ r = .error .read) := by
  have ha := C88_alone h hr
  constructor
  · intro bytes hi
    have hl := loader_readable (isItem_readable w hi)
    rcases r with (e | - | - | -) | v
    · rw [AsAlone, hl] at ha; simp at ha
    · exact .inr (.inr (.inl rfl))
    · exact .inr (.inr (.inr rfl))
    · exact .inr (.inl rfl)
    · rw [AsAlone, hl] at ha; simp at ha; rw [ha]; exact .inl rfl
  · intro hn
    have hl := loader_outside (file := file) (notIn_outside hn)
    have hw : outsideError (fileColl hd read) = wantedError read := by cases read <;> rfl
    rw [hw] at hl
    rcases r with (e | - | - | -) | v
    · rw [AsAlone, hl] at ha; simp at ha; rw [ha]; exact .inl rfl
    · exact .inr (.inr (.inl rfl))
    · exact .inr (.inr (.inr rfl))
    · exact .inr (.inl rfl)
    · rw [AsAlone, hl] at ha; simp at ha

/-- C88: no two threads have the same handle, and none has one that is in the pool. -/
theorem C88_exclusive (h : Reached file handles s log) {t x : Nat} {pc : Pc} (ht : s.pcs[t]? = some pc) (hx : pc.holds = some x) :
    x ∈ handles ∧ x ∉ s.free ∧ ∀ u pc', s.pcs[u]? = some pc' → pc'.holds = some x → u = t := by
  have hi := h.inv.1
  have hm : x ∈ s.pcs.filterMap Pc.holds := List.mem_filterMap.2 ⟨pc, List.mem_of_getElem? ht, hx⟩
  refine ⟨hi.all.mem_iff.1 (List.mem_append_left _ hm), fun hf => ?_, fun u pc' hu hx' => hi.exclusive hu ht hx' hx⟩
  exact (List.nodup_append.1 (hi.all.nodup_iff.2 hi.nodup)).2.2 x hm x hf rfl

/-- C88: when no thread is in a read all handles are back in the pool, whatever failed. -/
theorem C88_returned (h : Reached file handles s log) (hq : ∀ pc ∈ s.pcs, pc = .idle) : s.free.Perm handles := by
  have := h.inv.1.all
  have hn : s.pcs.filterMap Pc.holds = [] := by
    rw [List.filterMap_eq_nil_iff]
    intro pc hpc
    rw [hq pc hpc]; rfl
  rwa [hn] at this

theorem RInv.room (h : RInv file handles s) {t : Nat} {pc : Pc} (hpc : s.pcs[t]? = some pc) (hn : pc.holds = none)
    (hl : s.pcs.length ≤ handles.length) : s.free ≠ [] := by
  intro he
  have h1 := h.all.length_eq
  rw [he, List.append_nil] at h1
  obtain ⟨rest, h2, h3⟩ := set_perm Pc.holds hpc
  have h4 : ((s.pcs.eraseIdx t).filterMap Pc.holds).length ≤ (s.pcs.eraseIdx t).length := List.length_filterMap_le _ _
  have ht := (List.getElem?_eq_some_iff.1 hpc)
  have h5 : s.pcs = s.pcs.take t ++ pc :: s.pcs.drop (t + 1) := by
    rw [← ht.2, List.getElem_cons_drop, List.take_append_drop]
  have h6 : (s.pcs.filterMap Pc.holds).length = ((s.pcs.eraseIdx t).filterMap Pc.holds).length := by
    rw [List.eraseIdx_eq_take_drop_succ]
    conv => lhs; rw [h5]
    rw [List.filterMap_append, List.filterMap_append, List.filterMap_cons, hn]
  rw [List.length_eraseIdx_of_lt ht.1] at h4
  have := ht.1
  omega

/-- What a step does to the place of its thread. -/
inductive Next (s : State) : Act → Pc → Pc → Option (FileColl × UInt32 × Result) → Prop
  | get (f : FileColl) (key : UInt32) : Next s (.get f key) .idle (enter f key) none
  | handle (f : FileColl) (key : UInt32) (x p : Nat) : x ∈ s.free → Next s (.handle x) (.take f key p) (.seek f key x p) none
  | noHandle (f : FileColl) (key : UInt32) (p : Nat) : s.free = [] →
      Next s .run (.take f key p) (.leave f key (.error .noHandle)) none
  | seek (f : FileColl) (key : UInt32) (x p : Nat) : Next s .run (.seek f key x p) (.first f key x) none
  | first (f : FileColl) (key : UInt32) (x : Nat) (r : Result) : r ≠ .error .noHandle →
      Next s .run (.first f key x) (.give f key x r) none
  | more (f : FileColl) (key : UInt32) (x : Nat) (initial : CStr) (left : Nat) :
      Next s .run (.first f key x) (.rest f key x initial left) none
  | rest (f : FileColl) (key : UInt32) (x : Nat) (initial : CStr) (left : Nat) (r : Result) : r ≠ .error .noHandle →
      Next s .run (.rest f key x initial left) (.give f key x r) none
  | give (f : FileColl) (key : UInt32) (x : Nat) (r : Result) : Next s .run (.give f key x r) (.leave f key r) none
  | leave (f : FileColl) (key : UInt32) (r : Result) : Next s .run (.leave f key r) .idle (some (f, key, r))
  | seekFault (f : FileColl) (key : UInt32) (x p : Nat) : Next s .fault (.seek f key x p) (.give f key x (.error .seek)) none
  | firstFault (f : FileColl) (key : UInt32) (x : Nat) : Next s .fault (.first f key x) (.give f key x (.error .read)) none
  | restFault (f : FileColl) (key : UInt32) (x : Nat) (initial : CStr) (left : Nat) :
      Next s .fault (.rest f key x initial left) (.give f key x (.error .read)) none

theorem step_next {t : Nat} {a : Act} {r : Option (FileColl × UInt32 × Result)} (hs : step file s t a = some (s', r)) :
    ∃ pc pc', s.pcs[t]? = some pc ∧ s'.pcs = s.pcs.set t pc' ∧ Next s a pc pc' r := by
  rw [step] at hs
  cases hpc : s.pcs[t]? with
  | none => rw [hpc] at hs; cases hs
  | some pc =>
    rw [hpc] at hs
    simp only at hs
    refine ⟨pc, ?_⟩
    cases a with
    | get f key =>
      cases pc with
      | idle => cases hs; exact ⟨_, rfl, rfl, .get ..⟩
      | _ => cases hs
    | handle x =>
      cases pc with
      | take f key p =>
        simp only at hs
        split at hs
        · next hx => cases hs; exact ⟨_, rfl, rfl, .handle _ _ _ _ hx⟩
        · cases hs
      | _ => cases hs
    | fault =>
      simp only [Option.map_eq_some_iff] at hs
      obtain ⟨s1, h1, hs⟩ := hs
      cases hs
      cases pc with
      | seek f key x p => cases h1; exact ⟨_, rfl, rfl, .seekFault ..⟩
      | first f key x => cases h1; exact ⟨_, rfl, rfl, .firstFault ..⟩
      | rest f key x initial left => cases h1; exact ⟨_, rfl, rfl, .restFault ..⟩
      | _ => cases h1
    | run =>
      simp only at hs
      cases pc with
      | idle => cases hs
      | take f key p =>
        rw [State.run] at hs
        split at hs
        · next hx => cases hs; exact ⟨_, rfl, rfl, .noHandle _ _ _ hx⟩
        · cases hs
      | seek f key x p => cases hs; exact ⟨_, rfl, rfl, .seek ..⟩
      | first f key x =>
        rw [State.run] at hs
        cases hf : f.read with
        | fixed =>
          simp only [hf] at hs
          rcases fread_spec file s x f.elementSize with ⟨bytes, k1, k2⟩ | ⟨k1, k2⟩ <;> rw [k2] at hs <;> cases hs <;>
            exact ⟨_, rfl, rfl, .first _ _ _ _ nofun⟩
        | «variable» n g =>
          simp only [hf] at hs
          rcases fread_spec file s x n with ⟨initial, k1, k2⟩ | ⟨k1, k2⟩
          · rw [k2] at hs
            simp only [Option.map_eq_some_iff] at hs
            obtain ⟨pc', h1, hs⟩ := hs
            cases hs
            rw [afterFirst] at h1
            split at h1
            · cases h1
            · split at h1
              · cases h1; exact ⟨_, rfl, rfl, .more ..⟩
              · cases h1; exact ⟨_, rfl, rfl, .first _ _ _ _ nofun⟩
          · rw [k2] at hs; cases hs; exact ⟨_, rfl, rfl, .first _ _ _ _ nofun⟩
      | rest f key x initial left =>
        rw [State.run] at hs
        rcases fread_spec file s x left with ⟨bytes, k1, k2⟩ | ⟨k1, k2⟩ <;> rw [k2] at hs <;> cases hs <;>
          exact ⟨_, rfl, rfl, .rest _ _ _ _ _ _ nofun⟩
      | give f key x r' => cases hs; exact ⟨_, rfl, rfl, .give ..⟩
      | leave f key r' => cases hs; exact ⟨_, rfl, rfl, .leave ..⟩

/-- The thread was given a handle. -/
def Pc.Served : Pc → Prop
  | .give _ _ _ r | .leave _ _ r => r ≠ .error .noHandle
  | _ => True

theorem served_exec {sched : Schedule} : ∀ {s s' : State} {log : List (FileColl × UInt32 × Result)}, RInv file handles s →
    s.pcs.length ≤ handles.length → (∀ pc ∈ s.pcs, pc.Served) → exec file s sched = some (s', log) →
    ∀ x ∈ log, x.2.2 ≠ .error .noHandle := by
  induction sched with
  | nil => intro s s' log _ _ _ he; cases he; simp
  | cons x rest ih =>
    intro s s' log h hl ho he
    obtain ⟨t, a⟩ := x
    rw [exec, Option.bind_eq_some_iff] at he
    obtain ⟨⟨s1, r⟩, h1, he⟩ := he
    rw [Option.map_eq_some_iff] at he
    obtain ⟨⟨s2, q⟩, h2, he⟩ := he
    cases he
    obtain ⟨pc, pc', k1, k2, k3⟩ := step_next h1
    have hpc := ho pc (List.mem_of_getElem? k1)
    have h3 : pc'.Served := by
      cases k3 with
      | noHandle f key p hf => exact absurd hf (h.room k1 rfl hl)
      | get f key =>
        rw [enter]
        cases f.read with
        | fixed => simp only; split <;> first | (split <;> first | trivial | exact nofun) | exact nofun
        | «variable» n g => simp only; split <;> first | trivial | exact nofun
      | first f key x r hr => exact hr
      | rest f key x i l r hr => exact hr
      | give f key x r => exact hpc
      | seekFault => exact nofun
      | firstFault => exact nofun
      | restFault => exact nofun
      | _ => trivial
    have h4 := ih (h.step h1).1 (by rw [k2, List.length_set]; exact hl)
      (fun q hq => by
        rw [k2] at hq
        rcases List.mem_or_eq_of_mem_set hq with hq | rfl
        · exact ho q hq
        · exact h3) h2
    intro y hy
    rcases List.mem_append.1 hy with hy | hy
    · cases k3 with
      | leave f key r =>
        simp only [Option.toList_some, List.mem_singleton] at hy
        rw [hy]; exact hpc
      | _ => simp at hy
    · exact h4 y hy

theorem exec_length {sched : Schedule} : ∀ {s s' : State} {log : List (FileColl × UInt32 × Result)},
    exec file s sched = some (s', log) → s'.pcs.length = s.pcs.length := by
  induction sched with
  | nil => intro s s' log he; cases he; rfl
  | cons x rest ih =>
    intro s s' log he
    obtain ⟨t, a⟩ := x
    rw [exec, Option.bind_eq_some_iff] at he
    obtain ⟨⟨s1, r⟩, h1, he⟩ := he
    rw [Option.map_eq_some_iff] at he
    obtain ⟨⟨s2, q⟩, h2, he⟩ := he
    cases he
    obtain ⟨pc, pc', -, k2, -⟩ := step_next h1
    rw [ih h2, k2, List.length_set]

/-- C88: with a handle for each thread no read fails for want of one. -/
theorem C88_enough (h : Reached file handles s log) (hl : s.pcs.length ≤ handles.length) {f : FileColl} {key : UInt32} {r : Result}
    (hr : (f, key, r) ∈ log) : r ≠ .error .noHandle := by
  obtain ⟨s0, sched, h0, he⟩ := h
  exact served_exec h0.inv (by rw [← exec_length he]; exact hl) (fun pc hpc => by rw [h0.idle pc hpc]; trivial) he _ hr

/-- No new call of thread `t`. -/
def NoCall (t : Nat) (sched : Schedule) : Prop := ∀ f key, (t, Act.get f key) ∉ sched

theorem asked_exec {sched : Schedule} : ∀ {s s' : State} {log : List (FileColl × UInt32 × Result)} {t : Nat} {pc : Pc}
    {q : FileColl × UInt32}, exec file s sched = some (s', log) → s.pcs[t]? = some pc → (pc = .idle ∨ pc.asked = some q) →
    NoCall t sched → ∃ pc', s'.pcs[t]? = some pc' ∧ (pc' = .idle ∨ pc'.asked = some q) := by
  induction sched with
  | nil => intro s s' log t pc q he hpc hq _; cases he; exact ⟨pc, hpc, hq⟩
  | cons x rest ih =>
    intro s s' log t pc q he hpc hq hn
    obtain ⟨u, a⟩ := x
    rw [exec, Option.bind_eq_some_iff] at he
    obtain ⟨⟨s1, r⟩, h1, he⟩ := he
    rw [Option.map_eq_some_iff] at he
    obtain ⟨⟨s2, q'⟩, h2, he⟩ := he
    cases he
    have hn' : NoCall t rest := fun f key hm => hn f key (List.mem_cons_of_mem _ hm)
    obtain ⟨p, p', k1, k2, k3⟩ := step_next h1
    by_cases hu : u = t
    · subst hu
      rw [k1] at hpc; cases hpc
      have h3 : s1.pcs[u]? = some p' := by rw [k2]; exact List.getElem?_set_self (List.getElem?_eq_some_iff.1 k1).1
      refine ih h2 h3 ?_ hn'
      cases k3 with
      | get f key => exact absurd (List.mem_cons_self ..) (hn f key)
      | leave => exact .inl rfl
      | _ => exact .inr (hq.resolve_left nofun)
    · exact ih h2 (by rw [k2, List.getElem?_set_ne hu]; exact hpc) hq hn'

/-- C88: what a read returns is for the collection and the key it was called with, whatever the other threads do meanwhile. -/
theorem C88_answers {s1 s2 s3 : State} {t : Nat} {f f' : FileColl} {key key' : UInt32} {r : Result}
    {o : Option (FileColl × UInt32 × Result)} {sched : Schedule} {a : Act}
    (hs : step file s t (.get f key) = some (s1, o)) (he : exec file s1 sched = some (s2, log)) (hn : NoCall t sched)
    (hr : step file s2 t a = some (s3, some (f', key', r))) : f' = f ∧ key' = key := by
  obtain ⟨p, p', h1, h2, h3⟩ := step_next hs
  have h4 : s1.pcs[t]? = some p' := by rw [h2]; exact List.getElem?_set_self (List.getElem?_eq_some_iff.1 h1).1
  have h5 : p'.asked = some (f, key) := by
    cases h3
    rcases enter_cases f key with ⟨r, he⟩ | ⟨he, -⟩ <;> rw [he] <;> rfl
  obtain ⟨pc, g1, g2⟩ := asked_exec he h4 (.inr h5) hn
  obtain ⟨q, q', k1, -, k3⟩ := step_next hr
  rw [k1] at g1; cases g1
  cases k3
  rcases g2 with g2 | g2
  · cases g2
  · cases g2; exact ⟨rfl, rfl⟩

/-- C88: a read ends: each step of its thread brings it nearer to its return, from which it is never more than six steps away, and
the other threads do not change where it is. -/
theorem C88_ends {a : Act} {t : Nat} {r : Option (FileColl × UInt32 × Result)} (hs : step file s t a = some (s', r)) :
    ∃ pc pc', s.pcs[t]? = some pc ∧ s'.pcs[t]? = some pc' ∧ (∀ u, u ≠ t → s'.pcs[u]? = s.pcs[u]?) ∧
      (pc ≠ .idle → pc'.left < pc.left) ∧ pc'.left ≤ 6 ∧ (r ≠ none ↔ pc' = .idle) := by
  obtain ⟨pc, pc', h1, h2, h3⟩ := step_next hs
  refine ⟨pc, pc', h1, ?_, ?_, ?_⟩
  · rw [h2]; exact List.getElem?_set_self (List.getElem?_eq_some_iff.1 h1).1
  · intro u hu; rw [h2, List.getElem?_set_ne (Ne.symm hu)]
  · cases h3 with
    | get f key => rcases enter_cases f key with ⟨r, he⟩ | ⟨he, -⟩ <;> rw [he] <;> simp [Pc.left]
    | _ => simp [Pc.left]

/-- C88: no thread waits for another, and no step is undefined, if the same read alone is not. -/
theorem C88_progress (h : Reached file handles s log) {t : Nat} {pc : Pc} (hpc : s.pcs[t]? = some pc) {f : FileColl} {key : UInt32}
    (ha : pc.asked = some (f, key)) (hd : loader file f key ≠ none) :
    ∃ a, (a = .run ∨ ∃ x, a = .handle x) ∧ ∃ r, step file s t a = some r := by
  have hi := h.inv.1
  have hok := hi.ok pc (List.mem_of_getElem? hpc)
  have run : (s.run file t pc).isSome → ∃ a, (a = .run ∨ ∃ x, a = .handle x) ∧ ∃ r, step file s t a = some r :=
    fun hr => ⟨.run, .inl rfl, by rw [step, hpc]; exact Option.isSome_iff_exists.1 hr⟩
  cases pc with
  | idle => cases ha
  | take f key p =>
    cases hf : s.free with
    | nil => exact run (by rw [State.run, if_pos hf]; rfl)
    | cons x l =>
      refine ⟨.handle x, .inr ⟨x, rfl⟩, ?_⟩
      rw [step, hpc]; simp only; rw [if_pos (by rw [hf]; simp)]; exact ⟨_, rfl⟩
  | seek f key x p => exact run rfl
  | first f key x =>
    cases ha
    obtain ⟨hr, hp⟩ := hok
    cases hf : f.read with
    | fixed =>
      rcases fread_spec file s x f.elementSize with ⟨bytes, k1, k2⟩ | ⟨k1, k2⟩ <;>
        exact run (by rw [State.run]; simp only [hf, k2]; rfl)
    | «variable» n g =>
      rcases fread_spec file s x n with ⟨initial, k1, k2⟩ | ⟨k1, k2⟩
      · have hl := loader_variable (file := file) hf hr
        rw [hp] at k1
        rw [k1] at hl
        simp only at hl
        have hn : ¬ g initial < n := fun hn => hd (by rw [hl, if_pos hn])
        by_cases hz : g initial - n > 0
        · exact run (by rw [State.run]; simp only [hf, k2, afterFirst, if_neg hn, if_pos hz, Option.map_some]; rfl)
        · exact run (by rw [State.run]; simp only [hf, k2, afterFirst, if_neg hn, if_neg hz, Option.map_some]; rfl)
      · exact run (by rw [State.run]; simp only [hf, k2]; rfl)
  | rest f key x initial left =>
    rcases fread_spec file s x left with ⟨bytes, k1, k2⟩ | ⟨k1, k2⟩ <;>
      exact run (by rw [State.run]; simp only [k2]; rfl)
  | give f key x r => exact run rfl
  | leave f key r => exact run rfl

/-! ### Witnesses -/

/-- A file with three items of two bytes at 1, and after them two of variable size, whose first byte is their size. -/
def twoFile : CStr := [9, 10, 11, 20, 21, 30, 31, 2, 7, 3, 8, 8]
def twoFixed : Header := ⟨1, 6, 3⟩
def twoVariable : Header := ⟨7, 5, 0⟩
def sizeReader : Reader := .variable 1 fun b => (b.headD 0).toNat

def twoStart (handles : List Nat) (n : Nat) : State := ⟨fun x => x + 50, handles, List.replicate n .idle⟩

theorem two_start {handles : List Nat} (h : handles.Nodup) (n : Nat) : Start handles (twoStart handles n) :=
  ⟨h, rfl, fun _ hp => (List.mem_replicate.1 hp).2⟩

/-- Three threads take turns; the second reads from the other collection. -/
def turns : Schedule :=
  [(0, .get (fileColl twoFixed .fixed) 2), (1, .get (fileColl twoVariable sizeReader) 2), (0, .handle 5), (1, .handle 4), (1, .run),
    (0, .run), (1, .run), (2, .get (fileColl twoFixed .fixed) 1), (2, .run), (1, .run), (0, .run), (1, .run), (0, .run), (2, .run),
    (1, .run), (0, .run)]

def results (s : State) (sched : Schedule) : Option (List (UInt32 × Result)) :=
  (exec twoFile s sched).map fun r => r.2.map fun x => (x.2.1, x.2.2)

deriving instance DecidableEq for Except

/-- With two handles the third thread goes away with none; the others read the bytes of their items. -/
example : results (twoStart [4, 5] 3) turns =
    some [(1, .error .noHandle), (2, .ok [3, 8, 8]), (2, .ok [30, 31])] := by decide +kernel

/-- An error of the system, and a key out of range. -/
example : results (twoStart [4] 2) [(0, .get (fileColl twoFixed .fixed) 0), (0, .handle 4), (0, .run), (0, .fault), (0, .run), (0, .run),
      (1, .get (fileColl twoFixed .fixed) 3), (1, .run)] =
    some [(0, .error .read), (3, .error (.err .indexOutOfRange))] := by decide +kernel

example : WellFormed twoFile twoFixed .fixed ∧ IsItem twoFile twoFixed 2 [30, 31] .fixed ∧ NotIn twoFixed 3 .fixed := by
  refine ⟨?_, ?_, ?_⟩ <;> simp only [WellFormed, IsItem, NotIn] <;> decide

example : loader twoFile (fileColl twoFixed .fixed) 2 ≠ none ∧ (twoStart [4, 5] 2).pcs.length ≤ [4, 5].length := by decide +kernel

end Verif.Collection.Reading
