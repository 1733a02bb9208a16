import Verif.Memory.Props
import Verif.Tree.Props

/-! # C86: allocation tracking with threads

Any number of threads allocate and free memory while tracking is on (memory.c:104-280). Each part of a call that runs with a
lock held, and each call of the system's `malloc` and `free`, is one step; the steps of the threads come in any order. -/

namespace Verif.Memory.Threads

/-! ## Model -/

/-- Where a thread is. A block is its address and its size: the size given to `trackAllocation`, so that for
`fiftyoneDegreesMemoryTrackingMallocAligned`, memory.c:185-197, it is `size + size % alignment`. -/
inductive Pc where
  | idle
  /-- At the test of `tryInit`, memory.c:105. -/
  | check (size : Nat)
  /-- After the test, which found that the tracker is not initialised, memory.c:106. -/
  | resetting (size : Nat)
  /-- Before the call of `malloc`, memory.c:205; and without tracking, memory.c:71. -/
  | asking (size : Nat)
  | askingPlain (size : Nat)
  /-- With the memory, before the lock of the shard, memory.c:131. -/
  | insert (p size : Nat)
  /-- Before the lock for the totals, memory.c:140. -/
  | add (p size : Nat)
  /-- At the start of `untrackAllocation`, memory.c:157; the size is not known to the thread here, it is a ghost. -/
  | remove (p size : Nat)
  /-- With the size from the record, before the lock for the totals, memory.c:177. -/
  | subtract (p size recorded : Nat)
  /-- Before the call of `free`, memory.c:228, 234. -/
  | give (p size : Nat)
deriving DecidableEq, Repr

/-- The tracker, the system's memory and the threads. `tracking` is which functions `fiftyoneDegreesMalloc` and the others
point to. -/
structure State where
  initialised : Bool
  tracking : Bool
  track : Track
  /-- The addresses the system has given out and not got back. -/
  live : Nat → Bool
  /-- The blocks the program has from a call that returned, and has not passed to a free. -/
  user : List (Nat × Nat)
  pcs : List Pc

/-- What a thread does. -/
inductive Act where
  /-- The program calls `fiftyoneDegreesMalloc`. -/
  | malloc (size : Nat)
  /-- The program calls `fiftyoneDegreesFree` with a block it has. -/
  | free (p : Nat)
  /-- The system's `malloc` returns the address `p`. -/
  | memory (p : Nat)
  /-- Any other step of a call. -/
  | run
  /-- `fiftyoneDegreesSetUpMemoryTracking` and `fiftyoneDegreesUnsetMemoryTracking`, memory.c:264-280. -/
  | setUp
  | unset
deriving DecidableEq, Repr

def State.goto (s : State) (t : Nat) (pc : Pc) : State := { s with pcs := s.pcs.set t pc }

/-- The block a thread holds on behalf of the program: allocated by the system and not given back. -/
def Pc.block : Pc → Option (Nat × Nat)
  | .insert p size | .add p size | .remove p size | .subtract p size _ | .give p size => some (p, size)
  | _ => none

/-- All blocks which the system has given out. -/
def State.blocks (s : State) : List (Nat × Nat) := s.user ++ s.pcs.filterMap Pc.block

/-- `fiftyoneDegreesMemoryTrackingReset`, memory.c:246-262, as one step. The trees are set up by the first call only. -/
def State.reset (s : State) : State :=
  { s with
    initialised := true
    track := ⟨if s.initialised then s.track.shards else fun _ => [], 0, 0⟩ }

/-- The first part of `trackAllocation`, memory.c:111-136; `malloc` of the record succeeds. The tree is a list as in
`Verif.Memory.track`; the new record comes last, since it goes below those with an equal key. -/
def State.insert (s : State) (p size : Nat) : State :=
  { s with track := { s.track with
      shards := fun i => if i = shardOf p then s.track.shards i ++ [(p, size % 2 ^ 32)] else s.track.shards i } }

/-- `size_t` arithmetic, on values below 2^64. -/
def sizeAdd (a b : Nat) : Nat := (a + b) % 2 ^ 64

def sizeSub (a b : Nat) : Nat := if b ≤ a then a - b else a + 2 ^ 64 - b

/-- The second part, memory.c:139-148. -/
def State.add (s : State) (size : Nat) : State :=
  let allocated := sizeAdd s.track.allocated size
  { s with track := { s.track with allocated, max := if allocated > s.track.max then allocated else s.track.max } }

/-- The first part of `untrackAllocation`, memory.c:152-174: the size in the record. -/
def State.remove (s : State) (p : Nat) : UB (State × Nat) :=
  match (s.track.shards (shardOf p)).find? (fun r => r.1 = p) with
  | none => none
  | some r => some
    ({ s with track := { s.track with
        shards := fun i =>
          if i = shardOf p then (s.track.shards i).eraseP (fun r => r.1 = p) else s.track.shards i } }, r.2)

/-- The second part, memory.c:176-182. -/
def State.subtract (s : State) (size : Nat) : State :=
  { s with track := { s.track with allocated := sizeSub s.track.allocated size } }

/-- The next step of a thread, when it is not waiting for the system's `malloc`. -/
def State.run (s : State) (t : Nat) : Pc → Option State
  | .idle | .asking _ | .askingPlain _ => none
  | .check size => some (s.goto t (if s.initialised then .asking size else .resetting size))
  | .resetting size => some (s.reset.goto t (.asking size))
  | .insert p size => some ((s.insert p size).goto t (.add p size))
  | .add p size => some { (s.add size).goto t .idle with user := (p, size) :: s.user }
  | .remove p size => (s.remove p).map fun r => r.1.goto t (.subtract p size r.2)
  | .subtract p size recorded => some ((s.subtract recorded).goto t (.give p size))
  | .give p _ => some { s.goto t .idle with live := fun q => if q = p then false else s.live q }

/-- The system gives the memory at `p`, which is not in use. It does not have more than 2^64 bytes. What happens when it has
no memory to give is in `C34_failed_violated`. -/
def State.memory (s : State) (t p : Nat) : Pc → Option State
  | .asking size =>
    if p ≠ 0 ∧ s.live p = false ∧ total s.blocks + size < 2 ^ 64 then
      some { s.goto t (.insert p size) with live := fun q => if q = p then true else s.live q }
    else none
  | .askingPlain size =>
    if p ≠ 0 ∧ s.live p = false ∧ total s.blocks + size < 2 ^ 64 then
      some { s.goto t .idle with live := (fun q => if q = p then true else s.live q), user := (p, size) :: s.user }
    else none
  | _ => none

/-- One step of thread `t`; `none` if it is not possible, or undefined. -/
def step (s : State) (t : Nat) (a : Act) : Option State :=
  match s.pcs[t]? with
  | none => none
  | some pc =>
    match a with
    | .malloc size => if pc = .idle then some (s.goto t (if s.tracking then .check size else .askingPlain size)) else none
    | .free p =>
      match pc, s.user.find? (fun r => r.1 = p) with
      | .idle, some r => some { s.goto t (if s.tracking then .remove p r.2 else .give p r.2) with
          user := s.user.eraseP (fun r => r.1 = p) }
      | _, _ => none
    | .memory p => s.memory t p pc
    | .run => s.run t pc
    | .setUp => if pc = .idle then some { s.reset with tracking := true } else none
    | .unset => if pc = .idle then some { s.reset with tracking := false } else none

/-- A schedule: which thread does what. -/
abbrev Schedule := List (Nat × Act)

/-- The state after a schedule. -/
def exec (s : State) : Schedule → Option State
  | [] => some s
  | (t, a) :: rest => (step s t a).bind fun s => exec s rest

/-! ## Specification -/

/-- Tracking is on and nothing has been allocated. -/
structure Fresh (s : State) : Prop where
  initialised : s.initialised = true
  tracking : s.tracking = true
  shards : ∀ i, s.track.shards i = []
  allocated : s.track.allocated = 0
  max : s.track.max = 0
  live : ∀ p, s.live p = false
  user : s.user = []
  idle : ∀ pc ∈ s.pcs, pc = .idle

/-- Blocks are below 4 GiB, and tracking stays on. -/
def Plain (sched : Schedule) : Prop := ∀ x ∈ sched, (∀ size, x.2 = .malloc size → size < 2 ^ 32) ∧ x.2 ≠ .setUp ∧ x.2 ≠ .unset

/-- No thread is in a call. -/
def Quiet (s : State) : Prop := ∀ pc ∈ s.pcs, pc = .idle

/-! ## Proofs -/

/-- The block of a thread that is recorded in a tree. -/
def Pc.recorded : Pc → Option (Nat × Nat)
  | .add p size | .remove p size => some (p, size)
  | _ => none

/-- The block of a thread that is in the total. -/
def Pc.counted : Pc → Option (Nat × Nat)
  | .remove p size | .subtract p size _ => some (p, size)
  | _ => none

/-- The blocks of the program and those of the threads that `f` says. -/
def State.all (f : Pc → Option (Nat × Nat)) (s : State) : List (Nat × Nat) := s.user ++ s.pcs.filterMap f

theorem set_perm (f : Pc → Option (Nat × Nat)) {l : List Pc} {t : Nat} {old : Pc} (h : l[t]? = some old) :
    ∃ rest, (l.filterMap f).Perm ((f old).toList ++ rest) ∧
      ∀ x, ((l.set t x).filterMap f).Perm ((f x).toList ++ rest) := by
  induction l generalizing t with
  | nil => simp at h
  | cons a l ih =>
    cases t with
    | zero =>
      simp only [List.getElem?_cons_zero, Option.some.injEq] at h
      subst h
      refine ⟨l.filterMap f, ?_, fun x => ?_⟩
      · rw [List.filterMap_cons]; cases f a <;> exact .refl _
      · rw [List.set_cons_zero, List.filterMap_cons]; cases f x <;> exact .refl _
    | succ t =>
      simp only [List.getElem?_cons_succ] at h
      obtain ⟨rest, h1, h2⟩ := ih h
      have key : ∀ (m : List Pc) (x : Pc), (m.filterMap f).Perm ((f x).toList ++ rest) →
          ((a :: m).filterMap f).Perm ((f x).toList ++ ((f a).toList ++ rest)) := by
        intro m x hm
        have : ((a :: m).filterMap f).Perm ((f a).toList ++ m.filterMap f) := by
          rw [List.filterMap_cons]; cases f a <;> exact .refl _
        refine this.trans ((List.Perm.append_left _ hm).trans ?_)
        rw [← List.append_assoc, ← List.append_assoc]
        exact List.Perm.append_right _ List.perm_append_comm
      exact ⟨(f a).toList ++ rest, key l old h1, fun x => by rw [List.set_cons_succ]; exact key _ x (h2 x)⟩

theorem sublist_filterMap {f g : Pc → Option (Nat × Nat)} (h : ∀ pc b, f pc = some b → g pc = some b) :
    ∀ l : List Pc, (l.filterMap f).Sublist (l.filterMap g) := by
  intro l
  induction l with
  | nil => exact .slnil
  | cons a l ih =>
    rw [List.filterMap_cons, List.filterMap_cons]
    cases hf : f a with
    | none =>
      cases g a with
      | none => exact ih
      | some b => exact ih.cons b
    | some b => rw [h a b hf]; exact ih.cons_cons b

theorem total_perm {a b : List (Nat × Nat)} (h : a.Perm b) : total a = total b := (h.map _).sum_nat

theorem total_sublist {a b : List (Nat × Nat)} (h : a.Sublist b) : total a ≤ total b := by
  induction h with
  | slnil => exact Nat.le_refl _
  | cons x _ ih => simp only [total, List.map_cons, List.sum_cons] at *; omega
  | cons_cons x _ ih => simp only [total, List.map_cons, List.sum_cons] at *; omega

theorem total_cons (x : Nat × Nat) (l : List (Nat × Nat)) : total (x :: l) = x.2 + total l := rfl

theorem find_perm {l : List (Nat × Nat)} {r : Nat × Nat} (nd : (l.map (·.1)).Nodup) (h : r ∈ l) :
    l.find? (fun x => x.1 = r.1) = some r ∧ l.Perm (r :: l.eraseP (fun x => x.1 = r.1)) := by
  induction l with
  | nil => cases h
  | cons a l ih =>
    rw [List.map_cons, List.nodup_cons] at nd
    rcases List.mem_cons.1 h with rfl | h
    · exact ⟨by simp, by simp⟩
    · have : a.1 ≠ r.1 := fun e => nd.1 (e ▸ List.mem_map_of_mem h)
      obtain ⟨h1, h2⟩ := ih nd.2 h
      refine ⟨by simp only [List.find?_cons, this, decide_false]; exact h1, ?_⟩
      simp only [List.eraseP_cons, this, decide_false]
      exact (h2.cons a).trans (.swap _ _ _)

/-- What holds of the threads. -/
def Pc.Ok : Pc → Prop
  | .check size | .asking size => size < 2 ^ 32
  | .subtract _ size recorded => recorded = size
  | .resetting _ | .askingPlain _ => False
  | _ => True

structure Inv (s : State) : Prop where
  initialised : s.initialised = true
  tracking : s.tracking = true
  ok : ∀ pc ∈ s.pcs, pc.Ok
  nodup : (s.blocks.map (·.1)).Nodup
  small : ∀ b ∈ s.blocks, b.2 < 2 ^ 32
  live : ∀ p, s.live p = true ↔ p ∈ s.blocks.map (·.1)
  shards : ∀ i, (s.track.shards i).Perm ((s.all Pc.recorded).filter fun r => shardOf r.1 = i)
  allocated : s.track.allocated = total (s.all Pc.counted)
  bound : total s.blocks < 2 ^ 64

theorem all_set (f : Pc → Option (Nat × Nat)) {l : List Pc} {t : Nat} {old : Pc} (h : l[t]? = some old) :
    ∃ rest, (∀ u, (u ++ l.filterMap f).Perm ((f old).toList ++ (u ++ rest))) ∧
      ∀ u x, (u ++ (l.set t x).filterMap f).Perm ((f x).toList ++ (u ++ rest)) := by
  obtain ⟨rest, h1, h2⟩ := set_perm f h
  have swap : ∀ u a : List (Nat × Nat), (u ++ (a ++ rest)).Perm (a ++ (u ++ rest)) := by
    intro u a
    rw [← List.append_assoc, ← List.append_assoc]
    exact List.Perm.append_right _ List.perm_append_comm
  exact ⟨rest, fun u => (List.Perm.append_left u h1).trans (swap _ _),
    fun u x => (List.Perm.append_left u (h2 x)).trans (swap _ _)⟩

/-- The parts of the invariant about the blocks. -/
structure BInv (s : State) : Prop where
  nodup : (s.blocks.map (·.1)).Nodup
  small : ∀ b ∈ s.blocks, b.2 < 2 ^ 32
  live : ∀ p, s.live p = true ↔ p ∈ s.blocks.map (·.1)
  bound : total s.blocks < 2 ^ 64

theorem Inv.b {s : State} (h : Inv s) : BInv s := ⟨h.nodup, h.small, h.live, h.bound⟩

theorem BInv.same {s s' : State} (h : BInv s) (hp : s'.blocks.Perm s.blocks) (hl : s'.live = s.live) : BInv s' :=
  ⟨(hp.map _).nodup_iff.2 h.nodup, fun b hb => h.small b (hp.mem_iff.1 hb),
    fun p => by rw [hl, h.live, (hp.map _).mem_iff], by rw [total_perm hp]; exact h.bound⟩

theorem ok_set {l : List Pc} (h : ∀ pc ∈ l, pc.Ok) (x : Pc) (hx : x.Ok) (t : Nat) : ∀ pc ∈ l.set t x, pc.Ok := by
  intro pc hpc
  rcases List.mem_or_eq_of_mem_set hpc with h' | rfl
  · exact h pc h'
  · exact hx

theorem Inv.mk' {s : State} (hi : s.initialised = true) (ht : s.tracking = true) (ok : ∀ pc ∈ s.pcs, pc.Ok) (b : BInv s)
    (hs : ∀ i, (s.track.shards i).Perm ((s.all Pc.recorded).filter fun r => shardOf r.1 = i))
    (ha : s.track.allocated = total (s.all Pc.counted)) : Inv s :=
  ⟨hi, ht, ok, b.nodup, b.small, b.live, hs, ha, b.bound⟩

/-- The blocks are unaffected by a step. -/
theorem Inv.recorded_blocks {s : State} : (s.all Pc.recorded).Sublist s.blocks :=
  List.Sublist.append_left (sublist_filterMap (by rintro (_ | _ | _ | _ | _ | _ | _ | _ | _ | _) b h <;> first | exact h | cases h) _) _

theorem Inv.counted_blocks {s : State} : (s.all Pc.counted).Sublist s.blocks :=
  List.Sublist.append_left (sublist_filterMap (by rintro (_ | _ | _ | _ | _ | _ | _ | _ | _ | _) b h <;> first | exact h | cases h) _) _

/-- A step that changes the place of a thread, and moves a block between the program and the thread, but changes nothing
about which blocks there are, are recorded and are counted. -/
theorem Inv.move {s s' : State} (h : Inv s) (hi : s'.initialised = true) (ht : s'.tracking = true) (ok : ∀ pc ∈ s'.pcs, pc.Ok)
    (hl : s'.live = s.live) (htr : s'.track = s.track)
    (hf : ∀ f, f = Pc.block ∨ f = Pc.recorded ∨ f = Pc.counted → (s'.all f).Perm (s.all f)) : Inv s' := by
  refine .mk' hi ht ok (h.b.same (hf _ (.inl rfl)) hl) (fun i => ?_) ?_
  · rw [htr]; exact (h.shards i).trans ((hf _ (.inr (.inl rfl))).symm.filter _)
  · rw [htr, h.allocated, total_perm (hf _ (.inr (.inr rfl)))]

theorem sub_wrap {a r x : Nat} (h : a = r + x) : sizeSub a r = x := by
  rw [sizeSub, if_pos (by omega)]; omega

theorem Inv.run {s : State} (h : Inv s) {t : Nat} {pc : Pc} (hpc : s.pcs[t]? = some pc) (hr : pc ≠ .idle)
    (ha : ∀ size, pc ≠ .asking size) : ∃ s', s.run t pc = some s' ∧ Inv s' := by
  have hok := h.ok pc (List.mem_of_getElem? hpc)
  have perm : ∀ f, ∃ rest, (∀ u, (u ++ s.pcs.filterMap f).Perm ((f pc).toList ++ (u ++ rest))) ∧
      ∀ u x, (u ++ (s.pcs.set t x).filterMap f).Perm ((f x).toList ++ (u ++ rest)) := fun f => all_set f hpc
  obtain ⟨rb, b1, b2⟩ := perm Pc.block
  obtain ⟨rr, r1, r2⟩ := perm Pc.recorded
  obtain ⟨rc, c1, c2⟩ := perm Pc.counted
  cases pc with
  | idle => exact absurd rfl hr
  | asking size => exact absurd rfl (ha size)
  | askingPlain size => exact hok.elim
  | resetting size => exact hok.elim
  | check size =>
    refine ⟨_, rfl, ?_⟩
    rw [if_pos h.initialised]
    refine h.move h.initialised h.tracking (ok_set h.ok (.asking size) hok t) rfl rfl ?_
    rintro f (rfl | rfl | rfl)
    · exact (b2 s.user _).trans (b1 s.user).symm
    · exact (r2 s.user _).trans (r1 s.user).symm
    · exact (c2 s.user _).trans (c1 s.user).symm
  | insert p size =>
    refine ⟨_, rfl, .mk' h.initialised h.tracking (ok_set h.ok (.add p size) trivial t)
      (h.b.same ((b2 s.user (.add p size)).trans (b1 s.user).symm) rfl) (fun i => ?_) ?_⟩
    · have hsm : size % 2 ^ 32 = size := by
        refine Nat.mod_eq_of_lt (h.small (p, size) ?_)
        exact (b1 s.user).mem_iff.2 (by simp [Pc.block])
      have hnew : (((s.insert p size).goto t (.add p size)).all Pc.recorded).Perm ((p, size) :: s.all Pc.recorded) :=
        (r2 s.user (.add p size)).trans ((r1 s.user).symm.cons _)
      refine List.Perm.trans ?_ (hnew.filter _).symm
      show (if i = shardOf p then _ else _ : List (Nat × Nat)).Perm _
      by_cases hi : i = shardOf p
      · rw [if_pos hi, hsm, List.filter_cons_of_pos (by simp [hi])]
        exact List.perm_append_comm.trans ((h.shards i).cons _)
      · rw [if_neg hi, List.filter_cons_of_neg (by simpa using fun e => hi e.symm)]
        exact h.shards i
    · show s.track.allocated = _
      rw [h.allocated]
      exact total_perm ((c1 s.user).trans (c2 s.user (.add p size)).symm)
  | add p size =>
    have hb : (({ (s.add size).goto t .idle with user := (p, size) :: s.user } : State).blocks).Perm s.blocks :=
      (b2 ((p, size) :: s.user) .idle).trans (b1 s.user).symm
    have hc : (({ (s.add size).goto t .idle with user := (p, size) :: s.user } : State).all Pc.counted).Perm
        ((p, size) :: s.all Pc.counted) := (c2 ((p, size) :: s.user) .idle).trans ((c1 s.user).symm.cons _)
    have hbi := h.b.same hb rfl
    refine ⟨_, rfl, .mk' h.initialised h.tracking (ok_set h.ok .idle trivial t) hbi (fun i => ?_) ?_⟩
    · exact (h.shards i).trans (((r1 s.user).trans (r2 ((p, size) :: s.user) .idle).symm).filter _)
    · rw [total_perm hc, total_cons, ← h.allocated]
      have := total_perm hc ▸ total_sublist (Inv.counted_blocks
        (s := ({ (s.add size).goto t .idle with user := (p, size) :: s.user } : State)))
      rw [total_cons, ← h.allocated] at this
      show sizeAdd s.track.allocated size = size + s.track.allocated
      rw [sizeAdd, Nat.mod_eq_of_lt (by have := hbi.bound; simp only at *; omega), Nat.add_comm]
  | remove p size =>
    have hrec : (s.all Pc.recorded).Perm ((p, size) :: (s.user ++ rr)) := r1 s.user
    have hnd : ((s.all Pc.recorded).map (·.1)).Nodup := (Inv.recorded_blocks.map _).nodup h.nodup
    have hsh : (s.track.shards (shardOf p)).Perm ((p, size) :: (s.user ++ rr).filter fun r => shardOf r.1 = shardOf p) := by
      refine (h.shards _).trans ((hrec.filter _).trans ?_)
      rw [List.filter_cons_of_pos (by simp)]
    have hfind := find_perm (l := s.track.shards (shardOf p)) (r := (p, size))
      (((h.shards (shardOf p)).map _).nodup_iff.2 ((List.filter_sublist.map _).nodup hnd))
      (hsh.mem_iff.2 (by simp))
    have hrun : s.remove p = some ({ s with track := { s.track with
        shards := fun i =>
          if i = shardOf p then (s.track.shards i).eraseP (fun r => r.1 = p) else s.track.shards i } }, size) := by
      rw [State.remove]; simp only [hfind.1]
    refine ⟨({ s with track := { s.track with
        shards := fun i =>
          if i = shardOf p then (s.track.shards i).eraseP (fun r => r.1 = p) else s.track.shards i } } : State).goto t
        (.subtract p size size), by rw [State.run, hrun]; rfl, .mk' h.initialised h.tracking (ok_set h.ok (.subtract p size size) rfl t)
      (h.b.same ((b2 s.user (.subtract p size size)).trans (b1 s.user).symm) rfl) (fun i => ?_) ?_⟩
    · have hnew := r2 s.user (.subtract p size size)
      refine List.Perm.trans ?_ (hnew.filter _).symm
      show (if i = shardOf p then _ else _ : List (Nat × Nat)).Perm ((s.user ++ rr).filter _)
      by_cases hi : i = shardOf p
      · rw [if_pos hi]
        subst hi
        exact (hfind.2.symm.trans hsh).cons_inv
      · rw [if_neg hi]
        refine (h.shards i).trans ((hrec.filter _).trans ?_)
        rw [List.filter_cons_of_neg (by simpa using fun e => hi e.symm)]
    · show s.track.allocated = _
      rw [h.allocated]
      exact total_perm ((c1 s.user).trans (c2 s.user (.subtract p size size)).symm)
  | subtract p size recorded =>
    have hrs : recorded = size := hok
    subst hrs
    refine ⟨_, rfl, .mk' h.initialised h.tracking (ok_set h.ok (.give p recorded) trivial t)
      (h.b.same ((b2 s.user (.give p recorded)).trans (b1 s.user).symm) rfl) (fun i => ?_) ?_⟩
    · exact (h.shards i).trans (((r1 s.user).trans (r2 s.user (.give p recorded)).symm).filter _)
    · have h3 : s.track.allocated = recorded + total (s.user ++ rc) := h.allocated.trans (total_perm (c1 s.user))
      have h6 : total (((s.subtract recorded).goto t (.give p recorded)).all Pc.counted) = total (s.user ++ rc) :=
        total_perm (c2 s.user (.give p recorded))
      rw [h6]
      exact sub_wrap h3
  | give p size =>
    have hold : s.blocks.Perm ((p, size) :: (s.user ++ rb)) := b1 s.user
    have hnew : (({ s.goto t .idle with live := fun q => if q = p then false else s.live q } : State).blocks).Perm
        (s.user ++ rb) := b2 s.user .idle
    have hnd := (hold.map (·.1)).nodup_iff.1 h.nodup
    rw [List.map_cons, List.nodup_cons] at hnd
    refine ⟨_, rfl, .mk' h.initialised h.tracking (ok_set h.ok .idle trivial t) ⟨?_, ?_, ?_, ?_⟩ (fun i => ?_) ?_⟩
    · exact (hnew.map _).nodup_iff.2 hnd.2
    · exact fun b hb => h.small b (hold.mem_iff.2 (List.mem_cons_of_mem _ (hnew.mem_iff.1 hb)))
    · intro q
      rw [(hnew.map _).mem_iff]
      show (if q = p then false else s.live q) = true ↔ _
      by_cases hq : q = p
      · rw [if_pos hq, hq]
        exact ⟨fun h => (nomatch h), fun h => absurd h hnd.1⟩
      · rw [if_neg hq, h.live, (hold.map _).mem_iff, List.map_cons, List.mem_cons]
        exact ⟨fun h => h.resolve_left hq, .inr⟩
    · have h1 := total_perm hold
      have h2 := h.bound
      rw [total_perm hnew]
      rw [total_cons] at h1
      omega
    · exact (h.shards i).trans (((r1 s.user).trans (r2 s.user .idle).symm).filter _)
    · show s.track.allocated = _
      rw [h.allocated]
      exact total_perm ((c1 s.user).trans (c2 s.user .idle).symm)

theorem Inv.step {s s' : State} (h : Inv s) {t : Nat} {a : Act} (hm : ∀ size, a = .malloc size → size < 2 ^ 32)
    (h1 : a ≠ .setUp) (h2 : a ≠ .unset) (hs : step s t a = some s') : Inv s' := by
  rw [Threads.step] at hs
  cases hpc : s.pcs[t]? with
  | none => rw [hpc] at hs; cases hs
  | some pc =>
    rw [hpc] at hs
    simp only at hs
    obtain ⟨rb, b1, b2⟩ := all_set Pc.block hpc
    obtain ⟨rr, r1, r2⟩ := all_set Pc.recorded hpc
    obtain ⟨rc, c1, c2⟩ := all_set Pc.counted hpc
    cases a with
    | setUp => exact absurd rfl h1
    | unset => exact absurd rfl h2
    | malloc size =>
      simp only at hs
      split at hs
      · next hi =>
        cases hs
        subst hi
        rw [if_pos h.tracking]
        refine h.move h.initialised h.tracking (ok_set h.ok (.check size) (hm size rfl) t) rfl rfl ?_
        rintro f (rfl | rfl | rfl)
        · exact (b2 s.user (.check size)).trans (b1 s.user).symm
        · exact (r2 s.user (.check size)).trans (r1 s.user).symm
        · exact (c2 s.user (.check size)).trans (c1 s.user).symm
      · cases hs
    | free p =>
      simp only at hs
      split at hs
      · next r hf =>
        cases hs
        have hu : s.user.Perm (r :: s.user.eraseP (fun r => r.1 = p)) := by
          have hr : r.1 = p := by simpa using List.find?_some hf
          have nd : (s.user.map (·.1)).Nodup :=
            ((List.sublist_append_left s.user (s.pcs.filterMap Pc.block)).map (·.1)).nodup h.nodup
          have := (find_perm nd (List.mem_of_find?_eq_some hf)).2
          rwa [hr] at this
        have hr : r = (p, r.2) := by
          have hr : r.1 = p := by simpa using List.find?_some hf
          exact Prod.ext hr rfl
        rw [if_pos h.tracking]
        refine h.move h.initialised h.tracking (ok_set h.ok (.remove p r.2) trivial t) rfl rfl ?_
        have fin : ∀ (f : Pc → Option (Nat × Nat)) (rest : List (Nat × Nat)), f .idle = none →
            f (.remove p r.2) = some (p, r.2) →
            (s.user ++ s.pcs.filterMap f).Perm ((f .idle).toList ++ (s.user ++ rest)) →
            (s.user.eraseP (fun r => r.1 = p) ++ (s.pcs.set t (.remove p r.2)).filterMap f).Perm
              ((f (.remove p r.2)).toList ++ (s.user.eraseP (fun r => r.1 = p) ++ rest)) →
            (s.user.eraseP (fun r => r.1 = p) ++ (s.pcs.set t (.remove p r.2)).filterMap f).Perm
              (s.user ++ s.pcs.filterMap f) := by
          intro f rest e1 e2 k1 k2
          rw [e1] at k1
          rw [e2, ← hr] at k2
          exact k2.trans ((hu.symm.append_right rest).trans k1.symm)
        rintro f (rfl | rfl | rfl)
        · exact fin _ rb rfl rfl (b1 s.user) (b2 _ (.remove p r.2))
        · exact fin _ rr rfl rfl (r1 s.user) (r2 _ (.remove p r.2))
        · exact fin _ rc rfl rfl (c1 s.user) (c2 _ (.remove p r.2))
      · cases hs
    | memory p =>
      simp only at hs
      cases pc with
      | asking size =>
        rw [State.memory] at hs
        split at hs
        · next hp =>
          cases hs
          have hok : size < 2 ^ 32 := h.ok (.asking size) (List.mem_of_getElem? hpc)
          have hb : (({ s.goto t (.insert p size) with
              live := fun q => if q = p then true else s.live q } : State).blocks).Perm ((p, size) :: s.blocks) :=
            (b2 s.user (.insert p size)).trans ((b1 s.user).symm.cons _)
          have hn : p ∉ s.blocks.map (·.1) := fun hx => by
            have := (h.live p).2 hx
            rw [hp.2.1] at this; cases this
          refine .mk' h.initialised h.tracking (ok_set h.ok (.insert p size) trivial t) ⟨?_, ?_, ?_, ?_⟩ (fun i => ?_) ?_
          · exact (hb.map _).nodup_iff.2 (by rw [List.map_cons, List.nodup_cons]; exact ⟨hn, h.nodup⟩)
          · intro b hx
            rcases List.mem_cons.1 (hb.mem_iff.1 hx) with rfl | hx
            · exact hok
            · exact h.small b hx
          · intro q
            rw [(hb.map _).mem_iff, List.map_cons, List.mem_cons]
            show (if q = p then true else s.live q) = true ↔ _
            by_cases hq : q = p
            · rw [if_pos hq]; exact ⟨fun _ => .inl hq, fun _ => rfl⟩
            · rw [if_neg hq, h.live]; exact ⟨.inr, fun hx => hx.resolve_left hq⟩
          · rw [total_perm hb, total_cons, Nat.add_comm]; exact hp.2.2
          · exact (h.shards i).trans (((r1 s.user).trans (r2 s.user (.insert p size)).symm).filter _)
          · show s.track.allocated = _
            rw [h.allocated]
            exact total_perm ((c1 s.user).trans (c2 s.user (.insert p size)).symm)
        · cases hs
      | askingPlain size => exact (h.ok (.askingPlain size) (List.mem_of_getElem? hpc)).elim
      | _ => cases hs
    | run =>
      simp only at hs
      by_cases hi : pc = .idle
      · subst hi; cases hs
      · by_cases ha : ∀ size, pc ≠ .asking size
        · obtain ⟨q, q1, q2⟩ := h.run hpc hi ha
          rw [q1] at hs; cases hs; exact q2
        · obtain ⟨size, rfl⟩ : ∃ size, pc = .asking size :=
            Classical.byContradiction fun hn => ha fun size e => hn ⟨size, e⟩
          cases hs

theorem Inv.exec {sched : Schedule} : ∀ {s s' : State}, Inv s → Plain sched → exec s sched = some s' → Inv s' := by
  induction sched with
  | nil => intro s s' h _ he; cases he; exact h
  | cons x rest ih =>
    intro s s' h hp he
    obtain ⟨t, a⟩ := x
    rw [Threads.exec, Option.bind_eq_some_iff] at he
    obtain ⟨s1, h1, h2⟩ := he
    have := hp (t, a) (by simp)
    exact ih (h.step this.1 this.2.1 this.2.2 h1) (fun y hy => hp y (List.mem_cons_of_mem _ hy)) h2

theorem idle_filterMap {f : Pc → Option (Nat × Nat)} (hf : f .idle = none) {l : List Pc} (h : ∀ pc ∈ l, pc = .idle) :
    l.filterMap f = [] := by
  rw [List.filterMap_eq_nil_iff]
  intro pc hpc
  rw [h pc hpc, hf]

theorem Fresh.inv {s : State} (h : Fresh s) : Inv s := by
  have hall : ∀ f : Pc → Option (Nat × Nat), f .idle = none → s.all f = [] := fun f hf => by
    rw [State.all, h.user, idle_filterMap hf h.idle]; rfl
  have hb : s.blocks = [] := hall Pc.block rfl
  refine ⟨h.initialised, h.tracking, fun pc hpc => by rw [h.idle pc hpc]; trivial, by rw [hb]; exact List.nodup_nil,
    by rw [hb]; simp, fun p => by rw [h.live, hb]; simp, fun i => by rw [h.shards, hall _ rfl]; exact .refl _,
    by rw [h.allocated, hall _ rfl]; rfl, by rw [hb]; decide⟩

/-! ## C86 -/

/-- The blocks the program has count; those of calls that are under way may or may not. -/
def Exact (s : State) : Prop :=
  total s.user ≤ s.track.allocated ∧ s.track.allocated ≤ total s.blocks ∧ (Quiet s → s.track.allocated = total s.user)

theorem Inv.exact {s : State} (h : Inv s) : Exact s := by
  refine ⟨?_, ?_, fun hq => ?_⟩
  · rw [h.allocated]; exact total_sublist (List.sublist_append_left _ _)
  · rw [h.allocated]; exact total_sublist Inv.counted_blocks
  · rw [h.allocated, State.all, idle_filterMap rfl hq, List.append_nil]

/-- C86: whatever the threads do, in any order, the total reported counts all blocks of the program and none that the system
has back; when no call is under way it is the sum of the sizes of the blocks not freed. Missing: the first calls
(`C86_init_violated`), turning tracking on or off with blocks in use (`C86_reset_violated`, `C86_stale_violated`), and
blocks of 4 GiB or more (`C34_violated`). -/
theorem C86_totals_partial {s0 s : State} (hf : Fresh s0) {sched : Schedule} (hp : Plain sched)
    (he : exec s0 sched = some s) : Exact s :=
  (hf.inv.exec hp he).exact

/-- C86: no call gets stuck or fails: a block that is freed has its record, in whatever order the threads run. Missing: see
`C86_init_violated`, `C86_reset_violated` and `C86_stale_violated`. -/
theorem C86_defined_partial {s0 s : State} (hf : Fresh s0) {sched : Schedule} (hp : Plain sched)
    (he : exec s0 sched = some s) {t : Nat} {pc : Pc} (hpc : s.pcs[t]? = some pc) (hi : pc ≠ .idle)
    (ha : ∀ size, pc ≠ .asking size) : ∃ s', step s t .run = some s' := by
  obtain ⟨s', h1, -⟩ := (hf.inv.exec hp he).run hpc hi ha
  exact ⟨s', by rw [step, hpc]; exact h1⟩

/-- What a step does to the two totals. -/
theorem Inv.totals {s s' : State} (h : Inv s) {t : Nat} {a : Act} (h1 : a ≠ .setUp) (h2 : a ≠ .unset)
    (hs : Threads.step s t a = some s') : s.track.max ≤ s'.track.max ∧
      (s'.track.max = s.track.max ∨ s'.track.max = s'.track.allocated) ∧
      (s.track.allocated ≤ s.track.max → s'.track.allocated ≤ s'.track.max) := by
  have same : s'.track.max = s.track.max → s'.track.allocated ≤ s.track.allocated →
      s.track.max ≤ s'.track.max ∧ (s'.track.max = s.track.max ∨ s'.track.max = s'.track.allocated) ∧
      (s.track.allocated ≤ s.track.max → s'.track.allocated ≤ s'.track.max) := by
    intro e1 e2; exact ⟨by omega, .inl e1, by omega⟩
  rw [Threads.step] at hs
  cases hpc : s.pcs[t]? with
  | none => rw [hpc] at hs; cases hs
  | some pc =>
    rw [hpc] at hs
    simp only at hs
    cases a with
    | setUp => exact absurd rfl h1
    | unset => exact absurd rfl h2
    | malloc size =>
      simp only at hs
      split at hs
      · cases hs; exact same rfl (Nat.le_refl _)
      · cases hs
    | free p =>
      simp only at hs
      split at hs
      · cases hs; exact same rfl (Nat.le_refl _)
      · cases hs
    | memory p =>
      simp only at hs
      cases pc with
      | asking size =>
        rw [State.memory] at hs
        split at hs
        · cases hs; exact same rfl (Nat.le_refl _)
        · cases hs
      | askingPlain size =>
        rw [State.memory] at hs
        split at hs
        · cases hs; exact same rfl (Nat.le_refl _)
        · cases hs
      | _ => cases hs
    | run =>
      simp only at hs
      have hok := h.ok pc (List.mem_of_getElem? hpc)
      cases pc with
      | idle => cases hs
      | asking size => cases hs
      | askingPlain size => cases hs
      | resetting size => exact hok.elim
      | check size => cases hs; exact same rfl (Nat.le_refl _)
      | insert p size => cases hs; exact same rfl (Nat.le_refl _)
      | give p size => cases hs; exact same rfl (Nat.le_refl _)
      | add p size =>
        cases hs
        show s.track.max ≤ (if sizeAdd s.track.allocated size > s.track.max then sizeAdd s.track.allocated size
            else s.track.max) ∧ ((if sizeAdd s.track.allocated size > s.track.max then sizeAdd s.track.allocated size
            else s.track.max) = s.track.max ∨ (if sizeAdd s.track.allocated size > s.track.max then
            sizeAdd s.track.allocated size else s.track.max) = sizeAdd s.track.allocated size) ∧
          (_ → sizeAdd s.track.allocated size ≤ (if sizeAdd s.track.allocated size > s.track.max then
            sizeAdd s.track.allocated size else s.track.max))
        split
        · exact ⟨by omega, .inr rfl, fun _ => Nat.le_refl _⟩
        · exact ⟨Nat.le_refl _, .inl rfl, fun _ => by omega⟩
      | remove p size =>
        rw [State.run, Option.map_eq_some_iff] at hs
        obtain ⟨r, hr, rfl⟩ := hs
        rw [State.remove] at hr
        split at hr
        · cases hr
        · cases hr; exact same rfl (Nat.le_refl _)
      | subtract p size recorded =>
        cases hs
        have hrs : recorded = size := hok
        obtain ⟨rc, c1, -⟩ := all_set Pc.counted hpc
        have h3 : s.track.allocated = size + total (s.user ++ rc) := h.allocated.trans (total_perm (c1 s.user))
        refine same rfl ?_
        show sizeSub s.track.allocated recorded ≤ s.track.allocated
        rw [sub_wrap (x := total (s.user ++ rc)) (by omega)]
        omega

theorem exec_max {sched : Schedule} : ∀ {s s' : State}, Inv s → Plain sched → s.track.allocated ≤ s.track.max →
    exec s sched = some s' → s.track.max ≤ s'.track.max ∧
      (∀ pre q, pre <+: sched → exec s pre = some q → q.track.allocated ≤ s'.track.max) ∧
      (s'.track.max = s.track.max ∨ ∃ pre q, pre <+: sched ∧ exec s pre = some q ∧ q.track.allocated = s'.track.max) := by
  induction sched with
  | nil =>
    intro s s' h _ hm he
    cases he
    refine ⟨Nat.le_refl _, fun pre q hpre hq => ?_, .inl rfl⟩
    rw [List.prefix_nil.1 hpre] at hq
    cases hq
    exact hm
  | cons x rest ih =>
    intro s s' h hp hm he
    obtain ⟨t, a⟩ := x
    rw [exec, Option.bind_eq_some_iff] at he
    obtain ⟨s1, h1, h2⟩ := he
    have hx := hp (t, a) (by simp)
    obtain ⟨k1, k2, k3⟩ := h.totals hx.2.1 hx.2.2 h1
    obtain ⟨g1, g2, g3⟩ := ih (h.step hx.1 hx.2.1 hx.2.2 h1) (fun y hy => hp y (List.mem_cons_of_mem _ hy)) (k3 hm) h2
    refine ⟨by omega, fun pre q hpre hq => ?_, ?_⟩
    · cases pre with
      | nil => cases hq; omega
      | cons y pre =>
        obtain ⟨rfl, hpre'⟩ := List.cons_prefix_cons.1 hpre
        rw [exec, h1] at hq
        exact g2 pre q hpre' hq
    · rcases g3 with g3 | ⟨pre, q, g3, g4, g5⟩
      · rcases k2 with k2 | k2
        · exact .inl (g3.trans k2)
        · refine .inr ⟨[(t, a)], s1, List.prefix_iff_eq_append.2 rfl, by rw [exec, h1]; rfl, by rw [g3, k2]⟩
      · exact .inr ⟨(t, a) :: pre, q, List.cons_prefix_cons.2 ⟨rfl, g3⟩, by rw [exec, h1]; exact g4, g5⟩

/-- C86: the maximum reported is the largest total there has been. Missing: see `C86_init_violated`, `C86_reset_violated` and
`C86_stale_violated`. -/
theorem C86_max_partial {s0 s : State} (hf : Fresh s0) {sched : Schedule} (hp : Plain sched)
    (he : exec s0 sched = some s) :
    (∀ pre q, pre <+: sched → exec s0 pre = some q → q.track.allocated ≤ s.track.max) ∧
      ∃ pre q, pre <+: sched ∧ exec s0 pre = some q ∧ q.track.allocated = s.track.max := by
  obtain ⟨-, h2, h3⟩ := exec_max hf.inv hp (by rw [hf.allocated]; exact Nat.zero_le _) he
  refine ⟨h2, ?_⟩
  rcases h3 with h3 | h3
  · exact ⟨[], s0, List.nil_prefix, rfl, by rw [h3, hf.max, hf.allocated]⟩
  · exact h3

/-- C86: when everything has been freed and no call is under way, tracking can be turned on again and starts anew. -/
theorem C86_again {s0 s : State} (hf : Fresh s0) {sched : Schedule} (hp : Plain sched) (he : exec s0 sched = some s)
    (hq : Quiet s) (hu : s.user = []) {t : Nat} (ht : t < s.pcs.length) : ∃ s', step s t .setUp = some s' ∧ Fresh s' := by
  have h := hf.inv.exec hp he
  have hpc : s.pcs[t]? = some .idle := by
    rw [List.getElem?_eq_getElem ht, hq _ (List.getElem_mem ht)]
  have hb : s.blocks = [] := by rw [State.blocks, hu, idle_filterMap rfl hq]; rfl
  refine ⟨{ s.reset with tracking := true }, by rw [step, hpc]; rfl, ⟨rfl, rfl, fun i => ?_, rfl, rfl, fun p => ?_, hu, hq⟩⟩
  · show (if s.initialised then s.track.shards else fun _ => []) i = []
    rw [if_pos h.initialised]
    have := h.shards i
    rw [State.all, hu, idle_filterMap rfl hq] at this
    exact List.perm_nil.1 this
  · cases hl : s.live p with
    | false => exact hl
    | true => have := (h.live p).1 hl; rw [hb] at this; cases this

/-! ### With tracking off -/

/-- Tracking has been turned off, with no record left. -/
structure Off (s : State) : Prop where
  initialised : s.initialised = true
  tracking : s.tracking = false
  shards : ∀ i, s.track.shards i = []
  allocated : s.track.allocated = 0
  max : s.track.max = 0
  pcs : ∀ pc ∈ s.pcs, pc = .idle ∨ (∃ size, pc = .askingPlain size) ∨ ∃ p size, pc = .give p size
  nodup : (s.blocks.map (·.1)).Nodup
  live : ∀ p, s.live p = true ↔ p ∈ s.blocks.map (·.1)

theorem Off.mk' {s s' : State} (h : Off s) (hi : s'.initialised = s.initialised) (ht : s'.tracking = s.tracking)
    (htr : s'.track = s.track) {t : Nat} {x : Pc} (hx : x = .idle ∨ (∃ size, x = .askingPlain size) ∨ ∃ p size, x = .give p size)
    (hpcs : s'.pcs = s.pcs.set t x) (hn : (s'.blocks.map (·.1)).Nodup) (hl : ∀ p, s'.live p = true ↔ p ∈ s'.blocks.map (·.1)) :
    Off s' := by
  refine ⟨hi.trans h.initialised, ht.trans h.tracking, fun i => htr ▸ h.shards i, htr ▸ h.allocated, htr ▸ h.max, ?_, hn, hl⟩
  intro pc hpc
  rw [hpcs] at hpc
  rcases List.mem_or_eq_of_mem_set hpc with h' | rfl
  · exact h.pcs pc h'
  · exact hx

theorem Off.same {s s' : State} (h : Off s) (hi : s'.initialised = s.initialised) (ht : s'.tracking = s.tracking)
    (htr : s'.track = s.track) {t : Nat} {x : Pc} (hx : x = .idle ∨ (∃ size, x = .askingPlain size) ∨ ∃ p size, x = .give p size)
    (hpcs : s'.pcs = s.pcs.set t x) (hl : s'.live = s.live) (hp : s'.blocks.Perm s.blocks) : Off s' :=
  h.mk' hi ht htr hx hpcs ((hp.map _).nodup_iff.2 h.nodup) fun p => by rw [hl, h.live, (hp.map _).mem_iff]

theorem Off.step {s s' : State} (h : Off s) {t : Nat} {a : Act} (h1 : a ≠ .setUp) (h2 : a ≠ .unset)
    (hs : step s t a = some s') : Off s' := by
  rw [Threads.step] at hs
  cases hpc : s.pcs[t]? with
  | none => rw [hpc] at hs; cases hs
  | some pc =>
    rw [hpc] at hs
    simp only at hs
    obtain ⟨rb, b1, b2⟩ := all_set Pc.block hpc
    have hpc' := h.pcs pc (List.mem_of_getElem? hpc)
    have hoff : ¬ s.tracking = true := by rw [h.tracking]; simp
    cases a with
    | setUp => exact absurd rfl h1
    | unset => exact absurd rfl h2
    | malloc size =>
      simp only at hs
      split at hs
      · next hi =>
        cases hs
        subst hi
        exact h.same rfl rfl rfl (.inr (.inl ⟨size, rfl⟩)) rfl rfl ((b2 s.user _).trans (b1 s.user).symm)
      · cases hs
    | free p =>
      simp only at hs
      split at hs
      · next r hf =>
        cases hs
        have hr : r.1 = p := by simpa using List.find?_some hf
        have hu : s.user.Perm (r :: s.user.eraseP (fun r => r.1 = p)) := by
          have nd : (s.user.map (·.1)).Nodup :=
            ((List.sublist_append_left s.user (s.pcs.filterMap Pc.block)).map (·.1)).nodup h.nodup
          have := (find_perm nd (List.mem_of_find?_eq_some hf)).2
          rwa [hr] at this
        have hr' : (p, r.2) = r := Prod.ext hr.symm rfl
        rw [if_neg hoff]
        refine h.same rfl rfl rfl (.inr (.inr ⟨p, r.2, rfl⟩)) rfl rfl ((b2 _ (.give p r.2)).trans ?_)
        show ((p, r.2) :: (_ ++ rb)).Perm _
        rw [hr']
        exact (hu.symm.append_right rb).trans (b1 s.user).symm
      · cases hs
    | memory p =>
      simp only at hs
      rcases hpc' with rfl | ⟨size, rfl⟩ | ⟨q, size, rfl⟩
      · cases hs
      · rw [State.memory] at hs
        split at hs
        · next hp =>
          cases hs
          have hb : (({ s.goto t .idle with live := (fun q => if q = p then true else s.live q), user := (p, size) :: s.user } :
              State).blocks).Perm ((p, size) :: s.blocks) :=
            (b2 ((p, size) :: s.user) .idle).trans ((b1 s.user).symm.cons _)
          have hn : p ∉ s.blocks.map (·.1) := fun hx => by
            have := (h.live p).2 hx
            rw [hp.2.1] at this; cases this
          refine h.mk' rfl rfl rfl (.inl rfl) rfl ((hb.map _).nodup_iff.2 ?_) fun q => ?_
          · rw [List.map_cons, List.nodup_cons]; exact ⟨hn, h.nodup⟩
          · rw [(hb.map _).mem_iff, List.map_cons, List.mem_cons]
            show (if q = p then true else s.live q) = true ↔ _
            by_cases hq : q = p
            · rw [if_pos hq]; exact ⟨fun _ => .inl hq, fun _ => rfl⟩
            · rw [if_neg hq, h.live]; exact ⟨.inr, fun hx => hx.resolve_left hq⟩
        · cases hs
      · cases hs
    | run =>
      simp only at hs
      rcases hpc' with rfl | ⟨size, rfl⟩ | ⟨p, size, rfl⟩
      · cases hs
      · cases hs
      · rw [State.run] at hs
        cases hs
        have hold : s.blocks.Perm ((p, size) :: (s.user ++ rb)) := b1 s.user
        have hnew : (({ s.goto t .idle with live := fun q => if q = p then false else s.live q } : State).blocks).Perm
            (s.user ++ rb) := b2 s.user .idle
        have hnd := (hold.map (·.1)).nodup_iff.1 h.nodup
        rw [List.map_cons, List.nodup_cons] at hnd
        refine h.mk' rfl rfl rfl (.inl rfl) rfl ((hnew.map _).nodup_iff.2 hnd.2) fun q => ?_
        rw [(hnew.map _).mem_iff]
        show (if q = p then false else s.live q) = true ↔ _
        by_cases hq : q = p
        · rw [if_pos hq, hq]
          exact ⟨fun h => (nomatch h), fun h => absurd h hnd.1⟩
        · rw [if_neg hq, h.live, (hold.map _).mem_iff, List.map_cons, List.mem_cons]
          exact ⟨fun h => h.resolve_left hq, .inr⟩

theorem Off.exec {sched : Schedule} : ∀ {s s' : State}, Off s → Plain sched → exec s sched = some s' → Off s' := by
  induction sched with
  | nil => intro s s' h _ he; cases he; exact h
  | cons x rest ih =>
    intro s s' h hp he
    obtain ⟨t, a⟩ := x
    rw [Threads.exec, Option.bind_eq_some_iff] at he
    obtain ⟨s1, h1, h2⟩ := he
    have := hp (t, a) (by simp)
    exact ih (h.step this.2.1 this.2.2 h1) (fun y hy => hp y (List.mem_cons_of_mem _ hy)) h2

theorem Off.fresh {s : State} (h : Off s) (hq : Quiet s) (hu : s.user = []) {t : Nat} (ht : t < s.pcs.length) :
    ∃ s', Threads.step s t .setUp = some s' ∧ Fresh s' := by
  have hpc : s.pcs[t]? = some .idle := by
    rw [List.getElem?_eq_getElem ht, hq _ (List.getElem_mem ht)]
  have hb : s.blocks = [] := by rw [State.blocks, hu, idle_filterMap rfl hq]; rfl
  refine ⟨{ s.reset with tracking := true }, by rw [Threads.step, hpc]; rfl, ⟨rfl, rfl, fun i => ?_, rfl, rfl, fun p => ?_, hu, hq⟩⟩
  · show (if s.initialised then s.track.shards else fun _ => []) i = []
    rw [if_pos h.initialised]; exact h.shards i
  · cases hl : s.live p with
    | false => exact hl
    | true => have := (h.live p).1 hl; rw [hb] at this; cases this

/-- C86: tracking is turned off with everything freed. From then on both totals are zero, whatever is allocated and freed, in whatever
order the threads run; no call gets stuck; and when everything has been freed again, tracking can be turned on and starts anew. Missing:
turning it off or on with blocks in use (`C86_reset_violated`, `C86_stale_violated`). -/
theorem C86_off_partial {s0 s s1 s2 : State} (hf : Fresh s0) {sched : Schedule} (hp : Plain sched) (he : exec s0 sched = some s)
    (hq : Quiet s) (hu : s.user = []) {t : Nat} (hs : step s t .unset = some s1) {after : Schedule} (hp' : Plain after)
    (he' : exec s1 after = some s2) :
    s2.tracking = false ∧ s2.track.allocated = 0 ∧ s2.track.max = 0 ∧
    (∀ t pc, s2.pcs[t]? = some pc → pc ≠ .idle → (∃ size, pc = .askingPlain size) ∨ ∃ s', step s2 t .run = some s') ∧
    (Quiet s2 → s2.user = [] → ∀ t < s2.pcs.length, ∃ s', step s2 t .setUp = some s' ∧ Fresh s') := by
  have hoff : Off s1 := by
    obtain ⟨s', hs', hfr⟩ : ∃ s', step s t .setUp = some s' ∧ Fresh s' := by
      refine C86_again hf hp he hq hu (t := t) ?_
      rw [step] at hs
      cases hpc : s.pcs[t]? with
      | none => rw [hpc] at hs; cases hs
      | some pc => exact (List.getElem?_eq_some_iff.1 hpc).1
    rw [step] at hs hs'
    cases hpc : s.pcs[t]? with
    | none => rw [hpc] at hs; cases hs
    | some pc =>
      rw [hpc] at hs hs'
      simp only at hs hs'
      split at hs
      · next hi =>
        rw [if_pos hi] at hs'
        cases hs; cases hs'
        have hb : s.blocks = [] := by rw [State.blocks, hu, idle_filterMap rfl hq]; rfl
        refine ⟨rfl, rfl, hfr.shards, rfl, rfl, fun pc h => .inl (hq pc h), ?_, fun p => ?_⟩
        · show (s.blocks.map (·.1)).Nodup
          rw [hb]; exact List.nodup_nil
        · show s.live p = true ↔ p ∈ s.blocks.map (·.1)
          have := hfr.live p
          rw [hb, show s.live p = false from this]; simp
      · cases hs
  have h2 := hoff.exec hp' he'
  refine ⟨h2.tracking, h2.allocated, h2.max, fun t pc hpc hne => ?_, fun a b t ht => h2.fresh a b ht⟩
  rcases h2.pcs pc (List.mem_of_getElem? hpc) with rfl | ⟨size, rfl⟩ | ⟨p, size, rfl⟩
  · exact absurd rfl hne
  · exact .inl ⟨size, rfl⟩
  · exact .inr ⟨_, by rw [step, hpc]; rfl⟩

/-- C86: the value of `fiftyoneDegreesUnsetMemoryTracking`, memory.c:272-280, with no call under way is zero exactly if everything
was freed, empty blocks aside. Missing: see `C86_init_violated`, `C86_reset_violated` and `C86_stale_violated`. -/
theorem C86_leaks_partial {s0 s : State} (hf : Fresh s0) {sched : Schedule} (hp : Plain sched) (he : exec s0 sched = some s)
    (hq : Quiet s) : s.track.allocated = 0 ↔ ∀ b ∈ s.user, b.2 = 0 := by
  rw [(C86_totals_partial hf hp he).2.2 hq, total, List.sum_eq_zero_iff_forall_eq_nat]
  exact ⟨fun h b hb => h b.2 (List.mem_map_of_mem hb), fun h x hx => by
    obtain ⟨b, hb, rfl⟩ := List.mem_map.1 hx
    exact h b hb⟩

/-- A process in which tracking is the default, memory.c:287-300, at its start: the tracker has not been initialised. -/
structure Blank (s : State) : Prop where
  initialised : s.initialised = false
  tracking : s.tracking = true
  live : ∀ p, s.live p = false
  user : s.user = []
  idle : ∀ pc ∈ s.pcs, pc = .idle

/-- C86: when the first call is past its test before another thread makes one, all is well from then on. Missing: first calls that
overlap, see `C86_init_violated`. -/
theorem C86_first_partial {s0 s : State} (hf : Blank s0) {t size : Nat} {sched : Schedule}
    (hp : Plain ((t, .malloc size) :: sched))
    (he : exec s0 ((t, .malloc size) :: (t, .run) :: (t, .run) :: sched) = some s) : Exact s := by
  cases hpc : s0.pcs[t]? with
  | none => simp only [exec, step, hpc, Option.bind_none] at he; cases he
  | some pc =>
    have hi := hf.idle pc (List.mem_of_getElem? hpc)
    subst hi
    have ht : t < s0.pcs.length := (List.getElem?_eq_some_iff.1 hpc).1
    have e1 : step s0 t (.malloc size) = some (s0.goto t (.check size)) := by
      rw [step, hpc]; simp only [if_true, hf.tracking]
    have e2 : step (s0.goto t (.check size)) t .run = some ((s0.goto t (.check size)).goto t (.resetting size)) := by
      have : (s0.goto t (.check size)).pcs[t]? = some (.check size) := List.getElem?_set_self ht
      rw [step, this]
      show some ((s0.goto t (.check size)).goto t (if s0.initialised then _ else _)) = _
      rw [hf.initialised]; rfl
    have e3 : step ((s0.goto t (.check size)).goto t (.resetting size)) t .run =
        some ((((s0.goto t (.check size)).goto t (.resetting size)).reset).goto t (.asking size)) := by
      have : ((s0.goto t (.check size)).goto t (.resetting size)).pcs[t]? = some (.resetting size) :=
        List.getElem?_set_self (by simpa [State.goto] using ht)
      rw [step, this]; rfl
    simp only [exec, e1, e2, e3, Option.bind_some] at he
    refine (Inv.exec ?_ (fun x hx => hp x (List.mem_cons_of_mem _ hx)) he).exact
    have hpcs : ((((s0.goto t (.check size)).goto t (.resetting size)).reset).goto t (.asking size)).pcs =
        s0.pcs.set t (.asking size) := by
      simp [State.goto, State.reset]
    have hall : ∀ f : Pc → Option (Nat × Nat), f .idle = none → f (.asking size) = none →
        ((((s0.goto t (.check size)).goto t (.resetting size)).reset).goto t (.asking size)).all f = [] := by
      intro f hf1 hf2
      rw [State.all, hpcs]
      show s0.user ++ _ = []
      rw [hf.user, List.nil_append, List.filterMap_eq_nil_iff]
      intro pc hpc
      rcases List.mem_or_eq_of_mem_set hpc with h | rfl
      · rw [hf.idle pc h, hf1]
      · exact hf2
    have hb := hall Pc.block rfl rfl
    refine ⟨rfl, hf.tracking, ?_, ?_, ?_, ?_, fun i => ?_, ?_, ?_⟩
    · rw [hpcs]
      refine ok_set (fun pc hpc => ?_) (.asking size) ((hp (t, .malloc size) (by simp)).1 size rfl) t
      rw [hf.idle pc hpc]; trivial
    · show (List.map _ (State.all Pc.block _)).Nodup
      rw [hb]; exact List.nodup_nil
    · show ∀ b ∈ State.all Pc.block _, _
      rw [hb]; simp
    · intro p
      show s0.live p = true ↔ p ∈ List.map _ (State.all Pc.block _)
      rw [hb, hf.live]; simp
    · rw [hall _ rfl rfl]
      show ((if s0.initialised then s0.track.shards else fun _ => []) i).Perm []
      rw [hf.initialised]; exact .refl _
    · rw [hall _ rfl rfl]; rfl
    · show total (State.all Pc.block _) < _
      rw [hb]; decide

/-! ### Witnesses -/

/-- `n` threads and a tracker that is or is not initialised. -/
def begin (initialised : Bool) (n : Nat) : State :=
  ⟨initialised, true, ⟨fun _ => [], 0, 0⟩, fun _ => false, [], List.replicate n .idle⟩

theorem begin_fresh (n : Nat) : Fresh (begin true n) :=
  ⟨rfl, rfl, fun _ => rfl, rfl, rfl, fun _ => rfl, rfl, fun _ h => (List.mem_replicate.1 h).2⟩

theorem begin_blank (n : Nat) : Blank (begin false n) :=
  ⟨rfl, rfl, fun _ => rfl, rfl, fun _ h => (List.mem_replicate.1 h).2⟩

/-- A whole allocation and a whole free by thread `t`. -/
def take (t size p : Nat) : Schedule := [(t, .malloc size), (t, .run), (t, .memory p), (t, .run), (t, .run)]
def drop (t p : Nat) : Schedule := [(t, .free p), (t, .run), (t, .run), (t, .run)]

/-- Two threads that take turns in every step; the second frees what the first allocated. -/
def turns : Schedule :=
  take 0 10 4096 ++ [(0, .malloc 7), (1, .free 4096), (0, .run), (1, .run), (0, .memory 8192), (1, .run), (0, .run), (1, .run),
    (0, .run)]

example : Plain turns := by
  intro x hx
  simp only [turns, take, List.cons_append, List.nil_append, List.mem_cons, List.not_mem_nil, or_false] at hx
  rcases hx with rfl | rfl | rfl | rfl | rfl | rfl | rfl | rfl | rfl | rfl | rfl | rfl | rfl | rfl <;>
    exact ⟨fun size h => by cases h <;> decide, by decide, by decide⟩

example : (exec (begin true 2) turns).map (fun s => (s.track.allocated, s.track.max, s.user)) =
    some (7, 10, [(8192, 7)]) := by decide

/-- Everything freed, tracking turned on again: the case of `C86_again` and `C86_leaks_partial`. -/
example : (exec (begin true 2) (turns ++ drop 1 8192 ++ [(0, .setUp)])).map (fun s => (s.track.allocated, s.track.max, s.user)) =
    some (0, 0, []) := by decide

/-- The case of `C86_off_partial`: off with everything freed, a block allocated and freed, and on again. -/
example : (exec (begin true 2) (turns ++ drop 1 8192 ++ [(0, .unset), (1, .malloc 5), (1, .memory 4096)])).map
      (fun s => (s.track.allocated, s.track.max, s.user)) = some (0, 0, [(4096, 5)]) ∧
    (exec (begin true 2) (turns ++ drop 1 8192 ++ ([(0, .unset), (1, .malloc 5), (1, .memory 4096), (0, .free 4096), (0, .run),
      (1, .setUp)] : Schedule) ++ take 1 6 4096)).map (fun s => (s.track.allocated, s.track.max, s.user)) = some (6, 6, [(4096, 6)]) := by decide

/-- The case of `C86_first_partial`. -/
example : (exec (begin false 2) ((0, .malloc 10) :: (0, .run) :: (0, .run) :: ([(1, .malloc 20), (0, .memory 4096), (1, .run),
    (0, .run), (1, .memory 8192), (1, .run), (0, .run), (1, .run)] : Schedule))).map
      (fun s => (s.track.allocated, s.user)) = some (30, [(8192, 20), (4096, 10)]) := by decide

/-- C86, counterexample: two threads make the first two calls, both find that the tracker is not initialised, and the block
of the first is no longer counted after the second has reset the totals; when it is freed, the total passes below zero. -/
theorem C86_init_violated :
    let race : Schedule := [(0, .malloc 10), (1, .malloc 20), (0, .run), (1, .run), (0, .run), (0, .memory 4096), (0, .run),
      (0, .run), (1, .run), (1, .memory 8192), (1, .run), (1, .run)]
    (exec (begin false 2) race).map (fun s => (s.track.allocated, s.user)) = some (20, [(8192, 20), (4096, 10)]) ∧
    (exec (begin false 2) (race ++ drop 1 8192 ++ drop 0 4096)).map (fun s => (s.track.allocated, s.user)) =
      some (2 ^ 64 - 10, []) := by decide

/-- C86, counterexample: tracking is turned on while a block is in use, which is freed afterwards. -/
theorem C86_reset_violated :
    (exec (begin true 1) (take 0 10 4096 ++ [(0, .setUp)] ++ drop 0 4096)).map (fun s => (s.track.allocated, s.user)) =
      some (2 ^ 64 - 10, []) := by decide

/-- C86, counterexample: a block is allocated with tracking and freed without, so that its record stays; with tracking on
again the system gives the same address for a block of another size, which is freed as one of the old size. -/
theorem C86_stale_violated :
    (exec (begin true 1) (take 0 10 4096 ++ [(0, .unset), (0, .free 4096), (0, .run), (0, .setUp)] ++ take 0 30 4096 ++
      drop 0 4096)).map (fun s => (s.track.allocated, s.user)) = some (20, []) := by decide

/-- In a build with assertions, the second record under the same address stops the program in
`fiftyoneDegreesTreeInsert` (tree.c:281); without, it goes to the right of the first, which is the one found. -/
example : Tree.execAll 9 (Tree.rootInit Tree.blank) [.init 0, .insert 0 4096, .init 1, .insert 1 4096] = none := by
  decide

end Verif.Memory.Threads
