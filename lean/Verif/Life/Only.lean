import Verif.Life.Props

/-! # C96: the build with collections only in memory, the memory

The blocks that `MemoryTrackingGetAllocated` counts are kept beside those in use: `Malloc` and `Free` of the library change
both, `free` of the C library only the latter. -/

namespace Verif.Life

/-! ## Model -/

/-- The memory, and the blocks the tracker counts. -/
structure Tr where
  mem : St
  counted : Nat → Bool

/-- After calls of `Malloc` and `Free`, with `trackAllocation` and `untrackAllocation`, memory.c:109-183. -/
def Tr.update (t : Tr) (s : St) : Tr :=
  ⟨s, fun j => if s.live j = t.mem.live j then t.counted j else s.live j⟩

/-- `free` of the C library. -/
def Tr.cfree (t : Tr) (b : Nat) : UB Tr := (t.mem.free b).map fun s => ⟨s, t.counted⟩

/-- `fiftyoneDegreesCollectionCreateFromFile` in the build with `FIFTYONE_DEGREES_MEMORY_ONLY`, collection.c:893-935. The
reader made here is in step with the header and has all bytes of it, so that `MemoryAdvance` succeeds. -/
def createOnly (t : Tr) : UB (Tr × Option Coll) :=
  match t.mem.ask .buffer with
  | (false, s) => some (t.update s, none) -- 900; `Free(NULL)`
  | (true, s) =>
    let data := s.malloc.1
    let t := t.update s.malloc.2
    match t.mem.ask .io with -- fseek, 910
    | (false, s) => ((t.update s).cfree data).map fun t => (t, none)
    | (true, s) =>
      match s.ask .io with -- fread, 916
      | (false, s) => ((t.update s).cfree data).map fun t => (t, none)
      | (true, s) =>
        match createFromMemory s true with
        | none => none
        | some (s, some (.memory self state _ next)) => some (t.update s, some (.memory self state (some data) next)) -- 931
        | some (s, _) => ((t.update s).cfree data).map fun t => (t, none)

/-- `collection->freeCollection`. -/
def Tr.freeColl (t : Tr) (c : Coll) : UB Tr := (c.free t.mem).map t.update

/-! ## Properties -/

/-- The tracker counts what is in use. -/
def InStep (t : Tr) : Prop := ∀ j, t.counted j = t.mem.live j

theorem InStep.update {t : Tr} (h : InStep t) (s : St) : InStep (t.update s) := by
  intro j
  show (if s.live j = t.mem.live j then t.counted j else s.live j) = s.live j
  split
  · rename_i e; rw [h j, e]
  · rfl

/-- The states of `createOnly` after the memory for the data, the seek and the read. -/
def s1 (t : Tr) : St := (t.mem.ask .buffer).2.malloc.2
def s2 (t : Tr) : St := ((s1 t).ask .io).2
def s3 (t : Tr) : St := ((s2 t).ask .io).2

theorem ask_eq (s : St) (k : Kind) : s.ask k = ((s.results k).headD true, (s.ask k).2) := rfl

theorem s1_io (t : Tr) : (s1 t).results .io = t.mem.results .io := rfl

theorem s2_io (t : Tr) : (s2 t).results .io = (t.mem.results .io).tail := rfl

theorem createOnly_eq (t : Tr) : createOnly t =
    (match (t.mem.results .buffer).headD true, (t.mem.results .io).headD true, (t.mem.results .io).tail.headD true with
    | false, _, _ => some (t.update (t.mem.ask .buffer).2, none)
    | true, false, _ => (((t.update (s1 t)).update (s2 t)).cfree t.mem.next).map fun t => (t, none)
    | true, true, false => (((t.update (s1 t)).update (s3 t)).cfree t.mem.next).map fun t => (t, none)
    | true, true, true =>
      match createFromMemory (s3 t) true with
      | none => none
      | some (s, some (.memory self state _ next)) =>
        some ((t.update (s1 t)).update s, some (.memory self state (some t.mem.next) next))
      | some (s, _) => (((t.update (s1 t)).update s).cfree t.mem.next).map fun t => (t, none)) := by
  have e2 : (t.update (s1 t)).mem.ask .io = ((t.mem.results .io).headD true, s2 t) := rfl
  have e3 : (s2 t).ask .io = ((t.mem.results .io).tail.headD true, s3 t) := rfl
  rw [createOnly, ask_eq]
  cases (t.mem.results .buffer).headD true with
  | false => rfl
  | true =>
    simp only
    change (match (t.update (s1 t)).mem.ask .io with
      | (false, s) => (((t.update (s1 t)).update s).cfree t.mem.next).map fun t => (t, none)
      | (true, s) => _) = _
    rw [e2]
    cases (t.mem.results .io).headD true with
    | false => rfl
    | true =>
      simp only
      rw [e3]
      cases (t.mem.results .io).tail.headD true <;> rfl

theorem cfree_own {t : Tr} {L : Nat → Bool} {n b : Nat} {C A : Prop} {s : St} (h : Own L n C A [b] s)
    (hL : ∀ j, n ≤ j → L j = false) :
    ∃ t', (t.update s).cfree b = some t' ∧ t'.mem.live = L ∧ t'.counted = (t.update s).counted := by
  obtain ⟨s', e, h'⟩ := h.free_cons hL
  refine ⟨⟨s', (t.update s).counted⟩, ?_, funext fun j => by simpa using h'.live j, rfl⟩
  show (s.free b).map _ = _
  rw [e]
  rfl

/-- Creating a collection and freeing it, whatever seeks and reads fail: the result is NULL exactly when the memory for the
data cannot be had or the seek or the read fails, and then the blocks in use are as before; otherwise freeing the collection
gives back every block once, and the tracker counts none of them. The allocations of the structures must succeed: see
`C96_noMemory_violated`; what the tracker counts after a failure: see `C96_counted_violated`. -/
theorem C96_free_partial (t : Tr) (hf : Fresh t.mem) (hs : ∀ b ∈ t.mem.results .struct, b = true) (hc : InStep t) :
    ∃ t' r, createOnly t = some (t', r) ∧
      (r = none ↔ (t.mem.results .buffer).headD true = false ∨ (t.mem.results .io).headD true = false ∨
        (t.mem.results .io).tail.headD true = false) ∧
      match r with
      | none => t'.mem.live = t.mem.live
      | some c => InStep t' ∧ (∃ j, t'.mem.live j = true ∧ t.mem.live j = false) ∧
        ∃ t'', t'.freeColl c = some t'' ∧ t''.mem.live = t.mem.live ∧ InStep t'' := by
  have h0 := own_start (s := t.mem) False False hs (fun a => a.elim) (fun a => a.elim)
  have h1 : Own t.mem.live t.mem.next False False [t.mem.next] (s1 t) := (h0.ask .buffer).malloc
  have h2 : Own t.mem.live t.mem.next False False [t.mem.next] (s2 t) := h1.ask .io
  have h3 : Own t.mem.live t.mem.next False False [t.mem.next] (s3 t) := h2.ask .io
  rw [createOnly_eq]
  cases (t.mem.results .buffer).headD true with
  | false => exact ⟨_, none, rfl, by simp, rfl⟩
  | true =>
    cases (t.mem.results .io).headD true with
    | false =>
      obtain ⟨t', e, hl, -⟩ := cfree_own (t := t.update (s1 t)) h2 hf
      exact ⟨t', none, by simp only [e]; rfl, by simp, hl⟩
    | true =>
      cases (t.mem.results .io).tail.headD true with
      | false =>
        obtain ⟨t', e, hl, -⟩ := cfree_own (t := t.update (s1 t)) h3 hf
        exact ⟨t', none, by simp only [e]; rfl, by simp, hl⟩
      | true =>
        obtain ⟨s4, c, st, e4, h4⟩ := createCollection_own h3
        have e5 : createFromMemory (s3 t) true = some (s4, some (.memory c st none none)) := by
          simp [createFromMemory, e4]
        simp only [e5]
        have h5 : Own t.mem.live t.mem.next False False ((Coll.memory c st (some t.mem.next) none).blocks ++ []) s4 := by
          refine h4.perm ?_
          simp only [Coll.blocks, Option.map_none, Option.getD_none, List.nil_append, Option.toList_some, List.append_nil]
          exact (List.Perm.cons st (List.Perm.swap t.mem.next c [])).trans (List.Perm.swap t.mem.next st [c])
        obtain ⟨s6, e6, h6⟩ := collFree_own _ h5 hf
        have hstep := (hc.update (s1 t)).update s4
        refine ⟨_, _, rfl, by simp, hstep, ⟨t.mem.next, ?_, hf _ (Nat.le_refl _)⟩,
          (((t.update (s1 t)).update s4).update s6), ?_, funext fun j => by show s6.live j = _; simpa using h6.live j, hstep.update s6⟩
        · show s4.live t.mem.next = true
          rw [h4.live]; simp
        · show (Coll.free s4 _).map _ = _
          rw [e6]
          rfl

/-- A seek or a read fails: the memory is given back with `free` and the tracker goes on counting it, for ever. -/
theorem C96_counted_violated (t : Tr) (hf : Fresh t.mem) (hs : ∀ b ∈ t.mem.results .struct, b = true) (hc : InStep t)
    (hb : (t.mem.results .buffer).headD true = true)
    (hio : (t.mem.results .io).headD true = false ∨ (t.mem.results .io).tail.headD true = false) :
    ∃ t', createOnly t = some (t', none) ∧ t'.mem.live = t.mem.live ∧
      ∀ j, t'.counted j = (t.mem.live j || decide (j = t.mem.next)) := by
  have h0 := own_start (s := t.mem) False False hs (fun a => a.elim) (fun a => a.elim)
  have h1 : Own t.mem.live t.mem.next False False [t.mem.next] (s1 t) := (h0.ask .buffer).malloc
  have h2 : Own t.mem.live t.mem.next False False [t.mem.next] (s2 t) := h1.ask .io
  have h3 : Own t.mem.live t.mem.next False False [t.mem.next] (s3 t) := h2.ask .io
  have hin := hc.update (s1 t)
  rw [createOnly_eq, hb]
  cases h : (t.mem.results .io).headD true with
  | false =>
    obtain ⟨t', e, hl, hk⟩ := cfree_own (t := t.update (s1 t)) h2 hf
    refine ⟨t', by simp only [e]; rfl, hl, fun j => ?_⟩
    rw [hk, hin.update (s2 t) j]
    show (s2 t).live j = _
    simpa using h2.live j
  | true =>
    have h' : (t.mem.results .io).tail.headD true = false := hio.resolve_left (by rw [h]; simp)
    rw [h']
    obtain ⟨t', e, hl, hk⟩ := cfree_own (t := t.update (s1 t)) h3 hf
    refine ⟨t', by simp only [e]; rfl, hl, fun j => ?_⟩
    rw [hk, hin.update (s3 t) j]
    show (s3 t).live j = _
    simpa using h3.live j

/-- The memory for the structures cannot be had: NULL is dereferenced. -/
theorem C96_noMemory_violated (t : Tr) (x : List Bool) (hs : t.mem.results .struct = false :: x)
    (hb : t.mem.results .buffer = []) (hio : t.mem.results .io = []) : createOnly t = none := by
  rw [createOnly_eq, hb, hio]
  have e : createFromMemory (s3 t) true = none := C68_noMemory_memory_violated (s3 t) true x hs
  simp [e]

/-! ## Examples -/

/-- No memory in use. -/
def tr0 (results : Kind → List Bool) : Tr := ⟨⟨0, fun _ => false, results⟩, fun _ => false⟩

example : Fresh (tr0 fun _ => []).mem ∧ InStep (tr0 fun _ => []) := ⟨fun _ _ => rfl, fun _ => rfl⟩

/-- Three blocks, all freed. -/
example : (createOnly (tr0 fun _ => [])).map (fun r => (r.2, (List.range 4).map r.1.counted)) =
      some (some (.memory 1 2 (some 0) none), [true, true, true, false]) ∧
    ((createOnly (tr0 fun _ => [])).bind fun r => r.2.bind fun c => (r.1.freeColl c).map fun t =>
      ((List.range 4).map t.counted, (List.range 4).map t.mem.live)) =
      some ([false, false, false, false], [false, false, false, false]) := by decide +kernel

/-- The read fails. -/
example : (createOnly (tr0 fun k => if k = .io then [true, false] else [])).map
      (fun r => (r.2, (List.range 2).map r.1.counted, (List.range 2).map r.1.mem.live)) =
      some (none, [true, false], [false, false]) := by decide +kernel

end Verif.Life
