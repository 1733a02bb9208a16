import Verif.Life.Lemmas

/-! # C68 and C69: the memory and the file handles of collections -/

namespace Verif.Life

/-! ## C68: creating and freeing a collection

The statements are in terms of the set of blocks in use before and after. -/

/-- No block beyond the next one is in use. -/
def Fresh (s : St) : Prop := ∀ b, s.next ≤ b → s.live b = false

theorem own_start {s : St} (C A : Prop) (hs : ∀ b ∈ s.results .struct, b = true)
    (hc : C → ∀ b ∈ s.results .cache, b = true) (ha : A → ∀ k, ∀ b ∈ s.results k, b = true) :
    Own s.live s.next C A [] s :=
  ⟨List.nodup_nil, fun b hb => absurd hb (by simp), Nat.le_refl _, fun j => by simp, hs, hc, ha⟩

/-- C68: when the second of the two blocks of a collection cannot be had, the first is given back: a collection has two
blocks that were not in use, or there are none. -/
theorem C68_structs (s : St) (hf : Fresh s) :
    ∃ s' r, createCollection s = some (s', r) ∧
      match r with
      | none => s'.live = s.live
      | some (a, b) => a ≠ b ∧ s.live a = false ∧ s.live b = false ∧
          ∀ j, s'.live j = true ↔ j = a ∨ j = b ∨ s.live j = true := by
  have h0 := hf s.next (Nat.le_refl _)
  have h1 := hf (s.next + 1) (by omega)
  simp only [createCollection, St.ask, St.malloc]
  cases (s.results .struct).headD true with
  | false => exact ⟨_, none, rfl, rfl⟩
  | true =>
    simp only [if_true]
    cases (s.results .struct).tail.headD true with
    | false =>
      simp only [St.free, decide_true, Bool.true_or, if_true, Option.map_some]
      refine ⟨_, none, rfl, ?_⟩
      funext j
      by_cases hj : j = s.next
      · subst hj; simp [h0]
      · simp [hj]
    | true =>
      refine ⟨_, some _, rfl, by simp, h0, h1, fun j => ?_⟩
      simp only [Bool.or_eq_true, decide_eq_true_eq]
      exact or_left_comm

example : ∃ s : St, Fresh s ∧ (createCollection s).map (·.2) = some none ∧ (s.results .struct).head? = some true :=
  ⟨⟨0, fun _ => false, fun _ => [true, false]⟩, fun _ _ => rfl, by simp [createCollection, St.ask, St.malloc, St.free], rfl⟩

/-- Creating a collection from a file, whatever seeks, reads and allocations of data fail after the first seek: the result is
NULL with the blocks in use as before; or a collection which, after any number of loads into its cache, is freed without
fault, leaving the blocks in use as before. A cache must be possible with the configuration, and the allocations of the
structures must succeed: see `C68_leak_violated`, `C68_noMemory_violated`, `C68_seek_violated`. -/
theorem C68_create_partial (s : St) (cfg : Config) (v more : Bool) (hf : Fresh s)
    (hs : ∀ b ∈ s.results .struct, b = true)
    (hio : cfg.loaded > 0 → (s.results .io).headD true = true)
    (hc : cfg.capacity > 0 ∧ cfg.concurrency > 0 →
      cfg.concurrency ≤ cfg.capacity / cfg.concurrency ∧ ∀ b ∈ s.results .cache, b = true) :
    ∃ s' r, create s cfg v more = some (s', r) ∧
      match r with
      | none => s'.live = s.live
      | some c => ∀ k, ∃ s'', (Coll.loads k s' c).2.free (Coll.loads k s' c).1 = some s'' ∧ s''.live = s.live := by
  have h0 := own_start (s := s) (cfg.capacity > 0 ∧ cfg.concurrency > 0) False hs (fun c => (hc c).2) (fun a => a.elim)
  obtain ⟨s', r, e, h, _⟩ := create_own v more h0 hf
    (fun c => ⟨c, by have := c.2; omega, (hc c).1⟩) hio
  refine ⟨s', r, e, ?_⟩
  cases r with
  | none =>
    funext j
    simpa using h.live j
  | some c =>
    intro k
    have h1 := loads_own k c (by simpa using h)
    obtain ⟨s'', e'', h''⟩ := collFree_own (bs := []) _ (by simpa using h1) hf
    exact ⟨s'', e'', by funext j; simpa using h''.live j⟩

/-- A collection has a cache. -/
def Back.Cached (b : Back) : Prop := ∃ self state source table nodes, b = .cache self state source table nodes

theorem cached_kind {s s' : St} {cfg : Config} {b : Back} (h : createFromFileCached s cfg = some (s', some b)) : b.Cached := by
  unfold createFromFileCached at h
  cases e1 : createCollection s with
  | none => simp [e1] at h
  | some r1 =>
    obtain ⟨s1, c⟩ := r1
    simp only [e1, bind, Option.bind] at h
    cases c with
    | none => simp at h
    | some c =>
      simp only at h
      cases e2 : createFromFile s1 with
      | none => simp [e2] at h
      | some r2 =>
        obtain ⟨s2, f⟩ := r2
        simp only [e2] at h
        cases f with
        | none => simp at h
        | some f =>
          simp only at h
          split at h
          · simp at h
          · cases h
            exact ⟨_, _, _, _, _, rfl⟩

theorem second_kind {s s' : St} {cfg : Config} {b : Back} (h : createFromFileSecond s cfg = some (s', some b)) :
    b.Cached ↔ cfg.capacity > 0 ∧ cfg.concurrency > 0 := by
  unfold createFromFileSecond at h
  split at h
  · simp at h
  · split at h
    · rename_i hc
      exact ⟨fun _ => hc, fun _ => cached_kind h⟩
    · rename_i hc
      refine ⟨fun hb => ?_, fun x => absurd x hc⟩
      rename_i s1 _
      cases e : createFromFile s1 with
      | none => simp [e] at h
      | some r =>
        obtain ⟨s2, f⟩ := r
        simp only [e, bind, Option.bind, Option.some.injEq, Prod.mk.injEq] at h
        cases f with
        | none => simp at h
        | some f =>
          obtain ⟨_, h⟩ := h
          cases h
          obtain ⟨_, _, _, _, _, h⟩ := hb
          cases h

/-- The kind of collection that the configuration asks for: in memory if any items are to be loaded, with a second one behind
it exactly if they are not all; what is not in memory has a cache exactly if both capacity and concurrency are set. -/
def Kinded (cfg : Config) (more : Bool) : Coll → Prop
  | .back b => cfg.loaded = 0 ∧ (b.Cached ↔ cfg.capacity > 0 ∧ cfg.concurrency > 0)
  | .memory _ _ toFree next => cfg.loaded > 0 ∧ toFree.isSome ∧ (next.isSome ↔ more = true) ∧
      ∀ b, next = some b → (b.Cached ↔ cfg.capacity > 0 ∧ cfg.concurrency > 0)

theorem create_kind {s s' : St} {cfg : Config} {v more : Bool} {c : Coll} {C A : Prop}
    (h0 : Own s.live s.next C A [] s) (hf : Fresh s) (hio : (s.results .io).headD true = true)
    (h : create s cfg v more = some (s', some c)) : Kinded cfg more c := by
  unfold create at h
  split at h
  · rename_i hl
    obtain ⟨s1, r, e1, h1, hr, a1⟩ := createFromFilePartial_own v h0 hf hio
    simp only [e1, bind, Option.bind] at h
    rcases hr with hr | ⟨c0, st, m, hr⟩
    · subst hr
      simp at h
    · subst hr
      simp only at h
      cases more with
      | false =>
        simp at h
        obtain ⟨_, h⟩ := h
        subst h
        simp [Kinded, hl]
      | true =>
        simp only [if_true, addSecond] at h
        cases e2 : createFromFileSecond s1 cfg with
        | none => simp [e2] at h
        | some r2 =>
          obtain ⟨s2, b⟩ := r2
          simp only [e2, bind, Option.bind] at h
          cases b with
          | none =>
            simp only at h
            split at h <;> simp at h
          | some b =>
            simp at h
            obtain ⟨_, h⟩ := h
            subst h
            refine ⟨hl, rfl, by simp, fun b' e => ?_⟩
            cases e
            exact second_kind e2
  · rename_i hl
    cases e2 : createFromFileSecond s cfg with
    | none => simp [e2] at h
    | some r2 =>
      obtain ⟨s2, b⟩ := r2
      simp only [e2, bind, Option.bind] at h
      cases b with
      | none => simp at h
      | some b =>
        simp at h
        obtain ⟨_, h⟩ := h
        subst h
        exact ⟨by omega, second_kind e2⟩

/-- If nothing fails, there is a collection of the kind asked for; its blocks are distinct, were not in use before, and are
the only ones that come into use. -/
theorem C68_kind (s : St) (cfg : Config) (v more : Bool) (hf : Fresh s) (ha : ∀ k, ∀ b ∈ s.results k, b = true)
    (hc : cfg.capacity > 0 ∧ cfg.concurrency > 0 → cfg.concurrency ≤ cfg.capacity / cfg.concurrency) :
    ∃ s' c, create s cfg v more = some (s', some c) ∧ Kinded cfg more c ∧
      c.blocks.Nodup ∧ (∀ b ∈ c.blocks, s.live b = false) ∧
      (∀ b, s'.live b = true ↔ s.live b = true ∨ b ∈ c.blocks) := by
  have h0 := own_start (s := s) (cfg.capacity > 0 ∧ cfg.concurrency > 0) True (ha _) (fun c => (ha _)) (fun _ => ha)
  obtain ⟨s', r, e, h, hr⟩ := create_own v more h0 hf
    (fun c => ⟨c, by have := c.2; omega, hc c⟩) (fun _ => ask_true (ha .io))
  cases r with
  | none => exact absurd (hr trivial) (by simp)
  | some c =>
    refine ⟨s', c, e, create_kind h0 hf (ask_true (ha .io)) e, h.nodup, fun b hb => hf b (h.range b hb).1, fun b => ?_⟩
    rw [h.live b]
    simp

/-- A memory of which nothing is in use and where nothing fails. -/
def start : St := { next := 0, live := fun _ => false, results := fun _ => [] }

theorem start_fresh : Fresh start := fun _ _ => rfl

-- Two items in memory, the others in a cache.
example : (create start ⟨2, 100, 4⟩ true true).map (fun r => r.2.map Coll.blocks) =
    some (some [8, 7, 9, 6, 5, 4, 3, 2]) := by decide
-- The read of the items fails.
example : ∃ s', create { start with results := fun k => if k = .io then [true, true, false] else [] } ⟨2, 100, 4⟩ false true =
    some (s', none) ∧ ∀ b < 20, s'.live b = false := ⟨_, rfl, by decide⟩

/-- A cache that is too small for the concurrency: the collection in the file made for it is left in use, though the result
is NULL. -/
theorem C68_leak_violated (s : St) (cfg : Config) (v more : Bool) (hf : Fresh s)
    (ha : ∀ k, ∀ b ∈ s.results k, b = true)
    (hl : cfg.loaded = 0) (h0 : cfg.capacity > 0 ∧ cfg.concurrency > 0)
    (hc : cfg.capacity / cfg.concurrency < cfg.concurrency) :
    ∃ s' b, create s cfg v more = some (s', none) ∧ s.live b = false ∧ s'.live b = true := by
  have h1 := own_start (s := s) True True (ha _) (fun _ => ha _) (fun _ => ha)
  have a1 : (s.ask .io).1 = true := ask_true (ha .io)
  have h2 := h1.ask .io
  cases e1 : s.ask .io with | mk ok s1 =>
  rw [e1] at h2 a1
  simp only at a1
  subst a1
  obtain ⟨s2, c, st, e2, h3⟩ := createCollection_own h2
  obtain ⟨s3, r, e3, h4, hr⟩ := createFromFile_own h3 hf
  cases r with
  | none => exact absurd (hr trivial) (by simp)
  | some f =>
    have h5 : Own s.live s.next True True (st :: c :: f.blocks) s3 := by
      refine h4.perm ?_
      exact List.perm_append_comm (l₁ := f.blocks) (l₂ := [st, c])
    obtain ⟨s4, e4, h6⟩ := freeCollection_own h5 hf
    refine ⟨s4, f.self, ?_, hf _ (h6.range _ (by simp [FileColl.blocks])).1, ?_⟩
    · have e5 : cacheCreate s3 cfg = (s3, none) := by rw [cacheCreate, if_pos (Or.inr hc)]
      simp [create, hl, createFromFileSecond, e1, h0, createFromFileCached, e2, e3, e5, e4]
    · rw [h6.live]
      simp [FileColl.blocks]

example : ∃ s', create start ⟨0, 10, 10⟩ false false = some (s', none) ∧ s'.live 2 = true ∧ s'.live 3 = true :=
  ⟨_, rfl, by decide⟩

theorem createCollection_null {s : St} {t : List Bool} (hs : s.results .struct = false :: t) :
    createCollection s = some ((s.ask .struct).2, none) := by
  simp [createCollection, St.ask, hs]

/-- Memory for the structure cannot be had: NULL is dereferenced. -/
theorem C68_noMemory_violated (s : St) (cfg : Config) (v more : Bool) (t : List Bool)
    (hs : s.results .struct = false :: t) (hio : s.results .io = []) :
    create s cfg v more = none := by
  unfold create
  split
  · simp [createFromFilePartial, createFromFile, createCollection_null hs]
  · have e : s.ask .io = (true, (s.ask .io).2) := by simp [St.ask, hio]
    have hs' : (s.ask .io).2.results .struct = false :: t := by simp [St.ask, hs]
    rw [createFromFileSecond, e]
    simp only
    split
    · simp [createFromFileCached, createCollection_null hs']
    · simp [createFromFile, createCollection_null hs']

/-- The same when reading from memory. -/
theorem C68_noMemory_memory_violated (s : St) (fits : Bool) (t : List Bool) (hs : s.results .struct = false :: t) :
    createFromMemory s fits = none := by
  simp [createFromMemory, createCollection, St.ask, hs]

/-- The first seek fails, and items are to be loaded: NULL is dereferenced, though all memory can be had. -/
theorem C68_seek_violated (s : St) (cfg : Config) (v more : Bool) (hf : Fresh s) (t : List Bool)
    (hl : cfg.loaded > 0) (hs : ∀ b ∈ s.results .struct, b = true) (hio : s.results .io = false :: t) :
    create s cfg v more = none := by
  have h0 := own_start (s := s) False False hs (fun a => a.elim) (fun a => a.elim)
  obtain ⟨s1, c, st, e1, h1⟩ := createCollection_own h0
  have hr := createCollection_results e1 .io (by decide)
  have e : s1.ask .io = (false, (s1.ask .io).2) := by simp [St.ask, hr, hio]
  obtain ⟨s2, e2, h2⟩ := freeCollection_own (h1.ask .io) hf
  obtain ⟨s3, c', st', e3, h3⟩ := createCollection_own h2
  have e4 : createFromFile s = some (s2, none) := by
    simp only [createFromFile, e1, bind, Option.bind]
    rw [e]
    simp [e2]
  simp [create, hl, createFromFilePartial, e4, e3]

/-- Creating a collection over memory: NULL with the blocks in use as before exactly if the reader cannot be advanced; otherwise a
collection which is freed without fault, leaving the blocks in use as before. Missing: too little memory for the structure,
see `C68_noMemory_memory_violated`. -/
theorem C68_memory_partial (s : St) (fits : Bool) (hf : Fresh s) (hs : ∀ b ∈ s.results .struct, b = true) :
    ∃ s' r, createFromMemory s fits = some (s', r) ∧ (r.isSome ↔ fits = true) ∧
      match r with
      | none => s'.live = s.live
      | some c => ∃ s'', c.free s' = some s'' ∧ s''.live = s.live := by
  have h0 := own_start (s := s) False False hs (fun a => a.elim) (fun a => a.elim)
  obtain ⟨s1, c, st, e1, h1⟩ := createCollection_own h0
  obtain ⟨s2, e2, h2⟩ := collFree_own (bs := []) (.memory c st none none) (by simpa [Coll.blocks] using h1) hf
  have hl : s2.live = s.live := by funext j; simpa using h2.live j
  simp only [Coll.free] at e2
  cases fits with
  | true =>
    exact ⟨s1, some (.memory c st none none), by simp [createFromMemory, e1], by simp, s2, e2, hl⟩
  | false =>
    exact ⟨s2, none, by simp [createFromMemory, e1, e2], by simp, hl⟩

example : ∃ s' c, createFromMemory start true = some (s', some c) ∧ c.blocks = [1, 0] := ⟨_, _, rfl, rfl⟩

/-! ## C69: file handles -/

/-- The item's data: if memory has been allocated for it, it is in use. -/
def DataOk (s : Rd) : Prop := s.allocated > 0 → ∃ b, s.ptr = some b ∧ s.mem.live b = true

/-- What is relied on: the handles available are as before; a pointer is returned exactly if there is no exception, and it is
that of the item's data, in use, with `n` bytes; no other block comes into use; no block but the item's own goes out of use. -/
structure Safe (s s' : Rd) (p : Option Nat) (n : Nat) : Prop where
  handles : s'.handles = s.handles
  outcome : p.isSome ↔ s'.exn = none
  pointer : ∀ b, p = some b → s'.ptr = some b ∧ s'.mem.live b = true ∧ s'.used = n ∧ n ≤ s'.allocated
  unused : p = none → s'.used = 0
  leaks : ∀ b, s'.mem.live b = true → s.mem.live b = true ∨ p = some b
  keeps : ∀ b, s.mem.live b = true → s'.mem.live b = true ∨ s.ptr = some b

theorem ask_live (s : Rd) (k : Kind) : (s.ask k).2.mem.live = s.mem.live := rfl

/-- Everything but the results to come and the memory. -/
structure Same (s s' : Rd) : Prop where
  handles : s'.handles = s.handles
  exn : s'.exn = s.exn
  used : s'.used = s.used

structure Alloc (s s' : Rd) (p : Option Nat) (n : Nat) : Prop where
  same : Same s s'
  ptr : s'.ptr = p
  pointer : ∀ b, p = some b → s'.mem.live b = true ∧ n ≤ s'.allocated
  own : ∀ b, p = some b → s.mem.live b = false ∨ s.ptr = some b
  leaks : ∀ b, s'.mem.live b = true → s.mem.live b = true ∨ p = some b
  keeps : ∀ b, s.mem.live b = true → s'.mem.live b = true ∨ s.ptr = some b
  io : s'.mem.results .io = s.mem.results .io
  some : s.mem.results .buffer = [] → p ≠ none

theorem alloc_fresh {s : Rd} (n : Nat) : ∃ s' p,
    (match s.ask .buffer with
      | (false, s) => some ({ s with ptr := none }, none)
      | (true, s) => let (b, m) := s.mem.malloc; some ({ s with mem := m, ptr := some b, allocated := n }, some b) :
      UB (Rd × Option Nat)) = some (s', p) ∧ Same s s' ∧ s'.ptr = p ∧
      (∀ b, p = some b → s'.mem.live b = true ∧ n ≤ s'.allocated) ∧
      (∀ b, p = some b → b = s.mem.next) ∧
      (∀ b, s'.mem.live b = true → s.mem.live b = true ∨ p = some b) ∧
      (∀ b, s.mem.live b = true → s'.mem.live b = true) ∧
      s'.mem.results .io = s.mem.results .io ∧ (s.mem.results .buffer = [] → p ≠ none) := by
  cases e : s.ask .buffer with | mk ok s1 =>
  have e1 : s1 = (s.ask .buffer).2 := by rw [e]
  subst e1
  cases ok with
  | false =>
    exact ⟨_, _, rfl, ⟨rfl, rfl, rfl⟩, rfl, fun b hb => (by cases hb), fun b hb => (by cases hb),
      fun b hb => Or.inl hb, fun b hb => hb, by simp [Rd.ask, St.ask], fun h => by simp [Rd.ask, St.ask, h] at e⟩
  | true =>
    refine ⟨_, _, rfl, ⟨rfl, rfl, rfl⟩, rfl, fun b hb => ?_, fun b hb => ?_, fun b hb => ?_, fun b hb => ?_,
      by simp [Rd.ask, St.ask, St.malloc], fun _ => by simp⟩
    · cases hb
      simp [St.malloc]
    · cases hb
      rfl
    · simp only [St.malloc, Bool.or_eq_true, decide_eq_true_eq] at hb
      rcases hb with hb | hb
      · subst hb
        exact Or.inr rfl
      · exact Or.inl hb
    · simp only [St.malloc, Bool.or_eq_true, decide_eq_true_eq]
      exact Or.inr hb

theorem dataMalloc_spec {s : Rd} (hf : Fresh s.mem) (hd : DataOk s) (n : Nat) :
    ∃ s' p, dataMalloc s n = some (s', p) ∧ Alloc s s' p n := by
  unfold dataMalloc
  by_cases h : s.allocated > 0 ∧ n > s.allocated
  · obtain ⟨b, hb, hl⟩ := hd h.1
    simp only [h, and_self, if_true, hb, St.free, hl, Option.map_some, bind, Option.bind]
    obtain ⟨s', p, e, h1, h2, h3, h6, h4, h5, h7, h8⟩ := alloc_fresh
      (s := { s with mem := { s.mem with live := fun j => j ≠ b && s.mem.live j }, ptr := none, allocated := 0 }) n
    refine ⟨s', p, e, ⟨h1.handles, h1.exn, h1.used⟩, h2, h3, fun c hc => ?_, fun c hc => ?_, fun c hc => ?_, h7, h8⟩
    · rw [h6 c hc]
      exact Or.inl (hf _ (Nat.le_refl _))
    · rcases h4 c hc with h | h
      · simp only [Bool.and_eq_true] at h
        exact Or.inl h.2
      · exact Or.inr h
    · by_cases e : c = b
      · subst e
        exact Or.inr hb
      · exact Or.inl (h5 c (by simp [e, hc]))
  · simp only [if_neg h, bind, Option.bind]
    by_cases h0 : s.allocated = 0
    · simp only [h0, if_true]
      obtain ⟨s', p, e, h1, h2, h3, h6, h4, h5, h7, h8⟩ := alloc_fresh (s := s) n
      exact ⟨s', p, e, h1, h2, h3, fun c hc => (by rw [h6 c hc]; exact Or.inl (hf _ (Nat.le_refl _))), h4, fun c hc => Or.inl (h5 c hc),
        h7, h8⟩
    · simp only [h0, if_false]
      obtain ⟨b, hb, hl⟩ := hd (by omega)
      refine ⟨s, s.ptr, rfl, ⟨rfl, rfl, rfl⟩, rfl, fun c hc => ?_, fun c hc => Or.inr hc, fun c hc => Or.inl hc,
        fun c hc => Or.inl hc, rfl, fun _ => by simp [hb]⟩
      rw [hb] at hc
      cases hc
      exact ⟨hl, by omega⟩

/-- `Safe` with a handle taken. -/
theorem readEnd {s s1 : Rd} {p n : Nat} (h : Alloc s s1 (some p) n) (hx : s.exn = none) (h0 : s.used = 0) : ∃ s' q,
    (match s1.ask .io with
      | (true, s) => some ({ s with used := n }, some p)
      | (false, s) => (freeData s).map fun s => (s.fail .readFail, none) : UB (Rd × Option Nat)) = some (s', q) ∧
      Safe s s' q n := by
  obtain ⟨hl, ha⟩ := h.pointer p rfl
  cases e : s1.ask .io with | mk ok s2 =>
  have e1 : s2 = (s1.ask .io).2 := by rw [e]
  subst e1
  cases ok with
  | true =>
    refine ⟨_, _, rfl, h.same.handles, ?_, fun b hb => ?_, fun x => (by cases x), h.leaks, h.keeps⟩
    · have : s1.exn = none := by rw [h.same.exn, hx]
      exact ⟨fun _ => this, fun _ => rfl⟩
    · cases hb
      exact ⟨h.ptr, hl, rfl, ha⟩
  | false =>
    have e2 : freeData (s1.ask .io).2 = some { (s1.ask .io).2 with mem := { (s1.ask .io).2.mem with live := fun j => j ≠ p && s1.mem.live j } } := by
      have : (s1.ask .io).2.ptr = some p := h.ptr
      simp only [freeData, this, St.free, ask_live, hl, if_true]
      rfl
    simp only [e2, Option.map_some]
    refine ⟨_, _, rfl, h.same.handles, ?_, fun b hb => (by cases hb), fun _ => ?_, fun b hb => ?_, fun b hb => ?_⟩
    · simp [Rd.fail]
    · exact h.same.used.trans h0
    · simp only [Rd.fail, Bool.and_eq_true, decide_eq_true_eq] at hb
      rcases h.leaks b hb.2 with h | h
      · exact Or.inl h
      · cases h
        exact absurd rfl hb.1
    · by_cases e : b = p
      · subst e
        rcases h.own b rfl with h | h
        · rw [hb] at h
          cases h
        · exact Or.inr h
      · rcases h.keeps b hb with h | h
        · exact Or.inl (by simp [Rd.fail, e, h])
        · exact Or.inr h

theorem fixedWith_safe {s : Rd} (hf : Fresh s.mem) (hd : DataOk s) (hx : s.exn = none) (h0 : s.used = 0) (n : Nat) :
    ∃ s' p, fixedWith s n = some (s', p) ∧ Safe s s' p n := by
  obtain ⟨s1, p, e1, h1⟩ := dataMalloc_spec hf hd n
  unfold fixedWith
  simp only [e1, bind, Option.bind]
  cases p with
  | none =>
    refine ⟨_, _, rfl, h1.same.handles, ?_, fun b hb => (by cases hb), fun _ => h1.same.used.trans h0, h1.leaks, h1.keeps⟩
    simp [Rd.fail]
  | some p =>
    simp only [(h1.pointer p rfl).1, if_true]
    exact readEnd h1 hx h0

theorem Safe.mono {s t s' : Rd} {p : Option Nat} {n : Nat} (h : Safe t s' p n) (h1 : t.handles = s.handles)
    (h2 : t.mem.live = s.mem.live) (h3 : t.ptr = s.ptr) : Safe s s' p n := by
  refine ⟨h.handles.trans h1, h.outcome, h.pointer, h.unused, ?_, ?_⟩
  · rw [← h2]; exact h.leaks
  · rw [← h2, ← h3]; exact h.keeps

theorem variableWith_safe {s : Rd} (hf : Fresh s.mem) (hd : DataOk s) (hx : s.exn = none) (h0 : s.used = 0)
    {initialSize needed : Nat} (hn : initialSize ≤ needed) :
    ∃ s' p, variableWith s initialSize needed = some (s', p) ∧ Safe s s' p needed := by
  unfold variableWith
  cases e1 : s.ask .io with | mk ok1 s1 =>
  have e1' : s1 = (s.ask .io).2 := by rw [e1]
  subst e1'
  cases ok1 with
  | false =>
    refine ⟨_, _, rfl, rfl, ?_, fun b hb => (by cases hb), fun _ => h0, fun b hb => Or.inl hb, fun b hb => Or.inl hb⟩
    simp [Rd.fail]
  | true =>
    simp only
    cases e2 : (s.ask .io).2.ask .io with | mk ok2 s2 =>
    have e2' : s2 = ((s.ask .io).2.ask .io).2 := by rw [e2]
    subst e2'
    cases ok2 with
    | false =>
      refine ⟨_, _, rfl, rfl, ?_, fun b hb => (by cases hb), fun _ => h0, fun b hb => Or.inl hb, fun b hb => Or.inl hb⟩
      simp [Rd.fail]
    | true =>
      simp only
      obtain ⟨s3, p, e3, h3⟩ := dataMalloc_spec (s := ((s.ask .io).2.ask .io).2) hf hd needed
      simp only [e3, bind, Option.bind]
      cases p with
      | none =>
        refine ⟨_, _, rfl, h3.same.handles, ?_, fun b hb => (by cases hb), fun _ => h3.same.used.trans h0, h3.leaks, h3.keeps⟩
        simp [Rd.fail]
      | some p =>
        obtain ⟨hl, ha⟩ := h3.pointer p rfl
        have hc : ¬ (needed < initialSize ∨ s3.mem.live p = false) := by
          rw [hl]
          simp
          omega
        simp only [if_neg hc]
        split
        · refine ⟨_, _, rfl, h3.same.handles, ?_, fun b hb => ?_, fun x => (by cases x), h3.leaks, h3.keeps⟩
          · have : s3.exn = none := h3.same.exn.trans hx
            exact ⟨fun _ => this, fun _ => rfl⟩
          · cases hb
            exact ⟨h3.ptr, hl, rfl, ha⟩
        · obtain ⟨s', q, e, h⟩ := readEnd h3 hx h0
          exact ⟨s', q, e, h.mono rfl rfl rfl⟩

theorem Safe.failed {s s' : Rd} {n : Nat} (h1 : s'.handles = s.handles) (h2 : s'.exn ≠ none) (h3 : s'.used = 0)
    (h4 : s'.mem.live = s.mem.live) : Safe s s' none n :=
  ⟨h1, ⟨fun h => absurd h (by simp), fun h => absurd h h2⟩, fun _ h => (by cases h), fun _ => h3,
    fun b hb => Or.inl (h4 ▸ hb), fun b hb => Or.inl (h4 ▸ hb)⟩

theorem position_spec {s : Rd} (hx : s.exn = none) (size offset : Nat) :
    (∃ s1 h, readFilePosition s size offset = (s1, some h) ∧ s.handles = h :: s1.handles ∧ s1.exn = none ∧
      s1.ptr = s.ptr ∧ s1.allocated = s.allocated ∧ s1.used = s.used ∧ s1.mem.live = s.mem.live ∧
      s1.mem.next = s.mem.next ∧ ∀ k, k ≠ .io → s1.mem.results k = s.mem.results k) ∨
    (∃ s1 e, readFilePosition s size offset = (s1, none) ∧ s1.handles = s.handles ∧ s1.exn = some e ∧
      s1.used = s.used ∧ s1.mem.live = s.mem.live) := by
  unfold readFilePosition
  split
  · cases hh : s.handles with
    | nil =>
      simp only [handleGet, hh]
      exact Or.inr ⟨_, .insufficientHandles, rfl, hh, rfl, rfl, rfl⟩
    | cons h hs =>
      simp only [handleGet, hh, hx, if_true]
      cases e1 : Rd.ask { s with handles := hs, exn := none } .io with | mk ok1 s1 =>
      have e1' : s1 = (Rd.ask { s with handles := hs, exn := none } .io).2 := by rw [e1]
      subst e1'
      cases ok1 with
      | false => exact Or.inr ⟨_, .seekFail, rfl, rfl, rfl, rfl, rfl⟩
      | true =>
        refine Or.inl ⟨_, h, rfl, rfl, rfl, rfl, rfl, rfl, rfl, rfl, fun k hk => ?_⟩
        simp [Rd.ask, St.ask, hk]
  · exact Or.inr ⟨_, .offsetOutOfRange, rfl, rfl, rfl, rfl, rfl⟩

/-- Reading an item of fixed size, whatever fails: safe. The exception must be clear when called, see `C69_stale_violated`. -/
theorem C69_fixed_partial (s : Rd) (size count elementSize : Nat) (index : UInt32) (hf : Fresh s.mem) (hd : DataOk s)
    (hx : s.exn = none) :
    ∃ s' p, readFixed s size count elementSize index = some (s', p) ∧ Safe s s' p elementSize := by
  unfold readFixed
  simp only
  split
  · rcases position_spec (s := { s with used := 0 }) hx size (index.toNat * elementSize % 2 ^ 32) with
      ⟨s1, h, e1, h1, h2, h3, h4, h5, h6, h7, _⟩ | ⟨s1, x, e1, h1, h2, h3, h4⟩
    · have hf1 : Fresh s1.mem := fun b hb => by rw [h6]; exact hf b (by rwa [h7] at hb)
      have hd1 : DataOk s1 := fun ha => by
        obtain ⟨b, hb, hl⟩ := hd (by rwa [h4] at ha)
        exact ⟨b, h3.trans hb, by rw [h6]; exact hl⟩
      obtain ⟨s', p, e, hs⟩ := fixedWith_safe hf1 hd1 h2 h5 elementSize
      rw [e1]
      simp only [h2, if_true, e, bind, Option.bind]
      refine ⟨_, _, rfl, ?_, hs.outcome, hs.pointer, hs.unused, fun b hb => ?_, fun b hb => ?_⟩
      · simp only [handleRelease, hs.handles]
        exact h1.symm
      · rcases hs.leaks b hb with h | h
        · rw [h6] at h; exact Or.inl h
        · exact Or.inr h
      · rcases hs.keeps b (by rw [h6]; exact hb) with h | h
        · exact Or.inl h
        · rw [h3] at h; exact Or.inr h
    · rw [e1]
      exact ⟨_, _, rfl, Safe.failed h1 (by simp [h2]) h3 h4⟩
  · exact ⟨_, _, rfl, Safe.failed rfl (by simp [Rd.fail]) rfl rfl⟩

/-- Reading an item of variable size, whatever fails: safe, if the size worked out is no less than that of the part read first.
Missing: an exception set when called, and smaller sizes, see `C69_stale_violated` and `C72_string_violated`. -/
theorem C69_variable_partial (s : Rd) (size initialSize needed : Nat) (offset : UInt32) (hf : Fresh s.mem) (hd : DataOk s)
    (hx : s.exn = none) (hn : initialSize ≤ needed) :
    ∃ s' p, readVariable s size initialSize needed offset = some (s', p) ∧ Safe s s' p needed := by
  unfold readVariable
  simp only
  split
  · cases hh : s.handles with
    | nil =>
      simp only [handleGet, hh]
      exact ⟨_, _, rfl, Safe.failed hh.symm (by simp [Rd.fail]) rfl rfl⟩
    | cons h hs =>
      simp only [handleGet, hh, hx, if_true]
      obtain ⟨s', p, e, hs⟩ := variableWith_safe (s := { s with handles := hs, used := 0, exn := none }) hf hd rfl rfl hn
      simp only [e, bind, Option.bind]
      refine ⟨_, _, rfl, ?_, hs.outcome, hs.pointer, hs.unused, hs.leaks, hs.keeps⟩
      simp only [handleRelease, hs.handles, hh]
  · exact ⟨_, _, rfl, Safe.failed rfl (by simp [Rd.fail]) rfl rfl⟩

theorem position_ok {s : Rd} {g size offset : Nat} {gs : List Nat} (hh : s.handles = g :: gs) (hx : s.exn = none)
    (h : offset < size) (hio : (s.mem.results .io).headD true = true) :
    readFilePosition { s with used := 0 } size offset =
      ({ s with used := 0, handles := gs, mem := (s.mem.ask .io).2 }, some g) := by
  simp only [readFilePosition, h, if_true, handleGet, hh, hx]
  have : Rd.ask { s with used := 0, handles := gs, exn := none } .io =
      (true, { s with used := 0, handles := gs, exn := none, mem := (s.mem.ask .io).2 }) := by
    simp only [Rd.ask]
    have : (s.mem.ask .io).1 = true := hio
    rw [this]
  rw [this]

/-- The exceptions set by the checks, when no handle is available, and when the seek fails; and that without any failure there
is an item. -/
theorem C69_exceptions (s : Rd) (size count elementSize : Nat) (index : UInt32) (hf : Fresh s.mem) (hd : DataOk s)
    (hx : s.exn = none) :
    ∃ s' p, readFixed s size count elementSize index = some (s', p) ∧
      (count ≤ index.toNat → s'.exn = some .indexOutOfRange) ∧
      (index.toNat < count → index.toNat * elementSize < 2 ^ 32 →
        (size ≤ index.toNat * elementSize → s'.exn = some .offsetOutOfRange) ∧
        (index.toNat * elementSize < size →
          (s.handles = [] → s'.exn = some .insufficientHandles) ∧
          (s.handles ≠ [] → s.mem.results .io = [false] → s'.exn = some .seekFail) ∧
          (s.handles ≠ [] → s.mem.results .io = [] → s.mem.results .buffer = [false] → s.allocated = 0 →
            s'.exn = some .insufficientMemory) ∧
          (s.handles ≠ [] → s.mem.results .io = [true, false] → s.mem.results .buffer = [] →
            s'.exn = some .readFail) ∧
          (s.handles ≠ [] → s.mem.results .io = [] → s.mem.results .buffer = [] → s'.exn = none))) := by
  obtain ⟨s', p, e, hs⟩ := C69_fixed_partial s size count elementSize index hf hd hx
  refine ⟨s', p, e, ?_⟩
  unfold readFixed at e
  simp only at e
  split at e
  · rename_i hi
    refine ⟨fun h => by omega, fun _ hm => ?_⟩
    rw [Nat.mod_eq_of_lt hm] at e
    refine ⟨fun h => ?_, fun h => ⟨fun h0 => ?_, fun h0 h1 => ?_, fun h0 h1 h2 h3 => ?_, fun h0 h1 h2 => ?_, fun h0 h1 h2 => ?_⟩⟩
    · rw [readFilePosition, if_neg (by omega)] at e
      cases e; rfl
    · rw [readFilePosition, if_pos h] at e
      simp only [handleGet, h0] at e
      cases e; rfl
    · obtain ⟨g, gs, hh⟩ := List.exists_cons_of_ne_nil h0
      simp [readFilePosition, h, handleGet, hh, hx, Rd.ask, St.ask, h1, handleRelease, Rd.fail] at e
      rw [← e.1]
    · obtain ⟨g, gs, hh⟩ := List.exists_cons_of_ne_nil h0
      rw [position_ok hh hx h (by simp [h1])] at e
      simp [hx, fixedWith, dataMalloc, h3, Rd.ask, St.ask, h2, handleRelease, Rd.fail] at e
      rw [← e.1]
    · obtain ⟨g, gs, hh⟩ := List.exists_cons_of_ne_nil h0
      rw [position_ok hh hx h (by simp [h1])] at e
      obtain ⟨s1, q, e1, hq⟩ := dataMalloc_spec
        (s := { s with used := 0, handles := gs, mem := (s.mem.ask .io).2 }) hf hd elementSize
      have hio := hq.io
      have hsome := hq.some (by simp [St.ask, h2])
      cases q with
      | none => exact absurd rfl hsome
      | some q =>
        simp [St.ask, h1] at hio
        dsimp only at e
        rw [if_pos hx] at e
        simp only [if_true, fixedWith, e1, bind, Option.bind, (hq.pointer q rfl).1] at e
        simp only [Rd.ask, St.ask, hio, List.headD_cons, freeData, hq.ptr] at e
        simp [St.free, (hq.pointer q rfl).1, handleRelease, Rd.fail] at e
        rw [← e.1]
    · obtain ⟨g, gs, hh⟩ := List.exists_cons_of_ne_nil h0
      rw [position_ok hh hx h (by simp [h1])] at e
      obtain ⟨s1, q, e1, hq⟩ := dataMalloc_spec
        (s := { s with used := 0, handles := gs, mem := (s.mem.ask .io).2 }) hf hd elementSize
      have hio := hq.io
      have hsome := hq.some (by simp [St.ask, h2])
      cases q with
      | none => exact absurd rfl hsome
      | some q =>
        simp [St.ask, h1] at hio
        dsimp only at e
        rw [if_pos hx] at e
        simp only [if_true, fixedWith, e1, bind, Option.bind, (hq.pointer q rfl).1] at e
        simp only [Rd.ask, St.ask, hio, List.headD_nil] at e
        simp [handleRelease] at e
        rw [← e.1]
        exact hq.same.exn.trans hx
  · exact ⟨fun _ => by cases e; rfl, fun h => by omega⟩

/-- With an exception already set when called, the handle taken is not put back, though there is no item. -/
theorem C69_stale_violated (s : Rd) (size initialSize needed h : Nat) (hs : List Nat) (offset : UInt32) (x : Err)
    (hx : s.exn = some x) (hh : s.handles = h :: hs) (ho : offset.toNat < size) :
    ∃ s', readVariable s size initialSize needed offset = some (s', none) ∧ s'.handles = hs := by
  exact ⟨{ s with used := 0, handles := hs }, by simp [readVariable, ho, handleGet, hh, hx], rfl⟩

/-- The same for an item of fixed size. -/
theorem C69_stale_fixed_violated (s : Rd) (size count elementSize h : Nat) (hs : List Nat) (index : UInt32) (x : Err)
    (hx : s.exn = some x) (hh : s.handles = h :: hs) (hi : index.toNat < count)
    (ho : index.toNat * elementSize % 2 ^ 32 < size) :
    ∃ s', readFixed s size count elementSize index = some (s', none) ∧ s'.handles = hs := by
  refine ⟨{ s with used := 0, handles := hs }, ?_, rfl⟩
  simp only [readFixed, hi, if_true, readFilePosition, ho, handleGet, hh, hx]
  simp [hx]

/-- After a read that failed, the item's data still has the address of the memory freed: the next read into it writes there. -/
theorem C69_reuse_violated (s : Rd) (size count elementSize g : Nat) (gs : List Nat) (index : UInt32) (hf : Fresh s.mem)
    (hx : s.exn = none) (h0 : s.allocated = 0) (hn : elementSize > 0) (hh : s.handles = g :: gs) (hi : index.toNat < count)
    (hm : index.toNat * elementSize < 2 ^ 32) (ho : index.toNat * elementSize < size)
    (h1 : s.mem.results .io = [true, false]) (h2 : s.mem.results .buffer = []) :
    ∃ s', readFixed s size count elementSize index = some (s', none) ∧
      readFixed { s' with exn := none } size count elementSize index = none := by
  have hl : s.mem.live s.mem.next = false := hf _ (Nat.le_refl _)
  have e1 : readFixed s size count elementSize index = some
      ({ handles := g :: gs,
         mem := { next := s.mem.next + 1, live := fun j => j ≠ s.mem.next && (j = s.mem.next || s.mem.live j),
                  results := fun j => if j = .io then [] else if j = .buffer then [] else s.mem.results j },
         ptr := some s.mem.next, allocated := elementSize, used := 0, exn := some .readFail }, none) := by
    simp only [readFixed, hi, if_true, Nat.mod_eq_of_lt hm]
    rw [position_ok hh hx ho (by simp [h1])]
    simp [hx, fixedWith, dataMalloc, h0, Rd.ask, St.ask, St.malloc, h1, h2, freeData, St.free, handleRelease, Rd.fail]
    funext j
    by_cases e : j = .io
    · simp [e]
    · by_cases e' : j = .buffer
      · simp [e']
      · simp [e, e']
  refine ⟨_, e1, ?_⟩
  simp only [readFixed, hi, if_true, Nat.mod_eq_of_lt hm, readFilePosition, ho, handleGet, Rd.ask, St.ask, List.headD_nil]
  simp [fixedWith, dataMalloc, Nat.pos_iff_ne_zero.mp hn]

-- Two handles, a file of 40 bytes with ten items of four; the item at 3.
example : ∃ s', readFixed ⟨[7, 8], start, none, 0, 0, none⟩ 40 10 4 3 = some (s', some 0) ∧ s'.handles = [7, 8] ∧
    s'.used = 4 ∧ s'.exn = none := ⟨_, rfl, rfl, rfl, rfl⟩
-- A string with two bytes read first, five more; the last read fails.
example : ∃ s', readVariable ⟨[7, 8], { start with results := fun k => if k = .io then [true, true, false] else [] },
    none, 0, 0, none⟩ 40 2 7 30 = some (s', none) ∧ s'.handles = [7, 8] ∧ s'.exn = some .readFail ∧
    s'.mem.live 0 = false := ⟨_, rfl, rfl, rfl, rfl⟩
-- The first read of an item fails; the second into the same data is undefined.
example : Fresh { start with results := fun k => if k = .io then [true, false] else [] } := fun _ _ => rfl

end Verif.Life
