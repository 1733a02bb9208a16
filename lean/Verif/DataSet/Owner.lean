import Verif.Avail.Props
import Verif.HeadersMem.Props
import Verif.Pool.Props

/-! # C90: what a data set owns

The parts of a data set (dataset.c) over one memory: the unique headers, the overridable properties, the available
properties, the pool of open files and the data read into memory, each initialised by its own function, at any time and
with any failure, and all of them freed by `DataSetFree`. -/

namespace Verif.Owner

open Verif

/-! ## Model -/

/-- The world of all parts: the calls, the items held and the blocks allocated (`Avail.World`, which is shared), the
files opened so far and those open now, named by the opening, and the names passed to `FileDelete`. -/
structure World where
  mem : Avail.World
  opens : Nat
  files : List Nat
  deleted : List CStr
deriving DecidableEq, Repr

/-- The same memory as the headers see it. -/
def toHeaders (w : Avail.World) : HeadersMem.World := ⟨w.calls, w.allocs, w.items, w.blocks⟩

/-- And back. -/
def ofHeaders (w : HeadersMem.World) : Avail.World := ⟨w.calls, w.allocs, w.items, w.blocks⟩

/-- `fiftyoneDegreesDataSetBase`, dataset.h:96-128, by what it owns: `useTempFile` of its configuration (`none` is a
configuration that is NULL), `fileName`, `uniqueHeaders`, the block of `overridable`, `available` and whether its names
are of a collection, the file pool and the block of its stack, and the block of `memoryToFree`. `masterFileName`,
`isInMemory` and `handle` own nothing and are left out. -/
structure DataSet where
  config : Option Bool
  fileName : CStr
  headers : Option HeadersMem.Made
  overridable : Option Nat
  available : Option Avail.Available
  owned : Bool
  pool : Pool.Pool
  stack : Option Nat
  memory : Option Nat

/-- `fiftyoneDegreesPoolReset`, pool.c:126-132, and `fiftyoneDegreesFilePoolReset`, file.c:1093-1096. Nothing is
known of the items when there is no stack, so they are left as they are. -/
def poolReset (p : Pool.Pool) : Pool.Pool := { p with stack := false, head := ⟨0, 0, p.head.upper⟩, count := 0 }

/-- `fiftyoneDegreesDataSetReset`, dataset.c:103-114, of a data set with any contents, and `config` set afterwards. -/
def reset (p : Pool.Pool) (config : Option Bool) : DataSet :=
  ⟨config, [], none, none, none, true, poolReset p, none, none⟩

/-- `Malloc`; `ok` tells which allocations succeed. -/
def malloc (ok : Nat → Bool) (w : World) : Option Nat × World :=
  if ok w.mem.allocs then
    (some w.mem.allocs, { w with mem := { w.mem with allocs := w.mem.allocs + 1, blocks := w.mem.allocs :: w.mem.blocks } })
  else (none, { w with mem := { w.mem with allocs := w.mem.allocs + 1 } })

/-- `Free`, of NULL or of a block. -/
def freeBlock (w : World) : Option Nat → UB World
  | none => some w
  | some b => (Avail.free w.mem b).map fun m => { w with mem := m }

/-- `fiftyoneDegreesDataSetInitProperties`, dataset.c:116-162: `available` is overwritten whatever it was. For the
status see C77. -/
def initProperties (s : Avail.Source) (qsort : List Avail.Item → List Avail.Item) (r : Avail.Request) (d : DataSet)
    (w : World) : UB (DataSet × World) :=
  (Avail.create s qsort r w.mem).map fun p => ({ d with available := p.1, owned := s.owned }, { w with mem := p.2 })

/-- `fiftyoneDegreesDataSetInitHeaders`, dataset.c:164-181, which reads the configuration. `up` is its
`usesUpperPrefixedHeaders`. For the status see C78. -/
def initHeaders (s : HeadersMem.Source) (up : Bool) (d : DataSet) (w : World) : UB (DataSet × World) :=
  if d.config = none then none
  else (HeadersMem.create s up (toHeaders w.mem)).map fun p =>
    ({ d with headers := p.1 }, { w with mem := ofHeaders p.2 })

/-- `fiftyoneDegreesOverridePropertiesCreate`, overrides.c:232-247, with the available properties of the data set and a
filter, as data sets call it. The available properties must not be NULL; nothing is allocated when none passes the
filter. The array refers to the available properties, and these do not refer to it. -/
def initOverridable (ok filter : Nat → Bool) (d : DataSet) (w : World) : UB (DataSet × World) :=
  match d.available with
  | none => none
  | some a =>
    if ((List.range a.items.length).filter filter).length > 0 then
      match malloc ok w with
      | (b, w) => some ({ d with overridable := b }, w)
    else some ({ d with overridable := none }, w)

/-- The calls of `createFileHandle`, file.c:61-71, by the loop of `PoolInit`: up to the first that fails. What
`resourceCreate` gave and whether the exception is okay after it. -/
def openFiles (ok : Nat → Bool) : Nat → World → List (Option Nat × Bool) × World
  | 0, w => ([], w)
  | n + 1, w =>
    if ok w.opens then
      match openFiles ok n { w with opens := w.opens + 1, files := w.opens :: w.files } with
      | (l, w') => ((some w.opens, true) :: l, w')
    else ([(none, false)], { w with opens := w.opens + 1 })

/-- The calls of `resourceCreate` as `Pool.init` takes them: one for each item. Those after the first that fails are not
made. -/
def padded (n : Nat) (l : List (Option Nat × Bool)) : List (Option Nat × Bool) :=
  l ++ List.replicate (n - l.length) (none, false)

/-- `fiftyoneDegreesFilePoolInit`, file.c:961-989, of the pool of the data set. The pool is left as far as it came,
whatever fails. `setLength` gets a handle and gives it back, which does not change what the pool owns, and is left out.
For the status see C71. -/
def initPool (ok opens : Nat → Bool) (concurrency : Nat) (d : DataSet) (w : World) : UB (DataSet × World) :=
  if concurrency = 0 then some (d, w)
  else match malloc ok w with
    | (none, w) => (Pool.init d.pool false []).map fun p => ({ d with pool := p, stack := none }, w)
    | (some b, w) =>
      match openFiles opens concurrency w with
      | (l, w) => (Pool.init d.pool true (padded concurrency l)).map fun p => ({ d with pool := p, stack := some b }, w)

/-- `fiftyoneDegreesDataSetInitInMemory`, dataset.c:237-250, with `FileReadToByteArray`, file.c:1054-1091: `opened` says
whether the file can be opened and `readable` whether it can be read. The file is closed again. `memoryToFree` is set
only if all went well, and the memory is freed when the read fails. -/
def initMemory (ok : Nat → Bool) (opened readable : Bool) (d : DataSet) (w : World) : UB (DataSet × World) :=
  if opened then
    match malloc ok w with
    | (none, w) => some (d, w)
    | (some b, w) =>
      if readable then some ({ d with memory := some b }, w)
      else (freeBlock w (some b)).map fun w => (d, w)
  else some (d, w)

/-- `freeFileHandle`, file.c:73-75, for each resource: closing a file that is not open is undefined. -/
def closeAll : List Nat → World → UB World
  | [], w => some w
  | f :: l, w => if f ∈ w.files then closeAll l { w with files := w.files.erase f } else none

/-- `fiftyoneDegreesPoolFree`, pool.c:134-149, by way of `fiftyoneDegreesFilePoolRelease`, file.c:1001-1003. -/
def poolRelease (d : DataSet) (w : World) : UB (DataSet × World) :=
  (closeAll (Pool.free d.pool) w).bind fun w =>
    (freeBlock w d.stack).map fun w => ({ d with pool := poolReset d.pool, stack := none }, w)

/-- A source of which only `owned` is known; freeing properties reads no more of it. -/
def anySource (owned : Bool) : Avail.Source := ⟨[], owned, fun _ => true, fun _ => 0, fun _ => [], fun _ => false⟩

/-- The headers in `fiftyoneDegreesDataSetFree`, dataset.c:73-75. -/
def freeHeaders (d : DataSet) (w : World) : UB (DataSet × World) :=
  (HeadersMem.headersFree d.headers (toHeaders w.mem)).map fun m =>
    ({ d with headers := none }, { w with mem := ofHeaders m })

/-- The overridable properties in `fiftyoneDegreesDataSetFree`, dataset.c:77-81. -/
def freeOverridable (d : DataSet) (w : World) : UB (DataSet × World) :=
  (freeBlock w d.overridable).map fun w => ({ d with overridable := none }, w)

/-- The available properties in `fiftyoneDegreesDataSetFree`, dataset.c:83-85. -/
def freeAvailable (d : DataSet) (w : World) : UB (DataSet × World) :=
  (Avail.freeAvailable (anySource d.owned) d.available w.mem).map fun m =>
    ({ d with available := none }, { w with mem := m })

/-- The memory in `fiftyoneDegreesDataSetFree`, dataset.c:90-95. -/
def freeMemory (d : DataSet) (w : World) : UB (DataSet × World) :=
  (freeBlock w d.memory).map fun w => ({ d with memory := none }, w)

/-- The working file in `fiftyoneDegreesDataSetFree`, dataset.c:97-100, which reads the configuration. -/
def freeFile (d : DataSet) (w : World) : UB (DataSet × World) :=
  match d.config with
  | none => none
  | some temp => some (d, if temp then { w with deleted := w.deleted ++ [d.fileName] } else w)

/-- `fiftyoneDegreesDataSetFree`, dataset.c:71-101. -/
def free (d : DataSet) (w : World) : UB (DataSet × World) :=
  (freeHeaders d w).bind fun p => (freeOverridable p.1 p.2).bind fun p => (freeAvailable p.1 p.2).bind fun p =>
    (poolRelease p.1 p.2).bind fun p => (freeMemory p.1 p.2).bind fun p => freeFile p.1 p.2

/-- A call with a data set. `file` stands for `fiftyoneDegreesDataSetInitFromFile`, dataset.c:183-235, which sets the
name of the working file and owns no memory, see C70. -/
inductive Op where
  | file (name : CStr)
  | properties (s : Avail.Source) (qsort : List Avail.Item → List Avail.Item) (r : Avail.Request)
  | headers (s : HeadersMem.Source) (up : Bool)
  | overridable (ok filter : Nat → Bool)
  | pool (ok opens : Nat → Bool) (concurrency : Nat)
  | memory (ok : Nat → Bool) (opened readable : Bool)
  | free

/-- A call made. -/
def step (d : DataSet) (w : World) : Op → UB (DataSet × World)
  | .file name => some ({ d with fileName := name }, w)
  | .properties s q r => initProperties s q r d w
  | .headers s up => initHeaders s up d w
  | .overridable ok filter => initOverridable ok filter d w
  | .pool ok opens concurrency => initPool ok opens concurrency d w
  | .memory ok opened readable => initMemory ok opened readable d w
  | .free => free d w

/-! ## What is asked of the callers -/

/-- No part is initialised that is there already; names are of collections, and `qsort` rearranges; a pool is asked for
at most 65534 files. -/
def Ready (d : DataSet) : Op → Prop
  | .file _ => True
  | .properties s q _ => d.available = none ∧ s.owned = true ∧ Avail.Rearranges q
  | .headers _ _ => d.headers = none
  | .overridable _ _ => d.overridable = none
  | .pool _ _ concurrency => d.stack = none ∧ concurrency < 65535
  | .memory _ _ _ => d.memory = none
  | .free => True

/-- How many calls of `HeadersCreate` gave NULL: one, or none. -/
def noHeaders (d' : DataSet) : Op → Nat
  | .headers _ _ => if d'.headers.isNone then 1 else 0
  | _ => 0

/-- Any calls, one after the other, made as they should be; `n` of them gave no headers. -/
inductive Calls (d : DataSet) (w : World) : Nat → DataSet → World → Prop
  | none : Calls d w 0 d w
  | call {n : Nat} {d1 d2 : DataSet} {w1 w2 : World} (op : Op) : Calls d w n d1 w1 → Ready d1 op →
    step d1 w1 op = some (d2, w2) → Calls d w (n + noHeaders d2 op) d2 w2

/-! ## What is owned -/

/-- The blocks that a data set owns. -/
def blocksOwned (d : DataSet) : List Nat :=
  (d.headers.elim [] fun m => HeadersMem.blocksOf m.headers ++ [m.block]) ++ d.overridable.toList ++
    (d.available.elim [] fun a => a.block :: Avail.blks a.items) ++ d.stack.toList ++ d.memory.toList

/-- The items of collections that a data set holds. -/
def itemsOwned (d : DataSet) : List Nat := d.available.elim [] fun a => Avail.ids a.items

/-- The memory and files are those of the data set, besides what was there before, `I` and `B` that were lost, and what
has been so far. -/
structure Held (base : World) (I B : List Nat) (d : DataSet) (w : World) : Prop where
  items : w.mem.items.Perm (itemsOwned d ++ (I ++ base.mem.items))
  blocks : w.mem.blocks.Perm (blocksOwned d ++ (B ++ base.mem.blocks))
  files : w.files.Perm (Pool.free d.pool ++ base.files)
  stack : d.pool.stack = d.stack.isSome
  owned : d.owned = true

/-! ## Lemmas -/

/-- Only memory differs. -/
structure Only (w w' : World) : Prop where
  opens : w'.opens = w.opens
  files : w'.files = w.files
  deleted : w'.deleted = w.deleted

theorem avail_free {w : Avail.World} {b : Nat} {R : List Nat} (h : w.blocks.Perm (b :: R)) :
    ∃ w', Avail.free w b = some w' ∧ w'.items = w.items ∧ w'.blocks.Perm R := by
  have hm : b ∈ w.blocks := h.mem_iff.mpr List.mem_cons_self
  refine ⟨{ w with blocks := w.blocks.erase b }, by simp only [Avail.free, hm, if_true], rfl, ?_⟩
  have := h.erase b
  rwa [List.erase_cons_head] at this

theorem avail_release {w : Avail.World} {n : Avail.Name} {R : List Nat} (h : w.items.Perm (n.id :: R)) :
    ∃ w', Avail.release w n = some w' ∧ w'.blocks = w.blocks ∧ w'.items.Perm R := by
  have hm : n.id ∈ w.items := h.mem_iff.mpr List.mem_cons_self
  refine ⟨{ w with items := w.items.erase n.id }, by simp only [Avail.release, hm, if_true], rfl, ?_⟩
  have := h.erase n.id
  rwa [List.erase_cons_head] at this

theorem freeItems_perm (s : Avail.Source) (ho : s.owned = true) (l : List Avail.Item) : ∀ (w : Avail.World) (R S : List Nat),
    w.items.Perm (Avail.ids l ++ R) → w.blocks.Perm (Avail.blks l ++ S) →
    ∃ w', Avail.freeItems s l w = some w' ∧ w'.items.Perm R ∧ w'.blocks.Perm S := by
  induction l with
  | nil => intro w R S h1 h2; exact ⟨w, rfl, by simpa [Avail.ids] using h1, by simpa [Avail.blks] using h2⟩
  | cons a l ih =>
    intro w R S h1 h2
    have e1 : ∃ w1, Avail.freeName s w a.name = some w1 ∧ w1.items.Perm (Avail.ids l ++ R) ∧ w1.blocks = w.blocks := by
      cases hn : a.name with
      | none => exact ⟨w, rfl, by simpa [Avail.ids, hn] using h1, rfl⟩
      | some n =>
        obtain ⟨w1, e, b, i⟩ := avail_release (R := Avail.ids l ++ R) (n := n) (w := w) (by simpa [Avail.ids, hn] using h1)
        exact ⟨w1, by simp [Avail.freeName, ho, e], i, b⟩
    obtain ⟨w1, e1, i1, b1⟩ := e1
    have e2 : ∃ w2, Avail.freeEvidence w1 a.evidence = some w2 ∧ w2.items = w1.items ∧ w2.blocks.Perm (Avail.blks l ++ S) := by
      cases he : a.evidence with
      | none => exact ⟨w1, rfl, rfl, by rw [b1]; simpa [Avail.blks, he] using h2⟩
      | some e =>
        obtain ⟨w2, e', i, b⟩ := avail_free (R := Avail.blks l ++ S) (b := e.block) (w := w1)
          (by rw [b1]; simpa [Avail.blks, he] using h2)
        exact ⟨w2, by simp [Avail.freeEvidence, e'], i, b⟩
    obtain ⟨w2, e2, i2, b2⟩ := e2
    obtain ⟨w3, e3, i3, b3⟩ := ih w2 R S (by rw [i2]; exact i1) b2
    exact ⟨w3, by simp [Avail.freeItems, Avail.freeItem, e1, e2, e3], i3, b3⟩

theorem freeBlock_perm {w : World} {b : Option Nat} {R : List Nat} (h : w.mem.blocks.Perm (b.toList ++ R)) :
    ∃ w', freeBlock w b = some w' ∧ w'.mem.items = w.mem.items ∧ w'.mem.blocks.Perm R ∧ Only w w' := by
  cases b with
  | none => exact ⟨w, rfl, rfl, by simpa using h, ⟨rfl, rfl, rfl⟩⟩
  | some b =>
    obtain ⟨m, e, i, p⟩ := avail_free (w := w.mem) (b := b) (R := R) (by simpa using h)
    exact ⟨{ w with mem := m }, by simp [freeBlock, e], i, p, ⟨rfl, rfl, rfl⟩⟩

theorem malloc_cases (ok : Nat → Bool) (w : World) :
    (∃ w', malloc ok w = (none, w') ∧ w'.mem.items = w.mem.items ∧ w'.mem.blocks = w.mem.blocks ∧ Only w w') ∨
    ∃ b w', malloc ok w = (some b, w') ∧ w'.mem.items = w.mem.items ∧ w'.mem.blocks = b :: w.mem.blocks ∧ Only w w' := by
  unfold malloc
  by_cases h : ok w.mem.allocs = true
  · rw [if_pos h]; exact .inr ⟨_, _, rfl, rfl, rfl, ⟨rfl, rfl, rfl⟩⟩
  · rw [if_neg h]; exact .inl ⟨_, rfl, rfl, rfl, ⟨rfl, rfl, rfl⟩⟩

theorem closeAll_perm (l : List Nat) : ∀ (w : World) (R : List Nat), w.files.Perm (l ++ R) →
    ∃ w', closeAll l w = some w' ∧ w'.files.Perm R ∧ w'.mem = w.mem ∧ w'.deleted = w.deleted := by
  induction l with
  | nil => intro w R h; exact ⟨w, rfl, by simpa using h, rfl, rfl⟩
  | cons f l ih =>
    intro w R h
    have hm : f ∈ w.files := h.mem_iff.mpr (by simp)
    have := h.erase f
    rw [List.cons_append, List.erase_cons_head] at this
    obtain ⟨w', e, p, m, dl⟩ := ih { w with files := w.files.erase f } R this
    exact ⟨w', by simp only [closeAll, hm, if_true]; exact e, p, m, dl⟩

theorem openFiles_spec (ok : Nat → Bool) : ∀ (n : Nat) (w : World),
    (openFiles ok n w).1.length ≤ n ∧ (openFiles ok n w).2.mem = w.mem ∧
    (openFiles ok n w).2.deleted = w.deleted ∧
    ∀ k, (openFiles ok n w).2.files.Perm ((Pool.made ((openFiles ok n w).1 ++ List.replicate k (none, false))).filterMap id ++ w.files) := by
  intro n
  induction n with
  | zero =>
    intro w
    refine ⟨by simp [openFiles], rfl, rfl, fun k => ?_⟩
    cases k <;> simp [openFiles, Pool.made, List.replicate_succ]
  | succ n ih =>
    intro w
    by_cases h : ok w.opens = true
    · have := ih { w with opens := w.opens + 1, files := w.opens :: w.files }
      simp only [openFiles, h, if_true]
      refine ⟨by simpa using this.1, this.2.1, this.2.2.1, fun k => (this.2.2.2 k).trans ?_⟩
      simp only [List.cons_append, Pool.made, if_true, List.filterMap_cons, id]
      exact List.perm_middle
    · simp only [openFiles, h]
      refine ⟨by simp, rfl, rfl, fun k => by simp [Pool.made]⟩

theorem padded_length {n : Nat} {l : List (Option Nat × Bool)} (h : l.length ≤ n) : (padded n l).length = n := by
  simp [padded]; omega

theorem pool_free_none {p : Pool.Pool} (h : p.stack = false) : Pool.free p = [] := by simp [Pool.free, h]

/-- A data set without its parts. -/
def bare (d : DataSet) : DataSet :=
  { d with headers := none, overridable := none, available := none, pool := poolReset d.pool, stack := none, memory := none }

/-- Everything that a data set owns is given back, and nothing else. -/
theorem free_held {base : World} {I B : List Nat} {d : DataSet} {w : World} (h : Held base I B d w) (t : Bool)
    (hc : d.config = some t) : ∃ w', free d w = some (bare d, w') ∧ Held base I B (bare d) w' ∧
      w'.deleted = w.deleted ++ if t then [d.fileName] else [] := by
  obtain ⟨config, fileName, headers, overridable, available, owned, pool, stack, memory⟩ := d
  have hit := h.items
  have hbl := h.blocks
  have hfi := h.files
  have how := h.owned
  simp only at hc how
  subst hc how
  -- headers
  have e1 : ∃ m, HeadersMem.headersFree headers (toHeaders w.mem) = some m ∧ m.items = w.mem.items ∧
      m.blocks.Perm (overridable.toList ++ ((available.elim [] fun a => a.block :: Avail.blks a.items) ++ (stack.toList ++
        (memory.toList ++ (B ++ base.mem.blocks))))) := by
    cases headers with
    | none => exact ⟨_, rfl, rfl, by simpa [blocksOwned, toHeaders] using hbl⟩
    | some m =>
      obtain ⟨m', e, i, b⟩ := HeadersMem.freeMade_spec m.block m.headers (toHeaders w.mem) _
        (by simpa [blocksOwned, toHeaders] using hbl)
      exact ⟨m', e, i, b⟩
  obtain ⟨m1, e1, i1, b1⟩ := e1
  obtain ⟨w2, e2, i2, b2, o2⟩ := freeBlock_perm (w := { w with mem := ofHeaders m1 }) (b := overridable) b1
  -- available
  have e3 : ∃ m, Avail.freeAvailable (anySource true) available w2.mem = some m ∧ m.items.Perm (I ++ base.mem.items) ∧
      m.blocks.Perm (stack.toList ++ (memory.toList ++ (B ++ base.mem.blocks))) := by
    have hi2 : w2.mem.items = w.mem.items := i2.trans i1
    cases available with
    | none => exact ⟨w2.mem, rfl, by rw [hi2]; simpa [itemsOwned] using hit, by simpa using b2⟩
    | some a =>
      simp only [Option.elim_some] at b2
      obtain ⟨m, e, i, b⟩ := freeItems_perm (anySource true) rfl a.items w2.mem (I ++ base.mem.items)
        (a.block :: (stack.toList ++ (memory.toList ++ (B ++ base.mem.blocks))))
        (by rw [hi2]; simpa [itemsOwned] using hit) (b2.trans List.perm_middle.symm)
      obtain ⟨m', e', i', b'⟩ := avail_free b
      exact ⟨m', by simp [Avail.freeAvailable, e, e'], by rw [i']; exact i, b'⟩
  obtain ⟨m3, e3, i3, b3⟩ := e3
  -- pool
  obtain ⟨w4, e4, f4, m4, d4⟩ := closeAll_perm (Pool.free pool) { w2 with mem := m3 } base.files
    (by simp only; rw [o2.files]; exact hfi)
  obtain ⟨w5, e5, i5, b5, o5⟩ := freeBlock_perm (w := w4) (b := stack) (by rw [m4]; exact b3)
  -- memory
  obtain ⟨w6, e6, i6, b6, o6⟩ := freeBlock_perm (w := w5) (b := memory) b5
  have hdel : w6.deleted = w.deleted := by rw [o6.deleted, o5.deleted, d4]; simp only; rw [o2.deleted]
  have hpf : Pool.free (poolReset pool) = [] := rfl
  have hi : w6.mem.items.Perm (I ++ base.mem.items) := by rw [i6, i5, m4]; exact i3
  have hf : w6.files.Perm base.files := by rw [o6.files, o5.files]; exact f4
  have he : free ⟨some t, fileName, headers, overridable, available, true, pool, stack, memory⟩ w =
      some (bare ⟨some t, fileName, headers, overridable, available, true, pool, stack, memory⟩,
        if t then { w6 with deleted := w6.deleted ++ [fileName] } else w6) := by
    simp [free, freeHeaders, freeOverridable, freeAvailable, poolRelease, freeMemory, freeFile, bare, e1, e2, e3, e4, e5, e6]
  refine ⟨_, he, ?_, ?_⟩
  · cases t
    · exact ⟨by simpa [itemsOwned, bare] using hi, by simpa [blocksOwned, bare] using b6,
        by simpa [bare, hpf] using hf, rfl, rfl⟩
    · exact ⟨by simpa [itemsOwned, bare] using hi, by simpa [blocksOwned, bare] using b6,
        by simpa [bare, hpf] using hf, rfl, rfl⟩
  · cases t <;> simp [hdel]

/-- Perm by counting. -/
theorem counts {l m : List Nat} (h : ∀ a, l.count a = m.count a) : l.Perm m := List.perm_iff_count.mpr h

theorem step_held {base : World} {I B : List Nat} {d d' : DataSet} {w w' : World} (op : Op) (h : Held base I B d w)
    (hc : d.config ≠ none) (hr : Ready d op) (e : step d w op = some (d', w')) :
    d'.config = d.config ∧ ∃ I' B', Held base I' B' d' w' ∧ I'.length ≤ I.length + noHeaders d' op ∧
      B'.length ≤ B.length + noHeaders d' op := by
  cases op with
  | file name =>
    simp only [step, Option.some.injEq, Prod.mk.injEq] at e
    obtain ⟨rfl, rfl⟩ := e
    exact ⟨rfl, I, B, ⟨h.items, h.blocks, h.files, h.stack, h.owned⟩, by omega, by omega⟩
  | properties s q r =>
    obtain ⟨h0, ho, hq⟩ := hr
    simp only [step, initProperties, Option.map_eq_some_iff, Prod.mk.injEq] at e
    obtain ⟨⟨a, m⟩, e, rfl, rfl⟩ := e
    obtain ⟨hi, hb, -⟩ := Avail.C76_balance s ho q hq r w.mem m a e
    refine ⟨rfl, I, B, ⟨?_, ?_, h.files, h.stack, ho⟩, by omega, by omega⟩
    · have := h.items
      simp only [itemsOwned, h0, Option.elim_none, List.nil_append] at this
      refine hi.trans ?_
      cases a
      · simpa [itemsOwned, Avail.ids] using this
      · simpa [itemsOwned] using this.append_left _
    · have hh := h.blocks
      refine counts fun x => ?_
      have h1 := List.perm_iff_count.mp hb x
      have h2 := List.perm_iff_count.mp hh x
      cases a <;> simp [blocksOwned, h0, Avail.blks, List.count_append, List.count_cons] at h1 h2 ⊢ <;> omega
  | headers s up =>
    simp only [Ready] at hr
    simp only [step, initHeaders, hc, if_false, Option.map_eq_some_iff, Prod.mk.injEq] at e
    obtain ⟨⟨m, v⟩, e, rfl, rfl⟩ := e
    refine ⟨rfl, ?_⟩
    cases m with
    | some m =>
      obtain ⟨hi, hb, -⟩ := HeadersMem.C78_made s up _ v m e
      refine ⟨I, B, ⟨?_, ?_, h.files, h.stack, h.owned⟩, by omega, by omega⟩
      · simp only [ofHeaders]; rw [hi]; exact h.items
      · have hh := h.blocks
        refine counts fun x => ?_
        have h1 := List.perm_iff_count.mp hb x
        have h2 := List.perm_iff_count.mp hh x
        simp [blocksOwned, hr, ofHeaders, toHeaders, List.count_append, List.count_cons] at h1 h2 ⊢
        omega
    | none =>
      obtain ⟨-, I', L, hi, hb, l1, l2⟩ := HeadersMem.C78_null_partial s up _ v e
      refine ⟨I' ++ I, L ++ B, ⟨?_, ?_, h.files, h.stack, h.owned⟩, ?_, ?_⟩
      · refine counts fun x => ?_
        have h2 := List.perm_iff_count.mp h.items x
        simp only [ofHeaders]; rw [hi]
        simp [toHeaders, itemsOwned, List.count_append] at h2 ⊢
        omega
      · refine counts fun x => ?_
        have h1 := List.perm_iff_count.mp hb x
        have h2 := List.perm_iff_count.mp h.blocks x
        simp [blocksOwned, hr, ofHeaders, toHeaders, List.count_append] at h1 h2 ⊢
        omega
      · simp [noHeaders]; omega
      · simp [noHeaders]; omega
  | overridable ok filter =>
    simp only [Ready] at hr
    simp only [step, initOverridable] at e
    cases ha : d.available with
    | none => simp [ha] at e
    | some a =>
      simp only [ha] at e
      split at e
      · rcases malloc_cases ok w with ⟨w1, em, i, b, o⟩ | ⟨b, w1, em, i, hb, o⟩ <;>
          simp only [em, Option.some.injEq, Prod.mk.injEq] at e <;> obtain ⟨rfl, rfl⟩ := e
        · refine ⟨rfl, I, B, ⟨by rw [i]; simpa [itemsOwned, ha] using h.items, ?_, by rw [o.files]; exact h.files, h.stack, h.owned⟩, by omega, by omega⟩
          rw [b]; have := h.blocks; simpa [blocksOwned, hr, ha] using this
        · refine ⟨rfl, I, B, ⟨by rw [i]; simpa [itemsOwned, ha] using h.items, ?_, by rw [o.files]; exact h.files, h.stack, h.owned⟩, by omega, by omega⟩
          rw [hb]
          refine counts fun x => ?_
          have h2 := List.perm_iff_count.mp h.blocks x
          simp [blocksOwned, hr, ha, List.count_append, List.count_cons] at h2 ⊢
          omega
      · simp only [Option.some.injEq, Prod.mk.injEq] at e
        obtain ⟨rfl, rfl⟩ := e
        refine ⟨rfl, I, B, ⟨by simpa [itemsOwned, ha] using h.items, ?_, h.files, h.stack, h.owned⟩, by omega, by omega⟩
        have := h.blocks; simpa [blocksOwned, hr, ha] using this
  | pool ok opens concurrency =>
    obtain ⟨hs, hn⟩ := hr
    have hst : d.pool.stack = false := by rw [h.stack, hs]; rfl
    have hfiles : w.files.Perm base.files := by have := h.files; rwa [pool_free_none hst] at this
    simp only [step, initPool] at e
    split at e
    · simp only [Option.some.injEq, Prod.mk.injEq] at e
      obtain ⟨rfl, rfl⟩ := e
      exact ⟨rfl, I, B, h, by omega, by omega⟩
    · rcases malloc_cases ok w with ⟨w1, em, i, b, o⟩ | ⟨b, w1, em, i, hb, o⟩
      · simp only [em, Pool.init, Option.map_eq_some_iff, Prod.mk.injEq] at e
        obtain ⟨p, hp, rfl, rfl⟩ := e
        simp at hp
        subst hp
        refine ⟨rfl, I, B, ⟨by rw [i]; exact h.items, ?_, ?_, rfl, h.owned⟩, by omega, by omega⟩
        · rw [b]; have := h.blocks; simpa [blocksOwned, hs] using this
        · rw [o.files]; simpa [Pool.free] using hfiles
      · have ho := openFiles_spec opens concurrency w1
        cases hof : openFiles opens concurrency w1 with
        | mk l w2 =>
          rw [hof] at ho
          obtain ⟨hl, hm, hd, hf⟩ := ho
          simp only at hl hm hd hf
          simp only [em, hof, Option.map_eq_some_iff, Prod.mk.injEq] at e
          obtain ⟨p, hp, rfl, rfl⟩ := e
          obtain ⟨q, hq, hfr⟩ := Pool.C55_freed_partial d.pool true (padded concurrency l) (by rw [padded_length hl]; omega)
          rw [hq] at hp
          cases hp
          have hqs : p.stack = true := by
            by_cases hh : p.stack = true
            · exact hh
            · exfalso
              simp only [Pool.init, if_true, padded_length hl] at hq
              rw [if_neg (by omega)] at hq
              simp only [Option.some.injEq] at hq
              apply hh
              rw [← hq]
              have := Pool.initLoop_spec (padded concurrency l) 
                ⟨true, ⟨0, 0, 0⟩, 0, Pool.set d.pool.resource 0 none, d.pool.next⟩ 1 (by omega) rfl rfl
              exact this.1
          refine ⟨rfl, I, B, ⟨by rw [hm, i]; exact h.items, ?_, ?_, by simp [hqs], h.owned⟩, by omega, by omega⟩
          · rw [hm, hb]
            refine counts fun x => ?_
            have h2 := List.perm_iff_count.mp h.blocks x
            simp [blocksOwned, hs, List.count_append, List.count_cons] at h2 ⊢
            omega
          · simp only
            rw [hfr, if_pos rfl]
            refine (hf (concurrency - l.length)).trans ?_
            rw [o.files]
            exact hfiles.append_left _
  | memory ok opened readable =>
    simp only [Ready] at hr
    simp only [step, initMemory] at e
    split at e
    · rcases malloc_cases ok w with ⟨w1, em, i, b, o⟩ | ⟨b, w1, em, i, hb, o⟩
      · simp only [em, Option.some.injEq, Prod.mk.injEq] at e
        obtain ⟨rfl, rfl⟩ := e
        exact ⟨rfl, I, B, ⟨by rw [i]; exact h.items, by rw [b]; exact h.blocks, by rw [o.files]; exact h.files, h.stack,
          h.owned⟩, by omega, by omega⟩
      · simp only [em] at e
        split at e
        · simp only [Option.some.injEq, Prod.mk.injEq] at e
          obtain ⟨rfl, rfl⟩ := e
          refine ⟨rfl, I, B, ⟨by rw [i]; exact h.items, ?_, by rw [o.files]; exact h.files, h.stack, h.owned⟩, by omega, by omega⟩
          rw [hb]
          refine counts fun x => ?_
          have h2 := List.perm_iff_count.mp h.blocks x
          simp [blocksOwned, hr, List.count_append, List.count_cons] at h2 ⊢
          omega
        · obtain ⟨w2, ef, i2, b2, o2⟩ := freeBlock_perm (w := w1) (b := some b) (R := w.mem.blocks) (by rw [hb]; simp)
          simp only [ef, Option.map_some, Option.some.injEq, Prod.mk.injEq] at e
          obtain ⟨rfl, rfl⟩ := e
          exact ⟨rfl, I, B, ⟨by rw [i2, i]; exact h.items, b2.trans h.blocks, by rw [o2.files, o.files]; exact h.files,
            h.stack, h.owned⟩, by omega, by omega⟩
    · simp only [Option.some.injEq, Prod.mk.injEq] at e
      obtain ⟨rfl, rfl⟩ := e
      exact ⟨rfl, I, B, h, by omega, by omega⟩
  | free =>
    obtain ⟨t, ht⟩ := Option.ne_none_iff_exists'.mp hc
    obtain ⟨v, e', hh, -⟩ := free_held h t ht
    simp only [step, e', Option.some.injEq, Prod.mk.injEq] at e
    obtain ⟨rfl, rfl⟩ := e
    exact ⟨rfl, I, B, hh, by omega, by omega⟩

theorem calls_held {p : Pool.Pool} {t : Bool} {base w : World} {n : Nat} {d : DataSet}
    (h : Calls (reset p (some t)) base n d w) :
    d.config = some t ∧ ∃ I B, Held base I B d w ∧ I.length ≤ n ∧ B.length ≤ n := by
  induction h with
  | none =>
    exact ⟨rfl, [], [], ⟨by simp [itemsOwned, reset], by simp [blocksOwned, reset],
      by simp [reset, Pool.free, poolReset], rfl, rfl⟩, by simp, by simp⟩
  | call op _ hr e ih =>
    obtain ⟨hc, I, B, hh, l1, l2⟩ := ih
    obtain ⟨hc', I', B', hh', l1', l2'⟩ := step_held op hh (by simp [hc]) hr e
    exact ⟨hc'.trans hc, I', B', hh', by omega, by omega⟩

/-! ## C90 -/

/-- C90: at any time the memory, the items and the open files are those that the parts of the data set refer to, besides
what there was before, and at most one item and one block for each time that headers could not be had. Missing: that
nothing is lost then, see `C90_lost_violated`. -/
theorem C90_owned_partial (p : Pool.Pool) (t : Bool) (base w : World) (n : Nat) (d : DataSet)
    (h : Calls (reset p (some t)) base n d w) :
    ∃ I B : List Nat, I.length ≤ n ∧ B.length ≤ n ∧
      w.mem.items.Perm (itemsOwned d ++ (I ++ base.mem.items)) ∧
      w.mem.blocks.Perm (blocksOwned d ++ (B ++ base.mem.blocks)) ∧
      w.files.Perm (Pool.free d.pool ++ base.files) := by
  obtain ⟨-, I, B, hh, l1, l2⟩ := calls_held h
  exact ⟨I, B, l1, l2, hh.items, hh.blocks, hh.files⟩

/-- C90: whichever parts of a data set were initialised, in any order and with any failures, the data set can be freed.
If headers could be had then the memory, the items held and the open files are exactly those from before it was
initialised, each given back once. The working file is deleted just if it is a temporary one. Missing: headers that could
not be had, see `C90_lost_violated`; parts initialised twice, see `C90_twice_violated`. -/
theorem C90_freed_partial (p : Pool.Pool) (t : Bool) (base w : World) (n : Nat) (d : DataSet)
    (h : Calls (reset p (some t)) base n d w) :
    ∃ d' w', free d w = some (d', w') ∧ w'.files.Perm base.files ∧
      w'.deleted = w.deleted ++ (if t then [d.fileName] else []) ∧
      (n = 0 → w'.mem.items.Perm base.mem.items ∧ w'.mem.blocks.Perm base.mem.blocks) ∧
      w'.mem.items.length ≤ base.mem.items.length + n ∧ w'.mem.blocks.length ≤ base.mem.blocks.length + n := by
  obtain ⟨hc, I, B, hh, l1, l2⟩ := calls_held h
  obtain ⟨w', e, hh', hd⟩ := free_held hh t hc
  have hi : w'.mem.items.Perm (I ++ base.mem.items) := by simpa [itemsOwned, bare] using hh'.items
  have hb : w'.mem.blocks.Perm (B ++ base.mem.blocks) := by simpa [blocksOwned, bare] using hh'.blocks
  refine ⟨_, w', e, by simpa [bare, Pool.free, poolReset] using hh'.files, hd, ?_, ?_, ?_⟩
  · rintro rfl
    have h1 : I = [] := by simpa using l1
    have h2 : B = [] := by simpa using l2
    subst h1 h2
    exact ⟨by simpa using hi, by simpa using hb⟩
  · rw [hi.length_eq, List.length_append]; omega
  · rw [hb.length_eq, List.length_append]; omega

/-- C90: a data set that was freed can be freed again, which gives back nothing more. The name of a temporary file is
deleted again. -/
theorem C90_again (p : Pool.Pool) (t : Bool) (base w : World) (n : Nat) (d : DataSet)
    (h : Calls (reset p (some t)) base n d w) (d' : DataSet) (w' : World) (hf : free d w = some (d', w')) :
    free d' w' = some (d', { w' with deleted := w'.deleted ++ if t then [d.fileName] else [] }) := by
  obtain ⟨hc, I, B, hh, -⟩ := calls_held h
  obtain ⟨v, e, -, -⟩ := free_held hh t hc
  rw [e] at hf
  simp only [Option.some.injEq, Prod.mk.injEq] at hf
  obtain ⟨rfl, rfl⟩ := hf
  obtain ⟨⟨calls, allocs, items, blocks⟩, opens, files, deleted⟩ := v
  cases t <;>
    simp [free, freeHeaders, freeOverridable, freeAvailable, poolRelease, freeMemory, freeFile, bare, hc, freeBlock,
      Avail.freeAvailable, HeadersMem.headersFree, toHeaders, ofHeaders, Pool.free, poolReset, closeAll]

/-- C90: no part is left in a data set that was freed, so that each can be initialised again. -/
theorem C90_ready (p : Pool.Pool) (t : Bool) (base w : World) (n : Nat) (d : DataSet)
    (h : Calls (reset p (some t)) base n d w) (d' : DataSet) (w' : World) (hf : free d w = some (d', w')) :
    d'.headers = none ∧ d'.overridable = none ∧ d'.available = none ∧ d'.stack = none ∧ d'.memory = none ∧
      Calls (reset p (some t)) base n d' w' := by
  obtain ⟨hc, I, B, hh, -⟩ := calls_held h
  obtain ⟨v, e, -, -⟩ := free_held hh t hc
  have hcall : Calls (reset p (some t)) base (n + noHeaders d' .free) d' w' := .call .free h trivial hf
  rw [e] at hf
  simp only [Option.some.injEq, Prod.mk.injEq] at hf
  obtain ⟨rfl, rfl⟩ := hf
  exact ⟨rfl, rfl, rfl, rfl, rfl, hcall⟩

/-- C90: reading the data into memory, opening the files and freeing are always defined, whatever fails. -/
theorem C90_defined (p : Pool.Pool) (t : Bool) (base w : World) (n : Nat) (d : DataSet)
    (h : Calls (reset p (some t)) base n d w) (op : Op) (hr : Ready d op)
    (ho : (∃ ok o r, op = .memory ok o r) ∨ (∃ ok o c, op = .pool ok o c) ∨ op = .free) :
    ∃ d' w', step d w op = some (d', w') := by
  rcases ho with ⟨ok, o, r, rfl⟩ | ⟨ok, o, c, rfl⟩ | rfl
  · simp only [step, initMemory]
    cases o with
    | false => exact ⟨_, _, rfl⟩
    | true =>
      rw [if_pos rfl]
      rcases malloc_cases ok w with ⟨w1, em, -⟩ | ⟨b, w1, em, i, hb, -⟩
      · rw [em]; exact ⟨_, _, rfl⟩
      · rw [em]
        obtain ⟨w2, ef, -⟩ := freeBlock_perm (w := w1) (b := some b) (R := w.mem.blocks) (by rw [hb]; simp)
        cases r
        · exact ⟨_, _, by simp [ef]; exact ⟨rfl, rfl⟩⟩
        · exact ⟨_, _, rfl⟩
  · simp only [step, initPool]
    split
    · exact ⟨_, _, rfl⟩
    · rcases malloc_cases ok w with ⟨w1, em, -⟩ | ⟨b, w1, em, -⟩
      · rw [em]; exact ⟨_, _, rfl⟩
      · have hl := (openFiles_spec o c w1).1
        obtain ⟨q, hq, -⟩ := Pool.C55_freed_partial d.pool true (padded c (openFiles o c w1).1)
          (by rw [padded_length hl]; exact hr.2)
        rw [em]
        simp only [hq, Option.map_some]
        exact ⟨_, _, rfl⟩
  · obtain ⟨hc, I, B, hh, -⟩ := calls_held h
    obtain ⟨v, e, -⟩ := free_held hh t hc
    exact ⟨_, _, e⟩

/-! ## Cases -/

/-- Several calls. -/
def run : List Op → DataSet → World → UB (DataSet × World)
  | [], d, w => some (d, w)
  | op :: ops, d, w => (step d w op).bind fun p => run ops p.1 p.2

/-- A world with an item, a block and a file of someone else. -/
def before : World := ⟨⟨5, 5, [3], [4]⟩, 2, [1], []⟩

def empty : DataSet := reset Pool.anyPool (some true)

/-- A source of properties. -/
def propertySource : Avail.Source :=
  ⟨[c!"IsMobile"], true, fun _ => false, fun _ => 1, fun _ => [0], fun _ => true⟩

/-- A source of headers; `full` are the allocations that fail. -/
def headerSource (full : List Nat) : HeadersMem.Source := ⟨[(c!"UA", 3)], fun _ => false, fun k => k ∉ full⟩

def always : Nat → Bool := fun _ => true

/-- All parts; the third of four files cannot be opened. -/
def allParts : List Op :=
  [.file c!"t", .memory always true true, .pool always (fun k => k != 4) 4, .properties propertySource id .all,
    .headers (headerSource []) false, .overridable always always]

example : (run allParts empty before).map (fun p => (p.2, blocksOwned p.1, itemsOwned p.1, Pool.free p.1.pool)) =
    some (⟨⟨13, 13, [7, 3], [12, 11, 10, 9, 8, 7, 6, 5, 4]⟩, 5, [3, 2, 1], []⟩, [10, 11, 9, 12, 7, 8, 6, 5], [7], [2, 3]) := by
  decide +kernel

example : ((run (allParts ++ [.free]) empty before).map fun p => p.2) =
    some ⟨⟨13, 13, [3], [4]⟩, 5, [1], [c!"t"]⟩ := by
  decide +kernel

/-- The calls of a list that is run are calls as they should be, if each finds its part missing. -/
theorem calls_run : ∀ (ops : List Op) (d0 d d' : DataSet) (w0 w w' : World) (n : Nat), Calls d0 w0 n d w →
    (∀ l op r d1 w1, ops = l ++ op :: r → run l d w = some (d1, w1) → Ready d1 op) →
    run ops d w = some (d', w') → ∃ m, Calls d0 w0 m d' w' := by
  intro ops
  induction ops with
  | nil => intro d0 d d' w0 w w' n h _ e; cases e; exact ⟨n, h⟩
  | cons op ops ih =>
    intro d0 d d' w0 w w' n h hr e
    simp only [run, Option.bind_eq_some_iff] at e
    obtain ⟨⟨d1, w1⟩, e1, e⟩ := e
    refine ih d0 d1 d' w0 w1 w' _ (.call op h (hr [] op ops d w rfl rfl) e1) ?_ e
    intro l op' r d2 w2 hl e2
    exact hr (op :: l) op' r d2 w2 (by rw [hl]; rfl) (by simp [run, e1, e2])

/-- The first two of these calls meet the hypotheses, with a file that cannot be opened. -/
example : ∃ d w, Calls empty before 0 d w ∧ Pool.free d.pool = [2, 3] ∧ d.stack = some 5 ∧ w.files = [3, 2, 1] := by
  refine ⟨_, _, .call (.pool always (fun k => k != 4) 4) .none ⟨rfl, by decide⟩ rfl, by decide, by decide, by decide⟩

/-- C90, counterexample: when there is no memory for the segments of a header, the item with its name is never given back
by the data set, nor is the copy of the name. -/
theorem C90_lost_violated : ∃ op, Ready empty op ∧
    ((run [op, .free] empty before).map fun p => (p.2.mem.items, p.2.mem.blocks)) = some ([7, 3], [6, 4]) :=
  ⟨.headers (headerSource [7]) false, rfl, by decide +kernel⟩

/-- C90, counterexample: when the properties of a data set are initialised twice, those from the first time are never given
back, as are headers, files and memory. -/
theorem C90_twice_violated :
    (∃ op, ((run [op, .free] empty before).map fun p => (p.2.mem.items, p.2.mem.blocks)) = some ([3], [4]) ∧
      ((run [op, op, .free] empty before).map fun p => (p.2.mem.items, p.2.mem.blocks)) = some ([7, 3], [6, 5, 4])) ∧
    (∃ op, ((run [op, .free] empty before).map fun p => (p.2.mem.blocks, p.2.files)) = some ([4], [1]) ∧
      ((run [op, op, .free] empty before).map fun p => (p.2.mem.blocks, p.2.files)) = some ([5, 4], [3, 2, 1])) ∧
    (∃ op, ((run [op, .free] empty before).map fun p => p.2.mem.blocks) = some [4] ∧
      ((run [op, op, .free] empty before).map fun p => p.2.mem.blocks) = some [5, 4]) :=
  ⟨⟨.properties propertySource id .all, by decide +kernel, by decide +kernel⟩,
    ⟨.pool always always 2, by decide +kernel, by decide +kernel⟩,
    ⟨.memory always true true, by decide +kernel, by decide +kernel⟩⟩

/-- C90, counterexample: a data set without a configuration cannot be freed, though all its parts can, and its headers
cannot be initialised. -/
theorem C90_config_violated (p : Pool.Pool) (w : World) :
    free (reset p none) w = none ∧ ∀ s up, step (reset p none) w (.headers s up) = none := by
  refine ⟨?_, fun s up => by simp [step, initHeaders, reset]⟩
  simp [free, freeHeaders, freeOverridable, freeAvailable, poolRelease, freeMemory, freeFile, reset, freeBlock,
    Avail.freeAvailable, HeadersMem.headersFree, Pool.free, poolReset, closeAll]

end Verif.Owner
