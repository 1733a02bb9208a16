import Verif.Base

/-! # Model of the memory and the file handles of collections (collection.c)

Which operations fail is given by the environment: for each kind of operation the results in the order in which it is asked
for; those beyond the list succeed. The contents of the collections are modelled in `Verif.Collection`. -/

namespace Verif.Life

/-! ## Memory and environment -/

/-- The kinds of operations that can fail: allocation of the structures of a collection, of other memory, of a cache; and
`fseek`, `fread`. -/
inductive Kind where
  | struct
  | buffer
  | cache
  | io
deriving DecidableEq, Repr

/-- The blocks of memory in use, and the results to come. -/
structure St where
  next : Nat
  live : Nat → Bool
  results : Kind → List Bool

/-- The result of an operation. -/
def St.ask (s : St) (k : Kind) : Bool × St :=
  ((s.results k).headD true, { s with results := fun j => if j = k then (s.results k).tail else s.results j })

/-- A successful `Malloc`. -/
def St.malloc (s : St) : Nat × St :=
  (s.next, { s with next := s.next + 1, live := fun j => j = s.next || s.live j })

/-- `Free` of a block. Freeing what is not in use is undefined. -/
def St.free (s : St) (b : Nat) : UB St :=
  if s.live b then some { s with live := fun j => j ≠ b && s.live j } else none

/-! ## Collections -/

/-- A collection in a file: the blocks of `fiftyoneDegreesCollection` and of its state. -/
structure FileColl where
  self : Nat
  state : Nat
deriving DecidableEq, Repr

/-- A collection that is not in memory: in the file; or with a cache, which has the block of the cache and the blocks its
nodes have allocated. -/
inductive Back where
  | file (f : FileColl)
  | cache (self state : Nat) (source : FileColl) (table : Nat) (nodes : List Nat)
deriving DecidableEq, Repr

/-- A collection; one in memory has the memory to free, if any, and the next collection, if any. -/
inductive Coll where
  | back (b : Back)
  | memory (self state : Nat) (toFree : Option Nat) (next : Option Back)
deriving DecidableEq, Repr

/-- `freeCollection`, collection.c:140-143. -/
def freeCollection (s : St) (self state : Nat) : UB St := do
  let s ← s.free state
  s.free self

/-- `freeFileCollection`, collection.c:161-163. -/
def FileColl.free (f : FileColl) (s : St) : UB St := freeCollection s f.self f.state

/-- The loops of `fiftyoneDegreesCacheFree` and `cacheShardFree`, cache.c:297-310, 369-376, over the nodes with memory. -/
def freeNodes (s : St) : List Nat → UB St
  | [] => some s
  | b :: bs => do
    let s ← s.free b
    freeNodes s bs

/-- `freeFileCollection` and `freeCacheCollection`, collection.c:161-178, with `fiftyoneDegreesCacheFree`, cache.c:369-380. -/
def Back.free (s : St) : Back → UB St
  | .file f => f.free s
  | .cache self state source table nodes => do
    let s ← source.free s
    let s ← freeNodes s nodes
    let s ← s.free table
    freeCollection s self state

/-- The first part of `freeMemoryCollection`, collection.c:148-150. -/
def freeNext (s : St) : Option Back → UB St
  | some b => b.free s
  | none => some s

/-- The second part, collection.c:152-154. -/
def freeBuffer (s : St) : Option Nat → UB St
  | some m => s.free m
  | none => some s

/-- `freeMemoryCollection`, collection.c:145-157. -/
def freeMemoryCollection (s : St) (self state : Nat) (toFree : Option Nat) (next : Option Back) : UB St := do
  let s ← freeNext s next
  let s ← freeBuffer s toFree
  freeCollection s self state

/-- `collection->freeCollection`. -/
def Coll.free (s : St) : Coll → UB St
  | .back b => b.free s
  | .memory self state toFree next => freeMemoryCollection s self state toFree next

/-- `createCollection`, collection.c:485-504: the two blocks, or NULL. -/
def createCollection (s : St) : UB (St × Option (Nat × Nat)) :=
  match s.ask .struct with
  | (false, s) => some (s, none)
  | (true, s) =>
    let (c, s) := s.malloc
    match s.ask .struct with
    | (false, s) => (s.free c).map fun s => (s, none)
    | (true, s) => let (st, s) := s.malloc; some (s, some (c, st))

/-- `createFromFile`, collection.c:529-558, with `readFile`, 508-527. -/
def createFromFile (s : St) : UB (St × Option FileColl) := do
  let (s, c) ← createCollection s
  match c with
  | none => none -- `collection->state`, collection.c:539
  | some (c, st) =>
    match s.ask .io with
    | (true, s) => some (s, some ⟨c, st⟩)
    | (false, s) => (freeCollection s c st).map fun s => (s, none)

/-- The end of `createFromFilePartial` after a failure, collection.c:581-583, 592-594, 600-602, 608-610, 615-617. -/
def abandon (s : St) (self state : Nat) (toFree : Option Nat) (source : FileColl) : UB (St × Option Coll) := do
  let s ← freeMemoryCollection s self state toFree none
  let s ← source.free s
  some (s, none)

/-- `createFromFilePartial` from line 597 on, with the memory for the items allocated. -/
def readPartial (s : St) (self state memory : Nat) (source : FileColl) : UB (St × Option Coll) :=
  match s.ask .io with -- fseek, 598
  | (false, s) => abandon s self state (some memory) source
  | (true, s) =>
    match s.ask .io with -- fread, 605
    | (false, s) => abandon s self state (some memory) source
    | (true, s) =>
      match s.ask .io with -- fseek, 613
      | (false, s) => abandon s self state (some memory) source
      | (true, s) => (source.free s).map fun s => (s, some (.memory self state (some memory) none))

/-- `createFromFilePartial`, collection.c:560-642. For items of variable size the size of those to be loaded is found by
reading them, which can fail; the memory used for each item is freed by then (`C13_release`) and left out here. -/
def createFromFilePartial (s : St) («variable» : Bool) : UB (St × Option Coll) := do
  let (s, source) ← createFromFile s
  let (s, c) ← createCollection s
  match c, source with
  | none, _ => none -- `collection->state`, 571
  | some _, none => none -- `collection->elementSize` in `calculateLoadedSize`, 463
  | some (c, st), some source =>
    let (sized, s) := if «variable» then s.ask .io else (true, s)
    if sized then
      match s.ask .buffer with
      | (false, s) => abandon s c st none source
      | (true, s) => let (m, s) := s.malloc; readPartial s c st m source
    else abandon s c st none source

/-- `fiftyoneDegreesCollectionConfig`, collection.h:287-294. -/
structure Config where
  loaded : Nat
  capacity : Nat
  concurrency : Nat

/-- `fiftyoneDegreesCacheCreate`, cache.c:316-367, as far as memory goes. -/
def cacheCreate (s : St) (cfg : Config) : St × Option Nat :=
  if cfg.concurrency = 0 ∨ cfg.capacity / cfg.concurrency < cfg.concurrency then (s, none)
  else
    match s.ask .cache with
    | (false, s) => (s, none)
    | (true, s) => let (c, s) := s.malloc; (s, some c)

/-- `createFromFileCached`, collection.c:644-687. With `cache->cache` NULL, `freeCacheCollection` does not free the source. -/
def createFromFileCached (s : St) (cfg : Config) : UB (St × Option Back) := do
  let (s, c) ← createCollection s
  match c with
  | none => none -- `collection->state`, 654
  | some (c, st) =>
    let (s, source) ← createFromFile s
    match source with
    | none => (freeCollection s c st).map fun s => (s, none)
    | some source =>
      match cacheCreate s cfg with
      | (s, none) => (freeCollection s c st).map fun s => (s, none)
      | (s, some cache) => some (s, some (.cache c st source cache []))

/-- `createFromFileSecond`, collection.c:695-726. -/
def createFromFileSecond (s : St) (cfg : Config) : UB (St × Option Back) :=
  match s.ask .io with
  | (false, s) => some (s, none)
  | (true, s) =>
    if cfg.capacity > 0 ∧ cfg.concurrency > 0 then createFromFileCached s cfg
    else do
      let (s, f) ← createFromFile s
      some (s, f.map .file)

/-- The second part of `fiftyoneDegreesCollectionCreateFromFile`, collection.c:875-890, when a collection in memory has been
made. -/
def addSecond (s : St) (cfg : Config) (self state : Nat) (toFree : Option Nat) : UB (St × Option Coll) := do
  let (s, next) ← createFromFileSecond s cfg
  match next with
  | some b => some (s, some (.memory self state toFree (some b)))
  | none => do
    let s ← freeMemoryCollection s self state toFree none
    some (s, none)

/-- `fiftyoneDegreesCollectionCreateFromFile`, collection.c:843-940. `more` says whether the items loaded are not all, see
`Verif.Collection.createFromFile`. -/
def create (s : St) (cfg : Config) («variable» more : Bool) : UB (St × Option Coll) :=
  if cfg.loaded > 0 then do
    let (s, r) ← createFromFilePartial s «variable»
    match r with
    | none => some (s, none)
    | some (.memory self state toFree next) =>
      if more then addSecond s cfg self state toFree else some (s, some (.memory self state toFree next))
    | some (.back b) => some (s, some (.back b))
  else do
    let (s, b) ← createFromFileSecond s cfg
    some (s, b.map .back)

/-- `fiftyoneDegreesCollectionCreateFromMemory`, collection.c:757-810, for a header in step with the reader; `fits` is the
result of `MemoryAdvance`. -/
def createFromMemory (s : St) (fits : Bool) : UB (St × Option Coll) := do
  let (s, c) ← createCollection s
  match c with
  | none => none -- `collection->state`, 771
  | some (c, st) =>
    if fits then some (s, some (.memory c st none none))
    else do
      let s ← freeMemoryCollection s c st none none
      some (s, none)

/-- A load into a node that has no memory yet, cache.c:270-284 with `loaderCache`, collection.c:353-392, seen from outside:
the node keeps a block. -/
def Back.load (s : St) : Back → St × Back
  | .file f => (s, .file f)
  | .cache self state source table nodes =>
    let (b, s) := s.malloc
    (s, .cache self state source table (b :: nodes))

/-- The same for a collection. -/
def Coll.load (s : St) : Coll → St × Coll
  | .back b => let (s, b) := b.load s; (s, .back b)
  | .memory self state toFree next =>
    match next with
    | none => (s, .memory self state toFree none)
    | some b => let (s, b) := b.load s; (s, .memory self state toFree (some b))

/-- Any number of such loads. -/
def Coll.loads : Nat → St → Coll → St × Coll
  | 0, s, c => (s, c)
  | n + 1, s, c => let (s, c) := c.load s; Coll.loads n s c

/-! ## File handles -/

/-- The exceptions set here. -/
inductive Err where
  | insufficientHandles
  | insufficientMemory
  | seekFail
  | readFail
  | offsetOutOfRange
  | indexOutOfRange
deriving DecidableEq, Repr

/-- The handles available, the memory and environment, the item's data (`fiftyoneDegreesData`: pointer, allocated and used
bytes) and the exception. -/
structure Rd where
  handles : List Nat
  mem : St
  ptr : Option Nat
  allocated : Nat
  used : Nat
  exn : Option Err

/-- `EXCEPTION_SET`. -/
def Rd.fail (s : Rd) (e : Err) : Rd := { s with exn := some e }

/-- The result of an operation. -/
def Rd.ask (s : Rd) (k : Kind) : Bool × Rd := let (b, m) := s.mem.ask k; (b, { s with mem := m })

/-- `fiftyoneDegreesFileHandleGet`, file.c:991-995, with `PoolItemGet`, pool.c:70-97, one thread at a time. -/
def handleGet (s : Rd) : Rd × Option Nat :=
  match s.handles with
  | [] => (s.fail .insufficientHandles, none)
  | h :: hs => ({ s with handles := hs }, some h)

/-- `fiftyoneDegreesFileHandleRelease`, file.c:997-999. -/
def handleRelease (s : Rd) (h : Nat) : Rd := { s with handles := h :: s.handles }

/-- `fiftyoneDegreesDataMalloc`, data.c:33-49: the pointer. -/
def dataMalloc (s : Rd) (n : Nat) : UB (Rd × Option Nat) := do
  let s ← if s.allocated > 0 ∧ n > s.allocated then
      match s.ptr with
      | none => some { s with ptr := none, allocated := 0 } -- `Free(NULL)`
      | some b => (s.mem.free b).map fun m => { s with mem := m, ptr := none, allocated := 0 }
    else some s
  if s.allocated = 0 then
    match s.ask .buffer with
    | (false, s) => some ({ s with ptr := none }, none)
    | (true, s) => let (b, m) := s.mem.malloc; some ({ s with mem := m, ptr := some b, allocated := n }, some b)
  else some (s, s.ptr)

/-- `Free(data->ptr)`; the pointer stays. -/
def freeData (s : Rd) : UB Rd :=
  match s.ptr with
  | none => some s
  | some b => (s.mem.free b).map fun m => { s with mem := m }

/-- `fiftyoneDegreesCollectionReadFilePosition`, collection.c:945-977. -/
def readFilePosition (s : Rd) (size offset : Nat) : Rd × Option Nat :=
  if offset < size then
    match handleGet s with
    | (s, none) => (s, none)
    | (s, some h) =>
      if s.exn = none then
        match s.ask .io with
        | (true, s) => (s, some h)
        | (false, s) => ((handleRelease s h).fail .seekFail, none)
      else (s, some h)
  else (s.fail .offsetOutOfRange, none)

/-- The part of `fiftyoneDegreesCollectionReadFileFixed` with the handle, collection.c:999-1023: the pointer returned. -/
def fixedWith (s : Rd) (elementSize : Nat) : UB (Rd × Option Nat) := do
  let (s, p) ← dataMalloc s elementSize
  match p with
  | none => some (s.fail .insufficientMemory, none)
  | some p =>
    if s.mem.live p then
    match s.ask .io with
    | (true, s) => some ({ s with used := elementSize }, some p)
    | (false, s) => (freeData s).map fun s => (s.fail .readFail, none)
    else none -- writes to memory that has been freed

/-- `fiftyoneDegreesCollectionReadFileFixed`, collection.c:979-1033. -/
def readFixed (s : Rd) (size count elementSize : Nat) (index : UInt32) : UB (Rd × Option Nat) :=
  let offset := index.toNat * elementSize % 2 ^ 32
  let s := { s with used := 0 }
  if index.toNat < count then
    match readFilePosition s size offset with
    | (s, none) => some (s, none)
    | (s, some h) =>
      if s.exn = none then do
        let (s, p) ← fixedWith s elementSize
        some (handleRelease s h, p)
      else some (s, none)
  else some (s.fail .indexOutOfRange, none)

/-- `readFileVariable`, collection.c:1037-1105. `needed` is what `getFinalSize` gives for the bytes read. Less than the
part read first would make `leftToRead` wrap around; that is taken as undefined. -/
def variableWith (s : Rd) (initialSize needed : Nat) : UB (Rd × Option Nat) :=
  match s.ask .io with -- fseek, 1050
  | (false, s) => some (s.fail .seekFail, none)
  | (true, s) =>
    match s.ask .io with -- fread, 1054
    | (false, s) => some (s.fail .readFail, none)
    | (true, s) => do
      let (s, p) ← dataMalloc s needed
      match p with
      | none => some (s.fail .insufficientMemory, none)
      | some p =>
        if needed < initialSize ∨ s.mem.live p = false then none
        else if needed = initialSize then some ({ s with used := needed }, some p)
        else
          match s.ask .io with -- fread, 1071
          | (true, s) => some ({ s with used := needed }, some p)
          | (false, s) => (freeData s).map fun s => (s.fail .readFail, none)

/-- `fiftyoneDegreesCollectionReadFileVariable`, collection.c:1112-1157. -/
def readVariable (s : Rd) (size initialSize needed : Nat) (offset : UInt32) : UB (Rd × Option Nat) :=
  let s := { s with used := 0 }
  if offset.toNat < size then
    match handleGet s with
    | (s, none) => some (s, none)
    | (s, some h) =>
      if s.exn = none then do
        let (s, p) ← variableWith s initialSize needed
        some (handleRelease s h, p)
      else some (s, none)
  else some (s.fail .offsetOutOfRange, none)

end Verif.Life
