import Verif.Base

/-! # Model of `memory.c` and of creating collections from memory (`collection.c`) -/

namespace Verif.Memory

/-! ## Memory reader -/

/-- `fiftyoneDegreesMemoryReader`, memory.h:53-58: the image starting at `startByte` with `lastByte` one past
its end (file.c:1079), and `current` as an offset from `startByte`. Address arithmetic does not overflow. -/
structure Reader where
  image : List UInt8
  current : Nat
deriving DecidableEq, Repr

/-- `fiftyoneDegreesMemoryAdvance`, memory.c:57-68, for a reader with memory: `current` moves even when the
result is false. -/
def advance (r : Reader) (by' : Nat) : Reader × Bool :=
  let r := { r with current := r.current + by' }
  (r, !decide (r.current > r.image.length))

/-- `*(uint32_t*)reader->current`: a little-endian read of four bytes inside the image. -/
def read32 (r : Reader) : UB Nat :=
  match r.image.drop r.current with
  | a :: b :: c :: d :: _ => some (a.toNat + 256 * b.toNat + 65536 * c.toNat + 16777216 * d.toNat)
  | _ => none

/-- `fiftyoneDegreesCollectionHeader`, collection.h. -/
structure Header where
  startPosition : Nat
  length : Nat
  count : Nat
deriving DecidableEq, Repr

/-- `fiftyoneDegreesCollectionHeaderFromMemory`, collection.c:732-757; all members are `uint32_t`. -/
def headerFromMemory (r : Reader) (elementSize : Nat) (isCount : Bool) : UB (Reader × Header) :=
  (read32 r).map fun n =>
    let (count, length) :=
      if isCount then (n, n * elementSize % 2 ^ 32) else (if elementSize > 0 then n / elementSize else 0, n)
    let (r, ok) := advance r 4
    (r, ⟨if ok then r.current % 2 ^ 32 else 0, length, count⟩)

/-- The memory collection made from an image: `firstByte` as an offset, `size`, `elementSize` and `count`
(collection.h:434-440 and the generic collection). -/
structure Area where
  first : Nat
  size : Nat
  elementSize : Nat
  count : Nat
deriving DecidableEq, Repr

/-- `fiftyoneDegreesCollectionCreateFromMemory`, collection.c:759-810 with `createCollection` 485-504
(allocation succeeds); `none` is NULL. -/
def createFromMemory (r : Reader) (h : Header) : Reader × Option Area :=
  if r.current % 2 ^ 32 ≠ h.startPosition then (r, none)
  else
    let elementSize := if h.count = 0 then 0 else h.length / h.count
    let count := if elementSize ≠ 0 then h.length / elementSize else h.count
    let a : Area := ⟨r.current, h.length, elementSize, count⟩
    match advance r h.length with
    | (r, true) => (r, some a)
    | (r, false) => (r, none)

/-- `getMemoryFixed`, collection.c:203-220: offset in the image of an item; `none` is the exception. -/
def getFixed (a : Area) (index : Nat) : Option Nat :=
  if index < a.count then some (a.first + index * a.elementSize) else none

/-- `getMemoryVariable`, collection.c:186-201. -/
def getVariable (a : Area) (offset : Nat) : Option Nat :=
  if offset < a.size then some (a.first + offset) else none

/-- What a caller does with an image: read a collection header and create the collection (as dataset
initialisers do), or move over a fixed structure. -/
inductive Op where
  | coll (elementSize : Nat) (isCount : Bool)
  | skip (n : Nat)
deriving DecidableEq, Repr

/-- A caller working through an image, stopping at the first failure. Returns the areas handed out and
whether everything succeeded. -/
def run (r : Reader) : List Op → UB (List Area × Bool)
  | [] => some ([], true)
  | .skip n :: ops =>
    match advance r n with
    | (r, true) => run r ops
    | (_, false) => some ([], false)
  | .coll es isCount :: ops =>
    (headerFromMemory r es isCount).bind fun (r, h) =>
      match createFromMemory r h with
      | (r, some a) => (run r ops).map fun (as, ok) => (a :: as, ok)
      | (_, none) => some ([], false)

/-! ## Aligned allocation -/

/-- The size passed to the allocator by `fiftyoneDegreesMemoryStandardMallocAligned`, memory.c:74-75, as
`size_t` arithmetic. -/
def alignedSize (alignment size : Nat) : Nat := (size + size % alignment) % 2 ^ 64

/-! ## Allocation tracking -/

/-- `FIFTYONE_DEGREES_MEMORY_TRACKER_SHARDS`, memory.c:29. -/
def SHARDS : Nat := 20

/-- `getShardFromPointer`, memory.c:92-103; `shardDivider` is three times the pointer size. -/
def shardOf (pointer : Nat) : Nat := pointer / 24 % SHARDS

/-- The tracking state, memory.c:46-54. Each shard's tree is a list of (pointer, recorded size); the tree
operations used are insert, find and delete of one entry (see `Verif.Tree`). -/
structure Track where
  shards : Nat → List (Nat × Nat)
  allocated : Nat
  max : Nat

/-- The state after `fiftyoneDegreesMemoryTrackingReset` on first use, memory.c:246-263. -/
def Track.start : Track := ⟨fun _ => [], 0, 0⟩

/-- `trackAllocation`, memory.c:111-150: the record's size is `uint32_t`, the totals `size_t`. -/
def track (s : Track) (pointer size : Nat) : Track :=
  let shard := shardOf pointer
  let allocated := (s.allocated + size) % 2 ^ 64
  { shards := fun i => if i = shard then (pointer, size % 2 ^ 32) :: s.shards i else s.shards i
    allocated := allocated
    max := if allocated > s.max then allocated else s.max }

/-- `untrackAllocation`, memory.c:152-184; a pointer that is not recorded is a NULL dereference. -/
def untrack (s : Track) (pointer : Nat) : UB Track :=
  let shard := shardOf pointer
  match (s.shards shard).find? (fun r => r.1 = pointer) with
  | none => none
  | some r => some
    { s with
      shards := fun i => if i = shard then (s.shards i).eraseP (fun r => r.1 = pointer) else s.shards i
      allocated := (s.allocated + 2 ^ 64 - r.2) % 2 ^ 64 }

/-- Tracked calls: `malloc`/`mallocAligned` returning a pointer (0 is NULL), or `free`. -/
inductive Call where
  | malloc (size pointer : Nat)
  | mallocAligned (alignment size pointer : Nat)
  | free (pointer : Nat)
deriving DecidableEq, Repr

/-- `fiftyoneDegreesMemoryTrackingMalloc`/`MallocAligned`/`Free`/`FreeAligned`, memory.c:185-236. -/
def call (s : Track) : Call → UB Track
  | .malloc size p => some (track s p size)
  | .mallocAligned al size p => some (track s p ((size + size % al) % 2 ^ 64))
  | .free p => untrack s p

/-- A sequence of tracked calls, with the state after each. -/
def calls (s : Track) : List Call → UB (List Track)
  | [] => some [s]
  | c :: cs => (call s c).bind fun t => (calls t cs).map (s :: ·)

end Verif.Memory
