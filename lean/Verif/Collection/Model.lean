import Verif.Base
import Verif.Cache.Model

/-! # Model of the collections (collection.c)

A data file is its bytes. Reading from it behaves as `fread` does on a file of that length; other I/O errors, running out
of file handles and of memory are left out. Memory obtained with `Malloc` is a block of a heap; use of a block after it
has been freed, and freeing what is no live block, are undefined behaviour (`none`). -/

namespace Verif.Collection

open Verif.Cache (Cache COp Event cacheStep)

/-! ## Memory -/

/-- Blocks by number; `none` if not allocated or freed. -/
structure Heap where
  next : Nat
  block : Nat → Option CStr

/-- `Malloc`, which gives memory of undetermined contents (taken to be zero). -/
def Heap.malloc (h : Heap) (n : Nat) : Heap × Nat :=
  (⟨h.next + 1, fun i => if i = h.next then some (List.replicate n 0) else h.block i⟩, h.next)

/-- Write `bytes` at position `pos` of a block. -/
def Heap.write (h : Heap) (i pos : Nat) (bytes : CStr) : UB Heap :=
  match h.block i with
  | none => none
  | some old =>
    if pos + bytes.length ≤ old.length then
      some { h with block := fun j => if j = i then some (old.take pos ++ bytes ++ old.drop (pos + bytes.length)) else h.block j }
    else none

/-- What a data pointer points to: a place in the memory of a collection, given by the bytes from there to the end of the
memory; a block; the data of a node of a cache, by shard and node. -/
inductive Ref where
  | memory (bytes : CStr)
  | block (i : Nat)
  | node (shard n : Nat)
deriving DecidableEq, Repr

/-- `Free`. Freeing memory in the middle of a collection or of a cache's node is undefined: the cache goes on using and
frees it again. -/
def Heap.free (h : Heap) : Option Ref → UB Heap
  | none => some h
  | some (.block i) =>
    match h.block i with
    | none => none
    | some _ => some { h with block := fun j => if j = i then none else h.block j }
  | some _ => none

/-- The collection an item came from, as far as the release methods need it. -/
inductive Owner where
  | memory
  | file
  | cache
deriving DecidableEq, Repr

/-- `fiftyoneDegreesCollectionItem`, collection.h, with its `fiftyoneDegreesData`. -/
structure Item where
  ptr : Option Ref
  used : Nat
  allocated : Nat
  handle : Option Ref
  owner : Option Owner
deriving DecidableEq, Repr

/-- An item not used before. -/
def Item.new : Item := ⟨none, 0, 0, none, none⟩

/-- The exceptions set here. -/
inductive Err where
  | indexOutOfRange
  | offsetOutOfRange
  | fileReadFail
deriving DecidableEq, Repr

/-- `fiftyoneDegreesDataMalloc`, data.c:33-49, on the data of an item: the block to use. The memory of a cache's node or of
a collection is not the item's to write to. -/
def dataMalloc (h : Heap) (item : Item) (n : Nat) : UB (Heap × Item × Nat) :=
  if item.allocated > 0 ∧ n > item.allocated then
    match h.free item.ptr with
    | none => none
    | some h => let (h, i) := h.malloc n; some (h, { item with ptr := some (.block i), allocated := n }, i)
  else if item.allocated = 0 then
    let (h, i) := h.malloc n
    some (h, { item with ptr := some (.block i), allocated := n }, i)
  else
    match item.ptr with
    | some (.block i) => if (h.block i).isSome then some (h, item, i) else none
    | _ => none

/-- `GET_EXCEPTION_SET`, collection.c:34-46. -/
def getExceptionSet (h : Heap) (item : Item) : UB (Heap × Item) :=
  if item.allocated > 0 then (h.free item.ptr).map fun h => (h, Item.new) else some (h, Item.new)

/-! ## Collections -/

/-- `fiftyoneDegreesCollectionHeader`, collection.h:275-281. -/
structure Header where
  start : Nat
  length : Nat
  count : Nat
deriving DecidableEq, Repr

/-- The read method of a file collection: `CollectionReadFileFixed`, or `CollectionReadFileVariable` with the size of the
part read first and the function which gives the whole size from that part. -/
inductive Reader where
  | fixed
  | variable (initialSize : Nat) (finalSize : CStr → Nat)

/-- `fiftyoneDegreesCollection` and `fiftyoneDegreesCollectionFile` of a collection in a file, collection.h:408-454. -/
structure FileColl where
  offset : Nat
  size : Nat
  count : Nat
  elementSize : Nat
  read : Reader

/-- The same of a collection in memory; `bytes` are those from `firstByte` to the end of the memory. -/
structure Mem where
  bytes : CStr
  size : Nat
  count : Nat
  elementSize : Nat

/-- `elementSize` in `createCollection`, collection.c:492-493. -/
def Header.elementSize (h : Header) : Nat := if h.count = 0 then 0 else h.length / h.count

/-- `fiftyoneDegreesCollectionHeaderFromMemory` and `HeaderFromFile`, collection.c:729-755, 812-841, for the integer read
and the position after it. -/
def header (value elementSize : Nat) (isCount : Bool) (start : Nat) : Header :=
  if isCount then ⟨start, value * elementSize % 2 ^ 32, value⟩
  else ⟨start, value, if elementSize > 0 then value / elementSize else 0⟩

/-- `fread(.., n, 1, file)` at position `pos`, for `n > 0`. -/
def slice (file : CStr) (pos n : Nat) : Option CStr :=
  if pos + n ≤ file.length then some ((file.drop pos).take n) else none

/-- The difference of two `uint32_t`. -/
def sub32 (a b : Nat) : Nat := if b ≤ a then a - b else 2 ^ 32 - (b - a)

/-! ### Reading items from the file -/

/-- `fiftyoneDegreesCollectionReadFileFixed`, collection.c:979-1033, with `ReadFilePosition`, 945-977. When the read fails
the memory is freed, but the item keeps its pointer and size. -/
def readFixed (file : CStr) (f : FileColl) (h : Heap) (index : UInt32) (item : Item) :
    UB (Heap × Item × Option Nat × Option Err) :=
  let offset := index.toNat * f.elementSize % 2 ^ 32
  let item := { item with used := 0 }
  if index.toNat < f.count then
    if offset < f.size then
      match dataMalloc h item f.elementSize with
      | none => none
      | some (h, item, i) =>
        match slice file (f.offset + offset) f.elementSize with
        | some bytes => (h.write i 0 bytes).map fun h => (h, { item with used := f.elementSize }, some i, none)
        | none => (h.free item.ptr).map fun h => (h, item, none, some .fileReadFail)
    else some (h, item, none, some .offsetOutOfRange)
  else some (h, item, none, some .indexOutOfRange)

/-- `readFileVariable`, collection.c:1037-1105. -/
def readVariableAt (file : CStr) (f : FileColl) (h : Heap) (offset : UInt32) (item : Item) (initialSize : Nat)
    (finalSize : CStr → Nat) : UB (Heap × Item × Option Nat × Option Err) :=
  match slice file (f.offset + offset.toNat) initialSize with
  | none => some (h, item, none, some .fileReadFail)
  | some initial =>
    let needed := finalSize initial
    match dataMalloc h item needed with
    | none => none
    | some (h, item, i) =>
      match h.write i 0 initial with
      | none => none
      | some h =>
        let left := sub32 needed initialSize
        if left > 0 then
          match slice file (f.offset + offset.toNat + initialSize) left with
          | some bytes => (h.write i initialSize bytes).map fun h => (h, { item with used := needed }, some i, none)
          | none => (h.free item.ptr).map fun h => (h, item, none, some .fileReadFail)
        else some (h, { item with used := needed }, some i, none)

/-- `fiftyoneDegreesCollectionReadFileVariable`, collection.c:1112-1157. -/
def readVariable (file : CStr) (f : FileColl) (h : Heap) (offset : UInt32) (item : Item) (initialSize : Nat)
    (finalSize : CStr → Nat) : UB (Heap × Item × Option Nat × Option Err) :=
  let item := { item with used := 0 }
  if offset.toNat < f.size then readVariableAt file f h offset item initialSize finalSize
  else some (h, item, none, some .offsetOutOfRange)

/-- `file->read`. -/
def readItem (file : CStr) (f : FileColl) (h : Heap) (key : UInt32) (item : Item) :
    UB (Heap × Item × Option Nat × Option Err) :=
  match f.read with
  | .fixed => readFixed file f h key item
  | .variable initialSize finalSize => readVariable file f h key item initialSize finalSize

/-- `getFile`, collection.c:272-297. The exception is okay before the call, here and in the other getters. -/
def getFile (file : CStr) (f : FileColl) (h : Heap) (key : UInt32) (item : Item) :
    UB (Heap × Item × Option Ref × Option Err) :=
  match readItem file f h key item with
  | none => none
  | some (h, item, some i, none) =>
    some (h, { item with handle := some (.block i), owner := some .file }, item.ptr, none)
  | some (h, item, i, e) => some (h, { item with handle := i.map .block }, none, e)

/-- `releaseFile`, collection.c:118-125. -/
def releaseFile (h : Heap) (item : Item) : UB (Heap × Item) :=
  if item.handle = none then some (h, item) else (h.free item.handle).map fun h => (h, Item.new)

/-! ### The cache -/

/-- `loaderCache`, collection.c:353-392: the bytes left in the node and the exception. The local item
starts with empty data, and its memory is freed at the end, so that nothing else of the heap matters. -/
def loader (file : CStr) (f : FileColl) (key : UInt32) : UB (CStr × Option Err) :=
  match getFile file f ⟨0, fun _ => none⟩ key Item.new with
  | none => none
  | some (h, item, some (.block i), none) =>
    if item.used > 0 then (h.block i).map fun b => (b.take item.used, none) else some ([], none)
  | some (_, _, _, e) => some ([], e)

/-- `fiftyoneDegreesCacheHash32`, cache.c:436-438, which takes the `uint32_t` key for an `int32_t`. -/
def keyHash (key : UInt32) : Int := Cache.hash32 key.toInt32

/-- `getFromCache`, collection.c:308-342. What the loader would do is determined before the call, also for a hit. -/
def getFromCache (file : CStr) (f : FileColl) (fuel : Nat) (c : Cache CStr) (key : UInt32) (item : Item) :
    UB (Cache CStr × Item × Option Ref × Option Err) :=
  match loader file f key with
  | none => none
  | some (v, e) =>
    match cacheStep keyHash fuel c (.get key v e.isNone) with
    | none => none
    | some (c, i, .hit _ n) => some (found c i n)
    | some (c, i, .loaded _ _ true n) => some (found c i n)
    | some (c, _, .loaded _ _ false _) =>
      some (c, { item with used := 0, handle := none, owner := some .cache }, none, e)
    | some (c, _, _) => some (c, { item with used := 0, handle := none, owner := some .cache }, none, none)
where
  /-- The node is there: lines 322-334. -/
  found (c : Cache CStr) (i n : Nat) : Cache CStr × Item × Option Ref × Option Err :=
    let data := (c.shards i).data n
    if data.length > 0 then
      (c, ⟨some (.node i n), data.length, data.length, some (.node i n), some .cache⟩, some (.node i n), none)
    else (c, { item with handle := some (.node i n), owner := some .cache }, none, none)

/-- `releaseCache`, collection.c:106-111. The data of the item stay. -/
def releaseCache (fuel : Nat) (c : Cache CStr) (item : Item) : UB (Cache CStr × Item) :=
  match item.handle with
  | none => some (c, item)
  | some (.node i n) =>
    (cacheStep (K := UInt32) keyHash fuel c (.release i n)).map fun r => (r.1, { item with handle := none })
  | some _ => none

/-! ### The getters -/

/-- The heap and the cache. -/
structure State where
  heap : Heap
  cache : Cache CStr

/-- The second part of a collection, or all of it: in the file, directly or through the cache. -/
inductive Back where
  | file
  | cache
deriving DecidableEq, Repr

/-- A collection: in memory; in the file; partly in memory. -/
inductive Coll where
  | memory (m : Mem)
  | back (b : Back) (f : FileColl)
  | part (m : Mem) (next : Option (Back × FileColl))

/-- What a getter does and returns. -/
structure Got where
  state : State
  item : Item
  ptr : Option Ref
  err : Option Err

/-- `getMemoryVariable` and `getMemoryFixed`, collection.c:186-219. -/
def getMemory (m : Mem) (s : State) (key : UInt32) (item : Item) : UB Got :=
  if m.elementSize = 0 then
    if key.toNat < m.size then
      let p := some (.memory (m.bytes.drop key.toNat))
      some ⟨s, { item with ptr := p, owner := some .memory }, p, none⟩
    else (getExceptionSet s.heap item).map fun r => ⟨{ s with heap := r.1 }, r.2, none, some .offsetOutOfRange⟩
  else
    if key.toNat < m.count then
      let p := some (.memory (m.bytes.drop (key.toNat * m.elementSize)))
      some ⟨s, { item with ptr := p, owner := some .memory }, p, none⟩
    else (getExceptionSet s.heap item).map fun r => ⟨{ s with heap := r.1 }, r.2, none, some .indexOutOfRange⟩

/-- `collection->get` of a file or cache collection. -/
def getBack (file : CStr) (fuel : Nat) (b : Back) (f : FileColl) (s : State) (key : UInt32) (item : Item) : UB Got :=
  match b with
  | .file => (getFile file f s.heap key item).map fun r => ⟨{ s with heap := r.1 }, r.2.1, r.2.2.1, r.2.2.2⟩
  | .cache => (getFromCache file f fuel s.cache key item).map fun r => ⟨{ s with cache := r.1 }, r.2.1, r.2.2.1, r.2.2.2⟩

/-- `getPartialVariable` and `getPartialFixed`, collection.c:226-270. What the next collection returns is not looked at:
the pointer in the item is returned. -/
def getPartial (file : CStr) (fuel : Nat) (m : Mem) (next : Option (Back × FileColl)) (s : State) (key : UInt32)
    (item : Item) : UB Got :=
  if key.toNat < (if m.elementSize = 0 then m.size else m.count) then
    let p := some (.memory (m.bytes.drop (if m.elementSize = 0 then key.toNat else key.toNat * m.elementSize)))
    some ⟨s, ⟨p, m.elementSize, 0, none, some .memory⟩, p, none⟩
  else
    match next with
    | some (b, f) => (getBack file fuel b f s key item).map fun r => { r with ptr := r.item.ptr }
    | none => (getExceptionSet s.heap item).map fun r =>
        ⟨{ s with heap := r.1 }, r.2, none, some (if m.elementSize = 0 then .offsetOutOfRange else .indexOutOfRange)⟩

/-- `collection->get`. -/
def Coll.get (file : CStr) (fuel : Nat) (s : State) (key : UInt32) (item : Item) : Coll → UB Got
  | .memory m => getMemory m s key item
  | .back b f => getBack file fuel b f s key item
  | .part m next => getPartial file fuel m next s key item

/-- `collection->release` of a file or cache collection. -/
def releaseBack (fuel : Nat) (s : State) (item : Item) : Back → UB (State × Item)
  | .file => (releaseFile s.heap item).map fun r => ({ s with heap := r.1 }, r.2)
  | .cache => (releaseCache fuel s.cache item).map fun r => ({ s with cache := r.1 }, r.2)

/-- `releasePartial`, collection.c:133-138: nothing is done for an item from the collection's own memory, which has no
handle. -/
def releasePartial (fuel : Nat) (s : State) (item : Item) : UB (State × Item) :=
  if item.handle = none then some (s, item)
  else
    match item.owner with
    | some .file => releaseBack fuel s item .file
    | some .cache => releaseBack fuel s item .cache
    | _ => some (s, item)

/-- `collection->release`. -/
def Coll.release (fuel : Nat) (s : State) (item : Item) : Coll → UB (State × Item)
  | .memory _ => some (s, item)
  | .back b _ => releaseBack fuel s item b
  | .part _ _ => releasePartial fuel s item

/-- `COLLECTION_RELEASE(item->collection, item)`, collection.h, with the collection the getter has set in the item; there is
none after a failed get. Items of the memory of a collection have no handle, so that `releaseNothing` and `releasePartial` do
the same. -/
def Item.release (fuel : Nat) (s : State) (item : Item) : UB (State × Item) :=
  match item.owner with
  | none => none
  | some .memory => some (s, item)
  | some .file => releaseBack fuel s item .file
  | some .cache => releaseBack fuel s item .cache

/-! ### Creation -/

/-- `fiftyoneDegreesCollectionConfig`, collection.h:287-294. -/
structure Config where
  loaded : Nat
  capacity : Nat
  concurrency : Nat

/-- `createFromFile`, collection.c:529-558, with `createCollection` and `readFile`: the count is already set if the elements
have a fixed size. The file is at the start of the collection. -/
def fileColl (h : Header) (read : Reader) : FileColl := ⟨h.start, h.length, h.count, h.elementSize, read⟩

/-- `fiftyoneDegreesCollectionCreateFromMemory`, collection.c:757-810, with the reader at the start of the collection and
enough bytes left. -/
def createFromMemory (file : CStr) (h : Header) : Coll :=
  .memory ⟨file.drop h.start, h.length,
    if h.elementSize ≠ 0 then h.length / h.elementSize else h.count, h.elementSize⟩

/-- The loop of `iterateCollection` with `callbackLoadedSize`, collection.c:396-450, for a file collection: number and size
of the items so far. The inner option is `none` when an exception is set. `fuel` bounds the rounds. -/
def iterate (file : CStr) (f : FileColl) (max : Nat) : Nat → Nat → Nat → Nat → UB (Option (Nat × Nat))
  | 0, _, _, _ => none
  | fuel + 1, offset, count, size =>
    if offset < f.size then
      match loader file f (UInt32.ofNat offset) with
      | none => none
      | some (_, some _) => some none
      | some (v, none) =>
        let count := count + 1
        let size := (size + v.length) % 2 ^ 32
        if count < max then iterate file f max fuel ((offset + v.length) % 2 ^ 32) count size
        else some (some (count, size))
    else some (some (count, size))

/-- `calculateLoadedSize`, collection.c:455-483. -/
def loadedSize (file : CStr) (f : FileColl) (loaded : Nat) : UB (Option (Nat × Nat)) :=
  if f.elementSize ≠ 0 then
    let count := if loaded > f.count then f.count else loaded
    some (some (count, count * f.elementSize % 2 ^ 32))
  else if f.size < loaded then some (some (0, f.size))
  else iterate file f loaded (f.size + 1) 0 0 0

/-- `createFromFileSecond`, collection.c:695-726. The creation of the cache is not modelled here. -/
def second (cfg : Config) : Back := if cfg.capacity > 0 ∧ cfg.concurrency > 0 then .cache else .file

/-- `fiftyoneDegreesCollectionCreateFromFile`, collection.c:843-940, with `createFromFilePartial`, 560-642; `none` inside is
NULL. `end` is the position of the file after the seek in lines 611-615. -/
def createFromFile (file : CStr) (cfg : Config) (h : Header) (read : Reader) : UB (Option Coll) :=
  if cfg.loaded > 0 then
    match loadedSize file (fileColl h read) cfg.loaded with
    | none => none
    | some none => some none
    | some (some (count, size)) =>
      match slice file h.start size with
      | none => some none
      | some bytes =>
        let m : Mem := ⟨bytes, size, count, h.elementSize⟩
        let «end» := h.start + size + sub32 h.length size
        if count = cfg.loaded ∧ size < «end» - h.start then some (some (.part m (some (second cfg, fileColl h read))))
        else some (some (.part m none))
  else some (some (.back (second cfg) (fileColl h read)))

/-- `fiftyoneDegreesCollectionGetCount`, collection.c:1230-1236. -/
def Coll.getCount : Coll → Nat
  | .memory m => m.count
  | .back _ f => f.count
  | .part _ (some (_, f)) => f.count
  | .part m none => m.count

end Verif.Collection
