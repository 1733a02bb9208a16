import Verif.Tree.Model

/-! # Model of the loading cache (cache.c)

A shard is modelled with its real red black tree (the pointer level model of tree.c), its doubly linked list of
free nodes, the allocation count and the nodes' active counts. A cache node is its index in the shard's array;
the index is also the name of the tree node which is its first member (cache.h:133). Pointers to nodes are
`Option Nat` with `none` for NULL. Undefined behaviour, failed asserts and tree loops not finished within `fuel`
rounds are `none`.

The functions run with the shard's lock held (cache.c:390-411, 423-433), so the shard changes by whole calls.

The loader is called with the key and the node's data structure. What it does is a parameter of the call: the
data it leaves in the node and whether the exception is still `SUCCESS` afterwards. Data are values of a type
`V`; who owns the memory behind them is the subject of C38. -/

namespace Verif.Cache

open Verif.Tree (Heap Ptr)

/-- `fiftyoneDegreesCacheShard`, cache.h:144-159, with the fields of its nodes, cache.h:132-139 (the lock and the
constant `cache`, `nodes` and `shard` pointers left out). -/
structure Shard (V : Type) where
  tree : Heap
  capacity : Nat
  allocated : Nat
  first : Option Nat
  last : Option Nat
  next : Nat → Option Nat
  prev : Nat → Option Nat
  active : Nat → Nat
  data : Nat → V

/-- A write to one node's field. -/
def set {α : Type} (f : Nat → α) (n : Nat) (v : α) : Nat → α := fun x => if x = n then v else f x

variable {V : Type}

/-- `node->listNext->listPrevious = p` or `last = p`, cache.c:152-157. -/
def fixNext (s : Shard V) (next p : Option Nat) : Shard V :=
  match next with
  | some m => { s with prev := set s.prev m p }
  | none => { s with last := p }

/-- `node->listPrevious->listNext = q` or `first = q`, cache.c:158-163. -/
def fixPrev (s : Shard V) (prev q : Option Nat) : Shard V :=
  match prev with
  | some m => { s with next := set s.next m q }
  | none => { s with first := q }

/-- `cacheRemoveFromList`, cache.c:151-166. -/
def removeFromList (s : Shard V) (n : Nat) : Shard V :=
  let s := fixNext s (s.next n) (s.prev n)
  let s := fixPrev s (s.prev n) (s.next n)
  let s := { s with next := set s.next n none }
  { s with prev := set s.prev n none }

/-- `cacheIncremenetCheckAndRemove`, cache.c:176-181 (the `int` count cannot overflow before 2^31 outstanding
gets of one node). -/
def incrementCheckAndRemove (s : Shard V) (n : Nat) : Shard V :=
  let s := { s with active := set s.active n (s.active n + 1) }
  if s.active n = 1 then removeFromList s n else s

/-- `cacheAddToHead`, cache.c:188-207, with the two asserts on the node. -/
def addToHead (s : Shard V) (n : Nat) : Option (Shard V) :=
  if s.next n = none ∧ s.prev n = none then
    let s := { s with next := set s.next n s.first }
    let s := match s.first with
      | some m => { s with prev := set s.prev m (some n) }
      | none => s
    let s := { s with first := some n }
    let s := match s.last with
      | some _ => s
      | none => { s with last := s.first }
    some s
  else none

/-- `cacheGetNextFree`, cache.c:217-258. The inner option is the returned pointer. -/
def getNextFree (fuel : Nat) (s : Shard V) : Option (Shard V × Option Nat) :=
  if s.allocated < s.capacity then do
    let n := s.allocated
    let s := { s with allocated := s.allocated + 1 }
    let tree ← Tree.nodeRemove s.tree (.node n)
    pure ({ s with tree := tree }, some n)
  else
    match s.last with
    | none => pure (s, none)
    | some n =>
      if s.active n = 0 then do
        let s := removeFromList s n
        let tree ← Tree.delete fuel s.tree (.node n)
        let tree ← Tree.nodeRemove tree (.node n)
        pure ({ s with tree := tree }, some n)
      else none

/-- `cacheLoad`, cache.c:268-291: `v` and `ok` are what the loader leaves in the node and whether the exception
is okay afterwards. -/
def load (fuel : Nat) (s : Shard V) (hash : Int) (v : V) (ok : Bool) : Option (Shard V × Option Nat) := do
  let (s, node) ← getNextFree fuel s
  match node with
  | none => pure (s, none)
  | some n =>
    let s := { s with active := set s.active n 1 }
    let s := { s with data := set s.data n v }
    if ok then
      let tree ← s.tree.setKey (.node n) hash
      let tree ← Tree.insert fuel tree (.node n)
      pure ({ s with tree := tree }, some n)
    else pure (s, some n)

/-- What a call did: the node found or loaded. -/
inductive Event (K V : Type) where
  /-- The key was in the tree, the node is returned. -/
  | hit (k : K) (n : Nat)
  /-- The loader was called for the key and the node, left the data, and the node is returned. -/
  | loaded (k : K) (v : V) (ok : Bool) (n : Nat)
  /-- There was no node to load into, NULL is returned. -/
  | full (k : K)
  /-- The node was given back. -/
  | released (n : Nat)
deriving DecidableEq, Repr

/-- The part of `fiftyoneDegreesCacheGet` under the shard's lock, cache.c:394-407 (the hit and miss counts are
at the cache, see `Cache`). -/
def shardGet {K : Type} (hash : K → Int) (fuel : Nat) (s : Shard V) (k : K) (v : V) (ok : Bool) :
    Option (Shard V × Event K V) := do
  match ← Tree.find fuel s.tree (hash k) with
  | .node n => pure (incrementCheckAndRemove s n, .hit k n)
  | .null =>
    match ← load fuel s (hash k) v ok with
    | (s, some n) => pure (s, .loaded k v ok n)
    | (s, none) => pure (s, .full k)
  | _ => none

/-- The part of `fiftyoneDegreesCacheRelease` under the shard's lock, cache.c:426-430. A pointer to anything but
one of the shard's nodes is undefined behaviour. -/
def shardRelease (s : Shard V) (n : Nat) : Option (Shard V) :=
  if n < s.capacity ∧ s.active n ≠ 0 then
    let s := { s with active := set s.active n (s.active n - 1) }
    if s.active n = 0 then addToHead s n else some s
  else none

/-- The loop of `cacheInitShard` over the nodes, cache.c:105-113. -/
def initNodes (d0 : V) : Nat → Shard V → Option (Shard V)
  | 0, s => some s
  | n + 1, s => do
    let s ← initNodes d0 n s
    let tree ← Tree.nodeInit s.tree (.node n)
    pure { s with
      tree := tree, data := set s.data n d0, next := set s.next n none, prev := set s.prev n none,
      active := set s.active n 0 }

/-- `cacheInitShard`, cache.c:89-114, of a shard in newly allocated memory with arbitrary contents `s`, after
`capacity` and `allocated` were set by `cacheInit`, cache.c:136-137. `d0` is the data after
`fiftyoneDegreesDataReset`. -/
def shardInit (d0 : V) (capacity : Nat) (s : Shard V) : Option (Shard V) :=
  let s := { s with capacity := capacity, allocated := 0 }
  let s := { s with tree := Tree.rootInit s.tree, first := none, last := none }
  initNodes d0 capacity s

/-- A call on a shard. -/
inductive Op (K V : Type) where
  /-- Get of a key; if the loader is called it leaves `v` and the exception okay or not. -/
  | get (k : K) (v : V) (ok : Bool)
  /-- Release of a node. -/
  | release (n : Nat)
deriving DecidableEq, Repr

/-- The code run by a call on a shard. -/
def step {K : Type} (hash : K → Int) (fuel : Nat) (s : Shard V) : Op K V → Option (Shard V × Event K V)
  | .get k v ok => shardGet hash fuel s k v ok
  | .release n => (shardRelease s n).map fun s => (s, .released n)

/-- The code run by a history of calls, and what the calls did. -/
def run {K : Type} (hash : K → Int) (fuel : Nat) : Shard V → List (Op K V) → Option (Shard V × List (Event K V))
  | s, [] => some (s, [])
  | s, op :: ops => do
    let (s, e) ← step hash fuel s op
    let (s, es) ← run hash fuel s ops
    pure (s, e :: es)

/-! ## The whole cache -/

/-- `(int)x` of an `int64_t`: the low 32 bits as a two's complement number. -/
def toInt (x : Int) : Int := (x + 2 ^ 31) % 2 ^ 32 - 2 ^ 31

/-- `abs(x)` of an `int`: undefined for `INT_MIN`. -/
def cAbs (x : Int) : Option Int := if x = -2 ^ 31 then none else some x.natAbs

/-- `abs((int)keyHash) % cache->concurrency`, cache.c:388: the `uint16_t` is promoted to `int`, the remainder
takes the sign of the dividend. -/
def shardIndex (concurrency : Nat) (keyHash : Int) : Option Int := do
  pure ((← cAbs (toInt keyHash)).tmod concurrency)

/-- The index the usual implementation of `abs`, which negates `INT_MIN` to itself, leads to. -/
def shardIndexWrapping (concurrency : Nat) (keyHash : Int) : Int :=
  Int.tmod (if toInt keyHash = -2 ^ 31 then -2 ^ 31 else ((toInt keyHash).natAbs : Int)) concurrency

/-- `fiftyoneDegreesCacheHash32`, cache.c:436-438, of the `int32_t` the key points to. -/
def hash32 (k : Int32) : Int := k.toInt64.toInt

/-- `fiftyoneDegreesCacheHash64`, cache.c:440-442, of the `int64_t` the key points to. -/
def hash64 (k : Int64) : Int := k.toInt

/-- `fiftyoneDegreesCache`, cache.h:187-198. -/
structure Cache (V : Type) where
  concurrency : Nat
  shards : Nat → Shard V
  hits : Nat
  misses : Nat

/-- A call on the cache; a released node is given by its shard and its index in the shard. -/
inductive COp (K V : Type) where
  | get (k : K) (v : V) (ok : Bool)
  | release (shard n : Nat)
deriving DecidableEq, Repr

/-- `unsigned long` arithmetic with 64 bits. -/
def inc64 (n : Nat) : Nat := (n + 1) % 2 ^ 64

/-- `fiftyoneDegreesCacheGet` and `fiftyoneDegreesCacheRelease`, cache.c:382-434, giving the shard and what was
done in it. An index outside the `concurrency` shards is undefined behaviour. -/
def cacheStep {K : Type} (hash : K → Int) (fuel : Nat) (c : Cache V) : COp K V →
    Option (Cache V × Nat × Event K V)
  | .get k v ok => do
    let i ← shardIndex c.concurrency (hash k)
    if 0 ≤ i ∧ i.toNat < c.concurrency then
      let (s, e) ← shardGet hash fuel (c.shards i.toNat) k v ok
      let c := { c with shards := set c.shards i.toNat s }
      let c := match e with
        | .hit .. => { c with hits := inc64 c.hits }
        | _ => { c with misses := inc64 c.misses }
      pure (c, i.toNat, e)
    else none
  | .release i n => do
    if i < c.concurrency then
      let s ← shardRelease (c.shards i) n
      pure ({ c with shards := set c.shards i s }, i, .released n)
    else none

/-- A history of calls on the cache. -/
def cacheRun {K : Type} (hash : K → Int) (fuel : Nat) :
    Cache V → List (COp K V) → Option (Cache V × List (Nat × Event K V))
  | c, [] => some (c, [])
  | c, op :: ops => do
    let (c, e) ← cacheStep hash fuel c op
    let (c, es) ← cacheRun hash fuel c ops
    pure (c, e :: es)

/-! ## The collection's use of the cache -/

/-- `getFromCache`, collection.c:308-342, giving the handle put in the item: the node, but only when the
exception is okay. On a hit the exception is the caller's, which is okay. -/
def getFromCache {K : Type} (hash : K → Int) (fuel : Nat) (s : Shard V) (k : K) (v : V) (ok : Bool) :
    Option (Shard V × Option Nat) := do
  let (s, e) ← shardGet hash fuel s k v ok
  match e with
  | .hit _ n => pure (s, some n)
  | .loaded _ _ true n => pure (s, some n)
  | _ => pure (s, none)

/-- `releaseCache`, collection.c:106-111, of an item with the given handle. -/
def releaseCache (s : Shard V) : Option Nat → Option (Shard V)
  | some n => shardRelease s n
  | none => some s

/-- A caller that gets one item after the other from a cached collection and releases each before the next. Gives
the handles. -/
def useInTurn {K : Type} (hash : K → Int) (fuel : Nat) : Shard V → List (K × V × Bool) →
    Option (Shard V × List (Option Nat))
  | s, [] => some (s, [])
  | s, (k, v, ok) :: rest => do
    let (s, handle) ← getFromCache hash fuel s k v ok
    let s ← releaseCache s handle
    let (s, handles) ← useInTurn hash fuel s rest
    pure (s, handle :: handles)

/-! ## The hit and miss counts with threads

`cache->hits++` and `cache->misses++` (cache.c:401, 407) are done with the lock of the key's shard held, but the
counts belong to the whole cache. Each is a read followed by a write. -/

/-- Where a thread that performs `hits++` is: before it, after the read of the value, after the write. -/
inductive Pc where
  | start
  | read (value : Nat)
  | done
deriving DecidableEq, Repr

/-- One step of one thread on the shared count. -/
def countStep : Nat × Pc → Nat × Pc
  | (count, .start) => (count, .read count)
  | (_, .read value) => (inc64 value, .done)
  | (count, .done) => (count, .done)

/-- A schedule of two threads which hold the locks of different shards. -/
def countRun : List Bool → Nat × Pc × Pc → Nat × Pc × Pc
  | [], s => s
  | false :: rest, (count, a, b) => let (count, a) := countStep (count, a); countRun rest (count, a, b)
  | true :: rest, (count, a, b) => let (count, b) := countStep (count, b); countRun rest (count, a, b)

/-! ## Creation -/

/-- `cacheShardCapacity`, cache.c:121-123, on `uint32_t`. -/
def cacheShardCapacity (capacity : UInt32) (concurrency : UInt16) : UInt32 :=
  capacity % concurrency.toUInt32 + capacity / concurrency.toUInt32

/-- The check of `fiftyoneDegreesCacheCreate`, cache.c:327: false when NULL is returned. -/
def createAccepts (capacity : UInt32) (concurrency : UInt16) : Bool :=
  ¬ (concurrency = 0 ∨ capacity / concurrency.toUInt32 < concurrency.toUInt32)

/-- The number of nodes memory is allocated for, cache.c:335-336. `sizeof(CacheNode) * cacheShardCapacity(...) *
concurrency` is computed as `size_t`, so the product does not wrap at 2^32. -/
def allocatedNodes (capacity : UInt32) (concurrency : UInt16) : Nat :=
  (cacheShardCapacity capacity concurrency).toNat * concurrency.toNat

/-- `cache->capacity`, cache.c:355-356: the `uint32_t` product (wrapping) stored in an `int32_t`. -/
def storedCapacity (capacity : UInt32) (concurrency : UInt16) : Int :=
  toInt (cacheShardCapacity capacity concurrency * concurrency.toUInt32).toNat

/-- `shard->capacity`, cache.c:136: `int32_t` divided by `uint16_t` promoted to `int`, stored in a `uint32_t`. -/
def shardCapacity (capacity : UInt32) (concurrency : UInt16) : Nat :=
  (((storedCapacity capacity concurrency).tdiv concurrency.toNat) % 2 ^ 32).toNat

/-- The index in the cache's node array of the first node of shard `i`, cache.c:138 (`uint32_t` product). -/
def shardFirstNode (capacity : UInt32) (concurrency : UInt16) (i : Nat) : Nat :=
  shardCapacity capacity concurrency * i % 2 ^ 32

end Verif.Cache
