import Verif.Collection.Props
import Verif.Cache.Threads

/-! # C108: the memory of a cached collection

`Verif.Collection.Model` keeps in each node of the cache the bytes its loader left there. Here the node has the pointer and the
two sizes of the code, the bytes are in a block of the heap, and every `Malloc` may be refused. -/

namespace Verif.Collection.Nodes

open Verif.Cache (Cache Shard COp Event cacheStep cacheRun eventsOf lastLoad held NewCache Enough)

/-! ## Model -/

/-- `fiftyoneDegreesData` of a node of the cache, data.h:101-107: the block the pointer points to. -/
structure Node where
  ptr : Option Nat
  allocated : Nat
  used : Nat
deriving DecidableEq, Repr

/-- `fiftyoneDegreesDataReset`, data.c:27-31. -/
def Node.reset : Node := ⟨none, 0, 0⟩

/-- The first part of `fiftyoneDegreesDataMalloc`, data.c:36-41: memory that is too small is freed. -/
def nodeShrink (h : Heap) (d : Node) (n : Nat) : UB (Heap × Node) :=
  if d.allocated > 0 ∧ n > d.allocated then
    (h.free (d.ptr.map .block)).map fun h => (h, { d with ptr := none, allocated := 0 })
  else some (h, d)

/-- `fiftyoneDegreesDataMalloc`, data.c:33-49, on the data of a node; `ok` says whether `Malloc` gives memory. The pointer
returned is that of the data. -/
def nodeMalloc (h : Heap) (d : Node) (n : Nat) (ok : Bool) : UB (Heap × Node) :=
  match nodeShrink h d n with
  | none => none
  | some (h, d) =>
    if d.allocated = 0 then
      if ok then some ((h.malloc n).1, { d with ptr := some (h.malloc n).2, allocated := n })
      else some (h, { d with ptr := none })
    else some (h, d)

/-- Why a get failed: an exception of the model without refused memory, or `INSUFFICIENT_MEMORY`. -/
inductive Fail where
  | read (e : Err)
  | memory
deriving DecidableEq, Repr

/-- The exception of `getFile` for a new item when `Malloc` gives no memory: what comes before the allocation, and then
`INSUFFICIENT_MEMORY`, collection.c:979-1033, 1037-1105. -/
def noMemory (file : CStr) (f : FileColl) (key : UInt32) : Fail :=
  match f.read with
  | .fixed =>
    if key.toNat < f.count then
      if key.toNat * f.elementSize % 2 ^ 32 < f.size then .memory else .read .offsetOutOfRange
    else .read .indexOutOfRange
  | .variable n _ =>
    if key.toNat < f.size then
      match slice file (f.offset + key.toNat) n with
      | none => .read .fileReadFail
      | some _ => .memory
    else .read .offsetOutOfRange

/-- The `memcpy` of the loader, collection.c:375-382, from the item's memory to the node's. -/
def copyTo (h : Heap) (d : Node) (item : Item) : UB (Heap × Node) :=
  match d.ptr, item.ptr with
  | none, _ => some (h, d)
  | some i, some (.block j) =>
    match (h.block j).bind fun src => slice src 0 item.used with
    | none => none
    | some bytes => (h.write i 0 bytes).map fun h => (h, { d with used := item.used })
  | some _, _ => none

/-- The item read is copied to the node, collection.c:371-384. -/
def fill (h : Heap) (d : Node) (item : Item) (ok : Bool) : UB (Heap × Node) :=
  if item.used > 0 then
    match nodeMalloc h d item.allocated ok with
    | none => none
    | some (h, d) => copyTo h d item
  else some (h, d)

/-- `loaderCache`, collection.c:353-392, of the node's data `d`; `m` says whether memory is given for the item read and for the
node. -/
def load (file : CStr) (f : FileColl) (h : Heap) (d : Node) (key : UInt32) (m : Bool × Bool) :
    UB (Heap × Node × Option Fail) :=
  let d := { d with used := 0 }
  if m.1 then
    match getFile file f h key Item.new with
    | none => none
    | some (h, item, some _, none) =>
      match fill h d item m.2 with
      | none => none
      | some (h, d) => (releaseFile h item).map fun r => (r.1, d, none)
    | some (h, _, _, e) => some (h, d, e.map .read)
  else some (h, d, some (noMemory file f key))

/-- The heap and the cache. -/
structure Store where
  heap : Heap
  cache : Cache Node

/-- What `getFromCache` leaves in the item and the exception: the handle, the data with the pointer returned, the exception. -/
structure Answer where
  handle : Option (Nat × Nat)
  data : Option (Nat × Nat)
  err : Option Fail
deriving DecidableEq, Repr

/-- `getFromCache` after the call of the cache gave node `n` of shard `i`, collection.c:322-339. -/
def answer (c : Cache Node) (i n : Nat) : Option Fail → Answer
  | none =>
    let d := (c.shards i).data n
    ⟨some (i, n), if d.used > 0 then d.ptr.map fun b => (b, d.used) else none, none⟩
  | some e => ⟨none, none, some e⟩

/-- `getFromCache`, collection.c:308-342. Whether there is a load and into which node does not depend on what is loaded: the
first call of `cacheStep` finds it out, and the second makes the change. -/
def get (file : CStr) (f : FileColl) (fuel : Nat) (s : Store) (key : UInt32) (m : Bool × Bool) : UB (Store × Answer) :=
  match cacheStep keyHash fuel s.cache (.get key Node.reset true) with
  | none => none
  | some (_, i, .loaded _ _ _ n) =>
    match load file f s.heap ((s.cache.shards i).data n) key m with
    | none => none
    | some (h, d, e) =>
      (cacheStep keyHash fuel s.cache (.get key d e.isNone)).map fun r => (⟨h, r.1⟩, answer r.1 i n e)
  | some (c, i, .hit _ n) => some (⟨s.heap, c⟩, answer c i n none)
  | some (c, _, _) => some (⟨s.heap, c⟩, ⟨none, none, none⟩)

/-- A call on the collection: a get with what `Malloc` does in it, or the release of a node. -/
inductive Call where
  | get (key : UInt32) (m : Bool × Bool)
  | release (i n : Nat)
deriving DecidableEq, Repr

/-- One call; `releaseCache`, collection.c:106-111, for the handle of an item. -/
def step (file : CStr) (f : FileColl) (fuel : Nat) (s : Store) : Call → UB (Store × Option Answer)
  | .get key m => (get file f fuel s key m).map fun r => (r.1, some r.2)
  | .release i n => (cacheStep (K := UInt32) keyHash fuel s.cache (.release i n)).map fun r => (⟨s.heap, r.1⟩, none)

/-- A history of calls, with the answers to the gets. -/
def run (file : CStr) (f : FileColl) (fuel : Nat) : Store → List Call → UB (Store × List Answer)
  | s, [] => some (s, [])
  | s, c :: cs =>
    match step file f fuel s c with
    | none => none
    | some (s, a) => (run file f fuel s cs).map fun r => (r.1, a.toList ++ r.2)

/-- The loop of `cacheShardFree`, cache.c:297-306, over the first `n` nodes. -/
def freeNodes (data : Nat → Node) (h : Heap) : Nat → UB Heap
  | 0 => some h
  | n + 1 =>
    match freeNodes data h n with
    | none => none
    | some h => if (data n).ptr ≠ none ∧ (data n).allocated > 0 then h.free ((data n).ptr.map .block) else some h

/-- The loop of `fiftyoneDegreesCacheFree`, cache.c:369-380, over the first `n` shards. -/
def freeShards (c : Cache Node) (h : Heap) : Nat → UB Heap
  | 0 => some h
  | n + 1 =>
    match freeShards c h n with
    | none => none
    | some h => freeNodes (c.shards n).data h (c.shards n).capacity

/-- `freeCacheCollection`, collection.c:165-178, as far as the memory of the items is concerned. -/
def free (s : Store) : UB Heap := freeShards s.cache s.heap s.cache.concurrency

/-- The heap has given no block with a number from `next`. -/
def Fresh (h : Heap) : Prop := ∀ j, h.next ≤ j → h.block j = none

/-- After `fiftyoneDegreesCacheCreate`, cache.c:316-367, in a heap: the nodes of each shard have no data. -/
def New (capacity : Nat) (s : Store) : Prop :=
  Fresh s.heap ∧ 0 < s.cache.concurrency ∧ s.cache.hits = 0 ∧ s.cache.misses = 0 ∧
    ∀ i, i < s.cache.concurrency → ∃ mem : Shard Node, Cache.shardInit Node.reset capacity mem = some (s.cache.shards i)

/-- The bytes at the pointer that was returned. -/
def Answer.bytes (h : Heap) (a : Answer) : Option CStr :=
  a.data.bind fun p => (h.block p.1).bind fun b => slice b 0 p.2

/-! ## Reading an item -/

/-- What reading an item gives, without the memory. -/
def fetched (file : CStr) (f : FileColl) (key : UInt32) : UB (Except Err CStr) :=
  match f.read with
  | .fixed =>
    if key.toNat < f.count then
      if key.toNat * f.elementSize % 2 ^ 32 < f.size then
        match slice file (f.offset + key.toNat * f.elementSize % 2 ^ 32) f.elementSize with
        | some bytes => some (.ok bytes)
        | none => some (.error .fileReadFail)
      else some (.error .offsetOutOfRange)
    else some (.error .indexOutOfRange)
  | .variable n g =>
    if key.toNat < f.size then
      match slice file (f.offset + key.toNat) n with
      | none => some (.error .fileReadFail)
      | some initial =>
        if g initial < n then none
        else if g initial = n then some (.ok initial)
        else
          match slice file (f.offset + key.toNat + n) (g initial - n) with
          | some rest => some (.ok (initial ++ rest))
          | none => some (.error .fileReadFail)
    else some (.error .offsetOutOfRange)

theorem free_fresh {h : Heap} (hf : Fresh h) {h1 : Heap} {b : CStr} (hb : h1.block h.next = some b)
    (ho : ∀ j, j ≠ h.next → h1.block j = h.block j) (hn : h1.next = h.next + 1) :
    ∃ h2, h1.free (some (.block h.next)) = some h2 ∧ h2.block = h.block ∧ h2.next = h.next + 1 := by
  simp only [Heap.free, hb]
  refine ⟨_, rfl, ?_, hn⟩
  funext j
  by_cases hj : j = h.next
  · subst hj; simp [hf h.next (Nat.le_refl _)]
  · simp [hj, ho j hj]

theorem write_part (h : Heap) (bytes : CStr) {m : Nat} (hm : bytes.length ≤ m) :
    ∃ h', (h.malloc m).1.write h.next 0 bytes = some h' ∧
      h'.block h.next = some (bytes ++ (List.replicate m 0).drop bytes.length) ∧
      (∀ j, j ≠ h.next → h'.block j = h.block j) ∧ h'.next = h.next + 1 := by
  simp only [Heap.malloc, Heap.write, if_true, List.length_replicate, Nat.zero_add, hm]
  refine ⟨_, rfl, ?_, ?_, rfl⟩
  · simp
  · intro j hj; simp [hj]

/-- What `getFile` does with a new item. -/
theorem getFile_fetched {file : CStr} {f : FileColl} {key : UInt32} {h : Heap} (hf : Fresh h) :
    (fetched file f key = none → getFile file f h key Item.new = none) ∧
    (∀ bytes, fetched file f key = some (.ok bytes) → ∃ h',
      getFile file f h key Item.new = some (h', ⟨some (.block h.next), bytes.length, bytes.length, some (.block h.next),
        some .file⟩, some (.block h.next), none) ∧
      h'.block h.next = some bytes ∧ (∀ j, j ≠ h.next → h'.block j = h.block j) ∧ h'.next = h.next + 1) ∧
    ∀ e, fetched file f key = some (.error e) → ∃ h' item,
      getFile file f h key Item.new = some (h', item, none, some e) ∧ h'.block = h.block ∧ h.next ≤ h'.next := by
  rw [getFile, readItem, fetched]
  cases hr : f.read with
  | fixed =>
    simp only
    rw [readFixed]
    by_cases h1 : key.toNat < f.count
    · by_cases h2 : key.toNat * f.elementSize % 2 ^ 32 < f.size
      · simp only [h1, h2, if_true]
        rw [dataMalloc_clean rfl]
        cases h3 : slice file (f.offset + key.toNat * f.elementSize % 2 ^ 32) f.elementSize with
        | none =>
          simp only
          refine ⟨by simp, by simp, ?_⟩
          intro e he
          cases he
          obtain ⟨h2, e1, e2, e3⟩ := free_fresh hf (h1 := (h.malloc f.elementSize).1)
            (b := List.replicate f.elementSize 0) (by simp [Heap.malloc]) (fun j hj => by simp [Heap.malloc, hj]) rfl
          rw [e1]
          exact ⟨h2, _, rfl, e2, by omega⟩
        | some bytes =>
          simp only
          have hl := slice_length h3
          obtain ⟨h', w1, w2, w3, w4⟩ := write_fresh h bytes
          rw [hl] at w1
          rw [w1]
          refine ⟨by simp, ?_, by simp⟩
          intro b hb
          cases hb
          exact ⟨h', by simp [hl], w2, w3, w4⟩
      · simp only [h1, h2, if_true, if_false]
        refine ⟨by simp, by simp, ?_⟩
        intro e he
        cases he
        exact ⟨h, _, rfl, rfl, Nat.le_refl _⟩
    · simp only [h1, if_false]
      refine ⟨by simp, by simp, ?_⟩
      intro e he
      cases he
      exact ⟨h, _, rfl, rfl, Nat.le_refl _⟩
  | «variable» n g =>
    simp only
    rw [readVariable]
    by_cases h1 : key.toNat < f.size
    · simp only [h1, if_true]
      rw [readVariableAt]
      cases h2 : slice file (f.offset + key.toNat) n with
      | none =>
        simp only
        refine ⟨by simp, by simp, ?_⟩
        intro e he
        cases he
        exact ⟨h, _, rfl, rfl, Nat.le_refl _⟩
      | some initial =>
        have hl := slice_length h2
        simp only
        rw [dataMalloc_clean rfl]
        simp only
        by_cases h3 : g initial < n
        · have hw : (h.malloc (g initial)).1.write h.next 0 initial = none := by
            simp only [Heap.malloc, Heap.write, if_true, List.length_replicate]
            rw [if_neg (by omega)]
          rw [hw]
          simp only [if_pos h3]
          exact ⟨fun _ => trivial, by simp, by simp⟩
        · rw [if_neg h3]
          have hleft : sub32 (g initial) n = g initial - n := by rw [sub32, if_pos (by omega)]
          rw [hleft]
          by_cases h4 : g initial = n
          · rw [if_pos h4]
            obtain ⟨h', w1, w2, w3, w4⟩ := write_fresh h initial
            rw [h4, ← hl, w1]
            simp only
            rw [if_neg (by omega)]
            refine ⟨by simp, ?_, by simp⟩
            intro b hb
            cases hb
            exact ⟨h', rfl, w2, w3, w4⟩
          · rw [if_neg h4]
            cases h5 : slice file (f.offset + key.toNat + n) (g initial - n) with
            | none =>
              obtain ⟨a1, w1, w2, w3, w4⟩ := write_part h initial (m := g initial) (by omega)
              rw [w1]
              simp only
              rw [if_pos (by omega)]
              refine ⟨by simp, by simp, ?_⟩
              intro e he
              cases he
              obtain ⟨h2, e1, e2, e3⟩ := free_fresh hf w2 w3 w4
              rw [e1]
              exact ⟨h2, _, rfl, e2, by omega⟩
            | some rest =>
              have hl2 := slice_length h5
              obtain ⟨a1, w1, -, a2, w3, w4, w5, w6⟩ := write_two h (initial ++ rest) n (by simp; omega)
              have hlen : (initial ++ rest).length = g initial := by simp; omega
              rw [hlen] at w1
              rw [List.take_append_of_le_length (by omega), List.take_of_length_le (by omega)] at w1
              rw [List.drop_append_of_le_length (by omega), List.drop_of_length_le (by omega), List.nil_append] at w3
              rw [w1]
              simp only
              rw [if_pos (by omega), w3]
              refine ⟨by simp, ?_, by simp⟩
              intro b hb
              cases hb
              exact ⟨a2, by simp [hlen], w4, w5, w6⟩
    · simp only [h1, if_false]
      refine ⟨by simp, by simp, ?_⟩
      intro e he
      cases he
      exact ⟨h, _, rfl, rfl, Nat.le_refl _⟩

theorem loader_fetched (file : CStr) (f : FileColl) (key : UInt32) :
    loader file f key = (fetched file f key).map fun
      | .ok bytes => (bytes, none)
      | .error e => ([], some e) := by
  obtain ⟨h1, h2, h3⟩ := getFile_fetched (file := file) (f := f) (key := key) (h := ⟨0, fun _ => none⟩) (fun j _ => rfl)
  rw [loader]
  cases hr : fetched file f key with
  | none => rw [h1 hr]; rfl
  | some r =>
    cases r with
    | ok bytes =>
      obtain ⟨h', e1, e2, -⟩ := h2 bytes hr
      rw [e1]
      simp only [Option.map_some]
      cases bytes with
      | nil => rfl
      | cons b bs =>
        rw [if_pos (by simp), e2]
        simp
    | error e =>
      obtain ⟨h', item, e1, -⟩ := h3 e hr
      rw [e1]
      rfl

/-! ## The loader -/

/-- The node has no memory, or a block of the size it says. -/
def OwnsN (h : Heap) (d : Node) : Prop :=
  (d.ptr = none ∧ d.allocated = 0) ∨
    ∃ i b, d.ptr = some i ∧ h.block i = some b ∧ b.length = d.allocated ∧ 0 < d.allocated

/-- What changes in the heap when the memory of a node changes. -/
structure Moved (h : Heap) (d : Node) (h' : Heap) (d' : Node) : Prop where
  fresh : Fresh h'
  next : h.next ≤ h'.next
  owns : OwnsN h' d'
  others : ∀ j, d.ptr ≠ some j → d'.ptr ≠ some j → h'.block j = h.block j
  gone : ∀ j, d.ptr = some j → d'.ptr ≠ some j → h'.block j = none
  new : ∀ j, d'.ptr = some j → d.ptr = some j ∨ h.next ≤ j

theorem free_block {h : Heap} {i : Nat} {b : CStr} (hb : h.block i = some b) :
    ∃ h', h.free (some (.block i)) = some h' ∧ h'.block i = none ∧ (∀ j, j ≠ i → h'.block j = h.block j) ∧
      h'.next = h.next := by
  simp only [Heap.free, hb]
  exact ⟨_, rfl, by simp, fun j hj => by simp [hj], rfl⟩

theorem write_block {h : Heap} {i : Nat} {b bytes : CStr} (hb : h.block i = some b) (hl : bytes.length ≤ b.length) :
    ∃ h', h.write i 0 bytes = some h' ∧ h'.block i = some (bytes ++ b.drop bytes.length) ∧
      (∀ j, j ≠ i → h'.block j = h.block j) ∧ h'.next = h.next := by
  simp only [Heap.write, hb, Nat.zero_add, hl, if_true]
  exact ⟨_, rfl, by simp, fun j hj => by simp [hj], rfl⟩

theorem malloc_fresh {h : Heap} (hf : Fresh h) (n : Nat) : Fresh (h.malloc n).1 := by
  intro j hj
  have hj : h.next + 1 ≤ j := hj
  simp only [Heap.malloc]
  rw [if_neg (by omega)]
  exact hf j (by omega)

theorem nodeMalloc_spec {h : Heap} {d : Node} (hf : Fresh h) (ho : OwnsN h d) {n : Nat} (hn : 0 < n) (ok : Bool) :
    ∃ h' d', nodeMalloc h d n ok = some (h', d') ∧ Moved h d h' d' ∧ d'.used = d.used ∧
      ((d'.ptr = none ∧ ok = false) ∨ n ≤ d'.allocated) ∧
      (d'.allocated = d.allocated ∨ d'.allocated = 0 ∨ d'.allocated = n) := by
  have fresh : ∀ {i b}, h.block i = some b → i < h.next := by
    intro i b hb
    by_contra hc
    rw [hf i (by omega)] at hb
    cases hb
  rw [nodeMalloc, nodeShrink]
  rcases ho with ⟨h1, h2⟩ | ⟨i, b, h1, h2, h3, h4⟩
  · rw [if_neg (by omega)]
    simp only
    rw [if_pos h2]
    cases ok with
    | true =>
      rw [if_pos rfl]
      refine ⟨_, _, rfl, ⟨malloc_fresh hf n, by simp [Heap.malloc], .inr ⟨h.next, List.replicate n 0, rfl, by simp [Heap.malloc], by simp, hn⟩,
        ?_, ?_, ?_⟩, rfl, .inr (Nat.le_refl _), .inr (.inr rfl)⟩
      · intro j _ hj
        have hj : j ≠ h.next := fun hc => hj (by rw [hc]; rfl)
        simp [Heap.malloc, hj]
      · intro j hj; rw [h1] at hj; cases hj
      · intro j hj; right; simp only [Heap.malloc, Option.some.injEq] at hj; omega
    | false =>
      simp only [Bool.false_eq_true, if_false]
      refine ⟨_, _, rfl, ⟨hf, Nat.le_refl _, .inl ⟨rfl, h2⟩, fun _ _ _ => rfl, ?_, ?_⟩, rfl, .inl ⟨rfl, trivial⟩, .inl rfl⟩
      · intro j hj; rw [h1] at hj; cases hj
      · intro j hj; cases hj
  · by_cases h5 : n > d.allocated
    · rw [if_pos ⟨h4, h5⟩, h1]
      obtain ⟨k, e1, e2, e3, e4⟩ := free_block h2
      have hk : Fresh k := by
        intro j hj
        have := fresh h2
        rw [e3 j (by omega)]
        exact hf j (by omega)
      simp only [Option.map_some, e1, if_true]
      cases ok with
      | true =>
        simp only [if_true]
        refine ⟨_, _, rfl, ⟨malloc_fresh hk n, by simp only [Heap.malloc]; omega,
          .inr ⟨k.next, List.replicate n 0, rfl, by simp [Heap.malloc], by simp, hn⟩, ?_, ?_, ?_⟩, rfl, .inr (Nat.le_refl _),
          .inr (.inr rfl)⟩
        · intro j hj1 hj2
          have hj2 : j ≠ k.next := fun hc => hj2 (by rw [hc]; rfl)
          have hj1 : j ≠ i := by rintro rfl; exact hj1 h1
          simp [Heap.malloc, hj2, e3 j hj1]
        · intro j hj1 hj2
          have hj2 : j ≠ k.next := fun hc => hj2 (by rw [hc]; rfl)
          have hj1 : j = i := by rw [h1] at hj1; cases hj1; rfl
          simp [Heap.malloc, hj2]
          rw [hj1, e2]
        · intro j hj; right; simp only [Heap.malloc, Option.some.injEq] at hj; omega
      | false =>
        simp only [Bool.false_eq_true, if_false]
        refine ⟨_, _, rfl, ⟨hk, by omega, .inl ⟨rfl, rfl⟩, ?_, ?_, ?_⟩, rfl, .inl ⟨rfl, trivial⟩, .inr (.inl rfl)⟩
        · intro j hj1 _
          exact e3 j (by rintro rfl; exact hj1 h1)
        · intro j hj1 _
          have hj1 : j = i := by rw [h1] at hj1; cases hj1; rfl
          rw [hj1, e2]
        · intro j hj; cases hj
    · rw [if_neg (by omega)]
      simp only
      rw [if_neg (by omega)]
      exact ⟨_, _, rfl, ⟨hf, Nat.le_refl _, .inr ⟨i, b, h1, h2, h3, h4⟩, fun _ _ _ => rfl, fun j hj hj2 => absurd hj hj2,
        fun j hj => .inl hj⟩, rfl, .inr (by omega), .inl rfl⟩

/-- The memory of the node shows the item of the key, or nothing if the item is empty or memory was refused. -/
def Shows (file : CStr) (f : FileColl) (R : Prop) (h : Heap) (key : UInt32) (d : Node) : Prop :=
  ∃ bytes, fetched file f key = some (.ok bytes) ∧
    ((d.used = 0 ∧ (bytes = [] ∨ R)) ∨
      (0 < d.used ∧ ∃ i b, d.ptr = some i ∧ h.block i = some b ∧ slice b 0 d.used = some bytes))

theorem load_spec {file : CStr} {f : FileColl} {h : Heap} {d : Node} {key : UInt32} (hf : Fresh h) (ho : OwnsN h d)
    (m : Bool × Bool) (hk : m.1 = true → fetched file f key ≠ none) :
    ∃ h' d' e, load file f h d key m = some (h', d', e) ∧ Moved h d h' d' ∧
      (d'.allocated = d.allocated ∨ d'.allocated = 0 ∨
        ∃ bytes, fetched file f key = some (.ok bytes) ∧ d'.allocated = bytes.length) ∧
      (e = none → Shows file f (m.2 = false) h' key d') ∧
      (e = none ↔ m.1 = true ∧ ∃ bytes, fetched file f key = some (.ok bytes)) ∧
      (m.1 = false → e = some (noMemory file f key)) ∧
      ∀ x, m.1 = true → fetched file f key = some (.error x) → e = some (.read x) := by
  have ho0 : OwnsN h { d with used := 0 } := ho
  rw [load]
  by_cases hm : m.1 = true
  · simp only [hm, if_true]
    obtain ⟨-, g2, g3⟩ := getFile_fetched (file := file) (f := f) (key := key) hf
    cases hr : fetched file f key with
    | none => exact absurd hr (hk hm)
    | some r =>
      cases r with
      | error x =>
        obtain ⟨h', item, e1, e2, e3⟩ := g3 x hr
        rw [e1]
        refine ⟨h', _, _, rfl, ⟨?_, e3, ?_, fun j _ _ => by rw [e2], fun j hj hj2 => absurd hj hj2, fun j hj => .inl hj⟩,
          .inl rfl, by simp, by simp, by simp, by simp⟩
        · intro j hj; rw [e2]; exact hf j (by omega)
        · rw [OwnsN, e2]; exact ho0
      | ok bytes =>
        obtain ⟨h1, e1, e2, e3, e4⟩ := g2 bytes hr
        rw [e1]
        simp only [fill, copyTo, releaseFile]
        have hf1 : Fresh h1 := by intro j hj; rw [e3 j (by omega)]; exact hf j (by omega)
        have lt : ∀ {i b}, h.block i = some b → i < h.next := by
          intro i b hb
          by_contra hc
          rw [hf i (by omega)] at hb
          cases hb
        have ho1 : OwnsN h1 { d with used := 0 } := by
          rcases ho with ⟨a1, a2⟩ | ⟨i, b, a1, a2, a3, a4⟩
          · exact .inl ⟨a1, a2⟩
          · exact .inr ⟨i, b, a1, by rw [e3 i (by have := lt a2; omega)]; exact a2, a3, a4⟩
        have hdn : d.ptr ≠ some h.next := by
          rcases ho with ⟨a1, a2⟩ | ⟨i, b, a1, a2, a3, a4⟩
          · rw [a1]; simp
          · rw [a1]; have := lt a2; simp; omega
        -- the release of the item at the end
        have last : ∀ (h2 : Heap) (d2 : Node), Moved h1 { d with used := 0 } h2 d2 → h2.block h.next = some bytes →
            ∃ h3, h2.free (some (.block h.next)) = some h3 ∧ Moved h d h3 d2 ∧ ∀ j, j ≠ h.next → h3.block j = h2.block j := by
          intro h2 d2 mv hb
          obtain ⟨h3, k1, k2, k3, k4⟩ := free_block hb
          have hn : h1.next ≤ h2.next := mv.next
          have hp : d2.ptr ≠ some h.next := by
            intro hc
            rcases mv.new _ hc with hc | hc
            · exact hdn hc
            · omega
          refine ⟨h3, k1, ⟨?_, by omega, ?_, ?_, ?_, ?_⟩, k3⟩
          · intro j hj; rw [k3 j (by omega)]; exact mv.fresh j (by omega)
          · rcases mv.owns with a | ⟨i, b, a1, a2, a3, a4⟩
            · exact .inl a
            · exact .inr ⟨i, b, a1, by rw [k3 i (by rintro rfl; exact hp a1)]; exact a2, a3, a4⟩
          · intro j hj1 hj2
            by_cases hj : j = h.next
            · rw [hj, k2, hf h.next (Nat.le_refl _)]
            · rw [k3 j hj, mv.others j hj1 hj2, e3 j hj]
          · intro j hj1 hj2
            have hj : j ≠ h.next := by rintro rfl; exact hdn hj1
            rw [k3 j hj]
            exact mv.gone j hj1 hj2
          · intro j hj
            rcases mv.new j hj with hc | hc
            · exact .inl hc
            · right; omega
        by_cases hb : bytes.length > 0
        · rw [if_pos hb]
          obtain ⟨h2, d2, k1, mv, k2, k3, k4⟩ := nodeMalloc_spec hf1 ho1 hb m.2
          rw [k1]
          simp only
          have hp : d2.ptr ≠ some h.next := by
            intro hc
            rcases mv.new _ hc with hc | hc
            · exact hdn hc
            · omega
          have hb2 : h2.block h.next = some bytes := by rw [mv.others _ hdn hp, e2]
          have hsz : d2.allocated = d.allocated ∨ d2.allocated = 0 ∨
              ∃ bs, some (.ok bytes) = some (Except.ok (ε := Err) bs) ∧ d2.allocated = bs.length := by
            rcases k4 with a | a | a
            · exact .inl a
            · exact .inr (.inl a)
            · exact .inr (.inr ⟨bytes, rfl, a⟩)
          rcases mv.owns with ⟨a1, a2⟩ | ⟨i, b, a1, a2, a3, a4⟩
          · have hm2 : m.2 = false := by
              rcases k3 with k3 | k3
              · exact k3.2
              · omega
            rw [a1]
            simp only
            obtain ⟨h3, q1, q2, -⟩ := last h2 d2 mv hb2
            rw [if_neg (by simp), q1]
            exact ⟨h3, d2, none, rfl, q2, hsz, fun _ => ⟨bytes, hr, .inl ⟨k2, .inr hm2⟩⟩, by simp, by simp, by simp⟩
          · rw [a1]
            have hle : bytes.length ≤ b.length := by
              rcases k3 with k3 | k3
              · rw [k3.1] at a1; cases a1
              · omega
            have hs : slice bytes 0 bytes.length = some bytes := by simp [slice]
            simp only [hb2, Option.bind_some, hs]
            obtain ⟨h3, w1, w2, w3, w4⟩ := write_block a2 hle
            simp only [w1, Option.map_some]
            have hin : i ≠ h.next := by rintro rfl; exact hp a1
            have mv3 : Moved h1 { d with used := 0 } h3 { d2 with used := bytes.length } := by
              refine ⟨?_, by rw [w4]; exact mv.next, ?_, ?_, ?_, mv.new⟩
              · intro j hj
                rw [w4] at hj
                have : j ≠ i := by rintro rfl; rw [mv.fresh j hj] at a2; cases a2
                rw [w3 j this]
                exact mv.fresh j hj
              · exact .inr ⟨i, _, a1, w2, by simp; omega, a4⟩
              · intro j hj1 hj2
                rw [w3 j (by rintro rfl; exact hj2 a1)]
                exact mv.others j hj1 hj2
              · intro j hj1 hj2
                rw [w3 j (by rintro rfl; exact hj2 a1)]
                exact mv.gone j hj1 hj2
            obtain ⟨h4, q1, q2, q3⟩ := last h3 _ mv3 (by rw [w3 _ (Ne.symm hin)]; exact hb2)
            rw [if_neg (by simp), q1]
            rw [a1] at q2
            refine ⟨h4, _, none, rfl, q2, hsz, fun _ => ⟨bytes, hr, .inr ⟨hb, i, _, rfl, by rw [q3 i hin]; exact w2, ?_⟩⟩, by simp, by simp, by simp⟩
            rw [slice, if_pos (by simp)]
            simp
        · rw [if_neg hb]
          simp only
          have mv0 : Moved h1 { d with used := 0 } h1 { d with used := 0 } :=
            ⟨hf1, Nat.le_refl _, ho1, fun _ _ _ => rfl, fun j hj hj2 => absurd hj hj2, fun j hj => .inl hj⟩
          obtain ⟨h3, q1, q2, -⟩ := last h1 _ mv0 e2
          rw [if_neg (by simp), q1]
          exact ⟨h3, _, none, rfl, q2, .inl rfl,
            fun _ => ⟨bytes, hr, .inl ⟨rfl, .inl (by cases bytes; rfl; simp at hb)⟩⟩, by simp, by simp, by simp⟩
  · simp only [hm]
    exact ⟨h, _, _, rfl, ⟨hf, Nat.le_refl _, ho0, fun _ _ _ => rfl, fun j hj hj2 => absurd hj hj2, fun j hj => .inl hj⟩,
      .inl rfl, by simp, by simp, by simp, by simp⟩

theorem load_none {file : CStr} {f : FileColl} {h : Heap} {d : Node} {key : UInt32} (hf : Fresh h) {m : Bool × Bool}
    (hm : m.1 = true) (hk : fetched file f key = none) : load file f h d key m = none := by
  rw [load]
  simp only [hm, if_true, (getFile_fetched (file := file) (f := f) (key := key) hf).1 hk]

/-! ## The nodes of the cache -/

theorem removeFromList_data (s : Shard Node) (n : Nat) : (Cache.removeFromList s n).data = s.data := by
  simp only [Cache.removeFromList, Cache.fixNext, Cache.fixPrev]
  split <;> split <;> rfl

theorem getNextFree_data {fuel : Nat} {s s1 : Shard Node} {n : Option Nat} (h : Cache.getNextFree fuel s = some (s1, n)) :
    s1.data = s.data := by
  cases n with
  | some n => exact (Cache.Threads.getNextFree_data h).1
  | none =>
    rw [Cache.getNextFree] at h
    split at h
    · simp only [Option.bind_eq_bind] at h
      cases h1 : Tree.nodeRemove s.tree (.node s.allocated) with
      | none => rw [h1] at h; cases h
      | some tree => rw [h1] at h; cases h
    · split at h
      · cases h; rfl
      · split at h
        · next m hm h0 =>
          simp only [Option.bind_eq_bind] at h
          cases h1 : Tree.delete fuel (Cache.removeFromList s m).tree (.node m) with
          | none => rw [h1] at h; cases h
          | some tree =>
            rw [h1, Option.bind_some] at h
            cases h2 : Tree.nodeRemove tree (.node m) with
            | none => rw [h2] at h; cases h
            | some t2 => rw [h2] at h; cases h
        · cases h

/-- The data of the nodes after a call. -/
def dataAfter (data : Nat → Node) : Event UInt32 Node → Nat → Node
  | .loaded _ v _ n => Cache.set data n v
  | _ => data

theorem cacheLoad_data {fuel : Nat} {s s' : Shard Node} {key : Int} {v : Node} {ok : Bool} {n : Option Nat}
    (h : Cache.load fuel s key v ok = some (s', n)) :
    s'.data = n.elim s.data (fun n => Cache.set s.data n v) ∧
      ∃ s1, Cache.getNextFree fuel s = some (s1, n) := by
  rw [Cache.load] at h
  simp only [Option.bind_eq_bind] at h
  cases h1 : Cache.getNextFree fuel s with
  | none => rw [h1] at h; cases h
  | some r =>
    obtain ⟨s1, m⟩ := r
    have hd := getNextFree_data h1
    rw [h1, Option.bind_some] at h
    cases m with
    | none => cases h; exact ⟨hd, s1, rfl⟩
    | some m =>
      simp only at h
      split at h
      · cases h2 : s1.tree.setKey (.node m) key with
        | none => simp [h2] at h
        | some t =>
          simp only [h2, Option.bind_some] at h
          cases h3 : Tree.insert fuel t (.node m) with
          | none => simp [h3] at h
          | some t2 =>
            simp only [h3, Option.bind_some, Option.pure_def, Option.some.injEq, Prod.mk.injEq] at h
            obtain ⟨rfl, rfl⟩ := h
            exact ⟨by simp [hd], s1, rfl⟩
      · cases h
        exact ⟨by simp [hd], s1, rfl⟩

theorem addToHead_data {s s' : Shard Node} {n : Nat} (h : Cache.addToHead s n = some s') : s'.data = s.data := by
  rw [Cache.addToHead] at h
  split at h
  · cases h
    simp only
    split <;> split <;> rfl
  · cases h

theorem step_data {fuel : Nat} {s s' : Shard Node} {o : Cache.Op UInt32 Node} {e : Event UInt32 Node}
    (h : Cache.step keyHash fuel s o = some (s', e)) : s'.data = dataAfter s.data e := by
  cases o with
  | get k v ok =>
    simp only [Cache.step, Cache.shardGet, Option.bind_eq_bind] at h
    cases h1 : Tree.find fuel s.tree (keyHash k) with
    | none => simp [h1] at h
    | some p =>
      simp only [h1, Option.bind_some] at h
      cases p with
      | node n =>
        simp at h
        obtain ⟨rfl, rfl⟩ := h
        simp only [dataAfter, Cache.incrementCheckAndRemove]
        split
        · rw [removeFromList_data]
        · rfl
      | null =>
        simp only at h
        cases h2 : Cache.load fuel s (keyHash k) v ok with
        | none => simp [h2] at h
        | some r =>
          obtain ⟨s2, n⟩ := r
          have hd := (cacheLoad_data h2).1
          simp only [h2, Option.bind_some] at h
          cases n with
          | none => simp at h; obtain ⟨rfl, rfl⟩ := h; exact hd
          | some n => simp at h; obtain ⟨rfl, rfl⟩ := h; exact hd
      | root => simp at h
      | empty => simp at h
  | release n =>
    simp only [Cache.step] at h
    cases h1 : Cache.shardRelease s n with
    | none => simp [h1] at h
    | some s2 =>
      simp [h1] at h
      obtain ⟨rfl, rfl⟩ := h
      rw [Cache.shardRelease] at h1
      split at h1
      · simp only at h1
        split at h1
        · have := addToHead_data h1; exact this
        · cases h1; rfl
      · cases h1

/-- Into which node a get loads does not depend on what is loaded. -/
theorem shardGet_where {fuel : Nat} {s s1 s2 : Shard Node} {k : UInt32} {v1 v2 : Node} {ok1 ok2 : Bool} {n : Nat}
    {e : Event UInt32 Node} (h1 : Cache.shardGet keyHash fuel s k v1 ok1 = some (s1, .loaded k v1 ok1 n))
    (h2 : Cache.shardGet keyHash fuel s k v2 ok2 = some (s2, e)) : e = .loaded k v2 ok2 n := by
  simp only [Cache.shardGet, Option.bind_eq_bind] at h1 h2
  cases hf : Tree.find fuel s.tree (keyHash k) with
  | none => simp [hf] at h1
  | some p =>
    simp only [hf, Option.bind_some] at h1 h2
    cases p with
    | node n => simp at h1
    | null =>
      simp only at h1 h2
      cases q1 : Cache.load fuel s (keyHash k) v1 ok1 with
      | none => simp [q1] at h1
      | some r1 =>
        cases q2 : Cache.load fuel s (keyHash k) v2 ok2 with
        | none => simp [q2] at h2
        | some r2 =>
          obtain ⟨t1, n1⟩ := r1
          obtain ⟨t2, n2⟩ := r2
          obtain ⟨-, u1, w1⟩ := cacheLoad_data q1
          obtain ⟨-, u2, w2⟩ := cacheLoad_data q2
          rw [w1] at w2
          cases w2
          simp only [q1, q2, Option.bind_some] at h1 h2
          cases n1 with
          | none => simp at h1
          | some n1 =>
            simp at h1 h2
            obtain ⟨rfl, rfl⟩ := h1
            exact h2.2.symm
    | root => simp at h1
    | empty => simp at h1

theorem cacheStep_where {fuel : Nat} {c c1 c2 : Cache Node} {k : UInt32} {v1 v2 : Node} {ok1 ok2 : Bool} {n i j : Nat}
    {e1 e2 : Event UInt32 Node} (h1 : cacheStep keyHash fuel c (.get k v1 ok1) = some (c1, i, e1))
    (h2 : cacheStep keyHash fuel c (.get k v2 ok2) = some (c2, j, e2)) :
    j = i ∧ (e1 = .loaded k v1 ok1 n → e2 = .loaded k v2 ok2 n) := by
  simp only [cacheStep, Option.bind_eq_bind] at h1 h2
  cases hi : Cache.shardIndex c.concurrency (keyHash k) with
  | none => simp [hi] at h1
  | some x =>
    simp only [hi, Option.bind_some] at h1 h2
    split at h1
    · rename_i hx
      rw [if_pos hx] at h2
      cases q1 : Cache.shardGet keyHash fuel (c.shards x.toNat) k v1 ok1 with
      | none => simp [q1] at h1
      | some r1 =>
        cases q2 : Cache.shardGet keyHash fuel (c.shards x.toNat) k v2 ok2 with
        | none => simp [q2] at h2
        | some r2 =>
          obtain ⟨s1, a1⟩ := r1
          obtain ⟨s2, a2⟩ := r2
          simp only [q1, q2, Option.bind_some, Option.pure_def, Option.some.injEq, Prod.mk.injEq] at h1 h2
          obtain ⟨-, rfl, rfl⟩ := h1
          obtain ⟨-, rfl, rfl⟩ := h2
          refine ⟨rfl, ?_⟩
          rintro rfl
          exact shardGet_where q1 q2
    · cases h1

/-! ## The invariant -/

theorem New.cache {capacity : Nat} {s : Store} (h : New capacity s) : NewCache capacity s.cache :=
  ⟨h.2.2.1, h.2.2.2.1, fun i hi => ⟨Node.reset, h.2.2.2.2 i hi⟩⟩

/-- The data of a node. -/
def Store.node (s : Store) (i n : Nat) : Node := (s.cache.shards i).data n

/-- What holds after calls on the collection made in the state `s0`: every node has memory of its own which is new since then, no
other memory changed, no node has more than `B` bytes, and a node shows the item it was loaded for unless memory was refused
(`R`). -/
structure Holds (file : CStr) (f : FileColl) (fuel capacity : Nat) (R : Prop) (B : Nat) (s0 s : Store)
    (evs : List (Nat × Event UInt32 Node)) : Prop where
  hist : ∃ ops, cacheRun keyHash fuel s0.cache ops = some (s.cache, evs)
  fresh : Fresh s.heap
  next : s0.heap.next ≤ s.heap.next
  owns : ∀ i n, i < s0.cache.concurrency → n < capacity → OwnsN s.heap (s.node i n)
  apart : ∀ i n i' n' b, i < s0.cache.concurrency → n < capacity → i' < s0.cache.concurrency → n' < capacity →
    (s.node i n).ptr = some b → (s.node i' n').ptr = some b → i = i' ∧ n = n'
  since : ∀ i n b, i < s0.cache.concurrency → n < capacity → (s.node i n).ptr = some b → s0.heap.next ≤ b
  others : ∀ b, (∀ i n, i < s0.cache.concurrency → n < capacity → (s.node i n).ptr ≠ some b) →
    s.heap.block b = s0.heap.block b
  size : ∀ i n, i < s0.cache.concurrency → n < capacity → (s.node i n).allocated ≤ B
  shows : ∀ i n k v, i < s0.cache.concurrency → n < capacity → lastLoad n (eventsOf i evs) = some (k, v, true) →
    Shows file f R s.heap k (s.node i n)

theorem initNodes_data (d0 : Node) : ∀ (n : Nat) (s s' : Shard Node), Cache.initNodes d0 n s = some s' →
    ∀ x, x < n → s'.data x = d0 := by
  intro n
  induction n with
  | zero => intro s s' _ x hx; omega
  | succ n ih =>
    intro s s' h x hx
    rw [Cache.initNodes] at h
    simp only [Option.bind_eq_bind] at h
    cases h1 : Cache.initNodes d0 n s with
    | none => rw [h1] at h; cases h
    | some s1 =>
      rw [h1, Option.bind_some] at h
      cases h2 : Tree.nodeInit s1.tree (.node n) with
      | none => rw [h2] at h; cases h
      | some t =>
        rw [h2] at h
        cases h
        simp only [Cache.set]
        split
        · rfl
        · exact ih s s1 h1 x (by omega)

theorem new_node {capacity : Nat} {s : Store} (h : New capacity s) {i n : Nat} (hi : i < s.cache.concurrency)
    (hn : n < capacity) : s.node i n = Node.reset := by
  obtain ⟨mem, hm⟩ := h.2.2.2.2 i hi
  exact initNodes_data _ _ _ _ hm n hn

theorem holds_new {file : CStr} {f : FileColl} {fuel capacity : Nat} {R : Prop} {B : Nat} {s : Store} (h : New capacity s) :
    Holds file f fuel capacity R B s s [] where
  hist := ⟨[], rfl⟩
  fresh := h.1
  next := Nat.le_refl _
  owns := fun i n hi hn => by rw [new_node h hi hn]; exact .inl ⟨rfl, rfl⟩
  apart := fun i n _ _ b hi hn _ _ hp => by rw [new_node h hi hn] at hp; cases hp
  since := fun i n b hi hn hp => by rw [new_node h hi hn] at hp; cases hp
  others := fun _ _ => rfl
  size := fun i n hi hn => by rw [new_node h hi hn]; exact Nat.zero_le _
  shows := fun i n k v _ _ hl => by simp [eventsOf, lastLoad] at hl

theorem Holds.shard {file : CStr} {f : FileColl} {fuel capacity : Nat} {R : Prop} {B : Nat} {s0 s : Store}
    {evs : List (Nat × Event UInt32 Node)} (hs : Holds file f fuel capacity R B s0 s evs) (hf : Enough capacity fuel)
    (h0 : New capacity s0) {i : Nat} (hi : i < s0.cache.concurrency) :
    (∃ m t l, Cache.Inv keyHash (s.cache.shards i) (eventsOf i evs) m t l) ∧ (s.cache.shards i).capacity = capacity := by
  obtain ⟨ops, hr⟩ := hs.hist
  obtain ⟨o, ha⟩ := Cache.C04_shards hf h0.cache hr hi
  exact ha.inv

theorem Holds.concurrency {file : CStr} {f : FileColl} {fuel capacity : Nat} {R : Prop} {B : Nat} {s0 s : Store}
    {evs : List (Nat × Event UInt32 Node)} (hs : Holds file f fuel capacity R B s0 s evs) :
    s.cache.concurrency = s0.cache.concurrency := by
  obtain ⟨ops, hr⟩ := hs.hist
  exact (Cache.cacheRun_spec hr).1

theorem Shows.same {file : CStr} {f : FileColl} {R : Prop} {h h' : Heap} {k : UInt32} {d : Node} (hs : Shows file f R h k d)
    (hb : ∀ b, d.ptr = some b → h'.block b = h.block b) : Shows file f R h' k d := by
  obtain ⟨bytes, h1, h2⟩ := hs
  refine ⟨bytes, h1, h2.imp id ?_⟩
  rintro ⟨h3, i, b, h4, h5, h6⟩
  exact ⟨h3, i, b, h4, by rw [hb i h4]; exact h5, h6⟩

theorem OwnsN.same {h h' : Heap} {d : Node} (hs : OwnsN h d) (hb : ∀ b, d.ptr = some b → h'.block b = h.block b) :
    OwnsN h' d := by
  rcases hs with a | ⟨i, b, a1, a2, a3⟩
  · exact .inl a
  · exact .inr ⟨i, b, a1, by rw [hb i a1]; exact a2, a3⟩

/-- One call of the cache with event `e` in shard `i`, with the loader's effect on the heap. -/
structure Turn (file : CStr) (f : FileColl) (fuel : Nat) (R : Prop) (B : Nat) (s s' : Store) (i : Nat)
    (e : Event UInt32 Node) : Prop where
  call : ∃ op, cacheStep keyHash fuel s.cache op = some (s'.cache, i, e)
  load : ∀ k v ok n, e = .loaded k v ok n → Moved s.heap (s.node i n) s'.heap v ∧ v.allocated ≤ max B (s.node i n).allocated ∧
    (ok = true → Shows file f R s'.heap k v)
  rest : (∀ k v ok n, e ≠ .loaded k v ok n) → s'.heap = s.heap

theorem holds_step {file : CStr} {f : FileColl} {fuel capacity : Nat} {R : Prop} {B : Nat} {s0 s : Store}
    {evs : List (Nat × Event UInt32 Node)} (hs : Holds file f fuel capacity R B s0 s evs) (hf : Enough capacity fuel)
    (h0 : New capacity s0) {s' : Store} {i : Nat} {e : Event UInt32 Node} (tn : Turn file f fuel R B s s' i e) :
    Holds file f fuel capacity R B s0 s' (evs ++ [(i, e)]) ∧
      ∀ i' n', i' < s0.cache.concurrency → n' < capacity → (∀ k v ok, ¬(i' = i ∧ e = .loaded k v ok n')) →
        s'.node i' n' = s.node i' n' ∧ ∀ b, (s.node i' n').ptr = some b → s'.heap.block b = s.heap.block b := by
  obtain ⟨h', c'⟩ := s'
  obtain ⟨⟨op, h⟩, hl, hn⟩ := tn
  simp only at h hl hn
  have hconc := hs.concurrency
  obtain ⟨ops, hr⟩ := hs.hist
  obtain ⟨a1, a2, ⟨o, a3⟩, a4, -⟩ := Cache.cacheStep_spec h
  have hi : i < s0.cache.concurrency := by omega
  obtain ⟨⟨m, t, l, iv⟩, hcap⟩ := hs.shard hf h0 hi
  have hd := step_data a3
  have hist := cacheRun_snoc hr h
  by_cases he : ∃ k v ok n, e = .loaded k v ok n
  · obtain ⟨k, v, ok, n, rfl⟩ := he
    obtain ⟨mv, hB, hsh⟩ := hl k v ok n rfl
    have hnc : n < capacity := by
      obtain ⟨⟨m', t', l', iv'⟩, hc', -⟩ := Cache.step_spec iv (by rw [hcap]; exact hf) a3
      have := iv'.allocated
      by_contra hx
      have hu := (iv'.unused n (by omega)).2.2.1
      rw [Cache.lastLoad_snoc] at hu
      simp at hu
    have node_at : ∀ i' n', (Store.mk h' c').node i' n' = if i' = i ∧ n' = n then v else s.node i' n' := by
      intro i' n'
      simp only [Store.node]
      by_cases hi' : i' = i
      · subst hi'
        rw [hd, dataAfter, Cache.set]
        simp
      · rw [a4 i' hi', if_neg (by omega)]
    have keep : ∀ i' n' b, i' < s0.cache.concurrency → n' < capacity → ¬(i' = i ∧ n' = n) → (s.node i' n').ptr = some b →
        h'.block b = s.heap.block b ∧ v.ptr ≠ some b := by
      intro i' n' b hi' hn' hne hp
      have h1 : (s.node i n).ptr ≠ some b := fun hc => hne (hs.apart _ _ _ _ b hi' hn' hi hnc hp hc)
      have h2 : v.ptr ≠ some b := by
        intro hc
        rcases mv.new b hc with hc | hc
        · exact h1 hc
        · rcases hs.owns i' n' hi' hn' with ⟨x, -⟩ | ⟨j, bb, x1, x2, -⟩
          · rw [x] at hp; cases hp
          · rw [x1] at hp; cases hp
            rw [hs.fresh _ hc] at x2; cases x2
      exact ⟨mv.others b h1 h2, h2⟩
    refine ⟨⟨⟨_, hist⟩, mv.fresh, Nat.le_trans hs.next mv.next, ?_, ?_, ?_, ?_, ?_, ?_⟩, ?_⟩
    · intro i' n' hi' hn'
      rw [node_at]
      split
      · exact mv.owns
      · rename_i hne
        exact (hs.owns i' n' hi' hn').same fun b hb => (keep i' n' b hi' hn' hne hb).1
    · intro i1 n1 i2 n2 b hi1 hn1 hi2 hn2 hp1 hp2
      rw [node_at] at hp1 hp2
      split at hp1
      · rename_i x1
        split at hp2
        · rename_i x2; omega
        · rename_i x2; exact absurd hp1 (keep i2 n2 b hi2 hn2 x2 hp2).2
      · rename_i x1
        split at hp2
        · rename_i x2; exact absurd hp2 (keep i1 n1 b hi1 hn1 x1 hp1).2
        · exact hs.apart _ _ _ _ b hi1 hn1 hi2 hn2 hp1 hp2
    · intro i' n' b hi' hn' hp
      rw [node_at] at hp
      split at hp
      · rcases mv.new b hp with hc | hc
        · exact hs.since i n b hi hnc hc
        · exact Nat.le_trans hs.next hc
      · exact hs.since i' n' b hi' hn' hp
    · intro b hb
      have hv : v.ptr ≠ some b := by
        have := hb i n hi hnc
        rw [node_at, if_pos ⟨rfl, rfl⟩] at this
        exact this
      by_cases hc : (s.node i n).ptr = some b
      · have := hs.since i n b hi hnc hc
        show h'.block b = _
        rw [mv.gone b hc hv, h0.1 b this]
      · show h'.block b = _
        rw [mv.others b hc hv]
        refine hs.others b fun i' n' hi' hn' => ?_
        by_cases hx : i' = i ∧ n' = n
        · obtain ⟨rfl, rfl⟩ := hx; exact hc
        · have := hb i' n' hi' hn'
          rw [node_at, if_neg hx] at this
          exact this
    · intro i' n' hi' hn'
      rw [node_at]
      split
      · have := hs.size i n hi hnc
        omega
      · exact hs.size i' n' hi' hn'
    · intro i' n' k' v' hi' hn' hl'
      rw [eventsOf_snoc] at hl'
      rw [node_at]
      by_cases hx : i' = i ∧ n' = n
      · obtain ⟨rfl, rfl⟩ := hx
        rw [if_pos rfl, Cache.lastLoad_snoc] at hl'
        simp only [if_true, Option.some.injEq, Prod.mk.injEq] at hl'
        obtain ⟨rfl, rfl, rfl⟩ := hl'
        rw [if_pos ⟨rfl, rfl⟩]
        exact hsh rfl
      · rw [if_neg hx]
        have hl2 : lastLoad n' (eventsOf i' evs) = some (k', v', true) := by
          split at hl'
          · rename_i hii
            rw [Cache.lastLoad_snoc] at hl'
            simp only at hl'
            rw [if_neg (by omega)] at hl'
            exact hl'
          · exact hl'
        exact (hs.shows i' n' k' v' hi' hn' hl2).same fun b hb => (keep i' n' b hi' hn' hx hb).1
    · intro i' n' hi' hn' hne
      have hx : ¬(i' = i ∧ n' = n) := by
        rintro ⟨rfl, rfl⟩
        exact hne k v ok ⟨rfl, rfl⟩
      exact ⟨by rw [node_at, if_neg hx], fun b hb => (keep i' n' b hi' hn' hx hb).1⟩
  · have he : ∀ k v ok n, e ≠ .loaded k v ok n := fun k v ok n hc => he ⟨k, v, ok, n, hc⟩
    obtain rfl := hn he
    have node_at : ∀ i' n', (Store.mk s.heap c').node i' n' = s.node i' n' := by
      intro i' n'
      simp only [Store.node]
      by_cases hi' : i' = i
      · subst hi'
        rw [hd]
        cases e with
        | loaded k v ok n => exact absurd rfl (he k v ok n)
        | _ => rfl
      · rw [a4 i' hi']
    refine ⟨⟨⟨_, hist⟩, hs.fresh, hs.next, ?_, ?_, ?_, ?_, ?_, ?_⟩, fun i' n' _ _ _ => ⟨node_at i' n', fun _ _ => rfl⟩⟩
    · intro i' n' hi' hn'; rw [node_at]; exact hs.owns i' n' hi' hn'
    · intro i1 n1 i2 n2 b; rw [node_at, node_at]; exact hs.apart i1 n1 i2 n2 b
    · intro i' n' b; rw [node_at]; exact hs.since i' n' b
    · intro b hb
      exact hs.others b fun i' n' hi' hn' => by rw [← node_at]; exact hb i' n' hi' hn'
    · intro i' n'; rw [node_at]; exact hs.size i' n'
    · intro i' n' k' v' hi' hn' hl'
      rw [node_at]
      refine hs.shows i' n' k' v' hi' hn' ?_
      rw [eventsOf_snoc] at hl'
      split at hl'
      · rw [Cache.lastLoad_snoc] at hl'
        cases e with
        | loaded k v ok n => exact absurd rfl (he k v ok n)
        | _ => exact hl'
      · exact hl'

theorem get_turn {file : CStr} {f : FileColl} {fuel capacity : Nat} {R : Prop} {B : Nat} {s0 s s' : Store}
    {evs : List (Nat × Event UInt32 Node)} (hs : Holds file f fuel capacity R B s0 s evs) (hf : Enough capacity fuel)
    (h0 : New capacity s0) {key : UInt32} {m : Bool × Bool} {a : Answer}
    (hB : ∀ bytes, fetched file f key = some (.ok bytes) → bytes.length ≤ B) (hR : m.2 = false → R)
    (h : get file f fuel s key m = some (s', a)) :
    ∃ i e, Turn file f fuel R B s s' i e ∧
      ((∃ n, e.isGet n ∧ i < s0.cache.concurrency ∧ n < capacity ∧ a = answer s'.cache i n none ∧
        Shows file f R s'.heap key (s'.node i n)) ∨
      (∃ x, a = ⟨none, none, some x⟩ ∧
        ((m.1 = false ∧ x = noMemory file f key) ∨ ∃ er, fetched file f key = some (.error er) ∧ x = .read er)) ∨
      (a = ⟨none, none, none⟩ ∧ i < s0.cache.concurrency ∧ ∀ n, n < capacity → held n (eventsOf i evs) ≠ 0)) := by
  have hconc := hs.concurrency
  obtain ⟨ops, hr⟩ := hs.hist
  -- the node a get returns
  have found : ∀ {c' : Cache Node} {v : Node} {ok : Bool} {i n : Nat} {e : Event UInt32 Node},
      cacheStep keyHash fuel s.cache (.get key v ok) = some (c', i, e) → e.isGet n → (e = .loaded key v false n → False) →
      Turn file f fuel R B s s' i e → s'.cache = c' →
      i < s0.cache.concurrency ∧ n < capacity ∧ Shows file f R s'.heap key (s'.node i n) := by
    intro c' v ok i n e hc hn hne tn hcc
    obtain ⟨hs', -⟩ := holds_step hs hf h0 tn
    obtain ⟨v', ok', w1, w2, w3⟩ := Cache.C04_cache keyHash_inj hf h0.cache hr hc hn
    have hi : i < s0.cache.concurrency := by
      have := (Cache.cacheStep_spec hc).1
      omega
    have w4 : lastLoad n (eventsOf i (evs ++ [(i, e)])) = some (key, v', ok') := by rw [eventsOf_snoc, if_pos rfl]; exact w1
    have hnc : n < capacity := by
      obtain ⟨⟨m', t', l', iv'⟩, hc'⟩ := hs'.shard hf h0 hi
      have := iv'.allocated
      by_contra hx
      have hu := (iv'.unused n (by omega)).2.2.1
      rw [w4] at hu
      cases hu
    have hok : ok' = true := by
      rcases w3 with w3 | ⟨-, w3⟩
      · exact w3
      · exact absurd w3 hne
    subst hok
    exact ⟨hi, hnc, hs'.shows i n key v' hi hnc w4⟩
  rw [get] at h
  cases hc : cacheStep keyHash fuel s.cache (.get key Node.reset true) with
  | none => rw [hc] at h; cases h
  | some r =>
    obtain ⟨c1, i, e⟩ := r
    rw [hc] at h
    obtain ⟨n, rfl⟩ | ⟨n, rfl⟩ | rfl := cacheStep_event hc
    · simp only [Option.some.injEq, Prod.mk.injEq] at h
      obtain ⟨rfl, rfl⟩ := h
      have tn : Turn file f fuel R B s ⟨s.heap, c1⟩ i (.hit key n) := ⟨⟨_, hc⟩, by simp, fun _ => rfl⟩
      obtain ⟨k1, k2, k3⟩ := found (n := n) hc (by simp [Event.isGet]) (by simp) tn rfl
      exact ⟨i, _, tn, .inl ⟨n, by simp [Event.isGet], k1, k2, rfl, k3⟩⟩
    · simp only at h
      have hi : i < s0.cache.concurrency := by
        have := (Cache.cacheStep_spec hc).1
        omega
      have hnc : n < capacity := by
        obtain ⟨⟨m', t', l', iv⟩, hcap⟩ := hs.shard hf h0 hi
        obtain ⟨-, -, ⟨o, a3⟩, -⟩ := Cache.cacheStep_spec hc
        obtain ⟨⟨m', t', l', iv'⟩, hc', -⟩ := Cache.step_spec iv (by rw [hcap]; exact hf) a3
        have := iv'.allocated
        by_contra hx
        have hu := (iv'.unused n (by omega)).2.2.1
        rw [Cache.lastLoad_snoc] at hu
        simp at hu
      have hk : m.1 = true → fetched file f key ≠ none := by
        intro hm hk
        rw [load_none hs.fresh hm hk] at h
        cases h
      obtain ⟨h1, d1, e1, l1, l2, l3, l4, l5, l6, l7⟩ := load_spec hs.fresh (hs.owns i n hi hnc) m hk
      rw [Store.node] at l1
      rw [l1] at h
      simp only at h
      cases hc2 : cacheStep keyHash fuel s.cache (.get key d1 e1.isNone) with
      | none => rw [hc2] at h; cases h
      | some r2 =>
        obtain ⟨c2, j, e2⟩ := r2
        obtain ⟨hj, he⟩ := cacheStep_where (n := n) hc hc2
        have he := he rfl
        subst hj he
        rw [hc2] at h
        simp only [Option.map_some, Option.some.injEq, Prod.mk.injEq] at h
        obtain ⟨rfl, rfl⟩ := h
        have tn : Turn file f fuel R B s ⟨h1, c2⟩ j (.loaded key d1 e1.isNone n) := by
          refine ⟨⟨_, hc2⟩, ?_, fun hne => absurd rfl (hne _ _ _ _)⟩
          intro k v ok n' hh
          cases hh
          refine ⟨l2, ?_, ?_⟩
          · rcases l3 with l3 | l3 | ⟨bytes, l3, l3'⟩
            · omega
            · omega
            · have := hB bytes l3; omega
          · intro hok
            obtain ⟨bytes, q1, q2⟩ := l4 (by cases e1 <;> simp_all)
            refine ⟨bytes, q1, q2.imp ?_ id⟩
            rintro ⟨q3, q4⟩
            exact ⟨q3, q4.imp id hR⟩
        refine ⟨j, _, tn, ?_⟩
        cases e1 with
        | none =>
          obtain ⟨k1, k2, k3⟩ := found (n := n) hc2 (by simp [Event.isGet]) (by simp) tn rfl
          exact .inl ⟨n, by simp [Event.isGet], k1, k2, rfl, k3⟩
        | some x =>
          refine .inr (.inl ⟨x, rfl, ?_⟩)
          by_cases hm : m.1 = true
          · right
            cases hr : fetched file f key with
            | none => exact absurd hr (hk hm)
            | some r =>
              cases r with
              | ok bytes =>
                have := l5.2 ⟨hm, bytes, hr⟩
                cases this
              | error er =>
                have := l7 er hm hr
                cases this
                exact ⟨er, rfl, rfl⟩
          · have hm : m.1 = false := by simpa using hm
            have := l6 hm
            cases this
            exact .inl ⟨hm, rfl⟩
    · simp only [Option.some.injEq, Prod.mk.injEq] at h
      obtain ⟨rfl, rfl⟩ := h
      have hi : i < s0.cache.concurrency := by
        have := (Cache.cacheStep_spec hc).1
        omega
      refine ⟨i, _, ⟨⟨_, hc⟩, by simp, fun _ => rfl⟩, .inr (.inr ⟨rfl, hi, ?_⟩)⟩
      obtain ⟨o, ha⟩ := Cache.C04_shards hf h0.cache hr hi
      simp only [cacheStep, Option.bind_eq_bind] at hc
      cases hx : Cache.shardIndex s.cache.concurrency (keyHash key) with
      | none => simp [hx] at hc
      | some x =>
        simp only [hx, Option.bind_some] at hc
        split at hc
        · cases q1 : Cache.shardGet keyHash fuel (s.cache.shards x.toNat) key Node.reset true with
          | none => simp [q1] at hc
          | some r1 =>
            obtain ⟨s1, a1⟩ := r1
            simp only [q1, Option.bind_some, Option.pure_def, Option.some.injEq, Prod.mk.injEq] at hc
            obtain ⟨-, rfl, rfl⟩ := hc
            exact Cache.C06_full ha (by rw [Cache.step]; exact q1)
        · cases hc

theorem release_turn {file : CStr} {f : FileColl} {fuel : Nat} {R : Prop} {B : Nat} {s : Store} {i n j : Nat} {c' : Cache Node}
    {e : Event UInt32 Node} (h : cacheStep (K := UInt32) keyHash fuel s.cache (.release i n) = some (c', j, e)) :
    Turn file f fuel R B s ⟨s.heap, c'⟩ j e ∧ e = .released n := by
  have he : e = .released n := by
    simp only [cacheStep, Option.bind_eq_bind] at h
    split at h
    · cases h1 : Cache.shardRelease (s.cache.shards i) n with
      | none => simp [h1] at h
      | some x => simp [h1] at h; exact h.2.2.symm
    · cases h
  subst he
  exact ⟨⟨⟨_, h⟩, by simp, fun _ => rfl⟩, rfl⟩

/-- The items asked for have at most `B` bytes, and memory for a node is refused only if `R`. -/
def Fits (file : CStr) (f : FileColl) (R : Prop) (B : Nat) (calls : List Call) : Prop :=
  ∀ key m, .get key m ∈ calls →
    (∀ bytes, loader file f key = some (bytes, none) → bytes.length ≤ B) ∧ (m.2 = false → R)

theorem fits_fetched {file : CStr} {f : FileColl} {B : Nat} {key : UInt32}
    (h : ∀ bytes, loader file f key = some (bytes, none) → bytes.length ≤ B) :
    ∀ bytes, fetched file f key = some (.ok bytes) → bytes.length ≤ B :=
  fun bytes hb => h bytes (by rw [loader_fetched, hb]; rfl)

theorem call_turn {file : CStr} {f : FileColl} {fuel capacity : Nat} {R : Prop} {B : Nat} {s0 s s' : Store}
    {evs : List (Nat × Event UInt32 Node)} (hs : Holds file f fuel capacity R B s0 s evs) (hf : Enough capacity fuel)
    (h0 : New capacity s0) {call : Call} {a : Option Answer} (hfit : Fits file f R B [call])
    (h : step file f fuel s call = some (s', a)) : ∃ i e, Turn file f fuel R B s s' i e := by
  cases call with
  | get key m =>
    rw [step] at h
    cases hg : get file f fuel s key m with
    | none => rw [hg] at h; cases h
    | some r =>
      rw [hg] at h
      cases h
      obtain ⟨b1, b2⟩ := hfit key m (by simp)
      obtain ⟨i, e, tn, -⟩ := get_turn hs hf h0 (fits_fetched b1) b2 (by rw [hg])
      exact ⟨i, e, tn⟩
  | release i n =>
    rw [step] at h
    cases hg : cacheStep (K := UInt32) keyHash fuel s.cache (.release i n) with
    | none => rw [hg] at h; cases h
    | some r =>
      obtain ⟨c', j, e⟩ := r
      rw [hg] at h
      cases h
      exact ⟨j, e, (release_turn hg).1⟩

theorem run_holds {file : CStr} {f : FileColl} {fuel capacity : Nat} {R : Prop} {B : Nat} {s0 : Store} (hf : Enough capacity fuel)
    (h0 : New capacity s0) : ∀ {calls : List Call} {s s' : Store} {evs : List (Nat × Event UInt32 Node)} {as : List Answer},
    Holds file f fuel capacity R B s0 s evs → Fits file f R B calls → run file f fuel s calls = some (s', as) →
    ∃ evs', Holds file f fuel capacity R B s0 s' evs' := by
  intro calls
  induction calls with
  | nil => intro s s' evs as hs _ h; cases h; exact ⟨evs, hs⟩
  | cons c cs ih =>
    intro s s' evs as hs hfit h
    rw [run] at h
    cases h1 : step file f fuel s c with
    | none => rw [h1] at h; cases h
    | some r =>
      obtain ⟨s1, a⟩ := r
      rw [h1] at h
      simp only at h
      cases h2 : run file f fuel s1 cs with
      | none => rw [h2] at h; cases h
      | some r2 =>
        rw [h2] at h
        cases h
        obtain ⟨i, e, tn⟩ := call_turn hs hf h0 (fun key m hm => hfit key m (by simp at hm; simp [hm])) h1
        exact ih (holds_step hs hf h0 tn).1 (fun key m hm => hfit key m (by simp [hm])) h2

/-- The collection was created in the state `s0`, and the calls then led to `s`. -/
structure Reached (file : CStr) (f : FileColl) (fuel capacity : Nat) (s0 : Store) (calls : List Call) (s : Store) : Prop where
  enough : Enough capacity fuel
  new : New capacity s0
  calls : ∃ as, run file f fuel s0 calls = some (s, as)

theorem Reached.holds {file : CStr} {f : FileColl} {fuel capacity : Nat} {s0 s : Store} {calls : List Call}
    (r : Reached file f fuel capacity s0 calls s) {R : Prop} {B : Nat} (hfit : Fits file f R B calls) :
    ∃ evs, Holds file f fuel capacity R B s0 s evs := by
  obtain ⟨hf, h0, as, h⟩ := r
  exact run_holds hf h0 (holds_new h0) hfit h

/-- A bound for any finite number of calls. -/
theorem fits_some (file : CStr) (f : FileColl) : ∀ calls : List Call, ∃ B, Fits file f True B calls := by
  intro calls
  induction calls with
  | nil => exact ⟨0, fun key m hm => by cases hm⟩
  | cons c cs ih =>
    obtain ⟨B, hB⟩ := ih
    cases c with
    | release i n =>
      exact ⟨B, fun key m hm => hB key m (by simpa using hm)⟩
    | get k mm =>
      cases hl : loader file f k with
      | none =>
        refine ⟨B, fun key m hm => ?_⟩
        rcases List.mem_cons.1 hm with hm | hm
        · cases hm; exact ⟨fun bytes hb => (by rw [hl] at hb; cases hb), fun _ => trivial⟩
        · exact hB key m hm
      | some r =>
        refine ⟨max B r.1.length, fun key m hm => ?_⟩
        rcases List.mem_cons.1 hm with hm | hm
        · cases hm; exact ⟨fun bytes hb => (by rw [hl] at hb; cases hb; exact Nat.le_max_right _ _), fun _ => trivial⟩
        · exact ⟨fun bytes hb => Nat.le_trans ((hB key m hm).1 bytes hb) (Nat.le_max_left _ _), fun _ => trivial⟩

theorem fits_snoc {file : CStr} {f : FileColl} {calls : List Call} (key : UInt32) (m : Bool × Bool) :
    ∃ B, Fits file f True B calls ∧ ∀ bytes, fetched file f key = some (.ok bytes) → bytes.length ≤ B := by
  obtain ⟨B, hB⟩ := fits_some file f (calls ++ [.get key m])
  exact ⟨B, fun k m' hm => hB k m' (by simp [hm]), fits_fetched (hB key m (by simp)).1⟩

/-! ## C108 -/

/-- C108: a get never does anything undefined, whatever calls came before and whatever memory was refused then or is refused
now; the source collection must be able to read the item (`loader`, see C13), and the key must not be `0x80000000` (see
`C08_shard_violated`). -/
theorem C108_total {file : CStr} {f : FileColl} {fuel capacity : Nat} {s0 s : Store} {calls : List Call}
    (r : Reached file f fuel capacity s0 calls s) (key : UInt32) (hk : key ≠ 0x80000000) (hl : loader file f key ≠ none)
    (m : Bool × Bool) : ∃ s' a, get file f fuel s key m = some (s', a) := by
  obtain ⟨B, hB, -⟩ := fits_snoc (file := file) (f := f) (calls := calls) key m
  obtain ⟨evs, hs⟩ := r.holds hB
  obtain ⟨hf, h0, -⟩ := r
  obtain ⟨ops, hr⟩ := hs.hist
  obtain ⟨i, hi, -, hall⟩ := Cache.C08_get_partial hf h0.cache hr h0.2.1 key (keyHash_range hk)
  have hfe : fetched file f key ≠ none := by
    intro hc; rw [loader_fetched, hc] at hl; exact hl rfl
  rw [get]
  obtain ⟨c1, e, hc⟩ := hall Node.reset true
  rw [hc]
  obtain ⟨n, rfl⟩ | ⟨n, rfl⟩ | rfl := cacheStep_event hc
  · exact ⟨_, _, rfl⟩
  · simp only
    have hnc : n < capacity := by
      obtain ⟨⟨m', t', l', iv⟩, hcap⟩ := hs.shard hf h0 hi
      obtain ⟨-, -, ⟨o, a3⟩, -⟩ := Cache.cacheStep_spec hc
      obtain ⟨⟨m', t', l', iv'⟩, hc', -⟩ := Cache.step_spec iv (by rw [hcap]; exact hf) a3
      have := iv'.allocated
      by_contra hx
      have hu := (iv'.unused n (by omega)).2.2.1
      rw [Cache.lastLoad_snoc] at hu
      simp at hu
    obtain ⟨h1, d1, e1, l1, -⟩ := load_spec (key := key) hs.fresh (hs.owns i n hi hnc) m (fun _ => hfe)
    rw [Store.node] at l1
    rw [l1]
    obtain ⟨c2, e2, hc2⟩ := hall d1 e1.isNone
    simp only [hc2]
    exact ⟨_, _, rfl⟩
  · exact ⟨_, _, rfl⟩

/-- C108: what a cached collection keeps in memory between calls is bounded by its capacity. After any calls, with items of at
most `B` bytes and whatever memory was refused, there are at most as many blocks as the cache has nodes that were not there when
the collection was created, none has more than `B` bytes, and all other memory is as it was. -/
theorem C108_bounded {file : CStr} {f : FileColl} {fuel capacity : Nat} {s0 s : Store} {calls : List Call}
    (r : Reached file f fuel capacity s0 calls s) {B : Nat} (hB : Fits file f True B calls) :
    ∃ blocks : List Nat, blocks.length ≤ s0.cache.concurrency * capacity ∧
      (∀ b ∈ blocks, s0.heap.block b = none ∧ ∃ bytes, s.heap.block b = some bytes ∧ bytes.length ≤ B) ∧
      ∀ b, b ∉ blocks → s.heap.block b = s0.heap.block b := by
  obtain ⟨evs, hs⟩ := r.holds hB
  refine ⟨(List.range s0.cache.concurrency).flatMap fun i => (List.range capacity).filterMap fun n => (s.node i n).ptr, ?_, ?_, ?_⟩
  · generalize s0.cache.concurrency = k
    induction k with
    | zero => simp
    | succ k ih =>
      rw [List.range_succ, List.flatMap_append, List.length_append, Nat.succ_mul]
      have h1 : ([k].flatMap fun i => (List.range capacity).filterMap fun n => (s.node i n).ptr).length ≤ capacity := by
        simp only [List.flatMap_cons, List.flatMap_nil, List.append_nil]
        exact Nat.le_trans (List.length_filterMap_le _ _) (by simp)
      omega
  · intro b hb
    simp only [List.mem_flatMap, List.mem_range, List.mem_filterMap] at hb
    obtain ⟨i, hi, n, hn, hp⟩ := hb
    refine ⟨r.new.1 b (hs.since i n b hi hn hp), ?_⟩
    have hsz := hs.size i n hi hn
    rcases hs.owns i n hi hn with ⟨x, -⟩ | ⟨j, bb, x1, x2, x3, -⟩
    · rw [x] at hp; cases hp
    · rw [x1] at hp; cases hp
      exact ⟨bb, x2, by omega⟩
  · intro b hb
    refine hs.others b fun i n hi hn hp => hb ?_
    simp only [List.mem_flatMap, List.mem_range, List.mem_filterMap]
    exact ⟨i, hi, n, hn, hp⟩

theorem answer_shows {file : CStr} {f : FileColl} {R : Prop} {s : Store} {key : UInt32} {i n : Nat}
    (hs : Shows file f R s.heap key (s.node i n)) :
    ∃ bytes, loader file f key = some (bytes, none) ∧
      ((answer s.cache i n none).data = none ∧ (bytes = [] ∨ R) ∨
        bytes ≠ [] ∧ (answer s.cache i n none).bytes s.heap = some bytes) := by
  obtain ⟨bytes, h1, h2⟩ := hs
  refine ⟨bytes, by rw [loader_fetched, h1]; rfl, ?_⟩
  rcases h2 with ⟨h2, h3⟩ | ⟨h2, j, b, h3, h4, h5⟩
  · left
    refine ⟨?_, h3⟩
    rw [Store.node] at h2
    simp only [answer, h2, Nat.lt_irrefl, gt_iff_lt, if_false]
  · right
    rw [Store.node] at h2 h3 h5
    refine ⟨?_, ?_⟩
    · rintro rfl
      have := slice_length h5
      simp at this
      omega
    · simp only [answer, gt_iff_lt, h2, if_true, Answer.bytes, h3, Option.map_some, Option.bind_some, h4]
      exact h5

/-- C108: when a get returns a pointer, the bytes there are those of the item with this key, read from the source collection,
whatever memory was refused before. -/
theorem C108_bytes {file : CStr} {f : FileColl} {fuel capacity : Nat} {s0 s s' : Store} {calls : List Call}
    (r : Reached file f fuel capacity s0 calls s) {key : UInt32} {m : Bool × Bool} {a : Answer}
    (h : get file f fuel s key m = some (s', a)) (hd : a.data ≠ none) :
    ∃ bytes, loader file f key = some (bytes, none) ∧ a.bytes s'.heap = some bytes := by
  obtain ⟨B, hB, hB'⟩ := fits_snoc (file := file) (f := f) (calls := calls) key m
  obtain ⟨evs, hs⟩ := r.holds hB
  obtain ⟨i, e, tn, ⟨n, -, -, -, rfl, k3⟩ | ⟨x, rfl, -⟩ | ⟨rfl, -⟩⟩ :=
    get_turn hs r.enough r.new hB' (fun _ => trivial) h
  · obtain ⟨bytes, h1, ⟨h2, -⟩ | ⟨-, h2⟩⟩ := answer_shows k3
    · exact absurd h2 hd
    · exact ⟨bytes, h1, h2⟩
  · exact absurd rfl hd
  · exact absurd rfl hd

/-- C108: as long as memory for the nodes was never refused, a get returns the item's bytes, or nothing for an empty item, or the
exception of the source collection, or `INSUFFICIENT_MEMORY` (or what comes before it) when memory for the item is refused; and
nothing without an exception only when all nodes of a shard are held. Missing: calls after memory for a node was refused, see
`C108_refused_violated`. -/
theorem C108_available_partial {file : CStr} {f : FileColl} {fuel capacity : Nat} {s0 s s' : Store} {calls : List Call}
    (r : Reached file f fuel capacity s0 calls s) (hc : ∀ key m, .get key m ∈ calls → m.2 = true) {key : UInt32} {ok : Bool}
    {a : Answer} (h : get file f fuel s key (ok, true) = some (s', a)) :
    (∃ bytes, loader file f key = some (bytes, none) ∧ a.handle ≠ none ∧ a.err = none ∧
      ((bytes = [] ∧ a.data = none) ∨ (bytes ≠ [] ∧ a.bytes s'.heap = some bytes))) ∨
    (∃ bytes er, loader file f key = some (bytes, some er) ∧ a = ⟨none, none, some (.read er)⟩) ∨
    (ok = false ∧ a = ⟨none, none, some (noMemory file f key)⟩) ∨
    (a = ⟨none, none, none⟩ ∧ ∃ i, i < s.cache.concurrency ∧ ∀ n, n < capacity → (s.cache.shards i).active n ≠ 0) := by
  obtain ⟨B, hB, hB'⟩ := fits_snoc (file := file) (f := f) (calls := calls) key (ok, true)
  have hB : Fits file f False B calls := fun k m hm => ⟨(hB k m hm).1, fun hx => by rw [hc k m hm] at hx; cases hx⟩
  obtain ⟨evs, hs⟩ := r.holds hB
  obtain ⟨i, e, tn, ⟨n, -, -, -, rfl, k3⟩ | ⟨x, rfl, hx⟩ | ⟨rfl, hi, hx⟩⟩ :=
    get_turn hs r.enough r.new hB' (by simp) h
  · obtain ⟨bytes, h1, h2⟩ := answer_shows k3
    refine .inl ⟨bytes, h1, by simp [answer], rfl, ?_⟩
    rcases h2 with ⟨h2, h3 | h3⟩ | h2
    · exact .inl ⟨h3, h2⟩
    · exact h3.elim
    · exact .inr h2
  · rcases hx with ⟨h1, rfl⟩ | ⟨er, h1, rfl⟩
    · exact .inr (.inr (.inl ⟨h1, rfl⟩))
    · exact .inr (.inl ⟨[], er, by rw [loader_fetched, h1]; rfl, rfl⟩)
  · refine .inr (.inr (.inr ⟨rfl, i, by rw [hs.concurrency]; exact hi, fun n hn => ?_⟩))
    obtain ⟨⟨m', t', l', iv⟩, -⟩ := hs.shard r.enough r.new hi
    exact ((iv.held n).1 (hx n hn)).2

/-- Nobody gives node `n` of shard `i` back for the last time before the last of the calls. -/
def Kept (file : CStr) (f : FileColl) (fuel : Nat) (s : Store) (i n : Nat) (calls : List Call) : Prop :=
  ∀ before after s' as, calls = before ++ after → after ≠ [] → run file f fuel s before = some (s', as) →
    (s'.cache.shards i).active n ≠ 0

theorem kept_run {file : CStr} {f : FileColl} {fuel capacity : Nat} {B : Nat} {s0 : Store} (hf : Enough capacity fuel)
    (h0 : New capacity s0) {i n : Nat} (hi : i < s0.cache.concurrency) (hn : n < capacity) :
    ∀ {calls : List Call} {s s' : Store} {evs : List (Nat × Event UInt32 Node)} {as : List Answer},
    Holds file f fuel capacity True B s0 s evs → Fits file f True B calls → run file f fuel s calls = some (s', as) →
    Kept file f fuel s i n calls →
    s'.node i n = s.node i n ∧ ∀ b, (s.node i n).ptr = some b → s'.heap.block b = s.heap.block b := by
  intro calls
  induction calls with
  | nil => intro s s' evs as hs _ h _; cases h; exact ⟨rfl, fun _ _ => rfl⟩
  | cons c cs ih =>
    intro s s' evs as hs hfit h hk
    rw [run] at h
    cases h1 : step file f fuel s c with
    | none => rw [h1] at h; cases h
    | some r =>
      obtain ⟨s1, a⟩ := r
      rw [h1] at h
      simp only at h
      cases h2 : run file f fuel s1 cs with
      | none => rw [h2] at h; cases h
      | some r2 =>
        rw [h2] at h
        cases h
        obtain ⟨j, e, tn⟩ := call_turn hs hf h0 (fun key m hm => hfit key m (by simp at hm; simp [hm])) h1
        obtain ⟨hs1, keep⟩ := holds_step hs hf h0 tn
        have hact : (s.cache.shards i).active n ≠ 0 := hk [] (c :: cs) s [] rfl (by simp) rfl
        obtain ⟨w1, w2⟩ := keep i n hi hn (by
          rintro k v ok ⟨rfl, rfl⟩
          obtain ⟨⟨m', t', l', iv⟩, hcap⟩ := hs.shard hf h0 hi
          obtain ⟨⟨op, hop⟩, -, -⟩ := tn
          obtain ⟨-, -, ⟨o, a3⟩, -⟩ := Cache.cacheStep_spec hop
          obtain ⟨-, -, kp, -⟩ := Cache.step_spec iv (by rw [hcap]; exact hf) a3
          have hall : n < (s.cache.shards i).allocated := by
            by_contra hx
            exact hact ((iv.unused n (by omega)).2.2.2 (by omega))
          have := (kp n hall hact).2.2
          simp [Event.isLoad] at this)
        obtain ⟨w3, w4⟩ := ih hs1 (fun key m hm => hfit key m (by simp [hm])) h2 (by
          intro before after s2 as2 e1 e2 e3
          refine hk (c :: before) after s2 (a.toList ++ as2) (by rw [e1]; rfl) e2 ?_
          rw [run, h1]
          simp only [e3, Option.map_some])
        refine ⟨by rw [w3, w1], fun b hb => ?_⟩
        rw [w4 b (by rw [w1]; exact hb), w2 b hb]

/-- C108: the bytes at the pointer a get returned stay while the node is held, whatever calls are made and whatever memory is
refused. -/
theorem C108_kept {file : CStr} {f : FileColl} {fuel capacity : Nat} {s0 s s1 s2 : Store} {calls calls' : List Call}
    (r : Reached file f fuel capacity s0 calls s) {key : UInt32} {m : Bool × Bool} {a : Answer}
    (h : get file f fuel s key m = some (s1, a)) {i n : Nat} (ha : a.handle = some (i, n)) {as : List Answer}
    (h2 : run file f fuel s1 calls' = some (s2, as)) (hk : Kept file f fuel s1 i n calls') :
    a.bytes s2.heap = a.bytes s1.heap := by
  obtain ⟨B, hB⟩ := fits_some file f (calls ++ .get key m :: calls')
  have hB1 : Fits file f True B calls := fun k mm hm => hB k mm (by simp [hm])
  have hB2 := hB key m (by simp)
  obtain ⟨evs, hs⟩ := r.holds hB1
  obtain ⟨j, e, tn, ⟨n', hn, k1, k2, rfl, k3⟩ | ⟨x, rfl, -⟩ | ⟨rfl, -⟩⟩ :=
    get_turn hs r.enough r.new (fits_fetched hB2.1) hB2.2 h
  · have ha : (some (j, n') : Option (Nat × Nat)) = some (i, n) := ha
    cases ha
    obtain ⟨-, w⟩ := kept_run r.enough r.new k1 k2 (holds_step hs r.enough r.new tn).1
      (fun k mm hm => hB k mm (by simp [hm])) h2 hk
    simp only [Answer.bytes, answer]
    split
    · cases hp : ((s1.cache.shards i).data n).ptr with
      | none => rfl
      | some b =>
        simp only [Option.map_some, Option.bind_some]
        rw [w b hp]
    · rfl
  · cases ha
  · cases ha

theorem freeNodes_spec (data : Nat → Node) (h : Heap) : ∀ n, (∀ x, x < n → OwnsN h (data x)) →
    (∀ x y b, x < n → y < n → (data x).ptr = some b → (data y).ptr = some b → x = y) →
    ∃ h', freeNodes data h n = some h' ∧ (∀ x b, x < n → (data x).ptr = some b → h'.block b = none) ∧
      ∀ b, (∀ x, x < n → (data x).ptr ≠ some b) → h'.block b = h.block b := by
  intro n
  induction n with
  | zero => intro _ _; exact ⟨h, rfl, by intro x b hx; omega, fun _ _ => rfl⟩
  | succ n ih =>
    intro ho hd
    obtain ⟨h1, e1, e2, e3⟩ := ih (fun x hx => ho x (by omega)) (fun x y b hx hy => hd x y b (by omega) (by omega))
    rw [freeNodes, e1]
    simp only
    rcases ho n (by omega) with ⟨a1, a2⟩ | ⟨j, bb, a1, a2, a3, a4⟩
    · rw [if_neg (by simp [a1])]
      refine ⟨h1, rfl, ?_, ?_⟩
      · intro x b hx hp
        by_cases hxn : x = n
        · subst hxn; rw [a1] at hp; cases hp
        · exact e2 x b (by omega) hp
      · intro b hb; exact e3 b fun x hx => hb x (by omega)
    · rw [if_pos (by simp [a1, a4]), a1]
      have hj : h1.block j = some bb := by
        rw [e3 j]
        · exact a2
        · intro x hx hp
          have := hd x n j (by omega) (by omega) hp a1
          omega
      obtain ⟨h2, f1, f2, f3, -⟩ := free_block hj
      refine ⟨h2, by simpa using f1, ?_, ?_⟩
      · intro x b hx hp
        by_cases hbj : b = j
        · rw [hbj, f2]
        · rw [f3 b hbj]
          refine e2 x b ?_ hp
          have : x ≠ n := by rintro rfl; rw [a1] at hp; cases hp; exact hbj rfl
          omega
      · intro b hb
        have hbj : b ≠ j := by rintro rfl; exact hb n (by omega) a1
        rw [f3 b hbj]
        exact e3 b fun x hx => hb x (by omega)

/-- C108: freeing the collection frees every block it kept, each once, and nothing else: the heap has the blocks it had when the
collection was created. -/
theorem C108_freed {file : CStr} {f : FileColl} {fuel capacity : Nat} {s0 s : Store} {calls : List Call}
    (r : Reached file f fuel capacity s0 calls s) : ∃ h, free s = some h ∧ ∀ b, h.block b = s0.heap.block b := by
  obtain ⟨B, hB⟩ := fits_some file f calls
  obtain ⟨evs, hs⟩ := r.holds hB
  have key : ∀ k, k ≤ s0.cache.concurrency → ∃ h', freeShards s.cache s.heap k = some h' ∧
      (∀ i n b, i < k → n < capacity → (s.node i n).ptr = some b → h'.block b = none) ∧
      ∀ b, (∀ i n, i < k → n < capacity → (s.node i n).ptr ≠ some b) → h'.block b = s.heap.block b := by
    intro k
    induction k with
    | zero => intro _; exact ⟨s.heap, rfl, by intro i n b hi; omega, fun _ _ => rfl⟩
    | succ k ih =>
      intro hk
      obtain ⟨h1, e1, e2, e3⟩ := ih (by omega)
      rw [freeShards, e1]
      simp only
      rw [(hs.shard r.enough r.new (i := k) (by omega)).2]
      obtain ⟨h2, f1, f2, f3⟩ := freeNodes_spec (s.cache.shards k).data h1 capacity
        (fun x hx => (hs.owns k x (by omega) hx).same fun b hb => e3 b fun i n hi hn hp => by
          have := hs.apart i n k x b (by omega) hn (by omega) hx hp hb
          omega)
        (fun x y b hx hy hp hq => (hs.apart k x k y b (by omega) hx (by omega) hy hp hq).2)
      refine ⟨h2, f1, ?_, ?_⟩
      · intro i n b hi hn hp
        by_cases hik : i = k
        · subst hik; exact f2 n b hn hp
        · rw [f3 b]
          · exact e2 i n b (by omega) hn hp
          · intro x hx hq
            have := hs.apart i n k x b (by omega) hn (by omega) hx hp hq
            omega
      · intro b hb
        rw [f3 b fun x hx => hb k x (by omega) hx]
        exact e3 b fun i n hi hn => hb i n (by omega) hn
  obtain ⟨h, e1, e2, e3⟩ := key _ (Nat.le_refl _)
  refine ⟨h, by rw [free, hs.concurrency]; exact e1, fun b => ?_⟩
  by_cases hb : ∃ i n, i < s0.cache.concurrency ∧ n < capacity ∧ (s.node i n).ptr = some b
  · obtain ⟨i, n, hi, hn, hp⟩ := hb
    rw [e2 i n b hi hn hp, r.new.1 b (hs.since i n b hi hn hp)]
  · have hb : ∀ i n, i < s0.cache.concurrency → n < capacity → (s.node i n).ptr ≠ some b :=
      fun i n hi hn hp => hb ⟨i, n, hi, hn, hp⟩
    rw [e3 b hb, hs.others b hb]

/-! ## Concrete calls -/

/-- New memory for a shard. -/
def anyMemory : Shard Node where
  tree := ⟨fun _ => 7, fun _ => .null, fun _ => .root, fun _ => .null, fun _ => .red⟩
  capacity := 9
  allocated := 3
  first := some 4
  last := some 2
  next := fun n => some n
  prev := fun n => some (n + 1)
  active := fun _ => 5
  data := fun _ => ⟨some 3, 4, 5⟩

/-- A cache of one shard with two nodes, in a heap which has one block already. -/
def start : Option Store :=
  (Cache.shardInit Node.reset 2 anyMemory).map fun s => ⟨⟨1, fun b => if b = 0 then some c!"mine" else none⟩, ⟨1, fun _ => s, 0, 0⟩⟩

/-- The strings of `stringFile`: of 3, 1 and 2 bytes after the length, at the offsets 0, 4 and 6. -/
def strings : FileColl := ⟨1, 9, 0, 0, .variable 1 lengthByte⟩

/-- Whether each get gave a handle, the block and size, the exception; at the end the first blocks. -/
def play (calls : List Call) : Option (List Answer × List (Option CStr)) :=
  start.bind fun s => (run stringFile strings 12 s calls).map fun r => (r.2, (List.range 7).map r.1.heap.block)

theorem start_new : ∃ s, start = some s ∧ New 2 s := by
  obtain ⟨t, h1, -⟩ := Cache.shardInit_spec (K := UInt32) keyHash Node.reset 2 anyMemory
  refine ⟨_, by rw [start, h1]; rfl, ?_, Nat.zero_lt_one, rfl, rfl, fun i _ => ⟨anyMemory, h1⟩⟩
  intro j hj
  have hj : 1 ≤ j := hj
  show (if j = 0 then _ else _) = _
  rw [if_neg (by omega)]

/-- Both nodes are filled, one is given back, its memory is used again for a shorter string and then replaced for a longer one. -/
example : play [.get 6 (true, true), .get 4 (true, true), .release 0 0, .get 0 (true, true)] =
    some ([⟨some (0, 0), some (2, 3), none⟩, ⟨some (0, 1), some (4, 2), none⟩, ⟨some (0, 0), some (6, 4), none⟩],
      [some c!"mine", none, none, none, some [1, 100], none, some [3, 97, 98, 99]]) := by decide +kernel

/-- Memory for an item is refused: the node keeps the memory it had, and nobody can release it (see C07). -/
example : play [.get 0 (true, true), .release 0 0, .get 4 (true, true), .get 6 (false, true), .get 6 (true, true)] =
    some ([⟨some (0, 0), some (2, 4), none⟩, ⟨some (0, 1), some (4, 2), none⟩, ⟨none, none, some .memory⟩,
      ⟨none, none, none⟩], [some c!"mine", none, some [3, 97, 98, 99], none, some [1, 100], none, none]) := by decide +kernel

/-- C108 does not hold as stated: memory for the node is refused once. The get returns nothing and no exception, and the key is in
the cache all the same: the next get, with memory, finds it and again returns nothing without an exception. -/
theorem C108_refused_violated : loader stringFile strings 4 = some ([1, 100], none) ∧
    play [.get 4 (true, false), .release 0 0, .get 4 (true, true)] =
    some ([⟨some (0, 0), none, none⟩, ⟨some (0, 0), none, none⟩], [some c!"mine", none, none, none, none, none, none]) := by
  decide +kernel

/-- The hypotheses of the theorems are met there. -/
example : ∃ s0 s, Reached stringFile strings 12 2 s0
    [.get 6 (true, true), .get 4 (true, true), .release 0 0, .get 0 (true, true)] s ∧
    s.heap.block 6 = some [3, 97, 98, 99] := by
  obtain ⟨s0, h1, h2⟩ := start_new
  have h3 : (start.bind fun s => (run stringFile strings 12 s
      [.get 6 (true, true), .get 4 (true, true), .release 0 0, .get 0 (true, true)]).map fun r => r.1.heap.block 6) =
      some (some [3, 97, 98, 99]) := by decide +kernel
  rw [h1, Option.bind_some] at h3
  cases h4 : run stringFile strings 12 s0 [.get 6 (true, true), .get 4 (true, true), .release 0 0, .get 0 (true, true)] with
  | none => rw [h4] at h3; cases h3
  | some r =>
    rw [h4] at h3
    exact ⟨s0, r.1, ⟨by unfold Enough; decide +kernel, h2, r.2, h4⟩, by simpa using h3⟩

end Verif.Collection.Nodes
