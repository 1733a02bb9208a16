import Verif.Cache.Props

/-! # C87: the cache with any number of threads

`fiftyoneDegreesCacheGet` and `fiftyoneDegreesCacheRelease` (cache.c:382-434) step by step, by any number of threads in
any order. A thread that needs the lock of a shard (cache.c:391, 424) goes on when no thread has it. With the lock, each
statement that reads or writes the shard is a step; a function of the tree or of the list is one step, as is the call of
the loader, which may take as long as it likes. The counts of hits and misses belong to the whole cache; their reads and
writes are steps of their own. A caller that was given a node reads its data without any lock.

`step` is `none` for a step that cannot be taken now and for undefined behaviour; that a thread with a lock can always go
on is a theorem. -/

namespace Verif.Cache.Threads

variable {K V : Type}

/-- Where a thread is. -/
inductive Pc (K V : Type) where
  /-- In no call of the cache. -/
  | idle
  /-- Get: before the lock of the shard, cache.c:391. -/
  | get (i : Nat) (k : K)
  /-- Before `fiftyoneDegreesTreeFind`, cache.c:395. -/
  | find (i : Nat) (k : K)
  /-- Before `node->activeCount++`, cache.c:177. -/
  | increment (i : Nat) (k : K) (n : Nat)
  /-- Before the test of the count, cache.c:178. -/
  | check (i : Nat) (k : K) (n : Nat)
  /-- Before the read of `cache->hits++`, cache.c:401. -/
  | hits (i : Nat) (k : K) (n : Nat)
  /-- Before its write. -/
  | hitsWrite (i : Nat) (k : K) (n : Nat) (count : Nat)
  /-- Before `cacheGetNextFree`, cache.c:272. -/
  | next (i : Nat) (k : K)
  /-- In the loader, cache.c:278-282. -/
  | loading (i : Nat) (k : K) (n : Nat)
  /-- Before `node->tree.key = …` and `TreeInsert`, cache.c:286-287. -/
  | insert (i : Nat) (k : K) (n : Nat) (v : V)
  /-- Before the read of `cache->misses++`, cache.c:407. -/
  | misses (i : Nat) (e : Event K V)
  /-- Before its write. -/
  | missesWrite (i : Nat) (e : Event K V) (count : Nat)
  /-- Release: before the lock of the shard, cache.c:424. -/
  | release (i n : Nat)
  /-- Before `node->activeCount--`, cache.c:427. -/
  | decrement (i n : Nat)
  /-- Before the test of the count, cache.c:428. -/
  | add (i n : Nat)
  /-- Before the unlock, cache.c:411 and 432, after which the call returns. -/
  | leave (i : Nat) (e : Event K V)
deriving DecidableEq, Repr

/-- The cache, its locks (the thread that has it), the threads, and what the callers hold: how often a node was returned
less the calls of release. The last is not part of the code; it says which calls of release a program may make. -/
structure State (K V : Type) where
  concurrency : Nat
  shards : Nat → Shard V
  locks : Nat → Option Nat
  hits : Nat
  misses : Nat
  pcs : List (Pc K V)
  held : Nat → Nat → Nat

/-- What a thread does next: a call, the next step of its call, or the return of the loader with its data and with the
exception okay or not. -/
inductive Act (K V : Type) where
  | get (k : K)
  | release (i n : Nat)
  | run
  | answer (v : V) (ok : Bool)
deriving DecidableEq, Repr

def State.goto (s : State K V) (t : Nat) (pc : Pc K V) : State K V := { s with pcs := s.pcs.set t pc }

/-- Steps with the lock of the shard that read and write only the shard: cache.c:272-274 (with 217-258), 286-287,
395-400 (with 176-181) and 426-430. -/
def micro (hash : K → Int) (fuel : Nat) (sh : Shard V) : Pc K V → Option (Shard V × Pc K V)
  | .find i k =>
    match Tree.find fuel sh.tree (hash k) with
    | some (.node n) => some (sh, .increment i k n)
    | some .null => some (sh, .next i k)
    | _ => none
  | .increment i k n => some ({ sh with active := set sh.active n (sh.active n + 1) }, .check i k n)
  | .check i k n => some (if sh.active n = 1 then removeFromList sh n else sh, .hits i k n)
  | .next i k =>
    match getNextFree fuel sh with
    | some (sh, some n) => some ({ sh with active := set sh.active n 1 }, .loading i k n)
    | some (sh, none) => some (sh, .misses i (.full k))
    | none => none
  | .insert i k n v =>
    ((sh.tree.setKey (.node n) (hash k)).bind fun tree => Tree.insert fuel tree (.node n)).map fun tree =>
      ({ sh with tree := tree }, .misses i (.loaded k v true n))
  | .decrement i n =>
    if n < sh.capacity ∧ sh.active n ≠ 0 then
      some ({ sh with active := set sh.active n (sh.active n - 1) }, .add i n)
    else none
  | .add i n => (if sh.active n = 0 then addToHead sh n else some sh).map fun sh => (sh, .leave i (.released n))
  | _ => none

/-- The shard whose lock the thread has. -/
def Pc.inside : Pc K V → Option Nat
  | .find i _ | .increment i _ _ | .check i _ _ | .hits i _ _ | .hitsWrite i _ _ _ | .next i _ | .loading i _ _
  | .insert i _ _ _ | .misses i _ | .missesWrite i _ _ | .decrement i _ | .add i _ | .leave i _ => some i
  | _ => none

/-- The caller has the node the event returned, if any. -/
def State.hand (s : State K V) (i : Nat) : Event K V → State K V
  | .hit _ n | .loaded _ _ _ n => { s with held := set s.held i (set (s.held i) n (s.held i n + 1)) }
  | _ => s

/-- A step of thread `t` in a call. The second part is what a call that returns did, with the shard. -/
def State.run (hash : K → Int) (fuel : Nat) (s : State K V) (t : Nat) : Pc K V → Option (State K V × Option (Nat × Event K V))
  | .get i k => if s.locks i = none then some (({ s with locks := set s.locks i (some t) }).goto t (.find i k), none) else none
  | .release i n =>
    if s.locks i = none then some (({ s with locks := set s.locks i (some t) }).goto t (.decrement i n), none) else none
  | .hits i k n => some (s.goto t (.hitsWrite i k n s.hits), none)
  | .hitsWrite i k n count => some (({ s with hits := inc64 count }).goto t (.leave i (.hit k n)), none)
  | .misses i e => some (s.goto t (.missesWrite i e s.misses), none)
  | .missesWrite i e count => some (({ s with misses := inc64 count }).goto t (.leave i e), none)
  | .leave i e => some ((({ s with locks := set s.locks i none }).hand i e).goto t .idle, some (i, e))
  | pc => pc.inside.bind fun i => (micro hash fuel (s.shards i) pc).map fun r =>
    (({ s with shards := set s.shards i r.1 }).goto t r.2, none)

/-- The loader returns, cache.c:278-285. -/
def State.answer (s : State K V) (t : Nat) (v : V) (ok : Bool) : Pc K V → Option (State K V)
  | .loading i k n =>
    some (({ s with shards := set s.shards i { s.shards i with data := set (s.shards i).data n v } }).goto t
      (if ok then .insert i k n v else .misses i (.loaded k v false n)))
  | _ => none

/-- One step of one thread. A call of get works out the shard (cache.c:387-388); release is called with a node that was
returned and not given back yet, by this thread or another. -/
def step (hash : K → Int) (fuel : Nat) (s : State K V) (t : Nat) (a : Act K V) :
    Option (State K V × Option (Nat × Event K V)) :=
  match s.pcs[t]? with
  | none => none
  | some pc =>
    match a with
    | .get k =>
      match pc, shardIndex s.concurrency (hash k) with
      | .idle, some i => if 0 ≤ i ∧ i.toNat < s.concurrency then some (s.goto t (.get i.toNat k), none) else none
      | _, _ => none
    | .release i n =>
      match pc with
      | .idle =>
        if s.held i n ≠ 0 then
          some (({ s with held := set s.held i (set (s.held i) n (s.held i n - 1)) }).goto t (.release i n), none)
        else none
      | _ => none
    | .run => s.run hash fuel t pc
    | .answer v ok => (s.answer t v ok pc).map (·, none)

abbrev Schedule (K V : Type) := List (Nat × Act K V)

/-- The steps of a schedule, with what the calls that returned did, in the order of their returns. -/
def exec (hash : K → Int) (fuel : Nat) (s : State K V) : Schedule K V → Option (State K V × List (Nat × Event K V))
  | [] => some (s, [])
  | (t, a) :: rest =>
    (step hash fuel s t a).bind fun r => (exec hash fuel r.1 rest).map fun q => (q.1, r.2.toList ++ q.2)

/-! ## Specification -/

/-- What the calls on one shard did. -/
def eventsOf (i : Nat) (log : List (Nat × Event K V)) : List (Event K V) := (log.filter (·.1 = i)).map (·.2)

/-- A new cache: every shard was initialised in any memory, no lock is taken, no thread is in a call. -/
structure Start (capacity : Nat) (s : State K V) : Prop where
  shards : ∀ i, ∃ d0 mem, shardInit d0 capacity mem = some (s.shards i)
  locks : ∀ i, s.locks i = none
  counts : s.hits = 0 ∧ s.misses = 0
  idle : ∀ pc ∈ s.pcs, pc = .idle
  held : ∀ i n, s.held i n = 0

/-- No thread is in a call. -/
def Quiet (s : State K V) : Prop := ∀ pc ∈ s.pcs, pc = .idle

/-- The state after any schedule on a new cache, with what the calls did. -/
structure Reached (hash : K → Int) (fuel capacity : Nat) (s : State K V) (log : List (Nat × Event K V)) : Prop where
  intro ::
  enough : Enough capacity fuel
  reached : ∃ s0 sched, Start capacity s0 ∧ exec hash fuel s0 sched = some (s, log)

/-- The key a get was for. -/
def Event.key : Event K V → Option K
  | .hit k _ | .loaded k _ _ _ | .full k => some k
  | .released _ => none

/-- What the loader gives for a key whenever it succeeds. -/
def Answers (hash : K → Int) (fuel : Nat) (f : K → V) : State K V → Schedule K V → Prop
  | _, [] => True
  | s, (t, a) :: rest =>
    (∀ v i k n, a = .answer v true → s.pcs[t]? = some (.loading i k n) → v = f k) ∧
      ∀ r, step hash fuel s t a = some r → Answers hash fuel f r.1 rest

/-- The number of steps a thread has left until its call returns, at most. -/
def Pc.left : Pc K V → Nat
  | .idle => 0
  | .leave .. => 1
  | .hitsWrite .. | .missesWrite .. | .add .. => 2
  | .hits .. | .misses .. | .decrement .. => 3
  | .check .. | .insert .. | .release .. => 4
  | .increment .. | .loading .. => 5
  | .next .. => 6
  | .find .. => 7
  | .get .. => 8

def Event.isHit : Event K V → Bool
  | .hit _ _ => true
  | _ => false

def Event.isMiss : Event K V → Bool
  | .loaded .. | .full _ => true
  | _ => false

/-! ## Proofs -/

/-- The thread is in a release of node `n` of shard `i`. -/
def Pc.releasing (i n : Nat) : Pc K V → Bool
  | .release j m | .decrement j m | .add j m | .leave j (.released m) => decide (j = i ∧ m = n)
  | _ => false

/-- What a thread in its section has done to the shard `a` it found. -/
def Mid (hash : K → Int) (fuel : Nat) (a c : Shard V) : Pc K V → Prop
  | .find _ _ => c = a
  | .increment _ k n => c = a ∧ Tree.find fuel a.tree (hash k) = some (.node n)
  | .check _ k n => c = { a with active := set a.active n (a.active n + 1) } ∧
      Tree.find fuel a.tree (hash k) = some (.node n)
  | .hits _ k n | .hitsWrite _ k n _ => c = incrementCheckAndRemove a n ∧ Tree.find fuel a.tree (hash k) = some (.node n)
  | .next _ k => c = a ∧ Tree.find fuel a.tree (hash k) = some .null
  | .loading _ k n => ∃ s1, getNextFree fuel a = some (s1, some n) ∧ c = { s1 with active := set s1.active n 1 } ∧
      Tree.find fuel a.tree (hash k) = some .null
  | .insert _ k n v => ∃ s1, getNextFree fuel a = some (s1, some n) ∧
      c = { s1 with active := set s1.active n 1, data := set s1.data n v } ∧
      Tree.find fuel a.tree (hash k) = some .null
  | .misses _ e | .missesWrite _ e _ => ∃ k v ok, shardGet hash fuel a k v ok = some (c, e)
  | .decrement _ _ => c = a
  | .add _ n => (n < a.capacity ∧ a.active n ≠ 0) ∧ c = { a with active := set a.active n (a.active n - 1) }
  | .leave _ e => ∃ op, Cache.step hash fuel a op = some (c, e)
  | _ => False

theorem shardGet_null {hash : K → Int} {fuel : Nat} {a : Shard V} {k : K}
    (h : Tree.find fuel a.tree (hash k) = some .null) (v : V) (ok : Bool) :
    shardGet hash fuel a k v ok = (load fuel a (hash k) v ok).map fun r =>
      match r with
      | (s, some n) => (s, .loaded k v ok n)
      | (s, none) => (s, .full k) := by
  rw [shardGet, h]
  simp only [Option.bind_eq_bind, Option.bind_some]
  cases load fuel a (hash k) v ok with
  | none => rfl
  | some r => obtain ⟨s, o⟩ := r; cases o <;> rfl

theorem shardGet_node {hash : K → Int} {fuel : Nat} {a : Shard V} {k : K} {n : Nat}
    (h : Tree.find fuel a.tree (hash k) = some (.node n)) (v : V) (ok : Bool) :
    shardGet hash fuel a k v ok = some (incrementCheckAndRemove a n, .hit k n) := by
  rw [shardGet, h]; rfl

theorem load_some {fuel : Nat} {a s1 : Shard V} {n : Nat} {key : Int} (h : getNextFree fuel a = some (s1, some n))
    (v : V) : load fuel a key v false = some ({ s1 with active := set s1.active n 1, data := set s1.data n v }, some n) ∧
      load fuel a key v true = ((s1.tree.setKey (.node n) key).bind fun tree => Tree.insert fuel tree (.node n)).map
        fun tree => ({ s1 with active := set s1.active n 1, data := set s1.data n v, tree := tree }, some n) := by
  constructor
  · rw [load, h]; rfl
  · rw [load, h]
    simp only [Option.bind_eq_bind, Option.bind_some, if_true]
    cases s1.tree.setKey (.node n) key with
    | none => rfl
    | some tree =>
      simp only [Option.bind_some]
      cases Tree.insert fuel tree (.node n) <;> rfl

theorem load_none {fuel : Nat} {a s1 : Shard V} {key : Int} (h : getNextFree fuel a = some (s1, none)) (v : V) (ok : Bool) :
    load fuel a key v ok = some (s1, none) := by
  rw [load, h]; rfl

theorem micro_mid [Nonempty V] {hash : K → Int} {fuel : Nat} {a c c' : Shard V} {pc pc' : Pc K V} (h : Mid hash fuel a c pc)
    (hs : micro hash fuel c pc = some (c', pc')) : Mid hash fuel a c' pc' ∧ pc'.inside = pc.inside ∧
      ∀ i n, pc'.releasing i n = pc.releasing i n := by
  cases pc with
  | find i k =>
    cases h
    rw [micro] at hs
    split at hs
    · next n hf => cases hs; exact ⟨⟨rfl, hf⟩, rfl, fun _ _ => rfl⟩
    · next hf => cases hs; exact ⟨⟨rfl, hf⟩, rfl, fun _ _ => rfl⟩
    · cases hs
  | increment i k n =>
    obtain ⟨rfl, hf⟩ := h
    cases hs
    exact ⟨⟨rfl, hf⟩, rfl, fun _ _ => rfl⟩
  | check i k n =>
    obtain ⟨rfl, hf⟩ := h
    cases hs
    exact ⟨⟨rfl, hf⟩, rfl, fun _ _ => rfl⟩
  | next i k =>
    obtain ⟨rfl, hf⟩ := h
    rw [micro] at hs
    split at hs
    · next s1 n hg => cases hs; exact ⟨⟨s1, hg, rfl, hf⟩, rfl, fun _ _ => rfl⟩
    · next s1 hg =>
      cases hs
      obtain ⟨v⟩ := ‹Nonempty V›
      refine ⟨⟨k, v, true, ?_⟩, rfl, fun _ _ => rfl⟩
      rw [shardGet_null hf, load_none hg]; rfl
    · cases hs
  | insert i k n v =>
    obtain ⟨s1, hg, rfl, hf⟩ := h
    rw [micro, Option.map_eq_some_iff] at hs
    obtain ⟨tree, ht, hs⟩ := hs
    cases hs
    refine ⟨⟨k, v, true, ?_⟩, rfl, fun _ _ => rfl⟩
    rw [shardGet_null hf, (load_some hg v).2, ht]; rfl
  | decrement i n =>
    cases h
    rw [micro] at hs
    split at hs
    · next hc => cases hs; exact ⟨⟨hc, rfl⟩, rfl, fun _ _ => rfl⟩
    · cases hs
  | add i n =>
    obtain ⟨hc, rfl⟩ := h
    rw [micro, Option.map_eq_some_iff] at hs
    obtain ⟨s1, h1, hs⟩ := hs
    cases hs
    refine ⟨⟨.release n, ?_⟩, rfl, fun _ _ => rfl⟩
    rw [Cache.step, shardRelease, if_pos hc]
    simp only
    rw [h1]; rfl
  | _ => cases hs

theorem removeFromList_data (s : Shard V) (n : Nat) : (removeFromList s n).data = s.data := by
  unfold removeFromList fixPrev fixNext
  cases s.next n <;> cases s.prev n <;> simp only <;> split <;> rfl

theorem getNextFree_data {fuel : Nat} {a s1 : Shard V} {n : Nat} (h : getNextFree fuel a = some (s1, some n)) :
    s1.data = a.data ∧ (n = a.allocated ∨ a.active n = 0) := by
  rw [getNextFree] at h
  split at h
  · simp only [Option.bind_eq_bind] at h
    cases h1 : Tree.nodeRemove a.tree (.node a.allocated) with
    | none => rw [h1] at h; cases h
    | some tree => rw [h1] at h; cases h; exact ⟨rfl, .inl rfl⟩
  · split at h
    · cases h
    · next m hm =>
      split at h
      · next h0 =>
        simp only [Option.bind_eq_bind] at h
        cases h1 : Tree.delete fuel (removeFromList a m).tree (.node m) with
        | none => rw [h1] at h; cases h
        | some tree =>
          rw [h1, Option.bind_some] at h
          cases h2 : Tree.nodeRemove tree (.node m) with
          | none => rw [h2] at h; cases h
          | some tree2 =>
            rw [h2] at h
            cases h
            exact ⟨removeFromList_data a _, .inr h0⟩
      · cases h

/-- A node that is in use keeps its data, whatever the thread with the lock has done so far. -/
theorem mid_data {hash : K → Int} {fuel : Nat} {a c : Shard V} {evs m t l} (i : Inv hash a evs m t l)
    (hf : Enough a.capacity fuel) {pc : Pc K V} (h : Mid hash fuel a c pc) {n : Nat} (h1 : n < a.allocated)
    (h2 : a.active n ≠ 0) : c.data n = a.data n := by
  cases pc with
  | find j k => cases h; rfl
  | increment j k m => rw [h.1]
  | check j k m => rw [h.1]
  | hits j k m | hitsWrite j k m count =>
    rw [h.1, incrementCheckAndRemove]
    simp only
    split
    · rw [removeFromList_data]
    · rfl
  | next j k => rw [h.1]
  | loading j k m =>
    obtain ⟨s1, hg, rfl, -⟩ := h
    rw [(getNextFree_data hg).1]
  | insert j k m v =>
    obtain ⟨s1, hg, rfl, -⟩ := h
    show set s1.data m v n = a.data n
    obtain ⟨h3, h4⟩ := getNextFree_data hg
    rw [set_ne _ _ (by rintro rfl; rcases h4 with h4 | h4 <;> omega), h3]
  | misses j e | missesWrite j e count =>
    obtain ⟨k, v, ok, hg⟩ := h
    exact ((step_spec i hf (op := .get k v ok) hg).2.2.1 n h1 h2).1
  | decrement j m => cases h; rfl
  | add j m => rw [h.2]
  | leave j e =>
    obtain ⟨op, ho⟩ := h
    exact ((step_spec i hf ho).2.2.1 n h1 h2).1
  | _ => cases h

/-- A thread with a lock can go on. -/
theorem micro_defined {hash : K → Int} {fuel : Nat} {a c : Shard V} {evs m t l} (i : Inv hash a evs m t l)
    (hf : Enough a.capacity fuel) {pc : Pc K V} (h : Mid hash fuel a c pc)
    (hd : ∀ j n, pc = .decrement j n → n < a.allocated ∧ a.active n ≠ 0) :
    (∃ r, micro hash fuel c pc = some r) ∨ (∃ j k n, pc = .hits j k n) ∨ (∃ j k n x, pc = .hitsWrite j k n x) ∨
      (∃ j e, pc = .misses j e) ∨ (∃ j e x, pc = .missesWrite j e x) ∨ (∃ j k n, pc = .loading j k n) ∨
      ∃ j e, pc = .leave j e := by
  cases pc with
  | find j k =>
    cases h
    left
    rcases i.find hf (hash k) with ⟨n, -, e⟩ | ⟨-, e⟩
    · exact ⟨_, by rw [micro, e]⟩
    · exact ⟨_, by rw [micro, e]⟩
  | increment j k n => exact .inl ⟨_, rfl⟩
  | check j k n => exact .inl ⟨_, rfl⟩
  | next j k =>
    obtain ⟨rfl, e⟩ := h
    left
    obtain ⟨s', e', m', t', l', hg, -⟩ := get_spec i hf k (c.data 0) false
    rw [shardGet_null e] at hg
    cases h1 : getNextFree fuel c with
    | none => rw [load, h1] at hg; cases hg
    | some r =>
      obtain ⟨s1, o⟩ := r
      cases o with
      | none => exact ⟨_, by rw [micro, h1]⟩
      | some n => exact ⟨_, by rw [micro, h1]⟩
  | insert j k n v =>
    obtain ⟨s1, h1, rfl, e⟩ := h
    left
    obtain ⟨s', e', m', t', l', hg, -⟩ := get_spec i hf k v true
    rw [shardGet_null e, (load_some h1 v).2] at hg
    cases h2 : (s1.tree.setKey (.node n) (hash k)).bind fun tree => Tree.insert fuel tree (.node n) with
    | none => rw [h2] at hg; cases hg
    | some tree => exact ⟨_, by rw [micro]; simp only; rw [h2]; rfl⟩
  | decrement j n =>
    cases h
    obtain ⟨h1, h2⟩ := hd j n rfl
    have := i.allocated
    exact .inl ⟨_, by rw [micro, if_pos ⟨by omega, h2⟩]⟩
  | add j n =>
    obtain ⟨h1, rfl⟩ := h
    left
    have h3 : n < a.allocated ∧ a.active n ≠ 0 := by
      refine ⟨Classical.byContradiction fun hh => ?_, h1.2⟩
      exact h1.2 ((i.unused n (by omega)).2.2.2 h1.1)
    rcases release_spec i n with ⟨h4, -⟩ | ⟨s', l', -, h4, -⟩
    · exact absurd h3 h4
    · rw [shardRelease, if_pos h1] at h4
      simp only at h4
      exact ⟨_, by rw [micro, h4]; rfl⟩
  | hits j k n => exact .inr (.inl ⟨j, k, n, rfl⟩)
  | hitsWrite j k n x => exact .inr (.inr (.inl ⟨j, k, n, x, rfl⟩))
  | misses j e => exact .inr (.inr (.inr (.inl ⟨j, e, rfl⟩)))
  | missesWrite j e x => exact .inr (.inr (.inr (.inr (.inl ⟨j, e, x, rfl⟩))))
  | loading j k n => exact .inr (.inr (.inr (.inr (.inr (.inl ⟨j, k, n, rfl⟩)))))
  | leave j e => exact .inr (.inr (.inr (.inr (.inr (.inr ⟨j, e, rfl⟩)))))
  | _ => cases h

/-- What holds at every point: `A i` is the shard as the calls that returned, one after the other, leave it; a shard whose
lock is free is in that state, one whose lock is taken in the state its thread has brought it to. -/
structure TInv (hash : K → Int) (fuel capacity : Nat) (s : State K V) (log : List (Nat × Event K V)) (A : Nat → Shard V) :
    Prop where
  after : ∀ i, ∃ ops, After hash fuel capacity ops (A i) (eventsOf i log)
  free : ∀ i, s.locks i = none → s.shards i = A i
  owned : ∀ i t, s.locks i = some t → ∃ pc, s.pcs[t]? = some pc ∧ pc.inside = some i ∧
    Mid hash fuel (A i) (s.shards i) pc
  inside : ∀ t pc i, s.pcs[t]? = some pc → pc.inside = some i → s.locks i = some t
  held : ∀ i n, gets n (eventsOf i log) = s.held i n + s.pcs.countP (Pc.releasing i n) + releases n (eventsOf i log)

theorem eventsOf_snoc (i j : Nat) (log : List (Nat × Event K V)) (e : Event K V) :
    eventsOf i (log ++ [(j, e)]) = eventsOf i log ++ if j = i then [e] else [] := by
  simp only [eventsOf, List.filter_append, List.map_append]
  by_cases h : j = i <;> simp [h]

theorem getElem?_set_eq {α : Type} {l : List α} {t u : Nat} {x y : α} (h : l[t]? = some x) :
    (l.set t y)[u]? = if u = t then some y else l[u]? := by
  have : t < l.length := (List.getElem?_eq_some_iff.1 h).1
  rw [List.getElem?_set]
  by_cases hu : t = u
  · subst hu; simp [this]
  · rw [if_neg hu, if_neg (Ne.symm hu)]

theorem countP_set' {α : Type} {p : α → Bool} {l : List α} {t : Nat} {x y : α} (h : l[t]? = some x) :
    (l.set t y).countP p + (if p x then 1 else 0) = l.countP p + if p y then 1 else 0 := by
  obtain ⟨ht, hx⟩ := List.getElem?_eq_some_iff.1 h
  rw [List.countP_set ht, hx]
  have : (if p x then 1 else 0) ≤ l.countP p := by
    split
    · next hp => exact List.countP_pos_iff.2 ⟨x, hx ▸ List.getElem_mem ht, hp⟩
    · omega
  omega

variable {hash : K → Int} {fuel capacity : Nat} {s s' : State K V} {log : List (Nat × Event K V)} {A : Nat → Shard V}

theorem TInv.nonempty (h : TInv hash fuel capacity s log A) : Nonempty V := ⟨(A 0).data 0⟩

/-- A thread outside all sections goes to another point outside. -/
theorem TInv.outside (h : TInv hash fuel capacity s log A) {t : Nat} {pc pc' : Pc K V} (hpc : s.pcs[t]? = some pc)
    (ho : pc.inside = none) (ho' : pc'.inside = none) (e1 : s'.shards = s.shards) (e2 : s'.locks = s.locks)
    (e3 : s'.pcs = s.pcs.set t pc')
    (e4 : ∀ i n, s'.held i n + s'.pcs.countP (Pc.releasing i n) = s.held i n + s.pcs.countP (Pc.releasing i n)) :
    TInv hash fuel capacity s' log A := by
  refine ⟨h.after, ?_, ?_, ?_, ?_⟩
  · rw [e1, e2]; exact h.free
  · intro i u hu
    rw [e2] at hu
    obtain ⟨q, h1, h2, h3⟩ := h.owned i u hu
    refine ⟨q, ?_, h2, by rw [e1]; exact h3⟩
    rw [e3, getElem?_set_eq hpc, if_neg, h1]
    rintro rfl
    rw [hpc] at h1; cases h1
    rw [ho] at h2; cases h2
  · intro u q i hq hi
    rw [e3, getElem?_set_eq hpc] at hq
    rw [e2]
    split at hq
    · cases hq; rw [ho'] at hi; cases hi
    · exact h.inside u q i hq hi
  · intro i n
    rw [h.held, ← e4]

/-- A thread takes a lock that is free. -/
theorem TInv.lock (h : TInv hash fuel capacity s log A) {t i : Nat} {pc pc' : Pc K V} (hpc : s.pcs[t]? = some pc)
    (ho : pc.inside = none) (ho' : pc'.inside = some i) (hl : s.locks i = none)
    (hm : Mid hash fuel (A i) (A i) pc') (hr : ∀ j n, pc'.releasing j n = pc.releasing j n)
    (e1 : s'.shards = s.shards) (e2 : s'.locks = set s.locks i (some t)) (e3 : s'.pcs = s.pcs.set t pc')
    (e4 : s'.held = s.held) : TInv hash fuel capacity s' log A := by
  refine ⟨h.after, ?_, ?_, ?_, ?_⟩
  · intro j hj
    rw [e2] at hj
    have hji : j ≠ i := by rintro rfl; simp at hj
    rw [set_ne _ _ hji] at hj
    rw [e1]; exact h.free j hj
  · intro j u hu
    rw [e2] at hu
    by_cases hji : j = i
    · subst hji
      rw [set_self] at hu
      cases hu
      exact ⟨pc', by rw [e3, getElem?_set_eq hpc, if_pos rfl], ho', by rw [e1, h.free _ hl]; exact hm⟩
    · rw [set_ne _ _ hji] at hu
      obtain ⟨q, h1, h2, h3⟩ := h.owned j u hu
      refine ⟨q, ?_, h2, by rw [e1]; exact h3⟩
      rw [e3, getElem?_set_eq hpc, if_neg, h1]
      rintro rfl
      rw [hpc] at h1; cases h1
      rw [ho] at h2; cases h2
  · intro u q j hq hj
    rw [e3, getElem?_set_eq hpc] at hq
    rw [e2]
    split at hq
    · next hu => cases hq; rw [ho'] at hj; cases hj; rw [set_self, hu]
    · have := h.inside u q j hq hj
      rw [set_ne _ _ (by rintro rfl; rw [hl] at this; cases this), this]
  · intro j n
    have := countP_set' (p := Pc.releasing j n) (y := pc') hpc
    rw [hr j n] at this
    rw [h.held, e4, e3]; omega

/-- A thread goes on inside its section. -/
theorem TInv.move (h : TInv hash fuel capacity s log A) {t i : Nat} {pc pc' : Pc K V} {c : Shard V}
    (hpc : s.pcs[t]? = some pc)
    (ho : pc.inside = some i) (ho' : pc'.inside = some i)
    (hm : Mid hash fuel (A i) c pc') (hr : ∀ j n, pc'.releasing j n = pc.releasing j n)
    (e1 : ∀ j, s'.shards j = if j = i then c else s.shards j) (e2 : s'.locks = s.locks) (e3 : s'.pcs = s.pcs.set t pc')
    (e4 : s'.held = s.held) : TInv hash fuel capacity s' log A := by
  have hlock := h.inside t pc i hpc ho
  refine ⟨h.after, ?_, ?_, ?_, ?_⟩
  · intro j hj
    rw [e2] at hj
    rw [e1, if_neg (by rintro rfl; rw [hlock] at hj; cases hj)]
    exact h.free j hj
  · intro j u hu
    rw [e2] at hu
    by_cases hji : j = i
    · subst hji
      rw [hlock] at hu
      cases hu
      exact ⟨pc', by rw [e3, getElem?_set_eq hpc, if_pos rfl], ho', by rw [e1, if_pos rfl]; exact hm⟩
    · obtain ⟨q, h1, h2, h3⟩ := h.owned j u hu
      refine ⟨q, ?_, h2, by rw [e1, if_neg hji]; exact h3⟩
      rw [e3, getElem?_set_eq hpc, if_neg, h1]
      rintro rfl
      rw [hpc] at h1; cases h1
      rw [ho] at h2; cases h2; exact hji rfl
  · intro u q j hq hj
    rw [e3, getElem?_set_eq hpc] at hq
    rw [e2]
    split at hq
    · next hu => cases hq; rw [ho'] at hj; cases hj; rw [hlock, hu]
    · exact h.inside u q j hq hj
  · intro j n
    have := countP_set' (p := Pc.releasing j n) (y := pc') hpc
    rw [hr j n] at this
    rw [h.held, e4, e3]; omega

theorem hand_fields (s : State K V) (i : Nat) (e : Event K V) : (s.hand i e).shards = s.shards ∧
    (s.hand i e).locks = s.locks ∧ (s.hand i e).pcs = s.pcs ∧ (s.hand i e).hits = s.hits ∧ (s.hand i e).misses = s.misses ∧
    (s.hand i e).concurrency = s.concurrency ∧
    ∀ j n, (s.hand i e).held j n = s.held j n + if j = i ∧ e.isGet n then 1 else 0 := by
  have aux : ∀ m j n, set s.held i (set (s.held i) m (s.held i m + 1)) j n =
      s.held j n + if j = i ∧ decide (m = n) = true then 1 else 0 := by
    intro m j n
    by_cases hj : j = i
    · subst hj
      by_cases hn : m = n
      · subst hn; simp
      · rw [set_self, set_ne _ _ (Ne.symm hn)]; simp [hn]
    · rw [set_ne _ _ hj]; simp [hj]
  cases e with
  | hit k m => exact ⟨rfl, rfl, rfl, rfl, rfl, rfl, aux m⟩
  | loaded k v ok m => exact ⟨rfl, rfl, rfl, rfl, rfl, rfl, aux m⟩
  | full k => exact ⟨rfl, rfl, rfl, rfl, rfl, rfl, fun j n => by simp [State.hand, Event.isGet]⟩
  | released m => exact ⟨rfl, rfl, rfl, rfl, rfl, rfl, fun j n => by simp [State.hand, Event.isGet]⟩

theorem releasing_leave (i j n : Nat) (e : Event K V) : (Pc.leave i e).releasing j n = (decide (i = j) && e.isRelease n) := by
  cases e with
  | released m => simp only [Pc.releasing, Event.isRelease]; by_cases h : i = j <;> by_cases h' : m = n <;> simp [h, h']
  | _ => simp [Pc.releasing, Event.isRelease]

/-- A thread gives its lock back and returns. -/
theorem TInv.leave (h : TInv hash fuel capacity s log A) {t i : Nat} {e : Event K V}
    (hpc : s.pcs[t]? = some (.leave i e)) :
    TInv hash fuel capacity ((({ s with locks := set s.locks i none } : State K V).hand i e).goto t .idle)
      (log ++ [(i, e)]) (set A i (s.shards i)) := by
  have hlock := h.inside t _ i hpc rfl
  obtain ⟨f1, f2, f3, -, -, -, f7⟩ := hand_fields ({ s with locks := set s.locks i none } : State K V) i e
  obtain ⟨pc, h1, -, hm⟩ := h.owned i t hlock
  rw [hpc] at h1
  cases h1
  obtain ⟨op, ho⟩ := hm
  have g1 : ((({ s with locks := set s.locks i none } : State K V).hand i e).goto t .idle).pcs = s.pcs.set t .idle := by
    show List.set _ _ _ = _; rw [f3]
  refine ⟨?_, ?_, ?_, ?_, ?_⟩
  · intro j
    obtain ⟨ops, ha⟩ := h.after j
    rw [eventsOf_snoc]
    by_cases hj : i = j
    · subst hj
      rw [if_pos rfl, set_self]
      exact ⟨_, ha.more ho⟩
    · rw [if_neg hj, List.append_nil, set_ne _ _ (Ne.symm hj)]
      exact ⟨ops, ha⟩
  · intro j hj
    replace hj : (({ s with locks := set s.locks i none } : State K V).hand i e).locks j = none := hj
    show (({ s with locks := set s.locks i none } : State K V).hand i e).shards j = _
    rw [f1]
    rw [f2] at hj
    by_cases hji : j = i
    · subst hji; rw [set_self]
    · rw [set_ne _ _ hji]
      exact h.free j (by simpa [set_ne _ _ hji] using hj)
  · intro j u hu
    replace hu : (({ s with locks := set s.locks i none } : State K V).hand i e).locks j = some u := hu
    rw [f2] at hu
    have hji : j ≠ i := by rintro rfl; simp at hu
    simp only [set_ne _ _ hji] at hu
    obtain ⟨q, h1, h2, h3⟩ := h.owned j u hu
    refine ⟨q, ?_, h2, ?_⟩
    · rw [g1, getElem?_set_eq hpc, if_neg, h1]
      rintro rfl
      rw [hpc] at h1; cases h1
      cases h2; exact hji rfl
    · show Mid hash fuel (set A i (s.shards i) j) ((({ s with locks := set s.locks i none } : State K V).hand i e).shards j) q
      rw [f1, set_ne _ _ hji]; exact h3
  · intro u q j hq hj
    rw [g1, getElem?_set_eq hpc] at hq
    show (({ s with locks := set s.locks i none } : State K V).hand i e).locks j = some u
    rw [f2]
    split at hq
    · cases hq; cases hj
    · next hu =>
      have := h.inside u q j hq hj
      have hji : j ≠ i := by rintro rfl; rw [hlock] at this; cases this; exact hu rfl
      simp only [set_ne _ _ hji]; exact this
  · intro j n
    have hc := countP_set' (p := Pc.releasing j n) (y := Pc.idle) hpc
    rw [releasing_leave] at hc
    rw [g1]
    show _ = (({ s with locks := set s.locks i none } : State K V).hand i e).held j n + _ + _
    rw [f7, eventsOf_snoc]
    have hh := h.held j n
    have hi : (Pc.idle : Pc K V).releasing j n = false := rfl
    rw [hi] at hc
    by_cases hj : i = j
    · subst hj
      simp only [if_true, gets_snoc, releases_snoc, decide_true, Bool.true_and, true_and] at hc ⊢
      simp only [Bool.false_eq_true, if_false] at hc
      omega
    · have hj' : ¬ j = i := Ne.symm hj
      simp only [hj, hj', decide_false, Bool.false_and, Bool.false_eq_true, if_false, List.append_nil, false_and] at hc ⊢
      omega

theorem TInv.run (h : TInv hash fuel capacity s log A) {t : Nat} {pc : Pc K V} (hpc : s.pcs[t]? = some pc)
    {r : Option (Nat × Event K V)} (hs : s.run hash fuel t pc = some (s', r)) :
    ∃ A', TInv hash fuel capacity s' (log ++ r.toList) A' := by
  have hne := h.nonempty
  have mid : ∀ i, pc.inside = some i → Mid hash fuel (A i) (s.shards i) pc := by
    intro i hi
    obtain ⟨q, h1, -, h3⟩ := h.owned i t (h.inside t pc i hpc hi)
    rw [hpc] at h1; cases h1; exact h3
  have stay : ∀ i, ∀ j, s.shards j = if j = i then s.shards i else s.shards j := by
    intro i j; split
    · next e => rw [e]
    · rfl
  have small : (∀ i k, pc ≠ .get i k) → (∀ i n, pc ≠ .release i n) → (∀ i k n, pc ≠ .hits i k n) →
      (∀ i k n x, pc ≠ .hitsWrite i k n x) → (∀ i e, pc ≠ .misses i e) → (∀ i e x, pc ≠ .missesWrite i e x) →
      (∀ i e, pc ≠ .leave i e) → ∃ A', TInv hash fuel capacity s' (log ++ r.toList) A' := by
    intro n1 n2 n3 n4 n5 n6 n7
    have hs' : (pc.inside.bind fun i => (micro hash fuel (s.shards i) pc).map fun r =>
        (({ s with shards := set s.shards i r.1 }).goto t r.2, (none : Option (Nat × Event K V)))) = some (s', r) := by
      rw [State.run.eq_def] at hs
      split at hs
      · exact absurd rfl (n1 _ _)
      · exact absurd rfl (n2 _ _)
      · exact absurd rfl (n3 _ _ _)
      · exact absurd rfl (n4 _ _ _ _)
      · exact absurd rfl (n5 _ _)
      · exact absurd rfl (n6 _ _ _)
      · exact absurd rfl (n7 _ _)
      · exact hs
    rw [Option.bind_eq_some_iff] at hs'
    obtain ⟨i, hi, hs'⟩ := hs'
    rw [Option.map_eq_some_iff] at hs'
    obtain ⟨q, hq, hs'⟩ := hs'
    cases hs'
    obtain ⟨m1, m2, m3⟩ := micro_mid (mid i hi) hq
    refine ⟨A, ?_⟩
    rw [Option.toList_none, List.append_nil]
    exact h.move hpc hi (m2.trans hi) m1 m3 (fun j => rfl) rfl rfl rfl
  cases pc with
  | get i k =>
    rw [State.run] at hs
    split at hs
    · next hl =>
      cases hs
      refine ⟨A, ?_⟩
      rw [Option.toList_none, List.append_nil]
      exact h.lock (pc' := .find i k) hpc rfl rfl hl rfl (fun _ _ => rfl) rfl rfl rfl rfl
    · cases hs
  | release i n =>
    rw [State.run] at hs
    split at hs
    · next hl =>
      cases hs
      refine ⟨A, ?_⟩
      rw [Option.toList_none, List.append_nil]
      exact h.lock (pc' := .decrement i n) hpc rfl rfl hl rfl (fun _ _ => rfl) rfl rfl rfl rfl
    · cases hs
  | hits i k n =>
    cases hs
    refine ⟨A, ?_⟩
    rw [Option.toList_none, List.append_nil]
    exact h.move (pc' := .hitsWrite i k n s.hits) hpc rfl rfl (mid i rfl) (fun _ _ => rfl) (stay i) rfl rfl rfl
  | hitsWrite i k n x =>
    cases hs
    refine ⟨A, ?_⟩
    rw [Option.toList_none, List.append_nil]
    obtain ⟨m1, m2⟩ := mid i rfl
    refine h.move (pc' := .leave i (.hit k n)) (c := s.shards i) hpc rfl rfl ?_ (fun _ _ => rfl) (stay i) rfl rfl rfl
    obtain ⟨v⟩ := hne
    exact ⟨.get k v true, by rw [m1]; exact shardGet_node m2 v true⟩
  | misses i e =>
    cases hs
    refine ⟨A, ?_⟩
    rw [Option.toList_none, List.append_nil]
    exact h.move (pc' := .missesWrite i e s.misses) hpc rfl rfl (mid i rfl) (fun _ _ => rfl) (stay i) rfl rfl rfl
  | missesWrite i e x =>
    cases hs
    refine ⟨A, ?_⟩
    rw [Option.toList_none, List.append_nil]
    obtain ⟨k, v, ok, m1⟩ := mid i rfl
    refine h.move (pc' := .leave i e) (c := s.shards i) hpc rfl rfl ⟨.get k v ok, m1⟩ (fun j n => ?_) (stay i) rfl rfl rfl
    rw [releasing_leave]
    have : e.isRelease n = false := by
      obtain ⟨ops, ha⟩ := h.after i
      obtain ⟨⟨m, t', l, inv⟩, hc⟩ := ha.inv
      have hd := (step_spec inv (by rw [hc]; exact ha.enough) (op := .get k v ok) m1).2.2.2.1 k v ok rfl
      rcases hd with ⟨n', -, rfl⟩ | ⟨-, ⟨-, -, rfl⟩ | ⟨n', rfl, -⟩⟩ <;> rfl
    rw [this, Bool.and_false]; rfl
  | leave i e =>
    cases hs
    exact ⟨_, h.leave hpc⟩
  | idle => cases hs
  | loading i k n => cases hs
  | _ => exact small nofun nofun nofun nofun nofun nofun nofun

theorem TInv.step (h : TInv hash fuel capacity s log A) {t : Nat} {a : Act K V}
    {r : Option (Nat × Event K V)} (hs : Threads.step hash fuel s t a = some (s', r)) :
    ∃ A', TInv hash fuel capacity s' (log ++ r.toList) A' := by
  rw [Threads.step] at hs
  cases hpc : s.pcs[t]? with
  | none => rw [hpc] at hs; cases hs
  | some pc =>
    rw [hpc] at hs
    simp only at hs
    cases a with
    | get k =>
      simp only at hs
      split at hs
      · next j _ =>
        split at hs
        · cases hs
          refine ⟨A, ?_⟩
          rw [Option.toList_none, List.append_nil]
          refine h.outside (pc' := .get j.toNat k) hpc rfl rfl rfl rfl rfl fun i n => ?_
          have hc := countP_set' (p := Pc.releasing i n) (y := Pc.get j.toNat k) hpc
          show s.held i n + (s.pcs.set t _).countP _ = _
          have h1 : (Pc.idle : Pc K V).releasing i n = false := rfl
          have h2 : ∀ j, (Pc.get j k : Pc K V).releasing i n = false := fun _ => rfl
          rw [h1, h2] at hc
          omega
        · cases hs
      · cases hs
    | release i n =>
      simp only at hs
      split at hs
      · split at hs
        · next hh =>
          cases hs
          refine ⟨A, ?_⟩
          rw [Option.toList_none, List.append_nil]
          refine h.outside (pc' := .release i n) hpc rfl rfl rfl rfl rfl fun j m => ?_
          have hc := countP_set' (p := Pc.releasing j m) (y := Pc.release i n) hpc
          show set s.held i (set (s.held i) n (s.held i n - 1)) j m + (s.pcs.set t _).countP _ = _
          have h1 : (Pc.idle : Pc K V).releasing j m = false := rfl
          have h2 : (Pc.release i n : Pc K V).releasing j m = decide (i = j ∧ n = m) := rfl
          rw [h1, h2] at hc
          simp only [Bool.false_eq_true, if_false, decide_eq_true_eq] at hc
          by_cases hj : i = j
          · subst hj
            rw [set_self]
            by_cases hm : n = m
            · subst hm; rw [set_self]; simp only [and_self, if_true] at hc; omega
            · rw [set_ne _ _ (Ne.symm hm)]; simp only [hm, and_false, if_false] at hc; omega
          · rw [set_ne _ _ (Ne.symm hj)]; simp only [hj, false_and, if_false] at hc; omega
        · cases hs
      · cases hs
    | run => exact h.run hpc hs
    | answer v ok =>
      simp only [Option.map_eq_some_iff] at hs
      obtain ⟨s1, h1, hs⟩ := hs
      cases hs
      refine ⟨A, ?_⟩
      rw [Option.toList_none, List.append_nil]
      cases pc with
      | loading i k n =>
        cases h1
        obtain ⟨q, g1, -, g3⟩ := h.owned i t (h.inside t _ i hpc rfl)
        rw [hpc] at g1; cases g1
        obtain ⟨s2, g4, g5, g6⟩ := g3
        cases ok with
        | true =>
          refine h.move (pc' := .insert i k n v) hpc rfl rfl ⟨s2, g4, ?_, g6⟩ (fun _ _ => rfl) (fun j => rfl) rfl rfl rfl
          rw [g5]
        | false =>
          refine h.move (pc' := .misses i (.loaded k v false n)) hpc rfl rfl ⟨k, v, false, ?_⟩ (fun _ _ => rfl) (fun j => rfl)
            rfl rfl rfl
          rw [shardGet_null g6, (load_some g4 v).1, g5]
          rfl
      | _ => cases h1

theorem TInv.exec {sched : Schedule K V} : ∀ {s s' : State K V} {log log' : List (Nat × Event K V)} {A : Nat → Shard V},
    TInv hash fuel capacity s log A → Threads.exec hash fuel s sched = some (s', log') →
    ∃ A', TInv hash fuel capacity s' (log ++ log') A' := by
  induction sched with
  | nil => intro s s' log log' A h he; cases he; exact ⟨A, by rwa [List.append_nil]⟩
  | cons x rest ih =>
    intro s s' log log' A h he
    obtain ⟨t, a⟩ := x
    rw [Threads.exec, Option.bind_eq_some_iff] at he
    obtain ⟨⟨s1, r⟩, h1, he⟩ := he
    rw [Option.map_eq_some_iff] at he
    obtain ⟨⟨s2, q⟩, h2, he⟩ := he
    cases he
    obtain ⟨A1, i1⟩ := h.step h1
    obtain ⟨A2, i2⟩ := ih i1 h2
    exact ⟨A2, by rwa [List.append_assoc] at i2⟩

theorem Reached.inv (h : Reached hash fuel capacity s log) : ∃ A, TInv hash fuel capacity s log A := by
  obtain ⟨hf, s0, sched, h0, he⟩ := h
  have : TInv hash fuel capacity s0 [] s0.shards := by
    refine ⟨fun i => ?_, fun _ _ => rfl, fun i t ht => ?_, fun t pc i hpc hi => ?_, fun i n => ?_⟩
    · obtain ⟨d0, mem, h1⟩ := h0.shards i
      exact ⟨[], hf, d0, mem, _, h1, rfl⟩
    · rw [h0.locks] at ht; cases ht
    · rw [h0.idle pc (List.mem_of_getElem? hpc)] at hi; cases hi
    · have : s0.pcs.countP (Pc.releasing i n) = 0 := by
        rw [List.countP_eq_zero]
        intro pc hpc
        rw [h0.idle pc hpc]; exact Bool.false_ne_true
      rw [h0.held, this]; rfl
  obtain ⟨A, h1⟩ := this.exec he
  exact ⟨A, h1⟩

/-! ## C87 -/

/-- C87: with any number of threads in any order, each shard is, whenever its lock is free, as the calls that returned
leave it when they are made one after the other in the order of their returns, and they returned what they then return. So
C04 to C06 hold of each shard with its calls in this order. -/
theorem C87_serial (h : Reached hash fuel capacity s log) (i : Nat) :
    ∃ ops a, After hash fuel capacity ops a (eventsOf i log) ∧ (s.locks i = none → s.shards i = a) := by
  obtain ⟨A, h⟩ := h.inv
  obtain ⟨ops, ha⟩ := h.after i
  exact ⟨ops, A i, ha, h.free i⟩

/-- C87: two threads are never at work in the same shard. -/
theorem C87_exclusive (h : Reached hash fuel capacity s log) {t u i : Nat} {pc pc' : Pc K V} (ht : s.pcs[t]? = some pc)
    (hu : s.pcs[u]? = some pc') (hi : pc.inside = some i) (hi' : pc'.inside = some i) : t = u := by
  obtain ⟨A, h⟩ := h.inv
  have := (h.inside t pc i ht hi).symm.trans (h.inside u pc' i hu hi')
  cases this; rfl

theorem TInv.used (h : TInv hash fuel capacity s log A) {i n : Nat}
    (hn : s.held i n + s.pcs.countP (Pc.releasing i n) ≠ 0) : n < (A i).allocated ∧ (A i).active n ≠ 0 := by
  obtain ⟨ops, ha⟩ := h.after i
  obtain ⟨⟨m, t, l, inv⟩, -⟩ := ha.inv
  refine (inv.held n).1 ?_
  have := h.held i n
  unfold Cache.held
  omega

/-- C87: a node someone holds has the data of the last load into it, at every moment, whatever the other threads are in the
middle of. -/
theorem C87_data (h : Reached hash fuel capacity s log) {i n : Nat} (hn : s.held i n ≠ 0) :
    ∃ k v ok, lastLoad n (eventsOf i log) = some (k, v, ok) ∧ (s.shards i).data n = v := by
  obtain ⟨A, h⟩ := h.inv
  obtain ⟨u1, u2⟩ := h.used (i := i) (n := n) (by omega)
  obtain ⟨ops, ha⟩ := h.after i
  obtain ⟨⟨m, t, l, inv⟩, hc⟩ := ha.inv
  obtain ⟨k, v, ok, h1, h2, -⟩ := inv.loads n u1
  refine ⟨k, v, ok, h1, ?_⟩
  rw [← h2]
  cases hl : s.locks i with
  | none => rw [h.free i hl]
  | some u =>
    obtain ⟨pc, -, -, h3⟩ := h.owned i u hl
    exact mid_data inv (by rw [hc]; exact ha.enough) h3 u1 u2

/-- C87: a get returns a node with the data loaded for its key. -/
theorem C87_get (inj : ∀ a b, hash a = hash b → a = b) (h : Reached hash fuel capacity s log) {t i n : Nat} {a : Act K V}
    {e : Event K V} (hs : step hash fuel s t a = some (s', some (i, e))) (hn : e.isGet n) :
    ∃ k v ok, Event.key e = some k ∧ lastLoad n (eventsOf i log ++ [e]) = some (k, v, ok) ∧ (s'.shards i).data n = v ∧
      (ok = true ∨ e = .loaded k v false n) := by
  obtain ⟨A, h⟩ := h.inv
  rw [step] at hs
  cases hpc : s.pcs[t]? with
  | none => rw [hpc] at hs; cases hs
  | some pc =>
    rw [hpc] at hs
    simp only at hs
    cases a with
    | get k =>
      simp only at hs
      split at hs
      · split at hs <;> cases hs
      · cases hs
    | release i n =>
      simp only at hs
      split at hs
      · split at hs <;> cases hs
      · cases hs
    | answer v ok =>
      simp only [Option.map_eq_some_iff] at hs
      obtain ⟨s1, h1, hs⟩ := hs
      cases hs
    | run =>
      simp only at hs
      cases pc with
      | leave j e' =>
        cases hs
        obtain ⟨q, g1, -, g3⟩ := h.owned i t (h.inside t _ i hpc rfl)
        rw [hpc] at g1; cases g1
        obtain ⟨op, ho⟩ := g3
        obtain ⟨ops, ha⟩ := h.after i
        have hsh : ((({ s with locks := set s.locks i none } : State K V).hand i e).goto t .idle).shards i = s.shards i := by
          show (({ s with locks := set s.locks i none } : State K V).hand i e).shards i = _
          rw [(hand_fields _ i e).1]
        rw [hsh]
        cases op with
        | get k v ok =>
          obtain ⟨v', ok', h1, h2, h3⟩ := C04_get inj ha ho hn
          have hk : Event.key e = some k := by
            obtain ⟨⟨m, t', l, inv⟩, hc⟩ := ha.inv
            rcases (step_spec inv (by rw [hc]; exact ha.enough) ho).2.2.2.1 k v ok rfl with
              ⟨n', -, rfl⟩ | ⟨-, ⟨-, -, rfl⟩ | ⟨n', rfl, -⟩⟩ <;> rfl
          refine ⟨k, v', ok', hk, h1, h2, ?_⟩
          rcases h3 with h3 | ⟨rfl, h3⟩
          · exact .inl h3
          · right
            subst h3
            rw [lastLoad_snoc] at h1
            simp only [Event.isGet, decide_eq_true_eq] at hn
            simp only [hn, if_true, Option.some.injEq, Prod.mk.injEq] at h1
            rw [h1.2.1]
        | release m =>
          obtain ⟨⟨m', t', l, inv⟩, hc⟩ := ha.inv
          have := (step_spec inv (by rw [hc]; exact ha.enough) ho).2.2.2.2 m rfl
          rw [this.1] at hn
          cases hn
      | get i k => rw [State.run] at hs; split at hs <;> cases hs
      | release i k => rw [State.run] at hs; split at hs <;> cases hs
      | hits i k n => cases hs
      | hitsWrite i k n x => cases hs
      | misses i e => cases hs
      | missesWrite i e x => cases hs
      | _ =>
        simp only [State.run, Pc.inside, Option.bind_none, Option.bind_some, Option.map_eq_some_iff] at hs
        first
          | (obtain ⟨q, -, hs⟩ := hs; cases hs)
          | cases hs

/-- C87: a thread with a lock can always go on, one that waits can go on when the lock is free, and so some thread can
go on as long as there is one in a call. -/
theorem C87_progress (h : Reached hash fuel capacity s log) {t : Nat} {pc : Pc K V} (hpc : s.pcs[t]? = some pc) :
    (∀ i, pc.inside = some i → (∃ r, step hash fuel s t .run = some r) ∨
      ∀ v ok, ∃ r, step hash fuel s t (.answer v ok) = some r) ∧
    (∀ i k, pc = .get i k → s.locks i = none → ∃ r, step hash fuel s t .run = some r) ∧
    (∀ i n, pc = .release i n → s.locks i = none → ∃ r, step hash fuel s t .run = some r) ∧
    (pc ≠ .idle → ∃ u, (∃ r, step hash fuel s u .run = some r) ∨ ∀ v ok, ∃ r, step hash fuel s u (.answer v ok) = some r) := by
  obtain ⟨A, h⟩ := h.inv
  have key : ∀ t pc i, s.pcs[t]? = some pc → pc.inside = some i → (∃ r, step hash fuel s t .run = some r) ∨
      ∀ v ok, ∃ r, step hash fuel s t (.answer v ok) = some r := by
    intro t pc i hpc hi
    obtain ⟨q, g1, -, g3⟩ := h.owned i t (h.inside t pc i hpc hi)
    rw [hpc] at g1; cases g1
    obtain ⟨ops, ha⟩ := h.after i
    obtain ⟨⟨m, t', l, inv⟩, hc⟩ := ha.inv
    have hd : ∀ j n, pc = .decrement j n → n < (A i).allocated ∧ (A i).active n ≠ 0 := by
      rintro j n rfl
      cases hi
      refine h.used ?_
      have : 0 < s.pcs.countP (Pc.releasing i n) :=
        List.countP_pos_iff.2 ⟨_, List.mem_of_getElem? hpc, by simp [Pc.releasing]⟩
      omega
    have run : ∀ r, s.run hash fuel t pc = some r → step hash fuel s t .run = some r := by
      intro r hr; rw [step, hpc]; exact hr
    rcases micro_defined inv (by rw [hc]; exact ha.enough) g3 hd with ⟨r, hr⟩ | ⟨j, k, n, rfl⟩ | ⟨j, k, n, x, rfl⟩ |
      ⟨j, e, rfl⟩ | ⟨j, e, x, rfl⟩ | ⟨j, k, n, rfl⟩ | ⟨j, e, rfl⟩
    · left
      cases pc with
      | idle => cases hi
      | get => cases hi
      | release => cases hi
      | hits => cases hr
      | hitsWrite => cases hr
      | misses => cases hr
      | missesWrite => cases hr
      | leave => cases hr
      | loading => cases hr
      | _ =>
        cases hi
        refine Exists.imp run ?_
        simp only [State.run, Pc.inside, Option.bind_some, hr, Option.map_some]
        exact ⟨_, rfl⟩
    · exact .inl ⟨_, run _ rfl⟩
    · exact .inl ⟨_, run _ rfl⟩
    · exact .inl ⟨_, run _ rfl⟩
    · exact .inl ⟨_, run _ rfl⟩
    · right
      intro v ok
      exact ⟨_, by rw [step, hpc]; rfl⟩
    · exact .inl ⟨_, run _ rfl⟩
  have wait : ∀ i k, pc = .get i k → s.locks i = none → ∃ r, step hash fuel s t .run = some r := by
    rintro i k rfl hl
    exact ⟨_, by rw [step, hpc]; simp only [State.run, if_pos hl]; rfl⟩
  have wait' : ∀ i n, pc = .release i n → s.locks i = none → ∃ r, step hash fuel s t .run = some r := by
    rintro i n rfl hl
    exact ⟨_, by rw [step, hpc]; simp only [State.run, if_pos hl]; rfl⟩
  refine ⟨fun i hi => key t pc i hpc hi, wait, wait', fun hne => ?_⟩
  have other : ∀ i, s.locks i ≠ none → ∃ u, (∃ r, step hash fuel s u .run = some r) ∨
      ∀ v ok, ∃ r, step hash fuel s u (.answer v ok) = some r := by
    intro i hl
    cases hl' : s.locks i with
    | none => exact absurd hl' hl
    | some u =>
      obtain ⟨q, g1, g2, -⟩ := h.owned i u hl'
      exact ⟨u, key u q i g1 g2⟩
  cases hin : pc.inside with
  | some i => exact ⟨t, key t pc i hpc hin⟩
  | none =>
    cases pc with
    | idle => exact absurd rfl hne
    | get i k =>
      by_cases hl : s.locks i = none
      · exact ⟨t, .inl (wait i k rfl hl)⟩
      · exact other i hl
    | release i n =>
      by_cases hl : s.locks i = none
      · exact ⟨t, .inl (wait' i n rfl hl)⟩
      · exact other i hl
    | _ => cases hin

/-- What a step does to the place of its thread and to the counts. -/
inductive Next (hash : K → Int) (s : State K V) : Act K V → Pc K V → Pc K V → Option (Nat × Event K V) → Nat → Nat → Prop
  | get {k : K} {i : Int} : shardIndex s.concurrency (hash k) = some i → i.toNat < s.concurrency →
      Next hash s (.get k) .idle (.get i.toNat k) none s.hits s.misses
  | release (i n : Nat) : Next hash s (.release i n) .idle (.release i n) none s.hits s.misses
  | getLock (i : Nat) (k : K) : s.locks i = none → Next hash s .run (.get i k) (.find i k) none s.hits s.misses
  | releaseLock (i n : Nat) : s.locks i = none → Next hash s .run (.release i n) (.decrement i n) none s.hits s.misses
  | found (i : Nat) (k : K) (n : Nat) : Next hash s .run (.find i k) (.increment i k n) none s.hits s.misses
  | missing (i : Nat) (k : K) : Next hash s .run (.find i k) (.next i k) none s.hits s.misses
  | increment (i : Nat) (k : K) (n : Nat) : Next hash s .run (.increment i k n) (.check i k n) none s.hits s.misses
  | check (i : Nat) (k : K) (n : Nat) : Next hash s .run (.check i k n) (.hits i k n) none s.hits s.misses
  | hits (i : Nat) (k : K) (n : Nat) : Next hash s .run (.hits i k n) (.hitsWrite i k n s.hits) none s.hits s.misses
  | hitsWrite (i : Nat) (k : K) (n x : Nat) :
      Next hash s .run (.hitsWrite i k n x) (.leave i (.hit k n)) none (inc64 x) s.misses
  | next (i : Nat) (k : K) (n : Nat) : Next hash s .run (.next i k) (.loading i k n) none s.hits s.misses
  | full (i : Nat) (k : K) : Next hash s .run (.next i k) (.misses i (.full k)) none s.hits s.misses
  | loaded (i : Nat) (k : K) (n : Nat) (v : V) :
      Next hash s (.answer v true) (.loading i k n) (.insert i k n v) none s.hits s.misses
  | failed (i : Nat) (k : K) (n : Nat) (v : V) :
      Next hash s (.answer v false) (.loading i k n) (.misses i (.loaded k v false n)) none s.hits s.misses
  | insert (i : Nat) (k : K) (n : Nat) (v : V) :
      Next hash s .run (.insert i k n v) (.misses i (.loaded k v true n)) none s.hits s.misses
  | misses (i : Nat) (e : Event K V) : Next hash s .run (.misses i e) (.missesWrite i e s.misses) none s.hits s.misses
  | missesWrite (i : Nat) (e : Event K V) (x : Nat) :
      Next hash s .run (.missesWrite i e x) (.leave i e) none s.hits (inc64 x)
  | decrement (i n : Nat) : Next hash s .run (.decrement i n) (.add i n) none s.hits s.misses
  | add (i n : Nat) : Next hash s .run (.add i n) (.leave i (.released n)) none s.hits s.misses
  | leave (i : Nat) (e : Event K V) : Next hash s .run (.leave i e) .idle (some (i, e)) s.hits s.misses

theorem micro_next {hash : K → Int} {fuel : Nat} {s : State K V} {sh sh' : Shard V} {pc pc' : Pc K V}
    (h : micro hash fuel sh pc = some (sh', pc')) : Next hash s .run pc pc' none s.hits s.misses := by
  cases pc with
  | find i k =>
    rw [micro] at h
    split at h <;> cases h
    · exact .found ..
    · exact .missing ..
  | increment i k n => cases h; exact .increment ..
  | check i k n => cases h; exact .check ..
  | next i k =>
    rw [micro] at h
    split at h <;> cases h
    · exact .next ..
    · exact .full ..
  | insert i k n v =>
    simp only [micro, Option.map_eq_some_iff] at h
    obtain ⟨t, -, h⟩ := h
    cases h; exact .insert ..
  | decrement i n =>
    rw [micro] at h
    split at h <;> cases h
    exact .decrement ..
  | add i n =>
    simp only [micro, Option.map_eq_some_iff] at h
    obtain ⟨t, -, h⟩ := h
    cases h; exact .add ..
  | _ => cases h

theorem step_next {hash : K → Int} {fuel : Nat} {s s' : State K V} {t : Nat} {a : Act K V}
    {r : Option (Nat × Event K V)} (h : step hash fuel s t a = some (s', r)) :
    ∃ pc pc' x y, s.pcs[t]? = some pc ∧ s'.pcs = s.pcs.set t pc' ∧ s'.concurrency = s.concurrency ∧ s'.hits = x ∧
      s'.misses = y ∧ Next hash s a pc pc' r x y := by
  rw [step] at h
  cases hpc : s.pcs[t]? with
  | none => rw [hpc] at h; cases h
  | some pc =>
    rw [hpc] at h
    simp only at h
    refine ⟨pc, ?_⟩
    cases a with
    | get k =>
      simp only at h
      split at h
      · next j hj =>
        split at h
        · next hb => cases h; exact ⟨_, _, _, rfl, rfl, rfl, rfl, rfl, .get hj hb.2⟩
        · cases h
      · cases h
    | release i n =>
      simp only at h
      split at h
      · split at h
        · cases h; exact ⟨_, _, _, rfl, rfl, rfl, rfl, rfl, .release ..⟩
        · cases h
      · cases h
    | answer v ok =>
      simp only [Option.map_eq_some_iff] at h
      obtain ⟨s1, h1, h⟩ := h
      cases h
      cases pc with
      | loading i k n =>
        cases h1
        cases ok
        · exact ⟨_, _, _, rfl, rfl, rfl, rfl, rfl, .failed ..⟩
        · exact ⟨_, _, _, rfl, rfl, rfl, rfl, rfl, .loaded ..⟩
      | _ => cases h1
    | run =>
      simp only at h
      cases pc with
      | get i k =>
        rw [State.run] at h
        split at h
        · next hl => cases h; exact ⟨_, _, _, rfl, rfl, rfl, rfl, rfl, .getLock _ _ hl⟩
        · cases h
      | release i k =>
        rw [State.run] at h
        split at h
        · next hl => cases h; exact ⟨_, _, _, rfl, rfl, rfl, rfl, rfl, .releaseLock _ _ hl⟩
        · cases h
      | hits i k n => cases h; exact ⟨_, _, _, rfl, rfl, rfl, rfl, rfl, .hits ..⟩
      | hitsWrite i k n x => cases h; exact ⟨_, _, _, rfl, rfl, rfl, rfl, rfl, .hitsWrite ..⟩
      | misses i e => cases h; exact ⟨_, _, _, rfl, rfl, rfl, rfl, rfl, .misses ..⟩
      | missesWrite i e x => cases h; exact ⟨_, _, _, rfl, rfl, rfl, rfl, rfl, .missesWrite ..⟩
      | leave i e => cases h; cases e <;> exact ⟨_, _, _, rfl, rfl, rfl, rfl, rfl, .leave ..⟩
      | _ =>
        simp only [State.run, Pc.inside, Option.bind_none, Option.bind_some, Option.map_eq_some_iff] at h
        first
          | (obtain ⟨q, hq, h⟩ := h; cases h; exact ⟨_, _, _, rfl, rfl, rfl, rfl, rfl, micro_next hq⟩)
          | cases h

theorem pcs_set {s s' : State K V} {t : Nat} {pc pc' : Pc K V} (h : s.pcs[t]? = some pc) (h' : s'.pcs = s.pcs.set t pc') :
    s'.pcs[t]? = some pc' ∧ ∀ u, u ≠ t → s'.pcs[u]? = s.pcs[u]? := by
  rw [h']
  refine ⟨?_, fun u hu => List.getElem?_set_ne (fun e => hu e.symm)⟩
  rw [List.getElem?_set_self]
  have := (List.getElem?_eq_some_iff.1 h).1
  simpa using this

/-- C87: a call ends: each step of its thread, the return of the loader included, brings it nearer to its return, from which
it is never more than eight steps away; the other threads do not change where it is. -/
theorem C87_ends {a : Act K V} {t : Nat} {r : Option (Nat × Event K V)} (hs : step hash fuel s t a = some (s', r)) :
    ∃ pc pc', s.pcs[t]? = some pc ∧ s'.pcs[t]? = some pc' ∧ (∀ u, u ≠ t → s'.pcs[u]? = s.pcs[u]?) ∧
      (pc ≠ .idle → pc'.left < pc.left) ∧ pc'.left ≤ 8 ∧ (pc'.left = 0 ↔ pc' = .idle) ∧ (r ≠ none ↔ pc' = .idle) := by
  obtain ⟨pc, pc', _, _, h1, h2, -, -, -, h3⟩ := step_next hs
  have hp := pcs_set h1 h2
  refine ⟨pc, pc', h1, hp.1, hp.2, ?_, ?_, ?_, ?_⟩ <;> cases h3 <;> simp [Pc.left]

/-- What a thread's call was: the shard with the key of a get or the node of a release. -/
def Pc.asked : Pc K V → Option (Nat × (K ⊕ Nat))
  | .idle => none
  | .get i k | .find i k | .increment i k _ | .check i k _ | .hits i k _ | .hitsWrite i k _ _ | .next i k | .loading i k _
  | .insert i k _ _ => some (i, .inl k)
  | .misses i e | .missesWrite i e _ | .leave i e =>
    match e with
    | .hit k _ | .loaded k _ _ _ | .full k => some (i, .inl k)
    | .released n => some (i, .inr n)
  | .release i n | .decrement i n | .add i n => some (i, .inr n)

/-- No new call of thread `t`. -/
def NoCall (t : Nat) (sched : Schedule K V) : Prop := ∀ a, (t, a) ∈ sched → a = .run ∨ ∃ v ok, a = .answer v ok

theorem asked_step {s s' : State K V} {a : Act K V} {t u : Nat} {r : Option (Nat × Event K V)} {pc : Pc K V}
    {q : Nat × (K ⊕ Nat)} (hs : step hash fuel s u a = some (s', r)) (hpc : s.pcs[t]? = some pc)
    (hq : pc = .idle ∨ pc.asked = some q) (hn : u = t → a = .run ∨ ∃ v ok, a = .answer v ok) :
    ∃ pc', s'.pcs[t]? = some pc' ∧ (pc' = .idle ∨ pc'.asked = some q) := by
  obtain ⟨p, p', _, _, h1, h2, -, -, -, h3⟩ := step_next hs
  have hp := pcs_set h1 h2
  by_cases hu : t = u
  · subst hu
    rw [hpc] at h1; cases h1
    refine ⟨p', hp.1, ?_⟩
    have hn := hn rfl
    rcases hq with rfl | hq
    · cases h3 <;> simp at hn
    · cases h3 <;> first | exact .inl rfl | exact .inr hq | simp [Pc.asked] at hq
  · exact ⟨pc, by rw [hp.2 t hu]; exact hpc, hq⟩

theorem asked_exec {t : Nat} {q : Nat × (K ⊕ Nat)} : ∀ {sched : Schedule K V} {s s' : State K V}
    {log : List (Nat × Event K V)} {pc : Pc K V}, exec hash fuel s sched = some (s', log) → s.pcs[t]? = some pc →
    (pc = .idle ∨ pc.asked = some q) → NoCall t sched →
    ∃ pc', s'.pcs[t]? = some pc' ∧ (pc' = .idle ∨ pc'.asked = some q)
  | [], s, s', log, pc, h, hpc, hq, _ => by cases h; exact ⟨pc, hpc, hq⟩
  | (u, a) :: sched, s, s', log, pc, h, hpc, hq, hn => by
    simp only [exec, Option.bind_eq_some_iff, Option.map_eq_some_iff] at h
    obtain ⟨⟨s1, r⟩, h1, ⟨s2, l2⟩, h2, h3⟩ := h
    cases h3
    obtain ⟨pc1, g1, g2⟩ := asked_step h1 hpc hq fun e => hn a (by rw [e]; exact List.mem_cons_self)
    exact asked_exec h2 g1 g2 fun b hb => hn b (List.mem_cons_of_mem _ hb)

/-- C87: what a call of get does is for the key it was called with, in the shard of that key, and what a release does is
for its node, whatever the other threads do meanwhile. -/
theorem C87_answers {s s1 s2 s3 : State K V} {t i : Nat} {a : Act K V} {r : Option (Nat × Event K V)}
    {sched : Schedule K V} {log : List (Nat × Event K V)} {b : Act K V} {e : Event K V}
    (hs : step hash fuel s t a = some (s1, r)) (he : exec hash fuel s1 sched = some (s2, log)) (hn : NoCall t sched)
    (hr : step hash fuel s2 t b = some (s3, some (i, e))) :
    (∀ k, a = .get k → Event.key e = some k ∧ ∃ j : Int, shardIndex s.concurrency (hash k) = some j ∧ i = j.toNat) ∧
    (∀ j n, a = .release j n → i = j ∧ e = .released n) := by
  obtain ⟨p, p', _, _, h1, h2, -, -, -, h3⟩ := step_next hs
  have hp := pcs_set h1 h2
  have fin : ∀ q, p'.asked = some q → (Pc.leave i e : Pc K V).asked = some q := by
    intro q hq
    obtain ⟨pc', g1, g2⟩ := asked_exec he hp.1 (.inr hq) hn
    obtain ⟨o, o', _, _, k1, -, -, -, -, k3⟩ := step_next hr
    rw [k1] at g1; cases g1
    cases k3
    rcases g2 with g2 | g2
    · cases g2
    · exact g2
  constructor
  · rintro k rfl
    cases h3 with
    | @get _ j hj _ =>
      have := fin _ rfl
      cases e <;> simp only [Pc.asked, Option.some.injEq, Prod.mk.injEq, Sum.inl.injEq, reduceCtorEq, and_false] at this
      all_goals exact ⟨by rw [this.2]; rfl, j, hj, this.1⟩
  · rintro j n rfl
    cases h3 with
    | release =>
      have := fin _ rfl
      cases e <;> simp only [Pc.asked, Option.some.injEq, Prod.mk.injEq, Sum.inr.injEq, reduceCtorEq, and_false] at this
      exact ⟨this.1, by rw [this.2]⟩

/-- What a load that succeeded has given is what `f` gives. -/
def Pc.good (f : K → V) : Pc K V → Prop
  | .insert _ k _ v => v = f k
  | .misses _ e | .missesWrite _ e _ | .leave _ e => ∀ k v n, e = .loaded k v true n → v = f k
  | _ => True

theorem good_exec {f : K → V} : ∀ {sched : Schedule K V} {s s' : State K V} {log : List (Nat × Event K V)},
    exec hash fuel s sched = some (s', log) → Answers hash fuel f s sched → (∀ pc ∈ s.pcs, pc.good f) →
    ∀ x ∈ log, ∀ k v n, x.2 = .loaded k v true n → v = f k
  | [], s, s', log, h, _, _ => by cases h; exact nofun
  | (u, a) :: sched, s, s', log, h, ha, hg => by
    simp only [exec, Option.bind_eq_some_iff, Option.map_eq_some_iff] at h
    obtain ⟨⟨s1, r⟩, h1, ⟨s2, l2⟩, h2, h3⟩ := h
    cases h3
    obtain ⟨p, p', _, _, g1, g2, -, -, -, g3⟩ := step_next h1
    have hp := hg p (List.mem_of_getElem? g1)
    have hg' : ∀ pc ∈ s1.pcs, pc.good f := by
      intro pc hpc
      rw [g2] at hpc
      rcases List.mem_or_eq_of_mem_set hpc with hpc | rfl
      · exact hg pc hpc
      · cases g3 <;> first
          | exact trivial
          | exact hp
          | exact ha.1 _ _ _ _ rfl g1
          | (intro k v n he; cases he <;> exact hp)
    have rest := good_exec h2 (ha.2 _ h1) hg'
    intro x hx k v n hxe
    rcases List.mem_append.1 hx with hx | hx
    · cases g3 <;> simp only [Option.toList_none, List.not_mem_nil, Option.toList_some, List.mem_singleton] at hx
      subst hx
      exact hp k v n hxe
    · exact rest x hx k v n hxe

theorem lastLoad_mem {n : Nat} {k : K} {v : V} {ok : Bool} : ∀ {es : List (Event K V)},
    lastLoad n es = some (k, v, ok) → .loaded k v ok n ∈ es := by
  intro es
  induction es using List.reverseRecOn with
  | nil => intro h; cases h
  | append_singleton es e ih =>
    intro h
    rw [lastLoad_snoc] at h
    cases e with
    | loaded k' v' ok' n' =>
      simp only at h
      split at h
      · next hn => cases h; subst hn; simp
      · exact List.mem_append_left _ (ih h)
    | _ => exact List.mem_append_left _ (ih h)

/-- C87: when the loader gives the same data for a key whenever it succeeds, a caller that was given a node for a key, with
no exception, reads that data in it as long as it holds it, whatever the other threads do. -/
theorem C87_loader (f : K → V) {s0 : State K V} {sched : Schedule K V} (hf : Enough capacity fuel)
    (h0 : Start capacity s0) (he : exec hash fuel s0 sched = some (s, log)) (ha : Answers hash fuel f s0 sched) {i n : Nat}
    (hn : s.held i n ≠ 0) : ∃ k v ok, lastLoad n (eventsOf i log) = some (k, v, ok) ∧ (s.shards i).data n = v ∧
      (ok = true → v = f k) := by
  obtain ⟨k, v, ok, h1, h2⟩ := C87_data (hash := hash) (fuel := fuel) ⟨hf, s0, sched, h0, he⟩ hn
  refine ⟨k, v, ok, h1, h2, ?_⟩
  rintro rfl
  have := lastLoad_mem h1
  simp only [eventsOf, List.mem_map, List.mem_filter] at this
  obtain ⟨x, ⟨hx, -⟩, hx'⟩ := this
  exact good_exec he ha (fun pc hpc => by rw [h0.idle pc hpc]; trivial) x hx k v n hx'

/-- C87: when no thread is in a call no lock is taken, and the nodes in use are those returned and not given back; when all
were given back the whole of every shard is free. -/
theorem C87_quiet (h : Reached hash fuel capacity s log) (hq : Quiet s) (i : Nat) :
    s.locks i = none ∧ (∀ n, n < (s.shards i).allocated ∧ (s.shards i).active n ≠ 0 ↔ s.held i n ≠ 0) := by
  obtain ⟨A, h⟩ := h.inv
  have hl : s.locks i = none := by
    cases hl : s.locks i with
    | none => rfl
    | some u =>
      obtain ⟨pc, g1, g2, -⟩ := h.owned i u hl
      rw [hq pc (List.mem_of_getElem? g1)] at g2
      cases g2
  refine ⟨hl, fun n => ?_⟩
  rw [h.free i hl]
  obtain ⟨ops, ha⟩ := h.after i
  obtain ⟨⟨m, t, l, inv⟩, -⟩ := ha.inv
  have hc : s.pcs.countP (Pc.releasing i n) = 0 := by
    rw [List.countP_eq_zero]
    intro pc hpc
    rw [hq pc hpc]
    simp [Pc.releasing]
  have := h.held i n
  rw [← inv.held n]
  unfold Cache.held
  omega

/-! ### The counts -/

/-- The thread has counted a hit and not returned. -/
def Pc.hitDone : Pc K V → Bool
  | .leave _ e => Event.isHit e
  | _ => false

/-- The thread has counted a miss and not returned. -/
def Pc.missDone : Pc K V → Bool
  | .leave _ e => Event.isMiss e
  | _ => false

def hitsDone (s : State K V) (log : List (Nat × Event K V)) : Nat :=
  log.countP (fun x => Event.isHit x.2) + s.pcs.countP Pc.hitDone

def missesDone (s : State K V) (log : List (Nat × Event K V)) : Nat :=
  log.countP (fun x => Event.isMiss x.2) + s.pcs.countP Pc.missDone

/-- What is known of the count a thread has read; `P` of a count of hits, `Q` of a count of misses. -/
def Pc.reads (P Q : Nat → Prop) (bound : Nat) : Pc K V → Prop
  | .hitsWrite i _ _ x => i < bound ∧ P x
  | .misses i e => i < bound ∧ Event.isMiss e = true
  | .missesWrite i e x => i < bound ∧ Event.isMiss e = true ∧ Q x
  | .get i _ | .find i _ | .increment i _ _ | .check i _ _ | .hits i _ _ | .next i _ | .loading i _ _
  | .insert i _ _ _ => i < bound
  | _ => True

theorem Pc.reads.imp {P P' Q Q' : Nat → Prop} {b : Nat} {pc : Pc K V} (h : pc.reads P Q b) (hp : ∀ x, P x → P' x)
    (hq : ∀ x, Q x → Q' x) : pc.reads P' Q' b := by
  cases pc <;> simp only [Pc.reads] at h ⊢ <;> try exact h
  · exact ⟨h.1, hp _ h.2⟩
  · exact ⟨h.1, h.2.1, hq _ h.2.2⟩

structure Bounds (s : State K V) (log : List (Nat × Event K V)) : Prop where
  hits : s.hits ≤ hitsDone s log
  misses : s.misses ≤ missesDone s log
  reads : ∀ pc ∈ s.pcs, pc.reads (· ≤ hitsDone s log) (· ≤ missesDone s log) s.concurrency

def Pc.atHits : Pc K V → Bool
  | .hitsWrite .. => true
  | _ => false

def Pc.atMisses : Pc K V → Bool
  | .missesWrite .. => true
  | _ => false

theorem done_step {s s' : State K V} {t : Nat} {a : Act K V} {r : Option (Nat × Event K V)} {pc pc' : Pc K V} {x y : Nat}
    {log : List (Nat × Event K V)} (h1 : s.pcs[t]? = some pc) (h2 : s'.pcs = s.pcs.set t pc')
    (h3 : Next hash s a pc pc' r x y) (hm : ∀ i e c, pc = .missesWrite i e c → Event.isMiss e = true) :
    (hitsDone s' (log ++ r.toList) = hitsDone s log + if pc.atHits then 1 else 0) ∧
    (missesDone s' (log ++ r.toList) = missesDone s log + if pc.atMisses then 1 else 0) := by
  have c1 := countP_set' (p := Pc.hitDone) (y := pc') h1
  have c2 := countP_set' (p := Pc.missDone) (y := pc') h1
  simp only [hitsDone, missesDone, h2, List.countP_append]
  cases h3 with
  | missesWrite i e x =>
    have := hm _ _ _ rfl
    cases e <;> simp [Pc.hitDone, Pc.missDone, Event.isHit, Event.isMiss, Pc.atHits, Pc.atMisses] at c1 c2 this ⊢ <;>
      omega
  | leave i e =>
    cases e <;> simp [Pc.hitDone, Pc.missDone, Event.isHit, Event.isMiss, Pc.atHits, Pc.atMisses] at c1 c2 ⊢ <;>
      omega
  | _ =>
    simp [Pc.hitDone, Pc.missDone, Event.isHit, Event.isMiss, Pc.atHits, Pc.atMisses] at c1 c2 ⊢ <;> omega

theorem Pc.reads.miss {P Q : Nat → Prop} {b : Nat} {pc : Pc K V} (h : pc.reads P Q b) :
    ∀ i e c, pc = .missesWrite i e c → Event.isMiss e = true := by
  rintro i e c rfl
  exact h.2.1

theorem Bounds.step {s s' : State K V} {log : List (Nat × Event K V)} (h : Bounds s log) {t : Nat} {a : Act K V}
    {r : Option (Nat × Event K V)} (hs : Threads.step hash fuel s t a = some (s', r)) : Bounds s' (log ++ r.toList) := by
  obtain ⟨pc, pc', x, y, h1, h2, hc, rfl, rfl, h3⟩ := step_next hs
  have hr := h.reads pc (List.mem_of_getElem? h1)
  obtain ⟨d1, d2⟩ := done_step (log := log) h1 h2 h3 hr.miss
  have e1 : hitsDone s log ≤ hitsDone s' (log ++ r.toList) := by omega
  have e2 : missesDone s log ≤ missesDone s' (log ++ r.toList) := by omega
  have g1 := h.hits
  have g2 := h.misses
  have key : s'.hits ≤ hitsDone s' (log ++ r.toList) ∧ s'.misses ≤ missesDone s' (log ++ r.toList) ∧
      pc'.reads (· ≤ hitsDone s' (log ++ r.toList)) (· ≤ missesDone s' (log ++ r.toList)) s.concurrency := by
    rw [d1, d2]
    generalize s'.hits = x at h3
    generalize s'.misses = y at h3
    cases h3 <;> simp [Pc.reads, Pc.atHits, Pc.atMisses, inc64, Event.isMiss] at hr ⊢ <;> first
      | omega
      | (simp only [hr, true_and, and_true]; omega)
  refine ⟨key.1, key.2.1, fun q hq => ?_⟩
  rw [hc]
  rw [h2] at hq
  rcases List.mem_or_eq_of_mem_set hq with hq | rfl
  · exact (h.reads q hq).imp (fun x hx => by omega) (fun x hx => by omega)
  · exact key.2.2

structure Exact (s : State K V) (log : List (Nat × Event K V)) : Prop where
  hits : s.hits = hitsDone s log % 2 ^ 64
  misses : s.misses = missesDone s log % 2 ^ 64
  reads : ∀ pc ∈ s.pcs, pc.reads (· = s.hits) (· = s.misses) 1

theorem Exact.step {s s' : State K V} {log : List (Nat × Event K V)} (h : Exact s log)
    {A : Nat → Shard V} (inv : TInv hash fuel capacity s log A) (h1 : s.concurrency = 1) {t : Nat} {a : Act K V}
    {r : Option (Nat × Event K V)} (hs : Threads.step hash fuel s t a = some (s', r)) : Exact s' (log ++ r.toList) := by
  obtain ⟨pc, pc', x, y, hp, h2, hc, rfl, rfl, h3⟩ := step_next hs
  have hr := h.reads pc (List.mem_of_getElem? hp)
  obtain ⟨d1, d2⟩ := done_step (log := log) hp h2 h3 hr.miss
  have g1 := h.hits
  have g2 := h.misses
  have other : ∀ u q, u ≠ t → s.pcs[u]? = some q → q.reads (· = s.hits) (· = s.misses) 1 →
      q.reads (· = s'.hits) (· = s'.misses) 1 := by
    intro u q hu hq hqr
    have no : pc.inside = some 0 → q.inside = some 0 → False := fun a b =>
      hu (by have := (inv.inside u q 0 hq b).symm.trans (inv.inside t pc 0 hp a); cases this; rfl)
    generalize s'.hits = x at h3 ⊢
    generalize s'.misses = y at h3 ⊢
    cases h3 <;> first | exact hqr | skip
    · have : _ = 0 := Nat.lt_one_iff.1 hr.1
      subst this
      cases q <;> simp only [Pc.reads, Pc.inside, forall_const, Option.some.injEq] at hqr no ⊢ <;> first
        | exact hqr
        | exact trivial
        | exact absurd (Nat.lt_one_iff.1 hqr.1) no
    · have : _ = 0 := Nat.lt_one_iff.1 hr.1
      subst this
      cases q <;> simp only [Pc.reads, Pc.inside, forall_const, Option.some.injEq] at hqr no ⊢ <;> first
        | exact hqr
        | exact trivial
        | exact absurd (Nat.lt_one_iff.1 hqr.1) no
  have key : s'.hits = hitsDone s' (log ++ r.toList) % 2 ^ 64 ∧ s'.misses = missesDone s' (log ++ r.toList) % 2 ^ 64 ∧
      pc'.reads (· = s'.hits) (· = s'.misses) 1 := by
    rw [d1, d2]
    generalize s'.hits = x at h3
    generalize s'.misses = y at h3
    cases h3 <;> simp [Pc.reads, Pc.atHits, Pc.atMisses, inc64, Event.isMiss] at hr ⊢ <;> first
      | omega
      | (simp only [hr, true_and, and_true]; omega)
  refine ⟨key.1, key.2.1, fun q hq => ?_⟩
  obtain ⟨u, hu⟩ := List.getElem?_of_mem hq
  by_cases he : u = t
  · subst he
    rw [(pcs_set hp h2).1] at hu
    cases hu
    exact key.2.2
  · rw [(pcs_set hp h2).2 u he] at hu
    exact other u q he hu (h.reads q (List.mem_of_getElem? hu))

theorem counts_exec {sched : Schedule K V} : ∀ {s s' : State K V} {log log' : List (Nat × Event K V)} {A : Nat → Shard V},
    TInv hash fuel capacity s log A → Threads.exec hash fuel s sched = some (s', log') → Bounds s log →
    (s.concurrency = 1 → Exact s log) →
    Bounds s' (log ++ log') ∧ s'.concurrency = s.concurrency ∧ (s.concurrency = 1 → Exact s' (log ++ log')) := by
  induction sched with
  | nil => intro s s' log log' A h he hb hx; cases he; rw [List.append_nil]; exact ⟨hb, rfl, hx⟩
  | cons x rest ih =>
    intro s s' log log' A h he hb hx
    obtain ⟨t, a⟩ := x
    rw [Threads.exec, Option.bind_eq_some_iff] at he
    obtain ⟨⟨s1, r⟩, h1, he⟩ := he
    rw [Option.map_eq_some_iff] at he
    obtain ⟨⟨s2, q⟩, h2, he⟩ := he
    cases he
    obtain ⟨A1, i1⟩ := h.step h1
    obtain ⟨_, _, _, _, -, -, hc, -⟩ := step_next h1
    obtain ⟨b1, b2, b3⟩ := ih i1 h2 (hb.step h1) fun hc1 => (hx (hc ▸ hc1)).step h (hc ▸ hc1) h1
    rw [List.append_assoc] at b1 b3
    exact ⟨b1, b2.trans hc, fun e => b3 (hc ▸ e)⟩

/-- C87: the counts of hits and misses never say more than the calls that returned did, and are exact, modulo 2^64, when
the cache has one shard. Missing: with more shards they can say less (`C87_counts_violated`). -/
theorem C87_counts_partial (h : Reached hash fuel capacity s log) (hq : Quiet s) :
    s.hits ≤ log.countP (fun x => Event.isHit x.2) ∧ s.misses ≤ log.countP (fun x => Event.isMiss x.2) ∧
    (s.concurrency = 1 → s.hits = log.countP (fun x => Event.isHit x.2) % 2 ^ 64 ∧
      s.misses = log.countP (fun x => Event.isMiss x.2) % 2 ^ 64) := by
  obtain ⟨hf, s0, sched, h0, he⟩ := h
  have inv := Reached.inv (hash := hash) (fuel := fuel) ⟨hf, s0, [], h0, rfl⟩
  obtain ⟨A, inv⟩ := inv
  have n1 : s.pcs.countP Pc.hitDone = 0 := by
    rw [List.countP_eq_zero]; intro pc hpc; rw [hq pc hpc]; simp [Pc.hitDone]
  have n2 : s.pcs.countP Pc.missDone = 0 := by
    rw [List.countP_eq_zero]; intro pc hpc; rw [hq pc hpc]; simp [Pc.missDone]
  have r0 : ∀ P Q b, ∀ pc ∈ s0.pcs, pc.reads P Q b := by
    intro P Q b pc hpc; rw [h0.idle pc hpc]; trivial
  have m1 : s0.pcs.countP Pc.hitDone = 0 := by
    rw [List.countP_eq_zero]; intro pc hpc; rw [h0.idle pc hpc]; simp [Pc.hitDone]
  have m2 : s0.pcs.countP Pc.missDone = 0 := by
    rw [List.countP_eq_zero]; intro pc hpc; rw [h0.idle pc hpc]; simp [Pc.missDone]
  obtain ⟨b, hc, x⟩ := counts_exec inv he ⟨by rw [h0.counts.1]; exact Nat.zero_le _, by rw [h0.counts.2]; exact Nat.zero_le _,
      r0 _ _ _⟩ fun _ => ⟨by rw [h0.counts.1, hitsDone, m1]; rfl, by rw [h0.counts.2, missesDone, m2]; rfl, r0 _ _ _⟩
  rw [List.nil_append] at b x
  have b1 := b.hits
  have b2 := b.misses
  rw [hitsDone, n1] at b1
  rw [missesDone, n2] at b2
  refine ⟨b1, b2, fun h1 => ?_⟩
  have x := x (hc ▸ h1)
  have x1 := x.hits
  have x2 := x.misses
  rw [hitsDone, n1] at x1
  rw [missesDone, n2] at x2
  exact ⟨x1, x2⟩

/-! ### Concrete schedules -/

/-- A new cache of `concurrency` shards with two nodes each, for three threads. -/
def newCache (concurrency : Nat) (s : Shard Nat) : State Int Nat :=
  ⟨concurrency, fun _ => s, fun _ => none, 0, 0, [.idle, .idle, .idle], fun _ _ => 0⟩

theorem newCache_start {s : Shard Nat} (h : shardInit 0 2 anyMemory = some s) (c : Nat) : Start 2 (newCache c s) :=
  ⟨fun _ => ⟨0, anyMemory, h⟩, fun _ => rfl, ⟨rfl, rfl⟩, by simp [newCache], fun _ _ => rfl⟩

def steps (t n : Nat) : Schedule Int Nat := List.replicate n (t, .run)

/-- The counts, the places of the threads and what the calls did. -/
structure Outcome where
  hits : Nat
  misses : Nat
  pcs : List (Pc Int Nat)
  log : List (Nat × Event Int Nat)
deriving DecidableEq, Repr

/-- A schedule on a new cache. -/
def tried (c : Nat) (sched : Schedule Int Nat) : Option Outcome :=
  (shardInit 0 2 anyMemory).bind fun s => (exec id 12 (newCache c s) sched).map fun r => ⟨r.1.hits, r.1.misses, r.1.pcs, r.2⟩

theorem tried_reached {c hits misses : Nat} {sched : Schedule Int Nat} {pcs : List (Pc Int Nat)}
    {log : List (Nat × Event Int Nat)} (h : tried c sched = some ⟨hits, misses, pcs, log⟩) :
    ∃ s, Reached id 12 2 s log ∧ s.hits = hits ∧ s.misses = misses ∧ s.pcs = pcs := by
  simp only [tried, Option.bind_eq_some_iff, Option.map_eq_some_iff] at h
  obtain ⟨sh, h1, ⟨s, l⟩, h2, h3⟩ := h
  cases h3
  exact ⟨s, ⟨by show 2 * Nat.log2 3 + 2 ≤ 12; decide, _, sched, newCache_start h1 c, h2⟩, rfl, rfl, rfl⟩

/-- Thread 0 loads key 4 in shard 0. While its loader runs thread 1 gets key 5 in shard 1 from beginning to end, and thread
2 waits for the lock of shard 0 with key 4, which it then finds; thread 1 gives its node back. -/
def busy : Schedule Int Nat :=
  (0, .get 4) :: steps 0 3 ++ ((2, .get 4) :: (1, .get 5) :: steps 1 3) ++ ((1, .answer 50 true) :: steps 1 4) ++
    ((0, .answer 40 true) :: steps 0 4) ++ ((1, .release 1 0) :: steps 2 7 ++ steps 1 4)

/-- The hypotheses of the theorems above are met by that kind of history. -/
example : tried 2 busy = some ⟨1, 2, [.idle, .idle, .idle],
    [(1, .loaded 5 50 true 0), (0, .loaded 4 40 true 0), (0, .hit 4 0), (1, .released 0)]⟩ := by
  decide +kernel

example : ∃ s, Reached id 12 2 s [((1, .loaded 5 50 true 0) : Nat × Event Int Nat), (0, .loaded 4 40 true 0), (0, .hit 4 0),
    (1, .released 0)] ∧ s.hits = 1 ∧ s.misses = 2 ∧ s.pcs = [.idle, .idle, .idle] :=
  tried_reached (c := 2) (sched := busy) (by decide +kernel)

/-- In the middle of it thread 2 cannot go on while thread 0 is in its loader. -/
example : (tried 2 (busy.take 5)).isSome ∧ tried 2 (busy.take 5 ++ [(2, .run)]) = none ∧
    (tried 2 (busy.take 5)).map (·.pcs) = some [.loading 0 4 0, .idle, .get 0 4] := by
  decide +kernel

/-- With one shard for all keys the second thread waits for the first. -/
example : tried 1 (busy.take 9) = none := by decide +kernel

/-- C87: the counts lose updates when the cache has more than one shard, since each is protected by the lock of one shard
only: two threads miss at the same time in two shards and the count says one. -/
theorem C87_counts_violated : ∃ s log, Reached id 12 2 s log ∧ Quiet s ∧ s.misses = 1 ∧
    log.countP (fun x : Nat × Event Int Nat => Event.isMiss x.2) = 2 := by
  obtain ⟨s, h1, -, h2, h3⟩ := tried_reached (c := 2)
    (sched := (0, .get 4) :: steps 0 3 ++ ((0, .answer 40 true) :: steps 0 2) ++ ((1, .get 5) :: steps 1 3) ++
      ((1, .answer 50 true) :: steps 1 4) ++ steps 0 2)
    (hits := 0) (misses := 1) (pcs := [.idle, .idle, .idle])
    (log := [(1, .loaded 5 50 true 0), (0, .loaded 4 40 true 0)]) (by decide +kernel)
  refine ⟨s, _, h1, ?_, h2, by decide⟩
  unfold Quiet
  rw [h3]
  decide

end Verif.Cache.Threads
