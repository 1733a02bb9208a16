import Verif.Collection.Reading
import Verif.Cache.Threads

/-! # C89: a cached collection used by any number of threads

`getFromCache`, `releaseCache` and `loaderCache` (collection.c:106-111, 308-342, 353-392) over the cache of C87 and the reads
of C88. A thread in the loader of the cache, which has the lock of the shard, reads the item from the file step by step; what it
read or that it failed is what the loader answers. Meanwhile threads also read other collections of the file, with or without a
cache of their own, which use the same handles.

An item a get gave is in `items` until it is released, by any thread. `step` is `none` for a step that cannot be taken now
and for undefined behaviour. Memory allocation does not fail. -/

namespace Verif.Collection.Threads

open Verif.Cache (Event shardIndex lastLoad gets releases step_spec lastLoad_snoc Enough)
open Verif.Cache.Threads (eventsOf TInv)
open Verif.Collection.Reading (Fail Result AsAlone)

/-- The part of a `fiftyoneDegreesCollectionItem` that matters: the key it was got with and `item->handle`, the node of the cache
(shard and number), collection.c:326. `item->data` is the data of the node, line 332. -/
structure Held where
  key : UInt32
  shard : Nat
  node : Nat
deriving DecidableEq, Repr

/-- The cache, the handles with the threads that read, and the items got and not released. The last is not part of the code; it says
which items a program may release. -/
structure State where
  cache : Cache.Threads.State UInt32 CStr
  files : Reading.State
  items : List Held

/-- What a thread does next: a get or a release of an item of the collection, a read of any other collection, a step in the cache, the
start of the read in its loader, or a step of a read. -/
inductive Act where
  | get (key : UInt32)
  | release (item : Held)
  | read (g : FileColl) (key : UInt32)
  | run
  | load
  | file (a : Reading.Act)

/-- What a step made return: a call of the cache, a read. -/
structure Out where
  event : Option (Nat × Event UInt32 CStr)
  read : Option (FileColl × UInt32 × Result)

/-- The item of a get that returns, `getFromCache`, collection.c:320-339: none if the exception is set or there is no node. -/
def given : Nat × Event UInt32 CStr → Option Held
  | (i, .hit k n) => some ⟨k, i, n⟩
  | (i, .loaded k _ true n) => some ⟨k, i, n⟩
  | _ => none

/-- What the loader gives back, `loaderCache`, collection.c:362-391: no bytes when the get failed. -/
def loaded : Result → Cache.Threads.Act UInt32 CStr
  | .ok bytes => .answer bytes true
  | .error _ => .answer [] false

/-- A step of a read was taken. When the read was for the loader and returns, so does the loader. -/
def State.finish (fuel : Nat) (s : State) (t : Nat) (r : Reading.State × Option (FileColl × UInt32 × Result)) :
    Option (State × Out) :=
  match r.2, s.cache.pcs[t]? with
  | some (_, _, res), some (.loading _ _ _) =>
    (Cache.Threads.step keyHash fuel s.cache t (loaded res)).map fun q => ({ s with cache := q.1, files := r.1 }, ⟨q.2, r.2⟩)
  | _, _ => some ({ s with files := r.1 }, ⟨none, r.2⟩)

/-- One step of one thread. A thread is in at most one get, release or read at a time, but for the read in the loader. -/
def step (file : CStr) (f : FileColl) (fuel : Nat) (s : State) (t : Nat) : Act → Option (State × Out)
  | .get key =>
    match s.files.pcs[t]? with
    | some .idle => (Cache.Threads.step keyHash fuel s.cache t (.get key)).map fun r => ({ s with cache := r.1 }, ⟨r.2, none⟩)
    | _ => none
  | .release item =>
    match s.files.pcs[t]? with
    | some .idle =>
      if item ∈ s.items then
        (Cache.Threads.step keyHash fuel s.cache t (.release item.shard item.node)).map fun r =>
          ({ s with cache := r.1, items := s.items.erase item }, ⟨r.2, none⟩)
      else none
    | _ => none
  | .read g key =>
    match s.cache.pcs[t]? with
    | some .idle => (Reading.step file s.files t (.get g key)).map fun r => ({ s with files := r.1 }, ⟨none, r.2⟩)
    | _ => none
  | .run => (Cache.Threads.step keyHash fuel s.cache t .run).map fun r =>
      ({ s with cache := r.1, items := (r.2.bind given).toList ++ s.items }, ⟨r.2, none⟩)
  | .load =>
    match s.cache.pcs[t]? with
    | some (.loading _ k _) => (Reading.step file s.files t (.get f k)).map fun r => ({ s with files := r.1 }, ⟨none, r.2⟩)
    | _ => none
  | .file (.get _ _) => none
  | .file a => (Reading.step file s.files t a).bind (s.finish fuel t)

abbrev Schedule := List (Nat × Act)

/-- What the calls of the cache did, and the results of the reads, in the order of the returns. -/
structure Log where
  events : List (Nat × Event UInt32 CStr)
  reads : List (FileColl × UInt32 × Result)

def Log.add (l : Log) (o : Out) : Log := ⟨l.events ++ o.event.toList, l.reads ++ o.read.toList⟩

/-- The steps of a schedule, with what was returned before. -/
def exec (file : CStr) (f : FileColl) (fuel : Nat) (s : State) (l : Log) : Schedule → Option (State × Log)
  | [] => some (s, l)
  | (t, a) :: rest => (step file f fuel s t a).bind fun r => exec file f fuel r.1 (l.add r.2) rest

/-! ## Specification -/

/-- A new cache, all handles in the pool, no item. -/
structure Start (capacity : Nat) (handles : List Nat) (s : State) : Prop where
  cache : Cache.Threads.Start capacity s.cache
  files : Reading.Start handles s.files
  threads : s.files.pcs.length = s.cache.pcs.length
  items : s.items = []

/-- The state after any schedule, with what returned. -/
structure Reached (file : CStr) (f : FileColl) (fuel capacity : Nat) (handles : List Nat) (s : State) (l : Log) : Prop where
  intro ::
  enough : Enough capacity fuel
  reached : ∃ s0 sched, Start capacity handles s0 ∧ exec file f fuel s0 ⟨[], []⟩ sched = some (s, l)

/-- The bytes behind the pointer of an item. -/
def State.bytes (s : State) (item : Held) : CStr := (s.cache.shards item.shard).data item.node

/-- The item is that of the node. -/
def Held.at (i n : Nat) (item : Held) : Bool := decide (item.shard = i ∧ item.node = n)

/-- A load into the node failed. -/
def failed (i n : Nat) : Nat × Event UInt32 CStr → Bool
  | (j, .loaded _ _ false m) => decide (j = i ∧ m = n)
  | _ => false

/-- No thread is in a call. -/
def Quiet (s : State) : Prop := Cache.Threads.Quiet s.cache ∧ ∀ pc ∈ s.files.pcs, pc = .idle

/-- The number of steps a thread has left until its call returns, at most: `c` is where it is in the cache, `p` in a read. -/
def left (c : Cache.Threads.Pc UInt32 CStr) (p : Reading.Pc) : Nat :=
  match c, p with
  | .get .., _ | .find .., _ | .next .., _ => c.left + 6
  | .loading .., .idle => 11
  | .loading .., p => 4 + p.left
  | c, p => c.left + p.left

/-! ## Lemmas -/

theorem cache_exec_snoc {K V : Type} {hash : K → Int} {fuel : Nat} (x : Nat × Cache.Threads.Act K V) :
    ∀ (sched : Cache.Threads.Schedule K V) (s : Cache.Threads.State K V),
    Cache.Threads.exec hash fuel s (sched ++ [x]) = (Cache.Threads.exec hash fuel s sched).bind fun r =>
      (Cache.Threads.step hash fuel r.1 x.1 x.2).map fun q => (q.1, r.2 ++ q.2.toList) := by
  intro sched
  induction sched with
  | nil =>
    intro s
    obtain ⟨t, a⟩ := x
    cases h : Cache.Threads.step hash fuel s t a <;> simp [Cache.Threads.exec, h]
  | cons y sched ih =>
    intro s
    obtain ⟨t, a⟩ := y
    cases h : Cache.Threads.step hash fuel s t a with
    | none => simp [Cache.Threads.exec, h]
    | some r =>
      simp only [List.cons_append, Cache.Threads.exec, h, Option.bind_some, ih]
      cases h2 : Cache.Threads.exec hash fuel r.1 sched with
      | none => simp
      | some r2 => cases h3 : Cache.Threads.step hash fuel r2.1 x.1 x.2 <;> simp [h3]

theorem cache_more {fuel capacity : Nat} {s s' : Cache.Threads.State UInt32 CStr} {log : List (Nat × Event UInt32 CStr)}
    (h : Cache.Threads.Reached keyHash fuel capacity s log) {t : Nat} {a : Cache.Threads.Act UInt32 CStr}
    {r : Option (Nat × Event UInt32 CStr)} (hs : Cache.Threads.step keyHash fuel s t a = some (s', r)) :
    Cache.Threads.Reached keyHash fuel capacity s' (log ++ r.toList) := by
  obtain ⟨he, s0, sched, h0, h1⟩ := h
  refine ⟨he, s0, sched ++ [(t, a)], h0, ?_⟩
  rw [cache_exec_snoc, h1]
  simp [hs]

theorem read_exec_snoc {file : CStr} (x : Nat × Reading.Act) : ∀ (sched : Reading.Schedule) (s : Reading.State),
    Reading.exec file s (sched ++ [x]) = (Reading.exec file s sched).bind fun r =>
      (Reading.step file r.1 x.1 x.2).map fun q => (q.1, r.2 ++ q.2.toList) := by
  intro sched
  induction sched with
  | nil =>
    intro s
    obtain ⟨t, a⟩ := x
    cases h : Reading.step file s t a <;> simp [Reading.exec, h]
  | cons y sched ih =>
    intro s
    obtain ⟨t, a⟩ := y
    cases h : Reading.step file s t a with
    | none => simp [Reading.exec, h]
    | some r =>
      simp only [List.cons_append, Reading.exec, h, Option.bind_some, ih]
      cases h2 : Reading.exec file r.1 sched with
      | none => simp
      | some r2 => cases h3 : Reading.step file r2.1 x.1 x.2 <;> simp [h3]

theorem read_more {file : CStr} {handles : List Nat} {s s' : Reading.State} {log : List (FileColl × UInt32 × Result)}
    (h : Reading.Reached file handles s log) {t : Nat} {a : Reading.Act} {r : Option (FileColl × UInt32 × Result)}
    (hs : Reading.step file s t a = some (s', r)) : Reading.Reached file handles s' (log ++ r.toList) := by
  obtain ⟨s0, sched, h0, h1⟩ := h
  refine ⟨s0, sched ++ [(t, a)], h0, ?_⟩
  rw [read_exec_snoc, h1]
  simp [hs]

/-- What a step is in the cache and in the reads. -/
inductive Joint (file : CStr) (f : FileColl) (fuel : Nat) (s : State) (t : Nat) : Act → State → Out → Prop
  | get (key : UInt32) (c : Cache.Threads.State UInt32 CStr) (r : Option (Nat × Event UInt32 CStr)) :
      s.files.pcs[t]? = some .idle → Cache.Threads.step keyHash fuel s.cache t (.get key) = some (c, r) →
      Joint file f fuel s t (.get key) { s with cache := c } ⟨r, none⟩
  | release (item : Held) (c : Cache.Threads.State UInt32 CStr) (r : Option (Nat × Event UInt32 CStr)) :
      s.files.pcs[t]? = some .idle → item ∈ s.items →
      Cache.Threads.step keyHash fuel s.cache t (.release item.shard item.node) = some (c, r) →
      Joint file f fuel s t (.release item) { s with cache := c, items := s.items.erase item } ⟨r, none⟩
  | read (g : FileColl) (key : UInt32) (q : Reading.State) (r : Option (FileColl × UInt32 × Result)) :
      s.cache.pcs[t]? = some .idle → Reading.step file s.files t (.get g key) = some (q, r) →
      Joint file f fuel s t (.read g key) { s with files := q } ⟨none, r⟩
  | run (c : Cache.Threads.State UInt32 CStr) (r : Option (Nat × Event UInt32 CStr)) :
      Cache.Threads.step keyHash fuel s.cache t .run = some (c, r) →
      Joint file f fuel s t .run { s with cache := c, items := (r.bind given).toList ++ s.items } ⟨r, none⟩
  | load (i : Nat) (k : UInt32) (n : Nat) (q : Reading.State) (r : Option (FileColl × UInt32 × Result)) :
      s.cache.pcs[t]? = some (.loading i k n) → Reading.step file s.files t (.get f k) = some (q, r) →
      Joint file f fuel s t .load { s with files := q } ⟨none, r⟩
  | file (a : Reading.Act) (q : Reading.State) (r : Option (FileColl × UInt32 × Result)) : (∀ g k, a ≠ .get g k) →
      Reading.step file s.files t a = some (q, r) → (r ≠ none → ∀ i k n, s.cache.pcs[t]? ≠ some (.loading i k n)) →
      Joint file f fuel s t (.file a) { s with files := q } ⟨none, r⟩
  | answer (a : Reading.Act) (q : Reading.State) (g : FileColl) (key : UInt32) (res : Result) (i : Nat) (k : UInt32) (n : Nat)
      (c : Cache.Threads.State UInt32 CStr) (r : Option (Nat × Event UInt32 CStr)) : (∀ g k, a ≠ .get g k) →
      Reading.step file s.files t a = some (q, some (g, key, res)) → s.cache.pcs[t]? = some (.loading i k n) →
      Cache.Threads.step keyHash fuel s.cache t (loaded res) = some (c, r) →
      Joint file f fuel s t (.file a) { s with cache := c, files := q } ⟨r, some (g, key, res)⟩

variable {file : CStr} {f : FileColl} {fuel capacity : Nat} {handles : List Nat} {s s' : State} {l l' : Log}

theorem finish_joint {t : Nat} {a : Reading.Act} {o : Out} (ha : ∀ g k, a ≠ .get g k)
    (hs : (Reading.step file s.files t a).bind (s.finish fuel t) = some (s', o)) : Joint file f fuel s t (.file a) s' o := by
  rw [Option.bind_eq_some_iff] at hs
  obtain ⟨⟨q, r⟩, h1, h2⟩ := hs
  rw [State.finish] at h2
  split at h2
  · next g key res i k n hr hc =>
    simp only at hr
    subst hr
    rw [Option.map_eq_some_iff] at h2
    obtain ⟨⟨c, e⟩, h3, h4⟩ := h2
    cases h4
    exact .answer a q g key res i k n c e ha h1 hc h3
  · next hno =>
    cases h2
    refine .file a q r ha h1 fun hr i k n hc => ?_
    cases r with
    | none => exact hr rfl
    | some x => exact hno x.1 x.2.1 x.2.2 i k n rfl hc

theorem step_joint {t : Nat} {a : Act} {o : Out} (hs : step file f fuel s t a = some (s', o)) : Joint file f fuel s t a s' o := by
  cases a with
  | get key =>
    rw [step] at hs
    split at hs
    · next hf =>
      rw [Option.map_eq_some_iff] at hs
      obtain ⟨⟨c, r⟩, h1, h2⟩ := hs
      cases h2
      exact .get key c r hf h1
    · cases hs
  | release item =>
    rw [step] at hs
    split at hs
    · next hf =>
      split at hs
      · next hm =>
        rw [Option.map_eq_some_iff] at hs
        obtain ⟨⟨c, r⟩, h1, h2⟩ := hs
        cases h2
        exact .release item c r hf hm h1
      · cases hs
    · cases hs
  | read g key =>
    rw [step] at hs
    split at hs
    · next hf =>
      rw [Option.map_eq_some_iff] at hs
      obtain ⟨⟨c, r⟩, h1, h2⟩ := hs
      cases h2
      exact .read g key c r hf h1
    · cases hs
  | run =>
    rw [step, Option.map_eq_some_iff] at hs
    obtain ⟨⟨c, r⟩, h1, h2⟩ := hs
    cases h2
    exact .run c r h1
  | load =>
    rw [step] at hs
    split at hs
    · next i k n hf =>
      rw [Option.map_eq_some_iff] at hs
      obtain ⟨⟨c, r⟩, h1, h2⟩ := hs
      cases h2
      exact .load i k n c r hf h1
    · cases hs
  | file a =>
    cases a with
    | get g k => cases hs
    | handle x => exact finish_joint nofun hs
    | run => exact finish_joint nofun hs
    | fault => exact finish_joint nofun hs

/-- The data a thread in the cache brings from a load that succeeded is right, and a load that failed did so because a read failed. -/
def Brings (file : CStr) (f : FileColl) (reads : List (FileColl × UInt32 × Result)) : Event UInt32 CStr → Prop
  | .loaded k v true _ => loader file f k = some (v, none)
  | .loaded k _ false _ => ∃ e, (f, k, .error e) ∈ reads
  | _ => True

def BringsPc (file : CStr) (f : FileColl) (reads : List (FileColl × UInt32 × Result)) : Cache.Threads.Pc UInt32 CStr → Prop
  | .insert _ k _ v => loader file f k = some (v, none)
  | .misses _ e | .missesWrite _ e _ | .leave _ e => Brings file f reads e
  | _ => True

theorem Brings.more {file : CStr} {f : FileColl} {reads : List (FileColl × UInt32 × Result)} {e : Event UInt32 CStr}
    (h : Brings file f reads e) (more : List (FileColl × UInt32 × Result)) : Brings file f (reads ++ more) e := by
  cases e with
  | loaded k v ok n =>
    cases ok with
    | true => exact h
    | false => obtain ⟨e, he⟩ := h; exact ⟨e, List.mem_append_left _ he⟩
  | _ => trivial

theorem BringsPc.more {file : CStr} {f : FileColl} {reads : List (FileColl × UInt32 × Result)} {pc : Cache.Threads.Pc UInt32 CStr}
    (h : BringsPc file f reads pc) (more : List (FileColl × UInt32 × Result)) : BringsPc file f (reads ++ more) pc := by
  cases pc with
  | misses i e => exact Brings.more (e := e) h more
  | missesWrite i e x => exact Brings.more (e := e) h more
  | leave i e => exact Brings.more (e := e) h more
  | insert i k n v => exact h
  | _ => trivial

structure CInv (file : CStr) (f : FileColl) (fuel capacity : Nat) (handles : List Nat) (s : State) (l : Log) : Prop where
  cache : Cache.Threads.Reached keyHash fuel capacity s.cache l.events
  files : Reading.Reached file handles s.files l.reads
  threads : s.files.pcs.length = s.cache.pcs.length
  join : ∀ (t : Nat) (p : Reading.Pc), s.files.pcs[t]? = some p → p ≠ .idle → s.cache.pcs[t]? = some .idle ∨
    ∃ i k n, s.cache.pcs[t]? = some (.loading i k n) ∧ p.asked = some (f, k)
  brings : ∀ pc ∈ s.cache.pcs, BringsPc file f l.reads pc
  logged : ∀ x ∈ l.events, Brings file f l.reads x.2
  items : ∀ item ∈ s.items, ∃ v, lastLoad item.node (eventsOf item.shard l.events) = some (item.key, v, true)
  counts : ∀ i n, s.cache.held i n = s.items.countP (Held.at i n) + l.events.countP (failed i n)

theorem Start.inv (h : Start capacity handles s) (hf : Enough capacity fuel) : CInv file f fuel capacity handles s ⟨[], []⟩ where
  cache := ⟨hf, s.cache, [], h.cache, rfl⟩
  files := ⟨s.files, [], h.files, rfl⟩
  threads := h.threads
  join t p hp hn := absurd (h.files.idle p (List.mem_of_getElem? hp)) hn
  brings pc hpc := by rw [h.cache.idle pc hpc]; trivial
  logged := nofun
  items := by rw [h.items]; nofun
  counts i n := by rw [h.items, h.cache.held]; rfl

/-- Only the return of a call of the cache has an event. -/
theorem event_leave {c c' : Cache.Threads.State UInt32 CStr} {t : Nat} {a : Cache.Threads.Act UInt32 CStr} {i : Nat}
    {e : Event UInt32 CStr} (hs : Cache.Threads.step keyHash fuel c t a = some (c', some (i, e))) :
    a = .run ∧ c.pcs[t]? = some (.leave i e) ∧
      ∀ j n, c'.held j n = c.held j n + if j = i ∧ e.isGet n then 1 else 0 := by
  obtain ⟨pc, pc', _, _, h1, -, -, -, -, h3⟩ := Cache.Threads.step_next hs
  cases h3
  refine ⟨rfl, h1, ?_⟩
  rw [Cache.Threads.step, h1] at hs
  cases hs
  exact (Cache.Threads.hand_fields _ i e).2.2.2.2.2.2

theorem event_none {c c' : Cache.Threads.State UInt32 CStr} {t : Nat} {a : Cache.Threads.Act UInt32 CStr}
    {r : Option (Nat × Event UInt32 CStr)} (hs : Cache.Threads.step keyHash fuel c t a = some (c', r)) (ha : a ≠ .run) : r = none := by
  cases r with
  | none => rfl
  | some x => exact absurd (event_leave hs).1 ha

theorem held_same {c c' : Cache.Threads.State UInt32 CStr} {t : Nat} {a : Cache.Threads.Act UInt32 CStr}
    (hs : Cache.Threads.step keyHash fuel c t a = some (c', none)) (ha : ∀ i n, a ≠ .release i n) : c'.held = c.held := by
  rw [Cache.Threads.step] at hs
  split at hs
  · cases hs
  · next pc hpc =>
    split at hs
    · split at hs
      · split at hs
        · cases hs; rfl
        · cases hs
      · cases hs
    · next i n => exact absurd rfl (ha i n)
    · cases pc with
      | get i k => rw [Cache.Threads.State.run] at hs; split at hs <;> cases hs; rfl
      | release i k => rw [Cache.Threads.State.run] at hs; split at hs <;> cases hs; rfl
      | hits i k n => cases hs; rfl
      | hitsWrite i k n x => cases hs; rfl
      | misses i e => cases hs; rfl
      | missesWrite i e x => cases hs; rfl
      | leave i e => cases hs
      | _ =>
        simp only [Cache.Threads.State.run, Cache.Threads.Pc.inside, Option.bind_none, Option.bind_some, Option.map_eq_some_iff] at hs
        first
          | (obtain ⟨q, hq, h⟩ := hs; cases h; rfl)
          | cases hs
    · rw [Option.map_eq_some_iff] at hs
      obtain ⟨c1, h1, h2⟩ := hs
      cases h2
      cases pc <;> cases h1
      rfl

theorem held_release {c c' : Cache.Threads.State UInt32 CStr} {t i n : Nat} {r : Option (Nat × Event UInt32 CStr)}
    (hs : Cache.Threads.step keyHash fuel c t (.release i n) = some (c', r)) :
    c.held i n ≠ 0 ∧ ∀ j m, c'.held j m = c.held j m - if j = i ∧ m = n then 1 else 0 := by
  rw [Cache.Threads.step] at hs
  split at hs
  · cases hs
  · simp only at hs
    split at hs
    · split at hs
      · next hh =>
        cases hs
        refine ⟨hh, fun j m => ?_⟩
        show Cache.set c.held i (Cache.set (c.held i) n (c.held i n - 1)) j m = _
        by_cases hj : j = i
        · subst hj
          by_cases hm : m = n
          · subst hm; simp [Cache.set]
          · simp [Cache.set, hm]
        · simp [Cache.set, hj]
      · cases hs
    · cases hs

/-- A load returns only for a node nobody holds. -/
theorem load_free {c : Cache.Threads.State UInt32 CStr} {log : List (Nat × Event UInt32 CStr)}
    (h : Cache.Threads.Reached keyHash fuel capacity c log) {t i n : Nat} {e : Event UInt32 CStr}
    (hpc : c.pcs[t]? = some (.leave i e)) (hh : c.held i n ≠ 0) : e.isLoad n = false := by
  obtain ⟨A, h⟩ := h.inv
  obtain ⟨u1, u2⟩ := h.used (i := i) (n := n) (by omega)
  obtain ⟨pc, h1, -, hm⟩ := h.owned i t (h.inside t _ i hpc rfl)
  rw [hpc] at h1; cases h1
  obtain ⟨op, ho⟩ := hm
  obtain ⟨ops, ha⟩ := h.after i
  obtain ⟨⟨m, t', q, inv⟩, hc⟩ := ha.inv
  exact ((step_spec inv (by rw [hc]; exact ha.enough) ho).2.2.1 n u1 u2).2.2

theorem lastLoad_keep {n : Nat} {evs : List (Event UInt32 CStr)} {e : Event UInt32 CStr} (h : e.isLoad n = false) :
    lastLoad n (evs ++ [e]) = lastLoad n evs := by
  rw [lastLoad_snoc]
  cases e with
  | loaded k v ok m =>
    simp only [Event.isLoad, decide_eq_false_iff_not] at h
    simp only [h, if_false]
  | _ => rfl

/-- Steps in the cache keep the data right. -/
theorem CInv.bring (h : CInv file f fuel capacity handles s l) {t : Nat} {a : Cache.Threads.Act UInt32 CStr}
    {c : Cache.Threads.State UInt32 CStr} {r : Option (Nat × Event UInt32 CStr)}
    (hs : Cache.Threads.step keyHash fuel s.cache t a = some (c, r)) (more : List (FileColl × UInt32 × Result))
    (ha : ∀ v ok i k n, a = .answer v ok → s.cache.pcs[t]? = some (.loading i k n) →
      (ok = true → loader file f k = some (v, none)) ∧ (ok = false → ∃ e, (f, k, .error e) ∈ l.reads ++ more)) :
    (∀ pc ∈ c.pcs, BringsPc file f (l.reads ++ more) pc) ∧ (∀ x ∈ l.events ++ r.toList, Brings file f (l.reads ++ more) x.2) ∧
      c.pcs.length = s.cache.pcs.length := by
  obtain ⟨pc, pc', _, _, h1, h2, -, -, -, h3⟩ := Cache.Threads.step_next hs
  have hb := (h.brings pc (List.mem_of_getElem? h1)).more more
  refine ⟨fun q hq => ?_, fun x hx => ?_, by rw [h2, List.length_set]⟩
  · rw [h2] at hq
    rcases List.mem_or_eq_of_mem_set hq with hq | rfl
    · exact (h.brings q hq).more more
    · cases h3 <;> first | trivial | exact hb | exact (ha _ _ _ _ _ rfl h1).1 rfl | exact (ha _ _ _ _ _ rfl h1).2 rfl
  · rcases List.mem_append.1 hx with hx | hx
    · exact (h.logged x hx).more more
    · cases h3 <;> simp at hx
      rw [hx]; exact hb

/-- A thread in the cache but not in its loader is in no read. -/
theorem CInv.noRead (h : CInv file f fuel capacity handles s l) {t : Nat} {pc : Cache.Threads.Pc UInt32 CStr}
    (hpc : s.cache.pcs[t]? = some pc) (h1 : pc ≠ .idle) (h2 : ∀ i k n, pc ≠ .loading i k n) : s.files.pcs[t]? = some .idle := by
  have hl : t < s.files.pcs.length := by rw [h.threads]; exact (List.getElem?_eq_some_iff.1 hpc).1
  obtain ⟨p, hp⟩ : ∃ p, s.files.pcs[t]? = some p := ⟨_, List.getElem?_eq_some_iff.2 ⟨hl, rfl⟩⟩
  by_cases hi : p = .idle
  · rw [hp, hi]
  · rcases h.join t p hp hi with h3 | ⟨i, k, n, h3, -⟩ <;> rw [hpc] at h3 <;> cases h3
    · exact absurd rfl h1
    · exact absurd rfl (h2 i k n)

theorem event_key {e : Event UInt32 CStr} {i n : Nat} {item : Held} (h : given (i, e) = some item) (hn : n = item.node) :
    item.shard = i ∧ e.isGet n = true ∧ Cache.Threads.Event.key e = some item.key ∧ ∀ k v m, e ≠ .loaded k v false m := by
  cases e with
  | hit k m => cases h; exact ⟨rfl, by simp [Event.isGet, hn], rfl, nofun⟩
  | loaded k v ok m =>
    cases ok with
    | true => cases h; exact ⟨rfl, by simp [Event.isGet, hn], rfl, nofun⟩
    | false => cases h
  | full k => cases h
  | released m => cases h

theorem CInv.step (h : CInv file f fuel capacity handles s l) {t : Nat} {a : Act} {o : Out}
    (hs : step file f fuel s t a = some (s', o)) : CInv file f fuel capacity handles s' (l.add o) := by
  have cacheJoin : ∀ {c : Cache.Threads.State UInt32 CStr} {ca : Cache.Threads.Act UInt32 CStr}
      {r : Option (Nat × Event UInt32 CStr)}, Cache.Threads.step keyHash fuel s.cache t ca = some (c, r) →
      (∀ p, s.files.pcs[t]? = some p → p = .idle) → ∀ (u : Nat) (p : Reading.Pc), s.files.pcs[u]? = some p → p ≠ .idle →
      c.pcs[u]? = some .idle ∨ ∃ i k n, c.pcs[u]? = some (.loading i k n) ∧ p.asked = some (f, k) := by
    intro c ca r hc hi u p hp hn
    obtain ⟨-, -, h1, -, h2, -⟩ := Cache.Threads.C87_ends hc
    have hu : u ≠ t := by rintro rfl; exact hn (hi p hp)
    rw [h2 u hu]
    exact h.join u p hp hn
  have readJoin : ∀ {q : Reading.State} {fa : Reading.Act} {r : Option (FileColl × UInt32 × Result)},
      Reading.step file s.files t fa = some (q, r) →
      (∀ p, q.pcs[t]? = some p → p ≠ .idle → s.cache.pcs[t]? = some .idle ∨
        ∃ i k n, s.cache.pcs[t]? = some (.loading i k n) ∧ p.asked = some (f, k)) →
      q.pcs.length = s.cache.pcs.length ∧ ∀ (u : Nat) (p : Reading.Pc), q.pcs[u]? = some p → p ≠ .idle →
      s.cache.pcs[u]? = some .idle ∨ ∃ i k n, s.cache.pcs[u]? = some (.loading i k n) ∧ p.asked = some (f, k) := by
    intro q fa r hq ht
    obtain ⟨pc, pc', h1, h2, -⟩ := Reading.step_next hq
    refine ⟨by rw [h2, List.length_set, h.threads], fun u p hp hn => ?_⟩
    by_cases hu : u = t
    · subst hu; exact ht p hp hn
    · rw [h2, List.getElem?_set_ne (Ne.symm hu)] at hp
      exact h.join u p hp hn
  cases step_joint hs with
  | get key c r hi hc =>
    have hr := event_none hc nofun
    subst hr
    obtain ⟨b1, b2, b3⟩ := h.bring hc [] nofun
    refine ⟨cache_more h.cache hc, by simpa [Log.add] using h.files, h.threads.trans b3.symm, ?_, b1, b2, ?_, ?_⟩
    · exact cacheJoin hc fun p hp => by rw [hi] at hp; cases hp; rfl
    · simpa [Log.add] using h.items
    · simpa [Log.add, held_same hc nofun] using h.counts
  | release item c r hi hm hc =>
    have hr := event_none hc nofun
    subst hr
    obtain ⟨b1, b2, b3⟩ := h.bring hc [] nofun
    obtain ⟨r1, r2⟩ := held_release hc
    refine ⟨cache_more h.cache hc, by simpa [Log.add] using h.files, h.threads.trans b3.symm, ?_, b1, b2, ?_, ?_⟩
    · exact cacheJoin hc fun p hp => by rw [hi] at hp; cases hp; rfl
    · intro x hx
      simpa [Log.add] using h.items x (List.mem_of_mem_erase hx)
    · intro j m
      have h1 := h.counts j m
      have h2 := (List.perm_cons_erase hm).countP_eq (Held.at j m)
      rw [List.countP_cons] at h2
      simp only [Log.add, Option.toList_none, List.append_nil]
      rw [r2, h1, h2]
      by_cases hh : j = item.shard ∧ m = item.node
      · obtain ⟨rfl, rfl⟩ := hh
        simp [Held.at]
      · have : Held.at j m item = false := by
          rw [Held.at, decide_eq_false_iff_not]; exact fun h => hh ⟨h.1.symm, h.2.symm⟩
        simp [this, hh]
  | read g key q r hi hq =>
    obtain ⟨j1, j2⟩ := readJoin hq fun p _ _ => .inl hi
    exact ⟨by simpa [Log.add] using h.cache, read_more h.files hq, j1, j2, fun pc hpc => (h.brings pc hpc).more _, fun x hx => (h.logged x (by simpa [Log.add] using hx)).more _,
      by simpa [Log.add] using h.items, by simpa [Log.add] using h.counts⟩
  | load i k n q r hi hq =>
    obtain ⟨j1, j2⟩ := readJoin hq fun p hp hn => .inr ⟨i, k, n, hi, by
      obtain ⟨pc, pc', h1, h2, h3⟩ := Reading.step_next hq
      rw [h2, List.getElem?_set_self (List.getElem?_eq_some_iff.1 h1).1] at hp
      cases hp
      cases h3
      rcases Reading.enter_cases f k with ⟨r, he⟩ | ⟨he, -⟩ <;> rw [he] <;> rfl⟩
    exact ⟨by simpa [Log.add] using h.cache, read_more h.files hq, j1, j2, fun pc hpc => (h.brings pc hpc).more _, fun x hx => (h.logged x (by simpa [Log.add] using hx)).more _,
      by simpa [Log.add] using h.items, by simpa [Log.add] using h.counts⟩
  | file a q r ha hq hno =>
    obtain ⟨j1, j2⟩ := readJoin hq fun p hp hn => by
      obtain ⟨pc, pc', h1, h2, h3⟩ := Reading.step_next hq
      rw [h2, List.getElem?_set_self (List.getElem?_eq_some_iff.1 h1).1] at hp
      cases hp
      have h4 : pc ≠ .idle ∧ p.asked = pc.asked := by
        cases h3 <;> first | exact absurd rfl (ha _ _) | exact absurd rfl hn | exact ⟨nofun, rfl⟩
      rw [h4.2]
      exact h.join t pc h1 h4.1
    exact ⟨by simpa [Log.add] using h.cache, read_more h.files hq, j1, j2, fun pc hpc => (h.brings pc hpc).more _, fun x hx => (h.logged x (by simpa [Log.add] using hx)).more _,
      by simpa [Log.add] using h.items, by simpa [Log.add] using h.counts⟩
  | answer a q g key res i k n c r ha hq hl hc =>
    have hr : r = none := event_none hc (by cases res <;> exact nofun)
    subst hr
    have hf := read_more h.files hq
    obtain ⟨pc, pc', h1, h2, h3⟩ := Reading.step_next hq
    have h4 : pc = .leave g key res ∧ pc' = .idle := by cases h3; exact ⟨rfl, rfl⟩
    obtain ⟨rfl, rfl⟩ := h4
    have hask : g = f ∧ key = k := by
      rcases h.join t _ h1 nofun with h5 | ⟨i', k', n', h5, h6⟩ <;> rw [hl] at h5 <;> cases h5
      cases h6; exact ⟨rfl, rfl⟩
    obtain ⟨rfl, rfl⟩ := hask
    have hal := Reading.C88_alone hf (f := g) (key := key) (r := res) (by simp)
    obtain ⟨b1, b2, b3⟩ := h.bring hc [(g, key, res)] (fun v ok i' k' n' hv hk => by
      rw [hl] at hk; cases hk
      cases res with
      | ok b => cases hv; exact ⟨fun _ => hal, nofun⟩
      | error e => cases hv; exact ⟨nofun, fun _ => ⟨e, by simp⟩⟩)
    refine ⟨cache_more h.cache hc, hf, ?_, ?_, b1, b2, by simpa [Log.add] using h.items, ?_⟩
    · rw [h2, List.length_set, h.threads, b3]
    · intro u p hp hn
      obtain ⟨-, -, g1, -, g2, -⟩ := Cache.Threads.C87_ends hc
      by_cases hu : u = t
      · subst hu
        rw [h2, List.getElem?_set_self (List.getElem?_eq_some_iff.1 h1).1] at hp
        cases hp; exact absurd rfl hn
      · rw [h2, List.getElem?_set_ne (Ne.symm hu)] at hp
        show c.pcs[u]? = _ ∨ _
        rw [g2 u hu]
        exact h.join u p hp hn
    · simpa [Log.add, held_same hc (by cases res <;> exact nofun)] using h.counts
  | run c r hc =>
    obtain ⟨b1, b2, b3⟩ := h.bring hc [] nofun
    obtain ⟨pc, pc', _, _, h1, h2, -, -, -, h3⟩ := Cache.Threads.step_next hc
    have hidle : s.files.pcs[t]? = some .idle := by
      cases h3 <;> exact h.noRead h1 nofun nofun
    have hj := cacheJoin hc fun p hp => by rw [hidle] at hp; cases hp; rfl
    cases r with
    | none =>
      refine ⟨cache_more h.cache hc, by simpa [Log.add] using h.files, h.threads.trans b3.symm, hj, b1, b2, ?_, ?_⟩
      · simpa [Log.add] using h.items
      · simpa [Log.add, held_same hc nofun] using h.counts
    | some x =>
      obtain ⟨i, e⟩ := x
      obtain ⟨-, hlv, hheld⟩ := event_leave hc
      refine ⟨cache_more h.cache hc, by simpa [Log.add] using h.files, h.threads.trans b3.symm, hj, b1, b2, ?_, ?_⟩
      · intro item hi
        simp only [Option.bind_some, List.mem_append, Option.mem_toList] at hi
        show ∃ v, lastLoad item.node (eventsOf item.shard (l.events ++ [(i, e)])) = _
        rw [Cache.Threads.eventsOf_snoc]
        rcases hi with hi | hi
        · obtain ⟨k1, k2, k3, k4⟩ := event_key hi rfl
          obtain ⟨k, v, ok, g1, g2, -, g4⟩ := Cache.Threads.C87_get keyHash_inj h.cache hc k2
          rw [k1, if_pos rfl]
          rw [k3] at g1; cases g1
          rcases g4 with rfl | g4
          · exact ⟨v, g2⟩
          · exact absurd g4 (k4 _ _ _)
        · obtain ⟨v, hv⟩ := h.items item hi
          by_cases hs : i = item.shard
          · subst hs
            rw [if_pos rfl]
            have hh : s.cache.held item.shard item.node ≠ 0 := by
              rw [h.counts]
              have : 0 < s.items.countP (Held.at item.shard item.node) :=
                List.countP_pos_iff.2 ⟨item, hi, by simp [Held.at]⟩
              omega
            rw [lastLoad_keep (load_free h.cache hlv hh)]
            exact ⟨v, hv⟩
          · rw [if_neg hs, List.append_nil]; exact ⟨v, hv⟩
      · intro j m
        simp only [Log.add, Option.bind_some, Option.toList_some, List.countP_append, List.countP_singleton]
        rw [hheld, h.counts]
        have e1 : ∀ n, (i = j ∧ n = m) ↔ (j = i ∧ n = m) := fun n => by rw [eq_comm (a := i)]
        cases e with
        | hit k n => simp [given, Event.isGet, Held.at, failed, e1 n]; omega
        | loaded k v ok n =>
          cases ok <;> simp [given, Event.isGet, Held.at, failed, e1 n] <;> omega
        | full k => simp [given, Event.isGet, failed]
        | released n => simp [given, Event.isGet, failed]

theorem CInv.exec {sched : Schedule} : ∀ {s s' : State} {l l' : Log}, CInv file f fuel capacity handles s l →
    exec file f fuel s l sched = some (s', l') → CInv file f fuel capacity handles s' l' := by
  induction sched with
  | nil => intro s s' l l' h he; cases he; exact h
  | cons x rest ih =>
    intro s s' l l' h he
    obtain ⟨t, a⟩ := x
    rw [Threads.exec, Option.bind_eq_some_iff] at he
    obtain ⟨⟨s1, o⟩, h1, he⟩ := he
    exact ih (h.step h1) he

theorem Reached.inv (h : Reached file f fuel capacity handles s l) : CInv file f fuel capacity handles s l := by
  obtain ⟨hf, s0, sched, h0, he⟩ := h
  exact (h0.inv hf).exec he

/-! ## C89 -/

/-- C89: an item that was got and not released has the bytes a read of its key from the file gives, at every moment. -/
theorem C89_bytes (h : Reached file f fuel capacity handles s l) {item : Held} (hi : item ∈ s.items) :
    loader file f item.key = some (s.bytes item, none) := by
  have h := h.inv
  obtain ⟨v, hv⟩ := h.items item hi
  have hh : s.cache.held item.shard item.node ≠ 0 := by
    rw [h.counts]
    have : 0 < s.items.countP (Held.at item.shard item.node) := List.countP_pos_iff.2 ⟨item, hi, by simp [Held.at]⟩
    omega
  obtain ⟨k, v', ok, h1, h2⟩ := Cache.Threads.C87_data h.cache hh
  rw [hv] at h1
  cases h1
  have hm := Cache.Threads.lastLoad_mem hv
  simp only [eventsOf, List.mem_map, List.mem_filter] at hm
  obtain ⟨x, ⟨hx, -⟩, hx'⟩ := hm
  have := h.logged x hx
  rw [hx'] at this
  rw [State.bytes, h2]
  exact this

/-- C89: so these are the bytes of the item in the file, and its key is one of the collection. -/
theorem C89_item {hd : Header} {read : Reader} (w : WellFormed file hd read)
    (h : Reached file (fileColl hd read) fuel capacity handles s l) {item : Held} (hi : item ∈ s.items) :
    (∀ bytes, IsItem file hd item.key bytes read → s.bytes item = bytes) ∧ ¬ NotIn hd item.key read := by
  have hb := C89_bytes h hi
  constructor
  · intro bytes hx
    rw [loader_readable (isItem_readable w hx)] at hb
    cases hb; rfl
  · intro hn
    rw [loader_outside (notIn_outside hn)] at hb
    simp at hb

/-- No new call of thread `t`. -/
def NoCall (t : Nat) (sched : Schedule) : Prop := ∀ a, (t, a) ∈ sched → a = .run ∨ a = .load ∨ ∃ fa, a = .file fa

theorem asked_step {u t : Nat} {a : Act} {o : Out} {pc : Cache.Threads.Pc UInt32 CStr} {q : Nat × (UInt32 ⊕ Nat)}
    (hs : step file f fuel s u a = some (s', o)) (hpc : s.cache.pcs[t]? = some pc) (hq : pc = .idle ∨ pc.asked = some q)
    (hn : u = t → a = .run ∨ a = .load ∨ ∃ fa, a = .file fa) :
    ∃ pc', s'.cache.pcs[t]? = some pc' ∧ (pc' = .idle ∨ pc'.asked = some q) := by
  cases step_joint hs with
  | get key c r hi hc => exact Cache.Threads.asked_step hc hpc hq fun e => by have := hn e; simp at this
  | release item c r hi hm hc => exact Cache.Threads.asked_step hc hpc hq fun e => by have := hn e; simp at this
  | run c r hc => exact Cache.Threads.asked_step hc hpc hq fun _ => .inl rfl
  | answer b q g key res i k n c r ha hr hl hc =>
    exact Cache.Threads.asked_step hc hpc hq fun _ => .inr (by cases res <;> exact ⟨_, _, rfl⟩)
  | _ => exact ⟨pc, hpc, hq⟩

theorem asked_exec {t : Nat} {q : Nat × (UInt32 ⊕ Nat)} {sched : Schedule} : ∀ {s s' : State} {l l' : Log}
    {pc : Cache.Threads.Pc UInt32 CStr}, exec file f fuel s l sched = some (s', l') → s.cache.pcs[t]? = some pc →
    (pc = .idle ∨ pc.asked = some q) → NoCall t sched →
    ∃ pc', s'.cache.pcs[t]? = some pc' ∧ (pc' = .idle ∨ pc'.asked = some q) := by
  induction sched with
  | nil => intro s s' l l' pc he hpc hq _; cases he; exact ⟨pc, hpc, hq⟩
  | cons x rest ih =>
    intro s s' l l' pc he hpc hq hn
    obtain ⟨u, a⟩ := x
    rw [exec, Option.bind_eq_some_iff] at he
    obtain ⟨⟨s1, o⟩, h1, he⟩ := he
    obtain ⟨pc1, g1, g2⟩ := asked_step h1 hpc hq fun e => hn a (by rw [e]; exact List.mem_cons_self)
    exact ih he g1 g2 fun b hb => hn b (List.mem_cons_of_mem _ hb)

/-- A step that has an event is the last of a call of the cache. -/
theorem event_run {t i : Nat} {a : Act} {o : Out} {e : Event UInt32 CStr} (hs : step file f fuel s t a = some (s', o))
    (ho : o.event = some (i, e)) : a = .run ∧ s.cache.pcs[t]? = some (.leave i e) ∧
      s'.items = (given (i, e)).toList ++ s.items := by
  cases step_joint hs with
  | get key c r hi hc => cases ho; exact absurd (event_leave hc).1 nofun
  | release item c r hi hm hc => cases ho; exact absurd (event_leave hc).1 nofun
  | run c r hc => cases ho; exact ⟨rfl, (event_leave hc).2.1, rfl⟩
  | answer b q g key res j k n c r ha hr hl hc =>
    cases ho; exact absurd (event_leave hc).1 (by cases res <;> exact nofun)
  | read g key q r hi hq => cases ho
  | load j k n q r hi hq => cases ho
  | file b q r ha hq hno => cases ho

/-- C89: what a get returns is for the key it was called with, and a release is of its item, whatever the other threads do
meanwhile. -/
theorem C89_answers {s1 s2 s3 : State} {t i : Nat} {a b : Act} {o o' : Out} {sched : Schedule} {e : Event UInt32 CStr}
    (hs : step file f fuel s t a = some (s1, o)) (he : exec file f fuel s1 l sched = some (s2, l')) (hn : NoCall t sched)
    (hr : step file f fuel s2 t b = some (s3, o')) (ho : o'.event = some (i, e)) :
    (∀ key, a = .get key → Cache.Threads.Event.key e = some key ∧
      ∀ item, given (i, e) = some item → item.key = key ∧ item ∈ s3.items) ∧
    (∀ item, a = .release item → i = item.shard ∧ e = .released item.node) := by
  obtain ⟨rfl, hl, hit⟩ := event_run hr ho
  have fin : ∀ {c pc q r}, Cache.Threads.step keyHash fuel s.cache t c = some (s1.cache, r) → s1.cache.pcs[t]? = some pc →
      pc.asked = some q → (Cache.Threads.Pc.leave i e : Cache.Threads.Pc UInt32 CStr).asked = some q := by
    intro c pc q r hc hpc hq
    obtain ⟨pc', g1, g2⟩ := asked_exec he hpc (.inr hq) hn
    rw [hl] at g1; cases g1
    exact g2.resolve_left nofun
  constructor
  · rintro key rfl
    cases step_joint hs with
    | get key c r hi hc =>
      obtain ⟨p, p', _, _, h1, h2, -, -, -, h3⟩ := Cache.Threads.step_next hc
      have hp := Cache.Threads.pcs_set h1 h2
      cases h3 with
      | @get _ j hj _ =>
        have := fin hc hp.1 rfl
        have hk : Cache.Threads.Event.key e = some key := by
          cases e <;> simp only [Cache.Threads.Pc.asked, Option.some.injEq, Prod.mk.injEq, Sum.inl.injEq, reduceCtorEq,
            and_false] at this
          all_goals rw [this.2]; rfl
        refine ⟨hk, fun item hg => ?_⟩
        have h4 := (event_key hg rfl).2.2.1
        rw [hk] at h4
        cases h4
        exact ⟨rfl, by rw [hit, hg]; simp⟩
  · rintro item rfl
    cases step_joint hs with
    | release item c r hi hm hc =>
      obtain ⟨p, p', _, _, h1, h2, -, -, -, h3⟩ := Cache.Threads.step_next hc
      have hp := Cache.Threads.pcs_set h1 h2
      cases h3 with
      | release =>
        have := fin hc hp.1 rfl
        cases e <;> simp only [Cache.Threads.Pc.asked, Option.some.injEq, Prod.mk.injEq, Sum.inr.injEq, reduceCtorEq,
          and_false] at this
        exact ⟨this.1, by rw [this.2]⟩

/-- Someone has the node, or is about to give it back. -/
def InUse (s : State) (i n : Nat) : Prop := s.cache.held i n ≠ 0 ∨ ∃ pc ∈ s.cache.pcs, pc.releasing i n = true

/-- C89: a get gives no item only because a read of its key failed or because all nodes of its shard are in use. -/
theorem C89_none (h : Reached file f fuel capacity handles s l) {t i : Nat} {a : Act} {o : Out} {e : Event UInt32 CStr}
    {key : UInt32} (hs : step file f fuel s t a = some (s', o)) (ho : o.event = some (i, e))
    (hk : Cache.Threads.Event.key e = some key) (hg : given (i, e) = none) :
    (∃ err, (f, key, .error err) ∈ l.reads) ∨ ∀ n < capacity, InUse s i n := by
  have h := h.inv
  obtain ⟨rfl, hl, -⟩ := event_run hs ho
  cases e with
  | hit k n => cases hg
  | released n => cases hk
  | loaded k v ok n =>
    cases ok with
    | true => cases hg
    | false => cases hk; exact .inl (h.brings _ (List.mem_of_getElem? hl))
  | full k =>
    right
    obtain ⟨A, hT⟩ := h.cache.inv
    obtain ⟨pc, h1, -, hm⟩ := hT.owned i t (hT.inside t _ i hl rfl)
    rw [hl] at h1; cases h1
    obtain ⟨op, hop⟩ := hm
    obtain ⟨ops, ha⟩ := hT.after i
    cases op with
    | get k' v ok =>
      have hk' : k' = k := by
        obtain ⟨⟨m, t', q, inv⟩, hc⟩ := ha.inv
        rcases (step_spec inv (by rw [hc]; exact ha.enough) hop).2.2.2.1 k' v ok rfl with ⟨n', hm, hx⟩ | ⟨-, ⟨-, -, hx⟩ | ⟨n', hx, -⟩⟩
        · cases hx
        · cases hx; rfl
        · cases hx
      subst hk'
      intro n hn
      have h2 := Cache.C06_full ha hop n hn
      have h3 := hT.held i n
      rw [Cache.held] at h2
      by_cases h4 : s.cache.held i n = 0
      · right
        have : 0 < s.cache.pcs.countP (Cache.Threads.Pc.releasing i n) := by omega
        exact List.countP_pos_iff.1 this
      · exact .inl h4
    | release m =>
      obtain ⟨⟨m', t', q, inv⟩, hc⟩ := ha.inv
      have := ((step_spec inv (by rw [hc]; exact ha.enough) hop).2.2.2.2 m rfl).1
      cases this

/-- C89: with a handle for each thread, a node of the shard free and no error of the system, a get of a key of the collection
gives the item. -/
theorem C89_gives {hd : Header} {read : Reader} (w : WellFormed file hd read)
    (h : Reached file (fileColl hd read) fuel capacity handles s l) {t i : Nat} {a : Act} {o : Out} {e : Event UInt32 CStr}
    {key : UInt32} {bytes : CStr} (hs : step file (fileColl hd read) fuel s t a = some (s', o)) (ho : o.event = some (i, e))
    (hk : Cache.Threads.Event.key e = some key) (hi : IsItem file hd key bytes read)
    (hh : s.files.pcs.length ≤ handles.length) (hsys : ∀ x ∈ l.reads, x.2.2 ≠ .error .seek ∧ x.2.2 ≠ .error .read)
    (hroom : ∃ n < capacity, ¬ InUse s i n) :
    ∃ item ∈ s'.items, given (i, e) = some item ∧ item.key = key ∧ s'.bytes item = bytes := by
  cases hg : given (i, e) with
  | none =>
    rcases C89_none h hs ho hk hg with ⟨err, hm⟩ | hall
    · rcases (Reading.C88_item h.inv.files w hm).1 bytes hi with h1 | h1 | h1 | h1
      · cases h1
      · exact absurd h1 (Reading.C88_enough h.inv.files hh hm)
      · exact absurd h1 (hsys _ hm).1
      · exact absurd h1 (hsys _ hm).2
    · obtain ⟨n, hn, hx⟩ := hroom
      exact absurd (hall n hn) hx
  | some item =>
    obtain ⟨-, -, h1, -⟩ := event_key hg rfl
    rw [hk] at h1; cases h1
    have hm : item ∈ s'.items := by rw [(event_run hs ho).2.2, hg]; simp
    refine ⟨item, hm, rfl, rfl, ?_⟩
    have h' : Reached file (fileColl hd read) fuel capacity handles s' (l.add o) := by
      obtain ⟨hf, s0, sched, h0, he⟩ := h
      refine ⟨hf, s0, sched ++ [(t, a)], h0, ?_⟩
      clear * - he hs
      generalize Log.mk [] [] = l0 at he
      induction sched generalizing s0 l0 with
      | nil => cases he; simp [exec, hs]
      | cons x rest ih =>
        obtain ⟨u, b⟩ := x
        rw [exec, Option.bind_eq_some_iff] at he
        obtain ⟨r, h1, he⟩ := he
        rw [List.cons_append, exec, h1]
        exact ih _ _ he
    exact (C89_item w h' hm).1 bytes hi

/-- C89: while a thread is in a call some thread can go on, if no read of what is being read is undefined. -/
theorem C89_progress (h : Reached file f fuel capacity handles s l)
    (hd : ∀ pc ∈ s.files.pcs, ∀ q, pc.asked = some q → loader file q.1 q.2 ≠ none) (hq : ¬ Quiet s) :
    ∃ u a, (a = .run ∨ a = .load ∨ ∃ fa, a = .file fa) ∧ ∃ r, step file f fuel s u a = some r := by
  have hinv := h.inv
  have reading : ∀ (t : Nat) (p : Reading.Pc), s.files.pcs[t]? = some p → p ≠ .idle →
      ∃ u a, (a = .run ∨ a = .load ∨ ∃ fa, a = .file fa) ∧ ∃ r, step file f fuel s u a = some r := by
    intro t p hp hn
    obtain ⟨q, hq⟩ : ∃ q, p.asked = some q := by cases p <;> first | exact absurd rfl hn | exact ⟨_, rfl⟩
    obtain ⟨fa, h1, ⟨r1, r2⟩, h2⟩ := Reading.C88_progress hinv.files hp hq (hd p (List.mem_of_getElem? hp) q hq)
    have hx : step file f fuel s t (.file fa) = s.finish fuel t (r1, r2) := by
      rcases h1 with rfl | ⟨x, rfl⟩ <;> simp only [step, h2, Option.bind_some]
    refine ⟨t, .file fa, .inr (.inr ⟨fa, rfl⟩), ?_⟩
    rw [hx, State.finish]
    split
    · next g key res i k n hr hc =>
      cases res <;> simp [loaded, Cache.Threads.step, hc, Cache.Threads.State.answer]
    · exact ⟨_, rfl⟩
  by_cases hf : ∀ pc ∈ s.files.pcs, pc = .idle
  · have hc : ¬ Cache.Threads.Quiet s.cache := fun hc => hq ⟨hc, hf⟩
    simp only [Cache.Threads.Quiet, not_forall] at hc
    obtain ⟨pc, hm, hn⟩ := hc
    obtain ⟨t, ht⟩ := List.getElem?_of_mem hm
    obtain ⟨u, ⟨r, hr⟩ | hr⟩ := (Cache.Threads.C87_progress hinv.cache ht).2.2.2 hn
    · exact ⟨u, .run, .inl rfl, by rw [step, hr]; exact ⟨_, rfl⟩⟩
    · obtain ⟨⟨c, r⟩, hr⟩ := hr [] true
      obtain ⟨p, p', _, _, h1, -, -, -, -, h3⟩ := Cache.Threads.step_next hr
      cases h3 with
      | loaded i k n v =>
        have hl : u < s.files.pcs.length := by rw [hinv.threads]; exact (List.getElem?_eq_some_iff.1 h1).1
        have hp : s.files.pcs[u]? = some .idle := by
          rw [List.getElem?_eq_some_iff]; exact ⟨hl, hf _ (List.getElem_mem hl)⟩
        refine ⟨u, .load, .inr (.inl rfl), ?_⟩
        simp [step, h1, Reading.step, hp]
  · simp only [not_forall] at hf
    obtain ⟨pc, hm, hn⟩ := hf
    obtain ⟨t, ht⟩ := List.getElem?_of_mem hm
    exact reading t pc ht hn

/-- C89: a call ends: each step of its thread brings it nearer to its return, from which it is never more than fourteen steps away,
and the other threads do not change where it is. -/
theorem C89_ends (h : Reached file f fuel capacity handles s l) {t : Nat} {a : Act} {o : Out}
    (hs : step file f fuel s t a = some (s', o)) :
    ∃ c p c' p', s.cache.pcs[t]? = some c ∧ s.files.pcs[t]? = some p ∧ s'.cache.pcs[t]? = some c' ∧ s'.files.pcs[t]? = some p' ∧
      (¬ (c = .idle ∧ p = .idle) → left c' p' < left c p) ∧ left c' p' ≤ 14 ∧ (left c' p' = 0 ↔ c' = .idle ∧ p' = .idle) ∧
      ∀ u, u ≠ t → s'.cache.pcs[u]? = s.cache.pcs[u]? ∧ s'.files.pcs[u]? = s.files.pcs[u]? := by
  have h := h.inv
  have readStep : ∀ {q : Reading.State} {fa : Reading.Act} {r : Option (FileColl × UInt32 × Result)},
      Reading.step file s.files t fa = some (q, r) → ∃ p p', s.files.pcs[t]? = some p ∧ q.pcs[t]? = some p' ∧
      (∀ u, u ≠ t → q.pcs[u]? = s.files.pcs[u]?) ∧ Reading.Next s.files fa p p' r := by
    intro q fa r hq
    obtain ⟨p, p', h1, h2, h3⟩ := Reading.step_next hq
    refine ⟨p, p', h1, ?_, ?_, h3⟩
    · rw [h2]; exact List.getElem?_set_self (List.getElem?_eq_some_iff.1 h1).1
    · intro u hu; rw [h2, List.getElem?_set_ne (Ne.symm hu)]
  have cacheStep : ∀ {c1 : Cache.Threads.State UInt32 CStr} {ca : Cache.Threads.Act UInt32 CStr}
      {r : Option (Nat × Event UInt32 CStr)}, Cache.Threads.step keyHash fuel s.cache t ca = some (c1, r) →
      ∃ c c' x y, s.cache.pcs[t]? = some c ∧ c1.pcs[t]? = some c' ∧ (∀ u, u ≠ t → c1.pcs[u]? = s.cache.pcs[u]?) ∧
        Cache.Threads.Next keyHash s.cache ca c c' r x y := by
    intro c1 ca r hc
    obtain ⟨c, c', x, y, h1, h2, -, -, -, h3⟩ := Cache.Threads.step_next hc
    have hp := Cache.Threads.pcs_set h1 h2
    exact ⟨c, c', x, y, h1, hp.1, hp.2, h3⟩
  have enterLeft : ∀ g k, (Reading.enter g k).left ≤ 6 ∧ Reading.enter g k ≠ .idle ∧ (Reading.enter g k).left ≠ 0 := by
    intro g k
    rcases Reading.enter_cases g k with ⟨r, he⟩ | ⟨he, -⟩ <;> rw [he] <;> simp [Reading.Pc.left]
  have leftLoading : ∀ i k n (p : Reading.Pc), p ≠ .idle → left (.loading i k n) p = 4 + p.left := by
    intro i k n p hp
    cases p <;> first | exact absurd rfl hp | rfl
  have leftIdle : ∀ p : Reading.Pc, left .idle p = p.left := fun p => by simp [left, Cache.Threads.Pc.left]
  cases step_joint hs with
  | get key c1 r hi hc =>
    obtain ⟨c, c', _, _, h1, h2, h3, h4⟩ := cacheStep hc
    refine ⟨c, .idle, c', .idle, h1, hi, h2, hi, ?_, ?_, ?_, fun u hu => ⟨h3 u hu, rfl⟩⟩ <;> cases h4 <;>
      simp [left, Cache.Threads.Pc.left]
  | release item c1 r hi hm hc =>
    obtain ⟨c, c', _, _, h1, h2, h3, h4⟩ := cacheStep hc
    refine ⟨c, .idle, c', .idle, h1, hi, h2, hi, ?_, ?_, ?_, fun u hu => ⟨h3 u hu, rfl⟩⟩ <;> cases h4 <;>
      simp [left, Cache.Threads.Pc.left, Reading.Pc.left]
  | run c1 r hc =>
    obtain ⟨c, c', _, _, h1, h2, h3, h4⟩ := cacheStep hc
    have hi : s.files.pcs[t]? = some .idle := by cases h4 <;> exact h.noRead h1 nofun nofun
    refine ⟨c, .idle, c', .idle, h1, hi, h2, hi, ?_, ?_, ?_, fun u hu => ⟨h3 u hu, rfl⟩⟩ <;> cases h4 <;>
      simp [left, Cache.Threads.Pc.left, Reading.Pc.left]
  | read g key q r hi hq =>
    obtain ⟨p, p', h1, h2, h3, h4⟩ := readStep hq
    cases h4
    obtain ⟨e1, e2, e3⟩ := enterLeft g key
    refine ⟨.idle, .idle, .idle, _, hi, h1, hi, h2, fun hx => absurd ⟨rfl, rfl⟩ hx, ?_, ?_, fun u hu => ⟨rfl, h3 u hu⟩⟩
    · rw [leftIdle]; omega
    · rw [leftIdle]; simp [e2, e3]
  | load i k n q r hi hq =>
    obtain ⟨p, p', h1, h2, h3, h4⟩ := readStep hq
    cases h4
    obtain ⟨e1, e2, e3⟩ := enterLeft f k
    refine ⟨_, .idle, _, _, hi, h1, hi, h2, fun _ => ?_, ?_, ?_, fun u hu => ⟨rfl, h3 u hu⟩⟩
    · rw [leftLoading _ _ _ _ e2]
      show _ < 11
      omega
    · rw [leftLoading _ _ _ _ e2]; omega
    · rw [leftLoading _ _ _ _ e2]; simp
  | file fa q r ha hq hno =>
    obtain ⟨p, p', h1, h2, h3, h4⟩ := readStep hq
    have h5 : p ≠ .idle ∧ p'.left < p.left ∧ p'.left ≤ 6 ∧ (p' = .idle ↔ r ≠ none) ∧ (p'.left = 0 ↔ p' = .idle) := by
      cases h4 <;> first | exact absurd rfl (ha _ _) | simp [Reading.Pc.left]
    obtain ⟨h5, h6, h7, h8, h9⟩ := h5
    rcases h.join t p h1 h5 with hc | ⟨i, k, n, hc, -⟩
    · refine ⟨.idle, p, .idle, p', hc, h1, hc, h2, fun _ => ?_, ?_, ?_, fun u hu => ⟨rfl, h3 u hu⟩⟩
      · rw [leftIdle, leftIdle]; exact h6
      · rw [leftIdle]; omega
      · rw [leftIdle, h9]; simp
    · have h10 : p' ≠ .idle := fun hx => hno (h8.1 hx) i k n hc
      refine ⟨_, p, _, p', hc, h1, hc, h2, fun _ => ?_, ?_, ?_, fun u hu => ⟨rfl, h3 u hu⟩⟩
      · rw [leftLoading _ _ _ _ h10, leftLoading _ _ _ _ h5]; omega
      · rw [leftLoading _ _ _ _ h10]; omega
      · rw [leftLoading _ _ _ _ h10]; simp
  | answer fa q g key res i k n c1 r ha hq hl hc =>
    obtain ⟨p, p', h1, h2, h3, h4⟩ := readStep hq
    cases h4
    obtain ⟨c, c', _, _, k1, k2, k3, k4⟩ := cacheStep hc
    refine ⟨c, _, c', _, k1, h1, k2, h2, ?_, ?_, ?_, fun u hu => ⟨k3 u hu, h3 u hu⟩⟩ <;> cases res <;> cases k4 <;>
      simp [left, Cache.Threads.Pc.left, Reading.Pc.left]

/-- C89: when no thread is in a call all handles are in the pool, no lock is taken, and the nodes in use are those of the items not
released and those whose load failed. -/
theorem C89_quiet (h : Reached file f fuel capacity handles s l) (hq : Quiet s) :
    s.files.free.Perm handles ∧ ∀ i, s.cache.locks i = none ∧
      ∀ n, n < (s.cache.shards i).allocated ∧ (s.cache.shards i).active n ≠ 0 ↔
        (∃ item ∈ s.items, item.shard = i ∧ item.node = n) ∨ ∃ k v, (i, .loaded k v false n) ∈ l.events := by
  have h := h.inv
  refine ⟨Reading.C88_returned h.files hq.2, fun i => ?_⟩
  obtain ⟨h1, h2⟩ := Cache.Threads.C87_quiet h.cache hq.1 i
  refine ⟨h1, fun n => ?_⟩
  rw [h2, h.counts]
  have e1 : 0 < s.items.countP (Held.at i n) ↔ ∃ item ∈ s.items, item.shard = i ∧ item.node = n := by
    rw [List.countP_pos_iff]; simp [Held.at]
  have e2 : 0 < l.events.countP (failed i n) ↔ ∃ k v, (i, .loaded k v false n) ∈ l.events := by
    rw [List.countP_pos_iff]
    constructor
    · rintro ⟨⟨j, e⟩, hm, hf⟩
      cases e with
      | loaded k v ok m =>
        cases ok with
        | true => cases hf
        | false => simp [failed] at hf; obtain ⟨rfl, rfl⟩ := hf; exact ⟨k, v, hm⟩
      | _ => cases hf
    · rintro ⟨k, v, hm⟩
      exact ⟨_, hm, by simp [failed]⟩
  rw [← e1, ← e2]
  omega

/-! ### Witnesses -/

/-- Any memory to put a shard in. -/
def junk : Cache.Shard CStr where
  tree := ⟨fun _ => 7, fun _ => .null, fun _ => .root, fun _ => .null, fun _ => .red⟩
  capacity := 9
  allocated := 3
  first := some 4
  last := some 2
  next := fun n => some n
  prev := fun _ => none
  active := fun _ => 5
  data := fun _ => [1, 2]

/-- A new cached collection for three threads, with two shards of one node each. -/
def new (sh : Cache.Shard CStr) (handles : List Nat) : State :=
  ⟨⟨2, fun _ => sh, fun _ => none, 0, 0, [.idle, .idle, .idle], fun _ _ => 0⟩, Reading.twoStart handles 3, []⟩

theorem new_start {sh : Cache.Shard CStr} (h : Cache.shardInit [] 1 junk = some sh) {handles : List Nat} (hh : handles.Nodup) :
    Start 1 handles (new sh handles) :=
  ⟨⟨fun _ => ⟨[], junk, h⟩, fun _ => rfl, ⟨rfl, rfl⟩, by simp [new], fun _ _ => rfl⟩, Reading.two_start hh 3, rfl, rfl⟩

def twoColl : FileColl := fileColl Reading.twoFixed .fixed

/-- What a program sees: what the calls did, the keys and results of the reads, the items it has and their bytes. -/
structure Outcome where
  events : List (Nat × Event UInt32 CStr)
  reads : List (UInt32 × Result)
  items : List (Held × CStr)
deriving DecidableEq

def tried (handles : List Nat) (sched : Schedule) : Option Outcome :=
  (Cache.shardInit [] 1 junk).bind fun sh => (exec Reading.twoFile twoColl 12 (new sh handles) ⟨[], []⟩ sched).map fun r =>
    ⟨r.2.events, r.2.reads.map fun x => (x.2.1, x.2.2), r.1.items.map fun x => (x, r.1.bytes x)⟩

def runs (t n : Nat) : Schedule := List.replicate n (t, .run)
def reads (t n : Nat) : Schedule := List.replicate n (t, .file .run)

/-- Thread 0 gets key 2; while it reads the item thread 1 gets key 1, which is in the other shard, and thread 2 reads an item of
another collection; all three use handles. Then thread 2 gets key 2, which is in the cache now, and thread 1 releases the item
thread 0 got. -/
def together : Schedule :=
  ((0, .get 2) :: runs 0 3) ++ [(0, .load), (0, .file (.handle 5))] ++ ((1, .get 1) :: runs 1 3) ++
    [(1, .load), (1, .file (.handle 4)), (2, .read (fileColl Reading.twoVariable Reading.sizeReader) 2), (2, .file (.handle 6))] ++
    reads 0 1 ++ reads 2 2 ++ reads 1 4 ++ runs 1 4 ++ reads 0 3 ++ runs 0 4 ++ reads 2 3 ++ ((2, .get 2) :: runs 2 7) ++
    ((1, .release ⟨2, 0, 0⟩) :: runs 1 4)

example : tried [4, 5, 6] together = some ⟨[(1, .loaded 1 [20, 21] true 0), (0, .loaded 2 [30, 31] true 0), (0, .hit 2 0),
      (0, .released 0)], [(1, .ok [20, 21]), (2, .ok [30, 31]), (2, .ok [3, 8, 8])],
    [(⟨2, 0, 0⟩, [30, 31]), (⟨1, 1, 0⟩, [20, 21])]⟩ := by decide +kernel

/-- With one handle the second load fails, and there is no item; its node stays in use, so that the next get of the shard finds none
free. -/
example : tried [5] (((0, .get 2) :: runs 0 3) ++ [(0, .load), (0, .file (.handle 5))] ++ ((1, .get 1) :: runs 1 3) ++ [(1, .load)] ++
      reads 1 2 ++ runs 1 3 ++ ((1, .get 1) :: runs 1 6)) =
    some ⟨[(1, .loaded 1 [] false 0), (1, .full 1)], [(1, .error .noHandle)], []⟩ := by decide +kernel

/-- The hypotheses of the theorems above are met in such a history, with items held. -/
example : ∃ s l, Reached Reading.twoFile twoColl 12 1 [4, 5, 6] s l ∧ ⟨2, 0, 0⟩ ∈ s.items ∧ s.bytes ⟨2, 0, 0⟩ = [30, 31] := by
  have h : (tried [4, 5, 6] together).map (·.items) = some [(⟨2, 0, 0⟩, [30, 31]), (⟨1, 1, 0⟩, [20, 21])] := by decide +kernel
  simp only [tried, Option.map_eq_some_iff, Option.bind_eq_some_iff] at h
  obtain ⟨-, ⟨sh, h1, ⟨s, l⟩, h2, rfl⟩, h3⟩ := h
  refine ⟨s, l, ⟨by show 2 * Nat.log2 2 + 2 ≤ 12; decide, _, together, new_start h1 (by decide), h2⟩, ?_⟩
  obtain ⟨x, hx, hx'⟩ := List.mem_map.1 (show ((⟨2, 0, 0⟩, [30, 31]) : Held × CStr) ∈ s.items.map fun x => (x, s.bytes x) by
    simp only at h3; rw [h3]; simp)
  rw [Prod.mk.injEq] at hx'
  obtain ⟨rfl, hb⟩ := hx'
  exact ⟨hx, hb⟩

end Verif.Collection.Threads
