import Verif.Collection.Props

/-! # C74: items held at the same time -/

namespace Verif.Collection

open Verif.Cache (Cache COp Event cacheStep cacheRun eventsOf held NewCache Enough)

/-! ## The cache -/

theorem held_snoc {K V : Type} {n : Nat} {evs : List (Event K V)} (hle : Cache.releases n evs ≤ Cache.gets n evs) (e : Event K V) :
    held n (evs ++ [e]) = held n evs + (if e.isGet n then 1 else 0) - (if e.isRelease n then 1 else 0) := by
  simp only [held, Cache.gets, Cache.releases, List.countP_append, List.countP_singleton] at hle ⊢
  split <;> split <;> omega

/-- The shard `i` of a cache after any history. -/
theorem Reached.shard {file : CStr} {f : FileColl} {fuel capacity : Nat} {c : Cache CStr} {evs : List (Nat × Event UInt32 CStr)}
    (r : Reached file f fuel capacity c evs) {i : Nat} (hi : i < c.concurrency) :
    ∃ o, Cache.After keyHash fuel capacity o (c.shards i) (eventsOf i evs) := by
  obtain ⟨hf, -, c0, ops, hnew, hrun, -⟩ := r
  exact Cache.C04_shards hf hnew hrun (by rw [← (Cache.cacheRun_spec hrun).1]; exact hi)

/-- Only shards that exist have events. -/
theorem Reached.outside {file : CStr} {f : FileColl} {fuel capacity : Nat} {c : Cache CStr} {evs : List (Nat × Event UInt32 CStr)}
    (r : Reached file f fuel capacity c evs) {i : Nat} (hi : ¬ i < c.concurrency) : eventsOf i evs = [] := by
  obtain ⟨-, -, c0, ops, -, hrun, -⟩ := r
  obtain ⟨h1, h2, -⟩ := Cache.cacheRun_spec hrun
  rw [eventsOf, List.map_eq_nil_iff, List.filter_eq_nil_iff]
  intro e he
  have := h2 e he
  simp only [decide_eq_true_eq, beq_iff_eq]
  omega

theorem Reached.held_step {file : CStr} {f : FileColl} {fuel capacity : Nat} {c : Cache CStr}
    {evs : List (Nat × Event UInt32 CStr)} (r : Reached file f fuel capacity c evs) (i j n : Nat) (e : Event UInt32 CStr) :
    held n (eventsOf j (evs ++ [(i, e)])) =
      if i = j then held n (eventsOf j evs) + (if e.isGet n then 1 else 0) - (if e.isRelease n then 1 else 0)
      else held n (eventsOf j evs) := by
  rw [eventsOf_snoc]
  by_cases h : i = j
  · rw [if_pos h, if_pos h]
    apply held_snoc
    by_cases hj : j < c.concurrency
    · obtain ⟨o, a⟩ := r.shard hj
      exact releases_le a n
    · rw [r.outside hj]; exact Nat.le_refl _
  · rw [if_neg h, if_neg h]

/-- A node that is held keeps its data, whatever call is made on the cache. -/
theorem Reached.data {file : CStr} {f : FileColl} {fuel capacity : Nat} {c c' : Cache CStr}
    {evs : List (Nat × Event UInt32 CStr)} (r : Reached file f fuel capacity c evs) {op : COp UInt32 CStr} {i : Nat}
    {e : Event UInt32 CStr} (h : cacheStep keyHash fuel c op = some (c', i, e)) {j n : Nat}
    (hn : held n (eventsOf j evs) ≠ 0) : (c'.shards j).data n = (c.shards j).data n := by
  obtain ⟨h1, -, ⟨o, h2⟩, h3, -⟩ := Cache.cacheStep_spec h
  by_cases hj : j = i
  · subst hj
    obtain ⟨ops, a⟩ := r.shard h1
    refine (Cache.C05_kept a (ops' := [o]) (evs' := [e]) (s' := c'.shards j) (by simp [Cache.run, h2]) ?_).1
    intro p q hp hq
    cases p with
    | nil => simpa using hn
    | cons a b =>
      simp only [List.cons_append, List.cons.injEq] at hp
      have := List.append_eq_nil_iff.1 hp.2.symm
      exact absurd this.2 hq
  · rw [h3 j hj]

/-- A node that is held can be released. -/
theorem Reached.release {file : CStr} {f : FileColl} {fuel capacity : Nat} {c : Cache CStr}
    {evs : List (Nat × Event UInt32 CStr)} (r : Reached file f fuel capacity c evs) {i n : Nat}
    (hn : held n (eventsOf i evs) ≠ 0) :
    ∃ c', cacheStep (K := UInt32) keyHash fuel c (.release i n) = some (c', i, .released n) ∧
      Reached file f fuel capacity c' (evs ++ [(i, .released n)]) := by
  have hi : i < c.concurrency := by
    by_cases hi : i < c.concurrency
    · exact hi
    · rw [r.outside hi] at hn; exact absurd rfl hn
  obtain ⟨o, a⟩ := r.shard hi
  obtain ⟨s', e', hstep⟩ := (Cache.C04_total a).2 n |>.2 hn
  simp only [Cache.step] at hstep
  cases hx : Cache.shardRelease (c.shards i) n with
  | none => simp [hx] at hstep
  | some s' =>
    have hc : cacheStep (K := UInt32) keyHash fuel c (.release i n) =
        some ({ c with shards := Cache.set c.shards i s' }, i, .released n) := by
      simp only [cacheStep]
      rw [if_pos hi, hx]
      rfl
    exact ⟨_, hc, reached_step r hc (fun _ _ _ hk => (nomatch hk))⟩

/-! ## What is held -/

/-- How many of the items have this handle. -/
def handles (hs : List (Item × CStr)) (r : Ref) : Nat := hs.countP fun x => x.1.handle = some r

/-- The item is one that was got from a collection of this kind, and its pointer is to these bytes. -/
def Live (c : Coll) (cfg : Config) (s : State) (item : Item) (bytes : CStr) : Prop :=
  ∃ ref b, item.ptr = some ref ∧ view s ref = some b ∧ b.take bytes.length = bytes ∧
    match ref with
    | .memory _ => item.handle = none ∧ item.owner = some .memory ∧ (second cfg = .file → item.allocated = 0)
    | .block _ => item.handle = some ref ∧ item.owner = some .file ∧ second cfg = .file ∧ ∀ m, c ≠ .memory m
    | .node _ _ => item.handle = some ref ∧ item.owner = some .cache ∧ second cfg = .cache ∧ ∀ m, c ≠ .memory m

/-- The state is that of `base`, but for these items, which are held besides those that were held then. -/
structure Holding (file : CStr) (c : Coll) (cfg : Config) (h : Header) (read : Reader) (fuel capacity : Nat)
    (base : State) (evs0 : List (Nat × Event UInt32 CStr)) (s : State) (evs : List (Nat × Event UInt32 CStr))
    (hs : List (Item × CStr)) : Prop where
  start : ∀ j, base.heap.next ≤ j → base.heap.block j = none
  fresh : ∀ j, s.heap.next ≤ j → s.heap.block j = none
  next : base.heap.next ≤ s.heap.next
  live : ∀ x ∈ hs, Live c cfg s x.1 x.2
  once : ∀ j, handles hs (.block j) ≤ 1
  new : ∀ j, handles hs (.block j) ≠ 0 → base.heap.next ≤ j
  rest : ∀ j, handles hs (.block j) = 0 → s.heap.block j = base.heap.block j
  cache : second cfg = .cache → Reached file (fileColl h read) fuel capacity s.cache evs ∧
    s.cache.concurrency = base.cache.concurrency ∧
    ∀ i n, held n (eventsOf i evs) = held n (eventsOf i evs0) + handles hs (.node i n)

/-! ## Room in the cache -/

/-- The sum of the first `n` values. -/
def total (f : Nat → Nat) : Nat → Nat
  | 0 => 0
  | n + 1 => total f n + f n

/-- Besides what is held already, `k` more items can be held. -/
def Room (cfg : Config) (capacity : Nat) (base : State) (evs0 : List (Nat × Event UInt32 CStr)) (k : Nat) : Prop :=
  second cfg = .cache → ∀ i, i < base.cache.concurrency → total (fun n => held n (eventsOf i evs0)) capacity + k ≤ capacity

theorem total_add (f g : Nat → Nat) : ∀ n, total (fun i => f i + g i) n = total f n + total g n
  | 0 => rfl
  | n + 1 => by rw [total, total, total, total_add f g n]; omega

theorem total_pos (f : Nat → Nat) : ∀ n, (∀ i, i < n → f i ≠ 0) → n ≤ total f n
  | 0, _ => Nat.le_refl _
  | n + 1, h => by
    have h1 := total_pos f n fun i hi => h i (by omega)
    have h2 := h n (by omega)
    rw [total]; omega

theorem total_one (f : Nat → Nat) (h1 : ∀ i, f i ≤ 1) (h2 : ∀ i j, f i ≠ 0 → f j ≠ 0 → i = j) :
    ∀ n, total f n ≤ 1 ∧ (total f n ≠ 0 → ∃ i, i < n ∧ f i ≠ 0)
  | 0 => ⟨by simp [total], fun h => absurd rfl h⟩
  | n + 1 => by
    obtain ⟨k1, k2⟩ := total_one f h1 h2 n
    rw [total]
    by_cases hz : f n = 0
    · rw [hz, Nat.add_zero]
      exact ⟨k1, fun h => by obtain ⟨i, a, b⟩ := k2 h; exact ⟨i, by omega, b⟩⟩
    · have : total f n = 0 := by
        by_cases ht : total f n = 0
        · exact ht
        · obtain ⟨i, a, b⟩ := k2 ht
          have := h2 i n b hz
          omega
      have := h1 n
      exact ⟨by omega, fun _ => ⟨n, by omega, hz⟩⟩

theorem total_handles (i capacity : Nat) : ∀ hs : List (Item × CStr), total (fun n => handles hs (.node i n)) capacity ≤ hs.length
  | [] => by
    have : ∀ n, total (fun n => handles [] (.node i n)) n = 0 := by
      intro n
      induction n with
      | zero => rfl
      | succ n ih => rw [total, ih]; rfl
    rw [this]; exact Nat.zero_le _
  | x :: hs => by
    have ih := total_handles i capacity hs
    have e : (fun n => handles (x :: hs) (.node i n)) =
        fun n => handles hs (.node i n) + (if x.1.handle = some (.node i n) then 1 else 0) := by
      funext n
      simp [handles, List.countP_cons]
    rw [e, total_add]
    have := (total_one (fun n => if x.1.handle = some (.node i n) then 1 else 0) (fun n => by split <;> omega) (by
      intro a b ha hb
      by_cases h1 : x.1.handle = some (.node i a)
      · by_cases h2 : x.1.handle = some (.node i b)
        · rw [h1] at h2; cases h2; rfl
        · simp [h2] at hb
      · simp [h1] at ha) capacity).1
    rw [List.length_cons]
    omega

variable {file : CStr} {c : Coll} {cfg : Config} {h : Header} {read : Reader} {fuel capacity : Nat} {base s : State}
  {evs0 evs : List (Nat × Event UInt32 CStr)} {hs : List (Item × CStr)}

theorem Holding.notFull (hd : Holding file c cfg h read fuel capacity base evs0 s evs hs)
    (hr : Room cfg capacity base evs0 (hs.length + 1)) {key : UInt32} (hk : second cfg = .cache → key ≠ 0x80000000)
    (hc : second cfg = .cache) : ¬ Full capacity s.cache key evs := by
  rintro ⟨i, h1, h2⟩
  obtain ⟨r1, r2, r3⟩ := hd.cache hc
  obtain ⟨j, j1, j2, j3⟩ := Cache.C08_shard_partial s.cache.concurrency r1.shards (keyHash key) (keyHash_range (hk hc))
  rw [h1] at j1
  cases j1
  have hroom := hr hc i.toNat (by omega)
  have hp := total_pos _ capacity h2
  have e : (fun n => held n (eventsOf i.toNat evs)) =
      fun n => held n (eventsOf i.toNat evs0) + handles hs (.node i.toNat n) := funext fun n => r3 _ n
  rw [e, total_add] at hp
  have := total_handles i.toNat capacity hs
  omega

/-! ## Getting one more -/

theorem handles_cons (x : Item × CStr) (hs : List (Item × CStr)) (r : Ref) :
    handles (x :: hs) r = handles hs r + (if x.1.handle = some r then 1 else 0) := by
  simp [handles, List.countP_cons]

/-- A block that is held is there, so that it is not the next one to be handed out. -/
theorem Holding.block (hd : Holding file c cfg h read fuel capacity base evs0 s evs hs) {j : Nat}
    (hj : handles hs (.block j) ≠ 0) : j < s.heap.next := by
  have := List.countP_pos_iff.1 (Nat.pos_of_ne_zero hj)
  obtain ⟨x, hx, hh⟩ := this
  have hh : x.1.handle = some (.block j) := by simpa using hh
  obtain ⟨ref, b, k1, k2, -, k3⟩ := hd.live x hx
  rcases Nat.lt_or_ge j s.heap.next with hlt | hge
  · exact hlt
  · cases ref with
    | memory _ => rw [k3.1] at hh; cases hh
    | block i =>
      rw [k3.1] at hh
      cases hh
      rw [view, hd.fresh j hge] at k2
      cases k2
    | node _ _ => rw [k3.1] at hh; cases hh

theorem Live.handle {item : Item} {bytes : CStr} (hl : Live c cfg s item bytes) :
    item.handle = none ∨ ∃ r, item.handle = some r ∧ item.ptr = some r := by
  obtain ⟨ref, b, k1, k2, -, k3⟩ := hl
  cases ref
  · exact .inl k3.1
  · exact .inr ⟨_, k3.1, k1⟩
  · exact .inr ⟨_, k3.1, k1⟩

theorem Live.block_held {item : Item} {bytes : CStr} (hl : Live c cfg s item bytes) {j : Nat} (hp : item.ptr = some (.block j)) :
    item.handle = some (.block j) := by
  obtain ⟨ref, b, k1, k2, -, k3⟩ := hl
  rw [hp] at k1
  cases k1
  exact k3.1

theorem Live.node_held {item : Item} {bytes : CStr} (hl : Live c cfg s item bytes) {i n : Nat} (hp : item.ptr = some (.node i n)) :
    item.handle = some (.node i n) := by
  obtain ⟨ref, b, k1, k2, -, k3⟩ := hl
  rw [hp] at k1
  cases k1
  exact k3.1

theorem handles_mem {hs : List (Item × CStr)} {x : Item × CStr} (hx : x ∈ hs) {r : Ref} (hr : x.1.handle = some r) :
    handles hs r ≠ 0 := by
  have : 0 < handles hs r := List.countP_pos_iff.2 ⟨x, hx, by simpa using hr⟩
  omega

theorem Live.mono {s' : State} {item : Item} {bytes : CStr} (hl : Live c cfg s item bytes)
    (hb : ∀ j, item.handle = some (.block j) → s'.heap.block j = s.heap.block j)
    (hn : ∀ i n, item.handle = some (.node i n) → (s'.cache.shards i).data n = (s.cache.shards i).data n) :
    Live c cfg s' item bytes := by
  obtain ⟨ref, b, k1, k2, k3, k4⟩ := hl
  refine ⟨ref, b, k1, ?_, k3, k4⟩
  cases ref with
  | memory _ => exact k2
  | block j => rw [view] at k2 ⊢; rw [hb j k4.1]; exact k2
  | node i n => rw [view] at k2 ⊢; rw [hn i n k4.1]; exact k2

theorem getMemory_ref {m : Mem} {key : UInt32} {item : Item} {g : Got} (hg : getMemory m s key item = some g)
    {ref : Ref} (hp : g.ptr = some ref) : ∃ b, ref = .memory b := by
  rw [getMemory] at hg
  split at hg <;> split at hg
  · cases hg; cases hp; exact ⟨_, rfl⟩
  · rw [Option.map_eq_some_iff] at hg
    obtain ⟨r, -, rfl⟩ := hg
    cases hp
  · cases hg; cases hp; exact ⟨_, rfl⟩
  · rw [Option.map_eq_some_iff] at hg
    obtain ⟨r, -, rfl⟩ := hg
    cases hp

/-- A get of an item of the memory of a collection. -/
theorem Holding.memory (hd : Holding file c cfg h read fuel capacity base evs0 s evs hs) {item : Item} {bytes b : CStr}
    (h1 : item.ptr = some (.memory b)) (h2 : b.take bytes.length = bytes) (h3 : item.handle = none)
    (h4 : item.owner = some .memory) (h5 : second cfg = .file → item.allocated = 0) :
    Holding file c cfg h read fuel capacity base evs0 s evs ((item, bytes) :: hs) := by
  have e : ∀ r, handles ((item, bytes) :: hs) r = handles hs r := by
    intro r; rw [handles_cons, h3]; simp
  refine ⟨hd.start, hd.fresh, hd.next, ?_, ?_, ?_, ?_, ?_⟩
  · intro x hx
    rcases List.mem_cons.1 hx with rfl | hx
    · exact ⟨_, b, h1, rfl, h2, h3, h4, h5⟩
    · exact hd.live x hx
  · intro j; rw [e]; exact hd.once j
  · intro j; rw [e]; exact hd.new j
  · intro j; rw [e]; exact hd.rest j
  · intro hc
    obtain ⟨k1, k2, k3⟩ := hd.cache hc
    exact ⟨k1, k2, fun i n => by rw [e]; exact k3 i n⟩

/-- The get found no node for the item: everything is as it was. -/
def NoRoom (file : CStr) (c : Coll) (cfg : Config) (h : Header) (read : Reader) (fuel capacity : Nat) (base : State)
    (evs0 : List (Nat × Event UInt32 CStr)) (s : State) (evs : List (Nat × Event UInt32 CStr)) (hs : List (Item × CStr))
    (key : UInt32) (item : Item) (g : Got) (evs' : List (Nat × Event UInt32 CStr)) : Prop :=
  second cfg = .cache ∧ Full capacity s.cache key evs ∧ g.err = none ∧ g.item.handle = none ∧ g.item.ptr = item.ptr ∧
    Holding file c cfg h read fuel capacity base evs0 g.state evs' hs

/-- A get of an item from the file or the cache. -/
theorem Holding.back_or (hd : Holding file c cfg h read fuel capacity base evs0 s evs hs) {key : UInt32} {bytes : CStr}
    (hread : Readable file (fileColl h read) key bytes) (hk : second cfg = .cache → key ≠ 0x80000000) {item : Item}
    (hitem : second cfg = .file → item.allocated = 0) (hc : ∀ m, c ≠ .memory m) :
    ∃ g evs', getBack file fuel (second cfg) (fileColl h read) s key item = some g ∧
      ((Shows g bytes ∧ Holding file c cfg h read fuel capacity base evs0 g.state evs' ((g.item, bytes) :: hs)) ∨
       (NoRoom file c cfg h read fuel capacity base evs0 s evs hs key item g evs' ∧ g.ptr = none)) := by
  cases hsec : second cfg with
  | file =>
    obtain ⟨h', h1, h2, h3, h4⟩ := getFile_readable hread s.heap item (hitem hsec)
    rw [getBack, h1]
    refine ⟨_, evs, rfl, .inl ⟨⟨rfl, rfl, _, _, rfl, h2, List.take_length⟩, ?_⟩⟩
    have hne : handles hs (.block s.heap.next) = 0 := by
      by_cases hz : handles hs (.block s.heap.next) = 0
      · exact hz
      · have := hd.block hz; omega
    have e : ∀ j, handles ((⟨some (.block s.heap.next), bytes.length, bytes.length, some (.block s.heap.next), some .file⟩, bytes) :: hs)
        (.block j) = handles hs (.block j) + (if s.heap.next = j then 1 else 0) := by
      intro j
      rw [handles_cons]
      simp
    refine ⟨hd.start, ?_, ?_, ?_, ?_, ?_, ?_, fun hc => by rw [hsec] at hc; cases hc⟩
    · intro j hj
      simp only [h4] at hj
      simp only
      rw [h3 j (by omega)]
      exact hd.fresh j (by omega)
    · simp only [h4]; have := hd.next; omega
    · intro x hx
      rcases List.mem_cons.1 hx with rfl | hx
      · exact ⟨_, bytes, rfl, h2, List.take_length, rfl, rfl, hsec, hc⟩
      · refine (hd.live x hx).mono ?_ (fun _ _ _ => rfl)
        intro j hj
        have := hd.block (handles_mem hx hj)
        exact h3 j (by omega)
    · intro j
      rw [e]
      have := hd.once j
      split
      · rename_i hj; subst hj; rw [hne]; exact Nat.le_refl _
      · omega
    · intro j hj
      rw [e] at hj
      split at hj
      · rename_i hj'; subst hj'; exact hd.next
      · exact hd.new j hj
    · intro j hj
      rw [e] at hj
      split at hj
      · omega
      · rename_i hj'
        rw [← hd.rest j hj]
        exact h3 j (fun hx => hj' hx.symm)
  | cache =>
    obtain ⟨r1, r2, r3⟩ := hd.cache hsec
    have hload := loader_readable hread
    obtain ⟨c', i, e, h1, h2⟩ := cached_get r1 (hk hsec) hload
    have hpos := List.length_pos_iff.2 hread.1
    have hfound : ∀ n, (c'.shards i).data n = bytes → getFromCache.found item c' i n =
        (c', ⟨some (.node i n), bytes.length, bytes.length, some (.node i n), some .cache⟩, some (.node i n), none) := by
      intro n hd
      rw [getFromCache.found]
      simp only [hd]
      rw [if_pos hpos]
    have hreach : Reached file (fileColl h read) fuel capacity c' (evs ++ [(i, e)]) :=
      reached_step r1 h1 (by intro k v ok hk; cases hk; exact ⟨_, hload, rfl⟩)
    have hor : (∃ n, (c'.shards i).data n = bytes ∧ (∀ m, e.isGet m = decide (n = m)) ∧
        (∀ m, e.isRelease m = false) ∧ getBack file fuel .cache (fileColl h read) s key item =
          some ⟨⟨s.heap, c'⟩, ⟨some (.node i n), bytes.length, bytes.length, some (.node i n), some .cache⟩,
            some (.node i n), none⟩) ∨ (e = .full key ∧ Full capacity s.cache key evs) := by
      rw [getBack, getFromCache, hload]
      simp only
      rw [h1]
      rcases h2 with ⟨n, rfl, -, hd⟩ | ⟨n, rfl, hd⟩ | ⟨rfl, hfull⟩
      · refine .inl ⟨n, hd, fun _ => rfl, fun _ => rfl, ?_⟩
        simp only [hfound n hd, Option.map_some]
      · refine .inl ⟨n, hd rfl, fun _ => rfl, fun _ => rfl, ?_⟩
        simp only [Option.isNone_none, hfound n (hd rfl), Option.map_some]
      · exact .inr ⟨rfl, hfull⟩
    rcases hor with ⟨n, hdata, hget, hrel, hgot⟩ | ⟨rfl, hfull⟩
    rotate_left
    · have hgot : getBack file fuel .cache (fileColl h read) s key item =
          some ⟨⟨s.heap, c'⟩, { item with used := 0, handle := none, owner := some .cache }, none, none⟩ := by
        rw [getBack, getFromCache, hload]
        simp only
        rw [h1]
        rfl
      rw [hgot]
      refine ⟨_, evs ++ [(i, .full key)], rfl, .inr ⟨⟨hsec, hfull, rfl, rfl, rfl, ?_⟩, rfl⟩⟩
      refine ⟨hd.start, hd.fresh, hd.next, ?_, hd.once, hd.new, hd.rest, fun _ => ⟨hreach, (cacheStep_concurrency h1).trans r2, ?_⟩⟩
      · intro x hx
        refine (hd.live x hx).mono (fun _ _ => rfl) ?_
        intro j m hj
        have := handles_mem hx hj
        exact r1.data h1 (by rw [r3]; omega)
      · intro j m
        rw [r1.held_step, r3]
        have g1 : (Event.full key : Event UInt32 CStr).isGet m = false := rfl
        have g2 : (Event.full key : Event UInt32 CStr).isRelease m = false := rfl
        rw [g1, g2]
        split <;> simp
    rw [hgot]
    refine ⟨_, evs ++ [(i, e)], rfl, .inl ⟨⟨rfl, rfl, _, _, rfl, rfl, by simp only [hdata, List.take_length]⟩, ?_⟩⟩
    have eb : ∀ j, handles ((⟨some (.node i n), bytes.length, bytes.length, some (.node i n), some .cache⟩, bytes) :: hs)
        (.block j) = handles hs (.block j) := by
      intro j; rw [handles_cons]; simp
    refine ⟨hd.start, hd.fresh, hd.next, ?_, ?_, ?_, ?_, fun _ => ⟨?_, ?_, ?_⟩⟩
    · intro x hx
      rcases List.mem_cons.1 hx with rfl | hx
      · exact ⟨_, bytes, rfl, by rw [view, hdata], List.take_length, rfl, rfl, hsec, hc⟩
      · refine (hd.live x hx).mono (fun _ _ => rfl) ?_
        intro j m hj
        have := handles_mem hx hj
        exact r1.data h1 (by rw [r3]; omega)
    · intro j; rw [eb]; exact hd.once j
    · intro j; rw [eb]; exact hd.new j
    · intro j; rw [eb]; exact hd.rest j
    · exact hreach
    · exact (cacheStep_concurrency h1).trans r2
    · intro j m
      rw [r1.held_step, r3, handles_cons, hget, hrel]
      by_cases hj : i = j
      · subst hj
        by_cases hm : n = m
        · subst hm; simp only [if_true, decide_true, Bool.false_eq_true, if_false]; omega
        · simp [hm]
      · simp [hj]

/-- A get from a collection in memory. -/
theorem memory_shows (w : WellFormed file h read) {key : UInt32} {bytes : CStr} (hi : IsItem file h key bytes read) (s : State)
    (item : Item) : ∃ g, (createFromMemory file h).get file fuel s key item = some g ∧ Shows g bytes := by
  rw [createFromMemory, Coll.get, getMemory]
  cases read with
  | fixed =>
    obtain ⟨w1, w2, w3, w4, w5⟩ := w
    obtain ⟨e1, e2⟩ := elementSize_pos w3 w4
    obtain ⟨i1, rfl⟩ := hi
    simp only [e1]
    rw [if_neg (by omega), if_pos (by rw [if_pos (by omega), w5]; exact i1)]
    refine ⟨_, rfl, ⟨rfl, rfl, _, _, rfl, rfl, ?_⟩⟩
    rw [List.drop_drop, take_length_take]
  | «variable» n g =>
    obtain ⟨w1, w2, w3, w4⟩ := w
    have e1 : h.elementSize = 0 := by rw [Header.elementSize, if_pos w3]
    obtain ⟨i1, i2, rfl⟩ := hi
    simp only [e1]
    rw [if_pos trivial, if_pos i2]
    refine ⟨_, rfl, ⟨rfl, rfl, _, _, rfl, rfl, ?_⟩⟩
    rw [List.drop_drop, take_length_take]

/-- Getting one more item, if there is room for it. -/
theorem Holding.get_or (w : WellFormed file h read) (hc : Created file cfg h read c)
    (hd : Holding file c cfg h read fuel capacity base evs0 s evs hs) {key : UInt32} {bytes : CStr}
    (hi : IsItem file h key bytes read) (hk : second cfg = .cache → key ≠ 0x80000000) {item : Item}
    (hitem : second cfg = .file → item.allocated = 0) (hhandle : item.handle = none) :
    ∃ g evs', c.get file fuel s key item = some g ∧
      ((Shows g bytes ∧ Holding file c cfg h read fuel capacity base evs0 g.state evs' ((g.item, bytes) :: hs)) ∨
       (NoRoom file c cfg h read fuel capacity base evs0 s evs hs key item g evs' ∧ (g.ptr = none ∨ g.ptr = item.ptr))) := by
  have hread := isItem_readable w hi
  rcases hc with rfl | hc
  · obtain ⟨g, g1, g2⟩ := memory_shows (fuel := fuel) w hi s item
    obtain ⟨k1, k2, k3, k4⟩ := getMemory_ok g1 g2.1
    obtain ⟨a1, a2, ref, b, a3, a4, a5⟩ := g2
    have hmem : ∃ b, ref = .memory b := getMemory_ref g1 a3
    obtain ⟨b', rfl⟩ := hmem
    rw [view] at a4
    cases a4
    refine ⟨g, evs, g1, .inl ⟨⟨a1, a2, _, _, a3, rfl, a5⟩, ?_⟩⟩
    rw [k1]
    exact hd.memory (a2.trans a3) a5 (k3.trans hhandle) k4 (fun hx => k2.trans (hitem hx))
  · by_cases hl : 0 < cfg.loaded
    · obtain ⟨m, next, h1, h2, -⟩ := part_spec w hl
      rw [hc] at h1
      cases h1
      rw [Coll.get]
      unfold getPartial
      rcases h2 key bytes hi with ⟨k1, k2⟩ | ⟨k1, k2⟩
      · rw [if_pos (by exact k1)]
        exact ⟨_, evs, rfl, .inl ⟨⟨rfl, rfl, _, _, rfl, rfl, k2⟩, hd.memory rfl k2 rfl rfl (fun _ => rfl)⟩⟩
      · subst k2
        rw [if_neg (by rw [Mem.bound] at k1; omega)]
        simp only
        obtain ⟨g, evs', g1, g2⟩ := hd.back_or hread hk hitem (fun _ hx => (nomatch hx))
        rw [g1]
        refine ⟨_, evs', rfl, ?_⟩
        rcases g2 with ⟨⟨a1, a2, a3⟩, g3⟩ | ⟨⟨a1, a2, a3, a4, a5, a6⟩, g3⟩
        · refine .inl ⟨⟨a1, rfl, ?_⟩, g3⟩
          rw [← a2] at a3; exact a3
        · exact .inr ⟨⟨a1, a2, a3, a4, a5, a6⟩, .inr a5⟩
    · rw [createFromFile, if_neg hl] at hc
      cases hc
      obtain ⟨g, evs', g1, g2⟩ := hd.back_or hread hk hitem (fun _ hx => (nomatch hx))
      refine ⟨g, evs', g1, ?_⟩
      rcases g2 with g2 | ⟨g2, g3⟩
      · exact .inl g2
      · exact .inr ⟨g2, .inl g3⟩

/-- Getting one more item. -/
theorem Holding.get (w : WellFormed file h read) (hc : Created file cfg h read c)
    (hd : Holding file c cfg h read fuel capacity base evs0 s evs hs)
    (hr : Room cfg capacity base evs0 (hs.length + 1)) {key : UInt32} {bytes : CStr}
    (hi : IsItem file h key bytes read) (hk : second cfg = .cache → key ≠ 0x80000000) {item : Item}
    (hitem : second cfg = .file → item.allocated = 0) (hhandle : item.handle = none) :
    ∃ g evs', c.get file fuel s key item = some g ∧ Shows g bytes ∧
      Holding file c cfg h read fuel capacity base evs0 g.state evs' ((g.item, bytes) :: hs) := by
  obtain ⟨g, evs', g1, g2⟩ := hd.get_or w hc hi hk hitem hhandle
  rcases g2 with ⟨g2, g3⟩ | ⟨⟨a1, a2, -⟩, -⟩
  · exact ⟨g, evs', g1, g2, g3⟩
  · exact absurd a2 (hd.notFull hr hk a1)

/-! ## Releasing one -/

theorem handles_append (a b : List (Item × CStr)) (r : Ref) : handles (a ++ b) r = handles a r + handles b r := by
  simp [handles, List.countP_append]

theorem release_nothing {item : Item} (hh : item.handle = none) : c.release fuel s item = some (s, item) := by
  cases c with
  | memory m => rfl
  | back b f =>
    cases b
    · rw [Coll.release, releaseBack, releaseFile, if_pos hh]; rfl
    · rw [Coll.release, releaseBack, releaseCache, hh]; rfl
  | part m next => rw [Coll.release, releasePartial, if_pos hh]

/-- The collection does what the item's own collection does. -/
theorem release_own {item : Item} {bytes : CStr} (hc : Created file cfg h read c) (hl : Live c cfg s item bytes)
    (hh : item.handle ≠ none) : c.release fuel s item = releaseBack fuel s item (second cfg) ∧
      item.release fuel s = releaseBack fuel s item (second cfg) := by
  obtain ⟨ref, b, k1, k2, -, k3⟩ := hl
  have key : (item.owner = some .file ∧ second cfg = .file ∨ item.owner = some .cache ∧ second cfg = .cache) ∧
      ∀ m, c ≠ .memory m := by
    cases ref with
    | memory _ => exact absurd k3.1 hh
    | block j => exact ⟨.inl ⟨k3.2.1, k3.2.2.1⟩, k3.2.2.2⟩
    | node i n => exact ⟨.inr ⟨k3.2.1, k3.2.2.1⟩, k3.2.2.2⟩
  obtain ⟨k4, k5⟩ := key
  have hown : item.release fuel s = releaseBack fuel s item (second cfg) := by
    rw [Item.release]
    rcases k4 with ⟨a, b⟩ | ⟨a, b⟩ <;> rw [a, b]
  refine ⟨?_, hown⟩
  rcases hc with rfl | hc
  · exact absurd rfl (k5 _)
  · rw [createFromFile] at hc
    cases c with
    | memory m => exact absurd rfl (k5 m)
    | back b f =>
      split at hc
      · split at hc
        · cases hc
        · cases hc
        · split at hc
          · cases hc
          · simp only at hc
            split at hc <;> cases hc
      · cases hc; rfl
    | part m next =>
      rw [Coll.release, releasePartial, if_neg hh]
      rcases k4 with ⟨a, b⟩ | ⟨a, b⟩ <;> rw [a, b]

theorem handles_mid (a b : List (Item × CStr)) (x : Item × CStr) (r : Ref) :
    handles (a ++ x :: b) r = handles (a ++ b) r + (if x.1.handle = some r then 1 else 0) := by
  rw [handles_append, handles_cons, handles_append]; omega

/-- Any of the items that are held can be released. -/
theorem Holding.release (hc : Created file cfg h read c) {a b : List (Item × CStr)} {x : Item × CStr}
    (hd : Holding file c cfg h read fuel capacity base evs0 s evs (a ++ x :: b)) :
    ∃ s' item' evs', c.release fuel s x.1 = some (s', item') ∧ x.1.release fuel s = some (s', item') ∧
      item'.handle = none ∧ (second cfg = .file → item'.allocated = 0) ∧
      Holding file c cfg h read fuel capacity base evs0 s' evs' (a ++ b) := by
  have hx := hd.live x (by simp)
  have hsub : ∀ y ∈ a ++ b, y ∈ a ++ x :: b := by
    intro y hy
    rcases List.mem_append.1 hy with hy | hy
    · exact List.mem_append_left _ hy
    · exact List.mem_append_right _ (List.mem_cons_of_mem _ hy)
  have hx' := hx
  obtain ⟨ref, bs, k1, k2, k3, k4⟩ := hx'
  cases ref with
  | memory m =>
    obtain ⟨l1, l2, l3⟩ := k4
    have e : ∀ r, handles (a ++ x :: b) r = handles (a ++ b) r := by
      intro r; rw [handles_mid, l1]; simp
    refine ⟨s, x.1, evs, release_nothing l1, by rw [Item.release, l2], l1, l3, hd.start, hd.fresh, hd.next,
      fun y hy => hd.live y (hsub y hy), ?_, ?_, ?_, ?_⟩
    · intro j; rw [← e]; exact hd.once j
    · intro j; rw [← e]; exact hd.new j
    · intro j; rw [← e]; exact hd.rest j
    · intro hs
      obtain ⟨r1, r2, r3⟩ := hd.cache hs
      exact ⟨r1, r2, fun i n => by rw [← e]; exact r3 i n⟩
  | block j =>
    obtain ⟨l1, l2, l3, l4⟩ := k4
    obtain ⟨o1, o2⟩ := release_own (fuel := fuel) hc hx (by rw [l1]; simp)
    have hfree : releaseBack fuel s x.1 (second cfg) =
        some (⟨⟨s.heap.next, fun i => if i = j then none else s.heap.block i⟩, s.cache⟩, Item.new) := by
      rw [l3, releaseBack, releaseFile, if_neg (by rw [l1]; simp), l1, Heap.free]
      rw [view] at k2
      rw [k2]
      rfl
    have e : ∀ i, handles (a ++ x :: b) (.block i) = handles (a ++ b) (.block i) + (if j = i then 1 else 0) := by
      intro i; rw [handles_mid, l1]; simp
    have hj : handles (a ++ b) (.block j) = 0 := by
      have := hd.once j
      rw [e, if_pos rfl] at this
      omega
    refine ⟨_, _, evs, o1.trans hfree, o2.trans hfree, rfl, fun _ => rfl, hd.start, ?_, hd.next, ?_, ?_, ?_, ?_,
      fun hs => by rw [l3] at hs; cases hs⟩
    · intro i hi
      show (if i = j then none else s.heap.block i) = none
      split
      · rfl
      · exact hd.fresh i hi
    · intro y hy
      refine (hd.live y (hsub y hy)).mono ?_ (fun _ _ _ => rfl)
      intro i hi
      show (if i = j then none else s.heap.block i) = _
      rw [if_neg]
      rintro rfl
      exact handles_mem hy hi hj
    · intro i
      have := hd.once i
      rw [e] at this
      omega
    · intro i hi
      exact hd.new i (by rw [e]; omega)
    · intro i hi
      show (if i = j then none else s.heap.block i) = _
      by_cases hij : i = j
      · subst hij
        rw [if_pos rfl]
        have := hd.new i (by rw [e, if_pos rfl]; omega)
        exact (hd.start i this).symm
      · rw [if_neg hij]
        exact hd.rest i (by rw [e, if_neg (fun hx => hij hx.symm)]; exact hi)
  | node i n =>
    obtain ⟨l1, l2, l3, l4⟩ := k4
    obtain ⟨o1, o2⟩ := release_own (fuel := fuel) hc hx (by rw [l1]; simp)
    obtain ⟨r1, r2, r3⟩ := hd.cache l3
    have e : ∀ r, handles (a ++ x :: b) r = handles (a ++ b) r + (if Ref.node i n = r then 1 else 0) := by
      intro r; rw [handles_mid, l1]; simp
    have eb : ∀ j, handles (a ++ x :: b) (.block j) = handles (a ++ b) (.block j) := by
      intro j; rw [e]; simp
    have hheld : held n (eventsOf i evs) ≠ 0 := by rw [r3, e, if_pos rfl]; omega
    obtain ⟨c', s1, s2⟩ := r1.release hheld
    have hrel : releaseBack fuel s x.1 (second cfg) = some (⟨s.heap, c'⟩, { x.1 with handle := none }) := by
      rw [l3, releaseBack, releaseCache, l1]
      simp only [s1, Option.map_some]
    refine ⟨_, _, _, o1.trans hrel, o2.trans hrel, rfl, (fun hs => by rw [l3] at hs; cases hs), hd.start, hd.fresh, hd.next, ?_, ?_, ?_, ?_,
      fun _ => ⟨s2, (cacheStep_concurrency s1).trans r2, ?_⟩⟩
    · intro y hy
      refine (hd.live y (hsub y hy)).mono (fun _ _ => rfl) ?_
      intro j m hj
      have := handles_mem (hsub y hy) hj
      exact r1.data s1 (by rw [r3]; omega)
    · intro j; rw [← eb]; exact hd.once j
    · intro j; rw [← eb]; exact hd.new j
    · intro j; rw [← eb]; exact hd.rest j
    · intro j m
      rw [r1.held_step, r3, e]
      have g1 : (Event.released n : Event UInt32 CStr).isGet m = false := rfl
      have g2 : (Event.released n : Event UInt32 CStr).isRelease m = decide (n = m) := rfl
      rw [g1, g2]
      by_cases hj : i = j
      · subst hj
        by_cases hm : n = m
        · subst hm; simp
        · simp [hm]
      · simp [hj]

/-! ## C74 -/

/-- What a user does with a collection and items of their own. -/
inductive Use where
  | get (slot : Nat) (key : UInt32)
  | release (slot : Nat)
deriving DecidableEq, Repr

/-- `collection->get` and `COLLECTION_RELEASE`, collection.h:265-269, with the items numbered. -/
def use (file : CStr) (fuel : Nat) (c : Coll) (s : State) (items : Nat → Item) : Use → UB (State × (Nat → Item))
  | .get slot key => (c.get file fuel s key (items slot)).map fun g => (g.state, fun i => if i = slot then g.item else items i)
  | .release slot => (c.release fuel s (items slot)).map fun r => (r.1, fun i => if i = slot then r.2 else items i)

/-- One use after the other. -/
def uses (file : CStr) (fuel : Nat) (c : Coll) : State → (Nat → Item) → List Use → UB (State × (Nat → Item))
  | s, items, [] => some (s, items)
  | s, items, u :: us => (use file fuel c s items u).bind fun r => uses file fuel c r.1 r.2 us

/-- The uses are in order: an item is got only into a slot which holds nothing, at most `k` are held at a time, and only a slot
which holds something is released. The lists are the slots which hold something, with the bytes that should be there. -/
inductive InOrder (file : CStr) (cfg : Config) (h : Header) (read : Reader) (k : Nat) :
    List (Nat × CStr) → List Use → List (Nat × CStr) → Prop
  | nil (l) : InOrder file cfg h read k l [] l
  | get (slot key bytes l us l') : slot ∉ l.map (·.1) → IsItem file h key bytes read →
      (second cfg = .cache → key ≠ 0x80000000) → l.length < k → InOrder file cfg h read k ((slot, bytes) :: l) us l' →
      InOrder file cfg h read k l (.get slot key :: us) l'
  | release (slot bytes a b us l') : InOrder file cfg h read k (a ++ b) us l' →
      InOrder file cfg h read k (a ++ (slot, bytes) :: b) (.release slot :: us) l'

/-- The items of the slots. -/
def itemsOf (items : Nat → Item) (l : List (Nat × CStr)) : List (Item × CStr) := l.map fun x => (items x.1, x.2)

theorem itemsOf_other (items : Nat → Item) {l : List (Nat × CStr)} {slot : Nat} (hn : slot ∉ l.map (·.1)) (item : Item) :
    itemsOf (fun i => if i = slot then item else items i) l = itemsOf items l := by
  apply List.map_congr_left
  intro x hx
  have : x.1 ≠ slot := fun he => hn (List.mem_map.2 ⟨x, hx, he⟩)
  simp [this]

theorem uses_spec (w : WellFormed file h read) (hc : Created file cfg h read c) {k : Nat}
    (hr : Room cfg capacity base evs0 k) {l l' : List (Nat × CStr)} {us : List Use} (ho : InOrder file cfg h read k l us l') :
    ∀ (s : State) (evs : List (Nat × Event UInt32 CStr)) (items : Nat → Item),
      Holding file c cfg h read fuel capacity base evs0 s evs (itemsOf items l) → (l.map (·.1)).Nodup →
      (∀ i, i ∉ l.map (·.1) → (items i).handle = none ∧ (second cfg = .file → (items i).allocated = 0)) →
      ∃ s' evs' items', uses file fuel c s items us = some (s', items') ∧
        Holding file c cfg h read fuel capacity base evs0 s' evs' (itemsOf items' l') := by
  induction ho with
  | nil l => intro s evs items hd _ _; exact ⟨s, evs, items, rfl, hd⟩
  | get slot key bytes l us l' h1 h2 h3 h4 _ ih =>
    intro s evs items hd hnd hfree
    obtain ⟨f1, f2⟩ := hfree slot h1
    have hroom : Room cfg capacity base evs0 ((itemsOf items l).length + 1) := by
      intro hx i hi
      have := hr hx i hi
      rw [itemsOf, List.length_map]
      omega
    obtain ⟨g, evs', g1, g2, g3⟩ := hd.get w hc hroom h2 h3 f2 f1
    have he : itemsOf (fun i => if i = slot then g.item else items i) ((slot, bytes) :: l) =
        (g.item, bytes) :: itemsOf items l := by
      have := itemsOf_other items h1 g.item
      rw [← this]
      simp [itemsOf]
    obtain ⟨s', evs'', items', k1, k2⟩ := ih g.state evs' (fun i => if i = slot then g.item else items i) (by rw [he]; exact g3)
      (by rw [List.map_cons, List.nodup_cons]; exact ⟨h1, hnd⟩) (by
        intro i hi
        rw [List.map_cons, List.mem_cons, not_or] at hi
        simp only [hi.1, if_false]
        exact hfree i hi.2)
    refine ⟨s', evs'', items', ?_, k2⟩
    rw [uses, use, g1]
    exact k1
  | release slot bytes a b us l' _ ih =>
    intro s evs items hd hnd hfree
    have hsplit : itemsOf items (a ++ (slot, bytes) :: b) = itemsOf items a ++ (items slot, bytes) :: itemsOf items b := by
      simp [itemsOf]
    rw [hsplit] at hd
    obtain ⟨s1, item1, evs1, r1, -, r2, r3, r4⟩ := hd.release hc
    have hn : slot ∉ (a ++ b).map (·.1) ∧ ((a ++ b).map (·.1)).Nodup := by
      rw [List.map_append, List.map_cons] at hnd
      have := (List.perm_middle (a := slot) (l₁ := a.map (·.1)) (l₂ := b.map (·.1))).nodup_iff.1 hnd
      rw [List.nodup_cons] at this
      rw [List.map_append]
      exact this
    obtain ⟨s', evs'', items', k1, k2⟩ := ih s1 evs1 (fun i => if i = slot then item1 else items i)
      (by rw [itemsOf_other items hn.1 item1]; simpa [itemsOf] using r4) hn.2 (by
        intro i hi
        by_cases he : i = slot
        · simp only [he, if_true]; exact ⟨r2, r3⟩
        · simp only [he, if_false]
          apply hfree
          rw [List.map_append, List.map_cons, List.mem_append, List.mem_cons]
          rw [List.map_append, List.mem_append] at hi
          rintro (hx | hx | hx)
          · exact hi (.inl hx)
          · exact he hx
          · exact hi (.inr hx))
    refine ⟨s', evs'', items', ?_, k2⟩
    rw [uses, use, r1]
    exact k1

/-- C74: any number of items, as many as the cache has room for, can be held at the same time, and got and released in any
order. Whatever is done with the others, the pointer of an item is to its bytes from the get until it is released. When all have
been released the memory is as before, and the nodes of the cache are held as often as before. All gets succeed, and an item
that has been released can be used again. -/
theorem C74_room (w : WellFormed file h read) (hc : Created file cfg h read c) {k : Nat} {us : List Use}
    {l : List (Nat × CStr)} (ho : InOrder file cfg h read k [] us l) (hfresh : ∀ j, s.heap.next ≤ j → s.heap.block j = none)
    (hcache : second cfg = .cache → Reached file (fileColl h read) fuel capacity s.cache evs) (hr : Room cfg capacity s evs k)
    {items : Nat → Item} (hi : ∀ i, (items i).handle = none ∧ (second cfg = .file → (items i).allocated = 0)) :
    ∃ s' items', uses file fuel c s items us = some (s', items') ∧
      (∀ slot bytes, (slot, bytes) ∈ l → ∃ ref b, (items' slot).ptr = some ref ∧ view s' ref = some b ∧
        b.take bytes.length = bytes) ∧
      (l = [] → s'.heap.block = s.heap.block ∧
        (second cfg = .cache → SameHeld file (fileColl h read) fuel capacity evs s.cache s'.cache)) := by
  have hd : Holding file c cfg h read fuel capacity s evs s evs (itemsOf items []) :=
    ⟨hfresh, hfresh, Nat.le_refl _, fun x hx => (nomatch hx), fun j => Nat.zero_le _, fun j hj => absurd rfl hj, fun j _ => rfl,
      fun hx => ⟨hcache hx, rfl, fun i n => rfl⟩⟩
  obtain ⟨s', evs', items', h1, h2⟩ := uses_spec w hc hr ho s evs items hd List.nodup_nil (fun i _ => hi i)
  refine ⟨s', items', h1, ?_, ?_⟩
  · intro slot bytes hm
    obtain ⟨ref, b, k1, k2, k3, -⟩ := h2.live (items' slot, bytes) (List.mem_map.2 ⟨_, hm, rfl⟩)
    exact ⟨ref, b, k1, k2, k3⟩
  · rintro rfl
    refine ⟨funext fun j => h2.rest j rfl, fun hx => ?_⟩
    obtain ⟨r1, r2, r3⟩ := h2.cache hx
    exact ⟨r2, evs', r1, fun j m => r3 j m⟩

/-- The items of the user and, for each, whether the last get into it returned something. -/
structure Slots where
  item : Nat → Item
  got : Nat → Bool

/-- `collection->get` and `COLLECTION_RELEASE`, collection.h:265-269, with the items numbered. The data of an item are reset before
the get (`DataReset`), as in the code's own uses. -/
def useNew (file : CStr) (fuel : Nat) (c : Coll) (s : State) (t : Slots) : Use → UB (State × Slots)
  | .get slot key => (c.get file fuel s key Item.new).map fun g =>
      (g.state, ⟨fun i => if i = slot then g.item else t.item i, fun i => if i = slot then g.ptr.isSome else t.got i⟩)
  | .release slot => (c.release fuel s (t.item slot)).map fun r =>
      (r.1, ⟨fun i => if i = slot then r.2 else t.item i, fun i => if i = slot then false else t.got i⟩)

/-- One use after the other. -/
def usesNew (file : CStr) (fuel : Nat) (c : Coll) : State → Slots → List Use → UB (State × Slots)
  | s, t, [] => some (s, t)
  | s, t, u :: us => (useNew file fuel c s t u).bind fun r => usesNew file fuel c r.1 r.2 us

/-- The slots whose get returned something. -/
def gotOf (t : Slots) (l : List (Nat × CStr)) : List (Item × CStr) := itemsOf t.item (l.filter fun x => t.got x.1)

theorem gotOf_other (t : Slots) {l : List (Nat × CStr)} {slot : Nat} (hn : slot ∉ l.map (·.1)) (item : Item) (b : Bool) :
    gotOf ⟨fun i => if i = slot then item else t.item i, fun i => if i = slot then b else t.got i⟩ l = gotOf t l := by
  have e : l.filter (fun x => if x.1 = slot then b else t.got x.1) = l.filter fun x => t.got x.1 := by
    apply List.filter_congr
    intro x hx
    have : x.1 ≠ slot := fun he => hn (List.mem_map.2 ⟨x, hx, he⟩)
    rw [if_neg this]
  rw [gotOf, gotOf]
  simp only [e]
  apply itemsOf_other
  intro hm
  apply hn
  obtain ⟨x, hx, he⟩ := List.mem_map.1 hm
  exact List.mem_map.2 ⟨x, (List.mem_filter.1 hx).1, he⟩

theorem usesNew_spec (w : WellFormed file h read) (hc : Created file cfg h read c) {k : Nat} {l l' : List (Nat × CStr)}
    {us : List Use} (ho : InOrder file cfg h read k l us l') :
    ∀ (s : State) (evs : List (Nat × Event UInt32 CStr)) (t : Slots),
      Holding file c cfg h read fuel capacity base evs0 s evs (gotOf t l) → (l.map (·.1)).Nodup →
      (∀ x ∈ l, t.got x.1 = false → (t.item x.1).handle = none ∧ second cfg = .cache) →
      ∃ s' evs' t', usesNew file fuel c s t us = some (s', t') ∧
        Holding file c cfg h read fuel capacity base evs0 s' evs' (gotOf t' l') ∧
        (∀ x ∈ l', t'.got x.1 = false → second cfg = .cache) := by
  induction ho with
  | nil l => intro s evs t hd _ hno; exact ⟨s, evs, t, rfl, hd, fun x hx hg => (hno x hx hg).2⟩
  | get slot key bytes l us l' h1 h2 h3 h4 _ ih =>
    intro s evs t hd hnd hno
    obtain ⟨g, evs', g1, g2⟩ := hd.get_or w hc h2 h3 (item := Item.new) (fun _ => rfl) rfl
    have hsame := gotOf_other t h1 g.item g.ptr.isSome
    have key : Holding file c cfg h read fuel capacity base evs0 g.state evs' (gotOf
        ⟨fun i => if i = slot then g.item else t.item i, fun i => if i = slot then g.ptr.isSome else t.got i⟩ ((slot, bytes) :: l)) ∧
        (g.ptr.isSome = false → g.item.handle = none ∧ second cfg = .cache) := by
      rcases g2 with ⟨⟨a1, a2, ref, b, a3, a4⟩, g3⟩ | ⟨⟨a1, a2, a3, a4, a5, a6⟩, g3⟩
      · have hp : g.ptr.isSome = true := by rw [a3]; rfl
        refine ⟨?_, fun hx => by rw [hp] at hx; cases hx⟩
        rw [← hsame] at g3
        rw [gotOf, List.filter_cons_of_pos (by simpa using hp)]
        simpa [itemsOf, gotOf] using g3
      · have hp : g.ptr = none := by
          rcases g3 with g3 | g3
          · exact g3
          · exact g3
        refine ⟨?_, fun _ => ⟨a4, a1⟩⟩
        rw [← hsame] at a6
        rw [gotOf, List.filter_cons_of_neg (by simp [hp])]
        exact a6
    obtain ⟨s', evs'', t', k1, k2⟩ := ih g.state evs' _ key.1
      (by rw [List.map_cons, List.nodup_cons]; exact ⟨h1, hnd⟩) (by
        intro x hx
        rcases List.mem_cons.1 hx with rfl | hx
        · simpa using key.2
        · have : x.1 ≠ slot := fun he => h1 (List.mem_map.2 ⟨x, hx, he⟩)
          simp only [this, if_false]
          exact hno x hx)
    refine ⟨s', evs'', t', ?_, k2⟩
    rw [usesNew, useNew, g1]
    exact k1
  | release slot bytes a b us l' _ ih =>
    intro s evs t hd hnd hno
    have hn : slot ∉ (a ++ b).map (·.1) ∧ ((a ++ b).map (·.1)).Nodup := by
      rw [List.map_append, List.map_cons] at hnd
      have := (List.perm_middle (a := slot) (l₁ := a.map (·.1)) (l₂ := b.map (·.1))).nodup_iff.1 hnd
      rw [List.nodup_cons] at this
      rw [List.map_append]
      exact this
    obtain ⟨s1, item1, evs1, r1, r2⟩ : ∃ s1 item1 evs1, c.release fuel s (t.item slot) = some (s1, item1) ∧
        Holding file c cfg h read fuel capacity base evs0 s1 evs1 (gotOf t (a ++ b)) := by
      by_cases hg : t.got slot = true
      · have hsplit : gotOf t (a ++ (slot, bytes) :: b) = gotOf t a ++ (t.item slot, bytes) :: gotOf t b := by
          rw [gotOf, List.filter_append, List.filter_cons_of_pos (by simpa using hg)]
          simp [gotOf, itemsOf]
        rw [hsplit] at hd
        obtain ⟨s1, item1, evs1, r1, -, -, -, r4⟩ := hd.release hc
        refine ⟨s1, item1, evs1, r1, ?_⟩
        have : gotOf t (a ++ b) = gotOf t a ++ gotOf t b := by simp [gotOf, itemsOf]
        rw [this]; exact r4
      · have hg : t.got slot = false := by simpa using hg
        obtain ⟨f1, f2⟩ := hno (slot, bytes) (by simp) hg
        refine ⟨s, t.item slot, evs, release_nothing f1, ?_⟩
        have : gotOf t (a ++ (slot, bytes) :: b) = gotOf t (a ++ b) := by
          rw [gotOf, List.filter_append, List.filter_cons_of_neg (by simp [hg]), ← List.filter_append]
          rfl
        rw [this] at hd; exact hd
    obtain ⟨s', evs'', t', k1, k2⟩ := ih s1 evs1
      ⟨fun i => if i = slot then item1 else t.item i, fun i => if i = slot then false else t.got i⟩
      (by rw [gotOf_other t hn.1 item1 false]; exact r2) hn.2 (by
        intro x hx
        have : x.1 ≠ slot := fun he => hn.1 (List.mem_map.2 ⟨x, hx, he⟩)
        simp only [this, if_false]
        apply hno
        rcases List.mem_append.1 hx with hx | hx
        · exact List.mem_append_left _ hx
        · exact List.mem_append_right _ (List.mem_cons_of_mem _ hx))
    refine ⟨s', evs'', t', ?_, k2⟩
    rw [usesNew, useNew, r1]
    exact k1

/-- C74: items can be got and released in any order, and any number held at the same time. If the get returned a pointer, then, whatever
is done with the other items, it is to the bytes of the item until it is released; only for a cached collection can the get
return NULL (`C13_full_violated`; see `C74_room` for when it does not). When all have been released, also those for which the get returned
NULL, the memory is as before, and the nodes of the cache are held as often as before. -/
theorem C74_held (w : WellFormed file h read) (hc : Created file cfg h read c) {k : Nat} {us : List Use}
    {l : List (Nat × CStr)} (ho : InOrder file cfg h read k [] us l) (hfresh : ∀ j, s.heap.next ≤ j → s.heap.block j = none)
    (hcache : second cfg = .cache → Reached file (fileColl h read) fuel capacity s.cache evs) (t : Slots) :
    ∃ s' t', usesNew file fuel c s t us = some (s', t') ∧
      (∀ slot bytes, (slot, bytes) ∈ l → t'.got slot = true → ∃ ref b, (t'.item slot).ptr = some ref ∧ view s' ref = some b ∧
        b.take bytes.length = bytes) ∧
      (∀ slot bytes, (slot, bytes) ∈ l → t'.got slot = false → second cfg = .cache) ∧
      (l = [] → s'.heap.block = s.heap.block ∧
        (second cfg = .cache → SameHeld file (fileColl h read) fuel capacity evs s.cache s'.cache)) := by
  have hd : Holding file c cfg h read fuel capacity s evs s evs (gotOf t []) :=
    ⟨hfresh, hfresh, Nat.le_refl _, fun x hx => (nomatch hx), fun j => Nat.zero_le _, fun j hj => absurd rfl hj, fun j _ => rfl,
      fun hx => ⟨hcache hx, rfl, fun i n => rfl⟩⟩
  obtain ⟨s', evs', t', h1, h2, h3⟩ := usesNew_spec w hc ho s evs t hd List.nodup_nil (fun x hx => (nomatch hx))
  refine ⟨s', t', h1, ?_, fun slot bytes hm => h3 (slot, bytes) hm, ?_⟩
  · intro slot bytes hm hg
    obtain ⟨ref, b, k1, k2, k3, -⟩ := h2.live (t'.item slot, bytes)
      (List.mem_map.2 ⟨_, List.mem_filter.2 ⟨hm, by simpa using hg⟩, rfl⟩)
    exact ⟨ref, b, k1, k2, k3⟩
  · rintro rfl
    refine ⟨funext fun j => h2.rest j rfl, fun hx => ?_⟩
    obtain ⟨r1, r2, r3⟩ := h2.cache hx
    exact ⟨r2, evs', r1, fun j m => r3 j m⟩

/-- Two items are held at the same time and released in the order in which they were got. -/
example : InOrder fixedFile ⟨0, 2, 1⟩ ⟨1, 8, 4⟩ .fixed 2 [] [.get 0 1, .get 5 3, .release 0, .get 0 2, .release 0, .release 5] [] ∧
    InOrder fixedFile ⟨0, 2, 1⟩ ⟨1, 8, 4⟩ .fixed 2 [] [.get 0 1, .get 5 3] [(5, c!"dd"), (0, c!"bb")] := by
  have item : ∀ (key : UInt32) (bytes : CStr), key.toNat < 4 → bytes = (fixedFile.drop (1 + key.toNat * 2)).take 2 →
      IsItem fixedFile ⟨1, 8, 4⟩ key bytes .fixed := fun key bytes h1 h2 => ⟨h1, h2⟩
  constructor
  · refine .get 0 1 c!"bb" _ _ _ (by decide) (item _ _ (by decide) (by decide)) (by decide) (by decide) ?_
    refine .get 5 3 c!"dd" _ _ _ (by decide) (item _ _ (by decide) (by decide)) (by decide) (by decide) ?_
    refine .release 0 c!"bb" [(5, c!"dd")] [] _ _ ?_
    refine .get 0 2 c!"cc" _ _ _ (by decide) (item _ _ (by decide) (by decide)) (by decide) (by decide) ?_
    refine .release 0 c!"cc" [] [(5, c!"dd")] _ _ ?_
    refine .release 5 c!"dd" [] [] _ _ ?_
    exact .nil _
  · refine .get 0 1 c!"bb" _ _ _ (by decide) (item _ _ (by decide) (by decide)) (by decide) (by decide) ?_
    refine .get 5 3 c!"dd" _ _ _ (by decide) (item _ _ (by decide) (by decide)) (by decide) (by decide) ?_
    exact .nil _

/-- A new cache with two nodes in its shard has room for two items. -/
example (s : State) : Room ⟨0, 2, 1⟩ 2 s [] 2 := by
  intro _ i _
  show total (fun n => held n (eventsOf i ([] : List (Nat × Event UInt32 CStr)))) 2 + 2 ≤ 2
  exact Nat.le_refl _

end Verif.Collection
