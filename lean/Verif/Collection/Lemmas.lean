import Verif.Collection.Model
import Verif.Cache.Props

/-! # Lemmas about the collections -/

namespace Verif.Collection

open Verif.Cache (Cache COp Event cacheStep cacheRun eventsOf held NewCache Enough)

/-! ## Memory and file -/

theorem write_fresh (h : Heap) (bytes : CStr) :
    ∃ h', (h.malloc bytes.length).1.write h.next 0 bytes = some h' ∧ h'.block h.next = some bytes ∧
      (∀ j, j ≠ h.next → h'.block j = h.block j) ∧ h'.next = h.next + 1 := by
  simp only [Heap.malloc, Heap.write, if_true, List.length_replicate, Nat.zero_add, Nat.le_refl]
  refine ⟨_, rfl, ?_, ?_, rfl⟩
  · simp
  · intro j hj; simp [hj]

/-- The bytes of an item as the file collection reads them. -/
def Readable (file : CStr) (f : FileColl) (key : UInt32) (bytes : CStr) : Prop :=
  bytes ≠ [] ∧
  match f.read with
  | .fixed => key.toNat < f.count ∧ key.toNat * f.elementSize < 2 ^ 32 ∧ key.toNat * f.elementSize < f.size ∧
      slice file (f.offset + key.toNat * f.elementSize) f.elementSize = some bytes
  | .variable n g => key.toNat < f.size ∧ ∃ initial, slice file (f.offset + key.toNat) n = some initial ∧
      n ≤ g initial ∧ g initial < 2 ^ 32 ∧ slice file (f.offset + key.toNat) (g initial) = some bytes

theorem slice_length {file bytes : CStr} {pos n : Nat} (h : slice file pos n = some bytes) : bytes.length = n := by
  rw [slice] at h
  split at h
  · cases h; rw [List.length_take, List.length_drop]; omega
  · cases h

theorem slice_split {file bytes : CStr} {pos n m : Nat} (hm : m ≤ n) (h : slice file pos n = some bytes) :
    slice file pos m = some (bytes.take m) ∧ slice file (pos + m) (n - m) = some (bytes.drop m) := by
  rw [slice] at h
  split at h
  · cases h
    rw [slice, slice, if_pos (by omega), if_pos (by omega)]
    refine ⟨by rw [List.take_take, Nat.min_eq_left hm], ?_⟩
    rw [List.drop_take, List.drop_drop]
  · cases h

theorem dataMalloc_clean {h : Heap} {item : Item} (hc : item.allocated = 0) (n : Nat) :
    dataMalloc h item n = some ((h.malloc n).1, { item with ptr := some (.block h.next), allocated := n }, h.next) := by
  rw [dataMalloc, if_neg (by omega), if_pos hc]; rfl

theorem write_two (h : Heap) (bytes : CStr) (m : Nat) (hm : m ≤ bytes.length) :
    ∃ h1, (h.malloc bytes.length).1.write h.next 0 (bytes.take m) = some h1 ∧
      (m = bytes.length → h1.block h.next = some bytes ∧ (∀ j, j ≠ h.next → h1.block j = h.block j) ∧ h1.next = h.next + 1) ∧
      ∃ h2, h1.write h.next m (bytes.drop m) = some h2 ∧ h2.block h.next = some bytes ∧
        (∀ j, j ≠ h.next → h2.block j = h.block j) ∧ h2.next = h.next + 1 := by
  simp only [Heap.malloc, Heap.write, if_true, List.length_replicate, Nat.zero_add, List.length_take, Nat.min_eq_left hm]
  rw [if_pos hm]
  refine ⟨_, rfl, ?_, ?_⟩
  · rintro rfl
    refine ⟨by simp, fun j hj => by simp [hj], rfl⟩
  · simp only [if_true]
    have hlen : ((List.replicate bytes.length (0 : UInt8)).take 0 ++ bytes.take m ++
        (List.replicate bytes.length (0 : UInt8)).drop m).length = bytes.length := by simp; omega
    rw [hlen, List.length_drop, if_pos (by omega)]
    refine ⟨_, rfl, ?_, ?_, rfl⟩
    · simp only [if_true, Option.some.injEq]
      rw [show m + (bytes.length - m) = bytes.length by omega]
      have e1 : (List.take 0 (List.replicate bytes.length (0 : UInt8)) ++ List.take m bytes ++
          List.drop m (List.replicate bytes.length (0 : UInt8))).take m = bytes.take m := by
        rw [List.take_zero, List.nil_append, List.take_append_of_le_length (by rw [List.length_take]; omega),
          List.take_take, Nat.min_self]
      rw [e1, List.drop_of_length_le (i := bytes.length) (Nat.le_of_eq hlen), List.append_nil, List.take_append_drop]
    · intro j hj; simp [hj]

/-- Reading an item gives a new block with its bytes. -/
theorem getFile_readable {file : CStr} {f : FileColl} {key : UInt32} {bytes : CStr} (hr : Readable file f key bytes)
    (h : Heap) (item : Item) (hc : item.allocated = 0) :
    ∃ h', getFile file f h key item = some (h', ⟨some (.block h.next), bytes.length, bytes.length, some (.block h.next),
        some .file⟩, some (.block h.next), none) ∧
      h'.block h.next = some bytes ∧ (∀ j, j ≠ h.next → h'.block j = h.block j) ∧ h'.next = h.next + 1 := by
  obtain ⟨-, hr⟩ := hr
  rw [getFile, readItem]
  cases hf : f.read with
  | fixed =>
    rw [hf] at hr
    obtain ⟨h1, h2, h3, h4⟩ := hr
    have hl := slice_length h4
    simp only
    rw [readFixed]
    simp only [Nat.mod_eq_of_lt h2]
    rw [if_pos h1, if_pos h3, dataMalloc_clean (by exact hc)]
    simp only [h4]
    obtain ⟨h', w1, w2, w3, w4⟩ := write_fresh h bytes
    rw [hl] at w1
    rw [w1]
    exact ⟨h', by simp [hl], w2, w3, w4⟩
  | «variable» n g =>
    rw [hf] at hr
    obtain ⟨h1, initial, h2, h3, h4, h5⟩ := hr
    have hl := slice_length h5
    obtain ⟨s1, s2⟩ := slice_split h3 h5
    simp only
    rw [readVariable]
    simp only [h1, if_true]
    rw [readVariableAt, h2]
    simp only
    rw [dataMalloc_clean (by exact hc)]
    simp only
    have hi : initial = bytes.take n := by rw [h2] at s1; exact Option.some.inj s1
    obtain ⟨a1, w1, w2, a2, w3, w4, w5, w6⟩ := write_two h bytes n (by omega)
    rw [hi, ← hi, ← hl, hi, w1]
    simp only
    have hleft : sub32 bytes.length n = bytes.length - n := by rw [sub32, if_pos (by omega)]
    rw [hleft]
    by_cases hz : bytes.length - n > 0
    · rw [if_pos hz, hl, s2]
      simp only
      rw [w3]
      exact ⟨a2, by simp [hl], w4, w5, w6⟩
    · rw [if_neg hz]
      obtain ⟨k1, k2, k3⟩ := w2 (by omega)
      exact ⟨a1, by simp, k1, k2, k3⟩

/-- The data of the item are empty, or a block of the size they say. -/
def Owns (h : Heap) (item : Item) : Prop :=
  item.allocated = 0 ∨ ∃ i old, item.ptr = some (.block i) ∧ h.block i = some old ∧ old.length = item.allocated

theorem dataMalloc_owns {h : Heap} {item : Item} (ho : Owns h item) (n : Nat) :
    ∃ h1 i old, dataMalloc h item n = some (h1, { item with ptr := some (.block i), allocated := old.length }, i) ∧
      h1.block i = some old ∧ n ≤ old.length := by
  by_cases h0 : item.allocated = 0
  · rw [dataMalloc_clean h0]
    exact ⟨_, _, List.replicate n 0, by simp; exact ⟨rfl, rfl⟩, by simp [Heap.malloc], by simp⟩
  · rcases ho with h1 | ⟨i, old, h1, h2, h3⟩
    · exact absurd h1 h0
    · by_cases hn : n > item.allocated
      · rw [dataMalloc, if_pos ⟨by omega, hn⟩, h1, Heap.free, h2]
        exact ⟨_, _, List.replicate n 0, by simp; exact ⟨rfl, rfl⟩, by simp [Heap.malloc], by simp⟩
      · rw [dataMalloc, if_neg (by omega), if_neg h0, h1]
        simp only [h2, Option.isSome_some, if_true]
        refine ⟨h, i, old, ?_, h2, by omega⟩
        rw [h3, ← h1]

theorem write_at {h : Heap} {i : Nat} {old : CStr} (hb : h.block i = some old) (pos : Nat) (bytes : CStr)
    (hl : pos + bytes.length ≤ old.length) :
    ∃ h', h.write i pos bytes = some h' ∧
      h'.block i = some (old.take pos ++ bytes ++ old.drop (pos + bytes.length)) := by
  simp only [Heap.write, hb, if_pos hl]
  exact ⟨_, rfl, by simp⟩

/-- Reading an item when the memory of the last one is still there: it is used again if it is large enough. -/
theorem getFile_owned {file : CStr} {f : FileColl} {key : UInt32} {bytes : CStr} (hr : Readable file f key bytes)
    (h : Heap) (item : Item) (ho : Owns h item) :
    ∃ h' item' i b, getFile file f h key item = some (h', item', some (.block i), none) ∧ item'.ptr = some (.block i) ∧
      item'.handle = some (.block i) ∧ item'.used = bytes.length ∧ item'.owner = some .file ∧ h'.block i = some b ∧
      b.take bytes.length = bytes ∧ b.length = item'.allocated := by
  obtain ⟨-, hr⟩ := hr
  have ho' : Owns h { item with used := 0 } := ho
  rw [getFile, readItem]
  cases hf : f.read with
  | fixed =>
    rw [hf] at hr
    obtain ⟨h1, h2, h3, h4⟩ := hr
    have hl := slice_length h4
    obtain ⟨a1, i, old, k1, k2, k3⟩ := dataMalloc_owns ho' f.elementSize
    simp only
    rw [readFixed]
    simp only [Nat.mod_eq_of_lt h2]
    rw [if_pos h1, if_pos h3, k1]
    simp only [h4]
    obtain ⟨a2, w1, w2⟩ := write_at k2 0 bytes (by omega)
    rw [w1]
    refine ⟨a2, _, i, _, rfl, rfl, rfl, hl.symm, rfl, w2, ?_, ?_⟩
    · simp
    · simp; omega
  | «variable» n g =>
    rw [hf] at hr
    obtain ⟨h1, initial, h2, h3, h4, h5⟩ := hr
    have hl := slice_length h5
    have hli := slice_length h2
    obtain ⟨s1, s2⟩ := slice_split h3 h5
    obtain ⟨a1, i, old, k1, k2, k3⟩ := dataMalloc_owns ho' (g initial)
    simp only
    rw [readVariable]
    simp only [h1, if_true]
    rw [readVariableAt, h2]
    simp only
    rw [k1]
    simp only
    have hi : initial = bytes.take n := by rw [h2] at s1; exact Option.some.inj s1
    obtain ⟨a2, w1, w2⟩ := write_at k2 0 initial (by omega)
    rw [w1]
    simp only [List.take_zero, List.nil_append, Nat.zero_add] at w2 ⊢
    have hleft : sub32 (g initial) n = g initial - n := by rw [sub32, if_pos h3]
    rw [hleft]
    by_cases hz : g initial - n > 0
    · rw [if_pos hz, s2]
      simp only
      obtain ⟨a3, w3, w4⟩ := write_at w2 n (bytes.drop n) (by simp; omega)
      rw [w3]
      have hb : (initial ++ old.drop initial.length).take n = bytes.take n := by
        rw [List.take_append_of_le_length (by omega), List.take_of_length_le (by omega), hi]
      rw [hb, List.take_append_drop] at w4
      refine ⟨a3, _, i, _, rfl, rfl, rfl, hl.symm, rfl, w4, ?_, ?_⟩
      · simp
      · simp; omega
    · rw [if_neg hz]
      refine ⟨a2, _, i, _, rfl, rfl, rfl, hl.symm, rfl, w2, ?_, ?_⟩
      · have : bytes.take n = bytes := List.take_of_length_le (by omega)
        rw [hi, this]; simp
      · simp; omega

/-- A key outside of the collection. -/
def Outside (f : FileColl) (key : UInt32) : Prop :=
  match f.read with
  | .fixed => f.count ≤ key.toNat
  | .variable _ _ => f.size ≤ key.toNat

/-- The exception for such a key. -/
def outsideError (f : FileColl) : Err :=
  match f.read with
  | .fixed => .indexOutOfRange
  | .variable _ _ => .offsetOutOfRange

theorem getFile_outside {file : CStr} {f : FileColl} {key : UInt32} (ho : Outside f key) (h : Heap) (item : Item) :
    ∃ item', getFile file f h key item = some (h, item', none, some (outsideError f)) ∧ item'.ptr = item.ptr ∧
      item'.allocated = item.allocated ∧ item'.handle = none := by
  rw [Outside] at ho
  rw [getFile, readItem, outsideError]
  cases hf : f.read with
  | fixed =>
    rw [hf] at ho
    simp only at ho ⊢
    rw [readFixed, if_neg (by omega)]
    exact ⟨_, rfl, rfl, rfl, rfl⟩
  | «variable» n g =>
    rw [hf] at ho
    simp only at ho ⊢
    rw [readVariable, if_neg (by omega)]
    exact ⟨_, rfl, rfl, rfl, rfl⟩

theorem loader_readable {file : CStr} {f : FileColl} {key : UInt32} {bytes : CStr} (hr : Readable file f key bytes) :
    loader file f key = some (bytes, none) := by
  obtain ⟨h', h1, h2, -⟩ := getFile_readable hr ⟨0, fun _ => none⟩ Item.new rfl
  have hpos := List.length_pos_iff.2 hr.1
  rw [loader, h1]
  simp only
  rw [if_pos hpos, h2]
  simp

theorem loader_outside {file : CStr} {f : FileColl} {key : UInt32} (ho : Outside f key) :
    loader file f key = some ([], some (outsideError f)) := by
  obtain ⟨i, h1, -⟩ := getFile_outside (file := file) ho ⟨0, fun _ => none⟩ Item.new
  rw [loader, h1]

/-! ## The cache -/

theorem toInt32_inj {a b : UInt32} (h : a.toInt32 = b.toInt32) : a = b := by
  have := congrArg Int32.toUInt32 h
  simpa using this

theorem keyHash_inj (a b : UInt32) (h : keyHash a = keyHash b) : a = b := by
  have := Cache.C04_hash.1 _ _ h
  exact toInt32_inj this

theorem keyHash_range {key : UInt32} (hk : key ≠ 0x80000000) : Cache.toInt (keyHash key) ≠ -2 ^ 31 := by
  have h1 := key.toInt32.minValue_le_toInt
  have h2 := key.toInt32.toInt_lt
  have e : keyHash key = key.toInt32.toInt := by simp [keyHash, Cache.hash32]
  have hne : key.toInt32.toInt ≠ -2 ^ 31 := by
    intro h
    apply hk
    have : key.toInt32 = (0x80000000 : UInt32).toInt32 := Int32.toInt_inj.1 (h.trans (by decide))
    exact toInt32_inj this
  rw [e, Cache.toInt]
  simp only [Int32.minValue] at h1
  have : (-2147483648 : Int) ≤ key.toInt32.toInt := h1
  omega

theorem shardGet_event {K V : Type} {hash : K → Int} {fuel : Nat} {s s' : Cache.Shard V} {k : K} {v : V} {ok : Bool}
    {e : Event K V} (h : Cache.shardGet hash fuel s k v ok = some (s', e)) :
    (∃ n, e = .hit k n) ∨ (∃ n, e = .loaded k v ok n) ∨ e = .full k := by
  simp only [Cache.shardGet, Option.bind_eq_bind] at h
  cases h1 : Tree.find fuel s.tree (hash k) with
  | none => simp [h1] at h
  | some p =>
    simp only [h1, Option.bind_some] at h
    cases p with
    | node n => simp at h; exact .inl ⟨n, h.2.symm⟩
    | null =>
      simp only at h
      cases h2 : Cache.load fuel s (hash k) v ok with
      | none => simp [h2] at h
      | some r =>
        obtain ⟨s2, n⟩ := r
        simp only [h2, Option.bind_some] at h
        cases n with
        | none => simp at h; exact .inr (.inr h.2.symm)
        | some n => simp at h; exact .inr (.inl ⟨n, h.2.symm⟩)
    | root => simp at h
    | empty => simp at h

theorem cacheStep_event {K V : Type} {hash : K → Int} {fuel : Nat} {c c' : Cache V} {k : K} {v : V} {ok : Bool} {i : Nat}
    {e : Event K V} (h : cacheStep hash fuel c (.get k v ok) = some (c', i, e)) :
    (∃ n, e = .hit k n) ∨ (∃ n, e = .loaded k v ok n) ∨ e = .full k := by
  simp only [cacheStep, Option.bind_eq_bind] at h
  cases h1 : Cache.shardIndex c.concurrency (hash k) with
  | none => simp [h1] at h
  | some j =>
    simp only [h1, Option.bind_some] at h
    split at h
    · cases h2 : Cache.shardGet hash fuel (c.shards j.toNat) k v ok with
      | none => simp [h2] at h
      | some r =>
        obtain ⟨s2, e2⟩ := r
        simp only [h2, Option.bind_some, Option.pure_def, Option.some.injEq, Prod.mk.injEq] at h
        rw [← h.2.2]; exact shardGet_event h2
    · cases h

theorem cacheRun_loaded {K V : Type} {hash : K → Int} {fuel : Nat} {k : K} {v : V} {ok : Bool} {n i : Nat} :
    ∀ {ops : List (COp K V)} {c c' : Cache V} {evs : List (Nat × Event K V)}, cacheRun hash fuel c ops = some (c', evs) →
    (i, .loaded k v ok n) ∈ evs → .get k v ok ∈ ops := by
  intro ops
  induction ops with
  | nil => intro c c' evs h hm; cases h; cases hm
  | cons op ops ih =>
    intro c c' evs h hm
    simp only [cacheRun, Option.bind_eq_bind] at h
    cases h1 : cacheStep hash fuel c op with
    | none => simp [h1] at h
    | some r =>
      obtain ⟨c1, e1⟩ := r
      simp only [h1, Option.bind_some] at h
      cases h2 : cacheRun hash fuel c1 ops with
      | none => simp [h2] at h
      | some r2 =>
        obtain ⟨c2, evs2⟩ := r2
        simp only [h2, Option.bind_some, Option.pure_def, Option.some.injEq, Prod.mk.injEq] at h
        obtain ⟨rfl, rfl⟩ := h
        rcases List.mem_cons.1 hm with h | hm
        · subst h
          cases op with
          | get k' v' ok' =>
            rcases cacheStep_event h1 with ⟨m, h⟩ | ⟨m, h⟩ | h
            · cases h
            · cases h; simp
            · cases h
          | release a b =>
            simp only [cacheStep] at h1
            split at h1
            · cases h3 : Cache.shardRelease (c.shards a) b with
              | none => simp [h3] at h1
              | some s => simp [h3] at h1
            · cases h1
        · exact List.mem_cons_of_mem _ (ih h2 hm)

/-- The cache after a history of gets through the collection and releases. -/
structure Reached (file : CStr) (f : FileColl) (fuel capacity : Nat) (c : Cache CStr)
    (evs : List (Nat × Event UInt32 CStr)) : Prop where
  enough : Enough capacity fuel
  shards : 0 < c.concurrency
  history : ∃ c0 ops, NewCache capacity c0 ∧ cacheRun keyHash fuel c0 ops = some (c, evs) ∧
    ∀ k v ok, .get k v ok ∈ ops → ∃ e, loader file f k = some (v, e) ∧ e.isNone = ok

/-- All nodes of the shard for the key are held by somebody. -/
def Full (capacity : Nat) (c : Cache CStr) (key : UInt32) (evs : List (Nat × Event UInt32 CStr)) : Prop :=
  ∃ i : Int, Cache.shardIndex c.concurrency (keyHash key) = some i ∧
    ∀ n, n < capacity → held n (eventsOf i.toNat evs) ≠ 0

theorem cached_get {file : CStr} {f : FileColl} {fuel capacity : Nat} {c : Cache CStr} {evs : List (Nat × Event UInt32 CStr)}
    (r : Reached file f fuel capacity c evs) {key : UInt32} (hk : key ≠ 0x80000000) {v : CStr} {er : Option Err}
    (hl : loader file f key = some (v, er)) :
    ∃ c' i e, cacheStep keyHash fuel c (.get key v er.isNone) = some (c', i, e) ∧
      ((∃ n, e = .hit key n ∧ er = none ∧ (c'.shards i).data n = v) ∨
       (∃ n, e = .loaded key v er.isNone n ∧ (er = none → (c'.shards i).data n = v)) ∨
       (e = .full key ∧ Full capacity c key evs)) := by
  obtain ⟨hf, hs, c0, ops, hnew, hrun, hops⟩ := r
  obtain ⟨i, hi1, hi2, hi3⟩ := Cache.C08_shard_partial c.concurrency hs (keyHash key) (keyHash_range hk)
  obtain ⟨hconc, -⟩ := Cache.cacheRun_spec hrun
  have hi : i.toNat < c.concurrency := by omega
  obtain ⟨o, ha⟩ := Cache.C04_shards hf hnew hrun (i := i.toNat) (by omega)
  obtain ⟨s', e, hstep⟩ := (Cache.C04_total ha).1 key v er.isNone
  have hget : Cache.shardGet keyHash fuel (c.shards i.toNat) key v er.isNone = some (s', e) := hstep
  obtain ⟨c', hc'⟩ : ∃ c', cacheStep keyHash fuel c (.get key v er.isNone) = some (c', i.toNat, e) := by
    simp only [cacheStep, hi1, Option.bind_eq_bind, Option.bind_some]
    rw [if_pos ⟨hi2, hi⟩, hget]
    exact ⟨_, rfl⟩
  refine ⟨c', i.toNat, e, hc', ?_⟩
  have key1 : ∀ n, e.isGet n = true → (e = .hit key n ∨ er = none) → er = none ∧ (c'.shards i.toNat).data n = v := by
    intro n hn hcase
    obtain ⟨v', ok', g1, g2, g3⟩ := Cache.C04_cache keyHash_inj hf hnew hrun hc' hn
    have hm := Cache.lastLoad_mem g1
    have hok : ok' = true := by
      rcases g3 with h | ⟨-, h⟩
      · exact h
      · rcases hcase with h' | h'
        · rw [h'] at h; cases h
        · subst h'
          rcases cacheStep_event hc' with ⟨m, h2⟩ | ⟨m, h2⟩ | h2 <;> rw [h2] at h <;> cases h
    subst hok
    have hval : ∃ e', loader file f key = some (v', e') ∧ e'.isNone = true := by
      rcases List.mem_append.1 hm with hm | hm
      · rw [eventsOf, List.mem_map] at hm
        obtain ⟨⟨j, e'⟩, hm, rfl⟩ := hm
        exact hops _ _ _ (cacheRun_loaded hrun (List.mem_filter.1 hm).1)
      · rw [List.mem_singleton] at hm
        rcases cacheStep_event hc' with ⟨m, h2⟩ | ⟨m, h2⟩ | h2
        · rw [h2] at hm; cases hm
        · rw [h2] at hm
          simp only [Event.loaded.injEq] at hm
          obtain ⟨-, rfl, h3, -⟩ := hm
          exact ⟨_, hl, h3.symm⟩
        · rw [h2] at hm; cases hm
    obtain ⟨e', hv1, hv2⟩ := hval
    rw [hl] at hv1
    cases hv1
    exact ⟨Option.isNone_iff_eq_none.1 hv2, g2⟩
  rcases cacheStep_event hc' with ⟨n, h⟩ | ⟨n, h⟩ | h
  · left
    exact ⟨n, h, key1 n (by rw [h]; simp [Event.isGet]) (.inl h)⟩
  · right; left
    exact ⟨n, h, fun hok => (key1 n (by rw [h]; simp [Event.isGet]) (.inr hok)).2⟩
  · right; right
    subst h
    exact ⟨rfl, i, hi1, Cache.C06_full ha hstep⟩

theorem cacheRun_snoc {V : Type} {fuel : Nat} {op : COp UInt32 V} : ∀ {ops : List (COp UInt32 V)} {c c1 c2 : Cache V}
    {evs : List (Nat × Event UInt32 V)} {e : Nat × Event UInt32 V},
    cacheRun keyHash fuel c ops = some (c1, evs) → cacheStep keyHash fuel c1 op = some (c2, e) →
    cacheRun keyHash fuel c (ops ++ [op]) = some (c2, evs ++ [e]) := by
  intro ops
  induction ops with
  | nil =>
    intro c c1 c2 evs e h1 h2
    cases h1
    simp only [List.nil_append, cacheRun, h2, Option.bind_eq_bind, Option.bind_some, Option.pure_def]
  | cons o ops ih =>
    intro c c1 c2 evs e h1 h2
    simp only [cacheRun, Option.bind_eq_bind, List.cons_append] at h1 ⊢
    cases h3 : cacheStep keyHash fuel c o with
    | none => rw [h3] at h1; cases h1
    | some r =>
      rw [h3, Option.bind_some] at h1
      rw [Option.bind_some]
      cases h4 : cacheRun keyHash fuel r.1 ops with
      | none => rw [h4] at h1; cases h1
      | some q =>
        rw [h4, Option.bind_some] at h1
        cases h1
        rw [ih h4 h2, Option.bind_some]
        rfl

theorem reached_step {file : CStr} {f : FileColl} {fuel capacity : Nat} {c c' : Cache CStr}
    {evs : List (Nat × Event UInt32 CStr)} (r : Reached file f fuel capacity c evs) {op : COp UInt32 CStr}
    {e : Nat × Event UInt32 CStr} (h : cacheStep keyHash fuel c op = some (c', e))
    (hop : ∀ k v ok, op = .get k v ok → ∃ e, loader file f k = some (v, e) ∧ e.isNone = ok) :
    Reached file f fuel capacity c' (evs ++ [e]) := by
  obtain ⟨h1, h2, c0, ops, h3, h4, h5⟩ := r
  have h6 := cacheRun_snoc h4 h
  refine ⟨h1, ?_, c0, ops ++ [op], h3, h6, ?_⟩
  · have a1 := (Cache.cacheRun_spec h4).1
    have a2 := (Cache.cacheRun_spec h6).1
    omega
  · intro k v ok hm
    rcases List.mem_append.1 hm with hm | hm
    · exact h5 k v ok hm
    · rw [List.mem_singleton] at hm
      exact hop k v ok hm.symm

theorem eventsOf_snoc {K V : Type} (j i : Nat) (evs : List (Nat × Event K V)) (e : Event K V) :
    eventsOf j (evs ++ [(i, e)]) = if i = j then eventsOf j evs ++ [e] else eventsOf j evs := by
  simp only [eventsOf, List.filter_append, List.map_append]
  by_cases h : i = j <;> simp [h]

theorem releases_le {K V : Type} {hash : K → Int} {fuel capacity : Nat} {ops : List (Cache.Op K V)} {s : Cache.Shard V}
    {evs : List (Event K V)} (a : Cache.After hash fuel capacity ops s evs) (n : Nat) :
    Cache.releases n evs ≤ Cache.gets n evs := by
  obtain ⟨⟨m, t, l, i⟩, -⟩ := a.inv
  rcases Nat.lt_or_ge n s.allocated with h | h
  · have := i.count n h; omega
  · have := i.unused n h; omega

theorem cacheStep_concurrency {K V : Type} {hash : K → Int} {fuel : Nat} {c c' : Cache V} {op : COp K V} {i : Nat}
    {e : Event K V} (h : cacheStep hash fuel c op = some (c', i, e)) : c'.concurrency = c.concurrency := by
  exact (Cache.cacheRun_spec (hash := hash) (fuel := fuel) (ops := [op]) (evs := [(i, e)]) (by simp [cacheRun, h])).1

/-- A node that was got can be released, and is then held as often as before. -/
theorem cached_release {file : CStr} {f : FileColl} {fuel capacity : Nat} {c c' : Cache CStr}
    {evs : List (Nat × Event UInt32 CStr)} (r : Reached file f fuel capacity c evs) {key : UInt32} {v : CStr} {ok : Bool}
    {i n : Nat} {e : Event UInt32 CStr} (h : cacheStep keyHash fuel c (.get key v ok) = some (c', i, e))
    (hl : ∃ er, loader file f key = some (v, er) ∧ er.isNone = ok) (hn : ∀ m, e.isGet m = decide (n = m)) :
    ∃ c'', cacheStep (K := UInt32) keyHash fuel c' (.release i n) = some (c'', i, .released n) ∧
      Reached file f fuel capacity c'' (evs ++ [(i, e)] ++ [(i, .released n)]) ∧
      ∀ j m, held m (eventsOf j (evs ++ [(i, e)] ++ [(i, .released n)])) = held m (eventsOf j evs) := by
  have r' := reached_step r h (by intro k v ok hk; cases hk; exact hl)
  have hrel : ∀ m, e.isRelease m = false := by
    intro m
    have h1 := hn n
    cases e <;> first | rfl | simp [Event.isGet] at h1
  have r0 := r'
  -- the shard before and after
  obtain ⟨hf, -, c0, ops, hnew, hrun, -⟩ := r
  obtain ⟨-, hs', c0', ops', hnew', hrun', -⟩ := r'
  have hlt' : i < c0'.concurrency := (Cache.cacheRun_spec hrun').2.1 (i, e) (by simp)
  have hconc' := (Cache.cacheRun_spec hrun').1
  obtain ⟨o', a'⟩ := Cache.C04_shards hf hnew' hrun' hlt'
  have hlt : i < c0.concurrency := by
    have h6 := cacheRun_snoc hrun h
    exact (Cache.cacheRun_spec h6).2.1 (i, e) (by simp)
  obtain ⟨o, a⟩ := Cache.C04_shards hf hnew hrun hlt
  have hle := releases_le a n
  have hheld : held n (eventsOf i (evs ++ [(i, e)])) ≠ 0 := by
    rw [eventsOf_snoc, if_pos rfl]
    have h1 : e.isGet n = true := by simp [hn]
    simp only [held, Cache.gets, Cache.releases, List.countP_append, List.countP_singleton, h1, hrel, if_true] at hle ⊢
    simp only [Bool.false_eq_true, if_false]
    omega
  obtain ⟨s', e', hstep⟩ := (Cache.C04_total a').2 n |>.2 hheld
  have hstep2 : ∃ s', Cache.shardRelease (c'.shards i) n = some s' := by
    simp only [Cache.step] at hstep
    cases hx : Cache.shardRelease (c'.shards i) n with
    | none => simp [hx] at hstep
    | some s' => exact ⟨s', rfl⟩
  obtain ⟨s', hs2⟩ := hstep2
  have hc : cacheStep (K := UInt32) keyHash fuel c' (.release i n) =
      some ({ c' with shards := Cache.set c'.shards i s' }, i, .released n) := by
    simp only [cacheStep]
    rw [if_pos (by omega), hs2]
    rfl
  refine ⟨_, hc, ?_, ?_⟩
  · exact reached_step r0 hc (fun _ _ _ hk => (nomatch hk))
  · intro j m
    rw [eventsOf_snoc, eventsOf_snoc]
    by_cases hj : i = j
    · subst hj
      rw [if_pos rfl, if_pos rfl]
      have g1 : (Event.released n : Event UInt32 CStr).isGet m = false := rfl
      have g2 : (Event.released n : Event UInt32 CStr).isRelease m = decide (n = m) := rfl
      simp only [held, Cache.gets, Cache.releases, List.countP_append, List.countP_singleton, hn, hrel, g1, g2]
      by_cases hm : n = m <;> simp [hm] <;> omega
    · rw [if_neg hj, if_neg hj]

end Verif.Collection
