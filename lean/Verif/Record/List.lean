import Verif.Collection.Hold
import Verif.Record.Props

/-! # C51 in collections of any kind -/

namespace Verif.Record

open Verif.Collection
open Verif.Component (read16 read32 le16 le32 read16_le read32_le Comp Fits)
open Verif.Cache (Event eventsOf held)

/-- `fiftyoneDegreesListRelease`, list.c:59-65, for the items: each is released through its own collection. -/
def releaseAll (fuel : Nat) : State → List Item → UB State
  | s, [] => some s
  | s, item :: items => (item.release fuel s).bind fun r => releaseAll fuel r.1 items

variable {file : CStr} {c : Coll} {cfg : Config} {h : Header} {read : Reader} {fuel capacity : Nat} {base s : State}
  {evs0 evs : List (Nat × Event UInt32 CStr)}

theorem releaseAll_spec (hc : Created file cfg h read c) : ∀ (hs : List (Item × CStr)) (s : State)
    (evs : List (Nat × Event UInt32 CStr)), Holding file c cfg h read fuel capacity base evs0 s evs hs →
    ∃ s' evs', releaseAll fuel s (hs.map (·.1)) = some s' ∧ Holding file c cfg h read fuel capacity base evs0 s' evs' []
  | [], s, evs, hd => ⟨s, evs, rfl, hd⟩
  | x :: hs, s, evs, hd => by
    obtain ⟨s1, item1, evs1, -, r1, -, -, r4⟩ := Holding.release (a := []) (b := hs) hc hd
    obtain ⟨s', evs', k1, k2⟩ := releaseAll_spec hc hs s1 evs1 r4
    refine ⟨s', evs', ?_, k2⟩
    rw [List.map_cons, releaseAll, r1]
    exact k1

theorem Holding.perm {hs hs' : List (Item × CStr)} (hd : Holding file c cfg h read fuel capacity base evs0 s evs hs)
    (hp : hs.Perm hs') : Holding file c cfg h read fuel capacity base evs0 s evs hs' := by
  have e : ∀ r, handles hs' r = handles hs r := fun r => (hp.countP_eq _).symm
  refine ⟨hd.start, hd.fresh, hd.next, fun x hx => hd.live x (hp.mem_iff.2 hx), ?_, ?_, ?_, ?_⟩
  · intro j; rw [e]; exact hd.once j
  · intro j; rw [e]; exact hd.new j
  · intro j; rw [e]; exact hd.rest j
  · intro hx
    obtain ⟨k1, k2, k3⟩ := hd.cache hx
    exact ⟨k1, k2, fun i n => by rw [e]; exact k3 i n⟩

/-- The count of key value pairs in front of a component's bytes, wherever they are. -/
theorem keyValuesCount_shown (d : Comp) (hf : Fits d) (tail : CStr) :
    Component.keyValuesCount (Component.encode d ++ tail) 0 = some d.pairs.length := by
  have := Component.keyValuesCount_encode [] tail d hf
  simpa using this

theorem listLoop_spec {pre post : CStr} {cs : List Comp} (hf : ∀ t ∈ cs, Fits t)
    (hlen : (cs.flatMap Component.encode).length < 2 ^ 31)
    (hfile : file = pre ++ (cs.flatMap Component.encode ++ post))
    (hh : h = ⟨pre.length, (cs.flatMap Component.encode).length, 0⟩)
    (hc : Created file cfg h componentReader c) (hr : Room cfg capacity base evs0 cs.length) {count : Nat} :
    ∀ (left k rounds : Nat) (s : State) (evs : List (Nat × Event UInt32 CStr)) (items : List Item),
      min count cs.length = k + left → left < rounds → items.length = k →
      Holding file c cfg h componentReader fuel capacity base evs0 s evs
        (items.zip ((cs.take k).map Component.encode)) →
      ∃ rounds' s' evs' items', rounds' + left = rounds ∧
        listLoop file fuel c count rounds s items (startOf Component.encode cs k) =
          listLoop file fuel c count rounds' s' items' (startOf Component.encode cs (k + left)) ∧
        items'.length = k + left ∧
        Holding file c cfg h componentReader fuel capacity base evs0 s' evs'
          (items'.zip ((cs.take (k + left)).map Component.encode)) := by
  intro left
  induction left with
  | zero =>
    intro k rounds s evs items _ _ hk hd
    exact ⟨rounds, s, evs, items, rfl, rfl, hk, hd⟩
  | succ left ih =>
    intro k rounds s evs items hmin hrounds hk hd
    obtain ⟨rounds, rfl⟩ : ∃ r, rounds = r + 1 := ⟨rounds - 1, by omega⟩
    have hkl : k < cs.length := by omega
    have hi : cs[k]? = some cs[k] := List.getElem?_eq_getElem hkl
    obtain ⟨w, hit⟩ := records (pre := pre) (post := post) (fun t h => sized_component (hf t h)) (show _ < 2 ^ 32 by omega)
    rw [← hfile, ← hh] at w hit
    have hle := startOf_le (enc := Component.encode) (rs := cs) k
    have hle2 := startOf_le (enc := Component.encode) (rs := cs) (k + 1)
    have hsucc := startOf_succ (enc := Component.encode) hi
    have hroom : Room cfg capacity base evs0 ((items.zip ((cs.take k).map Component.encode)).length + 1) := by
      intro hx i hi
      have := hr hx i hi
      rw [List.length_zip, List.length_map, List.length_take]
      omega
    obtain ⟨g, evs', g1, g2, g3⟩ := hd.get w hc hroom (hit k _ hi) (goodKey (by omega) (fun _ => by omega)) (item := Item.new)
      (fun _ => rfl) rfl
    have hzip : (items ++ [g.item]).zip ((cs.take (k + 1)).map Component.encode) =
        items.zip ((cs.take k).map Component.encode) ++ [(g.item, Component.encode cs[k])] := by
      rw [List.take_add_one, hi, List.map_append, List.zip_append (by rw [List.length_map, List.length_take]; omega)]
      rfl
    obtain ⟨rounds', s', evs'', items', q1, q2, q3, q4⟩ := ih (k + 1) rounds g.state evs' (items ++ [g.item]) (by omega) (by omega)
      (by simp [hk]) (by rw [hzip]; exact Holding.perm g3 (List.perm_append_comm (l₁ := [_])))
    refine ⟨rounds', s', evs'', items', by omega, ?_, by omega, ?_⟩
    · have e : k + (left + 1) = k + 1 + left := by omega
      rw [e, ← q2, listLoop, if_pos (by omega), g1]
      simp only
      obtain ⟨a1, a2, ref, b, a3, a4, a5⟩ := g2
      obtain ⟨tail, hb⟩ : ∃ tail, b = Component.encode cs[k] ++ tail :=
        ⟨b.drop (Component.encode cs[k]).length, by
          conv => lhs; rw [← List.take_append_drop (Component.encode cs[k]).length b, a5]⟩
      have hfit := hf cs[k] (List.getElem_mem hkl)
      rw [a1, a3]
      simp only [a4, Option.bind_some, hb, keyValuesCount_shown _ hfit]
      rw [Component.finalSize_eq _ hfit.count]
      have := Component.encode_length cs[k]
      congr 1
      omega
    · have e : k + (left + 1) = k + 1 + left := by omega
      rw [e]; exact q4

/-- C51: a list of as many components as there are is filled with one item for each, in order, from a collection of any kind
with room for them in its cache, if it has one; each item shows its component, and freeing the list gives everything back.
Missing: a cache with less room, see `C51_endless_violated`. -/
theorem C51_collection_partial {pre post : CStr} {cs : List Comp} (hf : ∀ t ∈ cs, Fits t)
    (hlen : (cs.flatMap Component.encode).length < 2 ^ 31) {count rounds : Nat} (hcount : count ≤ cs.length)
    (hrounds : count < rounds) :
    let file := pre ++ (cs.flatMap Component.encode ++ post)
    let h : Header := ⟨pre.length, (cs.flatMap Component.encode).length, 0⟩
    Created file cfg h componentReader c → (∀ j, s.heap.next ≤ j → s.heap.block j = none) →
    (second cfg = .cache → Reached file (fileColl h componentReader) fuel capacity s.cache evs) →
    Room cfg capacity s evs cs.length →
    ∃ s' items, initList file fuel c count rounds s = some (.ended s' items none) ∧ items.length = count ∧
      (∀ (i : Nat) (hi : i < items.length) (hj : i < cs.length), ∃ tail, bytesAt s' items[i] = some (Component.encode cs[i] ++ tail)) ∧
      ∃ s'', releaseAll fuel s' items = some s'' ∧ Kept file cfg h componentReader fuel capacity evs s s'' := by
  intro file h hc hfresh hcache hr
  have hd : Holding file c cfg h componentReader fuel capacity s evs s evs [] :=
    ⟨hfresh, hfresh, Nat.le_refl _, fun x hx => (nomatch hx), fun j => Nat.zero_le _, fun j hj => absurd rfl hj, fun j _ => rfl,
      fun hx => ⟨hcache hx, rfl, fun i n => rfl⟩⟩
  have hd0 : Holding file c cfg h componentReader fuel capacity s evs s evs
      (([] : List Item).zip ((cs.take 0).map Component.encode)) := hd
  obtain ⟨rounds', s', evs', items, h1, h2, h3, h4⟩ := listLoop_spec (pre := pre) (post := post) hf hlen rfl rfl hc hr
    (count := count) count 0 rounds s evs [] (by omega) hrounds rfl hd0
  obtain ⟨rounds', rfl⟩ : ∃ r, rounds' = r + 1 := ⟨rounds' - 1, by omega⟩
  rw [Nat.zero_add] at h2 h3 h4
  have hz : startOf Component.encode cs 0 = 0 := by simp [startOf]
  rw [hz] at h2
  refine ⟨s', items, ?_, h3, ?_, ?_⟩
  · rw [initList, h2, listLoop, if_neg (by omega)]
  · intro i hi hj
    have hm : (items[i], Component.encode cs[i]) ∈ items.zip ((cs.take count).map Component.encode) := by
      rw [List.mem_iff_getElem]
      exact ⟨i, by rw [List.length_zip, List.length_map, List.length_take]; omega, by simp⟩
    obtain ⟨ref, b, k1, k2, k3, -⟩ := h4.live _ hm
    refine ⟨b.drop (Component.encode cs[i]).length, ?_⟩
    rw [bytesAt, k1, Option.bind_some, k2]
    conv => lhs; rw [← List.take_append_drop (Component.encode cs[i]).length b, k3]
  · obtain ⟨s'', evs'', k1, k2⟩ := releaseAll_spec hc _ s' evs' h4
    rw [List.map_fst_zip (by rw [List.length_map, List.length_take]; omega)] at k1
    refine ⟨s'', k1, funext fun j => k2.rest j rfl, k2.next, fun hx => ?_⟩
    obtain ⟨r1, r2, r3⟩ := k2.cache hx
    exact ⟨r2, evs'', r1, fun j m => r3 j m⟩

/-- C51: asking for more components than there are ends with an exception, with the items of all of them. -/
theorem C51_collection_beyond {pre post : CStr} {cs : List Comp} (hf : ∀ t ∈ cs, Fits t)
    (hlen : (cs.flatMap Component.encode).length < 2 ^ 31) {count rounds : Nat} (hcount : cs.length < count)
    (hrounds : cs.length < rounds) :
    let file := pre ++ (cs.flatMap Component.encode ++ post)
    let h : Header := ⟨pre.length, (cs.flatMap Component.encode).length, 0⟩
    Created file cfg h componentReader c → (∀ j, s.heap.next ≤ j → s.heap.block j = none) →
    (second cfg = .cache → Reached file (fileColl h componentReader) fuel capacity s.cache evs) →
    Room cfg capacity s evs (cs.length + 1) →
    ∃ s' items, initList file fuel c count rounds s = some (.ended s' items (some .offsetOutOfRange)) ∧
      items.length = cs.length := by
  intro file h hc hfresh hcache hr
  have hd : Holding file c cfg h componentReader fuel capacity s evs s evs [] :=
    ⟨hfresh, hfresh, Nat.le_refl _, fun x hx => (nomatch hx), fun j => Nat.zero_le _, fun j hj => absurd rfl hj, fun j _ => rfl,
      fun hx => ⟨hcache hx, rfl, fun i n => rfl⟩⟩
  have hd0 : Holding file c cfg h componentReader fuel capacity s evs s evs
      (([] : List Item).zip ((cs.take 0).map Component.encode)) := hd
  obtain ⟨rounds', s', evs', items, h1, h2, h3, h4⟩ := listLoop_spec (pre := pre) (post := post) hf hlen rfl rfl hc
    (capacity := capacity) (base := s) (evs0 := evs) (fun hx i hi => by have := hr hx i hi; omega)
    (count := count) cs.length 0 rounds s evs [] (by omega) hrounds rfl hd0
  obtain ⟨rounds', rfl⟩ : ∃ r, rounds' = r + 1 := ⟨rounds' - 1, by omega⟩
  rw [Nat.zero_add] at h2 h3 h4
  have hz : startOf Component.encode cs 0 = 0 := by simp [startOf]
  have hend : startOf Component.encode cs cs.length = (cs.flatMap Component.encode).length := by rw [startOf, List.take_length]
  rw [hz, hend] at h2
  obtain ⟨w, -⟩ := records (pre := pre) (post := post) (fun t h => sized_component (hf t h)) (show _ < 2 ^ 32 by omega)
  have hkey : (UInt32.ofNat (cs.flatMap Component.encode).length).toNat = (cs.flatMap Component.encode).length := by
    rw [UInt32.toNat_ofNat']; omega
  have hk : second cfg = .cache → UInt32.ofNat (cs.flatMap Component.encode).length ≠ 0x80000000 :=
    goodKey (by omega) (fun _ => by omega)
  obtain ⟨g, g1, g2, g3, g4, g5⟩ := C13_outside_partial (capacity := capacity) (evs := evs') (s := s') w hc
    (key := UInt32.ofNat (cs.flatMap Component.encode).length) (show _ ≤ _ by rw [hkey]; exact Nat.le_refl _)
    (fun hx => ⟨(h4.cache hx).1, hk hx⟩) (item := Item.new) (fun _ => rfl)
  have he : g.err = some .offsetOutOfRange := by
    rcases g5 with h | ⟨a, b⟩
    · exact h
    · refine absurd b (h4.notFull ?_ hk a)
      intro hx i hi
      have := hr hx i hi
      rw [List.length_zip, List.length_map, List.length_take]
      omega
  refine ⟨g.state, items, ?_, h3⟩
  rw [initList, h2, listLoop, if_pos (by omega), g1]
  simp only [he]

/-- With two nodes the two components are listed, and with a file the same. -/
example : ([(⟨0, 2, 1⟩, 2), (⟨0, 0, 0⟩, 1)].map fun x : Config × Nat => (newState x.2).bind fun s =>
    (initList ([⟨1, 2, 3, [(4, 5)]⟩, ⟨9, 8, 7, []⟩].flatMap Component.encode) 12
      (made ([⟨1, 2, 3, [(4, 5)]⟩, ⟨9, 8, 7, []⟩].flatMap Component.encode) x.1 ⟨0, 30, 0⟩ componentReader) 2 3 s).bind fun r =>
        match r with
        | .running => none
        | .ended s items e => some (items.map (bytesAt s), e)) =
    List.replicate 2 (some ([some (Component.encode ⟨1, 2, 3, [(4, 5)]⟩), some (Component.encode ⟨9, 8, 7, []⟩)], none)) := by
  decide +kernel

/-! ## A cache with too few nodes -/

theorem getNextFree_none {V : Type} {fuel : Nat} {s s' : Cache.Shard V} (hn : Cache.getNextFree fuel s = some (s', none)) : s' = s := by
  rw [Cache.getNextFree] at hn
  split at hn
  · simp only [Option.bind_eq_bind, Option.bind_eq_some_iff] at hn
    obtain ⟨t, -, h2⟩ := hn
    cases h2
  · split at hn
    · cases hn; rfl
    · split at hn
      · simp only [Option.bind_eq_bind, Option.bind_eq_some_iff] at hn
        obtain ⟨t, -, t', -, h2⟩ := hn
        cases h2
      · cases hn

theorem load_none {V : Type} {fuel : Nat} {s s' : Cache.Shard V} {hash : Int} {v : V} {ok : Bool}
    (hl : Cache.load fuel s hash v ok = some (s', none)) : s' = s := by
  simp only [Cache.load, Option.bind_eq_bind, Option.bind_eq_some_iff] at hl
  obtain ⟨⟨s1, node⟩, h1, h2⟩ := hl
  cases node with
  | none => cases h2; exact getNextFree_none h1
  | some n =>
    simp only at h2
    split at h2
    · simp only [Option.bind_eq_some_iff] at h2
      obtain ⟨t, -, t', -, h3⟩ := h2
      cases h3
    · cases h2

/-- A get that finds all nodes held leaves the shard as it was. -/
theorem shardGet_full {K V : Type} {hash : K → Int} {fuel : Nat} {s s' : Cache.Shard V} {k k' : K} {v : V} {ok : Bool}
    (hg : Cache.shardGet hash fuel s k v ok = some (s', .full k')) : s' = s := by
  simp only [Cache.shardGet, Option.bind_eq_bind, Option.bind_eq_some_iff] at hg
  obtain ⟨p, -, h2⟩ := hg
  split at h2
  · cases h2
  · simp only [Option.bind_eq_some_iff] at h2
    obtain ⟨⟨s1, o⟩, h3, h4⟩ := h2
    cases o with
    | none => cases h4; exact load_none h3
    | some n => cases h4
  · cases h2

theorem cacheStep_full {c c' : Cache.Cache CStr} {k k' : UInt32} {v : CStr} {ok : Bool} {i : Nat}
    (hg : Cache.cacheStep keyHash fuel c (.get k v ok) = some (c', i, .full k')) :
    c'.shards = c.shards ∧ c'.concurrency = c.concurrency := by
  simp only [Cache.cacheStep, Option.bind_eq_bind, Option.bind_eq_some_iff] at hg
  obtain ⟨j, -, h2⟩ := hg
  split at h2
  · simp only [Option.bind_eq_some_iff] at h2
    obtain ⟨⟨s1, e⟩, h3, h4⟩ := h2
    simp only [Option.pure_def, Option.some.injEq, Prod.mk.injEq] at h4
    obtain ⟨rfl, rfl, rfl⟩ := h4
    have := shardGet_full h3
    subst this
    refine ⟨?_, rfl⟩
    funext x
    simp only [Cache.set]
    split
    · rename_i hx; rw [hx]
    · rfl
  · cases h2

/-- Only the shards decide what a get does. -/
theorem cacheStep_shards {c d : Cache.Cache CStr} (hs : d.shards = c.shards) (hc : d.concurrency = c.concurrency) {k : UInt32} {v : CStr}
    {ok : Bool} : (Cache.cacheStep keyHash fuel d (.get k v ok)).map (·.2) = (Cache.cacheStep keyHash fuel c (.get k v ok)).map (·.2) := by
  simp only [Cache.cacheStep, Option.bind_eq_bind, hs, hc]
  cases Cache.shardIndex c.concurrency (keyHash k) with
  | none => rfl
  | some j =>
    simp only [Option.bind_some]
    split
    · cases Cache.shardGet keyHash fuel (c.shards j.toNat) k v ok with
      | none => rfl
      | some r => rfl
    · rfl

/-- Once a get finds all nodes held, the loop never ends. -/
theorem listLoop_endless {f : FileColl} {count offset : Nat} {items : List Item} (hcount : items.length < count)
    {v : CStr} {e : Option Err} (hl : loader file f (UInt32.ofNat offset) = some (v, e)) {i : Nat} {k : UInt32} : ∀ (rounds : Nat) (s : State),
      (Cache.cacheStep keyHash fuel s.cache (.get (UInt32.ofNat offset) v e.isNone)).map (·.2) = some (i, .full k) →
      listLoop file fuel (.back .cache f) count rounds s items offset = some .running
  | 0, s, _ => rfl
  | rounds + 1, s, hs => by
    obtain ⟨⟨c', i', ev⟩, h1, h2⟩ := Option.map_eq_some_iff.1 hs
    simp only [Prod.mk.injEq] at h2
    obtain ⟨rfl, rfl⟩ := h2
    obtain ⟨k1, k2⟩ := cacheStep_full h1
    have q1 := listLoop_endless hcount hl rounds ⟨s.heap, c'⟩ (by rw [cacheStep_shards k1 k2]; exact hs)
    rw [listLoop, if_pos hcount, Coll.get, getBack, getFromCache, hl]
    simp only [h1, Option.map_some]
    exact q1

/-- Two components, of 19 and 11 bytes. -/
def twoComponents : CStr := [⟨1, 2, 3, [(4, 5)]⟩, ⟨9, 8, 7, []⟩].flatMap Component.encode

/-- C51 fails when the cache of the components has fewer nodes than there are components: with one node, filling a list with the
two components never ends, and does not report anything. -/
theorem C51_endless_violated :
    let c := made twoComponents ⟨0, 1, 1⟩ ⟨0, 30, 0⟩ componentReader
    ∃ s, newState 1 = some s ∧ ∀ rounds, initList twoComponents 12 c 2 rounds s = some .running := by
  intro c
  have hs : (newState 1).isSome := by decide +kernel
  obtain ⟨s, hs⟩ := Option.isSome_iff_exists.1 hs
  refine ⟨s, hs, ?_⟩
  intro rounds
  cases rounds with
  | zero => rfl
  | succ rounds =>
    have h1 : ((newState 1).bind fun s => (c.get twoComponents 12 s 0 Item.new).bind fun g =>
        (g.ptr.bind fun p => ((view g.state p).bind fun bytes => Component.keyValuesCount bytes 0)).map fun n =>
          (g.err, n)) = some (none, 1) := by decide +kernel
    have h2 : ((newState 1).bind fun s => (c.get twoComponents 12 s 0 Item.new).bind fun g =>
        (Cache.cacheStep keyHash 12 g.state.cache (.get 19 (Component.encode ⟨9, 8, 7, []⟩) true)).map (·.2)) =
          some (0, .full 19) := by decide +kernel
    have h3 : loader twoComponents (fileColl ⟨0, 30, 0⟩ componentReader) 19 = some (Component.encode ⟨9, 8, 7, []⟩, none) := by
      decide +kernel
    rw [hs, Option.bind_some] at h1 h2
    rw [Option.bind_eq_some_iff] at h1 h2
    obtain ⟨g, g1, g2⟩ := h1
    obtain ⟨g', g1', g3⟩ := h2
    rw [g1] at g1'
    cases g1'
    rw [Option.map_eq_some_iff] at g2
    obtain ⟨n, g4, g5⟩ := g2
    rw [Option.bind_eq_some_iff] at g4
    obtain ⟨p, g6, g7⟩ := g4
    simp only [Prod.mk.injEq] at g5
    obtain ⟨g5, rfl⟩ := g5
    have q1 := listLoop_endless (items := [g.item]) (count := 2) (by simp) (offset := 19) h3 rounds g.state g3
    rw [initList, listLoop, if_pos (by decide)]
    have e0 : UInt32.ofNat 0 = 0 := rfl
    rw [e0, g1]
    simp only [g5, g6, g7]
    exact q1

end Verif.Record
