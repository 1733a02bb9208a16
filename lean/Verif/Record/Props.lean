import Verif.Record.Lemmas

/-! # C72, C73 and more on C51: records in collections of any kind -/

namespace Verif.Record

open Verif.Collection
open Verif.Component (read16 read32 le16 le32 read16_le read32_le Comp Fits)
open Verif.Cache (Event eventsOf held)

/-! ## The data file format -/

/-- A string with its length before it; the text includes the terminating null. -/
def encodeString (text : CStr) : CStr := le16 text.length ++ text

/-- A profile. -/
structure Prof where
  component : UInt8
  id : Nat
  values : List Nat
deriving DecidableEq, Repr

/-- A profile with its values, as stored. -/
def encodeProfile (p : Prof) : CStr := [p.component] ++ le32 p.id ++ le32 p.values.length ++ p.values.flatMap le32

/-- A profile offset: the id of a profile, and where it is. -/
def encodeOffset (o : Nat × Nat) : CStr := le32 o.1 ++ le32 o.2

theorem le16_length (n : Nat) : (le16 n).length = 2 := rfl
theorem le32_length (n : Nat) : (le32 n).length = 4 := rfl

theorem encodeProfile_length (p : Prof) : (encodeProfile p).length = 9 + p.values.length * 4 := by
  simp only [encodeProfile, List.length_append, le32_length, flatMap_length_const (fun r _ => le32_length r), List.length_cons,
    List.length_nil]

theorem sized_string {text : CStr} (h : text.length < 2 ^ 15) : Sized encodeString 2 stringSize text := by
  have hl : (encodeString text).length = 2 + text.length := by rw [encodeString, List.length_append, le16_length]
  refine ⟨by omega, by omega, ?_⟩
  have hr := read16_le [] [] text.length (by omega)
  simp only [List.nil_append, List.append_nil, List.length_nil] at hr
  have ht : (encodeString text).take 2 = le16 text.length := List.take_left' rfl
  rw [ht, encodeString, stringSize]
  simp only [hr, Option.getD_some, if_pos h, List.length_append, le16_length]
  omega

theorem sized_component {c : Comp} (h : Fits c) : Sized Component.encode 11 componentSize c := by
  have hl := Component.encode_length c
  refine ⟨by omega, by omega, ?_⟩
  have hf := Component.finalSize_eq _ h.count
  have hk := read16_le ([c.id] ++ le32 c.name ++ le32 c.profile) [] c.pairs.length h.count
  have ht : (Component.encode c).take 11 = [c.id] ++ le32 c.name ++ le32 c.profile ++ le16 c.pairs.length := by
    exact List.take_left' rfl
  rw [ht, hl, componentSize, Component.keyValuesCount]
  rw [List.append_nil] at hk
  have e : ([c.id] ++ le32 c.name ++ le32 c.profile).length = 0 + 9 := rfl
  rw [e] at hk
  rw [hk]
  exact hf

theorem sized_profile {p : Prof} (h : (encodeProfile p).length < 2 ^ 32) : Sized encodeProfile 9 profileSize p := by
  have hl := encodeProfile_length p
  refine ⟨by omega, by omega, ?_⟩
  have hk := read32_le ([p.component] ++ le32 p.id) [] p.values.length (by omega)
  have ht : (encodeProfile p).take 9 = [p.component] ++ le32 p.id ++ le32 p.values.length := by
    exact List.take_left' rfl
  rw [ht, hl, profileSize]
  rw [List.append_nil] at hk
  have e : ([p.component] ++ le32 p.id).length = 5 := rfl
  rw [e] at hk
  rw [hk]
  simp only [Option.getD_some]
  omega

/-! ## C72: strings, components and profiles are got whole -/

/-- A get of the record with this key shows the bytes, and releasing what was got leaves everything as before. -/
def Gets (file : CStr) (cfg : Config) (h : Header) (read : Reader) (fuel capacity : Nat) (evs : List (Nat × Event UInt32 CStr))
    (c : Coll) (s : State) (item : Item) (key : UInt32) (bytes : CStr) : Prop :=
  ∃ g s' item', c.get file fuel s key item = some g ∧ Shows g bytes ∧ c.release fuel g.state g.item = some (s', item') ∧
    Kept file cfg h read fuel capacity evs s s'

/-- Where the record starts, as a key; not a key that the cache cannot take, see `C08_shard_violated`. -/
def GoodKey (cfg : Config) (n : Nat) : Prop := second cfg = .cache → n ≠ 2 ^ 31

theorem goodKey {n : Nat} (hn : n < 2 ^ 32) (h : GoodKey cfg n) : second cfg = .cache → UInt32.ofNat n ≠ 0x80000000 := by
  intro hc he
  apply h hc
  have := congrArg UInt32.toNat he
  rw [UInt32.toNat_ofNat'] at this
  have e : (0x80000000 : UInt32).toNat = 2 ^ 31 := rfl
  rw [e] at this
  omega

/-- C72: strings stored one after the other anywhere in the file are got whole by their offsets, from a collection of any
kind; a string is at most 32767 bytes long. Missing: a cache in which all nodes of a shard are held (`C13_full_violated`), and
the offset `0x80000000` when there is a cache. -/
theorem C72_string_partial {pre post : CStr} {texts : List CStr} (ht : ∀ t ∈ texts, t.length < 2 ^ 15)
    (hlen : (texts.flatMap encodeString).length < 2 ^ 32) {cfg : Config} {c : Coll} {fuel capacity : Nat} {s : State}
    {evs : List (Nat × Event UInt32 CStr)} {item : Item} (io : ItemOk cfg item) :
    let file := pre ++ (texts.flatMap encodeString ++ post)
    let h : Header := ⟨pre.length, (texts.flatMap encodeString).length, 0⟩
    Created file cfg h stringReader c → Ready file cfg h stringReader fuel capacity s evs →
    ∀ i t, texts[i]? = some t → GoodKey cfg (startOf encodeString texts i) →
      Gets file cfg h stringReader fuel capacity evs c s item (UInt32.ofNat (startOf encodeString texts i)) (encodeString t) := by
  intro file h hc rd i t hi hk
  obtain ⟨w, hit⟩ := records (pre := pre) (post := post) (fun t h => sized_string (ht t h)) hlen
  have hlt := startOf_le (enc := encodeString) (rs := texts) i
  obtain ⟨g, s', item', h1, h2, h3, -, -, h4⟩ := borrow w hc (hit i t hi) (goodKey (by omega) hk) rd io
  exact ⟨g, s', item', h1, h2, h3, h4⟩

/-- C72: the same for components with up to 65535 key value pairs. Missing: a cache in which all nodes of a shard are held. -/
theorem C72_component_partial {pre post : CStr} {cs : List Comp} (hf : ∀ t ∈ cs, Fits t)
    (hlen : (cs.flatMap Component.encode).length < 2 ^ 32) {cfg : Config} {c : Coll} {fuel capacity : Nat} {s : State}
    {evs : List (Nat × Event UInt32 CStr)} {item : Item} (io : ItemOk cfg item) :
    let file := pre ++ (cs.flatMap Component.encode ++ post)
    let h : Header := ⟨pre.length, (cs.flatMap Component.encode).length, 0⟩
    Created file cfg h componentReader c → Ready file cfg h componentReader fuel capacity s evs →
    ∀ i t, cs[i]? = some t → GoodKey cfg (startOf Component.encode cs i) →
      Gets file cfg h componentReader fuel capacity evs c s item (UInt32.ofNat (startOf Component.encode cs i))
        (Component.encode t) := by
  intro file h hc rd i t hi hk
  obtain ⟨w, hit⟩ := records (pre := pre) (post := post) (fun t h => sized_component (hf t h)) hlen
  have hlt := startOf_le (enc := Component.encode) (rs := cs) i
  obtain ⟨g, s', item', h1, h2, h3, -, -, h4⟩ := borrow w hc (hit i t hi) (goodKey (by omega) hk) rd io
  exact ⟨g, s', item', h1, h2, h3, h4⟩

/-- The number of values of every profile fits, if all profiles do. -/
theorem profile_fits {ps : List Prof} (hlen : (ps.flatMap encodeProfile).length < 2 ^ 32) {p : Prof} (hp : p ∈ ps) :
    (encodeProfile p).length < 2 ^ 32 := by
  obtain ⟨a, b, rfl⟩ := List.append_of_mem hp
  rw [List.flatMap_append, List.flatMap_cons, List.length_append, List.length_append] at hlen
  omega

/-- C72: the same for profiles with any number of values. Missing: a cache in which all nodes of a shard are held, and records
that are not well formed, see `C72_profile_violated`. -/
theorem C72_profile_partial {pre post : CStr} {ps : List Prof}
    (hlen : (ps.flatMap encodeProfile).length < 2 ^ 32) {cfg : Config} {c : Coll} {fuel capacity : Nat} {s : State}
    {evs : List (Nat × Event UInt32 CStr)} {item : Item} (io : ItemOk cfg item) :
    let file := pre ++ (ps.flatMap encodeProfile ++ post)
    let h : Header := ⟨pre.length, (ps.flatMap encodeProfile).length, 0⟩
    Created file cfg h profileReader c → Ready file cfg h profileReader fuel capacity s evs →
    ∀ i t, ps[i]? = some t → GoodKey cfg (startOf encodeProfile ps i) →
      Gets file cfg h profileReader fuel capacity evs c s item (UInt32.ofNat (startOf encodeProfile ps i)) (encodeProfile t) := by
  intro file h hc rd i t hi hk
  obtain ⟨w, hit⟩ := records (pre := pre) (post := post) (fun t h => sized_profile (profile_fits hlen h)) hlen
  have hlt := startOf_le (enc := encodeProfile) (rs := ps) i
  obtain ⟨g, s', item', h1, h2, h3, -, -, h4⟩ := borrow w hc (hit i t hi) (goodKey (by omega) hk) rd io
  exact ⟨g, s', item', h1, h2, h3, h4⟩

/-- Two strings, the second of them at the offset 5, in a collection without any loaded into memory. -/
example : ∀ c, Created ([7] ++ ([c!"ab\x00", c!"c\x00"].flatMap encodeString ++ [8])) ⟨0, 0, 0⟩ ⟨1, 9, 0⟩ stringReader c →
    ∃ g s' item', c.get ([7] ++ ([c!"ab\x00", c!"c\x00"].flatMap encodeString ++ [8])) 0
        ⟨⟨0, fun _ => none⟩, ⟨1, fun _ => someMemory, 0, 0⟩⟩ 5 Item.new = some g ∧ Shows g [2, 0, 99, 0] ∧
      c.release 0 g.state g.item = some (s', item') := by
  intro c hc
  obtain ⟨g, s', item', h1, h2, h3, -⟩ := C72_string_partial (pre := [7]) (post := [8]) (texts := [c!"ab\x00", c!"c\x00"])
    (by decide) (by decide) (cfg := ⟨0, 0, 0⟩) (capacity := 0) (evs := []) (fuel := 0)
    (s := ⟨⟨0, fun _ => none⟩, ⟨1, fun _ => someMemory, 0, 0⟩⟩) (item := Item.new) ⟨fun _ => rfl, rfl⟩ hc
    ⟨fun _ _ => rfl, fun hx => by cases hx⟩ 1 _ rfl (fun hx => by cases hx)
  exact ⟨g, s', item', h1, h2, h3⟩

/-- Components of different lengths and profiles of different lengths are where the theorems say. -/
example : Fits ⟨1, 2, 3, [(4, 5), (6, 7)]⟩ ∧ startOf Component.encode [⟨1, 2, 3, [(4, 5), (6, 7)]⟩, ⟨9, 8, 7, []⟩] 1 = 27 ∧
    startOf encodeProfile [⟨0, 12, [1, 2]⟩, ⟨1, 3, []⟩, ⟨1, 7, [5]⟩] 2 = 26 := by
  refine ⟨⟨by decide, by decide⟩, by decide, by decide⟩

/-- C72 fails for a string with the length −1 or −2 in the file: the two bytes of the length are written to memory
of one byte or none. -/
theorem C72_string_violated (pre post : CStr) (low : UInt8) (hlow : low = 254 ∨ low = 255) (size : Nat) (hs : 0 < size)
    (heap : Heap) : getFile (pre ++ ([low, 255] ++ post)) ⟨pre.length, size, 0, 0, stringReader⟩ heap 0 Item.new = none := by
  have hsl : slice (pre ++ ([low, 255] ++ post)) (pre.length + (0 : UInt32).toNat) 2 = some [low, 255] := by
    rw [slice, if_pos (by simp)]
    simp
  refine C13_short_violated (f := ⟨pre.length, size, 0, 0, stringReader⟩) rfl heap (key := 0) hs hsl ?_ rfl
  rcases hlow with rfl | rfl <;> decide

/-- A string with a length below −2 is asked for as one of nearly 4 GiB; there is an exception if the file is not that
large. -/
theorem C72_string_negative (pre post : CStr) (low high : UInt8) (hh : 128 ≤ high.toNat) (hl : high.toNat * 256 + low.toNat < 65534)
    (hpost : (pre ++ ([low, high] ++ post)).length < 2 ^ 32 - 2 ^ 15) (size : Nat) (hs : 0 < size) (heap : Heap) :
    ∃ h' item', getFile (pre ++ ([low, high] ++ post)) ⟨pre.length, size, 0, 0, stringReader⟩ heap 0 Item.new =
      some (h', item', none, some .fileReadFail) := by
  have hsl : slice (pre ++ ([low, high] ++ post)) (pre.length + 0) 2 = some [low, high] := by
    rw [slice, if_pos (by simp)]
    simp
  have hr : read16 [low, high] 0 = some (low.toNat + 256 * high.toNat) := rfl
  have hlow := low.toNat_lt
  have hhigh := high.toNat_lt
  have hsz : stringSize [low, high] = 2 ^ 32 + 2 - (2 ^ 16 - (low.toNat + 256 * high.toNat)) := by
    rw [stringSize]
    simp only [hr, Option.getD_some]
    rw [if_neg (by omega)]
    omega
  rw [getFile, readItem]
  simp only [stringReader]
  rw [readVariable]
  simp only
  have hz : (0 : UInt32).toNat = 0 := rfl
  rw [hz, if_pos hs, readVariableAt, hz]
  simp only [hsl]
  rw [dataMalloc_clean rfl]
  simp only [Heap.malloc, Heap.write, if_true, List.length_replicate]
  rw [if_pos (by simp only [List.length_cons, List.length_nil]; omega)]
  have h2 : 2 ≤ stringSize [low, high] := by omega
  simp only [sub32, if_pos h2]
  rw [if_pos (by omega)]
  have hno : slice (pre ++ ([low, high] ++ post)) (pre.length + 0 + 2) (stringSize [low, high] - 2) = none := by
    rw [slice, if_neg (by omega)]
  rw [hno]
  simp only [Heap.free, if_true]
  exact ⟨_, _, rfl⟩

/-- C72 fails for a profile which says that it has 2^30 values: only the 9 bytes of its header are read, and there is no
exception, so that its first value is read outside of the memory. -/
theorem C72_profile_violated :
    let c := made [1, 5, 0, 0, 0, 0, 0, 0, 64] ⟨0, 0, 0⟩ ⟨0, 9, 0⟩ profileReader
    ((c.get [1, 5, 0, 0, 0, 0, 0, 0, 64] 0 ⟨⟨0, fun _ => none⟩, ⟨1, fun _ => someMemory, 0, 0⟩⟩ 0 Item.new).bind fun g =>
      (bytesAt g.state g.item).map fun b => (g.err, read32 b 5, b.length, read32 b 9)) =
    some (none, some (2 ^ 30), 9, none) := by
  decide +kernel

/-! ### Integers -/

/-- C72: an integer of a collection of integers is the one stored, and the item is released. Missing: a cache in which all nodes
of a shard are held. -/
theorem C72_integer_partial {pre post : CStr} {vs : List UInt32} (hne : vs ≠ [])
    (hlen : (vs.flatMap fun v => le32 v.toNat).length < 2 ^ 32) {cfg : Config} {c : Coll} {fuel capacity : Nat} {s : State}
    {evs : List (Nat × Event UInt32 CStr)} :
    let file := pre ++ ((vs.flatMap fun v => le32 v.toNat) ++ post)
    let h : Header := ⟨pre.length, (vs.flatMap fun v => le32 v.toNat).length, vs.length⟩
    Created file cfg h .fixed c → Ready file cfg h .fixed fuel capacity s evs →
    ∀ i v, vs[i]? = some v → GoodKey cfg i →
      ∃ s', getInteger32 file fuel c s (UInt32.ofNat i) = some (v.toInt32.toInt, s', none) ∧
        Kept file cfg h .fixed fuel capacity evs s s' := by
  intro file h hc rd i v hi hk
  obtain ⟨w, hit⟩ := fixedRecords (pre := pre) (post := post) (enc := fun v : UInt32 => le32 v.toNat) (k := 4) (by omega) hne
    (fun v _ => rfl) hlen
  have hlt := (List.getElem?_eq_some_iff.1 hi).1
  have hl := flatMap_length_const (rs := vs) (enc := fun v : UInt32 => le32 v.toNat) (k := 4) (fun v _ => rfl)
  obtain ⟨g, s', item', h1, h2, h3, -, -, h4⟩ := borrow w hc (hit i v hi) (goodKey (by omega) hk) rd
    (item := Item.new) ⟨fun _ => rfl, rfl⟩
  obtain ⟨tail, h5⟩ := Shows.bytesAt h2
  obtain ⟨q1, -, ref, -, q2, -⟩ := h2
  refine ⟨s', ?_, h4⟩
  have hr := read32_le [] tail v.toNat v.toNat_lt
  simp only [List.nil_append, List.length_nil] at hr
  have hv : Component.toInt32 v.toNat = v.toInt32.toInt := by
    have h6 := v.toNat_lt
    have h7 : v.toInt32.toInt = (v.toNat : Int).bmod (2 ^ 32) := by
      rw [UInt32.toInt32, ← Int32.toInt_toBitVec]
      exact BitVec.toInt_eq_toNat_bmod _
    rw [h7, Component.toInt32, Int.bmod_def]
    split <;> split <;> omega
  rw [getInteger32, h1]
  simp only [q2, h5, Option.bind_eq_bind, Option.bind_some, hr, h3, q1, hv]

/-- Outside of the collection the integer is 0, and there is an exception. -/
theorem C72_integer_outside {file : CStr} {h : Header} {read : Reader} (w : WellFormed file h read) {cfg : Config}
    {c : Coll} (hc : Created file cfg h read c) {key : UInt32} (hn : NotIn h key read) {fuel capacity : Nat}
    {s : State} {evs : List (Nat × Event UInt32 CStr)} (hk : second cfg = .cache → key ≠ 0x80000000)
    (rd : Ready file cfg h read fuel capacity s evs) :
    ∃ s', getInteger32 file fuel c s key = some (0, s', some (wantedError read)) ∧ s'.heap = s.heap := by
  obtain ⟨g, g1, g2, g3, g4, g5⟩ := C13_outside_partial w hc hn (fun hx => ⟨(rd.2 hx).1, hk hx⟩) (item := Item.new) (fun _ => rfl)
  have he : g.err = some (wantedError read) := by
    rcases g5 with h | ⟨a, b⟩
    · exact h
    · exact absurd b (notFull rd hk a)
  refine ⟨g.state, ?_, g3⟩
  rw [getInteger32, g1]
  simp only [g4 rfl, he]

/-! ## C73: profiles by id and by index -/

theorem read_offset (o : Nat × Nat) (h1 : o.1 < 2 ^ 32) (h2 : o.2 < 2 ^ 32) (tail : CStr) :
    read32 (encodeOffset o ++ tail) 0 = some o.1 ∧ read32 (encodeOffset o ++ tail) 4 = some o.2 := by
  have e1 := read32_le [] (le32 o.2 ++ tail) o.1 h1
  have e2 := read32_le (le32 o.1) tail o.2 h2
  simp only [List.nil_append, List.length_nil, le32_length] at e1 e2
  simp only [encodeOffset, List.append_assoc]
  exact ⟨e1, e2⟩

/-- The table of profile offsets is sorted by id, its numbers fit, and each entry is for a profile of the list. -/
structure Table (ps : List Prof) (tab : List (Nat × Nat)) : Prop where
  sorted : tab.Pairwise fun a b => a.1 < b.1
  fits : ∀ o ∈ tab, o.1 < 2 ^ 32 ∧ o.2 < 2 ^ 32
  points : ∀ o ∈ tab, ∃ i p, ps[i]? = some p ∧ p.id = o.1 ∧ o.2 = startOf encodeProfile ps i

theorem table_search {tab : List (Nat × Nat)} (hsort : tab.Pairwise fun a b => a.1 < b.1)
    (hfit : ∀ o ∈ tab, o.1 < 2 ^ 32 ∧ o.2 < 2 ^ 32) (hne : tab ≠ []) (hlen : tab.length < 2 ^ 32) (id rounds : Nat)
    (hr : tab.length + 1 ≤ rounds) :
    ∃ out, Search.loop (listColl (tab.map encodeOffset) fun b => ((compareProfileId id b).getD 0)) rounds 0 (tab.length - 1) [] =
      some out ∧ out.error = false ∧
      ((∃ (i : Nat) (o : Nat × Nat), out.ret = (i : Int) ∧ out.held = some i ∧ tab[i]? = some o ∧ o.1 = id) ∨
       (out.ret = -1 ∧ out.held = none ∧ ∀ o ∈ tab, o.1 ≠ id)) := by
  have hpos : 0 < tab.length := List.length_pos_iff.2 hne
  have hat : ∀ i o, tab[i]? = some o →
      Search.at? (listColl (tab.map encodeOffset) fun b => ((compareProfileId id b).getD 0)) i =
        some (Profile.compareId id o.1) := by
    intro i o hi
    have hm := hfit o (List.mem_of_getElem? hi)
    have := (read_offset o hm.1 hm.2 []).1
    rw [List.append_nil] at this
    simp only [Search.at?, listColl, List.getElem?_map, hi, Option.map_some, Option.bind_some, compareProfileId, this,
      Option.getD_some]
  have hord : Search.Ordered (listColl (tab.map encodeOffset) fun b => ((compareProfileId id b).getD 0)) 0 (tab.length - 1) := by
    refine ⟨?_, ?_⟩
    · intro i _ h2
      exact ⟨_, hat i _ (List.getElem?_eq_getElem (by omega))⟩
    · intro i j r s _ h2 h3 h4 h5
      have hi : i < tab.length := by omega
      have hj : j < tab.length := by omega
      rw [hat i _ (List.getElem?_eq_getElem hi)] at h4
      rw [hat j _ (List.getElem?_eq_getElem hj)] at h5
      cases h4
      cases h5
      have hle : tab[i].1 ≤ tab[j].1 := by
        rcases Nat.lt_or_eq_of_le h2 with hlt | rfl
        · exact Nat.le_of_lt (List.pairwise_iff_getElem.1 hsort i j hi hj hlt)
        · exact Nat.le_refl _
      simp only [Profile.compareId]
      constructor
      · intro h; split at h <;> split <;> (try split) <;> omega
      · intro h
        split at h
        · omega
        · split at h
          · rw [if_neg (by omega), if_pos (by omega)]; omega
          · omega
  obtain ⟨out, o1, o2, -, o3⟩ := Search.C14_search_partial _ 0 (tab.length - 1) hord (by omega) rounds (by omega)
  refine ⟨out, o1, o2, ?_⟩
  have hzero : ∀ i o, tab[i]? = some o →
      (Search.at? (listColl (tab.map encodeOffset) fun b => ((compareProfileId id b).getD 0)) i = some 0 ↔ o.1 = id) := by
    intro i o hi
    rw [hat i o hi]
    simp only [Option.some.injEq, Profile.compareId]
    split
    · constructor <;> intro h <;> omega
    · split <;> constructor <;> intro h <;> omega
  rcases o3 with ⟨i, a1, -, a2, a3, a4⟩ | ⟨a1, a2, a3⟩
  · have hi : tab[i]? = some tab[i] := List.getElem?_eq_getElem (by omega)
    exact .inl ⟨i, _, a1, a4, hi, (hzero i _ hi).1 a3⟩
  · refine .inr ⟨a1, a2, ?_⟩
    intro o ho he
    obtain ⟨i, hi, rfl⟩ := List.mem_iff_getElem.1 ho
    exact a3 i (by omega) (by omega) ((hzero i _ (List.getElem?_eq_getElem hi)).2 he)

/-- C73: the offset of a profile is found by its id in a collection of any kind, all items got on the way are given back, and an
id which is not there gives none, and no exception. Missing: a cache in which all nodes of a shard are held, see
`C73_wrong_violated`. -/
theorem C73_offset_partial {pre post : CStr} {tab : List (Nat × Nat)} (hsort : tab.Pairwise fun a b => a.1 < b.1)
    (hfit : ∀ o ∈ tab, o.1 < 2 ^ 32 ∧ o.2 < 2 ^ 32) (hne : tab ≠ [])
    (hlen : (tab.flatMap encodeOffset).length < 2 ^ 32) {cfg : Config} (hkey : second cfg = .cache → tab.length ≤ 2 ^ 31)
    {c : Coll} {fuel capacity : Nat} {s : State} {evs : List (Nat × Event UInt32 CStr)} {id rounds : Nat} (hid : id ≠ 0)
    (hr : tab.length + 1 ≤ rounds) :
    let file := pre ++ (tab.flatMap encodeOffset ++ post)
    let h : Header := ⟨pre.length, (tab.flatMap encodeOffset).length, tab.length⟩
    Created file cfg h .fixed c → Ready file cfg h .fixed fuel capacity s evs →
    ∃ r s', offsetForId file fuel c rounds s id = some (r, s', none) ∧ Kept file cfg h .fixed fuel capacity evs s s' ∧
      ((∃ o, (id, o) ∈ tab ∧ r = some o) ∨ ((∀ o, (id, o) ∉ tab) ∧ r = none)) := by
  intro file h hc rd
  obtain ⟨w, hit⟩ := fixedRecords (pre := pre) (post := post) (enc := encodeOffset) (k := 8) (by omega) hne
    (fun v _ => rfl) hlen
  have hl := flatMap_length_const (rs := tab) (enc := encodeOffset) (k := 8) (fun v _ => rfl)
  have hpos : 0 < tab.length := List.length_pos_iff.2 hne
  obtain ⟨out, o1, o2, o3⟩ := table_search hsort hfit hne (by omega) id rounds hr
  have hitems : ∀ i b, (tab.map encodeOffset)[i]? = some b → IsItem file h (UInt32.ofNat i) b .fixed := by
    intro i b hb
    rw [List.getElem?_map, Option.map_eq_some_iff] at hb
    obtain ⟨o, h1, rfl⟩ := hb
    exact hit i o h1
  have hcmp : ∀ b tail, b ∈ tab.map encodeOffset → compareProfileId id (b ++ tail) = some ((compareProfileId id b).getD 0) := by
    intro b tail hb
    obtain ⟨o, h1, rfl⟩ := List.mem_map.1 hb
    have hm := hfit o h1
    have e1 := (read_offset o hm.1 hm.2 tail).1
    have e2 := (read_offset o hm.1 hm.2 []).1
    rw [List.append_nil] at e2
    simp only [compareProfileId, e1, e2, Option.map_some, Option.getD_some]
  obtain ⟨s', item', p1, p2⟩ := searchLoop_spec w hc hitems (by simpa using hkey) hcmp rounds s evs Item.new 0 (tab.length - 1) []
    out rd ⟨fun _ => rfl, rfl⟩ o1 o2
  have hcount : c.getCount = tab.length := C13_count w hc
  have hu : (c.getCount + (2 ^ 32 - 1)) % 2 ^ 32 = tab.length - 1 := by rw [hcount]; omega
  rw [offsetForId, if_neg hid, hu, search, p1]
  simp only
  rcases o3 with ⟨i, o, a1, a2, a3, a4⟩ | ⟨a1, a2, a3⟩
  · rcases p2 with ⟨b1, -⟩ | ⟨i', b, tail, s'', item'', b1, b2, b3, b4, b5⟩
    · rw [a2] at b1; cases b1
    · rw [a2] at b1
      cases b1
      rw [List.getElem?_map, a3] at b2
      cases b2
      have hmem := List.mem_of_getElem? a3
      have hm := hfit o hmem
      have e2 := (read_offset o hm.1 hm.2 tail).2
      rw [if_pos (by rw [a1]; omega)]
      simp only [b3, Option.bind_eq_bind, Option.bind_some, e2, b4]
      refine ⟨_, _, rfl, b5, .inl ⟨o.2, ?_, rfl⟩⟩
      rw [← a4]
      exact hmem
  · rcases p2 with ⟨b1, b2⟩ | ⟨i', b, tail, s'', item'', b1, -⟩
    · rw [if_neg (by rw [a1]; omega)]
      exact ⟨_, _, rfl, b2, .inr ⟨fun o ho => a3 _ ho rfl, rfl⟩⟩
    · rw [a2] at b1; cases b1

/-- The data file holds the table of offsets and the profiles, in any two places. -/
structure Holds (file : CStr) (ps : List Prof) (tab : List (Nat × Nat)) (h h2 : Header) : Prop where
  offsets : ∃ pre post, file = pre ++ (tab.flatMap encodeOffset ++ post) ∧
    h = ⟨pre.length, (tab.flatMap encodeOffset).length, tab.length⟩
  profiles : ∃ pre post, file = pre ++ (ps.flatMap encodeProfile ++ post) ∧
    h2 = ⟨pre.length, (ps.flatMap encodeProfile).length, 0⟩
  small : (tab.flatMap encodeOffset).length < 2 ^ 32 ∧ (ps.flatMap encodeProfile).length < 2 ^ 31

theorem prof_key {ps : List Prof} (i : Nat)
    (hs : (ps.flatMap encodeProfile).length < 2 ^ 31) : startOf encodeProfile ps i < 2 ^ 31 := by
  have := startOf_le (enc := encodeProfile) (rs := ps) i
  omega

/-- Getting a profile by the offset of the table. -/
theorem get_profile {file : CStr} {ps : List Prof} {tab : List (Nat × Nat)} {h h2 : Header} (hh : Holds file ps tab h h2)
    (ht : Table ps tab) {cfg : Config} {c : Coll} (hc : Created file cfg h2 profileReader c) {fuel capacity : Nat} {t : State}
    {evs : List (Nat × Event UInt32 CStr)} (rd : Ready file cfg h2 profileReader fuel capacity t evs) {item : Item}
    (io : ItemOk cfg item) {o : Nat × Nat} (ho : o ∈ tab) :
    ∃ p g t' item', p ∈ ps ∧ p.id = o.1 ∧ c.get file fuel t (UInt32.ofNat o.2) item = some g ∧ Shows g (encodeProfile p) ∧
      c.release fuel g.state g.item = some (t', item') ∧ Kept file cfg h2 profileReader fuel capacity evs t t' := by
  obtain ⟨i, p, h1, h3, h4⟩ := ht.points o ho
  obtain ⟨pre, post, rfl, rfl⟩ := hh.profiles
  have hs := hh.small.2
  obtain ⟨g, t', item', g1, g2, g3, g4⟩ := C72_profile_partial (pre := pre) (post := post) (by omega) io hc rd i p h1
    (fun _ => by have := prof_key i hs; omega)
  rw [← h4] at g1
  exact ⟨p, g, t', item', List.mem_of_getElem? h1, h3, g1, g2, g3, g4⟩

/-- C73: getting a profile by its id gives the profile with that id, whole, from collections of any kind, and gives back
all that was needed to find it. An id that is not there gives no profile, and no exception; the id 0 gives an exception.
Missing: a cache in which all nodes of a shard are held, see `C73_wrong_violated`; an empty table, see `C30_violated`. -/
theorem C73_id_partial {file : CStr} {ps : List Prof} {tab : List (Nat × Nat)} {h h2 : Header} (hh : Holds file ps tab h h2)
    (ht : Table ps tab) (hne : tab ≠ []) {cfg cfg2 : Config} {c c2 : Coll} (hc : Created file cfg h .fixed c)
    (hc2 : Created file cfg2 h2 profileReader c2) {fuel capacity capacity2 : Nat} {s t : State}
    {evs evs2 : List (Nat × Event UInt32 CStr)} (rd : Ready file cfg h .fixed fuel capacity s evs)
    (rd2 : Ready file cfg2 h2 profileReader fuel capacity2 t evs2) {item : Item} (io : ItemOk cfg2 item) {id rounds : Nat}
    (hr : tab.length + 1 ≤ rounds) :
    ∃ r, getByProfileId file fuel c c2 rounds s t id item = some r ∧ Kept file cfg h .fixed fuel capacity evs s r.offsets ∧
      (id = 0 → r.profile = none ∧ r.err = some .profileEmpty) ∧
      (id ≠ 0 → r.err = none ∧
        ((∀ o, (id, o) ∉ tab) → r.profile = none) ∧
        (∀ o, (id, o) ∈ tab → ∃ p g t' item', p ∈ ps ∧ p.id = id ∧ r.profile = some g ∧ Shows g (encodeProfile p) ∧
          c2.release fuel g.state g.item = some (t', item') ∧ Kept file cfg2 h2 profileReader fuel capacity2 evs2 t t')) := by
  by_cases hid : id = 0
  · refine ⟨⟨s, none, some .profileEmpty⟩, ?_, Kept.refl rd, fun _ => ⟨rfl, rfl⟩, fun hx => absurd hid hx⟩
    rw [getByProfileId, offsetForId, if_pos hid]
  · obtain ⟨pre, post, hf, hhd⟩ := hh.offsets
    have hl := flatMap_length_const (rs := tab) (enc := encodeOffset) (k := 8) (fun v _ => rfl)
    have hsm := hh.small.1
    subst hhd
    subst hf
    obtain ⟨r, s', r1, r2, r3⟩ := C73_offset_partial (pre := pre) (post := post) ht.sorted ht.fits hne hsm
      (fun _ => by omega) hid hr hc rd
    rw [getByProfileId, r1]
    rcases r3 with ⟨o, q1, rfl⟩ | ⟨q1, rfl⟩
    · obtain ⟨p, g, t', item', g1, g2, g3, g4, g5, g6⟩ := get_profile hh ht hc2 rd2 io q1
      refine ⟨⟨s', some g, none⟩, ?_, r2, fun hx => absurd hx hid, fun _ => ⟨rfl, fun hx => absurd q1 (hx o), ?_⟩⟩
      · simp only [g3, Option.map_some, g4.1, Option.map_none]
      · intro o' _
        exact ⟨p, g, t', item', g1, g2, rfl, g4, g5, g6⟩
    · exact ⟨⟨s', none, none⟩, rfl, r2, fun hx => absurd hx hid,
        fun _ => ⟨rfl, fun _ => rfl, fun o ho => absurd ho (q1 o)⟩⟩

/-- C73: an offset in the table that is outside of the profiles is reported, when the profile is got by its id, and no pointer is
given. Missing: a cache in which all nodes of a shard are held. -/
theorem C73_id_outside_partial {file : CStr} {ps : List Prof} {tab : List (Nat × Nat)} {h h2 : Header} (hh : Holds file ps tab h h2)
    (hsort : tab.Pairwise fun a b => a.1 < b.1) (hfit : ∀ o ∈ tab, o.1 < 2 ^ 32 ∧ o.2 < 2 ^ 32) {cfg cfg2 : Config} {c c2 : Coll}
    (hc : Created file cfg h .fixed c) (hc2 : Created file cfg2 h2 profileReader c2) {fuel capacity capacity2 : Nat} {s t : State}
    {evs evs2 : List (Nat × Event UInt32 CStr)} (rd : Ready file cfg h .fixed fuel capacity s evs)
    (rd2 : Ready file cfg2 h2 profileReader fuel capacity2 t evs2) {item : Item} (h0 : item.allocated = 0) (hp : item.ptr = none)
    {id rounds : Nat} (hid : id ≠ 0) (hr : tab.length + 1 ≤ rounds) {o : Nat} (ho : (id, o) ∈ tab)
    (hout : (ps.flatMap encodeProfile).length ≤ o) (hk : second cfg2 = .cache → o ≠ 0x80000000) :
    ∃ r g, getByProfileId file fuel c c2 rounds s t id item = some r ∧ Kept file cfg h .fixed fuel capacity evs s r.offsets ∧
      r.err = some (.collection .offsetOutOfRange) ∧ r.profile = some g ∧ g.ptr = none ∧ g.item.handle = none ∧
      g.state.heap = t.heap := by
  have ho2 := (hfit _ ho).2
  have hkey : (UInt32.ofNat o).toNat = o := by rw [UInt32.toNat_ofNat']; exact Nat.mod_eq_of_lt ho2
  have hk' : second cfg2 = .cache → UInt32.ofNat o ≠ 0x80000000 := fun hx e => hk hx (by rw [← hkey, e]; rfl)
  obtain ⟨g, g1, g2, g3, g4, g5⟩ : ∃ g, c2.get file fuel t (UInt32.ofNat o) item = some g ∧ g.err = some .offsetOutOfRange ∧
      g.ptr = none ∧ g.item.handle = none ∧ g.state.heap = t.heap := by
    obtain ⟨pre, post, hf, hhd⟩ := hh.profiles
    have hsm := hh.small.2
    subst hhd
    subst hf
    obtain ⟨w, -⟩ := records (pre := pre) (post := post) (enc := encodeProfile) (rs := ps) (n := 9) (g := profileSize)
      (fun t h => sized_profile (profile_fits (by omega) h)) (by omega)
    obtain ⟨g, a1, a2, a3, a4, a5⟩ := C13_outside_partial (read := profileReader) w hc2 (key := UInt32.ofNat o)
      (show _ ≤ _ by rw [hkey]; exact hout) (fun hx => ⟨(rd2.2 hx).1, hk' hx⟩) (item := item) (fun _ => h0)
    refine ⟨g, a1, ?_, a4 hp, a2, a3⟩
    rcases a5 with h | ⟨a, b⟩
    · exact h
    · exact absurd b (notFull rd2 hk' a)
  obtain ⟨pre, post, hf, hhd⟩ := hh.offsets
  have hl := flatMap_length_const (rs := tab) (enc := encodeOffset) (k := 8) (fun v _ => rfl)
  have hsm := hh.small.1
  subst hhd
  subst hf
  obtain ⟨r, s', r1, r2, r3⟩ := C73_offset_partial (pre := pre) (post := post) hsort hfit (List.ne_nil_of_mem ho) hsm
    (fun _ => by omega) hid hr hc rd
  have : r = some o := by
    rcases r3 with ⟨o', q1, rfl⟩ | ⟨q1, -⟩
    · obtain ⟨i, hi, e1⟩ := List.getElem_of_mem q1
      obtain ⟨j, hj, e2⟩ := List.getElem_of_mem ho
      rcases Nat.lt_trichotomy i j with hlt | rfl | hlt
      · have := List.pairwise_iff_getElem.1 hsort i j hi hj hlt
        rw [e1, e2] at this
        exact absurd this (Nat.lt_irrefl _)
      · rw [e1] at e2
        cases e2
        rfl
      · have := List.pairwise_iff_getElem.1 hsort j i hj hi hlt
        rw [e1, e2] at this
        exact absurd this (Nat.lt_irrefl _)
    · exact absurd ho (q1 o)
  subst this
  refine ⟨⟨s', some g, some (.collection .offsetOutOfRange)⟩, g, ?_, r2, rfl, rfl, g3, g4, g5⟩
  rw [getByProfileId, r1]
  simp only [g1, g2, Option.map_some]

/-- C73: getting a profile by the index of its offset gives the profile, and gives back the item of the offset. Missing: a cache
in which all nodes of a shard are held. -/
theorem C73_index_partial {file : CStr} {ps : List Prof} {tab : List (Nat × Nat)} {h h2 : Header} (hh : Holds file ps tab h h2)
    (ht : Table ps tab) {cfg cfg2 : Config} {c c2 : Coll} (hc : Created file cfg h .fixed c)
    (hc2 : Created file cfg2 h2 profileReader c2) {fuel capacity capacity2 : Nat} {s t : State}
    {evs evs2 : List (Nat × Event UInt32 CStr)} (rd : Ready file cfg h .fixed fuel capacity s evs)
    (rd2 : Ready file cfg2 h2 profileReader fuel capacity2 t evs2) {item : Item} (io : ItemOk cfg2 item) {i : Nat} {o : Nat × Nat}
    (hi : tab[i]? = some o) :
    ∃ r p g t' item', getByIndex file fuel c c2 s t (UInt32.ofNat i) item = some r ∧
      Kept file cfg h .fixed fuel capacity evs s r.offsets ∧ r.err = none ∧ r.profile = some g ∧ p ∈ ps ∧ p.id = o.1 ∧
      Shows g (encodeProfile p) ∧
      c2.release fuel g.state g.item = some (t', item') ∧ Kept file cfg2 h2 profileReader fuel capacity2 evs2 t t' := by
  obtain ⟨p, g, t', item', g1, g2, g3, g4, g5, g6⟩ := get_profile hh ht hc2 rd2 io (List.mem_of_getElem? hi)
  obtain ⟨pre, post, hf, hhd⟩ := hh.offsets
  have hl := flatMap_length_const (rs := tab) (enc := encodeOffset) (k := 8) (fun v _ => rfl)
  have hsm := hh.small.1
  have hlt := (List.getElem?_eq_some_iff.1 hi).1
  subst hhd
  subst hf
  obtain ⟨w, hit⟩ := fixedRecords (pre := pre) (post := post) (enc := encodeOffset) (k := 8) (by omega)
    (List.ne_nil_of_mem (List.mem_of_getElem? hi)) (fun v _ => rfl) hsm
  obtain ⟨q, s', item1, q1, q2, q3, -, -, q4⟩ := borrow w hc (hit i o hi)
    (goodKey (by omega) (fun _ => by omega)) rd (item := Item.new) ⟨fun _ => rfl, rfl⟩
  obtain ⟨tail, q5⟩ := Shows.bytesAt q2
  have hm := ht.fits o (List.mem_of_getElem? hi)
  have e2 := (read_offset o hm.1 hm.2 tail).2
  obtain ⟨k1, -, ref, -, k2, -⟩ := q2
  refine ⟨⟨s', some g, none⟩, p, g, t', item', ?_, q4, rfl, rfl, g1, g2, g4, g5, g6⟩
  rw [getByIndex, q1]
  simp only
  rw [if_pos ⟨by rw [k2]; simp, k1⟩]
  simp only [q5, Option.bind_eq_bind, Option.bind_some, e2, g3, q3, g4.1, Option.map_none]

/-- C73: an index which is not in the table gives no profile, and the exception. -/
theorem C73_index_outside {file : CStr} {h : Header} (w : WellFormed file h .fixed) {cfg : Config}
    {c : Coll} (hc : Created file cfg h .fixed c) (c2 : Coll) {index : UInt32} (hn : h.count ≤ index.toNat) {fuel capacity : Nat}
    {s : State} (t : State) {evs : List (Nat × Event UInt32 CStr)} (hk : second cfg = .cache → index ≠ 0x80000000)
    (rd : Ready file cfg h .fixed fuel capacity s evs) (item : Item) :
    ∃ r, getByIndex file fuel c c2 s t index item = some r ∧ r.profile = none ∧
      r.err = some (.collection .indexOutOfRange) ∧ r.offsets.heap = s.heap := by
  obtain ⟨g, g1, g2, g3, g4, g5⟩ := C13_outside_partial w hc (key := index) hn (fun hx => ⟨(rd.2 hx).1, hk hx⟩)
    (item := Item.new) (fun _ => rfl)
  have he : g.err = some .indexOutOfRange := by
    rcases g5 with h | ⟨a, b⟩
    · exact h
    · exact absurd b (notFull rd hk a)
  refine ⟨⟨g.state, none, some (.collection .indexOutOfRange)⟩, ?_, rfl, rfl, g3⟩
  rw [getByIndex, g1]
  simp only
  rw [if_neg (by rw [g4 rfl]; simp), he]
  rfl

/-! ### Concrete runs -/

/-- A state with a cache of one shard of `capacity` nodes. -/
def newState (capacity : Nat) : UB State :=
  (Cache.shardInit [] capacity someMemory).map fun s => ⟨⟨0, fun _ => none⟩, ⟨1, fun _ => s, 0, 0⟩⟩

/-- Three profiles after their table. -/
def someProfiles : List Prof := [⟨0, 12, [1, 2]⟩, ⟨1, 3, []⟩, ⟨1, 7, [5]⟩]

/-- Their table, sorted by id. -/
def someTable : List (Nat × Nat) := [(3, 17), (7, 26), (12, 0)]

def someFile : CStr := [9] ++ (someTable.flatMap encodeOffset ++ someProfiles.flatMap encodeProfile)

def tableHeader : Header := ⟨1, 24, 3⟩
def profilesHeader : Header := ⟨25, 39, 0⟩

theorem someFile_holds : Holds someFile someProfiles someTable tableHeader profilesHeader :=
  ⟨⟨[9], someProfiles.flatMap encodeProfile, rfl, by decide⟩,
    ⟨[9] ++ someTable.flatMap encodeOffset, [], by decide, by decide⟩, by decide⟩

theorem someTable_table : Table someProfiles someTable := by
  refine ⟨by decide, by decide, ?_⟩
  intro o ho
  simp only [someTable, List.mem_cons, List.not_mem_nil, or_false] at ho
  rcases ho with rfl | rfl | rfl
  · exact ⟨1, _, rfl, rfl, by decide⟩
  · exact ⟨2, _, rfl, rfl, by decide⟩
  · exact ⟨0, _, rfl, rfl, by decide⟩

/-- What a look-up by id returns: the bytes of the profile and the exception. -/
def lookUp (cfg : Config) (capacity id : Nat) : UB (Option CStr × Option Fail) :=
  (newState capacity).bind fun s =>
    (getByProfileId someFile 12 (made someFile cfg tableHeader .fixed) (made someFile cfg profilesHeader profileReader) 4 s s id
      Item.new).map fun r => (r.profile.bind fun g => bytesAt g.state g.item, r.err)

/-- From the file, partly loaded, and cached. -/
example : ([⟨0, 0, 0⟩, ⟨1, 0, 0⟩, ⟨0, 2, 1⟩].map fun cfg : Config => (lookUp cfg 2 7).map fun r => (r.1.map (·.take 13), r.2)) =
    [some (some (encodeProfile ⟨1, 7, [5]⟩), none), some (some (encodeProfile ⟨1, 7, [5]⟩), none),
      some (some (encodeProfile ⟨1, 7, [5]⟩), none)] := by decide +kernel

example : lookUp ⟨0, 2, 1⟩ 2 8 = some (none, none) ∧ lookUp ⟨0, 0, 0⟩ 2 0 = some (none, some .profileEmpty) := by decide +kernel

/-- A table whose last offset is outside of the profiles. -/
def outTable : List (Nat × Nat) := [(3, 17), (7, 26), (12, 39)]

def outFile : CStr := [9] ++ (outTable.flatMap encodeOffset ++ someProfiles.flatMap encodeProfile)

example : Holds outFile someProfiles outTable tableHeader profilesHeader ∧ (someProfiles.flatMap encodeProfile).length ≤ 39 :=
  ⟨⟨⟨[9], someProfiles.flatMap encodeProfile, rfl, by decide⟩,
    ⟨[9] ++ outTable.flatMap encodeOffset, [], by decide, by decide⟩, by decide⟩, by decide⟩

example : (((newState 2).bind fun s => getByProfileId outFile 12 (made outFile ⟨0, 2, 1⟩ tableHeader .fixed)
    (made outFile ⟨0, 0, 0⟩ profilesHeader profileReader) 4 s s 12 Item.new).map fun r => r.err) =
    some (some (.collection .offsetOutOfRange)) := by decide +kernel

/-- C73 fails when somebody holds the only node of the cache, here with the offset of index 1: the search for the profile 12
compares that one, cannot get index 2, and returns 0 without an exception. The item still refers to the offset compared before,
so that the offset of the profile 7 is returned as that of the profile 12, and also as that of the profile 9, which does not
exist. -/
theorem C73_wrong_violated :
    let c := made someFile ⟨0, 1, 1⟩ tableHeader .fixed
    (newState 1).bind (fun s => (c.get someFile 12 s 1 Item.new).bind fun g =>
      (offsetForId someFile 12 c 4 g.state 12).map fun r => (r.1, r.2.2)) = some (some 26, none) ∧
    (newState 1).bind (fun s => (c.get someFile 12 s 1 Item.new).bind fun g =>
      (offsetForId someFile 12 c 4 g.state 9).map fun r => (r.1, r.2.2)) = some (some 26, none) ∧
    (newState 1).bind (fun s => (offsetForId someFile 12 c 4 s 12).map fun r => (r.1, r.2.2)) = some (some 0, none) ∧
    (newState 1).bind (fun s => (offsetForId someFile 12 c 4 s 9).map fun r => (r.1, r.2.2)) = some (none, none) := by
  decide +kernel

/-- The conditions are met by a new cache. -/
example : ∃ s, newState 2 = some s ∧ Ready someFile ⟨0, 2, 1⟩ tableHeader .fixed 12 2 s [] ∧
    Created someFile ⟨0, 2, 1⟩ tableHeader .fixed (made someFile ⟨0, 2, 1⟩ tableHeader .fixed) := by
  obtain ⟨start, h1, -⟩ := Cache.shardInit_spec (K := UInt32) keyHash [] 2 someMemory
  refine ⟨_, by rw [newState, h1]; rfl, ⟨fun _ _ => rfl, fun _ => ⟨⟨by show 2 * Nat.log2 3 + 2 ≤ 12; decide,
    Nat.one_pos, _, [], ⟨rfl, rfl, fun i _ => ⟨[], someMemory, h1⟩⟩, rfl, fun _ _ _ h => (nomatch h)⟩, ?_⟩⟩, .inr rfl⟩
  intro i _
  exact ⟨0, by decide, rfl⟩

end Verif.Record
