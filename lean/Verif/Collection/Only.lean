import Verif.Collection.Props

/-! # C96: the build with collections only in memory, the items

With `FIFTYONE_DEGREES_MEMORY_ONLY` defined every collection is read whole into memory when it is created. -/

namespace Verif.Collection

/-! ## Model -/

/-- `fseek` to a position and `fread(.., 1, n, file)`, which must give all bytes, collection.c:910-919. -/
def readAll (file : CStr) (pos n : Nat) : Option CStr :=
  let data := (file.drop pos).take n
  if data.length = n then some data else none

/-- `fiftyoneDegreesCollectionCreateFromFile` in this build, collection.c:893-935, with memory to be had: see `Verif.Life` for
that. The reader given to `CollectionCreateFromMemory` has the bytes read and nothing more; the test is that of
`MemoryAdvance`. The configuration and the read method of the file are not used. -/
def createOnly (file : CStr) (h : Header) : Option Coll :=
  match readAll file h.start h.length with
  | none => none
  | some data => if h.length ≤ data.length then some (createFromMemory data { h with start := 0 }) else none

/-- `COLLECTION_RELEASE` in this build, collection.h:268: nothing. -/
def onlyRelease (s : State) (item : Item) : State × Item := (s, item)

/-! ## Properties -/

theorem createOnly_eq {file : CStr} {h : Header} (hf : h.start + h.length ≤ file.length) :
    createOnly file h = some (createFromMemory ((file.drop h.start).take h.length) { h with start := 0 }) := by
  have hl : ((file.drop h.start).take h.length).length = h.length := by
    rw [List.length_take, List.length_drop]; omega
  rw [createOnly, readAll, if_pos hl]
  simp only
  rw [if_pos (Nat.le_of_eq hl.symm)]

/-- There is no collection exactly when the file has not the bytes the header says. -/
theorem C96_null (file : CStr) (h : Header) :
    createOnly file h = none ↔ h.length ≠ 0 ∧ file.length < h.start + h.length := by
  constructor
  · intro hn
    by_cases hf : h.start + h.length ≤ file.length
    · rw [createOnly_eq hf] at hn; cases hn
    · refine ⟨fun h0 => ?_, by omega⟩
      rw [createOnly, readAll, h0] at hn
      simp at hn
  · rintro ⟨h0, hf⟩
    rw [createOnly, readAll, if_neg (by rw [List.length_take, List.length_drop]; omega)]

theorem wellFormed_fits {file : CStr} {h : Header} {read : Reader} (w : WellFormed file h read) :
    h.start + h.length ≤ file.length := by
  cases read <;> exact w.1

/-- The collection can be created whenever the file is well formed, and every item in it is found with the bytes it has in the
file: with the file gone or changed, any number of items held, no cache and no memory used, and nothing to release. The memory
that can be read from the pointer ends with the collection. -/
theorem C96_item {file : CStr} {h : Header} {read : Reader} (w : WellFormed file h read) {key : UInt32} {bytes : CStr}
    (hi : IsItem file h key bytes read) :
    ∃ c, createOnly file h = some c ∧ ∀ (now : CStr) (fuel : Nat) (s : State) (item : Item),
      ∃ g b, c.get now fuel s key item = some g ∧ Shows g bytes ∧ g.state = s ∧
        g.item.handle = item.handle ∧ g.item.allocated = item.allocated ∧
        g.ptr = some (.memory b) ∧ bytes.length ≤ b.length ∧ b.length ≤ h.length ∧
        onlyRelease g.state g.item = (s, g.item) := by
  refine ⟨_, createOnly_eq (wellFormed_fits w), fun now fuel s item => ?_⟩
  rw [createFromMemory, Coll.get, getMemory]
  cases read with
  | fixed =>
    obtain ⟨w1, w2, w3, w4, w5⟩ := w
    obtain ⟨e1, e2⟩ := elementSize_pos w3 w4
    obtain ⟨i1, rfl⟩ := hi
    have e1' : ({ h with start := 0 } : Header).elementSize = h.length / h.count := e1
    simp only [e1']
    have hmul : (key.toNat + 1) * (h.length / h.count) ≤ h.length :=
      Nat.le_trans (Nat.mul_le_mul_right _ i1) (Nat.mul_div_le h.length h.count)
    rw [Nat.succ_mul] at hmul
    rw [if_neg (by omega), if_pos (by rw [if_pos (by omega), w5]; exact i1)]
    refine ⟨_, _, rfl, ⟨rfl, rfl, _, _, rfl, rfl, ?_⟩, rfl, rfl, rfl, rfl, ?_, ?_, rfl⟩
    · rw [List.drop_zero, List.length_take, List.length_drop, Nat.min_eq_left (by omega), take_drop_take hmul, List.drop_drop]
    · simp only [List.drop_zero, List.length_drop, List.length_take]; omega
    · simp only [List.drop_zero, List.length_drop, List.length_take]; omega
  | «variable» n g =>
    obtain ⟨w1, w2, w3, w4⟩ := w
    have e1 : ({ h with start := 0 } : Header).elementSize = 0 := by rw [Header.elementSize, if_pos w3]
    obtain ⟨i1, i2, rfl⟩ := hi
    obtain ⟨v1, v2, v3⟩ := w4 _ i1 i2
    simp only [e1]
    rw [if_pos trivial, if_pos i2]
    refine ⟨_, _, rfl, ⟨rfl, rfl, _, _, rfl, rfl, ?_⟩, rfl, rfl, rfl, rfl, ?_, ?_, rfl⟩
    · rw [List.drop_zero, List.length_take, List.length_drop, Nat.min_eq_left (by omega), take_drop_take v3, List.drop_drop]
    · simp only [List.drop_zero, List.length_drop, List.length_take]; omega
    · simp only [List.drop_zero, List.length_drop, List.length_take]; omega

/-- A key which is not in the collection is reported as in the other builds, whatever the item was used for before. -/
theorem C96_outside {file : CStr} {h : Header} {read : Reader} (w : WellFormed file h read) {key : UInt32}
    (hn : NotIn h key read) :
    ∃ c, createOnly file h = some c ∧ ∀ (now : CStr) (fuel : Nat) (s : State) (item : Item), Owns s.heap item →
      ∃ g, c.get now fuel s key item = some g ∧ g.err = some (wantedError read) ∧ g.ptr = none ∧
        g.item = ⟨none, 0, 0, none, none⟩ ∧ g.state.cache = s.cache ∧ (item.allocated = 0 → g.state = s) := by
  refine ⟨_, createOnly_eq (wellFormed_fits w), fun now fuel s item ho => ?_⟩
  have hexc : ∃ h', getExceptionSet s.heap item = some (h', Item.new) ∧ (item.allocated = 0 → h' = s.heap) := by
    rw [getExceptionSet]
    by_cases ha : item.allocated > 0
    · rw [if_pos ha]
      rcases ho with h0 | ⟨i, b, h1, h2, h3⟩
      · omega
      · rw [h1, Heap.free, h2]
        exact ⟨_, rfl, fun h => by omega⟩
    · rw [if_neg ha]
      exact ⟨_, rfl, fun _ => rfl⟩
  obtain ⟨h', x1, x2⟩ := hexc
  rw [createFromMemory, Coll.get, getMemory]
  cases read with
  | fixed =>
    obtain ⟨w1, w2, w3, w4, w5⟩ := w
    obtain ⟨e1, e2⟩ := elementSize_pos w3 w4
    have e1' : ({ h with start := 0 } : Header).elementSize = h.length / h.count := e1
    simp only [e1']
    rw [if_neg (by omega), if_neg (by rw [if_pos (by omega), w5]; exact Nat.not_lt.2 hn), x1]
    exact ⟨_, rfl, rfl, rfl, rfl, rfl, fun h => by simp only [x2 h]⟩
  | «variable» n g =>
    obtain ⟨w1, w2, w3, w4⟩ := w
    have e1 : ({ h with start := 0 } : Header).elementSize = 0 := by rw [Header.elementSize, if_pos w3]
    simp only [e1]
    rw [if_pos trivial, if_neg (Nat.not_lt.2 hn), x1]
    exact ⟨_, rfl, rfl, rfl, rfl, rfl, fun h => by simp only [x2 h]⟩

/-- The number of items is that of the header. -/
theorem C96_count {file : CStr} {h : Header} (w : WellFormed file h .fixed) :
    ∃ c, createOnly file h = some c ∧ c.getCount = h.count := by
  refine ⟨_, createOnly_eq w.1, ?_⟩
  obtain ⟨w1, w2, w3, w4, w5⟩ := w
  obtain ⟨e1, e2⟩ := elementSize_pos w3 w4
  have e1' : ({ h with start := 0 } : Header).elementSize = h.length / h.count := e1
  rw [createFromMemory, Coll.getCount]
  simp only [e1']
  rw [if_pos (by omega), w5]

/-- Whatever any other build shows for an item is what this build shows. -/
theorem C96_same {file : CStr} {h : Header} {read : Reader} (w : WellFormed file h read) {cfg : Config} {c : Coll}
    (hc : Created file cfg h read c) {key : UInt32} {bytes : CStr} (hi : IsItem file h key bytes read) {fuel capacity : Nat}
    {s : State} {evs : List (Nat × Verif.Cache.Event UInt32 CStr)} (hcache : CacheOk file cfg h read fuel capacity s evs key)
    {item : Item} (hitem : second cfg = .file → Owns s.heap item) :
    ∃ g c' g', c.get file fuel s key item = some g ∧ createOnly file h = some c' ∧
      c'.get file fuel s key item = some g' ∧ Shows g' bytes ∧
      (Shows g bytes ∨ (second cfg = .cache ∧ Full capacity s.cache key evs)) := by
  obtain ⟨g, g1, g2⟩ := C13_item_partial w hc hi hcache hitem
  obtain ⟨c', k1, k2⟩ := C96_item w hi
  obtain ⟨g', b, k3, k4, -⟩ := k2 file fuel s item
  exact ⟨g, c', g', g1, k1, k3, k4, g2⟩

/-- An item that does not end within the collection, as in a file that is not well formed: read from the file it is shown with
all its bytes; here the pointer is to memory that ends before it does, and no exception is set. -/
theorem C96_over_violated {file : CStr} {h : Header} (hf : h.start + h.length ≤ file.length) (h0 : h.count = 0) {n : Nat}
    {g : CStr → Nat} (hn : 0 < n) {key : UInt32} (hk : key.toNat < h.length)
    (hg : n ≤ sizeAt file h n g key.toNat) (hover : h.length < key.toNat + sizeAt file h n g key.toNat)
    (hfile : h.start + key.toNat + sizeAt file h n g key.toNat ≤ file.length)
    (hsize : sizeAt file h n g key.toNat < 2 ^ 32) (s : State) :
    (∃ r, getBack file 0 .file (fileColl h (.variable n g)) s key Item.new = some r ∧
      Shows r ((file.drop (h.start + key.toNat)).take (sizeAt file h n g key.toNat))) ∧
    ∃ c r b, createOnly file h = some c ∧ c.get file 0 s key Item.new = some r ∧ r.err = none ∧
      r.ptr = some (.memory b) ∧ b.length < sizeAt file h n g key.toNat := by
  constructor
  · have hs : slice file (h.start + key.toNat) (sizeAt file h n g key.toNat) =
        some ((file.drop (h.start + key.toNat)).take (sizeAt file h n g key.toNat)) := by
      rw [slice, if_pos hfile]
    have hr : Readable file (fileColl h (.variable n g)) key
        ((file.drop (h.start + key.toNat)).take (sizeAt file h n g key.toNat)) := by
      refine ⟨?_, ?_⟩
      · have := slice_length hs
        intro h0; rw [h0] at this; simp at this; omega
      · simp only [fileColl]
        refine ⟨hk, _, by rw [slice, if_pos (by omega)], hg, ?_, hs⟩
        show sizeAt file h n g key.toNat < 2 ^ 32
        exact hsize
    obtain ⟨r, r1, r2⟩ := getBack_item hr 0 .file s Item.new (fun _ => rfl) (capacity := 0) (evs := []) (fun h => nomatch h)
    rcases r2 with ⟨a, -⟩ | ⟨a, -⟩
    · exact ⟨r, r1, a⟩
    · cases a
  · have e1 : ({ h with start := 0 } : Header).elementSize = 0 := by rw [Header.elementSize, if_pos h0]
    have hget : (createFromMemory ((file.drop h.start).take h.length) { h with start := 0 }).get file 0 s key Item.new =
        some ⟨s, ⟨some (.memory (((file.drop h.start).take h.length).drop key.toNat)), 0, 0, none, some .memory⟩, some (.memory (((file.drop h.start).take h.length).drop key.toNat)), none⟩ := by
      rw [createFromMemory, Coll.get, getMemory]
      simp only [e1]
      rw [if_pos trivial, if_pos hk, List.drop_zero]
      rfl
    refine ⟨_, _, _, createOnly_eq hf, hget, rfl, rfl, ?_⟩
    simp only [List.length_drop, List.length_take]; omega

/-! ## Examples -/

example : (createOnly fixedFile ⟨1, 8, 4⟩).isSome = true ∧ (createOnly fixedFile ⟨1, 80, 4⟩).isNone = true := by decide +kernel

/-- Four items held at once; there is no cache to hold them. The file is not looked at any more. -/
example : ((createOnly fixedFile ⟨1, 8, 4⟩).bind fun c =>
    (playNew [] 1 [(c, .get 0 3), (c, .get 1 2), (c, .get 2 1), (c, .get 3 0), (c, .get 4 4)]).map fun out =>
      out.map fun r => (r.1.map (·.take 2), r.2)) =
    some [(some c!"dd", none), (some c!"cc", none), (some c!"bb", none), (some c!"aa", none),
      (none, some .indexOutOfRange)] := by decide +kernel

/-- The hypotheses of the last theorem: a length byte of 9 in a collection of 3 bytes. -/
example : let file := c!"!" ++ [9] ++ c!"abcdefghijk"
    (⟨1, 3, 0⟩ : Header).start + 3 ≤ file.length ∧ 1 ≤ sizeAt file ⟨1, 3, 0⟩ 1 lengthByte 0 ∧
      3 < 0 + sizeAt file ⟨1, 3, 0⟩ 1 lengthByte 0 ∧ 1 + 0 + sizeAt file ⟨1, 3, 0⟩ 1 lengthByte 0 ≤ file.length := by
  decide +kernel

end Verif.Collection
