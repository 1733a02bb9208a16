import Verif.Collection.Lemmas

/-! # C13: every storage strategy returns the same item -/

namespace Verif.Collection

open Verif.Cache (Cache COp Event cacheStep cacheRun eventsOf held NewCache Enough)

/-! ## What is wanted -/

/-- The size of the item of variable size at an offset, from its first bytes. -/
def sizeAt (file : CStr) (h : Header) (n : Nat) (g : CStr → Nat) (off : Nat) : Nat := g ((file.drop (h.start + off)).take n)

/-- The offsets at which the items of variable size start: one after the other. -/
inductive Start (file : CStr) (h : Header) (n : Nat) (g : CStr → Nat) : Nat → Prop
  | zero : Start file h n g 0
  | next (off : Nat) : Start file h n g off → off < h.length → Start file h n g (off + sizeAt file h n g off)

/-- The header fits the file: for items of fixed size there is at least one, they are not empty, and there is not room for
another one (see `C13_header`); items of variable size fill the collection. -/
def WellFormed (file : CStr) (h : Header) : Reader → Prop
  | .fixed => h.start + h.length ≤ file.length ∧ h.length < 2 ^ 32 ∧ 0 < h.count ∧ h.count ≤ h.length ∧
      h.length / (h.length / h.count) = h.count
  | .variable n g => h.start + h.length ≤ file.length ∧ h.length < 2 ^ 32 ∧ h.count = 0 ∧
      ∀ off, Start file h n g off → off < h.length → n ≤ sizeAt file h n g off ∧ 0 < sizeAt file h n g off ∧
        off + sizeAt file h n g off ≤ h.length

/-- The key is the index of an item, or the offset of one of variable size, and these are the bytes of the item. -/
def IsItem (file : CStr) (h : Header) (key : UInt32) (bytes : CStr) : Reader → Prop
  | .fixed => key.toNat < h.count ∧
      bytes = (file.drop (h.start + key.toNat * (h.length / h.count))).take (h.length / h.count)
  | .variable n g => Start file h n g key.toNat ∧ key.toNat < h.length ∧
      bytes = (file.drop (h.start + key.toNat)).take (sizeAt file h n g key.toNat)

/-- The key is not in the collection. -/
def NotIn (h : Header) (key : UInt32) : Reader → Prop
  | .fixed => h.count ≤ key.toNat
  | .variable _ _ => h.length ≤ key.toNat

/-- What is at a pointer. -/
def view (s : State) : Ref → Option CStr
  | .memory b => some b
  | .block i => s.heap.block i
  | .node i n => some ((s.cache.shards i).data n)

/-- The call succeeded and the pointer it returned, which is also that of the item, is to these bytes. -/
def Shows (g : Got) (bytes : CStr) : Prop :=
  g.err = none ∧ g.item.ptr = g.ptr ∧ ∃ ref b, g.ptr = some ref ∧ view g.state ref = some b ∧ b.take bytes.length = bytes

/-! ## Lemmas -/

theorem take_drop_take {l : CStr} {a b n : Nat} (h : a + n ≤ b) : ((l.take b).drop a).take n = (l.drop a).take n := by
  rw [List.drop_take, List.take_take, Nat.min_eq_left (by omega)]

theorem take_length_take (l : CStr) (n : Nat) : l.take (l.take n).length = l.take n := by
  rw [List.length_take]
  rcases Nat.le_total n l.length with h | h
  · rw [Nat.min_eq_left h]
  · rw [Nat.min_eq_right h, List.take_length, List.take_of_length_le h]

theorem elementSize_pos {h : Header} (h1 : 0 < h.count) (h2 : h.count ≤ h.length) :
    h.elementSize = h.length / h.count ∧ 0 < h.length / h.count :=
  ⟨by rw [Header.elementSize, if_neg (by omega)], Nat.div_pos h2 h1⟩

theorem isItem_readable {file : CStr} {h : Header} {key : UInt32} {bytes : CStr} {read : Reader}
    (w : WellFormed file h read) (i : IsItem file h key bytes read) :
    Readable file (fileColl h read) key bytes := by
  cases read with
  | fixed =>
    obtain ⟨w1, w2, w3, w4, w5⟩ := w
    obtain ⟨i1, rfl⟩ := i
    obtain ⟨e1, e2⟩ := elementSize_pos w3 w4
    have hmul : (key.toNat + 1) * (h.length / h.count) ≤ h.length :=
      Nat.le_trans (Nat.mul_le_mul_right _ i1) (Nat.mul_div_le h.length h.count)
    rw [Nat.succ_mul] at hmul
    have hs : slice file (h.start + key.toNat * (h.length / h.count)) (h.length / h.count) =
        some ((file.drop (h.start + key.toNat * (h.length / h.count))).take (h.length / h.count)) := by
      rw [slice, if_pos (by omega)]
    refine ⟨?_, ?_⟩
    · have := slice_length hs
      intro h0; rw [h0] at this; simp at this; omega
    · simp only [fileColl, e1]
      exact ⟨i1, by omega, by omega, hs⟩
  | «variable» n g =>
    obtain ⟨w1, w2, w3, w4⟩ := w
    obtain ⟨i1, i2, rfl⟩ := i
    obtain ⟨k1, k2, k3⟩ := w4 _ i1 i2
    have hs : slice file (h.start + key.toNat) (sizeAt file h n g key.toNat) =
        some ((file.drop (h.start + key.toNat)).take (sizeAt file h n g key.toNat)) := by
      rw [slice, if_pos (by omega)]
    refine ⟨?_, ?_⟩
    · have := slice_length hs
      intro h0; rw [h0] at this; simp at this; omega
    · simp only [fileColl]
      refine ⟨i2, _, by rw [slice, if_pos (by omega)], k1, ?_, hs⟩
      show sizeAt file h n g key.toNat < 2 ^ 32
      omega

theorem notIn_outside {h : Header} {key : UInt32} {read : Reader} (hn : NotIn h key read) :
    Outside (fileColl h read) key := by
  cases read <;> exact hn

/-- The items are in a row: one ends before the next starts. -/
theorem start_chain {file : CStr} {h : Header} {n : Nat} {g : CStr → Nat} (w : WellFormed file h (.variable n g)) :
    ∀ k a b, a + b ≤ k → Start file h n g a → Start file h n g b → a < b → a + sizeAt file h n g a ≤ b := by
  intro k
  induction k with
  | zero => intro a b hk _ _ hlt; omega
  | succ k ih =>
    intro a b hk ha hb hlt
    cases hb with
    | zero => omega
    | next b0 hb0 hl =>
      obtain ⟨-, hpos, -⟩ := w.2.2.2 b0 hb0 hl
      rcases Nat.lt_trichotomy a b0 with h1 | rfl | h1
      · have := ih a b0 (by omega) ha hb0 h1
        omega
      · omega
      · have := ih b0 a (by omega) hb0 ha h1
        omega

theorem iterate_spec {file : CStr} {h : Header} {n : Nat} {g : CStr → Nat} (w : WellFormed file h (.variable n g))
    (max : Nat) : ∀ fuel off count, Start file h n g off → off ≤ h.length → count < max → h.length - off < fuel →
    ∃ count' size', iterate file (fileColl h (.variable n g)) max fuel off count off = some (some (count', size')) ∧
      Start file h n g size' ∧ size' ≤ h.length ∧ (size' = h.length ∨ count' = max) := by
  intro fuel
  induction fuel with
  | zero => intro off count _ _ _ hf; omega
  | succ fuel ih =>
    intro off count hs hle hc hf
    rw [iterate]
    by_cases hlt : off < h.length
    · rw [if_pos (by exact hlt)]
      obtain ⟨k1, k2, k3⟩ := w.2.2.2 off hs hlt
      have hsmall := w.2.1
      have hoff : (UInt32.ofNat off).toNat = off := by
        simp only [UInt32.toNat_ofNat']
        exact Nat.mod_eq_of_lt (by omega)
      have hr := isItem_readable w (key := UInt32.ofNat off) (bytes := (file.drop (h.start + off)).take (sizeAt file h n g off))
        (by rw [IsItem, hoff]; exact ⟨hs, hlt, rfl⟩)
      have hlen : ((file.drop (h.start + off)).take (sizeAt file h n g off)).length = sizeAt file h n g off := by
        have := w.1
        rw [List.length_take, List.length_drop]; omega
      rw [loader_readable hr]
      simp only [hlen]
      rw [Nat.mod_eq_of_lt (by omega : off + sizeAt file h n g off < 2 ^ 32)]
      by_cases hm : count + 1 < max
      · rw [if_pos hm]
        exact ih (off + sizeAt file h n g off) (count + 1) (.next off hs hlt) k3 hm (by omega)
      · rw [if_neg hm]
        exact ⟨_, _, rfl, .next off hs hlt, k3, .inr (by omega)⟩
    · rw [if_neg (by exact hlt)]
      exact ⟨_, _, rfl, hs, hle, .inl (by omega)⟩

/-- The number of keys answered from the memory of a partly loaded collection. -/
def Mem.bound (m : Mem) : Nat := if m.elementSize = 0 then m.size else m.count

/-- What is loaded when a collection is partly loaded. -/
theorem part_spec {file : CStr} {cfg : Config} {h : Header} {read : Reader} (w : WellFormed file h read)
    (hl : 0 < cfg.loaded) :
    ∃ m next, createFromFile file cfg h read = some (some (.part m next)) ∧
      (∀ key bytes, IsItem file h key bytes read →
        (key.toNat < m.bound ∧
          (m.bytes.drop (if m.elementSize = 0 then key.toNat else key.toNat * m.elementSize)).take bytes.length = bytes) ∨
        (m.bound ≤ key.toNat ∧ next = some (second cfg, fileColl h read))) ∧
      (∀ key, NotIn h key read → m.bound ≤ key.toNat) ∧
      (∀ x, next = some x → x = (second cfg, fileColl h read)) ∧
      (next = none → m.elementSize ≠ 0 → m.count = h.count) := by
  -- from what is loaded to the collection
  have fin : ∀ count size, loadedSize file (fileColl h read) cfg.loaded = some (some (count, size)) →
      h.start + h.length ≤ file.length → size ≤ h.length →
      createFromFile file cfg h read = some (some (if count = cfg.loaded ∧ size < h.length then
        .part ⟨(file.drop h.start).take size, size, count, h.elementSize⟩ (some (second cfg, fileColl h read))
        else .part ⟨(file.drop h.start).take size, size, count, h.elementSize⟩ none)) := by
    intro count size h1 h2 h3
    rw [createFromFile, if_pos hl, h1]
    simp only
    rw [slice, if_pos (by omega)]
    simp only
    have : h.start + size + sub32 h.length size - h.start = h.length := by rw [sub32, if_pos h3]; omega
    rw [this]
    split <;> rfl
  cases read with
  | fixed =>
    obtain ⟨w1, w2, w3, w4, w5⟩ := w
    obtain ⟨e1, e2⟩ := elementSize_pos w3 w4
    generalize hE : h.length / h.count = E at e1 e2 w5
    have hcE : h.count * E ≤ h.length := by rw [← hE]; exact Nat.mul_div_le _ _
    generalize hc : (if cfg.loaded > h.count then h.count else cfg.loaded) = count
    have hcle : count ≤ h.count := by rw [← hc]; split <;> omega
    have hsz : count * E ≤ h.length := Nat.le_trans (Nat.mul_le_mul_right _ hcle) hcE
    have hload : loadedSize file (fileColl h .fixed) cfg.loaded = some (some (count, count * E)) := by
      rw [loadedSize]
      simp only [fileColl, e1]
      rw [if_pos (by omega), hc, Nat.mod_eq_of_lt (by omega)]
    have hcreate := fin _ _ hload w1 hsz
    have hbound : ∀ next : Option (Back × FileColl), Mem.bound ⟨(file.drop h.start).take (count * E), count * E, count, h.elementSize⟩ = count := by
      intro _; rw [Mem.bound]; simp only [e1]; rw [if_neg (by omega)]
    have hin : ∀ key bytes, IsItem file h key bytes .fixed → key.toNat < count →
        (((file.drop h.start).take (count * E)).drop (if h.elementSize = 0 then key.toNat else key.toNat * h.elementSize)).take
          bytes.length = bytes := by
      rintro key bytes ⟨i1, rfl⟩ hk
      rw [hE, e1, if_neg (by omega)]
      have hm : key.toNat * E + E ≤ count * E := by
        rw [← Nat.succ_mul]; exact Nat.mul_le_mul_right _ hk
      have hlen : ((file.drop (h.start + key.toNat * E)).take E).length = E := by
        rw [List.length_take, List.length_drop]; omega
      rw [hlen, take_drop_take hm, List.drop_drop]
    by_cases hcond : count = cfg.loaded ∧ count * E < h.length
    · rw [if_pos hcond] at hcreate
      refine ⟨_, _, hcreate, ?_, ?_, fun x hx => (Option.some.inj hx).symm, fun hx => (nomatch hx)⟩
      · intro key bytes i
        rw [hbound none]
        by_cases hk : key.toNat < count
        · exact .inl ⟨hk, hin key bytes i hk⟩
        · exact .inr ⟨by omega, rfl⟩
      · intro key hn
        rw [hbound none]
        exact Nat.le_trans hcle hn
    · rw [if_neg hcond] at hcreate
      have hceq : count = h.count := by
        by_cases hgt : cfg.loaded > h.count
        · rw [if_pos hgt] at hc; exact hc.symm
        · rw [if_neg hgt] at hc
          have : ¬ count * E < h.length := fun hx => hcond ⟨hc.symm, hx⟩
          have h2 : count * E = h.count * E := by
            have := Nat.mul_le_mul_right E hcle
            omega
          exact Nat.eq_of_mul_eq_mul_right e2 h2
      refine ⟨_, _, hcreate, ?_, ?_, fun x hx => (nomatch hx), fun _ _ => hceq⟩
      · intro key bytes i
        rw [hbound none]
        exact .inl ⟨by rw [hceq]; exact i.1, hin key bytes i (by rw [hceq]; exact i.1)⟩
      · intro key hn
        rw [hbound none]
        exact Nat.le_trans hcle hn
  | «variable» n g =>
    have hw := w
    obtain ⟨w1, w2, w3, w4⟩ := w
    have e1 : h.elementSize = 0 := by rw [Header.elementSize, if_pos w3]
    obtain ⟨count, size, hload, hst, hsz, hend⟩ : ∃ count size,
        loadedSize file (fileColl h (.variable n g)) cfg.loaded = some (some (count, size)) ∧
        (size < h.length → Start file h n g size) ∧ size ≤ h.length ∧ (size = h.length ∨ count = cfg.loaded) := by
      rw [loadedSize]
      simp only [fileColl, e1]
      rw [if_neg (by simp)]
      by_cases hlt : h.length < cfg.loaded
      · rw [if_pos hlt]
        exact ⟨_, _, rfl, fun h => by omega, Nat.le_refl _, .inl rfl⟩
      · rw [if_neg hlt]
        obtain ⟨c, s, h1, h2, h3, h4⟩ := iterate_spec hw cfg.loaded (h.length + 1) 0 0 .zero (by omega) hl (by omega)
        simp only [fileColl, e1] at h1
        exact ⟨c, s, h1, fun _ => h2, h3, h4⟩
    have hcreate := fin _ _ hload w1 hsz
    have hbound : Mem.bound ⟨(file.drop h.start).take size, size, count, h.elementSize⟩ = size := by
      rw [Mem.bound]; simp only [e1]; rw [if_pos trivial]
    have hin : ∀ key bytes, IsItem file h key bytes (.variable n g) → key.toNat < size →
        (((file.drop h.start).take size).drop (if h.elementSize = 0 then key.toNat else key.toNat * h.elementSize)).take
          bytes.length = bytes := by
      rintro key bytes ⟨i1, i2, rfl⟩ hk
      rw [if_pos e1]
      obtain ⟨-, -, k3⟩ := w4 _ i1 i2
      have hm : key.toNat + sizeAt file h n g key.toNat ≤ size := by
        rcases Nat.lt_or_ge size h.length with hlt | hge
        · exact start_chain hw _ _ _ (Nat.le_refl _) i1 (hst hlt) hk
        · omega
      have hlen : ((file.drop (h.start + key.toNat)).take (sizeAt file h n g key.toNat)).length = sizeAt file h n g key.toNat := by
        rw [List.length_take, List.length_drop]; omega
      rw [hlen, take_drop_take hm, List.drop_drop]
    by_cases hcond : count = cfg.loaded ∧ size < h.length
    · rw [if_pos hcond] at hcreate
      refine ⟨_, _, hcreate, ?_, ?_, fun x hx => (Option.some.inj hx).symm, fun hx => (nomatch hx)⟩
      · intro key bytes i
        rw [hbound]
        by_cases hk : key.toNat < size
        · exact .inl ⟨hk, hin key bytes i hk⟩
        · exact .inr ⟨by omega, rfl⟩
      · intro key hn
        rw [hbound]
        exact Nat.le_trans hsz hn
    · rw [if_neg hcond] at hcreate
      have hall : size = h.length := by
        rcases hend with he | he
        · exact he
        · have : ¬ size < h.length := fun hx => hcond ⟨he, hx⟩
          omega
      refine ⟨_, _, hcreate, ?_, ?_, fun x hx => (nomatch hx), fun _ hx => absurd e1 hx⟩
      · intro key bytes i
        rw [hbound]
        have hk : key.toNat < size := by rw [hall]; exact i.2.1
        exact .inl ⟨hk, hin key bytes i hk⟩
      · intro key hn
        rw [hbound]
        exact Nat.le_trans hsz hn

theorem part_elementSize {file : CStr} {cfg : Config} {h : Header} {read : Reader} {m : Mem}
    {next : Option (Back × FileColl)} (hc : createFromFile file cfg h read = some (some (.part m next))) :
    m.elementSize = h.elementSize := by
  rw [createFromFile] at hc
  split at hc
  · split at hc
    · cases hc
    · cases hc
    · split at hc
      · cases hc
      · simp only at hc
        split at hc <;> cases hc <;> rfl
  · cases hc

/-! ## Getting an item -/

/-- The same nodes of the cache are held, as often as before. -/
def SameHeld (file : CStr) (f : FileColl) (fuel capacity : Nat) (evs : List (Nat × Event UInt32 CStr)) (c c' : Cache CStr) :
    Prop :=
  c'.concurrency = c.concurrency ∧
  ∃ evs', Reached file f fuel capacity c' evs' ∧ ∀ j m, held m (eventsOf j evs') = held m (eventsOf j evs)

/-- Releasing the item ends what getting it began. -/
def Released (file : CStr) (f : FileColl) (fuel capacity : Nat) (evs : List (Nat × Event UInt32 CStr)) (b : Back) (s : State)
    (g : Got) : Prop :=
  ∃ s' item', releaseBack fuel g.state g.item b = some (s', item') ∧
    g.item.owner = some (match b with | .file => .file | .cache => .cache) ∧ g.item.handle ≠ none ∧ item'.handle = none ∧
    s.heap.next ≤ s'.heap.next ∧ (s.heap.block s.heap.next = none → s'.heap.block = s.heap.block) ∧
    (b = .file → item'.allocated = 0 ∧ s'.cache = s.cache) ∧
    (b = .cache → SameHeld file f fuel capacity evs s.cache s'.cache)

theorem getBack_item {file : CStr} {f : FileColl} {key : UInt32} {bytes : CStr} (hr : Readable file f key bytes) (fuel : Nat)
    (b : Back) (s : State) (item : Item) (hc : b = .file → item.allocated = 0) {capacity : Nat}
    {evs : List (Nat × Event UInt32 CStr)}
    (hcache : b = .cache → Reached file f fuel capacity s.cache evs ∧ key ≠ 0x80000000) :
    ∃ g, getBack file fuel b f s key item = some g ∧
      ((Shows g bytes ∧ Released file f fuel capacity evs b s g) ∨
        (b = .cache ∧ Full capacity s.cache key evs ∧ g.err = none ∧ g.ptr = none ∧ g.item.ptr = item.ptr)) := by
  cases b with
  | file =>
    obtain ⟨h', h1, h2, h3, h4⟩ := getFile_readable hr s.heap item (hc rfl)
    rw [getBack, h1]
    refine ⟨_, rfl, .inl ⟨⟨rfl, rfl, _, _, rfl, h2, ?_⟩, ?_⟩⟩
    · rw [List.take_length]
    · refine ⟨⟨⟨h'.next, fun j => if j = s.heap.next then none else h'.block j⟩, s.cache⟩, Item.new, ?_, rfl, by simp, rfl,
        by simp only [h4]; omega, ?_, fun _ => ⟨rfl, rfl⟩, fun h => (nomatch h)⟩
      · simp only [releaseBack, releaseFile]
        rw [if_neg (by simp), Heap.free, h2]
        rfl
      · intro hfresh
        funext j
        show (if j = s.heap.next then none else h'.block j) = _
        by_cases hj : j = s.heap.next
        · rw [if_pos hj, hj, hfresh]
        · rw [if_neg hj, h3 j hj]
  | cache =>
    obtain ⟨hreach, hk⟩ := hcache rfl
    have hload := loader_readable hr
    obtain ⟨c', i, e, h1, h2⟩ := cached_get hreach hk hload
    have hpos := List.length_pos_iff.2 hr.1
    have hfound : ∀ n, (c'.shards i).data n = bytes → getFromCache.found item c' i n =
        (c', ⟨some (.node i n), bytes.length, bytes.length, some (.node i n), some .cache⟩, some (.node i n), none) := by
      intro n hd
      rw [getFromCache.found]
      simp only [hd]
      rw [if_pos hpos]
    have hrel : ∀ n, (∀ m, e.isGet m = decide (n = m)) → Released file f fuel capacity evs .cache s
        ⟨⟨s.heap, c'⟩, ⟨some (.node i n), bytes.length, bytes.length, some (.node i n), some .cache⟩, some (.node i n), none⟩ := by
      intro n hn
      obtain ⟨c'', k1, k2, k3⟩ := cached_release hreach h1 ⟨_, hload, rfl⟩ hn
      have hconc := (cacheStep_concurrency k1).trans (cacheStep_concurrency h1)
      refine ⟨⟨s.heap, c''⟩, ⟨some (.node i n), bytes.length, bytes.length, none, some .cache⟩, ?_, rfl, by simp, rfl,
        Nat.le_refl _, fun _ => rfl, fun h => (nomatch h), fun _ => ⟨hconc, _, k2, k3⟩⟩
      simp only [releaseBack, releaseCache]
      rw [k1]
      rfl
    rw [getBack, getFromCache, hload]
    simp only
    rw [h1]
    rcases h2 with ⟨n, rfl, -, hd⟩ | ⟨n, rfl, hd⟩ | ⟨rfl, hfull⟩
    · simp only [hfound n hd]
      refine ⟨_, rfl, .inl ⟨⟨rfl, rfl, _, _, rfl, rfl, ?_⟩, hrel n fun m => rfl⟩⟩
      simp only [hd, List.take_length]
    · simp only [Option.isNone_none, hfound n (hd rfl)]
      refine ⟨_, rfl, .inl ⟨⟨rfl, rfl, _, _, rfl, rfl, ?_⟩, hrel n fun m => rfl⟩⟩
      simp only [hd, List.take_length]
    · exact ⟨_, rfl, .inr ⟨trivial, hfull, rfl, rfl, rfl⟩⟩

theorem getBack_again {file : CStr} {f : FileColl} {key : UInt32} {bytes : CStr} (hr : Readable file f key bytes) (fuel : Nat)
    (b : Back) (s : State) (item : Item) (hc : b = .file → Owns s.heap item) {capacity : Nat}
    {evs : List (Nat × Event UInt32 CStr)}
    (hcache : b = .cache → Reached file f fuel capacity s.cache evs ∧ key ≠ 0x80000000) :
    ∃ g, getBack file fuel b f s key item = some g ∧
      (Shows g bytes ∨ (b = .cache ∧ Full capacity s.cache key evs)) := by
  cases b with
  | file =>
    obtain ⟨h', item', i, b, h1, h2, h3, h4, h5, h6, h7, -⟩ := getFile_owned hr s.heap item (hc rfl)
    rw [getBack, h1]
    exact ⟨_, rfl, .inl ⟨rfl, h2, _, _, rfl, h6, h7⟩⟩
  | cache =>
    obtain ⟨g, g1, g2⟩ := getBack_item hr fuel .cache s item (fun h => (nomatch h)) hcache
    refine ⟨g, g1, ?_⟩
    rcases g2 with ⟨a, -⟩ | ⟨a, b, -⟩
    · exact .inl a
    · exact .inr ⟨a, b⟩

theorem getBack_outside {file : CStr} {f : FileColl} {key : UInt32} (ho : Outside f key) (fuel : Nat) (b : Back)
    (s : State) (item : Item) {capacity : Nat} {evs : List (Nat × Event UInt32 CStr)}
    (hcache : b = .cache → Reached file f fuel capacity s.cache evs ∧ key ≠ 0x80000000) :
    ∃ g, getBack file fuel b f s key item = some g ∧ g.ptr = none ∧ g.item.ptr = item.ptr ∧ g.item.handle = none ∧
      g.state.heap = s.heap ∧
      (g.err = some (outsideError f) ∨ (b = .cache ∧ Full capacity s.cache key evs)) := by
  cases b with
  | file =>
    obtain ⟨i, h1, h2, -, h3⟩ := getFile_outside (file := file) ho s.heap item
    rw [getBack, h1]
    exact ⟨_, rfl, rfl, h2, h3, rfl, .inl rfl⟩
  | cache =>
    obtain ⟨hreach, hk⟩ := hcache rfl
    have hload := loader_outside (file := file) ho
    obtain ⟨c', i, e, h1, h2⟩ := cached_get hreach hk hload
    rw [getBack, getFromCache, hload]
    simp only
    rw [h1]
    rcases h2 with ⟨n, rfl, h, -⟩ | ⟨n, rfl, -⟩ | ⟨rfl, hfull⟩
    · cases h
    · exact ⟨_, rfl, rfl, rfl, rfl, rfl, .inl rfl⟩
    · exact ⟨_, rfl, rfl, rfl, rfl, rfl, .inr ⟨trivial, hfull⟩⟩

/-- The collection was created for this region of the file, in one of the ways. -/
def Created (file : CStr) (cfg : Config) (h : Header) (read : Reader) (c : Coll) : Prop :=
  c = createFromMemory file h ∨ createFromFile file cfg h read = some (some c)

/-- The cache of the collection has been used only through it, and is in the state after any such history. -/
def CacheOk (file : CStr) (cfg : Config) (h : Header) (read : Reader) (fuel capacity : Nat) (s : State)
    (evs : List (Nat × Event UInt32 CStr)) (key : UInt32) : Prop :=
  second cfg = .cache → Reached file (fileColl h read) fuel capacity s.cache evs ∧ key ≠ 0x80000000

/-- C13: a collection can be created from the file in every configuration. -/
theorem C13_create {file : CStr} {h : Header} {read : Reader} (w : WellFormed file h read) (cfg : Config) :
    ∃ c, createFromFile file cfg h read = some (some c) ∧
      (cfg.loaded = 0 → ∃ b f, c = .back b f ∧ (b = .cache ↔ 0 < cfg.capacity ∧ 0 < cfg.concurrency)) ∧
      (0 < cfg.loaded → ∃ m next, c = .part m next ∧
        ∀ b f, next = some (b, f) → (b = .cache ↔ 0 < cfg.capacity ∧ 0 < cfg.concurrency)) := by
  have hsec : second cfg = .cache ↔ 0 < cfg.capacity ∧ 0 < cfg.concurrency := by
    rw [second]; split <;> simp_all
  by_cases hl : 0 < cfg.loaded
  · obtain ⟨m, next, h1, -, -, h4, -⟩ := part_spec w hl
    refine ⟨_, h1, fun h0 => by omega, fun _ => ⟨m, next, rfl, fun b f hb => ?_⟩⟩
    cases h4 _ hb
    exact hsec
  · rw [createFromFile, if_neg hl]
    exact ⟨_, rfl, fun _ => ⟨_, _, rfl, hsec⟩, fun h0 => absurd h0 hl⟩

/-- C13: of items of a fixed size as many are loaded as the configuration says, or all. -/
theorem C13_loaded {file : CStr} {h : Header} (w : WellFormed file h .fixed) {cfg : Config} (hl : 0 < cfg.loaded) :
    ∃ m next, createFromFile file cfg h .fixed = some (some (.part m next)) ∧ m.count = min cfg.loaded h.count ∧
      m.bytes.length = m.count * (h.length / h.count) ∧ (next ≠ none → cfg.loaded ≤ h.count) := by
  obtain ⟨m, next, h1, -⟩ := part_spec w hl
  refine ⟨m, next, h1, ?_⟩
  obtain ⟨w1, w2, w3, w4, w5⟩ := w
  obtain ⟨e1, e2⟩ := elementSize_pos w3 w4
  rw [createFromFile, if_pos hl, loadedSize] at h1
  simp only [fileColl, e1] at h1
  rw [if_pos (by omega)] at h1
  have hcount : (if cfg.loaded > h.count then h.count else cfg.loaded) = min cfg.loaded h.count := by split <;> omega
  rw [hcount] at h1
  have hmul : min cfg.loaded h.count * (h.length / h.count) ≤ h.length :=
    Nat.le_trans (Nat.mul_le_mul_right _ (Nat.min_le_right _ _)) (Nat.mul_div_le _ _)
  rw [Nat.mod_eq_of_lt (by omega)] at h1
  simp only at h1
  rw [slice, if_pos (by omega)] at h1
  simp only at h1
  have hlen : ((file.drop h.start).take (min cfg.loaded h.count * (h.length / h.count))).length =
      min cfg.loaded h.count * (h.length / h.count) := by
    rw [List.length_take, List.length_drop]; omega
  split at h1
  · rename_i hc
    cases h1
    exact ⟨rfl, hlen, fun _ => by omega⟩
  · cases h1
    exact ⟨rfl, hlen, fun h => absurd rfl h⟩

/-- C13: whether the collection is in memory, in the file, partly loaded, cached, or partly loaded and cached, a get of an
item returns a pointer to the bytes of the item in the file, after any history of gets and releases of the cached items.
Missing: when all nodes of the cache's shard for the key are held, then there is no room to load it, see `C13_full_violated`; and
the key `0x80000000` of a cached collection, see `C08_shard_violated`. The item may be one that was got from the same collection
before and not released, but not one of another collection, see `C13_reuse_violated`. -/
theorem C13_item_partial {file : CStr} {h : Header} {read : Reader} (w : WellFormed file h read) {cfg : Config} {c : Coll}
    (hc : Created file cfg h read c) {key : UInt32} {bytes : CStr} (hi : IsItem file h key bytes read) {fuel capacity : Nat}
    {s : State} {evs : List (Nat × Event UInt32 CStr)} (hcache : CacheOk file cfg h read fuel capacity s evs key)
    {item : Item} (hitem : second cfg = .file → Owns s.heap item) :
    ∃ g, c.get file fuel s key item = some g ∧ (Shows g bytes ∨ (second cfg = .cache ∧ Full capacity s.cache key evs)) := by
  have hr := isItem_readable w hi
  rcases hc with rfl | hc
  · rw [createFromMemory, Coll.get, getMemory]
    cases read with
    | fixed =>
      obtain ⟨w1, w2, w3, w4, w5⟩ := w
      obtain ⟨e1, e2⟩ := elementSize_pos w3 w4
      obtain ⟨i1, rfl⟩ := hi
      simp only [e1]
      rw [if_neg (by omega), if_pos (by rw [if_pos (by omega), w5]; exact i1)]
      refine ⟨_, rfl, .inl ⟨rfl, rfl, _, _, rfl, rfl, ?_⟩⟩
      rw [List.drop_drop, take_length_take]
    | «variable» n g =>
      obtain ⟨w1, w2, w3, w4⟩ := w
      have e1 : h.elementSize = 0 := by rw [Header.elementSize, if_pos w3]
      obtain ⟨i1, i2, rfl⟩ := hi
      simp only [e1]
      rw [if_pos trivial, if_pos i2]
      refine ⟨_, rfl, .inl ⟨rfl, rfl, _, _, rfl, rfl, ?_⟩⟩
      rw [List.drop_drop, take_length_take]
  · by_cases hl : 0 < cfg.loaded
    · obtain ⟨m, next, h1, h2, h3, h4, -⟩ := part_spec w hl
      rw [hc] at h1
      cases h1
      rw [Coll.get]
      unfold getPartial
      rcases h2 key bytes hi with ⟨k1, k2⟩ | ⟨k1, k2⟩
      · rw [if_pos (by exact k1)]
        exact ⟨_, rfl, .inl ⟨rfl, rfl, _, _, rfl, rfl, k2⟩⟩
      · rw [if_neg (by rw [Mem.bound] at k1; omega), k2]
        simp only
        obtain ⟨g, g1, g2⟩ := getBack_again hr fuel (second cfg) s item hitem hcache
        rw [g1]
        refine ⟨_, rfl, ?_⟩
        rcases g2 with ⟨a1, a3, a2⟩ | ⟨a1, a2⟩
        · left; refine ⟨a1, rfl, ?_⟩; rw [← a3] at a2; exact a2
        · exact .inr ⟨a1, a2⟩
    · rw [createFromFile, if_neg hl] at hc
      cases hc
      exact getBack_again hr fuel (second cfg) s item hitem hcache

/-- The exception for a key which is not in the collection. -/
def wantedError : Reader → Err
  | .fixed => .indexOutOfRange
  | .variable _ _ => .offsetOutOfRange

/-- C13: a get of a key outside of the collection reports that the index or the offset is out of range, leaves an item which
holds nothing, allocates nothing, and returns no pointer if there was none in the item, in all the ways to store the collection.
If all is in memory the item must have no memory of its own, for which see `C13_outside_owned`.
Missing: as above, when the nodes of the cache are all held; and for an item used before, see `C13_stale_violated`. -/
theorem C13_outside_partial {file : CStr} {h : Header} {read : Reader} (w : WellFormed file h read) {cfg : Config}
    {c : Coll} (hc : Created file cfg h read c) {key : UInt32} (hn : NotIn h key read) {fuel capacity : Nat}
    {s : State} {evs : List (Nat × Event UInt32 CStr)} (hcache : CacheOk file cfg h read fuel capacity s evs key)
    {item : Item} (hitem : ((∃ m, c = .memory m) ∨ ∃ m, c = .part m none) → item.allocated = 0) :
    ∃ g, c.get file fuel s key item = some g ∧ g.item.handle = none ∧ g.state.heap = s.heap ∧
      (item.ptr = none → g.ptr = none) ∧
      (g.err = some (wantedError read) ∨ (second cfg = .cache ∧ Full capacity s.cache key evs)) := by
  have ho := notIn_outside hn
  have hw : outsideError (fileColl h read) = wantedError read := by cases read <;> rfl
  have hexc : item.allocated = 0 → getExceptionSet s.heap item = some (s.heap, Item.new) := by
    intro hi
    rw [getExceptionSet, if_neg (by omega)]
  rcases hc with rfl | hc
  · replace hexc := hexc (hitem (.inl ⟨_, rfl⟩))
    rw [createFromMemory, Coll.get, getMemory]
    cases read with
    | fixed =>
      obtain ⟨w1, w2, w3, w4, w5⟩ := w
      obtain ⟨e1, e2⟩ := elementSize_pos w3 w4
      simp only [e1]
      rw [if_neg (by omega), if_neg (by rw [if_pos (by omega), w5]; exact Nat.not_lt.2 hn), hexc]
      exact ⟨_, rfl, rfl, rfl, fun _ => rfl, .inl rfl⟩
    | «variable» n g =>
      obtain ⟨w1, w2, w3, w4⟩ := w
      have e1 : h.elementSize = 0 := by rw [Header.elementSize, if_pos w3]
      simp only [e1]
      rw [if_pos trivial, if_neg (Nat.not_lt.2 hn), hexc]
      exact ⟨_, rfl, rfl, rfl, fun _ => rfl, .inl rfl⟩
  · by_cases hl : 0 < cfg.loaded
    · obtain ⟨m, next, h1, -, h3, h4, -⟩ := part_spec w hl
      rw [hc] at h1
      cases h1
      have h6 := part_elementSize hc
      have := h3 key hn
      rw [Coll.get]
      unfold getPartial
      rw [if_neg (by rw [Mem.bound] at this; omega)]
      cases hx : next with
      | none =>
        simp only
        rw [hexc (hitem (.inr ⟨m, by rw [hx]⟩))]
        refine ⟨_, rfl, rfl, rfl, fun _ => rfl, .inl ?_⟩
        simp only [h6]
        cases read with
        | fixed =>
          obtain ⟨w1, w2, w3, w4, w5⟩ := w
          obtain ⟨e1, e2⟩ := elementSize_pos w3 w4
          rw [e1, if_neg (by omega)]; rfl
        | «variable» n g =>
          obtain ⟨w1, w2, w3, w4⟩ := w
          have e1 : h.elementSize = 0 := by rw [Header.elementSize, if_pos w3]
          rw [if_pos e1]; rfl
      | some x =>
        have := h4 x hx
        subst this
        simp only
        obtain ⟨g, g1, -, g2, g3, g4, g5⟩ := getBack_outside ho fuel (second cfg) s item hcache
        rw [hw] at g5
        rw [g1]
        exact ⟨_, rfl, g3, g4, fun hp => g2.trans hp, g5⟩
    · rw [createFromFile, if_neg hl] at hc
      cases hc
      obtain ⟨g, g1, g2, -, g3, g4, g5⟩ := getBack_outside ho fuel (second cfg) s item hcache
      rw [hw] at g5
      exact ⟨g, g1, g3, g4, fun _ => g2, g5⟩

/-- C13: if the item has memory of its own, from an earlier get from a collection in the file, then a get of a key outside of
a collection that is all in memory frees that memory, and nothing else, and leaves an item as good as new. -/
theorem C13_outside_owned {file : CStr} {h : Header} {read : Reader} (w : WellFormed file h read) {cfg : Config}
    {c : Coll} (hc : Created file cfg h read c) (hall : (∃ m, c = .memory m) ∨ ∃ m, c = .part m none)
    {key : UInt32} (hn : NotIn h key read) {fuel : Nat} {s : State} {item : Item} {i : Nat} {b : CStr}
    (ha : 0 < item.allocated) (hp : item.ptr = some (.block i)) (hb : s.heap.block i = some b) :
    ∃ g, c.get file fuel s key item = some g ∧ g.err = some (wantedError read) ∧ g.ptr = none ∧
      g.item = ⟨none, 0, 0, none, none⟩ ∧ g.state.heap.block i = none ∧
      (∀ j, j ≠ i → g.state.heap.block j = s.heap.block j) ∧ g.state.cache = s.cache := by
  have hexc : ∃ h', getExceptionSet s.heap item = some (h', ⟨none, 0, 0, none, none⟩) ∧ h'.block i = none ∧
      ∀ j, j ≠ i → h'.block j = s.heap.block j := by
    refine ⟨{ s.heap with block := fun j => if j = i then none else s.heap.block j }, ?_, if_pos rfl, fun j hj => if_neg hj⟩
    rw [getExceptionSet, if_pos ha, hp]
    simp only [Heap.free, hb]
    rfl
  obtain ⟨h', hexc, hx, hy⟩ := hexc
  rcases hc with rfl | hc
  · rw [createFromMemory, Coll.get, getMemory]
    cases read with
    | fixed =>
      obtain ⟨w1, w2, w3, w4, w5⟩ := w
      obtain ⟨e1, e2⟩ := elementSize_pos w3 w4
      simp only [e1]
      rw [if_neg (by omega), if_neg (by rw [if_pos (by omega), w5]; exact Nat.not_lt.2 hn), hexc]
      exact ⟨_, rfl, rfl, rfl, rfl, hx, hy, rfl⟩
    | «variable» n g =>
      obtain ⟨w1, w2, w3, w4⟩ := w
      have e1 : h.elementSize = 0 := by rw [Header.elementSize, if_pos w3]
      simp only [e1]
      rw [if_pos trivial, if_neg (Nat.not_lt.2 hn), hexc]
      exact ⟨_, rfl, rfl, rfl, rfl, hx, hy, rfl⟩
  · by_cases hl : 0 < cfg.loaded
    · obtain ⟨m, next, h1, -, h3, h4, -⟩ := part_spec w hl
      rw [hc] at h1
      cases h1
      have h6 := part_elementSize hc
      have := h3 key hn
      rcases hall with ⟨m', hm⟩ | ⟨m', hm⟩
      · cases hm
      cases hm
      rw [Coll.get]
      unfold getPartial
      rw [if_neg (by rw [Mem.bound] at this; omega)]
      simp only
      rw [hexc]
      refine ⟨_, rfl, ?_, rfl, rfl, hx, hy, rfl⟩
      simp only [h6]
      cases read with
      | fixed =>
        obtain ⟨w1, w2, w3, w4, w5⟩ := w
        obtain ⟨e1, e2⟩ := elementSize_pos w3 w4
        rw [e1, if_neg (by omega)]; rfl
      | «variable» n g =>
        obtain ⟨w1, w2, w3, w4⟩ := w
        have e1 : h.elementSize = 0 := by rw [Header.elementSize, if_pos w3]
        rw [if_pos e1]; rfl
    · rw [createFromFile, if_neg hl] at hc
      cases hc
      rcases hall with ⟨m', hm⟩ | ⟨m', hm⟩ <;> cases hm

/-- C13: the number of items of a fixed size is the same in all the ways to store them. -/
theorem C13_count {file : CStr} {h : Header} (w : WellFormed file h .fixed) {cfg : Config} {c : Coll}
    (hc : Created file cfg h .fixed c) : c.getCount = h.count := by
  rcases hc with rfl | hc
  · obtain ⟨w1, w2, w3, w4, w5⟩ := w
    obtain ⟨e1, e2⟩ := elementSize_pos w3 w4
    rw [createFromMemory, Coll.getCount]
    simp only [e1]
    rw [if_pos (by omega), w5]
  · by_cases hl : 0 < cfg.loaded
    · obtain ⟨m, next, h1, -, -, h4, h5⟩ := part_spec w hl
      rw [hc] at h1
      cases h1
      cases hx : next with
      | none =>
        rw [Coll.getCount]
        refine h5 hx ?_
        obtain ⟨w1, w2, w3, w4, w5⟩ := w
        obtain ⟨e1, e2⟩ := elementSize_pos w3 w4
        have he := part_elementSize hc
        rw [he, e1]; omega
      | some x =>
        have := h4 x hx
        subst this
        rfl
    · rw [createFromFile, if_neg hl] at hc
      cases hc
      rfl

/-- C13: a header read from the data, with a number of items or of bytes and the size of an item, meets the conditions
on the counts: if the product fits in 32 bits and there is at least one item. -/
theorem C13_header (value elementSize start : Nat) (isCount : Bool) (he : 0 < elementSize)
    (hv : if isCount then 0 < value ∧ value * elementSize < 2 ^ 32 else elementSize ≤ value) :
    let h := header value elementSize isCount start
    0 < h.count ∧ h.count ≤ h.length ∧ h.length / (h.length / h.count) = h.count := by
  cases isCount with
  | true =>
    simp only [if_true] at hv
    simp only [header, if_true, Nat.mod_eq_of_lt hv.2]
    refine ⟨hv.1, Nat.le_mul_of_pos_right _ he, ?_⟩
    rw [Nat.mul_div_cancel_left _ hv.1, Nat.mul_div_cancel _ he]
  | false =>
    simp only [Bool.false_eq_true, if_false] at hv
    simp only [header, Bool.false_eq_true, if_false, if_pos he]
    have hc : 0 < value / elementSize := Nat.div_pos hv he
    refine ⟨hc, Nat.div_le_self _ _, ?_⟩
    have h1 : elementSize ≤ value / (value / elementSize) := by
      rw [Nat.le_div_iff_mul_le hc, Nat.mul_comm]; exact Nat.div_mul_le_self _ _
    apply Nat.le_antisymm
    · exact Nat.div_le_div_left h1 he
    · rw [Nat.le_div_iff_mul_le (by omega)]
      exact Nat.mul_div_le _ _

/-! ## Histories

What is asked of the cache above holds for a new cache, and all calls of the collection keep it. -/

/-- C13: getting items through the collection, whether that succeeds or not, and releasing them leaves the cache as the
theorems above need it. -/
theorem C13_history {file : CStr} {h : Header} {read : Reader} {cfg : Config} {c : Coll}
    (hc : createFromFile file cfg h read = some (some c)) {fuel capacity : Nat} {s : State}
    {evs : List (Nat × Event UInt32 CStr)} (hr : Reached file (fileColl h read) fuel capacity s.cache evs) :
    (∀ key item g, c.get file fuel s key item = some g →
      ∃ evs', Reached file (fileColl h read) fuel capacity g.state.cache evs') ∧
    (∀ item s' item', c.release fuel s item = some (s', item') →
      ∃ evs', Reached file (fileColl h read) fuel capacity s'.cache evs') := by
  have hget : ∀ b key item g, getBack file fuel b (fileColl h read) s key item = some g →
      ∃ evs', Reached file (fileColl h read) fuel capacity g.state.cache evs' := by
    intro b key item g hg
    cases b with
    | file =>
      rw [getBack, Option.map_eq_some_iff] at hg
      obtain ⟨r, -, rfl⟩ := hg
      exact ⟨evs, hr⟩
    | cache =>
      rw [getBack, Option.map_eq_some_iff] at hg
      obtain ⟨r, hg, rfl⟩ := hg
      rw [getFromCache] at hg
      cases hl : loader file (fileColl h read) key with
      | none => rw [hl] at hg; cases hg
      | some l =>
        rw [hl] at hg
        simp only at hg
        cases hs : cacheStep keyHash fuel s.cache (.get key l.1 l.2.isNone) with
        | none => rw [hs] at hg; cases hg
        | some q =>
          obtain ⟨q, i, e⟩ := q
          refine ⟨evs ++ [(i, e)], ?_⟩
          have hq : r.1 = q := by
            rw [hs] at hg
            have hf : ∀ n, (getFromCache.found item q i n).1 = q := by
              intro n; rw [getFromCache.found]; split <;> rfl
            rcases cacheStep_event hs with ⟨n, rfl⟩ | ⟨n, rfl⟩ | rfl
            · cases hg; exact hf n
            · obtain ⟨v, er⟩ := l
              cases er
              · cases hg; exact hf n
              · cases hg; rfl
            · cases hg; rfl
          rw [hq]
          exact reached_step hr hs (by intro k v ok hk; cases hk; exact ⟨_, hl, rfl⟩)
  have hrel : ∀ b item s' item', releaseBack fuel s item b = some (s', item') →
      ∃ evs', Reached file (fileColl h read) fuel capacity s'.cache evs' := by
    intro b item s' item' hg
    cases b with
    | file =>
      rw [releaseBack, Option.map_eq_some_iff] at hg
      obtain ⟨r, -, hg⟩ := hg
      cases hg
      exact ⟨evs, hr⟩
    | cache =>
      rw [releaseBack, Option.map_eq_some_iff] at hg
      obtain ⟨r, hg, hs'⟩ := hg
      cases hs'
      rw [releaseCache] at hg
      split at hg
      · cases hg; exact ⟨evs, hr⟩
      · rw [Option.map_eq_some_iff] at hg
        obtain ⟨q, hq, rfl⟩ := hg
        exact ⟨_, reached_step hr hq (fun _ _ _ hk => (nomatch hk))⟩
      · cases hg
  by_cases hl : 0 < cfg.loaded
  · have hpart : ∃ m next, c = .part m next ∧ ∀ b f, next = some (b, f) → f = fileColl h read := by
      rw [createFromFile, if_pos hl] at hc
      split at hc
      · cases hc
      · cases hc
      · split at hc
        · cases hc
        · simp only at hc
          split at hc
          · cases hc; exact ⟨_, _, rfl, fun b f hb => by cases hb; rfl⟩
          · cases hc; exact ⟨_, _, rfl, fun b f hb => (nomatch hb)⟩
    obtain ⟨m, next, rfl, hnext⟩ := hpart
    refine ⟨?_, ?_⟩
    · intro key item g hg
      rw [Coll.get] at hg
      unfold getPartial at hg
      generalize (if m.elementSize = 0 then m.size else m.count) = bound at hg
      by_cases hk : key.toNat < bound
      · rw [if_pos hk] at hg; cases hg; exact ⟨evs, hr⟩
      · rw [if_neg hk] at hg
        split at hg
        · rename_i b f
          cases hnext b f rfl
          rw [Option.map_eq_some_iff] at hg
          obtain ⟨r, hg, rfl⟩ := hg
          exact hget _ _ _ r hg
        · rw [Option.map_eq_some_iff] at hg
          obtain ⟨r, -, rfl⟩ := hg
          exact ⟨evs, hr⟩
    · intro item s' item' hg
      rw [Coll.release, releasePartial] at hg
      split at hg
      · cases hg; exact ⟨evs, hr⟩
      · split at hg
        · exact hrel _ _ _ _ hg
        · exact hrel _ _ _ _ hg
        · cases hg; exact ⟨evs, hr⟩
  · rw [createFromFile, if_neg hl] at hc
    cases hc
    exact ⟨fun key item g hg => hget _ _ _ _ hg, fun item s' item' hg => hrel _ _ _ _ hg⟩

/-! ## Releasing -/

theorem getMemory_ok {m : Mem} {s : State} {key : UInt32} {item : Item} {g : Got} (hg : getMemory m s key item = some g)
    (he : g.err = none) : g.state = s ∧ g.item.allocated = item.allocated ∧ g.item.handle = item.handle ∧
      g.item.owner = some .memory := by
  rw [getMemory] at hg
  split at hg
  · split at hg
    · cases hg; exact ⟨rfl, rfl, rfl, rfl⟩
    · rw [Option.map_eq_some_iff] at hg
      obtain ⟨r, -, rfl⟩ := hg
      cases he
  · split at hg
    · cases hg; exact ⟨rfl, rfl, rfl, rfl⟩
    · rw [Option.map_eq_some_iff] at hg
      obtain ⟨r, -, rfl⟩ := hg
      cases he

/-- C13: an item that was got can be released, through the collection it was asked from or through the one it says it is
from, which do the same. Then the item holds nothing, the memory is as before the get, no memory belongs to the item unless
the collection has a cache, and the nodes of the cache are held as often as before, so that getting and releasing items
never uses up the cache. -/
theorem C13_release {file : CStr} {h : Header} {read : Reader} (w : WellFormed file h read) {cfg : Config} {c : Coll}
    (hc : Created file cfg h read c) {key : UInt32} {bytes : CStr} (hi : IsItem file h key bytes read) {fuel capacity : Nat}
    {s : State} {evs : List (Nat × Event UInt32 CStr)} (hcache : CacheOk file cfg h read fuel capacity s evs key)
    {item : Item} (hitem : second cfg = .file → item.allocated = 0) (hhandle : item.handle = none)
    (hfresh : s.heap.block s.heap.next = none)
    (hroom : second cfg = .cache → ¬ Full capacity s.cache key evs) :
    ∃ g s' item', c.get file fuel s key item = some g ∧ Shows g bytes ∧
      c.release fuel g.state g.item = some (s', item') ∧ g.item.release fuel g.state = some (s', item') ∧
      item'.handle = none ∧ s'.heap.block = s.heap.block ∧ s.heap.next ≤ s'.heap.next ∧
      (second cfg = .file → item'.allocated = 0) ∧
      (second cfg = .cache → SameHeld file (fileColl h read) fuel capacity evs s.cache s'.cache) := by
  have hr := isItem_readable w hi
  have hsame : second cfg = .cache → SameHeld file (fileColl h read) fuel capacity evs s.cache s.cache :=
    fun h => ⟨rfl, evs, (hcache h).1, fun _ _ => rfl⟩
  have hback := getBack_item hr fuel (second cfg) s item hitem hcache
  rcases hc with rfl | hc
  · obtain ⟨g, g1, g2⟩ : ∃ g, (createFromMemory file h).get file fuel s key item = some g ∧ Shows g bytes :=  by
      obtain ⟨g, g1, g2⟩ := C13_item_partial w (cfg := cfg) (.inl rfl) hi hcache (item := item) (fun h => .inl (hitem h))
      refine ⟨g, g1, ?_⟩
      rcases g2 with g2 | ⟨a, b⟩
      · exact g2
      · exact absurd b (hroom a)
    have hg : g.state = s ∧ (second cfg = .file → g.item.allocated = 0) ∧ g.item.handle = none ∧ g.item.owner = some .memory := by
      obtain ⟨k1, k2, k3, k4⟩ := getMemory_ok g1 g2.1
      exact ⟨k1, fun h => k2.trans (hitem h), k3.trans hhandle, k4⟩
    obtain ⟨k1, k2, k3, k4⟩ := hg
    refine ⟨g, s, g.item, g1, g2, ?_, ?_, k3, rfl, Nat.le_refl _, k2, hsame⟩
    · rw [k1]; rfl
    · rw [Item.release, k4, k1]
  · obtain ⟨g, g1, g2⟩ := hback
    have g2 : Shows g bytes ∧ Released file (fileColl h read) fuel capacity evs (second cfg) s g := by
      rcases g2 with g2 | ⟨a, b, -⟩
      · exact g2
      · exact absurd b (hroom a)
    obtain ⟨⟨a1, a2, a3⟩, s', item', r1, r2, r3, r4, r8, r5, r6, r7⟩ := g2
    have hrel : ∀ g' : Got, g'.item = g.item → g'.state = g.state →
        g'.item.release fuel g'.state = some (s', item') ∧ releasePartial fuel g'.state g'.item = some (s', item') := by
      intro g' e1 e2
      rw [e1, e2, Item.release, releasePartial, if_neg r3, r2, ← r1]
      cases second cfg <;> exact ⟨rfl, rfl⟩
    by_cases hl : 0 < cfg.loaded
    · obtain ⟨m, next, h1, h2, -⟩ := part_spec w hl
      rw [hc] at h1
      cases h1
      rcases h2 key bytes hi with ⟨k1, k2⟩ | ⟨k1, k2⟩
      · let p := some (Ref.memory (m.bytes.drop (if m.elementSize = 0 then key.toNat else key.toNat * m.elementSize)))
        refine ⟨⟨s, ⟨p, m.elementSize, 0, none, some .memory⟩, p, none⟩, s, ⟨p, m.elementSize, 0, none, some .memory⟩, ?_,
          ⟨rfl, rfl, _, _, rfl, rfl, k2⟩, rfl, rfl, rfl, rfl, Nat.le_refl _, fun _ => rfl, hsame⟩
        rw [Coll.get]
        unfold getPartial
        rw [if_pos (by exact k1)]
      · refine ⟨{ g with ptr := g.item.ptr }, s', item', ?_, ⟨a1, rfl, ?_⟩, (hrel _ rfl rfl).2, (hrel _ rfl rfl).1, r4, r5 hfresh, r8,
          fun h => (r6 h).1, r7⟩
        · rw [Coll.get]
          unfold getPartial
          rw [if_neg (by rw [Mem.bound] at k1; omega), k2]
          simp only
          rw [g1]
          rfl
        · rw [← a2] at a3; exact a3
    · rw [createFromFile, if_neg hl] at hc
      cases hc
      exact ⟨g, s', item', g1, ⟨a1, a2, a3⟩, r1, (hrel g rfl rfl).1, r4, r5 hfresh, r8, fun h => (r6 h).1, r7⟩

/-- C13 fails: if the size of an item of variable size comes out smaller than the part that is read first, then the part read
first is written outside of the memory allocated for the item. -/
theorem C13_short_violated {file : CStr} {f : FileColl} {n : Nat} {g : CStr → Nat} (hf : f.read = .variable n g) (h : Heap)
    {key : UInt32} (hk : key.toNat < f.size) {initial : CStr} (hi : slice file (f.offset + key.toNat) n = some initial)
    (hs : g initial < n) {item : Item} (hitem : item.allocated = 0) : getFile file f h key item = none := by
  have hl := slice_length hi
  rw [getFile, readItem, hf]
  simp only
  rw [readVariable]
  simp only [hk, if_true]
  rw [readVariableAt, hi]
  simp only
  rw [dataMalloc_clean (by exact hitem)]
  simp only [Heap.malloc, Heap.write, if_true, List.length_replicate]
  rw [if_neg (by omega)]

/-- A string with the length −2 in its first two bytes, in a file collection. -/
example : getFile [254, 255, 1, 2] ⟨0, 4, 0, 0, .variable 2 fun b => ((b.headD 0).toNat + 2 + 256 * 0) % 256⟩ ⟨0, fun _ => none⟩ 0
    Item.new = none := C13_short_violated rfl _ (by decide) (initial := [254, 255]) (by decide) (by decide) rfl

/-! ## Concrete runs -/

/-- Get an item, or release it; items are numbered. -/
inductive Act where
  | get (item : Nat) (key : UInt32)
  | release (item : Nat)

/-- One call on a collection: the bytes at the pointer returned, and the exception. -/
def act (file : CStr) (fuel : Nat) (c : Coll) (s : State) (items : Nat → Item) :
    Act → UB (State × (Nat → Item) × List (Option CStr × Option Err))
  | .get i key => (c.get file fuel s key (items i)).map fun g =>
      (g.state, fun j => if j = i then g.item else items j, [(g.ptr.bind (view g.state), g.err)])
  | .release i => (c.release fuel s (items i)).map fun r => (r.1, fun j => if j = i then r.2 else items j, [])

/-- What a series of calls returns. -/
def play (file : CStr) (fuel : Nat) : State → (Nat → Item) → List (Coll × Act) → UB (List (Option CStr × Option Err))
  | _, _, [] => some []
  | s, items, (c, a) :: more =>
    match act file fuel c s items a with
    | none => none
    | some (s, items, out) => (play file fuel s items more).map (out ++ ·)

/-- Any memory to put a shard in. -/
def someMemory : Cache.Shard CStr where
  tree := ⟨fun _ => 7, fun _ => .null, fun _ => .root, fun _ => .null, fun _ => .red⟩
  capacity := 9
  allocated := 3
  first := some 4
  last := some 2
  next := fun n => some n
  prev := fun _ => none
  active := fun _ => 5
  data := fun _ => []

/-- Play from the start, with a cache of one shard of `capacity` nodes. -/
def playNew (file : CStr) (capacity : Nat) (acts : List (Coll × Act)) : UB (List (Option CStr × Option Err)) :=
  match Cache.shardInit [] capacity someMemory with
  | none => none
  | some s => play file 12 ⟨⟨0, fun _ => none⟩, ⟨1, fun _ => s, 0, 0⟩⟩ (fun _ => Item.new) acts

/-- The collection created from the file in a configuration. -/
def made (file : CStr) (cfg : Config) (h : Header) (read : Reader) : Coll :=
  match createFromFile file cfg h read with
  | some (some c) => c
  | _ => .part ⟨[], 0, 0, 0⟩ none

/-- The size of a string with its length in the first byte. -/
def lengthByte : CStr → Nat
  | n :: _ => n.toNat + 1
  | [] => 0

/-- A file with four items of two bytes from position 1. -/
def fixedFile : CStr := c!"!aabbccdd"

/-- A file with strings of 3, 1 and 2 bytes. -/
def stringFile : CStr := [9, 3, 97, 98, 99, 1, 100, 2, 101, 102]

example : WellFormed fixedFile ⟨1, 8, 4⟩ .fixed := by
  refine ⟨?_, ?_⟩ <;> decide +kernel

example : IsItem fixedFile ⟨1, 8, 4⟩ 2 c!"cc" .fixed := by
  refine ⟨?_, ?_⟩ <;> decide +kernel

/-- The offsets of the three strings, and the end. -/
theorem stringFile_start {off : Nat} (h : Start stringFile ⟨1, 9, 0⟩ 1 lengthByte off) : off = 0 ∨ off = 4 ∨ off = 6 ∨ off = 9 := by
  induction h with
  | zero => exact .inl rfl
  | next off _ hl ih =>
    rcases ih with rfl | rfl | rfl | rfl
    · exact .inr (.inl rfl)
    · exact .inr (.inr (.inl rfl))
    · exact .inr (.inr (.inr rfl))
    · exact absurd hl (by decide)

example : WellFormed stringFile ⟨1, 9, 0⟩ (.variable 1 lengthByte) := by
  refine ⟨by decide, by decide, rfl, ?_⟩
  intro off h hl
  rcases stringFile_start h with rfl | rfl | rfl | rfl
  · decide
  · decide
  · decide
  · exact absurd hl (by decide)

example : IsItem stringFile ⟨1, 9, 0⟩ 4 [1, 100] (.variable 1 lengthByte) :=
  ⟨.next 0 .zero (by decide), by decide, by decide⟩

/-- The same items from the file, partly loaded, cached, and partly loaded and cached; index 4 is outside. -/
example : ([⟨0, 0, 0⟩, ⟨2, 0, 0⟩, ⟨0, 2, 1⟩, ⟨2, 2, 1⟩].map fun cfg : Config =>
    let c := made fixedFile cfg ⟨1, 8, 4⟩ .fixed
    (playNew fixedFile 2 [(c, .get 0 3), (c, .release 0), (c, .get 1 2), (c, .release 1), (c, .get 2 3), (c, .release 2),
      (c, .get 3 4)]).map fun out => out.map fun r => (r.1.map (·.take 2), r.2.isSome)) =
    List.replicate 4 (some [(some c!"dd", false), (some c!"cc", false), (some c!"dd", false), (none, true)]) := by
  decide +kernel

example : ([⟨0, 0, 0⟩, ⟨2, 0, 0⟩, ⟨0, 2, 1⟩, ⟨1, 2, 1⟩].map fun cfg : Config =>
    let c := made stringFile cfg ⟨1, 9, 0⟩ (.variable 1 lengthByte)
    (playNew stringFile 2 [(c, .get 0 6), (c, .release 0), (c, .get 1 0), (c, .release 1), (c, .get 2 9)]).map fun out =>
      out.map fun r => (r.1.map (·.take 3), r.2.isSome)) =
    List.replicate 4 (some [(some [2, 101, 102], false), (some [3, 97, 98], false), (none, true)]) := by
  decide +kernel

/-- A collection in the file gives an item memory of its own, which is freed when the item is used, without being released,
for a get of a key outside of one in memory. -/
example :
    let f := made fixedFile ⟨0, 0, 0⟩ ⟨1, 8, 4⟩ .fixed
    let m := made fixedFile ⟨5, 0, 0⟩ ⟨1, 8, 4⟩ .fixed
    playNew fixedFile 1 [(f, .get 0 2), (m, .get 0 9)] =
      some [(some c!"cc", none), (none, some .indexOutOfRange)] := by
  decide +kernel

/-- When all nodes of the cache are held, a get of another item returns NULL, and no exception. -/
theorem C13_full_violated :
    let c := made fixedFile ⟨0, 1, 1⟩ ⟨1, 8, 4⟩ .fixed
    playNew fixedFile 1 [(c, .get 0 1), (c, .get 1 2)] = some [(some c!"bb", none), (none, none)] := by
  decide +kernel

/-- If the collection is also partly loaded and the item was used before, then such a get of item 2 succeeds with the
pointer to item 0. -/
theorem C13_stale_violated :
    let c := made fixedFile ⟨1, 1, 1⟩ ⟨1, 8, 4⟩ .fixed
    playNew fixedFile 1 [(c, .get 0 1), (c, .get 1 0), (c, .release 1), (c, .get 1 2)] =
      some [(some c!"bb", none), (some c!"aa", none), (some c!"aa", none)] := by
  decide +kernel

/-- When a read fails, the item keeps the pointer to the freed memory, and its next use writes there. The file is one byte
short. -/
theorem C13_dangling_violated :
    let c := made c!"!aab" ⟨0, 0, 0⟩ ⟨1, 4, 2⟩ .fixed
    playNew c!"!aab" 1 [(c, .get 0 1)] = some [(none, some .fileReadFail)] ∧
    playNew c!"!aab" 1 [(c, .get 1 0)] = some [(some c!"aa", none)] ∧
    playNew c!"!aab" 1 [(c, .get 0 1), (c, .get 0 0)] = none := by
  decide +kernel

/-- An item used with a cached collection and released still refers to the node's memory: its next use with a collection
in the file writes there. -/
theorem C13_reuse_violated :
    let c := made fixedFile ⟨0, 1, 1⟩ ⟨1, 8, 4⟩ .fixed
    let f := made fixedFile ⟨0, 0, 0⟩ ⟨1, 8, 4⟩ .fixed
    playNew fixedFile 1 [(f, .get 0 2), (f, .release 0), (c, .get 0 1), (c, .release 0)] =
      some [(some c!"cc", none), (some c!"bb", none)] ∧
    playNew fixedFile 1 [(c, .get 0 1), (c, .release 0), (f, .get 0 2)] = none := by
  decide +kernel

/-- The conditions on the cache are met from the start. -/
example : ∃ s : State, CacheOk fixedFile ⟨0, 2, 1⟩ ⟨1, 8, 4⟩ .fixed 12 2 s [] 3 ∧ ¬ Full 2 s.cache 3 [] := by
  obtain ⟨start, h1, -⟩ := Cache.shardInit_spec (K := UInt32) keyHash [] 2 someMemory
  refine ⟨⟨⟨0, fun _ => none⟩, ⟨1, fun _ => start, 0, 0⟩⟩, fun _ => ⟨⟨by show 2 * Nat.log2 3 + 2 ≤ 12; decide,
    Nat.one_pos, _, [], ⟨rfl, rfl, fun i _ => ⟨[], someMemory, h1⟩⟩, rfl, fun _ _ _ h => (nomatch h)⟩, by decide⟩, ?_⟩
  rintro ⟨i, -, h⟩
  exact h 0 (by decide) rfl

example : (0 : Nat) < (header 5 3 true 7).count ∧ (header 5 3 true 7).length = 15 := by decide +kernel

end Verif.Collection
