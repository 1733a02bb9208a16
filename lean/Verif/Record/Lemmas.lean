import Verif.Record.Model
import Verif.Component.Props
import Verif.Profile.Props

/-! # Lemmas about records and searches -/

namespace Verif.Record

open Verif.Collection
open Verif.Cache (Event eventsOf held)

/-! ## Borrowing an item -/

/-- The memory not yet handed out is free, and the cache, if there is one, has been used through the collection only and has a
node in every shard which nobody holds. -/
def Ready (file : CStr) (cfg : Config) (h : Header) (read : Reader) (fuel capacity : Nat) (s : State)
    (evs : List (Nat × Event UInt32 CStr)) : Prop :=
  (∀ j, s.heap.next ≤ j → s.heap.block j = none) ∧
  (second cfg = .cache → Reached file (fileColl h read) fuel capacity s.cache evs ∧
    ∀ i, i < s.cache.concurrency → ∃ n, n < capacity ∧ held n (eventsOf i evs) = 0)

/-- The item can be used for a get. -/
def ItemOk (cfg : Config) (item : Item) : Prop := (second cfg = .file → item.allocated = 0) ∧ item.handle = none

/-- Nothing was taken or given back in between: the same memory is allocated, and the same nodes of the cache are held. -/
def Kept (file : CStr) (cfg : Config) (h : Header) (read : Reader) (fuel capacity : Nat) (evs : List (Nat × Event UInt32 CStr))
    (s s' : State) : Prop :=
  s'.heap.block = s.heap.block ∧ s.heap.next ≤ s'.heap.next ∧
  (second cfg = .cache → SameHeld file (fileColl h read) fuel capacity evs s.cache s'.cache)

variable {file : CStr} {cfg : Config} {h : Header} {read : Reader} {fuel capacity : Nat} {s s' : State}
  {evs : List (Nat × Event UInt32 CStr)}

theorem Kept.refl (rd : Ready file cfg h read fuel capacity s evs) : Kept file cfg h read fuel capacity evs s s :=
  ⟨rfl, Nat.le_refl _, fun hc => ⟨rfl, evs, (rd.2 hc).1, fun _ _ => rfl⟩⟩

theorem Kept.ready (rd : Ready file cfg h read fuel capacity s evs) (k : Kept file cfg h read fuel capacity evs s s') :
    ∃ evs', Ready file cfg h read fuel capacity s' evs' ∧
      ∀ s'', Kept file cfg h read fuel capacity evs' s' s'' → Kept file cfg h read fuel capacity evs s s'' := by
  obtain ⟨r1, r2⟩ := rd
  obtain ⟨k1, k2, k3⟩ := k
  have hfresh : ∀ j, s'.heap.next ≤ j → s'.heap.block j = none := by
    intro j hj; rw [k1]; exact r1 j (by omega)
  by_cases hc : second cfg = .cache
  · obtain ⟨e1, evs', e2, e3⟩ := k3 hc
    obtain ⟨-, r3⟩ := r2 hc
    refine ⟨evs', ⟨hfresh, fun _ => ⟨e2, ?_⟩⟩, ?_⟩
    · intro i hi
      obtain ⟨n, h1, h2⟩ := r3 i (by omega)
      exact ⟨n, h1, by rw [e3]; exact h2⟩
    · rintro s'' ⟨q1, q2, q3⟩
      refine ⟨q1.trans k1, by omega, fun _ => ?_⟩
      obtain ⟨f1, evs'', f2, f3⟩ := q3 hc
      exact ⟨f1.trans e1, evs'', f2, fun j m => (f3 j m).trans (e3 j m)⟩
  · refine ⟨[], ⟨hfresh, fun hx => absurd hx hc⟩, ?_⟩
    rintro s'' ⟨q1, q2, -⟩
    exact ⟨q1.trans k1, by omega, fun hx => absurd hx hc⟩

theorem notFull (rd : Ready file cfg h read fuel capacity s evs) {key : UInt32} (hk : second cfg = .cache → key ≠ 0x80000000)
    (hc : second cfg = .cache) : ¬ Full capacity s.cache key evs := by
  rintro ⟨i, h1, h2⟩
  obtain ⟨r1, r2⟩ := rd.2 hc
  obtain ⟨j, j1, j2, j3⟩ := Cache.C08_shard_partial s.cache.concurrency r1.shards (keyHash key) (keyHash_range (hk hc))
  rw [h1] at j1
  cases j1
  obtain ⟨n, n1, n2⟩ := r2 i.toNat (by omega)
  exact h2 n n1 n2

/-- An item can be got and released, and all is as before. -/
theorem borrow (w : WellFormed file h read) {c : Coll} (hc : Created file cfg h read c) {key : UInt32} {bytes : CStr}
    (hi : IsItem file h key bytes read) (hk : second cfg = .cache → key ≠ 0x80000000)
    (rd : Ready file cfg h read fuel capacity s evs) {item : Item} (io : ItemOk cfg item) :
    ∃ g s' item', c.get file fuel s key item = some g ∧ Shows g bytes ∧ c.release fuel g.state g.item = some (s', item') ∧
      g.item.release fuel g.state = some (s', item') ∧ ItemOk cfg item' ∧ Kept file cfg h read fuel capacity evs s s' := by
  obtain ⟨g, s', item', h1, h2, h3, h4, h5, h6, h7, h8, h9⟩ :=
    C13_release w hc hi (fun hx => ⟨(rd.2 hx).1, hk hx⟩) (item := item) io.1 io.2 (rd.1 _ (Nat.le_refl _)) (notFull rd hk)
  exact ⟨g, s', item', h1, h2, h3, h4, ⟨h8, h5⟩, h6, h7, h9⟩

theorem Shows.bytesAt {g : Got} {bytes : CStr} (hs : Shows g bytes) :
    ∃ tail, bytesAt g.state g.item = some (bytes ++ tail) := by
  obtain ⟨-, h1, ref, b, h2, h3, h4⟩ := hs
  refine ⟨b.drop bytes.length, ?_⟩
  rw [Record.bytesAt, h1, h2]
  simp only [Option.bind_some, h3, Option.some.injEq]
  conv => lhs; rw [← List.take_append_drop bytes.length b, h4]

/-! ## Searching -/

/-- The items as the abstract search sees them. -/
def listColl (items : List CStr) (cmp : CStr → Int) : Search.Coll CStr := ⟨fun i => items[i]?, fun b _ => some (cmp b), fun _ => true⟩

/-- The search through a collection does what the search through the list of its items does. -/
theorem searchLoop_spec (w : WellFormed file h read) {c : Coll} (hc : Created file cfg h read c) {items : List CStr}
    (hitems : ∀ i b, items[i]? = some b → IsItem file h (UInt32.ofNat i) b read)
    (hkey : second cfg = .cache → items.length ≤ 2 ^ 31) {cmp : CStr → UB Int} {order : CStr → Int}
    (hcmp : ∀ b tail, b ∈ items → cmp (b ++ tail) = some (order b)) :
    ∀ (rounds : Nat) (s : State) (evs : List (Nat × Event UInt32 CStr)) (item : Item) (l u : Nat) (t : List Nat) (o : Search.Out),
      Ready file cfg h read fuel capacity s evs → ItemOk cfg item →
      Search.loop (listColl items order) rounds l u t = some o → o.error = false →
      ∃ s' item', searchLoop file fuel c cmp rounds s item l u = some (o.ret, s', item', none) ∧
        ((o.held = none ∧ Kept file cfg h read fuel capacity evs s s') ∨
         (∃ i b tail s'' item'', o.held = some i ∧ items[i]? = some b ∧ Record.bytesAt s' item' = some (b ++ tail) ∧
            c.release fuel s' item' = some (s'', item'') ∧ Kept file cfg h read fuel capacity evs s s'')) := by
  intro rounds
  induction rounds with
  | zero => intro s evs item l u t o _ _ hl; cases hl
  | succ rounds ih =>
    intro s evs item l u t o rd io hl he
    rw [searchLoop]
    rw [Search.loop] at hl
    by_cases hle : l ≤ u
    · rw [if_pos hle] at hl ⊢
      simp only at hl ⊢
      generalize hm : l + (u - l) / 2 = m at hl ⊢
      cases hg : items[m]? with
      | none =>
        simp only [listColl, hg] at hl
        cases hl
        cases he
      | some b =>
        have hmem := List.mem_of_getElem? hg
        have hlt : m < items.length := (List.getElem?_eq_some_iff.1 hg).1
        have hk : second cfg = .cache → UInt32.ofNat m ≠ 0x80000000 := by
          intro hx hy
          have hlen := hkey hx
          have := congrArg UInt32.toNat hy
          rw [UInt32.toNat_ofNat'] at this
          have e : (0x80000000 : UInt32).toNat = 2 ^ 31 := rfl
          rw [e] at this
          omega
        obtain ⟨g, s1, item1, g1, g2, g3, -, g5, g6⟩ := borrow w hc (hitems m b hg) hk rd io
        obtain ⟨tail, g7⟩ := Shows.bytesAt g2
        have hptr : ¬ (g.ptr = none ∨ g.err ≠ none) := by
          obtain ⟨q1, q2, ref, q3, q4, -⟩ := g2
          rw [q1, q4]; simp
        rw [g1]
        simp only
        rw [if_neg hptr, g7]
        simp only [Option.bind_some, hcmp b tail hmem]
        simp only [listColl, hg] at hl
        by_cases h0 : order b = 0
        · rw [if_pos h0] at hl ⊢
          cases hl
          exact ⟨_, _, rfl, .inr ⟨m, b, tail, s1, item1, rfl, hg, g7, g3, g6⟩⟩
        · rw [if_neg h0] at hl ⊢
          rw [g3]
          simp only
          obtain ⟨evs1, rd1, kt⟩ := Kept.ready rd g6
          have fin : ∀ l' u', Search.loop (listColl items order) rounds l' u' (t ++ [m]) = some o →
              ∃ s' item', searchLoop file fuel c cmp rounds s1 item1 l' u' = some (o.ret, s', item', none) ∧
                ((o.held = none ∧ Kept file cfg h read fuel capacity evs s s') ∨
                 (∃ i b tail s'' item'', o.held = some i ∧ items[i]? = some b ∧ Record.bytesAt s' item' = some (b ++ tail) ∧
                    c.release fuel s' item' = some (s'', item'') ∧ Kept file cfg h read fuel capacity evs s s'')) := by
            intro l' u' hl'
            obtain ⟨s', item', e1, e2⟩ := ih s1 evs1 item1 l' u' _ o rd1 g5 hl' he
            refine ⟨s', item', e1, ?_⟩
            rcases e2 with ⟨a1, a2⟩ | ⟨i, b', tail', s'', item'', a1, a2, a3, a4, a5⟩
            · exact .inl ⟨a1, kt _ a2⟩
            · exact .inr ⟨i, b', tail', s'', item'', a1, a2, a3, a4, kt _ a5⟩
          by_cases hgt : order b > 0
          · rw [if_pos hgt] at hl ⊢
            by_cases hz : m ≠ 0
            · rw [if_pos hz] at hl ⊢
              exact fin _ _ hl
            · rw [if_neg hz] at hl ⊢
              exact fin _ _ hl
          · rw [if_neg hgt] at hl ⊢
            exact fin _ _ hl
    · rw [if_neg hle] at hl ⊢
      cases hl
      exact ⟨s, item, rfl, .inl ⟨rfl, Kept.refl rd⟩⟩

/-! ## Records one after the other -/

/-- Where record `i` starts. -/
def startOf {α : Type} (enc : α → CStr) (rs : List α) (i : Nat) : Nat := ((rs.take i).flatMap enc).length

/-- The reader finds the size of the record in its first `n` bytes. -/
def Sized {α : Type} (enc : α → CStr) (n : Nat) (g : CStr → Nat) (r : α) : Prop :=
  n ≤ (enc r).length ∧ 0 < (enc r).length ∧ g ((enc r).take n) = (enc r).length

variable {α : Type} {enc : α → CStr} {n : Nat} {g : CStr → Nat} {pre post : CStr} {rs : List α}

theorem startOf_succ {i : Nat} {r : α} (hi : rs[i]? = some r) :
    startOf enc rs (i + 1) = startOf enc rs i + (enc r).length := by
  obtain ⟨hlt, rfl⟩ := List.getElem?_eq_some_iff.1 hi
  rw [startOf, startOf, List.take_succ_eq_append_getElem hlt, List.flatMap_append, List.length_append]
  simp

theorem startOf_split {i : Nat} {r : α} (hi : rs[i]? = some r) :
    ∃ a, rs.flatMap enc = a ++ (enc r ++ (rs.drop (i + 1)).flatMap enc) ∧ a.length = startOf enc rs i := by
  obtain ⟨hlt, rfl⟩ := List.getElem?_eq_some_iff.1 hi
  refine ⟨(rs.take i).flatMap enc, ?_, rfl⟩
  conv => lhs; rw [← List.take_append_drop i rs, List.drop_eq_getElem_cons hlt, List.flatMap_append, List.flatMap_cons]

theorem startOf_le (i : Nat) : startOf enc rs i ≤ (rs.flatMap enc).length := by
  rw [startOf]
  conv => rhs; rw [← List.take_append_drop i rs, List.flatMap_append, List.length_append]
  omega

theorem drop_record {i : Nat} {r : α} (hi : rs[i]? = some r) :
    (pre ++ (rs.flatMap enc ++ post)).drop (pre.length + startOf enc rs i) =
      enc r ++ ((rs.drop (i + 1)).flatMap enc ++ post) := by
  obtain ⟨a, h1, h2⟩ := startOf_split (enc := enc) hi
  rw [← List.drop_drop, List.drop_left, h1, ← h2, List.append_assoc, List.drop_left, List.append_assoc]

theorem record_sizeAt {i : Nat} {r : α} (hi : rs[i]? = some r) (hs : Sized enc n g r) :
    sizeAt (pre ++ (rs.flatMap enc ++ post)) ⟨pre.length, (rs.flatMap enc).length, 0⟩ n g (startOf enc rs i) = (enc r).length := by
  rw [sizeAt]
  simp only
  rw [drop_record hi, List.take_append_of_le_length hs.1, hs.2.2]

theorem record_start (hs : ∀ r ∈ rs, Sized enc n g r) {off : Nat}
    (h : Start (pre ++ (rs.flatMap enc ++ post)) ⟨pre.length, (rs.flatMap enc).length, 0⟩ n g off) :
    ∃ i, i ≤ rs.length ∧ off = startOf enc rs i := by
  induction h with
  | zero => exact ⟨0, Nat.zero_le _, by simp [startOf]⟩
  | next off _ hl ih =>
    obtain ⟨i, h1, rfl⟩ := ih
    have hlt : i < rs.length := by
      rcases Nat.lt_or_ge i rs.length with h | h
      · exact h
      · simp only [startOf, List.take_of_length_le h] at hl; omega
    have hi : rs[i]? = some rs[i] := List.getElem?_eq_getElem hlt
    refine ⟨i + 1, hlt, ?_⟩
    rw [record_sizeAt hi (hs _ (List.getElem_mem _)), startOf_succ hi]

theorem start_record (hs : ∀ r ∈ rs, Sized enc n g r) : ∀ i, i ≤ rs.length →
    Start (pre ++ (rs.flatMap enc ++ post)) ⟨pre.length, (rs.flatMap enc).length, 0⟩ n g (startOf enc rs i) := by
  intro i
  induction i with
  | zero => intro _; simp only [startOf, List.take_zero, List.flatMap_nil, List.length_nil]; exact .zero
  | succ i ih =>
    intro h
    have hi : rs[i]? = some rs[i] := List.getElem?_eq_getElem (by omega)
    have hp := (hs _ (List.getElem_mem (by omega : i < rs.length))).2.1
    have := startOf_succ (enc := enc) hi
    have hle := startOf_le (enc := enc) (rs := rs) (i + 1)
    have h2 := Start.next _ (ih (by omega)) (by simp only; omega)
    rw [record_sizeAt hi (hs _ (List.getElem_mem _)), ← this] at h2
    exact h2

/-- Records one after the other are a well formed collection, and each is an item of it. -/
theorem records (hs : ∀ r ∈ rs, Sized enc n g r) (hlen : (rs.flatMap enc).length < 2 ^ 32) :
    let file := pre ++ (rs.flatMap enc ++ post)
    let h : Header := ⟨pre.length, (rs.flatMap enc).length, 0⟩
    WellFormed file h (.variable n g) ∧
    ∀ i r, rs[i]? = some r → IsItem file h (UInt32.ofNat (startOf enc rs i)) (enc r) (.variable n g) := by
  intro file h
  have hlt : ∀ i r, rs[i]? = some r → startOf enc rs i + (enc r).length ≤ (rs.flatMap enc).length := by
    intro i r hi
    rw [← startOf_succ hi]; exact startOf_le _
  refine ⟨⟨by simp [file, h], hlen, rfl, ?_⟩, ?_⟩
  · intro off ho hl
    obtain ⟨i, h1, rfl⟩ := record_start hs ho
    have hi : i < rs.length := by
      rcases Nat.lt_or_ge i rs.length with h2 | h2
      · exact h2
      · simp only [h, startOf, List.take_of_length_le h2] at hl; omega
    have hi2 : rs[i]? = some rs[i] := List.getElem?_eq_getElem hi
    have hz := hs _ (List.getElem_mem hi)
    rw [record_sizeAt hi2 hz]
    exact ⟨hz.1, hz.2.1, hlt i _ hi2⟩
  · intro i r hi
    obtain ⟨hl, rfl⟩ := List.getElem?_eq_some_iff.1 hi
    have hz := hs _ (List.getElem_mem hl)
    have := hlt i _ hi
    have hp := hz.2.1
    have e : (UInt32.ofNat (startOf enc rs i)).toNat = startOf enc rs i := by
      rw [UInt32.toNat_ofNat']; omega
    refine ⟨?_, ?_, ?_⟩
    · rw [e]; exact start_record hs i (by omega)
    · rw [e]; simp only [h]; omega
    · rw [e, record_sizeAt hi hz]
      simp only [file, h]
      rw [drop_record hi, List.take_left]

theorem flatMap_length_const {k : Nat} (hk : ∀ r ∈ rs, (enc r).length = k) : (rs.flatMap enc).length = rs.length * k := by
  induction rs with
  | nil => simp
  | cons r rs ih =>
    rw [List.flatMap_cons, List.length_append, hk r (by simp), ih fun x hx => hk x (by simp [hx]), List.length_cons,
      Nat.succ_mul]
    omega

/-- Records of the same size one after the other are a well formed collection, and each is an item of it. -/
theorem fixedRecords {k : Nat} (hpos : 0 < k) (hne : rs ≠ []) (hk : ∀ r ∈ rs, (enc r).length = k)
    (hlen : (rs.flatMap enc).length < 2 ^ 32) :
    let file := pre ++ (rs.flatMap enc ++ post)
    let h : Header := ⟨pre.length, (rs.flatMap enc).length, rs.length⟩
    WellFormed file h .fixed ∧ ∀ i r, rs[i]? = some r → IsItem file h (UInt32.ofNat i) (enc r) .fixed := by
  intro file h
  have hc : 0 < rs.length := List.length_pos_iff.2 hne
  have hl := flatMap_length_const hk
  have hdiv : h.length / h.count = k := by
    simp only [h, hl]; exact Nat.mul_div_cancel_left _ hc
  have hle : rs.length ≤ rs.length * k := Nat.le_mul_of_pos_right _ hpos
  refine ⟨⟨by simp [file, h], hlen, hc, by simp only [h, hl]; exact hle, ?_⟩, ?_⟩
  · rw [hdiv]; simp only [h, hl]; exact Nat.mul_div_cancel _ hpos
  · intro i r hi
    obtain ⟨hlt, rfl⟩ := List.getElem?_eq_some_iff.1 hi
    have e : (UInt32.ofNat i).toNat = i := by rw [UInt32.toNat_ofNat']; omega
    have hst : startOf enc rs i = i * k := by
      rw [startOf, flatMap_length_const fun r hr => hk r (List.mem_of_mem_take hr), List.length_take, Nat.min_eq_left (by omega)]
    refine ⟨by rw [e]; exact hlt, ?_⟩
    rw [e, hdiv]
    simp only [file, h]
    rw [← hst, drop_record hi, ← hk _ (List.getElem_mem hlt), List.take_left]

end Verif.Record
