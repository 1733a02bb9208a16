import Verif.Record.Names
import Verif.Lookup.Props

/-! # C81: a value by its name, over collections of any kind -/

namespace Verif.Record

open Verif.Collection
open Verif.Component (read16 read32 le32 read32_le)
open Verif.Cache (Event eventsOf held)
open Verif.Profile (Property)
open Verif.Lookup (Name Env)

/-! ## Model -/

/-- What a search leaves: the value returned, the states of the collection searched and of the strings, the item, and the
exception. -/
structure SearchEnd where
  ret : Int
  values : State
  item : Item
  strings : State
  err : Option Err

/-- The loop of `fiftyoneDegreesCollectionBinarySearch`, collection.c:1189-1224, with a comparer that uses a second collection and
may set an exception: then the item is not released. -/
def searchWith (file : CStr) (fuel : Nat) (c : Coll) (cmp : CStr → State → UB (Int × State × Option Err)) :
    Nat → State → Item → State → Nat → Nat → UB SearchEnd
  | 0, _, _, _, _, _ => none
  | rounds + 1, s, item, t, lower, upper =>
    if lower ≤ upper then
      let middle := lower + (upper - lower) / 2
      match c.get file fuel s (UInt32.ofNat middle) item with
      | none => none
      | some g =>
        if g.ptr = none ∨ g.err ≠ none then some ⟨0, g.state, g.item, t, g.err⟩
        else
          match (bytesAt g.state g.item).bind (cmp · t) with
          | none => none
          | some (r, t, e) =>
            if e ≠ none then some ⟨0, g.state, g.item, t, e⟩
            else if r = 0 then some ⟨middle, g.state, g.item, t, none⟩
            else
              match c.release fuel g.state g.item with
              | none => none
              | some (s, item) =>
                if r > 0 then
                  if middle ≠ 0 then searchWith file fuel c cmp rounds s item t lower (middle - 1)
                  else searchWith file fuel c cmp rounds s item t ((lower + 1) % 2 ^ 32) upper
                else searchWith file fuel c cmp rounds s item t ((middle + 1) % 2 ^ 32) upper
    else some ⟨-1, s, item, t, none⟩

/-- What the switch of `compareValueByName`, value.c:138-148, makes of the memory of a string (string.h:76-84, 111-121): a pair of
floats, the bytes of an address, or a text. Simplified: an address of no or negative length and one longer than its memory are
undefined. -/
def storedName (bytes : CStr) : UB Name := do
  let first ← bytes[2]?
  if first = 1 then some (.coordinate ((bytes.drop 3).take 4) ((bytes.drop 7).take 4))
  else if first = 2 then do
    let size ← read16 bytes 0
    if 1 ≤ size ∧ size < 2 ^ 15 ∧ size - 1 ≤ (bytes.drop 3).length then some (.ip ((bytes.drop 3).take (size - 1))) else none
  else (cstr (bytes.drop 2)).map .text

/-- `compareValueByName`, value.c:127-153, on the bytes of a value, whose name's offset is 2 bytes into it (value.h:71-81); the
comparisons are those of `Verif/Lookup/Model.lean`. Without a name the result is 0. -/
def compareValue (file : CStr) (fuel : Nat) (strings : Coll) (e : Env) (target : CStr) (bytes : CStr) (t : State) :
    UB (Int × State × Option Err) := do
  let o ← read32 bytes 2
  let p ← strings.get file fuel t (UInt32.ofNat o) Item.new
  if p.ptr ≠ none ∧ p.err = none then do
    let b ← bytesAt p.state p.item
    let n ← storedName b
    let r ← Lookup.compareName e target n
    let q ← strings.release fuel p.state p.item
    some (r.getD 0, q.1, none)
  else some (0, p.state, p.err)

/-- The release after the search, value.c:218-220. The local item has no handle before the first get, so that releasing it is
undefined if there was none, except for a collection in memory, which does not look at it. -/
def releaseAfter (fuel : Nat) (values : Coll) (q : Property) (r : SearchEnd) : UB SearchEnd :=
  if r.err = none then
    if q.first ≤ q.last then (values.release fuel r.values r.item).map fun x => { r with values := x.1, item := x.2 }
    else
      match values with
      | .memory _ => some r
      | _ => none
  else some r

/-- `fiftyoneDegreesValueGetIndexByName`, value.c:198-222. -/
def valueIndex (file : CStr) (fuel : Nat) (values strings : Coll) (e : Env) (rounds : Nat) (q : Property) (target : CStr)
    (s t : State) : UB SearchEnd :=
  (searchWith file fuel values (compareValue file fuel strings e target) rounds s Item.new t q.first q.last).bind
    (releaseAfter fuel values q)

/-- `DataReset` on an item, data.h. -/
def resetItem (item : Item) : Item := { item with ptr := none, used := 0, allocated := 0 }

/-- `fiftyoneDegreesValueGetByName`, value.c:224-249: whether the value is not NULL, and what the search has left. -/
def valueByName (file : CStr) (fuel : Nat) (values strings : Coll) (e : Env) (rounds : Nat) (q : Property) (target : CStr)
    (s : State) (item : Item) (t : State) : UB (Bool × SearchEnd) :=
  if q.first % 2 ^ 32 ≠ 2 ^ 32 - 1 then
    (searchWith file fuel values (compareValue file fuel strings e target) rounds s (resetItem item) t q.first q.last).map fun r =>
      (decide (r.ret ≥ 0 ∧ r.err = none) && r.item.ptr.isSome, r)
  else some (false, ⟨-1, s, item, t, none⟩)

/-! ## Lemmas -/

/-- How a name is stored in a data file, after its size. -/
def stored : Name → CStr
  | .text s => s ++ [0]
  | .coordinate lat lon => 1 :: (lat ++ lon)
  | .ip bytes => 2 :: bytes
  | .missing _ => []

/-- A name which a data file can hold. -/
def GoodName : Name → Prop
  | .text s => (∀ c ∈ s, c ≠ 0) ∧ s.head? ≠ some 1 ∧ s.head? ≠ some 2
  | .coordinate lat lon => lat.length = 4 ∧ lon.length = 4
  | .ip _ => True
  | .missing _ => False

theorem storedName_stored (n : Name) (hn : GoodName n) (hl : (stored n).length < 2 ^ 15) (tail : CStr) :
    storedName (encodeString (stored n) ++ tail) = some n := by
  have hd : (encodeString (stored n) ++ tail).drop 2 = stored n ++ tail := by
    rw [encodeString, List.append_assoc, List.drop_left' (le16_length _)]
  have h2 : (encodeString (stored n) ++ tail)[2]? = (stored n ++ tail)[0]? := by
    rw [← hd, List.getElem?_drop]
  have h3 : ∀ k, (encodeString (stored n) ++ tail).drop (2 + k) = (stored n ++ tail).drop k := by
    intro k; rw [← hd, List.drop_drop]
  have h31 := h3 1
  have h35 := h3 5
  simp only [Nat.reduceAdd] at h31 h35
  rw [storedName, h2, h31, h35, hd]
  cases n with
  | missing b => exact hn.elim
  | coordinate lat lon =>
    obtain ⟨a, b⟩ := hn
    simp only [stored, List.cons_append, List.getElem?_cons_zero, List.drop_succ_cons, List.drop_zero, List.append_assoc,
      Option.bind_eq_bind, Option.bind_some, if_true]
    rw [List.take_left' a, List.drop_left' a, List.take_left' b]
  | ip bytes =>
    have hs : read16 (encodeString (stored (.ip bytes)) ++ tail) 0 = some (stored (.ip bytes)).length := by
      have := Component.read16_le [] (stored (.ip bytes) ++ tail) (stored (.ip bytes)).length (by omega)
      simpa [encodeString, List.append_assoc] using this
    simp only [hs, Option.bind_eq_bind, Option.bind_some]
    simp only [stored, List.length_cons] at hl
    simp only [stored, List.cons_append, List.getElem?_cons_zero, List.drop_succ_cons, List.drop_zero, List.length_cons,
      Nat.add_sub_cancel, List.length_append, Option.bind_some]
    rw [if_neg (by decide), if_pos trivial, if_pos ⟨by omega, by omega, by omega⟩, List.take_left' rfl]
  | text s =>
    obtain ⟨a, b, c⟩ := hn
    have hc : cstr (stored (.text s) ++ tail) = some s := by
      rw [stored, List.append_assoc]; exact cstr_text s a tail
    cases s with
    | nil =>
      simp only [stored, List.nil_append, List.cons_append, List.getElem?_cons_zero, Option.bind_eq_bind, Option.bind_some] at hc ⊢
      rw [if_neg (by decide), if_neg (by decide), hc]; rfl
    | cons x xs =>
      simp only [stored, List.cons_append, List.getElem?_cons_zero, Option.bind_eq_bind, Option.bind_some] at hc ⊢
      have h1 : x ≠ 1 := by simpa using b
      have h2 : x ≠ 2 := by simpa using c
      rw [if_neg h1, if_neg h2, hc]; rfl

/-- The data file holds the values, 14 bytes each, and the strings, in any two places; each value has its name among the strings. -/
structure HoldsValues (file : CStr) (recs : List CStr) (names : List Name) (texts : List CStr) (h h2 : Header) : Prop where
  values : ∃ pre post, file = pre ++ (recs.flatMap id ++ post) ∧ h = ⟨pre.length, (recs.flatMap id).length, recs.length⟩
  strings : ∃ pre post, file = pre ++ (texts.flatMap encodeString ++ post) ∧
    h2 = ⟨pre.length, (texts.flatMap encodeString).length, 0⟩
  small : (recs.flatMap id).length < 2 ^ 32 ∧ (texts.flatMap encodeString).length < 2 ^ 31
  size : ∀ r ∈ recs, r.length = 14
  count : names.length = recs.length
  points : ∀ (i : Nat) (r : CStr) (n : Name), recs[i]? = some r → names[i]? = some n →
    ∃ j, texts[j]? = some (stored n) ∧ read32 r 2 = some (startOf encodeString texts j)
  short : ∀ t ∈ texts, t.length < 2 ^ 15
  good : ∀ n ∈ names, GoodName n

variable {file : CStr} {fuel : Nat}

theorem compareName_good {e : Env} {target : CStr} {n : Name} (hn : GoodName n) {x : Option Int}
    (h : Lookup.compareName e target n = some x) : ∃ r, x = some r := by
  cases n with
  | missing b => exact hn.elim
  | text s => simp only [Lookup.compareName, Option.some.injEq] at h; exact ⟨_, h.symm⟩
  | coordinate lat lon =>
    simp only [Lookup.compareName, Option.map_eq_some_iff] at h
    obtain ⟨r, -, h⟩ := h; exact ⟨r, h.symm⟩
  | ip b =>
    simp only [Lookup.compareName, Option.map_eq_some_iff] at h
    obtain ⟨r, -, h⟩ := h; exact ⟨r, h.symm⟩

/-- The comparison of a value's name, wherever the strings are. -/
theorem compareValue_spec {recs : List CStr} {names : List Name} {texts : List CStr} {h h2 : Header}
    (hh : HoldsValues file recs names texts h h2) {cfg2 : Config} {c2 : Coll} (hc2 : Created file cfg2 h2 stringReader c2)
    {capacity2 : Nat} {t : State} {evs2 : List (Nat × Event UInt32 CStr)}
    (rd2 : Ready file cfg2 h2 stringReader fuel capacity2 t evs2) {e : Env} {target : CStr} {i : Nat} {r : CStr} {n : Name}
    (hr : recs[i]? = some r) (hn : names[i]? = some n) {x : Int} (hx : Lookup.compareName e target n = some (some x)) (tail : CStr) :
    ∃ t', compareValue file fuel c2 e target (r ++ tail) t = some (x, t', none) ∧
      Kept file cfg2 h2 stringReader fuel capacity2 evs2 t t' := by
  have hsm := hh.small
  have hrl := hh.size r (List.mem_of_getElem? hr)
  obtain ⟨j, hj, hoff⟩ := hh.points i r n hr hn
  obtain ⟨pre, post, hf, hhd⟩ := hh.strings
  have hshort := hh.short
  have hgood := hh.good n (List.mem_of_getElem? hn)
  clear hh
  subst hhd
  subst hf
  obtain ⟨w, hit⟩ := records (pre := pre) (post := post) (enc := encodeString) (rs := texts) (n := 2) (g := stringSize)
    (fun t h => sized_string (hshort t h)) (by omega)
  have hkey := startOf_le (enc := encodeString) (rs := texts) j
  obtain ⟨p, t1, item2, q1, q2, q3, -, -, q5⟩ := borrow w hc2 (hit j _ hj) (goodKey (by omega) (fun _ => by omega)) rd2
    (item := Item.new) ⟨fun _ => rfl, rfl⟩
  obtain ⟨tail2, b2⟩ := Shows.bytesAt q2
  obtain ⟨m1, -, ref2, -, m2, -⟩ := q2
  have e1 : read32 (r ++ tail) 2 = some (startOf encodeString texts j) := by rw [read32_append (by omega)]; exact hoff
  have e2 := storedName_stored n hgood (hshort _ (List.mem_of_getElem? hj)) tail2
  refine ⟨t1, ?_, q5⟩
  simp only [compareValue, e1, Option.bind_eq_bind, Option.bind_some]
  rw [show stringReader = .variable 2 stringSize from rfl] at *
  rw [q1]
  simp only [Option.bind_some]
  rw [if_pos ⟨by rw [m2]; simp, m1⟩]
  simp only [b2, Option.bind_some, e2, hx, q3, Option.getD_some]

theorem loop_touched {α : Type} (c : Search.Coll α) : ∀ (fuel l u : Nat) (t : List Nat) (o : Search.Out),
    Search.loop c fuel l u t = some o → ∀ x ∈ t, x ∈ o.touched := by
  intro fuel
  induction fuel with
  | zero => intro l u t o h; cases h
  | succ fuel ih =>
    intro l u t o h x hx
    rw [Search.loop] at h
    have hx' : ∀ m, x ∈ t ++ [m] := fun m => List.mem_append_left _ hx
    split at h
    · simp only at h
      split at h
      · cases h; exact hx' _
      · split at h
        · cases h; exact hx' _
        · split at h
          · cases h; exact hx' _
          · split at h
            · split at h
              · exact ih _ _ _ _ h x (hx' _)
              · exact ih _ _ _ _ h x (hx' _)
            · exact ih _ _ _ _ h x (hx' _)
    · cases h; exact hx

/-- What the search leaves when the item of index `i` was found, or none. -/
def Left (file : CStr) (fuel : Nat) (recs : List CStr) (c : Coll) (cfg : Config) (h : Header) (capacity : Nat)
    (evs : List (Nat × Event UInt32 CStr)) (s : State) (r : SearchEnd) (held : Option Nat) : Prop :=
  (held = none ∧ ItemOk cfg r.item ∧ Kept file cfg h .fixed fuel capacity evs s r.values) ∨
  ∃ i b tail s' item', held = some i ∧ recs[i]? = some b ∧ bytesAt r.values r.item = some (b ++ tail) ∧
    c.release fuel r.values r.item = some (s', item') ∧ Kept file cfg h .fixed fuel capacity evs s s'

/-- The search through the collections does what the search through the list of names does. -/
theorem searchWith_spec {recs : List CStr} {names : List Name} {texts : List CStr} {h h2 : Header}
    (hh : HoldsValues file recs names texts h h2) {cfg cfg2 : Config} {c c2 : Coll} (hc : Created file cfg h .fixed c)
    (hc2 : Created file cfg2 h2 stringReader c2) {capacity capacity2 : Nat} {e : Env} {target : CStr} :
    ∀ (rounds : Nat) (s t : State) (evs evs2 : List (Nat × Event UInt32 CStr)) (item : Item) (l u : Nat) (seen : List Nat)
      (o : Search.Out),
      Ready file cfg h .fixed fuel capacity s evs → Ready file cfg2 h2 stringReader fuel capacity2 t evs2 → ItemOk cfg item →
      Search.loop (Lookup.coll e names target) rounds l u seen = some o → o.error = false →
      o.touched.all (Lookup.defined e names target) = true →
      ∃ r, searchWith file fuel c (compareValue file fuel c2 e target) rounds s item t l u = some r ∧ r.ret = o.ret ∧ r.err = none ∧
        Kept file cfg2 h2 stringReader fuel capacity2 evs2 t r.strings ∧ Left file fuel recs c cfg h capacity evs s r o.held := by
  intro rounds
  induction rounds with
  | zero => intro s t evs evs2 item l u seen o _ _ _ hl; cases hl
  | succ rounds ih =>
    intro s t evs evs2 item l u seen o rd rd2 io hl he hd
    rw [searchWith]
    rw [Search.loop] at hl
    by_cases hle : l ≤ u
    · rw [if_pos hle] at hl ⊢
      simp only at hl ⊢
      generalize hm : l + (u - l) / 2 = m at hl ⊢
      cases hg : names[m]? with
      | none =>
        simp only [Lookup.coll, hg] at hl
        cases hl
        cases he
      | some n =>
        have hmn := (List.getElem?_eq_some_iff.1 hg).1
        obtain ⟨b, hb⟩ : ∃ b, recs[m]? = some b := ⟨_, List.getElem?_eq_getElem (by rw [← hh.count]; exact hmn)⟩
        have hbl := hh.size b (List.mem_of_getElem? hb)
        -- the value
        obtain ⟨g, s1, item1, g1, g2, g3, g4, g5⟩ : ∃ g s1 item1, c.get file fuel s (UInt32.ofNat m) item = some g ∧
            Shows g b ∧ c.release fuel g.state g.item = some (s1, item1) ∧ ItemOk cfg item1 ∧
            Kept file cfg h .fixed fuel capacity evs s s1 := by
          have hsm := hh.small
          have hlen2 := flatMap_length_const (rs := recs) (enc := (id : CStr → CStr)) (k := 14) (fun v hv => hh.size v hv)
          have hcount := hh.count
          have hsize := hh.size
          obtain ⟨pre, post, hf, hhd⟩ := hh.values
          clear hh ih
          subst hhd
          subst hf
          obtain ⟨w, hit⟩ := fixedRecords (pre := pre) (post := post) (enc := (id : CStr → CStr)) (k := 14) (by omega)
            (List.ne_nil_of_mem (List.mem_of_getElem? hb)) (fun v hv => hsize v hv) hsm.1
          obtain ⟨g, s1, item1, q1, q2, q3, -, q4, q5⟩ := borrow w hc (hit m b hb) (goodKey (by omega) (fun _ => by omega)) rd io
          exact ⟨g, s1, item1, q1, q2, q3, q4, q5⟩
        obtain ⟨tail, g7⟩ := Shows.bytesAt g2
        have hptr : ¬ (g.ptr = none ∨ g.err ≠ none) := by
          obtain ⟨q1, q2, ref, q3, q4, -⟩ := g2
          rw [q1, q4]; simp
        -- the comparison
        have hmt : m ∈ o.touched := by
          simp only [Lookup.coll, hg] at hl
          split at hl
          · cases hl; simp
          · split at hl
            · cases hl; simp
            · split at hl
              · split at hl
                · exact loop_touched _ _ _ _ _ _ hl m (by simp)
                · exact loop_touched _ _ _ _ _ _ hl m (by simp)
              · exact loop_touched _ _ _ _ _ _ hl m (by simp)
        have hdm := List.all_eq_true.1 hd m hmt
        simp only [Lookup.defined, hg] at hdm
        obtain ⟨y, hy⟩ := Option.isSome_iff_exists.1 hdm
        obtain ⟨x, rfl⟩ := compareName_good (hh.good n (List.mem_of_getElem? hg)) hy
        obtain ⟨t1, k1, k2⟩ := compareValue_spec hh hc2 rd2 hb hg hy tail
        rw [g1]
        simp only
        rw [if_neg hptr, g7]
        simp only [Option.bind_some, k1, ne_eq, not_true_eq_false, if_false]
        simp only [Lookup.coll, hg, hy, Option.join_some] at hl
        by_cases h0 : x = 0
        · rw [if_pos h0] at hl ⊢
          cases hl
          exact ⟨_, rfl, rfl, rfl, k2, .inr ⟨m, b, tail, s1, item1, rfl, hb, g7, g3, g5⟩⟩
        · rw [if_neg h0] at hl ⊢
          rw [g3]
          simp only
          obtain ⟨evs1, rd1, kt⟩ := Kept.ready rd g5
          obtain ⟨evs21, rd21, kt2⟩ := Kept.ready rd2 k2
          have fin : ∀ l' u', Search.loop (Lookup.coll e names target) rounds l' u' (seen ++ [m]) = some o →
              ∃ r, searchWith file fuel c (compareValue file fuel c2 e target) rounds s1 item1 t1 l' u' = some r ∧ r.ret = o.ret ∧
                r.err = none ∧ Kept file cfg2 h2 stringReader fuel capacity2 evs2 t r.strings ∧
                Left file fuel recs c cfg h capacity evs s r o.held := by
            intro l' u' hl'
            obtain ⟨r, e1, e2, e3, e4, e5⟩ := ih s1 t1 evs1 evs21 item1 l' u' _ o rd1 rd21 g4 hl' he hd
            refine ⟨r, e1, e2, e3, kt2 _ e4, ?_⟩
            rcases e5 with ⟨a1, a2, a3⟩ | ⟨i, b', tail', s'', item'', a1, a2, a3, a4, a5⟩
            · exact .inl ⟨a1, a2, kt _ a3⟩
            · exact .inr ⟨i, b', tail', s'', item'', a1, a2, a3, a4, kt _ a5⟩
          by_cases hgt : x > 0
          · rw [if_pos hgt] at hl ⊢
            by_cases hz : m ≠ 0
            · rw [if_pos hz] at hl ⊢
              exact fin _ _ hl
            · rw [if_neg hz] at hl ⊢
              exact fin _ _ hl
          · rw [if_neg hgt] at hl ⊢
            exact fin _ _ hl
    · rw [if_neg hle] at hl ⊢
      cases hl
      exact ⟨_, rfl, rfl, rfl, Kept.refl rd2, .inl ⟨rfl, io, Kept.refl rd⟩⟩

/-- Releasing an item without a handle does nothing. -/
theorem release_none (c : Coll) (fuel : Nat) (s : State) (item : Item) (h : item.handle = none) :
    c.release fuel s item = some (s, item) := by
  cases c with
  | memory m => rfl
  | back b f => cases b <;> simp [Coll.release, releaseBack, releaseFile, releaseCache, h]
  | part m next => simp [Coll.release, releasePartial, h]

/-! ## C81 -/

variable {recs : List CStr} {names : List Name} {texts : List CStr} {h h2 : Header} {cfg cfg2 : Config} {c c2 : Coll}
  {capacity capacity2 : Nat} {s t : State} {evs evs2 : List (Nat × Event UInt32 CStr)}

/-- C81: the index found is that which the search through the names finds (C42), for values and strings kept in any way, and all
that was taken from the two collections is given back. Missing: ranges without values, see `C81_empty_violated`; names outside of the
strings, see `C81_held_violated`; a cache in which all nodes of a shard are held, see `C81_full_violated`. -/
theorem C81_index_partial (hh : HoldsValues file recs names texts h h2) (hc : Created file cfg h .fixed c)
    (hc2 : Created file cfg2 h2 stringReader c2) (rd : Ready file cfg h .fixed fuel capacity s evs)
    (rd2 : Ready file cfg2 h2 stringReader fuel capacity2 t evs2) {e : Env} {target : CStr} {q : Property} (hq : q.first ≤ q.last)
    {rounds : Nat} {o : Search.Out} (ho : Lookup.indexByName e names rounds q target = some o) (he : o.error = false) :
    ∃ r, valueIndex file fuel c c2 e rounds q target s t = some r ∧ r.ret = o.ret ∧ r.err = none ∧
      Kept file cfg h .fixed fuel capacity evs s r.values ∧ Kept file cfg2 h2 stringReader fuel capacity2 evs2 t r.strings := by
  rw [Lookup.indexByName] at ho
  split at ho
  · cases ho
  · rename_i o' hl
    split at ho
    · rename_i hd
      cases ho
      obtain ⟨r, r1, r2, r3, r4, r5⟩ := searchWith_spec hh hc hc2 rounds s t evs evs2 Item.new q.first q.last [] o rd rd2
        ⟨fun _ => rfl, rfl⟩ hl he hd
      rw [valueIndex, r1]
      simp only [Option.bind_some, releaseAfter, if_pos r3, if_pos hq]
      rcases r5 with ⟨a1, a2, a3⟩ | ⟨i, b, tail, s', item', a1, a2, a3, a4, a5⟩
      · rw [release_none c fuel _ _ a2.2]
        exact ⟨_, rfl, r2, r3, a3, r4⟩
      · rw [a4]
        exact ⟨_, rfl, r2, r3, a5, r4⟩
    · cases ho

/-- C81: among texts sorted as in a data file, the index is that of the value of the property with the name, and -1 exactly if there
is none. Missing: as for `C81_index_partial`. -/
theorem C81_text_partial (hh : HoldsValues file recs names texts h h2) (hc : Created file cfg h .fixed c)
    (hc2 : Created file cfg2 h2 stringReader c2) (rd : Ready file cfg h .fixed fuel capacity s evs)
    (rd2 : Ready file cfg2 h2 stringReader fuel capacity2 t evs2) (e : Env) (target : CStr) {q : Property} (hq : q.first ≤ q.last)
    (hs : Lookup.Sorted (fun v => ∃ s, v = .text s) names q.first q.last) {rounds : Nat} (hf : q.last + 2 ≤ rounds) :
    ∃ r, valueIndex file fuel c c2 e rounds q target s t = some r ∧ r.err = none ∧
      Kept file cfg h .fixed fuel capacity evs s r.values ∧ Kept file cfg2 h2 stringReader fuel capacity2 evs2 t r.strings ∧
      ((∃ i : Nat, r.ret = i ∧ q.first ≤ i ∧ i ≤ q.last ∧ names[i]? = some (.text target)) ∨
       (r.ret = -1 ∧ ∀ i, q.first ≤ i → i ≤ q.last → names[i]? ≠ some (.text target))) := by
  have hlen : names.length < 2 ^ 32 := by
    have := flatMap_length_const (rs := recs) (enc := (id : CStr → CStr)) (k := 14) (fun v hv => hh.size v hv)
    have := hh.small
    have := hh.count
    omega
  obtain ⟨o, o1, o2, o3⟩ := Lookup.found e _ names q target target hs hlen rounds hf (by
    rintro _ ⟨s, rfl⟩
    exact ⟨_, rfl, Iff.rfl, Iff.rfl⟩)
  obtain ⟨r, r1, r2, r3, r4, r5⟩ := C81_index_partial hh hc hc2 rd rd2 hq o1 o2
  refine ⟨r, r1, r3, r4, r5, ?_⟩
  rcases o3 with ⟨i, a1, a2, a3, -, v, hv, hk⟩ | ⟨a1, a2⟩
  · obtain ⟨x, rfl⟩ := hs.format i v a2 a3 hv
    simp only [Lookup.Name.bytes] at hk
    subst hk
    exact .inl ⟨i, r2.trans a1, a2, a3, hv⟩
  · exact .inr ⟨r2.trans a1, fun i h1 h2 h3 => a2 i _ h1 h2 h3 rfl⟩

/-- C81: the value returned for a text is the one with that name, with the bytes of the file, and releasing the item gives back all
that was taken; NULL is returned exactly if there is none, and then nothing is kept. Missing: as for `C81_index_partial`, except
ranges without values. -/
theorem C81_value_partial (hh : HoldsValues file recs names texts h h2) (hc : Created file cfg h .fixed c)
    (hc2 : Created file cfg2 h2 stringReader c2) (rd : Ready file cfg h .fixed fuel capacity s evs)
    (rd2 : Ready file cfg2 h2 stringReader fuel capacity2 t evs2) (e : Env) (target : CStr) {q : Property}
    (hs : Lookup.Sorted (fun v => ∃ s, v = .text s) names q.first q.last) {rounds : Nat} (hf : q.last + 2 ≤ rounds)
    (hq : q.first % 2 ^ 32 ≠ 2 ^ 32 - 1) {item : Item} (hi : item.handle = none) :
    ∃ found r, valueByName file fuel c c2 e rounds q target s item t = some (found, r) ∧ r.err = none ∧
      Kept file cfg2 h2 stringReader fuel capacity2 evs2 t r.strings ∧
      ((found = true ∧ ∃ (i : Nat) (b tail : CStr) (s' : State) (item' : Item), q.first ≤ i ∧ i ≤ q.last ∧
          names[i]? = some (.text target) ∧ recs[i]? = some b ∧ bytesAt r.values r.item = some (b ++ tail) ∧
          c.release fuel r.values r.item = some (s', item') ∧ Kept file cfg h .fixed fuel capacity evs s s') ∨
       (found = false ∧ (∀ i, q.first ≤ i → i ≤ q.last → names[i]? ≠ some (.text target)) ∧
          Kept file cfg h .fixed fuel capacity evs s r.values)) := by
  have hlen : names.length < 2 ^ 32 := by
    have := flatMap_length_const (rs := recs) (enc := (id : CStr → CStr)) (k := 14) (fun v hv => hh.size v hv)
    have := hh.small
    have := hh.count
    omega
  obtain ⟨o, o1, o2, o3⟩ := Lookup.found e _ names q target target hs hlen rounds hf (by
    rintro _ ⟨s, rfl⟩
    exact ⟨_, rfl, Iff.rfl, Iff.rfl⟩)
  rw [Lookup.indexByName] at o1
  split at o1
  · cases o1
  · rename_i o' hl
    split at o1
    · rename_i hd
      cases o1
      obtain ⟨r, r1, r2, r3, r4, r5⟩ := searchWith_spec hh hc hc2 rounds s t evs evs2 (resetItem item) q.first q.last [] o rd rd2
        ⟨fun _ => rfl, hi⟩ hl o2 hd
      rw [valueByName, if_pos hq, r1]
      refine ⟨_, r, rfl, r3, r4, ?_⟩
      rcases o3 with ⟨i, a1, a2, a3, a4, v, hv, hk⟩ | ⟨a1, a2⟩
      · obtain ⟨x, rfl⟩ := hs.format i v a2 a3 hv
        simp only [Lookup.Name.bytes] at hk
        subst hk
        rcases r5 with ⟨b1, -, -⟩ | ⟨j, b, tail, s', item', b1, b2, b3, b4, b5⟩
        · rw [a4] at b1; cases b1
        · rw [a4] at b1
          cases b1
          refine .inl ⟨?_, i, b, tail, s', item', a2, a3, hv, b2, b3, b4, b5⟩
          have hp : r.item.ptr.isSome = true := by
            cases hx : r.item.ptr with
            | none => rw [bytesAt, hx] at b3; cases b3
            | some y => rfl
          simp [hp, r3, r2, a1]
      · rcases r5 with ⟨b1, -, b3⟩ | ⟨j, b, tail, s', item', b1, b2, b3, b4, b5⟩
        · exact .inr ⟨by simp [r2, a1], fun i h1 h2 h3 => a2 i _ h1 h2 h3 rfl, b3⟩
        · exfalso
          obtain ⟨o'', p1, -, p2⟩ := Search.C14_failures (Lookup.coll e names target) q.first q.last
            (by have := hs.inside; omega) rounds hf
          rw [hl] at p1
          cases p1
          rcases p2 with ⟨k, p2, -⟩ | ⟨-, -, p2⟩ | ⟨-, -, p2, -⟩
          · rw [a1] at p2; omega
          · rw [b1] at p2; cases p2
          · rw [a1] at p2; omega
    · cases o1

/-! ## Concrete runs -/

/-- A value with the offset of its name. -/
def valueRecord (o : Nat) : CStr := [7, 0] ++ le32 o ++ le32 1 ++ le32 2

/-- Three values named by texts and one named by an address, and their names in another order. -/
def namedValues : List CStr := [valueRecord 4, valueRecord 0, valueRecord 8, valueRecord 12]
def valueNames : List Name := [.text c!"a", .text c!"c", .text c!"e", .ip [10, 0, 0, 1]]
def valueTexts : List CStr := [c!"c" ++ [0], c!"a" ++ [0], c!"e" ++ [0], [2, 10, 0, 0, 1]]

def valuesFile : CStr := valueTexts.flatMap encodeString ++ namedValues.flatMap id

def valuesHeader : Header := ⟨19, 56, 4⟩
def valueTextsHeader : Header := ⟨0, 19, 0⟩

def valuesIn (cfg : Config) : Coll := made valuesFile cfg valuesHeader .fixed
def valueTextsIn (cfg : Config) : Coll := made valuesFile cfg valueTextsHeader stringReader

def anyEnv : Env := ⟨fun _ => [], true⟩

/-- What a search reports: its result, the exception, and for each block of memory of the values whether it is still allocated. -/
def endOf (r : SearchEnd) : Int × Option Err × List Bool :=
  (r.ret, r.err, (List.range r.values.heap.next).map fun j => (r.values.heap.block j).isSome)

/-- The search with new states. -/
def valueRunIndex (c c2 : Coll) (q : Property) (target : CStr) : UB (Int × Option Err × List Bool) :=
  (newState 1).bind fun s => (valueIndex valuesFile 12 c c2 anyEnv 5 q target s s).map endOf

/-- In memory, in the file, cached with one node and partly loaded; a name which is not there; an address. -/
example :
    valueRunIndex (createFromMemory valuesFile valuesHeader) (valueTextsIn ⟨0, 1, 1⟩) ⟨0, 2⟩ c!"e" = some (2, none, []) ∧
    valueRunIndex (valuesIn ⟨0, 1, 1⟩) (valueTextsIn ⟨0, 0, 0⟩) ⟨0, 2⟩ c!"d" = some (-1, none, []) ∧
    valueRunIndex (valuesIn ⟨1, 1, 1⟩) (createFromMemory valuesFile valueTextsHeader) ⟨3, 3⟩ c!"10.0.0.1" = some (3, none, []) ∧
    valueRunIndex (valuesIn ⟨0, 0, 0⟩) (valueTextsIn ⟨0, 0, 0⟩) ⟨0, 2⟩ c!"e" = some (2, none, [false, false]) := by
  refine ⟨?_, ?_, ?_, ?_⟩ <;> decide +kernel

/-- The conditions of the theorems are met. -/
example : HoldsValues valuesFile namedValues valueNames valueTexts valuesHeader valueTextsHeader ∧
    Lookup.Sorted (fun v => ∃ s, v = .text s) valueNames 0 2 ∧
    (Lookup.indexByName anyEnv valueNames 5 ⟨3, 3⟩ c!"10.0.0.1").map (fun o => (o.ret, o.error)) = some (3, false) := by
  refine ⟨⟨⟨valueTexts.flatMap encodeString, [], by decide +kernel, by decide +kernel⟩,
    ⟨[], namedValues.flatMap id, by decide +kernel, by decide +kernel⟩, by decide +kernel, by decide +kernel, rfl, ?_,
    by decide +kernel, ?_⟩, ⟨by decide, ?_, ?_⟩, by decide +kernel⟩
  · intro i r n h1 h2
    have hlt := (List.getElem?_eq_some_iff.1 h1).1
    have : i = 0 ∨ i = 1 ∨ i = 2 ∨ i = 3 := by
      have : namedValues.length = 4 := rfl
      omega
    rcases this with rfl | rfl | rfl | rfl <;> (cases h1; cases h2)
    · exact ⟨1, rfl, by decide +kernel⟩
    · exact ⟨0, rfl, by decide +kernel⟩
    · exact ⟨2, rfl, by decide +kernel⟩
    · exact ⟨3, rfl, by decide +kernel⟩
  · intro n hn
    simp only [valueNames, List.mem_cons, List.not_mem_nil, or_false] at hn
    rcases hn with rfl | rfl | rfl | rfl
    · exact ⟨by decide, by decide, by decide⟩
    · exact ⟨by decide, by decide, by decide⟩
    · exact ⟨by decide, by decide, by decide⟩
    · trivial
  · intro i v h1 h2 hv
    have : i = 0 ∨ i = 1 ∨ i = 2 := by omega
    rcases this with rfl | rfl | rfl <;> (cases hv; exact ⟨_, rfl⟩)
  · intro i j a b h1 h2 h3 ha hb
    have : (i = 0 ∧ j = 1) ∨ (i = 0 ∧ j = 2) ∨ (i = 1 ∧ j = 2) := by omega
    rcases this with ⟨rfl, rfl⟩ | ⟨rfl, rfl⟩ | ⟨rfl, rfl⟩ <;> (cases ha; cases hb; exact (Profile.strcmp_neg _ _).1 (by decide))

/-- C81 fails when all nodes of the cache of the strings are held by others: there is no name, no exception, and the first value looked at
is taken for the one sought, whatever its name. -/
theorem C81_full_violated :
    ((newState 1).bind fun s => ((valueTextsIn ⟨0, 1, 1⟩).get valuesFile 12 s 8 Item.new).bind fun g =>
      (valueIndex valuesFile 12 (createFromMemory valuesFile valuesHeader) (valueTextsIn ⟨0, 1, 1⟩) anyEnv 5 ⟨0, 2⟩ c!"zebra" s
        g.state).map endOf) = some (1, none, []) := by
  decide +kernel

/-- C81 fails when the name of a value is not in the strings: there is an exception, and the memory of the value is never freed, since
the item is released only if there was none. -/
theorem C81_held_violated :
    ((newState 1).bind fun s => (valueIndex (encodeString (c!"a" ++ [0]) ++ valueRecord 9) 12
      (made (encodeString (c!"a" ++ [0]) ++ valueRecord 9) ⟨0, 0, 0⟩ ⟨4, 14, 1⟩ .fixed)
      (made (encodeString (c!"a" ++ [0]) ++ valueRecord 9) ⟨0, 0, 0⟩ ⟨0, 4, 0⟩ stringReader) anyEnv 5 ⟨0, 0⟩ c!"a" s s).map endOf) =
      some (0, some .offsetOutOfRange, [true]) := by
  decide +kernel

/-- C81 fails for a property without values, whose first index is above its last, unless the values are in memory: nothing is ever
got, and the item that is released is not initialised. -/
theorem C81_empty_violated (file : CStr) (fuel : Nat) (c c2 : Coll) (e : Env) (rounds : Nat) (q : Property) (target : CStr) (s t : State)
    (hq : q.last < q.first) (hc : ∀ m, c ≠ .memory m) : valueIndex file fuel c c2 e rounds q target s t = none := by
  cases rounds with
  | zero => rfl
  | succ n =>
    rw [valueIndex, searchWith, if_neg (by omega)]
    cases c with
    | memory m => exact absurd rfl (hc m)
    | back b f => simp [releaseAfter, Nat.not_le.2 hq]
    | part m n => simp [releaseAfter, Nat.not_le.2 hq]

end Verif.Record
