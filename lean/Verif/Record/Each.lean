import Verif.Record.Names
import Verif.Profile.Props

/-! # C84: the values of a profile for a property, over values of any kind -/

namespace Verif.Record

open Verif.Collection
open Verif.Cache (Event eventsOf held)
open Verif.Profile (inRange Ascending)

/-! ## Model -/

/-- What the iteration leaves: the state of the values, the items passed to the callback, in order, and the exception. The count
returned is the number of the items. -/
structure Passed where
  values : State
  items : List Item
  err : Option Err

/-- The loop of `iterateValues`, profile.c:130-146, from position `i` of the values of the profile. `cb` is the answer of the callback,
which keeps the items, for all the items passed to it so far. The item's data are reset in each round, but not its handle. -/
def eachLoop (file : CStr) (fuel : Nat) (values : Coll) (cb : List Item → Bool) (p : Profile.Profile) (q : Profile.Property) :
    (rounds i : Nat) → State → Option Ref → List Item → Option Err → UB Passed
  | 0, _, _, _, _, _ => none
  | rounds + 1, i, s, handle, seen, err =>
    match p.read i with
    | none => none
    | some v =>
      if v ≤ q.last ∧ i < p.values.length ∧ err = none then
        match values.get file fuel s (UInt32.ofNat v) (localItem handle) with
        | none => none
        | some g =>
          if g.ptr ≠ none ∧ g.err = none then
            if cb (seen ++ [g.item]) then
              eachLoop file fuel values cb p q rounds (i + 1) g.state g.item.handle (seen ++ [g.item]) none
            else some ⟨g.state, seen ++ [g.item], none⟩
          else eachLoop file fuel values cb p q rounds (i + 1) g.state g.item.handle seen g.err
      else some ⟨s, seen, err⟩

/-- `fiftyoneDegreesProfileIterateValuesForProperty`, profile.c:247-270, with `iterateValues`, 108-149. `vj` is the handle which the
local item `valueItem` has before it is first set. -/
def eachValue (file : CStr) (fuel : Nat) (values : Coll) (cb : List Item → Bool) (p : Profile.Profile) (q : Profile.Property)
    (vj : Option Ref) (s : State) : UB Passed :=
  match Profile.firstValue p q with
  | none => some ⟨s, [], none⟩
  | some i =>
    eachLoop file fuel values cb p q (p.values.length + 1) (Profile.moveBack q p.values i) s vj [] none

/-! ## The loop over a list -/

/-- The same for a list of values. -/
def eachOf (file : CStr) (fuel : Nat) (values : Coll) (cb : List Item → Bool) :
    List Nat → State → Option Ref → List Item → UB Passed
  | [], s, _, seen => some ⟨s, seen, none⟩
  | v :: vs, s, handle, seen =>
    match values.get file fuel s (UInt32.ofNat v) (localItem handle) with
    | none => none
    | some g =>
      if g.ptr ≠ none ∧ g.err = none then
        if cb (seen ++ [g.item]) then eachOf file fuel values cb vs g.state g.item.handle (seen ++ [g.item])
        else some ⟨g.state, seen ++ [g.item], none⟩
      else if g.err = none then eachOf file fuel values cb vs g.state g.item.handle seen
      else some ⟨g.state, seen, g.err⟩

theorem eachLoop_list (file : CStr) (fuel : Nat) (values : Coll) (cb : List Item → Bool) (p : Profile.Profile) (q : Profile.Property)
    (hs : Ascending p.values) : ∀ (n i rounds : Nat) (s : State) (handle : Option Ref) (seen : List Item), p.values.length - i = n →
    i ≤ p.values.length → n < rounds → (p.after ≠ none ∨ ∃ v ∈ p.values.drop i, q.last < v) →
    eachLoop file fuel values cb p q rounds i s handle seen none =
      eachOf file fuel values cb ((p.values.drop i).filter fun v => decide (v ≤ q.last)) s handle seen := by
  have hread : ∀ i, i ≤ p.values.length → (p.after ≠ none ∨ ∃ v ∈ p.values.drop i, q.last < v) → ∃ v, p.read i = some v := by
    intro i hi hw
    simp only [Profile.Profile.read]
    by_cases h : i < p.values.length
    · simp [h]
    · have : i = p.values.length := by omega
      subst this
      rcases hw with hw | ⟨v, hw, -⟩
      · obtain ⟨w, hw⟩ := Option.ne_none_iff_exists'.mp hw
        simp [hw]
      · simp at hw
  have hnext : ∀ i, (hlt : i < p.values.length) → p.values[i] ≤ q.last → (p.after ≠ none ∨ ∃ v ∈ p.values.drop i, q.last < v) →
      (p.after ≠ none ∨ ∃ v ∈ p.values.drop (i + 1), q.last < v) := by
    rintro i hlt hle (hw | ⟨v, hw, hl⟩)
    · exact .inl hw
    · rw [List.drop_eq_getElem_cons hlt] at hw
      rcases List.mem_cons.1 hw with rfl | hw
      · omega
      · exact .inr ⟨v, hw, hl⟩
  intro n
  induction n with
  | zero =>
    intro i rounds s handle seen hn hi hf hw
    obtain ⟨rounds, rfl⟩ : ∃ k, rounds = k + 1 := ⟨rounds - 1, by omega⟩
    have he : i = p.values.length := by omega
    obtain ⟨v, hv⟩ := hread i hi hw
    rw [eachLoop, hv]
    simp only
    rw [if_neg (by omega), he, List.drop_length]
    rfl
  | succ n ih =>
    intro i rounds s handle seen hn hi hf hw
    obtain ⟨rounds, rfl⟩ : ∃ k, rounds = k + 1 := ⟨rounds - 1, by omega⟩
    have hlt : i < p.values.length := by omega
    have hv : p.read i = some p.values[i] := by simp [Profile.Profile.read, hlt]
    rw [eachLoop, hv]
    simp only
    rw [List.drop_eq_getElem_cons hlt]
    by_cases hle : p.values[i] ≤ q.last
    · rw [if_pos ⟨hle, hlt, trivial⟩, List.filter_cons_of_pos (by simpa using hle), eachOf]
      cases values.get file fuel s (UInt32.ofNat p.values[i]) (localItem handle) with
      | none => rfl
      | some g =>
        simp only
        split
        · split
          · exact ih (i + 1) rounds _ _ _ (by omega) (by omega) (by omega) (hnext i hlt hle hw)
          · rfl
        · by_cases he : g.err = none
          · rw [if_pos he, he]
            exact ih (i + 1) rounds _ _ _ (by omega) (by omega) (by omega) (hnext i hlt hle hw)
          · rw [if_neg he]
            obtain ⟨rounds, rfl⟩ : ∃ k, rounds = k + 1 := ⟨rounds - 1, by omega⟩
            obtain ⟨v, hv⟩ := hread (i + 1) (by omega) (hnext i hlt hle hw)
            rw [eachLoop, hv]
            simp only
            rw [if_neg (by simp [he])]
    · rw [if_neg (by omega)]
      have : (p.values[i] :: p.values.drop (i + 1)).filter (fun v => decide (v ≤ q.last)) = [] := by
        rw [List.filter_eq_nil_iff]
        intro v hv
        rw [← List.drop_eq_getElem_cons hlt] at hv
        obtain ⟨k, hk, rfl⟩ := List.mem_iff_getElem.mp hv
        simp only [List.length_drop] at hk
        have := hs.le (Nat.le_add_right i k) (List.getElem?_eq_getElem hlt) (List.getElem?_eq_getElem (by omega))
        simp only [List.getElem_drop, decide_eq_true_eq]
        omega
      rw [this]
      rfl

theorem eachValue_list (file : CStr) (fuel : Nat) (values : Coll) (cb : List Item → Bool) (p : Profile.Profile) (q : Profile.Property)
    (vj : Option Ref) (s : State) (hs : Ascending p.values)
    (hw : p.after ≠ none ∨ (∃ v ∈ p.values, q.last < v) ∨ inRange q p.values = []) :
    eachValue file fuel values cb p q vj s = eachOf file fuel values cb (inRange q p.values) s vj [] := by
  have hf := Profile.firstValue_spec p q hs
  unfold eachValue
  cases h : Profile.firstValue p q with
  | none =>
    simp only [h] at hf
    rw [hf]; rfl
  | some j =>
    simp only [h] at hf
    obtain ⟨h1, h2, h3⟩ := hf
    simp only [Profile.moveBack_fixed q p.values j h2]
    have hw' : p.after ≠ none ∨ ∃ v ∈ p.values.drop j, q.last < v := by
      have later : ∀ v, v ∈ p.values → q.last < v → v ∈ p.values.drop j ∨ v < q.first := by
        intro v hv _
        obtain ⟨k, hk, rfl⟩ := List.mem_iff_getElem.mp hv
        rcases Nat.lt_or_ge k j with hkj | hkj
        · exact .inr (h2 k _ hkj (List.getElem?_eq_getElem hk))
        · exact .inl (List.mem_iff_getElem.mpr ⟨k - j, by simp; omega, by simp [Nat.add_sub_cancel' hkj]⟩)
      rcases hw with hw | ⟨v, hv, hl⟩ | hw
      · exact .inl hw
      · rcases later v hv hl with hv' | hv'
        · exact .inr ⟨v, hv', hl⟩
        · have := h3 j _ (Nat.le_refl _) (List.getElem?_eq_getElem h1)
          exact .inr ⟨p.values[j], List.mem_iff_getElem.mpr ⟨0, by simp; omega, by simp⟩, by omega⟩
      · have hv := h3 j _ (Nat.le_refl _) (List.getElem?_eq_getElem h1)
        rcases Nat.lt_or_ge q.last p.values[j] with hl | hl
        · exact .inr ⟨p.values[j], List.mem_iff_getElem.mpr ⟨0, by simp; omega, by simp⟩, hl⟩
        · have : p.values[j] ∈ inRange q p.values := by simp [inRange, hv, hl]
          rw [hw] at this
          simp at this
    rw [eachLoop_list file fuel values cb p q hs _ j _ s vj [] rfl (by omega) (by omega) hw',
      Profile.inRange_drop q p.values j h2 h3]

/-! ## The items that are held -/

variable {file : CStr} {c : Coll} {cfg : Config} {h : Header} {read : Reader} {fuel capacity : Nat} {base : State}
  {evs0 : List (Nat × Event UInt32 CStr)}

/-- The items are held, besides those that were held in `base`, but for their handles in memory. -/
def HoldingNear (file : CStr) (c : Coll) (cfg : Config) (h : Header) (read : Reader) (fuel capacity : Nat) (base : State)
    (evs0 : List (Nat × Event UInt32 CStr)) (s : State) (items : List Item) (bytes : List CStr) : Prop :=
  ∃ items' evs, List.Forall₂ (Near c) items items' ∧ items'.length = bytes.length ∧
    Holding file c cfg h read fuel capacity base evs0 s evs (items'.zip bytes)

theorem releaseAll_near (fuel : Nat) {c : Coll} {items items' : List Item} (h : List.Forall₂ (Near c) items items') :
    ∀ s, releaseAll fuel s items = releaseAll fuel s items' := by
  induction h with
  | nil => intro s; rfl
  | @cons a b l l' hab _ ih =>
    intro s
    rw [releaseAll, releaseAll]
    rcases hab with rfl | ⟨-, ⟨j, rfl⟩, ho⟩
    · exact congrArg _ (funext fun r => ih r.1)
    · have h1 : b.release fuel s = some (s, b) := by rw [Item.release, ho]
      have h2 : ({ b with handle := j } : Item).release fuel s = some (s, { b with handle := j }) := by
        rw [Item.release]; simp only [ho]
      rw [h1, h2]
      exact ih s

theorem HoldingNear.spec (hc : Created file cfg h read c) {s : State} {items : List Item} {bytes : List CStr}
    (hd : HoldingNear file c cfg h read fuel capacity base evs0 s items bytes) :
    items.length = bytes.length ∧
    (∀ (i : Nat) (item : Item) (b : CStr), items[i]? = some item → bytes[i]? = some b → ∃ tail, bytesAt s item = some (b ++ tail)) ∧
    ∃ s'', releaseAll fuel s items = some s'' ∧ Kept file cfg h read fuel capacity evs0 base s'' := by
  obtain ⟨items', evs, hn, hl, hd⟩ := hd
  refine ⟨hn.length_eq.trans hl, ?_, ?_⟩
  · intro i item b h1 h2
    obtain ⟨hi, rfl⟩ := List.getElem?_eq_some_iff.1 h1
    obtain ⟨hb, rfl⟩ := List.getElem?_eq_some_iff.1 h2
    have hi' : i < items'.length := by omega
    have hm : (items'[i], bytes[i]) ∈ items'.zip bytes := by
      rw [List.mem_iff_getElem]
      exact ⟨i, by rw [List.length_zip]; omega, by simp⟩
    obtain ⟨ref, b, k1, k2, k3, -⟩ := hd.live _ hm
    refine ⟨b.drop bytes[i].length, ?_⟩
    have hnear : SameBut items[i] items'[i] := (hn.get hi hi').same
    rw [bytesAt_near hnear, bytesAt, k1, Option.bind_some, k2]
    conv => lhs; rw [← List.take_append_drop bytes[i].length b, k3]
  · obtain ⟨s'', evs'', k1, k2⟩ := releaseAll_spec hc _ s evs hd
    rw [List.map_fst_zip (by omega)] at k1
    refine ⟨s'', (releaseAll_near fuel hn s).trans k1, funext fun j => k2.rest j rfl, k2.next, fun hx => ?_⟩
    obtain ⟨r1, r2, r3⟩ := k2.cache hx
    exact ⟨r2, evs'', r1, fun j m => r3 j m⟩

/-- One more item. -/
theorem HoldingNear.get (w : WellFormed file h read) (hc : Created file cfg h read c) {s : State} {items : List Item}
    {bytes : List CStr} (hd : HoldingNear file c cfg h read fuel capacity base evs0 s items bytes)
    (hr : Room cfg capacity base evs0 (items.length + 1)) {key : UInt32} {b : CStr} (hi : IsItem file h key b read)
    (hk : second cfg = .cache → key ≠ 0x80000000) (handle : Option Ref) :
    ∃ g, c.get file fuel s key (localItem handle) = some g ∧ g.ptr ≠ none ∧ g.err = none ∧
      HoldingNear file c cfg h read fuel capacity base evs0 g.state (items ++ [g.item]) (bytes ++ [b]) := by
  obtain ⟨items', evs, hn, hl, hd⟩ := hd
  have hlen := hn.length_eq
  obtain ⟨g', evs', g1, g2, g3⟩ := hd.get w hc (by rw [List.length_zip]; rw [hlen] at hr; convert hr using 1; omega) hi hk
    (item := Item.new) (fun _ => rfl) rfl
  obtain ⟨g, k1, k2⟩ := (get_near file fuel c s key (a := localItem handle) (b := Item.new) ⟨handle, rfl⟩).of_some g1
  obtain ⟨a1, -, ref, -, a2, -⟩ := g2
  refine ⟨g, k1, by rw [k2.ptr, a2]; simp, by rw [k2.err, a1], items' ++ [g'.item], evs', ?_, ?_, ?_⟩
  · exact List.rel_append hn (.cons k2.item .nil)
  · simp [hl]
  · rw [k2.state, List.zip_append hl]
    exact Holding.perm g3 (List.perm_append_comm (l₁ := [_]))

theorem eachOf_prefix (w : WellFormed file h read) (hc : Created file cfg h read c) (rec : Nat → CStr) (cb : List Item → Bool)
    (rest : List Nat) : ∀ (vs : List Nat) (s : State) (handle : Option Ref) (seen : List Item) (bytes : List CStr),
    (∀ v ∈ vs, IsItem file h (UInt32.ofNat v) (rec v) read ∧ (second cfg = .cache → UInt32.ofNat v ≠ 0x80000000)) →
    HoldingNear file c cfg h read fuel capacity base evs0 s seen bytes → Room cfg capacity base evs0 (seen.length + vs.length) →
    ∃ s' handle' new, HoldingNear file c cfg h read fuel capacity base evs0 s' (seen ++ new) (bytes ++ (vs.take new.length).map rec) ∧
      new.length ≤ vs.length ∧ (∀ j, 0 < j → j < new.length → cb (seen ++ new.take j) = true) ∧
      ((new.length = vs.length ∧ (new ≠ [] → cb (seen ++ new) = true) ∧
          eachOf file fuel c cb (vs ++ rest) s handle seen = eachOf file fuel c cb rest s' handle' (seen ++ new)) ∨
       (new ≠ [] ∧ cb (seen ++ new) = false ∧
          eachOf file fuel c cb (vs ++ rest) s handle seen = some ⟨s', seen ++ new, none⟩)) := by
  intro vs
  induction vs with
  | nil =>
    intro s handle seen bytes _ hd _
    exact ⟨s, handle, [], by simpa using hd, Nat.le_refl _, fun j h1 h2 => absurd h2 (Nat.not_lt_zero _),
      .inl ⟨rfl, fun h => absurd rfl h, by simp⟩⟩
  | cons v vs ih =>
    intro s handle seen bytes hi hd hr
    obtain ⟨h1, h2⟩ := hi v (by simp)
    obtain ⟨g, g1, g2, g3, g4⟩ := hd.get w hc (fun hx i hi => by have := hr hx i hi; simp only [List.length_cons] at this; omega) h1 h2 handle
    by_cases hcb : cb (seen ++ [g.item]) = true
    · obtain ⟨s', handle', new, k1, k2, k3, k4⟩ := ih g.state g.item.handle (seen ++ [g.item]) (bytes ++ [rec v])
        (fun v hv => hi v (by simp [hv])) g4 (fun hx i hi => by have := hr hx i hi; simp only [List.length_cons] at this; simp; omega)
      have hone : eachOf file fuel c cb (v :: vs ++ rest) s handle seen =
          eachOf file fuel c cb (vs ++ rest) g.state g.item.handle (seen ++ [g.item]) := by
        rw [List.cons_append, eachOf, g1]
        simp only
        rw [if_pos ⟨g2, g3⟩, if_pos hcb]
      refine ⟨s', handle', g.item :: new, ?_, by simp; omega, ?_, ?_⟩
      · simpa [List.append_assoc] using k1
      · intro j j1 j2
        obtain ⟨j, rfl⟩ : ∃ i, j = i + 1 := ⟨j - 1, by omega⟩
        rw [List.take_succ_cons]
        by_cases hz : j = 0
        · subst hz; simpa using hcb
        · have := k3 j (by omega) (by simpa using j2)
          simpa [List.append_assoc] using this
      · rcases k4 with ⟨q1, q2, q3⟩ | ⟨q1, q2, q3⟩
        · refine .inl ⟨by simp [q1], fun _ => ?_, ?_⟩
          · by_cases hz : new = []
            · subst hz; exact hcb
            · have := q2 hz; simpa [List.append_assoc] using this
          · rw [hone, q3]; simp [List.append_assoc]
        · refine .inr ⟨by simp, by simpa [List.append_assoc] using q2, ?_⟩
          rw [hone, q3]; simp [List.append_assoc]
    · refine ⟨g.state, g.item.handle, [g.item], by simpa using g4, by simp, fun j h1 h2 => by simp at h2; omega,
        .inr ⟨by simp, by simpa using hcb, ?_⟩⟩
      rw [List.cons_append, eachOf, g1]
      simp only
      rw [if_pos ⟨g2, g3⟩, if_neg hcb]

/-- A get changes the cache by one step of it at most. -/
theorem get_cache {s : State} {key : UInt32} {item : Item} {g : Got} (hg : c.get file fuel s key item = some g) :
    g.state.cache = s.cache ∨ ∃ op i e, Cache.cacheStep keyHash fuel s.cache op = some (g.state.cache, i, e) := by
  have hexc : ∀ {e : Err} {g : Got}, (getExceptionSet s.heap item).map (fun r => (⟨{ s with heap := r.1 }, r.2, none, some e⟩ : Got)) = some g →
      g.state.cache = s.cache := by
    intro e g h
    rw [Option.map_eq_some_iff] at h
    obtain ⟨r, -, rfl⟩ := h
    rfl
  have hback : ∀ {b f g}, getBack file fuel b f s key item = some g →
      g.state.cache = s.cache ∨ ∃ op i e, Cache.cacheStep keyHash fuel s.cache op = some (g.state.cache, i, e) := by
    intro b f g h
    cases b with
    | file =>
      rw [getBack, Option.map_eq_some_iff] at h
      obtain ⟨r, -, rfl⟩ := h
      exact .inl rfl
    | cache =>
      rw [getBack, Option.map_eq_some_iff] at h
      obtain ⟨r, h, rfl⟩ := h
      refine .inr ?_
      rw [getFromCache] at h
      cases hl : loader file f key with
      | none => rw [hl] at h; cases h
      | some x =>
        obtain ⟨v, e⟩ := x
        rw [hl] at h
        simp only at h
        refine ⟨.get key v e.isNone, ?_⟩
        cases hstep : Cache.cacheStep keyHash fuel s.cache (.get key v e.isNone) with
        | none => rw [hstep] at h; cases h
        | some y =>
          obtain ⟨c', i, ev⟩ := y
          rw [hstep] at h
          refine ⟨i, ev, ?_⟩
          have hfound : ∀ n, (getFromCache.found item c' i n).1 = c' := by
            intro n
            rw [getFromCache.found]
            split <;> rfl
          have : r.1 = c' := by
            split at h
            · rename_i heq; cases heq
            · rename_i heq; cases heq; cases h; exact hfound _
            · rename_i heq; cases heq; cases h; exact hfound _
            · rename_i heq; cases heq; cases h; rfl
            · rename_i heq; cases heq; cases h; rfl
          simp only [this]
  cases c with
  | memory m =>
    rw [Coll.get, getMemory] at hg
    split at hg <;> split at hg
    · cases hg; exact .inl rfl
    · exact .inl (hexc hg)
    · cases hg; exact .inl rfl
    · exact .inl (hexc hg)
  | back b f => exact hback hg
  | part m next =>
    cases next with
    | none =>
      simp only [Coll.get, getPartial] at hg
      split at hg
      · split at hg
        · cases hg; exact .inl rfl
        · exact .inl (hexc hg)
      · split at hg
        · cases hg; exact .inl rfl
        · exact .inl (hexc hg)
    | some n =>
      obtain ⟨b, f⟩ := n
      simp only [Coll.get, getPartial] at hg
      have hmap : ∀ {g : Got}, (getBack file fuel b f s key item).map (fun r => { r with ptr := r.item.ptr }) = some g →
          g.state.cache = s.cache ∨ ∃ op i e, Cache.cacheStep keyHash fuel s.cache op = some (g.state.cache, i, e) := by
        intro g h
        rw [Option.map_eq_some_iff] at h
        obtain ⟨r, h, rfl⟩ := h
        exact hback (g := r) h
      split at hg
      · split at hg
        · cases hg; exact .inl rfl
        · exact hmap hg
      · split at hg
        · cases hg; exact .inl rfl
        · exact hmap hg

/-- The items that are held keep what they show through a get that does not touch the heap. -/
theorem HoldingNear.shows (hc : Created file cfg h read c) {s : State} {items : List Item} {bytes : List CStr}
    (hd : HoldingNear file c cfg h read fuel capacity base evs0 s items bytes) {key : UInt32} {item : Item} {g : Got}
    (hg : c.get file fuel s key item = some g) (hheap : g.state.heap = s.heap) {i : Nat} {x : Item} {b : CStr}
    (hx : items[i]? = some x) (hb : bytes[i]? = some b) : ∃ tail, bytesAt g.state x = some (b ++ tail) := by
  obtain ⟨items', evs, hn, hl, hd⟩ := hd
  obtain ⟨hi, rfl⟩ := List.getElem?_eq_some_iff.1 hx
  obtain ⟨hib, rfl⟩ := List.getElem?_eq_some_iff.1 hb
  have hi' : i < items'.length := by omega
  have hm : (items'[i], bytes[i]) ∈ items'.zip bytes := by
    rw [List.mem_iff_getElem]
    exact ⟨i, by rw [List.length_zip]; omega, by simp⟩
  have hlive : Live c cfg g.state items'[i] bytes[i] := by
    have h0 := hd.live _ hm
    have hnode := h0
    refine h0.mono (fun j _ => by rw [hheap]) ?_
    intro j n hj
    rcases get_cache hg with h1 | ⟨op, k, e, h1⟩
    · rw [h1]
    · obtain ⟨ref, bb, k1, k2, -, k4⟩ := hnode
      have hsec : second cfg = .cache := by
        cases ref with
        | memory _ => simp only at k4; rw [k4.1] at hj; cases hj
        | block _ => simp only at k4; rw [k4.1] at hj; cases hj
        | node _ _ => exact k4.2.2.1
      obtain ⟨r1, -, r3⟩ := hd.cache hsec
      refine r1.data h1 ?_
      rw [r3]
      have := handles_mem hm hj
      omega
  obtain ⟨ref, bb, k1, k2, k3, -⟩ := hlive
  refine ⟨bb.drop bytes[i].length, ?_⟩
  have hnear : SameBut items[i] items'[i] := (hn.get hi hi').same
  rw [bytesAt_near hnear, bytesAt, k1, Option.bind_some, k2]
  conv => lhs; rw [← List.take_append_drop bytes[i].length bb, k3]

/-! ## C84 -/

/-- The data file holds these values, 14 bytes each (value.h), somewhere. -/
structure HoldsRecords (file : CStr) (recs : List CStr) (h : Header) : Prop where
  place : ∃ pre post, file = pre ++ (recs.flatMap id ++ post) ∧ h = ⟨pre.length, (recs.flatMap id).length, recs.length⟩
  small : (recs.flatMap id).length < 2 ^ 32
  size : ∀ r ∈ recs, r.length = 14

/-- The collection was created from the file and is in any state, with room for `k` more items in its cache, if it has one. -/
structure OpenFor (file : CStr) (cfg : Config) (h : Header) (read : Reader) (c : Coll) (fuel capacity : Nat) (s : State)
    (evs : List (Nat × Event UInt32 CStr)) (k : Nat) : Prop where
  created : Created file cfg h read c
  fresh : ∀ j, s.heap.next ≤ j → s.heap.block j = none
  cache : second cfg = .cache → Reached file (fileColl h read) fuel capacity s.cache evs
  room : Room cfg capacity s evs k

theorem OpenFor.holding {s : State} {evs : List (Nat × Event UInt32 CStr)} {k : Nat}
    (o : OpenFor file cfg h read c fuel capacity s evs k) : HoldingNear file c cfg h read fuel capacity s evs s [] [] :=
  ⟨[], evs, .nil, rfl, o.fresh, o.fresh, Nat.le_refl _, fun x hx => (nomatch hx), fun j => Nat.zero_le _, fun j hj => absurd rfl hj,
    fun j _ => rfl, fun hx => ⟨o.cache hx, rfl, fun i n => rfl⟩⟩

theorem HoldsRecords.item {recs : List CStr} (hh : HoldsRecords file recs h) {v : Nat} (hv : v < recs.length) :
    WellFormed file h .fixed ∧ IsItem file h (UInt32.ofNat v) (recs.getD v []) .fixed ∧ UInt32.ofNat v ≠ 0x80000000 := by
  obtain ⟨pre, post, hf, hhd⟩ := hh.place
  have hsm := hh.small
  subst hhd
  subst hf
  obtain ⟨w, hit⟩ := fixedRecords (pre := pre) (post := post) (enc := (id : CStr → CStr)) (k := 14) (by omega)
    (fun e => by rw [e] at hv; exact absurd hv (Nat.not_lt_zero _)) (fun r hr => hh.size r hr) hsm
  have hl := flatMap_length_const (rs := recs) (enc := (id : CStr → CStr)) (k := 14) (fun r hr => hh.size r hr)
  have hr : recs[v]? = some (recs.getD v []) := by rw [List.getD_eq_getElem?_getD, List.getElem?_eq_getElem hv]; rfl
  refine ⟨w, hit v _ hr, ?_⟩
  intro he
  have : (UInt32.ofNat v).toNat = 2 ^ 31 := by rw [he]; rfl
  rw [UInt32.toNat_ofNat'] at this
  omega

/-- C84: the callback gets an item for each value of the profile which is one of the property, in order, until it says to stop; all the
items show their values to the end, also the first ones, and releasing them gives back all that was taken. Missing: values which are not in the
collection, for which see `C84_outside`; a cache with too few free nodes, see `C84_skipped_violated`; a profile whose last
value is one of the property with nothing after it, see C29. -/
theorem C84_values_partial {recs : List CStr} (hh : HoldsRecords file recs h) {p : Profile.Profile} {q : Profile.Property}
    (hs : Ascending p.values) (hw : p.after ≠ none ∨ (∃ v ∈ p.values, q.last < v) ∨ inRange q p.values = [])
    (hin : ∀ v ∈ inRange q p.values, v < recs.length) {s : State} {evs : List (Nat × Event UInt32 CStr)}
    (ho : OpenFor file cfg h .fixed c fuel capacity s evs (inRange q p.values).length) (cb : List Item → Bool) (vj : Option Ref) :
    ∃ r, eachValue file fuel c cb p q vj s = some r ∧ r.err = none ∧ r.items.length ≤ (inRange q p.values).length ∧
      (∀ (i v : Nat) (item : Item), r.items[i]? = some item → (inRange q p.values)[i]? = some v →
        ∃ rec tail, recs[v]? = some rec ∧ bytesAt r.values item = some (rec ++ tail)) ∧
      (∀ j, 0 < j → j < r.items.length → cb (r.items.take j) = true) ∧
      (r.items.length < (inRange q p.values).length → r.items ≠ [] ∧ cb r.items = false) ∧
      ∃ s', releaseAll fuel r.values r.items = some s' ∧ Kept file cfg h .fixed fuel capacity evs s s' := by
  rw [eachValue_list file fuel c cb p q vj s hs hw]
  cases hl : inRange q p.values with
  | nil =>
    obtain ⟨-, -, h3⟩ := HoldingNear.spec ho.created ho.holding
    exact ⟨⟨s, [], none⟩, rfl, rfl, Nat.le_refl _, fun i v item h1 _ => by simp at h1, fun j h1 h2 => absurd h2 (Nat.not_lt_zero _),
      fun h => absurd h (Nat.not_lt_zero _), h3⟩
  | cons v0 vs0 =>
    rw [← hl]
    obtain ⟨w, -, -⟩ := hh.item (hin v0 (by rw [hl]; simp))
    obtain ⟨s', handle', new, k1, k2, k3, k4⟩ := eachOf_prefix w ho.created (fun v => recs.getD v []) cb [] (inRange q p.values) s vj [] []
      (fun v hv => ⟨(hh.item (hin v hv)).2.1, fun _ => (hh.item (hin v hv)).2.2⟩) ho.holding (by simpa using ho.room)
    simp only [List.append_nil, List.nil_append, eachOf] at k1 k3 k4
    obtain ⟨l1, l2, l3⟩ := HoldingNear.spec ho.created k1
    have hres : eachOf file fuel c cb (inRange q p.values) s vj [] = some ⟨s', new, none⟩ := by
      rcases k4 with ⟨-, -, h⟩ | ⟨-, -, h⟩ <;> exact h
    refine ⟨⟨s', new, none⟩, hres, rfl, k2, ?_, k3, ?_, l3⟩
    · intro i v item h1 h2
      have hi := (List.getElem?_eq_some_iff.1 h1).1
      have hv := hin v (List.mem_of_getElem? h2)
      obtain ⟨tail, ht⟩ := l2 i item (recs.getD v []) h1 (by
        rw [List.getElem?_map, List.getElem?_take_of_lt hi, h2]; rfl)
      exact ⟨recs.getD v [], tail, by rw [List.getD_eq_getElem?_getD, List.getElem?_eq_getElem hv]; rfl, ht⟩
    · intro hlt
      rcases k4 with ⟨h, -, -⟩ | ⟨h1, h2, -⟩
      · simp only at hlt; omega
      · exact ⟨h1, h2⟩

/-- C84: when a value is not in the collection, and the callback did not stop before, there is an exception, and the callback has got
the items of the values before it. -/
theorem C84_outside {recs : List CStr} (hh : HoldsRecords file recs h) (hne : recs ≠ []) {p : Profile.Profile} {q : Profile.Property}
    (hs : Ascending p.values) (hw : p.after ≠ none ∨ (∃ v ∈ p.values, q.last < v) ∨ inRange q p.values = [])
    {a b : List Nat} {v : Nat} (hl : inRange q p.values = a ++ v :: b) (hin : ∀ v ∈ a, v < recs.length) (hout : recs.length ≤ v)
    (hv : v < 2 ^ 32) {s : State} {evs : List (Nat × Event UInt32 CStr)}
    (ho : OpenFor file cfg h .fixed c fuel capacity s evs (a.length + 1)) (hk : second cfg = .cache → v ≠ 2 ^ 31)
    {cb : List Item → Bool} (hcb : ∀ items, items.length ≤ a.length → cb items = true) (vj : Option Ref) :
    ∃ r, eachValue file fuel c cb p q vj s = some r ∧ r.err = some .indexOutOfRange ∧ r.items.length = a.length ∧
      ∀ (i v : Nat) (item : Item), r.items[i]? = some item → a[i]? = some v →
        ∃ rec tail, recs[v]? = some rec ∧ bytesAt r.values item = some (rec ++ tail) := by
  rw [eachValue_list file fuel c cb p q vj s hs hw, hl]
  obtain ⟨w, -, -⟩ := hh.item (List.length_pos_iff.2 hne)
  obtain ⟨s', handle', new, k1, k2, k3, k4⟩ := eachOf_prefix w ho.created (fun v => recs.getD v []) cb (v :: b) a s vj [] []
    (fun v hv => ⟨(hh.item (hin v hv)).2.1, fun _ => (hh.item (hin v hv)).2.2⟩) ho.holding
    (fun hx i hi => by have := ho.room hx i hi; simp only [List.length_nil]; omega)
  simp only [List.nil_append] at k1 k4
  rcases k4 with ⟨h1, -, h2⟩ | ⟨h1, h2, -⟩
  · have hkey : (UInt32.ofNat v).toNat = v := by rw [UInt32.toNat_ofNat']; omega
    have hk' : second cfg = .cache → UInt32.ofNat v ≠ 0x80000000 := by
      intro hx he
      have : (UInt32.ofNat v).toNat = 2 ^ 31 := by rw [he]; rfl
      exact hk hx (by omega)
    have hcount : h.count = recs.length := by
      obtain ⟨pre, post, -, hhd⟩ := hh.place
      rw [hhd]
    have hk1 := k1
    obtain ⟨items', evs', hn, hlen, hd⟩ := k1
    obtain ⟨g', g1, -, g3, g4, g5⟩ := C13_outside_partial (capacity := capacity) (evs := evs') (s := s') w ho.created
      (key := UInt32.ofNat v) (show h.count ≤ _ by rw [hkey, hcount]; exact hout)
      (fun hx => ⟨(hd.cache hx).1, hk' hx⟩) (item := Item.new) (fun _ => rfl)
    have he : g'.err = some .indexOutOfRange := by
      rcases g5 with h | ⟨x, y⟩
      · exact h
      · refine absurd y (hd.notFull ?_ hk' x)
        intro hx i hi
        have := ho.room hx i hi
        rw [List.length_zip, hlen, List.length_map, List.length_take]
        omega
    obtain ⟨g, u1, u2⟩ := (get_near file fuel c s' (UInt32.ofNat v) (a := localItem handle') (b := Item.new) ⟨handle', rfl⟩).of_some g1
    have hge : g.err = some .indexOutOfRange := u2.err.trans he
    refine ⟨⟨g.state, new, some .indexOutOfRange⟩, ?_, rfl, h1, ?_⟩
    · rw [h2, eachOf, u1]
      simp only
      rw [if_neg (by rw [hge]; simp), if_neg (by rw [hge]; simp), hge]
    · intro i v' item hi hv'
      have hlt := hin v' (List.mem_of_getElem? hv')
      have hil := (List.getElem?_eq_some_iff.1 hi).1
      obtain ⟨tail, ht⟩ := hk1.shows ho.created u1 (by rw [u2.state]; exact g3) hi
        (b := recs.getD v' []) (by rw [List.getElem?_map, List.getElem?_take_of_lt hil, hv']; rfl)
      exact ⟨recs.getD v' [], tail, by rw [List.getD_eq_getElem?_getD, List.getElem?_eq_getElem hlt]; rfl, ht⟩
  · rw [hcb new k2] at h2; cases h2

/-! ## Concrete runs -/

/-- Four values. -/
def eachRecords : List CStr := [0, 1, 2, 3].map fun i => List.replicate 14 (UInt8.ofNat (10 + i))

def eachHeader : Header := ⟨0, 56, 4⟩

def eachIn (cfg : Config) : Coll := made (eachRecords.flatMap id) cfg eachHeader .fixed

/-- What the iteration reports for a profile: the bytes which the items show in the end, the exception, and for each block of memory whether it
is still allocated after all items have been released. -/
def eachRun (c : Coll) (capacity : Nat) (cb : List Item → Bool) (p : Profile.Profile) (q : Profile.Property) (vj : Option Ref := none) :
    UB (List (UB CStr) × Option Err × List Bool) :=
  (newState capacity).bind fun s => (eachValue (eachRecords.flatMap id) 12 c cb p q vj s).bind fun r =>
    (releaseAll 12 r.values r.items).map fun s' =>
      (r.items.map fun i => (bytesAt r.values i).map (·.take 14), r.err,
        (List.range s'.heap.next).map fun j => (s'.heap.block j).isSome)

/-- The values 1 and 2 of a profile with the values 0, 1, 2 and 3: in memory with any handle before, in the file, cached with two nodes; and
with a callback that stops after the first. -/
example :
    let two : List (UB CStr) := [some (List.replicate 14 11), some (List.replicate 14 12)]
    eachRun (createFromMemory (eachRecords.flatMap id) eachHeader) 1 (fun _ => true) ⟨[0, 1, 2, 3], none⟩ ⟨1, 2⟩ (some (.block 7)) =
      some (two, none, []) ∧
    eachRun (eachIn ⟨0, 0, 0⟩) 1 (fun _ => true) ⟨[0, 1, 2, 3], none⟩ ⟨1, 2⟩ = some (two, none, [false, false]) ∧
    eachRun (eachIn ⟨0, 2, 1⟩) 2 (fun _ => true) ⟨[0, 1, 2, 3], none⟩ ⟨1, 2⟩ = some (two, none, []) ∧
    eachRun (eachIn ⟨0, 2, 1⟩) 2 (fun l => l.length < 1) ⟨[0, 1, 2, 3], none⟩ ⟨1, 2⟩ = some (two.take 1, none, []) := by
  refine ⟨?_, ?_, ?_, ?_⟩ <;> decide +kernel

/-- The conditions of the theorems are met, for the second with the values 1, 2 and 7. -/
example : HoldsRecords (eachRecords.flatMap id) eachRecords eachHeader ∧ Ascending [0, 1, 2, 3] ∧
    (∃ v ∈ [0, 1, 2, 3], (⟨1, 2⟩ : Profile.Property).last < v) ∧ (∀ v ∈ inRange ⟨1, 2⟩ [0, 1, 2, 3], v < eachRecords.length) ∧
    inRange ⟨1, 7⟩ [0, 1, 2, 7, 9] = [1, 2] ++ 7 :: [] := by
  unfold Ascending
  refine ⟨⟨⟨[], [], by decide +kernel, by decide +kernel⟩, by decide +kernel, by decide +kernel⟩, ?_, ?_, ?_, ?_⟩ <;> decide +kernel

/-- So are those on the collection, with two nodes. -/
example : ∃ s, newState 2 = some s ∧ OpenFor (eachRecords.flatMap id) ⟨0, 2, 1⟩ eachHeader .fixed (eachIn ⟨0, 2, 1⟩) 12 2 s [] 2 := by
  obtain ⟨start, h1, -⟩ := Cache.shardInit_spec (K := UInt32) keyHash [] 2 someMemory
  refine ⟨_, by rw [newState, h1]; rfl, .inr rfl, fun _ _ => rfl, fun _ => ⟨by show 2 * Nat.log2 3 + 2 ≤ 12; decide,
    Nat.one_pos, _, [], ⟨rfl, rfl, fun i _ => ⟨[], someMemory, h1⟩⟩, rfl, fun _ _ _ h => (nomatch h)⟩, ?_⟩
  intro _ i _
  exact Nat.le_refl 2

/-- A value which is not in the collection. -/
example : eachRun (eachIn ⟨0, 3, 1⟩) 3 (fun _ => true) ⟨[0, 1, 2, 7, 9], none⟩ ⟨1, 7⟩ =
    some ([some (List.replicate 14 11), some (List.replicate 14 12)], some .indexOutOfRange, []) := by
  decide +kernel

/-- C84 fails when the cache has fewer free nodes than there are values: those for which there is none are left out, without an
exception. With one node the value 2 is missing. -/
theorem C84_skipped_violated :
    eachRun (eachIn ⟨0, 1, 1⟩) 1 (fun _ => true) ⟨[0, 1, 2, 3], none⟩ ⟨1, 2⟩ = some ([some (List.replicate 14 11)], none, []) := by
  decide +kernel

/-- C84 fails when the last value of the profile is one of the property and nothing can be read after it. -/
theorem C84_overrun_violated (c : Coll) (file : CStr) (fuel : Nat) (cb : List Item → Bool) (vj : Option Ref) (s : State) (v : Nat)
    (q : Profile.Property) (h1 : q.first ≤ v) (h2 : v ≤ q.last) {g : Got}
    (hg : c.get file fuel s (UInt32.ofNat v) (localItem vj) = some g) (hcb : g.ptr ≠ none → g.err = none → cb [g.item] = true) :
    eachValue file fuel c cb ⟨[v], none⟩ q vj s = none := by
  have hf : Profile.firstValue ⟨[v], none⟩ q = some 0 := by
    rw [Profile.firstValue, Profile.bsearch]
    simp [Profile.compareValue, h1, h2, Nat.not_lt.2, Profile.moveBack]
  rw [eachValue, hf]
  simp only [Profile.moveBack, List.length_singleton]
  have hend : ∀ s handle seen err, eachLoop file fuel c cb ⟨[v], none⟩ q 1 1 s handle seen err = none := by
    intro s handle seen err
    rw [eachLoop]
    simp [Profile.Profile.read]
  rw [eachLoop]
  simp only [Profile.Profile.read, List.length_singleton, Nat.lt_one_iff, if_true, List.getElem?_cons_zero]
  rw [if_pos ⟨h2, trivial, trivial⟩, hg]
  simp only
  by_cases ho : g.ptr ≠ none ∧ g.err = none
  · rw [if_pos ho, if_pos (by simpa using hcb ho.1 ho.2)]
    exact hend _ _ _ _
  · rw [if_neg ho]
    exact hend _ _ _ _

/-- Its conditions are met. -/
example : eachRun (eachIn ⟨0, 1, 1⟩) 1 (fun _ => true) ⟨[1], none⟩ ⟨1, 2⟩ = none := by
  decide +kernel

end Verif.Record
