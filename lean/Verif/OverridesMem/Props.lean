import Verif.OverridesMem.Model
import Verif.Overrides.Props

/-! # Properties of the memory of override values (C79) -/

namespace Verif.OverridesMem
open Verif.Overrides (Text toInt16 stored Values)

/-- A text that is a C string and whose buffer size fits `uint32_t`. -/
def Plain (value : CStr) : Prop := (∀ c ∈ value, c ≠ 0) ∧ SIZEOF_STRING + value.length < 4294967296

/-- A slot has no buffer, or one of its own size that is allocated. -/
def SlotOk (h : Heap) (s : Slot) : Prop :=
  (s.ptr = none ∧ s.allocated = 0) ∨
  ∃ p bytes, s.ptr = some p ∧ h.live p = some bytes ∧ bytes.length = s.allocated ∧ 0 < s.allocated

def Fresh (h : Heap) : Prop := ∀ b, h.next ≤ b → h.live b = none

theorem upd_same (f : Nat → Option (List Byte)) (b : Nat) (v : Option (List Byte)) : upd f b v b = v := by simp [upd]
theorem upd_ne (f : Nat → Option (List Byte)) {b x : Nat} (v : Option (List Byte)) (h : x ≠ b) : upd f b v x = f x := by
  simp [upd, h]

theorem readText_text (value : CStr) (hv : ∀ c ∈ value, c ≠ 0) (rest : List Byte) :
    readText (textBytes value ++ rest) = some value := by
  induction value with
  | nil => simp [textBytes, readText]
  | cons c cs ih =>
    have h1 : c ≠ 0 := hv c (by simp)
    have := ih (fun x hx => hv x (by simp [hx]))
    simp only [textBytes] at this ⊢
    simp [readText, h1] at this ⊢
    exact this

theorem textBytes_length (value : CStr) : (textBytes value).length = value.length + 1 := by simp [textBytes]

theorem size_bytes (n : Nat) : toInt16 ((UInt8.ofNat n).toNat + 256 * (UInt8.ofNat (n / 256)).toNat) = toInt16 n := by
  have : ((UInt8.ofNat n).toNat + 256 * (UInt8.ofNat (n / 256)).toNat) % 65536 = n % 65536 := by
    simp; omega
  unfold toInt16; rw [this]

/-- Storing in a block with room: the text reads back and only this block changes. -/
theorem store_spec {h : Heap} {p : Nat} {bytes : List Byte} {value : CStr} (hb : h.live p = some bytes)
    (hr : value.length + 3 ≤ bytes.length) (hv : ∀ c ∈ value, c ≠ 0) :
    ∃ h', store h value (some p) = some h' ∧ h'.next = h.next ∧ readString h' p = some (stored value) ∧
      (∃ b', h'.live p = some b' ∧ b'.length = bytes.length) ∧ ∀ b, b ≠ p → h'.live b = h.live b := by
  match bytes, hr with
  | x :: y :: rest, hr =>
    simp only [List.length_cons] at hr
    have hl := textBytes_length value
    have h1 : 2 + (textBytes value).length ≤ (x :: y :: rest).length := by simp; omega
    have e : ∃ f, store h value (some p) = some ⟨h.next, f⟩ ∧
        f p = some (sizeBytes (value.length + 1) ++ (textBytes value ++ rest.drop (textBytes value).length)) ∧
        ∀ b, b ≠ p → f b = h.live b := by
      refine ⟨_, by simp only [store, write, hb, h1, if_true, Option.bind_some, upd_same]; rw [if_pos (by simp [sizeBytes])],
        ?_, fun b hne => by simp only [upd_ne _ _ hne]⟩
      rw [upd_same, Nat.add_comm 2]; simp [sizeBytes]
    obtain ⟨f, e, hp, ho⟩ := e
    refine ⟨_, e, rfl, ?_, ⟨_, hp, ?_⟩, ho⟩
    · simp only [readString, hp, sizeBytes, List.cons_append, List.nil_append, readText_text value hv, stored, Option.map_some, size_bytes]
    · simp [sizeBytes, hl]; omega

/-- What adding a text to a slot does. -/
structure Stored (h : Heap) (s : Slot) (value : CStr) (h' : Heap) (s' : Slot) : Prop where
  fresh : Fresh h'
  next : h.next ≤ h'.next
  idx : s'.idx = s.idx
  ok : SlotOk h' s'
  ptr : ∃ p, s'.ptr = some p ∧ readString h' p = some (stored value) ∧ (s.ptr = some p ∨ h.live p = none) ∧
    (s.ptr ≠ some p → ∀ q, s.ptr = some q → h'.live q = none) ∧
    (SIZEOF_STRING + value.length ≤ s.allocated → s.ptr = some p ∧ h'.next = h.next) ∧
    (s.allocated < SIZEOF_STRING + value.length → s.ptr ≠ some p)
  other : ∀ b, s.ptr ≠ some b → s'.ptr ≠ some b → h'.live b = h.live b

/-- Storing in the slot's own buffer. -/
theorem store_same {h : Heap} {s : Slot} {value : CStr} (hf : Fresh h) (ok : SlotOk h s) (hv : Plain value)
    (hr : SIZEOF_STRING + value.length ≤ s.allocated) :
    ∃ h', store h value s.ptr = some h' ∧ Stored h s value h' s := by
  rcases ok with ⟨-, h0⟩ | ⟨p, bytes, hp, hb, hl, hpos⟩
  · simp [SIZEOF_STRING] at hr; omega
  · simp only [SIZEOF_STRING] at hr
    obtain ⟨h', e, hn, ht, ⟨b', hb', hl'⟩, ho⟩ := store_spec (value := value) hb (by omega) hv.1
    refine ⟨h', by rw [hp, e], ⟨?_, by omega, rfl, Or.inr ⟨p, b', hp, hb', by omega, hpos⟩,
      ⟨p, hp, ht, Or.inl hp, fun hh => absurd hp hh, fun _ => ⟨hp, hn⟩,
        fun hh => by simp only [SIZEOF_STRING] at hh; omega⟩, ?_⟩⟩
    · intro b hle
      have : b ≠ p := by
        rintro rfl; have := hf b (by omega); rw [this] at hb; cases hb
      rw [ho b this]; exact hf b (by omega)
    · intro b h1 _; exact ho b (fun e => h1 (e ▸ hp))

/-- Storing in a new buffer, from a heap where the slot has none. -/
theorem store_new {h : Heap} {s : Slot} {value : CStr} (hf : Fresh h) (h0 : s.allocated = 0) (hv : Plain value)
    (alloc : Nat → Bool) (ha : alloc h.next = true) :
    ∃ h' s', allocate alloc h s (SIZEOF_STRING + value.length) = (⟨h.next + 1, upd h.live h.next
        (some (List.replicate (SIZEOF_STRING + value.length) none))⟩, s') ∧ s'.ptr = some h.next ∧ s'.idx = s.idx ∧
      store ⟨h.next + 1, upd h.live h.next (some (List.replicate (SIZEOF_STRING + value.length) none))⟩ value s'.ptr
        = some h' ∧ h'.next = h.next + 1 ∧ SlotOk h' s' ∧ readString h' h.next = some (stored value) ∧ Fresh h' ∧
      ∀ b, b ≠ h.next → h'.live b = h.live b := by
  obtain ⟨h', e, hn, ht, ⟨b', hb', hl'⟩, ho⟩ := store_spec (h := ⟨h.next + 1, upd h.live h.next
    (some (List.replicate (SIZEOF_STRING + value.length) none))⟩) (p := h.next) (value := value) (upd_same _ _ _)
    (by simp [SIZEOF_STRING]; omega) hv.1
  refine ⟨h', { s with ptr := some h.next, allocated := (SIZEOF_STRING + value.length) % 4294967296 }, ?_, rfl, rfl, e,
    hn, Or.inr ⟨h.next, b', rfl, hb', ?_, ?_⟩, ht, ?_, ?_⟩
  · simp [allocate, h0, malloc, ha]
  · rw [hl', List.length_replicate]; exact (Nat.mod_eq_of_lt hv.2).symm
  · simp only; rw [Nat.mod_eq_of_lt hv.2]; simp only [SIZEOF_STRING]; omega
  · intro b hle
    rw [hn] at hle; simp only at hle
    have : b ≠ h.next := by omega
    rw [ho b this]; simp only [upd_ne _ _ this]; exact hf b (by omega)
  · intro b hne; rw [ho b hne]; simp only [upd_ne _ _ hne]

/-- Adding a text when the allocation it may need succeeds. -/
theorem addText_ok {h : Heap} {s : Slot} {value : CStr} (hf : Fresh h) (ok : SlotOk h s) (hv : Plain value)
    (alloc : Nat → Bool) (ha : alloc h.next = true ∨ SIZEOF_STRING + value.length ≤ s.allocated) :
    ∃ h' s', addText alloc h s value = some (h', s') ∧ Stored h s value h' s' := by
  by_cases hr : SIZEOF_STRING + value.length ≤ s.allocated
  · obtain ⟨h', e, st⟩ := store_same hf ok hv hr
    refine ⟨h', s, ?_, st⟩
    have hne : s.allocated ≠ 0 := by simp [SIZEOF_STRING] at hr; omega
    simp [addText, dataMalloc, dropSmall, allocate, Nat.not_lt.mpr hr, hne, e]
  · have ha : alloc h.next = true := ha.resolve_right hr
    rcases ok with ⟨hp, h0⟩ | ⟨p, bytes, hp, hb, hl, hpos⟩
    · obtain ⟨h', s', ea, ep, ei, es, en, ok', er, hf', ho⟩ := store_new hf h0 hv alloc ha
      refine ⟨h', s', by simp [addText, dataMalloc, dropSmall, h0, ea, es], hf', by omega, ei, ok',
        ⟨h.next, ep, er, Or.inr (hf _ (Nat.le_refl _)), fun _ q hq => by simp [hp] at hq, fun hh => absurd hh hr,
          fun _ => by simp [hp]⟩, ?_⟩
      intro b _ h2; exact ho b (fun e => h2 (e ▸ ep))
    · have hf1 : Fresh { h with live := upd h.live p none } := by
        intro b hle; by_cases e : b = p
        · subst e; exact upd_same _ _ _
        · simp only [upd_ne _ _ e]; exact hf b hle
      have hpn : p ≠ h.next := by rintro rfl; rw [hf _ (Nat.le_refl _)] at hb; cases hb
      obtain ⟨h', s', ea, ep, ei, es, en, ok', er, hf', ho⟩ :=
        store_new (s := { s with ptr := none, allocated := 0 }) hf1 rfl hv alloc ha
      simp only at ea ep ei es en er ho
      refine ⟨h', s', ?_, hf', by omega, ei, ok',
        ⟨h.next, ep, er, Or.inr (hf _ (Nat.le_refl _)), fun _ q hq => ?_, fun hh => absurd hh hr,
          fun _ => by rw [hp]; simpa using hpn⟩, ?_⟩
      · simp [addText, dataMalloc, dropSmall, hpos, Nat.lt_of_not_le hr, hp, free, hb, ea, es]
      · rw [hp] at hq; cases hq; rw [ho p hpn]; exact upd_same _ _ _
      · intro b h1 h2
        have hbn : b ≠ h.next := fun e => h2 (e ▸ ep)
        have hbp : b ≠ p := fun e => h1 (e ▸ hp)
        rw [ho b hbn, upd_ne _ _ hbp]

/-- Adding a text when the allocation it needs fails. -/
theorem addText_fail {h : Heap} {s : Slot} {value : CStr} (ok : SlotOk h s)
    (alloc : Nat → Bool) (ha : alloc h.next = false) (hr : s.allocated < SIZEOF_STRING + value.length) :
    addText alloc h s value = none := by
  rcases ok with ⟨hp, h0⟩ | ⟨p, bytes, hp, hb, hl, hpos⟩
  · simp [addText, dataMalloc, dropSmall, h0, allocate, malloc, ha, store]
  · simp [addText, dataMalloc, dropSmall, hpos, hr, hp, free, hb, allocate, malloc, ha, store]

/-- The blocks of the array: its own and those of its slots. -/
def Owns (a : Arr) (b : Nat) : Prop := b = a.self ∨ ∃ s ∈ a.items, s.ptr = some b

/-- The array in the heap `h` holds the values `v`, and the blocks that are not its own are those of `h0`. -/
structure Rep (h0 h : Heap) (a : Arr) (v : Values) : Prop where
  fresh : Fresh h
  self : h.live a.self ≠ none
  len : a.items.length = a.capacity
  cap : v.capacity = a.capacity
  count : a.count = v.items.length
  le : a.count ≤ a.capacity
  ok : ∀ s ∈ a.items, SlotOk h s ∧ s.ptr ≠ some a.self
  apart : ∀ (i j : Nat) (s t : Slot) (p : Nat), a.items[i]? = some s → a.items[j]? = some t → s.ptr = some p → t.ptr = some p → i = j
  texts : ∀ (i k : Nat) (t : Text), v.items[i]? = some (k, t) → ∃ (s : Slot) (p : Nat), a.items[i]? = some s ∧ s.idx = k ∧ s.ptr = some p ∧
    readString h p = some t
  frame : ∀ b, ¬ Owns a b → h.live b = h0.live b
  own : ∀ b, Owns a b → h0.live b = none

theorem find_eq (idx : Nat) : ∀ (vs : List (Nat × Text)) (slots : List Slot),
    (∀ (i : Nat) k t, vs[i]? = some (k, t) → ∃ s p, slots[i]? = some s ∧ s.idx = k ∧ s.ptr = some p ∧ True) →
    find idx vs.length slots = some (Overrides.findItem idx vs) := by
  intro vs
  induction vs with
  | nil => intro slots _; simp [find, Overrides.findItem]
  | cons x rest ih =>
    intro slots hs
    obtain ⟨s, p, h1, h2, -⟩ := hs 0 x.1 x.2 rfl
    match slots, h1 with
    | s' :: slots, h1 =>
      simp only [List.getElem?_cons_zero, Option.some.injEq] at h1
      subst h1
      have := ih slots (fun i k t e => hs (i + 1) k t e)
      simp only [List.length_cons, find, Overrides.findItem, h2, this]
      split <;> simp_all

theorem findItem_le (idx : Nat) (vs : List (Nat × Text)) : Overrides.findItem idx vs ≤ vs.length := by
  induction vs with
  | nil => simp [Overrides.findItem]
  | cons x rest ih => simp only [Overrides.findItem, List.length_cons]; split <;> omega

theorem findItem_idx (idx : Nat) (vs : List (Nat × Text)) (h : Overrides.findItem idx vs ≠ vs.length) :
    ∃ t, vs[Overrides.findItem idx vs]? = some (idx, t) := by
  induction vs with
  | nil => simp [Overrides.findItem] at h
  | cons x rest ih =>
    by_cases e : x.1 = idx
    · simp only [Overrides.findItem, e, ne_eq, not_true_eq_false, if_false]; exact ⟨x.2, by simp [← e]⟩
    · simp only [Overrides.findItem, ne_eq, e, not_false_eq_true, if_true, List.length_cons] at h ⊢
      simpa using ih (by omega)

theorem findItem_append (k : Nat) (vs : List (Nat × Text)) (x : Nat × Text) (h : Overrides.findItem k vs < vs.length) :
    Overrides.findItem k (vs ++ [x]) = Overrides.findItem k vs := by
  induction vs with
  | nil => simp at h
  | cons y rest ih =>
    by_cases e : y.1 = k
    · simp [Overrides.findItem, e]
    · simp only [Overrides.findItem, ne_eq, e, not_false_eq_true, if_true, List.length_cons, List.cons_append] at h ⊢
      rw [ih (by omega)]

theorem findItem_keys (k : Nat) : ∀ (vs ws : List (Nat × Text)), vs.map (·.1) = ws.map (·.1) →
    Overrides.findItem k vs = Overrides.findItem k ws := by
  intro vs
  induction vs with
  | nil => intro ws h; cases ws <;> simp_all
  | cons y rest ih =>
    intro ws h
    cases ws with
    | nil => simp at h
    | cons z ws => simp only [List.map_cons, List.cons.injEq] at h; simp only [Overrides.findItem, h.1, ih ws h.2]

theorem slotOk_frame {h h' : Heap} {s : Slot} (ok : SlotOk h s) (hf : ∀ p, s.ptr = some p → h'.live p = h.live p) :
    SlotOk h' s := by
  rcases ok with o | ⟨p, bytes, hp, hb, r⟩
  · exact Or.inl o
  · exact Or.inr ⟨p, bytes, hp, by rw [hf p hp, hb], r⟩

theorem readString_frame {h h' : Heap} {p : Nat} (e : h'.live p = h.live p) : readString h' p = readString h p := by
  simp [readString, e]

/-- Replacing one slot by what storing a text gave keeps the representation, apart from the texts. -/
theorem rep_set {h0 h h' : Heap} {a : Arr} {v : Values} (r : Rep h0 h a v) {i : Nat} {s s0 s' : Slot} {value : CStr}
    (hi : a.items[i]? = some s0) (hs : s.ptr = s0.ptr) (st : Stored h s value h' s') {count : Nat} {items : List (Nat × Text)}
    (hcount : count = items.length) (hle : count ≤ a.capacity)
    (hitems : ∀ (j k : Nat) (t : Text), items[j]? = some (k, t) →
      (j = i ∧ k = s'.idx ∧ t = stored value) ∨ (j ≠ i ∧ v.items[j]? = some (k, t))) :
    Rep h0 h' { a with count := count, items := a.items.set i s' } { v with items := items } := by
  obtain ⟨p, hp, hread, hfrom, hgone, -, -⟩ := st.ptr
  have hil : i < a.items.length := by rw [List.getElem?_eq_some_iff] at hi; exact hi.1
  have hmem0 : s0 ∈ a.items := List.mem_of_getElem? hi
  -- the new pointer is not one of another slot, nor the array
  have hpo : ∀ j t, j ≠ i → a.items[j]? = some t → t.ptr ≠ some p := by
    intro j t hj ht e
    rcases hfrom with hsame | hnone
    · exact hj (r.apart j i t s0 p ht hi e (hs ▸ hsame))
    · rcases (r.ok t (List.mem_of_getElem? ht)).1 with ⟨e0, -⟩ | ⟨q, bytes, hq, hb, -⟩
      · rw [e0] at e; cases e
      · rw [hq] at e; cases e; rw [hnone] at hb; cases hb
  have hps : p ≠ a.self := by
    rintro rfl
    rcases hfrom with hsame | hnone
    · exact (r.ok s0 hmem0).2 (hs ▸ hsame)
    · exact r.self hnone
  have hkeep : ∀ j t q, j ≠ i → a.items[j]? = some t → t.ptr = some q → h'.live q = h.live q := by
    intro j t q hj ht hq
    refine st.other q (fun e => hj (r.apart j i t s0 q ht hi hq (hs ▸ e))) (fun e => ?_)
    rw [hp] at e; cases e; exact hpo j t hj ht hq
  have hself : h'.live a.self = h.live a.self := by
    refine st.other a.self (fun e => (r.ok s0 hmem0).2 (hs ▸ e)) (fun e => hps ?_)
    rw [hp] at e; cases e; rfl
  have hget : ∀ j t, (a.items.set i s')[j]? = some t → (j = i ∧ t = s') ∨ (j ≠ i ∧ a.items[j]? = some t) := by
    intro j t e
    by_cases hj : j = i
    · subst hj; rw [List.getElem?_set_self hil] at e; cases e; exact Or.inl ⟨rfl, rfl⟩
    · rw [List.getElem?_set_ne (Ne.symm hj)] at e; exact Or.inr ⟨hj, e⟩
  have hset : ∀ t ∈ a.items.set i s', t = s' ∨ ∃ j, j ≠ i ∧ a.items[j]? = some t := by
    intro t ht
    obtain ⟨j, hj⟩ := List.mem_iff_getElem?.mp ht
    rcases hget j t hj with ⟨-, rfl⟩ | ⟨h1, h2⟩
    · exact Or.inl rfl
    · exact Or.inr ⟨j, h1, h2⟩
  have hin : ∀ j t, j ≠ i → a.items[j]? = some t → t ∈ a.items.set i s' := by
    intro j t hj ht
    exact List.mem_of_getElem? (i := j) (by rw [List.getElem?_set_ne (Ne.symm hj)]; exact ht)
  have hins : s' ∈ a.items.set i s' := List.mem_of_getElem? (i := i) (List.getElem?_set_self hil)
  refine ⟨st.fresh, by simpa [hself] using r.self, by simpa using r.len, r.cap, hcount, hle, ?_, ?_, ?_, ?_, ?_⟩
  · intro t ht
    rcases hset t ht with rfl | ⟨j, hj, htj⟩
    · exact ⟨st.ok, by rw [hp]; simpa using hps⟩
    · exact ⟨slotOk_frame (r.ok t (List.mem_of_getElem? htj)).1 (fun q hq => hkeep j t q hj htj hq),
        (r.ok t (List.mem_of_getElem? htj)).2⟩
  · intro j k t u q e1 e2 hq1 hq2
    rcases hget j t e1 with ⟨rfl, rfl⟩ | ⟨hj, ht⟩ <;> rcases hget k u e2 with ⟨rfl, rfl⟩ | ⟨hk, hu⟩
    · rfl
    · rw [hp] at hq1; cases hq1; exact absurd hq2 (hpo k u hk hu)
    · rw [hp] at hq2; cases hq2; exact absurd hq1 (hpo j t hj ht)
    · exact r.apart j k t u q ht hu hq1 hq2
  · intro j k t e
    rcases hitems j k t e with ⟨rfl, rfl, rfl⟩ | ⟨hj, hv⟩
    · exact ⟨s', p, List.getElem?_set_self hil, rfl, hp, hread⟩
    · obtain ⟨u, q, hu, hk, hq, ht⟩ := r.texts j k t hv
      exact ⟨u, q, by rw [List.getElem?_set_ne (Ne.symm hj)]; exact hu, hk, hq,
        by rw [readString_frame (hkeep j u q hj hu hq)]; exact ht⟩
  · intro b hb
    have hb1 : b ≠ a.self := fun e => hb (Or.inl e)
    have hb2 : s'.ptr ≠ some b := fun e => hb (Or.inr ⟨s', hins, e⟩)
    by_cases hb3 : s0.ptr = some b
    · -- the old buffer was freed, and it was not there at the start
      have h1 : h'.live b = none := hgone (fun e => hb2 (by rw [hp, ← e, hs, hb3])) b (hs ▸ hb3)
      rw [h1, r.own b (Or.inr ⟨s0, hmem0, hb3⟩)]
    · rw [st.other b (hs ▸ hb3) hb2]
      refine r.frame b ?_
      rintro (e | ⟨t, ht, e⟩)
      · exact hb1 e
      · obtain ⟨j, hj⟩ := List.mem_iff_getElem?.mp ht
        by_cases hji : j = i
        · subst hji; rw [hi] at hj; cases hj; exact hb3 e
        · exact hb (Or.inr ⟨t, hin j t hji hj, e⟩)
  · rintro b (e | ⟨t, ht, e⟩)
    · exact r.own b (Or.inl e)
    · rcases hset t ht with rfl | ⟨j, hj, htj⟩
      · rw [hp] at e; cases e
        rcases hfrom with hsame | hnone
        · exact r.own _ (Or.inr ⟨s0, hmem0, hs ▸ hsame⟩)
        · by_cases ho : Owns a p
          · exact r.own p ho
          · rw [← r.frame p ho, hnone]
      · exact r.own b (Or.inr ⟨t, List.mem_of_getElem? htj, e⟩)

/-- What `add` does to a represented array: nothing, an item stored, or undefined behaviour because an
allocation that it needs fails. -/
theorem add_cases {h0 h : Heap} {a : Arr} {v : Values} (r : Rep h0 h a v) (alloc : Nat → Bool) (idx : Int)
    {value : CStr} (hv : Plain value) :
    (¬ (idx ≥ 0 ∧ a.count < a.capacity) ∧ add alloc h a idx value = some (h, a) ∧ (Overrides.add v idx value).1 = v) ∨
    (idx ≥ 0 ∧ a.count < a.capacity ∧
      ∃ i s0, i = Overrides.findItem idx.toNat v.items ∧ a.items[i]? = some s0 ∧
      ((∃ h' s', add alloc h a idx value = some (h',
            { a with count := if i = a.count then a.count + 1 else a.count, items := a.items.set i s' }) ∧
          Stored h (if i = a.count then { s0 with idx := idx.toNat } else s0) value h' s' ∧
          Rep h0 h' { a with count := if i = a.count then a.count + 1 else a.count, items := a.items.set i s' }
            (Overrides.add v idx value).1) ∨
        (add alloc h a idx value = none ∧ alloc h.next = false ∧ s0.allocated < SIZEOF_STRING + value.length))) := by
  have hself : (h.live a.self).isNone = false := by
    cases e : h.live a.self with
    | none => exact absurd e r.self
    | some _ => rfl
  by_cases hc : idx ≥ 0 ∧ a.count < a.capacity
  · refine Or.inr ⟨hc.1, hc.2, ?_⟩
    have hfind : find idx.toNat a.count a.items = some (Overrides.findItem idx.toNat v.items) := by
      rw [r.count]; refine find_eq _ _ _ (fun i k t e => ?_)
      obtain ⟨s, p, h1, h2, h3, -⟩ := r.texts i k t e; exact ⟨s, p, h1, h2, h3, trivial⟩
    have hle := findItem_le idx.toNat v.items
    generalize hi : Overrides.findItem idx.toNat v.items = i at *
    have hil : i < a.items.length := by rw [r.len]; have := r.count; omega
    obtain ⟨s0, hs0⟩ : ∃ s0, a.items[i]? = some s0 := ⟨_, List.getElem?_eq_getElem hil⟩
    refine ⟨i, s0, rfl, hs0, ?_⟩
    have hadd : add alloc h a idx value = addAt alloc h a idx.toNat value i := by
      simp only [add, hself, hc, and_self, if_true, hfind, Option.bind_some]; rfl
    generalize hs : (if i = a.count then { s0 with idx := idx.toNat } else s0 : Slot) = s
    have hsp : s.ptr = s0.ptr := by rw [← hs]; split <;> rfl
    have hsa : s.allocated = s0.allocated := by rw [← hs]; split <;> rfl
    have hok : SlotOk h s := by
      have := (r.ok s0 (List.mem_of_getElem? hs0)).1
      unfold SlotOk at this ⊢; rw [hsp, hsa]; exact this
    by_cases hal : alloc h.next = true ∨ SIZEOF_STRING + value.length ≤ s.allocated
    · left
      obtain ⟨h', s', e, st⟩ := addText_ok r.fresh hok hv alloc hal
      refine ⟨h', s', ?_, st, ?_⟩
      · rw [hadd]; simp only [addAt, hs0, hs, e, Option.map_some]
      · have hcl : v.items.length < v.capacity := by rw [← r.count, r.cap]; exact hc.2
        by_cases hlast : i = v.items.length
        · have hic : i = a.count := by rw [r.count]; exact hlast
          have hidx : s'.idx = idx.toNat := by rw [st.idx, ← hs, if_pos hic]
          have hvadd : (Overrides.add v idx value).1 =
              { v with items := v.items ++ [(idx.toNat, stored value)] } := by
            simp only [Overrides.add, hc.1, hcl, and_self, if_true, hi, hlast]; rfl
          rw [hvadd]
          refine rep_set r hs0 hsp st (by rw [if_pos hic, r.count]; simp) (by rw [if_pos hic]; omega) ?_
          intro j k t e
          by_cases hj : j < v.items.length
          · rw [List.getElem?_append_left hj] at e; exact Or.inr ⟨by omega, e⟩
          · rw [List.getElem?_append_right (by omega)] at e
            have hj0 : j - v.items.length = 0 := by
              by_contra hne
              have : [(idx.toNat, stored value)].length ≤ j - v.items.length := by simp; omega
              rw [List.getElem?_eq_none this] at e; cases e
            rw [hj0] at e; simp only [List.getElem?_cons_zero, Option.some.injEq, Prod.mk.injEq] at e
            exact Or.inl ⟨by omega, by rw [hidx]; exact e.1.symm, e.2.symm⟩
        · have hic : ¬ i = a.count := by rw [r.count]; exact hlast
          have hidx : s'.idx = idx.toNat := by
            obtain ⟨t, ht⟩ := findItem_idx idx.toNat v.items (by rw [hi]; exact hlast)
            rw [hi] at ht
            obtain ⟨s1, p1, h1, h2, -⟩ := r.texts i _ t ht
            rw [hs0] at h1; cases h1
            rw [st.idx, ← hs, if_neg hic]; exact h2
          have hvadd : (Overrides.add v idx value).1 =
              { v with items := v.items.set i (idx.toNat, stored value) } := by
            simp only [Overrides.add, hc.1, hcl, and_self, if_true, hi, hlast, if_false]; rfl
          rw [hvadd]
          refine rep_set r hs0 hsp st (by rw [if_neg hic, r.count]; simp) (by rw [if_neg hic]; exact r.le) ?_
          intro j k t e
          by_cases hj : j = i
          · subst hj
            rw [List.getElem?_set_self (by omega)] at e
            simp only [Option.some.injEq, Prod.mk.injEq] at e
            exact Or.inl ⟨rfl, by rw [hidx]; exact e.1.symm, e.2.symm⟩
          · rw [List.getElem?_set_ne (Ne.symm hj)] at e; exact Or.inr ⟨hj, e⟩
    · right
      simp only [not_or, Bool.not_eq_true] at hal
      have := addText_fail (value := value) hok alloc hal.1 (by omega)
      exact ⟨by rw [hadd]; simp only [addAt, hs0, hs, this, Option.map_none], hal.1, by omega⟩
  · refine Or.inl ⟨hc, by simp only [add, hself, hc, if_false]; rfl, ?_⟩
    have : ¬ (idx ≥ 0 ∧ v.items.length < v.capacity) := by rw [← r.count, r.cap]; exact hc
    simp only [Overrides.add, this, if_false]

/-- The loop of `reset` keeps each buffer where it is, with its size. -/
theorem resetLoop_spec : ∀ (L : List Slot) (h : Heap), Fresh h → (∀ s ∈ L, SlotOk h s) →
    ∃ h' L', resetLoop h L = some (h', L') ∧ h'.next = h.next ∧
      (∀ b, (h'.live b).map List.length = (h.live b).map List.length) ∧
      (∀ b, (∀ s ∈ L, s.ptr ≠ some b) → h'.live b = h.live b) ∧
      L'.map (fun s => (s.ptr, s.allocated)) = L.map (fun s => (s.ptr, s.allocated)) := by
  intro L
  induction L with
  | nil => intro h _ _; exact ⟨h, [], rfl, rfl, fun _ => rfl, fun _ _ => rfl, rfl⟩
  | cons s rest ih =>
    intro h hf hok
    obtain ⟨h1, s1, e1, n1, l1, o1, p1⟩ : ∃ h1 s1, resetSlot h s = some (h1, s1) ∧ h1.next = h.next ∧
        (∀ b, (h1.live b).map List.length = (h.live b).map List.length) ∧
        (∀ b, s.ptr ≠ some b → h1.live b = h.live b) ∧ (s1.ptr, s1.allocated) = (s.ptr, s.allocated) := by
      rcases hok s (by simp) with ⟨hp, h0⟩ | ⟨p, bytes, hp, hb, hl, hpos⟩
      · exact ⟨h, s, by simp [resetSlot, hp], rfl, fun _ => rfl, fun _ _ => rfl, rfl⟩
      · refine ⟨⟨h.next, upd h.live p (some (List.replicate s.allocated (some 0)))⟩, { s with idx := 0 }, ?_, rfl, ?_, ?_, rfl⟩
        · have hd : List.drop s.allocated bytes = [] := List.drop_eq_nil_of_le (by omega)
          simp only [resetSlot, hp, hpos, if_true, write, hb]
          rw [if_pos (by simp [hl])]
          simp [hd, hp]
        · intro b; by_cases e : b = p
          · subst e; simp [upd_same, hb, hl]
          · simp only [upd_ne _ _ e]
        · intro b hne
          have : b ≠ p := fun e => hne (e ▸ hp)
          simp only [upd_ne _ _ this]
    have none_iff : ∀ b, h.live b = none → h1.live b = none := by
      intro b hb; have := l1 b; rw [hb] at this; simpa using this
    obtain ⟨h', L', e2, n2, l2, o2, p2⟩ := ih h1 (fun b hb => none_iff b (hf b (by omega))) (by
      intro t ht
      rcases hok t (by simp [ht]) with o | ⟨p, bytes, hp, hb, hl, hpos⟩
      · exact Or.inl o
      · have := l1 p; rw [hb] at this
        cases hh : h1.live p with
        | none => simp [hh] at this
        | some b' => rw [hh] at this; simp at this; exact Or.inr ⟨p, b', hp, hh, by omega, hpos⟩)
    refine ⟨h', s1 :: L', by simp [resetLoop, e1, e2], by omega, fun b => by rw [l2, l1], ?_, by simp [p2] at p1 ⊢; exact p1⟩
    intro b hb
    rw [o2 b (fun t ht => hb t (by simp [ht])), o1 b (hb s (by simp))]

theorem reset_rep {h0 h : Heap} {a : Arr} {v : Values} (r : Rep h0 h a v) :
    ∃ h' a', reset h a = some (h', a') ∧ Rep h0 h' a' (Overrides.reset v) ∧ h'.next = h.next ∧
      a'.items.map (fun s => (s.ptr, s.allocated)) = a.items.map (fun s => (s.ptr, s.allocated)) := by
  obtain ⟨h', L', e, n, l, o, p⟩ := resetLoop_spec a.items h r.fresh (fun s hs => (r.ok s hs).1)
  have hself : (h.live a.self).isNone = false := by
    cases e : h.live a.self with
    | none => exact absurd e r.self
    | some _ => rfl
  have hlive : ∀ b, h'.live b = none ↔ h.live b = none := by
    intro b; have := l b; cases e1 : h'.live b <;> cases e2 : h.live b <;> simp_all
  have hlen : L'.length = a.items.length := by have := congrArg List.length p; simpa using this
  have hto : ∀ (i : Nat) (s : Slot), L'[i]? = some s → ∃ t, a.items[i]? = some t ∧ s.ptr = t.ptr ∧ s.allocated = t.allocated := by
    intro i s hs
    have h1 := congrArg (·[i]?) p
    simp only [List.getElem?_map, hs, Option.map_some] at h1
    cases ht : a.items[i]? with
    | none => simp [ht] at h1
    | some t => simp [ht] at h1; exact ⟨t, rfl, h1.1, h1.2⟩
  have hfro : ∀ (i : Nat) (t : Slot), a.items[i]? = some t → ∃ s, L'[i]? = some s ∧ s.ptr = t.ptr := by
    intro i t ht
    have h1 := congrArg (·[i]?) p
    simp only [List.getElem?_map, ht, Option.map_some] at h1
    cases hs : L'[i]? with
    | none => simp [hs] at h1
    | some s => simp [hs] at h1; exact ⟨s, rfl, h1.1⟩
  have howns : ∀ b, Owns { a with count := 0, items := L' } b ↔ Owns a b := by
    intro b; unfold Owns; simp only
    refine or_congr Iff.rfl ⟨?_, ?_⟩
    · rintro ⟨s, hs, e⟩
      obtain ⟨i, hi⟩ := List.mem_iff_getElem?.mp hs
      obtain ⟨t, ht, e1, -⟩ := hto i s hi
      exact ⟨t, List.mem_of_getElem? ht, e1 ▸ e⟩
    · rintro ⟨t, ht, e⟩
      obtain ⟨i, hi⟩ := List.mem_iff_getElem?.mp ht
      obtain ⟨s, hs, e1⟩ := hfro i t hi
      exact ⟨s, List.mem_of_getElem? hs, e1 ▸ e⟩
  refine ⟨h', { a with count := 0, items := L' }, by simp [reset, hself, e], ?_, n, p⟩
  refine ⟨fun b hb => (hlive b).mpr (r.fresh b (by omega)), fun e => r.self ((hlive _).mp e), by simp [hlen, r.len], r.cap, rfl,
    Nat.zero_le _, ?_, ?_, ?_, ?_, ?_⟩
  · intro s hs
    obtain ⟨i, hi⟩ := List.mem_iff_getElem?.mp hs
    obtain ⟨t, ht, e1, e2⟩ := hto i s hi
    have hm := List.mem_of_getElem? ht
    refine ⟨?_, by rw [e1]; exact (r.ok t hm).2⟩
    rcases (r.ok t hm).1 with ⟨hp, h0⟩ | ⟨q, bytes, hp, hb, hl, hpos⟩
    · exact Or.inl ⟨by rw [e1, hp], by rw [e2, h0]⟩
    · have := l q; rw [hb] at this
      cases hh : h'.live q with
      | none => simp [hh] at this
      | some b' => rw [hh] at this; simp at this; exact Or.inr ⟨q, b', by rw [e1, hp], hh, by omega, by omega⟩
  · intro i j s t q h1 h2 h3 h4
    obtain ⟨s1, g1, e1, -⟩ := hto i s h1
    obtain ⟨t1, g2, e2, -⟩ := hto j t h2
    exact r.apart i j s1 t1 q g1 g2 (e1 ▸ h3) (e2 ▸ h4)
  · intro i k t e; simp [Overrides.reset] at e
  · intro b hb
    rw [howns] at hb
    rw [o b (fun s hs e => hb (Or.inr ⟨s, hs, e⟩))]; exact r.frame b hb
  · intro b hb; exact r.own b ((howns b).mp hb)

/-- The loop of `free` frees each buffer once. -/
theorem freeLoop_spec : ∀ (L : List Slot) (h : Heap), (∀ s ∈ L, SlotOk h s) →
    L.Pairwise (fun s t => ∀ p, s.ptr = some p → t.ptr ≠ some p) →
    ∃ h', freeLoop h L = some h' ∧ (∀ b, (∀ s ∈ L, s.ptr ≠ some b) → h'.live b = h.live b) ∧
      ∀ b, (∃ s ∈ L, s.ptr = some b) → h'.live b = none := by
  intro L
  induction L with
  | nil => intro h _ _; exact ⟨h, rfl, fun _ _ => rfl, fun b hb => by simp at hb⟩
  | cons s rest ih =>
    intro h hok hpw
    rw [List.pairwise_cons] at hpw
    rcases hok s (by simp) with ⟨hp, h0⟩ | ⟨p, bytes, hp, hb, hl, hpos⟩
    · obtain ⟨h', e, o, g⟩ := ih h (fun t ht => hok t (by simp [ht])) hpw.2
      refine ⟨h', by simp [freeLoop, freeSlot, hp, e], fun b hb => o b (fun t ht => hb t (by simp [ht])), ?_⟩
      rintro b ⟨t, ht, et⟩
      rcases List.mem_cons.mp ht with rfl | ht
      · rw [hp] at et; cases et
      · exact g b ⟨t, ht, et⟩
    · obtain ⟨h', e, o, g⟩ := ih { h with live := upd h.live p none } (fun t ht =>
        slotOk_frame (hok t (by simp [ht])) (fun q hq => upd_ne _ _ (fun e => hpw.1 t ht p hp (e ▸ hq)))) hpw.2
      refine ⟨h', by simp [freeLoop, freeSlot, hp, hpos, free, hb, e], ?_, ?_⟩
      · intro b hb'
        rw [o b (fun t ht => hb' t (by simp [ht]))]
        exact upd_ne _ _ (fun e => hb' s (by simp) (e ▸ hp))
      · rintro b ⟨t, ht, et⟩
        rcases List.mem_cons.mp ht with rfl | ht
        · rw [hp] at et; cases et
          rw [o p (fun t ht => hpw.1 t ht p hp)]; exact upd_same _ _ _
        · exact g b ⟨t, ht, et⟩

theorem free_rep {h0 h : Heap} {a : Arr} {v : Values} (r : Rep h0 h a v) :
    ∃ h', valuesFree h a = some h' ∧ ∀ b, h'.live b = h0.live b := by
  have hself : (h.live a.self).isNone = false := by
    cases e : h.live a.self with
    | none => exact absurd e r.self
    | some _ => rfl
  have hpw : a.items.Pairwise (fun s t => ∀ p, s.ptr = some p → t.ptr ≠ some p) := by
    rw [List.pairwise_iff_getElem]
    intro i j hi hj hij p h1 h2
    have := r.apart i j _ _ p (List.getElem?_eq_getElem hi) (List.getElem?_eq_getElem hj) h1 h2
    omega
  obtain ⟨h1, e, o, g⟩ := freeLoop_spec a.items h (fun s hs => (r.ok s hs).1) hpw
  have hs1 : h1.live a.self = h.live a.self := o _ (fun s hs => (r.ok s hs).2)
  obtain ⟨bs, hbs⟩ : ∃ bs, h1.live a.self = some bs := by
    rw [hs1]; cases e : h.live a.self with
    | none => exact absurd e r.self
    | some b => exact ⟨b, rfl⟩
  refine ⟨{ h1 with live := upd h1.live a.self none }, by simp [valuesFree, hself, e, free, hbs], ?_⟩
  intro b
  by_cases hb : b = a.self
  · subst hb; simp only [upd_same]; exact (r.own _ (Or.inl rfl)).symm
  · simp only [upd_ne _ _ hb]
    by_cases hm : ∃ s ∈ a.items, s.ptr = some b
    · rw [g b hm, r.own b (Or.inr hm)]
    · rw [o b (fun s hs e => hm ⟨s, hs, e⟩)]
      exact r.frame b (fun ho => ho.elim hb hm)

/-! ## Histories -/

/-- A call on the array. -/
inductive Op
  | add (idx : Int) (value : CStr)
  | reset

/-- The calls one after the other. -/
def run (alloc : Nat → Bool) : Heap × Arr → List Op → UB (Heap × Arr)
  | x, [] => some x
  | x, .add idx value :: ops => (add alloc x.1 x.2 idx value).bind fun y => run alloc y ops
  | x, .reset :: ops => (reset x.1 x.2).bind fun y => run alloc y ops

/-- The additions since the last reset, after the additions `hist`. -/
def since (hist : List (Int × CStr)) : List Op → List (Int × CStr)
  | [] => hist
  | .add idx value :: ops => since (hist ++ [(idx, value)]) ops
  | .reset :: ops => since [] ops

/-- The texts in the calls are C strings of a length that fits. -/
def PlainOps (ops : List Op) : Prop := ∀ idx value, Op.add idx value ∈ ops → Plain value

theorem create_rep {alloc : Nat → Bool} {h h' : Heap} {cap : Nat} {a : Arr} (hf : Fresh h)
    (e : create alloc h cap = (some a, h')) : Rep h h' a (Overrides.valuesCreate cap) := by
  unfold create malloc at e
  by_cases ha : alloc h.next = true
  · simp only [ha, if_true] at e
    cases e
    have hrep : ∀ s ∈ List.replicate cap (⟨0, none, 0⟩ : Slot), s = ⟨0, none, 0⟩ := fun s hs => List.eq_of_mem_replicate hs
    refine ⟨?_, by simp [upd_same], by simp, rfl, rfl, Nat.zero_le _, ?_, ?_, ?_, ?_, ?_⟩
    · intro b hb
      simp only at hb
      have : b ≠ h.next := by omega
      simp only [upd_ne _ _ this]; exact hf b (by omega)
    · intro s hs; rw [hrep s hs]; exact ⟨Or.inl ⟨rfl, rfl⟩, by simp⟩
    · intro i j s t p h1 _ h3 _; rw [hrep s (List.mem_of_getElem? h1)] at h3; cases h3
    · intro i k t e; simp [Overrides.valuesCreate] at e
    · intro b hb; exact upd_ne _ _ (fun e => hb (Or.inl e))
    · rintro b (rfl | ⟨s, hs, e⟩)
      · exact hf _ (Nat.le_refl _)
      · rw [hrep s hs] at e; cases e
  · simp [ha] at e

theorem run_rep (alloc : Nat → Bool) {h0 : Heap} {cap : Nat} : ∀ (ops : List Op) (hist : List (Int × CStr)) (h : Heap) (a : Arr)
    (h' : Heap) (a' : Arr), PlainOps ops → Rep h0 h a (Overrides.addAll (Overrides.valuesCreate cap) hist) →
    run alloc (h, a) ops = some (h', a') →
    Rep h0 h' a' (Overrides.addAll (Overrides.valuesCreate cap) (since hist ops)) := by
  intro ops
  induction ops with
  | nil => intro hist h a h' a' _ r e; simp only [run, Option.some.injEq, Prod.mk.injEq] at e; rw [← e.1, ← e.2]; exact r
  | cons op ops ih =>
    intro hist h a h' a' hp r e
    have hp' : PlainOps ops := fun i v hm => hp i v (by simp [hm])
    cases op with
    | add idx value =>
      simp only [run] at e
      rcases add_cases r alloc idx (hp idx value (by simp)) with ⟨-, e1, e2⟩ | ⟨-, -, i, s0, -, -, ⟨h1, s1, e1, -, r1⟩ | ⟨e1, -⟩⟩
      · rw [e1, Option.bind_some] at e
        refine ih _ h a h' a' hp' ?_ e
        rw [Overrides.addAll_snoc]; simp only [e2]; exact r
      · rw [e1, Option.bind_some] at e
        refine ih _ _ _ h' a' hp' ?_ e
        rw [Overrides.addAll_snoc]; exact r1
      · rw [e1] at e; cases e
    | reset =>
      obtain ⟨h1, a1, e1, r1, -⟩ := reset_rep r
      simp only [run, e1, Option.bind_some] at e
      refine ih [] h1 a1 h' a' hp' ?_ e
      have : Overrides.reset (Overrides.addAll (Overrides.valuesCreate cap) hist) = Overrides.valuesCreate cap := by
        have hcap : ∀ (l : List (Int × CStr)) (v : Values), (Overrides.addAll v l).capacity = v.capacity := by
          intro l
          induction l with
          | nil => intro v; rfl
          | cons x l ih =>
            intro v; simp only [Overrides.addAll, ih]
            simp only [Overrides.add]; split
            · split <;> rfl
            · rfl
        simp [Overrides.reset, Overrides.valuesCreate, hcap]
      rw [this] at r1; exact r1

theorem getLoop_eq (h : Heap) (k : Nat) : ∀ (vs : List (Nat × Text)) (slots : List Slot),
    (∀ (i k : Nat) (t : Text), vs[i]? = some (k, t) → ∃ (s : Slot) (p : Nat), slots[i]? = some s ∧ s.idx = k ∧ s.ptr = some p ∧
      readString h p = some t) →
    match Overrides.getFirstLoop k vs with
    | none => getLoop k vs.length slots = some none
    | some t => ∃ i s p, slots[i]? = some s ∧ i = Overrides.findItem k vs ∧ i < vs.length ∧ s.ptr = some p ∧ s.idx = k ∧
      getLoop k vs.length slots = some (some p) ∧ readString h p = some t := by
  intro vs
  induction vs with
  | nil => intro slots _; simp [Overrides.getFirstLoop, getLoop]
  | cons x rest ih =>
    intro slots hs
    obtain ⟨s, p, h1, h2, h3, h4⟩ := hs 0 x.1 x.2 rfl
    match slots, h1 with
    | s' :: slots, h1 =>
      simp only [List.getElem?_cons_zero, Option.some.injEq] at h1
      subst h1
      have := ih slots (fun i k t e => hs (i + 1) k t e)
      by_cases e : x.1 = k
      · simp only [Overrides.getFirstLoop, e, if_true]
        exact ⟨0, s', p, rfl, by simp [Overrides.findItem, e], by simp, h3, by rw [h2, e],
          by simp [getLoop, h2, e, h3], h4⟩
      · simp only [Overrides.getFirstLoop, e, if_false]
        have h2' : ¬ s'.idx = k := by rw [h2]; exact e
        revert this
        cases Overrides.getFirstLoop k rest with
        | none => intro this; simpa [getLoop, h2'] using this
        | some t =>
          rintro ⟨i, s, q, g1, g2, g3, g4, g5, g6, g7⟩
          exact ⟨i + 1, s, q, by simpa using g1, by simp [Overrides.findItem, e, g2], by simpa using g3, g4, g5,
            by simpa [getLoop, h2'] using g6, g7⟩

theorem getFirst_rep {h0 h : Heap} {a : Arr} {v : Values} (r : Rep h0 h a v) (k : Nat) :
    match Overrides.getFirst v k with
    | none => getFirst h a k = some none
    | some t => ∃ i s p, a.items[i]? = some s ∧ i = Overrides.findItem k v.items ∧ i < v.items.length ∧ s.ptr = some p ∧
      s.idx = k ∧ getFirst h a k = some (some p) ∧ readString h p = some t := by
  have hself : (h.live a.self).isNone = false := by
    cases e : h.live a.self with
    | none => exact absurd e r.self
    | some _ => rfl
  have := getLoop_eq h k v.items a.items r.texts
  simpa only [Overrides.getFirst, getFirst, hself, r.count, Bool.false_eq_true, if_false] using this

/-- C79: after any calls, whatever allocations failed, as long as behaviour is defined the array gives for each
property a pointer to a string whose bytes are the value held for it, and NULL when none is held. What is held is
that of `C25` for the additions since the last reset. -/
theorem C79_values (alloc : Nat → Bool) (h h1 h' : Heap) (cap : Nat) (a a' : Arr) (ops : List Op) (hf : Fresh h)
    (hp : PlainOps ops) (hc : create alloc h cap = (some a, h1)) (e : run alloc (h1, a) ops = some (h', a')) (k : Nat) :
    match Overrides.getFirst (Overrides.addAll (Overrides.valuesCreate cap) (since [] ops)) k with
    | none => getFirst h' a' k = some none
    | some t => ∃ p, getFirst h' a' k = some (some p) ∧ readString h' p = some t := by
  have := getFirst_rep (run_rep alloc ops [] h1 a h' a' hp (create_rep hf hc) e) k
  revert this
  cases Overrides.getFirst (Overrides.addAll (Overrides.valuesCreate cap) (since [] ops)) k with
  | none => exact id
  | some t => rintro ⟨i, s, p, -, -, -, -, -, g, g'⟩; exact ⟨p, g, g'⟩

/-- C79: with fewer properties than places, the text read back is the last one added for the property since the
last reset. -/
theorem C79_last (alloc : Nat → Bool) (h h1 h' : Heap) (cap : Nat) (a a' : Arr) (ops : List Op) (hf : Fresh h)
    (hp : PlainOps ops) (hc : create alloc h cap = (some a, h1)) (e : run alloc (h1, a) ops = some (h', a')) (k : Nat)
    (hroom : (Overrides.firstKeys (since [] ops)).length < cap) (value : CStr)
    (hl : Overrides.lastFor (since [] ops) k = some value) :
    ∃ p, getFirst h' a' k = some (some p) ∧ (readString h' p).map (·.value) = some value := by
  have := C79_values alloc h h1 h' cap a a' ops hf hp hc e k
  rw [(Overrides.C25_map_partial cap (since [] ops) hroom).2 k, hl] at this
  obtain ⟨p, g, g'⟩ := this
  exact ⟨p, g, by rw [g']; rfl⟩

/-- C79: freeing the array after any calls is defined and leaves exactly the blocks there were before it was
created, with their bytes. -/
theorem C79_free (alloc : Nat → Bool) (h h1 h' : Heap) (cap : Nat) (a a' : Arr) (ops : List Op) (hf : Fresh h)
    (hp : PlainOps ops) (hc : create alloc h cap = (some a, h1)) (e : run alloc (h1, a) ops = some (h', a')) :
    ∃ h'', valuesFree h' a' = some h'' ∧ ∀ b, h''.live b = h.live b :=
  free_rep (run_rep alloc ops [] h1 a h' a' hp (create_rep hf hc) e)

/-- C79: when the array cannot be allocated NULL is returned and no block is left. -/
theorem C79_create (alloc : Nat → Bool) (h : Heap) (cap : Nat) (ha : alloc h.next = false) :
    (create alloc h cap).1 = none ∧ (create alloc h cap).2.live = h.live := by
  simp [create, malloc, ha]

theorem run_defined (alloc : Nat → Bool) (ha : ∀ k, alloc k = true) {h0 : Heap} : ∀ (ops : List Op) (h : Heap) (a : Arr)
    (v : Values), PlainOps ops → Rep h0 h a v → ∃ y, run alloc (h, a) ops = some y := by
  intro ops
  induction ops with
  | nil => intro h a v _ _; exact ⟨_, rfl⟩
  | cons op ops ih =>
    intro h a v hp r
    have hp' : PlainOps ops := fun i v hm => hp i v (by simp [hm])
    cases op with
    | add idx value =>
      rcases add_cases r alloc idx (hp idx value (by simp)) with ⟨-, e1, -⟩ | ⟨-, -, i, s0, -, -, ⟨h1, s1, e1, -, r1⟩ | ⟨-, e1, -⟩⟩
      · simp only [run, e1, Option.bind_some]; exact ih h a v hp' r
      · simp only [run, e1, Option.bind_some]; exact ih _ _ _ hp' r1
      · rw [ha] at e1; cases e1
    | reset =>
      obtain ⟨h1, a1, e1, r1, -⟩ := reset_rep r
      simp only [run, e1, Option.bind_some]; exact ih h1 a1 _ hp' r1

/-- C79: all calls are defined when memory can be had. Missing: with no memory for a text they are not
(`C79_alloc_violated`). -/
theorem C79_defined_partial (alloc : Nat → Bool) (ha : ∀ k, alloc k = true) (h h1 : Heap) (cap : Nat) (a : Arr)
    (ops : List Op) (hf : Fresh h) (hp : PlainOps ops) (hc : create alloc h cap = (some a, h1)) :
    ∃ h' a', run alloc (h1, a) ops = some (h', a') := by
  obtain ⟨y, e⟩ := run_defined alloc ha ops h1 a _ hp (create_rep hf hc); exact ⟨y.1, y.2, e⟩

/-- C79 fails: when there is no memory for the text of the first value added, the copy writes through NULL. -/
theorem C79_alloc_violated (alloc : Nat → Bool) (h h1 : Heap) (cap : Nat) (a : Arr) (idx : Int) (value : CStr)
    (hf : Fresh h) (hc : create alloc h cap = (some a, h1)) (hidx : idx ≥ 0) (hcap : 0 < cap)
    (ha : alloc (h.next + 1) = false) : add alloc h1 a idx value = none := by
  have r := create_rep hf hc
  have hn : h1.next = h.next + 1 ∧ a.capacity = cap ∧ a.count = 0 ∧ a.items = List.replicate cap ⟨0, none, 0⟩ := by
    unfold create malloc at hc
    by_cases hh : alloc h.next = true
    · simp only [hh, if_true] at hc; cases hc; exact ⟨rfl, rfl, rfl, rfl⟩
    · simp [hh] at hc
  obtain ⟨hn, hc1, hc2, hc3⟩ := hn
  have hself : (h1.live a.self).isNone = false := by
    cases e : h1.live a.self with
    | none => exact absurd e r.self
    | some _ => rfl
  have h0' : (List.replicate cap (⟨0, none, 0⟩ : Slot))[0]? = some ⟨0, none, 0⟩ := by
    rw [List.getElem?_replicate]; simp [hcap]
  have hno' : addText alloc h1 ⟨idx.toNat, none, 0⟩ value = none :=
    addText_fail (Or.inl ⟨rfl, rfl⟩) alloc (by rw [hn]; exact ha) (by simp only [SIZEOF_STRING]; omega)
  simp [add, hself, hidx, hc1, hc2, hcap, find, addAt, hc3, h0', hno']

/-! ## Pointers given out -/

/-- C79: a pointer got for a property keeps its bytes, and stays the one given for the property, while only
values of other properties are added. -/
theorem pointer_other {alloc : Nat → Bool} {h0 h h' : Heap} {a a' : Arr} {v : Values} (r : Rep h0 h a v) {k p : Nat}
    (hg : getFirst h a k = some (some p)) {idx : Int} (hne : idx ≠ k) {value : CStr} (hp : Plain value)
    (e : add alloc h a idx value = some (h', a')) :
    Rep h0 h' a' (Overrides.add v idx value).1 ∧ h'.live p = h.live p ∧ getFirst h' a' k = some (some p) := by
  have hk := getFirst_rep r k
  rcases add_cases r alloc idx hp with ⟨-, e1, e2⟩ | ⟨hge, -, i, s0, hi, hs0, ⟨h1, s1, e1, st, r1⟩ | ⟨e1, -⟩⟩
  · rw [e1] at e; cases e; exact ⟨by rw [e2]; exact r, rfl, hg⟩
  · rw [e1] at e; cases e
    revert hk
    cases hv : Overrides.getFirst v k with
    | none => intro hk; rw [hg] at hk; simp at hk
    | some t =>
      rintro ⟨j, s, q, g1, g2, g3, g4, g5, g6, g7⟩
      rw [hg] at g6; simp only [Option.some.injEq] at g6; subst g6
      have hji : j ≠ i := by
        intro hji
        have hlt : Overrides.findItem idx.toNat v.items ≠ v.items.length := by omega
        obtain ⟨t1, ht1⟩ := findItem_idx idx.toNat v.items hlt
        obtain ⟨s2, p2, w1, w2, -⟩ := r.texts _ _ _ ht1
        rw [← hi, ← hji, g1] at w1; cases w1
        rw [g5] at w2; omega
      have hmem := List.mem_of_getElem? hs0
      have hs0p : (if i = a.count then { s0 with idx := idx.toNat } else s0 : Slot).ptr = s0.ptr := by split <;> rfl
      obtain ⟨np, hnp, -, hfrom, -⟩ := st.ptr
      rw [hs0p] at hfrom
      have hlive : h'.live p = h.live p := by
        refine st.other p ?_ ?_
        · rw [hs0p]; intro e; exact hji (r.apart j i s s0 p g1 hs0 g4 e)
        · rw [hnp]; intro e; cases e
          rcases hfrom with e | e
          · exact hji (r.apart j i s s0 _ g1 hs0 g4 e)
          · simp [readString, e] at g7
      refine ⟨r1, hlive, ?_⟩
      have hk' := getFirst_rep r1 k
      -- the slot of `k` is still the first one for `k`
      have hsame : Overrides.getFirst (Overrides.add v idx value).1 k = some t ∧
          Overrides.findItem k (Overrides.add v idx value).1.items = j := by
        have hkj : k ≠ idx.toNat := by omega
        have hcap : idx ≥ 0 ∧ v.items.length < v.capacity ∨ ¬ (idx ≥ 0 ∧ v.items.length < v.capacity) := Classical.em _
        rcases hcap with hcap | hcap
        · by_cases hl : Overrides.findItem idx.toNat v.items = v.items.length
          · have : (Overrides.add v idx value).1.items = v.items ++ [(idx.toNat, stored value)] := by
              simp only [Overrides.add, hcap, and_self, if_true, hl]; rfl
            unfold Overrides.getFirst at hv ⊢
            rw [this, Overrides.append_getFirst, hv]
            exact ⟨rfl, by rw [findItem_append _ _ _ (by omega), g2]⟩
          · have : (Overrides.add v idx value).1.items =
                v.items.set (Overrides.findItem idx.toNat v.items) (idx.toNat, stored value) := by
              simp only [Overrides.add, hcap, and_self, if_true, hl, if_false]; rfl
            have hm : idx.toNat ∈ v.items.map (·.1) := by
              by_contra hh; exact hl ((Overrides.findItem_eq_length _ _).mpr hh)
            have hset := Overrides.set_spec idx.toNat (stored value) v.items hm
            unfold Overrides.getFirst at hv ⊢
            rw [this, hset.2 k, if_neg hkj, hv]
            exact ⟨rfl, by rw [findItem_keys k _ _ hset.1, g2]⟩
        · have : (Overrides.add v idx value).1 = v := by simp only [Overrides.add, hcap, if_false]
          rw [this]; exact ⟨hv, g2.symm⟩
      rw [hsame.1] at hk'
      obtain ⟨j', s', q', w1, w2, -, w4, -, w6, -⟩ := hk'
      rw [hsame.2] at w2; subst w2
      rw [List.getElem?_set_ne (Ne.symm hji), g1] at w1; cases w1
      rw [g4] at w4; cases w4; exact w6
  · rw [e1] at e; cases e

theorem pointer_run {alloc : Nat → Bool} {h0 : Heap} {k p : Nat} : ∀ (ops : List Op) (h : Heap) (a : Arr) (v : Values)
    (h' : Heap) (a' : Arr), Rep h0 h a v → getFirst h a k = some (some p) → PlainOps ops →
    (∀ op ∈ ops, ∃ (idx : Int) (value : CStr), op = .add idx value ∧ idx ≠ k) → run alloc (h, a) ops = some (h', a') →
    h'.live p = h.live p ∧ getFirst h' a' k = some (some p) := by
  intro ops
  induction ops with
  | nil =>
    intro h a v h' a' _ hg _ _ e
    simp only [run, Option.some.injEq, Prod.mk.injEq] at e; rw [← e.1, ← e.2]; exact ⟨rfl, hg⟩
  | cons op ops ih =>
    intro h a v h' a' r hg hp hne e
    obtain ⟨idx, value, rfl, hi⟩ := hne op (by simp)
    simp only [run] at e
    cases e1 : add alloc h a idx value with
    | none => rw [e1] at e; cases e
    | some y =>
      obtain ⟨r1, hl, hg1⟩ := pointer_other r hg hi (hp idx value (by simp)) (h' := y.1) (a' := y.2) e1
      rw [e1, Option.bind_some] at e
      have := ih y.1 y.2 _ h' a' r1 hg1 (fun i v hm => hp i v (by simp [hm])) (fun op hm => hne op (by simp [hm])) e
      exact ⟨by rw [this.1, hl], this.2⟩

/-- C79: a pointer got for a property keeps its bytes, and stays the one given for the property, while only values of other
properties are added, however many. Missing: values added for the same property, see `C79_pointer_violated`. -/
theorem C79_pointer_partial (alloc : Nat → Bool) (h h1 h' h'' : Heap) (cap : Nat) (a a' a'' : Arr) (ops more : List Op)
    (hf : Fresh h) (hp : PlainOps (ops ++ more)) (hc : create alloc h cap = (some a, h1))
    (e : run alloc (h1, a) ops = some (h', a')) (k p : Nat) (hg : getFirst h' a' k = some (some p))
    (hne : ∀ op ∈ more, ∃ (idx : Int) (value : CStr), op = .add idx value ∧ idx ≠ k)
    (e' : run alloc (h', a') more = some (h'', a'')) :
    h''.live p = h'.live p ∧ getFirst h'' a'' k = some (some p) :=
  pointer_run more h' a' _ h'' a''
    (run_rep alloc ops [] h1 a h' a' (fun i v hm => hp i v (by simp [hm])) (create_rep hf hc) e) hg
    (fun i v hm => hp i v (by simp [hm])) hne e'

/-- Replacing a slot by one with the same index and pointer does not change what is found. -/
theorem getLoop_set (k : Nat) : ∀ (c i : Nat) (L : List Slot) (s s' : Slot), L[i]? = some s → s'.idx = s.idx → s'.ptr = s.ptr →
    getLoop k c (L.set i s') = getLoop k c L := by
  intro c
  induction c with
  | zero => intro i L s s' _ _ _; simp [getLoop]
  | succ c ih =>
    intro i L s s' hs hi hp
    cases L with
    | nil => simp at hs
    | cons x L =>
      cases i with
      | zero => simp only [List.getElem?_cons_zero, Option.some.injEq] at hs; subst hs; simp [getLoop, hi, hp]
      | succ i => simp only [List.set_cons_succ, getLoop]; rw [ih i L s s' (by simpa using hs) hi hp]

/-- The slot whose pointer is given for a property is the one an addition for the property uses. -/
theorem slot_of_get {h0 h : Heap} {a : Arr} {v : Values} (r : Rep h0 h a v) {k p : Nat}
    (hg : getFirst h a k = some (some p)) :
    ∃ s bytes, a.items[Overrides.findItem k v.items]? = some s ∧ Overrides.findItem k v.items ≠ a.count ∧ s.ptr = some p ∧
      h.live p = some bytes ∧ bytes.length = s.allocated ∧ s.idx = k := by
  have hk := getFirst_rep r k
  revert hk
  cases hv : Overrides.getFirst v k with
  | none => intro hk; rw [hg] at hk; simp at hk
  | some t =>
    rintro ⟨j, s, q, g1, g2, g3, g4, g5, g6, g7⟩
    rw [hg] at g6; simp only [Option.some.injEq] at g6; subst g6
    rcases (r.ok s (List.mem_of_getElem? g1)).1 with ⟨e, -⟩ | ⟨q, bytes, hq, hb, hl, -⟩
    · rw [e] at g4; cases g4
    · rw [g4] at hq; cases hq
      exact ⟨s, bytes, by rw [← g2]; exact g1, by rw [← g2, r.count]; omega, g4, hb, hl, g5⟩

/-- C79: a value that fits the buffer of its property is stored there, even when no memory can be had: the
pointer stays the same and nothing is allocated. -/
theorem C79_reuse (alloc : Nat → Bool) (h h1 h' : Heap) (cap : Nat) (a a' : Arr) (ops : List Op)
    (hf : Fresh h) (hp : PlainOps ops) (hc : create alloc h cap = (some a, h1))
    (e : run alloc (h1, a) ops = some (h', a')) (k p : Nat) (hg : getFirst h' a' k = some (some p))
    (hroom : a'.count < a'.capacity) (value : CStr) (hv : Plain value) (bytes : List Byte) (hb : h'.live p = some bytes)
    (hfit : SIZEOF_STRING + value.length ≤ bytes.length) :
    ∃ h'' a'', add alloc h' a' k value = some (h'', a'') ∧ h''.next = h'.next ∧ getFirst h'' a'' k = some (some p) ∧
      (readString h'' p).map (·.value) = some value := by
  have r := run_rep alloc ops [] h1 a h' a' hp (create_rep hf hc) e
  obtain ⟨s, bs, hs, hcnt, hsp, hbs, hl, hidx⟩ := slot_of_get r hg
  rw [hb] at hbs; cases hbs
  rcases add_cases r alloc (k : Int) hv with ⟨e1, -⟩ | ⟨-, -, i, s0, hi, hs0, ⟨h2, s2, e1, st, r1⟩ | ⟨-, -, e1⟩⟩
  · exact absurd ⟨by omega, hroom⟩ e1
  · simp only [Int.toNat_natCast] at hi
    rw [hi, hs] at hs0; cases hs0
    rw [if_neg (by rw [hi]; exact hcnt)] at st
    obtain ⟨np, hnp, hread, -, -, hfits, -⟩ := st.ptr
    obtain ⟨hsame, hnext⟩ := hfits (by omega)
    rw [hsp] at hsame; cases hsame
    refine ⟨h2, _, e1, hnext, ?_, by rw [hread]; rfl⟩
    -- the item is found again
    have hself : (h2.live a'.self).isNone = false := by
      cases e : h2.live a'.self with
      | none => exact absurd e r1.self
      | some _ => rfl
    have hget : getFirst h' a' k = getLoop k a'.count a'.items := by
      have : (h'.live a'.self).isNone = false := by
        cases e : h'.live a'.self with
        | none => exact absurd e r.self
        | some _ => rfl
      simp [getFirst, this]
    subst hi
    simp only [getFirst, hself, Bool.false_eq_true, if_false, hcnt]
    rw [getLoop_set k _ _ _ s s2 hs st.idx (by rw [hnp, hsp]), ← hget, hg]
  · simp only [Int.toNat_natCast] at hi
    rw [hi, hs] at hs0; cases hs0; omega

/-- C79 fails for pointers already given out: when a longer value is added for the property its buffer is freed
and the pointer dangles. -/
theorem C79_pointer_violated (alloc : Nat → Bool) (h h1 h' h'' : Heap) (cap : Nat) (a a' a'' : Arr) (ops : List Op)
    (hf : Fresh h) (hp : PlainOps ops) (hc : create alloc h cap = (some a, h1))
    (e : run alloc (h1, a) ops = some (h', a')) (k p : Nat) (hg : getFirst h' a' k = some (some p))
    (hroom : a'.count < a'.capacity) (value : CStr) (hv : Plain value) (bytes : List Byte) (hb : h'.live p = some bytes)
    (hlong : bytes.length < SIZEOF_STRING + value.length) (e' : add alloc h' a' k value = some (h'', a'')) :
    readString h'' p = none := by
  have r := run_rep alloc ops [] h1 a h' a' hp (create_rep hf hc) e
  obtain ⟨s, bs, hs, hcnt, hsp, hbs, hl, hidx⟩ := slot_of_get r hg
  rw [hb] at hbs; cases hbs
  rcases add_cases r alloc (k : Int) hv with ⟨e1, -⟩ | ⟨-, -, i, s0, hi, hs0, ⟨h2, s2, e1, st, r1⟩ | ⟨e1, -⟩⟩
  · exact absurd ⟨by omega, hroom⟩ e1
  · simp only [Int.toNat_natCast] at hi
    rw [hi, hs] at hs0; cases hs0
    rw [if_neg (by rw [hi]; exact hcnt)] at st
    obtain ⟨np, hnp, -, -, hgone, -, hnew⟩ := st.ptr
    have := hgone (hnew (by omega)) p hsp
    rw [e1] at e'; cases e'
    simp [readString, this]
  · rw [e1] at e'; cases e'

/-! ## Cases -/

/-- A heap with one block of someone else, and memory for all. -/
def start : Heap := ⟨1, fun b => if b = 0 then some [some 7] else none⟩

def plenty : Nat → Bool := fun _ => true

example : Fresh start := by
  intro b hb
  have hb : 1 ≤ b := hb
  have : b ≠ 0 := by omega
  simp [start, this]

/-- Two properties, the first replaced by a longer text, then a reset and a shorter text again. -/
def calls : List Op := [.add 3 c!"Yes", .add 5 c!"No", .add 3 c!"Perhaps", .reset, .add 5 c!"Maybe"]

example : PlainOps calls := by
  intro idx value hm
  simp only [calls, List.mem_cons, Op.add.injEq, reduceCtorEq, List.not_mem_nil, or_false, false_or] at hm
  rcases hm with ⟨-, rfl⟩ | ⟨-, rfl⟩ | ⟨-, rfl⟩ | ⟨-, rfl⟩ <;> exact ⟨by decide, by decide⟩

example : since [] calls = [(5, c!"Maybe")] := by decide

/-- After these calls property 5 has its text, property 3 has none, and the buffer is the one of the first item. -/
example : ((create plenty start 4).1.bind fun a => run plenty ((create plenty start 4).2, a) calls).map (fun y =>
      (getFirst y.1 y.2 5, getFirst y.1 y.2 3, (readString y.1 4).map (·.value), y.1.next)) =
    some (some (some 4), some none, some c!"Maybe", 5) := by decide +kernel

/-- Freeing leaves the block of someone else and no other. -/
example : (((create plenty start 4).1.bind fun a => run plenty ((create plenty start 4).2, a) calls).bind fun y =>
      (valuesFree y.1 y.2).map fun h => (List.range 8).map h.live) =
    some [some [some 7], none, none, none, none, none, none, none] := by decide +kernel

/-- A pointer got for property 3 dangles after a longer text. -/
example : ((create plenty start 4).1.bind fun a =>
      (run plenty ((create plenty start 4).2, a) [.add 3 c!"Yes"]).bind fun y =>
      (run plenty y [.add 3 c!"Perhaps"]).map fun z => (getFirst y.1 y.2 3, (readString y.1 2).map (·.value), readString z.1 2,
        getFirst z.1 z.2 3)) =
    some (some (some 2), some c!"Yes", none, some (some 3)) := by decide +kernel

/-- With no memory for the text the addition is undefined. -/
example : ((create (· = 1) start 4).1.bind fun a => add (· = 1) (create (· = 1) start 4).2 a 3 c!"Yes").isNone = true ∧
    (create (· = 1) start 4).1.isSome = true := by decide +kernel

end Verif.OverridesMem
