import Verif.Record.List

/-! # Items whose handle was never initialised

`DataReset`, data.c:27-31, clears the data of a local item but not its handle. A collection in memory does not set the
handle when an item is got (collection.c:186-219), all others do. -/

namespace Verif.Record

open Verif.Collection

/-- A local item after `DataReset`, data.c:27-31: the handle is what the memory had before. Simplified: the collection of the
item, which is looked at after a get only, is NULL. -/
def localItem (junk : Option Ref) : Item := { Item.new with handle := junk }

/-- Two items that differ in the handle at most. -/
def SameBut (a b : Item) : Prop := ∃ j, a = { b with handle := j }

theorem SameBut.refl (a : Item) : SameBut a a := ⟨a.handle, rfl⟩

/-- Both are undefined, or both are defined and related. -/
def Both {α : Type} (R : α → α → Prop) : UB α → UB α → Prop
  | none, none => True
  | some a, some b => R a b
  | _, _ => False

theorem Both.bind {α β : Type} {R : α → α → Prop} {S : β → β → Prop} {x y : UB α} (h : Both R x y) {f g : α → UB β}
    (hf : ∀ a b, R a b → Both S (f a) (g b)) : Both S (x.bind f) (y.bind g) := by
  cases x <;> cases y
  · trivial
  · exact h.elim
  · exact h.elim
  · exact hf _ _ h

theorem Both.same {α : Type} {R : α → α → Prop} (hR : ∀ a, R a a) (x : UB α) : Both R x x := by
  cases x
  · trivial
  · exact hR _

theorem Both.mono {α : Type} {R S : α → α → Prop} {x y : UB α} (h : Both R x y) (hf : ∀ a b, R a b → S a b) : Both S x y := by
  cases x <;> cases y
  · trivial
  · exact h.elim
  · exact h.elim
  · exact hf _ _ h

theorem Both.of_some {α : Type} {R : α → α → Prop} {x y : UB α} (h : Both R x y) {b : α} (hy : y = some b) : ∃ a, x = some a ∧ R a b := by
  subst hy
  cases x
  · exact h.elim
  · exact ⟨_, rfl, h⟩

/-! ## Reading from the file does not depend on the handle -/

theorem dataMalloc_handle (h : Heap) (item : Item) (n : Nat) (j : Option Ref) :
    dataMalloc h { item with handle := j } n = (dataMalloc h item n).map fun r => (r.1, { r.2.1 with handle := j }, r.2.2) := by
  obtain ⟨ptr, used, allocated, handle, owner⟩ := item
  simp only [dataMalloc]
  split
  · cases h.free ptr <;> rfl
  · split
    · rfl
    · cases ptr with
      | none => rfl
      | some r =>
        cases r with
        | block i => simp only; split <;> rfl
        | memory b => rfl
        | node a b => rfl

theorem readItem_handle (file : CStr) (f : FileColl) (h : Heap) (key : UInt32) (item : Item) (j : Option Ref) :
    readItem file f h key { item with handle := j } =
      (readItem file f h key item).map fun r => (r.1, { r.2.1 with handle := j }, r.2.2) := by
  have hm := fun n => dataMalloc_handle h { item with used := 0 } n j
  simp only at hm
  cases hr : f.read with
  | fixed =>
    simp only [readItem, hr, readFixed]
    split
    · split
      · rw [hm]
        cases dataMalloc h { item with used := 0 } f.elementSize with
        | none => rfl
        | some r =>
          obtain ⟨h', item', i⟩ := r
          simp only [Option.map_some]
          cases slice file _ f.elementSize with
          | none => simp only; cases h'.free item'.ptr <;> rfl
          | some bytes => simp only; cases h'.write i 0 bytes <;> rfl
      · rfl
    · rfl
  | «variable» n g =>
    simp only [readItem, hr, readVariable]
    split
    · simp only [readVariableAt]
      cases slice file (f.offset + key.toNat) n with
      | none => rfl
      | some initial =>
        simp only
        rw [hm]
        cases dataMalloc h { item with used := 0 } (g initial) with
        | none => rfl
        | some r =>
          obtain ⟨h', item', i⟩ := r
          simp only [Option.map_some]
          cases h'.write i 0 initial with
          | none => rfl
          | some h'' =>
            simp only
            split
            · cases slice file (f.offset + key.toNat + n) (sub32 (g initial) n) with
              | none => simp only; cases h''.free item'.ptr <;> rfl
              | some bytes => simp only; cases h''.write i n bytes <;> rfl
            · rfl
    · rfl

theorem getFile_handle (file : CStr) (f : FileColl) (h : Heap) (key : UInt32) (item : Item) (j : Option Ref) :
    getFile file f h key { item with handle := j } = getFile file f h key item := by
  rw [getFile, getFile, readItem_handle]
  rcases readItem file f h key item with _ | ⟨h', item', _ | i, _ | e⟩ <;> rfl

theorem getBack_handle (file : CStr) (fuel : Nat) (b : Back) (f : FileColl) (s : State) (key : UInt32) (item : Item) (j : Option Ref) :
    getBack file fuel b f s key { item with handle := j } = getBack file fuel b f s key item := by
  cases b with
  | file => rw [getBack, getBack, getFile_handle]
  | cache =>
    rw [getBack, getBack]
    congr 1

/-! ## Collections -/

/-- After a get: the items are the same, or the collection is in memory and they differ in the handle at most. -/
def Near (c : Coll) (a b : Item) : Prop := a = b ∨ (∃ m, c = .memory m) ∧ SameBut a b ∧ b.owner = some .memory

theorem Near.same {c : Coll} {a b : Item} (h : Near c a b) : SameBut a b := by
  rcases h with rfl | ⟨-, h, -⟩
  · exact SameBut.refl _
  · exact h

/-- The same came out of two gets, but for the handle. -/
structure NearGot (c : Coll) (g g' : Got) : Prop where
  state : g.state = g'.state
  item : Near c g.item g'.item
  ptr : g.ptr = g'.ptr
  err : g.err = g'.err

theorem get_near (file : CStr) (fuel : Nat) (c : Coll) (s : State) (key : UInt32) {a b : Item} (h : SameBut a b) :
    Both (NearGot c) (c.get file fuel s key a) (c.get file fuel s key b) := by
  have hrefl : ∀ g, NearGot c g g := fun g => ⟨rfl, .inl rfl, rfl, rfl⟩
  obtain ⟨j, rfl⟩ := h
  cases c with
  | memory m =>
    simp only [Coll.get, getMemory]
    split
    · split
      · exact ⟨rfl, .inr ⟨⟨m, rfl⟩, ⟨j, rfl⟩, rfl⟩, rfl, rfl⟩
      · exact Both.same hrefl _
    · split
      · exact ⟨rfl, .inr ⟨⟨m, rfl⟩, ⟨j, rfl⟩, rfl⟩, rfl, rfl⟩
      · exact Both.same hrefl _
  | back b f =>
    rw [Coll.get, Coll.get, getBack_handle]
    exact Both.same hrefl _
  | part m next =>
    have : getPartial file fuel m next s key { b with handle := j } = getPartial file fuel m next s key b := by
      cases next with
      | none => rfl
      | some n =>
        obtain ⟨b', f⟩ := n
        simp only [getPartial, getBack_handle]
    rw [Coll.get, Coll.get, this]
    exact Both.same hrefl _

/-- Items of the second collection can be released with the first one whatever their handle was before. -/
def Releases (c c2 : Coll) : Prop := (∃ m, c2 = .memory m) → (∃ m, c = .memory m) ∨ ∃ m next, c = .part m next

theorem Releases.own (c : Coll) : Releases c c := fun h => .inl h

theorem release_near {c c2 : Coll} (hc : Releases c c2) (fuel : Nat) (s : State) {a b : Item} (h : Near c2 a b) :
    Both (fun r r' => r.1 = r'.1 ∧ SameBut r.2 r'.2) (c.release fuel s a) (c.release fuel s b) := by
  rcases h with rfl | ⟨hm, ⟨j, rfl⟩, ho⟩
  · exact Both.same (fun _ => ⟨rfl, SameBut.refl _⟩) _
  · have hp : ∀ x : Item, x.owner = some .memory → releasePartial fuel s x = some (s, x) := by
      intro x hx
      rw [releasePartial, hx]
      split <;> rfl
    rcases hc hm with ⟨m, rfl⟩ | ⟨m, next, rfl⟩
    · exact ⟨rfl, j, rfl⟩
    · rw [Coll.release, Coll.release, hp b ho, hp { b with handle := j } ho]
      exact ⟨rfl, j, rfl⟩

theorem bytesAt_near {s : State} {a b : Item} (h : SameBut a b) : bytesAt s a = bytesAt s b := by
  obtain ⟨j, rfl⟩ := h
  rfl

end Verif.Record
