import Verif.Tree.Props

/-! # Deleting a node which is not in the tree

The cache deletes the node it reuses without checking that it was ever inserted (cache.c:241): a node whose load
failed is in the list of free nodes but not in the tree. -/

namespace Verif.Tree

open Colour

/-- The fields of a node which is in no tree, as `nodeInit` and `nodeRemove` leave them. -/
structure Detached (h : Heap) (i : Nat) : Prop where
  left : h.left (.node i) = .empty
  right : h.right (.node i) = .empty
  parent : h.parent (.node i) = .empty
  colour : h.colour (.node i) = black

theorem Detached.same {h h' : Heap} {i : Nat} (d : Detached h i) (s : Same h h' i) : Detached h' i :=
  ⟨s.2.1.trans d.left, s.2.2.1.trans d.right, s.1.trans d.parent, s.2.2.2.trans d.colour⟩

theorem nodeRemove_detached (h : Heap) (i : Nat) :
    ∃ h', nodeRemove h (.node i) = some h' ∧ Detached h' i ∧ Frame [i] h h' ∧ h'.left .root = h.left .root ∧
      h'.colour .root = h.colour .root ∧ h'.colour .empty = h.colour .empty :=
  ⟨_, rfl, ⟨by simp, by simp, by simp, by simp⟩, ⟨rfl, by simp, fun k hk => by simp at hk; simp [Same, hk]⟩,
    by simp, by simp, by simp⟩

theorem delete_detached {h : Heap} {t : T} (inv : Inv h t) {i : Nat} (d : Detached h i)
    (he : h.left .empty = .empty ∧ h.right .empty = .empty) {fuel : Nat} (hf : 2 ≤ fuel) :
    ∃ h', delete fuel h (.node i) = some h' ∧ Inv h' t ∧ Frame [] h h' := by
  obtain ⟨fuel, rfl⟩ : ∃ n, fuel = n + 2 := ⟨fuel - 2, by omega⟩
  obtain ⟨d1, d2, d3, d4⟩ := d
  obtain ⟨e1, e2⟩ := he
  have hb := inv.zip.emptyBlack
  by_cases hr : h.left .root = .empty
  · refine ⟨(((h.sp .empty .empty).sr .empty .empty).sc .empty black), ?_, ?_, ⟨rfl, ?_, ?_⟩⟩
    · simp [delete, unlink, replaceInParent, Heap.left?, Heap.right?, Heap.parent?, Heap.setRight,
        Heap.setParent, Heap.setColour, Heap.colour?, deleteRepair, d1, d2, d3, d4, e1, e2, hr, hb]
    · exact inv.frame (fun k _ => by simp [Same]) (by simp) (by simp) (by simp) (by simp [hb])
    · simp [e1, e2]
    · intro k _; simp [Same]
  · refine ⟨((((h.sp .empty .empty).sr .empty .empty).sc .empty red).sc .empty black), ?_, ?_, ⟨rfl, ?_, ?_⟩⟩
    · simp [delete, unlink, replaceInParent, Heap.left?, Heap.right?, Heap.parent?, Heap.setRight,
        Heap.setParent, Heap.setColour, Heap.colour?, deleteRepair, d1, d2, d3, d4, e1, e2, Ne.symm hr, hb]
    · exact inv.frame (fun k _ => by simp [Same]) (by simp) (by simp) (by simp) (by simp [hb])
    · simp [e1, e2]
    · intro k _; simp [Same]

/-- Deleting a node which may or may not be a member. -/
theorem Good.delete {h : Heap} {m : List (Nat × Int)} {t : T} (g : Good h m t) {i : Nat}
    (d : (∀ e ∈ m, e.1 ≠ i) → Detached h i) (he : h.left .empty = .empty ∧ h.right .empty = .empty) {fuel : Nat}
    (hf : 2 * Nat.log2 (m.length + 1) + 2 ≤ fuel) :
    ∃ h' t', Tree.delete fuel h (.node i) = some h' ∧ Good h' (m.filter fun e => e.1 ≠ i) t' ∧ Leaves h h' m i := by
  by_cases hm : ∃ e ∈ m, e.1 = i
  · obtain ⟨h', t', h1, h2, h3⟩ := exec_good g (op := .delete i) hm (fuel := fuel) (by omega)
    exact ⟨h', t', h1, h2, h3⟩
  · have hm' : ∀ e ∈ m, e.1 ≠ i := fun e he hh => hm ⟨e, he, hh⟩
    obtain ⟨h', h1, h2, h3⟩ := delete_detached g.inv (d hm') he (fuel := fuel) (by omega)
    have hfil : (m.filter fun e => e.1 ≠ i) = m := by
      rw [List.filter_eq_self]; intro e he; simpa using hm' e he
    refine ⟨h', t, h1, ?_, ⟨fun k _ _ => h3.same k (by simp), h3.empty, fun k _ => by rw [h3.key]⟩⟩
    rw [hfil]
    exact ⟨h2, g.perm, fun e he => by rw [h3.key]; exact g.keys e he⟩

/-- Setting the links of a node which is not a member. -/
theorem Good.nodeRemove {h : Heap} {m : List (Nat × Int)} {t : T} (g : Good h m t) {i : Nat}
    (hm : ∀ e ∈ m, e.1 ≠ i) :
    ∃ h', Tree.nodeRemove h (.node i) = some h' ∧ Good h' m t ∧ Leaves h h' m i ∧ Detached h' i ∧
      h'.key = h.key := by
  obtain ⟨h', h1, h2, h3, h4, h5, h6⟩ := nodeRemove_detached h i
  refine ⟨h', h1, ⟨g.inv.frame (fun j hj => ?_) (fun j hj => by rw [h3.key]) h4 h5 h6, g.perm, fun e he => ?_⟩,
    ⟨fun k hk _ => h3.same k (by simpa using hk), h3.empty, fun k _ => by rw [h3.key]⟩, h2, h3.key⟩
  · obtain ⟨e, he, rfl⟩ := (g.mem j).1 hj
    exact h3.same _ (by simpa using hm e he)
  · rw [h3.key]; exact g.keys e he

/-- Inserting a node which is not a member under a key which is not taken. -/
theorem Good.insert {h : Heap} {m : List (Nat × Int)} {t : T} (g : Good h m t) {i : Nat} {key : Int}
    (hm : ∀ e ∈ m, e.1 ≠ i ∧ e.2 ≠ key) {fuel : Nat} (hf : 2 * Nat.log2 (m.length + 1) + 1 ≤ fuel) :
    ∃ h' t', Tree.insert fuel (h.sk (.node i) key) (.node i) = some h' ∧ Good h' ((i, key) :: m) t' ∧
      Leaves h h' m i := by
  obtain ⟨h', t', h1, h2, h3⟩ := exec_good g (op := .insert i key) hm (fuel := fuel) hf
  exact ⟨h', t', by simpa [exec] using h1, h2, h3⟩

end Verif.Tree
