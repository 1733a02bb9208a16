import Verif.Tree.Lemmas

/-! # What the rotations do to the tree a heap holds -/

namespace Verif.Tree

open Colour

/-- A rotation leaves the colours, the keys, the scratch parent pointer of the empty node and the nodes outside
the tree alone. -/
structure Kept (ids : List Nat) (h h' : Heap) : Prop where
  colour : h'.colour = h.colour
  key : h'.key = h.key
  emptyParent : h'.parent .empty = h.parent .empty
  empty : h'.left .empty = h.left .empty ∧ h'.right .empty = h.right .empty
  same : ∀ k, k ∉ ids → Same h h' k

theorem rotateLeft_spec {h : Heap} {ctx c l i c' rl j rr}
    (z : Zip h ctx (.node c l i (.node c' rl j rr))) :
    ∃ h', rotateLeft h (.node i) = some h' ∧ Zip h' ctx (.node c' (.node c l i rl) j rr) ∧
      Kept (ctx.pre ++ (T.node c l i (.node c' rl j rr)).ids ++ ctx.post) h h' := by
  obtain ⟨hc, ⟨a, b, d, e, f, ⟨a', b', d', e', f', g'⟩⟩, nd, rb, eb⟩ := z
  have nd' := nd
  have ndc : (ctx.pre ++ ctx.post).Nodup := by
    simp only [List.nodup_append, List.mem_append] at nd ⊢; grind
  simp only [T.ids, List.nodup_append, List.nodup_cons, List.mem_append, List.mem_cons] at nd
  simp only [T.ptr_node] at hc d
  have hij : i ≠ j := by grind
  have hirl : i ∉ rl.ids := by grind
  have hjrl : j ∉ rl.ids := by grind
  have hic : i ∉ ctx.pre ∧ i ∉ ctx.post := by grind
  have hjc : j ∉ ctx.pre ∧ j ∉ ctx.post := by grind
  have hrli : rl.ptr ≠ .node i := T.ptr_ne_of_notMem hirl
  have hrlj : rl.ptr ≠ .node j := T.ptr_ne_of_notMem hjrl
  have hci : ctx.ptr ≠ .node i := Ctx.ptr_ne_of_notMem hic.1 hic.2
  have hcj : ctx.ptr ≠ .node j := Ctx.ptr_ne_of_notMem hjc.1 hjc.2
  -- the heap before the parent's pointer is replaced
  let h2 : Heap := if rl.ptr ≠ .empty then (h.sr (.node i) rl.ptr).sp rl.ptr (.node i) else h.sr (.node i) rl.ptr
  have e2 : h2.left = h.left ∧ h2.colour = h.colour ∧ h2.key = h.key ∧
      (∀ x, h2.right x = if x = .node i then rl.ptr else h.right x) ∧
      (∀ x, h2.parent x = if rl.ptr ≠ .empty ∧ x = rl.ptr then .node i else h.parent x) := by
    simp only [h2]; split
    · simp [*]
    · simp [*]
  obtain ⟨l2, c2, k2, r2, p2⟩ := e2
  have hi2 : h2.parent (.node i) = ctx.ptr := by rw [p2]; simp [Ne.symm hrli, a]
  have hframe : ∀ k, k ≠ i → k ≠ j → k ∉ rl.ids → Same h (h2.sp (.node j) ctx.ptr) k := by
    intro k h1 h2' h3
    have : rl.ptr ≠ .node k := T.ptr_ne_of_notMem h3
    simp [Same, l2, c2, r2, p2, h1, h2', Ne.symm this]
  have hc3 : CRep (h2.sp (.node j) ctx.ptr) ctx (.node i) :=
    hc.frame (fun k hk => hframe k (by grind) (by grind) (by grind)) (by simp [l2])
  obtain ⟨h4, r4, cr4, p4, col4, k4, lr4⟩ := replaceInParent_spec (q := .node j) hc3
    (by simp [hij, hi2]) hic.1 hic.2 ndc
  have old : ∀ k, k ≠ i → k ≠ j → k ∉ rl.ids → k ∉ ctx.pre → k ∉ ctx.post →
      Same h ((h4.sl (.node j) (.node i)).sp (.node i) (.node j)) k := by
    intro k h1 h2' h3 h5 h6
    have hx := lr4 (.node k) (Ne.symm (Ctx.ptr_ne_of_notMem h5 h6))
    obtain ⟨q1, q2, q3, q4⟩ := hframe k h1 h2' h3
    refine ⟨?_, ?_, ?_, ?_⟩
    · simp [h1, p4]; simpa using q1
    · simp [h2', hx.1]; simpa using q2
    · simp [hx.2]; simpa using q3
    · simp [col4]; simpa using q4
  refine ⟨(h4.sl (.node j) (.node i)).sp (.node i) (.node j), ?_, ⟨?_, ?_, ?_, ?_, ?_⟩, ⟨?_, ?_, ?_, ?_, ?_⟩⟩
  · have : rotateLeft h (.node i) =
        (replaceInParent (h2.sp (.node j) ctx.ptr) (.node i) (.node j)).bind fun h =>
          (h.setLeft (.node j) (.node i)).bind fun h => h.setParent (.node i) (.node j) := by
      simp only [rotateLeft, d]
      by_cases hr : rl.ptr = .empty
      · have : h2 = h.sr (.node i) rl.ptr := by simp [h2, hr]
        rw [this] at hi2 ⊢
        simp [d, b', hr, a] 
      · have : h2 = (h.sr (.node i) rl.ptr).sp rl.ptr (.node i) := by simp [h2, hr]
        rw [this] at hi2 ⊢
        simp [d, b', hr, a, Ne.symm hrli]
    rw [this, r4]; simp
  · refine cr4.frame (fun k hk => ?_) (by simp)
    have h1 : k ≠ i := by grind
    have h2 : k ≠ j := by grind
    simp [Same, h1, h2]
  · have hxi := lr4 (.node i) (Ne.symm hci)
    have hxj := lr4 (.node j) (Ne.symm hcj)
    refine ⟨?_, ?_, ?_, ?_, ⟨?_, ?_, ?_, ?_, ?_, ?_⟩, ?_⟩
    · simp [Ne.symm hij, p4]
    · simp
    · simp [hxj.2, r2, Ne.symm hij, d']
    · simp [col4, c2, e']
    · simp
    · simp [hij, hxi.1, l2, b]
    · simp [hxi.2, r2]
    · simp [col4, c2, e]
    · exact f.frame fun k hk => old k (by grind) (by grind) (by grind) (by grind) (by grind)
    · refine f'.reparent (by grind) (fun k hk hne => ?_) (fun k hk => ?_)
      · have h1 : k ≠ i := by grind
        have h2' : k ≠ j := by grind
        have hx := lr4 (.node k) (Ne.symm (Ctx.ptr_ne_of_notMem (by grind) (by grind)))
        simp [Same, h1, h2', p4, hx, col4, c2, l2, r2, p2, Ne.symm hne]
      · have hk' : k ∈ rl.ids := T.ptr_mem hk
        have h1 : k ≠ i := by grind
        have h2' : k ≠ j := by grind
        have hx := lr4 (.node k) (Ne.symm (Ctx.ptr_ne_of_notMem (by grind) (by grind)))
        simp [h1, h2', p4, hx, col4, c2, l2, r2, p2, hk]
    · exact g'.frame fun k hk => old k (by grind) (by grind) (by grind) (by grind) (by grind)
  · simpa [T.ids] using nd'
  · simp [col4, c2, rb]
  · simp [col4, c2, eb]
  · simp [col4, c2]
  · simp [k4, k2]
  · by_cases hr : rl.ptr = .empty
    · simp [p4, p2, hr]
    · simp [p4, p2, hr, Ne.symm hr]
  · have he := lr4 .empty (by simp)
    simp [he, l2, r2]
  · intro k hk
    simp only [T.ids, List.mem_append, List.mem_cons, not_or] at hk
    exact old k (by grind) (by grind) (by grind) (by grind) (by grind)

theorem rotateRight_spec {h : Heap} {ctx c r i c' ll j lr}
    (z : Zip h ctx (.node c (.node c' ll j lr) i r)) :
    ∃ h', rotateRight h (.node i) = some h' ∧ Zip h' ctx (.node c' ll j (.node c lr i r)) ∧
      Kept (ctx.pre ++ (T.node c (.node c' ll j lr) i r).ids ++ ctx.post) h h' := by
  obtain ⟨hc, ⟨a, d, b, e, ⟨a', d', b', e', g', f'⟩, f⟩, nd, rb, eb⟩ := z
  have nd' := nd
  have ndc : (ctx.pre ++ ctx.post).Nodup := by
    simp only [List.nodup_append, List.mem_append] at nd ⊢; grind
  simp only [T.ids, List.nodup_append, List.nodup_cons, List.mem_append, List.mem_cons] at nd
  simp only [T.ptr_node] at hc d
  have hij : i ≠ j := by grind
  have hirl : i ∉ lr.ids := by grind
  have hjrl : j ∉ lr.ids := by grind
  have hic : i ∉ ctx.pre ∧ i ∉ ctx.post := by grind
  have hjc : j ∉ ctx.pre ∧ j ∉ ctx.post := by grind
  have hrli : lr.ptr ≠ .node i := T.ptr_ne_of_notMem hirl
  have hrlj : lr.ptr ≠ .node j := T.ptr_ne_of_notMem hjrl
  have hci : ctx.ptr ≠ .node i := Ctx.ptr_ne_of_notMem hic.1 hic.2
  have hcj : ctx.ptr ≠ .node j := Ctx.ptr_ne_of_notMem hjc.1 hjc.2
  -- the heap before the parent's pointer is replaced
  let h2 : Heap := if lr.ptr ≠ .empty then (h.sl (.node i) lr.ptr).sp lr.ptr (.node i) else h.sl (.node i) lr.ptr
  have e2 : h2.right = h.right ∧ h2.colour = h.colour ∧ h2.key = h.key ∧
      (∀ x, h2.left x = if x = .node i then lr.ptr else h.left x) ∧
      (∀ x, h2.parent x = if lr.ptr ≠ .empty ∧ x = lr.ptr then .node i else h.parent x) := by
    simp only [h2]; split
    · simp [*]
    · simp [*]
  obtain ⟨l2, c2, k2, r2, p2⟩ := e2
  have hi2 : h2.parent (.node i) = ctx.ptr := by rw [p2]; simp [Ne.symm hrli, a]
  have hframe : ∀ k, k ≠ i → k ≠ j → k ∉ lr.ids → Same h (h2.sp (.node j) ctx.ptr) k := by
    intro k h1 h2' h3
    have : lr.ptr ≠ .node k := T.ptr_ne_of_notMem h3
    simp [Same, l2, c2, r2, p2, h1, h2', Ne.symm this]
  have hc3 : CRep (h2.sp (.node j) ctx.ptr) ctx (.node i) :=
    hc.frame (fun k hk => hframe k (by grind) (by grind) (by grind)) (by simp [r2])
  obtain ⟨h4, r4, cr4, p4, col4, k4, lr4⟩ := replaceInParent_spec (q := .node j) hc3
    (by simp [hij, hi2]) hic.1 hic.2 ndc
  have old : ∀ k, k ≠ i → k ≠ j → k ∉ lr.ids → k ∉ ctx.pre → k ∉ ctx.post →
      Same h ((h4.sr (.node j) (.node i)).sp (.node i) (.node j)) k := by
    intro k h1 h2' h3 h5 h6
    have hx := lr4 (.node k) (Ne.symm (Ctx.ptr_ne_of_notMem h5 h6))
    obtain ⟨q1, q2, q3, q4⟩ := hframe k h1 h2' h3
    refine ⟨?_, ?_, ?_, ?_⟩
    · simp [h1, p4]; simpa using q1
    · simp [hx.1]; simpa using q2
    · simp [h2', hx.2]; simpa using q3
    · simp [col4]; simpa using q4
  refine ⟨(h4.sr (.node j) (.node i)).sp (.node i) (.node j), ?_, ⟨?_, ?_, ?_, ?_, ?_⟩, ⟨?_, ?_, ?_, ?_, ?_⟩⟩
  · have : rotateRight h (.node i) =
        (replaceInParent (h2.sp (.node j) ctx.ptr) (.node i) (.node j)).bind fun h =>
          (h.setRight (.node j) (.node i)).bind fun h => h.setParent (.node i) (.node j) := by
      simp only [rotateRight, d]
      by_cases hr : lr.ptr = .empty
      · have : h2 = h.sl (.node i) lr.ptr := by simp [h2, hr]
        rw [this] at hi2 ⊢
        simp [d, b', hr, a] 
      · have : h2 = (h.sl (.node i) lr.ptr).sp lr.ptr (.node i) := by simp [h2, hr]
        rw [this] at hi2 ⊢
        simp [d, b', hr, a, Ne.symm hrli]
    rw [this, r4]; simp
  · refine cr4.frame (fun k hk => ?_) (by simp)
    have h1 : k ≠ i := by grind
    have h2 : k ≠ j := by grind
    simp [Same, h1, h2]
  · have hxi := lr4 (.node i) (Ne.symm hci)
    have hxj := lr4 (.node j) (Ne.symm hcj)
    refine ⟨?_, ?_, ?_, ?_, ?_, ⟨?_, ?_, ?_, ?_, ?_, ?_⟩⟩
    · simp [Ne.symm hij, p4]
    · simp [hxj.1, r2, Ne.symm hij, d']
    · simp
    · simp [col4, c2, e']
    · exact g'.frame fun k hk => old k (by grind) (by grind) (by grind) (by grind) (by grind)
    · simp
    · simp [hxi.1, r2]
    · simp [hij, hxi.2, l2, b]
    · simp [col4, c2, e]
    · refine f'.reparent (by grind) (fun k hk hne => ?_) (fun k hk => ?_)
      · have h1 : k ≠ i := by grind
        have h2' : k ≠ j := by grind
        have hx := lr4 (.node k) (Ne.symm (Ctx.ptr_ne_of_notMem (by grind) (by grind)))
        simp [Same, h1, h2', p4, hx, col4, c2, l2, r2, p2, Ne.symm hne]
      · have hk' : k ∈ lr.ids := T.ptr_mem hk
        have h1 : k ≠ i := by grind
        have h2' : k ≠ j := by grind
        have hx := lr4 (.node k) (Ne.symm (Ctx.ptr_ne_of_notMem (by grind) (by grind)))
        simp [h1, h2', p4, hx, col4, c2, l2, r2, p2, hk]
    · exact f.frame fun k hk => old k (by grind) (by grind) (by grind) (by grind) (by grind)
  · simpa [T.ids] using nd'
  · simp [col4, c2, rb]
  · simp [col4, c2, eb]
  · simp [col4, c2]
  · simp [k4, k2]
  · by_cases hr : lr.ptr = .empty
    · simp [p4, p2, hr]
    · simp [p4, p2, hr, Ne.symm hr]
  · have he := lr4 .empty (by simp)
    simp [he, l2, r2]
  · intro k hk
    simp only [T.ids, List.mem_append, List.mem_cons, not_or] at hk
    exact old k (by grind) (by grind) (by grind) (by grind) (by grind)

end Verif.Tree
