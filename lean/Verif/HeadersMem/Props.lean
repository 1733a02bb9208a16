import Verif.HeadersMem.Model
import Verif.Headers.Props

/-! # C78: the memory of headers -/

namespace Verif.HeadersMem
open Verif.Headers (Header pieces createSegmentArray createSegmentArray_eq getHeaderIndex)

/-! ## Steps -/

/-- Every read succeeds. -/
def Reads (s : Source) : Prop := ∀ k, s.fails k = false

theorem get_cases (s : Source) (w : World) (i : Nat) :
    (∃ w', get s w i = (none, w') ∧ w'.items = w.items ∧ w'.blocks = w.blocks ∧
      (Reads s → s.names[i]? = none)) ∨
    (∃ n w', get s w i = (some n, w') ∧ s.names[i]? = some (n.text, n.uniqueId) ∧
      w'.items = n.id :: w.items ∧ w'.blocks = w.blocks) := by
  unfold get
  split
  · rename_i h
    exact .inl ⟨_, rfl, rfl, rfl, fun hr => by rw [hr] at h; cases h⟩
  · split
    · rename_i h
      exact .inl ⟨_, rfl, rfl, rfl, fun _ => h⟩
    · rename_i n h
      exact .inr ⟨_, _, rfl, h, rfl, rfl⟩

theorem release_head {w : World} {n : Name} {l : List Nat} (h : w.items = n.id :: l) :
    release w n = some { w with items := l } := by
  rw [release, h, if_pos (by simp)]
  simp

theorem malloc_cases (s : Source) (w : World) :
    (∃ w' k, malloc s w = (none, w') ∧ s.alloc k = false ∧ w'.items = w.items ∧ w'.blocks = w.blocks) ∨
    (∃ b w', malloc s w = (some b, w') ∧ w'.items = w.items ∧ w'.blocks = b :: w.blocks) := by
  unfold malloc
  split
  · exact .inr ⟨_, _, rfl, rfl, rfl⟩
  · rename_i h; exact .inl ⟨_, _, rfl, by simpa using h, rfl, rfl⟩

theorem free_perm {w : World} {b : Nat} {l : List Nat} (h : w.blocks.Perm (b :: l)) :
    ∃ w', free w b = some w' ∧ w'.items = w.items ∧ w'.blocks.Perm l := by
  rw [free, if_pos (h.mem_iff.mpr (by simp))]
  refine ⟨_, rfl, rfl, ?_⟩
  have := h.erase b
  simpa using this

theorem countLoop_spec (s : Source) (fuel : Nat) (w : World) (i c : Nat) (hf : s.names.length < i + fuel) :
    ∃ n w', countLoop s fuel w i c = some (n, w') ∧ w'.items = w.items ∧ w'.blocks = w.blocks ∧
      (Reads s → n = c + Headers.countAllSegments (s.names.drop i)) := by
  induction fuel generalizing w i c with
  | zero =>
    refine ⟨c, w, rfl, rfl, rfl, fun _ => ?_⟩
    rw [List.drop_eq_nil_iff.mpr (by omega), Headers.countAllSegments]
    rfl
  | succ fuel ih =>
    rw [countLoop]
    rcases get_cases s w i with ⟨w1, e, hi, hb, hr⟩ | ⟨n, w1, e, hn, hi, hb⟩
    · rw [e]
      refine ⟨c, w1, rfl, hi, hb, fun h => ?_⟩
      rw [List.drop_eq_nil_iff.mpr (List.getElem?_eq_none_iff.mp (hr h)), Headers.countAllSegments]
      rfl
    · rw [e]
      obtain ⟨hlt, hget⟩ := List.getElem?_eq_some_iff.mp hn
      have hd : s.names.drop i = (n.text, n.uniqueId) :: s.names.drop (i + 1) := by
        rw [List.drop_eq_getElem_cons hlt, hget]
      simp only [release_head hi, Option.bind_some]
      obtain ⟨m, w2, e2, hi2, hb2, hr2⟩ := ih { w1 with items := w.items } (i + 1)
        (c + Headers.countHeaderSegments n.text + if Headers.countHeaderSegments n.text > 1 then 1 else 0) (by omega)
      refine ⟨m, w2, e2, hi2, hb2.trans hb, fun h => ?_⟩
      rw [hr2 h, hd, Headers.countAllSegments]
      omega

/-- The blocks of headers. -/
def blocksOf : List Owned → List Nat
  | [] => []
  | h :: rest => h.nameBlock :: h.segmentsBlock :: blocksOf rest

theorem blocksOf_append (l : List Owned) (h : Owned) :
    (blocksOf (l ++ [h])).Perm (h.nameBlock :: h.segmentsBlock :: blocksOf l) := by
  induction l with
  | nil => exact .refl _
  | cons a l ih =>
    simp only [List.cons_append, blocksOf]
    refine ((ih.cons _).cons _).trans ?_
    have : ∀ (a b c d : Nat) (l : List Nat), (a :: b :: c :: d :: l).Perm (c :: d :: a :: b :: l) := by
      intro a b c d l
      exact List.perm_append_comm_assoc [a, b] [c, d] l
    exact this ..

theorem createSegments_cases (s : Source) (w : World) (name : CStr) :
    (∃ w' k, createSegments s w name = some (none, w') ∧ s.alloc k = false ∧ w'.items = w.items ∧
      w'.blocks = w.blocks) ∨
    (∃ b w', createSegments s w name = some (some (b, pieces name), w') ∧ w'.items = w.items ∧
      w'.blocks = b :: w.blocks) := by
  unfold createSegments
  rcases malloc_cases s w with ⟨w1, k, e, ha, hi, hb⟩ | ⟨b, w1, e, hi, hb⟩
  · rw [e]; exact .inl ⟨w1, k, rfl, ha, hi, hb⟩
  · rw [e, createSegmentArray_eq]; exact .inr ⟨b, w1, rfl, hi, hb⟩

/-- What one attempt leaves behind: nothing but the headers' blocks, or at most `lost` blocks beside them if it
fails, and it fails only for lack of memory. -/
structure Left (s : Source) (lost : Nat) (base : List Nat) (a : Added) : Prop where
  held : ∃ L : List Nat, a.world.blocks.Perm (L ++ (blocksOf a.headers ++ base)) ∧
    (if a.ok then L = [] else L.length ≤ lost)
  memory : a.ok = false → ∃ k, s.alloc k = false

theorem setFromDataSet_spec (s : Source) (cap : Nat) (hs : List Owned) (n : Name) (w : World) (base : List Nat)
    (hw : w.blocks.Perm (blocksOf hs ++ base)) :
    (hs.length < cap → (setFromDataSet s cap hs n w).isSome) ∧
    ∀ a, setFromDataSet s cap hs n w = some a → Left s 1 base a ∧ a.world.items = w.items := by
  unfold setFromDataSet
  rcases malloc_cases s w with ⟨w1, k, e, ha, hi, hb⟩ | ⟨b, w1, e, hi, hb⟩
  · rw [e]
    refine ⟨fun _ => rfl, ?_⟩
    rintro a h
    simp only [Option.some.injEq] at h
    subst h
    exact ⟨⟨⟨[], by simpa [hb] using hw, by simp⟩, fun _ => ⟨k, ha⟩⟩, hi⟩
  · rw [e]
    by_cases hc : hs.length < cap
    · simp only [if_pos hc]
      rcases createSegments_cases s w1 n.text with ⟨w2, k, e2, ha2, hi2, hb2⟩ | ⟨c, w2, e2, hi2, hb2⟩
      · rw [e2]
        refine ⟨fun _ => rfl, ?_⟩
        rintro a h
        simp only [Option.map_some, Option.some.injEq] at h
        subst h
        refine ⟨⟨⟨[b], ?_, by simp⟩, fun _ => ⟨k, ha2⟩⟩, hi2.trans hi⟩
        rw [hb2, hb]
        simpa using hw
      · rw [e2]
        refine ⟨fun _ => rfl, ?_⟩
        rintro a h
        simp only [Option.map_some, Option.some.injEq] at h
        subst h
        refine ⟨⟨⟨[], ?_, by simp⟩, by simp⟩, hi2.trans hi⟩
        rw [hb2, hb]
        simp only [List.nil_append]
        refine ((List.Perm.cons c (hw.cons b)).trans ?_).trans ((blocksOf_append hs _).append_right base).symm
        exact List.Perm.swap ..
    · simp only [if_neg hc]
      exact ⟨fun h => absurd h hc, by simp⟩

theorem addName_spec (s : Source) (cap : Nat) (hs : List Owned) (n : Name) (w : World) (base : List Nat)
    (hw : w.blocks.Perm (blocksOf hs ++ base)) (a : Added) (h : addName s cap hs n w = some a) :
    Left s 1 base a ∧ a.world.items = w.items := by
  unfold addName at h
  have keep : Left s 1 base ⟨true, hs, w⟩ := ⟨⟨[], by simpa using hw, by simp⟩, by simp⟩
  split at h
  · simp only [Option.bind_eq_some_iff] at h
    obtain ⟨found, -, h⟩ := h
    cases found with
    | some k =>
      simp only [Option.some.injEq] at h
      subst h
      exact ⟨keep, rfl⟩
    | none =>
      obtain ⟨h1, h2⟩ := (setFromDataSet_spec s cap hs n w base hw).2 a h
      exact ⟨h1, h2⟩
  · simp only [Option.some.injEq] at h
    subst h
    exact ⟨keep, rfl⟩

/-- Going through the names of the data set: the items are given back, except the one at which it fails. -/
theorem addNames_spec (s : Source) (cap : Nat) (fuel : Nat) (w : World) (i : Nat) (hs : List Owned)
    (base : List Nat) (hw : w.blocks.Perm (blocksOf hs ++ base)) (a : Added)
    (h : addNames s cap fuel w i hs = some a) :
    Left s 1 base a ∧ ∃ I : List Nat, a.world.items = I ++ w.items ∧ (if a.ok then I = [] else I.length = 1) := by
  induction fuel generalizing w i hs with
  | zero =>
    simp only [addNames, Option.some.injEq] at h
    subst h
    exact ⟨⟨⟨[], by simpa using hw, by simp⟩, by simp⟩, [], rfl, by simp⟩
  | succ fuel ih =>
    rw [addNames] at h
    rcases get_cases s w i with ⟨w1, e, hi, hb, hr⟩ | ⟨n, w1, e, hn, hi, hb⟩
    · rw [e] at h
      simp only [Option.some.injEq] at h
      subst h
      exact ⟨⟨⟨[], by simpa [hb] using hw, by simp⟩, by simp⟩, [], by simpa using hi, by simp⟩
    · rw [e] at h
      simp only [Option.bind_eq_some_iff] at h
      obtain ⟨b, h1, h2⟩ := h
      obtain ⟨l1, i1⟩ := addName_spec s cap hs n w1 base (by rw [hb]; exact hw) b h1
      by_cases ho : b.ok = true
      · rw [if_pos ho, release_head (i1.trans hi), Option.bind_some] at h2
        obtain ⟨L, hL, hl⟩ := l1.held
        rw [if_pos ho] at hl
        subst hl
        exact ih { b.world with items := w.items } (i + 1) b.headers (by simpa using hL) h2
      · rw [if_neg ho] at h2
        simp only [Option.some.injEq] at h2
        subst h2
        exact ⟨l1, [n.id], by rw [i1, hi]; rfl, by simp [ho]⟩

theorem setFromSegment_spec (s : Source) (cap : Nat) (hs : List Owned) (seg : CStr) (w : World) (base : List Nat)
    (hw : w.blocks.Perm (blocksOf hs ++ base)) :
    (hs.length < cap → (setFromSegment s cap hs seg w).isSome) ∧
    ∀ a, setFromSegment s cap hs seg w = some a → Left s 0 base a ∧ a.world.items = w.items := by
  unfold setFromSegment
  rcases malloc_cases s w with ⟨w1, k, e, ha, hi, hb⟩ | ⟨b, w1, e, hi, hb⟩
  · rw [e]
    refine ⟨fun _ => rfl, ?_⟩
    rintro a h
    simp only [Option.some.injEq] at h
    subst h
    exact ⟨⟨⟨[], by simpa [hb] using hw, by simp⟩, fun _ => ⟨k, ha⟩⟩, hi⟩
  · rw [e]
    by_cases hc : hs.length < cap
    · simp only [if_pos hc]
      rcases createSegments_cases s w1 seg with ⟨w2, k, e2, ha2, hi2, hb2⟩ | ⟨c, w2, e2, hi2, hb2⟩
      · obtain ⟨w3, e3, hi3, hb3⟩ := free_perm (w := w2) (b := b) (l := blocksOf hs ++ base)
          (by rw [hb2, hb]; exact hw.cons b)
        rw [e2]
        simp only [Option.bind_some, e3, Option.map_some, Option.isSome_some, implies_true, true_and,
          Option.some.injEq]
        rintro a rfl
        exact ⟨⟨⟨[], by simpa using hb3, by simp⟩, fun _ => ⟨k, ha2⟩⟩, hi3.trans (hi2.trans hi)⟩
      · rw [e2]
        refine ⟨fun _ => rfl, ?_⟩
        rintro a h
        simp only [Option.bind_some, Option.some.injEq] at h
        subst h
        refine ⟨⟨⟨[], ?_, by simp⟩, by simp⟩, hi2.trans hi⟩
        rw [hb2, hb]
        simp only [List.nil_append]
        refine ((List.Perm.cons c (hw.cons b)).trans ?_).trans ((blocksOf_append hs _).append_right base).symm
        exact List.Perm.swap ..
    · simp only [if_neg hc]
      exact ⟨fun h => absurd h hc, by simp⟩

theorem addSegment_spec (s : Source) (cap : Nat) (hs : List Owned) (seg : CStr) (w : World) (base : List Nat)
    (hw : w.blocks.Perm (blocksOf hs ++ base)) (a : Added) (h : addSegment s cap hs seg w = some a) :
    Left s 0 base a ∧ a.world.items = w.items := by
  unfold addSegment at h
  simp only [Option.bind_eq_some_iff] at h
  obtain ⟨found, -, h⟩ := h
  cases found with
  | some k =>
    simp only [Option.some.injEq] at h
    subst h
    exact ⟨⟨⟨[], by simpa using hw, by simp⟩, by simp⟩, rfl⟩
  | none =>
    obtain ⟨h1, h2⟩ := (setFromSegment_spec s cap hs seg w base hw).2 a h
    exact ⟨h1, h2⟩

theorem Left.blocks {s : Source} {n : Nat} {base : List Nat} {a : Added} (h : Left s n base a) (ho : a.ok = true) :
    a.world.blocks.Perm (blocksOf a.headers ++ base) := by
  obtain ⟨L, hL, hl⟩ := h.held
  rw [if_pos ho] at hl
  subst hl
  simpa using hL

theorem addSegments_spec (s : Source) (cap : Nat) (segs : List CStr) (hs : List Owned) (w : World)
    (base : List Nat) (hw : w.blocks.Perm (blocksOf hs ++ base)) (a : Added)
    (h : addSegments s cap segs hs w = some a) : Left s 0 base a ∧ a.world.items = w.items := by
  induction segs generalizing hs w with
  | nil =>
    simp only [addSegments, Option.some.injEq] at h
    subst h
    exact ⟨⟨⟨[], by simpa using hw, by simp⟩, by simp⟩, rfl⟩
  | cons seg segs ih =>
    simp only [addSegments, Option.bind_eq_some_iff] at h
    obtain ⟨b, h1, h2⟩ := h
    obtain ⟨l1, i1⟩ := addSegment_spec s cap hs seg w base hw b h1
    by_cases ho : b.ok = true
    · rw [if_pos ho] at h2
      obtain ⟨l2, i2⟩ := ih b.headers b.world (l1.blocks ho) h2
      exact ⟨l2, i2.trans i1⟩
    · rw [if_neg ho] at h2
      simp only [Option.some.injEq] at h2
      subst h2
      exact ⟨l1, i1⟩

theorem addAllSegments_spec (s : Source) (cap : Nat) (todo hs : List Owned) (w : World)
    (base : List Nat) (hw : w.blocks.Perm (blocksOf hs ++ base)) (a : Added)
    (h : addAllSegments s cap todo hs w = some a) : Left s 0 base a ∧ a.world.items = w.items := by
  induction todo generalizing hs w with
  | nil =>
    simp only [addAllSegments, Option.some.injEq] at h
    subst h
    exact ⟨⟨⟨[], by simpa using hw, by simp⟩, by simp⟩, rfl⟩
  | cons x todo ih =>
    simp only [addAllSegments, Option.bind_eq_some_iff] at h
    obtain ⟨b, h1, h2⟩ := h
    obtain ⟨l1, i1⟩ := addSegments_spec s cap _ hs w base hw b h1
    by_cases ho : b.ok = true
    · rw [if_pos ho] at h2
      obtain ⟨l2, i2⟩ := ih b.headers b.world (l1.blocks ho) h2
      exact ⟨l2, i2.trans i1⟩
    · rw [if_neg ho] at h2
      simp only [Option.some.injEq] at h2
      subst h2
      exact ⟨l1, i1⟩

/-! ## Freeing -/

theorem freeHeaders_spec (hs : List Owned) (w : World) (rest : List Nat) (h : w.blocks.Perm (blocksOf hs ++ rest)) :
    ∃ w', freeHeaders hs w = some w' ∧ w'.items = w.items ∧ w'.blocks.Perm rest := by
  induction hs generalizing w with
  | nil => exact ⟨w, rfl, rfl, by simpa [blocksOf] using h⟩
  | cons x hs ih =>
    simp only [blocksOf, List.cons_append] at h
    obtain ⟨w1, e1, i1, b1⟩ := free_perm h
    obtain ⟨w2, e2, i2, b2⟩ := free_perm b1
    obtain ⟨w3, e3, i3, b3⟩ := ih w2 b2
    exact ⟨w3, by simp [freeHeaders, e1, e2, e3], by rw [i3, i2, i1], b3⟩

theorem freeMade_spec (block : Nat) (hs : List Owned) (w : World) (rest : List Nat)
    (h : w.blocks.Perm (blocksOf hs ++ block :: rest)) :
    ∃ w', freeMade block hs w = some w' ∧ w'.items = w.items ∧ w'.blocks.Perm rest := by
  obtain ⟨w1, e1, i1, b1⟩ := freeHeaders_spec hs w _ h
  obtain ⟨w2, e2, i2, b2⟩ := free_perm b1
  exact ⟨w2, by simp [freeMade, e1, e2], by rw [i2, i1], b2⟩

/-- What creation leaves behind. -/
theorem create_left (s : Source) (up : Bool) (w w' : World) (m : Option Made)
    (h : create s up w = some (m, w')) :
    (∀ x, m = some x → w'.items = w.items ∧ w'.blocks.Perm (blocksOf x.headers ++ x.block :: w.blocks)) ∧
    (m = none → (∃ k, s.alloc k = false) ∧ ∃ I L : List Nat, w'.items = I ++ w.items ∧
      w'.blocks.Perm (L ++ w.blocks) ∧ I.length ≤ 1 ∧ L.length ≤ I.length) := by
  obtain ⟨c, w1, e1, i1, b1, -⟩ := countLoop_spec s (s.names.length + 1) w 0 0 (by omega)
  simp only [create, e1, Option.bind_some] at h
  rcases malloc_cases s w1 with ⟨w2, k, e2, ha, i2, b2⟩ | ⟨b, w2, e2, i2, b2⟩
  · rw [e2] at h
    simp only [Option.some.injEq, Prod.mk.injEq] at h
    obtain ⟨rfl, rfl⟩ := h
    exact ⟨by simp, fun _ => ⟨⟨k, ha⟩, [], [], by simp [i2, i1], by simp [b2, b1], by simp, by simp⟩⟩
  · rw [e2] at h
    simp only [Option.bind_eq_some_iff] at h
    obtain ⟨a, h1, h2⟩ := h
    obtain ⟨l1, I, hI, hIo⟩ := addNames_spec s c _ w2 0 [] (b :: w.blocks) (by simp [blocksOf, b2, b1]) a h1
    rw [i2, i1] at hI
    by_cases ho : a.ok = true
    · rw [if_pos ho] at h2 hIo
      subst hIo
      simp only [Option.bind_eq_some_iff] at h2
      obtain ⟨a2, h3, h4⟩ := h2
      obtain ⟨l2, i3⟩ := addAllSegments_spec s c _ _ _ _ (l1.blocks ho) a2 h3
      by_cases ho2 : a2.ok = true
      · rw [if_pos ho2] at h4
        simp only [Option.some.injEq, Prod.mk.injEq] at h4
        obtain ⟨rfl, rfl⟩ := h4
        refine ⟨?_, by simp⟩
        rintro x hx
        simp only [Option.some.injEq] at hx
        subst hx
        exact ⟨by rw [i3, hI]; rfl, l2.blocks ho2⟩
      · rw [if_neg ho2] at h4
        simp only [Option.map_eq_some_iff, Prod.mk.injEq] at h4
        obtain ⟨w4, h5, rfl, rfl⟩ := h4
        obtain ⟨L, hL, hl⟩ := l2.held
        rw [if_neg ho2] at hl
        have hl : L = [] := by simpa using hl
        subst hl
        obtain ⟨w5, e5, i5, b5⟩ := freeMade_spec b a2.headers a2.world w.blocks (by simpa using hL)
        rw [e5, Option.some.injEq] at h5
        subst h5
        exact ⟨by simp, fun _ => ⟨l2.memory (by simpa using ho2), [], [], by simp [i5, i3, hI], by simpa using b5,
          by simp, by simp⟩⟩
    · rw [if_neg ho] at h2 hIo
      simp only [Option.map_eq_some_iff, Prod.mk.injEq] at h2
      obtain ⟨w4, h5, rfl, rfl⟩ := h2
      obtain ⟨L, hL, hl⟩ := l1.held
      rw [if_neg ho] at hl
      have hp : a.world.blocks.Perm (blocksOf a.headers ++ b :: (L ++ w.blocks)) := by
        refine hL.trans ?_
        refine (List.perm_append_comm_assoc L (blocksOf a.headers) (b :: w.blocks)).trans ?_
        exact (List.perm_middle (a := b) (l₁ := L) (l₂ := w.blocks)).append_left _
      obtain ⟨w5, e5, i5, b5⟩ := freeMade_spec b a.headers a.world (L ++ w.blocks) hp
      rw [e5, Option.some.injEq] at h5
      subst h5
      exact ⟨by simp, fun _ => ⟨l1.memory (by simpa using ho), I, L, by rw [i5, hI], b5, by omega, by omega⟩⟩

/-- C78: whatever reads and allocations fail, if creation returns headers then no item is held that was not
held before, exactly their memory is allocated, and freeing them is defined and gives it back. -/
theorem C78_made (s : Source) (up : Bool) (w w' : World) (m : Made) (h : create s up w = some (some m, w')) :
    w'.items = w.items ∧ w'.blocks.Perm (blocksOf m.headers ++ m.block :: w.blocks) ∧
    ∃ w'', headersFree (some m) w' = some w'' ∧ w''.items = w.items ∧ w''.blocks.Perm w.blocks := by
  obtain ⟨h1, h2⟩ := (create_left s up w w' _ h).1 m rfl
  obtain ⟨w2, e, i, b⟩ := freeMade_spec m.block m.headers w' w.blocks h2
  exact ⟨h1, h2, w2, e, i.trans h1, b⟩

/-- C78: creation gives NULL only for lack of memory, and then at most one item stays held and at most one block
allocated for ever. Missing: that none is, see `C78_leak_violated`. -/
theorem C78_null_partial (s : Source) (up : Bool) (w w' : World) (h : create s up w = some (none, w')) :
    (∃ k, s.alloc k = false) ∧ ∃ I L : List Nat, w'.items = I ++ w.items ∧ w'.blocks.Perm (L ++ w.blocks) ∧
      I.length ≤ 1 ∧ L.length ≤ I.length :=
  (create_left s up w w' _ h).2 rfl

/-! ## What is made -/

theorem setFromDataSet_pure (s : Source) (cap : Nat) (hs : List Owned) (n : Name) (w : World) :
    (hs.length < cap → (setFromDataSet s cap hs n w).isSome) ∧
    ∀ a, setFromDataSet s cap hs n w = some a → a.ok = true →
      a.headers.map (·.header) = hs.map (·.header) ++ [⟨n.text, pieces n.text, true, n.uniqueId⟩] := by
  unfold setFromDataSet
  rcases malloc_cases s w with ⟨w1, k, e, -⟩ | ⟨b, w1, e, -⟩
  · rw [e]
    refine ⟨fun _ => rfl, ?_⟩
    rintro a h
    simp only [Option.some.injEq] at h
    subst h
    simp
  · rw [e]
    by_cases hc : hs.length < cap
    · simp only [if_pos hc]
      rcases createSegments_cases s w1 n.text with ⟨w2, k, e2, -⟩ | ⟨c, w2, e2, -⟩ <;>
      · rw [e2]
        refine ⟨fun _ => rfl, ?_⟩
        rintro a h
        simp only [Option.map_some, Option.some.injEq] at h
        subst h
        simp
    · simp only [if_neg hc]
      exact ⟨fun h => absurd h hc, by simp⟩

theorem setFromSegment_pure (s : Source) (cap : Nat) (hs : List Owned) (seg : CStr) (w : World) :
    (hs.length < cap → (setFromSegment s cap hs seg w).isSome) ∧
    ∀ a, setFromSegment s cap hs seg w = some a → a.ok = true →
      a.headers.map (·.header) = hs.map (·.header) ++ [⟨seg, pieces seg, false, 0⟩] := by
  unfold setFromSegment
  rcases malloc_cases s w with ⟨w1, k, e, -⟩ | ⟨b, w1, e, -, hb⟩
  · rw [e]
    refine ⟨fun _ => rfl, ?_⟩
    rintro a h
    simp only [Option.some.injEq] at h
    subst h
    simp
  · rw [e]
    by_cases hc : hs.length < cap
    · simp only [if_pos hc]
      rcases createSegments_cases s w1 seg with ⟨w2, k, e2, -, -, hb2⟩ | ⟨c, w2, e2, -⟩
      · obtain ⟨w3, e3, -⟩ := free_perm (w := w2) (b := b) (l := w.blocks) (by rw [hb2, hb])
        rw [e2]
        simp only [Option.bind_some, e3, Option.map_some, Option.isSome_some, implies_true, true_and,
          Option.some.injEq]
        rintro a rfl
        simp
      · rw [e2]
        refine ⟨fun _ => rfl, ?_⟩
        rintro a h
        simp only [Option.bind_some, Option.some.injEq] at h
        subst h
        simp
    · simp only [if_neg hc]
      exact ⟨fun h => absurd h hc, by simp⟩

theorem addName_pure (s : Source) (cap : Nat) (hs : List Owned) (n : Name) (w : World)
    (rest : List (CStr × Nat)) (r : Option (List Header))
    (h : Headers.addHeadersFromDataSet cap ((n.text, n.uniqueId) :: rest) (hs.map (·.header)) = some r) :
    ∃ a, addName s cap hs n w = some a ∧
      (a.ok = true → Headers.addHeadersFromDataSet cap rest (a.headers.map (·.header)) = some r) := by
  rw [Headers.addHeadersFromDataSet] at h
  unfold addName
  split at h
  · rename_i hc
    rw [if_pos hc]
    cases hg : getHeaderIndex (hs.map (·.header)) (n.text ++ [0]) n.text.length with
    | none => rw [hg] at h; cases h
    | some f =>
      rw [hg] at h
      cases f with
      | some k => exact ⟨_, rfl, fun _ => h⟩
      | none =>
        simp only [List.length_map, createSegmentArray_eq] at h
        split at h
        · rename_i hlt
          simp only [Option.bind_some]
          obtain ⟨h1, h2⟩ := setFromDataSet_pure s cap hs n w
          obtain ⟨a, ha⟩ := Option.isSome_iff_exists.mp (h1 hlt)
          exact ⟨a, ha, fun ho => by rw [h2 a ha ho]; exact h⟩
        · cases h
  · rename_i hc
    rw [if_neg hc]
    exact ⟨_, rfl, fun _ => h⟩

theorem addNames_pure (s : Source) (hr : Reads s) (cap : Nat) (fuel : Nat) (w : World) (i : Nat) (hs : List Owned)
    (hf : s.names.length < i + fuel) (r : Option (List Header))
    (h : Headers.addHeadersFromDataSet cap (s.names.drop i) (hs.map (·.header)) = some r)
    (base : List Nat) (hw : w.blocks.Perm (blocksOf hs ++ base)) :
    ∃ a, addNames s cap fuel w i hs = some a ∧ (a.ok = true → r = some (a.headers.map (·.header))) := by
  induction fuel generalizing w i hs with
  | zero =>
    rw [List.drop_eq_nil_iff.mpr (by omega), Headers.addHeadersFromDataSet, Option.some.injEq] at h
    exact ⟨_, rfl, fun _ => h.symm⟩
  | succ fuel ih =>
    rw [addNames]
    rcases get_cases s w i with ⟨w1, e, -, -, hn⟩ | ⟨n, w1, e, hn, hi, hb⟩
    · rw [List.drop_eq_nil_iff.mpr (List.getElem?_eq_none_iff.mp (hn hr)), Headers.addHeadersFromDataSet,
        Option.some.injEq] at h
      rw [e]
      exact ⟨_, rfl, fun _ => h.symm⟩
    · rw [e]
      obtain ⟨hlt, hget⟩ := List.getElem?_eq_some_iff.mp hn
      rw [List.drop_eq_getElem_cons hlt, hget] at h
      obtain ⟨a, ha, h2⟩ := addName_pure s cap hs n w1 _ r h
      obtain ⟨l1, i1⟩ := addName_spec s cap hs n w1 base (by rw [hb]; exact hw) a ha
      simp only [ha, Option.bind_some]
      by_cases ho : a.ok = true
      · rw [if_pos ho, release_head (i1.trans hi), Option.bind_some]
        exact ih { a.world with items := w.items } (i + 1) a.headers (by omega) (h2 ho) (l1.blocks ho)
      · rw [if_neg ho]
        exact ⟨a, rfl, fun h => absurd h ho⟩

theorem addSegments_pure (s : Source) (cap : Nat) (segs : List CStr) (hs : List Owned) (w : World)
    (r : Option (List Header)) (h : Headers.addSegs cap segs (hs.map (·.header)) = some r) :
    ∃ a, addSegments s cap segs hs w = some a ∧ (a.ok = true → r = some (a.headers.map (·.header))) := by
  induction segs generalizing hs w with
  | nil =>
    rw [Headers.addSegs, Option.some.injEq] at h
    exact ⟨_, rfl, fun _ => h.symm⟩
  | cons seg segs ih =>
    rw [Headers.addSegs] at h
    have step : ∃ a, addSegment s cap hs seg w = some a ∧
        (a.ok = true → Headers.addSegs cap segs (a.headers.map (·.header)) = some r) := by
      unfold addSegment
      cases hg : getHeaderIndex (hs.map (·.header)) (seg ++ [0]) seg.length with
      | none => rw [hg] at h; cases h
      | some f =>
        rw [hg] at h
        cases f with
        | some k => exact ⟨_, rfl, fun _ => h⟩
        | none =>
          simp only [List.length_map, createSegmentArray_eq] at h
          split at h
          · rename_i hlt
            obtain ⟨h1, h2⟩ := setFromSegment_pure s cap hs seg w
            obtain ⟨a, ha⟩ := Option.isSome_iff_exists.mp (h1 hlt)
            exact ⟨a, ha, fun ho => by rw [h2 a ha ho]; exact h⟩
          · cases h
    obtain ⟨a, ha, h2⟩ := step
    simp only [addSegments, ha, Option.bind_some]
    by_cases ho : a.ok = true
    · rw [if_pos ho]
      exact ih a.headers a.world (h2 ho)
    · rw [if_neg ho]
      exact ⟨a, rfl, fun h => absurd h ho⟩

theorem addAllSegments_pure (s : Source) (cap : Nat) (todo hs : List Owned) (w : World)
    (r : Option (List Header))
    (h : Headers.addHeadersFromSegments cap (todo.map (·.header)) (hs.map (·.header)) = some r) :
    ∃ a, addAllSegments s cap todo hs w = some a ∧ (a.ok = true → r = some (a.headers.map (·.header))) := by
  induction todo generalizing hs w with
  | nil =>
    rw [List.map_nil, Headers.addHeadersFromSegments, Option.some.injEq] at h
    exact ⟨_, rfl, fun _ => h.symm⟩
  | cons x todo ih =>
    rw [List.map_cons, Headers.addHeadersFromSegments] at h
    cases hg : Headers.addSegs cap x.header.segments (hs.map (·.header)) with
    | none => rw [hg] at h; cases h
    | some q =>
      rw [hg] at h
      obtain ⟨a, ha, h2⟩ := addSegments_pure s cap _ hs w q hg
      simp only [addAllSegments, ha, Option.bind_some]
      by_cases ho : a.ok = true
      · rw [if_pos ho]
        rw [h2 ho] at h
        exact ih a.headers a.world h
      · rw [if_neg ho]
        exact ⟨a, rfl, fun h => absurd h ho⟩

/-- C78: if every read succeeds, creation is defined whatever allocations fail whenever it is defined with all
memory available, and what it gives is NULL or the same headers as then, which C22 describes. Missing: failing
reads, see `C78_overflow_violated`, and the names of `C22_violated`. -/
theorem C78_create_partial (s : Source) (hr : Reads s) (up : Bool) (w : World) (r : Option Headers.Headers)
    (h : Headers.create up s.names = some r) :
    ∃ m w', create s up w = some (m, w') ∧ (m = none → ∃ k, s.alloc k = false) ∧
      ∀ x, m = some x → r = some ⟨x.headers.map (·.header), x.capacity, x.expectUpper, x.pseudoCount⟩ := by
  have key : ∃ m w', create s up w = some (m, w') ∧
      ∀ x, m = some x → r = some ⟨x.headers.map (·.header), x.capacity, x.expectUpper, x.pseudoCount⟩ := by
    obtain ⟨c, w1, e1, i1, b1, hc⟩ := countLoop_spec s (s.names.length + 1) w 0 0 (by omega)
    have hc : c = Headers.countAllSegments s.names := by simpa using hc hr
    subst hc
    simp only [create, e1, Option.bind_some]
    rcases malloc_cases s w1 with ⟨w2, k, e2, -⟩ | ⟨b, w2, e2, i2, b2⟩
    · rw [e2]; exact ⟨none, w2, rfl, by simp⟩
    · rw [e2]
      simp only [Headers.create] at h
      cases hp : Headers.addHeadersFromDataSet (Headers.countAllSegments s.names) s.names [] with
      | none => rw [hp] at h; cases h
      | some q =>
        rw [hp] at h
        obtain ⟨a, ha, h2⟩ := addNames_pure s hr _ (s.names.length + 1) w2 0 [] (by omega) q (by simpa using hp)
          (b :: w.blocks) (by simp [blocksOf, b2, b1])
        obtain ⟨l1, -⟩ := addNames_spec s _ _ w2 0 [] (b :: w.blocks) (by simp [blocksOf, b2, b1]) a ha
        have freed : ∀ n (a : Added), Left s n (b :: w.blocks) a → ∃ w', freeMade b a.headers a.world = some w' := by
          intro n a hl
          obtain ⟨L, hL, -⟩ := hl.held
          obtain ⟨w5, e5, -⟩ := freeMade_spec b a.headers a.world (L ++ w.blocks) (by
            refine hL.trans ?_
            refine (List.perm_append_comm_assoc L (blocksOf a.headers) (b :: w.blocks)).trans ?_
            exact (List.perm_middle (a := b) (l₁ := L) (l₂ := w.blocks)).append_left _)
          exact ⟨w5, e5⟩
        simp only [ha, Option.bind_some]
        by_cases ho : a.ok = true
        · rw [if_pos ho]
          rw [h2 ho] at h
          simp only at h
          cases hs2 : Headers.addHeadersFromSegments (Headers.countAllSegments s.names) (a.headers.map (·.header))
              (a.headers.map (·.header)) with
          | none => rw [hs2] at h; cases h
          | some q2 =>
            rw [hs2] at h
            obtain ⟨a2, ha2, h3⟩ := addAllSegments_pure s _ a.headers a.headers a.world q2 hs2
            simp only [ha2, Option.bind_some]
            by_cases ho2 : a2.ok = true
            · rw [if_pos ho2]
              rw [h3 ho2] at h
              simp only [Option.some.injEq] at h
              refine ⟨_, _, rfl, ?_⟩
              rintro x hx
              simp only [Option.some.injEq] at hx
              subst hx
              exact h.symm
            · rw [if_neg ho2]
              obtain ⟨w5, e5⟩ := freed _ _ (addAllSegments_spec s _ _ _ _ _ (l1.blocks ho) a2 ha2).1
              exact ⟨none, w5, by simp [e5], by simp⟩
        · rw [if_neg ho]
          obtain ⟨w5, e5⟩ := freed _ _ l1
          exact ⟨none, w5, by simp [e5], by simp⟩
  obtain ⟨m, w', h1, h2⟩ := key
  exact ⟨m, w', h1, fun hm => by subst hm; exact (C78_null_partial s up w w' h1).1, h2⟩

/-! ## Cases and violations -/

/-- A source with two headers, one of them with two segments, of which the reads in `bad` and the allocations in
`full` fail. -/
def source (bad full : List Nat) : Source where
  names := [(c!"S\x1fUA", 7), (c!"UA", 3)]
  fails k := k ∈ bad
  alloc k := k ∉ full

def start : World := ⟨0, 0, [], []⟩

example : Headers.create false (source [] []).names = some (some ⟨[⟨c!"S\x1fUA", [c!"S", c!"UA"], true, 7⟩,
    ⟨c!"UA", [c!"UA"], true, 3⟩, ⟨c!"S", [c!"S"], false, 0⟩], 4, false, 1⟩) := by decide

example : create (source [] []) false start = some (some ⟨0, [⟨⟨c!"S\x1fUA", [c!"S", c!"UA"], true, 7⟩, 1, 2⟩,
    ⟨⟨c!"UA", [c!"UA"], true, 3⟩, 3, 4⟩, ⟨⟨c!"S", [c!"S"], false, 0⟩, 5, 6⟩], 4, false, 1⟩,
    ⟨6, 7, [], [6, 5, 4, 3, 2, 1, 0]⟩) := by decide

/-- Without memory for the segments of a segment's header everything is given back. -/
example : create (source [] [6]) false start = some (none, ⟨6, 7, [], []⟩) := by decide

/-- A failing read leaves headers out, and nothing held. -/
example : (create (source [4] []) false start).map (fun p => (p.1.map (fun m => m.headers.length), p.2.items)) =
    some (some 3, []) := by decide

/-- C78 does not hold without memory for a header of the data set: the item with its name stays held for ever,
headers.c:280, and without memory for its segments so does the copy of its name, headers.c:191-203. -/
theorem C78_leak_violated :
    (∃ s : Source, Reads s ∧ (∀ k ≠ 1, s.alloc k = true) ∧
      ∃ w, create s false start = some (none, w) ∧ w.items ≠ start.items) ∧
    (∃ s : Source, Reads s ∧ (∀ k ≠ 2, s.alloc k = true) ∧
      ∃ w, create s false start = some (none, w) ∧ w.items ≠ start.items ∧ w.blocks ≠ start.blocks) := by
  refine ⟨⟨source [] [1], fun k => rfl, fun k hk => by simp [source, hk], ⟨4, 2, [3], []⟩, by decide, by decide⟩,
    ⟨source [] [2], fun k => rfl, fun k hk => by simp [source, hk], ⟨4, 3, [3], [1]⟩, by decide, by decide, by decide⟩⟩

/-- C78 does not hold for failing reads: if a read fails while the segments are counted and succeeds when the
headers are added, they are written outside of the array. -/
theorem C78_overflow_violated : ∃ s : Source, (∀ k ≠ 0, s.fails k = false) ∧ (∀ k, s.alloc k = true) ∧
    (∃ h, Headers.create false s.names = some (some h)) ∧ create s false start = none :=
  ⟨source [0] [], fun k hk => by simp [source, hk], fun k => by simp [source], ⟨_, rfl⟩, by decide⟩

/-- C78 does not hold for the status without memory: it says that the data is corrupt. -/
theorem C78_status_violated : ∃ s : Source, Reads s ∧ (∀ k ≠ 0, s.alloc k = true) ∧
    (∃ h, Headers.create false s.names = some (some h)) ∧
    (initHeaders s false start).map (·.1) = some .corruptData :=
  ⟨source [] [0], fun k => rfl, fun k hk => by simp [source, hk], ⟨_, rfl⟩, by decide⟩

/-- C78: the status is success exactly if there are headers, and else an allocation failed. -/
theorem C78_status (s : Source) (up : Bool) (w w' : World) (c : Code) (m : Option Made)
    (h : initHeaders s up w = some (c, m, w')) :
    (c = .success ↔ m ≠ none) ∧ (c = .corruptData → ∃ k, s.alloc k = false) := by
  simp only [initHeaders, Option.map_eq_some_iff, Prod.mk.injEq] at h
  obtain ⟨⟨m', w1⟩, h1, h2, rfl, rfl⟩ := h
  simp only at h2
  subst h2
  by_cases hm : m' = none
  · subst hm
    exact ⟨by simp, fun _ => (C78_null_partial s up w w1 h1).1⟩
  · simp [hm]

end Verif.HeadersMem
