import Verif.Headers.Lemmas

/-! # C22, C23: headers -/

namespace Verif.Headers
open Verif.Str (fold)

/-! ## C22 -/

/-- C22: the segments of a header are the non-empty pieces of its name, in order, and the count made
beforehand is exactly their number. -/
theorem C22_segments (name : CStr) :
    createSegmentArray name = some (pieces name) ∧
    (name ≠ [] → countHeaderSegments name = (pieces name).length) :=
  ⟨createSegmentArray_eq name, fun h => count_eq h⟩

/-- `pieces` is what it should be: no piece is empty or contains a separator, and the pieces of two texts
joined by a separator are the pieces of the first and then those of the second. -/
theorem C22_pieces_spec (s t : CStr) :
    (∀ p ∈ pieces s, p ≠ [] ∧ SEP ∉ p) ∧ pieces (s ++ SEP :: t) = pieces s ++ pieces t ∧
    (s ≠ [] → SEP ∉ s → pieces s = [s]) := by
  have hmem : ∀ s : CStr, ∀ p ∈ splitSep s, SEP ∉ p := by
    intro s
    induction s with
    | nil => simp [splitSep]
    | cons c cs ih =>
      by_cases hc : c = SEP
      · simp only [splitSep, hc, if_true, List.mem_cons]
        rintro p (rfl | hp)
        · simp
        · exact ih p hp
      · rw [splitSep_cons_ne hc]
        rcases hs : splitSep cs with _ | ⟨q, qs⟩
        · exact absurd hs (splitSep_ne_nil cs)
        · rw [hs] at ih
          simp only [withFront, List.mem_cons]
          rintro p (rfl | hp)
          · have := ih q (by simp)
            simp only [List.cons_append, List.nil_append, List.mem_cons, not_or]
            exact ⟨fun h => hc h.symm, this⟩
          · exact ih p (by simp [hp])
  have happ : ∀ s t : CStr, splitSep (s ++ SEP :: t) = splitSep s ++ splitSep t := by
    intro s t
    induction s with
    | nil => simp [splitSep]
    | cons c cs ih =>
      by_cases hc : c = SEP
      · simp [splitSep, hc, ih]
      · rw [List.cons_append, splitSep_cons_ne hc, splitSep_cons_ne hc, ih]
        rcases hs : splitSep cs with _ | ⟨q, qs⟩
        · exact absurd hs (splitSep_ne_nil cs)
        · simp [withFront]
  refine ⟨?_, ?_, ?_⟩
  · intro p hp
    simp only [pieces, List.mem_filter, decide_eq_true_eq] at hp
    exact ⟨hp.2, hmem s p hp.1⟩
  · simp [pieces, happ]
  · intro hne hs
    have : splitSep s = [s] := by
      clear hne
      induction s with
      | nil => rfl
      | cons c cs ih =>
        simp only [List.mem_cons, not_or] at hs
        rw [splitSep_cons_ne (fun h => hs.1 h.symm), ih hs.2]; rfl
    simp [pieces, this, hne]

example : pieces c!"A\x1fB\x1f\x1fC" = [c!"A", c!"B", c!"C"] := by decide

/-- What a list of headers made from a data set list must satisfy (independent of how it is built). -/
structure Good (ds : List (CStr × Nat)) (hs : List Header) : Prop where
  /-- no name twice, ignoring case -/
  distinct : hs.Pairwise fun a b => fold a.name ≠ fold b.name
  /-- every usable data set name is there -/
  complete : ∀ d ∈ ds, pieces d.1 ≠ [] → ∃ h ∈ hs, h.isDataSet = true ∧ fold h.name = fold d.1
  /-- of several data set names equal up to case the first is the one kept, with its id -/
  first : ∀ l d r, ds = l ++ d :: r → pieces d.1 ≠ [] → (∀ e ∈ l, fold e.1 ≠ fold d.1) →
    ∃ h ∈ hs, h.isDataSet = true ∧ h.name = d.1 ∧ h.uniqueId = d.2
  /-- every segment of a data set header is there as a header of its own -/
  segs : ∀ h ∈ hs, h.isDataSet = true → ∀ s ∈ h.segments, ∃ h' ∈ hs, fold h'.name = fold s
  /-- nothing else is there -/
  sound : ∀ h ∈ hs, (h.isDataSet = true ∧ (h.name, h.uniqueId) ∈ ds) ∨
    (h.isDataSet = false ∧ h.uniqueId = 0 ∧ ∃ d ∈ ds, h.name ∈ pieces d.1)
  /-- segments are the pieces of the name, and there is at least one -/
  split : ∀ h ∈ hs, h.segments = pieces h.name ∧ h.segments ≠ []

/-- Capacity needed for one name as counted by the code. -/
def weight (name : CStr) : Nat :=
  countHeaderSegments name + if countHeaderSegments name > 1 then 1 else 0

theorem countAll_eq (ds : List (CStr × Nat)) : countAllSegments ds = (ds.map fun d => weight d.1).sum := by
  induction ds with
  | nil => rfl
  | cons d ds ih => obtain ⟨n, u⟩ := d; simp [countAllSegments, weight, ih]

/-- After the data set phase. -/
structure Phase1 (done : List (CStr × Nat)) (hs : List Header) : Prop where
  distinct : hs.Pairwise fun a b => fold a.name ≠ fold b.name
  complete : ∀ d ∈ done, pieces d.1 ≠ [] → ∃ h ∈ hs, h.isDataSet = true ∧ fold h.name = fold d.1
  first : ∀ l d r, done = l ++ d :: r → pieces d.1 ≠ [] → (∀ e ∈ l, fold e.1 ≠ fold d.1) →
    ∃ h ∈ hs, h.isDataSet = true ∧ h.name = d.1 ∧ h.uniqueId = d.2
  sound : ∀ h ∈ hs, h.isDataSet = true ∧ (h.name, h.uniqueId) ∈ done
  split : ∀ h ∈ hs, h.segments = pieces h.name ∧ h.segments ≠ []
  cap : (hs.map fun h => weight h.name).sum ≤ (done.map fun d => weight d.1).sum

theorem pieces_ne_iff (name : CStr) : (name.length > 0 ∧ countHeaderSegments name > 0) ↔ pieces name ≠ [] := by
  by_cases h : name = []
  · subst h; simp [pieces, splitSep]
  · rw [count_eq h, ← List.length_pos_iff]
    have := List.length_pos_iff.mpr h
    omega

theorem weight_pos {name : CStr} (h : pieces name ≠ []) : 0 < weight name := by
  have := (pieces_ne_iff name).mpr h
  unfold weight; omega

theorem length_le_weights {hs : List Header} (h : ∀ x ∈ hs, pieces x.name ≠ []) :
    hs.length ≤ (hs.map fun h => weight h.name).sum := by
  induction hs with
  | nil => simp
  | cons a hs ih =>
    have := ih (fun x hx => h x (by simp [hx]))
    have := weight_pos (h a (by simp))
    simp; omega

theorem append_singleton_eq {α : Type} {a l r : List α} {x d : α} (h : a ++ [x] = l ++ d :: r) :
    (∃ r', r = r' ++ [x] ∧ a = l ++ d :: r') ∨ (r = [] ∧ d = x ∧ a = l) := by
  rcases List.eq_nil_or_concat r with rfl | ⟨r', y, rfl⟩
  · have := List.append_inj' h rfl
    simp at this
    exact .inr ⟨rfl, this.2.symm, this.1⟩
  · have h' : a ++ [x] = (l ++ d :: r') ++ [y] := by simpa using h
    have := List.append_inj' h' rfl
    simp at this
    exact .inl ⟨r', by simp [this.2], this.1⟩

theorem phase1 (cap : Nat) (done ds : List (CStr × Nat)) (hs : List Header) (inv : Phase1 done hs)
    (hcap : ((done ++ ds).map fun d => weight d.1).sum ≤ cap) :
    ∃ hs', addHeadersFromDataSet cap ds hs = some (some hs') ∧ Phase1 (done ++ ds) hs' := by
  induction ds generalizing done hs with
  | nil => exact ⟨hs, rfl, by simpa using inv⟩
  | cons d ds ih =>
    obtain ⟨name, uid⟩ := d
    simp only [addHeadersFromDataSet, pieces_ne_iff]
    have happ : done ++ (name, uid) :: ds = (done ++ [(name, uid)]) ++ ds := by simp
    have skip : (pieces name ≠ [] → Has hs name) → Phase1 (done ++ [(name, uid)]) hs := by
      intro hh
      refine ⟨inv.distinct, ?_, ?_, ?_, inv.split, ?_⟩
      · intro d hd hp
        simp only [List.mem_append, List.mem_singleton] at hd
        rcases hd with hd | rfl
        · exact inv.complete d hd hp
        · obtain ⟨h, hm, he⟩ := hh hp
          exact ⟨h, hm, (inv.sound h hm).1, he⟩
      · intro l d r he hp hl
        rcases append_singleton_eq he with ⟨r', rfl, e⟩ | ⟨rfl, rfl, rfl⟩
        · exact inv.first l d r' e hp hl
        · obtain ⟨h, hm, hn⟩ := hh hp
          exact absurd hn (hl _ (inv.sound h hm).2)
      · intro h hm
        have := inv.sound h hm
        exact ⟨this.1, by simp [this.2]⟩
      · have := inv.cap; simp; omega
    by_cases hp : pieces name ≠ []
    · simp only [hp, ne_eq, not_false_eq_true, if_true]
      rw [getHeaderIndex_eq]
      rcases hf : hs.findIdx? (fun h => fold h.name = fold name) with _ | i
      · simp only [hf]
        have hno := (findIdx_none_iff hs name).mp hf
        have hlen : hs.length < cap := by
          have h1 := length_le_weights (hs := hs)
            (fun x hx => by rw [← (inv.split x hx).1]; exact (inv.split x hx).2)
          have h2 := inv.cap
          have h3 := weight_pos hp
          simp only [List.map_append, List.map_cons, List.sum_append, List.sum_cons] at hcap
          omega
        rw [if_pos hlen, createSegmentArray_eq]
        simp only
        rw [happ]
        apply ih
        · refine ⟨?_, ?_, ?_, ?_, ?_, ?_⟩
          · rw [List.pairwise_append]
            refine ⟨inv.distinct, by simp, ?_⟩
            intro a ha b hb
            simp only [List.mem_singleton] at hb
            subst hb
            intro e; exact hno ⟨a, ha, e⟩
          · intro d hd hp'
            simp only [List.mem_append, List.mem_singleton] at hd
            rcases hd with hd | rfl
            · obtain ⟨h, hm, h1⟩ := inv.complete d hd hp'
              exact ⟨h, by simp [hm], h1⟩
            · exact ⟨⟨name, pieces name, true, uid⟩, by simp, rfl, rfl⟩
          · intro l d r he hp' hl
            rcases append_singleton_eq he with ⟨r', rfl, e⟩ | ⟨rfl, rfl, rfl⟩
            · obtain ⟨h, hm, h1⟩ := inv.first l d r' e hp' hl
              exact ⟨h, by simp [hm], h1⟩
            · exact ⟨⟨name, pieces name, true, uid⟩, by simp, rfl, rfl, rfl⟩
          · intro h hm
            simp only [List.mem_append, List.mem_singleton] at hm
            rcases hm with hm | rfl
            · have := inv.sound h hm
              exact ⟨this.1, by simp [this.2]⟩
            · exact ⟨rfl, by simp⟩
          · intro h hm
            simp only [List.mem_append, List.mem_singleton] at hm
            rcases hm with hm | rfl
            · exact inv.split h hm
            · exact ⟨rfl, hp⟩
          · have := inv.cap; simp; omega
        · rw [← happ]; exact hcap
      · simp only [hf]
        rw [happ]
        exact ih _ _ (skip fun _ => has_of_findIdx_some hf) (by rw [← happ]; exact hcap)
    · simp only [hp, if_false]
      rw [happ]
      exact ih _ _ (skip fun h => absurd h hp) (by rw [← happ]; exact hcap)

/-- During the segments phase: `base` are the data set headers, `pend` the names still to be covered. -/
structure Phase2 (ds : List (CStr × Nat)) (base hs : List Header) : Prop where
  distinct : hs.Pairwise fun a b => fold a.name ≠ fold b.name
  keep : base <+: hs
  sound : ∀ h ∈ hs, h ∈ base ∨
    (h.isDataSet = false ∧ h.uniqueId = 0 ∧ ∃ d ∈ ds, h.name ∈ pieces d.1)
  split : ∀ h ∈ hs, h.segments = pieces h.name ∧ h.segments ≠ []

theorem pieces_of_piece {s p : CStr} (h : p ∈ pieces s) : pieces p = [p] :=
  have := (C22_pieces_spec s []).1 p h
  (C22_pieces_spec p []).2.2 this.1 this.2

theorem addSegs_spec (cap : Nat) (ds : List (CStr × Nat)) (base : List Header) (d : CStr × Nat) (hd : d ∈ ds)
    (segs : List CStr) (hsegs : ∀ s ∈ segs, s ∈ pieces d.1) (hs : List Header) (inv : Phase2 ds base hs) :
    (∀ r, addSegs cap segs hs = some r → ∃ hs', r = some hs' ∧ Phase2 ds base hs' ∧ hs <+: hs' ∧
      (∀ s ∈ segs, Has hs' s)) ∧
    ((∀ s ∈ segs, Has hs s) → addSegs cap segs hs = some (some hs)) ∧
    (hs.length + segs.length ≤ cap → ∃ hs', addSegs cap segs hs = some (some hs') ∧
      hs'.length ≤ hs.length + segs.length) := by
  induction segs generalizing hs with
  | nil =>
    refine ⟨?_, ?_, ?_⟩
    · intro r h; simp only [addSegs, Option.some.injEq] at h
      exact ⟨hs, h.symm, inv, List.prefix_refl _, by simp⟩
    · intro _; rfl
    · intro _; exact ⟨hs, rfl, by simp⟩
  | cons s segs ih =>
    have ih := ih (fun x hx => hsegs x (by simp [hx]))
    simp only [addSegs]
    rw [getHeaderIndex_eq]
    rcases hf : hs.findIdx? (fun h => fold h.name = fold s) with _ | i
    · simp only [hf]
      have hno := (findIdx_none_iff hs s).mp hf
      have inv' : Phase2 ds base (hs ++ [⟨s, pieces s, false, 0⟩]) := by
        refine ⟨?_, inv.keep.trans (List.prefix_append _ _), ?_, ?_⟩
        · rw [List.pairwise_append]
          refine ⟨inv.distinct, by simp, ?_⟩
          intro a ha b hb
          simp only [List.mem_singleton] at hb
          subst hb
          intro e; exact hno ⟨a, ha, e⟩
        · intro h hm
          simp only [List.mem_append, List.mem_singleton] at hm
          rcases hm with hm | rfl
          · exact inv.sound h hm
          · exact .inr ⟨rfl, rfl, d, hd, hsegs s (by simp)⟩
        · intro h hm
          simp only [List.mem_append, List.mem_singleton] at hm
          rcases hm with hm | rfl
          · exact inv.split h hm
          · exact ⟨rfl, by rw [pieces_of_piece (hsegs s (by simp))]; simp⟩
      obtain ⟨i1, i2, i3⟩ := ih _ inv'
      refine ⟨?_, ?_, ?_⟩
      · intro r h
        split at h
        · rw [createSegmentArray_eq] at h
          obtain ⟨hs', e, p2, pre, all⟩ := i1 r h
          refine ⟨hs', e, p2, (List.prefix_append _ _).trans pre, ?_⟩
          intro x hx
          simp only [List.mem_cons] at hx
          rcases hx with rfl | hx
          · exact ⟨_, pre.subset (List.mem_append_right _ (List.mem_singleton.mpr rfl)), rfl⟩
          · exact all x hx
        · cases h
      · intro hall; exact absurd (hall s (by simp)) hno
      · intro hc
        simp only [List.length_cons] at hc
        rw [if_pos (by omega), createSegmentArray_eq]
        obtain ⟨hs', e, hl⟩ := i3 (by simp; omega)
        refine ⟨hs', e, ?_⟩
        simp at hl ⊢; omega
    · simp only [hf]
      obtain ⟨i1, i2, i3⟩ := ih hs inv
      have hhas := has_of_findIdx_some hf
      refine ⟨?_, ?_, ?_⟩
      · intro r h
        obtain ⟨hs', e, p2, pre, all⟩ := i1 r h
        refine ⟨hs', e, p2, pre, ?_⟩
        intro x hx
        simp only [List.mem_cons] at hx
        rcases hx with rfl | hx
        · obtain ⟨h, hm, e⟩ := hhas
          exact ⟨h, pre.subset hm, e⟩
        · exact all x hx
      · intro hall; exact i2 (fun x hx => hall x (by simp [hx]))
      · intro hc
        simp only [List.length_cons] at hc ⊢
        obtain ⟨hs', e, hl⟩ := i3 (by omega)
        exact ⟨hs', e, by omega⟩

/-- The names for which the code's capacity estimate is right: a name with a separator has at least two
non-empty pieces. -/
def WellFormed (name : CStr) : Prop := SEP ∈ name → (pieces name).length > 1

theorem phase2 (cap : Nat) (ds : List (CStr × Nat)) (base todo hs : List Header)
    (htodo : todo <:+ base) (hbase : ∀ h ∈ base, h.isDataSet = true ∧ (h.name, h.uniqueId) ∈ ds)
    (inv : Phase2 ds base hs) :
    (∀ r, addHeadersFromSegments cap todo hs = some r → ∃ hs', r = some hs' ∧ Phase2 ds base hs' ∧
      hs <+: hs' ∧ ∀ h ∈ todo, ∀ s ∈ h.segments, Has hs' s) ∧
    ((∀ h ∈ base, WellFormed h.name) → hs.length + (todo.map fun h => weight h.name).sum ≤ cap + todo.length →
      ∃ hs', addHeadersFromSegments cap todo hs = some (some hs')) := by
  induction todo generalizing hs with
  | nil =>
    refine ⟨?_, ?_⟩
    · intro r h; simp only [addHeadersFromSegments, Option.some.injEq] at h
      exact ⟨hs, h.symm, inv, List.prefix_refl _, by simp⟩
    · intro _ _; exact ⟨hs, rfl⟩
  | cons h todo ih =>
    have hmem : h ∈ base := htodo.subset (by simp)
    have htodo' : todo <:+ base := (List.suffix_cons h todo).trans htodo
    have hin : h ∈ hs := inv.keep.subset hmem
    have hsplit := inv.split h hin
    have key := addSegs_spec cap ds base (h.name, h.uniqueId) (hbase h hmem).2 h.segments
      (fun s hs => by rw [hsplit.1] at hs; exact hs) hs inv
    simp only [addHeadersFromSegments]
    refine ⟨?_, ?_⟩
    · intro r hr
      rcases ha : addSegs cap h.segments hs with _ | r1
      · rw [ha] at hr; cases hr
      · obtain ⟨hs1, rfl, inv1, pre1, all1⟩ := key.1 r1 ha
        rw [ha] at hr
        obtain ⟨hs', e, p2, pre, all⟩ := (ih hs1 htodo' inv1).1 r hr
        refine ⟨hs', e, p2, pre1.trans pre, ?_⟩
        intro x hx s hs
        simp only [List.mem_cons] at hx
        rcases hx with rfl | hx
        · obtain ⟨y, hy, e⟩ := all1 s hs
          exact ⟨y, pre.subset hy, e⟩
        · exact all x hx s hs
    · intro hwf hc
      simp only [List.map_cons, List.sum_cons, List.length_cons] at hc
      have hne : h.name ≠ [] := by
        intro e; apply hsplit.2; rw [hsplit.1, e]; simp [pieces, splitSep]
      have hcount : countHeaderSegments h.name = h.segments.length := by rw [count_eq hne, hsplit.1]
      have hpos := List.length_pos_iff.mpr hsplit.2
      by_cases hsep : SEP ∈ h.name
      · have h1 := hwf h hmem hsep
        rw [← hsplit.1] at h1
        have hw : weight h.name = h.segments.length + 1 := by unfold weight; rw [hcount, if_pos h1]
        have hw1 : ∀ l : List Header, l <:+ base → l.length ≤ (l.map fun h => weight h.name).sum := by
          intro l hl
          apply length_le_weights
          intro x hx
          have := inv.split x (inv.keep.subset (hl.subset hx))
          rw [← this.1]; exact this.2
        obtain ⟨hs1, e1, hl1⟩ := key.2.2 (by have := hw1 todo htodo'; omega)
        obtain ⟨hs1', e1', inv1, -, -⟩ := key.1 _ e1
        cases e1'
        rw [e1]
        exact (ih hs1 htodo' inv1).2 hwf (by omega)
      · have hp : pieces h.name = [h.name] := (C22_pieces_spec h.name []).2.2 hne hsep
        have := key.2.1 (by
          intro s hs'; rw [hsplit.1, hp, List.mem_singleton] at hs'
          exact ⟨h, hin, by rw [hs']⟩)
        rw [this]
        have hw : weight h.name = 1 := by
          unfold weight; rw [hcount, hsplit.1, hp]; simp
        exact (ih hs htodo' inv).2 hwf (by omega)

theorem phase1_start (ds : List (CStr × Nat)) :
    ∃ hs, addHeadersFromDataSet (countAllSegments ds) ds [] = some (some hs) ∧ Phase1 ds hs := by
  have := phase1 (countAllSegments ds) [] ds []
    ⟨.nil, by simp, by simp, by simp, by simp, by simp⟩ (by rw [countAll_eq]; simp)
  simpa using this

/-- C22: whenever creation has defined behaviour it succeeds, and the headers are exactly those required:
every usable data set name (the first of several equal up to case) and every segment once, ignoring case,
and nothing else. -/
theorem C22_create (up : Bool) (ds : List (CStr × Nat)) (r : Option Headers) (h : create up ds = some r) :
    ∃ hs, r = some hs ∧ Good ds hs.items ∧ hs.expectUpper = up ∧
      hs.pseudoCount = (hs.items.filter fun h => (pieces h.name).length > 1).length := by
  obtain ⟨base, h1, inv1⟩ := phase1_start ds
  have inv2 : Phase2 ds base base :=
    ⟨inv1.distinct, List.prefix_refl _, fun h hm => .inl hm, inv1.split⟩
  simp only [create, h1] at h
  rcases h2 : addHeadersFromSegments (countAllSegments ds) base base with _ | r2
  · rw [h2] at h; cases h
  · obtain ⟨hs, rfl, p2, -, all⟩ := (phase2 _ ds base base base (List.suffix_refl _) inv1.sound inv2).1 r2 h2
    rw [h2] at h
    simp only [Option.some.injEq] at h
    subst h
    refine ⟨_, rfl, ?_, rfl, ?_⟩
    · have back : ∀ h ∈ hs, h.isDataSet = true → h ∈ base := by
        intro h hm hd
        rcases p2.sound h hm with h' | h'
        · exact h'
        · rw [hd] at h'; exact absurd h'.1 (by simp)
      refine ⟨p2.distinct, ?_, ?_, ?_, ?_, p2.split⟩
      · intro d hd hp
        obtain ⟨h, hm, h'⟩ := inv1.complete d hd hp
        exact ⟨h, p2.keep.subset hm, h'⟩
      · intro l d r hd hp hl
        obtain ⟨h, hm, h'⟩ := inv1.first l d r hd hp hl
        exact ⟨h, p2.keep.subset hm, h'⟩
      · intro h hm hd s hs'
        exact all h (back h hm hd) s hs'
      · intro h hm
        rcases p2.sound h hm with h' | h'
        · exact .inl (inv1.sound h h')
        · exact .inr h'
    · simp only [countPseudoHeaders]
      congr 1
      apply List.filter_congr
      intro h hm
      rw [(p2.split h hm).1]

/-- C22, no overflow: creation stays inside the array it allocates when every name with a separator has at
least two non-empty pieces. Missing: names such as `"A\x1F"`, for which it does not (`C22_violated`). -/
theorem C22_no_overflow_partial (up : Bool) (ds : List (CStr × Nat)) (hwf : ∀ d ∈ ds, WellFormed d.1) :
    ∃ hs, create up ds = some (some hs) := by
  obtain ⟨base, h1, inv1⟩ := phase1_start ds
  have inv2 : Phase2 ds base base :=
    ⟨inv1.distinct, List.prefix_refl _, fun h hm => .inl hm, inv1.split⟩
  obtain ⟨hs, h2⟩ := (phase2 (countAllSegments ds) ds base base base (List.suffix_refl _) inv1.sound inv2).2
    (fun h hm => hwf _ (inv1.sound h hm).2) (by have := inv1.cap; rw [countAll_eq]; omega)
  exact ⟨⟨hs, countAllSegments ds, up, countPseudoHeaders hs⟩, by simp only [create, h1, h2]⟩

/-- C22 is violated: a data set header with one segment and a separator needs two entries, but only one
is allocated, so the second is written past the end of the array. -/
theorem C22_violated : ∃ ds, (∀ d ∈ ds, pieces d.1 ≠ []) ∧ ∀ up, create up ds = none :=
  ⟨[(c!"A\x1f", 1)], by decide, by decide⟩

example : ∀ d ∈ [(c!"Sec-CH-UA\x1fUser-Agent", 7), (c!"User-Agent", 3), (c!"user-agent", 4)], WellFormed d.1 := by
  unfold WellFormed; decide
example : create false [(c!"S\x1fUA", 7), (c!"UA", 3), (c!"ua", 4)] =
    some (some ⟨[⟨c!"S\x1fUA", [c!"S", c!"UA"], true, 7⟩, ⟨c!"UA", [c!"UA"], true, 3⟩,
      ⟨c!"S", [c!"S"], false, 0⟩], 5, false, 1⟩) := by decide

/-! ## C23 -/

/-- Specification: the name to look for after removing a leading `HTTP_` (any case). -/
def stripHttp (name : CStr) : CStr :=
  if fold (name.take 5) = fold c!"HTTP_" ∧ name.length > 5 then name.drop 5 else name

/-- C23, every name but `HTTP_` and one character when such prefixes are expected: the result is the first header
equal, ignoring case, to the name (less its `HTTP_` when such prefixes are expected), -1 exactly when there is none,
and nothing outside the name is read. Missing: `HTTP_` and one character, see `C23_violated`. -/
theorem C23_headerGetIndex_partial (h : Headers) (name rest : CStr)
    (hl : h.expectUpper = true → name.length = 6 → fold (name.take 5) ≠ fold c!"HTTP_") :
    headerGetIndex h (name ++ rest) name.length =
      some (h.items.findIdx? fun x =>
        fold x.name = fold (if h.expectUpper then stripHttp name else name)) := by
  unfold headerGetIndex
  by_cases hu : h.expectUpper = true
  · simp only [hu, true_and, if_true]
    by_cases h6 : name.length > 6
    · obtain ⟨d, h1, h2⟩ := Str.C16_compareLength_zero_iff (name ++ rest) (HTTP_ ++ [0]) 5
        (by simp; omega) (by decide)
      rw [if_pos h6, h1]
      simp only
      have e1 : (name ++ rest).take 5 = name.take 5 := by
        rw [List.take_append_of_le_length (by omega)]
      have e2 : (HTTP_ ++ [0]).take 5 = c!"HTTP_" := by decide
      rw [e1, e2] at h2
      by_cases hd : d = 0
      · have hf := h2.mp hd
        have e3 : stripHttp name = name.drop 5 := by
          unfold stripHttp; rw [if_pos ⟨hf, by omega⟩]
        have e4 : (name ++ rest).drop 5 = name.drop 5 ++ rest := List.drop_append_of_le_length (by omega)
        have e5 : name.length - 5 = (name.drop 5).length := by simp
        rw [if_pos hd, e4, e5, getHeaderIndex_eq, e3]
      · have e3 : stripHttp name = name := by
          unfold stripHttp; rw [if_neg (fun hh => hd (h2.mpr hh.1))]
        rw [if_neg hd, getHeaderIndex_eq, e3]
    · have e3 : stripHttp name = name := by
        unfold stripHttp; rw [if_neg (fun hh => hl hu (by have := hh.2; omega) hh.1)]
      rw [if_neg h6, getHeaderIndex_eq, e3]
  · simp only [hu, false_and, if_false, Bool.false_eq_true]
    rw [getHeaderIndex_eq]

/-- C23 is violated: `HTTP_X` is not recognised as the header `X` although `HTTP_XY` is recognised as
`XY`, because the length is compared with `sizeof("HTTP_")`, which counts the terminator. -/
theorem C23_violated : ∃ (h : Headers) (name : CStr), h.expectUpper = true ∧
    headerGetIndex h (name ++ [0]) name.length ≠
      some (h.items.findIdx? fun x => fold x.name = fold (stripHttp name)) :=
  ⟨⟨[⟨c!"X", [c!"X"], true, 1⟩], 1, true, 0⟩, c!"HTTP_X", rfl, by decide⟩

example : headerGetIndex ⟨[⟨c!"DNT", [c!"DNT"], true, 1⟩], 1, true, 0⟩ c!"http_dnt" 8 = some (some 0) := by decide

/-- C23: whatever the length, a header found without prefix handling has exactly the name asked for, and
one is found whenever it exists. -/
theorem C23_plain (h : Headers) (name rest : CStr) (hu : h.expectUpper = false) :
    headerGetIndex h (name ++ rest) name.length = some (h.items.findIdx? fun x => fold x.name = fold name) := by
  unfold headerGetIndex; simp [hu]
  rw [getHeaderIndex_eq]

/-- C23: a field of the evidence is taken for a header exactly when some header has its name, ignoring case and less its `HTTP_`
when such prefixes are expected. Missing: `HTTP_` and one character, as above. -/
theorem C23_isHttp_partial (h : Headers) (name rest : CStr) (h0 : 0 ∉ name)
    (hl : h.expectUpper = true → name.length = 6 → fold (name.take 5) ≠ fold c!"HTTP_") :
    ∃ b, isHttp h (name ++ 0 :: rest) = some b ∧
      (b = true ↔ ∃ x ∈ h.items, fold x.name = fold (if h.expectUpper then stripHttp name else name)) := by
  have e : ((name ++ 0 :: rest).takeWhile (· ≠ 0)) = name := by
    rw [List.takeWhile_append_of_pos (fun a ha => by
      have : a ≠ 0 := fun e => h0 (e ▸ ha)
      simpa using this)]
    simp
  rw [isHttp, e, C23_headerGetIndex_partial h name _ hl]
  cases hf : h.items.findIdx? fun x => fold x.name = fold (if h.expectUpper then stripHttp name else name) with
  | none =>
    refine ⟨false, rfl, ?_⟩
    rw [List.findIdx?_eq_none_iff] at hf
    constructor
    · intro h; cases h
    · rintro ⟨x, hx, e⟩
      have := hf x hx
      simp only [decide_eq_false_iff_not] at this
      exact absurd e this
  | some i =>
    refine ⟨true, rfl, fun _ => ?_, fun _ => rfl⟩
    obtain ⟨hi, h1, -⟩ := List.findIdx?_eq_some_iff_getElem.1 hf
    exact ⟨_, List.getElem_mem hi, by simpa using h1⟩

example : isHttp ⟨[⟨c!"DNT", [c!"DNT"], true, 1⟩], 1, true, 0⟩ (c!"http_dnt" ++ [0, 7]) = some true := by decide

/-- C23: a header is found by its unique id: the first one with it, and NULL exactly when there is none. -/
theorem C23_uniqueId (h : Headers) (uid : Nat) :
    (∀ x, getHeaderFromUniqueId h uid = some x ↔ ∃ i, h.items[i]? = some x ∧ x.uniqueId = uid ∧
      ∀ (j : Nat) (y : Header), j < i → h.items[j]? = some y → y.uniqueId ≠ uid) ∧
    (getHeaderFromUniqueId h uid = none ↔ ∀ x ∈ h.items, x.uniqueId ≠ uid) := by
  refine ⟨?_, by simp [getHeaderFromUniqueId]⟩
  intro x
  rw [getHeaderFromUniqueId, List.find?_eq_some_iff_getElem]
  constructor
  · rintro ⟨h1, i, hi, h2, h3⟩
    refine ⟨i, by rw [List.getElem?_eq_getElem hi, h2], by simpa using h1, ?_⟩
    intro j y hj hy
    obtain ⟨hj', rfl⟩ := List.getElem?_eq_some_iff.1 hy
    simpa using h3 j hj
  · rintro ⟨i, h1, h2, h3⟩
    obtain ⟨hi, rfl⟩ := List.getElem?_eq_some_iff.1 h1
    refine ⟨by simpa using h2, i, hi, rfl, ?_⟩
    intro j hj
    simpa using h3 j _ hj (List.getElem?_eq_getElem (by omega))

example : (getHeaderFromUniqueId ⟨[⟨c!"A", [c!"A"], true, 3⟩, ⟨c!"B", [c!"B"], true, 2⟩], 2, false, 0⟩ 2).map (·.name) =
    some c!"B" := by decide

/-- C22/C23: in headers made by `create`, looking up any header's own name gives its own position. -/
theorem C23_own_index (ds : List (CStr × Nat)) (hs : Headers) (h : create false ds = some (some hs))
    (i : Nat) (x : Header) (hx : hs.items[i]? = some x) :
    headerGetIndex hs (x.name ++ [0]) x.name.length = some (some i) := by
  obtain ⟨hs', e, good, hu, -⟩ := C22_create false ds _ h
  cases e
  rw [C23_plain hs x.name [0] hu]
  congr 1
  obtain ⟨hi, rfl⟩ := List.getElem?_eq_some_iff.mp hx
  rw [List.findIdx?_eq_some_iff_getElem]
  refine ⟨hi, by simp, ?_⟩
  intro j hj
  have := List.pairwise_iff_getElem.mp good.distinct j i (by omega) hi hj
  simpa using this

end Verif.Headers
