import Verif.Avail.Model
import Verif.Properties.Props

/-! # C76 and C77: the memory of available properties, and the status of a data set's properties -/

namespace Verif.Avail
open Verif.Properties (Distinct Requested)

/-! ## Steps of the source -/

/-- Nothing is held or allocated that was not before, and nothing given up. -/
structure Same (w w' : World) : Prop where
  items : w'.items = w.items
  blocks : w'.blocks = w.blocks
  allocs : w'.allocs = w.allocs

theorem Same.refl (w : World) : Same w w := ⟨rfl, rfl, rfl⟩

theorem Same.trans {a b c : World} (h : Same a b) (h' : Same b c) : Same a c :=
  ⟨h'.items.trans h.items, h'.blocks.trans h.blocks, h'.allocs.trans h.allocs⟩

/-- Every read succeeds. -/
def Reads (s : Source) : Prop := ∀ k, s.fails k = false

theorem getName_cases (s : Source) (w : World) (i : Nat) :
    (∃ w', getName s w i = (none, w') ∧ Same w w' ∧ (Reads s → s.names[i]? = none)) ∨
    (∃ n w', getName s w i = (some n, w') ∧ s.names[i]? = some n.text ∧
      w'.items = (if s.owned then n.id :: w.items else w.items) ∧ w'.blocks = w.blocks ∧ w'.allocs = w.allocs) := by
  unfold getName
  split
  · rename_i h
    exact .inl ⟨_, rfl, ⟨rfl, rfl, rfl⟩, fun hr => by rw [hr] at h; cases h⟩
  · split
    · rename_i h
      exact .inl ⟨_, rfl, ⟨rfl, rfl, rfl⟩, fun _ => h⟩
    · rename_i n h
      exact .inr ⟨_, _, rfl, h, rfl, rfl, rfl⟩

theorem releaseOwned_back (s : Source) {w w' : World} {n : Name}
    (hi : w'.items = (if s.owned then n.id :: w.items else w.items)) (hb : w'.blocks = w.blocks)
    (ha : w'.allocs = w.allocs) : ∃ w'', releaseOwned s w' n = some w'' ∧ Same w w'' := by
  unfold releaseOwned
  cases ho : s.owned with
  | false => rw [ho] at hi; exact ⟨_, rfl, hi, hb, ha⟩
  | true =>
    rw [ho] at hi
    simp only [if_true] at hi ⊢
    rw [release, hi, if_pos (by simp)]
    exact ⟨_, rfl, by simp, hb, ha⟩

theorem countLoop_spec (s : Source) (fuel : Nat) (w : World) (i : Nat) (hi : i ≤ s.names.length)
    (hf : s.names.length < i + fuel) :
    ∃ n w', countLoop s fuel w i = some (n, w') ∧ Same w w' ∧ n ≤ s.names.length ∧
      (Reads s → n = s.names.length) := by
  induction fuel generalizing w i with
  | zero => omega
  | succ fuel ih =>
    rw [countLoop]
    rcases getName_cases s w i with ⟨w1, e, hs, hr⟩ | ⟨n, w1, e, hn, h1, h2, h3⟩
    · rw [e]
      exact ⟨i, w1, rfl, hs, hi, fun h => by
        have := List.getElem?_eq_none_iff.mp (hr h)
        omega⟩
    · rw [e]
      obtain ⟨w2, e2, hs⟩ := releaseOwned_back s h1 h2 h3
      have hlt := (List.getElem?_eq_some_iff.mp hn).1
      obtain ⟨m, w3, e3, hs3, hm⟩ := ih w2 (i + 1) (by omega) (by omega)
      exact ⟨m, w3, by simp only [e2, Option.bind_some, e3], hs.trans hs3, hm⟩

theorem indexLoop_spec (s : Source) (required : CStr) (fuel : Nat) (w : World) (i : Nat)
    (hf : s.names.length < i + fuel) :
    ∃ r w', indexLoop s required fuel w i = some (r, w') ∧ Same w w' ∧ (∀ k ∈ r, k < s.names.length) ∧
      (Reads s → r = Properties.getPropertyIndexFrom required i (s.names.drop i)) := by
  induction fuel generalizing w i with
  | zero =>
    refine ⟨none, w, rfl, .refl w, by simp, fun _ => ?_⟩
    rw [List.drop_eq_nil_iff.mpr (by omega), Properties.getPropertyIndexFrom]
  | succ fuel ih =>
    rw [indexLoop]
    rcases getName_cases s w i with ⟨w1, e, hs, hr⟩ | ⟨n, w1, e, hn, h1, h2, h3⟩
    · rw [e]
      refine ⟨none, w1, rfl, hs, by simp, fun h => ?_⟩
      rw [List.drop_eq_nil_iff.mpr (List.getElem?_eq_none_iff.mp (hr h)), Properties.getPropertyIndexFrom]
    · rw [e]
      obtain ⟨w2, e2, hs⟩ := releaseOwned_back s h1 h2 h3
      obtain ⟨hlt, hget⟩ := List.getElem?_eq_some_iff.mp hn
      have hd : s.names.drop i = n.text :: s.names.drop (i + 1) := by
        rw [List.drop_eq_getElem_cons hlt, hget]
      simp only [e2, Option.bind_some, Option.map_some]
      by_cases hm : n.text.length = required.length ∧ Properties.strnicmp required.length n.text required = 0
      · rw [if_pos hm]
        refine ⟨some i, w2, rfl, hs, by simpa using hlt, fun _ => ?_⟩
        rw [hd, Properties.getPropertyIndexFrom, if_pos hm]
      · rw [if_neg hm]
        obtain ⟨r, w3, e3, hs3, hk, hr⟩ := ih w2 (i + 1) (by omega)
        refine ⟨r, w3, e3, hs.trans hs3, hk, fun h => ?_⟩
        rw [hd, Properties.getPropertyIndexFrom, if_neg hm, hr h]

theorem getPropertyIndex_spec (s : Source) (w : World) (required : CStr) :
    ∃ r w', getPropertyIndex s w required = some (r, w') ∧ Same w w' ∧ (∀ k ∈ r, k < s.names.length) ∧
      (Reads s → r = Properties.getPropertyIndex s.names required) := by
  obtain ⟨r, w', h1, h2, h3, h4⟩ := indexLoop_spec s required (s.names.length + 1) w 0 (by omega)
  exact ⟨r, w', h1, h2, h3, fun h => by rw [h4 h, List.drop_zero, Properties.getPropertyIndex]⟩

/-! ## Going through a request -/

/-- A pass through a request gives back what it takes, matches existing properties only and, when every read
succeeds, matches `l`. -/
def Passes (s : Source) (pass : World → UB (List Nat × World)) (l : List Nat) : Prop :=
  ∀ w, ∃ m w', pass w = some (m, w') ∧ Same w w' ∧ (∀ k ∈ m, k < s.names.length) ∧ (Reads s → m = l)

theorem matched_spec (s : Source) (required : CStr) (rest : World → UB (List Nat × World)) (l : List Nat)
    (h : Passes s rest l) : Passes s (fun w => matched s w required rest)
      ((Properties.getPropertyIndex s.names required).toList ++ l) := by
  intro w
  obtain ⟨r, w1, e1, s1, k1, r1⟩ := getPropertyIndex_spec s w required
  obtain ⟨m, w2, e2, s2, k2, r2⟩ := h w1
  refine ⟨r.toList ++ m, w2, by simp [matched, e1, e2], s1.trans s2, ?_, fun hr => by rw [r1 hr, r2 hr]⟩
  intro k hk
  rcases List.mem_append.mp hk with hk | hk
  · exact k1 k (Option.mem_toList.mp hk)
  · exact k2 k hk

theorem fromArray_spec (s : Source) (l : List CStr) :
    Passes s (fromArray s l) (Properties.iterateFromList s.names l) := by
  induction l with
  | nil => intro w; exact ⟨[], w, rfl, .refl w, by simp, fun _ => rfl⟩
  | cons r l ih => exact matched_spec s r (fromArray s l) _ ih

theorem fromExisting_spec (s : Source) (l : List (Option CStr)) :
    Passes s (fromExisting s l) (Properties.iterateFromList s.names (l.filterMap id)) := by
  induction l with
  | nil => intro w; exact ⟨[], w, rfl, .refl w, by simp, fun _ => rfl⟩
  | cons r l ih =>
    cases r with
    | none => exact ih
    | some r => exact matched_spec s r (fromExisting s l) _ ih

theorem fromString_spec (s : Source) (p t : CStr) :
    Passes s (fromString s p t) (Properties.iterateFromString s.names p t) := by
  induction t generalizing p with
  | nil =>
    have := matched_spec s p (fun w => some ([], w)) [] (fun w => ⟨[], w, rfl, .refl w, by simp, fun _ => rfl⟩)
    simpa [Properties.iterateFromString, List.append_nil, fromString] using this
  | cons c t ih =>
    by_cases hc : Properties.isSeparator c = true
    · have := matched_spec s p (fromString s [] t) _ (ih [])
      simpa [Properties.iterateFromString, hc, fromString] using this
    · intro w
      have := ih (p ++ [c]) w
      simpa [Properties.iterateFromString, hc, fromString] using this

/-- Adding overruns the room exactly when there are more different indexes than room. -/
theorem addAll_eq (cap : Nat) (av l : List Nat) (h : av.length ≤ cap) :
    addAll cap av l = if (l.foldl Properties.addRequired av).length ≤ cap
      then some (l.foldl Properties.addRequired av) else none := by
  induction l generalizing av with
  | nil => simp [addAll, h]
  | cons i l ih =>
    rw [addAll, List.foldl_cons]
    by_cases hi : i ∈ av
    · rw [if_pos hi, ih av h, Properties.addRequired, if_pos hi]
    · rw [if_neg hi]
      have he : Properties.addRequired av i = av ++ [i] := by rw [Properties.addRequired, if_neg hi]
      by_cases hl : av.length < cap
      · rw [if_pos hl, ih _ (by simp; omega), he]
      · rw [if_neg hl, he, if_neg]
        have mono : ∀ (l av : List Nat), av.length ≤ (l.foldl Properties.addRequired av).length := by
          intro l
          induction l with
          | nil => intro av; simp
          | cons j l ih' =>
            intro av
            refine Nat.le_trans ?_ (ih' _)
            unfold Properties.addRequired
            split <;> simp
        have := mono l (av ++ [i])
        simp at this
        omega

/-! ## Allocation -/

theorem malloc_cases (s : Source) (w : World) :
    (∃ w', malloc s w = (none, w') ∧ s.alloc w.allocs = false ∧ w'.items = w.items ∧ w'.blocks = w.blocks ∧
      w'.allocs = w.allocs + 1) ∨
    (∃ b w', malloc s w = (some b, w') ∧ s.alloc w.allocs = true ∧ w'.items = w.items ∧
      w'.blocks = b :: w.blocks ∧ w'.allocs = w.allocs + 1) := by
  unfold malloc
  split
  · rename_i h; exact .inr ⟨_, _, rfl, h, rfl, rfl, rfl⟩
  · rename_i h; exact .inl ⟨_, rfl, by simpa using h, rfl, rfl, rfl⟩

/-- The request without NULL names. -/
def Request.pure : Request → Properties.Request
  | .all => .all
  | .existing l => .existing (l.filterMap id)
  | .array l => .array l
  | .string t => .string t

/-- What choosing the properties leaves behind. -/
structure ChoseFrom (s : Source) (w : World) (r : Request) (c : Option Chosen) (w' : World) : Prop where
  items : w'.items = w.items
  block : w'.blocks = (c.map (·.block)).toList ++ w.blocks
  bound : ∀ x ∈ c, ∀ i ∈ x.indexes, i < s.names.length
  reads : Reads s → (c = none ∧ (Properties.init s.names (Properties.effective r.pure) = none ∨
      s.alloc w.allocs = false)) ∨
    (s.alloc w.allocs = true ∧
      ∃ x cap, c = some x ∧ Properties.init s.names (Properties.effective r.pure) = some (cap, x.indexes))

theorem twoPasses_spec (s : Source) (stop : Bool) (pass : World → UB (List Nat × World)) (l : List Nat)
    (h : Passes s pass l) (w : World) (r : Request)
    (hi : Properties.init s.names (Properties.effective r.pure) =
      if stop ∧ l.length = 0 then none else some (l.length, l.foldl Properties.addRequired [])) :
    (Reads s → (twoPasses s stop pass w).isSome) ∧
    ∀ c w', twoPasses s stop pass w = some (c, w') → ChoseFrom s w r c w' := by
  obtain ⟨m, w1, e1, s1, k1, r1⟩ := h w
  simp only [twoPasses, e1, Option.bind_some]
  by_cases hs : stop = true ∧ m.length = 0
  · rw [if_pos hs]
    refine ⟨fun _ => rfl, ?_⟩
    rintro c w' hc
    simp only [Option.some.injEq, Prod.mk.injEq] at hc
    obtain ⟨rfl, rfl⟩ := hc
    refine ⟨s1.items, by simpa using s1.blocks, by simp, fun hr => .inl ⟨rfl, .inl ?_⟩⟩
    rw [hi, if_pos (r1 hr ▸ hs)]
  · rw [if_neg hs]
    rcases malloc_cases s w1 with ⟨w2, e2, a2, i2, b2, -⟩ | ⟨b, w2, e2, a2, i2, b2, -⟩
    · rw [e2]
      refine ⟨fun _ => rfl, ?_⟩
      rintro c w' hc
      simp only [Option.some.injEq, Prod.mk.injEq] at hc
      obtain ⟨rfl, rfl⟩ := hc
      exact ⟨i2.trans s1.items, by simpa using b2.trans s1.blocks, by simp,
        fun hr => .inl ⟨rfl, .inr (s1.allocs ▸ a2)⟩⟩
    · rw [e2]
      obtain ⟨m', w3, e3, s3, k3, r3⟩ := h w2
      simp only [e3, Option.bind_some]
      rw [addAll_eq _ _ _ (by simp)]
      obtain ⟨-, hmem, hlen⟩ := Properties.foldl_add m' [] (by simp)
      refine ⟨fun hr => ?_, ?_⟩
      · rw [r1 hr, r3 hr]
        rw [r3 hr] at hlen
        rw [if_pos (by simpa using hlen)]
        rfl
      · rintro c w' hc
        split at hc
        · simp only [Option.map_some, Option.some.injEq, Prod.mk.injEq] at hc
          obtain ⟨rfl, rfl⟩ := hc
          refine ⟨by rw [s3.items, i2, s1.items], by simp [s3.blocks, b2, s1.blocks], ?_, fun hr => .inr ?_⟩
          · rintro x hx i hi
            simp only [Option.mem_def, Option.some.injEq] at hx
            subst hx
            rcases (hmem i).mp hi with h | h
            · simp at h
            · exact k3 i h
          · refine ⟨s1.allocs ▸ a2, _, l.length, rfl, ?_⟩
            rw [hi, if_neg (r1 hr ▸ hs), r3 hr]
        · simp at hc

theorem allProperties_spec (s : Source) (w : World) (r : Request)
    (hi : Properties.init s.names (Properties.effective r.pure) =
      some (s.names.length, List.range s.names.length)) :
    (Reads s → (allProperties s w).isSome) ∧
    ∀ c w', allProperties s w = some (c, w') → ChoseFrom s w r c w' := by
  obtain ⟨n, w1, e1, s1, k1, r1⟩ := countLoop_spec s (s.names.length + 1) w 0 (by omega) (by omega)
  simp only [allProperties, countAvailable, e1, Option.map_some, Option.isSome_some, implies_true, true_and,
    Option.some.injEq]
  rcases malloc_cases s w1 with ⟨w2, e2, a2, i2, b2, -⟩ | ⟨b, w2, e2, a2, i2, b2, -⟩
  · rw [e2]
    rintro c w' hc
    simp only [Prod.mk.injEq] at hc
    obtain ⟨rfl, rfl⟩ := hc
    exact ⟨i2.trans s1.items, by simpa using b2.trans s1.blocks, by simp,
      fun hr => .inl ⟨rfl, .inr (s1.allocs ▸ a2)⟩⟩
  · rw [e2]
    rintro c w' hc
    simp only [Prod.mk.injEq] at hc
    obtain ⟨rfl, rfl⟩ := hc
    refine ⟨i2.trans s1.items, by simp [b2, s1.blocks], ?_, fun hr => .inr ⟨s1.allocs ▸ a2, _, s.names.length, rfl, ?_⟩⟩
    · rintro x hx i hi
      simp only [Option.mem_def, Option.some.injEq] at hx
      subst hx
      have := List.mem_range.mp hi
      omega
    · rw [hi, r1 hr]

theorem choose_spec (s : Source) (w : World) (r : Request) :
    (Reads s → (choose s w r).isSome) ∧ ∀ c w', choose s w r = some (c, w') → ChoseFrom s w r c w' := by
  cases r with
  | all => exact allProperties_spec s w .all rfl
  | existing l =>
    exact twoPasses_spec s false _ _ (fromExisting_spec s l) w (.existing l) (by simp [Request.pure, Properties.effective, Properties.init])
  | array l =>
    cases l with
    | nil => exact allProperties_spec s w (.array []) rfl
    | cons a l =>
      exact twoPasses_spec s false _ _ (fromArray_spec s (a :: l)) w (.array (a :: l))
        (by simp [Request.pure, Properties.effective, Properties.init])
  | string t =>
    cases t with
    | nil => exact allProperties_spec s w (.string []) rfl
    | cons c t =>
      exact twoPasses_spec s true _ _ (fromString_spec s [] (c :: t)) w (.string (c :: t))
        (by simp [Request.pure, Properties.effective, Properties.init])

/-! ## Names, evidence properties, order and indexes -/

/-- The handles of the names of items. -/
def ids (l : List Item) : List Nat := l.filterMap fun a => a.name.map (·.id)

/-- The blocks of the evidence properties of items. -/
def blks (l : List Item) : List Nat := l.filterMap fun a => a.evidence.map (·.block)

theorem setNames_spec (s : Source) (ho : s.owned = true) (ixs : List Nat) (w : World) :
    (∃ I : List Nat, I.Perm (ids (setNames s ixs w).1) ∧ (setNames s ixs w).2.items = I ++ w.items) ∧
    (setNames s ixs w).2.blocks = w.blocks ∧ (setNames s ixs w).1.map (·.index) = ixs ∧
    (∀ a ∈ (setNames s ixs w).1, ∀ n ∈ a.name, s.names[a.index]? = some n.text) ∧
    (Reads s → (∀ i ∈ ixs, i < s.names.length) → ∀ a ∈ (setNames s ixs w).1, a.name ≠ none) := by
  induction ixs generalizing w with
  | nil => simp [setNames, ids]
  | cons i ixs ih =>
    rcases getName_cases s w i with ⟨w1, e, hs, hr⟩ | ⟨n, w1, e, hn, h1, h2, h3⟩
    · obtain ⟨⟨I, hp, hI⟩, hb, hx, hn, hall⟩ := ih w1
      simp only [setNames, e]
      refine ⟨⟨I, by simpa [ids] using hp, by rw [hI, hs.items]⟩, by rw [hb, hs.blocks], by simp [hx], ?_, ?_⟩
      · simpa using hn
      · intro h hlt
        have := List.getElem?_eq_none_iff.mp (hr h)
        have := hlt i (by simp)
        omega
    · obtain ⟨⟨I, hp, hI⟩, hb, hx, hnm, hall⟩ := ih w1
      simp only [setNames, e]
      refine ⟨⟨I ++ [n.id], ?_, by rw [hI, h1, ho]; simp⟩, by rw [hb, h2], by simp [hx], ?_, ?_⟩
      · refine List.perm_append_comm.trans ?_
        simpa [ids] using hp
      · simpa [hn] using hnm
      · intro h hlt
        simpa using hall h fun j hj => hlt j (by simp [hj])

theorem setEvidence_spec (s : Source) (l : List Item) (w : World) :
    ((∀ a ∈ l, (s.fill a.index).length ≤ s.count a.index) → (setEvidence s l w).isSome) ∧
    ∀ m w', setEvidence s l w = some (m, w') →
      w'.items = w.items ∧ (∃ B : List Nat, B.Perm (blks m) ∧ w'.blocks = B ++ w.blocks) ∧
      m.map (fun a => (a.index, a.name)) = l.map (fun a => (a.index, a.name)) ∧
      ∀ a ∈ m, (a.evidence = none ∧ ∃ k, s.alloc k = false) ∨
        ∃ b, a.evidence = some ⟨b, s.count a.index, s.fill a.index⟩ := by
  induction l generalizing w with
  | nil =>
    refine ⟨fun _ => rfl, ?_⟩
    rintro m w' h
    simp only [setEvidence, Option.some.injEq, Prod.mk.injEq] at h
    obtain ⟨rfl, rfl⟩ := h
    simp [blks]
  | cons a l ih =>
    rw [setEvidence]
    rcases malloc_cases s w with ⟨w1, e, ha, hi, hb, -⟩ | ⟨b, w1, e, ha, hi, hb, -⟩
    · obtain ⟨ih1, ih2⟩ := ih w1
      rw [e]
      refine ⟨fun h => by simpa using ih1 fun x hx => h x (by simp [hx]), ?_⟩
      rintro m w' h
      simp only [Option.map_eq_some_iff] at h
      obtain ⟨⟨m', w2⟩, h1, h2⟩ := h
      simp only [Prod.mk.injEq] at h2
      obtain ⟨rfl, rfl⟩ := h2
      obtain ⟨j1, ⟨B, j2, j3⟩, j4, j5⟩ := ih2 _ _ h1
      refine ⟨j1.trans hi, ⟨B, by simpa [blks] using j2, by rw [j3, hb]⟩, by simp [j4], ?_⟩
      intro x hx
      rcases List.mem_cons.mp hx with rfl | hx
      · exact .inl ⟨rfl, _, ha⟩
      · exact j5 x hx
    · obtain ⟨ih1, ih2⟩ := ih w1
      rw [e]
      constructor
      · intro h
        have := h a (by simp)
        simp only [show ¬ s.count a.index < (s.fill a.index).length by omega, if_false, Option.isSome_map]
        exact ih1 fun x hx => h x (by simp [hx])
      · rintro m w' h
        simp only at h
        split at h
        · simp at h
        · simp only [Option.map_eq_some_iff] at h
          obtain ⟨⟨m', w2⟩, h1, h2⟩ := h
          simp only [Prod.mk.injEq] at h2
          obtain ⟨rfl, rfl⟩ := h2
          obtain ⟨j1, ⟨B, j2, j3⟩, j4, j5⟩ := ih2 _ _ h1
          refine ⟨j1.trans hi, ⟨B ++ [b], ?_, by rw [j3, hb]; simp⟩, by simp [j4], ?_⟩
          · refine List.perm_append_comm.trans ?_
            simpa [blks] using j2
          · intro x hx
            rcases List.mem_cons.mp hx with rfl | hx
            · exact .inr ⟨b, rfl⟩
            · exact j5 x hx

theorem reindex_spec (s : Source) (l : List Item) (w : World) :
    ∃ m w', reindex s l w = some (m, w') ∧ Same w w' ∧
      m.map (fun a => (a.name, a.evidence)) = l.map (fun a => (a.name, a.evidence)) ∧
      (Reads s → Distinct s.names → (∀ a ∈ l, ∀ n ∈ a.name, s.names[a.index]? = some n.text) → m = l) := by
  induction l generalizing w with
  | nil => exact ⟨[], w, rfl, .refl w, rfl, fun _ _ _ => rfl⟩
  | cons a l ih =>
    rw [reindex]
    cases hn : a.name with
    | none =>
      obtain ⟨m, w', e, hs, hm, hr⟩ := ih w
      refine ⟨a :: m, w', by simp [e], hs, by simp [hm], fun h1 h2 h3 => ?_⟩
      rw [hr h1 h2 fun x hx => h3 x (by simp [hx])]
    | some n =>
      obtain ⟨r, w1, e1, s1, -, r1⟩ := getPropertyIndex_spec s w n.text
      obtain ⟨m, w', e, hs, hm, hr⟩ := ih w1
      refine ⟨_ :: m, w', by simp only [e1, Option.bind_some, e, Option.map_some]; rfl, s1.trans hs, by simp [hm, hn], fun h1 h2 h3 => ?_⟩
      rw [hr h1 h2 fun x hx => h3 x (by simp [hx]), r1 h1,
        Properties.getPropertyIndex_self h2 (h3 a (by simp) n (by simp [hn]))]
      cases a
      simp only at hn
      subst hn
      rfl

theorem ids_eq {l m : List Item} (h : m.map (fun a => (a.name, a.evidence)) = l.map (fun a => (a.name, a.evidence))) :
    ids m = ids l ∧ blks m = blks l := by
  have h1 : ∀ l : List Item, ids l = (l.map (fun a => (a.name, a.evidence))).filterMap fun p => p.1.map (·.id) := by
    intro l; simp [ids, List.filterMap_map, Function.comp_def]
  have h2 : ∀ l : List Item, blks l = (l.map (fun a => (a.name, a.evidence))).filterMap fun p => p.2.map (·.block) := by
    intro l; simp [blks, List.filterMap_map, Function.comp_def]
  exact ⟨by rw [h1, h1, h], by rw [h2, h2, h]⟩

theorem ids_eq' {l m : List Item} (h : m.map (fun a => (a.index, a.name)) = l.map (fun a => (a.index, a.name))) :
    ids m = ids l := by
  have h1 : ∀ l : List Item, ids l = (l.map (fun a => (a.index, a.name))).filterMap fun p => p.2.map (·.id) := by
    intro l; simp [ids, List.filterMap_map, Function.comp_def]
  rw [h1, h1, h]

/-- `qsort` rearranges. -/
def Rearranges (q : List Item → List Item) : Prop := ∀ l, (q l).Perm l

/-- What initialising the items leaves behind. -/
theorem initRequired_held (s : Source) (ho : s.owned = true) (q : List Item → List Item) (hq : Rearranges q)
    (ixs : List Nat) (w : World) (m : List Item) (w' : World) (h : initRequired s q ixs w = some (m, w')) :
    (∃ I : List Nat, I.Perm (ids m) ∧ w'.items = I ++ w.items) ∧
    (∃ B : List Nat, B.Perm (blks m) ∧ w'.blocks = B ++ w.blocks) := by
  obtain ⟨⟨I, hI, hw⟩, hb, -⟩ := setNames_spec s ho ixs w
  simp only [initRequired, Option.bind_eq_some_iff] at h
  obtain ⟨⟨l1, w1⟩, h1, l2, h2, h3⟩ := h
  obtain ⟨i1, ⟨B, hB, hw1⟩, e1, -⟩ := (setEvidence_spec s _ _).2 _ _ h1
  have e2 : l2 = q l1 := by
    simp only [sortItems] at h2
    split at h2
    · simp at h2
    · simpa using h2.symm
  obtain ⟨m', w2, e3, s3, hm, -⟩ := reindex_spec s l2 w1
  simp only at h3
  rw [e3] at h3
  simp only [Option.some.injEq, Prod.mk.injEq] at h3
  obtain ⟨rfl, rfl⟩ := h3
  obtain ⟨d1, d2⟩ := ids_eq hm
  have hp : l2.Perm l1 := e2 ▸ hq l1
  refine ⟨⟨I, ?_, by rw [s3.items, i1, hw]⟩, ⟨B, ?_, by rw [s3.blocks, hw1, hb]⟩⟩
  · rw [d1]
    exact hI.trans ((ids_eq' e1) ▸ (hp.filterMap _).symm)
  · rw [d2]
    exact hB.trans (hp.filterMap _).symm

/-! ## Freeing -/

theorem erase_front {I base : List Nat} {j : Nat} (h : j ∈ I) : (I ++ base).erase j = I.erase j ++ base :=
  List.erase_append_left _ h

theorem freeItems_spec (s : Source) (ho : s.owned = true) (l : List Item) (w : World) (I B : List Nat)
    (base baseB : List Nat) (hI : I.Perm (ids l)) (hB : B.Perm (blks l)) (hw : w.items = I ++ base)
    (hb : w.blocks = B ++ baseB) :
    ∃ w', freeItems s l w = some w' ∧ w'.items = base ∧ w'.blocks = baseB := by
  induction l generalizing w I B with
  | nil =>
    have h1 : I = [] := by simpa [ids] using hI
    have h2 : B = [] := by simpa [blks] using hB
    rw [h1] at hw
    rw [h2] at hb
    exact ⟨w, rfl, hw, hb⟩
  | cons a l ih =>
    rw [freeItems, freeItem]
    -- the name
    have hname : ∃ w1 I1, freeName s w a.name = some w1 ∧ I1.Perm (ids l) ∧
        w1.items = I1 ++ base ∧ w1.blocks = w.blocks := by
      cases hn : a.name with
      | none => exact ⟨w, I, rfl, by simpa [ids, hn] using hI, hw, rfl⟩
      | some n =>
        have hI' : I.Perm (n.id :: ids l) := by simpa [ids, hn] using hI
        have hm : n.id ∈ I := hI'.mem_iff.mpr (by simp)
        refine ⟨{ w with items := I.erase n.id ++ base }, I.erase n.id, ?_, ?_, rfl, rfl⟩
        · simp only [freeName, ho, if_true, release]
          rw [if_pos (by rw [hw]; exact List.mem_append_left _ hm), hw, erase_front hm]
        · have := hI'.erase n.id
          simpa using this
    obtain ⟨w1, I1, e1, hI1, hw1, hb1⟩ := hname
    rw [e1]
    simp only [Option.bind_some]
    cases he : a.evidence with
    | none =>
      simp only [freeEvidence, Option.bind_some]
      exact ih w1 I1 B hI1 (by simpa [blks, he] using hB) hw1 (hb1.trans hb)
    | some e =>
      have hB' : B.Perm (e.block :: blks l) := by simpa [blks, he] using hB
      have hm : e.block ∈ B := hB'.mem_iff.mpr (by simp)
      simp only [freeEvidence, free]
      rw [if_pos (by rw [hb1, hb]; exact List.mem_append_left _ hm), hb1, hb, erase_front hm]
      simp only [Option.bind_some]
      refine ih _ I1 (B.erase e.block) hI1 ?_ hw1 rfl
      have := hB'.erase e.block
      simpa using this

/-- C76: whatever reads and allocations fail, if creation returns then exactly the names and the arrays of the
result are held besides what was held before, and freeing the result (which may be NULL) is defined and gives
back exactly these. -/
theorem C76_balance (s : Source) (ho : s.owned = true) (q : List Item → List Item) (hq : Rearranges q)
    (r : Request) (w w' : World) (a : Option Available) (h : create s q r w = some (a, w')) :
    (w'.items.Perm (ids (a.elim [] (·.items)) ++ w.items)) ∧
    (w'.blocks.Perm ((a.map (·.block)).toList ++ blks (a.elim [] (·.items)) ++ w.blocks)) ∧
    ∃ w'', freeAvailable s a w' = some w'' ∧ w''.items = w.items ∧ w''.blocks = w.blocks := by
  simp only [create, Option.bind_eq_some_iff] at h
  obtain ⟨⟨c, w1⟩, h1, h2⟩ := h
  have hc := (choose_spec s w r).2 _ _ h1
  cases c with
  | none =>
    simp only [Option.some.injEq, Prod.mk.injEq] at h2
    obtain ⟨rfl, rfl⟩ := h2
    have hi := hc.items
    have hb : w1.blocks = w.blocks := by simpa using hc.block
    exact ⟨by simp [ids, hi], by simp [blks, hb], w1, rfl, hi, hb⟩
  | some c =>
    simp only [Option.map_eq_some_iff] at h2
    obtain ⟨⟨m, w2⟩, h3, h4⟩ := h2
    simp only [Prod.mk.injEq] at h4
    obtain ⟨rfl, rfl⟩ := h4
    obtain ⟨⟨I, hI, hw⟩, ⟨B, hB, hb⟩⟩ := initRequired_held s ho q hq _ _ _ _ h3
    rw [hc.items] at hw
    have hb1 : w1.blocks = c.block :: w.blocks := by simpa using hc.block
    rw [hb1] at hb
    refine ⟨?_, ?_, ?_⟩
    · rw [hw]; exact hI.append_right _
    · rw [hb]
      simp only [Option.map_some, Option.toList_some, Option.elim_some, List.cons_append, List.nil_append]
      refine List.perm_middle.trans (List.Perm.cons _ (hB.append_right _))
    · obtain ⟨w3, e3, i3, b3⟩ := freeItems_spec s ho m w2 I B _ _ hI hB hw hb
      refine ⟨{ w3 with blocks := w.blocks }, ?_, i3, rfl⟩
      simp [freeAvailable, e3, free, b3]

/-! ## What is created -/

/-- The text by which an item is ordered. -/
def Item.text (a : Item) : CStr := (a.name.map (·.text)).getD []

/-- What the C standard says of `qsort` with this comparison: a rearrangement, in ascending order if every item
can be compared. -/
def IsQsort (q : List Item → List Item) : Prop :=
  Rearranges q ∧ ∀ l, (∀ a ∈ l, a.name ≠ none) → (q l).Pairwise fun a b => Properties.stricmp a.text b.text ≤ 0

/-- There is such a sort. -/
def sort (l : List Item) : List Item := l.mergeSort fun a b => Properties.stricmp a.text b.text ≤ 0

theorem sort_isQsort : IsQsort sort := by
  refine ⟨fun l => List.mergeSort_perm _ _, fun l _ => ?_⟩
  have := List.pairwise_mergeSort (le := fun a b : Item => decide (Properties.stricmp a.text b.text ≤ 0))
    (fun a b c h h' => by simp only [decide_eq_true_eq] at *; exact Properties.stricmp_trans _ _ _ h h')
    (fun a b => by
      simp only [Bool.or_eq_true, decide_eq_true_eq]
      have := Properties.stricmp_swap a.text b.text
      by_cases h : Properties.stricmp a.text b.text ≤ 0
      · exact .inl h
      · right
        have h1 : (Properties.stricmp a.text b.text).sign = 1 := Int.sign_eq_one_iff_pos.mpr (by omega)
        have h2 : (Properties.stricmp b.text a.text).sign = -1 := by omega
        have := Int.sign_eq_neg_one_iff_neg.mp h2
        omega) l
  exact this.imp (by intro a b h; simpa using h)

/-- The available properties are those asked for: in ascending order of name ignoring case, each once with its
index in the data set and the evidence properties that the caller's method gave for it, or none if an
allocation failed. -/
structure Right (s : Source) (r : Request) (l : List Item) : Prop where
  sorted : l.Pairwise fun a b => Str.DictLt (Properties.ukeys a.text) (Properties.ukeys b.text)
  named : ∀ a ∈ l, ∃ n, a.name = some n ∧ s.names[a.index]? = some n.text
  exact : ∀ n, (∃ a ∈ l, ∃ m, a.name = some m ∧ m.text = n) ↔ n ∈ s.names ∧ Requested r.pure n
  evidence : ∀ a ∈ l, (a.evidence = none ∧ ∃ k, s.alloc k = false) ∨
    ∃ b, a.evidence = some ⟨b, s.count a.index, s.fill a.index⟩

theorem initRequired_right (s : Source) (ho : s.owned = true) (hr : Reads s) (hd : Distinct s.names)
    (hf : ∀ i < s.names.length, (s.fill i).length ≤ s.count i)
    (q : List Item → List Item) (hq : IsQsort q) (r : Request) (ixs : List Nat) (hn : ixs.Nodup)
    (hmem : ∀ i, i ∈ ixs ↔ ∃ name, s.names[i]? = some name ∧ Requested r.pure name) (w : World) :
    ∃ m w', initRequired s q ixs w = some (m, w') ∧ Right s r m ∧ m.length = ixs.length := by
  have hlt : ∀ i ∈ ixs, i < s.names.length := by
    intro i hi
    obtain ⟨_, h, -⟩ := (hmem i).mp hi
    exact (List.getElem?_eq_some_iff.mp h).1
  obtain ⟨-, -, hx, hnm, hall⟩ := setNames_spec s ho ixs w
  have hall := hall hr hlt
  obtain ⟨e1, e2⟩ := setEvidence_spec s (setNames s ixs w).1 (setNames s ixs w).2
  have hix : ∀ a ∈ (setNames s ixs w).1, a.index ∈ ixs := by
    intro a ha
    have := List.mem_map_of_mem (f := fun a : Item => a.index) ha
    rwa [hx] at this
  obtain ⟨⟨l1, w1⟩, hl1⟩ := Option.isSome_iff_exists.mp (e1 fun a ha => hf _ (hlt _ (hix a ha)))
  obtain ⟨-, -, j3, j4⟩ := e2 _ _ hl1
  -- the pairs of index and name are those set
  have hpair : ∀ a ∈ l1, ∃ n, a.name = some n ∧ s.names[a.index]? = some n.text ∧ a.index ∈ ixs := by
    intro a ha
    have := List.mem_map_of_mem (f := fun a : Item => (a.index, a.name)) ha
    rw [j3, List.mem_map] at this
    obtain ⟨b, hb, he⟩ := this
    simp only [Prod.mk.injEq] at he
    obtain ⟨n, hbn⟩ := Option.ne_none_iff_exists'.mp (hall b hb)
    exact ⟨n, by rw [← he.2, hbn], by rw [← he.1]; exact hnm b hb n hbn, he.1 ▸ hix b hb⟩
  have hx1 : l1.map (·.index) = ixs := by
    have h1 : ∀ l : List Item, l.map (·.index) = (l.map fun a => (a.index, a.name)).map (·.1) := by
      intro l; simp
    rw [h1, j3, ← h1, hx]
  have hnone : ∀ a ∈ l1, a.name ≠ none := by
    intro a ha
    obtain ⟨n, h, -⟩ := hpair a ha
    simp [h]
  have hs : sortItems q l1 = some (q l1) := by
    rw [sortItems, if_neg]
    rintro ⟨-, a, ha, h⟩
    exact hnone a ha h
  have hp := hq.1 l1
  obtain ⟨m, w2, h2, -, -, h3⟩ := reindex_spec s (q l1) w1
  have hm : m = q l1 := h3 hr hd (by
    intro a ha n hn
    obtain ⟨n', h1, h2, -⟩ := hpair a (hp.mem_iff.mp ha)
    rw [h1] at hn
    cases hn
    exact h2)
  subst hm
  refine ⟨q l1, w2, by simp [initRequired, hl1, hs, h2], ?_, ?_⟩
  · have hnd : (q l1).Pairwise fun a b => a.index ≠ b.index := by
      have : ((q l1).map (·.index)).Nodup := by
        rw [(hp.map _).nodup_iff, hx1]
        exact hn
      exact List.pairwise_map.mp this
    refine ⟨?_, ?_, ?_, fun a ha => j4 a (hp.mem_iff.mp ha)⟩
    · refine ((hq.2 l1 hnone).and hnd).imp_of_mem ?_
      rintro a b ha hb ⟨h1, h2⟩
      rw [← Properties.stricmp_neg_iff]
      rcases Int.lt_or_eq_of_le h1 with h1 | h1
      · exact h1
      · exfalso
        rw [Properties.stricmp_zero_iff] at h1
        obtain ⟨n, a1, a2, -⟩ := hpair a (hp.mem_iff.mp ha)
        obtain ⟨m, b1, b2, -⟩ := hpair b (hp.mem_iff.mp hb)
        simp only [Item.text, a1, b1, Option.map_some, Option.getD_some] at h1
        exact h2 (hd.unique a2 b2 h1)
    · intro a ha
      obtain ⟨n, h1, h2, -⟩ := hpair a (hp.mem_iff.mp ha)
      exact ⟨n, h1, h2⟩
    · intro n
      constructor
      · rintro ⟨a, ha, m, h1, rfl⟩
        obtain ⟨n, h1', h2, h3⟩ := hpair a (hp.mem_iff.mp ha)
        rw [h1] at h1'
        cases h1'
        obtain ⟨name, h4, h5⟩ := (hmem _).mp h3
        rw [h2, Option.some.injEq] at h4
        exact ⟨List.mem_of_getElem? h2, h4 ▸ h5⟩
      · rintro ⟨h1, h2⟩
        obtain ⟨i, hi⟩ := List.mem_iff_getElem?.mp h1
        have h3 : i ∈ l1.map (·.index) := hx1 ▸ (hmem i).mpr ⟨n, hi, h2⟩
        obtain ⟨a, ha, rfl⟩ := List.mem_map.mp h3
        obtain ⟨m, h4, h5, -⟩ := hpair a ha
        refine ⟨a, hp.mem_iff.mpr ha, m, h4, ?_⟩
        rw [hi, Option.some.injEq] at h5
        exact h5.symm
  · rw [hp.length_eq, ← hx1, List.length_map]

theorem init_none_iff (names : List CStr) (h : Distinct names) (r : Request) :
    Properties.init names (Properties.effective r.pure) = none ↔
      ∃ t, r = .string t ∧ t ≠ [] ∧ ∀ n ∈ names, ¬ Requested r.pure n := by
  have h1 := Properties.C27_null Properties.sort names h r.pure
  simp only [Properties.create, Option.map_eq_none_iff] at h1
  rw [h1]
  cases r <;> simp [Request.pure]

/-- C76: if every read succeeds and the caller's method writes no more evidence properties than it counted,
creation is defined whatever allocations fail. It gives NULL exactly when there is no memory for the list or a
non-empty string names none of the properties, and else exactly the properties asked for. Missing: failing
reads, for which see the violations. -/
theorem C76_create_partial (s : Source) (ho : s.owned = true) (hr : Reads s) (hd : Distinct s.names)
    (hf : ∀ i < s.names.length, (s.fill i).length ≤ s.count i)
    (q : List Item → List Item) (hq : IsQsort q) (r : Request) (w : World) :
    ∃ a w', create s q r w = some (a, w') ∧
      (a = none ↔ s.alloc w.allocs = false ∨
        ∃ t, r = .string t ∧ t ≠ [] ∧ ∀ n ∈ s.names, ¬ Requested r.pure n) ∧
      ∀ x, a = some x → Right s r x.items := by
  obtain ⟨h1, h2⟩ := choose_spec s w r
  obtain ⟨⟨c, w1⟩, hc⟩ := Option.isSome_iff_exists.mp (h1 hr)
  have hcf := h2 _ _ hc
  rw [← init_none_iff s.names hd r]
  rcases hcf.reads hr with ⟨rfl, h⟩ | ⟨ha, x, cap, rfl, hi⟩
  · exact ⟨none, w1, by simp [create, hc], by simp only [true_iff]; exact h.symm, by simp⟩
  · obtain ⟨hn, -, hmem⟩ := Properties.init_spec hd r.pure cap x.indexes hi
    obtain ⟨m, w2, e, hm, -⟩ := initRequired_right s ho hr hd hf q hq r x.indexes hn hmem w1
    refine ⟨some ⟨x.block, m⟩, w2, by simp [create, hc, e], by simp [ha, hi], ?_⟩
    rintro y hy
    simp only [Option.some.injEq] at hy
    subst hy
    exact hm

/-! ## The status -/

theorem checkEvidence_success (l : List Item) :
    checkEvidence l = .success ↔ ∀ a ∈ l, ∃ e, a.evidence = some e ∧ e.capacity = e.indexes.length := by
  induction l with
  | nil => simp [checkEvidence]
  | cons a l ih =>
    rw [checkEvidence]
    cases he : a.evidence with
    | none => simp [he]
    | some e =>
      by_cases h : e.capacity = e.indexes.length
      · simp [h, ih, he]
      · simp [h, he]

theorem checkEvidence_codes (l : List Item) :
    (checkEvidence l = .insufficientMemory → ∃ a ∈ l, a.evidence = none) ∧
    (checkEvidence l = .collectionFailure →
      ∃ a ∈ l, ∃ e, a.evidence = some e ∧ e.capacity ≠ e.indexes.length) ∧
    checkEvidence l ≠ .reqPropNotPresent := by
  induction l with
  | nil => simp [checkEvidence]
  | cons a l ih =>
    rw [checkEvidence]
    cases he : a.evidence with
    | none => simp [he]
    | some e =>
      by_cases h : e.capacity = e.indexes.length
      · simp only [h, ne_eq, not_true_eq_false, if_false]
        refine ⟨fun hc => ?_, fun hc => ?_, ih.2.2⟩
        · obtain ⟨b, hb, hb'⟩ := ih.1 hc
          exact ⟨b, by simp [hb], hb'⟩
        · obtain ⟨b, hb, hb'⟩ := ih.2.1 hc
          exact ⟨b, by simp [hb], hb'⟩
      · simp [h, he]

/-- C77: whatever fails, the status is success exactly if there is at least one available property and each has
its name and an evidence array that is full. -/
theorem C77_success (s : Source) (q : List Item → List Item) (r : Request) (w w' : World) (c : Code)
    (a : Option Available) (h : initProperties s q r w = some (c, a, w')) :
    c = .success ↔ ∃ x, a = some x ∧ x.items ≠ [] ∧
      ∀ i ∈ x.items, i.name ≠ none ∧ ∃ e, i.evidence = some e ∧ e.capacity = e.indexes.length := by
  simp only [initProperties, Option.map_eq_some_iff, Prod.mk.injEq] at h
  obtain ⟨p, -, rfl, rfl, rfl⟩ := h
  cases hp : p.1 with
  | none => simp [check]
  | some x =>
    simp only [check]
    by_cases h0 : x.items = []
    · simp [h0]
    · have h0' : ¬ x.items.length = 0 := by simpa using h0
      rw [if_neg h0']
      by_cases h1 : ∃ i ∈ x.items, i.name = none
      · rw [if_pos h1]
        simp only [reduceCtorEq, Option.some.injEq, false_iff]
        rintro ⟨y, rfl, -, hy⟩
        obtain ⟨i, hi, hn⟩ := h1
        exact (hy i hi).1 hn
      · rw [if_neg h1, checkEvidence_success]
        constructor
        · intro h
          exact ⟨x, rfl, h0, fun i hi => ⟨fun hn => h1 ⟨i, hi, hn⟩, h i hi⟩⟩
        · rintro ⟨y, hy, -, h⟩ i hi
          simp only [Option.some.injEq] at hy
          subst hy
          exact (h i hi).2

/-- C77: if every read succeeds, the other codes tell the reason: a property that is not present means that
none asked for is in the data set or that there was no memory for the list, insufficient memory that an
allocation failed, and a failure of a collection that the caller's method wrote fewer evidence properties for an
available property than it had counted. Missing: failing reads, for which see the violations. -/
theorem C77_codes_partial (s : Source) (ho : s.owned = true) (hr : Reads s) (hd : Distinct s.names)
    (hf : ∀ i < s.names.length, (s.fill i).length ≤ s.count i)
    (q : List Item → List Item) (hq : IsQsort q) (r : Request) (w : World) :
    ∃ c a w', initProperties s q r w = some (c, a, w') ∧
      (c = .reqPropNotPresent ↔ s.alloc w.allocs = false ∨ ∀ n ∈ s.names, ¬ Requested r.pure n) ∧
      (c = .insufficientMemory → ∃ k, s.alloc k = false) ∧
      (c = .collectionFailure → ∃ i n, s.names[i]? = some n ∧ Requested r.pure n ∧
        (s.fill i).length < s.count i) := by
  obtain ⟨a, w', hc, hnone, hright⟩ := C76_create_partial s ho hr hd hf q hq r w
  refine ⟨check a, a, w', by simp [initProperties, hc], ?_⟩
  cases a with
  | none =>
    refine ⟨?_, by simp [check], by simp [check]⟩
    simp only [check, true_iff]
    rcases hnone.mp rfl with h | ⟨t, -, -, h⟩
    · exact .inl h
    · exact .inr h
  | some x =>
    have hx := hright x rfl
    have hsome : s.alloc w.allocs ≠ false := fun h => by
      have := hnone.mpr (.inl h)
      simp at this
    have hempty : x.items = [] ↔ ∀ n ∈ s.names, ¬ Requested r.pure n := by
      constructor
      · intro h n hn hreq
        obtain ⟨b, hb, -⟩ := (hx.exact n).mpr ⟨hn, hreq⟩
        simp [h] at hb
      · intro h
        rw [List.eq_nil_iff_forall_not_mem]
        intro b hb
        obtain ⟨n, h1, h2⟩ := hx.named b hb
        obtain ⟨h3, h4⟩ := (hx.exact n.text).mp ⟨b, hb, n, h1, rfl⟩
        exact h _ h3 h4
    simp only [check]
    by_cases h0 : x.items = []
    · have h0' : x.items.length = 0 := by simp [h0]
      rw [if_pos h0']
      simp only [true_iff, reduceCtorEq, false_implies, and_self, and_true]
      exact .inr (hempty.mp h0)
    · have h0' : ¬ x.items.length = 0 := by simpa using h0
      have h1 : ¬ ∃ i ∈ x.items, i.name = none := by
        rintro ⟨i, hi, hn⟩
        obtain ⟨n, h, -⟩ := hx.named i hi
        rw [hn] at h
        cases h
      rw [if_neg h0', if_neg h1]
      obtain ⟨k1, k2, k3⟩ := checkEvidence_codes x.items
      refine ⟨?_, ?_, ?_⟩
      · constructor
        · intro h; exact absurd h k3
        · rintro (h | h)
          · exact absurd h hsome
          · exact absurd (hempty.mpr h) h0
      · intro h
        obtain ⟨b, hb, hb'⟩ := k1 h
        rcases hx.evidence b hb with ⟨-, h⟩ | ⟨_, h⟩
        · exact h
        · rw [hb'] at h; cases h
      · intro h
        obtain ⟨b, hb, e, he, hne⟩ := k2 h
        rcases hx.evidence b hb with ⟨h, -⟩ | ⟨_, h⟩
        · rw [he] at h; cases h
        · rw [he, Option.some.injEq] at h
          subst h
          obtain ⟨n, h1, h2⟩ := hx.named b hb
          obtain ⟨h3, h4⟩ := (hx.exact n.text).mp ⟨b, hb, n, h1, rfl⟩
          refine ⟨b.index, n.text, h2, h4, ?_⟩
          have := hf b.index (List.getElem?_eq_some_iff.mp h2).1
          simp only at hne
          omega

/-! ## Cases and violations -/

/-- A source of three properties of which reads in `bad` fail and allocations in `full` fail; property 0 takes two
evidence properties and the others none. -/
def source (owned : Bool) (bad full : List Nat) : Source where
  names := [c!"IsMobile", c!"Id", c!"Type"]
  owned := owned
  fails k := k ∈ bad
  count i := if i = 0 then 2 else 0
  fill i := if i = 0 then [1, 2] else []
  alloc k := k ∉ full

def start : World := ⟨0, 0, [], []⟩

example : (source true [] []).owned = true ∧ Reads (source true [] []) ∧ Distinct (source true [] []).names ∧
    ∀ i < (source true [] []).names.length,
      ((source true [] []).fill i).length ≤ (source true [] []).count i := by
  refine ⟨rfl, fun k => rfl, ?_, ?_⟩
  · simp [source, Distinct]; decide
  · decide

/-- Two properties asked for, one of them twice, with room for three. -/
example : (create (source true [] []) id (.string c!"type|nope,ID Type") start).map (fun p => (p.1, p.2.items, p.2.blocks))
    = some (some ⟨0, [⟨2, some ⟨24, c!"Type"⟩, some ⟨1, 0, []⟩⟩, ⟨1, some ⟨25, c!"Id"⟩, some ⟨2, 0, []⟩⟩]⟩,
      [25, 24], [2, 1, 0]) := by decide +kernel

example : (initProperties (source true [] []) id (.array [c!"ismobile"]) start).map (fun p => (p.1, p.2.1))
    = some (.success, some ⟨0, [⟨0, some ⟨2, c!"IsMobile"⟩, some ⟨1, 2, [1, 2]⟩⟩]⟩) := by decide +kernel

/-- The evidence array could not be allocated. -/
example : (initProperties (source true [] [1]) id (.array [c!"ismobile"]) start).map (fun p => (p.1, p.2.1))
    = some (.insufficientMemory, some ⟨0, [⟨0, some ⟨2, c!"IsMobile"⟩, none⟩]⟩) := by decide +kernel

/-- A failed read while names are set gives the status for it if there is one property. -/
example : (initProperties (source true [2] []) id (.array [c!"ismobile"]) start).map (fun p => p.1)
    = some .collectionFailure := by decide +kernel

/-- And what was created is given back though creation failed. -/
example : ((create (source true [2] [1]) id (.array [c!"ismobile"]) start).bind fun p =>
    freeAvailable (source true [2] [1]) p.1 p.2).map (fun w => (w.items, w.blocks)) = some ([], []) := by
  decide +kernel

/-- C76 does not hold for failing reads: if a read fails while the matches are counted and succeeds when they
are added, more properties are added than there is room for, and the write is out of bounds. -/
theorem C76_overflow_violated : ∃ s : Source, s.owned = true ∧ Distinct s.names ∧ (∀ k, s.alloc k = true) ∧
    (∀ k ≠ 0, s.fails k = false) ∧ (∀ i, (s.fill i).length ≤ s.count i) ∧
    create s sort (.array [c!"IsMobile"]) start = none := by
  refine ⟨source true [0] [], rfl, ?_, fun k => by simp [source], fun k hk => by simp [source, hk], fun i => ?_, ?_⟩
  · simp [source, Distinct]; decide
  · by_cases h : i = 0 <;> simp [source, h]
  · decide +kernel

/-- C76 does not hold for a source whose strings are not of a collection: `getPropertyIndex` and the counting
look whether there is one, `PropertiesFree` does not and calls through NULL. -/
theorem C76_collection_violated : ∃ s : Source, s.owned = false ∧ Reads s ∧ Distinct s.names ∧
    (∀ k, s.alloc k = true) ∧ (∀ i, (s.fill i).length ≤ s.count i) ∧
    ∃ a w, create s sort (.array [c!"IsMobile"]) start = some (some a, w) ∧ a.items ≠ [] ∧
      freeAvailable s (some a) w = none := by
  refine ⟨source false [] [], rfl, fun k => rfl, ?_, fun k => by simp [source], fun i => ?_, ?_⟩
  · simp [source, Distinct]; decide
  · by_cases h : i = 0 <;> simp [source, h]
  · exact ⟨⟨0, [⟨0, some ⟨2, c!"IsMobile"⟩, some ⟨1, 2, [1, 2]⟩⟩]⟩, ⟨4, 2, [], [1, 0]⟩, by decide +kernel,
      by simp, by decide +kernel⟩

/-- C77 does not hold for failing reads: the check for names that could not be read comes after the names have
been compared, so with two properties or more the status is never returned. -/
theorem C77_name_violated : ∃ s : Source, s.owned = true ∧ Distinct s.names ∧ (∀ k, s.alloc k = true) ∧
    (∀ i, (s.fill i).length ≤ s.count i) ∧ (∀ k ≠ 4, s.fails k = false) ∧
    initProperties s sort .all start = none := by
  refine ⟨source true [4] [], rfl, ?_, fun k => by simp [source], fun i => ?_, fun k hk => by simp [source, hk], ?_⟩
  · simp [source, Distinct]; decide
  · by_cases h : i = 0 <;> simp [source, h]
  · decide +kernel

/-- C77 does not hold for failing reads: two properties are enough for it, and a name that could not be read is
noticed only when the property is the only one. -/
theorem C77_two_violated : ∃ s t : Source, s.owned = true ∧ t.owned = true ∧ Distinct s.names ∧ t.names = s.names ∧
    (∀ k, s.alloc k = true) ∧ (∀ k, t.alloc k = true) ∧
    (∀ i, (s.fill i).length ≤ s.count i) ∧ (∀ i, (t.fill i).length ≤ t.count i) ∧
    (∀ k ≠ 6, s.fails k = false) ∧ (∀ k ≠ 2, t.fails k = false) ∧
    initProperties s sort (.array [c!"IsMobile", c!"Id"]) start = none ∧
    (initProperties t sort (.array [c!"IsMobile"]) start).map (·.1) = some .collectionFailure := by
  refine ⟨source true [6] [], source true [2] [], rfl, rfl, ?_, rfl, fun k => by simp [source], fun k => by simp [source],
    fun i => ?_, fun i => ?_, fun k hk => by simp [source, hk], fun k hk => by simp [source, hk],
    by decide +kernel, by decide +kernel⟩
  · simp [source, Distinct]; decide
  · by_cases h : i = 0 <;> simp [source, h]
  · by_cases h : i = 0 <;> simp [source, h]

/-- C77 does not hold when there is no memory for the list: the status says that a property is not present. -/
theorem C77_memory_violated : ∃ s : Source, s.owned = true ∧ Reads s ∧ Distinct s.names ∧
    (∀ k ≠ 0, s.alloc k = true) ∧
    (initProperties s sort .all start).map (·.1) = some .reqPropNotPresent ∧
    ∀ n ∈ s.names, Requested Request.all.pure n := by
  refine ⟨source true [] [0], rfl, fun k => rfl, ?_, fun k hk => by simp [source, hk], by decide +kernel, ?_⟩
  · simp [source, Distinct]; decide
  · intro n _; trivial

/-- C77 does not hold for failing reads: with a read that fails while properties are counted the status is
success though properties that were asked for are missing. -/
theorem C77_fewer_violated : ∃ s : Source, s.owned = true ∧ Distinct s.names ∧ (∀ k, s.alloc k = true) ∧
    (∀ k ≠ 2, s.fails k = false) ∧
    ∃ a w, initProperties s id .all start = some (.success, some a, w) ∧
      ∃ n ∈ s.names, Requested Request.all.pure n ∧ ∀ i ∈ a.items, ∀ m, i.name = some m → m.text ≠ n := by
  refine ⟨source true [2] [], rfl, ?_, fun k => by simp [source], fun k hk => by simp [source, hk],
    ⟨0, [⟨0, some ⟨3, c!"IsMobile"⟩, some ⟨1, 2, [1, 2]⟩⟩, ⟨1, some ⟨4, c!"Id"⟩, some ⟨2, 0, []⟩⟩]⟩,
    ⟨8, 3, [4, 3], [2, 1, 0]⟩, by decide +kernel, c!"Type", by decide, trivial, ?_⟩
  · simp [source, Distinct]; decide
  · decide +kernel

/-- C77 does not hold for failing reads: with a read that fails when the indexes are found again the status is
success though an available property has the index -1. -/
theorem C77_index_violated : ∃ s : Source, s.owned = true ∧ Distinct s.names ∧ (∀ k, s.alloc k = true) ∧
    (∀ k ≠ 3, s.fails k = false) ∧
    ∃ a w, initProperties s sort (.array [c!"IsMobile"]) start = some (.success, some a, w) ∧
      ∃ i ∈ a.items, i.index = 2 ^ 32 - 1 ∧ s.names[i.index]? = none := by
  refine ⟨source true [3] [], rfl, ?_, fun k => by simp [source], fun k hk => by simp [source, hk],
    ⟨0, [⟨2 ^ 32 - 1, some ⟨2, c!"IsMobile"⟩, some ⟨1, 2, [1, 2]⟩⟩]⟩,
    ⟨4, 2, [2], [1, 0]⟩, by decide +kernel, _, List.mem_cons_self, rfl, by decide +kernel⟩
  simp [source, Distinct]; decide

end Verif.Avail
