import Verif.Pseudo.Model
import Verif.Headers.Props

/-! # C24: pseudo header evidence -/

namespace Verif.Pseudo
open Verif.Headers (Header SEP isPseudo pieces)
open Verif.Evidence (Pair)
open Verif.Str (fold)

/-- Specification: the value supplied for a header name under a prefix: that of the first pair with the
prefix whose field is the name, ignoring case. -/
def valueFor (ev : List Pair) (pfx : Nat) (name : CStr) : Option CStr :=
  (ev.find? fun p => p.pfx = pfx ∧ fold p.field = fold name).bind (·.orig)

/-- Specification: values joined by the separator. -/
def join : List CStr → CStr
  | [] => []
  | [v] => v
  | v :: w :: vs => v ++ SEP :: join (w :: vs)

theorem getValue_eq (seg : CStr) (ev : List Pair) (pfx : Nat) :
    getEvidenceValueForHeader seg ev pfx = valueFor ev pfx seg := by
  induction ev with
  | nil => rfl
  | cons p ps ih =>
    simp only [getEvidenceValueForHeader, valueFor, List.find?_cons]
    have key : (p.field.length = seg.length ∧
        Str.compareLength (p.field ++ [0]) seg p.field.length = some 0) ↔ fold p.field = fold seg := by
      constructor
      · rintro ⟨hl, hc⟩
        obtain ⟨d, h1, h2⟩ := Str.C16_compareLength_zero_iff (p.field ++ [0]) seg p.field.length
          (by simp) (by omega)
        rw [hc] at h1
        have := h2.mp (by simpa using h1.symm)
        rwa [List.take_left, hl, List.take_length] at this
      · intro e
        have hl : p.field.length = seg.length := by
          have := congrArg List.length e
          simpa [fold] using this
        refine ⟨hl, ?_⟩
        obtain ⟨d, h1, h2⟩ := Str.C16_compareLength_zero_iff (p.field ++ [0]) seg p.field.length
          (by simp) (by omega)
        rw [h1]
        congr 1
        apply h2.mpr
        rw [List.take_left, hl, List.take_length]; exact e
    simp only [key]
    by_cases h : p.pfx = pfx ∧ fold p.field = fold seg
    · simp [h]
    · simp only [h, if_false, decide_false, ih, valueFor]

/-- `join` with text already written in front. -/
def joinAfter (written : CStr) : List CStr → CStr
  | [] => written
  | v :: vs => joinAfter (written ++ SEP :: v) vs

theorem joinAfter_cons (a : CStr) (v : CStr) (vs : List CStr) : joinAfter (a ++ v) vs = a ++ joinAfter v vs := by
  induction vs generalizing a v with
  | nil => rfl
  | cons w vs ih => simp only [joinAfter, List.append_assoc]; rw [ih]

theorem join_eq (v : CStr) (vs : List CStr) : join (v :: vs) = joinAfter v vs := by
  induction vs generalizing v with
  | nil => rfl
  | cons w vs ih =>
    simp only [join, joinAfter, ih]
    have : v ++ SEP :: w = (v ++ [SEP]) ++ w := by simp
    rw [this, joinAfter_cons]; simp

theorem joinAfter_prefix (a : CStr) (vs : List CStr) : a <+: joinAfter a vs := by
  induction vs generalizing a with
  | nil => exact List.prefix_refl _
  | cons v vs ih => exact (List.prefix_append a (SEP :: v)).trans (ih _)

/-- All segments have values. -/
theorem constructGo_present (n : Nat) (ev : List Pair) (pfx : Nat) (segs : List CStr) (vs : List CStr)
    (hv : segs.map (valueFor ev pfx) = vs.map some) (i : Nat) (hi : i ≠ 0) (w : CStr) (hw : w.length < n) :
    (constructGo n ev pfx i w segs).2 = (joinAfter w vs).take (n - 1) ∧
    ((joinAfter w vs).length < n → (constructGo n ev pfx i w segs).1 = (joinAfter w vs).length) ∧
    (w ≠ [] → 0 < (constructGo n ev pfx i w segs).1) := by
  induction segs generalizing vs i w with
  | nil =>
    cases vs with
    | nil =>
      simp only [constructGo, joinAfter]
      refine ⟨by rw [List.take_of_length_le]; omega, fun _ => trivial, List.length_pos_iff.mpr⟩
    | cons v vs => simp at hv
  | cons seg segs ih =>
    cases vs with
    | nil => simp at hv
    | cons v vs =>
      simp only [List.map_cons, List.cons.injEq] at hv
      simp only [constructGo, getValue_eq, hv.1, joinAfter]
      have pre := joinAfter_prefix (w ++ SEP :: v) vs
      by_cases hc : w.length + 1 < n
      · simp only [hi, ne_eq, not_false_eq_true, hc, and_self, if_true, List.length_append,
          List.length_cons, List.length_nil]
        by_cases ht : v.length ≥ n - (w.length + (0 + 1))
        · rw [if_pos ht]
          refine ⟨?_, ?_, ?_⟩
          · obtain ⟨t, ht'⟩ := pre
            rw [← ht']
            have hlen : n - 1 ≤ (w ++ SEP :: v).length := by
              simp only [List.length_append, List.length_cons]; omega
            rw [List.take_append_of_le_length hlen]
            simp only [snprintfText]
            have : w ++ SEP :: v = (w ++ [SEP]) ++ v := by simp
            rw [this, List.take_append, List.take_of_length_le (l := w ++ [SEP]) (by simp; omega)]
            congr 2
            simp only [List.length_append, List.length_cons, List.length_nil]; omega
          · intro hl
            have := pre.length_le
            simp at this; omega
          · intro _; simp only; omega
        · rw [if_neg ht]
          have e : w ++ [SEP] ++ v = w ++ SEP :: v := by simp
          rw [e]
          obtain ⟨h1, h2, h3⟩ := ih vs hv.2 (i + 1) (by omega) (w ++ SEP :: v) (by simp; omega)
          exact ⟨h1, h2, fun _ => h3 (by simp)⟩
      · simp only [hc, and_false, if_false]
        by_cases ht : v.length ≥ n - w.length
        · rw [if_pos ht]
          refine ⟨?_, ?_, ?_⟩
          · obtain ⟨t, ht'⟩ := pre
            rw [← ht']
            have hlen : n - 1 ≤ w.length := by omega
            have : w ++ SEP :: v ++ t = w ++ (SEP :: v ++ t) := by simp
            rw [this, List.take_append_of_le_length hlen, List.take_of_length_le (by omega)]
            have : n - w.length - 1 = 0 := by omega
            simp [snprintfText, this]
          · intro hl
            have := pre.length_le
            simp at this; omega
          · intro _; simp only; omega
        · rw [if_neg ht]
          have hv0 : v = [] := List.length_eq_zero_iff.mp (by omega)
          have hwn : w.length = n - 1 := by omega
          subst hv0
          simp only [List.append_nil]
          obtain ⟨h1, h2, h3⟩ := ih vs hv.2 (i + 1) (by omega) w hw
          refine ⟨?_, ?_, h3⟩
          · rw [h1]
            have p1 : w <+: joinAfter w vs := joinAfter_prefix w vs
            have p2 : w <+: joinAfter (w ++ [SEP]) vs := (List.prefix_append w [SEP]).trans (joinAfter_prefix _ vs)
            obtain ⟨t1, e1⟩ := p1
            obtain ⟨t2, e2⟩ := p2
            rw [← e1, ← e2, ← hwn, List.take_left, List.take_left]
          · intro hl
            have := (joinAfter_prefix (w ++ [SEP]) vs).length_le
            simp at this; omega

/-- Some segment has no value, and the values before it fit in the buffer. -/
theorem constructGo_missing (n : Nat) (ev : List Pair) (pfx : Nat) (segs rest : List CStr) (vs : List CStr)
    (miss : CStr) (hv : segs.map (valueFor ev pfx) = vs.map some) (hm : valueFor ev pfx miss = none)
    (i : Nat) (hi : i ≠ 0) (w : CStr) (hw : (joinAfter w vs).length < n) :
    constructGo n ev pfx i w (segs ++ miss :: rest) = (0, []) := by
  induction segs generalizing vs i w with
  | nil => simp [constructGo, getValue_eq, hm]
  | cons seg segs ih =>
    cases vs with
    | nil => simp at hv
    | cons v vs =>
      simp only [List.map_cons, List.cons.injEq] at hv
      simp only [joinAfter] at hw
      have := (joinAfter_prefix (w ++ SEP :: v) vs).length_le
      simp at this
      simp only [List.cons_append, constructGo, getValue_eq, hv.1]
      have hif : (if i ≠ 0 ∧ w.length + 1 < n then w ++ [SEP] else w) = w ++ [SEP] := if_pos ⟨hi, by omega⟩
      rw [hif, if_neg (by simp; omega)]
      have e : w ++ [SEP] ++ v = w ++ SEP :: v := by simp
      rw [e]
      exact ih vs hv.2 (i + 1) (by omega) _ hw

/-- C24: when every segment of the header has a value under the prefix, the text put in the buffer is the
values in order joined by the separator, cut to the buffer size if need be; it is complete, and its length
is the result, if it fits. -/
theorem C24_construct_present (n : Nat) (hn : 0 < n) (old : CStr) (h : Header) (ev : List Pair) (pfx : Nat)
    (vs : List CStr) (hs : h.segments ≠ []) (hv : h.segments.map (valueFor ev pfx) = vs.map some) :
    (constructPseudoEvidence n old h ev pfx).2 = (join vs).take (n - 1) ∧
    ((join vs).length < n → (constructPseudoEvidence n old h ev pfx).1 = (join vs).length) ∧
    (1 < n → join vs ≠ [] → 0 < (constructPseudoEvidence n old h ev pfx).1) := by
  unfold constructPseudoEvidence
  rw [if_neg hs]
  rcases hsg : h.segments with _ | ⟨seg, segs⟩
  · exact absurd hsg hs
  rw [hsg] at hv
  cases vs with
  | nil => simp at hv
  | cons v vs =>
    simp only [List.map_cons, List.cons.injEq] at hv
    simp only [show n ≠ 0 by omega, if_false, constructGo, getValue_eq, hv.1, ne_eq, not_true_eq_false,
      false_and, List.length_nil, Nat.sub_zero, List.nil_append, Nat.zero_add]
    rw [join_eq]
    have pre := joinAfter_prefix v vs
    by_cases ht : v.length ≥ n
    · rw [if_pos ht]
      refine ⟨?_, ?_, ?_⟩
      · obtain ⟨t, e⟩ := pre
        rw [← e, List.take_append_of_le_length (by omega)]; rfl
      · intro hl; have := pre.length_le; omega
      · intro _ _; simp only; omega
    · rw [if_neg ht]
      obtain ⟨h1, h2, h3⟩ := constructGo_present n ev pfx segs vs hv.2 1 (by omega) v (by omega)
      refine ⟨h1, h2, ?_⟩
      intro hn1 hne
      by_cases hv0 : v = []
      · subst hv0
        cases vs with
        | nil => exact absurd rfl hne
        | cons v' vs =>
          cases segs with
          | nil => simp at hv
          | cons seg' segs =>
            simp only [List.map_cons, List.cons.injEq] at hv
            simp only [constructGo, getValue_eq, hv.2.1]
            simp only [ne_eq, Nat.one_ne_zero, not_false_eq_true, List.length_nil, Nat.zero_add, hn1, and_self,
              if_true, List.nil_append, List.length_cons]
            split
            · simp only; omega
            · exact (constructGo_present n ev pfx segs vs hv.2.2 2 (by omega) ([SEP] ++ v')
                (by simp; omega)).2.2 (by simp)
      · exact h3 hv0

/-- C24: a header without segments gives no pseudo evidence and leaves the buffer alone. -/
theorem C24_construct_none (n : Nat) (old : CStr) (h : Header) (ev : List Pair) (pfx : Nat)
    (hs : h.segments = []) : constructPseudoEvidence n old h ev pfx = (0, old) := by
  rw [constructPseudoEvidence, if_pos hs]

/-- C24, no evidence when a segment has none: if some segment has no value and the values of the segments
before it fit in the buffer, nothing is constructed. Missing: when they do not fit, the missing segment goes
unnoticed (`C24_truncation_violated`). -/
theorem C24_construct_missing_partial (n : Nat) (hn : 0 < n) (old : CStr) (h : Header) (ev : List Pair)
    (pfx : Nat) (before rest : List CStr) (miss : CStr) (vs : List CStr)
    (hs : h.segments = before ++ miss :: rest) (hv : before.map (valueFor ev pfx) = vs.map some)
    (hm : valueFor ev pfx miss = none) (hl : (join vs).length < n) :
    constructPseudoEvidence n old h ev pfx = (0, []) := by
  unfold constructPseudoEvidence
  rw [if_neg (by rw [hs]; simp)]
  rw [hs]
  simp only [show n ≠ 0 by omega, if_false]
  cases before with
  | nil => simp [constructGo, getValue_eq, hm]
  | cons seg segs =>
    cases vs with
    | nil => simp at hv
    | cons v vs =>
      simp only [List.map_cons, List.cons.injEq] at hv
      rw [join_eq] at hl
      have := (joinAfter_prefix v vs).length_le
      simp only [List.cons_append, constructGo, getValue_eq, hv.1, ne_eq, not_true_eq_false, false_and,
        if_false, List.length_nil, Nat.sub_zero, List.nil_append, Nat.zero_add]
      rw [if_neg (by omega)]
      exact constructGo_missing n ev pfx segs rest vs miss hv.2 hm 1 (by omega) v hl

def exHeader : Header := ⟨c!"A\x1fB", [c!"A", c!"B"], true, 1⟩
def exEv : List Pair := [⟨1, c!"a", some c!"xy", none⟩, ⟨1, c!"B", some c!"z", none⟩]

example : constructPseudoEvidence 10 [] exHeader exEv 1 = (4, c!"xy\x1fz") := by decide
example : constructPseudoEvidence 4 [] exHeader exEv 1 = (4, c!"xy\x1f") := by decide

/-- C24 is violated: evidence is constructed although the second segment has no value, when the value of the
first one fills the buffer. -/
theorem C24_truncation_violated : ∃ (n : Nat) (h : Header) (ev : List Pair) (pfx : Nat) (s : CStr),
    0 < n ∧ s ∈ h.segments ∧ valueFor ev pfx s = none ∧ 0 < (constructPseudoEvidence n [] h ev pfx).1 :=
  ⟨3, exHeader, [⟨1, c!"A", some c!"xyz", none⟩], 1, c!"B", by decide, by decide, by decide, by decide⟩

/-! ## Adding for all headers -/

/-- Specification: all the values of a header's segments, if all exist. -/
def valuesFor (ev : List Pair) (pfx : Nat) : List CStr → Option (List CStr)
  | [] => some []
  | s :: ss => match valueFor ev pfx s, valuesFor ev pfx ss with
    | some v, some vs => some (v :: vs)
    | _, _ => none

/-- Specification: evidence for this very header was supplied under one of the prefixes. -/
def Supplied (ev : List Pair) (prefixes : List Nat) (name : CStr) : Prop :=
  ∃ p ∈ ev, p.pfx ∈ prefixes ∧ fold p.field = fold name

instance (ev prefixes name) : Decidable (Supplied ev prefixes name) := by unfold Supplied; infer_instance

/-- Specification: the pseudo evidence due for a header: under the first prefix for which all segments have
values (and not all text is empty), the joined values. -/
def due (ev : List Pair) (prefixes : List Nat) (h : Header) : Option (CStr × Nat × CStr) :=
  if SEP ∈ h.name ∧ ¬ Supplied ev prefixes h.name then
    prefixes.findSome? fun p =>
      match valuesFor ev p h.segments with
      | some vs => if join vs ≠ [] then some (h.name, p, join vs) else none
      | none => none
  else none

/-- What is visible of the pseudo evidence array: its first `count` items. -/
def visible (pa : PseudoArr) : List (Option CStr × Nat × Option CStr) :=
  (pa.slots.take pa.count).map fun s => (s.field, s.pfx, s.buf)

theorem present_iff (ev : List Pair) (h : Header) (prefixes : List Nat) :
    isEvidencePresentForHeader ev h prefixes = true ↔ Supplied ev prefixes h.name := by
  simp only [isEvidencePresentForHeader, List.any_eq_true, Bool.and_eq_true, beq_iff_eq, Supplied,
    List.contains_iff_mem, Str.C16_compare_zero_iff]
  constructor
  · rintro ⟨p, hp, ⟨h1, -⟩, h2⟩; exact ⟨p, hp, h1, h2.symm⟩
  · rintro ⟨p, hp, h1, h2⟩
    refine ⟨p, hp, ⟨h1, ?_⟩, h2.symm⟩
    have := congrArg List.length h2
    simpa [fold] using this

theorem valuesFor_some {ev : List Pair} {pfx : Nat} {segs vs : List CStr} (h : valuesFor ev pfx segs = some vs) :
    segs.map (valueFor ev pfx) = vs.map some := by
  induction segs generalizing vs with
  | nil => simp [valuesFor] at h; subst h; rfl
  | cons s ss ih =>
    simp only [valuesFor] at h
    rcases h1 : valueFor ev pfx s with _ | v
    · simp [h1] at h
    · rcases h2 : valuesFor ev pfx ss with _ | vs'
      · simp [h1, h2] at h
      · simp [h1, h2] at h; subst h
        simp [h1, ih h2]

theorem valuesFor_none {ev : List Pair} {pfx : Nat} {segs : List CStr} (h : valuesFor ev pfx segs = none) :
    ∃ (before : List CStr) (miss : CStr) (rest vs : List CStr), segs = before ++ miss :: rest ∧ before.map (valueFor ev pfx) = vs.map some ∧
      valueFor ev pfx miss = none := by
  induction segs with
  | nil => simp [valuesFor] at h
  | cons s ss ih =>
    rcases h1 : valueFor ev pfx s with _ | v
    · exact ⟨[], s, ss, [], rfl, rfl, h1⟩
    · rcases h2 : valuesFor ev pfx ss with _ | vs'
      · obtain ⟨b, m, r, vs, e, hv, hm⟩ := ih h2
        exact ⟨s :: b, m, r, v :: vs, by simp [e], by simp [h1, hv], hm⟩
      · simp [valuesFor, h1, h2] at h

/-- The texts fit: for every prefix, any values of leading segments joined are shorter than the buffer. -/
def Fits (n : Nat) (ev : List Pair) (prefixes : List Nat) (h : Header) : Prop :=
  ∀ p ∈ prefixes, ∀ before rest vs, h.segments = before ++ rest →
    before.map (valueFor ev p) = vs.map some → (join vs).length < n

theorem addForHeader_spec (n : Nat) (hn : 1 < n) (ev : List Pair) (h : Header) (hseg : h.segments ≠ [])
    (prefixes : List Nat) (hf : Fits n ev prefixes h) (buf : CStr) (pa : PseudoArr)
    (hc : pa.count < pa.slots.length) :
    let found := prefixes.findSome? fun p =>
      match valuesFor ev p h.segments with
      | some vs => if join vs ≠ [] then some (h.name, p, join vs) else none
      | none => none
    let r := addForHeader n ev h prefixes buf pa
    r.slots.length = pa.slots.length ∧ r.count ≤ pa.slots.length ∧ (r.slots.map fun s => s.buf.isSome) = (pa.slots.set pa.count ⟨none, 0, some []⟩).map (fun s => s.buf.isSome) ∧
    visible r = visible pa ++ (found.map fun f => (some f.1, f.2.1, some f.2.2)).toList ∧
    (r.count = pa.count + found.toList.length) := by
  induction prefixes generalizing buf with
  | nil =>
    simp only [addForHeader, List.findSome?_nil, visible, Option.map_none, Option.toList_none,
      List.append_nil, List.length_nil, Nat.add_zero, and_true, List.length_modify]
    refine ⟨trivial, by omega, ?_, ?_⟩
    · apply List.ext_getElem?
      intro i
      simp only [List.getElem?_map, List.getElem?_modify, List.getElem?_set]
      by_cases hi : pa.count = i
      · subst hi; simp [hc]
      · simp [hi]
    · congr 1
      apply List.ext_getElem?
      intro i
      simp only [List.getElem?_take, List.getElem?_modify]
      split
      · have : pa.count ≠ i := by omega
        simp [this]
      · rfl
  | cons p ps ih =>
    have hfp := hf p (by simp)
    have ih := ih (fun q hq => hf q (by simp [hq]))
    simp only [addForHeader, List.findSome?_cons]
    have miss : ∀ b, (constructPseudoEvidence n buf h ev p).1 = 0 → b = (constructPseudoEvidence n buf h ev p).2 →
      (if (constructPseudoEvidence n buf h ev p).1 > 0 then
        ({ slots := pa.slots.set pa.count ⟨some h.name, p, some b⟩, count := pa.count + 1 } : PseudoArr)
        else addForHeader n ev h ps b pa) = addForHeader n ev h ps b pa := by
      intro b h0 _; rw [h0]; simp
    rcases hvf : valuesFor ev p h.segments with _ | vs
    · obtain ⟨before, m, rest, vs, e, hv, hm⟩ := valuesFor_none hvf
      have := C24_construct_missing_partial n (by omega) buf h ev p before rest m vs e hv hm
        (hfp before (m :: rest) vs e hv)
      simp only [this, Nat.lt_irrefl, if_false]
      exact ih []
    · have hv := valuesFor_some hvf
      obtain ⟨h1, h2, h3⟩ := C24_construct_present n (by omega) buf h ev p vs hseg hv
      have hlen := hfp h.segments [] vs (by simp) hv
      have h2 := h2 hlen
      rw [List.take_of_length_le (by omega)] at h1
      by_cases hj : join vs = []
      · rw [hj] at h2
        simp only [h2, List.length_nil, Nat.lt_irrefl, if_false, hj, ne_eq, not_true_eq_false]
        exact ih _
      · have hpos := List.length_pos_iff.mpr hj
        rw [h2, if_pos hpos, h1]
        simp only [ne_eq, hj, not_false_eq_true, if_true, List.length_set, Option.map_some, Option.toList_some,
          List.length_cons, List.length_nil, visible]
        refine ⟨trivial, by omega, ?_, ?_, trivial⟩
        · apply List.ext_getElem?
          intro i
          simp only [List.getElem?_map, List.getElem?_set]
          by_cases hi : pa.count = i
          · subst hi; simp [hc]
          · simp [hi]
        · have : pa.slots.set pa.count ⟨some h.name, p, some (join vs)⟩ =
              pa.slots.take pa.count ++ ⟨some h.name, p, some (join vs)⟩ :: pa.slots.drop (pa.count + 1) := by
            rw [List.set_eq_take_append_cons_drop, if_pos hc]
          rw [this]
          have hl : (pa.slots.take pa.count).length = pa.count := by simp; omega
          rw [List.take_append, hl, List.take_of_length_le (by omega)]
          simp

/-- C24: with a buffer for every pseudo header and values that fit, adding pseudo evidence is well defined and appends, in header
order, exactly what is due: for each header containing a separator and not itself supplied, the join of its segments' values
under the first prefix that has them all. Missing: values that do not fit, see `C24_truncation_violated`. -/
theorem C24_addEvidence_partial (n : Nat) (hn : 1 < n) (ev : List Pair) (prefixes : List Nat) (hs : List Header)
    (hseg : ∀ h ∈ hs, h.segments ≠ []) (hfit : ∀ h ∈ hs, Fits n ev prefixes h) (pa : PseudoArr)
    (hbuf : ∀ s ∈ pa.slots, s.buf.isSome = true)
    (hcap : pa.count + (hs.filter fun h => isPseudo h.name).length ≤ pa.slots.length) :
    ∃ pa', addEvidence n ev prefixes hs pa = some pa' ∧
      visible pa' = visible pa ++ (hs.filterMap (due ev prefixes)).map (fun f => (some f.1, f.2.1, some f.2.2)) ∧
      pa'.slots.length = pa.slots.length := by
  induction hs generalizing pa with
  | nil => exact ⟨pa, rfl, by simp, rfl⟩
  | cons h hs ih =>
    have ih := ih (fun x hx => hseg x (by simp [hx])) (fun x hx => hfit x (by simp [hx]))
    simp only [addEvidence]
    have hps : isPseudo h.name = true ↔ SEP ∈ h.name := by simp [isPseudo]
    by_cases hp : isPseudo h.name = true
    · rw [if_pos hp]
      have hcap' : pa.count + (hs.filter fun h => isPseudo h.name).length + 1 ≤ pa.slots.length := by
        simp only [List.filter_cons, hp, if_true, List.length_cons] at hcap; omega
      by_cases hs' : Supplied ev prefixes h.name
      · rw [(present_iff ev h prefixes).mpr hs', if_neg (by simp)]
        obtain ⟨pa', e, v, l⟩ := ih pa hbuf (by omega)
        refine ⟨pa', e, ?_, l⟩
        have : due ev prefixes h = none := by simp [due, hs']
        rw [v, List.filterMap_cons, this]
      · have hpf : isEvidencePresentForHeader ev h prefixes = false := by
          have := mt (present_iff ev h prefixes).mp hs'
          simpa using this
        rw [hpf, if_pos rfl]
        have hget : pa.slots[pa.count]? = some pa.slots[pa.count] := List.getElem?_eq_getElem (by omega)
        rw [hget]
        have hb := hbuf pa.slots[pa.count] (List.getElem_mem _)
        obtain ⟨buf, hb⟩ := Option.isSome_iff_exists.mp hb
        simp only [hb]
        obtain ⟨a1, a2, a3, a4, a5⟩ := addForHeader_spec n hn ev h (hseg h (by simp)) prefixes
          (hfit h (by simp)) buf pa (by omega)
        have hdue : due ev prefixes h = prefixes.findSome? fun p =>
            match valuesFor ev p h.segments with
            | some vs => if join vs ≠ [] then some (h.name, p, join vs) else none
            | none => none := by
          unfold due; rw [if_pos ⟨hps.mp hp, hs'⟩]
        rw [← hdue] at a4 a5
        have hb' : ∀ s ∈ (addForHeader n ev h prefixes buf pa).slots, s.buf.isSome = true := by
          intro s hs
          have : s.buf.isSome ∈ (addForHeader n ev h prefixes buf pa).slots.map fun s => s.buf.isSome :=
            List.mem_map_of_mem hs
          rw [a3] at this
          obtain ⟨t, ht, e⟩ := List.mem_map.mp this
          rw [← e]
          rcases List.mem_or_eq_of_mem_set ht with h | h
          · exact hbuf t h
          · subst h; rfl
        have hle : (due ev prefixes h).toList.length ≤ 1 := by cases due ev prefixes h <;> simp
        obtain ⟨pa', e, v, l⟩ := ih (addForHeader n ev h prefixes buf pa) hb' (by rw [a1, a5]; omega)
        refine ⟨pa', e, ?_, by rw [l, a1]⟩
        rw [v, a4, List.filterMap_cons]
        cases due ev prefixes h <;> simp
    · rw [if_neg hp]
      have hcap' : pa.count + (hs.filter fun h => isPseudo h.name).length ≤ pa.slots.length := by
        simp only [List.filter_cons, hp] at hcap; simpa using hcap
      obtain ⟨pa', e, v, l⟩ := ih pa hbuf hcap'
      refine ⟨pa', e, ?_, l⟩
      have : due ev prefixes h = none := by
        unfold due; rw [if_neg (fun hh => hp (hps.mpr hh.1))]
      rw [v, List.filterMap_cons, this]

example : addEvidence 10 exEv [8, 1] [exHeader] ⟨[⟨none, 0, some []⟩], 0⟩ =
    some ⟨[⟨some c!"A\x1fB", 1, some c!"xy\x1fz"⟩], 1⟩ := by decide
example : due exEv [8, 1] exHeader = some (c!"A\x1fB", 1, c!"xy\x1fz") := by decide

/-- C24: removing pseudo evidence leaves none visible, and no name or text of the request in the array; the buffers are
kept, so they can be used again, and the items not used are as they were. -/
theorem C24_remove (pa : PseudoArr) :
    visible (removeEvidence pa) = [] ∧ (removeEvidence pa).slots.length = pa.slots.length ∧
    (removeEvidence pa).slots.map (fun s => s.buf.isSome) = pa.slots.map (fun s => s.buf.isSome) ∧
    ∀ i s, (removeEvidence pa).slots[i]? = some s →
      if i < pa.count then s.field = none ∧ (s.buf = none ∨ s.buf = some []) else pa.slots[i]? = some s := by
  refine ⟨by simp [visible, removeEvidence], by simp [removeEvidence], ?_, ?_⟩
  · apply List.ext_getElem?
    intro i
    simp only [removeEvidence, List.getElem?_map, List.getElem?_mapIdx, Option.map_map]
    congr 1
    funext s
    simp only [Function.comp]
    split <;> simp
  · intro i s h
    simp only [removeEvidence, List.getElem?_mapIdx, Option.map_eq_some_iff] at h
    obtain ⟨t, ht, rfl⟩ := h
    by_cases hi : i < pa.count
    · simp only [hi, if_true]
      cases t.buf <;> simp
    · simp only [hi, if_false]
      exact ht

example : removeEvidence ⟨[⟨some c!"A", 1, some c!"x"⟩, ⟨some c!"B", 1, some c!"y"⟩, ⟨none, 0, some c!"z"⟩], 2⟩ =
    ⟨[⟨none, 1, some []⟩, ⟨none, 1, some []⟩, ⟨none, 0, some c!"z"⟩], 0⟩ := by decide

/-- C24: adding after removing gives the same as adding to fresh evidence: nothing of an earlier request survives. Missing: values
that do not fit, see `C24_truncation_violated`. -/
theorem C24_remove_add_partial (n : Nat) (hn : 1 < n) (ev : List Pair) (prefixes : List Nat) (hs : List Header)
    (hseg : ∀ h ∈ hs, h.segments ≠ []) (hfit : ∀ h ∈ hs, Fits n ev prefixes h) (pa : PseudoArr)
    (hbuf : ∀ s ∈ pa.slots, s.buf.isSome = true)
    (hcap : (hs.filter fun h => isPseudo h.name).length ≤ pa.slots.length) :
    ∃ pa', addEvidence n ev prefixes hs (removeEvidence pa) = some pa' ∧
      visible pa' = (hs.filterMap (due ev prefixes)).map (fun f => (some f.1, f.2.1, some f.2.2)) := by
  obtain ⟨r1, r2, r3, -⟩ := C24_remove pa
  obtain ⟨pa', e, v, -⟩ := C24_addEvidence_partial n hn ev prefixes hs hseg hfit (removeEvidence pa) (by
    intro s hs
    have : s.buf.isSome ∈ (removeEvidence pa).slots.map fun s => s.buf.isSome := List.mem_map_of_mem hs
    rw [r3] at this
    obtain ⟨t, ht, e⟩ := List.mem_map.mp this
    rw [← e]; exact hbuf t ht) (by rw [r2]; simpa [removeEvidence] using hcap)
  exact ⟨pa', e, by rw [v, r1]; simp⟩

/-- C24: a pseudo evidence array sized by the count kept with the headers is large enough when all data set names are well formed.
Missing: other names, see `C24_capacity_violated`. -/
theorem C24_capacity_partial (up : Bool) (ds : List (CStr × Nat)) (hs : Headers.Headers)
    (h : Headers.create up ds = some (some hs)) (hwf : ∀ d ∈ ds, Headers.WellFormed d.1) :
    (hs.items.filter fun h => isPseudo h.name).length = hs.pseudoCount := by
  obtain ⟨hs', e, good, -, hc⟩ := Headers.C22_create up ds _ h
  cases e
  rw [hc]
  congr 1
  apply List.filter_congr
  intro x hx
  have hps : isPseudo x.name = true ↔ SEP ∈ x.name := by simp [isPseudo]
  have hne : x.name ≠ [] := by
    intro e; apply (good.split x hx).2; rw [(good.split x hx).1, e]; decide
  rw [Bool.eq_iff_iff, hps, decide_eq_true_eq]
  constructor
  · intro hsep
    rcases good.sound x hx with ⟨-, hd⟩ | ⟨-, -, d, hd, hp⟩
    · exact hwf _ hd hsep
    · exact absurd hsep ((Headers.C22_pieces_spec d.1 []).1 _ hp).2
  · intro hl
    apply Classical.byContradiction
    intro hno
    rw [(Headers.C22_pieces_spec x.name []).2.2 hne hno] at hl
    simp at hl

/-- C24 is violated: a data set with the header names `"A\x1F"` and `"A"` gives headers for which the pseudo
header count is 0, so an evidence array sized by it is read out of bounds. -/
theorem C24_capacity_violated : ∃ ds hs, Headers.create false ds = some (some hs) ∧
    addEvidence 10 [] [1] hs.items ⟨List.replicate hs.pseudoCount ⟨none, 0, some []⟩, 0⟩ = none :=
  ⟨[(c!"A\x1f", 1), (c!"A", 2)],
    ⟨[⟨c!"A\x1f", [c!"A"], true, 1⟩, ⟨c!"A", [c!"A"], true, 2⟩], 2, false, 0⟩, by decide, by decide⟩

end Verif.Pseudo
