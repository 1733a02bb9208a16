import Verif.Headers.Model
import Verif.Str.Props

namespace Verif.Headers
open Verif.Str (fold)

/-- Specification: the text between separators, empty pieces included. -/
def splitSep : CStr → List CStr
  | [] => [[]]
  | c :: cs =>
    if c = SEP then [] :: splitSep cs
    else match splitSep cs with
      | [] => [[c]]
      | p :: ps => (c :: p) :: ps

/-- Specification: the non-empty pieces of a name. -/
def pieces (s : CStr) : List CStr := (splitSep s).filter (· ≠ [])

theorem splitSep_ne_nil (s : CStr) : splitSep s ≠ [] := by
  cases s with
  | nil => simp [splitSep]
  | cons c cs => 
    simp only [splitSep]
    split
    · simp
    · split <;> simp

/-- the first piece with `seg` put in front of it -/
def withFront (seg : CStr) : List CStr → List CStr
  | [] => [seg]
  | p :: ps => (seg ++ p) :: ps

theorem withFront_nil {l : List CStr} (h : l ≠ []) : withFront [] l = l := by
  cases l <;> simp_all [withFront]

theorem splitSep_cons_ne {c : UInt8} (h : c ≠ SEP) (cs : CStr) :
    splitSep (c :: cs) = withFront [c] (splitSep cs) := by
  simp only [splitSep, h, if_false]
  rcases hs : splitSep cs with _ | ⟨p, ps⟩ <;> simp [withFront]

theorem withFront_withFront (a b : CStr) {l : List CStr} (h : l ≠ []) :
    withFront a (withFront b l) = withFront (a ++ b) l := by
  cases l <;> simp_all [withFront]

/-- Pieces when `seg` has already been read. -/
def piecesFrom (seg s : CStr) : List CStr := (withFront seg (splitSep s)).filter (· ≠ [])

theorem piecesFrom_nil (s : CStr) : piecesFrom [] s = pieces s := by
  rw [piecesFrom, withFront_nil (splitSep_ne_nil s), pieces]

theorem piecesFrom_sep (seg cs : CStr) :
    piecesFrom seg (SEP :: cs) = (if seg ≠ [] then [seg] else []) ++ pieces cs := by
  simp only [piecesFrom, splitSep, if_true, withFront, List.append_nil, pieces]
  by_cases h : seg = [] <;> simp [h]

theorem piecesFrom_ne {c : UInt8} (h : c ≠ SEP) (seg cs : CStr) :
    piecesFrom seg (c :: cs) = piecesFrom (seg ++ [c]) cs := by
  rw [piecesFrom, splitSep_cons_ne h, withFront_withFront _ _ (splitSep_ne_nil cs), piecesFrom]

theorem piecesFrom_end (seg : CStr) : piecesFrom seg [] = if seg ≠ [] then [seg] else [] := by
  simp only [piecesFrom, splitSep, withFront, List.append_nil]
  by_cases h : seg = [] <;> simp [h]

theorem segGo_eq (cap : Nat) (cs seg : CStr) (segs : List CStr)
    (h : segs.length + (piecesFrom seg cs).length ≤ cap) :
    segGo cap cs seg segs = some (segs ++ piecesFrom seg cs) := by
  induction cs generalizing seg segs with
  | nil =>
    rw [piecesFrom_end] at h ⊢
    simp only [segGo]
    by_cases hs : seg = []
    · simp [hs]
    · simp only [hs, ne_eq, not_false_eq_true, if_true, List.length_cons, List.length_nil] at h ⊢
      rw [if_neg (by omega)]
  | cons c cs ih =>
    simp only [segGo]
    by_cases hc : c = SEP
    · subst hc
      rw [piecesFrom_sep] at h ⊢
      simp only [if_true]
      by_cases hs : seg = []
      · simp only [hs, ne_eq, not_true_eq_false, if_false, List.nil_append] at h ⊢
        rw [ih _ _ (by rw [piecesFrom_nil]; exact h), piecesFrom_nil]
      · simp only [hs, ne_eq, not_false_eq_true, if_true] at h ⊢
        simp only [List.length_append, List.length_cons, List.length_nil] at h
        rw [if_neg (by omega), ih _ _ (by rw [piecesFrom_nil]; simp; omega), piecesFrom_nil]
        simp
    · simp only [hc, if_false]
      rw [piecesFrom_ne hc] at h ⊢
      exact ih _ _ h

theorem countGo_eq (seg cs : CStr) (hseg : SEP ∉ seg) (last : UInt8)
    (hl : last ≠ SEP ↔ seg ≠ []) : countGo last cs = (piecesFrom seg cs).length := by
  induction cs generalizing seg last with
  | nil =>
    rw [piecesFrom_end]; simp only [countGo, hl]; split <;> simp
  | cons c cs ih =>
    simp only [countGo]
    by_cases hc : c = SEP
    · subst hc
      rw [piecesFrom_sep, ← piecesFrom_nil, ih [] (by simp) SEP (by simp)]
      simp only [hl, true_and]
      by_cases hs : seg = [] <;> simp [hs]
      omega
    · rw [piecesFrom_ne hc, ih (seg ++ [c]) (by simp [hseg]; exact fun h => hc h.symm) c (by simp [hc])]
      simp [hc]

theorem count_eq {name : CStr} (h : name ≠ []) : countHeaderSegments name = (pieces name).length := by
  cases name with
  | nil => exact absurd rfl h
  | cons c cs =>
    simp only [countHeaderSegments, List.headD_cons, countGo]
    by_cases hc : c = SEP
    · subst hc
      rw [← piecesFrom_nil, piecesFrom_sep, ← piecesFrom_nil, countGo_eq [] cs (by simp) SEP (by simp)]
      simp
    · rw [← piecesFrom_nil, piecesFrom_ne hc, List.nil_append,
        countGo_eq [c] cs (by simp; exact fun h => hc h.symm) c (by simp [hc])]
      simp [hc]

theorem createSegmentArray_eq (name : CStr) : createSegmentArray name = some (pieces name) := by
  unfold createSegmentArray
  rw [segGo_eq, piecesFrom_nil, List.nil_append]
  rw [piecesFrom_nil]
  by_cases h : name = []
  · subst h; simp [pieces, splitSep]
  · rw [count_eq h]; simp

theorem compare_full (a b r : CStr) (h : b.length = a.length) :
    ∃ d, Str.compareLength (a ++ r) (b ++ [0]) a.length = some d ∧ (d = 0 ↔ fold a = fold b) := by
  obtain ⟨d, h1, h2⟩ := Str.C16_compareLength_zero_iff (a ++ r) (b ++ [0]) a.length (by simp) (by simp; omega)
  refine ⟨d, h1, ?_⟩
  rw [h2, List.take_left, ← h, List.take_left]

theorem getHeaderIndexFrom_eq (a r : CStr) (i : Nat) (hs : List Header) :
    getHeaderIndexFrom (a ++ r) a.length i hs =
      some ((hs.findIdx? fun h => fold h.name = fold a).map (· + i)) := by
  induction hs generalizing i with
  | nil => simp [getHeaderIndexFrom]
  | cons h hs ih =>
    simp only [getHeaderIndexFrom, List.findIdx?_cons]
    by_cases hl : h.name.length = a.length
    · obtain ⟨d, h1, h2⟩ := compare_full a h.name r hl
      simp only [hl, if_true, h1]
      by_cases hd : d = 0
      · have := h2.mp hd
        simp [hd, this]
      · have : ¬ fold h.name = fold a := fun e => hd (h2.mpr e.symm)
        simp only [hd, if_false, this, ih, decide_false, Bool.false_eq_true]
        congr 1
        simp [Option.map_map, Function.comp_def, Nat.add_comm, Nat.add_left_comm]
    · have : ¬ fold h.name = fold a := by
        intro e; apply hl
        have := congrArg List.length e
        simpa [fold] using this
      simp only [hl, if_false, this, ih, decide_false, Bool.false_eq_true]
      congr 1
      simp [Option.map_map, Function.comp_def, Nat.add_comm, Nat.add_left_comm]

theorem getHeaderIndex_eq (hs : List Header) (a r : CStr) :
    getHeaderIndex hs (a ++ r) a.length = some (hs.findIdx? fun h => fold h.name = fold a) := by
  rw [getHeaderIndex, getHeaderIndexFrom_eq]; simp

/-- Is there a header of this name, ignoring case? -/
def Has (hs : List Header) (a : CStr) : Prop := ∃ h ∈ hs, fold h.name = fold a

theorem findIdx_none_iff (hs : List Header) (a : CStr) :
    (hs.findIdx? fun h => fold h.name = fold a) = none ↔ ¬ Has hs a := by
  simp [List.findIdx?_eq_none_iff, Has]

theorem has_of_findIdx_some {hs : List Header} {a : CStr} {i : Nat}
    (h : (hs.findIdx? fun h => fold h.name = fold a) = some i) : Has hs a := by
  apply Classical.byContradiction
  intro hn
  rw [(findIdx_none_iff hs a).mpr hn] at h
  cases h

end Verif.Headers
