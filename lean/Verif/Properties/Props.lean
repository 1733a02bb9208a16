import Verif.Properties.Model
import Verif.Str.Props
import Mathlib.Data.List.Nodup

/-! # C27, C28, C48: available properties -/

namespace Verif.Properties
open Verif.Str (fold DictLt)

/-! ## Comparison -/

/-- Lower-cased bytes as numbers 0 to 255. -/
def ukeys (s : CStr) : List Int := s.map fun c => ((toLower c).toNat : Int)

theorem lower_eq {x y : UInt8} : ((toLower x).toNat : Int) - (toLower y).toNat = 0 ↔ toLower x = toLower y := by
  rw [← UInt8.toNat_inj]; omega

theorem stricmp_zero_iff (a b : CStr) : stricmp a b = 0 ↔ fold a = fold b := by
  induction a generalizing b with
  | nil => cases b <;> simp [stricmp, fold]
  | cons x a ih =>
    cases b with
    | nil => simp [stricmp, fold]
    | cons y b =>
      simp only [stricmp, fold, List.map_cons, List.cons.injEq]
      have := ih b
      simp only [fold] at this
      rw [← this, ← lower_eq]
      split
      · constructor
        · intro h; omega
        · intro h; omega
      · constructor
        · intro h; exact ⟨by omega, h⟩
        · intro h; exact h.2

theorem stricmp_neg_iff (a b : CStr) : stricmp a b < 0 ↔ DictLt (ukeys a) (ukeys b) := by
  induction a generalizing b with
  | nil =>
    cases b with
    | nil => simp [stricmp, ukeys]; intro h; cases h
    | cons y b => simp [stricmp, ukeys]; exact .nil
  | cons x a ih =>
    cases b with
    | nil => simp [stricmp, ukeys]; intro h; cases h
    | cons y b =>
      simp only [stricmp, ukeys, List.map_cons]
      have := ih b
      simp only [ukeys] at this
      split
      · constructor
        · intro h; exact .head (by omega)
        · intro h
          rcases DictLt.cons_inv h with h | h <;> omega
      · rw [this]
        have e : ((toLower x).toNat : Int) = (toLower y).toNat := by omega
        constructor
        · rw [e]; exact .tail
        · intro h
          rcases DictLt.cons_inv h with h | h
          · omega
          · exact h.2

theorem stricmp_swap (a b : CStr) : (stricmp a b).sign = - (stricmp b a).sign := by
  induction a generalizing b with
  | nil => cases b <;> simp [stricmp]
  | cons x a ih =>
    cases b with
    | nil => simp [stricmp]
    | cons y b =>
      simp only [stricmp]
      split
      · rw [if_pos (by omega), ← Int.sign_neg]; congr 1; omega
      · rw [if_neg (by omega)]; exact ih b

theorem ukeys_eq_iff {a b : CStr} : ukeys a = ukeys b ↔ fold a = fold b := by
  induction a generalizing b with
  | nil => cases b <;> simp [ukeys, fold]
  | cons x a ih => cases b with
    | nil => simp [ukeys, fold]
    | cons y b =>
      have := @ih b
      simp only [ukeys, fold] at this
      have e : ((toLower x).toNat : Int) = (toLower y).toNat ↔ toLower x = toLower y := by
        rw [← lower_eq]; omega
      simp only [ukeys, fold, List.map_cons, List.cons.injEq, this, e]

theorem stricmp_trans (a b c : CStr) (h : stricmp a b ≤ 0) (h' : stricmp b c ≤ 0) : stricmp a c ≤ 0 := by
  rcases Int.lt_or_eq_of_le h with h | h <;> rcases Int.lt_or_eq_of_le h' with h' | h'
  · rw [stricmp_neg_iff] at h h'
    have := (stricmp_neg_iff a c).mpr (h.trans h'); omega
  · rw [stricmp_neg_iff] at h
    rw [stricmp_zero_iff, ← ukeys_eq_iff] at h'
    rw [h'] at h
    have := (stricmp_neg_iff a c).mpr h; omega
  · rw [stricmp_neg_iff] at h'
    rw [stricmp_zero_iff, ← ukeys_eq_iff] at h
    rw [← h] at h'
    have := (stricmp_neg_iff a c).mpr h'; omega
  · rw [stricmp_zero_iff] at h h'
    have := (stricmp_zero_iff a c).mpr (h.trans h'); omega

theorem strnicmp_zero_iff (a b : CStr) (h : a.length = b.length) : strnicmp b.length a b = 0 ↔ fold a = fold b := by
  induction a generalizing b with
  | nil => cases b with
    | nil => simp [strnicmp]
    | cons y b => simp at h
  | cons x a ih =>
    cases b with
    | nil => simp at h
    | cons y b =>
      simp only [List.length_cons, strnicmp, fold, List.map_cons, List.cons.injEq]
      have := ih b (by simpa using h)
      simp only [fold] at this
      rw [← this, ← lower_eq]
      split
      · constructor
        · intro h; omega
        · intro h; omega
      · constructor
        · intro h; exact ⟨by omega, h⟩
        · intro h; exact h.2

theorem match_iff (name w : CStr) :
    (name.length = w.length ∧ strnicmp w.length name w = 0) ↔ fold name = fold w := by
  constructor
  · rintro ⟨h1, h2⟩; exact (strnicmp_zero_iff name w h1).mp h2
  · intro h
    have hl : name.length = w.length := by simpa [fold] using congrArg List.length h
    exact ⟨hl, (strnicmp_zero_iff name w hl).mpr h⟩

/-! ## Sorting -/

/-- What the C standard says of `qsort` with this comparison: a rearrangement in ascending order. -/
def IsQsort (q : List Avail → List Avail) : Prop :=
  ∀ l, (q l).Perm l ∧ (q l).Pairwise fun a b => stricmp a.name b.name ≤ 0

/-- There is such a sort. -/
def sort (l : List Avail) : List Avail := l.mergeSort fun a b => stricmp a.name b.name ≤ 0

theorem sort_isQsort : IsQsort sort := by
  intro l
  refine ⟨List.mergeSort_perm _ _, ?_⟩
  have := List.pairwise_mergeSort (le := fun a b : Avail => decide (stricmp a.name b.name ≤ 0))
    (fun a b c h h' => by simp only [decide_eq_true_eq] at *; exact stricmp_trans _ _ _ h h')
    (fun a b => by
      simp only [Bool.or_eq_true, decide_eq_true_eq]
      have := stricmp_swap a.name b.name
      by_cases h : stricmp a.name b.name ≤ 0
      · exact .inl h
      · right
        have h1 : (stricmp a.name b.name).sign = 1 := Int.sign_eq_one_iff_pos.mpr (by omega)
        have h2 : (stricmp b.name a.name).sign = -1 := by omega
        have := Int.sign_eq_neg_one_iff_neg.mp h2
        omega) l
  exact this.imp (by intro a b h; simpa using h)

/-! ## C27 -/

theorem getPropertyIndexFrom_some (w : CStr) (i k : Nat) (names : List CStr) :
    getPropertyIndexFrom w i names = some k ↔
      ∃ j name, k = i + j ∧ names[j]? = some name ∧ fold name = fold w ∧
        ∀ j' < j, ∀ n', names[j']? = some n' → fold n' ≠ fold w := by
  induction names generalizing i with
  | nil => simp [getPropertyIndexFrom]
  | cons name rest ih =>
    simp only [getPropertyIndexFrom, match_iff]
    by_cases h : fold name = fold w
    · simp only [h, if_true, Option.some.injEq]
      constructor
      · rintro rfl; exact ⟨0, name, by simp, by simp, h, by simp⟩
      · rintro ⟨j, n, h1, h2, h3, h4⟩
        cases j with
        | zero => omega
        | succ j => exact absurd h (h4 0 (by omega) name (by simp))
    · simp only [h, if_false, ih]
      constructor
      · rintro ⟨j, n, h1, h2, h3, h4⟩
        refine ⟨j + 1, n, by omega, by simpa using h2, h3, ?_⟩
        intro j' hj' n' hn'
        cases j' with
        | zero => simp at hn'; subst hn'; exact h
        | succ j' => exact h4 j' (by omega) n' (by simpa using hn')
      · rintro ⟨j, n, h1, h2, h3, h4⟩
        cases j with
        | zero => simp at h2; subst h2; exact absurd h3 h
        | succ j =>
          refine ⟨j, n, by omega, by simpa using h2, h3, ?_⟩
          intro j' hj' n' hn'
          exact h4 (j' + 1) (by omega) n' (by simpa using hn')

/-- Names of a data set are told apart ignoring case. -/
def Distinct (names : List CStr) : Prop := names.Pairwise fun a b => fold a ≠ fold b

theorem Distinct.unique {names : List CStr} (h : Distinct names) {i j : Nat} {a b : CStr}
    (hi : names[i]? = some a) (hj : names[j]? = some b) (he : fold a = fold b) : i = j := by
  obtain ⟨hi1, hi2⟩ := List.getElem?_eq_some_iff.mp hi
  obtain ⟨hj1, hj2⟩ := List.getElem?_eq_some_iff.mp hj
  have hp := List.pairwise_iff_getElem.mp h
  rcases Nat.lt_trichotomy i j with hlt | heq | hgt
  · exact absurd (hi2 ▸ hj2 ▸ he) (hp i j hi1 hj1 hlt)
  · exact heq
  · exact absurd (hi2 ▸ hj2 ▸ he.symm) (hp j i hj1 hi1 hgt)

theorem getPropertyIndex_iff {names : List CStr} (h : Distinct names) (w : CStr) (i : Nat) :
    getPropertyIndex names w = some i ↔ ∃ name, names[i]? = some name ∧ fold name = fold w := by
  rw [getPropertyIndex, getPropertyIndexFrom_some]
  constructor
  · rintro ⟨j, name, rfl, h2, h3, -⟩; exact ⟨name, by simpa using h2, h3⟩
  · rintro ⟨name, h1, h2⟩
    refine ⟨i, name, by omega, h1, h2, ?_⟩
    intro j hj n hn he
    have := h.unique hn h1 (he.trans h2.symm)
    omega

/-- The words of a request string: the text between separators. -/
def words : CStr → List CStr
  | [] => [[]]
  | c :: cs =>
    if c = 124 ∨ c = 44 ∨ c = 32 then [] :: words cs
    else match words cs with
      | [] => [[c]]
      | w :: ws => (c :: w) :: ws

/-- Whether a request asks for a name. -/
def Requested : Request → CStr → Prop
  | .all, _ => True
  | .existing l, n => ∃ w ∈ l, fold w = fold n
  | .array l, n => l = [] ∨ ∃ w ∈ l, fold w = fold n
  | .string s, n => s = [] ∨ ∃ w ∈ words s, fold w = fold n

theorem words_ne_nil (s : CStr) : words s ≠ [] := by
  cases s with
  | nil => simp [words]
  | cons c cs =>
    simp only [words]
    split
    · simp
    · split <;> simp

theorem iterateFromString_eq (names : List CStr) (p s : CStr) :
    iterateFromString names p s =
      match words s with | [] => [] | w :: ws => iterateFromList names ((p ++ w) :: ws) := by
  induction s generalizing p with
  | nil => simp [iterateFromString, words, iterateFromList]
  | cons c cs ih =>
    have hsep : isSeparator c = true ↔ (c = 124 ∨ c = 44 ∨ c = 32) := by
      simp [isSeparator, or_assoc]
    rcases hw : words cs with _ | ⟨w, ws⟩
    · exact absurd hw (words_ne_nil _)
    · by_cases hc : c = 124 ∨ c = 44 ∨ c = 32
      · simp only [iterateFromString, hsep.mpr hc, if_true, ih, hw, words, hc, iterateFromList, List.nil_append,
          List.append_nil]
      · have hn : isSeparator c = false := by simpa using mt hsep.mp hc
        simp only [iterateFromString, hn, Bool.false_eq_true, if_false, ih, hw, words, hc, List.append_assoc,
          List.cons_append, List.nil_append]

theorem mem_iterateFromList (names l : List CStr) (i : Nat) :
    i ∈ iterateFromList names l ↔ ∃ w ∈ l, getPropertyIndex names w = some i := by
  induction l with
  | nil => simp [iterateFromList]
  | cons w l ih =>
    simp only [iterateFromList, List.mem_append, ih, Option.mem_toList, List.mem_cons, exists_eq_or_imp,
      Option.mem_def]

theorem foldl_add (l av : List Nat) (hn : av.Nodup) :
    (l.foldl addRequired av).Nodup ∧ (∀ i, i ∈ l.foldl addRequired av ↔ i ∈ av ∨ i ∈ l) ∧
      (l.foldl addRequired av).length ≤ av.length + l.length := by
  induction l generalizing av with
  | nil => simp [hn]
  | cons x l ih =>
    have hn' : (addRequired av x).Nodup := by
      unfold addRequired
      split
      · exact hn
      · rename_i hx
        rw [List.nodup_append]
        refine ⟨hn, by simp, ?_⟩
        intro a ha b hb hab
        simp at hb
        subst hb; subst hab
        exact hx ha
    obtain ⟨h1, h2, h3⟩ := ih (addRequired av x) hn'
    have hmem : ∀ i, i ∈ addRequired av x ↔ i ∈ av ∨ i = x := by
      intro i; unfold addRequired; split
      · rename_i hx
        constructor
        · exact .inl
        · rintro (h | rfl)
          · exact h
          · exact hx
      · simp
    have hlen : (addRequired av x).length ≤ av.length + 1 := by unfold addRequired; split <;> simp
    refine ⟨h1, ?_, ?_⟩
    · intro i; simp only [List.foldl_cons, h2, hmem, List.mem_cons, or_assoc]
    · simp only [List.foldl_cons, List.length_cons]; omega

/-- The indexes selected are exactly those of the requested names, each once. -/
theorem init_spec {names : List CStr} (h : Distinct names) (r : Request) (cap : Nat) (ixs : List Nat)
    (hi : init names (effective r) = some (cap, ixs)) :
    ixs.Nodup ∧ ixs.length ≤ cap ∧
      ∀ i, i ∈ ixs ↔ ∃ name, names[i]? = some name ∧ Requested r name := by
  have list : ∀ l : List CStr,
      ((iterateFromList names l).foldl addRequired []).Nodup ∧
      ((iterateFromList names l).foldl addRequired []).length ≤ (iterateFromList names l).length ∧
      ∀ i, i ∈ (iterateFromList names l).foldl addRequired [] ↔
        ∃ name, names[i]? = some name ∧ ∃ w ∈ l, fold w = fold name := by
    intro l
    obtain ⟨h1, h2, h3⟩ := foldl_add (iterateFromList names l) [] (by simp)
    refine ⟨h1, by simpa using h3, ?_⟩
    intro i
    rw [h2, mem_iterateFromList]
    simp only [List.not_mem_nil, false_or, getPropertyIndex_iff h]
    constructor
    · rintro ⟨w, hw, name, h4, h5⟩; exact ⟨name, h4, w, hw, h5.symm⟩
    · rintro ⟨name, h4, w, hw, h5⟩; exact ⟨w, hw, name, h4, h5.symm⟩
  have all : init names .all = some (cap, ixs) → ixs.Nodup ∧ ixs.length ≤ cap ∧
      ∀ i, i ∈ ixs ↔ ∃ name, names[i]? = some name := by
    intro ha
    simp only [init, Option.some.injEq, Prod.mk.injEq] at ha
    obtain ⟨rfl, rfl⟩ := ha
    refine ⟨List.nodup_range, by simp, ?_⟩
    intro i
    rw [List.mem_range]
    constructor
    · intro hi; exact ⟨names[i], by simp [hi]⟩
    · rintro ⟨name, hn⟩; exact (List.getElem?_eq_some_iff.mp hn).1
  cases r with
  | all => simpa [Requested] using all hi
  | existing l =>
    simp only [effective, init, Option.some.injEq, Prod.mk.injEq] at hi
    obtain ⟨rfl, rfl⟩ := hi
    exact list l
  | array l =>
    cases l with
    | nil => simpa [Requested] using all hi
    | cons a l =>
      simp only [effective, init, Option.some.injEq, Prod.mk.injEq] at hi
      obtain ⟨rfl, rfl⟩ := hi
      simpa [Requested] using list (a :: l)
  | string s =>
    cases s with
    | nil => simpa [Requested] using all hi
    | cons c s =>
      simp only [effective, init] at hi
      split at hi
      · simp at hi
      · simp only [Option.some.injEq, Prod.mk.injEq] at hi
        obtain ⟨rfl, rfl⟩ := hi
        have e : iterateFromString names [] (c :: s) = iterateFromList names (words (c :: s)) := by
          rw [iterateFromString_eq]
          rcases hw : words (c :: s) with _ | ⟨w, ws⟩
          · exact absurd hw (words_ne_nil _)
          · simp
        rw [e]
        simpa [Requested] using list (words (c :: s))

theorem getPropertyIndex_self {names : List CStr} (h : Distinct names) {i : Nat} {name : CStr}
    (hi : names[i]? = some name) : getPropertyIndex names name = some i :=
  (getPropertyIndex_iff h name i).mpr ⟨name, hi, rfl⟩

/-- C27: from a data set whose property names differ ignoring case, and whatever `qsort` does with equal
elements, the available properties are in strictly ascending order of name ignoring case (so none occurs
twice), each has its data set index, and they are exactly those asked for. -/
theorem C27_create (q : List Avail → List Avail) (hq : IsQsort q) (names : List CStr) (h : Distinct names)
    (r : Request) (av : List Avail) (hc : create q names r = some av) :
    av.Pairwise (fun a b => DictLt (ukeys a.name) (ukeys b.name)) ∧
    (∀ a ∈ av, names[a.index]? = some a.name) ∧
    ∀ n, n ∈ av.map (·.name) ↔ n ∈ names ∧ Requested r n := by
  simp only [create, Option.map_eq_some_iff] at hc
  obtain ⟨⟨cap, ixs⟩, hi, rfl⟩ := hc
  obtain ⟨hnd, -, hmem⟩ := init_spec h r cap ixs hi
  obtain ⟨hperm, hsort⟩ := hq (ixs.map fun i => ⟨i, names.getD i []⟩)
  -- every sorted entry already has its index
  have hent : ∀ a ∈ q (ixs.map fun i => ⟨i, names.getD i []⟩), a.index ∈ ixs ∧ names[a.index]? = some a.name := by
    intro a ha
    rw [hperm.mem_iff, List.mem_map] at ha
    obtain ⟨i, hi', rfl⟩ := ha
    obtain ⟨name, hn, -⟩ := (hmem i).mp hi'
    exact ⟨hi', by simp [List.getD, hn]⟩
  have hid : initRequired q names ixs = q (ixs.map fun i => ⟨i, names.getD i []⟩) := by
    unfold initRequired
    conv_rhs => rw [← List.map_id (q (ixs.map fun i => ⟨i, names.getD i []⟩))]
    apply List.map_congr_left
    intro a ha
    rw [getPropertyIndex_self h (hent a ha).2]
    rfl
  rw [hid]
  have hnd' : (q (ixs.map fun i => ⟨i, names.getD i []⟩)).Nodup := by
    rw [hperm.nodup_iff]
    exact List.Nodup.map_on (fun a _ b _ hab => congrArg Avail.index hab) hnd
  refine ⟨?_, fun a ha => (hent a ha).2, ?_⟩
  · have := hsort.and hnd'
    refine this.imp_of_mem ?_
    rintro a b ha hb ⟨h1, h2⟩
    rw [← stricmp_neg_iff]
    rcases Int.lt_or_eq_of_le h1 with h1 | h1
    · exact h1
    · exfalso
      rw [stricmp_zero_iff] at h1
      have := h.unique (hent a ha).2 (hent b hb).2 h1
      apply h2
      have h3 := (hent a ha).2
      rw [this, (hent b hb).2] at h3
      obtain ⟨ai, an⟩ := a
      obtain ⟨bi, bn⟩ := b
      simp_all
  · intro n
    simp only [List.mem_map]
    constructor
    · rintro ⟨a, ha, rfl⟩
      obtain ⟨h1, h2⟩ := hent a ha
      obtain ⟨name, h3, h4⟩ := (hmem _).mp h1
      rw [h2, Option.some.injEq] at h3
      subst h3
      exact ⟨List.mem_of_getElem? h2, h4⟩
    · rintro ⟨h1, h2⟩
      obtain ⟨i, hi'⟩ := List.mem_iff_getElem?.mp h1
      refine ⟨⟨i, names.getD i []⟩, ?_, by simp [List.getD, hi']⟩
      rw [hperm.mem_iff, List.mem_map]
      exact ⟨i, (hmem i).mpr ⟨n, hi', h2⟩, rfl⟩

/-- C27: there are no available properties at all (NULL) only for a non-empty string that names none of the
data set's properties. -/
theorem C27_null (q : List Avail → List Avail) (names : List CStr) (h : Distinct names) (r : Request) :
    create q names r = none ↔ ∃ s, r = .string s ∧ s ≠ [] ∧ ∀ n ∈ names, ¬ Requested r n := by
  cases r with
  | all => simp [create, effective, init]
  | existing l => simp [create, effective, init]
  | array l => cases l <;> simp [create, effective, init]
  | string s =>
    cases s with
    | nil => simp [create, effective, init]
    | cons c s =>
      have e : iterateFromString names [] (c :: s) = iterateFromList names (words (c :: s)) := by
        rw [iterateFromString_eq]
        rcases hw : words (c :: s) with _ | ⟨w, ws⟩
        · exact absurd hw (words_ne_nil _)
        · simp
      have hz : iterateFromList names (words (c :: s)) = [] ↔ ∀ n ∈ names, ¬ Requested (.string (c :: s)) n := by
        constructor
        · intro h0 n hn hreq
          simp only [Requested, reduceCtorEq, false_or] at hreq
          obtain ⟨w, hw, hf⟩ := hreq
          obtain ⟨i, hi⟩ := List.mem_iff_getElem?.mp hn
          have : i ∈ iterateFromList names (words (c :: s)) :=
            (mem_iterateFromList _ _ _).mpr ⟨w, hw, (getPropertyIndex_iff h w i).mpr ⟨n, hi, hf.symm⟩⟩
          rw [h0] at this
          simp at this
        · intro h0
          rw [List.eq_nil_iff_forall_not_mem]
          intro i hi
          obtain ⟨w, hw, hg⟩ := (mem_iterateFromList _ _ _).mp hi
          obtain ⟨n, hn, hf⟩ := (getPropertyIndex_iff h w i).mp hg
          exact h0 n (List.mem_of_getElem? hn) (Or.inr ⟨w, hw, hf.symm⟩)
      simp only [create, effective, init, e, Option.map_eq_none_iff]
      constructor
      · intro h0
        refine ⟨c :: s, rfl, by simp, hz.mp ?_⟩
        by_contra hne
        have : ¬ (iterateFromList names (words (c :: s))).length = 0 := by simpa using hne
        simp [this] at h0
      · rintro ⟨s', hs', -, h0⟩
        simp [hz.mpr h0]

/-- C27: the items written never exceed the memory reserved for them. -/
theorem C27_capacity (names : List CStr) (r : Request) (cap : Nat) (ixs : List Nat)
    (hi : init names r = some (cap, ixs)) : ixs.length ≤ cap := by
  cases r with
  | all => simp [init] at hi; obtain ⟨rfl, rfl⟩ := hi; simp
  | existing l => simp [init] at hi; obtain ⟨rfl, rfl⟩ := hi; simpa using (foldl_add _ [] (by simp)).2.2
  | array l => simp [init] at hi; obtain ⟨rfl, rfl⟩ := hi; simpa using (foldl_add _ [] (by simp)).2.2
  | string s =>
    simp only [init] at hi
    split at hi
    · simp at hi
    · simp at hi; obtain ⟨rfl, rfl⟩ := hi; simpa using (foldl_add _ [] (by simp)).2.2

example : Distinct [c!"IsMobile", c!"Id", c!"Type"] := by simp [Distinct]; decide
example : (init [c!"IsMobile", c!"Id", c!"Type"] (.string c!"type|nope,ID Type")) = some (3, [2, 1]) := by decide
example : words c!"type|nope,ID Type" = [c!"type", c!"nope", c!"ID", c!"Type"] := by decide
example : stricmp c!"Id" c!"IsMobile" < 0 ∧ stricmp c!"IsMobile" c!"type" < 0 := by decide

/-! ## C28 -/

/-- All bytes are ASCII. -/
def Ascii (s : CStr) : Prop := ∀ c ∈ s, c.toNat < 128

theorem toLower_ascii {c : UInt8} (h : c.toNat < 128) : (toLower c).toNat < 128 := by
  unfold toLower
  split
  · rename_i hc
    have h2 : c.toNat ≤ 90 := by simpa using UInt8.le_iff_toNat_le.mp hc.2
    rw [UInt8.toNat_add]
    have : (32 : UInt8).toNat = 32 := rfl
    omega
  · exact h

theorem compare_eq_stricmp {a b : CStr} (ha : Ascii a) (hb : Ascii b) : Str.compare a b = stricmp a b := by
  induction a generalizing b with
  | nil => cases b <;> rfl
  | cons x a ih =>
    cases b with
    | nil => rfl
    | cons y b =>
      have hx := toLower_ascii (ha x (by simp))
      have hy := toLower_ascii (hb y (by simp))
      have := ih (b := b) (fun c hc => ha c (by simp [hc])) (fun c hc => hb c (by simp [hc]))
      simp only [Str.compare, stricmp, lowerInt, charVal, hx, hy, if_true, this]

theorem neg_of_swap {a b : CStr} : Str.compare a b > 0 ↔ Str.compare b a < 0 := by
  have := Str.C16_compare_antisymm a b
  constructor
  · intro h
    have h1 := Int.sign_eq_one_iff_pos.mpr h
    exact Int.sign_eq_neg_one_iff_neg.mp (by omega)
  · intro h
    have h1 := Int.sign_eq_neg_one_iff_neg.mpr h
    exact Int.sign_eq_one_iff_pos.mp (by omega)

theorem lt_of_lt_of_le {x a b : CStr} (h : Str.compare x a < 0) (h' : Str.compare a b ≤ 0) :
    Str.compare x b < 0 := by
  rw [Str.C16_compare_neg_iff] at h ⊢
  rcases Int.lt_or_eq_of_le h' with h' | h'
  · rw [Str.C16_compare_neg_iff] at h'; exact h.trans h'
  · rw [Str.C16_compare_zero_iff, ← Str.keys_eq_iff] at h'; rw [← h']; exact h

theorem lt_of_le_of_lt {x a b : CStr} (h : Str.compare x a ≤ 0) (h' : Str.compare a b < 0) :
    Str.compare x b < 0 := by
  rw [Str.C16_compare_neg_iff] at h' ⊢
  rcases Int.lt_or_eq_of_le h with h | h
  · rw [Str.C16_compare_neg_iff] at h; exact h.trans h'
  · rw [Str.C16_compare_zero_iff, ← Str.keys_eq_iff] at h; rw [h]; exact h'

/-- Sorted in the order the search uses. -/
def SearchSorted (av : List Avail) : Prop := av.Pairwise fun a b => Str.compare a.name b.name ≤ 0

theorem bsearch_spec (av : List Avail) (name : CStr) (hs : SearchSorted av) (l u : Nat) (hu : u ≤ av.length)
    (hl : ∀ i a, i < l → av[i]? = some a → Str.compare a.name name < 0)
    (hr : ∀ i a, u ≤ i → av[i]? = some a → Str.compare name a.name < 0) :
    match bsearch av name l u with
    | some i => ∃ a, av[i]? = some a ∧ fold a.name = fold name
    | none => ∀ a ∈ av, fold a.name ≠ fold name := by
  induction hn : u - l using Nat.strongRecOn generalizing l u with
  | _ n ih =>
    have hpair := List.pairwise_iff_getElem.mp hs
    rw [bsearch]
    by_cases hlu : l < u
    · rw [dif_pos hlu]
      have hm : (l + u) / 2 < av.length := by omega
      have hget : av[(l + u) / 2]? = some av[(l + u) / 2] := by simp [hm]
      simp only [hget]
      by_cases h1 : Str.compare name av[(l + u) / 2].name < 0
      · simp only [h1, if_true]
        refine ih _ ?_ l ((l + u) / 2) (by omega) hl ?_ rfl
        · omega
        · intro i a hi ha
          obtain ⟨hi2, rfl⟩ := List.getElem?_eq_some_iff.mp ha
          rcases Nat.lt_or_eq_of_le hi with hlt | heq
          · exact lt_of_lt_of_le h1 (hpair _ _ hm hi2 hlt)
          · subst heq; exact h1
      · simp only [h1, if_false]
        by_cases h2 : Str.compare name av[(l + u) / 2].name > 0
        · simp only [h2, if_true]
          refine ih _ ?_ ((l + u) / 2 + 1) u hu ?_ hr rfl
          · omega
          · intro i a hi ha
            obtain ⟨hi2, rfl⟩ := List.getElem?_eq_some_iff.mp ha
            have h3 := neg_of_swap.mp h2
            rcases Nat.lt_or_eq_of_le (Nat.le_of_lt_succ hi) with hlt | heq
            · exact lt_of_le_of_lt (hpair _ _ hi2 hm hlt) h3
            · subst heq; exact h3
        · simp only [h2, if_false]
          refine ⟨_, hget, ?_⟩
          exact ((Str.C16_compare_zero_iff _ _).mp (by omega)).symm
    · rw [dif_neg hlu]
      intro a ha he
      obtain ⟨i, hi⟩ := List.mem_iff_getElem?.mp ha
      have h0 : Str.compare a.name name = 0 := (Str.C16_compare_zero_iff _ _).mpr he
      have h0' : Str.compare name a.name = 0 := (Str.C16_compare_zero_iff _ _).mpr he.symm
      by_cases h : i < l
      · have := hl i a h hi; omega
      · have := hr i a (by omega) hi; omega

/-- C28: looking up a name among properties sorted by `qsort` whose names are ASCII returns an index whose
name equals it ignoring case, and -1 exactly when there is none. Missing: names with other characters
(`C28_violated`). -/
theorem C28_lookup_partial (av : List Avail) (hs : av.Pairwise fun a b => stricmp a.name b.name ≤ 0)
    (hascii : ∀ a ∈ av, Ascii a.name) (name : CStr) :
    match requiredIndexFromName av name with
    | some i => ∃ a, av[i]? = some a ∧ fold a.name = fold name
    | none => ∀ a ∈ av, fold a.name ≠ fold name := by
  apply bsearch_spec av name _ 0 av.length (Nat.le_refl _) (by omega)
  · intro i a hi ha
    have := (List.getElem?_eq_some_iff.mp ha).1
    omega
  · refine hs.imp_of_mem ?_
    intro a b ha hb h
    rw [compare_eq_stricmp (hascii a ha) (hascii b hb)]; exact h

/-- C28: in the properties created from a data set with ASCII names, the name at an index maps back to that index and to the
property's index in the data set, in any letter case. Missing: names beyond ASCII, see `C28_violated`. -/
theorem C28_roundtrip_partial (q : List Avail → List Avail) (hq : IsQsort q) (names : List CStr)
    (h : Distinct names) (hascii : ∀ n ∈ names, Ascii n) (r : Request) (av : List Avail)
    (hc : create q names r = some av) (i : Nat) (a : Avail) (hi : av[i]? = some a) (name : CStr)
    (hname : fold name = fold a.name) :
    requiredIndexFromName av name = some i ∧ indexFromName av name = a.index ∧ names[a.index]? = some a.name := by
  obtain ⟨h1, h2, h3⟩ := C27_create q hq names h r av hc
  have hs : av.Pairwise fun a b => stricmp a.name b.name ≤ 0 :=
    h1.imp fun {a b} h => by have := (stricmp_neg_iff a.name b.name).mpr h; omega
  have hl := C28_lookup_partial av hs
    (fun a ha => hascii _ ((h3 a.name).mp (List.mem_map.mpr ⟨a, ha, rfl⟩)).1) name
  have hia := List.getElem?_eq_some_iff.mp hi
  have hmem : a ∈ av := List.mem_of_getElem? hi
  have key : requiredIndexFromName av name = some i := by
    rcases hf : requiredIndexFromName av name with _ | j
    · simp only [hf] at hl
      exact absurd hname.symm (hl a hmem)
    · simp only [hf] at hl
      obtain ⟨b, hb, he⟩ := hl
      have hjb := List.getElem?_eq_some_iff.mp hb
      have hz : stricmp a.name b.name = 0 := (stricmp_zero_iff _ _).mpr (hname.symm.trans he.symm)
      have hz' : stricmp b.name a.name = 0 := (stricmp_zero_iff _ _).mpr (he.trans hname)
      have hp := List.pairwise_iff_getElem.mp h1
      rcases Nat.lt_trichotomy i j with hlt | heq | hgt
      · have := hp i j hia.1 hjb.1 hlt
        rw [hia.2, hjb.2, ← stricmp_neg_iff] at this
        omega
      · rw [heq]
      · have := hp j i hjb.1 hia.1 hgt
        rw [hia.2, hjb.2, ← stricmp_neg_iff] at this
        omega
  refine ⟨key, ?_, h2 a hmem⟩
  have hlt := hia.1
  simp only [indexFromName, key, indexFromRequired]
  rw [if_pos ⟨by omega, by omega⟩]
  simp [List.getD, hi]

/-- C28: the index of the property at a place in the list of available properties, and -1 for every place outside
the list. -/
theorem C28_place (av : List Avail) (i : Int) :
    (∀ a, 0 ≤ i → av[i.toNat]? = some a → indexFromRequired av i = a.index) ∧
    (i < 0 ∨ (av.length : Int) ≤ i → indexFromRequired av i = -1) := by
  refine ⟨fun a h0 ha => ?_, fun h => ?_⟩
  · have := (List.getElem?_eq_some_iff.1 ha).1
    rw [indexFromRequired, if_pos ⟨h0, by omega⟩]
    simp [List.getD, ha]
  · rw [indexFromRequired, if_neg (by omega)]

theorem bsearch_sound (av : List Avail) (name : CStr) (k l u i : Nat) (hk : u - l ≤ k) (hu : u ≤ av.length)
    (h : bsearch av name l u = some i) : ∃ a, av[i]? = some a ∧ fold a.name = fold name := by
  induction k generalizing l u with
  | zero =>
    rw [bsearch, dif_neg (by omega)] at h
    cases h
  | succ k ih =>
    rw [bsearch] at h
    by_cases hl : l < u
    · rw [dif_pos hl] at h
      dsimp only at h
      have hm : (l + u) / 2 < av.length := by omega
      split at h
      · cases h
      · rename_i a ha
        split at h
        · exact ih l _ (by omega) (by omega) h
        · split at h
          · exact ih _ u (by omega) hu h
          · cases h
            exact ⟨a, ha, ((Str.C16_compare_zero_iff _ _).mp (by omega)).symm⟩
    · rw [dif_neg hl] at h; cases h

/-- C28: a name that no available property has, in any letter case, gives -1. -/
theorem C28_unknown (av : List Avail) (name : CStr) (h : ∀ a ∈ av, fold a.name ≠ fold name) :
    requiredIndexFromName av name = none ∧ indexFromName av name = -1 := by
  have : requiredIndexFromName av name = none := by
    rcases hr : requiredIndexFromName av name with _ | i
    · rfl
    · obtain ⟨a, ha, hn⟩ := bsearch_sound av name _ 0 av.length i (Nat.le_refl _) (Nat.le_refl _) hr
      exact absurd hn (h a (List.mem_of_getElem? ha))
  exact ⟨this, by simp only [indexFromName, this]⟩

example : indexFromName [⟨1, c!"Id"⟩, ⟨0, c!"IsMobile"⟩] c!"Type" = -1 :=
  (C28_unknown _ _ (by decide)).2

/-- C28 fails for names with characters beyond ASCII: `qsort` orders them after the letters and the search
expects them before, so a name that is available is not found. -/
theorem C28_violated : ∃ av : List Avail, av.Pairwise (fun a b => stricmp a.name b.name ≤ 0) ∧
    (∃ a ∈ av, a.name = [0xE9]) ∧ requiredIndexFromName av [0xE9] = none := by
  refine ⟨[⟨0, c!"a"⟩, ⟨1, c!"b"⟩, ⟨2, [0xE9]⟩], by decide, by decide, ?_⟩
  simp [requiredIndexFromName, bsearch, Str.compare, lowerInt, charVal, toLower]

example : requiredIndexFromName [⟨1, c!"Id"⟩, ⟨0, c!"IsMobile"⟩, ⟨2, c!"Type"⟩] c!"TYPE" = some 2 := by
  simp [requiredIndexFromName, bsearch, Str.compare, lowerInt, charVal, toLower]

/-! ## C48 -/

theorem subString_zero_iff (a b : CStr) (hb : b ≠ []) : Str.subString a b = some 0 ↔ Str.AgreesAt a b 0 := by
  have hsp := Str.subStringFrom_spec 0 a b hb
  unfold Str.subString
  rcases hf : Str.subStringFrom 0 a b with _ | j
  · simp only [hf] at hsp
    simp [hsp 0]
  · simp only [hf] at hsp
    obtain ⟨-, h2, h3⟩ := hsp
    simp only [Option.some.injEq]
    constructor
    · rintro rfl; exact h2
    · intro h0
      by_contra hne
      exact h3 0 (by omega) h0

/-- C48: a name starting with `SetHeader` in any case makes set headers available, and only such a name does
when no name is itself a proper beginning of `SetHeader`. Missing: a proper beginning counts as well
(`C48_violated`). -/
theorem C48_setHeader_partial (av : List Avail)
    (hshort : ∀ a ∈ av, ∀ k, 0 < k → k < 9 → fold a.name ≠ fold (c!"SetHeader".take k)) :
    isSetHeaderAvailable av = true ↔ ∃ a ∈ av, fold (a.name.take 9) = fold c!"SetHeader" := by
  simp only [isSetHeaderAvailable, List.any_eq_true, decide_eq_true_eq,
    subString_zero_iff _ c!"SetHeader" (by decide)]
  have hl : c!"SetHeader".length = 9 := rfl
  constructor
  · rintro ⟨a, ha, h1, h2⟩
    refine ⟨a, ha, ?_⟩
    simp only [List.drop_zero, Nat.sub_zero, hl] at h2
    by_cases hlt : a.name.length < 9
    · exfalso
      rw [List.take_of_length_le (by omega)] at h2
      exact hshort a ha a.name.length h1 hlt h2
    · rw [h2, List.take_of_length_le (by rw [hl]; omega)]
  · rintro ⟨a, ha, h⟩
    have hlen : (a.name.take 9).length = 9 := by simpa [fold] using congrArg List.length h
    rw [List.length_take] at hlen
    refine ⟨a, ha, by omega, ?_⟩
    simp only [List.drop_zero, Nat.sub_zero, hl]
    rw [h, List.take_of_length_le (l := c!"SetHeader") (by rw [hl]; omega)]

/-- C48 fails for a property called `Set`: set headers are reported as available. -/
theorem C48_violated : isSetHeaderAvailable [⟨0, c!"Set"⟩] = true ∧
    ¬ ∃ a ∈ [(⟨0, c!"Set"⟩ : Avail)], fold (a.name.take 9) = fold c!"SetHeader" := by
  refine ⟨by decide, by decide⟩

example : isSetHeaderAvailable [⟨0, c!"Id"⟩, ⟨1, c!"SetHeaderBrowserAccept-CH"⟩] = true := by decide
example : isSetHeaderAvailable [⟨0, c!"Id"⟩, ⟨1, c!"MySetHeader"⟩] = false := by decide

end Verif.Properties
