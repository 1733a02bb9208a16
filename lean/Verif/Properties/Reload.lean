import Verif.Properties.Props

/-! # C109: available properties over a history of reloads -/

namespace Verif.Properties
open Verif.Str (fold DictLt)

/-! ## Model -/

/-- `fiftyoneDegreesDataSetInitProperties`, dataset.c:116-162, for a data set whose properties have these names:
`none` is `REQ_PROP_NOT_PRESENT`, for no list (132-134) or an empty one (137-139). The later checks of names and
evidence properties (141-159) pass when memory is never refused, which is assumed here. -/
def initProperties (q : List Avail → List Avail) (names : List CStr) (r : Request) : Option (List Avail) :=
  match create q names r with
  | none => none
  | some [] => none
  | some (a :: av) => some (a :: av)

/-- `fiftyoneDegreesDataSetReloadManagerFromMemory`, dataset.c:261-302, and
`fiftyoneDegreesDataSetReloadManagerFromFile`, 304-337, as far as the properties are concerned: the request for
the replacement is the list of the active data set (270-274, 312-316). The first part is the list of the data set
that is active afterwards, the second whether the replacement became active: on a failure the function returns
before `replace` (296-299, 332-334). `initDataSet` is the engine's method; it is taken to hand on the request to
`DataSetInitProperties` and to fail only when that does. -/
def reload (q : List Avail → List Avail) (av : List Avail) (names : List CStr) : List Avail × Bool :=
  match initProperties q names (.existing (av.map (·.name))) with
  | none => (av, false)
  | some new => (new, true)

/-- Reloads with one version of the data after the other. The second part lists the versions that became active,
the first active one first. -/
def reloads (q : List Avail → List Avail) (av : List Avail) (acc : List (List CStr)) :
    List (List CStr) → List Avail × List (List CStr)
  | [] => (av, acc)
  | names :: rest =>
    if (reload q av names).2 then reloads q (reload q av names).1 (acc ++ [names]) rest
    else reloads q (reload q av names).1 acc rest

/-! ## Specification -/

/-- A version of the data has a property of this name, ignoring case. -/
def Has (names : List CStr) (n : CStr) : Prop := ∃ m ∈ names, fold m = fold n

/-- Ascending order of name ignoring case, and each with its place in the data. -/
def Fit (names : List CStr) (av : List Avail) : Prop :=
  av ≠ [] ∧ av.Pairwise (fun a b => DictLt (ukeys a.name) (ukeys b.name)) ∧ ∀ a ∈ av, names[a.index]? = some a.name

/-! ## Lemmas -/

theorem requested_fold (r : Request) {a b : CStr} (h : fold a = fold b) : Requested r a ↔ Requested r b := by
  cases r <;> simp only [Requested, h]

theorem initProperties_spec (q : List Avail → List Avail) (hq : IsQsort q) (names : List CStr)
    (h : Distinct names) (r : Request) :
    match initProperties q names r with
    | none => ∀ n ∈ names, ¬ Requested r n
    | some av => Fit names av ∧ ∀ n, n ∈ av.map (·.name) ↔ n ∈ names ∧ Requested r n := by
  unfold initProperties
  rcases hc : create q names r with _ | av
  · obtain ⟨s, -, -, h0⟩ := (C27_null q names h r).mp hc
    exact h0
  · obtain ⟨h1, h2, h3⟩ := C27_create q hq names h r av hc
    cases av with
    | nil =>
      intro n hn hr
      have := (h3 n).mpr ⟨hn, hr⟩
      simp at this
    | cons a av => exact ⟨⟨by simp, h1, h2⟩, h3⟩

theorem reload_spec (q : List Avail → List Avail) (hq : IsQsort q) (av : List Avail) (names : List CStr)
    (h : Distinct names) :
    ((reload q av names).2 = true ↔ ∃ a ∈ av, Has names a.name) ∧
    ((reload q av names).2 = false → (reload q av names).1 = av) ∧
    ((reload q av names).2 = true → Fit names (reload q av names).1 ∧
      ∀ n, n ∈ (reload q av names).1.map (·.name) ↔ n ∈ names ∧ ∃ a ∈ av, fold a.name = fold n) := by
  have hs := initProperties_spec q hq names h (.existing (av.map (·.name)))
  have hr : ∀ n, Requested (.existing (av.map (·.name))) n ↔ ∃ a ∈ av, fold a.name = fold n := by
    intro n; simp [Requested]
  rcases hi : initProperties q names (.existing (av.map (·.name))) with _ | new
  · rw [hi] at hs
    have e : reload q av names = (av, false) := by simp only [reload, hi]
    rw [e]
    refine ⟨⟨by simp, ?_⟩, by simp, by simp⟩
    rintro ⟨a, ha, m, hm, he⟩
    exact absurd ((hr m).mpr ⟨a, ha, he.symm⟩) (hs m hm)
  · rw [hi] at hs
    have e : reload q av names = (new, true) := by simp only [reload, hi]
    rw [e]
    obtain ⟨hf, hm⟩ := hs
    refine ⟨⟨fun _ => ?_, by simp⟩, by simp, fun _ => ⟨hf, fun n => by rw [hm, hr]⟩⟩
    rcases new with _ | ⟨x, new⟩
    · exact absurd rfl hf.1
    · have hx := (hm x.name).mp (by simp)
      rw [hr] at hx
      obtain ⟨hx1, a, ha, he⟩ := hx
      exact ⟨a, ha, x.name, hx1, he.symm⟩

/-- What holds after a history in which the versions `acc` were active, the last one now. -/
def Now (r : Request) (av : List Avail) (acc : List (List CStr)) : Prop :=
  ∃ last ∈ acc.getLast?, Fit last av ∧
    ∀ n, n ∈ av.map (·.name) ↔ n ∈ last ∧ Requested r n ∧ ∀ v ∈ acc, Has v n

theorem reload_now (q : List Avail → List Avail) (hq : IsQsort q) (r : Request) (av : List Avail)
    (acc : List (List CStr)) (names : List CStr) (h : Distinct names) (hn : Now r av acc)
    (ht : (reload q av names).2 = true) : Now r (reload q av names).1 (acc ++ [names]) := by
  obtain ⟨last, hl, hf, hm⟩ := hn
  obtain ⟨-, -, h3⟩ := reload_spec q hq av names h
  obtain ⟨hf', hm'⟩ := h3 ht
  refine ⟨names, by simp, hf', fun n => ?_⟩
  have hlast : last ∈ acc := List.mem_of_getLast? hl
  rw [hm']
  constructor
  · rintro ⟨h1, a, ha, he⟩
    obtain ⟨-, h4, h5⟩ := (hm a.name).mp (List.mem_map_of_mem ha)
    refine ⟨h1, (requested_fold r he).mp h4, fun v hv => ?_⟩
    rcases List.mem_append.mp hv with hv | hv
    · obtain ⟨m, hm1, hm2⟩ := h5 v hv
      exact ⟨m, hm1, hm2.trans he⟩
    · simp only [List.mem_singleton] at hv
      subst hv
      exact ⟨n, h1, rfl⟩
  · rintro ⟨h1, h2, h4⟩
    obtain ⟨m, hm1, hm2⟩ := h4 last (by simp [hlast])
    have : m ∈ av.map (·.name) := (hm m).mpr ⟨hm1, (requested_fold r hm2).mpr h2, fun v hv => by
      obtain ⟨k, hk1, hk2⟩ := h4 v (by simp [hv])
      exact ⟨k, hk1, hk2.trans hm2.symm⟩⟩
    obtain ⟨a, ha, rfl⟩ := List.mem_map.mp this
    exact ⟨h1, a, ha, hm2⟩

theorem reloads_now (q : List Avail → List Avail) (hq : IsQsort q) (r : Request) (vs : List (List CStr))
    (hd : ∀ v ∈ vs, Distinct v) (av : List Avail) (acc : List (List CStr)) (hn : Now r av acc) :
    Now r (reloads q av acc vs).1 (reloads q av acc vs).2 := by
  induction vs generalizing av acc with
  | nil => exact hn
  | cons v vs ih =>
    have hd' : ∀ w ∈ vs, Distinct w := fun w hw => hd w (by simp [hw])
    simp only [reloads]
    split
    · rename_i ht
      exact ih hd' _ _ (reload_now q hq r av acc v (hd v (by simp)) hn ht)
    · rename_i ht
      obtain ⟨-, h2, -⟩ := reload_spec q hq av v (hd v (by simp))
      rw [h2 (by simpa using ht)]
      exact ih hd' _ _ hn

theorem start_now (q : List Avail → List Avail) (hq : IsQsort q) (first : List CStr) (h : Distinct first)
    (r : Request) (av : List Avail) (hi : initProperties q first r = some av) : Now r av [first] := by
  have hs := initProperties_spec q hq first h r
  rw [hi] at hs
  refine ⟨first, by simp, hs.1, fun n => ?_⟩
  rw [hs.2]
  constructor
  · rintro ⟨h1, h2⟩; exact ⟨h1, h2, by simpa using ⟨n, h1, rfl⟩⟩
  · rintro ⟨h1, h2, -⟩; exact ⟨h1, h2⟩

/-- Two lists in strictly ascending order with the same members are the same. -/
theorem ascending_unique (l l' : List CStr) (h : l.Pairwise fun a b => DictLt (ukeys a) (ukeys b))
    (h' : l'.Pairwise fun a b => DictLt (ukeys a) (ukeys b))
    (hm : ∀ n, Has l n ↔ Has l' n) : l.map fold = l'.map fold := by
  have asymm : ∀ a b : CStr, DictLt (ukeys a) (ukeys b) → ¬ DictLt (ukeys b) (ukeys a) := by
    intro a b h1 h2
    have h3 := (stricmp_neg_iff a a).mpr (h1.trans h2)
    have h4 := (stricmp_zero_iff a a).mpr rfl
    omega
  have ne : ∀ a b : CStr, DictLt (ukeys a) (ukeys b) → fold a ≠ fold b := by
    intro a b h1 h2
    have h3 := (stricmp_neg_iff a b).mpr h1
    have h4 := (stricmp_zero_iff a b).mpr h2
    omega
  have tr : ∀ a b c : CStr, fold a = fold b → DictLt (ukeys b) (ukeys c) → DictLt (ukeys a) (ukeys c) := by
    intro a b c h1 h2
    rw [ukeys_eq_iff.mpr h1]; exact h2
  induction l generalizing l' with
  | nil =>
    cases l' with
    | nil => rfl
    | cons b l' => obtain ⟨x, hx, -⟩ := (hm b).mpr ⟨b, by simp, rfl⟩; simp at hx
  | cons a l ih =>
    cases l' with
    | nil => obtain ⟨x, hx, -⟩ := (hm a).mp ⟨a, by simp, rfl⟩; simp at hx
    | cons b l' =>
      rw [List.pairwise_cons] at h h'
      have hab : fold a = fold b := by
        obtain ⟨x, hx, he⟩ := (hm a).mp ⟨a, by simp, rfl⟩
        obtain ⟨y, hy, he'⟩ := (hm b).mpr ⟨b, by simp, rfl⟩
        rcases List.mem_cons.mp hx with rfl | hx
        · exact he.symm
        · rcases List.mem_cons.mp hy with rfl | hy
          · exact he'
          · exfalso
            have h1 := h'.1 x hx
            have h2 := h.1 y hy
            rw [ukeys_eq_iff.mpr he] at h1
            rw [ukeys_eq_iff.mpr he'] at h2
            exact asymm _ _ h1 h2
      simp only [List.map_cons, hab, List.cons.injEq, true_and]
      refine ih l' h.2 h'.2 (fun n => ?_)
      constructor
      · rintro ⟨x, hx, he⟩
        obtain ⟨y, hy, he'⟩ := (hm n).mp ⟨x, by simp [hx], he⟩
        rcases List.mem_cons.mp hy with rfl | hy
        · exact absurd (hab.trans (he'.trans he.symm)) (ne _ _ (h.1 x hx))
        · exact ⟨y, hy, he'⟩
      · rintro ⟨x, hx, he⟩
        obtain ⟨y, hy, he'⟩ := (hm n).mpr ⟨x, by simp [hx], he⟩
        rcases List.mem_cons.mp hy with rfl | hy
        · exact absurd (hab.symm.trans (he'.trans he.symm)) (ne _ _ (h'.1 x hx))
        · exact ⟨y, hy, he'⟩

theorem compare_fold (n a b : CStr) (h : fold a = fold b) : Str.compare n a = Str.compare n b := by
  induction n generalizing a b with
  | nil =>
    cases a with
    | nil => cases b with
      | nil => rfl
      | cons y b => simp [fold] at h
    | cons x a => cases b with
      | nil => simp [fold] at h
      | cons y b => rfl
  | cons c n ih =>
    cases a with
    | nil => cases b with
      | nil => rfl
      | cons y b => simp [fold] at h
    | cons x a => cases b with
      | nil => simp [fold] at h
      | cons y b =>
        simp only [fold, List.map_cons, List.cons.injEq] at h
        have e := ih a b h.2
        have e' : lowerInt x = lowerInt y := by simp only [lowerInt, h.1]
        unfold Str.compare
        rw [e', e]

theorem bsearch_fold (n : CStr) (av av' : List Avail)
    (h : (av.map (·.name)).map fold = (av'.map (·.name)).map fold) (k l u : Nat) (hk : u - l ≤ k) :
    bsearch av n l u = bsearch av' n l u := by
  induction k generalizing l u with
  | zero => rw [bsearch, bsearch, dif_neg (by omega), dif_neg (by omega)]
  | succ k ih =>
    rw [bsearch, bsearch]
    by_cases hlu : l < u
    · rw [dif_pos hlu, dif_pos hlu]
      have hg : (av[(l + u) / 2]?).map (fun a => fold a.name) = (av'[(l + u) / 2]?).map (fun a => fold a.name) := by
        have := congrArg (fun x => x[(l + u) / 2]?) h
        simpa [List.getElem?_map, Option.map_map, Function.comp_def] using this
      rcases h1 : av[(l + u) / 2]? with _ | a <;> rcases h2 : av'[(l + u) / 2]? with _ | b
      · simp only [h1, h2]
      · rw [h1, h2] at hg; simp at hg
      · rw [h1, h2] at hg; simp at hg
      · rw [h1, h2] at hg
        simp only [Option.map_some, Option.some.injEq] at hg
        simp only [h1, h2, compare_fold n a.name b.name hg]
        rw [ih l ((l + u) / 2) (by omega), ih ((l + u) / 2 + 1) u (by omega)]
    · rw [dif_neg hlu, dif_neg hlu]

/-- Insertion into a list in ascending order. -/
def place (a : Avail) : List Avail → List Avail
  | [] => [a]
  | b :: l => if stricmp a.name b.name ≤ 0 then a :: b :: l else b :: place a l

/-- A sort that the kernel can run, for the examples. -/
def isort : List Avail → List Avail
  | [] => []
  | a :: l => place a (isort l)

theorem place_spec (a : Avail) (l : List Avail) (hl : l.Pairwise fun a b => stricmp a.name b.name ≤ 0) :
    (place a l).Perm (a :: l) ∧ (place a l).Pairwise fun a b => stricmp a.name b.name ≤ 0 := by
  induction l with
  | nil => simp [place]
  | cons b l ih =>
    rw [List.pairwise_cons] at hl
    obtain ⟨h1, h2⟩ := ih hl.2
    simp only [place]
    split
    · rename_i hab
      refine ⟨List.Perm.refl _, ?_⟩
      rw [List.pairwise_cons, List.pairwise_cons]
      refine ⟨fun x hx => ?_, hl⟩
      rcases List.mem_cons.mp hx with rfl | hx
      · exact hab
      · exact stricmp_trans _ _ _ hab (hl.1 x hx)
    · rename_i hab
      refine ⟨(List.Perm.cons b h1).trans (List.Perm.swap a b l), ?_⟩
      rw [List.pairwise_cons]
      refine ⟨fun x hx => ?_, h2⟩
      rcases List.mem_cons.mp (h1.mem_iff.mp hx) with rfl | hx
      · have := stricmp_swap x.name b.name
        have h3 : (stricmp x.name b.name).sign = 1 := Int.sign_eq_one_iff_pos.mpr (by omega)
        have h4 : (stricmp b.name x.name).sign = -1 := by omega
        have := Int.sign_eq_neg_one_iff_neg.mp h4
        omega
      · exact hl.1 x hx

theorem isort_isQsort : IsQsort isort := by
  intro l
  induction l with
  | nil => simp [isort]
  | cons a l ih =>
    obtain ⟨h1, h2⟩ := place_spec a (isort l) ih.2
    exact ⟨h1.trans (List.Perm.cons a ih.1), h2⟩

/-! ## Theorems -/

/-- C109: after any history of reloads, successful or not, from any request and whatever `qsort` does with equal
elements, the available properties are in ascending order, have the indexes of the version that is active, and
are exactly those of that version that were asked for at the start and that every version active so far had. -/
theorem C109_available (q : List Avail → List Avail) (hq : IsQsort q) (first : List CStr) (h : Distinct first)
    (r : Request) (av : List Avail) (hi : initProperties q first r = some av) (vs : List (List CStr))
    (hd : ∀ v ∈ vs, Distinct v) :
    ∃ last, (reloads q av [first] vs).2.getLast? = some last ∧ Fit last (reloads q av [first] vs).1 ∧
      ∀ n, n ∈ (reloads q av [first] vs).1.map (·.name) ↔
        n ∈ last ∧ Requested r n ∧ ∀ v ∈ (reloads q av [first] vs).2, Has v n := by
  obtain ⟨last, h1, h2⟩ := reloads_now q hq r vs hd av [first] (start_now q hq first h r av hi)
  exact ⟨last, h1, h2⟩

/-- C109: a version becomes active exactly when it has one of the properties that are available; if it does
not, the properties stay those of the version active before. -/
theorem C109_accepted (q : List Avail → List Avail) (hq : IsQsort q) (av : List Avail) (names : List CStr)
    (h : Distinct names) :
    ((reload q av names).2 = true ↔ ∃ a ∈ av, Has names a.name) ∧
      ((reload q av names).2 = false → (reload q av names).1 = av) :=
  ⟨(reload_spec q hq av names h).1, (reload_spec q hq av names h).2.1⟩

/-- C109: a reload with data that have all the available properties, in any order and among any others, leaves
every name at its place: a required property index obtained before the reload is that of the same property
after it, and looking up any name gives the same required property index. -/
theorem C109_places (q : List Avail → List Avail) (hq : IsQsort q) (old : List CStr) (av : List Avail)
    (hf : Fit old av) (names : List CStr) (h : Distinct names) (hall : ∀ a ∈ av, Has names a.name) :
    (reload q av names).2 = true ∧
    (reload q av names).1.map (fun a => fold a.name) = av.map (fun a => fold a.name) ∧
    ∀ n, requiredIndexFromName (reload q av names).1 n = requiredIndexFromName av n := by
  obtain ⟨h1, -, h3⟩ := reload_spec q hq av names h
  have ht : (reload q av names).2 = true := by
    rw [h1]
    obtain ⟨hne, -, -⟩ := hf
    cases av with
    | nil => exact absurd rfl hne
    | cons a av => exact ⟨a, by simp, hall a (by simp)⟩
  obtain ⟨hf', hm⟩ := h3 ht
  have he : ((reload q av names).1.map (·.name)).map fold = (av.map (·.name)).map fold := by
    refine ascending_unique _ _ (by simpa [List.pairwise_map] using hf'.2.1)
      (by simpa [List.pairwise_map] using hf.2.1) (fun n => ?_)
    constructor
    · rintro ⟨x, hx, hxn⟩
      obtain ⟨-, a, ha, hax⟩ := (hm x).mp hx
      exact ⟨a.name, List.mem_map_of_mem ha, hax.trans hxn⟩
    · rintro ⟨x, hx, hxn⟩
      obtain ⟨a, ha, rfl⟩ := List.mem_map.mp hx
      obtain ⟨m, hm1, hm2⟩ := hall a ha
      exact ⟨m, (hm m).mpr ⟨hm1, a, ha, hm2.symm⟩, hm2.trans hxn⟩
  refine ⟨ht, by simpa [List.map_map, Function.comp_def] using he, fun n => ?_⟩
  have hlen : (reload q av names).1.length = av.length := by simpa using congrArg List.length he
  rw [requiredIndexFromName, requiredIndexFromName, hlen]
  exact bsearch_fold n _ _ he _ 0 _ (Nat.le_refl _)

/-- C109: a property that one active version lacks is not available after that version was active, whatever
data follow. -/
theorem C109_lost (q : List Avail → List Avail) (hq : IsQsort q) (first : List CStr) (h : Distinct first)
    (r : Request) (av : List Avail) (hi : initProperties q first r = some av) (vs : List (List CStr))
    (hd : ∀ v ∈ vs, Distinct v) (v : List CStr) (hv : v ∈ (reloads q av [first] vs).2) (n : CStr)
    (hn : ¬ Has v n) : ∀ a ∈ (reloads q av [first] vs).1, fold a.name ≠ fold n := by
  obtain ⟨last, -, -, hm⟩ := C109_available q hq first h r av hi vs hd
  intro a ha he
  obtain ⟨-, -, h4⟩ := (hm a.name).mp (List.mem_map_of_mem ha)
  obtain ⟨m, hm1, hm2⟩ := h4 v hv
  exact hn ⟨m, hm1, hm2.trans he⟩

/-- C109, partial: after any history of reloads the available properties are exactly those asked for at the
start that the active version has, as if it had been opened with the request, provided no property asked for
that the active version has was missing from a version active before. Missing: histories in which it was. -/
theorem C109_request_partial (q : List Avail → List Avail) (hq : IsQsort q) (first : List CStr)
    (h : Distinct first) (r : Request) (av : List Avail) (hi : initProperties q first r = some av)
    (vs : List (List CStr)) (hd : ∀ v ∈ vs, Distinct v) (last : List CStr)
    (hl : (reloads q av [first] vs).2.getLast? = some last)
    (hkeep : ∀ n ∈ last, Requested r n → ∀ v ∈ (reloads q av [first] vs).2, Has v n) :
    ∀ n, n ∈ (reloads q av [first] vs).1.map (·.name) ↔ n ∈ last ∧ Requested r n := by
  obtain ⟨last', h1, -, hm⟩ := C109_available q hq first h r av hi vs hd
  rw [hl, Option.some.injEq] at h1
  subst h1
  intro n
  rw [hm]
  constructor
  · rintro ⟨h1, h2, -⟩; exact ⟨h1, h2⟩
  · rintro ⟨h1, h2⟩; exact ⟨h1, h2, hkeep n h1 h2⟩

/-- C109 is violated: `IsMobile` was asked for by name and is in the active data, but is not available because a
version in between lacked it. -/
theorem C109_request_violated : IsQsort isort ∧ ∃ (first : List CStr) (r : Request) (av : List Avail) (vs : List (List CStr))
    (last : List CStr), Distinct first ∧ (∀ v ∈ vs, Distinct v) ∧ initProperties isort first r = some av ∧
    (reloads isort av [first] vs).2.getLast? = some last ∧ c!"IsMobile" ∈ last ∧ Requested r c!"IsMobile" ∧
    c!"IsMobile" ∉ (reloads isort av [first] vs).1.map (·.name) := by
  refine ⟨isort_isQsort, [c!"IsMobile", c!"Id"], .string c!"IsMobile,Id", [⟨1, c!"Id"⟩, ⟨0, c!"IsMobile"⟩],
    [[c!"Id"], [c!"IsMobile", c!"Id"]], [c!"IsMobile", c!"Id"], ?_, ?_, ?_, ?_, ?_, ?_, ?_⟩
  · simp [Distinct]; decide
  · simp [Distinct]; decide
  · decide +kernel
  · decide +kernel
  · simp
  · exact Or.inr ⟨c!"IsMobile", by decide, rfl⟩
  · decide +kernel

/-- C109 is violated for a request of everything: a property added by a newer version is not available. -/
theorem C109_all_violated : IsQsort isort ∧ ∃ (first : List CStr) (av : List Avail) (names : List CStr),
    Distinct first ∧ Distinct names ∧ initProperties isort first .all = some av ∧
    (reload isort av names).2 = true ∧ c!"Type" ∈ names ∧ c!"Type" ∉ (reload isort av names).1.map (·.name) := by
  refine ⟨isort_isQsort, [c!"Id"], [⟨0, c!"Id"⟩], [c!"Type", c!"Id"], ?_, ?_, ?_, ?_, ?_, ?_⟩
  · simp [Distinct]
  · simp [Distinct]; decide
  · decide +kernel
  · decide +kernel
  · simp
  · decide +kernel

/-- Three reloads, the second with data that have none of the properties: it is refused. -/
example : initProperties isort [c!"IsMobile", c!"Id", c!"Type"] (.string c!"type|nope,ID") =
      some [⟨1, c!"Id"⟩, ⟨2, c!"Type"⟩] ∧
    reloads isort [⟨1, c!"Id"⟩, ⟨2, c!"Type"⟩] [[c!"IsMobile", c!"Id", c!"Type"]]
        [[c!"Type", c!"id"], [c!"Other"], [c!"Other", c!"TYPE", c!"Id"]] =
      ([⟨2, c!"Id"⟩, ⟨1, c!"TYPE"⟩],
        [[c!"IsMobile", c!"Id", c!"Type"], [c!"Type", c!"id"], [c!"Other", c!"TYPE", c!"Id"]]) := by
  decide +kernel

example : Fit [c!"IsMobile", c!"Id"] [⟨1, c!"Id"⟩, ⟨0, c!"IsMobile"⟩] ∧
    (∀ a ∈ [(⟨1, c!"Id"⟩ : Avail), ⟨0, c!"IsMobile"⟩], Has [c!"Other", c!"ID", c!"IsMobile"] a.name) := by
  refine ⟨⟨by simp, ?_, by simp⟩, ?_⟩
  · simp only [List.pairwise_cons, ← stricmp_neg_iff]; simp; decide
  · simp [Has]; decide

end Verif.Properties
