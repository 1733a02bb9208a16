import Verif.Search.Model

/-! # C14: binary search -/

namespace Verif.Search

/-- The comparison at an index, when fetching and comparing succeed. -/
def at? {α : Type} (c : Coll α) (i : Nat) : Option Int := (c.get i).bind fun x => c.cmp x i

/-- Between `lo` and `hi` every item can be fetched and compared, and the comparisons are ordered: once equal
or greater, never smaller again; once greater, always greater. -/
structure Ordered {α : Type} (c : Coll α) (lo hi : Nat) : Prop where
  total : ∀ i, lo ≤ i → i ≤ hi → ∃ r, at? c i = some r
  mono : ∀ i j r s, lo ≤ i → i ≤ j → j ≤ hi → at? c i = some r → at? c j = some s →
    (0 ≤ r → 0 ≤ s) ∧ (0 < r → 0 < s)

theorem loop_spec {α : Type} (c : Coll α) (lo hi : Nat) (hord : Ordered c lo hi) (hhi : hi < 2 ^ 32 - 1) :
    ∀ (n l u : Nat) (t : List Nat), u + 1 - l = n → lo ≤ l → u ≤ hi → (∀ i ∈ t, lo ≤ i ∧ i ≤ hi) →
      (∀ i, lo ≤ i → i < l → at? c i ≠ some 0) → (∀ i, u < i → i ≤ hi → at? c i ≠ some 0) →
      ∀ fuel, n < fuel → ∃ o, loop c fuel l u t = some o ∧ o.error = false ∧
        (∀ i ∈ o.touched, lo ≤ i ∧ i ≤ hi) ∧
        ((∃ i : Nat, o.ret = (i : Int) ∧ lo ≤ i ∧ i ≤ hi ∧ at? c i = some 0 ∧ o.held = some i) ∨
         (o.ret = -1 ∧ o.held = none ∧ ∀ i, lo ≤ i → i ≤ hi → at? c i ≠ some 0)) := by
  intro n
  induction n using Nat.strongRecOn with
  | _ n ih =>
    intro l u t hn hl hu ht hlow hup fuel hfuel
    obtain ⟨fuel, rfl⟩ : ∃ k, fuel = k + 1 := ⟨fuel - 1, by omega⟩
    by_cases hlu : l ≤ u
    · have hm1 : l ≤ l + (u - l) / 2 := by omega
      have hm2 : l + (u - l) / 2 ≤ u := by omega
      simp only [loop, hlu, if_true]
      generalize l + (u - l) / 2 = m at *
      obtain ⟨r, hr⟩ := hord.total m (by omega) (by omega)
      have ht' : ∀ i ∈ t ++ [m], lo ≤ i ∧ i ≤ hi := by
        intro i hi'
        simp only [List.mem_append, List.mem_singleton] at hi'
        rcases hi' with h | rfl
        · exact ht i h
        · omega
      have hrr := hr
      simp only [at?, Option.bind_eq_some_iff] at hrr
      obtain ⟨x, hx, hc⟩ := hrr
      simp only [hx, hc]
      by_cases h0 : r = 0
      · subst h0
        simp only [if_true]
        exact ⟨_, rfl, rfl, ht', Or.inl ⟨m, rfl, by omega, by omega, hr, rfl⟩⟩
      · simp only [h0, if_false]
        by_cases hpos : r > 0
        · simp only [hpos, if_true]
          have hgt : ∀ i, m ≤ i → i ≤ hi → at? c i ≠ some 0 := by
            intro i h1 h2 h3
            have := (hord.mono m i r 0 (by omega) h1 h2 hr h3).2 hpos
            omega
          by_cases hm0 : m = 0
          · simp only [hm0, ne_eq, not_true_eq_false, if_false]
            have hl0 : l = 0 := by omega
            have hmod : (l + 1) % 2 ^ 32 = l + 1 := Nat.mod_eq_of_lt (by omega)
            rw [hmod]
            refine ih (u + 1 - (l + 1)) (by omega) (l + 1) u _ rfl (by omega) hu (hm0 ▸ ht') ?_ hup fuel (by omega)
            intro i h1 h2
            have : i = 0 := by omega
            exact hgt i (by omega) (by omega)
          · simp only [ne_eq, hm0, not_false_eq_true, if_true]
            refine ih (m - 1 + 1 - l) (by omega) l (m - 1) _ rfl hl (by omega) ht' hlow ?_ fuel (by omega)
            intro i h1 h2
            exact hgt i (by omega) h2
        · simp only [hpos, if_false]
          have hmod : (m + 1) % 2 ^ 32 = m + 1 := Nat.mod_eq_of_lt (by omega)
          rw [hmod]
          refine ih (u + 1 - (m + 1)) (by omega) (m + 1) u _ rfl (by omega) hu ht' ?_ hup fuel (by omega)
          intro i h1 h2 h3
          have := (hord.mono i m 0 r h1 (by omega) (by omega) h3 hr).1 (by omega)
          omega
    · simp only [loop, hlu, if_false]
      refine ⟨_, rfl, rfl, ht, Or.inr ⟨rfl, rfl, ?_⟩⟩
      intro i h1 h2
      by_cases h : i < l
      · exact hlow i h1 h
      · exact hup i (by omega) h2

/-- C14: searching an ordered range finishes, fetches only items of the range, and returns an index whose item
compares equal, holding that item, or -1 holding nothing when no item of the range compares equal. The upper
index must not be the largest `uint32_t` (`C14_violated`). -/
theorem C14_search_partial {α : Type} (c : Coll α) (lo hi : Nat) (hord : Ordered c lo hi) (hhi : hi < 2 ^ 32 - 1)
    (fuel : Nat) (hf : hi + 2 ≤ fuel) :
    ∃ o, search c fuel lo hi = some o ∧ o.error = false ∧ (∀ i ∈ o.touched, lo ≤ i ∧ i ≤ hi) ∧
      ((∃ i : Nat, o.ret = (i : Int) ∧ lo ≤ i ∧ i ≤ hi ∧ at? c i = some 0 ∧ o.held = some i) ∨
       (o.ret = -1 ∧ o.held = none ∧ ∀ i, lo ≤ i → i ≤ hi → at? c i ≠ some 0)) :=
  loop_spec c lo hi hord hhi _ lo hi [] rfl (Nat.le_refl _) (Nat.le_refl _) (by simp) (by omega)
    (by omega) fuel (by omega)

/-- C14 fails when the upper index is the largest `uint32_t` (as for an empty collection searched up to
`count - 1`): a search of the single item 2^32-1, smaller than what is sought, goes on to item 2^31-1. -/
theorem C14_violated : ∃ c : Coll Unit, Ordered c (2 ^ 32 - 1) (2 ^ 32 - 1) ∧
    ∃ fuel o, search c fuel (2 ^ 32 - 1) (2 ^ 32 - 1) = some o ∧ 2 ^ 31 - 1 ∈ o.touched := by
  refine ⟨⟨fun i => if i = 2 ^ 32 - 1 then some () else none, fun _ _ => some (-1), fun _ => true⟩, ⟨?_, ?_⟩, 3,
    ⟨0, true, [2 ^ 32 - 1, 2 ^ 31 - 1], none⟩, ?_, by decide⟩
  · intro i h1 h2
    exact ⟨-1, by simp [at?, show i = 4294967295 by omega]⟩
  · intro i j r s h1 h2 h3 hr hs
    simp [at?, show i = 4294967295 by omega] at hr
    omega
  · simp [search, loop]

theorem loop_any {α : Type} (c : Coll α) (lo hi : Nat) (hhi : hi < 2 ^ 32 - 1) :
    ∀ (n l u : Nat) (t : List Nat), u + 1 - l = n → lo ≤ l → u ≤ hi → (∀ i ∈ t, lo ≤ i ∧ i ≤ hi) →
      ∀ fuel, n < fuel → ∃ o, loop c fuel l u t = some o ∧ (∀ i ∈ o.touched, lo ≤ i ∧ i ≤ hi) ∧
        ((∃ i : Nat, o.ret = (i : Int) ∧ o.error = false ∧ at? c i = some 0 ∧ o.held = some i ∧ o.touched.getLast? = some i) ∨
         (o.ret = -1 ∧ o.error = false ∧ o.held = none) ∨
         (∃ i, o.touched.getLast? = some i ∧ o.ret = 0 ∧
           ((c.get i = none ∧ o.error = c.raises i ∧ o.held = none) ∨
            (c.get i ≠ none ∧ at? c i = none ∧ o.error = true ∧ o.held = some i)))) := by
  intro n
  induction n using Nat.strongRecOn with
  | _ n ih =>
    intro l u t hn hl hu ht fuel hfuel
    obtain ⟨fuel, rfl⟩ : ∃ k, fuel = k + 1 := ⟨fuel - 1, by omega⟩
    by_cases hlu : l ≤ u
    · have hm1 : l ≤ l + (u - l) / 2 := by omega
      have hm2 : l + (u - l) / 2 ≤ u := by omega
      simp only [loop, hlu, if_true]
      generalize l + (u - l) / 2 = m at *
      have ht' : ∀ i ∈ t ++ [m], lo ≤ i ∧ i ≤ hi := by
        intro i hi'
        simp only [List.mem_append, List.mem_singleton] at hi'
        rcases hi' with h | rfl
        · exact ht i h
        · omega
      cases hx : c.get m with
      | none => exact ⟨_, rfl, ht', .inr (.inr ⟨m, by simp, rfl, .inl ⟨hx, rfl, rfl⟩⟩)⟩
      | some x =>
        simp only
        cases hc : c.cmp x m with
        | none =>
          exact ⟨_, rfl, ht', .inr (.inr ⟨m, by simp, rfl, .inr ⟨by simp [hx], by simp [at?, hx, hc], rfl, rfl⟩⟩)⟩
        | some r =>
          simp only
          by_cases h0 : r = 0
          · subst h0
            simp only [if_true]
            exact ⟨_, rfl, ht', .inl ⟨m, rfl, rfl, by simp [at?, hx, hc], rfl, by simp⟩⟩
          · simp only [h0, if_false]
            by_cases hpos : r > 0
            · simp only [hpos, if_true]
              by_cases hm0 : m = 0
              · simp only [hm0, ne_eq, not_true_eq_false, if_false]
                have hmod : (l + 1) % 2 ^ 32 = l + 1 := Nat.mod_eq_of_lt (by omega)
                rw [hmod]
                exact ih (u + 1 - (l + 1)) (by omega) (l + 1) u _ rfl (by omega) hu (hm0 ▸ ht') fuel (by omega)
              · simp only [ne_eq, hm0, not_false_eq_true, if_true]
                exact ih (m - 1 + 1 - l) (by omega) l (m - 1) _ rfl hl (by omega) ht' fuel (by omega)
            · simp only [hpos, if_false]
              have hmod : (m + 1) % 2 ^ 32 = m + 1 := Nat.mod_eq_of_lt (by omega)
              rw [hmod]
              exact ih (u + 1 - (m + 1)) (by omega) (m + 1) u _ rfl (by omega) hu ht' fuel (by omega)
    · simp only [loop, hlu, if_false]
      exact ⟨_, rfl, ht, .inr (.inl ⟨rfl, rfl, rfl⟩)⟩

/-- C14: in any collection, ordered or not, and whatever fails, a search finishes and fetches only items of the range.
If it returns an index with no exception, having fetched that item, then the item compares equal and is held; -1 means no
exception and nothing held. A failure returns 0: if the last item fetched could not be got, nothing is held; if it could
not be compared, there is an exception, and the item is still held, for the caller to release. -/
theorem C14_failures {α : Type} (c : Coll α) (lo hi : Nat) (hhi : hi < 2 ^ 32 - 1) (fuel : Nat) (hf : hi + 2 ≤ fuel) :
    ∃ o, search c fuel lo hi = some o ∧ (∀ i ∈ o.touched, lo ≤ i ∧ i ≤ hi) ∧
      ((∃ i : Nat, o.ret = (i : Int) ∧ o.error = false ∧ at? c i = some 0 ∧ o.held = some i ∧ o.touched.getLast? = some i) ∨
       (o.ret = -1 ∧ o.error = false ∧ o.held = none) ∨
       (∃ i, o.touched.getLast? = some i ∧ o.ret = 0 ∧
         ((c.get i = none ∧ o.error = c.raises i ∧ o.held = none) ∨
          (c.get i ≠ none ∧ at? c i = none ∧ o.error = true ∧ o.held = some i)))) :=
  loop_any c lo hi hhi _ lo hi [] rfl (Nat.le_refl _) (Nat.le_refl _) (by simp) fuel (by omega)

/-- C14 fails when the collection returns NULL without an exception, as it does when its cache is full: the search of
three items which are all smaller returns index 0 and no exception. -/
theorem C14_null_violated :
    search (⟨fun i => if i = 1 then none else some i, fun _ _ => some (-1), fun _ => false⟩ : Coll Nat) 5 0 2 =
      some ⟨0, false, [1], none⟩ := by decide

/-- A comparison that fails. -/
example : search (⟨fun i => some i, fun _ i => if i = 4 then none else some (-1), fun _ => true⟩ : Coll Nat) 11 0 5 =
    some ⟨0, true, [2, 4], some 4⟩ := by decide

/-- Squares 0, 1, 4, ... 81, searched for 49. -/
def squares : Coll Nat := ⟨fun i => if i < 10 then some (i * i) else none, fun x _ => some ((x : Int) - 49), fun _ => true⟩

theorem squares_ordered : Ordered squares 2 9 := by
  have h : ∀ i, i < 10 → at? squares i = some ((i * i : Nat) - 49 : Int) := by
    intro i hi; simp [at?, squares, hi]
  refine ⟨fun i _ h2 => ⟨_, h i (by omega)⟩, ?_⟩
  intro i j r s h1 h2 h3 hr hs
  rw [h i (by omega)] at hr
  rw [h j (by omega)] at hs
  have : i * i ≤ j * j := Nat.mul_le_mul h2 h2
  simp only [Option.some.injEq] at hr hs
  omega

example : search squares 11 2 9 = some ⟨7, false, [5, 7], some 7⟩ := by decide
example : (search squares 11 0 3).map (·.ret) = some (-1) := by decide

end Verif.Search
