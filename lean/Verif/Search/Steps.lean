import Verif.Search.Props

/-! # C107: how many items a binary search fetches -/

namespace Verif.Search

/-- What is left of a range on either side of its middle is at most half of it, so that the logarithm drops. -/
theorem log2_half {n k : Nat} (hn : 0 < n) (hk : k ≤ n / 2) (hk0 : 0 < k) : Nat.log2 k + 1 ≤ Nat.log2 n := by
  have h1 : 2 ^ Nat.log2 k ≤ k := Nat.log2_self_le (by omega)
  refine (Nat.le_log2 (by omega)).mpr ?_
  rw [Nat.pow_succ]
  omega

/-- The number of items that a search of `n` items can fetch. -/
def most (n : Nat) : Nat := if n = 0 then 0 else Nat.log2 n + 1

theorem most_half {n k : Nat} (hn : 0 < n) (hk : k ≤ n / 2) : most k + 1 ≤ most n := by
  unfold most
  rw [if_neg (show n ≠ 0 by omega)]
  split
  · omega
  · have := log2_half hn hk (by omega)
    omega

theorem loop_steps {α : Type} (c : Coll α) (hi : Nat) (hhi : hi < 2 ^ 32 - 1) :
    ∀ (n l u : Nat) (t : List Nat), u + 1 - l = n → u ≤ hi → t.Nodup → (∀ i ∈ t, i < l ∨ u < i) →
      ∀ fuel, most n < fuel → ∃ o, loop c fuel l u t = some o ∧ o.touched.length ≤ t.length + most n ∧ o.touched.Nodup := by
  intro n
  induction n using Nat.strongRecOn with
  | _ n ih =>
    intro l u t hn hu hd ht fuel hfuel
    obtain ⟨fuel, rfl⟩ : ∃ k, fuel = k + 1 := ⟨fuel - 1, by omega⟩
    by_cases hlu : l ≤ u
    · have hm : l + (u - l) / 2 ≤ u := by omega
      have hleft : (l + (u - l) / 2) - l ≤ n / 2 := by omega
      have hright : u - (l + (u - l) / 2) ≤ n / 2 := by omega
      have hm1 : l ≤ l + (u - l) / 2 := by omega
      have hone : 1 ≤ most n := by unfold most; split <;> omega
      simp only [loop, hlu, if_true]
      generalize l + (u - l) / 2 = m at *
      have hd' : (t ++ [m]).Nodup := by
        rw [List.nodup_append]
        refine ⟨hd, by simp, ?_⟩
        intro a ha b hb e
        simp at hb
        have := ht a ha
        omega
      have hlen : (t ++ [m]).length = t.length + 1 := by simp
      have hmem : ∀ {l' u' : Nat}, l ≤ l' → u' ≤ u → m < l' ∨ u' < m → ∀ i ∈ t ++ [m], i < l' ∨ u' < i := by
        intro l' u' h1 h2 h3 i hi'
        simp only [List.mem_append, List.mem_singleton] at hi'
        rcases hi' with h | rfl
        · have := ht i h; omega
        · omega
      have next : ∀ l' u', l ≤ l' → u' ≤ u → m < l' ∨ u' < m → u' + 1 - l' ≤ n / 2 → ∃ o, loop c fuel l' u' (t ++ [m]) = some o ∧
          o.touched.length ≤ t.length + most n ∧ o.touched.Nodup := by
        intro l' u' h1 h2 h3 h4
        have hh := most_half (n := n) (by omega) h4
        obtain ⟨o, e, b, d⟩ := ih (u' + 1 - l') (by omega) l' u' (t ++ [m]) rfl (by omega) hd' (hmem h1 h2 h3) fuel (by omega)
        exact ⟨o, e, by omega, d⟩
      cases hx : c.get m with
      | none => exact ⟨_, rfl, by simp only [hlen]; omega, hd'⟩
      | some x =>
        simp only
        cases hc : c.cmp x m with
        | none => exact ⟨_, rfl, by simp only [hlen]; omega, hd'⟩
        | some r =>
          simp only
          by_cases h0 : r = 0
          · simp only [h0, if_true]
            exact ⟨_, rfl, by simp only [hlen]; omega, hd'⟩
          · simp only [h0, if_false]
            by_cases hpos : r > 0
            · simp only [hpos, if_true]
              by_cases hm0 : m = 0
              · simp only [hm0, ne_eq, not_true_eq_false, if_false]
                rw [show (l + 1) % 2 ^ 32 = l + 1 from Nat.mod_eq_of_lt (by omega)]
                have := next (l + 1) u (by omega) (by omega) (by omega) (by omega)
                rwa [hm0] at this
              · simp only [ne_eq, hm0, not_false_eq_true, if_true]
                exact next l (m - 1) (by omega) (by omega) (by omega) (by omega)
            · simp only [hpos, if_false]
              rw [show (m + 1) % 2 ^ 32 = m + 1 from Nat.mod_eq_of_lt (by omega)]
              exact next (m + 1) u (by omega) (by omega) (by omega) (by omega)
    · simp only [loop, hlu, if_false]
      exact ⟨_, rfl, by simp, hd⟩

/-- C107: whatever the items and the comparer are, a search of the items `lo` to `hi` fetches at most `log2 n + 1` items, `n`
being their number, and none of them twice. -/
theorem C107_search {α : Type} (c : Coll α) (lo hi : Nat) (hle : lo ≤ hi) (hhi : hi < 2 ^ 32 - 1) (fuel : Nat)
    (hf : Nat.log2 (hi + 1 - lo) + 2 ≤ fuel) :
    ∃ o, search c fuel lo hi = some o ∧ o.touched.length ≤ Nat.log2 (hi + 1 - lo) + 1 ∧ o.touched.Nodup := by
  have hmost : most (hi + 1 - lo) = Nat.log2 (hi + 1 - lo) + 1 := by unfold most; rw [if_neg (by omega)]
  obtain ⟨o, e, b, d⟩ := loop_steps c hi hhi _ lo hi [] rfl (Nat.le_refl _) (by simp) (by simp) fuel (by omega)
  exact ⟨o, e, by rw [hmost] at b; simpa using b, d⟩

/-- An empty range: nothing is fetched. -/
theorem C107_empty {α : Type} (c : Coll α) (lo hi : Nat) (hlt : hi < lo) (fuel : Nat) (hf : 1 ≤ fuel) :
    search c fuel lo hi = some ⟨-1, false, [], none⟩ := by
  obtain ⟨fuel, rfl⟩ : ∃ k, fuel = k + 1 := ⟨fuel - 1, by omega⟩
  simp only [search, loop]
  rw [if_neg (by omega)]

/-- The bound is reached whenever the number of items is a power of two and all are smaller than what is sought. -/
theorem reach_bound (k : Nat) : ∀ (l : Nat) (t : List Nat), l + 2 ^ k < 2 ^ 32 → ∃ o,
    loop (⟨fun i => some i, fun _ _ => some (-1), fun _ => false⟩ : Coll Nat) (k + 2) l (l + 2 ^ k - 1) t = some o ∧
      o.touched.length = t.length + k + 1 := by
  induction k with
  | zero =>
    intro l t h
    simp only [Nat.pow_zero] at h
    refine ⟨⟨-1, false, t ++ [l], none⟩, ?_, by simp⟩
    simp only [loop]
    have h1 : l + 2 ^ 0 - 1 = l := by simp
    rw [h1]
    simp only [Nat.le_refl, if_true, Nat.sub_self, Nat.zero_div, Nat.add_zero]
    rw [show (l + 1) % 2 ^ 32 = l + 1 from Nat.mod_eq_of_lt (by omega)]
    simp
  | succ k ih =>
    intro l t h
    have hp : 2 ^ (k + 1) = 2 * 2 ^ k := by rw [Nat.pow_succ]; omega
    have hpos : 0 < 2 ^ k := Nat.pow_pos (by omega)
    have hm : l + (l + 2 ^ (k + 1) - 1 - l) / 2 = l + 2 ^ k - 1 := by omega
    rw [loop]
    rw [if_pos (show l ≤ l + 2 ^ (k + 1) - 1 by omega)]
    simp only [hm]
    rw [show (l + 2 ^ k - 1 + 1) % 2 ^ 32 = l + 2 ^ k from by rw [Nat.mod_eq_of_lt (by omega)]; omega]
    rw [show l + 2 ^ (k + 1) - 1 = (l + 2 ^ k) + 2 ^ k - 1 by omega]
    obtain ⟨o, e, b⟩ := ih (l + 2 ^ k) (t ++ [l + 2 ^ k - 1]) (by omega)
    refine ⟨o, ?_, by simp at b; omega⟩
    simpa using e

/-- C107: the bound can not be lowered: for every `k` below 32, a search of `2 ^ k` items that are all smaller than what is
sought fetches `k + 1` of them. -/
theorem C107_tight (k : Nat) (hk : k < 32) : ∃ (c : Coll Nat) (o : Out),
    search c (k + 2) 0 (2 ^ k - 1) = some o ∧ o.touched.length = Nat.log2 (2 ^ k) + 1 := by
  have hlt : 2 ^ k < 2 ^ 32 := Nat.pow_lt_pow_right (by omega) hk
  obtain ⟨o, e, b⟩ := reach_bound k 0 [] (by omega)
  refine ⟨_, o, by simpa [search] using e, ?_⟩
  rw [Nat.log2_two_pow]
  simpa using b

/-- The squares 4 to 81 are eight items: a search for 49 fetches two of them, the bound being four. -/
example : search squares 5 2 9 = some ⟨7, false, [5, 7], some 7⟩ ∧ Nat.log2 (9 + 1 - 2) + 1 = 4 := by decide

/-- An item that compares in no order: the search still ends within the bound. -/
example : (search (⟨fun i => some i, fun i _ => some (if i % 2 = 0 then 1 else -1), fun _ => false⟩ : Coll Nat) 8 0 99).map
    (fun o => (o.touched, o.ret)) = some ([49, 74, 61, 67, 70, 68], -1) ∧ Nat.log2 100 + 1 = 7 := by decide

end Verif.Search
