import Verif.Search.Steps
import Verif.Record.Values

/-! # C107: how many items the searches in collections fetch

The searches here run on collections of any kind, with their caches and files; `probes` counts the gets, and
tells a search which has not come to its end from one that has and from undefined behaviour. -/

namespace Verif.Record

open Verif.Collection
open Verif.Search (most most_half)

theorem most_pos {n : Nat} (h : 0 < n) : 1 ≤ most n := by unfold most; split <;> omega

/-- What the body of the loop of a search comes to: something undefined, the end of the search, or a further round from these
bounds. -/
inductive Probe where
  | undefined
  | ended (r : SearchEnd)
  | on (s : State) (item : Item) (t : State) (lower upper : Nat)

/-- One check of the condition of the loop of `fiftyoneDegreesCollectionBinarySearch` and, if it holds, one run of its body,
collection.c:1190-1223: the number of gets, 0 or 1, and what follows. -/
def probe (file : CStr) (fuel : Nat) (c : Coll) (cmp : CStr → State → UB (Int × State × Option Err)) (s : State) (item : Item) (t : State)
    (lower upper : Nat) : Nat × Probe :=
  if upper < lower then (0, .ended ⟨-1, s, item, t, none⟩)
  else
    let middle := lower + (upper - lower) / 2
    (1, match c.get file fuel s (UInt32.ofNat middle) item with
      | none => .undefined
      | some g =>
        if g.ptr = none ∨ g.err ≠ none then .ended ⟨0, g.state, g.item, t, g.err⟩
        else
          match (bytesAt g.state g.item).bind (cmp · t) with
          | none => .undefined
          | some (r, t, e) =>
            if e ≠ none then .ended ⟨0, g.state, g.item, t, e⟩
            else if r = 0 then .ended ⟨middle, g.state, g.item, t, none⟩
            else
              match c.release fuel g.state g.item with
              | none => .undefined
              | some (s, item) =>
                if r > 0 then
                  if middle ≠ 0 then .on s item t lower (middle - 1) else .on s item t ((lower + 1) % 2 ^ 32) upper
                else .on s item t ((middle + 1) % 2 ^ 32) upper)

/-- Up to `n` rounds: the number of gets, and how it stands then. -/
def probes (file : CStr) (fuel : Nat) (c : Coll) (cmp : CStr → State → UB (Int × State × Option Err)) :
    Nat → State → Item → State → Nat → Nat → Nat × Probe
  | 0, s, item, t, lower, upper => (0, .on s item t lower upper)
  | n + 1, s, item, t, lower, upper =>
    match probe file fuel c cmp s item t lower upper with
    | (k, .on s item t lower upper) => (k + (probes file fuel c cmp n s item t lower upper).1, (probes file fuel c cmp n s item t lower upper).2)
    | r => r

/-- What a search returns when it stands like this: `none` is undefined. -/
def Probe.result : Probe → UB SearchEnd
  | .ended r => some r
  | _ => none

/-- The search is over: it has returned, or something undefined has happened. -/
def Probe.over : Probe → Prop
  | .on .. => False
  | _ => True

/-- The search of `Verif/Record/Values.lean` is these rounds. -/
theorem searchWith_probes (file : CStr) (fuel : Nat) (c : Coll) (cmp : CStr → State → UB (Int × State × Option Err)) :
    ∀ (n : Nat) (s : State) (item : Item) (t : State) (l u : Nat),
      searchWith file fuel c cmp n s item t l u = (probes file fuel c cmp n s item t l u).2.result := by
  intro n
  induction n with
  | zero => intro s item t l u; rfl
  | succ n ih =>
    intro s item t l u
    simp only [searchWith, probes, probe]
    by_cases hlu : u < l
    · rw [if_neg (by omega), if_pos hlu]; rfl
    · rw [if_pos (by omega), if_neg hlu]
      generalize l + (u - l) / 2 = m
      cases c.get file fuel s (UInt32.ofNat m) item with
      | none => rfl
      | some g =>
        simp only
        by_cases hg : g.ptr = none ∨ g.err ≠ none
        · simp only [if_pos hg]; rfl
        · simp only [if_neg hg]
          cases (bytesAt g.state g.item).bind (cmp · t) with
          | none => rfl
          | some x =>
            obtain ⟨r, t', e⟩ := x
            simp only
            by_cases he : e ≠ none
            · simp only [if_pos he]; rfl
            · simp only [if_neg he]
              by_cases h0 : r = 0
              · simp only [if_pos h0]; rfl
              · simp only [if_neg h0]
                cases c.release fuel g.state g.item with
                | none => rfl
                | some x =>
                  obtain ⟨s', item'⟩ := x
                  simp only
                  by_cases hpos : r > 0
                  · simp only [if_pos hpos]
                    by_cases hm0 : m ≠ 0
                    · simp only [if_pos hm0]; exact ih ..
                    · simp only [if_neg hm0]; exact ih ..
                  · simp only [if_neg hpos]; exact ih ..

/-- The search of `Verif/Record/Model.lean` is the same with a comparer that needs no strings and sets no exception. -/
theorem searchLoop_with (file : CStr) (fuel : Nat) (c : Coll) (cmp : CStr → UB Int) (t : State) :
    ∀ (n : Nat) (s : State) (item : Item) (l u : Nat),
      searchLoop file fuel c cmp n s item l u =
        (searchWith file fuel c (fun b t => (cmp b).map fun r => (r, t, none)) n s item t l u).map fun r =>
          (r.ret, r.values, r.item, r.err) := by
  intro n
  induction n with
  | zero => intro s item l u; rfl
  | succ n ih =>
    intro s item l u
    simp only [searchLoop, searchWith]
    by_cases hlu : l ≤ u
    · rw [if_pos hlu, if_pos hlu]
      generalize l + (u - l) / 2 = m
      cases c.get file fuel s (UInt32.ofNat m) item with
      | none => rfl
      | some g =>
        simp only
        by_cases hg : g.ptr = none ∨ g.err ≠ none
        · simp only [if_pos hg]; rfl
        · simp only [if_neg hg]
          cases bytesAt g.state g.item with
          | none => rfl
          | some b =>
            simp only [Option.bind_some]
            cases cmp b with
            | none => rfl
            | some r =>
              simp only [Option.map_some, ne_eq, not_true_eq_false, if_false]
              by_cases h0 : r = 0
              · simp only [if_pos h0]; rfl
              · simp only [if_neg h0]
                cases c.release fuel g.state g.item with
                | none => rfl
                | some x =>
                  obtain ⟨s', item'⟩ := x
                  simp only
                  by_cases hpos : r > 0
                  · simp only [if_pos hpos]
                    by_cases hm0 : m = 0
                    · simp only [hm0, not_true_eq_false, if_false]; exact ih ..
                    · simp only [hm0, not_false_eq_true, if_true]; exact ih ..
                  · simp only [if_neg hpos]; exact ih ..
    · rw [if_neg hlu, if_neg hlu]; rfl

/-- A round that does not end the search leaves at most half of the range. -/
theorem probe_half {file : CStr} {fuel : Nat} {c : Coll} {cmp : CStr → State → UB (Int × State × Option Err)} {s : State} {item : Item}
    {t : State} {l u : Nat} (hu : u < 2 ^ 32 - 1) :
    (probe file fuel c cmp s item t l u).1 = (if u < l then 0 else 1) ∧
    ((probe file fuel c cmp s item t l u).2.over ∨ ∃ s' item' t' l' u',
      (probe file fuel c cmp s item t l u).2 = .on s' item' t' l' u' ∧ u' ≤ u ∧ l ≤ u ∧ u' + 1 - l' ≤ (u + 1 - l) / 2) := by
  unfold probe
  by_cases hlu : u < l
  · rw [if_pos hlu, if_pos hlu]; exact ⟨rfl, .inl trivial⟩
  · rw [if_neg hlu, if_neg hlu]
    refine ⟨rfl, ?_⟩
    have hleft : (l + (u - l) / 2) - l ≤ (u + 1 - l) / 2 := by omega
    have hright : u - (l + (u - l) / 2) ≤ (u + 1 - l) / 2 := by omega
    have hm1 : l ≤ l + (u - l) / 2 := by omega
    have hm2 : l + (u - l) / 2 ≤ u := by omega
    generalize l + (u - l) / 2 = m at *
    simp only
    cases c.get file fuel s (UInt32.ofNat m) item with
    | none => exact .inl trivial
    | some g =>
      simp only
      by_cases hg : g.ptr = none ∨ g.err ≠ none
      · rw [if_pos hg]; exact .inl trivial
      · rw [if_neg hg]
        cases (bytesAt g.state g.item).bind (cmp · t) with
        | none => exact .inl trivial
        | some x =>
          obtain ⟨r, t', e⟩ := x
          simp only
          by_cases he : e ≠ none
          · rw [if_pos he]; exact .inl trivial
          · rw [if_neg he]
            by_cases h0 : r = 0
            · rw [if_pos h0]; exact .inl trivial
            · rw [if_neg h0]
              cases c.release fuel g.state g.item with
              | none => exact .inl trivial
              | some x =>
                obtain ⟨s', item'⟩ := x
                simp only
                by_cases hpos : r > 0
                · rw [if_pos hpos]
                  by_cases hm0 : m ≠ 0
                  · rw [if_pos hm0]
                    exact .inr ⟨_, _, _, _, _, rfl, by omega, by omega, by omega⟩
                  · rw [if_neg hm0]
                    refine .inr ⟨_, _, _, _, _, rfl, by omega, by omega, ?_⟩
                    rw [show (l + 1) % 2 ^ 32 = l + 1 from Nat.mod_eq_of_lt (by omega)]
                    omega
                · rw [if_neg hpos]
                  refine .inr ⟨_, _, _, _, _, rfl, by omega, by omega, ?_⟩
                  rw [show (m + 1) % 2 ^ 32 = m + 1 from Nat.mod_eq_of_lt (by omega)]
                  omega

theorem probes_over (file : CStr) (fuel : Nat) (c : Coll) (cmp : CStr → State → UB (Int × State × Option Err)) :
    ∀ (n : Nat) (s : State) (item : Item) (t : State) (l u : Nat), u < 2 ^ 32 - 1 → most (u + 1 - l) < n →
      (probes file fuel c cmp n s item t l u).1 ≤ most (u + 1 - l) ∧ (probes file fuel c cmp n s item t l u).2.over := by
  intro n
  induction n with
  | zero => intro s item t l u _ h; omega
  | succ n ih =>
    intro s item t l u hu hn
    obtain ⟨h1, h2⟩ := probe_half (file := file) (fuel := fuel) (c := c) (cmp := cmp) (s := s) (item := item) (t := t) (l := l) hu
    have hk : (if u < l then 0 else 1) ≤ most (u + 1 - l) := by
      split
      · omega
      · exact most_pos (by omega)
    simp only [probes]
    cases hr : probe file fuel c cmp s item t l u with
    | mk k r =>
      rw [hr] at h1 h2
      simp only at h1 h2
      rcases h2 with ho | ⟨s', item', t', l', u', e, b1, b2, b3⟩
      · cases r with
        | on => exact ho.elim
        | undefined => exact ⟨by simp only; omega, trivial⟩
        | ended => exact ⟨by simp only; omega, trivial⟩
      · subst e
        simp only
        have hh := most_half (n := u + 1 - l) (by omega) b3
        obtain ⟨x, y⟩ := ih s' item' t' l' u' (by omega) (by omega)
        rw [if_neg (by omega)] at h1
        exact ⟨by omega, y⟩

theorem most_eq {n : Nat} (h : 0 < n) : most n = Nat.log2 n + 1 := by unfold most; rw [if_neg (by omega)]

/-- C107: a search of the items `lo` to `hi` in a collection of any kind, in any state of its cache and with any comparer, is over after
at most `log2 n + 1` gets, `n` being the number of the items, whatever fails. `searchWith` is that search. -/
theorem C107_collection (file : CStr) (fuel : Nat) (c : Coll) (cmp : CStr → State → UB (Int × State × Option Err)) (s : State) (item : Item)
    (t : State) (lo hi : Nat) (hle : lo ≤ hi) (hhi : hi < 2 ^ 32 - 1) (rounds : Nat) (hr : Nat.log2 (hi + 1 - lo) + 2 ≤ rounds) :
    (probes file fuel c cmp rounds s item t lo hi).1 ≤ Nat.log2 (hi + 1 - lo) + 1 ∧
    (probes file fuel c cmp rounds s item t lo hi).2.over ∧
    searchWith file fuel c cmp rounds s item t lo hi = (probes file fuel c cmp rounds s item t lo hi).2.result := by
  have hm := most_eq (n := hi + 1 - lo) (by omega)
  obtain ⟨a, b⟩ := probes_over file fuel c cmp rounds s item t lo hi hhi (by omega)
  exact ⟨by omega, b, searchWith_probes ..⟩

/-- C107: the same for the search for the profile with an id in a table of `n` offsets, sorted or not. -/
theorem C107_profiles (file : CStr) (fuel : Nat) (c : Coll) (s t : State) (id : Nat) (hne : 0 < c.getCount) (hlt : c.getCount < 2 ^ 32)
    (rounds : Nat) (hr : Nat.log2 c.getCount + 2 ≤ rounds) :
    ∃ r : Nat × Probe, r = probes file fuel c (fun b t => (compareProfileId id b).map fun x => (x, t, none)) rounds s Item.new t 0
        (c.getCount - 1) ∧ r.1 ≤ Nat.log2 c.getCount + 1 ∧ r.2.over ∧
      search file fuel c (compareProfileId id) rounds s 0 ((c.getCount + (2 ^ 32 - 1)) % 2 ^ 32) =
        r.2.result.map fun x => (x.ret, x.values, x.item, x.err) := by
  have hu : (c.getCount + (2 ^ 32 - 1)) % 2 ^ 32 = c.getCount - 1 := by omega
  have hn : c.getCount - 1 + 1 - 0 = c.getCount := by omega
  obtain ⟨a, b, d⟩ := C107_collection file fuel c (fun b t => (compareProfileId id b).map fun x => (x, t, none)) s Item.new t 0
    (c.getCount - 1) (by omega) (by omega) rounds (by rw [hn]; omega)
  rw [hn] at a
  refine ⟨_, rfl, a, b, ?_⟩
  rw [hu, search, searchLoop_with file fuel c _ t, d]

/-- C107: the same for the search for a value by its name among the values `first` to `last` of a property. -/
theorem C107_values (file : CStr) (fuel : Nat) (values strings : Coll) (e : Lookup.Env) (q : Profile.Property) (target : CStr)
    (s t : State) (item : Item) (hle : q.first ≤ q.last) (hlt : q.last < 2 ^ 32 - 1) (rounds : Nat)
    (hr : Nat.log2 (q.last + 1 - q.first) + 2 ≤ rounds) :
    ∃ r r' : Nat × Probe,
      r = probes file fuel values (compareValue file fuel strings e target) rounds s Item.new t q.first q.last ∧
      r' = probes file fuel values (compareValue file fuel strings e target) rounds s (resetItem item) t q.first q.last ∧
      (r.1 ≤ Nat.log2 (q.last + 1 - q.first) + 1 ∧ r.2.over) ∧ (r'.1 ≤ Nat.log2 (q.last + 1 - q.first) + 1 ∧ r'.2.over) ∧
      valueIndex file fuel values strings e rounds q target s t = r.2.result.bind (releaseAfter fuel values q) ∧
      valueByName file fuel values strings e rounds q target s item t =
        r'.2.result.map fun x => (decide (x.ret ≥ 0 ∧ x.err = none) && x.item.ptr.isSome, x) := by
  obtain ⟨a, b, d⟩ := C107_collection file fuel values (compareValue file fuel strings e target) s Item.new t q.first q.last hle hlt
    rounds hr
  obtain ⟨a', b', d'⟩ := C107_collection file fuel values (compareValue file fuel strings e target) s (resetItem item) t q.first q.last
    hle hlt rounds hr
  refine ⟨_, _, rfl, rfl, ⟨a, b⟩, ⟨a', b'⟩, by rw [valueIndex, d], ?_⟩
  rw [valueByName, if_pos, d']
  rw [Nat.mod_eq_of_lt (by omega)]
  omega

/-- The table of three profiles: the look-up of one that is not there fetches two offsets. -/
example : ((newState 2).map fun s => (probes someFile 12 (made someFile ⟨0, 0, 0⟩ tableHeader .fixed)
    (fun b t => (compareProfileId 8 b).map fun x => (x, t, none)) 3 s Item.new s 0 2).1) = some 2 ∧ Nat.log2 3 + 1 = 2 := by
  decide +kernel

end Verif.Record
