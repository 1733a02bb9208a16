import Verif.Lst.Model

/-! # C35: lists release every item exactly once -/

namespace Verif.Lst

/-- The items added by a sequence of operations, in order. -/
def added : List Op → List Nat
  | [] => []
  | .add i :: os => i :: added os
  | _ :: os => added os

/-- `n` is how many items are in the list before the operations, `c` its capacity (0 without an array):
initialising or resetting happens only when the list is freed or new, and adding only while there is
room. -/
def Ok : Nat → Nat → Bool → List Op → Prop
  | _, _, _, [] => True
  | n, _, arr, .init cap ok :: os => n = 0 ∧ arr = false ∧ Ok 0 cap ok os
  | n, c, arr, .add _ :: os => arr = true ∧ n < c ∧ Ok (n + 1) c arr os
  | n, c, arr, .reset :: os => n = 0 ∧ arr = false ∧ Ok n c arr os
  | _, c, arr, .release :: os => Ok 0 c arr os
  | _, _, _, .free :: os => Ok 0 0 false os

theorem run_spec (os : List Op) (s : St) (harr : s.array = false → s.items = [])
    (hok : Ok s.items.length s.capacity s.array os) :
    ∃ t, run s os = some t ∧ t.released ++ t.items = s.released ++ s.items ++ added os ∧
      t.allocs + s.frees + (if s.array then 1 else 0) = s.allocs + t.frees + (if t.array then 1 else 0) := by
  induction os generalizing s with
  | nil => exact ⟨s, rfl, by simp [added], by omega⟩
  | cons o os ih =>
    cases o with
    | init cap ok =>
      obtain ⟨h1, h2, h3⟩ := hok
      have h1' : s.items = [] := List.length_eq_zero_iff.mp h1
      cases ok with
      | true =>
        obtain ⟨t, r1, r2, r3⟩ := ih (init s cap true) (by simp [init]) (by simpa [init] using h3)
        refine ⟨t, by simpa [run, step] using r1, by simpa [init, h1', added] using r2, ?_⟩
        simp [init, h2] at r3 ⊢
        omega
      | false =>
        obtain ⟨t, r1, r2, r3⟩ := ih (init s cap false) (by simp [init, h1']) (by
          simp only [init, Bool.false_eq_true, if_false, h1']
          revert h3
          clear ih harr h1 h2 h1'
          suffices h : ∀ os n c c', Ok n c false os → Ok n c' false os from fun h' => h os 0 cap s.capacity h'
          intro os
          induction os with
          | nil => simp [Ok]
          | cons o os ih =>
            intro n c c' h
            cases o with
            | init a b => exact h
            | add i => exact absurd h.1 (by simp)
            | reset => exact ⟨h.1, h.2.1, ih _ _ _ h.2.2⟩
            | release => exact ih _ _ _ h
            | free => exact h)
        refine ⟨t, by simpa [run, step] using r1, by simpa [init, h1', added] using r2, ?_⟩
        simp [init, h2] at r3 ⊢
        omega
    | add i =>
      obtain ⟨h1, h2, h3⟩ := hok
      obtain ⟨t, r1, r2, r3⟩ := ih { s with items := s.items ++ [i] } (by simp [h1]) (by simpa using h3)
      refine ⟨t, by simpa [run, step, add, h1, h2] using r1, by simpa [added] using r2, by simpa using r3⟩
    | reset =>
      obtain ⟨h1, h2, h3⟩ := hok
      have h1' : s.items = [] := List.length_eq_zero_iff.mp h1
      obtain ⟨t, r1, r2, r3⟩ := ih (reset s) (by simp [reset]) (by
        simp only [reset, List.length_nil]
        rw [h1, h2] at h3
        revert h3
        suffices h : ∀ os n c c', Ok n c false os → Ok n c' false os from fun h' => h os 0 s.capacity 0 h'
        intro os
        induction os with
        | nil => simp [Ok]
        | cons o os ih =>
          intro n c c' h
          cases o with
          | init a b => exact h
          | add i => exact absurd h.1 (by simp)
          | reset => exact ⟨h.1, h.2.1, ih _ _ _ h.2.2⟩
          | release => exact ih _ _ _ h
          | free => exact h)
      refine ⟨t, by simpa [run, step] using r1, by simpa [reset, h1', added] using r2, ?_⟩
      simp [reset, h2] at r3 ⊢
      omega
    | release =>
      have hok' : Ok 0 s.capacity s.array os := hok
      obtain ⟨t, r1, r2, r3⟩ := ih (release s) (by simp [release]) (by simpa [release] using hok')
      refine ⟨t, by simpa [run, step] using r1, by simpa [release, added] using r2, ?_⟩
      simp only [release] at r3
      exact r3
    | free =>
      have hok' : Ok 0 0 false os := hok
      obtain ⟨arr, cap, items, rel, al, fr⟩ := s
      cases arr with
      | true =>
        obtain ⟨t, r1, r2, r3⟩ := ih (free ⟨true, cap, items, rel, al, fr⟩) (by simp [free, release])
          (by simpa [free, release] using hok')
        refine ⟨t, by simpa [run, step] using r1, by simpa [free, release, added] using r2, ?_⟩
        simp [free, release] at r3 ⊢
        omega
      | false =>
        obtain ⟨t, r1, r2, r3⟩ := ih (free ⟨false, cap, items, rel, al, fr⟩) (by simp [free, release])
          (by simpa [free, release] using hok')
        refine ⟨t, by simpa [run, step] using r1, by simpa [free, release, added] using r2, ?_⟩
        simp [free, release] at r3 ⊢
        omega

/-- C35: in any sequence of operations on a list in which it is initialised and reset only when new or freed (as the
documentation of reset requires, list.h:156) and never filled beyond its capacity, every item added is released exactly once and in order of addition, or
is still in the list; nothing else is released; and every array allocated is freed once or still in use. -/
theorem C35_released (os : List Op) (hok : Ok 0 0 false os) :
    ∃ t, run start os = some t ∧ t.released ++ t.items = added os ∧
      t.allocs = t.frees + (if t.array then 1 else 0) := by
  obtain ⟨t, h1, h2, h3⟩ := run_spec os start (by simp [start]) (by simpa [start] using hok)
  exact ⟨t, h1, by simpa [start] using h2, by simpa [start] using h3⟩

theorem run_append (s : St) (a b : List Op) : run s (a ++ b) = (run s a).bind fun t => run t b := by
  induction a generalizing s with
  | nil => simp [run]
  | cons o a ih =>
    simp only [List.cons_append, run]
    cases step s o with
    | none => rfl
    | some s' => simp [ih]

/-- C35: after a final free everything added has been released and all memory is returned. -/
theorem C35_free (os : List Op) (hok : Ok 0 0 false os) :
    ∃ t, run start (os ++ [.free]) = some t ∧ t.released = added os ∧ t.items = [] ∧ t.allocs = t.frees := by
  obtain ⟨t, h1, h2, h3⟩ := C35_released os hok
  refine ⟨free t, by simp [run_append, h1, run, step], ?_⟩
  cases ha : t.array <;> simp [free, release, ha, h2] at h3 ⊢ <;> omega

/-- C35: the condition on reset is needed: a list that holds an item and is reset never releases it, and its array is never
freed. -/
theorem C35_reset_used : ∃ t, run start [.init 2 true, .add 7, .reset, .free] = some t ∧
    t.released = [] ∧ t.items = [] ∧ t.allocs = 1 ∧ t.frees = 0 := ⟨_, rfl, by decide, by decide, by decide, by decide⟩

/-- C35: in whatever order the operations are called, as long as nothing undefined happens a list never holds more items
than the array has room for. -/
theorem C35_capacity (os : List Op) (t : St) (h : run start os = some t) : t.items.length ≤ t.capacity := by
  suffices key : ∀ os s, s.items.length ≤ s.capacity → run s os = some t → t.items.length ≤ t.capacity from
    key os start (Nat.le_refl _) h
  intro os
  induction os with
  | nil => intro s hs hr; cases hr; exact hs
  | cons o os ih =>
    intro s hs hr
    simp only [run, Option.bind_eq_some_iff] at hr
    obtain ⟨s', h1, h2⟩ := hr
    refine ih s' ?_ h2
    cases o with
    | init c ok =>
      cases h1
      cases ok <;> simp [init, hs]
    | add i =>
      simp only [step, add] at h1
      split at h1
      · next hc => cases h1; simp only [List.length_append, List.length_singleton]; omega
      · cases h1
    | reset => cases h1; simp [reset]
    | release => cases h1; simp [release]
    | free =>
      cases h1
      cases ha : s.array <;> simp [free, release, ha]

example : Ok 0 0 false [.reset, .init 2 true, .add 7, .add 8, .release, .add 9, .free, .free, .init 1 true, .add 4] := by
  simp [Ok]
example : (run start [.reset, .init 2 true, .add 7, .add 8, .release, .add 9, .free]).map (·.released) = some [7, 8, 9] := by
  decide

end Verif.Lst
