import Verif.Cache.Model
import Verif.Tree.Detached

/-! # The invariant of a cache shard -/

namespace Verif.Cache

open Verif.Tree (Heap Ptr Good Detached Frame)

variable {K V : Type}

@[simp] theorem set_self {α : Type} (f : Nat → α) (n : Nat) (v : α) : set f n v n = v := by simp [set]

theorem set_ne {α : Type} (f : Nat → α) {n x : Nat} (v : α) (h : x ≠ n) : set f n v x = f x := by simp [set, h]

/-! ## The list of free nodes -/

/-- The shard's list holds the nodes `l` from first to last. -/
structure DLL (s : Shard V) (l : List Nat) : Prop where
  first : s.first = l.head?
  last : s.last = l.getLast?
  links : ∀ a n b, l = a ++ n :: b → s.next n = b.head? ∧ s.prev n = a.getLast?
  nodup : l.Nodup

/-- The fields other than those of the list are the same. -/
structure ListOnly (s s' : Shard V) : Prop where
  tree : s'.tree = s.tree
  capacity : s'.capacity = s.capacity
  allocated : s'.allocated = s.allocated
  active : s'.active = s.active
  data : s'.data = s.data

theorem head?_ne {l : List Nat} {n : Nat} (h : n ∉ l) : l.head? ≠ some n := by
  intro e; exact h (List.mem_of_head? e)

theorem getLast?_ne {l : List Nat} {n : Nat} (h : n ∉ l) : l.getLast? ≠ some n := by
  intro e; exact h (List.mem_of_getLast? e)

theorem removeFromList_fields (s : Shard V) (n : Nat) (h1 : s.next n ≠ some n) (h2 : s.prev n ≠ some n) :
    (removeFromList s n).first = (if s.prev n = none then s.next n else s.first) ∧
    (removeFromList s n).last = (if s.next n = none then s.prev n else s.last) ∧
    (∀ x, (removeFromList s n).next x =
      if x = n then none else if s.prev n = some x then s.next n else s.next x) ∧
    (∀ x, (removeFromList s n).prev x =
      if x = n then none else if s.next n = some x then s.prev n else s.prev x) ∧
    ListOnly s (removeFromList s n) := by
  cases hn : s.next n with
  | none =>
    cases hp : s.prev n with
    | none =>
      simp only [removeFromList, fixNext, fixPrev, hn, hp]
      refine ⟨by simp, by simp, ?_, ?_, ⟨rfl, rfl, rfl, rfl, rfl⟩⟩ <;> intro x <;> simp [set]
    | some p =>
      have hne : p ≠ n := by rintro rfl; exact h2 hp
      simp only [removeFromList, fixNext, fixPrev, hn, hp]
      refine ⟨by simp, by simp, ?_, ?_, ⟨rfl, rfl, rfl, rfl, rfl⟩⟩ <;> intro x <;> simp [set, eq_comm]
  | some q =>
    have hnq : q ≠ n := by rintro rfl; exact h1 hn
    cases hp : s.prev n with
    | none =>
      simp only [removeFromList, fixNext, fixPrev, hn, hp, set_ne _ _ hnq.symm]
      refine ⟨by simp, by simp, ?_, ?_, ⟨rfl, rfl, rfl, rfl, rfl⟩⟩ <;> intro x <;> simp [set, eq_comm]
    | some p =>
      have hne : p ≠ n := by rintro rfl; exact h2 hp
      simp only [removeFromList, fixNext, fixPrev, hn, hp, set_ne _ _ hnq.symm]
      refine ⟨by simp, by simp, ?_, ?_, ⟨rfl, rfl, rfl, rfl, rfl⟩⟩ <;> intro x <;> simp [set, eq_comm]

theorem DLL.remove {s : Shard V} {a b : List Nat} {n : Nat} (d : DLL s (a ++ n :: b)) :
    DLL (removeFromList s n) (a ++ b) ∧ ListOnly s (removeFromList s n) ∧
      (∀ x, x ∉ a ++ b → (x = n ∨ (s.next x = none ∧ s.prev x = none)) →
        (removeFromList s n).next x = none ∧ (removeFromList s n).prev x = none) := by
  obtain ⟨hf, hl, hlk, nd⟩ := d
  obtain ⟨hn, hp⟩ := hlk a n b rfl
  simp only [List.nodup_append, List.nodup_cons, List.mem_cons] at nd
  obtain ⟨f1, f2, f3, f4, f5⟩ := removeFromList_fields s n (by rw [hn]; exact head?_ne (by grind))
    (by rw [hp]; exact getLast?_ne (by grind))
  rw [hn, hp] at f1 f2
  simp only [hn, hp] at f3 f4
  refine ⟨⟨?_, ?_, ?_, ?_⟩, f5, ?_⟩
  · rw [f1]
    cases a with
    | nil => simp
    | cons x a => simp [hf]
  · rw [f2]
    cases b with
    | nil => simp
    | cons x b => simp [hl, List.getLast?_append]
  · intro a' x b' e
    have hxmem : x ∈ a ++ b := by rw [e]; simp
    have hxn : x ≠ n := by simp at hxmem; grind
    rw [f3, f4, if_neg hxn, if_neg hxn]
    rw [List.append_eq_append_iff] at e
    rcases e with ⟨c, rfl, hc⟩ | ⟨c, rfl, hc⟩
    · -- `x` is in `b`, after `a ++ c`
      obtain ⟨g1, g2⟩ := hlk (a ++ n :: c) x b' (by rw [hc]; simp)
      have : a.getLast? ≠ some x := getLast?_ne (by subst hc; grind)
      rw [if_neg this, g1]
      refine ⟨rfl, ?_⟩
      cases c with
      | nil =>
        subst hc
        simp
      | cons y c =>
        have hy : y ≠ x := by
          have := nd.2.1.2
          subst hc
          simp only [List.cons_append, List.nodup_cons, List.mem_append, List.mem_cons] at this
          grind
        subst hc
        simp [hy, g2, List.getLast?_append, List.getLast?_cons]
    · cases c with
      | nil =>
        simp at hc
        obtain ⟨g1, g2⟩ := hlk (a' ++ [n]) x b' (by rw [← hc]; simp)
        have : a'.getLast? ≠ some x := getLast?_ne (by subst hc; simp at nd; grind)
        subst hc
        simp [g1, this]
      | cons y c =>
        simp at hc
        obtain ⟨rfl, rfl⟩ := hc
        obtain ⟨g1, g2⟩ := hlk a' x (c ++ n :: b) (by simp)
        have hb : b.head? ≠ some x := head?_ne (by simp at nd; grind)
        rw [if_neg hb, g2, g1]
        refine ⟨?_, rfl⟩
        cases c with
        | nil => simp
        | cons z c =>
          have : (a' ++ x :: z :: c).getLast? ≠ some x := by
            rw [show a' ++ x :: z :: c = (a' ++ [x]) ++ z :: c by simp, List.getLast?_append]
            intro hh
            have : x ∈ z :: c := List.mem_of_getLast? (by simpa [List.getLast?_cons] using hh)
            have := nd.1
            simp only [List.nodup_append, List.nodup_cons] at this
            grind
          rw [if_neg this]; simp
  · simp only [List.nodup_append]; grind
  · intro x hx hor
    simp at hx
    by_cases hxn : x = n
    · simp [f3, f4, hxn]
    · have h1 := hor.resolve_left hxn
      have h2 : a.getLast? ≠ some x := getLast?_ne hx.1
      have h3 : b.head? ≠ some x := head?_ne hx.2
      simp [f3, f4, hxn, h1, h2, h3]

theorem DLL.addToHead {s : Shard V} {l : List Nat} {n : Nat} (d : DLL s l) (hn : n ∉ l)
    (h : s.next n = none ∧ s.prev n = none) :
    ∃ s', Cache.addToHead s n = some s' ∧ DLL s' (n :: l) ∧ ListOnly s s' ∧
      (∀ x, x ∉ n :: l → s'.next x = s.next x ∧ s'.prev x = s.prev x) := by
  obtain ⟨hf, hl, hlk, nd⟩ := d
  cases l with
  | nil =>
    simp at hf hl
    refine ⟨{ s with next := set s.next n none, first := some n, last := some n },
      by simp only [Cache.addToHead, h, hf, hl, and_self, if_true], ⟨?_, ?_, ?_, by simp⟩,
      ⟨rfl, rfl, rfl, rfl, rfl⟩, ?_⟩
    · simp
    · simp
    · intro a x b e
      have := List.singleton_eq_append_iff.1 e
      cases a with
      | nil => simp at e; obtain ⟨rfl, rfl⟩ := e; simp [h]
      | cons y a => simp at e
    · intro x hx; simp at hx; simp [set_ne _ _ hx]
  | cons m l =>
    simp at hf hn
    have hlast : ∃ z, s.last = some z := by
      rw [hl]; exact ⟨_, List.getLast?_cons⟩
    obtain ⟨z, hz⟩ := hlast
    refine ⟨{ s with next := set s.next n (some m), prev := set s.prev m (some n), first := some n },
      by simp only [Cache.addToHead, h, hf, hz, and_self, if_true], ⟨?_, ?_, ?_, ?_⟩,
      ⟨rfl, rfl, rfl, rfl, rfl⟩, ?_⟩
    · simp
    · rw [List.getLast?_cons_cons, ← hl]
    · intro a x b e
      cases a with
      | nil =>
        simp at e
        obtain ⟨rfl, rfl⟩ := e
        simp [set_ne _ _ hn.1, h]
      | cons y a =>
        simp at e
        obtain ⟨rfl, e⟩ := e
        have hx : x ∈ m :: l := by rw [e]; simp
        have hxn : x ≠ n := by rintro rfl; simp at hx; grind
        obtain ⟨g1, g2⟩ := hlk a x b e
        simp only [set_ne _ _ hxn, g1, true_and]
        cases a with
        | nil => simp at e; simp [e.1]
        | cons w a =>
          simp at e
          have hxm : x ≠ m := by
            rintro rfl
            simp at nd
            exact nd.1 (by rw [e.2]; simp)
          simp [set_ne _ _ hxm, g2]
    · simp at nd ⊢; grind
    · intro x hx
      simp at hx
      simp [set_ne _ _ hx.1, set_ne _ _ hx.2.1]

end Verif.Cache
