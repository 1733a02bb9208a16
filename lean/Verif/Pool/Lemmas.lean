import Verif.Pool.Model
import Mathlib.Tactic.ByContra

/-! # The invariant of the pool -/

namespace Verif.Pool

@[simp] theorem set_self {α : Type} (f : Nat → α) (n : Nat) (v : α) : set f n v n = v := by simp [set]
theorem set_ne {α : Type} (f : Nat → α) {n x : Nat} (v : α) (h : x ≠ n) : set f n v x = f x := by simp [set, h]

/-- Following `next` from `h` visits the items of the list and ends at item 0. -/
def Chain (next : Nat → Nat) : Nat → List Nat → Prop
  | h, [] => h = 0
  | h, i :: l => h = i ∧ i ≠ 0 ∧ Chain next (next i) l

theorem Chain.congr {next next' : Nat → Nat} : ∀ {l : List Nat} {h : Nat}, Chain next h l →
    (∀ i ∈ l, next' i = next i) → Chain next' h l := by
  intro l
  induction l with
  | nil => intro h hc _; exact hc
  | cons i l ih =>
    intro h hc e
    obtain ⟨h1, h2, h3⟩ := hc
    refine ⟨h1, h2, ?_⟩
    rw [e i List.mem_cons_self]
    exact ih h3 fun j hj => e j (List.mem_cons_of_mem _ hj)

theorem Chain.head_ne {next : Nat → Nat} {h : Nat} {l : List Nat} (hc : Chain next h l) (h0 : h ≠ 0) :
    ∃ l', l = h :: l' ∧ Chain next (next h) l' := by
  cases l with
  | nil => exact absurd hc h0
  | cons i l => obtain ⟨rfl, -, h3⟩ := hc; exact ⟨l, rfl, h3⟩

theorem Chain.zero {next : Nat → Nat} {l : List Nat} (hc : Chain next 0 l) : l = [] := by
  cases l with
  | nil => rfl
  | cons i l => exact absurd hc.1.symm hc.2.1

/-- Who has an item. -/
inductive Owner where
  | pool
  | caller
  | call (t : Nat)
deriving DecidableEq

/-- The item a thread is releasing. -/
def Pc.releasing : Pc → Option Nat
  | .release i => some i
  | .releaseRead i _ _ => some i
  | .releaseNext i _ _ => some i
  | _ => none

/-- The head a thread has read and when. -/
def Pc.orig : Pc → Option (Head × Nat)
  | .getRead o n => some (o, n)
  | .getNext o _ n => some (o, n)
  | .releaseRead _ o n => some (o, n)
  | .releaseNext _ o n => some (o, n)
  | _ => none

/-- The invariant of a pool of `n` items. -/
structure Inv (n : Nat) (s : State) (l : List Nat) (own : Nat → Owner) : Prop where
  chain : Chain s.next s.head.index l
  nodup : l.Nodup
  mem : ∀ i, i ∈ l ↔ (1 ≤ i ∧ i ≤ n ∧ own i = .pool)
  out : ∀ i, ¬(1 ≤ i ∧ i ≤ n) → own i = .pool
  held : ∀ i, s.held i = if own i = .caller then 1 else 0
  call : ∀ t i, (s.pc t).releasing = some i ↔ own i = .call t
  res : ∀ i, i ≤ n → s.resource i = decide (i ≠ 0)
  aba : s.head.aba = s.swaps % 2 ^ 16
  orig : ∀ t o k, (s.pc t).orig = some (o, k) → o.index ≤ n ∧ o.aba = k % 2 ^ 16 ∧ k ≤ s.swaps ∧
    (k = s.swaps → o = s.head)
  getNext : ∀ t o m k, s.pc t = .getNext o m k → o.index ≠ 0 ∧ (k = s.swaps → m = s.next o.index)
  relNext : ∀ t i o k, s.pc t = .releaseNext i o k → s.next i = o.index

/-- A thread about to exchange the head for a get has been overtaken by fewer than 65536 exchanges since it read
the head. -/
def InTime (s : State) (t : Nat) : Prop :=
  ∀ o m k, s.pc t = .getNext o m k → s.swaps < k + 2 ^ 16

theorem Inv.head_le {n : Nat} {s : State} {l : List Nat} {own : Nat → Owner} (h : Inv n s l own) :
    s.head.index ≤ n := by
  by_cases h0 : s.head.index = 0
  · omega
  · obtain ⟨l', e, -⟩ := h.chain.head_ne h0
    exact ((h.mem _).1 (e ▸ List.mem_cons_self)).2.1

/-- Moving a thread that is not releasing anything to a place where it does not either. -/
theorem Inv.goto {n : Nat} {s : State} {l : List Nat} {own : Nat → Owner} (h : Inv n s l own) {t : Nat} {pc : Pc}
    (hr : pc.releasing = (s.pc t).releasing)
    (ho : ∀ o k, pc.orig = some (o, k) → o.index ≤ n ∧ o.aba = k % 2 ^ 16 ∧ k ≤ s.swaps ∧ (k = s.swaps → o = s.head))
    (hg : ∀ o m k, pc = .getNext o m k → o.index ≠ 0 ∧ (k = s.swaps → m = s.next o.index))
    (hn : ∀ i o k, pc = .releaseNext i o k → s.next i = o.index) :
    Inv n (s.goto t pc) l own where
  chain := h.chain
  nodup := h.nodup
  mem := h.mem
  out := h.out
  held := h.held
  call := by
    intro t' i
    by_cases e : t' = t
    · subst e; simpa [State.goto, hr] using h.call t' i
    · simpa [State.goto, set_ne _ _ e] using h.call t' i
  res := h.res
  aba := h.aba
  orig := by
    intro t' o k hp
    by_cases e : t' = t
    · subst e; exact ho o k (by simpa [State.goto] using hp)
    · exact h.orig t' o k (by simpa [State.goto, set_ne _ _ e] using hp)
  getNext := by
    intro t' o m k hp
    by_cases e : t' = t
    · subst e; exact hg o m k (by simpa [State.goto] using hp)
    · exact h.getNext t' o m k (by simpa [State.goto, set_ne _ _ e] using hp)
  relNext := by
    intro t' i o k hp
    by_cases e : t' = t
    · subst e; exact hn i o k (by simpa [State.goto] using hp)
    · exact h.relNext t' i o k (by simpa [State.goto, set_ne _ _ e] using hp)

theorem pc_goto_self (s : State) (t : Nat) (pc : Pc) : (s.goto t pc).pc t = pc := by simp [State.goto]
theorem pc_goto_ne (s : State) {t t' : Nat} (pc : Pc) (h : t' ≠ t) : (s.goto t pc).pc t' = s.pc t' := by
  simp [State.goto, set_ne _ _ h]

/-- What a step did to the callers' items. -/
def Gave (s s' : State) (own : Nat → Owner) : Act → Ret → Prop
  | _, .item i => own i = .pool ∧ s'.held = set s.held i 1 ∧ s.held i = 0 ∧ i ≠ 0
  | .callRelease i, _ => s.held i = 1 ∧ s'.held = set s.held i 0
  | _, _ => s'.held = s.held

theorem Inv.step {n : Nat} {s s' : State} {l : List Nat} {own : Nat → Owner} (h : Inv n s l own) {t : Nat} {a : Act}
    {r : Ret} (ht : InTime s t) (hs : step s t a = some (s', r)) :
    (∃ l' own', Inv n s' l' own') ∧ Gave s s' own a r := by
  cases a with
  | callGet =>
    simp only [Pool.step] at hs
    split at hs
    · rename_i hi
      simp only [Option.some.injEq, Prod.mk.injEq] at hs
      obtain ⟨rfl, rfl⟩ := hs
      exact ⟨⟨l, own, h.goto (by simp [hi, Pc.releasing]) (by simp [Pc.orig]) (by simp) (by simp)⟩, rfl⟩
    · simp at hs
  | callRelease i =>
    simp only [Pool.step] at hs
    split at hs
    · rename_i hi
      obtain ⟨hi, hh⟩ := hi
      simp only [Option.some.injEq, Prod.mk.injEq] at hs
      obtain ⟨rfl, rfl⟩ := hs
      have hoc : own i = .caller := by
        by_contra hc
        have := h.held i
        simp [hc] at this; omega
      have hone : s.held i = 1 := by have := h.held i; simp [hoc] at this; exact this
      have hin : 1 ≤ i ∧ i ≤ n := by
        by_contra hc
        have := h.out i hc
        simp [hoc] at this
      refine ⟨⟨l, fun x => if x = i then .call t else own x, ?_⟩, ?_⟩
      · constructor
        · exact h.chain
        · exact h.nodup
        · intro x
          by_cases e : x = i
          · subst e
            have := (h.mem x)
            simp [hoc] at this
            simp [this]
          · simpa [e] using h.mem x
        · intro x hx
          have : x ≠ i := by rintro rfl; exact hx hin
          simpa [this] using h.out x hx
        · intro x
          by_cases e : x = i
          · subst e; simp [hone]
          · simpa [e, set_ne _ _ e] using h.held x
        · intro t' x
          by_cases e : t' = t
          · subst e
            simp only [pc_goto_self, Pc.releasing, Option.some.injEq]
            by_cases e2 : x = i
            · subst e2; simp
            · have := h.call t' x
              simp [hi, Pc.releasing] at this
              simp [Ne.symm e2, e2, this]
          · simp only [pc_goto_ne _ _ e]
            by_cases e2 : x = i
            · subst e2
              have := h.call t' x
              simp [hoc] at this
              simp [this, Ne.symm e]
            · simpa [e2] using h.call t' x
        · exact h.res
        · exact h.aba
        · intro t' o k hp
          by_cases e : t' = t
          · subst e; simp [pc_goto_self, Pc.orig] at hp
          · simp only [pc_goto_ne _ _ e] at hp; exact h.orig t' o k hp
        · intro t' o m k hp
          by_cases e : t' = t
          · subst e; simp [pc_goto_self] at hp
          · simp only [pc_goto_ne _ _ e] at hp; exact h.getNext t' o m k hp
        · intro t' i o k hp
          by_cases e : t' = t
          · subst e; simp [pc_goto_self] at hp
          · simp only [pc_goto_ne _ _ e] at hp; exact h.relNext t' i o k hp
      · exact ⟨hone, by simp [hone]⟩
    · simp at hs
  | run upper =>
    simp only [Pool.step] at hs
    generalize hp : s.pc t = pc at hs
    cases pc with
    | idle => simp [access] at hs
    | get =>
      simp only [access, Option.some.injEq, Prod.mk.injEq] at hs
      obtain ⟨rfl, rfl⟩ := hs
      refine ⟨⟨l, own, h.goto (by simp [hp, Pc.releasing]) ?_ (by simp) (by simp)⟩, rfl⟩
      simp only [Pc.orig, Option.some.injEq, Prod.mk.injEq]
      rintro o k ⟨rfl, rfl⟩
      exact ⟨h.head_le, h.aba, Nat.le_refl _, fun _ => rfl⟩
    | getRead orig seen =>
      have ho := h.orig t orig seen (by simp [hp, Pc.orig])
      simp only [access] at hs
      split at hs
      · simp only [Option.some.injEq, Prod.mk.injEq] at hs
        obtain ⟨rfl, rfl⟩ := hs
        exact ⟨⟨l, own, h.goto (by simp [hp, Pc.releasing]) (by simp [Pc.orig]) (by simp) (by simp)⟩, rfl⟩
      · rename_i hr
        simp only [Option.some.injEq, Prod.mk.injEq] at hs
        obtain ⟨rfl, rfl⟩ := hs
        have hpos : orig.index ≠ 0 := by
          have := h.res orig.index ho.1
          simp at hr
          simp [hr] at this
          exact this
        refine ⟨⟨l, own, h.goto (by simp [hp, Pc.releasing]) ?_ ?_ (by simp)⟩, rfl⟩
        · simp only [Pc.orig, Option.some.injEq, Prod.mk.injEq]
          rintro o k ⟨rfl, rfl⟩
          exact ho
        · intro o m k e
          cases e
          exact ⟨hpos, fun _ => rfl⟩
    | getNext orig next seen =>
      have ho := h.orig t orig seen (by simp [hp, Pc.orig])
      have hg := h.getNext t orig next seen hp
      have hti := ht orig next seen hp
      simp only [access] at hs
      split at hs
      · rename_i he
        simp only [Option.some.injEq, Prod.mk.injEq] at hs
        obtain ⟨rfl, rfl⟩ := hs
        -- the counter tells that nothing was exchanged in between
        have hk : seen = s.swaps := by
          have h1 := h.aba
          rw [he, ho.2.1] at h1
          have := ho.2.2.1
          omega
        have hnext := hg.2 hk
        obtain ⟨l', rfl, hl'⟩ := h.chain.head_ne (by rw [he]; exact hg.1)
        rw [he] at hl'
        have hmem := h.mem
        rw [he] at hmem
        have hnd := h.nodup
        rw [he] at hnd
        have hown := (hmem orig.index).1 List.mem_cons_self
        have hheld : s.held orig.index = 0 := by
          have := h.held orig.index; simp [hown.2.2] at this; exact this
        refine ⟨⟨l', fun x => if x = orig.index then .caller else own x, ?_⟩, hown.2.2, by simp [hheld], hheld, hg.1⟩
        constructor
        · simpa [hnext, State.goto] using hl'
        · exact (List.nodup_cons.1 hnd).2
        · intro x
          by_cases e : x = orig.index
          · subst e; simp [(List.nodup_cons.1 hnd).1]
          · have := hmem x
            simp only [List.mem_cons, e, false_or] at this
            simpa [e] using this
        · intro x hx
          have : x ≠ orig.index := by rintro rfl; exact hx ⟨hown.1, hown.2.1⟩
          simpa [this] using h.out x hx
        · intro x
          by_cases e : x = orig.index
          · subst e; simp [hheld]
          · simpa [e, set_ne _ _ e] using h.held x
        · intro t' x
          have hc := h.call t' x
          have hpc : (set s.pc t Pc.idle t').releasing = (s.pc t').releasing := by
            by_cases e : t' = t
            · subst e; simp [hp, Pc.releasing]
            · simp [set_ne _ _ e]
          simp only [State.goto, hpc]
          by_cases e : x = orig.index
          · subst e; simp [hown.2.2] at hc; simp [hc]
          · simpa [e] using hc
        · exact h.res
        · show inc16 orig.aba = (s.swaps + 1) % 2 ^ 16
          rw [inc16, ho.2.1, hk]; omega
        · intro t' o k hq
          by_cases e : t' = t
          · subst e; simp [State.goto, Pc.orig] at hq
          · simp only [State.goto, set_ne _ _ e] at hq
            have := h.orig t' o k hq
            refine ⟨this.1, this.2.1, by show k ≤ s.swaps + 1; omega, ?_⟩
            intro hk'
            have hk' : k = s.swaps + 1 := hk'
            omega
        · intro t' o m k hq
          by_cases e : t' = t
          · subst e; simp [State.goto] at hq
          · simp only [State.goto, set_ne _ _ e] at hq
            have h1 := h.orig t' o k (by simp [hq, Pc.orig])
            have h2 := h.getNext t' o m k hq
            refine ⟨h2.1, ?_⟩
            intro hk'
            have hk' : k = s.swaps + 1 := hk'
            omega
        · intro t' i o k hq
          by_cases e : t' = t
          · subst e; simp [State.goto] at hq
          · simp only [State.goto, set_ne _ _ e] at hq
            exact h.relNext t' i o k hq
      · simp only [Option.some.injEq, Prod.mk.injEq] at hs
        obtain ⟨rfl, rfl⟩ := hs
        exact ⟨⟨l, own, h.goto (by simp [hp, Pc.releasing]) (by simp [Pc.orig]) (by simp) (by simp)⟩, rfl⟩
    | release i =>
      simp only [access, Option.some.injEq, Prod.mk.injEq] at hs
      obtain ⟨rfl, rfl⟩ := hs
      refine ⟨⟨l, own, h.goto (by simp [hp, Pc.releasing]) ?_ (by simp) (by simp)⟩, rfl⟩
      simp only [Pc.orig, Option.some.injEq, Prod.mk.injEq]
      rintro o k ⟨rfl, rfl⟩
      exact ⟨h.head_le, h.aba, Nat.le_refl _, fun _ => rfl⟩
    | releaseRead i orig seen =>
      have ho := h.orig t orig seen (by simp [hp, Pc.orig])
      have hown := (h.call t i).1 (by simp [hp, Pc.releasing])
      have hil : i ∉ l := by
        intro hc
        have := ((h.mem i).1 hc).2.2
        simp [hown] at this
      simp only [access, Option.some.injEq, Prod.mk.injEq] at hs
      obtain ⟨rfl, rfl⟩ := hs
      refine ⟨⟨l, own, ?_⟩, rfl⟩
      constructor
      · refine h.chain.congr fun x hx => ?_
        exact set_ne _ _ (by rintro rfl; exact hil hx)
      · exact h.nodup
      · exact h.mem
      · exact h.out
      · exact h.held
      · intro t' x
        rw [← h.call t' x]
        by_cases e : t' = t
        · subst e; simp [State.goto, hp, Pc.releasing]
        · simp [State.goto, set_ne _ _ e]
      · exact h.res
      · exact h.aba
      · intro t' o k hq
        by_cases e : t' = t
        · subst e
          simp only [State.goto, set_self, Pc.orig, Option.some.injEq, Prod.mk.injEq] at hq
          obtain ⟨rfl, rfl⟩ := hq
          exact ho
        · simp only [State.goto, set_ne _ _ e] at hq
          exact h.orig t' o k hq
      · intro t' o m k hq
        by_cases e : t' = t
        · subst e; simp [State.goto] at hq
        · simp only [State.goto, set_ne _ _ e] at hq
          have h1 := h.orig t' o k (by simp [hq, Pc.orig])
          have h2 := h.getNext t' o m k hq
          refine ⟨h2.1, fun hk => ?_⟩
          have hh : o = s.head := h1.2.2.2 hk
          have hne : o.index ≠ i := by
            rintro rfl
            obtain ⟨l', el, -⟩ := h.chain.head_ne (by rw [← hh]; exact h2.1)
            rw [← hh] at el
            exact hil (el ▸ List.mem_cons_self)
          show m = set s.next i orig.index o.index
          rw [set_ne _ _ hne]
          exact h2.2 hk
      · intro t' x o k hq
        by_cases e : t' = t
        · subst e
          simp only [State.goto, set_self, Pc.releaseNext.injEq] at hq
          obtain ⟨rfl, rfl, rfl⟩ := hq
          simp
        · simp only [State.goto, set_ne _ _ e] at hq
          have hx := (h.call t' x).1 (by simp [hq, Pc.releasing])
          have hne : x ≠ i := by
            rintro rfl
            rw [hown] at hx
            simp only [Owner.call.injEq] at hx
            exact e hx.symm
          show set s.next i orig.index x = o.index
          rw [set_ne _ _ hne]
          exact h.relNext t' x o k hq
    | releaseNext i orig seen =>
      have ho := h.orig t orig seen (by simp [hp, Pc.orig])
      have hn := h.relNext t i orig seen hp
      have hown := (h.call t i).1 (by simp [hp, Pc.releasing])
      have hil : i ∉ l := by
        intro hc
        have := ((h.mem i).1 hc).2.2
        simp [hown] at this
      have hin : 1 ≤ i ∧ i ≤ n := by
        by_contra hc
        have := h.out i hc
        simp [hown] at this
      simp only [access] at hs
      split at hs
      · rename_i he
        simp only [Option.some.injEq, Prod.mk.injEq] at hs
        obtain ⟨rfl, rfl⟩ := hs
        refine ⟨⟨i :: l, fun x => if x = i then .pool else own x, ?_⟩, rfl⟩
        constructor
        · refine ⟨rfl, by omega, ?_⟩
          show Chain s.next (s.next i) l
          rw [hn, ← he]; exact h.chain
        · exact List.nodup_cons.2 ⟨hil, h.nodup⟩
        · intro x
          by_cases e : x = i
          · subst e; simp [hin]
          · simpa [e] using h.mem x
        · intro x hx
          have : x ≠ i := by rintro rfl; exact hx hin
          simpa [this] using h.out x hx
        · intro x
          have := h.held x
          by_cases e : x = i
          · subst e; simp [hown] at this; simpa [State.goto] using this
          · simpa [e, State.goto] using this
        · intro t' x
          have hc := h.call t' x
          by_cases e : t' = t
          · subst e
            simp only [hp, Pc.releasing, Option.some.injEq] at hc
            by_cases e2 : x = i
            · subst e2; simp [State.goto, Pc.releasing]
            · have := fun hh => e2 (hc.2 hh).symm
              simp only [State.goto, set_self, Pc.releasing, e2, if_false, reduceCtorEq, false_iff]
              exact this
          · simp only [State.goto, set_ne _ _ e]
            by_cases e2 : x = i
            · subst e2
              simp [hown, Ne.symm e] at hc
              simp [hc]
            · simpa [e2] using hc
        · exact h.res
        · show inc16 orig.aba = (s.swaps + 1) % 2 ^ 16
          rw [inc16, ← he, h.aba]; omega
        · intro t' o k hq
          by_cases e : t' = t
          · subst e; simp [State.goto, Pc.orig] at hq
          · simp only [State.goto, set_ne _ _ e] at hq
            have := h.orig t' o k hq
            refine ⟨this.1, this.2.1, by show k ≤ s.swaps + 1; omega, ?_⟩
            intro hk'
            have hk' : k = s.swaps + 1 := hk'
            omega
        · intro t' o m k hq
          by_cases e : t' = t
          · subst e; simp [State.goto] at hq
          · simp only [State.goto, set_ne _ _ e] at hq
            have h1 := h.orig t' o k (by simp [hq, Pc.orig])
            have h2 := h.getNext t' o m k hq
            refine ⟨h2.1, ?_⟩
            intro hk'
            have hk' : k = s.swaps + 1 := hk'
            omega
        · intro t' i o k hq
          by_cases e : t' = t
          · subst e; simp [State.goto] at hq
          · simp only [State.goto, set_ne _ _ e] at hq
            exact h.relNext t' i o k hq
      · simp only [Option.some.injEq, Prod.mk.injEq] at hs
        obtain ⟨rfl, rfl⟩ := hs
        exact ⟨⟨l, own, h.goto (by simp [hp, Pc.releasing]) (by simp [Pc.orig]) (by simp) (by simp)⟩, rfl⟩

end Verif.Pool
