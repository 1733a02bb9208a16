import Verif.Signal.Model
import Mathlib.Algebra.BigOperators.Group.Finset.Basic
import Mathlib.Algebra.BigOperators.Group.Finset.Piecewise
import Mathlib.Algebra.Order.BigOperators.Group.Finset

/-! # The auto reset signal: C39 -/

namespace Verif.Signal

/-! ## What is wanted -/

/-- Whether the signal is set after the events, if it was (`b`) before them. -/
def armed : Bool → List Event → Bool
  | b, [] => b
  | _, .set _ :: r => armed true r
  | _, .take _ :: r => armed false r
  | b, _ :: r => armed b r

/-- Every `take` finds the signal set. -/
def legal : Bool → List Event → Prop
  | _, [] => True
  | _, .set _ :: r => legal true r
  | b, .take _ :: r => b = true ∧ legal false r
  | b, _ :: r => legal b r

/-- The part of a call a thread is in. -/
inductive Phase where
  | out
  | setCalled
  | setMade
  | waitCalled
  | waitMade
deriving DecidableEq, Repr

/-- The events of thread `t` are those of one call after the other, where a set makes the signal set once and a wait
takes it once, between call and return. -/
def follow (t : Nat) : Phase → List Event → Option Phase
  | p, [] => some p
  | p, e :: r =>
    match e with
    | .callSet u => if u = t then (if p = .out then follow t .setCalled r else none) else follow t p r
    | .set u => if u = t then (if p = .setCalled then follow t .setMade r else none) else follow t p r
    | .retSet u => if u = t then (if p = .setMade then follow t .out r else none) else follow t p r
    | .callWait u => if u = t then (if p = .out then follow t .waitCalled r else none) else follow t p r
    | .take u => if u = t then (if p = .waitCalled then follow t .waitMade r else none) else follow t p r
    | .retWait u => if u = t then (if p = .waitMade then follow t .out r else none) else follow t p r

/-! ## Invariant -/

def holds : Pc → Bool
  | .setHeld | .setStored | .setSignalled | .check | .taking | .taken => true
  | _ => false

/-- The thread is one that will look at the flag, or wake one that will. -/
def looks : Pc → Bool
  | .setStored | .woken | .check | .taking => true
  | _ => false

structure Inv (n : Nat) (s : State) : Prop where
  held : ∀ t, holds (s.pc t) = true ↔ s.owner = some t
  taking : ∀ t, s.pc t = .taking → s.wait = false
  known : ∀ t, s.pc t ≠ .idle → t < n
  wakes : s.wait = false → ∀ t, s.pc t = .asleep → ∃ u, looks (s.pc u) = true

theorem inv_create (n : Nat) : Inv n create :=
  ⟨by intro t; simp [create, holds], fun _ h => (nomatch h), fun _ h => absurd rfl h, fun _ _ h => (nomatch h)⟩

def phase : Pc → Phase
  | .idle => .out
  | .setLock | .setHeld => .setCalled
  | .setStored | .setSignalled | .setDone => .setMade
  | .waitLock | .check | .asleep | .woken | .taking => .waitCalled
  | .taken | .waitDone => .waitMade

theorem put_self (f : Nat → Pc) (t : Nat) (p : Pc) : put f t p t = p := by simp [put]

theorem put_ne {f : Nat → Pc} {t u : Nat} {p : Pc} (h : u ≠ t) : put f t p u = f u := by simp [put, h]

/-- A step in which one thread goes on without a change of the flag or the mutex. -/
theorem inv_move {n : Nat} {s : State} {t : Nat} {p : Pc} (h : Inv n s) (ht : t < n)
    (hh : holds p = holds (s.pc t)) (hp : p ≠ .asleep) (hk : p = .taking → s.wait = false)
    (hl : looks (s.pc t) = true → looks p = true) : Inv n { s with pc := put s.pc t p } := by
  refine ⟨?_, ?_, ?_, ?_⟩
  · intro u
    by_cases e : u = t
    · subst e; simp only [put_self, hh]; exact h.held u
    · simp only [put_ne e]; exact h.held u
  · intro u hu
    by_cases e : u = t
    · subst e; simp only [put_self] at hu; exact hk hu
    · simp only [put_ne e] at hu; exact h.taking u hu
  · intro u hu
    by_cases e : u = t
    · subst e; exact ht
    · simp only [put_ne e] at hu; exact h.known u hu
  · intro hw u hu
    by_cases e : u = t
    · subst e; simp only [put_self] at hu; exact absurd hu hp
    · simp only [put_ne e] at hu
      obtain ⟨v, hv⟩ := h.wakes hw u hu
      by_cases e' : v = t
      · subst e'; exact ⟨v, by simp only [put_self]; exact hl hv⟩
      · exact ⟨v, by simp only [put_ne e']; exact hv⟩

/-- A thread gets the mutex. -/
theorem inv_lock {n : Nat} {s : State} {t : Nat} {p : Pc} (h : Inv n s) (ht : t < n) (ho : s.owner = none)
    (hh : holds p = true) (hk : p ≠ .taking) (hp : p ≠ .asleep) (hl : looks (s.pc t) = true → looks p = true) :
    Inv n { s with owner := some t, pc := put s.pc t p } := by
  have hno : ∀ u, holds (s.pc u) = false := by
    intro u
    cases hu : holds (s.pc u) with
    | false => rfl
    | true => have := (h.held u).1 hu; rw [ho] at this; cases this
  refine ⟨?_, ?_, ?_, ?_⟩
  · intro u
    by_cases e : u = t
    · subst e; simp only [put_self, hh]
    · simp only [put_ne e, hno u]
      constructor
      · intro h; cases h
      · intro h; cases h; exact absurd rfl e
  · intro u hu
    by_cases e : u = t
    · subst e; simp only [put_self] at hu; exact absurd hu hk
    · simp only [put_ne e] at hu; exact h.taking u hu
  · intro u hu
    by_cases e : u = t
    · subst e; exact ht
    · simp only [put_ne e] at hu; exact h.known u hu
  · intro hw u hu
    by_cases e : u = t
    · subst e; simp only [put_self] at hu; exact absurd hu hp
    · simp only [put_ne e] at hu
      obtain ⟨v, hv⟩ := h.wakes hw u hu
      by_cases e' : v = t
      · subst e'; exact ⟨v, by simp only [put_self]; exact hl hv⟩
      · exact ⟨v, by simp only [put_ne e']; exact hv⟩

/-- The owner of the mutex changes the flag or releases the mutex. -/
theorem inv_owner {n : Nat} {s : State} {t : Nat} {p : Pc} {w : Bool} {o : Option Nat} (h : Inv n s)
    (hs : holds (s.pc t) = true) (ht : t < n) (ho : o = if holds p then some t else none) (hk : p ≠ .taking)
    (hw : w = false → looks p = true ∨ (p ≠ .asleep ∧ w = s.wait ∧ looks (s.pc t) = false)) :
    Inv n { wait := w, owner := o, pc := put s.pc t p } := by
  have hown := (h.held t).1 hs
  have hoth : ∀ u, u ≠ t → holds (s.pc u) = false := by
    intro u hu
    cases h' : holds (s.pc u) with
    | false => rfl
    | true => have := (h.held u).1 h'; rw [hown] at this; cases this; exact absurd rfl hu
  refine ⟨?_, ?_, ?_, ?_⟩
  · intro u
    by_cases e : u = t
    · subst e; simp only [put_self, ho]; cases holds p <;> simp
    · simp only [put_ne e, hoth u e, ho]
      constructor
      · intro h; cases h
      · intro h; split at h <;> cases h; exact absurd rfl e
  · intro u hu
    by_cases e : u = t
    · subst e; simp only [put_self] at hu; exact absurd hu hk
    · simp only [put_ne e] at hu
      have := hoth u e
      rw [hu] at this; cases this
  · intro u hu
    by_cases e : u = t
    · subst e; exact ht
    · simp only [put_ne e] at hu; exact h.known u hu
  · intro hw' u hu
    rcases hw hw' with hl | ⟨hp, hww, hl⟩
    · exact ⟨t, by simp only [put_self]; exact hl⟩
    · by_cases e : u = t
      · subst e; simp only [put_self] at hu; exact absurd hu hp
      · simp only [put_ne e] at hu
        obtain ⟨v, hv⟩ := h.wakes (hww ▸ hw') u hu
        by_cases e' : v = t
        · subst e'; rw [hl] at hv; cases hv
        · exact ⟨v, by simp only [put_ne e']; exact hv⟩

/-- Each step keeps the invariant, takes only what is set, and goes on in the call. -/
theorem inv_step {n : Nat} {s s' : State} {t : Nat} {a : Act} {es : List Event} (h : Inv n s)
    (hs : step n s t a = some (s', es)) :
    Inv n s' ∧ legal (!s.wait) es ∧ armed (!s.wait) es = (!s'.wait) ∧
      ∀ u, follow u (phase (s.pc u)) es = some (phase (s'.pc u)) := by
  have key : ∀ {s2 : State} {p : Pc} {e : List Event}, s2.pc = put s.pc t p →
      follow t (phase (s.pc t)) e = some (phase p) → (∀ u, u ≠ t → ∀ q, follow u q e = some q) →
      ∀ u, follow u (phase (s.pc u)) e = some (phase (s2.pc u)) := by
    intro s2 p e h1 h2 h3 u
    rw [h1]
    by_cases hu : u = t
    · subst hu; rw [put_self]; exact h2
    · rw [put_ne hu]; exact h3 u hu _
  have other0 : ∀ u, u ≠ t → ∀ q, follow u q ([] : List Event) = some q := fun _ _ _ => rfl
  cases a with
  | callSet =>
    simp only [step] at hs
    split at hs <;> cases hs
    rename_i hc
    refine ⟨inv_move h hc.1 (by rw [hc.2]; rfl) (by simp) (by simp) (by rw [hc.2]; simp [looks]), by simp [legal],
      by simp [armed], key (s2 := { s with pc := _ }) rfl (by rw [hc.2]; simp [follow, phase]) ?_⟩
    intro u hu q; simp [follow, Ne.symm hu]
  | callWait =>
    simp only [step] at hs
    split at hs <;> cases hs
    rename_i hc
    refine ⟨inv_move h hc.1 (by rw [hc.2]; rfl) (by simp) (by simp) (by rw [hc.2]; simp [looks]), by simp [legal],
      by simp [armed], key (s2 := { s with pc := _ }) rfl (by rw [hc.2]; simp [follow, phase]) ?_⟩
    intro u hu q; simp [follow, Ne.symm hu]
  | spurious =>
    simp only [step] at hs
    split at hs <;> cases hs
    rename_i hc
    have ht : t < n := h.known t (by rw [hc]; simp)
    exact ⟨inv_move h ht (by rw [hc]; rfl) (by simp) (by simp) (by rw [hc]; simp [looks]), by simp [legal],
      by simp [armed], key (s2 := { s with pc := _ }) rfl (by rw [hc]; simp [follow, phase]) other0⟩
  | go w =>
    simp only [step] at hs
    split at hs
    · cases hs
    · rename_i hc
      have ht : t < n := h.known t (by rw [hc]; simp)
      split at hs <;> cases hs
      rename_i ho
      exact ⟨inv_lock h ht ho rfl (by simp) (by simp) (by rw [hc]; simp [looks]), by simp [legal], by simp [armed],
        key (s2 := { s with owner := _, pc := _ }) rfl (by rw [hc]; simp [follow, phase]) other0⟩
    · rename_i hc
      have ht : t < n := h.known t (by rw [hc]; simp)
      cases hs
      refine ⟨inv_owner (s := s) (o := s.owner) h (by rw [hc]; rfl) ht (by simp [holds, (h.held t).1 (by rw [hc]; rfl)]) (by simp)
        (by simp [looks]), by simp [legal], by simp [armed],
        key (s2 := { s with wait := _, pc := _ }) rfl (by rw [hc]; simp [follow, phase]) ?_⟩
      intro u hu q; simp [follow, Ne.symm hu]
    · rename_i hc
      have ht : t < n := h.known t (by rw [hc]; simp)
      split at hs
      · rename_i hw
        split at hs
        · rename_i u
          cases hs
          simp only [wakes, decide_eq_true_eq] at hw
          have hne : u ≠ t := by rintro rfl; rw [hc] at hw; cases hw.2
          -- the woken thread first, then the setter
          have h1 : Inv n { s with pc := put s.pc u .woken } :=
            inv_move h hw.1 (by rw [hw.2]; rfl) (by simp) (by simp) (by rw [hw.2]; simp [looks])
          have hpc : put (put s.pc t .setSignalled) u .woken = put (put s.pc u .woken) t .setSignalled := by
            funext x; simp only [put]; split <;> split <;> first | rfl | (rename_i a b; exact absurd (a.symm.trans b) hne)
          have hct : (put s.pc u .woken) t = .setStored := by rw [put_ne (Ne.symm hne), hc]
          refine ⟨⟨?_, ?_, ?_, ?_⟩, by simp [legal], by simp [armed], ?_⟩
          · intro v; simp only [hpc]
            by_cases e : v = t
            · subst e; simp only [put_self]
              have := h1.held v
              simp only [hct] at this
              exact this
            · simp only [put_ne e]; exact h1.held v
          · intro v hv
            simp only [hpc] at hv
            by_cases e : v = t
            · subst e; simp only [put_self] at hv; cases hv
            · simp only [put_ne e] at hv; exact h1.taking v hv
          · intro v hv
            simp only [hpc] at hv
            by_cases e : v = t
            · subst e; exact ht
            · simp only [put_ne e] at hv; exact h1.known v hv
          · intro _ v _
            exact ⟨u, by simp only [put_self]; rfl⟩
          · intro v
            simp only [follow]
            by_cases e : v = u
            · subst e; simp only [put_self, hw.2]; rfl
            · simp only [put_ne e]
              by_cases e' : v = t
              · subst e'; simp only [put_self, hc]; rfl
              · simp only [put_ne e']
        · cases hs
          simp only [wakes, List.all_eq_true, List.mem_range, decide_eq_true_eq] at hw
          have hno : ∀ u, s.pc u ≠ .asleep := by
            intro u hu
            exact absurd hu (by simpa using hw u (h.known u (by rw [hu]; simp)))
          refine ⟨⟨?_, ?_, ?_, ?_⟩, by simp [legal], by simp [armed],
            key (s2 := { s with pc := _ }) rfl (by rw [hc]; simp [follow, phase]) other0⟩
          · intro v
            by_cases e : v = t
            · subst e; simp only [put_self]; have := h.held v; rw [hc] at this; exact this
            · simp only [put_ne e]; exact h.held v
          · intro v hv
            by_cases e : v = t
            · subst e; simp only [put_self] at hv; cases hv
            · simp only [put_ne e] at hv; exact h.taking v hv
          · intro v hv
            by_cases e : v = t
            · subst e; exact ht
            · simp only [put_ne e] at hv; exact h.known v hv
          · intro _ v hv
            by_cases e : v = t
            · subst e; simp only [put_self] at hv; cases hv
            · simp only [put_ne e] at hv; exact absurd hv (hno v)
      · cases hs
    · rename_i hc
      have ht : t < n := h.known t (by rw [hc]; simp)
      cases hs
      exact ⟨inv_owner (s := s) (w := s.wait) h (by rw [hc]; rfl) ht (by simp [holds]) (by simp)
        (by intro _; right; rw [hc]; simp [looks]), by simp [legal], by simp [armed],
        key (s2 := { s with owner := _, pc := _ }) rfl (by rw [hc]; simp [follow, phase]) other0⟩
    · rename_i hc
      have ht : t < n := h.known t (by rw [hc]; simp)
      cases hs
      refine ⟨inv_move h ht (by rw [hc]; rfl) (by simp) (by simp) (by rw [hc]; simp [looks]), by simp [legal],
        by simp [armed], key (s2 := { s with pc := _ }) rfl (by rw [hc]; simp [follow, phase]) ?_⟩
      intro u hu q; simp [follow, Ne.symm hu]
    · rename_i hc
      have ht : t < n := h.known t (by rw [hc]; simp)
      split at hs <;> cases hs
      rename_i ho
      exact ⟨inv_lock h ht ho rfl (by simp) (by simp) (by rw [hc]; simp [looks]), by simp [legal], by simp [armed],
        key (s2 := { s with owner := _, pc := _ }) rfl (by rw [hc]; simp [follow, phase]) other0⟩
    · rename_i hc
      have ht : t < n := h.known t (by rw [hc]; simp)
      split at hs <;> cases hs
      · rename_i hw
        exact ⟨inv_owner (s := s) (w := s.wait) h (by rw [hc]; rfl) ht (by simp [holds]) (by simp) (by simp [hw]),
          by simp [legal], by simp [armed],
          key (s2 := { s with owner := _, pc := _ }) rfl (by rw [hc]; simp [follow, phase]) other0⟩
      · rename_i hw
        exact ⟨inv_move h ht (by rw [hc]; rfl) (by simp) (by simpa using hw) (by rw [hc]; simp [looks]), by simp [legal],
          by simp [armed], key (s2 := { s with pc := _ }) rfl (by rw [hc]; simp [follow, phase]) other0⟩
    · cases hs
    · rename_i hc
      have ht : t < n := h.known t (by rw [hc]; simp)
      split at hs <;> cases hs
      rename_i ho
      exact ⟨inv_lock h ht ho rfl (by simp) (by simp) (by rw [hc]; simp [looks]), by simp [legal], by simp [armed],
        key (s2 := { s with owner := _, pc := _ }) rfl (by rw [hc]; simp [follow, phase]) other0⟩
    · rename_i hc
      have ht : t < n := h.known t (by rw [hc]; simp)
      cases hs
      refine ⟨inv_owner (s := s) (o := s.owner) h (by rw [hc]; rfl) ht (by simp [holds, (h.held t).1 (by rw [hc]; rfl)]) (by simp)
        (by simp), by simp [legal, h.taking t hc], by simp [armed],
        key (s2 := { s with wait := _, pc := _ }) rfl (by rw [hc]; simp [follow, phase]) ?_⟩
      intro u hu q; simp [follow, Ne.symm hu]
    · rename_i hc
      have ht : t < n := h.known t (by rw [hc]; simp)
      cases hs
      exact ⟨inv_owner (s := s) (w := s.wait) h (by rw [hc]; rfl) ht (by simp [holds]) (by simp)
        (by intro _; right; rw [hc]; simp [looks]), by simp [legal], by simp [armed],
        key (s2 := { s with owner := _, pc := _ }) rfl (by rw [hc]; simp [follow, phase]) other0⟩
    · rename_i hc
      have ht : t < n := h.known t (by rw [hc]; simp)
      cases hs
      refine ⟨inv_move h ht (by rw [hc]; rfl) (by simp) (by simp) (by rw [hc]; simp [looks]), by simp [legal],
        by simp [armed], key (s2 := { s with pc := _ }) rfl (by rw [hc]; simp [follow, phase]) ?_⟩
      intro u hu q; simp [follow, Ne.symm hu]

theorem armed_append (b : Bool) (x y : List Event) : armed b (x ++ y) = armed (armed b x) y := by
  induction x generalizing b with
  | nil => rfl
  | cons e x ih => cases e <;> simp only [List.cons_append, armed] <;> exact ih _

theorem legal_append (b : Bool) (x y : List Event) : legal b (x ++ y) ↔ legal b x ∧ legal (armed b x) y := by
  induction x generalizing b with
  | nil => simp [legal, armed]
  | cons e x ih => cases e <;> simp only [List.cons_append, legal, armed, ih] <;> simp [and_assoc]

theorem follow_append (t : Nat) (p q : Phase) (x y : List Event) (h : follow t p x = some q) :
    follow t p (x ++ y) = follow t q y := by
  induction x generalizing p with
  | nil => simp only [follow] at h; cases h; rfl
  | cons e x ih =>
    cases e <;> simp only [List.cons_append, follow] at h ⊢ <;> split at h <;>
      first
        | (split at h
           · rename_i h1 h2; rw [if_pos h1, if_pos h2]; exact ih _ h
           · cases h)
        | (rename_i h1; rw [if_neg h1]; exact ih _ h)

theorem exec_inv {n : Nat} : ∀ {sched : List (Nat × Act)} {s s' : State} {es : List Event}, Inv n s →
    exec n s sched = some (s', es) →
    Inv n s' ∧ legal (!s.wait) es ∧ armed (!s.wait) es = (!s'.wait) ∧
      ∀ u, follow u (phase (s.pc u)) es = some (phase (s'.pc u)) := by
  intro sched
  induction sched with
  | nil => intro s s' es h he; cases he; exact ⟨h, trivial, rfl, fun _ => rfl⟩
  | cons x rest ih =>
    obtain ⟨t, a⟩ := x
    intro s s' es h he
    simp only [exec, Option.bind_eq_bind, Option.bind_eq_some_iff, Option.pure_def, Option.some.injEq, Prod.exists] at he
    obtain ⟨s1, e1, h1, s2, e2, h2, h3⟩ := he
    cases h3
    obtain ⟨i1, l1, a1, f1⟩ := inv_step h h1
    obtain ⟨i2, l2, a2, f2⟩ := ih i1 h2
    refine ⟨i2, (legal_append _ _ _).2 ⟨l1, by rw [a1]; exact l2⟩, by rw [armed_append, a1, a2], ?_⟩
    intro u
    rw [follow_append _ _ _ _ _ (f1 u)]
    exact f2 u

theorem legal_between {b : Bool} {x y z : List Event} {t u : Nat} (h : legal b (x ++ .take t :: y ++ .take u :: z)) :
    ∃ v, Event.set v ∈ y := by
  rw [List.append_assoc, legal_append] at h
  replace h := h.2
  simp only [List.cons_append, legal] at h
  replace h := h.2
  generalize hc : false = c at h
  have : c = true ∨ ∃ v, Event.set v ∈ y := by
    clear hc
    induction y generalizing c with
    | nil => left; exact h.1
    | cons e y ih =>
      cases e <;> simp only [List.cons_append, legal] at h <;>
        first
          | (right; exact ⟨_, List.mem_cons_self⟩)
          | (left; exact h.1)
          | (rcases ih _ h with h' | ⟨v, hv⟩
             · left; exact h'
             · right; exact ⟨v, List.mem_cons_of_mem _ hv⟩)
  rcases this with h' | h'
  · rw [← hc] at h'; cases h'
  · exact h'

/-! ## Ends of runs -/

/-- A bound for the steps a thread still makes by itself. -/
def weight : Pc → Nat
  | .idle | .asleep => 0
  | .setDone | .waitDone => 1
  | .setSignalled | .taken => 2
  | .taking => 3
  | .check => 4
  | .woken | .waitLock => 5
  | .setStored => 8
  | .setHeld => 9
  | .setLock => 10

def total (n : Nat) (f : Nat → Pc) : Nat := ∑ u ∈ Finset.range n, weight (f u)

theorem total_put {n : Nat} {f : Nat → Pc} {t : Nat} {p : Pc} (ht : t < n) :
    total n (put f t p) + weight (f t) = total n f + weight p := by
  have e : ∀ g : Nat → Pc, total n g = weight (g t) + ∑ u ∈ (Finset.range n).erase t, weight (g u) := by
    intro g
    exact (Finset.add_sum_erase _ (fun u => weight (g u)) (Finset.mem_range.2 ht)).symm
  rw [e, e f, put_self]
  have : ∑ u ∈ (Finset.range n).erase t, weight (put f t p u) = ∑ u ∈ (Finset.range n).erase t, weight (f u) := by
    apply Finset.sum_congr rfl
    intro u hu
    rw [put_ne (Finset.ne_of_mem_erase hu)]
  rw [this]; omega

/-- What a caller, or the operating system, adds to the work to be done. -/
def cost : Act → Nat
  | .callSet => 11
  | .callWait => 6
  | .spurious => 6
  | .go _ => 0

theorem total_step {n : Nat} {s s' : State} {t : Nat} {a : Act} {es : List Event} (h : Inv n s)
    (hs : step n s t a = some (s', es)) : total n s'.pc + 1 ≤ total n s.pc + cost a := by
  cases a with
  | callSet =>
    simp only [step] at hs
    split at hs <;> cases hs
    rename_i hc
    have := total_put (f := s.pc) (p := .setLock) hc.1
    rw [hc.2] at this; simp only [weight, cost] at this ⊢; omega
  | callWait =>
    simp only [step] at hs
    split at hs <;> cases hs
    rename_i hc
    have := total_put (f := s.pc) (p := .waitLock) hc.1
    rw [hc.2] at this; simp only [weight, cost] at this ⊢; omega
  | spurious =>
    simp only [step] at hs
    split at hs <;> cases hs
    rename_i hc
    have := total_put (f := s.pc) (p := .woken) (h.known t (by rw [hc]; simp))
    rw [hc] at this; simp only [weight, cost] at this ⊢; omega
  | go w =>
    have ht : t < n := h.known t (by intro e; simp [step, e] at hs)
    have key : ∀ p, s'.pc = put s.pc t p → weight p < weight (s.pc t) → total n s'.pc + 1 ≤ total n s.pc + 0 := by
      intro p e hp
      have := total_put (f := s.pc) (p := p) ht
      rw [e]; omega
    simp only [cost]
    simp only [step] at hs
    split at hs
    · cases hs
    · rename_i hc; split at hs <;> cases hs; exact key _ rfl (by rw [hc]; decide)
    · rename_i hc; cases hs; exact key _ rfl (by rw [hc]; decide)
    · rename_i hc
      split at hs
      · rename_i hw
        split at hs
        · rename_i u
          cases hs
          simp only [wakes, decide_eq_true_eq] at hw
          have hne : u ≠ t := by rintro rfl; rw [hc] at hw; cases hw.2
          have h1 := total_put (f := s.pc) (p := .setSignalled) ht
          have h2 := total_put (f := put s.pc t .setSignalled) (p := .woken) hw.1
          rw [put_ne hne, hw.2] at h2
          rw [hc] at h1
          simp only [weight] at h1 h2 ⊢
          omega
        · cases hs; exact key _ rfl (by rw [hc]; decide)
      · cases hs
    · rename_i hc; cases hs; exact key _ rfl (by rw [hc]; decide)
    · rename_i hc; cases hs; exact key _ rfl (by rw [hc]; decide)
    · rename_i hc; split at hs <;> cases hs; exact key _ rfl (by rw [hc]; decide)
    · rename_i hc; split at hs <;> cases hs <;> exact key _ rfl (by rw [hc]; decide)
    · cases hs
    · rename_i hc; split at hs <;> cases hs; exact key _ rfl (by rw [hc]; decide)
    · rename_i hc; cases hs; exact key _ rfl (by rw [hc]; decide)
    · rename_i hc; cases hs; exact key _ rfl (by rw [hc]; decide)
    · rename_i hc; cases hs; exact key _ rfl (by rw [hc]; decide)

theorem total_exec {n : Nat} : ∀ {sched : List (Nat × Act)} {s s' : State} {es : List Event}, Inv n s →
    exec n s sched = some (s', es) →
    total n s'.pc + sched.length ≤ total n s.pc + (sched.map fun x => cost x.2).sum := by
  intro sched
  induction sched with
  | nil => intro s s' es h he; cases he; simp
  | cons x rest ih =>
    obtain ⟨t, a⟩ := x
    intro s s' es h he
    simp only [exec, Option.bind_eq_bind, Option.bind_eq_some_iff, Option.pure_def, Option.some.injEq, Prod.exists] at he
    obtain ⟨s1, e1, h1, s2, e2, h2, h3⟩ := he
    cases h3
    have := total_step h h1
    have := ih (inv_step h h1).1 h2
    simp only [List.length_cons, List.map_cons, List.sum_cons]
    omega

/-- If some thread is neither out of all calls nor asleep, one can go on. -/
theorem progress {n : Nat} {s : State} (h : Inv n s) {t : Nat} (h1 : s.pc t ≠ .idle) (h2 : s.pc t ≠ .asleep) :
    ∃ u w x, step n s u (.go w) = some x := by
  -- the owner of the mutex can always go on
  have own : ∀ o, holds (s.pc o) = true → ∃ u w x, step n s u (.go w) = some x := by
    intro o ho
    refine ⟨o, ?_⟩
    cases hp : s.pc o <;> rw [hp] at ho <;> try (exact absurd ho (by decide))
    · exact ⟨none, _, by simp only [step, hp]; rfl⟩
    · by_cases hw : wakes s n none
      · exact ⟨none, _, by simp only [step, hp, hw, if_true]; rfl⟩
      · simp only [wakes, List.all_eq_true, not_forall] at hw
        obtain ⟨u, hu, hw⟩ := hw
        have hw' : wakes s n (some u) = true := by
          simp only [wakes, decide_eq_true_eq]
          exact ⟨List.mem_range.1 hu, by simpa using hw⟩
        exact ⟨some u, _, by simp only [step, hp, hw', if_true]; rfl⟩
    · exact ⟨none, _, by simp only [step, hp]; rfl⟩
    · cases hw : s.wait
      · exact ⟨none, _, by simp only [step, hp, hw]; rfl⟩
      · exact ⟨none, _, by simp only [step, hp, hw]; rfl⟩
    · exact ⟨none, _, by simp only [step, hp]; rfl⟩
    · exact ⟨none, _, by simp only [step, hp]; rfl⟩
  cases ho : s.owner with
  | some o => exact own o ((h.held o).2 ho)
  | none =>
    cases hh : holds (s.pc t) with
    | true => exact own t hh
    | false =>
      refine ⟨t, none, ?_⟩
      cases hp : s.pc t <;> rw [hp] at hh h1 h2 <;> 
        first
          | (exact absurd hh (by decide))
          | (exact absurd rfl h1)
          | (exact absurd rfl h2)
          | (exact ⟨_, by simp only [step, hp, ho, if_true]; rfl⟩)

/-! ## The properties -/

/-- C39: in every run of any number of threads, every set makes the signal set, and every wait takes it, once between
call and return, and a wait only takes the signal when it is set (it is when created). -/
theorem C39_order (n : Nat) (sched : List (Nat × Act)) (s : State) (es : List Event)
    (h : exec n create sched = some (s, es)) :
    legal true es ∧ ∀ t, ∃ p, follow t .out es = some p := by
  obtain ⟨-, h1, -, h3⟩ := exec_inv (inv_create n) h
  exact ⟨h1, fun t => ⟨_, h3 t⟩⟩

/-- C39: between two waits that take the signal there is a set. -/
theorem C39_once (n : Nat) (sched : List (Nat × Act)) (s : State) (x y z : List Event) (t u : Nat)
    (h : exec n create sched = some (s, x ++ .take t :: y ++ .take u :: z)) : ∃ v, Event.set v ∈ y :=
  legal_between (C39_order n sched s _ h).1

/-- C39: no wake up is lost. If in some run a point is reached where every thread is out of all calls or asleep in a
wait, and one is asleep, then the signal is not set: the last set, if any, has been taken by a wait. -/
theorem C39_wakes (n : Nat) (sched : List (Nat × Act)) (s : State) (es : List Event)
    (h : exec n create sched = some (s, es)) (hq : ∀ t, s.pc t = .idle ∨ s.pc t = .asleep) (t : Nat)
    (ht : s.pc t = .asleep) : armed true es = false := by
  obtain ⟨hi, -, h2, -⟩ := exec_inv (inv_create n) h
  have h2 : armed true es = !s.wait := h2
  rw [h2]
  cases hw : s.wait with
  | true => rfl
  | false =>
    obtain ⟨u, hu⟩ := hi.wakes hw t ht
    rcases hq u with e | e <;> rw [e] at hu <;> cases hu

/-- C39: such a point is reached. Until it is some thread can go on by itself, and apart from the calls (and wake ups
without cause) a run is only so long. -/
theorem C39_ends (n : Nat) (sched : List (Nat × Act)) (s : State) (es : List Event)
    (h : exec n create sched = some (s, es)) :
    sched.length ≤ (sched.map fun x => cost x.2).sum ∧
    ((∀ t, s.pc t = .idle ∨ s.pc t = .asleep) ∨ ∃ t w x, step n s t (.go w) = some x) := by
  have hi := (exec_inv (inv_create n) h).1
  refine ⟨?_, ?_⟩
  · have := total_exec (inv_create n) h
    have h0 : total n create.pc = 0 := Finset.sum_eq_zero (fun _ _ => rfl)
    omega
  · by_cases hq : ∀ t, s.pc t = .idle ∨ s.pc t = .asleep
    · exact .inl hq
    · right
      simp only [not_forall, not_or] at hq
      obtain ⟨t, h1, h2⟩ := hq
      exact progress hi h1 h2

/-- C39: at no time have more waits taken the signal than sets been made, but for the one a new signal allows. (By
`C39_order` a wait that has returned has taken the signal, and a set that was made was called.) -/
theorem C39_count (n : Nat) (sched : List (Nat × Act)) (s : State) (es : List Event)
    (h : exec n create sched = some (s, es)) :
    es.countP (fun e => match e with | .take _ => true | _ => false) ≤
      1 + es.countP (fun e => match e with | .set _ => true | _ => false) := by
  have key : ∀ (es : List Event) (b : Bool), legal b es →
      es.countP (fun e => match e with | .take _ => true | _ => false) ≤
      (if b then 1 else 0) + es.countP (fun e => match e with | .set _ => true | _ => false) := by
    intro es
    induction es with
    | nil => intro b _; simp
    | cons e es ih =>
      intro b hl
      cases e <;> simp only [legal] at hl <;>
        first
          | (have := ih _ hl; simp only [List.countP_cons]; simp at this ⊢; split <;> omega)
          | (have := ih _ hl.2; simp only [List.countP_cons]; rw [if_pos hl.1]; simp at this ⊢; omega)
          | (have := ih _ hl; simp only [List.countP_cons]; simp at this ⊢; omega)
  have := key es true (C39_order n sched s es h).1
  simpa using this

/-- Two waiting threads: the first wait takes the new signal, the other sleeps, is woken by a set and takes it. -/
example : ∃ s, exec 3 create
    ([(0, .callWait), (0, .go none), (0, .go none), (0, .go none), (0, .go none), (0, .go none),
      (1, .callWait), (1, .go none), (1, .go none), (2, .callSet), (2, .go none), (2, .go none), (2, .go (some 1)),
      (2, .go none), (2, .go none), (1, .go none), (1, .go none), (1, .go none), (1, .go none), (1, .go none)]) =
    some (s, [.callWait 0, .take 0, .retWait 0, .callWait 1, .callSet 2, .set 2, .retSet 2, .take 1, .retWait 1]) :=
  ⟨_, rfl⟩

/-- A quiet state with a sleeping thread is reached. -/
example : ∃ s es, exec 2 create
    [(0, .callWait), (0, .go none), (0, .go none), (0, .go none), (0, .go none), (0, .go none),
      (1, .callWait), (1, .go none), (1, .go none)] = some (s, es) ∧ s.pc 1 = .asleep ∧ s.pc 0 = .idle :=
  ⟨_, _, rfl, rfl, rfl⟩

end Verif.Signal
