import Verif.DataSet.Model
import Mathlib.Tactic.ByContra

/-! # Properties of data set reloads: C37 -/

namespace Verif.DataSet

open Verif.Resource (set set_self set_ne)

/-- The data set a thread has allocated and not yet handed on. -/
def Phase.ds : Phase → Option Nat
  | .init _ _ ds => some ds
  | _ => Option.none

/-- How often a data set was freed: by a reload function or through its handle. -/
def frees (s : State) (h ds : Nat) : Nat := s.discarded ds + s.mgr.freed h

structure Inv (s : State) : Prop where
  mgr : Resource.Reached s.mgr
  lt : ∀ h ds, s.dataOf h = some ds → h < s.mgr.fresh ∧ ds < s.next
  inj : ∀ h h' ds, s.dataOf h = some ds → s.dataOf h' = some ds → h = h'
  pend : ∀ t ds, (s.phase t).ds = some ds → ds < s.next ∧ s.discarded ds = 0 ∧
    (∀ h, s.dataOf h ≠ some ds) ∧ ∀ t', (s.phase t').ds = some ds → t' = t
  disc : ∀ ds, s.discarded ds = 0 ∨ (s.discarded ds = 1 ∧ ds < s.next ∧ ∀ h, s.dataOf h ≠ some ds)
  all : ∀ ds, ds < s.next → s.discarded ds = 1 ∨ (∃ t, (s.phase t).ds = some ds) ∨
    ∃ h, s.dataOf h = some ds

theorem reached_step {s s' : Resource.State} (h : Resource.Reached s) {t : Nat} {a : Resource.Act} {r : Resource.Ret}
    (hs : Resource.step s t a = some (s', r)) : Resource.Reached s' := by
  obtain ⟨n, sched, he⟩ := h
  exact ⟨n, sched ++ [(t, a)], by simp [Resource.exec_append, he, Resource.exec, hs]⟩

/-- The number of handles only grows. -/
theorem fresh_step {s s' : Resource.State} {t : Nat} {a : Resource.Act} {r : Resource.Ret}
    (h : Resource.step s t a = some (s', r)) : s.fresh ≤ s'.fresh ∧ (a = .callReplace → s'.fresh = s.fresh + 1) := by
  simp only [Resource.step, Option.bind_eq_bind] at h
  cases ht : s.pcs[t]? with
  | none => simp [ht] at h
  | some pc =>
    simp only [ht, Option.bind_some] at h
    cases a with
    | callGet | callRelease | callReplace | callFree =>
      simp only at h
      split at h
      · simp at h; rw [← h.1]; simp [Resource.State.goto, Resource.State.touch, Resource.State.setup]
      · simp at h
    | run =>
      refine ⟨?_, by simp⟩
      cases pc with
      | swap c old =>
        cases c <;> simp only [Resource.access, reduceCtorEq, Option.some.injEq, Prod.mk.injEq] at h
        all_goals
          rw [← h.1]
          split <;> exact Nat.le_refl _
      | incAddr c compare a =>
        simp only [Resource.access] at h
        split at h
        · split at h <;> simp at h <;> (rw [← h.1]; exact Nat.le_refl _)
        · simp at h; rw [← h.1]; exact Nat.le_refl _
      | decRead c p compare =>
        simp only [Resource.access] at h
        split at h
        · split at h <;> simp at h <;> (rw [← h.1]; exact Nat.le_refl _)
        · simp at h; rw [← h.1]; exact Nat.le_refl _
      | decFree c p d =>
        simp only [Resource.access] at h
        split at h
        · simp at h
        · split at h <;> simp at h <;> (rw [← h.1]; exact Nat.le_refl _)
      | decCheck c p d =>
        simp only [Resource.access] at h
        split at h <;> simp at h <;> (rw [← h.1]; exact Nat.le_refl _)
      | idle => simp [Resource.access] at h
      | _ => simp [Resource.access] at h; rw [← h.1]; exact Nat.le_refl _

/-- A step that only changes what no clause of the invariant is about, and the phase of a thread without data set. -/
theorem Inv.move {s s' : State} (h : Inv s) {t : Nat} (hm : Resource.Reached s'.mgr)
    (hf : s.mgr.fresh ≤ s'.mgr.fresh) (hn : s'.next = s.next) (hd : s'.dataOf = s.dataOf)
    (hdi : s'.discarded = s.discarded)
    (hp : ∀ x, (s'.phase x).ds = (s.phase x).ds) : Inv s' where
  mgr := hm
  lt := fun x ds e => by
    rw [hd] at e; rw [hn]
    exact ⟨Nat.lt_of_lt_of_le (h.lt x ds e).1 hf, (h.lt x ds e).2⟩
  inj := by rw [hd]; exact h.inj
  pend := fun x ds e => by
    rw [hp] at e; rw [hn, hdi, hd]
    obtain ⟨h1, h2, h4, h5⟩ := h.pend x ds e
    exact ⟨h1, h2, h4, fun t' e' => h5 t' (by rw [← hp]; exact e')⟩
  disc := by rw [hdi, hn, hd]; exact h.disc
  all := by
    rw [hdi, hn, hd]
    intro ds hds
    rcases h.all ds hds with h1 | ⟨t, h1⟩ | h1
    · exact .inl h1
    · exact .inr (.inl ⟨t, by rw [hp]; exact h1⟩)
    · exact .inr (.inr h1)

theorem goto_ds {s : State} {t : Nat} {p : Phase} (h : p.ds = (s.phase t).ds) (x : Nat) :
    (set s.phase t p x).ds = (s.phase x).ds := by
  by_cases e : x = t
  · subst e; rw [set_self, h]
  · rw [set_ne _ _ e]

theorem Inv.step {s s' : State} (h : Inv s) {t : Nat} {a : Act} {r : Ret} (hs : step s t a = some (s', r)) : Inv s' := by
  have hman : ∀ b, s.manage t b = some (s', r) → Inv s' := by
    intro b hb
    simp only [State.manage, Option.bind_eq_bind] at hb
    split at hb
    · cases hr : Resource.step s.mgr t b with
      | none => simp [hr] at hb
      | some q =>
        obtain ⟨m, r'⟩ := q
        simp [hr] at hb
        rw [← hb.1]
        exact h.move (t := t) (reached_step h.mgr hr) (fresh_step hr).1 rfl rfl rfl (fun _ => rfl)
    · simp at hb
  cases a with
  | get => exact hman _ hs
  | release p => exact hman _ hs
  | free => exact hman _ hs
  | run => exact hman _ hs
  | reload k =>
    simp only [DataSet.step] at hs
    split at hs
    · rename_i hc
      simp at hs
      rw [← hs.1]
      exact h.move (t := t) h.mgr (Nat.le_refl _) rfl rfl rfl (goto_ds (by rw [hc.1]; rfl))
    · simp at hs
  | load ok =>
    simp only [DataSet.step] at hs
    cases hp : s.phase t with
    | none => rw [hp] at hs; simp [State.load] at hs
    | start k =>
      rw [hp] at hs; simp [State.load] at hs
      rw [← hs.1]
      exact h.move (t := t) h.mgr (Nat.le_refl _) rfl rfl rfl (goto_ds (by rw [hp]; rfl))
    | reading k a =>
      rw [hp] at hs; simp [State.load] at hs
      rw [← hs.1]
      exact h.move (t := t) h.mgr (Nat.le_refl _) rfl rfl rfl (goto_ds (s := s) (by rw [hp]; rfl))
    | existing k a =>
      rw [hp] at hs
      cases ok with
      | false =>
        simp [State.load] at hs
        rw [← hs.1]
        exact h.move (t := t) h.mgr (Nat.le_refl _) rfl rfl rfl (goto_ds (by rw [hp]; rfl))
      | true =>
        simp [State.load] at hs
        rw [← hs.1]
        have hno : ∀ x, (s.phase x).ds ≠ some s.next := fun x e => Nat.lt_irrefl _ (h.pend x _ e).1
        have hnd : ∀ x, s.dataOf x ≠ some s.next := fun x e => Nat.lt_irrefl _ (h.lt x _ e).2
        have hdn : s.discarded s.next = 0 := by
          rcases h.disc s.next with h1 | ⟨-, h2, -⟩
          · exact h1
          · exact absurd h2 (Nat.lt_irrefl _)
        have hph : ∀ x ds, (set s.phase t (.init k a s.next) x).ds = some ds →
            (x = t ∧ ds = s.next) ∨ (x ≠ t ∧ (s.phase x).ds = some ds) := by
          intro x ds e
          by_cases ext : x = t
          · subst ext; rw [set_self] at e; exact .inl ⟨rfl, by simpa [Phase.ds] using e.symm⟩
          · rw [set_ne _ _ ext] at e; exact .inr ⟨ext, e⟩
        refine ⟨h.mgr, ?_, h.inj, ?_, ?_, ?_⟩
        · intro x ds e
          exact ⟨(h.lt x ds e).1, Nat.lt_succ_of_lt (h.lt x ds e).2⟩
        · intro x ds e
          rcases hph x ds e with ⟨rfl, rfl⟩ | ⟨hx, e'⟩
          · refine ⟨Nat.lt_succ_self _, hdn, hnd, fun t' e' => ?_⟩
            rcases hph t' _ e' with ⟨h1, -⟩ | ⟨-, h1⟩
            · exact h1
            · exact absurd h1 (hno t')
          · obtain ⟨h1, h2, h4, h5⟩ := h.pend x ds e'
            refine ⟨Nat.lt_succ_of_lt h1, h2, h4, fun t' e' => ?_⟩
            rcases hph t' _ e' with ⟨-, h6⟩ | ⟨-, h6⟩
            · exact absurd h1 (by rw [h6]; exact Nat.lt_irrefl _)
            · exact h5 t' h6
        · intro ds
          rcases h.disc ds with h1 | ⟨h1, h2, h3⟩
          · exact .inl h1
          · exact .inr ⟨h1, Nat.lt_succ_of_lt h2, h3⟩
        · intro ds hds
          by_cases e : ds = s.next
          · subst e
            exact .inr (.inl ⟨t, by simp [State.goto, set_self, Phase.ds]⟩)
          · have hds : ds < s.next + 1 := hds
            rcases h.all ds (by omega) with h1 | ⟨x, h1⟩ | h1
            · exact .inl h1
            · refine .inr (.inl ⟨x, ?_⟩)
              have hx : x ≠ t := by rintro rfl; rw [hp] at h1; cases h1
              simp only [State.goto]
              rw [set_ne _ _ hx]; exact h1
            · exact .inr (.inr h1)
    | init k a ds =>
      rw [hp] at hs
      have hds : (s.phase t).ds = some ds := by rw [hp]; rfl
      obtain ⟨q1, q2, q4, q5⟩ := h.pend t ds hds
      have hph : ∀ x ds', (set s.phase t Phase.none x).ds = some ds' → x ≠ t ∧ (s.phase x).ds = some ds' := by
        intro x ds' e
        by_cases ext : x = t
        · subst ext; rw [set_self] at e; cases e
        · rw [set_ne _ _ ext] at e; exact ⟨ext, e⟩
      have hne : ∀ x ds', x ≠ t → (s.phase x).ds = some ds' → ds' ≠ ds := by
        rintro x ds' hx e rfl
        exact hx (q5 x e)
      have hall : ∀ ds', ds' ≠ ds → (∃ x, (s.phase x).ds = some ds') → ∃ x, (set s.phase t Phase.none x).ds = some ds' := by
        rintro ds' hd ⟨x, e⟩
        refine ⟨x, ?_⟩
        rw [set_ne _ _ (by rintro rfl; rw [hds] at e; exact hd (by simpa using e.symm))]
        exact e
      cases ok with
      | true =>
        simp only [State.load, if_true, Option.bind_eq_bind] at hs
        cases hr : Resource.step (s.touch a).mgr t .callReplace with
        | none => simp [hr] at hs
        | some q =>
          obtain ⟨m, r'⟩ := q
          simp [hr] at hs
          rw [← hs.1]
          have hr' : Resource.step s.mgr t .callReplace = some (m, r') := hr
          have hfr : m.fresh = s.mgr.fresh + 1 := (fresh_step hr').2 rfl
          have hda : ∀ x ds', set s.dataOf s.mgr.fresh (some ds) x = some ds' →
              (x = s.mgr.fresh ∧ ds' = ds) ∨ (x ≠ s.mgr.fresh ∧ s.dataOf x = some ds') := by
            intro x ds' e
            by_cases ex : x = s.mgr.fresh
            · subst ex; rw [set_self] at e; exact .inl ⟨rfl, by simpa using e.symm⟩
            · rw [set_ne _ _ ex] at e; exact .inr ⟨ex, e⟩
          have hnd : ∀ ds', ds' ≠ ds → (∀ x, s.dataOf x ≠ some ds') →
              ∀ x, set s.dataOf s.mgr.fresh (some ds) x ≠ some ds' := by
            intro ds' hd hx x e
            rcases hda x ds' e with ⟨-, e'⟩ | ⟨-, e'⟩
            · exact hd e'
            · exact hx x e'
          refine ⟨reached_step h.mgr hr', ?_, ?_, ?_, ?_, ?_⟩
          · intro x ds' e
            show x < m.fresh ∧ ds' < s.next
            rw [hfr]
            rcases hda x ds' e with ⟨rfl, rfl⟩ | ⟨-, e'⟩
            · exact ⟨Nat.lt_succ_self _, q1⟩
            · exact ⟨Nat.lt_succ_of_lt (h.lt x ds' e').1, (h.lt x ds' e').2⟩
          · intro x x' ds' e e'
            rcases hda x ds' e with ⟨rfl, rfl⟩ | ⟨-, e1⟩
            · rcases hda x' ds' e' with ⟨rfl, -⟩ | ⟨-, e2⟩
              · rfl
              · exact absurd e2 (q4 x')
            · rcases hda x' ds' e' with ⟨rfl, rfl⟩ | ⟨-, e2⟩
              · exact absurd e1 (q4 x)
              · exact h.inj x x' ds' e1 e2
          · intro x ds' e
            obtain ⟨hx, e⟩ := hph x ds' e
            obtain ⟨h1, h2, h4, h5⟩ := h.pend x ds' e
            exact ⟨h1, h2, hnd ds' (hne x ds' hx e) h4, fun t' e' => h5 t' (hph t' ds' e').2⟩
          · intro ds'
            rcases h.disc ds' with h1 | ⟨h1, h2, h3⟩
            · exact .inl h1
            · refine .inr ⟨h1, h2, hnd ds' ?_ h3⟩
              rintro rfl
              rw [q2] at h1; cases h1
          · intro ds' hlt
            by_cases e : ds' = ds
            · subst e
              exact .inr (.inr ⟨s.mgr.fresh, set_self ..⟩)
            · rcases h.all ds' hlt with h1 | h1 | ⟨x, h1⟩
              · exact .inl h1
              · exact .inr (.inl (hall ds' e h1))
              · refine .inr (.inr ⟨x, ?_⟩)
                show set s.dataOf s.mgr.fresh (some ds) x = some ds'
                rw [set_ne _ _ (Nat.ne_of_lt (h.lt x ds' h1).1)]
                exact h1
      | false =>
        cases k
        all_goals
          simp [State.load] at hs
          rw [← hs.1]
          refine ⟨h.mgr, h.lt, h.inj, ?_, ?_, ?_⟩
          · intro x ds' e
            obtain ⟨hx, e⟩ := hph x ds' e
            obtain ⟨h1, h2, h4, h5⟩ := h.pend x ds' e
            refine ⟨h1, ?_, h4, fun t' e' => h5 t' (hph t' ds' e').2⟩
            show set s.discarded ds (s.discarded ds + 1) ds' = 0
            rw [set_ne _ _ (hne x ds' hx e)]; exact h2
          · intro ds'
            show set s.discarded ds (s.discarded ds + 1) ds' = 0 ∨ (set s.discarded ds (s.discarded ds + 1) ds' = 1 ∧ _)
            by_cases e : ds' = ds
            · subst e
              exact .inr ⟨by rw [set_self, q2], q1, q4⟩
            · rw [set_ne _ _ e]
              exact h.disc ds'
          · intro ds' hlt
            show set s.discarded ds (s.discarded ds + 1) ds' = 1 ∨ _
            by_cases e : ds' = ds
            · subst e; exact .inl (by rw [set_self, q2])
            · rw [set_ne _ _ e]
              rcases h.all ds' hlt with h1 | h1 | h1
              · exact .inl h1
              · exact .inr (.inl (hall ds' e h1))
              · exact .inr (.inr h1)

theorem start_inv (n : Nat) : Inv (start n) where
  mgr := ⟨n, [], rfl⟩
  lt := by
    intro h ds e
    simp only [start] at e
    split at e
    · simp_all [start, Resource.start]
    · cases e
  inj := by
    intro h h' ds e e'
    simp only [start] at e e'
    split at e
    · split at e'
      · simp_all
      · cases e'
    · cases e
  pend := by intro t ds e; cases e
  disc := fun ds => .inl rfl
  all := by
    intro ds e
    have : ds = 0 := by simp only [start] at e; omega
    subst this
    exact .inr (.inr ⟨0, rfl⟩)

/-- A state reached by some schedule of some number of threads. -/
def Reached (s : State) : Prop := ∃ n sched, exec (start n) sched = some s

theorem Inv.exec : ∀ {sched : Schedule} {s s' : State}, Inv s → exec s sched = some s' → Inv s' := by
  intro sched
  induction sched with
  | nil => intro s s' h he; cases he; exact h
  | cons c rest ih =>
    obtain ⟨t, a⟩ := c
    intro s s' h he
    simp only [DataSet.exec, Option.bind_eq_bind] at he
    cases hs : DataSet.step s t a with
    | none => simp [hs] at he
    | some q =>
      obtain ⟨s1, r⟩ := q
      simp only [hs, Option.bind_some] at he
      exact ih (h.step hs) he

theorem Reached.inv {s : State} (h : Reached s) : Inv s := by
  obtain ⟨n, sched, he⟩ := h
  exact (start_inv n).exec he

/-- C37: in every reachable state, a data set that was got and is not released, and the active one, have been freed neither
through their handle nor by a reload function; no data set was ever freed twice; and no two handles share one. Missing: reads
of the active data set by the reload functions, see `C37_reloadRead_violated`. -/
theorem C37_usable_partial {s : State} (hr : Reached s) {h ds : Nat} (hd : s.dataOf h = some ds) :
    (0 < s.mgr.held h → s.discarded ds = 0 ∧ s.mgr.freed h = 0) ∧
    (h = s.mgr.active → s.discarded ds = 0 ∧ s.mgr.freed h = 0) ∧
    s.discarded ds + s.mgr.freed h ≤ 1 ∧ ∀ h', s.dataOf h' = some ds → h' = h := by
  have hi := hr.inv
  obtain ⟨h1, h2, -, h4⟩ := Resource.C11_safe_partial hi.mgr
  have h5 : s.discarded ds = 0 := by
    rcases hi.disc ds with h | ⟨-, -, h⟩
    · exact h
    · exact absurd hd (h _)
  refine ⟨fun h3 => ⟨h5, h2 h h3⟩, ?_, by have := h1 h; omega, fun h' e => hi.inj h' h ds e hd⟩
  rintro rfl
  exact ⟨h5, h4⟩

/-- C37: the data set a handle has never changes. -/
theorem C37_same {s s' : State} (hr : Reached s) {t : Nat} {a : Act} {r : Ret} (hs : step s t a = some (s', r))
    {h ds : Nat} (hd : s.dataOf h = some ds) : s'.dataOf h = some ds := by
  have hi := hr.inv
  have hman : ∀ b, s.manage t b = some (s', r) → s'.dataOf h = some ds := by
    intro b hb
    simp only [State.manage, Option.bind_eq_bind] at hb
    split at hb
    · cases hr : Resource.step s.mgr t b with
      | none => simp [hr] at hb
      | some q => simp [hr] at hb; rw [← hb.1]; exact hd
    · simp at hb
  cases a with
  | get | release | free | run => exact hman _ hs
  | reload k =>
    simp only [step] at hs
    split at hs
    · simp at hs; rw [← hs.1]; exact hd
    · simp at hs
  | load ok =>
    simp only [step] at hs
    cases hp : s.phase t with
    | none | start | reading => rw [hp] at hs; simp [State.load] at hs; try (rw [← hs.1]; exact hd)
    | existing k a =>
      rw [hp] at hs
      cases ok <;> simp [State.load] at hs <;> (rw [← hs.1]; exact hd)
    | init k a ds' =>
      rw [hp] at hs
      cases ok with
      | false => cases k <;> simp [State.load] at hs <;> (rw [← hs.1]; exact hd)
      | true =>
        simp only [State.load, if_true, Option.bind_eq_bind] at hs
        cases hq : Resource.step (s.touch a).mgr t .callReplace with
        | none => simp [hq] at hs
        | some q =>
          simp [hq] at hs
          rw [← hs.1]
          show set s.dataOf s.mgr.fresh (some ds') h = some ds
          rw [set_ne _ _ (Nat.ne_of_lt (hi.lt h ds hd).1)]
          exact hd

/-- C37: a reload that fails, at any step, has changed nothing in the manager: the active data set, the use counts and what was
freed stay; and what it had allocated has been freed, once. (From a file, by the initialisation method, as its contract
requires.) -/
theorem C37_failed {s s' : State} (hr : Reached s) {t : Nat} {a : Act} (hs : step s t a = some (s', .failed)) :
    s'.mgr = s.mgr ∧ s'.dataOf = s.dataOf ∧
    (∀ k b ds, s.phase t = .init k b ds → s'.discarded ds = 1) ∧
    ∀ ds, s'.discarded ds ≠ s.discarded ds → ∀ h, s.dataOf h ≠ some ds := by
  have hi := hr.inv
  have hman : ∀ b, s.manage t b ≠ some (s', .failed) := by
    intro b hb
    simp only [State.manage, Option.bind_eq_bind] at hb
    split at hb
    · cases hr : Resource.step s.mgr t b with
      | none => simp [hr] at hb
      | some q => simp [hr] at hb; obtain ⟨-, hb⟩ := hb; revert hb; cases q.2 <;> simp [Ret.ofManager]
    · simp at hb
  cases a with
  | get | release | free | run => exact absurd hs (hman _)
  | reload k =>
    simp only [step] at hs
    split at hs <;> simp at hs
  | load ok =>
    simp only [step] at hs
    cases hp : s.phase t with
    | none | start | reading => rw [hp] at hs; simp [State.load] at hs
    | existing k a =>
      rw [hp] at hs
      cases ok <;> simp [State.load] at hs
      rw [← hs]
      exact ⟨rfl, rfl, fun k b ds e => (by cases e), fun ds e => absurd rfl e⟩
    | init k a ds =>
      rw [hp] at hs
      obtain ⟨q1, q2, q4, q5⟩ := hi.pend t ds (by rw [hp]; rfl)
      cases ok with
      | true =>
        simp only [State.load, if_true, Option.bind_eq_bind] at hs
        cases hq : Resource.step (s.touch a).mgr t .callReplace with
        | none => simp [hq] at hs
        | some q => simp [hq] at hs
      | false =>
        cases k
        all_goals
          simp [State.load] at hs
          rw [← hs]
          refine ⟨rfl, rfl, ?_, ?_⟩
          · intro k b ds' e
            obtain ⟨-, -, rfl⟩ := Phase.init.inj e
            show set s.discarded ds (s.discarded ds + 1) ds = 1
            rw [set_self, q2]
          · intro ds' e
            have e : set s.discarded ds (s.discarded ds + 1) ds' ≠ s.discarded ds' := e
            have : ds' = ds := by
              by_contra hne
              rw [set_ne _ _ hne] at e; exact e rfl
            subst this; exact q4

/-- C37: nothing leaks: when no call is in progress, every data set ever allocated has been freed once, or is the active one or
one that is held. (Partial: except the data sets whose replacement lost against another one at the same time.) Missing:
this case, see `C12_lost_violated`. -/
theorem C37_noLeak_partial {s : State} (hr : Reached s) (hq : Resource.Quiet s.mgr) (hp : ∀ t, s.phase t = .none)
    {ds : Nat} (hds : ds < s.next)
    (hlost : ∀ h, s.dataOf h = some ds → s.mgr.was h = true) :
    (s.discarded ds = 1 ∧ ∀ h, s.dataOf h ≠ some ds) ∨
    ∃ h, s.dataOf h = some ds ∧ s.discarded ds = 0 ∧
      ((s.mgr.freed h = 1 ∧ h ≠ s.mgr.active ∧ s.mgr.held h = 0) ∨
       (s.mgr.freed h = 0 ∧ (h = s.mgr.active ∨ 0 < s.mgr.held h))) := by
  have hi := hr.inv
  rcases hi.all ds hds with h1 | ⟨t, h1⟩ | ⟨h, h1⟩
  · rcases hi.disc ds with h2 | ⟨-, -, h2⟩
    · omega
    · exact .inl ⟨h1, h2⟩
  · rw [hp t] at h1; cases h1
  · obtain ⟨-, h3, -, h5⟩ := Resource.C11_safe_partial hi.mgr
    refine .inr ⟨h, h1, ?_, ?_⟩
    · rcases hi.disc ds with h2 | ⟨-, -, h2⟩
      · exact h2
      · exact absurd h1 (h2 h)
    · by_cases ha : h = s.mgr.active
      · exact .inr ⟨by rw [ha]; exact h5, .inl ha⟩
      · by_cases hh : 0 < s.mgr.held h
        · exact .inr ⟨h3 h hh, .inr hh⟩
        · exact .inl ⟨Resource.C12_freed_partial hi.mgr hq (hlost h h1) ha (by omega), ha, by omega⟩

/-! ## What later gets return -/

/-- No other reload gets to its replacement and the manager is not freed. -/
def NoReload (sched : Schedule) : Prop := ∀ c ∈ sched, c.2 ≠ .load true ∧ c.2 ≠ .free

theorem project_step {s s' : State} {t : Nat} {a : Act} {r : Ret} (hs : step s t a = some (s', r))
    (ha : a ≠ .load true ∧ a ≠ .free) :
    s'.mgr = s.mgr ∨ ∃ b r', Resource.step s.mgr t b = some (s'.mgr, r') ∧ b ≠ .callReplace ∧ b ≠ .callFree := by
  have hman : ∀ b, s.manage t b = some (s', r) → ∃ r', Resource.step s.mgr t b = some (s'.mgr, r') := by
    intro b hb
    simp only [State.manage, Option.bind_eq_bind] at hb
    split at hb
    · cases hr : Resource.step s.mgr t b with
      | none => simp [hr] at hb
      | some q => obtain ⟨m, r'⟩ := q; simp [hr] at hb; rw [← hb.1]; exact ⟨r', rfl⟩
    · simp at hb
  cases a with
  | get => obtain ⟨r', h⟩ := hman _ hs; exact .inr ⟨_, r', h, by simp, by simp⟩
  | release p => obtain ⟨r', h⟩ := hman _ hs; exact .inr ⟨_, r', h, by simp, by simp⟩
  | run => obtain ⟨r', h⟩ := hman _ hs; exact .inr ⟨_, r', h, by simp, by simp⟩
  | free => exact absurd rfl ha.2
  | reload k =>
    simp only [step] at hs
    split at hs
    · simp at hs; rw [← hs.1]; exact .inl rfl
    · simp at hs
  | load ok =>
    cases ok with
    | true => exact absurd rfl ha.1
    | false =>
      simp only [step] at hs
      cases hp : s.phase t with
      | none => rw [hp] at hs; simp [State.load] at hs
      | start | reading | existing => rw [hp] at hs; simp [State.load] at hs; rw [← hs.1]; exact .inl rfl
      | init k a ds => rw [hp] at hs; cases k <;> simp [State.load] at hs <;> (rw [← hs.1]; exact .inl rfl)

theorem project : ∀ {sched : Schedule} {s s' : State}, exec s sched = some s' → NoReload sched →
    ∃ m, Resource.exec s.mgr m = some s'.mgr ∧ Resource.NoReplace m := by
  intro sched
  induction sched with
  | nil => intro s s' he _; cases he; exact ⟨[], rfl, by simp [Resource.NoReplace]⟩
  | cons c rest ih =>
    obtain ⟨t, a⟩ := c
    intro s s' he hn
    simp only [exec, Option.bind_eq_bind] at he
    cases hs : step s t a with
    | none => simp [hs] at he
    | some q =>
      obtain ⟨s1, r⟩ := q
      simp only [hs, Option.bind_some] at he
      obtain ⟨m, h1, h2⟩ := ih he (fun c hc => hn c (by simp [hc]))
      rcases project_step hs (hn (t, a) (by simp)) with h3 | ⟨b, r', h3, h4⟩
      · exact ⟨m, by rw [← h3]; exact h1, h2⟩
      · refine ⟨(t, b) :: m, by simp [Resource.exec, h3, h1], ?_⟩
        intro c hc
        simp at hc
        rcases hc with rfl | hc
        · exact h4
        · exact h2 c hc

theorem Reached.step {s s' : State} (h : Reached s) {t : Nat} {a : Act} {r : Ret} (hs : step s t a = some (s', r)) :
    Reached s' := by
  obtain ⟨n, sched, he⟩ := h
  refine ⟨n, sched ++ [(t, a)], ?_⟩
  have : ∀ (l : Schedule) (x : State), exec x l = some s → exec x (l ++ [(t, a)]) = some s' := by
    intro l
    induction l with
    | nil => intro x hx; cases hx; simp [exec, hs]
    | cons c l ih =>
      obtain ⟨u, b⟩ := c
      intro x hx
      simp only [exec, Option.bind_eq_bind, List.cons_append] at hx ⊢
      cases hb : DataSet.step x u b with
      | none => simp [hb] at hx
      | some q => simp only [hb, Option.bind_some] at hx ⊢; exact ih _ hx
  exact this sched _ he

theorem Reached.exec : ∀ {sched : Schedule} {s s' : State}, Reached s → DataSet.exec s sched = some s' → Reached s' := by
  intro sched
  induction sched with
  | nil => intro s s' h he; cases he; exact h
  | cons c rest ih =>
    obtain ⟨t, a⟩ := c
    intro s s' h he
    simp only [DataSet.exec, Option.bind_eq_bind] at he
    cases hs : DataSet.step s t a with
    | none => simp [hs] at he
    | some q =>
      simp only [hs, Option.bind_some] at he
      exact ih (h.step hs) he

theorem same_exec : ∀ {sched : Schedule} {s s' : State}, Reached s → exec s sched = some s' → ∀ {h ds : Nat},
    s.dataOf h = some ds → s'.dataOf h = some ds := by
  intro sched
  induction sched with
  | nil => intro s s' _ he h ds hd; cases he; exact hd
  | cons c rest ih =>
    obtain ⟨t, a⟩ := c
    intro s s' hr he h ds hd
    simp only [exec, Option.bind_eq_bind] at he
    cases hs : step s t a with
    | none => simp [hs] at he
    | some q =>
      simp only [hs, Option.bind_some] at he
      exact ih (hr.step hs) he (C37_same hr hs hd)

/-- C37: a get that starts after a reload has returned gives the data set that reload made (number `ds`), provided no other reload
was being installed at the same time or later. Missing: reloads that overlap, see `C12_lost_violated`. -/
theorem C37_later_partial {s s1 s2 s3 s4 s5 : State} (hr : Reached s) {t u : Nat} {r r' : Ret} {k : Kind} {b ds : Nat}
    {rest mid : Schedule} {a : Act} {p : Nat} (hph : s.phase t = .init k b ds)
    (hload : step s t (.load true) = some (s1, r)) (hsole : Resource.Sole t s.mgr) (hrest : exec s1 rest = some s2)
    (hdone : s2.mgr.pcs[t]? = some .idle) (hget : step s2 u .get = some (s3, r')) (hmid : exec s3 mid = some s4)
    (hret : step s4 u a = some (s5, .got (some p))) (hno : NoReload rest) (hno' : NoReload mid) :
    s5.dataOf p = some ds := by
  have hi := hr.inv
  have hr1 := hr.step hload
  have hr2 := hr1.exec hrest
  have hr3 := hr2.step hget
  have hr4 := hr3.exec hmid
  -- the steps of the manager
  have hcall : ∃ r'', Resource.step s.mgr t .callReplace = some (s1.mgr, r'') ∧ s1.dataOf s.mgr.fresh = some ds := by
    simp only [step, hph, State.load, if_true, Option.bind_eq_bind] at hload
    cases hq : Resource.step (s.touch b).mgr t .callReplace with
    | none => simp [hq] at hload
    | some q =>
      obtain ⟨m, r''⟩ := q
      simp [hq] at hload
      rw [← hload.1]
      exact ⟨r'', hq, set_self ..⟩
  have hman : ∀ (x y : State) (c : Resource.Act) (q : Ret), x.manage u c = some (y, q) →
      ∃ q', Resource.step x.mgr u c = some (y.mgr, q') ∧ q = .ofManager q' := by
    intro x y c q hb
    simp only [State.manage, Option.bind_eq_bind] at hb
    split at hb
    · cases hr : Resource.step x.mgr u c with
      | none => simp [hr] at hb
      | some z => obtain ⟨m, r'⟩ := z; simp [hr] at hb; rw [← hb.1]; exact ⟨r', rfl, hb.2.symm⟩
    · simp at hb
  obtain ⟨r'', hcall, hds⟩ := hcall
  obtain ⟨m1, hm1, hn1⟩ := project hrest hno
  obtain ⟨rg, hg, -⟩ := hman s2 s3 _ _ hget
  obtain ⟨m2, hm2, hn2⟩ := project hmid hno'
  have hgot : ∃ c, Resource.step s4.mgr u c = some (s5.mgr, .got (some p)) := by
    have fin : ∀ c, s4.manage u c = some (s5, .got (some p)) → ∃ c, Resource.step s4.mgr u c = some (s5.mgr, .got (some p)) := by
      intro c hc
      obtain ⟨q', h1, h2⟩ := hman _ _ _ _ hc
      cases q' with
      | got x => exact ⟨c, by rw [h1]; simp [Ret.ofManager] at h2; rw [h2]⟩
      | nothing => cases h2
      | done => cases h2
    cases a with
    | get | release | free | run => exact fin _ hret
    | reload k =>
      simp only [step] at hret
      split at hret <;> simp at hret
    | load ok =>
      exfalso
      simp only [step] at hret
      cases hp : s4.phase u with
      | none | start | reading => rw [hp] at hret; simp [State.load] at hret
      | existing k a => rw [hp] at hret; cases ok <;> simp [State.load] at hret
      | init k a ds' =>
        rw [hp] at hret
        cases ok with
        | false => cases k <;> simp [State.load] at hret
        | true =>
          simp only [State.load, if_true, Option.bind_eq_bind] at hret
          cases hq : Resource.step (s4.touch a).mgr u .callReplace with
          | none => simp [hq] at hret
          | some q => simp [hq] at hret
  obtain ⟨c, hc⟩ := hgot
  have hp := Resource.C12_later_partial hi.mgr hcall hsole hm1 hdone hg hm2 hc hn1 hn2
  rw [hp]
  exact C37_same hr4 hret (same_exec hr3 hmid (C37_same hr2 hget (same_exec hr1 hrest hds)))

/-! ## Schedules -/

/-- `k` accesses of thread `t` in the manager. -/
def runs (t k : Nat) : Schedule := List.replicate k (t, .run)

/-- A get without interruption. -/
def get (t : Nat) : Schedule := (t, .get) :: runs t 5

/-- A successful reload without interruption; `k` accesses for the replacement. -/
def reload (t : Nat) (kind : Kind) (k : Nat) : Schedule :=
  (t, .reload kind) :: List.replicate 4 (t, .load true) ++ runs t k

/-- A reload whose initialisation fails. -/
def failing (t : Nat) (kind : Kind) : Schedule :=
  (t, .reload kind) :: List.replicate 3 (t, .load true) ++ [(t, .load false)]

/-- The hypotheses of `C37_later_partial` are met, with gets and releases during the replacement. -/
example : ∃ s s1 s2 s3 s4 s5 r r',
    exec (start 2) ((0, .reload .memory) :: List.replicate 3 (0, .load true) ++ get 1) = some s ∧
    s.phase 0 = .init .memory 0 1 ∧ step s 0 (.load true) = some (s1, r) ∧
    exec s1 (runs 0 4 ++ (1, .release 0) :: runs 1 3 ++ runs 0 12 ++ runs 1 2) = some s2 ∧
    s2.mgr.pcs[0]? = some .idle ∧ step s2 1 .get = some (s3, r') ∧ exec s3 (runs 1 4) = some s4 ∧
    step s4 1 .run = some (s5, .got (some 1)) ∧ s5.dataOf 1 = some 1 :=
  ⟨_, _, _, _, _, _, _, _, rfl, by decide +kernel, rfl, rfl, by decide +kernel, rfl, rfl, rfl, by decide +kernel⟩

/-- A failed reload from a file: the second data set is freed once. -/
example : ∃ s, exec (start 1) (failing 0 .file) = some s ∧ Resource.Quiet s.mgr ∧
    s.phase 0 = .none ∧ s.next = 2 ∧ s.discarded 1 = 1 ∧ s.mgr.fresh = 1 ∧ s.dataOf 0 = some 0 := by
  refine ⟨_, rfl, ?_⟩
  unfold Resource.Quiet
  decide +kernel

/-! ## Reads of a reload -/

/-- Whether a call is part of freeing the manager. -/
def freeing : Resource.Pc → Bool
  | .idle => false
  | .inc c | .incActive c _ | .incSelf c _ _ | .incRead c _ | .incAddr c _ _ | .swap c _ | .dec c _ | .decSelf c _ _
  | .decRead c _ _ | .decCheck c _ _ | .decFree c _ _ => match c with | .free _ => true | _ => false
  | .freeNew _ => true

/-- Nobody frees the manager, and the handles whose memory was freed are those whose resource was. -/
structure NoFree (s : Resource.State) : Prop where
  gone : ∀ p, s.gone p = true → 0 < s.freed p
  pcs : ∀ pc ∈ s.pcs, freeing pc = false

theorem afterDec_freeing {c : Resource.Ctx} (h : freeing (.dec c 0) = false) : freeing (Resource.afterDec c).1 = false := by
  cases c <;> simp_all [freeing, Resource.afterDec]

theorem NoFree.step {s s' : Resource.State} (h : NoFree s) {t : Nat} {a : Resource.Act} {r : Resource.Ret}
    (hs : Resource.step s t a = some (s', r)) (ha : a ≠ .callFree) : NoFree s' := by
  have build : ∀ new : Resource.Pc, s'.pcs = s.pcs.set t new → freeing new = false → s'.gone = s.gone →
      s'.freed = s.freed → NoFree s' := by
    intro new e1 e2 e3 e4
    refine ⟨by rw [e3, e4]; exact h.gone, fun pc hm => ?_⟩
    rw [e1] at hm
    rcases List.mem_or_eq_of_mem_set hm with h1 | rfl
    · exact h.pcs pc h1
    · exact e2
  simp only [Resource.step, Option.bind_eq_bind] at hs
  cases ht : s.pcs[t]? with
  | none => simp [ht] at hs
  | some pc =>
    simp only [ht, Option.bind_some] at hs
    have hpc := h.pcs pc (List.mem_of_getElem? ht)
    cases a with
    | callFree => exact absurd rfl ha
    | callGet | callRelease | callReplace =>
      simp only at hs
      split at hs
      · simp at hs; exact build _ (by rw [← hs.1]; rfl) rfl (by rw [← hs.1]; rfl) (by rw [← hs.1]; rfl)
      · simp at hs
    | run =>
      cases pc with
      | idle => simp [Resource.access] at hs
      | freeNew n => simp [freeing] at hpc
      | swap c old =>
        cases c with
        | user => simp [Resource.access] at hs
        | free n => simp [freeing] at hpc
        | replace n =>
          simp only [Resource.access, Option.some.injEq, Prod.mk.injEq] at hs
          refine build (.dec (.replace n) old) ?_ rfl ?_ ?_ <;> (rw [← hs.1]; split <;> rfl)
      | incAddr c compare a =>
        simp only [Resource.access] at hs
        split at hs
        · split at hs
          · simp at hs; exact build .idle (by rw [← hs.1]; rfl) rfl (by rw [← hs.1]; rfl) (by rw [← hs.1]; rfl)
          · simp at hs; exact build .idle (by rw [← hs.1]; rfl) rfl (by rw [← hs.1]; rfl) (by rw [← hs.1]; rfl)
          · simp at hs
            exact build _ (congrArg Resource.State.pcs hs.1.symm) (by exact hpc) (by rw [← hs.1]; rfl) (by rw [← hs.1]; rfl)
          · simp at hs
        · simp at hs; exact build (.inc c) (by rw [← hs.1]; rfl) hpc (by rw [← hs.1]; rfl) (by rw [← hs.1]; rfl)
      | decRead c p compare =>
        simp only [Resource.access] at hs
        split at hs
        · split at hs
          · simp at hs
            exact build _ (congrArg Resource.State.pcs hs.1.symm) (by exact hpc) (by rw [← hs.1]; rfl) (by rw [← hs.1]; rfl)
          · simp at hs
            exact build _ (by rw [← hs.1]; rfl) (afterDec_freeing hpc) (by rw [← hs.1]; rfl) (by rw [← hs.1]; rfl)
        · simp at hs; exact build (.dec c p) (by rw [← hs.1]; rfl) hpc (by rw [← hs.1]; rfl) (by rw [← hs.1]; rfl)
      | decCheck c p d =>
        simp only [Resource.access] at hs
        split at hs
        · simp at hs
          exact build (.decFree c p d) (by rw [← hs.1]; rfl) hpc (by rw [← hs.1]; rfl) (by rw [← hs.1]; rfl)
        · simp at hs
          exact build _ (by rw [← hs.1]; rfl) (afterDec_freeing hpc) (by rw [← hs.1]; rfl) (by rw [← hs.1]; rfl)
      | decFree c p d =>
        simp only [Resource.access] at hs
        split at hs
        · simp at hs
        · rename_i q _
          split at hs
          · simp at hs
            refine ⟨?_, ?_⟩
            · rw [← hs.1]
              intro x hx
              simp only [Resource.State.goto, Resource.State.touch] at hx ⊢
              by_cases e : x = q
              · subst e; rw [set_self]; omega
              · rw [set_ne _ _ e] at hx ⊢; exact h.gone x hx
            · intro pc hm
              have e1 : s'.pcs = s.pcs.set t (Resource.afterDec c).1 := by rw [← hs.1]; rfl
              rw [e1] at hm
              rcases List.mem_or_eq_of_mem_set hm with h1 | rfl
              · exact h.pcs pc h1
              · exact afterDec_freeing hpc
          · simp at hs
            exact build _ (by rw [← hs.1]; rfl) (afterDec_freeing hpc) (by rw [← hs.1]; rfl) (by rw [← hs.1]; rfl)
      | _ =>
        simp [Resource.access] at hs
        exact build _ (congrArg Resource.State.pcs hs.1.symm) (by exact hpc) (by rw [← hs.1]; rfl) (by rw [← hs.1]; rfl)

theorem pcs_step {s s' : Resource.State} {t : Nat} {a : Resource.Act} {r : Resource.Ret}
    (hs : Resource.step s t a = some (s', r)) : ∃ new, s'.pcs = s.pcs.set t new := by
  simp only [Resource.step, Option.bind_eq_bind] at hs
  cases ht : s.pcs[t]? with
  | none => simp [ht] at hs
  | some pc =>
    simp only [ht, Option.bind_some] at hs
    cases a with
    | callFree | callGet | callRelease | callReplace =>
      simp only at hs
      split at hs
      · simp at hs; rw [← hs.1]; exact ⟨_, rfl⟩
      · simp at hs
    | run =>
      cases pc with
      | idle => simp [Resource.access] at hs
      | swap c old =>
        cases c with
        | user => simp [Resource.access] at hs
        | _ =>
          simp only [Resource.access, Option.some.injEq, Prod.mk.injEq] at hs
          rw [← hs.1]
          split <;> exact ⟨_, rfl⟩
      | incAddr c compare a =>
        simp only [Resource.access] at hs
        split at hs
        · split at hs <;> simp at hs <;> (rw [← hs.1]; exact ⟨_, rfl⟩)
        · simp at hs; rw [← hs.1]; exact ⟨_, rfl⟩
      | decRead c p compare =>
        simp only [Resource.access] at hs
        split at hs
        · split at hs <;> simp at hs <;> (rw [← hs.1]; exact ⟨_, rfl⟩)
        · simp at hs; rw [← hs.1]; exact ⟨_, rfl⟩
      | decCheck c p d =>
        simp only [Resource.access] at hs
        split at hs <;> simp at hs <;> (rw [← hs.1]; exact ⟨_, rfl⟩)
      | decFree c p d =>
        simp only [Resource.access] at hs
        split at hs
        · simp at hs
        · split at hs <;> simp at hs <;> (rw [← hs.1]; exact ⟨_, rfl⟩)
      | _ => simp [Resource.access] at hs; rw [← hs.1]; exact ⟨_, rfl⟩

/-- The handle whose data set a reload reads. -/
def Phase.handle : Phase → Option Nat
  | .reading _ a | .existing _ a | .init _ a _ => some a
  | _ => Option.none

/-- Only thread `t` reloads and nobody frees the manager. -/
def OneReloader (t : Nat) (sched : Schedule) : Prop :=
  ∀ c ∈ sched, c.2 ≠ .free ∧ ((∃ k, c.2 = .reload k) → c.1 = t)

/-- What holds as long as only thread `t` reloads. -/
structure Calm (t : Nat) (s : State) : Prop where
  reached : Reached s
  others : ∀ u, u ≠ t → s.phase u = .none
  sole : Resource.Sole t s.mgr
  idle : s.phase t ≠ .none → s.mgr.pcs[t]? = some .idle
  handle : ∀ a, (s.phase t).handle = some a → a = s.mgr.active
  nofree : NoFree s.mgr
  uaf : s.uaf = false

theorem Calm.touch {t : Nat} {s : State} (h : Calm t s) {a : Nat} (ha : a = s.mgr.active) : s.touch a = s := by
  have h1 : s.mgr.freed a = 0 := by rw [ha]; exact (Resource.C11_safe_partial h.reached.inv.mgr).2.2.2
  have h2 : s.mgr.gone a = false := by
    rcases hg : s.mgr.gone a with _ | _
    · rfl
    · have := h.nofree.gone a hg; omega
  have h3 : (s.uaf || s.mgr.gone a || decide (0 < s.mgr.freed a)) = s.uaf := by rw [h1, h2]; simp
  simp only [State.touch, h3]

theorem Calm.step {t u : Nat} {s s' : State} {a : Act} {r : Ret} (h : Calm t s) (hs : step s u a = some (s', r))
    (ha : a ≠ .free) (hrel : (∃ k, a = .reload k) → u = t) : Calm t s' := by
  have hr := h.reached.step hs
  -- a step of the manager
  have hman : ∀ b, b ≠ .callFree → b ≠ .callReplace → s.manage u b = some (s', r) → Calm t s' := by
    intro b hb hb' e
    simp only [State.manage, Option.bind_eq_bind] at e
    split at e
    · rename_i hph
      cases hq : Resource.step s.mgr u b with
      | none => simp [hq] at e
      | some q =>
        obtain ⟨m, r'⟩ := q
        simp [hq] at e
        have hm : s'.mgr = m := by rw [← e.1]
        have hp : s'.phase = s.phase := by rw [← e.1]
        have hu : s'.uaf = s.uaf := by rw [← e.1]
        have hpc : ∃ old, s.mgr.pcs[u]? = some old := by
          simp only [Resource.step, Option.bind_eq_bind] at hq
          cases ht : s.mgr.pcs[u]? with
          | none => simp [ht] at hq
          | some old => exact ⟨old, rfl⟩
        obtain ⟨old, hold⟩ := hpc
        by_cases hut : u = t
        · -- the thread itself is not in a reload
          subst hut
          refine ⟨hr, by rw [hp]; exact h.others, ?_, by rw [hp]; exact fun hn => absurd hph hn, ?_, ?_, by rw [hu]; exact h.uaf⟩
          · have : ∃ new, m.pcs = s.mgr.pcs.set u new := pcs_step hq
            obtain ⟨new, hn⟩ := this
            rw [hm]
            exact h.sole.set hold hn (fun hne => absurd rfl hne)
          · intro a ha; rw [hp, hph] at ha; cases ha
          · rw [hm]; exact h.nofree.step hq hb
        · have hnew := h.sole u old hut hold
          obtain ⟨hact, new, hpcs, hnn⟩ := Resource.step_noNew hq hold hnew ⟨hb', hb⟩
          refine ⟨hr, by rw [hp]; exact h.others, ?_, ?_, ?_, ?_, by rw [hu]; exact h.uaf⟩
          · rw [hm]; exact h.sole.set hold hpcs (fun _ => hnn)
          · rw [hp, hm, hpcs]
            intro hne
            rw [List.getElem?_set_ne hut]
            exact h.idle hne
          · rw [hp, hm, hact]; exact h.handle
          · rw [hm]; exact h.nofree.step hq hb
    · simp at e
  cases a with
  | free => exact absurd rfl ha
  | get => exact hman .callGet (by simp) (by simp) hs
  | release p => exact hman (.callRelease p) (by simp) (by simp) hs
  | run => exact hman .run (by simp) (by simp) hs
  | reload k =>
    have hut := hrel ⟨k, rfl⟩
    subst hut
    simp only [DataSet.step] at hs
    split at hs
    · rename_i hc
      simp only [Option.some.injEq, Prod.mk.injEq] at hs
      rw [← hs.1]
      rw [← hs.1] at hr
      refine ⟨hr, ?_, h.sole, fun _ => hc.2.1, ?_, h.nofree, h.uaf⟩
      · intro x hx
        show set s.phase u (.start k) x = .none
        rw [set_ne _ _ hx]; exact h.others x hx
      · intro a ha
        simp only [State.goto] at ha
        rw [set_self] at ha
        cases ha
    · simp at hs
  | load ok =>
    have hut : u = t := by
      by_contra hne
      simp only [DataSet.step, h.others u hne, State.load] at hs
      cases hs
    subst hut
    simp only [DataSet.step] at hs
    -- a step that only moves on in the reload
    have move : ∀ p : Phase, s'.phase = set s.phase u p → s'.mgr = s.mgr → s'.uaf = s.uaf →
        (∀ a, p.handle = some a → a = s.mgr.active) → s.phase u ≠ .none → Calm u s' := by
      intro p e1 e2 e3 e4 e5
      refine ⟨hr, ?_, by rw [e2]; exact h.sole, fun _ => by rw [e2]; exact h.idle e5, ?_, by rw [e2]; exact h.nofree,
        by rw [e3]; exact h.uaf⟩
      · intro x hx; rw [e1, set_ne _ _ hx]; exact h.others x hx
      · rw [e1, set_self, e2]; exact e4
    cases hp : s.phase u with
    | none => rw [hp] at hs; simp [State.load] at hs
    | start k =>
      rw [hp] at hs
      simp only [State.load, Option.some.injEq, Prod.mk.injEq] at hs
      refine move (.reading k s.mgr.active) (by rw [← hs.1]; rfl) (by rw [← hs.1]; rfl) (by rw [← hs.1]; rfl) ?_ (by simp [hp])
      intro a ha; cases ha; rfl
    | reading k a =>
      have hact := h.handle a (by rw [hp]; rfl)
      rw [hp] at hs
      simp only [State.load, h.touch hact, Option.some.injEq, Prod.mk.injEq] at hs
      refine move (.existing k a) (by rw [← hs.1]; rfl) (by rw [← hs.1]; rfl) (by rw [← hs.1]; rfl) ?_ (by simp [hp])
      intro a ha; cases ha; exact hact
    | existing k a =>
      have hact := h.handle a (by rw [hp]; rfl)
      rw [hp] at hs
      cases ok with
      | true =>
        simp only [State.load, if_true, Option.some.injEq, Prod.mk.injEq] at hs
        refine move (.init k a s.next) (by rw [← hs.1]; rfl) (by rw [← hs.1]; rfl) (by rw [← hs.1]; rfl) ?_ (by simp [hp])
        intro a ha; cases ha; exact hact
      | false =>
        simp only [State.load, Bool.false_eq_true, if_false, Option.some.injEq, Prod.mk.injEq] at hs
        refine move .none (by rw [← hs.1]; rfl) (by rw [← hs.1]; rfl) (by rw [← hs.1]; rfl) ?_ (by simp [hp])
        intro a ha; cases ha
    | init k a ds =>
      have hact := h.handle a (by rw [hp]; rfl)
      rw [hp] at hs
      simp only [State.load, h.touch hact] at hs
      cases ok with
      | false =>
        cases k with
        | memory =>
          simp only [Bool.false_eq_true, if_false, Option.some.injEq, Prod.mk.injEq] at hs
          refine move .none (by rw [← hs.1]; rfl) (by rw [← hs.1]; rfl) (by rw [← hs.1]; rfl) ?_ (by simp [hp])
          intro a ha; cases ha
        | file =>
          simp only [Bool.false_eq_true, if_false, Option.some.injEq, Prod.mk.injEq] at hs
          refine move .none (by rw [← hs.1]; rfl) (by rw [← hs.1]; rfl) (by rw [← hs.1]; rfl) ?_ (by simp [hp])
          intro a ha; cases ha
      | true =>
        simp only [if_true, Option.bind_eq_bind] at hs
        cases hq : Resource.step s.mgr u .callReplace with
        | none => simp [hq] at hs
        | some q =>
          obtain ⟨m, r'⟩ := q
          simp [hq] at hs
          have hidle := h.idle (by simp [hp])
          obtain ⟨new, hn⟩ := pcs_step hq
          have hm : s'.mgr = m := by rw [← hs.1]
          have hph : s'.phase = set s.phase u .none := by rw [← hs.1]; rfl
          refine ⟨hr, ?_, ?_, ?_, ?_, ?_, ?_⟩
          · intro x hx; rw [hph, set_ne _ _ hx]; exact h.others x hx
          · rw [hm]; exact h.sole.set hidle hn (fun hne => absurd rfl hne)
          · rw [hph, set_self]; exact fun hne => absurd rfl hne
          · intro a ha; rw [hph, set_self] at ha; cases ha
          · rw [hm]; exact h.nofree.step hq (by simp)
          · have : s'.uaf = s.uaf := by rw [← hs.1]; rfl
            rw [this]; exact h.uaf

/-- C37: as long as only one thread reloads, and the manager is not freed meanwhile, no reload reads memory of a data
set or handle that was freed, however many threads get and release data sets. Missing: reloads in several threads
(`C37_reloadRead_violated`). -/
theorem C37_reloadRead_partial {n t : Nat} {sched : Schedule} {s : State} (he : exec (start n) sched = some s)
    (ho : OneReloader t sched) : s.uaf = false := by
  have key : ∀ (sched : Schedule) (x : State), Calm t x → exec x sched = some s → OneReloader t sched → Calm t s := by
    intro sched
    induction sched with
    | nil => intro x hx hxe _; cases hxe; exact hx
    | cons c rest ih =>
      obtain ⟨u, a⟩ := c
      intro x hx hxe hxo
      simp only [exec, Option.bind_eq_bind] at hxe
      cases hs : step x u a with
      | none => simp [hs] at hxe
      | some q =>
        simp only [hs, Option.bind_some] at hxe
        have hc := hxo (u, a) (by simp)
        exact ih _ (hx.step hs hc.1 hc.2) hxe (fun c hc => hxo c (by simp [hc]))
  refine (key sched (start n) ?_ he ho).uaf
  refine ⟨⟨n, [], rfl⟩, fun _ _ => rfl, ?_, fun h => absurd rfl h, ?_, ⟨?_, ?_⟩, rfl⟩
  · intro u pc _ hpc
    have := List.mem_of_getElem? hpc
    simp only [start, Resource.start, List.mem_replicate] at this
    rw [this.2]; rfl
  · intro a ha; cases ha
  · intro p hp; cases hp
  · intro pc hpc
    simp only [start, Resource.start, List.mem_replicate] at hpc
    rw [hpc.2]; rfl

example : ∃ s, exec (start 2) (get 0 ++ reload 1 .memory 9 ++ get 0) = some s ∧ s.dataOf s.mgr.active = some 1 := by
  refine ⟨_, rfl, ?_⟩
  decide +kernel

/-- C37, counterexample: the reload functions read the active data set without counting as its user,
dataset.c:273-274, 315-316, so that with another reload at the same time they read a freed one. -/
theorem C37_reloadRead_violated : ∃ s, exec (start 2)
    ([(0, .reload .memory), (0, .load true)] ++ reload 1 .memory 11 ++ [(0, .load true)]) = some s ∧
    s.uaf = true ∧ s.mgr.freed 0 = 1 := by
  refine ⟨_, rfl, ?_⟩
  decide +kernel

/-- A data set is got, a reload fails, another one succeeds, a get gives the new data set, the first is still there and
is freed on its release. -/
example : ∃ s, exec (start 2)
    (get 0 ++ failing 1 .memory ++ reload 1 .file 9 ++ get 1) = some s ∧ Resource.Quiet s.mgr ∧
    s.mgr.active = 1 ∧ s.dataOf 1 = some 2 ∧ s.discarded 1 = 1 ∧ s.mgr.held 0 = 1 ∧ s.mgr.held 1 = 1 ∧
    s.mgr.freed 0 = 0 ∧ s.next = 3 := by
  refine ⟨_, rfl, ?_⟩
  unfold Resource.Quiet
  decide +kernel

example : ∃ s, exec (start 2)
    (get 0 ++ failing 1 .memory ++ reload 1 .file 9 ++ get 1 ++ (0, .release 0) :: runs 0 5) = some s ∧
    Resource.Quiet s.mgr ∧ s.mgr.held 0 = 0 ∧ s.mgr.freed 0 = 1 ∧ s.mgr.was 1 = true := by
  refine ⟨_, rfl, ?_⟩
  unfold Resource.Quiet
  decide +kernel

end Verif.DataSet
