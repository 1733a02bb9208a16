import Verif.DataSet.Requests

/-! # C100: engines, results and the manager they share

An engine makes the resource manager with `make_shared` and each results object has a copy of the pointer, so that the
manager's memory stays as long as either is there. The manager and its handles are those of `Verif.Resource`, one memory
access of one thread at a time; this adds the objects, the count of the shared pointer and the memory of the manager.

What a derived engine does is fixed by what the base classes document: processing gets the data set and makes a results
object with the handle and the pointer (ResultsBase.hpp:409-416), a refresh replaces the data set, the destructor of
the derived results releases the handle before the members of `ResultsBase` are destroyed. The engine is opened: the
destructor of one whose opening failed has `manager->active` NULL and only drops its pointer (EngineBase.cpp:48). An
engine is not used once its deletion started, and an object is deleted once. -/

namespace Verif.Engine.Owners
open Verif.Resource (set)
open Verif.Requests (moved Moved)

/-- Whether an object is there, in its destructor, or deleted. -/
inductive Life where
  | live
  | dying
  | dead
  deriving DecidableEq, Repr

/-- What a thread is doing with the objects. -/
inductive Job where
  | none
  /-- In the engine's `process`. -/
  | process
  /-- In the engine's `refreshData`, at the replacement. -/
  | refresh
  /-- In the engine's destructor. -/
  | deleteEngine
  /-- In the destructor of a results object. -/
  | deleteResults (i : Nat)
  deriving DecidableEq, Repr

/-- The manager, the objects and the shared pointer. -/
structure State where
  mgr : Resource.State
  job : Nat → Job
  engine : Life
  /-- The results objects with the handle each has, in the order they were made. -/
  results : List (Nat × Life)
  /-- The use count of the shared pointer. -/
  owners : Nat
  /-- How often the memory of the manager was freed. -/
  memFreed : Nat
  /-- A ghost: whether a call on the manager went on after its memory was freed. -/
  late : Bool
  /-- A ghost: the handle without a resource that the destructor of the engine made. -/
  empty : Option Nat

/-- What a thread does next. -/
inductive Act where
  | process
  | refresh
  | deleteEngine
  | deleteResults (i : Nat)
  /-- The next access of the call the thread is in. -/
  | run
  deriving DecidableEq, Repr

/-- The state after a call on the manager did something. -/
def State.touch (s : State) : State := { s with late := s.late || decide (0 < s.memFreed) }

/-- The destructor of a `shared_ptr`: the last one frees the manager (EngineBase.hpp:251-257, ResultsBase.hpp:409-416). -/
def State.drop (s : State) : State :=
  { s with owners := s.owners - 1, memFreed := if s.owners - 1 = 0 then s.memFreed + 1 else s.memFreed }

/-- No thread is in `process` or `refreshData`. -/
def State.unused (s : State) : Bool :=
  (List.range s.mgr.pcs.length).all fun u => s.job u != .process && s.job u != .refresh

/-- The return of a call on the manager: the constructor of `ResultsBase`, ResultsBase.cpp:29-34, and what the destructors
do after `fiftyoneDegreesResourceManagerFree`, EngineBase.cpp:42-51, or `fiftyoneDegreesResourceHandleDecUse`,
ResultsBase.cpp:36-37. `none`: the get returned NULL, which is used without a check. -/
def State.returned (s : State) (t : Nat) (mgr : Resource.State) : Job → Resource.Ret → Option State
  | .process, .got (some p) =>
    some { s with mgr := mgr, job := set s.job t .none, results := s.results ++ [(p, .live)], owners := s.owners + 1 }
  | .refresh, .done => some { s with mgr := mgr, job := set s.job t .none }
  | .deleteEngine, .done => some ({ s with mgr := mgr, job := set s.job t .none, engine := .dead } : State).drop
  | .deleteResults i, .done =>
    some ({ s with mgr := mgr, job := set s.job t .none,
                   results := s.results.modify i fun r => (r.1, .dead) } : State).drop
  | .none, _ => none
  | _, .nothing => some { s with mgr := mgr }
  | _, _ => none

/-- One step of thread `t`; `none` when the thread cannot do that or when it is undefined. -/
def step (s : State) (t : Nat) : Act → Option State
  | .process =>
    if s.engine = .live ∧ s.job t = .none then
      (Resource.step s.mgr t .callGet).map fun q => { s.touch with mgr := q.1, job := set s.job t .process }
    else none
  | .refresh =>
    if s.engine = .live ∧ s.job t = .none then
      (Resource.step s.mgr t .callReplace).map fun q => { s.touch with mgr := q.1, job := set s.job t .refresh }
    else none
  | .deleteEngine =>
    if s.engine = .live ∧ s.job t = .none ∧ s.unused = true then
      (Resource.step s.mgr t .callFree).map fun q =>
        { s.touch with mgr := q.1, job := set s.job t .deleteEngine, engine := .dying, empty := some s.mgr.fresh }
    else none
  | .deleteResults i =>
    match s.results[i]? with
    | some (p, .live) =>
      if s.job t = .none then
        (Resource.step s.mgr t (.callRelease p)).map fun q =>
          { s.touch with mgr := q.1, job := set s.job t (.deleteResults i), results := s.results.set i (p, .dying) }
      else none
    | _ => none
  | .run => do
    let (mgr, r) ← Resource.step s.mgr t .run
    s.touch.returned t mgr (s.job t) r

/-- A schedule: which thread does what. -/
abbrev Schedule := List (Nat × Act)

/-- The state after a schedule. -/
def exec (s : State) : Schedule → Option State
  | [] => some s
  | (t, a) :: rest => do
    let s ← step s t a
    exec s rest

/-- After the constructor of an engine that opened its data, EngineBase.cpp:29-40, with `n` threads. -/
def start (n : Nat) : State where
  mgr := Resource.start n
  job := fun _ => .none
  engine := .live
  results := []
  owners := 1
  memFreed := 0
  late := false
  empty := none

/-- The states any schedule of any number of threads reaches. -/
def Reached (s : State) : Prop := ∃ n sched, exec (start n) sched = some s

/-! ## Steps of the manager -/

/-- A call that returned leaves its thread idle. -/
theorem run_idle {s s' : Resource.State} {t : Nat} {r : Resource.Ret} (h : Resource.step s t .run = some (s', r)) :
    ∃ new, s'.pcs = s.pcs.set t new ∧ (r ≠ .nothing → new = .idle) := by
  have after : ∀ c, (Resource.afterDec c).2 ≠ .nothing → (Resource.afterDec c).1 = .idle := by
    intro c; cases c <;> simp [Resource.afterDec]
  simp only [Resource.step, Option.bind_eq_bind] at h
  cases ht : s.pcs[t]? with
  | none => simp [ht] at h
  | some pc =>
    simp only [ht, Option.bind_some] at h
    cases pc with
    | swap c old =>
      cases c <;> simp only [Resource.access, reduceCtorEq, Option.some.injEq, Prod.mk.injEq] at h
      all_goals
        obtain ⟨rfl, rfl⟩ := h
        exact ⟨.dec _ old, by split <;> rfl, fun x => absurd rfl x⟩
    | incAddr c compare a =>
      simp only [Resource.access] at h
      split at h
      · split at h <;> simp at h <;> (obtain ⟨rfl, rfl⟩ := h; exact ⟨_, rfl, by simp⟩)
      · simp at h; obtain ⟨rfl, rfl⟩ := h; exact ⟨_, rfl, by simp⟩
    | decRead c p compare =>
      simp only [Resource.access] at h
      split at h
      · split at h <;> simp at h
        · obtain ⟨rfl, rfl⟩ := h; exact ⟨_, rfl, by simp⟩
        · obtain ⟨rfl, rfl⟩ := h; exact ⟨_, rfl, after c⟩
      · simp at h; obtain ⟨rfl, rfl⟩ := h; exact ⟨_, rfl, by simp⟩
    | decFree c p d =>
      simp only [Resource.access] at h
      split at h
      · simp at h
      · split at h <;> simp at h <;> (obtain ⟨rfl, rfl⟩ := h; exact ⟨_, rfl, after c⟩)
    | decCheck c p d =>
      simp only [Resource.access] at h
      split at h <;> simp at h
      · obtain ⟨rfl, rfl⟩ := h; exact ⟨_, rfl, by simp⟩
      · obtain ⟨rfl, rfl⟩ := h; exact ⟨_, rfl, after c⟩
    | idle => simp [Resource.access] at h
    | _ =>
      simp [Resource.access] at h; obtain ⟨rfl, rfl⟩ := h
      exact ⟨_, rfl, by simp⟩

theorem reached_step {s s' : Resource.State} (h : Resource.Reached s) {t : Nat} {a : Resource.Act}
    {r : Resource.Ret} (hs : Resource.step s t a = some (s', r)) : Resource.Reached s' := by
  obtain ⟨n, sched, he⟩ := h
  exact ⟨n, sched ++ [(t, a)], by simp [Resource.exec_append, he, Resource.exec, hs]⟩

theorem set_self {α : Type} (f : Nat → α) (n : Nat) (v : α) : set f n v n = v := by simp [Resource.set]

theorem set_ne {α : Type} (f : Nat → α) {n m : Nat} (h : m ≠ n) (v : α) : set f n v m = f m := by simp [Resource.set, h]

/-- What a step of the manager does, as far as the objects are concerned. -/
structure Mgr (s s' : Resource.State) (t : Nat) : Prop where
  reach : Resource.Reached s'
  lt : t < s.pcs.length
  len : s'.pcs.length = s.pcs.length
  other : ∀ u, u ≠ t → s'.pcs[u]? = s.pcs[u]?

theorem mgr_step {s s' : Resource.State} (h : Resource.Reached s) {t : Nat} {a : Resource.Act} {r : Resource.Ret}
    (hs : Resource.step s t a = some (s', r)) : Mgr s s' t := by
  obtain ⟨old, new, h1, h2⟩ := Resource.step_pc hs
  refine ⟨reached_step h hs, (List.getElem?_eq_some_iff.1 h1).1, by rw [h2, List.length_set], fun u hu => ?_⟩
  rw [h2, List.getElem?_set_ne (Ne.symm hu)]

/-! ## The invariant -/

/-- How many objects are not deleted. -/
def State.objects (s : State) : Nat := (if s.engine = .dead then 0 else 1) + s.results.countP fun r => r.2 != .dead

/-- How many live results objects have the handle `p`. -/
def State.uses (s : State) (p : Nat) : Nat := s.results.countP fun r => r == (p, .live)

structure Inv (s : State) : Prop where
  reach : Resource.Reached s.mgr
  owners : s.owners = s.objects
  freed : s.memFreed = if s.objects = 0 then 1 else 0
  late : s.late = false
  held : ∀ p, s.mgr.held p = s.uses p
  closed : s.mgr.closed = true ↔ s.engine ≠ .live
  range : ∀ t, s.job t ≠ .none → t < s.mgr.pcs.length
  idle : ∀ t pc, s.job t = .none → s.mgr.pcs[t]? = some pc → pc = .idle
  user : ∀ t, s.job t = .process ∨ s.job t = .refresh → s.engine = .live
  engineJob : ∀ t, s.job t = .deleteEngine → s.engine = .dying
  resultsJob : ∀ t i, s.job t = .deleteResults i → ∃ p, s.results[i]? = some (p, .dying)
  one : ∀ t u, s.job t = .deleteEngine → s.job u = .deleteEngine → t = u
  oneEach : ∀ t u i, s.job t = .deleteResults i → s.job u = .deleteResults i → t = u
  dying : s.engine = .dying → ∃ t n b, s.job t = .deleteEngine ∧ s.empty = some n ∧ Resource.During t n b s.mgr
  dead : s.engine = .dead → ∃ n, s.empty = some n ∧ s.mgr.active = n ∧ ∀ pc ∈ s.mgr.pcs, pc.new = none
  live : s.engine = .live → s.empty = none

theorem Inv.start (n : Nat) : Inv (start n) where
  reach := ⟨n, [], rfl⟩
  owners := rfl
  freed := rfl
  late := rfl
  held := fun _ => rfl
  closed := by simp [Owners.start, Resource.start]
  range := fun t h => absurd rfl h
  idle := by
    intro t pc _ h
    simp only [Owners.start, Resource.start, List.getElem?_replicate] at h
    split at h
    · exact (Option.some.inj h).symm
    · cases h
  user := fun _ _ => rfl
  engineJob := fun t h => by cases h
  resultsJob := fun t i h => by cases h
  one := fun t u h => by cases h
  oneEach := fun t u i h => by cases h
  dying := fun h => by cases h
  dead := fun h => by cases h
  live := fun _ => rfl

theorem countP_set {α : Type} {f : α → Bool} : ∀ {l : List α} {i : Nat} {a b : α}, l[i]? = some a →
    (l.set i b).countP f + (if f a then 1 else 0) = l.countP f + (if f b then 1 else 0) := by
  intro l
  induction l with
  | nil => intro i a b h; simp at h
  | cons x l ih =>
    intro i a b h
    cases i with
    | zero => simp at h; subst h; simp only [List.set_cons_zero, List.countP_cons]; omega
    | succ i =>
      simp at h
      have := ih (b := b) h
      simp only [List.set_cons_succ, List.countP_cons]
      omega

theorem modify_eq {l : List (Nat × Life)} {i p : Nat} {x : Life} (h : l[i]? = some (p, x)) :
    l.modify i (fun r => (r.1, .dead)) = l.set i (p, .dead) := by
  rw [List.modify_eq_set_getElem?, h]
  rfl

/-- An object that is not deleted keeps the manager. -/
theorem Inv.there {s : State} (h : Inv s) (ho : 0 < s.objects) : s.memFreed = 0 ∧ s.touch = s := by
  have h1 : s.memFreed = 0 := by rw [h.freed, if_neg (by omega)]
  refine ⟨h1, ?_⟩
  have h2 := h.late
  obtain ⟨mgr, job, engine, results, owners, memFreed, late, empty⟩ := s
  simp only at h1 h2
  simp [State.touch, h1, h2]

theorem objects_engine {s : State} (h : s.engine ≠ .dead) : 0 < s.objects := by
  simp only [State.objects, if_neg h]; omega

theorem objects_results {s : State} {i : Nat} {r : Nat × Life} (h : s.results[i]? = some r) (hd : r.2 ≠ .dead) :
    0 < s.objects := by
  have : 0 < s.results.countP fun r => r.2 != .dead :=
    List.countP_pos_iff.2 ⟨r, List.mem_of_getElem? h, by simpa using hd⟩
  simp only [State.objects]; omega

/-- A thread with a job is at work for an object that is not deleted. -/
theorem Inv.working {s : State} (h : Inv s) {t : Nat} (hj : s.job t ≠ .none) : 0 < s.objects := by
  cases e : s.job t with
  | none => exact absurd e hj
  | process => exact objects_engine (by rw [h.user t (.inl e)]; nofun)
  | refresh => exact objects_engine (by rw [h.user t (.inr e)]; nofun)
  | deleteEngine => exact objects_engine (by rw [h.engineJob t e]; nofun)
  | deleteResults i =>
    obtain ⟨p, hp⟩ := h.resultsJob t i e
    exact objects_results hp nofun

/-- The handle without a resource, and who makes it active, after a step that starts no replacement. -/
theorem Inv.keep {s : State} (h : Inv s) {s' : Resource.State} {t : Nat} {a : Resource.Act} {r : Resource.Ret}
    (hs : Resource.step s.mgr t a = some (s', r)) (ha : a ≠ .callReplace ∧ a ≠ .callFree) :
    (∀ u n b, Resource.During u n b s.mgr → Resource.During u n b s') ∧
    (s.engine = .dead → s'.active = s.mgr.active ∧ ∀ pc ∈ s'.pcs, pc.new = none) := by
  refine ⟨fun u n b hd => hd.step h.reach.inv hs ha, fun hd => ?_⟩
  obtain ⟨n, -, -, h1⟩ := h.dead hd
  obtain ⟨old, new, ho, -⟩ := Resource.step_pc hs
  obtain ⟨e1, new, e2, e3⟩ := Resource.step_noNew hs ho (h1 old (List.mem_of_getElem? ho)) ha
  refine ⟨e1, fun pc hm => ?_⟩
  rw [e2] at hm
  rcases List.mem_or_eq_of_mem_set hm with hm | rfl
  · exact h1 pc hm
  · exact e3

theorem set_eq {α : Type} {f : Nat → α} {t u : Nat} {v w : α} (h : set f t v u = w) : (u = t ∧ v = w) ∨ (u ≠ t ∧ f u = w) := by
  by_cases e : u = t
  · subst e; rw [set_self] at h; exact .inl ⟨rfl, h⟩
  · rw [set_ne f e] at h; exact .inr ⟨e, h⟩

/-- A thread starts a job on the engine or the results. -/
theorem Inv.begins {s : State} (h : Inv s) {m : Resource.State} {t : Nat} {j : Job} (hm : Mgr s.mgr m t) (hj : j ≠ .none) :
    (∀ u, set s.job t j u ≠ .none → u < m.pcs.length) ∧
    (∀ u pc, set s.job t j u = .none → m.pcs[u]? = some pc → pc = .idle) := by
  constructor
  · intro u hu
    rw [hm.len]
    by_cases e : u = t
    · rw [e]; exact hm.lt
    · rw [set_ne _ e] at hu; exact h.range u hu
  · intro u pc hu hpc
    rcases set_eq hu with ⟨-, e⟩ | ⟨e, e'⟩
    · exact absurd e hj
    · rw [hm.other u e] at hpc; exact h.idle u pc e' hpc

/-- A thread's job is done. -/
theorem Inv.ends {s : State} (h : Inv s) {m : Resource.State} {t : Nat} {r : Resource.Ret} (hm : Mgr s.mgr m t)
    (hs : Resource.step s.mgr t .run = some (m, r)) (hr : r ≠ .nothing) :
    (∀ u, set s.job t .none u ≠ .none → u < m.pcs.length) ∧
    (∀ u pc, set s.job t .none u = .none → m.pcs[u]? = some pc → pc = .idle) := by
  constructor
  · intro u hu
    rw [hm.len]
    by_cases e : u = t
    · rw [e]; exact hm.lt
    · rw [set_ne _ e] at hu; exact h.range u hu
  · intro u pc hu hpc
    rcases set_eq hu with ⟨e, -⟩ | ⟨e, e'⟩
    · obtain ⟨new, h1, h2⟩ := run_idle hs
      rw [h1, e, List.getElem?_set_self hm.lt] at hpc
      rw [← Option.some.inj hpc]
      exact h2 hr
    · rw [hm.other u e] at hpc; exact h.idle u pc e' hpc

theorem Inv.process {s s' : State} (h : Inv s) {t : Nat} (hs : step s t .process = some s') : Inv s' := by
  simp only [step] at hs
  split at hs
  · next hc =>
    obtain ⟨he, hn⟩ := hc
    cases hq : Resource.step s.mgr t .callGet with
    | none => simp [hq] at hs
    | some q =>
      obtain ⟨m, r⟩ := q
      rw [hq, Option.map_some, (h.there (objects_engine (by rw [he]; nofun))).2] at hs
      have hm := mgr_step h.reach hq
      obtain ⟨old, new, ho, hp, hv⟩ := moved hq
      obtain ⟨b1, b2⟩ := h.begins (j := .process) hm nofun
      obtain ⟨k1, k2⟩ := h.keep hq ⟨nofun, nofun⟩
      have hv' : m.held = s.mgr.held ∧ m.closed = s.mgr.closed := by cases hv; exact ⟨by assumption, by assumption⟩
      cases hs
      exact {
        reach := hm.reach, owners := h.owners, freed := h.freed, late := h.late
        held := fun p => by rw [hv'.1]; exact h.held p
        closed := by rw [hv'.2]; exact h.closed
        range := b1, idle := b2
        user := fun _ _ => he
        engineJob := fun u hu => (by
          rcases set_eq hu with ⟨-, e⟩ | ⟨-, e⟩
          · cases e
          · exact h.engineJob u e)
        resultsJob := fun u i hu => (by
          rcases set_eq hu with ⟨-, e⟩ | ⟨-, e⟩
          · cases e
          · exact h.resultsJob u i e)
        one := fun u v hu hv => (by
          rcases set_eq hu with ⟨-, e⟩ | ⟨-, e⟩
          · cases e
          rcases set_eq hv with ⟨-, e'⟩ | ⟨-, e'⟩
          · cases e'
          exact h.one u v e e')
        oneEach := fun u v i hu hv => (by
          rcases set_eq hu with ⟨-, e⟩ | ⟨-, e⟩
          · cases e
          rcases set_eq hv with ⟨-, e'⟩ | ⟨-, e'⟩
          · cases e'
          exact h.oneEach u v i e e')
        dying := fun e => (by rw [he] at e; cases e)
        dead := fun e => (by rw [he] at e; cases e)
        live := h.live }
  · cases hs

theorem Inv.refresh {s s' : State} (h : Inv s) {t : Nat} (hs : step s t .refresh = some s') : Inv s' := by
  simp only [step] at hs
  split at hs
  · next hc =>
    obtain ⟨he, hn⟩ := hc
    cases hq : Resource.step s.mgr t .callReplace with
    | none => simp [hq] at hs
    | some q =>
      obtain ⟨m, r⟩ := q
      rw [hq, Option.map_some, (h.there (objects_engine (by rw [he]; nofun))).2] at hs
      have hm := mgr_step h.reach hq
      obtain ⟨old, new, ho, hp, hv⟩ := moved hq
      obtain ⟨b1, b2⟩ := h.begins (j := .refresh) hm nofun
      have hv' : m.held = s.mgr.held ∧ m.closed = s.mgr.closed := by cases hv; exact ⟨by assumption, by assumption⟩
      cases hs
      exact {
        reach := hm.reach, owners := h.owners, freed := h.freed, late := h.late
        held := fun p => by rw [hv'.1]; exact h.held p
        closed := by rw [hv'.2]; exact h.closed
        range := b1, idle := b2
        user := fun _ _ => he
        engineJob := fun u hu => (by
          rcases set_eq hu with ⟨-, e⟩ | ⟨-, e⟩
          · cases e
          · exact h.engineJob u e)
        resultsJob := fun u i hu => (by
          rcases set_eq hu with ⟨-, e⟩ | ⟨-, e⟩
          · cases e
          · exact h.resultsJob u i e)
        one := fun u v hu hv => (by
          rcases set_eq hu with ⟨-, e⟩ | ⟨-, e⟩
          · cases e
          rcases set_eq hv with ⟨-, e'⟩ | ⟨-, e'⟩
          · cases e'
          exact h.one u v e e')
        oneEach := fun u v i hu hv => (by
          rcases set_eq hu with ⟨-, e⟩ | ⟨-, e⟩
          · cases e
          rcases set_eq hv with ⟨-, e'⟩ | ⟨-, e'⟩
          · cases e'
          exact h.oneEach u v i e e')
        dying := fun e => (by rw [he] at e; cases e)
        dead := fun e => (by rw [he] at e; cases e)
        live := h.live }
  · cases hs

theorem State.unused_iff {s : State} (h : s.unused = true) {u : Nat} (hu : u < s.mgr.pcs.length) :
    s.job u ≠ .process ∧ s.job u ≠ .refresh := by
  simp only [State.unused, List.all_eq_true, List.mem_range, Bool.and_eq_true, bne_iff_ne] at h
  exact h u hu

theorem Inv.deleteEngine {s s' : State} (h : Inv s) {t : Nat} (hs : step s t .deleteEngine = some s') : Inv s' := by
  simp only [step] at hs
  split at hs
  · next hc =>
    obtain ⟨he, hn, hun⟩ := hc
    cases hq : Resource.step s.mgr t .callFree with
    | none => simp [hq] at hs
    | some q =>
      obtain ⟨m, r⟩ := q
      rw [hq, Option.map_some, (h.there (objects_engine (by rw [he]; nofun))).2] at hs
      have hm := mgr_step h.reach hq
      obtain ⟨old, new, ho, hp, hv⟩ := moved hq
      obtain ⟨b1, b2⟩ := h.begins (j := .deleteEngine) hm nofun
      have hv' : m.held = s.mgr.held ∧ m.closed = true := by cases hv; exact ⟨by assumption, by assumption⟩
      have hobj : ∀ (j : Nat → Job) (x : Option Nat),
          ({ s with mgr := m, job := j, engine := .dying, empty := x } : State).objects = s.objects := by
        intro j x; simp [State.objects, he]
      have hd : Resource.During t s.mgr.fresh s.mgr.active m := by
        have hq' := hq
        simp only [Resource.step, ho, Option.bind_eq_bind, Option.bind_some] at hq'
        split at hq'
        · next hcc =>
          simp at hq'
          have hsole : Resource.Sole t s.mgr := by
            intro u pc _ hpc
            have := List.all_eq_true.1 hcc.2.2 pc (List.mem_of_getElem? hpc)
            cases pc <;> simp_all [Resource.Pc.getting, Resource.Pc.new]
          refine ⟨hsole.set ho (new := .inc (.free s.mgr.fresh)) (by rw [← hq'.1]; rfl) (fun h => absurd rfl h),
            .inc (.free s.mgr.fresh), ?_, .inl ⟨rfl, by rw [← hq'.1]; rfl, fun a e => (by cases e), fun p e => (by cases e)⟩⟩
          rw [← hq'.1]
          exact List.getElem?_set_self hm.lt
        · simp at hq'
      have hno : ∀ u, s.job u ≠ .deleteEngine := by
        intro u hu
        have := h.engineJob u hu
        rw [he] at this; cases this
      cases hs
      exact {
        reach := hm.reach
        owners := by rw [hobj]; exact h.owners
        freed := by rw [hobj]; exact h.freed
        late := h.late
        held := fun p => by rw [hv'.1]; exact h.held p
        closed := by simp [hv'.2]
        range := b1, idle := b2
        user := fun u hu => (by
          exfalso
          rcases hu with hu | hu <;> rcases set_eq hu with ⟨-, e⟩ | ⟨-, e⟩
          · cases e
          · exact (State.unused_iff hun (h.range u (by rw [e]; nofun))).1 e
          · cases e
          · exact (State.unused_iff hun (h.range u (by rw [e]; nofun))).2 e)
        engineJob := fun _ _ => rfl
        resultsJob := fun u i hu => (by
          rcases set_eq hu with ⟨-, e⟩ | ⟨-, e⟩
          · cases e
          · exact h.resultsJob u i e)
        one := fun u v hu hv => (by
          rcases set_eq hu with ⟨e, -⟩ | ⟨-, e⟩
          · rcases set_eq hv with ⟨e', -⟩ | ⟨-, e'⟩
            · rw [e, e']
            · exact absurd e' (hno v)
          · exact absurd e (hno u))
        oneEach := fun u v i hu hv => (by
          rcases set_eq hu with ⟨-, e⟩ | ⟨-, e⟩
          · cases e
          rcases set_eq hv with ⟨-, e'⟩ | ⟨-, e'⟩
          · cases e'
          exact h.oneEach u v i e e')
        dying := fun _ => ⟨t, s.mgr.fresh, s.mgr.active, set_self _ _ _, rfl, hd⟩
        dead := fun e => (by cases e)
        live := fun e => (by cases e) }
  · cases hs

theorem Inv.deleteResults {s s' : State} (h : Inv s) {t i : Nat} (hs : step s t (.deleteResults i) = some s') : Inv s' := by
  simp only [step] at hs
  split at hs
  · next p hi =>
    split at hs
    · next hn =>
      cases hq : Resource.step s.mgr t (.callRelease p) with
      | none => simp [hq] at hs
      | some q =>
        obtain ⟨m, r⟩ := q
        have hpos := objects_results hi nofun
        rw [hq, Option.map_some, (h.there hpos).2] at hs
        have hm := mgr_step h.reach hq
        obtain ⟨old, new, ho, hp, hv⟩ := moved hq
        obtain ⟨b1, b2⟩ := h.begins (j := .deleteResults i) hm nofun
        obtain ⟨k1, k2⟩ := h.keep hq ⟨nofun, nofun⟩
        have hv' : m.held = set s.mgr.held p (s.mgr.held p - 1) ∧ m.closed = s.mgr.closed := by
          cases hv; exact ⟨by assumption, by assumption⟩
        have hobj : ({ s with mgr := m, job := set s.job t (.deleteResults i), results := s.results.set i (p, .dying) } :
            State).objects = s.objects := by
          have := countP_set (f := fun r : Nat × Life => r.2 != .dead) (b := (p, .dying)) hi
          simp at this
          simp only [State.objects, this]
        have hlt : i < s.results.length := (List.getElem?_eq_some_iff.1 hi).1
        cases hs
        exact {
          reach := hm.reach
          owners := by rw [hobj]; exact h.owners
          freed := by rw [hobj]; exact h.freed
          late := h.late
          held := fun q => (by
            have := countP_set (f := fun r : Nat × Life => r == (q, .live)) (b := (p, .dying)) hi
            have hh := h.held q
            simp only [State.uses] at hh ⊢
            rw [hv'.1]
            by_cases e : q = p
            · subst e
              simp at this
              rw [set_self, hh]
              omega
            · rw [set_ne _ e, hh]
              have e' : ¬ p = q := fun x => e x.symm
              simp [e'] at this
              exact this.symm)
          closed := by rw [hv'.2]; exact h.closed
          range := b1, idle := b2
          user := fun u hu => (by
            rcases hu with hu | hu <;> rcases set_eq hu with ⟨-, e⟩ | ⟨-, e⟩
            · cases e
            · exact h.user u (.inl e)
            · cases e
            · exact h.user u (.inr e))
          engineJob := fun u hu => (by
            rcases set_eq hu with ⟨-, e⟩ | ⟨-, e⟩
            · cases e
            · exact h.engineJob u e)
          resultsJob := fun u k hu => (by
            rcases set_eq hu with ⟨-, e⟩ | ⟨-, e⟩
            · cases e
              exact ⟨p, List.getElem?_set_self hlt⟩
            · obtain ⟨q, hq⟩ := h.resultsJob u k e
              have hne : i ≠ k := by
                rintro rfl
                rw [hi] at hq; cases hq
              exact ⟨q, by simp only [List.getElem?_set_ne hne]; exact hq⟩)
          one := fun u v hu hv => (by
            rcases set_eq hu with ⟨-, e⟩ | ⟨-, e⟩
            · cases e
            rcases set_eq hv with ⟨-, e'⟩ | ⟨-, e'⟩
            · cases e'
            exact h.one u v e e')
          oneEach := fun u v k hu hv => (by
            have none_ : ∀ w, s.job w ≠ .deleteResults i := by
              intro w hw
              obtain ⟨q, hq⟩ := h.resultsJob w i hw
              rw [hi] at hq; cases hq
            rcases set_eq hu with ⟨e, e1⟩ | ⟨-, e⟩
            · cases e1
              rcases set_eq hv with ⟨e', -⟩ | ⟨-, e'⟩
              · rw [e, e']
              · exact absurd e' (none_ v)
            · rcases set_eq hv with ⟨-, e'⟩ | ⟨-, e'⟩
              · cases e'
                exact absurd e (none_ u)
              · exact h.oneEach u v k e e')
          dying := fun e => (by
            obtain ⟨u, n, b, d1, d2, d3⟩ := h.dying e
            refine ⟨u, n, b, ?_, d2, k1 u n b d3⟩
            have : u ≠ t := by rintro rfl; rw [hn] at d1; cases d1
            exact (set_ne _ this _).trans d1)
          dead := fun e => (by
            obtain ⟨n, d1, d2, d3⟩ := h.dead e
            obtain ⟨c1, c2⟩ := k2 e
            exact ⟨n, d1, by rw [c1]; exact d2, c2⟩)
          live := h.live }
    · cases hs
  · cases hs

/-- A step in a call that does not return. -/
theorem Inv.inside {s : State} (h : Inv s) {t : Nat} {m : Resource.State}
    (hq : Resource.step s.mgr t .run = some (m, .nothing)) (hj : s.job t ≠ .none) : Inv { s with mgr := m } := by
  have hm := mgr_step h.reach hq
  obtain ⟨old, new, ho, hp, hv⟩ := moved hq
  obtain ⟨k1, k2⟩ := h.keep hq ⟨nofun, nofun⟩
  have hv' : m.held = s.mgr.held ∧ m.closed = s.mgr.closed := by cases hv; exact ⟨by assumption, by assumption⟩
  exact {
    reach := hm.reach, owners := h.owners, freed := h.freed, late := h.late
    held := fun p => by rw [hv'.1]; exact h.held p
    closed := by rw [hv'.2]; exact h.closed
    range := fun u hu => by rw [hm.len]; exact h.range u hu
    idle := fun u pc hu hpc => (by
      have : u ≠ t := by rintro rfl; exact hj hu
      rw [hm.other u this] at hpc
      exact h.idle u pc hu hpc)
    user := h.user, engineJob := h.engineJob, resultsJob := h.resultsJob, one := h.one, oneEach := h.oneEach
    dying := fun e => (by
      obtain ⟨u, n, b, d1, d2, d3⟩ := h.dying e
      exact ⟨u, n, b, d1, d2, k1 u n b d3⟩)
    dead := fun e => (by
      obtain ⟨n, d1, d2, d3⟩ := h.dead e
      obtain ⟨c1, c2⟩ := k2 e
      exact ⟨n, d1, by rw [c1]; exact d2, c2⟩)
    live := h.live }

/-- A job that only ends. -/
theorem Inv.jobs {s : State} (h : Inv s) (t : Nat) :
    (∀ u, set s.job t .none u = .process ∨ set s.job t .none u = .refresh → s.engine = .live) ∧
    (∀ u, set s.job t .none u = .deleteEngine → u ≠ t ∧ s.job u = .deleteEngine) ∧
    (∀ u i, set s.job t .none u = .deleteResults i → u ≠ t ∧ s.job u = .deleteResults i) := by
  refine ⟨fun u hu => ?_, fun u hu => ?_, fun u i hu => ?_⟩
  · rcases hu with hu | hu <;> rcases set_eq hu with ⟨-, e⟩ | ⟨-, e⟩
    · cases e
    · exact h.user u (.inl e)
    · cases e
    · exact h.user u (.inr e)
  · rcases set_eq hu with ⟨-, e⟩ | ⟨e1, e⟩
    · cases e
    · exact ⟨e1, e⟩
  · rcases set_eq hu with ⟨-, e⟩ | ⟨e1, e⟩
    · cases e
    · exact ⟨e1, e⟩

/-- The return of `process`. -/
theorem Inv.made {s : State} (h : Inv s) {t p : Nat} {m : Resource.State}
    (hq : Resource.step s.mgr t .run = some (m, .got (some p))) (hj : s.job t = .process) :
    Inv { s with mgr := m, job := set s.job t .none, results := s.results ++ [(p, .live)], owners := s.owners + 1 } := by
  have hm := mgr_step h.reach hq
  obtain ⟨old, new, ho, hp, hv⟩ := moved hq
  obtain ⟨b1, b2⟩ := h.ends hm hq nofun
  obtain ⟨j1, j2, j3⟩ := h.jobs t
  have he := h.user t (.inl hj)
  have hv' : m.held = set s.mgr.held p (s.mgr.held p + 1) ∧ m.closed = s.mgr.closed := by
    cases hv with
    | got _ a b => exact ⟨a, b⟩
    | run _ a => exact absurd rfl (a _)
  have hobj : ({ s with mgr := m, job := set s.job t .none, results := s.results ++ [(p, .live)], owners := s.owners + 1 } :
      State).objects = s.objects + 1 := by
    simp only [State.objects, List.countP_append]
    rfl
  have hz := h.freed
  rw [if_neg (by have := objects_engine (s := s) (by rw [he]; nofun); omega)] at hz
  exact {
    reach := hm.reach
    owners := by rw [hobj, ← h.owners]
    freed := by rw [hobj, if_neg (by omega)]; exact hz
    late := h.late
    held := fun q => (by
      have hh := h.held q
      simp only [State.uses, List.countP_append] at hh ⊢
      rw [hv'.1]
      by_cases e : q = p
      · subst e; rw [set_self, hh]; simp
      · have e' : ¬ p = q := fun x => e x.symm
        rw [set_ne _ e, hh]; simp [e'])
    closed := by rw [hv'.2]; exact h.closed
    range := b1, idle := b2, user := j1
    engineJob := fun u hu => h.engineJob u (j2 u hu).2
    resultsJob := fun u i hu => (by
      obtain ⟨q, hq⟩ := h.resultsJob u i (j3 u i hu).2
      exact ⟨q, by simp only [List.getElem?_append_left (List.getElem?_eq_some_iff.1 hq).1]; exact hq⟩)
    one := fun u v hu hv => h.one u v (j2 u hu).2 (j2 v hv).2
    oneEach := fun u v i hu hv => h.oneEach u v i (j3 u i hu).2 (j3 v i hv).2
    dying := fun e => (by rw [he] at e; cases e)
    dead := fun e => (by rw [he] at e; cases e)
    live := h.live }

/-- The return of `refreshData`. -/
theorem Inv.refreshed {s : State} (h : Inv s) {t : Nat} {m : Resource.State}
    (hq : Resource.step s.mgr t .run = some (m, .done)) (hj : s.job t = .refresh) :
    Inv { s with mgr := m, job := set s.job t .none } := by
  have hm := mgr_step h.reach hq
  obtain ⟨old, new, ho, hp, hv⟩ := moved hq
  obtain ⟨b1, b2⟩ := h.ends hm hq nofun
  obtain ⟨j1, j2, j3⟩ := h.jobs t
  have he := h.user t (.inr hj)
  have hv' : m.held = s.mgr.held ∧ m.closed = s.mgr.closed := by cases hv; exact ⟨by assumption, by assumption⟩
  exact {
    reach := hm.reach, owners := h.owners, freed := h.freed, late := h.late
    held := fun p => by rw [hv'.1]; exact h.held p
    closed := by rw [hv'.2]; exact h.closed
    range := b1, idle := b2, user := j1
    engineJob := fun u hu => h.engineJob u (j2 u hu).2
    resultsJob := fun u i hu => h.resultsJob u i (j3 u i hu).2
    one := fun u v hu hv => h.one u v (j2 u hu).2 (j2 v hv).2
    oneEach := fun u v i hu hv => h.oneEach u v i (j3 u i hu).2 (j3 v i hv).2
    dying := fun e => (by rw [he] at e; cases e)
    dead := fun e => (by rw [he] at e; cases e)
    live := h.live }

/-- The end of the engine's destructor. -/
theorem Inv.engineDeleted {s : State} (h : Inv s) {t : Nat} {m : Resource.State}
    (hq : Resource.step s.mgr t .run = some (m, .done)) (hj : s.job t = .deleteEngine) :
    Inv ({ s with mgr := m, job := set s.job t .none, engine := .dead } : State).drop := by
  have hm := mgr_step h.reach hq
  obtain ⟨old, new, ho, hp, hv⟩ := moved hq
  obtain ⟨b1, b2⟩ := h.ends hm hq nofun
  obtain ⟨j1, j2, j3⟩ := h.jobs t
  have he := h.engineJob t hj
  have hv' : m.held = s.mgr.held ∧ m.closed = s.mgr.closed := by cases hv; exact ⟨by assumption, by assumption⟩
  obtain ⟨k1, -⟩ := h.keep hq ⟨nofun, nofun⟩
  have hobj : s.objects = 1 + ({ s with mgr := m, job := set s.job t .none, engine := .dead } : State).drop.objects := by
    simp [State.objects, State.drop, he]
  have hz := h.freed
  rw [if_neg (by omega)] at hz
  have ho' := h.owners
  have hno : ∀ u, set s.job t .none u ≠ .process ∧ set s.job t .none u ≠ .refresh := by
    intro u
    refine ⟨fun e => ?_, fun e => ?_⟩
    · have := j1 u (.inl e); rw [he] at this; cases this
    · have := j1 u (.inr e); rw [he] at this; cases this
  have hdur : ∃ n, s.empty = some n ∧ m.active = n ∧ ∀ pc ∈ m.pcs, pc.new = none := by
    obtain ⟨u, n, b, d1, d2, d3⟩ := h.dying he
    have : u = t := h.one u t d1 hj
    subst this
    obtain ⟨hs, pc, hpc, hd⟩ := k1 u n b d3
    have hidle := b2 u pc (set_self _ _ _) hpc
    subst hidle
    rcases hd with ⟨e, -⟩ | ⟨-, e⟩
    · cases e
    · refine ⟨n, d2, e, fun pc hmem => ?_⟩
      obtain ⟨i, hi, rfl⟩ := List.getElem_of_mem hmem
      by_cases hiu : i = u
      · subst hiu
        rw [List.getElem?_eq_getElem hi] at hpc
        rw [Option.some.inj hpc]; rfl
      · exact hs i _ hiu (List.getElem?_eq_getElem hi)
  exact {
    reach := hm.reach
    owners := by
      show s.owners - 1 = _
      omega
    freed := by
      show (if s.owners - 1 = 0 then s.memFreed + 1 else s.memFreed) = _
      by_cases e : s.owners - 1 = 0
      · rw [if_pos e, if_pos (by omega), hz]
      · rw [if_neg e, if_neg (by omega), hz]
    late := h.late
    held := fun p => by
      show m.held p = _
      rw [hv'.1]; exact h.held p
    closed := by
      show m.closed = true ↔ _
      rw [hv'.2, h.closed, he]; simp [State.drop]
    range := b1, idle := b2
    user := fun u hu => (by
      rcases hu with hu | hu
      · exact absurd hu (hno u).1
      · exact absurd hu (hno u).2)
    engineJob := fun u hu => (by
      have := j2 u hu
      exact absurd (h.one u t this.2 hj) this.1)
    resultsJob := fun u i hu => h.resultsJob u i (j3 u i hu).2
    one := fun u v hu hv => h.one u v (j2 u hu).2 (j2 v hv).2
    oneEach := fun u v i hu hv => h.oneEach u v i (j3 u i hu).2 (j3 v i hv).2
    dying := fun e => (by cases e)
    dead := fun _ => hdur
    live := fun e => (by cases e) }

/-- The end of the destructor of a results object. -/
theorem Inv.resultsDeleted {s : State} (h : Inv s) {t i : Nat} {m : Resource.State}
    (hq : Resource.step s.mgr t .run = some (m, .done)) (hj : s.job t = .deleteResults i) :
    Inv ({ s with mgr := m, job := set s.job t .none,
                  results := s.results.modify i fun r => (r.1, .dead) } : State).drop := by
  have hm := mgr_step h.reach hq
  obtain ⟨old, new, ho, hp, hv⟩ := moved hq
  obtain ⟨b1, b2⟩ := h.ends hm hq nofun
  obtain ⟨j1, j2, j3⟩ := h.jobs t
  obtain ⟨p, hi⟩ := h.resultsJob t i hj
  have hv' : m.held = s.mgr.held ∧ m.closed = s.mgr.closed := by cases hv; exact ⟨by assumption, by assumption⟩
  obtain ⟨k1, k2⟩ := h.keep hq ⟨nofun, nofun⟩
  rw [modify_eq hi]
  have hobj : s.objects = 1 + ({ s with mgr := m, job := set s.job t .none, results := s.results.set i (p, .dead) } :
      State).drop.objects := by
    have := countP_set (f := fun r : Nat × Life => r.2 != .dead) (b := (p, .dead)) hi
    simp at this
    simp only [State.objects, State.drop]
    omega
  have hz := h.freed
  rw [if_neg (by omega)] at hz
  have ho' := h.owners
  exact {
    reach := hm.reach
    owners := by
      show s.owners - 1 = _
      omega
    freed := by
      show (if s.owners - 1 = 0 then s.memFreed + 1 else s.memFreed) = _
      by_cases e : s.owners - 1 = 0
      · rw [if_pos e, if_pos (by omega), hz]
      · rw [if_neg e, if_neg (by omega), hz]
    late := h.late
    held := fun q => by
      have := countP_set (f := fun r : Nat × Life => r == (q, .live)) (b := (p, .dead)) hi
      simp at this
      show m.held q = (s.results.set i (p, .dead)).countP fun r => r == (q, .live)
      rw [hv'.1, h.held q, this]
      rfl
    closed := by
      show m.closed = true ↔ _
      rw [hv'.2]; exact h.closed
    range := b1, idle := b2, user := j1
    engineJob := fun u hu => h.engineJob u (j2 u hu).2
    resultsJob := fun u k hu => (by
      obtain ⟨e, e'⟩ := j3 u k hu
      have hne : i ≠ k := by
        rintro rfl
        exact e (h.oneEach u t i e' hj)
      obtain ⟨q, hq⟩ := h.resultsJob u k e'
      exact ⟨q, by simp only [State.drop, List.getElem?_set_ne hne]; exact hq⟩)
    one := fun u v hu hv => h.one u v (j2 u hu).2 (j2 v hv).2
    oneEach := fun u v i hu hv => h.oneEach u v i (j3 u i hu).2 (j3 v i hv).2
    dying := fun e => (by
      obtain ⟨u, n, b, d1, d2, d3⟩ := h.dying e
      have : u ≠ t := by rintro rfl; rw [hj] at d1; cases d1
      exact ⟨u, n, b, (set_ne _ this _).trans d1, d2, k1 u n b d3⟩)
    dead := fun e => (by
      obtain ⟨n, d1, d2, d3⟩ := h.dead e
      obtain ⟨c1, c2⟩ := k2 e
      exact ⟨n, d1, c1.trans d2, c2⟩)
    live := h.live }

theorem Inv.step {s s' : State} (h : Inv s) {t : Nat} {a : Act} (hs : step s t a = some s') : Inv s' := by
  cases a with
  | process => exact h.process hs
  | refresh => exact h.refresh hs
  | deleteEngine => exact h.deleteEngine hs
  | deleteResults i => exact h.deleteResults hs
  | run =>
    simp only [Owners.step, Option.bind_eq_bind] at hs
    cases hq : Resource.step s.mgr t .run with
    | none => simp [hq] at hs
    | some q =>
      obtain ⟨m, r⟩ := q
      simp only [hq, Option.bind_some] at hs
      cases hj : s.job t with
      | none => rw [hj] at hs; cases hs
      | process =>
        rw [(h.there (h.working (t := t) (by rw [hj]; nofun))).2, hj] at hs
        match r, hs with
        | .nothing, hs => cases hs; exact h.inside hq (by rw [hj]; nofun)
        | .got (some p), hs => cases hs; exact h.made hq hj
      | refresh =>
        rw [(h.there (h.working (t := t) (by rw [hj]; nofun))).2, hj] at hs
        match r, hs with
        | .nothing, hs => cases hs; exact h.inside hq (by rw [hj]; nofun)
        | .done, hs => cases hs; exact h.refreshed hq hj
      | deleteEngine =>
        rw [(h.there (h.working (t := t) (by rw [hj]; nofun))).2, hj] at hs
        match r, hs with
        | .nothing, hs => cases hs; exact h.inside hq (by rw [hj]; nofun)
        | .done, hs => cases hs; exact h.engineDeleted hq hj
      | deleteResults i =>
        rw [(h.there (h.working (t := t) (by rw [hj]; nofun))).2, hj] at hs
        match r, hs with
        | .nothing, hs => cases hs; exact h.inside hq (by rw [hj]; nofun)
        | .done, hs => cases hs; exact h.resultsDeleted hq hj

theorem Inv.exec {sched : Schedule} : ∀ {s s' : State}, Inv s → exec s sched = some s' → Inv s' := by
  induction sched with
  | nil => intro s s' h he; cases he; exact h
  | cons c rest ih =>
    obtain ⟨t, a⟩ := c
    intro s s' h he
    simp only [Owners.exec, Option.bind_eq_bind] at he
    cases hs : Owners.step s t a with
    | none => simp [hs] at he
    | some s1 =>
      simp only [hs, Option.bind_some] at he
      exact ih (h.step hs) he

theorem Reached.inv {s : State} (h : Reached s) : Inv s := by
  obtain ⟨n, sched, he⟩ := h
  exact (Inv.start n).exec he

/-! ## C100 -/

/-- A deleted object. -/
def Gone (s : State) : Prop := s.engine = .dead ∧ ∀ r ∈ s.results, r.2 = .dead

theorem objects_zero {s : State} : s.objects = 0 ↔ Gone s := by
  simp only [State.objects, Gone]
  rw [Nat.add_eq_zero_iff, List.countP_eq_zero]
  constructor
  · rintro ⟨h1, h2⟩
    refine ⟨?_, fun r hr => by simpa using h2 r hr⟩
    by_contra hne
    rw [if_neg hne] at h1
    cases h1
  · rintro ⟨h1, h2⟩
    exact ⟨by rw [if_pos h1], fun r hr => by simpa using h2 r hr⟩

/-- In every state any schedule of any number of threads reaches, the memory of the manager is freed once when the engine and all
results objects are deleted, in whatever order, and not before; no call on the manager goes on after that. Missing: accesses
to the memory of handles, see `C100_threads_violated`. -/
theorem C100_manager_partial {s : State} (h : Reached s) :
    s.late = false ∧ s.memFreed ≤ 1 ∧ (s.memFreed = 1 ↔ s.engine = .dead ∧ ∀ r ∈ s.results, r.2 = .dead) := by
  have hi := h.inv
  have hf := hi.freed
  refine ⟨hi.late, ?_, ?_⟩
  · split at hf <;> omega
  · rw [← Gone, ← objects_zero]
    split at hf
    · next e => exact ⟨fun _ => e, fun _ => hf⟩
    · next e => exact ⟨fun x => by omega, fun x => absurd x e⟩

/-- The data set of a results object that is not being deleted has not been freed, whatever was refreshed and even when the engine
was deleted. Missing: results whose get of the data set gave NULL, see `C100_null_violated`. -/
theorem C100_usable_partial {s : State} (h : Reached s) {p : Nat} (hr : (p, Life.live) ∈ s.results) : s.mgr.freed p = 0 := by
  have hi := h.inv
  refine (Resource.C11_safe_partial hi.reach).2.1 p ?_
  rw [hi.held p]
  exact List.countP_pos_iff.2 ⟨_, hr, by simp⟩

/-- When the engine and all results objects are deleted no thread is in a call, every data set that was ever the engine's has been
freed exactly once, and only the handle without a data set is left as the active one. Missing: refreshes that overlap, see
`C100_lost_violated`. -/
theorem C100_end_partial {s : State} (h : Reached s) (he : s.engine = .dead) (hr : ∀ r ∈ s.results, r.2 = .dead) :
    (∀ t, s.job t = .none) ∧ ∃ n, s.empty = some n ∧ s.mgr.active = n ∧ s.mgr.freed n = 0 ∧
      ∀ p, s.mgr.was p = true → p ≠ n → s.mgr.freed p = 1 := by
  have hi := h.inv
  have hj : ∀ t, s.job t = .none := by
    intro t
    by_contra hne
    have := hi.working hne
    have := objects_zero.2 ⟨he, hr⟩
    omega
  have hq : Resource.Quiet s.mgr := by
    intro pc hm
    obtain ⟨i, hlt, rfl⟩ := List.getElem_of_mem hm
    exact hi.idle i _ (hj i) (List.getElem?_eq_getElem hlt)
  obtain ⟨n, h1, h2, -⟩ := hi.dead he
  refine ⟨hj, n, h1, h2, ?_, fun p hw hne => ?_⟩
  · rw [← h2]; exact (Resource.C11_safe_partial hi.reach).2.2.2
  · refine Resource.C12_freed_partial hi.reach hq hw (by rw [h2]; exact hne) ?_
    rw [hi.held p]
    refine List.countP_eq_zero.2 fun r hm => ?_
    have := hr r hm
    obtain ⟨q, l⟩ := r
    subst this
    simp

/-- A results object keeps its data set: no step of any thread gives it another, and one that is there stays so until it is
deleted. -/
theorem C100_same {s s' : State} (h : Reached s) {t : Nat} {a : Act} (hs : step s t a = some s') {i p : Nat} {x : Life}
    (hr : s.results[i]? = some (p, x)) :
    ∃ y, s'.results[i]? = some (p, y) ∧ (y ≠ x → a = .deleteResults i ∨ s.job t = .deleteResults i) := by
  have hlt := (List.getElem?_eq_some_iff.1 hr).1
  cases a with
  | process | refresh | deleteEngine =>
    simp only [step] at hs
    split at hs
    · simp only [Option.map_eq_some_iff] at hs
      obtain ⟨q, -, rfl⟩ := hs
      exact ⟨x, hr, fun e => absurd rfl e⟩
    · cases hs
  | deleteResults k =>
    simp only [step] at hs
    split at hs
    · next q hk =>
      split at hs
      · simp only [Option.map_eq_some_iff] at hs
        obtain ⟨m, -, rfl⟩ := hs
        by_cases e : k = i
        · subst e
          rw [hr] at hk
          cases hk
          exact ⟨.dying, List.getElem?_set_self hlt, fun _ => .inl rfl⟩
        · exact ⟨x, by simp only [List.getElem?_set_ne e]; exact hr, fun e => absurd rfl e⟩
      · cases hs
    · cases hs
  | run =>
    simp only [step, Option.bind_eq_bind] at hs
    cases hq : Resource.step s.mgr t .run with
    | none => simp [hq] at hs
    | some q =>
      obtain ⟨m, r⟩ := q
      simp only [hq, Option.bind_some] at hs
      have same : ∀ s1 : State, s1.results = s.results → ∃ y, s1.results[i]? = some (p, y) ∧
          (y ≠ x → Act.run = .deleteResults i ∨ s.job t = .deleteResults i) :=
        fun s1 e => ⟨x, by rw [e]; exact hr, fun e => absurd rfl e⟩
      cases hj : s.job t with
      | none => rw [hj] at hs; cases hs
      | process =>
        rw [hj] at hs same
        match r, hs with
        | .nothing, hs => cases hs; exact same _ rfl
        | .got (some z), hs =>
          cases hs
          exact ⟨x, by simp only [State.touch, List.getElem?_append_left hlt]; exact hr, fun e => absurd rfl e⟩
      | refresh =>
        rw [hj] at hs same
        match r, hs with
        | .nothing, hs => cases hs; exact same _ rfl
        | .done, hs => cases hs; exact same _ rfl
      | deleteEngine =>
        rw [hj] at hs same
        match r, hs with
        | .nothing, hs => cases hs; exact same _ rfl
        | .done, hs => cases hs; exact same _ rfl
      | deleteResults k =>
        rw [hj] at hs same
        match r, hs with
        | .nothing, hs => cases hs; exact same _ rfl
        | .done, hs =>
          cases hs
          obtain ⟨z, hz⟩ := h.inv.resultsJob t k hj
          by_cases e : k = i
          · subst e
            rw [hr] at hz
            cases hz
            refine ⟨.dead, ?_, fun _ => .inr rfl⟩
            simp only [State.drop, State.touch, modify_eq hr]
            exact List.getElem?_set_self hlt
          · refine ⟨x, ?_, fun e => absurd rfl e⟩
            simp only [State.drop, State.touch, modify_eq hz, List.getElem?_set_ne e]
            exact hr

/-! ## Refreshes one at a time -/

/-- No refresh starts while another thread is in one. -/
def Apart : State → Schedule → Prop
  | _, [] => True
  | s, (t, a) :: rest => (a = .refresh → ∀ u, u ≠ t → s.job u ≠ .refresh) ∧ ∀ s', step s t a = some s' → Apart s' rest

/-- What a step of the manager does to the handles. -/
theorem handles {s s' : Resource.State} {t : Nat} {a : Resource.Act} {r : Resource.Ret}
    (h : Resource.step s t a = some (s', r)) : (∀ p, s.was p = true → s'.was p = true) ∧
      (a ≠ .callReplace → a ≠ .callFree → s'.fresh = s.fresh) ∧
      (a = .callReplace → s'.fresh = s.fresh + 1 ∧ s'.active = s.active ∧ s'.pcs = s.pcs.set t (.inc (.replace s.fresh))) ∧
      (a = .callFree → s'.fresh = s.fresh + 1 ∧ s'.active = s.active ∧ s'.pcs = s.pcs.set t (.inc (.free s.fresh))) := by
  simp only [Resource.step, Option.bind_eq_bind] at h
  cases ht : s.pcs[t]? with
  | none => simp [ht] at h
  | some pc =>
    simp only [ht, Option.bind_some] at h
    cases a with
    | callGet | callRelease =>
      simp only at h
      split at h
      · simp at h; obtain ⟨rfl, rfl⟩ := h; exact ⟨fun _ h => h, fun _ _ => rfl, nofun, nofun⟩
      · simp at h
    | callReplace =>
      simp only at h
      split at h
      · simp at h; obtain ⟨rfl, rfl⟩ := h; exact ⟨fun _ h => h, fun h => absurd rfl h, fun _ => ⟨rfl, rfl, rfl⟩, nofun⟩
      · simp at h
    | callFree =>
      simp only at h
      split at h
      · simp at h; obtain ⟨rfl, rfl⟩ := h; exact ⟨fun _ h => h, fun _ h => absurd rfl h, nofun, fun _ => ⟨rfl, rfl, rfl⟩⟩
      · simp at h
    | run =>
      suffices hh : (∀ p, s.was p = true → s'.was p = true) ∧ s'.fresh = s.fresh from ⟨hh.1, fun _ _ => hh.2, nofun, nofun⟩
      cases pc with
      | swap c old =>
        cases c <;> simp only [Resource.access, reduceCtorEq, Option.some.injEq, Prod.mk.injEq] at h
        all_goals
          obtain ⟨rfl, rfl⟩ := h
          split
          · refine ⟨fun p hp => ?_, rfl⟩
            simp only [Resource.State.goto, Resource.set]
            split <;> [rfl; exact hp]
          · exact ⟨fun _ h => h, rfl⟩
      | incAddr c compare a =>
        simp only [Resource.access] at h
        split at h
        · split at h <;> simp at h <;> (obtain ⟨rfl, rfl⟩ := h; exact ⟨fun _ h => h, rfl⟩)
        · simp at h; obtain ⟨rfl, rfl⟩ := h; exact ⟨fun _ h => h, rfl⟩
      | decRead c p compare =>
        simp only [Resource.access] at h
        split at h
        · split at h <;> simp at h <;> (obtain ⟨rfl, rfl⟩ := h; exact ⟨fun _ h => h, rfl⟩)
        · simp at h; obtain ⟨rfl, rfl⟩ := h; exact ⟨fun _ h => h, rfl⟩
      | decFree c p d =>
        simp only [Resource.access] at h
        split at h
        · simp at h
        · split at h <;> simp at h <;> (obtain ⟨rfl, rfl⟩ := h; exact ⟨fun _ h => h, rfl⟩)
      | decCheck c p d =>
        simp only [Resource.access] at h
        split at h <;> simp at h <;> (obtain ⟨rfl, rfl⟩ := h; exact ⟨fun _ h => h, rfl⟩)
      | idle => simp [Resource.access] at h
      | _ => simp [Resource.access] at h; obtain ⟨rfl, rfl⟩ := h; exact ⟨fun _ h => h, rfl⟩

/-- What holds when refreshes do not overlap: every handle was made active or is about to be. -/
structure Calm (s : State) : Prop where
  during : ∀ t, s.job t = .refresh ∨ s.job t = .deleteEngine → ∃ n b, Resource.During t n b s.mgr
  new : ∀ (t : Nat) (pc : Resource.Pc), s.mgr.pcs[t]? = some pc → pc.new ≠ none → s.job t = .refresh ∨ s.job t = .deleteEngine
  all : ∀ p, p < s.mgr.fresh → s.mgr.was p = true ∨ ∃ (t : Nat) (pc : Resource.Pc), s.mgr.pcs[t]? = some pc ∧ pc.new = some p

theorem Calm.start (n : Nat) : Calm (start n) where
  during := fun t h => by rcases h with h | h <;> cases h
  new := by
    intro t pc h hn
    simp only [Owners.start, Resource.start, List.getElem?_replicate] at h
    split at h
    · cases h; exact absurd rfl hn
    · cases h
  all := by
    intro p hp
    refine .inl ?_
    have : p = 0 := Nat.lt_one_iff.1 hp
    subst this
    rfl

/-- A step of the manager that starts no replacement, by a thread whose job stays or ends with the call. -/
theorem Calm.goes {s : State} (h : Calm s) (hi : Inv s) {m : Resource.State} {t : Nat} {a : Resource.Act} {r : Resource.Ret}
    (hq : Resource.step s.mgr t a = some (m, r)) (ha : a ≠ .callReplace ∧ a ≠ .callFree) {s' : State} (hm : s'.mgr = m)
    (hj : ∀ u, u ≠ t → s'.job u = s.job u)
    (hj1 : s'.job t = .refresh ∨ s'.job t = .deleteEngine → s'.job t = s.job t)
    (hj2 : s.job t = .refresh ∨ s.job t = .deleteEngine → s'.job t = s.job t ∨ s'.job t = .none)
    (hidle : ∀ pc, s'.job t = .none → m.pcs[t]? = some pc → pc = .idle) : Calm s' := by
  have hmg := mgr_step hi.reach hq
  have hh := handles hq
  obtain ⟨old, new0, ho, hp0⟩ := Resource.step_pc hq
  -- the thread's own handle
  have own : ∀ n b, Resource.During t n b s.mgr → Resource.During t n b m := fun n b hd => hd.step hi.reach.inv hq ha
  refine ⟨fun u hu => ?_, fun u pc hpc hn => ?_, fun p hp => ?_⟩
  · rw [hm]
    have hu' : s.job u = .refresh ∨ s.job u = .deleteEngine := by
      by_cases e : u = t
      · subst e; rw [hj1 hu] at hu; exact hu
      · rw [hj u e] at hu; exact hu
    obtain ⟨n, b, hd⟩ := h.during u hu'
    exact ⟨n, b, hd.step hi.reach.inv hq ha⟩
  · rw [hm] at hpc
    by_cases e : u = t
    · subst e
      by_cases hon : old.new = none
      · obtain ⟨-, new, e2, e3⟩ := Resource.step_noNew hq ho hon ha
        rw [e2, List.getElem?_set_self hmg.lt] at hpc
        rw [← Option.some.inj hpc] at hn
        exact absurd e3 hn
      · have hold := h.new u old ho hon
        rcases hj2 hold with hx | hx
        · rw [hx]; exact hold
        · have := hidle pc hx hpc
          subst this
          exact absurd rfl hn
    · rw [hj u e]
      rw [hmg.other u e] at hpc
      exact h.new u pc hpc hn
  · rw [hm] at hp ⊢
    rw [hh.2.1 ha.1 ha.2] at hp
    rcases h.all p hp with hw | ⟨u, pc, hpc, hn⟩
    · exact .inl (hh.1 p hw)
    · by_cases e : u = t
      · subst e
        have hold := h.new u pc hpc (by rw [hn]; nofun)
        obtain ⟨n, b, hd⟩ := h.during u hold
        have hnp : n = p := by
          obtain ⟨-, pc', hpc', h1⟩ := hd
          rw [hpc] at hpc'
          cases hpc'
          rcases h1 with ⟨h1, -⟩ | ⟨h1, -⟩
          · rw [hn] at h1; exact (Option.some.inj h1).symm
          · rw [hn] at h1; cases h1
        subst hnp
        obtain ⟨-, pc', hpc', h1⟩ := own n b hd
        rcases h1 with ⟨h1, -⟩ | ⟨-, h1⟩
        · exact .inr ⟨u, pc', hpc', h1⟩
        · refine .inl ?_
          rw [← h1]
          exact hmg.reach.inv.act
      · exact .inr ⟨u, pc, by rw [hmg.other u e]; exact hpc, hn⟩

/-- The start of a replacement when no other thread is in one. -/
theorem Calm.starts {s : State} (h : Calm s) (hi : Inv s) {m : Resource.State} {t : Nat} {a : Resource.Act} {r : Resource.Ret}
    (hq : Resource.step s.mgr t a = some (m, r)) {c : Resource.Ctx} (hc : c.new = some s.mgr.fresh)
    (hf : m.fresh = s.mgr.fresh + 1) (hact : m.active = s.mgr.active) (hp : m.pcs = s.mgr.pcs.set t (.inc c))
    (hno : ∀ u, s.job u ≠ .refresh ∧ s.job u ≠ .deleteEngine) {s' : State} (hm : s'.mgr = m)
    (hj : ∀ u, u ≠ t → s'.job u = s.job u) (hjt : s'.job t = .refresh ∨ s'.job t = .deleteEngine) : Calm s' := by
  have hmg := mgr_step hi.reach hq
  have hh := handles hq
  obtain ⟨old, new0, ho, -⟩ := Resource.step_pc hq
  have hnone : ∀ (u : Nat) (pc : Resource.Pc), s.mgr.pcs[u]? = some pc → pc.new = none := by
    intro u pc hpc
    by_contra hne
    rcases h.new u pc hpc hne with e | e
    · exact (hno u).1 e
    · exact (hno u).2 e
  refine ⟨fun u hu => ?_, fun u pc hpc hn => ?_, fun p hpf => ?_⟩
  · rw [hm]
    by_cases e : u = t
    · subst e
      refine ⟨s.mgr.fresh, s.mgr.active, ?_, .inc c, by rw [hp, List.getElem?_set_self hmg.lt],
        .inl ⟨hc, hact, fun a e => (by cases e), fun p e => (by cases e)⟩⟩
      intro v pc hv hpc
      rw [hmg.other v hv] at hpc
      exact hnone v pc hpc
    · rw [hj u e] at hu
      rcases hu with e | e
      · exact absurd e (hno u).1
      · exact absurd e (hno u).2
  · by_cases e : u = t
    · subst e; exact hjt
    · rw [hm, hmg.other u e] at hpc
      exact absurd (hnone u pc hpc) hn
  · rw [hm] at hpf ⊢
    rw [hf] at hpf
    by_cases e : p = s.mgr.fresh
    · subst e
      exact .inr ⟨t, .inc c, by rw [hp, List.getElem?_set_self hmg.lt], hc⟩
    · rcases h.all p (by omega) with hw | ⟨u, pc, hpc, hn⟩
      · exact .inl (hh.1 p hw)
      · rw [hnone u pc hpc] at hn; cases hn

theorem Calm.step {s s' : State} (h : Calm s) (hi : Inv s) {t : Nat} {a : Act} (hs : step s t a = some s')
    (ha : a = .refresh → ∀ u, u ≠ t → s.job u ≠ .refresh) : Calm s' := by
  have hi' := hi.step hs
  cases a with
  | process =>
    simp only [Owners.step] at hs
    split at hs
    · next hc =>
      simp only [Option.map_eq_some_iff] at hs
      obtain ⟨⟨m, r⟩, hq, rfl⟩ := hs
      exact h.goes hi hq ⟨nofun, nofun⟩ rfl (fun u hu => set_ne _ hu _)
        (fun e => by rcases e with e | e <;> simp [set_self] at e)
        (fun e => by rw [hc.2] at e; rcases e with e | e <;> cases e) (fun pc e => hi'.idle t pc e)
    · cases hs
  | refresh =>
    simp only [Owners.step] at hs
    split at hs
    · next hc =>
      simp only [Option.map_eq_some_iff] at hs
      obtain ⟨⟨m, r⟩, hq, rfl⟩ := hs
      obtain ⟨-, -, hx, -⟩ := handles hq
      obtain ⟨h1, h2, h3⟩ := hx rfl
      refine h.starts hi hq rfl h1 h2 h3 (fun u => ⟨fun e => ?_, fun e => ?_⟩) rfl (fun u hu => set_ne _ hu _)
        (.inl (set_self _ _ _))
      · by_cases hu : u = t
        · rw [hu, hc.2] at e; cases e
        · exact ha rfl u hu e
      · have := hi.engineJob u e
        rw [hc.1] at this; cases this
    · cases hs
  | deleteEngine =>
    simp only [Owners.step] at hs
    split at hs
    · next hc =>
      simp only [Option.map_eq_some_iff] at hs
      obtain ⟨⟨m, r⟩, hq, rfl⟩ := hs
      obtain ⟨-, -, -, hx⟩ := handles hq
      obtain ⟨h1, h2, h3⟩ := hx rfl
      refine h.starts hi hq rfl h1 h2 h3 (fun u => ⟨fun e => ?_, fun e => ?_⟩) rfl (fun u hu => set_ne _ hu _)
        (.inr (set_self _ _ _))
      · exact (State.unused_iff hc.2.2 (hi.range u (by rw [e]; nofun))).2 e
      · have := hi.engineJob u e
        rw [hc.1] at this; cases this
    · cases hs
  | deleteResults i =>
    simp only [Owners.step] at hs
    split at hs
    · split at hs
      · next hc =>
        simp only [Option.map_eq_some_iff] at hs
        obtain ⟨⟨m, r⟩, hq, rfl⟩ := hs
        exact h.goes hi hq ⟨nofun, nofun⟩ rfl (fun u hu => set_ne _ hu _)
          (fun e => by rcases e with e | e <;> simp [set_self] at e)
          (fun e => by rw [hc] at e; rcases e with e | e <;> cases e) (fun pc e => hi'.idle t pc e)
      · cases hs
    · cases hs
  | run =>
    simp only [Owners.step, Option.bind_eq_bind] at hs
    cases hq : Resource.step s.mgr t .run with
    | none => simp [hq] at hs
    | some q =>
      obtain ⟨m, r⟩ := q
      simp only [hq, Option.bind_some] at hs
      have stays : ∀ s1 : State, s1.mgr = m → s1.job = s.job → Inv s1 → Calm s1 := by
        intro s1 e1 e2 e3
        exact h.goes hi hq ⟨nofun, nofun⟩ e1 (fun u _ => by rw [e2]) (fun _ => by rw [e2]) (fun _ => .inl (by rw [e2]))
          (fun pc e => by rw [← e1]; exact e3.idle t pc e)
      have ends : ∀ s1 : State, s1.mgr = m → s1.job = set s.job t .none → Inv s1 → Calm s1 := by
        intro s1 e1 e2 e3
        exact h.goes hi hq ⟨nofun, nofun⟩ e1 (fun u hu => by rw [e2, set_ne _ hu])
          (fun e => by rw [e2, set_self] at e; rcases e with e | e <;> cases e)
          (fun _ => .inr (by rw [e2, set_self])) (fun pc e => by rw [← e1]; exact e3.idle t pc e)
      cases hj : s.job t with
      | none => rw [hj] at hs; cases hs
      | process =>
        rw [hj] at hs
        match r, hs with
        | .nothing, hs => cases hs; exact stays _ rfl rfl hi'
        | .got (some z), hs => cases hs; exact ends _ rfl rfl hi'
      | refresh | deleteEngine | deleteResults k =>
        rw [hj] at hs
        match r, hs with
        | .nothing, hs => cases hs; exact stays _ rfl rfl hi'
        | .done, hs => cases hs; exact ends _ rfl rfl hi'

theorem Calm.exec {sched : Schedule} : ∀ {s s' : State}, Calm s → Inv s → Apart s sched → Owners.exec s sched = some s' → Calm s' := by
  induction sched with
  | nil => intro s s' h _ _ he; cases he; exact h
  | cons c rest ih =>
    obtain ⟨t, a⟩ := c
    intro s s' h hi hap he
    simp only [Owners.exec, Option.bind_eq_bind] at he
    cases hs : Owners.step s t a with
    | none => simp [hs] at he
    | some s1 =>
      simp only [hs, Option.bind_some] at he
      exact ih (h.step hi hs hap.1) (hi.step hs) (hap.2 s1 hs) he

/-- When no two refreshes overlap nothing is left: after the engine and all results objects are deleted every data set the
engine ever had has been freed exactly once. -/
theorem C100_apart {n : Nat} {sched : Schedule} {s : State} (hs : exec (start n) sched = some s) (ha : Apart (start n) sched)
    (he : s.engine = .dead) (hr : ∀ r ∈ s.results, r.2 = .dead) {p : Nat} (hp : p < s.mgr.fresh) (hn : s.empty ≠ some p) :
    s.mgr.freed p = 1 := by
  have hreach : Reached s := ⟨n, sched, hs⟩
  obtain ⟨hj, m, h1, h2, -, h4⟩ := C100_end_partial hreach he hr
  refine h4 p ?_ (fun e => hn (by rw [e]; exact h1))
  rcases ((Calm.start n).exec (Inv.start n) ha hs).all p hp with hw | ⟨t, pc, hpc, hnew⟩
  · exact hw
  · have := hreach.inv.idle t pc (hj t) hpc
    subst this
    cases hnew

/-! ## One call at a time -/

/-- Every call runs to its end before another thread does anything. -/
def Serial : State → Schedule → Prop
  | _, [] => True
  | s, (t, a) :: rest => (∀ u, u ≠ t → s.job u = .none) ∧ ∀ s', step s t a = some s' → Serial s' rest

/-- The handle without a resource of `fiftyoneDegreesResourceManagerFree`. -/
def nullIn : Resource.Ctx → Option Nat
  | .free n => some n
  | _ => none

/-- The handle without a resource of the call a thread is in. -/
def nullOf : Resource.Pc → Option Nat
  | .inc c | .incActive c _ | .incSelf c _ _ | .incRead c _ | .incAddr c _ _ | .swap c _ | .dec c _ | .decSelf c _ _
  | .decRead c _ _ | .decCheck c _ _ | .decFree c _ _ => nullIn c
  | .freeNew n => some n
  | .idle => none

/-- What holds when calls do not overlap: the memory of freed handles is not used any more. -/
structure Clean (s : Resource.State) : Prop where
  uaf : s.uaf = false
  gone : ∀ p, s.gone p = true → Resource.refs s p = 0 ∧ p < s.fresh ∧
    (p = s.active → s.closed = true ∧ ∀ pc ∈ s.pcs, pc.getting = false)
  addr : ∀ pc ∈ s.pcs, ∀ a, pc.addr = some a → a = s.active
  last : ∀ pc ∈ s.pcs, ∀ p d, pc.last = some (p, d) → s.gone p = false
  new : ∀ pc ∈ s.pcs, ∀ n, pc.new = some n → s.gone n = false
  null : ∀ pc ∈ s.pcs, ∀ n, nullOf pc = some n → s.closed = true ∧ Resource.refs s n = 0 ∧ n < s.fresh

theorem Clean.start (n : Nat) : Clean (Resource.start n) := by
  have hidle : ∀ pc ∈ (Resource.start n).pcs, pc = .idle := by
    intro pc h
    exact List.eq_of_mem_replicate h
  refine ⟨rfl, fun p h => (by cases h), fun pc h a e => ?_, fun pc h p d e => ?_, fun pc h m e => ?_, fun pc h m e => ?_⟩ <;>
    (rw [hidle pc h] at e; cases e)

/-- The only thread in a call. -/
def Only (t : Nat) (s : Resource.State) : Prop := ∀ (u : Nat) (pc : Resource.Pc), u ≠ t → s.pcs[u]? = some pc → pc = .idle

/-- The threads after a step of the only one in a call. -/
theorem Only.mem {t : Nat} {s : Resource.State} (h : Only t s) {new pc : Resource.Pc} (hm : pc ∈ s.pcs.set t new) :
    pc = new ∨ pc = .idle := by
  obtain ⟨i, hi, rfl⟩ := List.getElem_of_mem hm
  by_cases e : i = t
  · subst e; exact .inl (by simp)
  · refine .inr (h i _ e ?_)
    rw [List.getElem_set_ne (Ne.symm e)]
    exact List.getElem?_eq_getElem _

/-- A handle in use by someone is not gone. -/
theorem Clean.inUse {s : Resource.State} (h : Clean s) {p : Nat} (hr : 0 < Resource.refs s p) : s.gone p = false := by
  rcases hg : s.gone p with _ | _
  · rfl
  · have := (h.gone p hg).1; omega

/-- A step of the only thread in a call. -/
theorem Clean.moves {s s' : Resource.State} (h : Clean s) {t : Nat} {old new : Resource.Pc} (ho : s.pcs[t]? = some old)
    (hon : Only t s) (hp : s'.pcs = s.pcs.set t new) (hu : s'.uaf = false) (hgone : s'.gone = s.gone)
    (hfresh : s.fresh ≤ s'.fresh)
    (hclosed : s.closed = true → s'.closed = true)
    (hrefs : ∀ p, p < s.fresh → Resource.refs s p = 0 → (s.gone p = true ∨ nullOf new = some p) → Resource.refs s' p = 0)
    (hget : new.getting = true → s.closed = true → old.getting = true)
    (hact : s'.active = s.active ∨ (s.gone s'.active = false))
    (haddr : ∀ a, new.addr = some a → a = s'.active)
    (hlast : ∀ p d, new.last = some (p, d) → s.gone p = false)
    (hnew : ∀ n, new.new = some n → old.new = some n ∨ s.gone n = false)
    (hnull : ∀ n, nullOf new = some n → nullOf old = some n ∨ (s'.closed = true ∧ Resource.refs s' n = 0 ∧ n < s'.fresh)) :
    Clean s' := by
  refine ⟨hu, fun p hg => ?_, fun pc hm a e => ?_, fun pc hm p d e => ?_, fun pc hm n e => ?_, fun pc hm n e => ?_⟩
  · rw [hgone] at hg
    obtain ⟨h1, h2, h3⟩ := h.gone p hg
    refine ⟨hrefs p h2 h1 (.inl hg), Nat.lt_of_lt_of_le h2 hfresh, fun ha => ?_⟩
    rcases hact with e | e
    · obtain ⟨c1, c2⟩ := h3 (by rw [ha, e])
      refine ⟨hclosed c1, fun pc hm => ?_⟩
      rw [hp] at hm
      rcases hon.mem hm with rfl | rfl
      · rcases hng : pc.getting with _ | _
        · rfl
        · have := c2 old (List.mem_of_getElem? ho)
          rw [hget hng c1] at this; exact this
      · rfl
    · rw [← ha, hg] at e; cases e
  · rw [hp] at hm
    rcases hon.mem hm with rfl | rfl
    · exact haddr a e
    · cases e
  · rw [hp] at hm
    rw [hgone]
    rcases hon.mem hm with rfl | rfl
    · exact hlast p d e
    · cases e
  · rw [hp] at hm
    rw [hgone]
    rcases hon.mem hm with rfl | rfl
    · rcases hnew n e with e' | e'
      · exact h.new old (List.mem_of_getElem? ho) n e'
      · exact e'
    · cases e
  · rw [hp] at hm
    rcases hon.mem hm with rfl | rfl
    · rcases hnull n e with e' | e'
      · obtain ⟨c1, c2, c3⟩ := h.null old (List.mem_of_getElem? ho) n e'
        exact ⟨hclosed c1, hrefs n c3 c2 (.inr e), Nat.lt_of_lt_of_le c3 hfresh⟩
      · exact e'
    · cases e

theorem afterDec_null {c : Resource.Ctx} {n p : Nat} (h : nullOf (Resource.afterDec c).1 = some n) :
    nullOf (.dec c p) = some n := by
  cases c
  · cases h
  · cases h
  · exact h

theorem afterDec_getting (c : Resource.Ctx) : (Resource.afterDec c).1.getting = false := by cases c <;> rfl

/-- A step of the only thread in a call that frees the memory of a handle. -/
theorem Clean.frees {s s' : Resource.State} (h : Clean s) {t q : Nat} {old new : Resource.Pc} (ho : s.pcs[t]? = some old)
    (hon : Only t s) (hp : s'.pcs = s.pcs.set t new) (hu : s'.uaf = false) (hgone : s'.gone = set s.gone q true)
    (hfresh : s'.fresh = s.fresh) (hclosed : s'.closed = s.closed) (hact : s'.active = s.active) (hheld : s'.held = s.held)
    (hou : old.uses = none) (hnu : new.uses = none) (hget : new.getting = false) (haddr : new.addr = none)
    (hlast : new.last = none) (hnew : new.new = none)
    (hq : Resource.refs s q = 0 ∧ q < s.fresh ∧ (q = s.active → s.closed = true))
    (hnull : ∀ n, nullOf new = some n → nullOf old = some n) : Clean s' := by
  have hrefs : ∀ p, Resource.refs s' p = Resource.refs s p := by
    intro p
    have := Resource.refs_move ho hp p
    rw [hou, hnu, hheld] at this
    simp at this
    exact this
  refine ⟨hu, fun p hg => ?_, fun pc hm a e => ?_, fun pc hm p d e => ?_, fun pc hm n e => ?_, fun pc hm n e => ?_⟩
  · rw [hrefs, hfresh, hact, hclosed]
    have getting : ∀ pc ∈ s'.pcs, pc.getting = false := by
      intro pc hm
      rw [hp] at hm
      rcases hon.mem hm with rfl | rfl
      · exact hget
      · rfl
    rw [hgone] at hg
    by_cases e : p = q
    · subst e
      exact ⟨hq.1, hq.2.1, fun x => ⟨hq.2.2 x, getting⟩⟩
    · rw [set_ne _ e] at hg
      obtain ⟨h1, h2, h3⟩ := h.gone p hg
      exact ⟨h1, h2, fun x => ⟨(h3 x).1, getting⟩⟩
  · rw [hp] at hm
    rcases hon.mem hm with rfl | rfl
    · rw [haddr] at e; cases e
    · cases e
  · rw [hp] at hm
    rcases hon.mem hm with rfl | rfl
    · rw [hlast] at e; cases e
    · cases e
  · rw [hp] at hm
    rcases hon.mem hm with rfl | rfl
    · rw [hnew] at e; cases e
    · cases e
  · rw [hp] at hm
    rw [hrefs, hfresh, hclosed]
    rcases hon.mem hm with rfl | rfl
    · exact h.null old (List.mem_of_getElem? ho) n (hnull n e)
    · cases e

set_option maxHeartbeats 1000000 in
theorem Clean.step {s s' : Resource.State} (h : Clean s) (hi : Resource.Inv s) {t : Nat} {a : Resource.Act} {r : Resource.Ret}
    (hon : Only t s) (hs : Resource.step s t a = some (s', r)) : Clean s' := by
  simp only [Resource.step, Option.bind_eq_bind] at hs
  cases ho : s.pcs[t]? with
  | none => simp [ho] at hs
  | some pc =>
    have hmem := List.mem_of_getElem? ho
    simp only [ho, Option.bind_some] at hs
    -- a handle that is not gone may be read
    have tch : ∀ p, s.gone p = false → s.touch p = s := by
      intro p hg
      have hu := h.uaf
      obtain ⟨x1, x2, x3, x4, x5, x6, x7, x8, x9, x10⟩ := s
      simp only at hg hu
      simp [Resource.State.touch, hg, hu]
    -- the active handle while a thread is getting it or the manager is open
    have actv : (s.closed = false ∨ pc.getting = true) → s.gone s.active = false := by
      intro hx
      rcases hg : s.gone s.active with _ | _
      · rfl
      · obtain ⟨c1, c2⟩ := (h.gone _ hg).2.2 rfl
        rcases hx with e | e
        · rw [c1] at e; cases e
        · rw [c2 pc hmem] at e; cases e
    -- steps that only read
    have reads : ∀ new : Resource.Pc, s' = s.goto t new → new.uses = pc.uses → (new.getting = true → s.closed = true → pc.getting = true) →
        (∀ a, new.addr = some a → a = s.active) → (∀ p d, new.last = some (p, d) → s.gone p = false) →
        (∀ n, new.new = some n → pc.new = some n) → (∀ n, nullOf new = some n → nullOf pc = some n) → Clean s' := by
      intro new e hu hg ha hl hw hn
      have hrm := Resource.refs_move (s' := s') (new := new) ho (by rw [e]; rfl)
      refine h.moves ho hon (new := new) (by rw [e]; rfl) (by rw [e]; exact h.uaf) (by rw [e]; rfl) (by rw [e]; exact Nat.le_refl _)
        (by rw [e]; exact id) (fun p _ hz _ => ?_) hg (.inl (by rw [e]; rfl)) (by rw [e]; exact ha) hl (fun n x => .inl (hw n x)) (fun n x => .inl (hn n x))
      have := hrm p
      have hh : s'.held p = s.held p := by rw [e]; rfl
      rw [hu, hh] at this
      omega
    cases a with
    | callGet =>
      simp only at hs
      split at hs
      · next hc =>
        simp at hs
        obtain ⟨e, -⟩ := hs
        rw [hc.1] at reads
        exact reads (.inc .user) e.symm rfl (fun _ x => by rw [hc.2] at x; cases x) nofun nofun nofun nofun
      · simp at hs
    | callRelease p =>
      simp only at hs
      split at hs
      · next hc =>
        simp at hs
        obtain ⟨e, -⟩ := hs
        have hrm := Resource.refs_move (s' := s') (new := .dec .user p) ho (by rw [← e]; rfl)
        refine h.moves ho hon (new := .dec .user p) (by rw [← e]; rfl) (by rw [← e]; exact h.uaf) (by rw [← e]; rfl)
          (by rw [← e]; exact Nat.le_refl _) (by rw [← e]; exact id) (fun q _ hz _ => ?_) nofun (.inl (by rw [← e]; rfl)) nofun nofun
          nofun nofun
        have hz' : s.held q = 0 := by simp only [Resource.refs] at hz; omega
        have hqp : q ≠ p := by rintro rfl; omega
        have := hrm q
        have hh : s'.held q = s.held q := by rw [← e]; simp [Resource.State.goto, Resource.set_ne _ _ hqp]
        rw [hc.1, hh] at this
        have hqp' : ¬ p = q := fun x => hqp x.symm
        simp [Resource.Pc.uses, hqp'] at this
        omega
      · simp at hs
    | callReplace =>
      simp only at hs
      split at hs
      · next hc =>
        have hop : s.closed = false := hc.2
        rw [tch _ (actv (.inl hop))] at hs
        simp at hs
        obtain ⟨e, -⟩ := hs
        refine h.moves ho hon (new := .inc (.replace s.fresh)) (by rw [← e]; rfl) (by rw [← e]; exact h.uaf) (by rw [← e]; rfl) (by rw [← e]; exact Nat.le_succ _)
          (by rw [hop]; nofun) (fun q _ hz _ => ?_) (fun _ x => by rw [hop] at x; cases x) (.inl (by rw [← e]; rfl)) nofun nofun
          (fun n x => .inr ?_) ?_
        · have := Resource.refs_move (s' := s') (new := .inc (.replace s.fresh)) ho (by rw [← e]; rfl) q
          have hh : s'.held q = s.held q := by rw [← e]; rfl
          rw [hc.1, hh] at this
          simp [Resource.Pc.uses] at this
          omega
        · have hn : n = s.fresh := by simpa [Resource.Pc.new, Resource.Ctx.new] using x.symm
          rcases hg : s.gone n with _ | _
          · rfl
          · have := (h.gone n hg).2.1; omega
        · intro n x
          cases x
      · simp at hs
    | callFree =>
      simp only at hs
      split at hs
      · next hc =>
        have hop : s.closed = false := hc.2.1
        rw [tch _ (actv (.inl hop))] at hs
        simp at hs
        obtain ⟨e, -⟩ := hs
        refine h.moves ho hon (new := .inc (.free s.fresh)) (by rw [← e]; rfl) (by rw [← e]; exact h.uaf) (by rw [← e]; rfl) (by rw [← e]; exact Nat.le_succ _)
          (by rw [hop]; nofun) (fun q _ hz _ => ?_) (fun _ x => by rw [hop] at x; cases x) (.inl (by rw [← e]; rfl)) nofun nofun
          (fun n x => .inr ?_) ?_
        · have := Resource.refs_move (s' := s') (new := .inc (.free s.fresh)) ho (by rw [← e]; rfl) q
          have hh : s'.held q = s.held q := by rw [← e]; rfl
          rw [hc.1, hh] at this
          simp [Resource.Pc.uses] at this
          omega
        · have hn : n = s.fresh := by simpa [Resource.Pc.new, Resource.Ctx.new] using x.symm
          rcases hg : s.gone n with _ | _
          · rfl
          · have := (h.gone n hg).2.1; omega
        · intro n x
          simp [nullOf, nullIn] at x
          subst x
          refine .inr ⟨by rw [← e], ?_, by rw [← e]; exact Nat.lt_succ_self _⟩
          have h0 : Resource.refs s s.fresh = 0 := by
            rcases hw : s.was s.fresh with _ | _
            · exact (hi.notWas _ hw).1
            · have := hi.wasLt _ hw; omega
          have := Resource.refs_move (s' := s') (new := .inc (.free s.fresh)) ho (by rw [← e]; rfl) s.fresh
          have hh : s'.held s.fresh = s.held s.fresh := by rw [← e]; rfl
          rw [hc.1, hh] at this
          simp [Resource.Pc.uses] at this
          omega
      · simp at hs
    | run =>
      cases pc with
      | idle => simp [Resource.access] at hs
      | inc c =>
        simp [Resource.access] at hs
        refine reads _ hs.1.symm rfl (fun _ _ => rfl) (fun a x => ?_) nofun (fun n x => x) (fun n x => ?_)
        · simpa [Resource.Pc.addr] using x.symm
        · exact x
      | incActive c a =>
        have ha := h.addr _ hmem a rfl
        subst ha
        simp [Resource.access, tch _ (actv (.inr rfl))] at hs
        refine reads _ hs.1.symm rfl (fun _ _ => rfl) (fun a x => ?_) nofun (fun n x => x) (fun n x => ?_)
        · simpa [Resource.Pc.addr] using x.symm
        · exact x
      | incSelf c a self =>
        have ha := h.addr _ hmem a rfl
        subst ha
        simp [Resource.access, tch _ (actv (.inr rfl))] at hs
        refine reads _ hs.1.symm rfl (fun _ _ => rfl) nofun nofun (fun n x => x) (fun n x => ?_)
        exact x
      | incRead c compare =>
        simp [Resource.access] at hs
        refine reads _ hs.1.symm rfl (fun _ _ => rfl) (fun a x => ?_) nofun (fun n x => x) (fun n x => ?_)
        · simpa [Resource.Pc.addr] using x.symm
        · exact x
      | incAddr c compare a =>
        have ha := h.addr _ hmem a rfl
        subst ha
        have hg := actv (.inr rfl)
        have hself : (s.counter s.active).self = some s.active := by
          rcases hi.cnt _ hi.act with ⟨e, -⟩ | ⟨-, -, -, e⟩
          · rw [e]
          · exact absurd rfl e
        simp only [Resource.access, tch _ hg] at hs
        split at hs
        · next hcmp =>
          rw [← hcmp] at hs
          rw [hself] at hs
          cases c with
          | user =>
            simp only [Option.some.injEq, Prod.mk.injEq] at hs
            obtain ⟨e, -⟩ := hs
            refine h.moves ho hon (new := .idle) (by rw [← e]; rfl) (by rw [← e]; exact h.uaf) (by rw [← e]; rfl)
              (by rw [← e]; exact Nat.le_refl _) (by rw [← e]; exact id) (fun q _ hz hq => ?_) nofun (.inl (by rw [← e]; rfl)) nofun nofun
              nofun nofun
            have hqa : q ≠ s.active := by
              rcases hq with hq | hq
              · rintro rfl; rw [hg] at hq; cases hq
              · cases hq
            have := Resource.refs_move (s' := s') (new := .idle) ho (by rw [← e]; rfl) q
            have hh : s'.held q = s.held q := by rw [← e]; simp [Resource.State.goto, Resource.set_ne _ _ hqa]
            rw [hh] at this
            simp [Resource.Pc.uses] at this
            omega
          | replace n =>
            simp only [Option.some.injEq, Prod.mk.injEq] at hs
            obtain ⟨e, -⟩ := hs
            obtain ⟨n1, n2, n3⟩ := hi.new t _ n ho rfl
            have hna : n ≠ s.active := by
              rintro rfl; rw [hi.act] at n2; cases n2
            refine h.moves ho hon (new := .swap (.replace n) s.active) (by rw [← e]; rfl) (by rw [← e]; exact h.uaf) (by rw [← e]; rfl)
              (by rw [← e]; exact Nat.le_refl _) (by rw [← e]; exact id) (fun q _ hz hq => ?_) (fun _ _ => rfl)
              (.inl (by rw [← e]; rfl)) nofun nofun (fun m x => .inl x) (fun m x => .inl x)
            have hqa : ¬ s.active = q := by
              rcases hq with hq | hq
              · rintro rfl; rw [hg] at hq; cases hq
              · rintro rfl
                simp [nullOf, nullIn] at hq
                try exact hna hq
            have := Resource.refs_move (s' := s') (new := .swap (.replace n) s.active) ho (by rw [← e]; rfl) q
            have hh : s'.held q = s.held q := by rw [← e]; rfl
            rw [hh] at this
            simp [Resource.Pc.uses, hqa] at this
            omega
          | free n =>
            simp only [Option.some.injEq, Prod.mk.injEq] at hs
            obtain ⟨e, -⟩ := hs
            obtain ⟨n1, n2, n3⟩ := hi.new t _ n ho rfl
            have hna : n ≠ s.active := by
              rintro rfl; rw [hi.act] at n2; cases n2
            refine h.moves ho hon (new := .swap (.free n) s.active) (by rw [← e]; rfl) (by rw [← e]; exact h.uaf) (by rw [← e]; rfl)
              (by rw [← e]; exact Nat.le_refl _) (by rw [← e]; exact id) (fun q _ hz hq => ?_) (fun _ _ => rfl)
              (.inl (by rw [← e]; rfl)) nofun nofun (fun m x => .inl x) (fun m x => .inl x)
            have hqa : ¬ s.active = q := by
              rcases hq with hq | hq
              · rintro rfl; rw [hg] at hq; cases hq
              · rintro rfl
                simp [nullOf, nullIn] at hq
                try exact hna hq
            have := Resource.refs_move (s' := s') (new := .swap (.free n) s.active) ho (by rw [← e]; rfl) q
            have hh : s'.held q = s.held q := by rw [← e]; rfl
            rw [hh] at this
            simp [Resource.Pc.uses, hqa] at this
            omega
        · simp at hs
          refine reads _ hs.1.symm rfl (fun _ _ => rfl) nofun nofun (fun n x => x) (fun n x => ?_)
          exact x
      | swap c old =>
        cases c with
        | user => simp [Resource.access] at hs
        | replace n =>
          simp only [Resource.access, Option.some.injEq, Prod.mk.injEq] at hs
          obtain ⟨e, -⟩ := hs
          have hgn := h.new _ hmem n rfl
          have hrm := Resource.refs_move (s' := s') (new := .dec (.replace n) old) ho (by rw [← e]; split <;> rfl)
          refine h.moves ho hon (new := .dec (.replace n) old) (by rw [← e]; split <;> rfl) (by rw [← e]; split <;> exact h.uaf)
            (by rw [← e]; split <;> rfl) (by rw [← e]; split <;> exact Nat.le_refl _) (by rw [← e]; split <;> exact id)
            (fun q _ hz hq => ?_) nofun ?_ nofun nofun nofun (fun m x => .inl x)
          · have := hrm q
            have hh : s'.held q = s.held q := by rw [← e]; split <;> rfl
            rw [hh] at this
            simp [Resource.Pc.uses] at this
            omega
          · rw [← e]
            split
            · exact .inr hgn
            · exact .inl rfl
        | free n =>
          simp only [Resource.access, Option.some.injEq, Prod.mk.injEq] at hs
          obtain ⟨e, -⟩ := hs
          have hgn := h.new _ hmem n rfl
          have hrm := Resource.refs_move (s' := s') (new := .dec (.free n) old) ho (by rw [← e]; split <;> rfl)
          refine h.moves ho hon (new := .dec (.free n) old) (by rw [← e]; split <;> rfl) (by rw [← e]; split <;> exact h.uaf)
            (by rw [← e]; split <;> rfl) (by rw [← e]; split <;> exact Nat.le_refl _) (by rw [← e]; split <;> exact id)
            (fun q _ hz hq => ?_) nofun ?_ nofun nofun nofun (fun m x => .inl x)
          · have := hrm q
            have hh : s'.held q = s.held q := by rw [← e]; split <;> rfl
            rw [hh] at this
            simp [Resource.Pc.uses] at this
            omega
          · rw [← e]
            split
            · exact .inr hgn
            · exact .inl rfl
      | dec c p =>
        simp only [Resource.access, tch _ (h.inUse (Resource.refs_pos ho rfl)), Option.some.injEq, Prod.mk.injEq] at hs
        refine reads _ hs.1.symm rfl nofun nofun nofun nofun (fun n x => ?_)
        exact x
      | decSelf c p self =>
        simp only [Resource.access, tch _ (h.inUse (Resource.refs_pos ho rfl)), Option.some.injEq, Prod.mk.injEq] at hs
        refine reads _ hs.1.symm rfl nofun nofun nofun nofun (fun n x => ?_)
        exact x
      | decRead c p compare =>
        have hg := h.inUse (Resource.refs_pos ho rfl)
        simp only [Resource.access, tch _ hg] at hs
        have decs : ∀ new : Resource.Pc, s'.pcs = s.pcs.set t new → s'.uaf = s.uaf → s'.gone = s.gone → s'.fresh = s.fresh →
            s'.closed = s.closed → s'.active = s.active → s'.held = s.held → new.uses = none → new.getting = false →
            new.addr = none → (∀ q d, new.last = some (q, d) → q = p) → new.new = none →
            (∀ n, nullOf new = some n → nullOf (.dec c p) = some n) → Clean s' := by
          intro new e1 e2 e3 e4 e5 e6 e7 e8 e9 e10 e11 e12 e13
          refine h.moves ho hon e1 (by rw [e2]; exact h.uaf) e3 (Nat.le_of_eq e4.symm) (by rw [e5]; exact id) (fun q _ hz _ => ?_)
            (fun x => by rw [e9] at x; cases x) (.inl e6) (fun a x => by rw [e10] at x; cases x) (fun q d x => by rw [e11 q d x]; exact hg)
            (fun n x => by rw [e12] at x; cases x) (fun n x => .inl ?_)
          · have := Resource.refs_move ho e1 q
            rw [e7, e8] at this
            simp at this
            omega
          · exact e13 n x
        split at hs
        · split at hs
          · simp only [Option.some.injEq, Prod.mk.injEq] at hs
            obtain ⟨rfl, -⟩ := hs
            refine decs _ rfl rfl rfl rfl rfl rfl rfl rfl rfl rfl (fun q d x => ?_) rfl (fun n x => ?_)
            · simp only [Resource.Pc.last, Option.some.injEq, Prod.mk.injEq] at x; exact x.1.symm
            · exact x
          · simp only [Option.some.injEq, Prod.mk.injEq] at hs
            obtain ⟨rfl, -⟩ := hs
            exact decs _ rfl rfl rfl rfl rfl rfl rfl (Resource.afterDec_uses c) (afterDec_getting c) (Resource.afterDec_addr c)
              (fun q d x => by rw [Resource.afterDec_last] at x; cases x) (Resource.afterDec_new c) (fun n x => afterDec_null x)
        · simp only [Option.some.injEq, Prod.mk.injEq] at hs
          refine reads _ hs.1.symm rfl nofun nofun nofun nofun (fun n x => ?_)
          exact x
      | decCheck c p d =>
        have hg := h.last _ hmem p d rfl
        simp only [Resource.access, tch _ hg] at hs
        split at hs
        · simp only [Option.some.injEq, Prod.mk.injEq] at hs
          refine reads _ hs.1.symm rfl nofun nofun (fun q e x => ?_) nofun (fun n x => ?_)
          · simp only [Resource.Pc.last, Option.some.injEq, Prod.mk.injEq] at x; rw [← x.1]; exact hg
          · exact x
        · simp only [Option.some.injEq, Prod.mk.injEq] at hs
          refine reads _ hs.1.symm (Resource.afterDec_uses c) (fun x => by rw [afterDec_getting] at x; cases x)
            (fun a x => by rw [Resource.afterDec_addr] at x; cases x) (fun q d x => by rw [Resource.afterDec_last] at x; cases x)
            (fun n x => by rw [Resource.afterDec_new] at x; cases x) (fun n x => ?_)
          exact afterDec_null (p := p) x
      | decFree c p d =>
        have hg := h.last _ hmem p d rfl
        obtain ⟨hd, hw⟩ := hi.last _ p d hmem rfl
        have hne := hi.found _ p hmem rfl
        subst hd
        simp only [Resource.access, tch _ hg] at hs
        split at hs
        · next hcmp =>
          simp only [Option.some.injEq, Prod.mk.injEq] at hs
          obtain ⟨rfl, -⟩ := hs
          refine h.frees (q := p) ho hon rfl h.uaf rfl rfl rfl rfl rfl rfl (Resource.afterDec_uses c) (afterDec_getting c)
            (Resource.afterDec_addr c) (Resource.afterDec_last c) (Resource.afterDec_new c) ⟨?_, hi.wasLt p hw, fun x => absurd x hne⟩
            (fun n x => ?_)
          · rcases hi.cnt p hw with ⟨e, -⟩ | ⟨-, e, -⟩
            · rw [hcmp] at e
              have := congrArg Resource.Counter.inUse e
              simp only at this
              omega
            · exact e
          · exact afterDec_null (p := p) x
        · simp only [Option.some.injEq, Prod.mk.injEq] at hs
          refine reads _ hs.1.symm (Resource.afterDec_uses c) (fun x => by rw [afterDec_getting] at x; cases x)
            (fun a x => by rw [Resource.afterDec_addr] at x; cases x) (fun q d x => by rw [Resource.afterDec_last] at x; cases x)
            (fun n x => by rw [Resource.afterDec_new] at x; cases x) (fun n x => ?_)
          exact afterDec_null (p := p) x
      | freeNew n =>
        simp only [Resource.access, Option.some.injEq, Prod.mk.injEq] at hs
        obtain ⟨rfl, -⟩ := hs
        obtain ⟨c1, c2, c3⟩ := h.null _ hmem n rfl
        exact h.frees (q := n) (new := .idle) ho hon rfl h.uaf rfl rfl rfl rfl rfl rfl rfl rfl rfl rfl rfl ⟨c2, c3, fun _ => c1⟩ nofun

/-- The threads that are in a call have a job. -/
theorem Inv.only {s : State} (h : Inv s) {t : Nat} (hj : ∀ u, u ≠ t → s.job u = .none) : Only t s.mgr :=
  fun u pc hu hpc => h.idle u pc (hj u hu) hpc

theorem Clean.goes {s s' : State} (h : Clean s.mgr) (hi : Inv s) {t : Nat} {a : Act} (hs : Owners.step s t a = some s')
    (hj : ∀ u, u ≠ t → s.job u = .none) : Clean s'.mgr := by
  have one : ∀ b q, Resource.step s.mgr t b = some q → Clean q.1 :=
    fun b q hq => h.step hi.reach.inv (hi.only hj) (r := q.2) hq
  cases a with
  | process | refresh | deleteEngine =>
    simp only [Owners.step] at hs
    split at hs
    · simp only [Option.map_eq_some_iff] at hs
      obtain ⟨q, hq, rfl⟩ := hs
      exact one _ q hq
    · cases hs
  | deleteResults i =>
    simp only [Owners.step] at hs
    split at hs
    · split at hs
      · simp only [Option.map_eq_some_iff] at hs
        obtain ⟨q, hq, rfl⟩ := hs
        exact one _ q hq
      · cases hs
    · cases hs
  | run =>
    simp only [Owners.step, Option.bind_eq_bind] at hs
    cases hq : Resource.step s.mgr t .run with
    | none => simp [hq] at hs
    | some q =>
      obtain ⟨m, r⟩ := q
      simp only [hq, Option.bind_some] at hs
      have hc := one _ _ hq
      have hm : s'.mgr = m := by
        cases hj : s.job t with
        | none => rw [hj] at hs; cases hs
        | process =>
          rw [hj] at hs
          match r, hs with
          | .nothing, hs => cases hs; rfl
          | .got (some z), hs => cases hs; rfl
        | refresh | deleteEngine | deleteResults k =>
          rw [hj] at hs
          match r, hs with
          | .nothing, hs => cases hs; rfl
          | .done, hs => cases hs; rfl
      rw [hm]; exact hc

theorem Clean.exec {sched : Schedule} : ∀ {s s' : State}, Clean s.mgr → Inv s → Serial s sched →
    Owners.exec s sched = some s' → Clean s'.mgr := by
  induction sched with
  | nil => intro s s' h _ _ he; cases he; exact h
  | cons c rest ih =>
    obtain ⟨t, a⟩ := c
    intro s s' h hi hap he
    simp only [Owners.exec, Option.bind_eq_bind] at he
    cases hs : Owners.step s t a with
    | none => simp [hs] at he
    | some s1 =>
      simp only [hs, Option.bind_some] at he
      exact ih (h.goes hi hs hap.1) (hi.step hs) (hap.2 s1 hs) he

/-- When calls do not overlap no memory of a freed handle is ever read or written, in whatever order the engine and the
results objects are used and deleted, by whichever threads. -/
theorem C100_serial {n : Nat} {sched : Schedule} {s : State} (hs : exec (start n) sched = some s) (hser : Serial (start n) sched) :
    s.mgr.uaf = false :=
  (Clean.exec (Clean.start n) (Inv.start n) hser hs).uaf

/-! ## A program with one thread -/

/-- A step leaves the jobs of other threads. -/
theorem job_other {s s' : State} {t : Nat} {a : Act} (hs : step s t a = some s') {u : Nat} (hu : u ≠ t) : s'.job u = s.job u := by
  cases a with
  | process | refresh | deleteEngine =>
    simp only [step] at hs
    split at hs
    · simp only [Option.map_eq_some_iff] at hs
      obtain ⟨q, -, rfl⟩ := hs
      exact set_ne _ hu _
    · cases hs
  | deleteResults i =>
    simp only [step] at hs
    split at hs
    · split at hs
      · simp only [Option.map_eq_some_iff] at hs
        obtain ⟨q, -, rfl⟩ := hs
        exact set_ne _ hu _
      · cases hs
    · cases hs
  | run =>
    simp only [step, Option.bind_eq_bind] at hs
    cases hq : Resource.step s.mgr t .run with
    | none => simp [hq] at hs
    | some q =>
      obtain ⟨m, r⟩ := q
      simp only [hq, Option.bind_some] at hs
      cases hj : s.job t with
      | none => rw [hj] at hs; cases hs
      | process =>
        rw [hj] at hs
        match r, hs with
        | .nothing, hs => cases hs; rfl
        | .got (some z), hs => cases hs; exact set_ne _ hu _
      | refresh | deleteEngine | deleteResults k =>
        rw [hj] at hs
        match r, hs with
        | .nothing, hs => cases hs; rfl
        | .done, hs => cases hs; exact set_ne _ hu _

/-! ## Calls that do not overlap come to their end -/

/-- What gets the active handle for a job. -/
def getter : Job → Resource.Ctx → Bool
  | .process, .user => true
  | .refresh, .replace _ => true
  | .deleteEngine, .free _ => true
  | _, _ => false

/-- What releases a handle for a job. -/
def releaser : Job → Resource.Ctx → Bool
  | .deleteResults _, .user => true
  | .refresh, .replace _ => true
  | .deleteEngine, .free _ => true
  | _, _ => false

/-- Where a thread is in a job. -/
def fits (j : Job) : Resource.Pc → Bool
  | .idle => j == .none
  | .inc c | .incActive c _ | .incSelf c _ _ | .incRead c _ | .incAddr c _ _ => getter j c
  | .swap c _ => getter j c && releaser j c
  | .dec c _ | .decSelf c _ _ | .decRead c _ _ | .decCheck c _ _ | .decFree c _ _ => releaser j c
  | .freeNew _ => j == .deleteEngine

/-- What an access of a job gives back: nothing while the call goes on, and what the job expects at the end. -/
def expected (j : Job) (new : Resource.Pc) : Resource.Ret → Bool
  | .nothing => fits j new
  | .got (some _) => new == .idle && j == .process
  | .got none => new == .idle && j == .process
  | .done => new == .idle && (j != .process && j != .none)

theorem releaser_after {j : Job} {c : Resource.Ctx} (h : releaser j c = true) :
    expected j (Resource.afterDec c).1 (Resource.afterDec c).2 = true := by
  cases j <;> cases c <;> first | rfl | cases h

theorem access_expected {s s' : Resource.State} {t : Nat} {pc : Resource.Pc} {r : Resource.Ret} {j : Job} (hf : fits j pc = true)
    (ha : Resource.access s t pc = some (s', r)) : ∃ new, s'.pcs = s.pcs.set t new ∧ expected j new r = true := by
  cases pc with
  | idle => cases ha
  | inc c => cases ha; exact ⟨_, rfl, hf⟩
  | incActive c a => cases ha; exact ⟨_, rfl, hf⟩
  | incSelf c a x => cases ha; exact ⟨_, rfl, hf⟩
  | incRead c x => cases ha; exact ⟨_, rfl, hf⟩
  | incAddr c x a =>
    simp only [Resource.access] at ha
    split at ha
    · obtain ⟨x1, x2⟩ := x
      cases c with
      | user =>
        have hj : j = .process := by cases j <;> first | rfl | cases hf
        subst hj
        cases x1 <;> (cases ha; exact ⟨_, rfl, rfl⟩)
      | replace m =>
        have hj : j = .refresh := by cases j <;> first | rfl | cases hf
        subst hj
        cases x1 <;> (cases ha; try exact ⟨_, rfl, rfl⟩)
      | free m =>
        have hj : j = .deleteEngine := by cases j <;> first | rfl | cases hf
        subst hj
        cases x1 <;> (cases ha; try exact ⟨_, rfl, rfl⟩)
    · cases ha; exact ⟨_, rfl, hf⟩
  | swap c old =>
    simp only [fits, Bool.and_eq_true] at hf
    cases c with
    | user => cases ha
    | replace m => cases ha; exact ⟨.dec (.replace m) old, by split <;> rfl, hf.2⟩
    | free m => cases ha; exact ⟨.dec (.free m) old, by split <;> rfl, hf.2⟩
  | dec c q => cases ha; exact ⟨_, rfl, hf⟩
  | decSelf c q x => cases ha; exact ⟨_, rfl, hf⟩
  | decRead c q x =>
    simp only [Resource.access] at ha
    split at ha
    · split at ha
      · cases ha; exact ⟨_, rfl, hf⟩
      · cases ha; exact ⟨_, rfl, releaser_after hf⟩
    · cases ha; exact ⟨_, rfl, hf⟩
  | decCheck c q x =>
    simp only [Resource.access] at ha
    split at ha
    · cases ha; exact ⟨_, rfl, hf⟩
    · cases ha; exact ⟨_, rfl, releaser_after hf⟩
  | decFree c q x =>
    obtain ⟨x1, x2⟩ := x
    cases x1 with
    | none => cases ha
    | some z =>
      simp only [Resource.access] at ha
      split at ha
      · cases ha; exact ⟨_, rfl, releaser_after hf⟩
      · cases ha; exact ⟨_, rfl, releaser_after hf⟩
  | freeNew m =>
    cases ha
    have hj : j = .deleteEngine := by simpa [fits] using hf
    subst hj
    exact ⟨_, rfl, rfl⟩

/-- Every thread is where its job says. -/
def Fits (s : State) : Prop := ∀ u pc, s.mgr.pcs[u]? = some pc → fits (s.job u) pc = true

theorem Fits.start (n : Nat) : Fits (start n) := by
  intro u pc h
  rw [(Inv.start n).idle u pc rfl h]
  rfl

theorem Fits.put {s s' : State} {t : Nat} {new : Resource.Pc} (h : Fits s) (hp : s'.mgr.pcs = s.mgr.pcs.set t new)
    (hj : ∀ u, u ≠ t → s'.job u = s.job u) (hn : fits (s'.job t) new = true) : Fits s' := by
  intro u pc hu
  rw [hp] at hu
  rcases Verif.Requests.pc_set hu with ⟨e, rfl⟩ | ⟨e, h1⟩
  · rw [e]; exact hn
  · rw [hj u e]; exact h u pc h1

theorem Fits.step {s s' : State} (h : Fits s) {t : Nat} {a : Act} (hs : Owners.step s t a = some s') : Fits s' := by
  have others := fun u hu => job_other hs (u := u) hu
  cases a with
  | process | refresh =>
    simp only [Owners.step] at hs
    split at hs
    · simp only [Option.map_eq_some_iff, Resource.step, Option.bind_eq_bind] at hs
      obtain ⟨q, h1, rfl⟩ := hs
      cases ho : s.mgr.pcs[t]? with
      | none => simp [ho] at h1
      | some pc =>
        simp only [ho, Option.bind_some] at h1
        split at h1
        · cases h1
          exact h.put rfl others (by simp only [set_self]; rfl)
        · cases h1
    · cases hs
  | deleteEngine =>
    simp only [Owners.step] at hs
    split at hs
    · simp only [Option.map_eq_some_iff, Resource.step, Option.bind_eq_bind] at hs
      obtain ⟨q, h1, rfl⟩ := hs
      cases ho : s.mgr.pcs[t]? with
      | none => simp [ho] at h1
      | some pc =>
        simp only [ho, Option.bind_some] at h1
        split at h1
        · cases h1
          exact h.put rfl others (by simp only [set_self]; rfl)
        · cases h1
    · cases hs
  | deleteResults i =>
    simp only [Owners.step] at hs
    split at hs
    · split at hs
      · simp only [Option.map_eq_some_iff, Resource.step, Option.bind_eq_bind] at hs
        obtain ⟨q, h1, rfl⟩ := hs
        cases ho : s.mgr.pcs[t]? with
        | none => simp [ho] at h1
        | some pc =>
          simp only [ho, Option.bind_some] at h1
          split at h1
          · cases h1
            exact h.put rfl others (by simp only [set_self]; rfl)
          · cases h1
      · cases hs
    · cases hs
  | run =>
    simp only [Owners.step, Resource.step, Option.bind_eq_bind] at hs
    cases ho : s.mgr.pcs[t]? with
    | none => simp [ho] at hs
    | some pc =>
      simp only [ho, Option.bind_some] at hs
      cases ha : Resource.access s.mgr t pc with
      | none => simp [ha] at hs
      | some q =>
        obtain ⟨m, r⟩ := q
        simp only [ha, Option.bind_some] at hs
        obtain ⟨new, h1, h2⟩ := access_expected (h t pc ho) ha
        cases hj : s.job t with
        | none => rw [hj] at hs; cases hs
        | process =>
          rw [hj] at hs h2
          match r, hs with
          | .nothing, hs => cases hs; exact h.put h1 others (by show fits (s.job t) new = true; rw [hj]; exact h2)
          | .got (some z), hs =>
            cases hs
            simp only [expected, Bool.and_eq_true, beq_iff_eq] at h2
            exact h.put h1 others (by rw [h2.1]; simp [set_self, fits])
        | refresh | deleteEngine | deleteResults k =>
          rw [hj] at hs h2
          match r, hs with
          | .nothing, hs => cases hs; exact h.put h1 others (by show fits (s.job t) new = true; rw [hj]; exact h2)
          | .done, hs =>
            cases hs
            simp only [expected, Bool.and_eq_true, beq_iff_eq] at h2
            exact h.put h1 others (by rw [h2.1]; simp [set_self, fits, State.drop])

theorem Fits.exec {sched : Schedule} : ∀ {s s' : State}, Fits s → Owners.exec s sched = some s' → Fits s' := by
  induction sched with
  | nil => intro s s' h he; cases he; exact h
  | cons c rest ih =>
    obtain ⟨t, a⟩ := c
    intro s s' h he
    simp only [Owners.exec, Option.bind_eq_bind] at he
    cases hs : Owners.step s t a with
    | none => simp [hs] at he
    | some s1 =>
      simp only [hs, Option.bind_some] at he
      exact ih (h.step hs) he

/-- What a thread has read of a counter is what is there. -/
def current (s : Resource.State) : Resource.Pc → Prop
  | .incSelf _ a x => x = (s.counter a).self
  | .incRead _ x => x = s.counter s.active
  | .incAddr _ x a => x = s.counter a
  | .decSelf _ p x => x = (s.counter p).self
  | .decRead _ p x => x = s.counter p
  | _ => True

/-- How many accesses a call takes at most from where it is, when nobody interferes. -/
def left : Resource.Pc → Nat
  | .idle => 0
  | .freeNew _ => 1
  | .decFree .. => 2
  | .decCheck .. => 3
  | .decRead .. => 4
  | .decSelf .. => 5
  | .dec .. => 6
  | .swap .. => 7
  | .incAddr .. => 8
  | .incRead .. => 9
  | .incSelf .. => 10
  | .incActive .. => 11
  | .inc _ => 12

/-- An access of the only thread in a call is defined, gives no NULL, and the call is nearer to its end. -/
theorem alone_access {s : Resource.State} (h : Clean s) (hi : Resource.Inv s) {t : Nat} {pc : Resource.Pc} {j : Job}
    (ho : s.pcs[t]? = some pc) (hf : fits j pc = true) (hj : j ≠ .none) (hc : current s pc) :
    ∃ s' r new, Resource.access s t pc = some (s', r) ∧ r ≠ .got none ∧ s'.pcs = s.pcs.set t new ∧ current s' new ∧
      left new < left pc := by
  have hmem := List.mem_of_getElem? ho
  have after : ∀ (c : Resource.Ctx), (Resource.afterDec c).2 ≠ .got none ∧ ∀ s', current s' (Resource.afterDec c).1 := by
    intro c; cases c <;> exact ⟨nofun, fun _ => trivial⟩
  have act : ∀ a, pc.addr = some a → (s.counter a).self = some a ∧ a = s.active := by
    intro a ha
    have e := h.addr pc hmem a ha
    rcases hi.cnt a (by rw [e]; exact hi.act) with ⟨h1, -⟩ | ⟨-, -, -, h2⟩
    · exact ⟨by rw [h1], e⟩
    · exact absurd e h2
  cases pc with
  | idle => exact absurd (by simpa [fits] using hf) hj
  | inc c => exact ⟨_, _, _, rfl, nofun, rfl, trivial, by simp [left]⟩
  | incActive c a => exact ⟨_, _, _, rfl, nofun, rfl, rfl, by simp [left]⟩
  | incSelf c a x =>
    refine ⟨_, _, _, rfl, nofun, rfl, ?_, by simp [left]⟩
    have e := (act a rfl).2
    have hx : x = (s.counter a).self := hc
    show (⟨x, (s.counter a).inUse⟩ : Resource.Counter) = s.counter s.active
    rw [hx, ← e]
  | incRead c x => exact ⟨_, _, _, rfl, nofun, rfl, hc, by simp [left]⟩
  | incAddr c x a =>
    have hx : x = s.counter a := hc
    have e := (act a rfl).1
    obtain ⟨x1, x2⟩ := x
    have e1 : x1 = some a := by rw [← e, ← hx]
    subst e1
    simp only [Resource.access]
    rw [if_pos hx.symm]
    cases c with
    | user => exact ⟨_, _, _, rfl, nofun, rfl, trivial, by simp [left]⟩
    | replace m => exact ⟨_, _, _, rfl, nofun, rfl, trivial, by simp [left]⟩
    | free m => exact ⟨_, _, _, rfl, nofun, rfl, trivial, by simp [left]⟩
  | swap c old =>
    cases c with
    | user => cases j <;> cases hf
    | replace m => exact ⟨_, _, .dec (.replace m) old, rfl, nofun, by split <;> rfl, trivial, by simp [left]⟩
    | free m => exact ⟨_, _, .dec (.free m) old, rfl, nofun, by split <;> rfl, trivial, by simp [left]⟩
  | dec c q => exact ⟨_, _, _, rfl, nofun, rfl, rfl, by simp [left]⟩
  | decSelf c q x =>
    refine ⟨_, _, _, rfl, nofun, rfl, ?_, by simp [left]⟩
    have hx : x = (s.counter q).self := hc
    show (⟨x, (s.counter q).inUse⟩ : Resource.Counter) = s.counter q
    rw [hx]
  | decRead c q x =>
    have hx : x = s.counter q := hc
    simp only [Resource.access]
    rw [if_pos hx.symm]
    split
    · exact ⟨_, _, _, rfl, nofun, rfl, trivial, by simp [left]⟩
    · exact ⟨_, _, _, rfl, (after c).1, rfl, (after c).2 _, by cases c <;> simp [Resource.afterDec, left]⟩
  | decCheck c q x =>
    simp only [Resource.access]
    split
    · exact ⟨_, _, _, rfl, nofun, rfl, trivial, by simp [left]⟩
    · exact ⟨_, _, _, rfl, (after c).1, rfl, (after c).2 _, by cases c <;> simp [Resource.afterDec, left]⟩
  | decFree c q x =>
    obtain ⟨h1, -⟩ := hi.last _ q x hmem rfl
    subst h1
    simp only [Resource.access]
    split
    · exact ⟨_, _, _, rfl, (after c).1, rfl, (after c).2 _, by cases c <;> simp [Resource.afterDec, left]⟩
    · exact ⟨_, _, _, rfl, (after c).1, rfl, (after c).2 _, by cases c <;> simp [Resource.afterDec, left]⟩
  | freeNew m => exact ⟨_, _, _, rfl, nofun, rfl, trivial, by simp [left]⟩

/-- Every thread has read what is there. -/
def Current (s : State) : Prop := ∀ pc ∈ s.mgr.pcs, current s.mgr pc

/-- A step of the only thread in a call: it goes on, and what it read is what is there. -/
theorem alone_step {s : State} (h : Clean s.mgr) (hi : Inv s) (hf : Fits s) (hc : Current s) {t : Nat}
    (hone : ∀ u, u ≠ t → s.job u = .none) (hj : s.job t ≠ .none) :
    ∃ s' old new, step s t .run = some s' ∧ s.mgr.pcs[t]? = some old ∧ s'.mgr.pcs[t]? = some new ∧ left new < left old ∧
      Current s' := by
  have hlt := hi.range t hj
  have ho := List.getElem?_eq_getElem hlt
  generalize hold : s.mgr.pcs[t] = old at ho
  have hfo := hf t old ho
  obtain ⟨m, r, new, h1, h2, h3, h4, h5⟩ := alone_access h hi.reach.inv ho hfo hj (hc old (List.mem_of_getElem? ho))
  obtain ⟨new', h6, h7⟩ := access_expected hfo h1
  have hn : m.pcs[t]? = some new := by rw [h3]; exact List.getElem?_set_self hlt
  have hnn : new' = new := by
    have : m.pcs[t]? = some new' := by rw [h6]; exact List.getElem?_set_self hlt
    rw [hn] at this; exact (Option.some.inj this).symm
  subst hnn
  have hcur : ∀ pc ∈ m.pcs, current m pc := by
    intro pc hm
    rw [h3] at hm
    rcases (hi.only hone).mem hm with rfl | rfl
    · exact h4
    · trivial
  have hs : ∃ s', State.returned s.touch t m (s.job t) r = some s' ∧ s'.mgr = m := by
    cases hjt : s.job t with
    | none => exact absurd hjt hj
    | process =>
      rw [hjt] at h7
      cases r with
      | nothing => exact ⟨_, rfl, rfl⟩
      | got p => cases p with
        | none => exact absurd rfl h2
        | some p => exact ⟨_, rfl, rfl⟩
      | done => simp [expected] at h7
    | refresh | deleteEngine | deleteResults k =>
      rw [hjt] at h7
      cases r with
      | nothing => exact ⟨_, rfl, rfl⟩
      | got p => cases p <;> simp [expected] at h7
      | done => exact ⟨_, rfl, rfl⟩
  obtain ⟨s', h8, h9⟩ := hs
  refine ⟨s', old, new', ?_, ho, by rw [h9]; exact hn, h5, fun pc hm => by rw [h9] at hm ⊢; exact hcur pc hm⟩
  simp only [step, Resource.step, Option.bind_eq_bind, ho, Option.bind_some, h1]
  exact h8

/-- What a call of the only thread starts with. -/
theorem Current.step {s s' : State} (h : Clean s.mgr) (hi : Inv s) (hf : Fits s) (hc : Current s) {t : Nat} {a : Act}
    (hone : ∀ u, u ≠ t → s.job u = .none) (hs : Owners.step s t a = some s') : Current s' := by
  have call : ∀ {b : Resource.Act} {q : Resource.State × Resource.Ret}, Resource.step s.mgr t b = some q → b ≠ .run →
      ∀ pc ∈ q.1.pcs, current q.1 pc := by
    intro b q hq hb pc hm
    simp only [Resource.step, Option.bind_eq_bind] at hq
    cases ho : s.mgr.pcs[t]? with
    | none => simp [ho] at hq
    | some old =>
      simp only [ho, Option.bind_some] at hq
      cases b with
      | run => exact absurd rfl hb
      | callGet | callReplace | callFree | callRelease p =>
        simp only at hq
        split at hq
        · cases hq
          rcases (hi.only hone).mem hm with rfl | rfl <;> trivial
        · cases hq
  cases a with
  | process | refresh | deleteEngine =>
    simp only [Owners.step] at hs
    split at hs
    · simp only [Option.map_eq_some_iff] at hs
      obtain ⟨q, h1, rfl⟩ := hs
      exact call h1 nofun
    · cases hs
  | deleteResults i =>
    simp only [Owners.step] at hs
    split at hs
    · split at hs
      · simp only [Option.map_eq_some_iff] at hs
        obtain ⟨q, h1, rfl⟩ := hs
        exact call h1 nofun
      · cases hs
    · cases hs
  | run =>
    by_cases hj : s.job t = .none
    · simp only [Owners.step, Option.bind_eq_bind, hj] at hs
      cases hq : Resource.step s.mgr t .run with
      | none => simp [hq] at hs
      | some q => simp only [hq, Option.bind_some] at hs; cases hs
    · obtain ⟨s1, old, new, h1, -, -, -, h2⟩ := alone_step h hi hf hc hone hj
      rw [hs] at h1; cases h1; exact h2

theorem serial_exec {sched : Schedule} : ∀ {s s' : State}, Clean s.mgr → Inv s → Fits s → Current s → Serial s sched →
    Owners.exec s sched = some s' → Clean s'.mgr ∧ Inv s' ∧ Fits s' ∧ Current s' := by
  induction sched with
  | nil => intro s s' h1 h2 h3 h4 _ he; cases he; exact ⟨h1, h2, h3, h4⟩
  | cons c rest ih =>
    obtain ⟨t, a⟩ := c
    intro s s' h1 h2 h3 h4 hap he
    simp only [Owners.exec, Option.bind_eq_bind] at he
    cases hs : Owners.step s t a with
    | none => simp [hs] at he
    | some s1 =>
      simp only [hs, Option.bind_some] at he
      exact ih (h1.goes h2 hs hap.1) (h2.step hs) (h3.step hs) (h4.step h1 h2 h3 hap.1 hs) (hap.2 s1 hs) he

theorem alone_ends {t : Nat} : ∀ (k : Nat) {s : State}, Clean s.mgr → Inv s → Fits s → Current s → (∀ u, u ≠ t → s.job u = .none) →
    (∀ pc, s.mgr.pcs[t]? = some pc → left pc ≤ k) → ∃ m s', m ≤ k ∧ exec s (List.replicate m (t, .run)) = some s' ∧
      ∀ u, s'.job u = .none := by
  intro k
  induction k with
  | zero =>
    intro s h1 h2 h3 h4 hone hk
    refine ⟨0, s, by omega, rfl, fun u => ?_⟩
    by_cases e : u = t
    · subst e
      by_contra hj
      have hlt := h2.range u hj
      have ho := List.getElem?_eq_getElem hlt
      have h5 := hk _ ho
      have h6 := h3 u _ ho
      generalize s.mgr.pcs[u] = pc at h5 h6
      cases pc <;> simp [left] at h5
      simp [fits] at h6
      exact hj h6
    · exact hone u e
  | succ k ih =>
    intro s h1 h2 h3 h4 hone hk
    by_cases hj : s.job t = .none
    · exact ⟨0, s, by omega, rfl, fun u => (if e : u = t then e ▸ hj else hone u e)⟩
    · obtain ⟨s1, old, new, hs, ho, hn, hl, hc⟩ := alone_step h1 h2 h3 h4 hone hj
      obtain ⟨m, s', hm, he, hd⟩ := ih (h1.goes h2 hs hone) (h2.step hs) (h3.step hs) hc
        (fun u hu => by rw [job_other hs hu]; exact hone u hu)
        (fun pc hp => by rw [hn] at hp; cases hp; have := hk old ho; omega)
      refine ⟨m + 1, s', by omega, ?_, hd⟩
      rw [List.replicate_succ]
      simp only [exec, Option.bind_eq_bind, hs, Option.bind_some]
      exact he

/-- When calls do not overlap each comes to its end, after at most twelve accesses, none of them undefined: processing gets a data
set, and so on. -/
theorem C100_ends {n : Nat} {sched : Schedule} {s : State} (hs : exec (start n) sched = some s) (hser : Serial (start n) sched) {t : Nat}
    (hone : ∀ u, u ≠ t → s.job u = .none) :
    ∃ k s', k ≤ 12 ∧ exec s (List.replicate k (t, .run)) = some s' ∧ ∀ u, s'.job u = .none := by
  obtain ⟨h1, h2, h3, h4⟩ := serial_exec (Clean.start n) (Inv.start n) (Fits.start n)
    (fun pc h => by rw [List.eq_of_mem_replicate h]; trivial) hser hs
  exact alone_ends 12 h1 h2 h3 h4 hone fun pc _ => by cases pc <;> simp [left]

theorem one_thread {t : Nat} {sched : Schedule} : ∀ {s : State}, (∀ c ∈ sched, c.1 = t) → (∀ u, u ≠ t → s.job u = .none) →
    Serial s sched ∧ Apart s sched := by
  induction sched with
  | nil => intro s _ _; exact ⟨trivial, trivial⟩
  | cons c rest ih =>
    obtain ⟨v, a⟩ := c
    intro s hc hj
    have hv : v = t := hc (v, a) (by simp)
    subst hv
    have next : ∀ s', step s v a = some s' → Serial s' rest ∧ Apart s' rest := fun s' hs =>
      ih (fun c hm => hc c (by simp [hm])) (fun u hu => by rw [job_other hs hu]; exact hj u hu)
    exact ⟨⟨hj, fun s' hs => (next s' hs).1⟩, fun _ u hu => (by rw [hj u hu]; nofun), fun s' hs => (next s' hs).2⟩

theorem jobs_other {t : Nat} {sched : Schedule} : ∀ {s s' : State}, exec s sched = some s' → (∀ c ∈ sched, c.1 = t) →
    (∀ u, u ≠ t → s.job u = .none) → ∀ u, u ≠ t → s'.job u = .none := by
  induction sched with
  | nil => intro s s' h _ hj; cases h; exact hj
  | cons c rest ih =>
    obtain ⟨v, a⟩ := c
    intro s s' h hc hj
    have hv : v = t := hc (v, a) (by simp)
    subst hv
    simp only [Owners.exec, Option.bind_eq_bind] at h
    cases hs : Owners.step s v a with
    | none => simp [hs] at h
    | some s1 =>
      simp only [hs, Option.bind_some] at h
      exact ih h (fun c hm => hc c (by simp [hm])) fun u hu => by rw [job_other hs hu]; exact hj u hu

/-- In a program with one thread, whatever it does with the engine and the results objects and in whatever order it deletes
them, no freed memory of a handle or of the manager is used, every call comes to its end, and when all are deleted every data set was freed once. -/
theorem C100_alone {t n : Nat} {sched : Schedule} {s : State} (hs : exec (start n) sched = some s) (ht : ∀ c ∈ sched, c.1 = t) :
    s.mgr.uaf = false ∧ s.late = false ∧ (∃ k s', k ≤ 12 ∧ exec s (List.replicate k (t, .run)) = some s' ∧ ∀ u, s'.job u = .none) ∧
      (s.engine = .dead → (∀ r ∈ s.results, r.2 = .dead) →
        s.memFreed = 1 ∧ ∀ p, p < s.mgr.fresh → s.empty ≠ some p → s.mgr.freed p = 1) := by
  obtain ⟨h1, h2⟩ := one_thread (s := start n) ht (fun _ _ => rfl)
  have hm := C100_manager_partial ⟨n, sched, hs⟩
  have ho : ∀ u, u ≠ t → s.job u = .none := jobs_other hs ht (fun _ _ => rfl)
  exact ⟨C100_serial hs h1, hm.1, C100_ends hs h1 ho, fun he hr => ⟨hm.2.2.2 ⟨he, hr⟩, fun p hp hn => C100_apart hs h2 he hr hp hn⟩⟩

/-! ## Schedules -/

/-- `k` accesses of thread `t`. -/
def runs (t k : Nat) : Schedule := List.replicate k (t, .run)

/-- What is compared in the examples. -/
structure Seen where
  engine : Life
  results : List (Nat × Life)
  owners : Nat
  memFreed : Nat
  freed : List Nat
  uaf : Bool
  deriving DecidableEq

def State.seen (s : State) : Seen where
  engine := s.engine
  results := s.results
  owners := s.owners
  memFreed := s.memFreed
  freed := (List.range s.mgr.fresh).map s.mgr.freed
  uaf := s.mgr.uaf

/-- Results are made, the data is refreshed, other results are made and the engine is deleted. -/
def outlive : Schedule :=
  (0, .process) :: runs 0 5 ++ (0, .refresh) :: runs 0 9 ++ (0, .process) :: runs 0 5 ++ (0, .deleteEngine) :: runs 0 10

/-- Both results outlive the engine and have their own data set; the manager is still there. -/
example : (exec (start 1) outlive).map State.seen =
    some ⟨.dead, [(0, .live), (1, .live)], 2, 0, [0, 0, 0], false⟩ := by decide +kernel

/-- With the results deleted everything is freed. -/
example : (exec (start 1) (outlive ++ (0, .deleteResults 0) :: runs 0 5 ++ (0, .deleteResults 1) :: runs 0 5)).map State.seen =
    some ⟨.dead, [(0, .dead), (1, .dead)], 0, 1, [1, 1, 0], false⟩ := by decide +kernel

example : ∀ c ∈ outlive ++ (0, .deleteResults 0) :: runs 0 5 ++ (0, .deleteResults 1) :: runs 0 5, c.1 = 0 := by decide +kernel

/-- Two threads, whose calls do not overlap: the results of one are deleted after the engine by the other. -/
def handed : Schedule :=
  (0, .process) :: runs 0 5 ++ (1, .refresh) :: runs 1 9 ++ (1, .deleteEngine) :: runs 1 12 ++ (1, .deleteResults 0) :: runs 1 5

example : (exec (start 2) handed).map State.seen = some ⟨.dead, [(0, .dead)], 0, 1, [1, 1, 0], false⟩ := by decide +kernel

/-! ## What fails when calls overlap -/

/-- A thread deletes its results, for which the handle is released in several accesses, while another deletes the engine. -/
def race : Schedule :=
  (0, .process) :: runs 0 5 ++ (0, .deleteResults 0) :: runs 0 3 ++ (1, .deleteEngine) :: runs 1 12 ++ runs 0 1

/-- Deleting results in one thread while another deletes the engine reads the handle after it was freed, though the memory of the
manager is shared so that either may be deleted first. -/
theorem C100_threads_violated : ∃ sched s, exec (start 2) sched = some s ∧ s.mgr.uaf = true ∧ s.memFreed = 0 := by
  obtain ⟨s, h1, h2⟩ : ∃ s, exec (start 2) race = some s ∧ s.seen = ⟨.dead, [(0, .dying)], 1, 0, [1, 0], true⟩ :=
    Option.map_eq_some_iff.1 (by decide +kernel : (exec (start 2) race).map State.seen = _)
  exact ⟨race, s, h1, congrArg Seen.uaf h2, congrArg Seen.memFreed h2⟩

/-- Two threads refresh the data at once, and then the engine is deleted. -/
def twice : Schedule :=
  (0, .refresh) :: runs 0 5 ++ (1, .refresh) :: runs 1 5 ++ runs 0 4 ++ runs 1 6 ++ (0, .deleteEngine) :: runs 0 12

/-- When refreshes overlap, a data set may be lost: the engine is deleted, there are no results, the manager is freed, and data set 2
is not. The handle that marks the manager as freed is the third. -/
theorem C100_lost_violated : ∃ sched s, exec (start 2) sched = some s ∧ s.engine = .dead ∧ s.results = [] ∧ s.memFreed = 1 ∧
    2 < s.mgr.fresh ∧ s.empty ≠ some 2 ∧ s.mgr.freed 2 = 0 := by
  obtain ⟨s, h1, h2⟩ : ∃ s, exec (start 2) twice = some s ∧
      (s.seen, s.empty, s.mgr.fresh) = (⟨.dead, [], 0, 1, [1, 1, 0, 0], false⟩, some 3, 4) :=
    Option.map_eq_some_iff.1 (by decide +kernel : (exec (start 2) twice).map (fun s => (s.seen, s.empty, s.mgr.fresh)) = _)
  simp only [Prod.mk.injEq] at h2
  obtain ⟨h2, h3, h4⟩ := h2
  refine ⟨twice, s, h1, congrArg Seen.engine h2, congrArg Seen.results h2, congrArg Seen.memFreed h2, by omega, by simp [h3], ?_⟩
  have h5 := congrArg (fun x => x.freed[2]?) h2
  simpa [State.seen, h4, List.range_succ] using h5

/-- While a thread is at the start of processing, another refreshes the data twice. -/
def stale : Schedule :=
  (0, .process) :: runs 0 1 ++ (1, .refresh) :: runs 1 11 ++ runs 0 3 ++ (1, .refresh) :: runs 1 11

/-- Processing while the data is refreshed may get NULL for the data set, which is then used. -/
theorem C100_null_violated : ∃ sched s m, exec (start 2) sched = some s ∧ s.job 0 = .process ∧
    Resource.step s.mgr 0 .run = some (m, .got none) ∧ step s 0 .run = none := by
  obtain ⟨s, h1, h2⟩ : ∃ s, exec (start 2) stale = some s ∧
      (s.job 0, (Resource.step s.mgr 0 .run).map (·.2), (step s 0 .run).isNone) = (.process, some (.got none), true) :=
    Option.map_eq_some_iff.1 (by decide +kernel : (exec (start 2) stale).map
      (fun s => (s.job 0, (Resource.step s.mgr 0 .run).map (·.2), (step s 0 .run).isNone)) = _)
  simp only [Prod.mk.injEq, Option.isNone_iff_eq_none] at h2
  obtain ⟨h2, h3, h4⟩ := h2
  obtain ⟨q, h5, h6⟩ := Option.map_eq_some_iff.1 h3
  exact ⟨stale, s, q.1, h1, h2, by rw [h5, ← h6], h4⟩

end Verif.Engine.Owners
