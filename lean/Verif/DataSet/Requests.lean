import Verif.DataSet.Props
import Verif.Collection.Threads

/-! # C91: requests that read while the data are reloaded

Requests get the data set, get and release items of its collections, and release the data set, as any number of threads in any
interleaving, while others reload the data set (C37). Every data set has its own data file, its own pool of handles and its own
cache; these are the machines of C89, one for each data set.

A thread of the model is one request at a time; a program thread with several results is several threads of the model. `step` is
`none` for a step that cannot be taken now and for undefined behaviour. -/

namespace Verif.Requests

open Verif.Cache (Enough)
open Verif.Collection (FileColl Header Reader WellFormed IsItem NotIn loader fileColl)
open Verif.Collection.Threads (Held Log given C89_ends C89_bytes C89_item C89_progress C89_quiet)

/-! ## Model -/

/-- What does not change: for each data set its data file, the cached collection in it, the capacity of a shard of the cache, a bound
for the searches in it and the handles of the pool; and the number of threads. -/
structure Env where
  file : Nat → CStr
  coll : Nat → FileColl
  capacity : Nat → Nat
  fuel : Nat → Nat
  handles : Nat → List Nat
  threads : Nat

/-- A data set that was got: its handle, and `handle->resource`, the data set, `fiftyoneDegreesDataSetGet`, dataset.c:252-255. -/
structure Got where
  handle : Nat
  data : Option Nat
deriving DecidableEq, Repr

/-- The manager and the data sets, the collections of each data set with what was returned, and for each thread the data set it has
got and the items it has got from it. -/
structure State where
  data : DataSet.State
  parts : Nat → Collection.Threads.State
  logs : Nat → Log
  mine : List (Option Got)
  items : Nat → List Held

/-- A step of a get, release or reload of the data set, or of a call with the collections of the data set. -/
inductive Act where
  | data (a : DataSet.Act)
  | use (a : Collection.Threads.Act)

/-- The thread is in no call of the manager. -/
def between (s : DataSet.State) (t : Nat) : Bool :=
  match s.mgr.pcs[t]?, s.phase t with
  | some .idle, .none => true
  | _, _ => false

/-- The thread is in no call with the collections. -/
def outside (c : Collection.Threads.State) (t : Nat) : Bool :=
  match c.cache.pcs[t]?, c.files.pcs[t]? with
  | some .idle, some .idle => true
  | _, _ => false

/-- The data set the thread has got. -/
def State.has (s : State) (t : Nat) : Option Nat := s.mine[t]?.join.bind (·.data)

/-- The thread is in no call with the data set it has got. -/
def State.free (s : State) (t : Nat) : Bool :=
  match s.has t with
  | some d => outside (s.parts d) t
  | none => true

/-- A write to one place. -/
def set {α : Type} (f : Nat → α) (n : Nat) (v : α) : Nat → α := fun x => if x = n then v else f x

/-- What a thread has after a step of the manager; reading the resource of a handle that is NULL is undefined, dataset.c:254. -/
def taken (dataOf : Nat → Option Nat) (mine : List (Option Got)) (t : Nat) : DataSet.Ret → Option (List (Option Got))
  | .got none => none
  | .got (some p) => some (mine.set t (some ⟨p, dataOf p⟩))
  | _ => some mine

/-- The items of a thread after a step with a collection: the one it gives back is gone, the one it got is there. -/
def kept (items : List Held) (a : Collection.Threads.Act) (o : Collection.Threads.Out) : List Held :=
  match a with
  | .release item => items.erase item
  | _ => (o.event.bind given).toList ++ items

/-- The program of a request: it only releases items that it has. -/
def allowed (items : List Held) : Collection.Threads.Act → Bool
  | .release item => items.contains item
  | _ => true

/-- A step of a get, release or reload of the data set. A request gets one data set, `fiftyoneDegreesDataSetGet`, dataset.c:252-255,
and releases it, `fiftyoneDegreesDataSetRelease`, dataset.c:257-259, when it is in no call with it and has released all items. -/
def State.manage (s : State) (t : Nat) : DataSet.Act → Option State
  | .get =>
    if s.mine[t]? = some none then (DataSet.step s.data t .get).map fun r => { s with data := r.1 } else none
  | .release p =>
    match s.mine[t]? with
    | some (some g) =>
      if g.handle = p ∧ s.items t = [] ∧ s.free t then
        (DataSet.step s.data t (.release p)).map fun r => { s with data := r.1, mine := s.mine.set t none }
      else none
    | _ => none
  | a =>
    if s.free t then (DataSet.step s.data t a).bind fun r =>
      (taken r.1.dataOf s.mine t r.2).map fun m => { s with data := r.1, mine := m }
    else none

/-- A step of a call with the collections of data set `d`. -/
def State.use (e : Env) (s : State) (t d : Nat) (a : Collection.Threads.Act) : Option State :=
  if between s.data t && allowed (s.items t) a then
    (Collection.Threads.step (e.file d) (e.coll d) (e.fuel d) (s.parts d) t a).map fun r =>
      { s with parts := set s.parts d r.1, logs := set s.logs d ((s.logs d).add r.2),
               items := set s.items t (kept (s.items t) a r.2) }
  else none

/-- One step of one thread. -/
def step (e : Env) (s : State) (t : Nat) : Act → Option State
  | .data a => s.manage t a
  | .use a => (s.has t).bind fun d => s.use e t d a

abbrev Schedule := List (Nat × Act)

def exec (e : Env) (s : State) : Schedule → Option State
  | [] => some s
  | (t, a) :: rest => (step e s t a).bind fun s => exec e s rest

/-! ## Specification -/

/-- One data set and no requests. -/
structure Start (e : Env) (s : State) : Prop where
  data : s.data = DataSet.start e.threads
  parts : ∀ d, Collection.Threads.Start (e.capacity d) (e.handles d) (s.parts d)
  threads : ∀ d, (s.parts d).files.pcs.length = e.threads
  logs : ∀ d, s.logs d = ⟨[], []⟩
  mine : s.mine = List.replicate e.threads none
  items : ∀ t, s.items t = []

/-- The state after any schedule. -/
structure Reached (e : Env) (s : State) : Prop where
  intro ::
  enough : ∀ d, Enough (e.capacity d) (e.fuel d)
  reached : ∃ s0 sched, Start e s0 ∧ exec e s0 sched = some s

/-- The thread has got data set `d` and not released it. -/
def Has (s : State) (t d : Nat) : Prop := ∃ h, s.mine[t]? = some (some ⟨h, some d⟩)

/-- The steps of a schedule that are steps of gets, releases and reloads. -/
def dataSteps : Schedule → DataSet.Schedule
  | [] => []
  | (t, .data a) :: rest => (t, a) :: dataSteps rest
  | (_, .use _) :: rest => dataSteps rest

/-! ## Lemmas -/

theorem set_self {α : Type} (f : Nat → α) (n : Nat) (v : α) : set f n v n = v := by simp [set]
theorem set_ne {α : Type} (f : Nat → α) {n x : Nat} (v : α) (h : x ≠ n) : set f n v x = f x := by simp [set, h]

theorem outside_iff {c : Collection.Threads.State} {t : Nat} :
    outside c t = true ↔ c.cache.pcs[t]? = some .idle ∧ c.files.pcs[t]? = some .idle := by
  unfold outside
  split
  · next h1 h2 => simp [h1, h2]
  · next h => simp only [Bool.false_eq_true, false_iff]; rintro ⟨h1, h2⟩; exact h h1 h2

theorem between_iff {s : DataSet.State} {t : Nat} :
    between s t = true ↔ s.mgr.pcs[t]? = some .idle ∧ s.phase t = .none := by
  unfold between
  split
  · next h1 h2 => simp [h1, h2]
  · next h => simp only [Bool.false_eq_true, false_iff]; rintro ⟨h1, h2⟩; exact h h1 h2

theorem has_iff {s : State} {t d : Nat} : s.has t = some d ↔ Has s t d := by
  unfold State.has Has
  cases h : s.mine[t]? with
  | none => simp
  | some o =>
    cases o with
    | none => simp
    | some g =>
      obtain ⟨p, x⟩ := g
      simp

/-- The thread is in a get of the data set. -/
def userGet : Resource.Pc → Bool
  | .inc c | .incActive c _ | .incSelf c _ _ | .incRead c _ | .incAddr c _ _ => c = .user
  | _ => false

/-- What a step of the manager does to what users have. -/
inductive Moved (s : Resource.State) (t : Nat) (s' : Resource.State) (old new : Resource.Pc) : Resource.Act → Resource.Ret → Prop
  | get : s.closed = false → s'.held = s.held → s'.closed = s.closed → s'.fresh = s.fresh →
      Moved s t s' old new .callGet .nothing
  | release (p : Nat) : 0 < s.held p → s'.held = Resource.set s.held p (s.held p - 1) → s'.closed = s.closed →
      s'.fresh = s.fresh → userGet new = false → Moved s t s' old new (.callRelease p) .nothing
  | replace : s'.held = s.held → s'.closed = s.closed → s'.fresh = s.fresh + 1 → userGet new = false →
      Moved s t s' old new .callReplace .nothing
  | free : s'.held = s.held → s'.closed = true → (∀ pc ∈ s.pcs, pc.getting = false) → userGet new = false →
      Moved s t s' old new .callFree .nothing
  | got (p : Nat) : s'.held = Resource.set s.held p (s.held p + 1) → s'.closed = s.closed → s'.fresh = s.fresh →
      userGet old = true → userGet new = false → Moved s t s' old new .run (.got (some p))
  | null : s'.closed = s.closed → s'.fresh = s.fresh → userGet new = false → Moved s t s' old new .run (.got none)
  | run (r : Resource.Ret) : (∀ p, r ≠ .got p) → s'.held = s.held → s'.closed = s.closed → s'.fresh = s.fresh →
      (userGet new = true → userGet old = true) → Moved s t s' old new .run r

theorem moved {s s' : Resource.State} {t : Nat} {a : Resource.Act} {r : Resource.Ret}
    (h : Resource.step s t a = some (s', r)) :
    ∃ old new, s.pcs[t]? = some old ∧ s'.pcs = s.pcs.set t new ∧ Moved s t s' old new a r := by
  have after : ∀ c, (∀ p, (Resource.afterDec c).2 ≠ .got p) ∧ userGet (Resource.afterDec c).1 = false := by
    intro c; cases c <;> simp [Resource.afterDec, userGet]
  simp only [Resource.step, Option.bind_eq_bind] at h
  cases ht : s.pcs[t]? with
  | none => simp [ht] at h
  | some pc =>
    refine ⟨pc, ?_⟩
    simp only [ht, Option.bind_some] at h
    cases a with
    | callGet =>
      simp only at h
      split at h
      · next hc => simp at h; obtain ⟨rfl, rfl⟩ := h; exact ⟨_, rfl, rfl, .get hc.2 rfl rfl rfl⟩
      · simp at h
    | callRelease p =>
      simp only at h
      split at h
      · next hc => simp at h; obtain ⟨rfl, rfl⟩ := h; exact ⟨_, rfl, rfl, .release p hc.2 rfl rfl rfl rfl⟩
      · simp at h
    | callReplace =>
      simp only at h
      split at h
      · next hc => simp at h; obtain ⟨rfl, rfl⟩ := h; exact ⟨_, rfl, rfl, .replace rfl rfl rfl rfl⟩
      · simp at h
    | callFree =>
      simp only at h
      split at h
      · next hc =>
        simp at h; obtain ⟨rfl, rfl⟩ := h
        exact ⟨_, rfl, rfl, .free rfl rfl (by simpa using hc.2.2) rfl⟩
      · simp at h
    | run =>
      cases pc with
      | swap c old =>
        cases c <;> simp only [Resource.access, reduceCtorEq, Option.some.injEq, Prod.mk.injEq] at h
        all_goals
          obtain ⟨rfl, rfl⟩ := h
          refine ⟨.dec _ old, rfl, by split <;> rfl, .run _ nofun ?_ ?_ ?_ nofun⟩ <;> split <;> rfl
      | incAddr c compare a =>
        simp only [Resource.access] at h
        split at h
        · split at h <;> simp at h
          · obtain ⟨rfl, rfl⟩ := h; exact ⟨_, rfl, rfl, .got _ rfl rfl rfl rfl rfl⟩
          · obtain ⟨rfl, rfl⟩ := h; exact ⟨_, rfl, rfl, .null rfl rfl rfl⟩
          · obtain ⟨rfl, rfl⟩ := h; exact ⟨_, rfl, rfl, .run _ nofun rfl rfl rfl nofun⟩
        · simp at h; obtain ⟨rfl, rfl⟩ := h; exact ⟨_, rfl, rfl, .run _ nofun rfl rfl rfl id⟩
      | decRead c p compare =>
        simp only [Resource.access] at h
        split at h
        · split at h <;> simp at h
          · obtain ⟨rfl, rfl⟩ := h; exact ⟨_, rfl, rfl, .run _ nofun rfl rfl rfl nofun⟩
          · obtain ⟨rfl, rfl⟩ := h
            exact ⟨_, rfl, rfl, .run _ (after c).1 rfl rfl rfl fun x => by rw [(after c).2] at x; cases x⟩
        · simp at h; obtain ⟨rfl, rfl⟩ := h; exact ⟨_, rfl, rfl, .run _ nofun rfl rfl rfl nofun⟩
      | decFree c p d =>
        simp only [Resource.access] at h
        split at h
        · simp at h
        · split at h <;> simp at h <;>
          · obtain ⟨rfl, rfl⟩ := h
            exact ⟨_, rfl, rfl, .run _ (after c).1 rfl rfl rfl fun x => by rw [(after c).2] at x; cases x⟩
      | decCheck c p d =>
        simp only [Resource.access] at h
        split at h <;> simp at h
        · obtain ⟨rfl, rfl⟩ := h; exact ⟨_, rfl, rfl, .run _ nofun rfl rfl rfl nofun⟩
        · obtain ⟨rfl, rfl⟩ := h
          exact ⟨_, rfl, rfl, .run _ (after c).1 rfl rfl rfl fun x => by rw [(after c).2] at x; cases x⟩
      | idle => simp [Resource.access] at h
      | freeNew n => simp [Resource.access] at h; obtain ⟨rfl, rfl⟩ := h; exact ⟨_, rfl, rfl, .run _ nofun rfl rfl rfl nofun⟩
      | _ =>
        simp [Resource.access] at h; obtain ⟨rfl, rfl⟩ := h
        exact ⟨_, rfl, rfl, .run _ nofun rfl rfl rfl id⟩

/-- What the requests rely on: every handle has a data set until the manager is freed, and there is no get afterwards. -/
structure DInv (s : DataSet.State) : Prop where
  reached : DataSet.Reached s
  data : s.mgr.closed = false → ∀ h, h < s.mgr.fresh → s.dataOf h ≠ none
  open_ : ∀ pc ∈ s.mgr.pcs, userGet pc = true → s.mgr.closed = false

/-- What a step of a get, release or reload does. -/
inductive Does (s : DataSet.State) (t : Nat) (s' : DataSet.State) : DataSet.Act → DataSet.Ret → Prop
  | get : s'.mgr.held = s.mgr.held → Does s t s' .get .nothing
  | release (p : Nat) : 0 < s.mgr.held p → s'.mgr.held = Resource.set s.mgr.held p (s.mgr.held p - 1) →
      Does s t s' (.release p) .nothing
  | got (p : Nat) : s'.mgr.held = Resource.set s.mgr.held p (s.mgr.held p + 1) → (∃ d, s'.dataOf p = some d) →
      (∃ pc, s.mgr.pcs[t]? = some pc ∧ userGet pc = true) → (∀ pc, s'.mgr.pcs[t]? = some pc → userGet pc = false) →
      Does s t s' .run (.got (some p))
  | null : Does s t s' .run (.got none)
  | other (a : DataSet.Act) (r : DataSet.Ret) : a ≠ .get → (∀ p, a ≠ .release p) → (∀ p, r ≠ .got p) → s'.mgr.held = s.mgr.held →
      (∀ pc, s'.mgr.pcs[t]? = some pc → userGet pc = true → ∃ pc, s.mgr.pcs[t]? = some pc ∧ userGet pc = true) → Does s t s' a r

theorem userGet_getting {pc : Resource.Pc} (h : userGet pc = true) : pc.getting = true := by
  cases pc <;> simp_all [userGet, Resource.Pc.getting]

theorem pc_set {l : List Resource.Pc} {t u : Nat} {pc new : Resource.Pc} (h : (l.set t new)[u]? = some pc) :
    (u = t ∧ pc = new) ∨ (u ≠ t ∧ l[u]? = some pc) := by
  by_cases e : u = t
  · subst e
    rw [List.getElem?_set] at h
    simp only [if_true] at h
    split at h
    · cases h; exact .inl ⟨rfl, rfl⟩
    · cases h
  · rw [List.getElem?_set_ne (Ne.symm e)] at h; exact .inr ⟨e, h⟩

/-- The manager of the data sets takes a step. -/
theorem DInv.moved {s s' : DataSet.State} (h : DInv s) (hr : DataSet.Reached s') {t : Nat} {old new : Resource.Pc} {b : Resource.Act}
    {r : Resource.Ret} (ho : s.mgr.pcs[t]? = some old) (hn : s'.mgr.pcs = s.mgr.pcs.set t new)
    (hm : Moved s.mgr t s'.mgr old new b r) (hd : ∀ h d, s.dataOf h = some d → s'.dataOf h = some d)
    (hf : b = .callReplace → s'.dataOf s.mgr.fresh ≠ none) : DInv s' := by
  have keep : ∀ x, s.dataOf x ≠ none → s'.dataOf x ≠ none := by
    intro x hx
    obtain ⟨d, e⟩ := Option.ne_none_iff_exists'.1 hx
    rw [hd x d e]; simp
  have same : s'.mgr.closed = s.mgr.closed → s'.mgr.fresh = s.mgr.fresh → (userGet new = true → s.mgr.closed = false) → DInv s' := by
    intro h1 h2 h3
    refine ⟨hr, fun hc x hx => keep x (h.data (h1 ▸ hc) x (h2 ▸ hx)), fun pc hpc hu => ?_⟩
    rw [h1]
    obtain ⟨u, hu'⟩ := List.getElem?_of_mem hpc
    rw [hn] at hu'
    rcases pc_set hu' with ⟨-, rfl⟩ | ⟨-, e⟩
    · exact h3 hu
    · exact h.open_ pc (List.mem_of_getElem? e) hu
  cases hm with
  | get h1 h2 h3 h4 => exact same h3 h4 fun _ => h1
  | release p h1 h2 h3 h4 h5 => exact same h3 h4 fun x => by rw [h5] at x; cases x
  | replace h1 h2 h3 h4 =>
    refine ⟨hr, fun hc x hx => ?_, fun pc hpc hu => ?_⟩
    · by_cases e : x = s.mgr.fresh
      · rw [e]; exact hf rfl
      · exact keep x (h.data (h2 ▸ hc) x (by omega))
    · rw [h2]
      obtain ⟨u, hu'⟩ := List.getElem?_of_mem hpc
      rw [hn] at hu'
      rcases pc_set hu' with ⟨-, rfl⟩ | ⟨-, e⟩
      · rw [h4] at hu; cases hu
      · exact h.open_ pc (List.mem_of_getElem? e) hu
  | free h1 h2 h3 h4 =>
    refine ⟨hr, fun hc => (by rw [h2] at hc; cases hc), fun pc hpc hu => ?_⟩
    obtain ⟨u, hu'⟩ := List.getElem?_of_mem hpc
    rw [hn] at hu'
    rcases pc_set hu' with ⟨-, rfl⟩ | ⟨-, e⟩
    · rw [h4] at hu; cases hu
    · have := h3 pc (List.mem_of_getElem? e)
      rw [userGet_getting hu] at this; cases this
  | got p h1 h2 h3 h4 h5 => exact same h2 h3 fun x => by rw [h5] at x; cases x
  | null h1 h2 h3 => exact same h1 h2 fun x => by rw [h3] at x; cases x
  | run r h1 h2 h3 h4 h5 => exact same h3 h4 fun x => h.open_ old (List.mem_of_getElem? ho) (h5 x)

/-- What a step leaves: the invariant, the other threads and the data sets of the handles. -/
structure Leaves (s : DataSet.State) (t : Nat) (s' : DataSet.State) : Prop where
  inv : DInv s'
  pcs : ∀ u, u ≠ t → s'.mgr.pcs[u]? = s.mgr.pcs[u]?
  phase : ∀ u, u ≠ t → s'.phase u = s.phase u
  length : s'.mgr.pcs.length = s.mgr.pcs.length

theorem does {s s' : DataSet.State} (h : DInv s) {t : Nat} {a : DataSet.Act} {r : DataSet.Ret}
    (hs : DataSet.step s t a = some (s', r)) : Leaves s t s' ∧ Does s t s' a r := by
  have hr := h.reached.step hs
  have hsame := fun x d (e : s.dataOf x = some d) => DataSet.C37_same h.reached hs e
  -- the manager and the phase do not change, or only the phase of the thread
  have still : s'.mgr = s.mgr → s'.dataOf = s.dataOf → (∀ u, u ≠ t → s'.phase u = s.phase u) → a ≠ .get → (∀ p, a ≠ .release p) →
      (∀ p, r ≠ .got p) → Leaves s t s' ∧ Does s t s' a r := by
    intro h1 h2 h3 h4 h5 h6
    refine ⟨⟨⟨hr, by rw [h1, h2]; exact h.data, by rw [h1]; exact h.open_⟩, by simp [h1], h3, by rw [h1]⟩, .other _ _ h4 h5 h6 (by rw [h1]) ?_⟩
    rw [h1]; exact fun pc e hu => ⟨pc, e, hu⟩
  have rest : ∀ {b : Resource.Act} {r' : Resource.Ret}, Resource.step s.mgr t b = some (s'.mgr, r') →
      (∀ u, u ≠ t → s'.phase u = s.phase u) → (b = .callReplace → s'.dataOf s.mgr.fresh ≠ none) →
      ∃ old new, s.mgr.pcs[t]? = some old ∧ s'.mgr.pcs[t]? = some new ∧ Moved s.mgr t s'.mgr old new b r' ∧ Leaves s t s' := by
    intro b r' hb hp hf
    obtain ⟨old, new, h1, h2, h3⟩ := moved hb
    refine ⟨old, new, h1, ?_, h3, h.moved hr h1 h2 h3 hsame hf, ?_, hp, by rw [h2, List.length_set]⟩
    · rw [h2]; exact List.getElem?_set_self (List.getElem?_eq_some_iff.1 h1).1
    · intro u hu; rw [h2, List.getElem?_set_ne (Ne.symm hu)]
  have hman : ∀ b, s.manage t b = some (s', r) → ∃ r' old new, r = .ofManager r' ∧ s.mgr.pcs[t]? = some old ∧
      s'.mgr.pcs[t]? = some new ∧ Resource.step s.mgr t b = some (s'.mgr, r') ∧ s'.dataOf = s.dataOf ∧
      (b ≠ .callReplace → Moved s.mgr t s'.mgr old new b r' ∧ Leaves s t s') := by
    intro b hb
    simp only [DataSet.State.manage, Option.bind_eq_bind] at hb
    split at hb
    · cases hq : Resource.step s.mgr t b with
      | none => simp [hq] at hb
      | some q =>
        obtain ⟨m, r'⟩ := q
        simp [hq] at hb
        obtain ⟨h1, h2⟩ := hb
        have hm : s'.mgr = m := by rw [← h1]
        rw [← hm] at hq ⊢
        by_cases hc : b = .callReplace
        · obtain ⟨old, new, g1, g2, -⟩ := moved hq
          exact ⟨r', old, new, h2.symm, g1, by rw [g2]; exact List.getElem?_set_self (List.getElem?_eq_some_iff.1 g1).1, rfl,
            by rw [← h1], fun x => absurd hc x⟩
        · obtain ⟨old, new, g1, g2, g3, g4⟩ := rest hq (by rw [← h1]; exact fun _ _ => rfl) (fun x => absurd x hc)
          exact ⟨r', old, new, h2.symm, g1, g2, rfl, by rw [← h1], fun _ => ⟨g3, g4⟩⟩
    · simp at hb
  cases a with
  | get =>
    obtain ⟨r', old, new, rfl, h1, h2, -, -, h3⟩ := hman _ hs
    obtain ⟨h4, h5⟩ := h3 nofun
    cases h4 with
    | get _ h6 => exact ⟨h5, .get h6⟩
  | release p =>
    obtain ⟨r', old, new, rfl, h1, h2, -, -, h3⟩ := hman _ hs
    obtain ⟨h4, h5⟩ := h3 nofun
    cases h4 with
    | release _ h6 h7 => exact ⟨h5, .release p h6 h7⟩
  | free =>
    obtain ⟨r', old, new, rfl, h1, h2, -, -, h3⟩ := hman _ hs
    obtain ⟨h4, h5⟩ := h3 nofun
    cases h4 with
    | free h6 _ _ h7 =>
      exact ⟨h5, .other _ _ nofun nofun nofun h6 fun pc e hu => by rw [h2] at e; cases e; rw [h7] at hu; cases hu⟩
  | run =>
    obtain ⟨r', old, new, rfl, h1, h2, hst, hdo, h3⟩ := hman _ hs
    obtain ⟨h4, h5⟩ := h3 nofun
    cases h4 with
    | got p h6 h7 h8 h9 h10 =>
      refine ⟨h5, .got p h6 ?_ ⟨old, h1, h9⟩ fun pc e => by rw [h2] at e; cases e; exact h10⟩
      have hc := h.open_ old (List.mem_of_getElem? h1) h9
      have hlt : p < s.mgr.fresh := by
        have hi := h.reached.inv.mgr.inv
        have hw : s.mgr.was p = true := by
          obtain ⟨k, b, g1, g2⟩ := Resource.got_incAddr hst
          have hb := hi.addr _ b (List.mem_of_getElem? g1) rfl
          rcases hi.cnt b hb with ⟨g3, -⟩ | ⟨g3, -⟩
          · rw [g2] at g3; cases g3; exact hb
          · rw [g2] at g3; cases g3
        exact hi.wasLt p hw
      rw [hdo]
      exact Option.ne_none_iff_exists'.1 (h.data hc p hlt)
    | null => exact ⟨h5, .null⟩
    | run _ h6 h7 h8 h9 h10 =>
      refine ⟨h5, .other _ _ nofun nofun ?_ h7 fun pc e hu => by rw [h2] at e; cases e; exact ⟨old, h1, h10 hu⟩⟩
      cases r' with
      | got p => exact absurd rfl (h6 p)
      | _ => exact nofun
  | reload k =>
    simp only [DataSet.step] at hs
    split at hs
    · simp at hs
      obtain ⟨h1, rfl⟩ := hs
      exact still (by rw [← h1]; rfl) (by rw [← h1]; rfl) (fun u hu => by rw [← h1]; exact Resource.set_ne _ _ hu) nofun nofun nofun
    · simp at hs
  | load ok =>
    simp only [DataSet.step] at hs
    cases hp : s.phase t with
    | none => rw [hp] at hs; simp [DataSet.State.load] at hs
    | start | reading =>
      rw [hp] at hs; simp [DataSet.State.load] at hs
      obtain ⟨h1, rfl⟩ := hs
      exact still (by rw [← h1]; rfl) (by rw [← h1]; rfl) (fun u hu => by rw [← h1]; exact Resource.set_ne _ _ hu) nofun nofun nofun
    | existing k b =>
      rw [hp] at hs
      cases ok <;> simp [DataSet.State.load] at hs <;> obtain ⟨h1, rfl⟩ := hs <;>
      exact still (by rw [← h1]; rfl) (by rw [← h1]; rfl) (fun u hu => by rw [← h1]; exact Resource.set_ne _ _ hu) nofun nofun nofun
    | init k b ds =>
      rw [hp] at hs
      cases ok with
      | false =>
        cases k <;> simp [DataSet.State.load] at hs <;> obtain ⟨h1, rfl⟩ := hs <;>
        exact still (by rw [← h1]; rfl) (by rw [← h1]; rfl) (fun u hu => by rw [← h1]; exact Resource.set_ne _ _ hu) nofun nofun nofun
      | true =>
        simp only [DataSet.State.load, if_true, Option.bind_eq_bind] at hs
        cases hq : Resource.step (s.touch b).mgr t .callReplace with
        | none => simp [hq] at hs
        | some q =>
          obtain ⟨m, r'⟩ := q
          simp [hq] at hs
          obtain ⟨h1, rfl⟩ := hs
          have hm : s'.mgr = m := by rw [← h1]
          rw [← hm] at hq
          have hfr : s'.dataOf s.mgr.fresh = some ds := by rw [← h1]; exact Resource.set_self ..
          obtain ⟨old, new, g1, g2, g3, g4⟩ := rest (b := .callReplace) hq
            (fun u hu => by rw [← h1]; exact Resource.set_ne _ _ hu) (fun _ => by rw [hfr]; nofun)
          refine ⟨g4, ?_⟩
          cases g3 with
          | replace h6 _ _ h7 =>
            exact .other _ _ nofun nofun nofun h6 fun pc e hu => by rw [g2] at e; cases e; rw [h7] at hu; cases hu

/-- The sum over the threads. -/
def total : Nat → (Nat → Nat) → Nat
  | 0, _ => 0
  | n + 1, f => total n f + f n

theorem total_congr {f g : Nat → Nat} : ∀ {n : Nat}, (∀ t < n, f t = g t) → total n f = total n g
  | 0, _ => rfl
  | n + 1, h => by
    rw [total, total, total_congr fun t ht => h t (Nat.lt_succ_of_lt ht), h n (Nat.lt_succ_self n)]

theorem total_change {f g : Nat → Nat} {t : Nat} : ∀ {n : Nat}, t < n → (∀ u, u ≠ t → f u = g u) →
    total n g + f t = total n f + g t
  | 0, ht, _ => by omega
  | n + 1, ht, h => by
    rw [total, total]
    by_cases e : t = n
    · subst e
      have : total t f = total t g := total_congr fun u hu => h u (by omega)
      omega
    · have := total_change (n := n) (by omega) h
      have := h n (Ne.symm e)
      omega

theorem le_total {f : Nat → Nat} {t : Nat} : ∀ {n : Nat}, t < n → f t ≤ total n f
  | 0, ht => by omega
  | n + 1, ht => by
    rw [total]
    by_cases e : t = n
    · subst e; omega
    · have := le_total (f := f) (n := n) (t := t) (by omega); omega

theorem total_zero {f : Nat → Nat} : ∀ {n : Nat}, (∀ t < n, f t = 0) → total n f = 0
  | 0, _ => rfl
  | n + 1, h => by rw [total, total_zero fun t ht => h t (Nat.lt_succ_of_lt ht), h n (Nat.lt_succ_self n)]

/-- How often a thread has an item of data set `d`. -/
def share (s : State) (d : Nat) (item : Held) (t : Nat) : Nat := if s.has t = some d then (s.items t).count item else 0

/-- Whether the thread has the handle. -/
def holds (h : Nat) : Option Got → Bool
  | some g => g.handle = h
  | none => false

structure Inv (e : Env) (s : State) : Prop where
  data : DInv s.data
  length : s.mine.length = s.data.mgr.pcs.length
  held : ∀ h, s.data.mgr.held h = s.mine.countP (holds h)
  known : ∀ (t : Nat) (g : Got), s.mine[t]? = some (some g) → ∃ d, g.data = some d ∧ s.data.dataOf g.handle = some d
  getting : ∀ (t : Nat) (pc : Resource.Pc), s.data.mgr.pcs[t]? = some pc → userGet pc = true → s.mine[t]? = some none
  parts : ∀ d, Collection.Threads.Reached (e.file d) (e.coll d) (e.fuel d) (e.capacity d) (e.handles d) (s.parts d) (s.logs d)
  partsLength : ∀ d, (s.parts d).files.pcs.length = s.mine.length
  out : ∀ t d, t < s.mine.length → s.has t ≠ some d → outside (s.parts d) t = true
  busy : ∀ t d, s.has t = some d → outside (s.parts d) t = false → between s.data t = true
  empty : ∀ t, s.has t = none → s.items t = []
  count : ∀ d item, (s.parts d).items.count item = total s.mine.length (share s d item)

theorem has_lt {s : State} {t d : Nat} (h : s.has t = some d) : t < s.mine.length := by
  obtain ⟨p, h⟩ := has_iff.1 h
  exact (List.getElem?_eq_some_iff.1 h).1

theorem has_congr {s s' : State} {t : Nat} (h : s'.mine[t]? = s.mine[t]?) : s'.has t = s.has t := by
  rw [State.has, h, State.has]

/-- A step of the manager for a thread that is in no other call. -/
theorem Inv.move {e : Env} {s : State} (h : Inv e s) {t : Nat} {x : DataSet.State} {m : List (Option Got)}
    (hl : Leaves s.data t x) (hf : s.free t = true) (hm : ∀ u, u ≠ t → m[u]? = s.mine[u]?) (hlen : m.length = s.mine.length)
    (hheld : ∀ h, x.mgr.held h = m.countP (holds h))
    (hdata : ∀ h d, s.data.dataOf h = some d → x.dataOf h = some d)
    (hknown : ∀ g, m[t]? = some (some g) → ∃ d, g.data = some d ∧ x.dataOf g.handle = some d)
    (hget : ∀ pc, x.mgr.pcs[t]? = some pc → userGet pc = true → m[t]? = some none)
    (hitems : s.items t = [] ∨ m = s.mine) : Inv e { s with data := x, mine := m } := by
  have hhas : ∀ u, u ≠ t → State.has { s with data := x, mine := m } u = s.has u := fun u hu => has_congr (hm u hu)
  have hfree : ∀ d, t < s.mine.length → outside (s.parts d) t = true := by
    intro d ht
    by_cases hd : s.has t = some d
    · simpa [State.free, hd] using hf
    · exact h.out t d ht hd
  refine ⟨hl.inv, by rw [hl.length, ← h.length]; exact hlen, hheld, ?_, ?_, h.parts, ?_, ?_, ?_, ?_, ?_⟩
  · intro u g hg
    by_cases e : u = t
    · rw [e] at hg; exact hknown g hg
    · obtain ⟨d, h1, h2⟩ := h.known u g (by rw [← hm u e]; exact hg)
      exact ⟨d, h1, hdata _ d h2⟩
  · intro u pc hpc hu
    by_cases e : u = t
    · rw [e] at hpc ⊢; exact hget pc hpc hu
    · show m[u]? = _
      rw [hm u e]
      exact h.getting u pc (by rw [← hl.pcs u e]; exact hpc) hu
  · intro d; rw [h.partsLength d]; exact hlen.symm
  · intro u d hu hd
    replace hu : u < s.mine.length := hlen ▸ hu
    by_cases e : u = t
    · rw [e] at hu ⊢; exact hfree d hu
    · rw [hhas u e] at hd; exact h.out u d hu hd
  · intro u d hd ho
    by_cases e : u = t
    · subst e
      have := has_lt hd
      rw [show outside (s.parts d) u = true from hfree d (hlen ▸ this)] at ho
      cases ho
    · rw [hhas u e] at hd
      have := between_iff.1 (h.busy u d hd ho)
      exact between_iff.2 ⟨by rw [hl.pcs u e]; exact this.1, by rw [hl.phase u e]; exact this.2⟩
  · intro u hu
    by_cases e : u = t
    · subst e
      rcases hitems with h1 | rfl
      · exact h1
      · exact h.empty u hu
    · rw [hhas u e] at hu; exact h.empty u hu
  · intro d item
    show _ = total m.length _
    rw [hlen, h.count d item]
    apply total_congr
    intro u _
    by_cases e : u = t
    · subst e
      rcases hitems with h1 | rfl
      · simp [share, h1]
      · rfl
    · simp only [share, hhas u e]

theorem reached_more {file : CStr} {f : FileColl} {fuel capacity : Nat} {handles : List Nat} {s s' : Collection.Threads.State} {l : Log}
    (h : Collection.Threads.Reached file f fuel capacity handles s l) {t : Nat} {a : Collection.Threads.Act}
    {o : Collection.Threads.Out} (hs : Collection.Threads.step file f fuel s t a = some (s', o)) :
    Collection.Threads.Reached file f fuel capacity handles s' (l.add o) := by
  obtain ⟨hf, s0, sched, h0, he⟩ := h
  refine ⟨hf, s0, sched ++ [(t, a)], h0, ?_⟩
  clear * - he hs
  generalize Log.mk [] [] = l0 at he
  induction sched generalizing s0 l0 with
  | nil => cases he; simp [Collection.Threads.exec, hs]
  | cons x rest ih =>
    obtain ⟨u, b⟩ := x
    rw [Collection.Threads.exec, Option.bind_eq_some_iff] at he
    obtain ⟨r, h1, he⟩ := he
    rw [List.cons_append, Collection.Threads.exec, h1]
    exact ih _ _ he

/-- The items of a collection change as those of the thread. -/
theorem kept_items {file : CStr} {f : FileColl} {fuel : Nat} {s s' : Collection.Threads.State} {t : Nat} {a : Collection.Threads.Act}
    {o : Collection.Threads.Out} (hs : Collection.Threads.step file f fuel s t a = some (s', o)) : s'.items = kept s.items a o := by
  cases ho : o.event with
  | some x =>
    obtain ⟨i, ev⟩ := x
    obtain ⟨rfl, -, h⟩ := Collection.Threads.event_run hs ho
    simp [kept, ho, h]
  | none =>
    cases Collection.Threads.step_joint hs <;> simp_all [kept]

theorem length_pcs {file : CStr} {f : FileColl} {fuel capacity : Nat} {handles : List Nat} {s s' : Collection.Threads.State} {l : Log}
    (h : Collection.Threads.Reached file f fuel capacity handles s l) {t : Nat} {a : Collection.Threads.Act}
    {o : Collection.Threads.Out} (hs : Collection.Threads.step file f fuel s t a = some (s', o)) :
    s'.files.pcs.length = s.files.pcs.length := by
  obtain ⟨c, p, c', p', -, h1, -, h2, -, -, -, h3⟩ := Collection.Threads.C89_ends h hs
  have : ∀ u, u < s'.files.pcs.length ↔ u < s.files.pcs.length := by
    intro u
    by_cases e : u = t
    · subst e
      exact ⟨fun _ => (List.getElem?_eq_some_iff.1 h1).1, fun _ => (List.getElem?_eq_some_iff.1 h2).1⟩
    · have := (h3 u e).2
      rw [← Nat.not_le, ← Nat.not_le, ← List.getElem?_eq_none_iff, ← List.getElem?_eq_none_iff, this]
  have h4 := this s'.files.pcs.length
  have h5 := this s.files.pcs.length
  omega

/-- A step with the collections. -/
theorem Inv.used {e : Env} {s s' : State} (h : Inv e s) {t d : Nat} {a : Collection.Threads.Act} (hd : s.has t = some d)
    (hs : s.use e t d a = some s') : Inv e s' := by
  rw [State.use] at hs
  split at hs
  case isFalse => cases hs
  next hg =>
  rw [Bool.and_eq_true] at hg
  obtain ⟨hb, hal⟩ := hg
  rw [Option.map_eq_some_iff] at hs
  obtain ⟨⟨c, o⟩, hc, rfl⟩ := hs
  have ht := has_lt hd
  have hends := C89_ends (h.parts d) hc
  obtain ⟨_, _, _, _, -, -, -, -, -, -, -, hoth⟩ := hends
  have hout : ∀ u x, u ≠ t → outside (set s.parts d c x) u = outside (s.parts x) u := by
    intro u x hu
    by_cases ex : x = d
    · subst ex
      rw [set_self, outside, outside, (hoth u hu).1, (hoth u hu).2]
    · rw [set_ne _ _ ex]
  refine ⟨h.data, h.length, h.held, h.known, h.getting, ?_, ?_, ?_, ?_, ?_, ?_⟩
  · intro x
    by_cases ex : x = d
    · subst ex; simp only [set_self]; exact reached_more (h.parts x) hc
    · simp only [set_ne _ _ ex]; exact h.parts x
  · intro x
    by_cases ex : x = d
    · subst ex; simp only [set_self]; rw [length_pcs (h.parts x) hc]; exact h.partsLength x
    · simp only [set_ne _ _ ex]; exact h.partsLength x
  · intro u x hu hx
    by_cases eu : u = t
    · subst eu
      have ex : x ≠ d := fun ex => hx (ex ▸ hd)
      simp only [set_ne _ _ ex]; exact h.out u x hu hx
    · simp only [hout u x eu]; exact h.out u x hu hx
  · intro u x hx ho
    by_cases eu : u = t
    · subst eu; exact hb
    · simp only [hout u x eu] at ho; exact h.busy u x hx ho
  · intro u hu
    have eu : u ≠ t := by rintro rfl; rw [show s.has u = none from hu] at hd; cases hd
    simp only [set_ne _ _ eu]; exact h.empty u hu
  · intro x item
    have hsh : ∀ u, u ≠ t → share s x item u = share ⟨s.data, set s.parts d c, set s.logs d ((s.logs d).add o), s.mine,
        set s.items t (kept (s.items t) a o)⟩ x item u := by
      intro u eu
      simp only [share, set_ne _ _ eu]; rfl
    have hch := total_change ht hsh
    have hcount := h.count x item
    have hle := le_total (f := share s x item) ht
    by_cases ex : x = d
    · subst ex
      have e1 : share s x item t = (s.items t).count item := by simp [share, hd]
      have e2 : share ⟨s.data, set s.parts x c, set s.logs x ((s.logs x).add o), s.mine,
          set s.items t (kept (s.items t) a o)⟩ x item t = (kept (s.items t) a o).count item := by
        simp only [share, set_self]; exact if_pos hd
      simp only [set_self]
      rw [kept_items hc]
      rw [e1, e2] at hch
      rw [e1] at hle
      cases a with
      | release it =>
        simp only [kept, List.count_erase] at hch ⊢
        simp only [allowed, List.contains_iff_mem] at hal
        have := List.count_pos_iff.2 hal
        by_cases ei : it = item
        · subst ei; simp at hch ⊢; omega
        · simp [ei] at hch ⊢; omega
      | _ => simp only [kept, List.count_append] at hch ⊢; omega
    · have e1 : s.has t ≠ some x := by rw [hd]; simpa using Ne.symm ex
      have e2 : share s x item t = 0 := if_neg e1
      have e3 : share ⟨s.data, set s.parts d c, set s.logs d ((s.logs d).add o), s.mine,
          set s.items t (kept (s.items t) a o)⟩ x item t = 0 := if_neg e1
      simp only [set_ne _ _ ex]
      omega

theorem countP_taken {m : List (Option Got)} {t : Nat} {o : Option Got} (ht : m[t]? = some o) (x : Option Got) (h : Nat) :
    (m.set t x).countP (holds h) + (if holds h o then 1 else 0) = m.countP (holds h) + (if holds h x then 1 else 0) := by
  obtain ⟨hlt, he⟩ := List.getElem?_eq_some_iff.1 ht
  rw [List.countP_set hlt, he]
  have : holds h o = true → 0 < m.countP (holds h) := fun hh =>
    List.countP_pos_iff.2 ⟨o, he ▸ List.getElem_mem hlt, hh⟩
  by_cases hh : holds h o = true
  · have := this hh; simp only [hh, if_true]; omega
  · simp [hh]

theorem Inv.managed {e : Env} {s s' : State} (h : Inv e s) {t : Nat} {a : DataSet.Act} (hs : s.manage t a = some s') : Inv e s' := by
  have general : ∀ (ha : a ≠ .get) (ha' : ∀ p, a ≠ .release p), (if s.free t then (DataSet.step s.data t a).bind fun r =>
      (taken r.1.dataOf s.mine t r.2).map fun m => { s with data := r.1, mine := m } else none) = some s' → Inv e s' := by
    intro ha ha' hs
    split at hs
    case isFalse => cases hs
    next hf =>
    rw [Option.bind_eq_some_iff] at hs
    obtain ⟨⟨x, r⟩, h1, h2⟩ := hs
    rw [Option.map_eq_some_iff] at h2
    obtain ⟨m, h2, rfl⟩ := h2
    obtain ⟨hl, hd⟩ := does h.data h1
    have hsame := fun p d (e : s.data.dataOf p = some d) => DataSet.C37_same h.data.reached h1 e
    cases hd with
    | get => exact absurd rfl ha
    | release p => exact absurd rfl (ha' p)
    | null => cases h2
    | got p g1 g2 g3 g4 =>
      cases h2
      obtain ⟨pc, k1, k2⟩ := g3
      have hnone := h.getting t pc k1 k2
      have hlt := (List.getElem?_eq_some_iff.1 hnone).1
      obtain ⟨d, g2⟩ := g2
      refine h.move hl hf (fun u hu => List.getElem?_set_ne (Ne.symm hu)) (List.length_set ..) (fun q => ?_) hsame (fun g hg => ?_)
        (fun pc hpc hu => ?_) (.inl (h.empty t (by simp [State.has, hnone])))
      · have := countP_taken hnone (some ⟨p, x.dataOf p⟩) q
        show _ = List.countP (holds q) (s.mine.set t (some ⟨p, x.dataOf p⟩))
        rw [g1]
        simp only [holds, Bool.false_eq_true, if_false, decide_eq_true_eq] at this
        by_cases eq : q = p
        · subst eq; rw [Resource.set_self, h.held]; simp at this; omega
        · rw [Resource.set_ne _ _ eq, h.held]; rw [if_neg (Ne.symm eq)] at this; omega
      · rw [List.getElem?_set_self hlt] at hg; cases hg; exact ⟨d, g2, g2⟩
      · rw [g4 pc hpc] at hu; cases hu
    | other _ _ g1 g2 g3 g4 g5 =>
      have hm : m = s.mine := by
        cases r with
        | got p => exact absurd rfl (g3 p)
        | _ => cases h2; rfl
      subst hm
      refine h.move hl hf (fun _ _ => rfl) rfl (by rw [g4]; exact h.held) hsame
        (fun g hg => ?_) (fun pc hpc hu => ?_) (.inr rfl)
      · obtain ⟨d, k1, k2⟩ := h.known t g hg
        exact ⟨d, k1, hsame _ d k2⟩
      · obtain ⟨pc', k1, k2⟩ := g5 pc hpc hu
        exact h.getting t pc' k1 k2
  cases a with
  | get =>
    simp only [State.manage] at hs
    split at hs
    case isFalse => cases hs
    next hm =>
    rw [Option.map_eq_some_iff] at hs
    obtain ⟨⟨x, r⟩, h1, rfl⟩ := hs
    obtain ⟨hl, hd⟩ := does h.data h1
    have hsame := fun p d (e : s.data.dataOf p = some d) => DataSet.C37_same h.data.reached h1 e
    have hhas : s.has t = none := by simp [State.has, hm]
    cases hd with
    | get g1 =>
      exact h.move hl (by simp [State.free, hhas]) (fun _ _ => rfl) rfl (by rw [g1]; exact h.held) hsame
        (fun g hg => by rw [hm] at hg; cases hg) (fun _ _ _ => hm) (.inr rfl)
    | other _ _ g1 => exact absurd rfl g1
  | release p =>
    simp only [State.manage] at hs
    split at hs
    case h_2 => cases hs
    next g hm =>
    split at hs
    case isFalse => cases hs
    next hc =>
    obtain ⟨rfl, hi, hf⟩ := hc
    rw [Option.map_eq_some_iff] at hs
    obtain ⟨⟨x, r⟩, h1, rfl⟩ := hs
    obtain ⟨hl, hd⟩ := does h.data h1
    have hsame := fun p d (e : s.data.dataOf p = some d) => DataSet.C37_same h.data.reached h1 e
    have hlt := (List.getElem?_eq_some_iff.1 hm).1
    cases hd with
    | release _ g1 g2 =>
      refine h.move hl hf (fun u hu => List.getElem?_set_ne (Ne.symm hu)) (List.length_set ..) (fun q => ?_) hsame (fun g hg => ?_)
        (fun pc hpc hu => List.getElem?_set_self hlt) (.inl hi)
      · have := countP_taken hm none q
        rw [g2]
        simp only [holds, Bool.false_eq_true, if_false, decide_eq_true_eq] at this
        by_cases eq : q = g.handle
        · subst eq; rw [Resource.set_self, h.held]; simp at this; omega
        · rw [Resource.set_ne _ _ eq, h.held]; rw [if_neg (Ne.symm eq)] at this; omega
      · rw [List.getElem?_set_self hlt] at hg; cases hg
    | other _ _ _ g1 => exact absurd rfl (g1 _)
  | free => exact general nofun nofun hs
  | run => exact general nofun nofun hs
  | reload k => exact general nofun nofun hs
  | load ok => exact general nofun nofun hs

theorem Inv.step {e : Env} {s s' : State} (h : Inv e s) {t : Nat} {a : Act} (hs : step e s t a = some s') : Inv e s' := by
  cases a with
  | data a => exact h.managed hs
  | use a =>
    rw [Requests.step, Option.bind_eq_some_iff] at hs
    obtain ⟨d, hd, hs⟩ := hs
    exact h.used hd hs

theorem Inv.exec {e : Env} {sched : Schedule} : ∀ {s s' : State}, Inv e s → exec e s sched = some s' → Inv e s' := by
  induction sched with
  | nil => intro s s' h he; cases he; exact h
  | cons x rest ih =>
    intro s s' h he
    obtain ⟨t, a⟩ := x
    rw [Requests.exec, Option.bind_eq_some_iff] at he
    obtain ⟨s1, h1, he⟩ := he
    exact ih (h.step h1) he

theorem Start.inv {e : Env} {s : State} (h : Start e s) (hf : ∀ d, Enough (e.capacity d) (e.fuel d)) : Inv e s := by
  have hmine : ∀ t : Nat, s.mine[t]?.join = none := by
    intro t; rw [h.mine, List.getElem?_replicate]; split <;> rfl
  have hhas : ∀ t, s.has t = none := fun t => by rw [State.has, hmine]; rfl
  have hpcs : ∀ pc ∈ s.data.mgr.pcs, pc = .idle := by
    rw [h.data]; intro pc hpc; exact List.eq_of_mem_replicate hpc
  refine ⟨⟨⟨e.threads, [], by rw [h.data]; rfl⟩, ?_, ?_⟩, ?_, ?_, ?_, ?_, ?_, ?_, ?_, ?_, ?_, ?_⟩
  · intro _ x hx
    rw [h.data] at hx ⊢
    have : x = 0 := by simp only [DataSet.start, Resource.start] at hx; omega
    subst this; exact nofun
  · intro pc hpc hu; rw [hpcs pc hpc] at hu; cases hu
  · rw [h.mine, h.data]; simp [DataSet.start, Resource.start]
  · intro x
    rw [h.mine, h.data]
    symm
    show List.countP _ _ = 0
    rw [List.countP_eq_zero]
    intro o ho
    rw [List.eq_of_mem_replicate ho]; nofun
  · intro t g hg
    have := hmine t; rw [hg] at this; cases this
  · intro t pc hpc hu
    rw [hpcs pc (List.mem_of_getElem? hpc)] at hu; cases hu
  · intro d
    exact ⟨hf d, s.parts d, [], h.parts d, by rw [h.logs]; rfl⟩
  · intro d; rw [h.threads, h.mine]; simp
  · intro t d ht _
    rw [h.mine, List.length_replicate, ← h.threads d] at ht
    have h2 := (h.parts d).threads
    refine outside_iff.2 ⟨?_, ?_⟩
    · rw [List.getElem?_eq_some_iff]
      exact ⟨h2 ▸ ht, (h.parts d).cache.idle _ (List.getElem_mem _)⟩
    · rw [List.getElem?_eq_some_iff]
      exact ⟨ht, (h.parts d).files.idle _ (List.getElem_mem _)⟩
  · intro t d hd; rw [hhas] at hd; cases hd
  · intro t _; exact h.items t
  · intro d item
    rw [(h.parts d).items, total_zero]
    · rfl
    · intro t _; simp [share, hhas]

theorem Reached.inv {e : Env} {s : State} (h : Reached e s) : Inv e s := by
  obtain ⟨hf, s0, sched, h0, he⟩ := h
  exact (h0.inv hf).exec he

/-! ## C91 -/

/-- What a step of a get, release or reload changes. -/
theorem manage_data {s s' : State} {t : Nat} {a : DataSet.Act} (hs : s.manage t a = some s') :
    ∃ r, DataSet.step s.data t a = some (s'.data, r) ∧ s'.parts = s.parts ∧ s'.logs = s.logs ∧ s'.items = s.items ∧
      ((a = .get ∧ s'.mine = s.mine) ∨ (∃ p, a = .release p ∧ s'.mine = s.mine.set t none) ∨
        taken s'.data.dataOf s.mine t r = some s'.mine) := by
  have general : (if s.free t then (DataSet.step s.data t a).bind fun r =>
      (taken r.1.dataOf s.mine t r.2).map fun m => { s with data := r.1, mine := m } else none) = some s' →
      ∃ r, DataSet.step s.data t a = some (s'.data, r) ∧ s'.parts = s.parts ∧ s'.logs = s.logs ∧ s'.items = s.items ∧
      ((a = .get ∧ s'.mine = s.mine) ∨ (∃ p, a = .release p ∧ s'.mine = s.mine.set t none) ∨
        taken s'.data.dataOf s.mine t r = some s'.mine) := by
    intro hs
    split at hs
    case isFalse => cases hs
    rw [Option.bind_eq_some_iff] at hs
    obtain ⟨⟨x, r⟩, h1, h2⟩ := hs
    rw [Option.map_eq_some_iff] at h2
    obtain ⟨m, h2, rfl⟩ := h2
    exact ⟨r, h1, rfl, rfl, rfl, .inr (.inr h2)⟩
  cases a with
  | get =>
    simp only [State.manage] at hs
    split at hs
    case isFalse => cases hs
    rw [Option.map_eq_some_iff] at hs
    obtain ⟨⟨x, r⟩, h1, rfl⟩ := hs
    exact ⟨r, h1, rfl, rfl, rfl, .inl ⟨rfl, rfl⟩⟩
  | release p =>
    simp only [State.manage] at hs
    split at hs
    case h_2 => cases hs
    split at hs
    case isFalse => cases hs
    rw [Option.map_eq_some_iff] at hs
    obtain ⟨⟨x, r⟩, h1, rfl⟩ := hs
    exact ⟨r, h1, rfl, rfl, rfl, .inr (.inl ⟨p, rfl, rfl⟩)⟩
  | free => exact general hs
  | run => exact general hs
  | reload k => exact general hs
  | load ok => exact general hs

theorem use_data {e : Env} {s s' : State} {t d : Nat} {a : Collection.Threads.Act} (hs : s.use e t d a = some s') :
    s'.data = s.data ∧ s'.mine = s.mine ∧ ∀ x, x ≠ d → s'.parts x = s.parts x ∧ s'.logs x = s.logs x := by
  rw [State.use] at hs
  split at hs
  case isFalse => cases hs
  rw [Option.map_eq_some_iff] at hs
  obtain ⟨_, -, rfl⟩ := hs
  exact ⟨rfl, rfl, fun x hx => ⟨set_ne _ _ hx, set_ne _ _ hx⟩⟩

/-- C91: the gets, releases and reloads of the data set in a run with requests are those of a run without, so that C37 is about them. -/
theorem C91_data {e : Env} {sched : Schedule} : ∀ {s s' : State}, exec e s sched = some s' →
    DataSet.exec s.data (dataSteps sched) = some s'.data := by
  induction sched with
  | nil => intro s s' he; cases he; rfl
  | cons x rest ih =>
    intro s s' he
    obtain ⟨t, a⟩ := x
    rw [exec, Option.bind_eq_some_iff] at he
    obtain ⟨s1, h1, he⟩ := he
    cases a with
    | data a =>
      obtain ⟨r, h2, -⟩ := manage_data h1
      simp [dataSteps, DataSet.exec, h2, ih he]
    | use a =>
      rw [step, Option.bind_eq_some_iff] at h1
      obtain ⟨d, hd, h1⟩ := h1
      rw [dataSteps, ← (use_data h1).1]
      exact ih he

/-- C91: the data set of a request is there and has not been freed, as long as the request has not released it. Missing: requests
given NULL, see `C91_null_violated`. -/
theorem C91_alive_partial {e : Env} {s : State} (h : Reached e s) {t : Nat} {g : Got} (hm : s.mine[t]? = some (some g)) :
    ∃ d, g.data = some d ∧ s.data.dataOf g.handle = some d ∧ s.data.discarded d = 0 ∧ s.data.mgr.freed g.handle = 0 := by
  have h := h.inv
  obtain ⟨d, h1, h2⟩ := h.known t g hm
  refine ⟨d, h1, h2, (DataSet.C37_usable_partial h.data.reached h2).1 ?_⟩
  rw [h.held]
  exact List.countP_pos_iff.2 ⟨some g, List.mem_of_getElem? hm, by simp [holds]⟩

theorem stays_step {e : Env} {s s' : State} (h : Inv e s) {t u : Nat} {a : Act} (hs : step e s u a = some s') {g : Got}
    (hm : s.mine[t]? = some (some g)) (hn : u = t → ∀ p, a ≠ .data (.release p)) : s'.mine[t]? = some (some g) := by
  cases a with
  | data a =>
    obtain ⟨r, h1, -, -, -, h2⟩ := manage_data hs
    by_cases eu : u = t
    · subst eu
      rcases h2 with ⟨-, h2⟩ | ⟨p, rfl, -⟩ | h2
      · rw [h2]; exact hm
      · exact absurd rfl (hn rfl p)
      · obtain ⟨-, hd⟩ := does h.data h1
        cases hd with
        | got p _ _ g3 =>
          obtain ⟨pc, k1, k2⟩ := g3
          rw [h.getting u pc k1 k2] at hm; cases hm
        | null => simp [taken] at h2
        | get => simp only [taken, Option.some.injEq] at h2; rw [← h2]; exact hm
        | release => simp only [taken, Option.some.injEq] at h2; rw [← h2]; exact hm
        | other _ _ _ _ g3 =>
          cases r with
          | got p => exact absurd rfl (g3 p)
          | _ => simp only [taken, Option.some.injEq] at h2; rw [← h2]; exact hm
    · rcases h2 with ⟨-, h2⟩ | ⟨p, -, h2⟩ | h2
      · rw [h2]; exact hm
      · rw [h2, List.getElem?_set_ne eu]; exact hm
      · cases r with
        | got p =>
          cases p with
          | none => simp [taken] at h2
          | some p => simp only [taken, Option.some.injEq] at h2; rw [← h2, List.getElem?_set_ne eu]; exact hm
        | _ => simp only [taken, Option.some.injEq] at h2; rw [← h2]; exact hm
  | use a =>
    rw [step, Option.bind_eq_some_iff] at hs
    obtain ⟨d, hd, hs⟩ := hs
    rw [(use_data hs).2.1]; exact hm

/-- C91: a request has the same data set until it releases it, whatever is reloaded meanwhile. -/
theorem C91_stays {e : Env} {sched : Schedule} {t : Nat} {g : Got} : ∀ {s s' : State}, Reached e s → exec e s sched = some s' →
    s.mine[t]? = some (some g) → (∀ p, (t, Act.data (.release p)) ∉ sched) → s'.mine[t]? = some (some g) := by
  suffices hx : ∀ {s s' : State}, Inv e s → exec e s sched = some s' →
      s.mine[t]? = some (some g) → (∀ p, (t, Act.data (.release p)) ∉ sched) → s'.mine[t]? = some (some g) from
    fun {_ _} h => hx h.inv
  induction sched with
  | nil => intro s s' _ he hm _; cases he; exact hm
  | cons x rest ih =>
    intro s s' h he hm hn
    obtain ⟨u, a⟩ := x
    rw [exec, Option.bind_eq_some_iff] at he
    obtain ⟨s1, h1, he⟩ := he
    refine ih (h.step h1) he (stays_step h h1 hm ?_) fun p hp => hn p (List.mem_cons_of_mem _ hp)
    rintro rfl p rfl
    exact hn p List.mem_cons_self

theorem Reached.exec {e : Env} {s s' : State} {sched : Schedule} (h : Reached e s) (he : exec e s sched = some s') : Reached e s' := by
  obtain ⟨hf, s0, sched0, h0, h1⟩ := h
  refine ⟨hf, s0, sched0 ++ sched, h0, ?_⟩
  clear * - h1 he
  induction sched0 generalizing s0 with
  | nil => cases h1; exact he
  | cons x rest ih =>
    obtain ⟨t, a⟩ := x
    rw [Requests.exec, Option.bind_eq_some_iff] at h1
    obtain ⟨s1, h1, h2⟩ := h1
    rw [List.cons_append, Requests.exec, h1]
    exact ih _ h2

theorem Inv.items_mem {e : Env} {s : State} (h : Inv e s) {t d : Nat} (hd : s.has t = some d) {item : Held} (hi : item ∈ s.items t) :
    item ∈ (s.parts d).items := by
  have h1 := h.count d item
  have h2 := le_total (f := share s d item) (has_lt hd)
  rw [share, if_pos hd] at h2
  have h3 := List.count_pos_iff.2 hi
  exact List.count_pos_iff.1 (by omega)

/-- C91: from its get until its release a request sees one version of the data: whatever it gets meanwhile has the bytes that a read
of the item from the file of the data set it got at the start gives, no matter which reloads and which other requests there are. -/
theorem C91_version {e : Env} {s s' : State} (h : Reached e s) {t d p : Nat} (hm : s.mine[t]? = some (some ⟨p, some d⟩))
    {sched : Schedule} (he : exec e s sched = some s') (hn : ∀ p, (t, Act.data (.release p)) ∉ sched) {item : Held}
    (hi : item ∈ s'.items t) : loader (e.file d) (e.coll d) item.key = some ((s'.parts d).bytes item, none) := by
  have h2 := C91_stays h he hm hn
  have h' := (h.exec he).inv
  exact C89_bytes (h'.parts d) (h'.items_mem (has_iff.2 ⟨p, h2⟩) hi)

/-- C91: so these are the items of that file. -/
theorem C91_item {e : Env} {s s' : State} (h : Reached e s) {t d p : Nat} (hm : s.mine[t]? = some (some ⟨p, some d⟩))
    {sched : Schedule} (he : exec e s sched = some s') (hn : ∀ p, (t, Act.data (.release p)) ∉ sched) {item : Held}
    (hi : item ∈ s'.items t) {hd : Header} {read : Reader} (w : WellFormed (e.file d) hd read) (hc : e.coll d = fileColl hd read) :
    (∀ bytes, IsItem (e.file d) hd item.key bytes read → (s'.parts d).bytes item = bytes) ∧ ¬ NotIn hd item.key read := by
  have h2 := C91_stays h he hm hn
  have h' := (h.exec he).inv
  have hp := h'.parts d
  rw [hc] at hp
  exact C89_item w hp (h'.items_mem (has_iff.2 ⟨p, h2⟩) hi)

/-- C91: a step of a request does not change the collections of other data sets than the one it has. -/
theorem C91_apart {e : Env} {s s' : State} {t d : Nat} {a : Act} (hs : step e s t a = some s') (hd : ¬ Has s t d) :
    s'.parts d = s.parts d ∧ s'.logs d = s.logs d := by
  cases a with
  | data a =>
    obtain ⟨r, -, h1, h2, -⟩ := manage_data hs
    rw [h1, h2]; exact ⟨rfl, rfl⟩
  | use a =>
    rw [step, Option.bind_eq_some_iff] at hs
    obtain ⟨x, hx, hs⟩ := hs
    refine (use_data hs).2.2 d ?_
    rintro rfl
    exact hd (has_iff.1 hx)

/-- C91: when a data set is freed no request is in a call with it or has it or an item of it, and all its handles are in the pool. -/
theorem C91_freed {e : Env} {s : State} (h : Reached e s) {p d : Nat} (hd : s.data.dataOf p = some d) (hf : 0 < s.data.mgr.freed p) :
    (∀ t, ¬ Has s t d) ∧ Collection.Threads.Quiet (s.parts d) ∧ (s.parts d).items = [] ∧ (s.parts d).files.free.Perm (e.handles d) ∧
      ∀ i, (s.parts d).cache.locks i = none := by
  have hr := h
  have h := h.inv
  have hno : ∀ t, ¬ Has s t d := by
    rintro t ⟨q, hq⟩
    obtain ⟨x, h1, h2, -, h3⟩ := C91_alive_partial hr hq
    cases h1
    have := h.data.reached.inv.inj q p d h2 hd
    subst this
    simp only at h3
    omega
  have hhas : ∀ t, s.has t ≠ some d := fun t ht => hno t (has_iff.1 ht)
  have hq : Collection.Threads.Quiet (s.parts d) := by
    have hlen := (h.parts d).inv.threads
    constructor
    · intro pc hpc
      obtain ⟨t, ht⟩ := List.getElem?_of_mem hpc
      have hlt : t < s.mine.length := by
        rw [← h.partsLength d, hlen]; exact (List.getElem?_eq_some_iff.1 ht).1
      have := (outside_iff.1 (h.out t d hlt (hhas t))).1
      rw [ht] at this; cases this; rfl
    · intro pc hpc
      obtain ⟨t, ht⟩ := List.getElem?_of_mem hpc
      have hlt : t < s.mine.length := by
        rw [← h.partsLength d]; exact (List.getElem?_eq_some_iff.1 ht).1
      have := (outside_iff.1 (h.out t d hlt (hhas t))).2
      rw [ht] at this; cases this; rfl
  obtain ⟨h1, h2⟩ := C89_quiet (h.parts d) hq
  refine ⟨hno, hq, ?_, h1, fun i => (h2 i).1⟩
  rw [List.eq_nil_iff_forall_not_mem]
  intro item hi
  have h3 := List.count_pos_iff.2 hi
  rw [h.count d item, total_zero (f := share s d item) fun t _ => if_neg (hhas t)] at h3
  omega

/-- C91: while a request is in a call with its data set some request with that data set can go on, whatever the reloads do, if no read
of what is being read is undefined. -/
theorem C91_progress {e : Env} {s : State} (h : Reached e s) {t d : Nat} (hd : Has s t d) (ho : outside (s.parts d) t = false)
    (hu : ∀ pc ∈ (s.parts d).files.pcs, ∀ q, pc.asked = some q → loader (e.file d) q.1 q.2 ≠ none) :
    ∃ u a, Has s u d ∧ ∃ s', step e s u (.use a) = some s' := by
  have h := h.inv
  have hlen := (h.parts d).inv.threads
  have hlt := has_lt (has_iff.2 hd)
  have hq : ¬ Collection.Threads.Quiet (s.parts d) := by
    rintro ⟨h1, h2⟩
    have h3 : t < (s.parts d).files.pcs.length := by rw [h.partsLength]; exact hlt
    have : outside (s.parts d) t = true := outside_iff.2 ⟨by
      rw [List.getElem?_eq_some_iff]; exact ⟨hlen ▸ h3, h1 _ (List.getElem_mem _)⟩, by
      rw [List.getElem?_eq_some_iff]; exact ⟨h3, h2 _ (List.getElem_mem _)⟩⟩
    rw [ho] at this; cases this
  obtain ⟨u, a, ha, r, hr⟩ := C89_progress (h.parts d) hu hq
  obtain ⟨c, p, _, _, h1, h2, -, -, h3, -⟩ := C89_ends (h.parts d) hr
  have hout : outside (s.parts d) u = false := by
    by_contra hx
    rw [Bool.not_eq_false] at hx
    obtain ⟨k1, k2⟩ := outside_iff.1 hx
    rcases ha with rfl | rfl | ⟨fa, rfl⟩
    · simp [Collection.Threads.step, Cache.Threads.step, Cache.Threads.State.run, Cache.Threads.Pc.inside, k1] at hr
    · simp [Collection.Threads.step, k1] at hr
    · cases fa <;> simp [Collection.Threads.step, Collection.Reading.step, Collection.Reading.State.run, Collection.Reading.State.fault, k2] at hr
  have hult : u < s.mine.length := by rw [← h.partsLength d]; exact (List.getElem?_eq_some_iff.1 h2).1
  have hhas : s.has u = some d := by
    by_contra hx
    rw [h.out u d hult hx] at hout; cases hout
  refine ⟨u, a, has_iff.1 hhas, ?_⟩
  have hal : allowed (s.items u) a = true := by rcases ha with rfl | rfl | ⟨fa, rfl⟩ <;> rfl
  simp only [step, hhas, Option.bind_some, State.use, h.busy u d hhas hout, hal, hr]
  exact ⟨_, rfl⟩

/-- C91: a request that starts after a reload has returned reads the data set the reload made, provided no other reload was being
installed at the same time or later. Missing: reloads that overlap, and requests given NULL, see `C91_null_violated`. -/
theorem C91_later_partial {e : Env} {s s1 s2 s3 s4 s5 : State} (hr : Reached e s) {t u b ds : Nat} {k : DataSet.Kind}
    {rest mid : Schedule} {g : Got} (hph : s.data.phase t = .init k b ds) (hload : step e s t (.data (.load true)) = some s1)
    (hsole : Resource.Sole t s.data.mgr) (hrest : exec e s1 rest = some s2) (hdone : s2.data.mgr.pcs[t]? = some .idle)
    (hget : step e s2 u (.data .get) = some s3) (hmid : exec e s3 mid = some s4) (hbefore : s4.mine[u]? = some none)
    (hret : step e s4 u (.data .run) = some s5) (hgot : s5.mine[u]? = some (some g)) (hno : DataSet.NoReload (dataSteps rest))
    (hno' : DataSet.NoReload (dataSteps mid)) : g.data = some ds := by
  obtain ⟨r1, h1, -⟩ := manage_data (show s.manage t (.load true) = some s1 from hload)
  obtain ⟨r2, h2, -⟩ := manage_data (show s2.manage u .get = some s3 from hget)
  obtain ⟨r3, h3, -, -, -, h4⟩ := manage_data (show s4.manage u .run = some s5 from hret)
  rcases h4 with ⟨h4, -⟩ | ⟨p, h4, -⟩ | h4
  · cases h4
  · cases h4
  · have hlt := (List.getElem?_eq_some_iff.1 hbefore).1
    have same : s5.mine = s4.mine → g.data = some ds := fun e => by rw [e, hbefore] at hgot; cases hgot
    cases r3 with
    | got p =>
      cases p with
      | none => simp [taken] at h4
      | some p =>
        simp only [taken, Option.some.injEq] at h4
        rw [← h4, List.getElem?_set_self hlt] at hgot
        cases hgot
        exact DataSet.C37_later_partial hr.inv.data.reached hph h1 hsole (C91_data hrest) hdone h2 (C91_data hmid) h3 hno hno'
    | _ => simp only [taken, Option.some.injEq] at h4; exact same h4.symm

/-! ### Witnesses -/

/-- The first data set has one file, all later ones another, in which the third item is different. -/
def twoEnv : Env where
  file d := if d = 0 then Collection.Reading.twoFile else [9, 10, 11, 20, 21, 90, 91, 2, 7, 3, 8, 8]
  coll _ := Collection.Threads.twoColl
  capacity _ := 1
  fuel _ := 12
  handles _ := [4, 5, 6]
  threads := 3

def twoStart (sh : Cache.Shard CStr) : State :=
  ⟨DataSet.start 3, fun _ => Collection.Threads.new sh [4, 5, 6], fun _ => ⟨[], []⟩, List.replicate 3 none, fun _ => []⟩

theorem two_start {sh : Cache.Shard CStr} (h : Cache.shardInit [] 1 Collection.Threads.junk = some sh) : Start twoEnv (twoStart sh) :=
  ⟨rfl, fun _ => Collection.Threads.new_start h (show [4, 5, 6].Nodup by decide), fun _ => rfl, fun _ => rfl, rfl, fun _ => rfl⟩

theorem two_enough (d : Nat) : Enough (twoEnv.capacity d) (twoEnv.fuel d) := by show 2 * Nat.log2 2 + 2 ≤ 12; decide

/-- What can be seen: the data set and the items with their bytes of each thread, and how often the first three handles were freed. -/
structure Seen where
  mine : List (Option Got)
  items : List (List (UInt32 × CStr))
  freed : List Nat
deriving DecidableEq, Repr

def State.seen (s : State) : Seen where
  mine := s.mine
  items := (List.range s.mine.length).map fun t => (s.items t).map fun x => (x.key, (s.parts ((s.has t).getD 0)).bytes x)
  freed := (List.range 3).map s.data.mgr.freed

def tried {α : Type} (f : State → α) (sched : Schedule) : Option α :=
  (Cache.shardInit [] 1 Collection.Threads.junk).bind fun sh => (exec twoEnv (twoStart sh) sched).map f

def manages (l : DataSet.Schedule) : Schedule := l.map fun x => (x.1, .data x.2)
def uses (l : Collection.Threads.Schedule) : Schedule := l.map fun x => (x.1, .use x.2)

/-- A get of item 2 up to the moment a handle was taken, and the rest of it. -/
def opens (t h : Nat) : Schedule :=
  uses (((t, .get 2) :: Collection.Threads.runs t 3) ++ [(t, .load), (t, .file (.handle h))])
def closes (t : Nat) : Schedule := uses (Collection.Threads.reads t 4 ++ Collection.Threads.runs t 4)

/-- Thread 0 gets the data set and starts to get an item; before it reads it thread 1 reloads the data; thread 2 gets the new data set
and the same item of it; then thread 0 reads. -/
def versions : Schedule :=
  manages (DataSet.get 0) ++ opens 0 5 ++ manages (DataSet.reload 1 .file 9) ++ manages (DataSet.get 2) ++ opens 2 5 ++ closes 2 ++ closes 0

/-- Thread 0 has the item of the old file, thread 2 of the new one; the old data set is there. -/
example : tried State.seen versions = some ⟨[some ⟨0, some 0⟩, none, some ⟨1, some 1⟩], [[(2, [30, 31])], [], [(2, [90, 91])]], [0, 0, 0]⟩ := by
  decide +kernel

/-- After thread 0 has released the item and the data set, that is freed; thread 2 goes on. -/
def over : Schedule := versions ++ uses ((0, .release ⟨2, 0, 0⟩) :: Collection.Threads.runs 0 4) ++
  manages ((0, .release 0) :: DataSet.runs 0 5)

example : tried State.seen over = some ⟨[none, none, some ⟨1, some 1⟩], [[], [], [(2, [90, 91])]], [1, 0, 0]⟩ := by decide +kernel

/-- The data set cannot be released before the item, nor an item that another thread has. -/
example : tried State.seen (versions ++ manages [(0, .release 0)]) = none ∧ tried State.seen (versions ++ uses [(1, .release ⟨2, 0, 0⟩)]) = none := by
  decide +kernel

/-- The hypotheses of the theorems above are met in such histories. -/
theorem met {α : Type} {f : State → α} {sched : Schedule} {x : α} (h : tried f sched = some x) : ∃ s, Reached twoEnv s ∧ f s = x := by
  rw [tried, Option.bind_eq_some_iff] at h
  obtain ⟨sh, h1, h2⟩ := h
  rw [Option.map_eq_some_iff] at h2
  obtain ⟨s, h2, h3⟩ := h2
  exact ⟨s, ⟨two_enough, _, _, two_start h1, h2⟩, h3⟩

example : ∃ s, Reached twoEnv s ∧ s.mine[0]? = some (some ⟨0, some 0⟩) ∧ s.mine[2]? = some (some ⟨1, some 1⟩) ∧
    ⟨2, 0, 0⟩ ∈ s.items 0 ∧ ⟨2, 0, 0⟩ ∈ s.items 2 ∧ (s.parts 0).bytes ⟨2, 0, 0⟩ = [30, 31] ∧ (s.parts 1).bytes ⟨2, 0, 0⟩ = [90, 91] := by
  obtain ⟨s, h1, h2⟩ := met (f := fun s => (s.mine, s.items 0, s.items 2, (s.parts 0).bytes ⟨2, 0, 0⟩, (s.parts 1).bytes ⟨2, 0, 0⟩))
    (sched := versions) (x := ([some ⟨0, some 0⟩, none, some ⟨1, some 1⟩], [⟨2, 0, 0⟩], [⟨2, 0, 0⟩], [30, 31], [90, 91]))
    (by decide +kernel)
  simp only [Prod.mk.injEq] at h2
  obtain ⟨k1, k2, k3, k4, k5⟩ := h2
  exact ⟨s, h1, by rw [k1]; rfl, by rw [k1]; rfl, by rw [k2]; simp, by rw [k3]; simp, k4, k5⟩

/-- Those of `C91_freed`. -/
example : ∃ s, Reached twoEnv s ∧ s.data.dataOf 0 = some 0 ∧ 0 < s.data.mgr.freed 0 := by
  obtain ⟨s, h1, h2⟩ := met (f := fun s => (s.data.dataOf 0, s.data.mgr.freed 0)) (sched := over) (x := (some 0, 1)) (by decide +kernel)
  simp only [Prod.mk.injEq] at h2
  exact ⟨s, h1, h2.1, by rw [h2.2]; decide⟩

/-- Those of `C91_progress`: a request is in a read while a reload takes place. -/
example : ∃ s, Reached twoEnv s ∧ Has s 0 0 ∧ outside (s.parts 0) 0 = false ∧ between s.data 1 = false := by
  obtain ⟨s, h1, h2⟩ := met (f := fun s => (s.has 0, outside (s.parts 0) 0, between s.data 1))
    (sched := manages (DataSet.get 0) ++ opens 0 5 ++ manages (DataSet.reload 1 .file 3)) (x := (some 0, false, false)) (by decide +kernel)
  simp only [Prod.mk.injEq] at h2
  exact ⟨s, h1, has_iff.1 h2.1, h2.2.1, h2.2.2⟩

/-- What is to be seen in the next history. -/
structure Later where
  phase : DataSet.Phase
  pcs : List Resource.Pc
  done : Option Resource.Pc
  before : Option (Option Got)
  after : Option (Option Got)
deriving DecidableEq

/-- Those of `C91_later_partial`: thread 0 reads while thread 1 reloads, then thread 2 starts. -/
example : ∃ s s1 s2 s3 s4 s5, Reached twoEnv s ∧ s.data.phase 1 = .init .file 0 1 ∧ Resource.Sole 1 s.data.mgr ∧
    step twoEnv s 1 (.data (.load true)) = some s1 ∧ exec twoEnv s1 (manages (DataSet.runs 1 9)) = some s2 ∧
    s2.data.mgr.pcs[1]? = some .idle ∧ step twoEnv s2 2 (.data .get) = some s3 ∧ exec twoEnv s3 (manages (DataSet.runs 2 4)) = some s4 ∧
    s4.mine[2]? = some none ∧ step twoEnv s4 2 (.data .run) = some s5 ∧ s5.mine[2]? = some (some ⟨1, some 1⟩) := by
  obtain ⟨s, h1, h2⟩ := met (f := fun s =>
      (step twoEnv s 1 (.data (.load true))).bind fun s1 => (exec twoEnv s1 (manages (DataSet.runs 1 9))).bind fun s2 =>
        (step twoEnv s2 2 (.data .get)).bind fun s3 => (exec twoEnv s3 (manages (DataSet.runs 2 4))).bind fun s4 =>
          (step twoEnv s4 2 (.data .run)).map fun s5 =>
            (⟨s.data.phase 1, s.data.mgr.pcs, s2.data.mgr.pcs[1]?, s4.mine[2]?, s5.mine[2]?⟩ : Later))
    (sched := manages (DataSet.get 0 ++ (1, .reload .file) :: List.replicate 3 (1, .load true)))
    (x := some ⟨.init .file 0 1, [.idle, .idle, .idle], some .idle, some none, some (some ⟨1, some 1⟩)⟩) (by decide +kernel)
  simp only [Later.mk.injEq, Option.bind_eq_some_iff, Option.map_eq_some_iff] at h2
  obtain ⟨s1, k3, s2, k4, s3, k5, s4, k6, s5, k7, k1, k2, k8, k9, k10⟩ := h2
  refine ⟨s, s1, s2, s3, s4, s5, h1, k1, ?_, k3, k4, k8, k5, k6, k9, k7, k10⟩
  intro u pc _ hu
  rw [k2] at hu
  have := List.mem_of_getElem? hu
  simp only [List.mem_cons, List.not_mem_nil, or_false, or_self] at this
  rw [this]; rfl

/-- C91, counterexample: two reloads during the get of a data set, and the request is given NULL instead of a handle, which
`fiftyoneDegreesDataSetGet` dereferences. -/
theorem C91_null_violated : ∃ s x, Reached twoEnv s ∧ s.mine[0]? = some none ∧
    DataSet.step s.data 0 .run = some (x, .got none) ∧ step twoEnv s 0 (.data .run) = none := by
  obtain ⟨s, h1, h2⟩ := met (f := fun s => (s.mine[0]?, (DataSet.step s.data 0 .run).map (·.2), (step twoEnv s 0 (.data .run)).isNone))
    (sched := manages (((0, .get) :: DataSet.runs 0 1) ++ DataSet.reload 1 .memory 11 ++ DataSet.runs 0 3 ++
      DataSet.reload 1 .memory 11)) (x := (some none, some (.got none), true)) (by decide +kernel)
  simp only [Prod.mk.injEq, Option.map_eq_some_iff, Option.isNone_iff_eq_none] at h2
  obtain ⟨k1, ⟨⟨x, r⟩, k2, rfl⟩, k3⟩ := h2
  exact ⟨s, x, h1, k1, k2, k3⟩

end Verif.Requests
