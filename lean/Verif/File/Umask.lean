import Verif.Base

/-! # C110: the file mode creation mask of the process, which `fileOpen` changes while it opens a file for writing -/

namespace Verif.File.Umask
open Verif

/-! ## Model -/

/-- The nine permission bits, those of the user first. -/
abbrev Mode := BitVec 9

/-- The mode of a file or directory made with the mode `req` when the process has this mask (POSIX `open`, `mkdir`
and `umask`). -/
def modeOf (req mask : Mode) : Mode := req &&& ~~~ mask

/-- What `fopen` asks for when it makes a file: read and write for user, group and others (POSIX). -/
def fopenMode : Mode := 0b110110110#9

/-- `S_IRUSR | S_IWUSR | S_IXUSR`, file.c:603. -/
def dirMode : Mode := 0b111000000#9

/-- Where a thread is in `fileOpen(fileName, handle, "wb")`, file.c:99-126 (not `_MSC_FULL_VER`). -/
inductive Pc where
  /-- Not in the function. -/
  | idle
  /-- After line 107. -/
  | saved (originalMask : Mode)
  /-- After line 110. -/
  | opened (originalMask : Mode)
deriving DecidableEq, Repr

/-- Who made a file or directory. -/
inductive By where
  /-- `fopen` in `fileOpen`. -/
  | opening
  /-- `mkdir` in `fiftyoneDegreesFileCreateDirectory`. -/
  | directory
  /-- Another part of the program, with the mode it asked for. -/
  | program (req : Mode)
deriving DecidableEq, Repr

/-- A file or directory made: who made it, its mode, and whether a thread was in `fileOpen` then. -/
structure Made where
  who : By
  mode : Mode
  during : Bool
deriving DecidableEq, Repr

/-- The mask belongs to the process and is shared by its threads. `made` lists what was made, the first first. -/
structure State where
  mask : Mode
  pcs : List Pc
  made : List Made
deriving DecidableEq, Repr

/-- What happens next. -/
inductive Act where
  /-- Thread `t` calls `fileOpen` for writing: `originalMask = umask(0)`, file.c:105-108. -/
  | start (t : Nat)
  /-- `fopen` of thread `t`, file.c:110. The file is made, or it is there already or cannot be made (`makes` is
  false), which the file system decides. -/
  | fopen (t : Nat) (makes : Bool)
  /-- `umask(originalMask)` of thread `t`, file.c:112-114; the function returns. -/
  | restore (t : Nat)
  /-- `mkdir` in `fiftyoneDegreesFileCreateDirectory`, file.c:595-604, of any thread, when it makes the directory. -/
  | mkdir
  /-- Another part of the program makes a file with the mode it asks for. -/
  | create (req : Mode)
deriving DecidableEq, Repr

/-- Some thread is between the two calls of `umask`. -/
def State.busy (s : State) : Bool := s.pcs.any (· ≠ .idle)

/-- Note something made with the mode `req`. -/
def State.make (s : State) (who : By) (req : Mode) : State :=
  { s with made := s.made ++ [⟨who, modeOf req s.mask, s.busy⟩] }

/-- One action; one that is not the thread's next is passed over. -/
def act (s : State) : Act → State
  | .start t =>
    match s.pcs[t]? with
    | some .idle => { s with mask := 0#9, pcs := s.pcs.set t (.saved s.mask) }
    | _ => s
  | .fopen t makes =>
    match s.pcs[t]? with
    | some (.saved m) =>
      let s' := { s with pcs := s.pcs.set t (.opened m) }
      if makes then s'.make .opening fopenMode else s'
    | _ => s
  | .restore t =>
    match s.pcs[t]? with
    | some (.opened m) => { s with mask := m, pcs := s.pcs.set t .idle }
    | _ => s
  | .mkdir => s.make .directory dirMode
  | .create req => s.make (.program req) req

/-- A history. -/
def run (s : State) : List Act → State
  | [] => s
  | a :: as => run (act s a) as

/-- The process before: `n` threads, none of them in the function. -/
def init (mask : Mode) (n : Nat) : State := ⟨mask, List.replicate n .idle, []⟩

/-! ## Specification -/

/-- No thread is in `fileOpen`. -/
def Rest (s : State) : Prop := ∀ p ∈ s.pcs, p = .idle

/-- The calls of the history do not overlap: each starts when no thread is in the function. -/
def OneByOne (s : State) : List Act → Prop
  | [] => True
  | a :: as => (∀ t, a = .start t → Rest s) ∧ OneByOne (act s a) as

/-- The calls of the history may overlap, but are nested: the first to return is the last one that started. `inside` are
the threads in the function, the last that started first. -/
def Nested (inside : List Nat) (s : State) : List Act → Prop
  | [] => True
  | .start t :: as => Nested (if s.pcs[t]? = some .idle then t :: inside else inside) (act s (.start t)) as
  | .restore t :: as =>
    ((∃ m, s.pcs[t]? = some (.opened m)) → inside.head? = some t ∧ Nested inside.tail (act s (.restore t)) as) ∧
    ((∀ m, s.pcs[t]? ≠ some (.opened m)) → Nested inside (act s (.restore t)) as)
  | a :: as => Nested inside (act s a) as

/-- What must hold of something made by a process whose mask is `mask`: a file opened for writing can be read and
written by everyone, a directory is for its user. -/
def Right (mask : Mode) (m : Made) : Prop :=
  match m.who with
  | .opening => m.mode = 0b110110110#9
  | .directory => m.mode = 0b111000000#9 &&& ~~~ mask
  | .program req => m.mode = req &&& ~~~ mask

/-- Something made with the mode asked for, or with that less the mask. -/
def Within (mask : Mode) (m : Made) : Prop :=
  match m.who with
  | .opening => m.mode = 0b110110110#9 ∨ m.mode = 0b110110110#9 &&& ~~~ mask
  | .directory => m.mode = 0b111000000#9 ∨ m.mode = 0b111000000#9 &&& ~~~ mask
  | .program req => m.mode = req ∨ m.mode = req &&& ~~~ mask

/-! ## Lemmas -/

theorem busy_false_iff (s : State) : s.busy = false ↔ Rest s := by
  simp [State.busy, Rest]

theorem modeOf_zero (req : Mode) : modeOf req 0#9 = req := by
  simp only [modeOf, BitVec.not_zero, BitVec.and_allOnes]

theorem run_append (s : State) (as bs : List Act) : run s (as ++ bs) = run (run s as) bs := by
  induction as generalizing s with
  | nil => rfl
  | cons a as ih => exact ih _

/-- The masks there can be in any history. -/
def Two (mask : Mode) (s : State) : Prop :=
  (s.mask = mask ∨ s.mask = 0#9) ∧
  (∀ p ∈ s.pcs, ∀ m, (p = .saved m ∨ p = .opened m) → (m = mask ∨ m = 0#9)) ∧
  ∀ x ∈ s.made, Within mask x

theorem made_two {mask : Mode} {s : State} (h : Two mask s) (who : By) (req : Mode)
    (hw : req = match who with | .opening => fopenMode | .directory => dirMode | .program r => r) :
    Two mask (s.make who req) := by
  obtain ⟨h1, h2, h3⟩ := h
  refine ⟨h1, h2, ?_⟩
  intro x hx
  simp only [State.make, List.mem_append, List.mem_singleton] at hx
  rcases hx with hx | rfl
  · exact h3 x hx
  · have e : modeOf req s.mask = req ∨ modeOf req s.mask = req &&& ~~~ mask := by
      rcases h1 with h1 | h1
      · right; rw [h1]; rfl
      · left; rw [h1]; exact modeOf_zero req
    cases who <;> (simp only at hw; simp only [Within]; subst hw; exact e)

theorem act_two {mask : Mode} {s : State} (h : Two mask s) (a : Act) : Two mask (act s a) := by
  have hset : ∀ t p, (∀ m, (p = .saved m ∨ p = .opened m) → (m = mask ∨ m = 0#9)) →
      ∀ x ∈ s.pcs.set t p, ∀ m, (x = .saved m ∨ x = .opened m) → (m = mask ∨ m = 0#9) := by
    intro t p hp x hx
    rcases List.mem_or_eq_of_mem_set hx with hx | rfl
    · exact h.2.1 x hx
    · exact hp
  cases a with
  | start t =>
    simp only [act]
    split
    · refine ⟨.inr rfl, hset t _ ?_, h.2.2⟩
      intro m hm
      simp only [Pc.saved.injEq, reduceCtorEq, or_false] at hm
      subst hm
      exact h.1
    · exact h
  | fopen t makes =>
    simp only [act]
    split
    · rename_i m hm
      have hm' := h.2.1 _ (List.mem_of_getElem? hm) m (.inl rfl)
      have h' : Two mask { s with pcs := s.pcs.set t (.opened m) } := by
        refine ⟨h.1, hset t _ ?_, h.2.2⟩
        intro k hk
        simp only [reduceCtorEq, Pc.opened.injEq, false_or] at hk
        subst hk
        exact hm'
      split
      · exact made_two h' _ _ rfl
      · exact h'
    · exact h
  | restore t =>
    simp only [act]
    split
    · rename_i m hm
      exact ⟨h.2.1 _ (List.mem_of_getElem? hm) m (.inr rfl), hset t _ (by simp), h.2.2⟩
    · exact h
  | mkdir => exact made_two h _ _ rfl
  | create req => exact made_two h _ _ rfl

theorem run_two {mask : Mode} {s : State} (h : Two mask s) (as : List Act) : Two mask (run s as) := by
  induction as generalizing s with
  | nil => exact h
  | cons a as ih => exact ih (act_two h a)

theorem init_two (mask : Mode) (n : Nat) : Two mask (init mask n) := by
  refine ⟨.inl rfl, ?_, by simp [init]⟩
  intro p hp m hm
  simp only [init, List.mem_replicate] at hp
  rw [hp.2] at hm
  simp at hm

/-- At most one thread is in the function: it has saved the mask of the process, and the mask is 0 meanwhile. -/
def One (mask : Mode) (s : State) : Prop :=
  ((Rest s ∧ s.mask = mask) ∨
    (s.mask = 0#9 ∧ ∃ (t : Nat) (p : Pc), s.pcs[t]? = some p ∧ (p = Pc.saved mask ∨ p = Pc.opened mask) ∧
      ∀ (u : Nat) (x : Pc), u ≠ t → s.pcs[u]? = some x → x = Pc.idle)) ∧
  ∀ x ∈ s.made, x.who = .opening ∨ x.during = false → Right mask x

theorem made_one {mask : Mode} {s : State} (h : One mask s) (who : By) (req : Mode)
    (hw : match who with
      | .opening => req = fopenMode ∧ s.mask = 0#9
      | .directory => req = dirMode
      | .program r => req = r) :
    One mask (s.make who req) := by
  obtain ⟨h1, h2⟩ := h
  refine ⟨h1, ?_⟩
  intro x hx hd
  simp only [State.make, List.mem_append, List.mem_singleton] at hx
  rcases hx with hx | rfl
  · exact h2 x hx hd
  · have hm : who ≠ .opening → s.mask = mask := by
      intro hne
      have hr : Rest s := (busy_false_iff s).mp (by simpa [hne] using hd)
      rcases h1 with h1 | ⟨-, t, p, hp, hq, -⟩
      · exact h1.2
      · have := hr p (List.mem_of_getElem? hp)
        subst this
        simp at hq
    cases who with
    | opening =>
      simp only at hw
      simp only [Right, hw.1, hw.2, modeOf_zero, fopenMode]
    | directory =>
      simp only at hw
      simp only [Right, hw, hm (by simp), modeOf, dirMode]
    | program r =>
      simp only at hw
      simp only [Right, hw, hm (by simp), modeOf]

theorem act_one {mask : Mode} {s : State} (h : One mask s) (a : Act) (ha : ∀ t, a = .start t → Rest s) :
    One mask (act s a) := by
  cases a with
  | start t =>
    have hr := ha t rfl
    simp only [act]
    split
    · rename_i ht
      have hlt : t < s.pcs.length := (List.getElem?_eq_some_iff.mp ht).1
      refine ⟨.inr ⟨rfl, t, .saved s.mask, by simp [hlt], ?_, ?_⟩, h.2⟩
      · left
        rcases h.1 with h1 | ⟨-, u, p, hp, hq, -⟩
        · rw [h1.2]
        · have := hr p (List.mem_of_getElem? hp)
          subst this
          simp at hq
      · intro u x hu hx
        rw [List.getElem?_set_ne (Ne.symm hu)] at hx
        exact hr x (List.mem_of_getElem? hx)
    · exact h
  | fopen t makes =>
    simp only [act]
    split
    · rename_i m hm
      have hlt : t < s.pcs.length := (List.getElem?_eq_some_iff.mp hm).1
      rcases h.1 with h1 | ⟨hz, u, p, hp, hq, ho⟩
      · have := h1.1 _ (List.mem_of_getElem? hm); simp at this
      · by_cases hu : t = u
        · subst hu
          rw [hm, Option.some.injEq] at hp
          subst hp
          simp only [Pc.saved.injEq, reduceCtorEq, or_false] at hq
          subst hq
          have h' : One m { s with pcs := s.pcs.set t (.opened m) } := by
            refine ⟨.inr ⟨hz, t, .opened m, by simp [hlt], .inr rfl, ?_⟩, h.2⟩
            intro u x hu hx
            simp only [List.getElem?_set_ne (Ne.symm hu)] at hx
            exact ho u x hu hx
          split
          · exact made_one h' _ _ ⟨rfl, hz⟩
          · exact h'
        · have := ho t _ hu hm; simp at this
    · exact h
  | restore t =>
    simp only [act]
    split
    · rename_i m hm
      have hlt : t < s.pcs.length := (List.getElem?_eq_some_iff.mp hm).1
      rcases h.1 with h1 | ⟨hz, u, p, hp, hq, ho⟩
      · have := h1.1 _ (List.mem_of_getElem? hm); simp at this
      · by_cases hu : t = u
        · subst hu
          rw [hm, Option.some.injEq] at hp
          subst hp
          simp only [reduceCtorEq, Pc.opened.injEq, false_or] at hq
          subst hq
          refine ⟨.inl ⟨?_, rfl⟩, h.2⟩
          intro x hx
          obtain ⟨v, hv⟩ := List.mem_iff_getElem?.mp hx
          by_cases hvt : v = t
          · subst hvt
            simp only [List.getElem?_set_self hlt, Option.some.injEq] at hv
            exact hv.symm
          · simp only [List.getElem?_set_ne (Ne.symm hvt)] at hv
            exact ho v x hvt hv
        · have := ho t _ hu hm; simp at this
    · exact h
  | mkdir => exact made_one h _ _ rfl
  | create req => exact made_one h _ _ rfl

theorem run_one {mask : Mode} {s : State} (h : One mask s) (as : List Act) (ho : OneByOne s as) :
    One mask (run s as) := by
  induction as generalizing s with
  | nil => exact h
  | cons a as ih => exact ih (act_one h a ho.1) ho.2

/-- The mask saved by a thread in the function. -/
def Pc.original : Pc → Option Mode
  | .idle => none
  | .saved m => some m
  | .opened m => some m

/-- With calls nested, the first one has saved the mask of the process and the others 0. -/
structure Stacked (mask : Mode) (inside : List Nat) (s : State) : Prop where
  nodup : inside.Nodup
  value : s.mask = if inside = [] then mask else 0#9
  pcs : ∀ t p, s.pcs[t]? = some p → p.original = if t ∈ inside then
    some (if inside.getLast? = some t then mask else 0#9) else none
  mem : ∀ t ∈ inside, t < s.pcs.length
  made : ∀ x ∈ s.made, x.who = .opening ∨ x.during = false → Right mask x

theorem original_none {p : Pc} : p.original = none ↔ p = .idle := by cases p <;> simp [Pc.original]

theorem Stacked.rest {mask : Mode} {inside : List Nat} {s : State} (h : Stacked mask inside s) (hr : Rest s) :
    inside = [] := by
  rcases inside with _ | ⟨t, inside⟩
  · rfl
  · have hlt := h.mem t (by simp)
    have hp := h.pcs t s.pcs[t] (by simp [hlt])
    rw [hr _ (List.getElem_mem hlt)] at hp
    simp [Pc.original] at hp

theorem Stacked.make {mask : Mode} {inside : List Nat} {s : State} (h : Stacked mask inside s) (who : By) (req : Mode)
    (hw : match who with
      | .opening => req = fopenMode ∧ s.mask = 0#9
      | .directory => req = dirMode
      | .program r => req = r) :
    Stacked mask inside (s.make who req) := by
  refine ⟨h.nodup, h.value, h.pcs, h.mem, ?_⟩
  intro x hx hd
  simp only [State.make, List.mem_append, List.mem_singleton] at hx
  rcases hx with hx | rfl
  · exact h.made x hx hd
  · have hm : who ≠ .opening → s.mask = mask := by
      intro hne
      have hr : Rest s := (busy_false_iff s).mp (by simpa [hne] using hd)
      rw [h.value, if_pos (h.rest hr)]
    cases who with
    | opening =>
      simp only at hw
      simp only [Right, hw.1, hw.2, modeOf_zero, fopenMode]
    | directory =>
      simp only at hw
      simp only [Right, hw, hm (by simp), modeOf, dirMode]
    | program r =>
      simp only at hw
      simp only [Right, hw, hm (by simp), modeOf]

theorem Stacked.start {mask : Mode} {inside : List Nat} {s : State} (h : Stacked mask inside s) (t : Nat) :
    Stacked mask (if s.pcs[t]? = some .idle then t :: inside else inside) (act s (.start t)) := by
  by_cases ht : s.pcs[t]? = some .idle
  · have e : act s (.start t) = { s with mask := 0#9, pcs := s.pcs.set t (.saved s.mask) } := by simp only [act, ht]
    rw [if_pos ht, e]
    have hlt : t < s.pcs.length := (List.getElem?_eq_some_iff.mp ht).1
    have hni : t ∉ inside := by
      intro hi
      have := h.pcs t _ ht
      simp [Pc.original, hi] at this
    refine ⟨List.nodup_cons.mpr ⟨hni, h.nodup⟩, by simp, ?_, ?_, h.made⟩
    · intro u p hp
      by_cases hu : u = t
      · subst hu
        simp only [List.getElem?_set_self hlt, Option.some.injEq] at hp
        subst hp
        simp only [Pc.original, List.mem_cons, true_or, if_true, h.value]
        cases inside with
        | nil => simp
        | cons a l =>
          have : (u :: a :: l).getLast? ≠ some u := by
            intro hx
            rw [List.getLast?_cons_cons] at hx
            exact hni (List.mem_of_getLast? hx)
          rw [if_neg this, if_neg (by simp)]
      · simp only [List.getElem?_set_ne (Ne.symm hu)] at hp
        rw [h.pcs u p hp]
        cases inside with
        | nil => simp [hu]
        | cons a l => rw [List.getLast?_cons_cons]; simp [hu]
    · intro u hu
      simp only [List.length_set]
      rcases List.mem_cons.mp hu with rfl | hu
      · exact hlt
      · exact h.mem u hu
  · rw [if_neg ht]
    have e : act s (.start t) = s := by
      simp only [act]
    rw [e]
    exact h

theorem Stacked.fopen {mask : Mode} {inside : List Nat} {s : State} (h : Stacked mask inside s) (t : Nat) (makes : Bool) :
    Stacked mask inside (act s (.fopen t makes)) := by
  simp only [act]
  split
  · rename_i m hm
    have hlt : t < s.pcs.length := (List.getElem?_eq_some_iff.mp hm).1
    have ht := h.pcs t _ hm
    have hi : t ∈ inside := by
      refine Classical.byContradiction fun hi => ?_
      simp [Pc.original, hi] at ht
    have hz : s.mask = 0#9 := by
      rw [h.value, if_neg (by rintro rfl; cases hi)]
    have h' : Stacked mask inside { s with pcs := s.pcs.set t (.opened m) } := by
      refine ⟨h.nodup, h.value, ?_, by simpa using h.mem, h.made⟩
      intro u p hp
      by_cases hu : u = t
      · subst hu
        simp only [List.getElem?_set_self hlt, Option.some.injEq] at hp
        subst hp
        exact ht
      · simp only [List.getElem?_set_ne (Ne.symm hu)] at hp
        exact h.pcs u p hp
    split
    · exact h'.make _ _ ⟨rfl, hz⟩
    · exact h'
  · exact h

theorem Stacked.restore {mask : Mode} {inside : List Nat} {s : State} (h : Stacked mask inside s) (t : Nat)
    (hm : ∃ m, s.pcs[t]? = some (.opened m)) (ht : inside.head? = some t) :
    Stacked mask inside.tail (act s (.restore t)) := by
  obtain ⟨m, hm⟩ := hm
  have hlt : t < s.pcs.length := (List.getElem?_eq_some_iff.mp hm).1
  have e : act s (.restore t) = { s with mask := m, pcs := s.pcs.set t .idle } := by simp only [act, hm]
  rw [e]
  cases inside with
  | nil => cases ht
  | cons a l =>
    simp only [List.head?_cons, Option.some.injEq] at ht
    subst ht
    have hp := h.pcs a _ hm
    have hn := List.nodup_cons.mp h.nodup
    simp only [Pc.original, List.mem_cons, true_or, if_true, Option.some.injEq] at hp
    show Stacked mask l _
    refine ⟨hn.2, ?_, ?_, ?_, h.made⟩
    · show m = _
      rw [hp]
      cases l with
      | nil => simp
      | cons b l =>
        have hx : (a :: b :: l).getLast? ≠ some a := by
          intro hx
          rw [List.getLast?_cons_cons] at hx
          exact hn.1 (List.mem_of_getLast? hx)
        rw [if_neg hx, if_neg (by simp)]
    · intro u p hu
      by_cases hua : u = a
      · subst hua
        simp only [List.getElem?_set_self hlt, Option.some.injEq] at hu
        subst hu
        simp [Pc.original, hn.1]
      · simp only [List.getElem?_set_ne (Ne.symm hua)] at hu
        rw [h.pcs u p hu]
        cases l with
        | nil => simp [hua]
        | cons b l => rw [List.getLast?_cons_cons]; simp [hua]
    · intro u hu
      simp only [List.length_set]
      exact h.mem u (by simp [hu])

theorem run_nested {mask : Mode} (as : List Act) (inside : List Nat) (s : State) (h : Stacked mask inside s)
    (hn : Nested inside s as) : ∃ inside', Stacked mask inside' (run s as) := by
  induction as generalizing inside s with
  | nil => exact ⟨inside, h⟩
  | cons a as ih =>
    cases a with
    | start t => exact ih _ _ (h.start t) hn
    | fopen t makes => exact ih _ _ (h.fopen t makes) hn
    | restore t =>
      by_cases hm : ∃ m, s.pcs[t]? = some (.opened m)
      · obtain ⟨h1, h2⟩ := hn.1 hm
        exact ih _ _ (h.restore t hm h1) h2
      · have hm' : ∀ m, s.pcs[t]? ≠ some (.opened m) := fun m hx => hm ⟨m, hx⟩
        have e : act s (.restore t) = s := by
          simp only [act]
        have h2 := hn.2 hm'
        simp only [run]
        rw [e] at h2 ⊢
        exact ih _ _ h h2
    | mkdir => exact ih _ _ (h.make _ _ rfl) hn
    | create req => exact ih _ _ (h.make _ _ rfl) hn

theorem init_rest (mask : Mode) (n : Nat) : Rest (init mask n) := by
  intro p hp
  simp only [init, List.mem_replicate] at hp
  exact hp.2

/-! ## Theorems -/

/-- C110, partial: when calls that open files for writing do not overlap, in any number of threads and whatever
else the program makes in between, the mask is the one the process had whenever no such call is in progress; the
files made by the calls can be read and written by everyone; and everything the program makes while no call is in
progress has the mode asked for less the mask. Missing: calls that overlap, see `C110_lost_violated` and
`C110_mode_violated`, and what is made during a call, see `C110_during_violated`. -/
theorem C110_restored_partial (mask : Mode) (n : Nat) (as : List Act) (h : OneByOne (init mask n) as) :
    (Rest (run (init mask n) as) → (run (init mask n) as).mask = mask) ∧
    ∀ x ∈ (run (init mask n) as).made, x.who = .opening ∨ x.during = false → Right mask x := by
  have h1 : One mask (run (init mask n) as) :=
    run_one ⟨.inl ⟨init_rest mask n, rfl⟩, by simp [init]⟩ as h
  refine ⟨fun hr => ?_, h1.2⟩
  rcases h1.1 with h2 | ⟨-, t, p, hp, hq, -⟩
  · exact h2.2
  · have := hr p (List.mem_of_getElem? hp)
    subst this
    simp at hq

/-- C110, partial: the same when calls overlap but are nested, each returning before those that started earlier. Missing:
as above, for other calls that overlap. -/
theorem C110_nested_partial (mask : Mode) (n : Nat) (as : List Act) (h : Nested [] (init mask n) as) :
    (Rest (run (init mask n) as) → (run (init mask n) as).mask = mask) ∧
    ∀ x ∈ (run (init mask n) as).made, x.who = .opening ∨ x.during = false → Right mask x := by
  have h0 : Stacked mask [] (init mask n) := by
    refine ⟨List.nodup_nil, rfl, ?_, by simp, by simp [init]⟩
    intro t p hp
    rw [init_rest mask n p (List.mem_of_getElem? hp)]
    simp [Pc.original]
  obtain ⟨inside, h1⟩ := run_nested as [] _ h0 h
  refine ⟨fun hr => ?_, h1.made⟩
  rw [h1.value, if_pos (h1.rest hr)]

/-- Two calls, one in the other. -/
example : Nested [] (init 0b000010010#9 2)
      [.start 0, .start 1, .fopen 1 true, .fopen 0 true, .restore 1, .restore 0, .create fopenMode] ∧
    (run (init 0b000010010#9 2)
      [.start 0, .start 1, .fopen 1 true, .fopen 0 true, .restore 1, .restore 0, .create fopenMode]).mask = 0b000010010#9 ∧
    ¬ OneByOne (init 0b000010010#9 2)
      [.start 0, .start 1, .fopen 1 true, .fopen 0 true, .restore 1, .restore 0, .create fopenMode] := by
  refine ⟨?_, by decide, ?_⟩
  · refine ⟨fun _ => ⟨rfl, fun _ => ⟨rfl, trivial⟩, fun hx => ?_⟩, fun hx => ?_⟩
    · exact absurd rfl (hx 0b000010010#9)
    · exact absurd rfl (hx 0#9)
  · intro h
    have := h.2.1 1 rfl (.saved 0b000010010#9) (by decide)
    cases this

/-- C110: in every history, calls overlapping or not, the mask is the one the process had or 0, so nothing is made
with fewer permissions than the mask gives it, and with no more than were asked for. -/
theorem C110_two (mask : Mode) (n : Nat) (as : List Act) :
    ((run (init mask n) as).mask = mask ∨ (run (init mask n) as).mask = 0#9) ∧
    ∀ x ∈ (run (init mask n) as).made, Within mask x :=
  have h := run_two (init_two mask n) as
  ⟨h.1, h.2.2⟩

/-- C110: a directory that the library makes is never open to the group or to others, in any history. -/
theorem C110_directory (mask : Mode) (n : Nat) (as : List Act) :
    ∀ x ∈ (run (init mask n) as).made, x.who = .directory → x.mode &&& 0b000111111#9 = 0#9 := by
  intro x hx hw
  have h := (C110_two mask n as).2 x hx
  simp only [Within, hw] at h
  rcases h with h | h
  · rw [h]; decide
  · rw [h, BitVec.and_assoc, BitVec.and_comm (~~~ mask), ← BitVec.and_assoc]
    have : 0b111000000#9 &&& 0b000111111#9 = 0#9 := by decide
    rw [this, BitVec.zero_and]

/-- C110: a mask that was lost stays lost: when it is 0, with no call in progress, nothing the library does
later gives the process its mask back. -/
theorem C110_stays (s : State) (hr : Rest s) (hz : s.mask = 0#9) (as : List Act) : (run s as).mask = 0#9 := by
  have h : Two 0#9 { s with made := [] } := by
    refine ⟨.inl hz, ?_, by simp⟩
    intro p hp m hm
    rw [hr p hp] at hm
    simp at hm
  have key : ∀ (as : List Act) (s s' : State), s.mask = s'.mask → s.pcs = s'.pcs →
      (run s as).mask = (run s' as).mask := by
    intro as
    induction as with
    | nil => intro s s' h1 _; exact h1
    | cons a as ih =>
      intro s s' h1 h2
      have hstep : (act s a).mask = (act s' a).mask ∧ (act s a).pcs = (act s' a).pcs := by
        cases a with
        | start t => simp only [act, h2]; split <;> simp_all
        | fopen t makes => simp only [act, h2]; split <;> cases makes <;> simp_all [State.make]
        | restore t => simp only [act, h2]; split <;> simp_all
        | mkdir => simp [act, State.make, h1, h2]
        | create req => simp [act, State.make, h1, h2]
      exact ih _ _ hstep.1 hstep.2
  rw [key as s { s with made := [] } rfl rfl]
  rcases (run_two h as).1 with h | h <;> exact h

/-- C110 is violated: two calls overlap. Both return, and the process is left with no mask: a file the program
then makes for its user only by mask (here mask 0077) can be read and written by everyone. -/
theorem C110_lost_violated : ∃ (mask : Mode) (as : List Act), mask = 0b000111111#9 ∧
    Rest (run (init mask 2) as) ∧ (run (init mask 2) as).mask = 0#9 ∧
    (act (run (init mask 2) as) (.create fopenMode)).made.getLast? =
      some ⟨.program fopenMode, fopenMode, false⟩ := by
  refine ⟨_, [.start 0, .start 1, .fopen 0 true, .fopen 1 true, .restore 0, .restore 1], rfl, ?_, ?_, ?_⟩
  · unfold Rest; decide
  · decide
  · decide

/-- C110 is violated: a file that another thread makes during a call has permissions the mask should take. -/
theorem C110_during_violated : ∃ (mask : Mode) (as : List Act), OneByOne (init mask 1) as ∧
    ∃ x ∈ (run (init mask 1) as).made, x.who = .program fopenMode ∧ ¬ Right mask x := by
  refine ⟨0b000111111#9, [.start 0, .create fopenMode, .fopen 0 true, .restore 0], ?_,
    ⟨.program fopenMode, fopenMode, true⟩, by decide, rfl, ?_⟩
  · refine ⟨fun _ _ => init_rest _ _, ?_, ?_, ?_, trivial⟩ <;> (intro t ht; simp at ht)
  · simp only [Right]; decide

/-- C110 is violated: when calls overlap, a file made for everyone may be made with the mask of the process. -/
theorem C110_mode_violated : ∃ (mask : Mode) (as : List Act),
    ∃ x ∈ (run (init mask 2) as).made, x.who = .opening ∧ ¬ Right mask x := by
  refine ⟨0b000111111#9, [.start 0, .start 1, .fopen 0 true, .restore 0, .fopen 1 true, .restore 1],
    ⟨.opening, 0b110000000#9, true⟩, by decide, rfl, ?_⟩
  simp only [Right]; decide

/-- Two calls one after the other in two threads, with a file and a directory in between. -/
example : OneByOne (init 0b000010010#9 2)
      [.start 0, .fopen 0 true, .restore 0, .create fopenMode, .mkdir, .start 1, .fopen 1 false, .restore 1] ∧
    (run (init 0b000010010#9 2)
      [.start 0, .fopen 0 true, .restore 0, .create fopenMode, .mkdir, .start 1, .fopen 1 false, .restore 1]) =
      ⟨0b000010010#9, [.idle, .idle], [⟨.opening, 0b110110110#9, true⟩, ⟨.program fopenMode, 0b110100100#9, false⟩,
        ⟨.directory, 0b111000000#9, false⟩]⟩ := by
  refine ⟨⟨fun _ _ => init_rest _ _, ?_, ?_, ?_, ?_, ?_, ?_, ?_, trivial⟩, by decide⟩
  all_goals intro t ht
  all_goals first
    | (simp at ht; done)
    | (unfold Rest; decide)

example : Rest ⟨0#9, [.idle, .idle], []⟩ := by unfold Rest; decide

end Verif.File.Umask
