import Verif.Resource.Props
import Verif.Pool.Progress

/-! # C106: calls of the resource manager are not held up by other threads -/

namespace Verif.Resource

open Verif.Pool (total total_le total_one total_zero)

/-! ## What is counted -/

/-- The number of calls started in a schedule. -/
def calls : Schedule → Nat
  | [] => 0
  | (_, .run) :: rest => calls rest
  | _ :: rest => calls rest + 1

/-- The number of memory accesses in a schedule, by all threads together. -/
def accesses : Schedule → Nat
  | [] => 0
  | (_, .run) :: rest => accesses rest + 1
  | _ :: rest => accesses rest

/-- Whether a step gave something back to the caller. -/
def Ret.ends : Ret → Nat
  | .nothing => 0
  | _ => 1

/-- The number of calls that return in a schedule. -/
def returns (s : State) : Schedule → Nat
  | [] => 0
  | (t, a) :: rest =>
    match step s t a with
    | none => 0
    | some (s, r) => r.ends + returns s rest

/-- The number of threads in a call. -/
def busy (s : State) : Nat := s.pcs.countP (· ≠ .idle)

/-- Whether the call a thread is in is a get or a release; these do not change the active handle. -/
def Pc.user : Pc → Bool
  | .idle | .freeNew _ | .swap .. => false
  | .inc c | .incActive c _ | .incSelf c _ _ | .incRead c _ | .incAddr c _ _ | .dec c _ | .decSelf c _ _ | .decRead c _ _
  | .decCheck c _ _ | .decFree c _ _ => c = .user

/-! ## How far a call is from its end -/

/-- The accesses after the decrement. -/
def Ctx.fin : Ctx → Nat
  | .free _ => 1
  | _ => 0

/-- The accesses after the increment. -/
def Ctx.tail : Ctx → Nat
  | .user => 0
  | c => 6 + c.fin

/-- The accesses a thread still needs when no other thread runs. -/
def left (counter : Nat → Counter) (active : Nat) : Pc → Nat
  | .idle => 0
  | .inc c => 5 + c.tail
  | .incActive c a => (if a = active then 4 else 9) + c.tail
  | .incSelf c a self => (if a = active ∧ self = (counter a).self then 3 else 8) + c.tail
  | .incRead c compare => (if counter active = compare then 2 else 7) + c.tail
  | .incAddr c compare a => (if counter a = compare then 1 else 6) + c.tail
  | .swap c _ => 6 + c.fin
  | .dec c _ => 5 + c.fin
  | .decSelf c p self => (if self = (counter p).self then 4 else 7) + c.fin
  | .decRead c p compare => (if counter p = compare then 3 else 6) + c.fin
  | .decCheck c _ _ => 2 + c.fin
  | .decFree c _ _ => 1 + c.fin
  | .freeNew _ => 1

/-- The changes of a counter or of the active handle a call may still make. -/
def changes : Pc → Nat
  | .idle | .freeNew _ => 0
  | .inc c | .incActive c _ | .incSelf c _ _ | .incRead c _ | .incAddr c _ _ => if c = .user then 1 else 4
  | .swap .. => 3
  | .dec .. | .decSelf .. | .decRead .. => 2
  | .decCheck .. | .decFree .. => 1

/-- One for a call. -/
def one (pc : Pc) : Nat := if pc = .idle then 0 else 1

theorem Ctx.tail_le (c : Ctx) : c.tail ≤ 7 ∧ c.fin ≤ 1 ∧ (c = .user → c.tail = 0 ∧ c.fin = 0) := by
  cases c <;> simp [Ctx.tail, Ctx.fin]

theorem left_le (counter : Nat → Counter) (active : Nat) (pc : Pc) :
    left counter active pc ≤ 16 ∧ (pc.user = true → left counter active pc ≤ 9) := by
  cases pc <;> simp only [left, Pc.user]
  case idle => simp
  case freeNew => simp
  case swap c _ => have := c.tail_le; exact ⟨by omega, by simp⟩
  all_goals
    obtain ⟨h1, h2, h3⟩ := Ctx.tail_le ‹Ctx›
    refine ⟨?_, fun hu => ?_⟩
  all_goals first | skip | (have h4 := h3 (of_decide_eq_true hu))
  all_goals first | omega | (split <;> omega) | (have h4 := h3 (of_decide_eq_true hu); first | omega | (split <;> omega))

theorem left_other (c c' : Nat → Counter) (a a' : Nat) (pc : Pc) : left c' a' pc ≤ left c a pc + 5 := by
  cases pc <;> simp only [left] <;> first | omega | (split <;> split <;> omega)

theorem left_zero {c : Nat → Counter} {a : Nat} {pc : Pc} (h : left c a pc = 0) : pc = .idle := by
  cases pc <;> simp only [left] at h <;> first | rfl | omega | (split at h <;> omega)

theorem pcs_goto (s : State) {t : Nat} {old : Pc} (pc : Pc) (h : s.pcs[t]? = some old) :
    (s.pcs.set t pc)[t]? = some pc ∧ (∀ u, u ≠ t → (s.pcs.set t pc)[u]? = s.pcs[u]?) ∧ (s.pcs.set t pc).length = s.pcs.length := by
  have ht : t < s.pcs.length := (List.getElem?_eq_some_iff.1 h).1
  exact ⟨by simp [ht], fun u hu => by rw [List.getElem?_set_ne (Ne.symm hu)], by simp⟩

/-- What an access does to the thread and whether others notice. -/
theorem access_pc {s s' : State} {t : Nat} {pc : Pc} {r : Ret} (h : access s t pc = some (s', r)) :
    ∃ pc', s'.pcs = s.pcs.set t pc' ∧ left s'.counter s'.active pc' + 1 ≤ left s.counter s.active pc ∧ one pc' + r.ends = 1 ∧
      changes pc' ≤ changes pc ∧
      ((s'.counter = s.counter ∧ s'.active = s.active) ∨ changes pc' + 1 ≤ changes pc) := by
  have hd : ∀ (c : Ctx) (k : Nat → Counter) (a : Nat), left k a (afterDec c).1 = c.fin ∧ one (afterDec c).1 + (afterDec c).2.ends = 1 ∧
      changes (afterDec c).1 = 0 := by
    intro c k a
    cases c <;> simp [afterDec, left, one, Ret.ends, changes, Ctx.fin]
  cases pc <;> simp only [access] at h
  case idle => simp at h
  case inc c =>
    simp at h; obtain ⟨rfl, rfl⟩ := h
    exact ⟨_, rfl, by simp [left, State.goto]; omega, by simp [one, Ret.ends], by simp [changes], .inl ⟨rfl, rfl⟩⟩
  case incActive c a =>
    simp at h; obtain ⟨rfl, rfl⟩ := h
    refine ⟨_, rfl, ?_, by simp [one, Ret.ends], by simp [changes], .inl ⟨rfl, rfl⟩⟩
    simp only [left, State.goto, State.touch, and_true]
    split <;> omega
  case incSelf c a self =>
    simp at h; obtain ⟨rfl, rfl⟩ := h
    refine ⟨_, rfl, ?_, by simp [one, Ret.ends], by simp [changes], .inl ⟨rfl, rfl⟩⟩
    show left s.counter s.active (.incRead c ⟨self, (s.counter a).inUse⟩) + 1 ≤ _
    simp only [left]
    by_cases h1 : a = s.active ∧ self = (s.counter a).self
    · obtain ⟨rfl, rfl⟩ := h1
      simp
      omega
    · rw [if_neg h1]
      split <;> omega
  case incRead c compare =>
    simp at h; obtain ⟨rfl, rfl⟩ := h
    refine ⟨_, rfl, ?_, by simp [one, Ret.ends], by simp [changes], .inl ⟨rfl, rfl⟩⟩
    simp only [left, State.goto, State.touch]
    by_cases h1 : s.counter s.active = compare <;> simp [h1] <;> omega
  case incAddr c compare a =>
    split at h
    · rename_i hc
      cases c <;> cases hq : compare.self <;> simp [hq] at h <;> obtain ⟨rfl, rfl⟩ := h
      all_goals
        refine ⟨_, rfl, ?_, by simp [one, Ret.ends], by simp [changes], .inr (by simp [changes])⟩
        simp [left, hc, Ctx.tail, Ctx.fin]
    · rename_i hc
      simp at h; obtain ⟨rfl, rfl⟩ := h
      refine ⟨_, rfl, ?_, by simp [one, Ret.ends], by simp [changes], .inl ⟨rfl, rfl⟩⟩
      simp [left, hc]; omega
  case swap c old =>
    have hg : ∀ n : Nat, (if s.active = old then { s with active := n, was := set s.was n true } else s).pcs = s.pcs := by
      intro n; split <;> rfl
    cases c <;> simp at h
    case replace n =>
      obtain ⟨rfl, rfl⟩ := h
      refine ⟨.dec (.replace n) old, ?_, by simp [left, Ctx.fin], by simp [one, Ret.ends], by simp [changes], .inr (by simp [changes])⟩
      simp only [State.goto, hg]
    case free n =>
      obtain ⟨rfl, rfl⟩ := h
      refine ⟨.dec (.free n) old, ?_, by simp [left, Ctx.fin], by simp [one, Ret.ends], by simp [changes], .inr (by simp [changes])⟩
      simp only [State.goto, hg]
  case dec c p =>
    simp at h; obtain ⟨rfl, rfl⟩ := h
    refine ⟨_, rfl, ?_, by simp [one, Ret.ends], by simp [changes], .inl ⟨rfl, rfl⟩⟩
    simp [left, State.goto, State.touch]; omega
  case decSelf c p self =>
    simp at h; obtain ⟨rfl, rfl⟩ := h
    refine ⟨_, rfl, ?_, by simp [one, Ret.ends], by simp [changes], .inl ⟨rfl, rfl⟩⟩
    show left s.counter s.active (.decRead c p ⟨self, (s.counter p).inUse⟩) + 1 ≤ _
    simp only [left]
    by_cases h1 : self = (s.counter p).self
    · subst h1; simp; omega
    · rw [if_neg h1]
      split <;> omega
  case decRead c p compare =>
    split at h
    · rename_i hc
      split at h <;> simp at h <;> obtain ⟨rfl, rfl⟩ := h
      · refine ⟨_, rfl, ?_, by simp [one, Ret.ends], by simp [changes], .inr (by simp [changes])⟩
        simp [left, hc]; omega
      · refine ⟨_, rfl, ?_, (hd c (fun _ => ⟨none, 0⟩) 0).2.1, ?_, .inr ?_⟩
        · rw [(hd c _ _).1]; simp [left, hc]; omega
        · simp [(hd c (fun _ => ⟨none, 0⟩) 0).2.2]
        · rw [(hd c (fun _ => ⟨none, 0⟩) 0).2.2]; simp [changes]
    · rename_i hc
      simp at h; obtain ⟨rfl, rfl⟩ := h
      refine ⟨_, rfl, ?_, by simp [one, Ret.ends], by simp [changes], .inl ⟨rfl, rfl⟩⟩
      simp [left, hc]; omega
  case decCheck c p d =>
    split at h <;> simp at h <;> obtain ⟨rfl, rfl⟩ := h
    · refine ⟨_, rfl, ?_, by simp [one, Ret.ends], by simp [changes], .inl ⟨rfl, rfl⟩⟩
      simp [left]; omega
    · refine ⟨_, rfl, ?_, (hd c (fun _ => ⟨none, 0⟩) 0).2.1, ?_, .inr ?_⟩
      · rw [(hd c _ _).1]; simp [left]; omega
      · simp [(hd c (fun _ => ⟨none, 0⟩) 0).2.2]
      · rw [(hd c (fun _ => ⟨none, 0⟩) 0).2.2]; simp [changes]
  case decFree c p d =>
    split at h
    · simp at h
    · split at h <;> simp at h <;> obtain ⟨rfl, rfl⟩ := h
      all_goals
        refine ⟨_, rfl, ?_, (hd c (fun _ => ⟨none, 0⟩) 0).2.1, ?_, .inr ?_⟩
        · rw [(hd c _ _).1]; simp only [left]; omega
        · simp [(hd c (fun _ => ⟨none, 0⟩) 0).2.2]
        · rw [(hd c (fun _ => ⟨none, 0⟩) 0).2.2]; simp [changes]
  case freeNew n =>
    simp at h; obtain ⟨rfl, rfl⟩ := h
    exact ⟨_, rfl, by simp [left], by simp [one, Ret.ends], by simp [changes], .inl ⟨rfl, rfl⟩⟩

/-- The thread's place, `idle` for a thread that does not exist. -/
def at' (s : State) (t : Nat) : Pc := (s.pcs[t]?).getD .idle

theorem busy_eq (s : State) : busy s = total (fun t => one (at' s t)) s.pcs.length := by
  have H : ∀ (l : List Pc), l.countP (· ≠ .idle) = total (fun t => one ((l[t]?).getD .idle)) l.length := by
    intro l
    induction l using List.reverseRecOn with
    | nil => rfl
    | append_singleton l x ih =>
      have h1 : total (fun t => one (((l ++ [x])[t]?).getD .idle)) l.length = total (fun t => one ((l[t]?).getD .idle)) l.length := by
        have h2 : ∀ u, u < l.length → (l ++ [x])[u]? = l[u]? := fun u hu => List.getElem?_append_left hu
        have a1 := total_le (f := fun t => one ((l[t]?).getD .idle)) (g := fun t => one (((l ++ [x])[t]?).getD .idle)) (d := 0)
          (n := l.length) (fun u hu => by simp only [h2 u hu]; omega)
        have a2 := total_le (g := fun t => one ((l[t]?).getD .idle)) (f := fun t => one (((l ++ [x])[t]?).getD .idle)) (d := 0)
          (n := l.length) (fun u hu => by simp only [h2 u hu]; omega)
        omega
      rw [List.countP_append, List.length_append, List.length_singleton, total, h1, ← ih]
      congr 1
      by_cases hx : x = .idle <;> simp [hx, one]
  exact H s.pcs

/-- What all threads together still need, with what their changes may cost the others. -/
def need (s : State) : Nat :=
  total (fun t => left s.counter s.active (at' s t) + (s.pcs.length - 1) * 5 * changes (at' s t)) s.pcs.length

theorem call_pc {s s' : State} {t : Nat} {a : Act} {r : Ret} (h : step s t a = some (s', r)) (ha : a ≠ .run) :
    s.pcs[t]? = some .idle ∧ r.ends = 0 ∧ ∃ pc', s'.pcs = s.pcs.set t pc' ∧ left s'.counter s'.active pc' ≤ 12 ∧ one pc' = 1 ∧
      ((s'.counter = s.counter ∧ s'.active = s.active) ∧ changes pc' ≤ 5 ∨ changes pc' ≤ 4) := by
  simp only [step, Option.bind_eq_bind] at h
  cases hp : s.pcs[t]? with
  | none => simp [hp] at h
  | some pc =>
    simp only [hp, Option.bind_some] at h
    cases a with
    | run => exact absurd rfl ha
    | callGet =>
      simp only at h
      split at h
      · rename_i hc
        simp at h; obtain ⟨rfl, rfl⟩ := h
        exact ⟨by rw [hc.1], rfl, _, rfl, by simp [left, Ctx.tail], by simp [one], .inl ⟨⟨rfl, rfl⟩, by simp [changes]⟩⟩
      · simp at h
    | callRelease p =>
      simp only at h
      split at h
      · rename_i hc
        simp at h; obtain ⟨rfl, rfl⟩ := h
        exact ⟨by rw [hc.1], rfl, _, rfl, by simp [left, Ctx.fin], by simp [one], .inl ⟨⟨rfl, rfl⟩, by simp [changes]⟩⟩
      · simp at h
    | callReplace =>
      simp only at h
      split at h
      · rename_i hc
        simp at h; obtain ⟨rfl, rfl⟩ := h
        exact ⟨by rw [hc.1], rfl, _, rfl, by simp [left, Ctx.tail, Ctx.fin], by simp [one], .inr (by simp [changes])⟩
      · simp at h
    | callFree =>
      simp only at h
      split at h
      · rename_i hc
        simp at h; obtain ⟨rfl, rfl⟩ := h
        exact ⟨by rw [hc.1], rfl, _, rfl, by simp [left, Ctx.tail, Ctx.fin], by simp [one], .inr (by simp [changes])⟩
      · simp at h

theorem at_set {s s' : State} {t : Nat} {old pc : Pc} (h : s.pcs[t]? = some old) (hs : s'.pcs = s.pcs.set t pc) :
    at' s' t = pc ∧ at' s t = old ∧ (∀ u, u ≠ t → at' s' u = at' s u) ∧ s'.pcs.length = s.pcs.length ∧ t < s.pcs.length := by
  obtain ⟨h1, h2, h3⟩ := pcs_goto s pc h
  refine ⟨by simp [at', hs, h1], by simp [at', h], fun u hu => by simp only [at', hs, h2 u hu], by rw [hs, h3],
    (List.getElem?_eq_some_iff.1 h).1⟩

theorem need_step {s s' : State} {t : Nat} {a : Act} {r : Ret} (h : step s t a = some (s', r)) :
    s'.pcs.length = s.pcs.length ∧ need s' + accesses [(t, a)] ≤ need s + 25 * s.pcs.length * calls [(t, a)] ∧
      busy s' + r.ends = busy s + calls [(t, a)] := by
  by_cases ha : a = .run
  · subst ha
    simp only [step, Option.bind_eq_bind] at h
    cases hp : s.pcs[t]? with
    | none => simp [hp] at h
    | some pc =>
      simp only [hp, Option.bind_some] at h
      have hidle : pc ≠ .idle := by rintro rfl; simp [access] at h
      obtain ⟨pc', e, h1, h2, h3, h4⟩ := access_pc h
      obtain ⟨f1, f2, f3, f4, f5⟩ := at_set hp e
      have o1 : one pc = 1 := by simp [one, hidle]
      refine ⟨f4, ?_, ?_⟩
      · simp only [accesses, calls, need, f4]
        generalize hn : s.pcs.length = n at f5
        rcases h4 with ⟨g1, g2⟩ | h4
        · have := total_one (f := fun t => left s.counter s.active (at' s t) + (n - 1) * 5 * changes (at' s t))
            (g := fun t => left s'.counter s'.active (at' s' t) + (n - 1) * 5 * changes (at' s' t)) (d := 0) f5
            (fun u _ hu => by simp only [f3 u hu, g1, g2]; omega)
          have hle : (n - 1) * 5 * changes pc' ≤ (n - 1) * 5 * changes pc := Nat.mul_le_mul_left _ h3
          simp only [f1, f2] at this
          simp only [Nat.mul_zero, Nat.add_zero] at this ⊢
          omega
        · have := total_one (f := fun t => left s.counter s.active (at' s t) + (n - 1) * 5 * changes (at' s t))
            (g := fun t => left s'.counter s'.active (at' s' t) + (n - 1) * 5 * changes (at' s' t)) (d := 5) f5
            (fun u _ hu => by
              simp only [f3 u hu]
              have := left_other s.counter s'.counter s.active s'.active (at' s u)
              omega)
          have hle : (n - 1) * 5 * (changes pc' + 1) ≤ (n - 1) * 5 * changes pc := Nat.mul_le_mul_left _ h4
          rw [Nat.mul_add, Nat.mul_one] at hle
          simp only [f1, f2] at this
          simp only [Nat.mul_zero, Nat.add_zero] at this ⊢
          omega
      · rw [busy_eq, busy_eq, f4]
        have a1 := total_one (f := fun t => one (at' s t)) (g := fun t => one (at' s' t)) (d := 0) f5
          (fun u _ hu => by simp only [f3 u hu]; omega)
        have a2 := total_one (f := fun t => one (at' s' t)) (g := fun t => one (at' s t)) (d := 0) f5
          (fun u _ hu => by simp only [f3 u hu]; omega)
        simp only [f1, f2, Nat.mul_zero, Nat.add_zero] at a1 a2
        simp only [calls]
        omega
  · obtain ⟨hp, hr, pc', e, h1, h2, h3⟩ := call_pc h ha
    obtain ⟨f1, f2, f3, f4, f5⟩ := at_set hp e
    have e0 : accesses [(t, a)] = 0 ∧ calls [(t, a)] = 1 := by
      cases a <;> first | exact ⟨rfl, rfl⟩ | exact absurd rfl ha
    have o1 : one Pc.idle = 0 := rfl
    have o2 : left s.counter s.active .idle = 0 ∧ changes .idle = 0 := ⟨rfl, rfl⟩
    rw [e0.1, e0.2]
    refine ⟨f4, ?_, ?_⟩
    · simp only [need, f4]
      generalize hn : s.pcs.length = n at f5
      rcases h3 with ⟨⟨g1, g2⟩, h3⟩ | h3
      · have := total_one (f := fun t => left s.counter s.active (at' s t) + (n - 1) * 5 * changes (at' s t))
          (g := fun t => left s'.counter s'.active (at' s' t) + (n - 1) * 5 * changes (at' s' t)) (d := 0) f5
          (fun u _ hu => by simp only [f3 u hu, g1, g2]; omega)
        have hle : (n - 1) * 5 * changes pc' ≤ (n - 1) * 5 * 5 := Nat.mul_le_mul_left _ h3
        simp only [f1, f2, o2.1, o2.2] at this
        simp only [Nat.mul_zero, Nat.add_zero, Nat.mul_one] at this ⊢
        omega
      · have := total_one (f := fun t => left s.counter s.active (at' s t) + (n - 1) * 5 * changes (at' s t))
          (g := fun t => left s'.counter s'.active (at' s' t) + (n - 1) * 5 * changes (at' s' t)) (d := 5) f5
          (fun u _ hu => by
            simp only [f3 u hu]
            have := left_other s.counter s'.counter s.active s'.active (at' s u)
            omega)
        have hle : (n - 1) * 5 * changes pc' ≤ (n - 1) * 5 * 4 := Nat.mul_le_mul_left _ h3
        simp only [f1, f2, o2.1, o2.2] at this
        simp only [Nat.mul_zero, Nat.add_zero, Nat.mul_one] at this ⊢
        omega
    · rw [busy_eq, busy_eq, f4]
      have a1 := total_one (f := fun t => one (at' s t)) (g := fun t => one (at' s' t)) (d := 0) f5
        (fun u _ hu => by simp only [f3 u hu]; omega)
      have a2 := total_one (f := fun t => one (at' s' t)) (g := fun t => one (at' s t)) (d := 0) f5
        (fun u _ hu => by simp only [f3 u hu]; omega)
      simp only [f1, f2, o1, Nat.mul_zero, Nat.add_zero] at a1 a2
      omega

theorem accesses_cons (c : Nat × Act) (rest : Schedule) : accesses (c :: rest) = accesses [c] + accesses rest := by
  obtain ⟨t, a⟩ := c
  cases a <;> simp [accesses] <;> omega

theorem calls_cons (c : Nat × Act) (rest : Schedule) : calls (c :: rest) = calls [c] + calls rest := by
  obtain ⟨t, a⟩ := c
  cases a <;> simp [calls] <;> omega

theorem need_exec : ∀ {sched : Schedule} {s s' : State}, exec s sched = some s' →
    s'.pcs.length = s.pcs.length ∧ need s' + accesses sched ≤ need s + 25 * s.pcs.length * calls sched ∧
      busy s' + returns s sched = busy s + calls sched := by
  intro sched
  induction sched with
  | nil => intro s s' he; cases he; simp [accesses, calls, returns]
  | cons c rest ih =>
    obtain ⟨t, a⟩ := c
    intro s s' he
    simp only [exec, Option.bind_eq_bind] at he
    cases hs : step s t a with
    | none => simp [hs] at he
    | some q =>
      obtain ⟨s1, r⟩ := q
      simp only [hs, Option.bind_some] at he
      obtain ⟨i0, i1, i2⟩ := ih he
      obtain ⟨j0, j1, j2⟩ := need_step hs
      rw [j0] at i1
      rw [accesses_cons, calls_cons, Nat.mul_add]
      simp only [returns, hs]
      exact ⟨by rw [i0, j0], by omega, by omega⟩

/-- A get or a release can go on. -/
theorem user_goes {s : State} (h : Inv s) {t : Nat} {pc : Pc} (hp : s.pcs[t]? = some pc) (hu : pc.user = true) :
    (step s t .run).isSome := by
  simp only [step, hp, Option.bind_eq_bind, Option.bind_some]
  cases pc <;> simp only [access] <;> simp [Pc.user] at hu <;> try (subst hu)
  case incAddr compare a => split <;> first | rfl | (cases compare.self <;> rfl)
  case decRead p compare => split <;> first | rfl | (split <;> rfl)
  case decCheck p d => split <;> rfl
  case decFree p d =>
    obtain ⟨e, -⟩ := h.last _ p d (List.mem_of_getElem? hp) rfl
    subst e
    simp only
    split <;> rfl
  all_goals rfl

theorem access_user {s s' : State} {t : Nat} {pc : Pc} {r : Ret} (h : access s t pc = some (s', r)) (hu : pc.user = true) :
    ∃ pc', s'.pcs = s.pcs.set t pc' ∧ (pc' = .idle ∨ pc'.user = true) := by
  cases pc <;> simp only [access] at h <;> simp [Pc.user] at hu <;> try (subst hu)
  case incAddr compare a =>
    split at h
    · cases hq : compare.self <;> simp [hq] at h <;> obtain ⟨rfl, rfl⟩ := h <;> exact ⟨_, rfl, .inl rfl⟩
    · simp at h; obtain ⟨rfl, rfl⟩ := h; exact ⟨_, rfl, .inr rfl⟩
  case decRead p compare =>
    split at h
    · split at h <;> simp at h <;> obtain ⟨rfl, rfl⟩ := h
      · exact ⟨_, rfl, .inr rfl⟩
      · exact ⟨_, rfl, .inl rfl⟩
    · simp at h; obtain ⟨rfl, rfl⟩ := h; exact ⟨_, rfl, .inr rfl⟩
  case decCheck p d =>
    split at h <;> simp at h <;> obtain ⟨rfl, rfl⟩ := h
    · exact ⟨_, rfl, .inr rfl⟩
    · exact ⟨_, rfl, .inl rfl⟩
  case decFree p d =>
    split at h
    · simp at h
    · split at h <;> simp at h <;> obtain ⟨rfl, rfl⟩ := h <;> exact ⟨_, rfl, .inl rfl⟩
  all_goals
    simp at h
    obtain ⟨rfl, rfl⟩ := h
    exact ⟨_, rfl, .inr rfl⟩

/-! ## Theorems -/

/-- C106 for the resource manager: whatever `n` threads do and in whatever order after the manager was initialised, the accesses
to memory are no more than `25 * n` for each call started, and each call that was started has returned or its thread is one of
those still in a call. So there is no way for the threads to go on for ever without a call returning. Each thread that is in a
get or a release can go on. -/
theorem C106_manager {n : Nat} {sched : Schedule} {s : State} (he : exec (start n) sched = some s) :
    accesses sched ≤ 25 * n * calls sched ∧ calls sched = returns (start n) sched + busy s ∧ busy s ≤ n ∧
      ∀ t pc, s.pcs[t]? = some pc → pc.user = true → (step s t .run).isSome := by
  obtain ⟨h0, h1, h2⟩ := need_exec he
  have hl : (start n).pcs.length = n := by simp [start]
  have hat : ∀ u, at' (start n) u = .idle := by
    intro u
    by_cases hu : u < n <;> simp [at', start, hu]
  have h3 : need (start n) = 0 := total_zero fun u _ => by simp [hat u, left, changes]
  have h4 : busy (start n) = 0 := by rw [busy_eq]; exact total_zero fun u _ => by simp [hat u, one]
  rw [hl] at h1
  refine ⟨by omega, by omega, ?_, fun t pc hp hu => user_goes (Reached.inv ⟨n, sched, he⟩) hp hu⟩
  calc busy s ≤ s.pcs.length := List.countP_le_length
    _ = n := by rw [h0, hl]

/-- C106 for the resource manager: a thread that is in a get or a release and runs alone returns after at most nine accesses,
wherever the other threads were stopped. -/
theorem C106_manager_alone {s : State} (h : Reached s) {t : Nat} {pc : Pc} (hp : s.pcs[t]? = some pc) (hu : pc.user = true) :
    ∃ k s', 1 ≤ k ∧ k ≤ 9 ∧ exec s (List.replicate k (t, .run)) = some s' ∧ s'.pcs[t]? = some .idle := by
  suffices H : ∀ m s pc, Inv s → s.pcs[t]? = some pc → pc.user = true → left s.counter s.active pc ≤ m → ∃ k s', 1 ≤ k ∧ k ≤ m ∧
      exec s (List.replicate k (t, .run)) = some s' ∧ s'.pcs[t]? = some .idle from
    H 9 s pc h.inv hp hu ((left_le _ _ _).2 hu)
  intro m
  induction m with
  | zero =>
    intro s pc _ _ hu hl
    rw [left_zero (Nat.le_zero.1 hl)] at hu
    simp [Pc.user] at hu
  | succ m ih =>
    intro s pc hi hp hu hl
    obtain ⟨⟨s1, r⟩, hs⟩ := Option.isSome_iff_exists.1 (user_goes hi hp hu)
    have ha : access s t pc = some (s1, r) := by
      simpa only [step, hp, Option.bind_eq_bind, Option.bind_some] using hs
    obtain ⟨p1, e1, u1⟩ := access_user ha hu
    obtain ⟨p2, e2, l2, -⟩ := access_pc ha
    have g1 := pcs_goto s p1 hp
    have g2 := pcs_goto s p2 hp
    rw [← e1] at g1
    rw [← e2] at g2
    have : p1 = p2 := Option.some.inj (g1.1.symm.trans g2.1)
    subst this
    rcases u1 with rfl | u1
    · exact ⟨1, s1, by omega, by omega, by simp [exec, hs], g1.1⟩
    · obtain ⟨k, s', k1, k2, e, e'⟩ := ih s1 p1 (hi.step hs).1 g1.1 u1 (by omega)
      refine ⟨k + 1, s', by omega, by omega, ?_, e'⟩
      rw [List.replicate_succ]
      simp only [exec, hs, Option.bind_eq_bind, Option.bind_some]
      exact e

/-- C106 for the resource manager: a replace that runs alone returns after at most eleven accesses, wherever the other threads were stopped,
and also when others are in the middle of replacing. Its resource is then the active one, nobody has lost what they have, and the resource
that was active is freed if nobody uses it, and nothing else is. -/
theorem C106_replace_alone {s : State} (h : Reached s) {t : Nat} (hp : s.pcs[t]? = some .idle) (ho : s.closed = false) :
    ∃ k s', 1 ≤ k ∧ k ≤ 11 ∧ exec s ((t, .callReplace) :: List.replicate k (t, .run)) = some s' ∧ s'.pcs[t]? = some .idle ∧
      (∀ u, u ≠ t → s'.pcs[u]? = s.pcs[u]?) ∧ s'.active = s.fresh ∧ s'.held = s.held ∧
      s'.freed = set s.freed s.active (if refs s s.active = 0 then 1 else 0) := by
  have hi := h.inv
  have hlt := hi.wasLt _ hi.act
  have hlen : t < s.pcs.length := (List.getElem?_eq_some_iff.1 hp).1
  obtain ⟨hc, hf⟩ : s.counter s.active = ⟨some s.active, refs s s.active⟩ ∧ s.freed s.active = 0 := by
    rcases hi.cnt _ hi.act with h1 | h1
    · exact h1
    · exact absurd rfl h1.2.2.2
  obtain ⟨counter, active, fresh, freed, gone, held, pcs, closed, uaf, was⟩ := s
  generalize hr : refs _ _ = n at *
  simp only at hlt hlen hc hf hp ho
  have hne : active ≠ fresh := by omega
  have hset : ∀ x, (pcs.set t x)[t]? = some x := fun x => by simp [hlen]
  have hset2 : ∀ x y, (pcs.set t x).set t y = pcs.set t y := fun x y => by simp
  suffices H : ∃ k, 1 ≤ k ∧ k ≤ 11 ∧ (exec ⟨counter, active, fresh, freed, gone, held, pcs, closed, uaf, was⟩
      ((t, .callReplace) :: List.replicate k (t, .run))).map (fun s => (s.pcs, s.active, s.held, s.freed)) =
      some (pcs.set t .idle, fresh, held, set freed active (if n = 0 then 1 else 0)) by
    obtain ⟨k, k1, k2, e⟩ := H
    obtain ⟨s', e1, e2⟩ := Option.map_eq_some_iff.1 e
    simp only [Prod.mk.injEq] at e2
    obtain ⟨e2, e3, e4, e5⟩ := e2
    refine ⟨k, s', k1, k2, e1, by rw [e2, hset], fun u hu => ?_, e3, e4, e5⟩
    rw [e2, List.getElem?_set_ne hu.symm]
  by_cases hn : n = 0
  · subst hn
    refine ⟨11, by decide, by decide, ?_⟩
    simp only [List.replicate, exec, step, hp, ho, Option.bind_eq_bind, Option.bind_some, State.setup, State.goto, State.touch, access, hset,
        hset2, and_self, if_true, set, hc, hne, if_false, Int.add_sub_cancel, afterDec, hf, Option.some.injEq, ne_eq, not_false_eq_true]
    simp [hset, hset2, hne, hf]
  · refine ⟨9, by decide, by decide, ?_⟩
    simp only [List.replicate, exec, step, hp, ho, Option.bind_eq_bind, Option.bind_some, State.setup, State.goto, State.touch, access, hset,
        hset2, and_self, if_true, set, hc, hne, if_false, Int.add_sub_cancel, afterDec, hf, Option.some.injEq, ne_eq, not_false_eq_true]
    simp [hset, hset2, hne, hn]
    funext x
    by_cases hx : x = active <;> simp [set, hx, hf]

/-- C106 for the resource manager: the call that frees the manager, made when no thread is getting or replacing, returns after at most twelve
accesses when it runs alone, wherever threads that release were stopped. The resource that was active is then freed if nobody uses it, and the
handle made for the call is freed. -/
theorem C106_free_alone {s : State} (h : Reached s) {t : Nat} (hp : s.pcs[t]? = some .idle) (ho : s.closed = false)
    (hg : ∀ pc ∈ s.pcs, pc.getting = false) :
    ∃ k s', 1 ≤ k ∧ k ≤ 12 ∧ exec s ((t, .callFree) :: List.replicate k (t, .run)) = some s' ∧ s'.pcs[t]? = some .idle ∧
      (∀ u, u ≠ t → s'.pcs[u]? = s.pcs[u]?) ∧ s'.closed = true ∧ s'.held = s.held ∧ s'.gone s.fresh = true ∧
      s'.freed = set s.freed s.active (if refs s s.active = 0 then 1 else 0) := by
  have hi := h.inv
  have hlt := hi.wasLt _ hi.act
  have hlen : t < s.pcs.length := (List.getElem?_eq_some_iff.1 hp).1
  obtain ⟨hc, hf⟩ : s.counter s.active = ⟨some s.active, refs s s.active⟩ ∧ s.freed s.active = 0 := by
    rcases hi.cnt _ hi.act with h1 | h1
    · exact h1
    · exact absurd rfl h1.2.2.2
  have hall : s.pcs.all (fun pc => !pc.getting) = true := by
    rw [List.all_eq_true]
    intro pc hm
    simp [hg pc hm]
  obtain ⟨counter, active, fresh, freed, gone, held, pcs, closed, uaf, was⟩ := s
  generalize hr : refs _ _ = n at *
  simp only at hlt hlen hc hf hp ho hall
  have hne : active ≠ fresh := by omega
  have hset : ∀ x, (pcs.set t x)[t]? = some x := fun x => by simp [hlen]
  have hset2 : ∀ x y, (pcs.set t x).set t y = pcs.set t y := fun x y => by simp
  suffices H : ∃ k, 1 ≤ k ∧ k ≤ 12 ∧ (exec ⟨counter, active, fresh, freed, gone, held, pcs, closed, uaf, was⟩
      ((t, .callFree) :: List.replicate k (t, .run))).map (fun s => (s.pcs, s.closed, s.held, s.gone fresh, s.freed)) =
      some (pcs.set t .idle, true, held, true, set freed active (if n = 0 then 1 else 0)) by
    obtain ⟨k, k1, k2, e⟩ := H
    obtain ⟨s', e1, e2⟩ := Option.map_eq_some_iff.1 e
    simp only [Prod.mk.injEq] at e2
    obtain ⟨e2, e3, e4, e5, e6⟩ := e2
    refine ⟨k, s', k1, k2, e1, by rw [e2, hset], fun u hu => ?_, e3, e4, e5, e6⟩
    rw [e2, List.getElem?_set_ne hu.symm]
  by_cases hn : n = 0
  · subst hn
    refine ⟨12, by decide, by decide, ?_⟩
    simp only [List.replicate, exec, step, hp, ho, hall, Option.bind_eq_bind, Option.bind_some, State.setup, State.goto, State.touch, access,
      hset, hset2, and_self, if_true, set, hc, hne, if_false, Int.add_sub_cancel, afterDec, ne_eq]
    simp [hset, hset2, hne, hf]
  · refine ⟨10, by decide, by decide, ?_⟩
    simp only [List.replicate, exec, step, hp, ho, hall, Option.bind_eq_bind, Option.bind_some, State.setup, State.goto, State.touch, access,
      hset, hset2, and_self, if_true, set, hc, hne, if_false, Int.add_sub_cancel, afterDec, ne_eq]
    simp [hset, hset2, hn]
    funext x
    by_cases hx : x = active <;> simp [set, hx, hf]

/-! ## Single calls are not bounded -/

/-- Thread 1 gets the resource between the read and the exchange of thread 0, and then releases it. -/
def overtaken (a : Nat) : Schedule :=
  runs 0 4 ++ get 1 ++ runs 0 1 ++ (1, .callRelease a) :: runs 1 4

/-- Thread 0 at the start of a get, thread 1 not in a call, nobody has the resource. -/
def Behind (s : State) : Prop :=
  s.pcs = [.inc .user, .idle] ∧ s.closed = false ∧ s.active = 0 ∧ s.counter 0 = ⟨some 0, 0⟩ ∧ s.held 0 = 0

theorem behind_again {s : State} (h : Behind s) : ∃ s', exec s (overtaken 0) = some s' ∧ Behind s' := by
  obtain ⟨h1, h2, h3, h4, h5⟩ := h
  obtain ⟨counter, active, fresh, freed, gone, held, pcs, closed, uaf, was⟩ := s
  simp only at h1 h2 h3 h4 h5
  subst h1 h2 h3
  simp [overtaken, runs, get, List.replicate, exec, step, access, State.goto, State.touch, set, h4, h5, Behind, afterDec]

theorem accesses_append (x y : Schedule) : accesses (x ++ y) = accesses x + accesses y := by
  induction x with
  | nil => simp [accesses]
  | cons c x ih =>
    obtain ⟨t, a⟩ := c
    cases a <;> simp [accesses, ih]
    omega

/-- The bound of `C106_manager` is for all calls together: for every number there is an execution of two threads in which a single get of
thread 0 has made that many accesses and has not returned, because the other thread gets and releases in between each time. -/
theorem C106_manager_overtaken (k : Nat) : ∃ sched s, exec (start 2) ((0, .callGet) :: sched) = some s ∧ s.pcs[0]? ≠ some .idle ∧
    (∀ c ∈ sched, c.1 < 2) ∧ (∀ c ∈ sched, c.1 = 0 → c.2 = .run) ∧ k ≤ accesses (sched.filter fun c => c.1 = 0) := by
  have key : ∀ k, ∃ sched s, exec (start 2) ((0, .callGet) :: sched) = some s ∧ Behind s ∧ (∀ c ∈ sched, c.1 < 2) ∧
      (∀ c ∈ sched, c.1 = 0 → c.2 = .run) ∧ k ≤ accesses (sched.filter fun c => c.1 = 0) := by
    intro k
    induction k with
    | zero => exact ⟨[], _, rfl, ⟨rfl, rfl, rfl, rfl, rfl⟩, by simp, by simp, by simp⟩
    | succ k ih =>
      obtain ⟨sched, s, e, b, c1, c2, c3⟩ := ih
      obtain ⟨s', e', b'⟩ := behind_again b
      refine ⟨sched ++ overtaken 0, s', ?_, b', fun c hc => ?_, fun c hc => ?_, ?_⟩
      · rw [← List.cons_append, exec_append, e]
        exact e'
      · rcases List.mem_append.1 hc with h | h
        · exact c1 c h
        · exact (by decide : ∀ c ∈ overtaken 0, c.1 < 2) c h
      · rcases List.mem_append.1 hc with h | h
        · exact c2 c h
        · exact (by decide : ∀ c ∈ overtaken 0, c.1 = 0 → c.2 = .run) c h
      · rw [List.filter_append, accesses_append]
        have : accesses ((overtaken 0).filter fun c => c.1 = 0) = 5 := by decide
        omega
  obtain ⟨sched, s, e, b, c1, c2, c3⟩ := key k
  exact ⟨sched, s, e, by rw [b.1]; simp, c1, c2, c3⟩

/-- A replace alone, while thread 0 has the resource: nine accesses, and it is not freed; a free alone with nobody using it: twelve. -/
example : ∃ s s' s'', exec (start 2) (get 0) = some s ∧ s.pcs[1]? = some .idle ∧ s.closed = false ∧
    exec s ((1, .callReplace) :: runs 1 9) = some s' ∧ s'.pcs[1]? = some .idle ∧ s'.active = 1 ∧ s'.freed 0 = 0 ∧
    exec (start 2) ((1, .callFree) :: runs 1 12) = some s'' ∧ s''.pcs[1]? = some .idle ∧ s''.freed 0 = 1 := by
  refine ⟨_, _, _, rfl, ?_, ?_, rfl, ?_, ?_, ?_, rfl, ?_⟩ <;> decide +kernel

/-- Two threads: a get of thread 0 that is overtaken by a whole replace of thread 1 before its exchange goes round once more and
returns. -/
example : ∃ s, exec (start 2) ((0, .callGet) :: runs 0 4 ++ replace 1 ++ runs 0 1) = some s ∧
    accesses ((0, .callGet) :: runs 0 4 ++ replace 1 ++ runs 0 1) = 16 ∧ calls ((0, .callGet) :: runs 0 4 ++ replace 1 ++ runs 0 1) = 2 ∧
    returns (start 2) ((0, .callGet) :: runs 0 4 ++ replace 1 ++ runs 0 1) = 1 ∧ busy s = 1 ∧ s.pcs[0]? = some (.inc .user) := by
  refine ⟨_, rfl, ?_⟩
  decide +kernel

/-- The thread alone from there: five more accesses. -/
example : ∃ s s', exec (start 2) ((0, .callGet) :: runs 0 4 ++ replace 1 ++ runs 0 1) = some s ∧ exec s (runs 0 5) = some s' ∧
    s'.pcs[0]? = some .idle ∧ s'.held 1 = 1 := by
  refine ⟨_, _, rfl, rfl, ?_⟩
  decide +kernel

end Verif.Resource
