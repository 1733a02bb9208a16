import Verif.Pool.Props

/-! # C106: calls of the pool are not held up by other threads -/

namespace Verif.Pool

/-! ## What is counted -/

/-- The number of calls started in a schedule. -/
def calls : Schedule → Nat
  | [] => 0
  | (_, .run _) :: rest => calls rest
  | _ :: rest => calls rest + 1

/-- The number of memory accesses in a schedule, by all threads together. -/
def accesses : Schedule → Nat
  | [] => 0
  | (_, .run _) :: rest => accesses rest + 1
  | _ :: rest => accesses rest

/-- Whether a step gave something back to the caller. -/
def Ret.ends : Ret → Nat
  | .nothing => 0
  | _ => 1

/-- The number of calls that return in a schedule. -/
def returns (s : State) : Schedule → Nat
  | [] => 0
  | (t, a) :: rest =>
    match step s t a with
    | none => 0
    | some (s, r) => r.ends + returns s rest

/-- A sum over the threads below `n`. -/
def total (f : Nat → Nat) : Nat → Nat
  | 0 => 0
  | n + 1 => total f n + f n

/-- The number of threads below `n` that are in a call. -/
def busy (s : State) (n : Nat) : Nat := total (fun t => if s.pc t = .idle then 0 else 1) n

/-! ## Sums -/

theorem total_le {f g : Nat → Nat} {d : Nat} : ∀ {n : Nat}, (∀ u, u < n → g u ≤ f u + d) → total g n ≤ total f n + n * d
  | 0, _ => by simp [total]
  | n + 1, h => by
    have h1 := total_le (n := n) fun u hu => h u (by omega)
    have h2 := h n (by omega)
    have h3 : (n + 1) * d = n * d + d := Nat.succ_mul n d
    simp only [total]
    omega

theorem total_one {f g : Nat → Nat} {d t : Nat} : ∀ {n : Nat}, t < n → (∀ u, u < n → u ≠ t → g u ≤ f u + d) →
    total g n + f t ≤ total f n + g t + (n - 1) * d
  | 0, h, _ => by omega
  | n + 1, ht, h => by
    simp only [total, Nat.add_sub_cancel]
    rcases Nat.lt_or_ge t n with h1 | h1
    · have h2 := total_one (n := n) h1 fun u hu => h u (by omega)
      have h3 := h n (by omega) (by omega)
      have h4 : n * d = (n - 1) * d + d := by
        rw [← Nat.succ_mul]; congr 1; omega
      omega
    · have h2 : t = n := by omega
      subst h2
      have h3 := total_le (n := t) fun u hu => h u (by omega) (by omega)
      omega

theorem total_zero {f : Nat → Nat} : ∀ {n : Nat}, (∀ u, u < n → f u = 0) → total f n = 0
  | 0, _ => rfl
  | n + 1, h => by simp only [total]; rw [total_zero fun u hu => h u (by omega), h n (by omega)]

/-! ## How far a call is from its end -/

/-- The accesses a thread still needs when no other thread runs. -/
def left (head : Head) : Pc → Nat
  | .idle => 0
  | .get | .release _ => 3
  | .getRead o _ | .releaseRead _ o _ => if head = o then 2 else 5
  | .getNext o _ _ | .releaseNext _ o _ => if head = o then 1 else 4

theorem left_le (head : Head) (pc : Pc) : left head pc ≤ 5 := by
  cases pc <;> simp only [left] <;> first | omega | (split <;> omega)

theorem left_other (a b : Head) (pc : Pc) : left b pc ≤ left a pc + 3 := by
  cases pc <;> simp only [left] <;> first | omega | (split <;> split <;> omega)

theorem left_zero {head : Head} {pc : Pc} (h : left head pc = 0) : pc = .idle := by
  cases pc <;> simp only [left] at h <;> first | rfl | omega | (split at h <;> omega)

/-- One exchange is left in each call. -/
def one (pc : Pc) : Nat := if pc = .idle then 0 else 1

theorem goto_self (s : State) (t : Nat) (pc : Pc) : (s.goto t pc).pc t = pc := by simp [State.goto, set]

theorem goto_other (s : State) {t u : Nat} (pc : Pc) (h : u ≠ t) : (s.goto t pc).pc u = s.pc u := by
  simp [State.goto, set, h]

/-- What an access does to the thread, to the head and to the other threads. -/
theorem access_spec {s s' : State} {t up : Nat} {r : Ret} (h : step s t (.run up) = some (s', r)) :
    s.pc t ≠ .idle ∧ (∀ u, u ≠ t → s'.pc u = s.pc u) ∧ left s'.head (s'.pc t) + 1 ≤ left s.head (s.pc t) ∧
      one (s'.pc t) + r.ends = 1 ∧ (s'.head = s.head ∨ s'.pc t = .idle) := by
  simp only [step] at h
  generalize hp : s.pc t = pc at h
  cases pc <;> simp only [access] at h
  all_goals first | (split at h) | skip
  all_goals simp at h
  all_goals obtain ⟨rfl, rfl⟩ := h
  all_goals refine ⟨by simp, fun u hu => ?_, ?_, ?_, ?_⟩
  all_goals first
    | (simp [State.goto, set, hu]; done)
    | (simp [State.goto, set, left, one, Ret.ends]; done)
    | (rename_i hc; simp [State.goto, set, left, one, Ret.ends, hc]; done)
    | (by_cases hh : s.head = ‹Head› <;> simp [State.goto, set, left, hh])

theorem call_spec {s s' : State} {t : Nat} {a : Act} {r : Ret} (h : step s t a = some (s', r)) (ha : ∀ up, a ≠ .run up) :
    s.pc t = .idle ∧ (∀ u, u ≠ t → s'.pc u = s.pc u) ∧ left s'.head (s'.pc t) = 3 ∧ one (s'.pc t) = 1 ∧ r.ends = 0 ∧
      s'.head = s.head := by
  cases a with
  | run up => exact absurd rfl (ha up)
  | callGet | callRelease i =>
    simp only [step] at h
    split at h
    · rename_i hc
      simp at h
      obtain ⟨rfl, rfl⟩ := h
      refine ⟨?_, fun u hu => by simp [State.goto, set, hu], by simp [State.goto, set, left], by simp [State.goto, set, one], rfl, rfl⟩
      first | exact hc | exact hc.1
    · simp at h

/-- What all threads together still need, with what their exchanges may cost the others. -/
def need (n : Nat) (s : State) : Nat := total (fun t => left s.head (s.pc t) + (n - 1) * 3 * one (s.pc t)) n

theorem need_step {n : Nat} {s s' : State} {t : Nat} {a : Act} {r : Ret} (ht : t < n) (h : step s t a = some (s', r)) :
    need n s' + accesses [(t, a)] ≤ need n s + 3 * n * calls [(t, a)] ∧
      busy s' n + r.ends = busy s n + calls [(t, a)] := by
  have hb : busy s' n = total (fun t => one (s'.pc t)) n ∧ busy s n = total (fun t => one (s.pc t)) n := ⟨rfl, rfl⟩
  rw [hb.1, hb.2]
  clear hb
  by_cases ha : ∃ up, a = .run up
  · obtain ⟨up, rfl⟩ := ha
    obtain ⟨h1, h2, h3, h4, h5⟩ := access_spec h
    have o1 : one (s.pc t) = 1 := by simp [one, h1]
    simp only [accesses, calls]
    constructor
    · rcases h5 with h5 | h5
      · have := total_one (f := fun t => left s.head (s.pc t) + (n - 1) * 3 * one (s.pc t))
          (g := fun t => left s'.head (s'.pc t) + (n - 1) * 3 * one (s'.pc t)) (d := 0) ht
          (fun u _ hu => by simp only [h2 u hu, h5]; omega)
        have hle : (n - 1) * 3 * one (s'.pc t) ≤ (n - 1) * 3 * one (s.pc t) := Nat.mul_le_mul_left _ (by omega)
        simp only [need]
        simp only [Nat.mul_zero, Nat.add_zero] at this ⊢
        omega
      · have := total_one (f := fun t => left s.head (s.pc t) + (n - 1) * 3 * one (s.pc t))
          (g := fun t => left s'.head (s'.pc t) + (n - 1) * 3 * one (s'.pc t)) (d := 3) ht
          (fun u _ hu => by
            simp only [h2 u hu]
            have := left_other s.head s'.head (s.pc u)
            omega)
        have e1 : one (s'.pc t) = 0 := by simp [one, h5]
        simp only [need]
        simp only [o1, e1, Nat.mul_one, Nat.mul_zero, Nat.add_zero] at this ⊢
        omega
    · have a1 := total_one (f := fun t => one (s.pc t)) (g := fun t => one (s'.pc t)) (d := 0) ht
        (fun u _ hu => by simp only [h2 u hu]; omega)
      have a2 := total_one (f := fun t => one (s'.pc t)) (g := fun t => one (s.pc t)) (d := 0) ht
        (fun u _ hu => by simp only [h2 u hu]; omega)
      simp only [Nat.mul_zero, Nat.add_zero] at a1 a2
      omega
  · have ha' : ∀ up, a ≠ .run up := fun up e => ha ⟨up, e⟩
    obtain ⟨h1, h2, h3, h4, h5, h6⟩ := call_spec h ha'
    have e0 : accesses [(t, a)] = 0 ∧ calls [(t, a)] = 1 := by
      cases a <;> first | exact ⟨rfl, rfl⟩ | exact absurd rfl (ha' _)
    have o1 : one (s.pc t) = 0 ∧ left s.head (s.pc t) = 0 := by simp [one, left, h1]
    rw [e0.1, e0.2]
    constructor
    · have := total_one (f := fun t => left s.head (s.pc t) + (n - 1) * 3 * one (s.pc t))
        (g := fun t => left s'.head (s'.pc t) + (n - 1) * 3 * one (s'.pc t)) (d := 0) ht
        (fun u _ hu => by simp only [h2 u hu, h6]; omega)
      simp only [need]
      simp only [h3, h4, o1.1, o1.2, Nat.mul_one, Nat.mul_zero, Nat.add_zero] at this ⊢
      omega
    · have a1 := total_one (f := fun t => one (s.pc t)) (g := fun t => one (s'.pc t)) (d := 0) ht
        (fun u _ hu => by simp only [h2 u hu]; omega)
      have a2 := total_one (f := fun t => one (s'.pc t)) (g := fun t => one (s.pc t)) (d := 0) ht
        (fun u _ hu => by simp only [h2 u hu]; omega)
      simp only [Nat.mul_zero, Nat.add_zero] at a1 a2
      omega

theorem accesses_cons (c : Nat × Act) (rest : Schedule) : accesses (c :: rest) = accesses [c] + accesses rest := by
  obtain ⟨t, a⟩ := c
  cases a <;> simp [accesses] <;> omega

theorem calls_cons (c : Nat × Act) (rest : Schedule) : calls (c :: rest) = calls [c] + calls rest := by
  obtain ⟨t, a⟩ := c
  cases a <;> simp [calls] <;> omega

theorem need_exec {n : Nat} : ∀ {sched : Schedule} {s s' : State}, (∀ c ∈ sched, c.1 < n) → exec s sched = some s' →
    need n s' + accesses sched ≤ need n s + 3 * n * calls sched ∧
      busy s' n + returns s sched = busy s n + calls sched := by
  intro sched
  induction sched with
  | nil => intro s s' _ he; cases he; simp [accesses, calls, returns]
  | cons c rest ih =>
    obtain ⟨t, a⟩ := c
    intro s s' hn he
    simp only [exec, Option.bind_eq_bind] at he
    cases hs : step s t a with
    | none => simp [hs] at he
    | some q =>
      obtain ⟨s1, r⟩ := q
      simp only [hs, Option.bind_some] at he
      obtain ⟨i1, i2⟩ := ih (fun c hc => hn c (List.mem_cons_of_mem _ hc)) he
      obtain ⟨j1, j2⟩ := need_step (n := n) (t := t) (hn (t, a) List.mem_cons_self) hs
      rw [accesses_cons, calls_cons, Nat.mul_add]
      simp only [returns, hs]
      omega

/-! ## Theorems -/

/-- C106 for the pool: whatever `n` threads do and in whatever order, and whatever the pool holds, the accesses to memory are no
more than `3 * n` for each call started, and each call that was started has returned or its thread is one of those still in a
call. So there is no way for the threads to go on for ever without a call returning. Each thread that is in a call can go on in
every state. -/
theorem C106_pool {n : Nat} {s s' : State} (hidle : ∀ t, s.pc t = .idle) {sched : Schedule} (hn : ∀ c ∈ sched, c.1 < n)
    (he : exec s sched = some s') :
    accesses sched ≤ 3 * n * calls sched ∧ calls sched = returns s sched + busy s' n ∧ busy s' n ≤ n ∧
      ∀ t up, s'.pc t ≠ .idle → (step s' t (.run up)).isSome := by
  obtain ⟨h1, h2⟩ := need_exec hn he
  have h3 : need n s = 0 := total_zero fun u _ => by simp [hidle u, left, one]
  have h4 : busy s n = 0 := total_zero fun u _ => by simp [hidle u]
  refine ⟨by omega, by omega, ?_, fun t up ht => ?_⟩
  · have := total_le (f := fun _ => 0) (g := fun t => if s'.pc t = .idle then 0 else 1) (d := 1) (n := n)
      (fun u _ => by split <;> omega)
    rw [total_zero (f := fun _ => 0) fun _ _ => rfl] at this
    simp only [busy]
    omega
  · simp only [step]
    generalize s'.pc t = pc at ht
    cases pc <;> simp only [access] <;> first | (exact absurd rfl ht) | rfl | (split <;> rfl)

/-- C106 for the pool: a thread that is in a call and runs alone returns after at most five accesses, wherever the other threads
were stopped. -/
theorem C106_pool_alone (s : State) (t up : Nat) (ht : s.pc t ≠ .idle) :
    ∃ k s', 1 ≤ k ∧ k ≤ 5 ∧ exec s (List.replicate k (t, .run up)) = some s' ∧ s'.pc t = .idle ∧ ∀ u, u ≠ t → s'.pc u = s.pc u := by
  suffices H : ∀ m s, s.pc t ≠ .idle → left s.head (s.pc t) ≤ m → ∃ k s', 1 ≤ k ∧ k ≤ m ∧
      exec s (List.replicate k (t, .run up)) = some s' ∧ s'.pc t = .idle ∧ ∀ u, u ≠ t → s'.pc u = s.pc u from
    H 5 s ht (left_le _ _)
  intro m
  induction m with
  | zero => intro s h1 h2; exact absurd (left_zero (Nat.le_zero.1 h2)) h1
  | succ m ih =>
    intro s h1 h2
    have h3 : (step s t (.run up)).isSome := by
      simp only [step]
      generalize s.pc t = pc at h1
      cases pc <;> simp only [access] <;> first | (exact absurd rfl h1) | rfl | (split <;> rfl)
    obtain ⟨⟨s1, r⟩, hs⟩ := Option.isSome_iff_exists.1 h3
    obtain ⟨-, b2, b3, -, -⟩ := access_spec hs
    by_cases h4 : s1.pc t = .idle
    · exact ⟨1, s1, by omega, by omega, by simp [exec, hs], h4, b2⟩
    · obtain ⟨k, s', k1, k2, e, e1, e2⟩ := ih s1 h4 (by omega)
      refine ⟨k + 1, s', by omega, by omega, ?_, e1, fun u hu => by rw [e2 u hu, b2 u hu]⟩
      rw [List.replicate_succ]
      simp only [exec, hs, Option.bind_eq_bind, Option.bind_some]
      exact e

/-! ## Single calls are not bounded -/

/-- Thread 1 gets and releases an item between the read and the exchange of thread 0. -/
def overtaken : Schedule :=
  [(0, .run 0), (0, .run 0), (1, .callGet), (1, .run 0), (1, .run 0), (1, .run 0), (1, .callRelease 1), (1, .run 0), (1, .run 0),
    (1, .run 0), (0, .run 0)]

/-- Thread 0 at the start of a get, thread 1 not in a call, item 1 on top. -/
def Behind (s : State) : Prop := s.pc 0 = .get ∧ s.pc 1 = .idle ∧ s.head.index = 1 ∧ s.resource 1 = true

theorem twice (a : Nat) : inc16 (inc16 a) ≠ a := by simp only [inc16]; omega

theorem behind_again {s : State} (h : Behind s) : ∃ s', exec s overtaken = some s' ∧ Behind s' := by
  obtain ⟨h1, h2, h3, h4⟩ := h
  obtain ⟨⟨i, a, u⟩, next, resource, pc, held, swaps⟩ := s
  simp only at h1 h2 h3 h4
  subst h3
  have := twice a
  simp [overtaken, exec, step, access, State.goto, set, h1, h2, h4, this, Behind]

theorem overtaken_often {s : State} (h : Behind s) (k : Nat) : ∃ sched s', exec s sched = some s' ∧ Behind s' ∧
    k ≤ accesses (sched.filter fun c => c.1 = 0) ∧ (∀ c ∈ sched, c.1 < 2) ∧ (∀ c ∈ sched, c.1 = 0 → ∃ up, c.2 = .run up) := by
  induction k with
  | zero => exact ⟨[], s, rfl, h, by simp [accesses], by simp, by simp⟩
  | succ k ih =>
    obtain ⟨sched, s1, a, b, c, c2, d⟩ := ih
    obtain ⟨s2, e, f⟩ := behind_again b
    refine ⟨sched ++ overtaken, s2, by rw [exec_append, a]; exact e, f, ?_, fun c hc => ?_, ?_⟩
    · have : ∀ x y : Schedule, accesses (x ++ y) = accesses x + accesses y := by
        intro x y
        induction x with
        | nil => simp [accesses]
        | cons c x ih => rw [List.cons_append, accesses_cons, ih, accesses_cons c x]; omega
      rw [List.filter_append, this]
      have h3 : accesses (overtaken.filter fun c => c.1 = 0) = 3 := by decide
      omega
    · rcases List.mem_append.1 hc with h1 | h1
      · exact c2 c h1
      · have h2 : ∀ c ∈ overtaken, c.1 < 2 := by decide
        exact h2 c h1
    · intro c hc h0
      rcases List.mem_append.1 hc with h1 | h1
      · exact d c h1 h0
      · simp [overtaken] at h1
        rcases h1 with rfl | rfl | rfl | rfl | rfl | rfl | rfl <;> simp at h0 ⊢

/-- The bound of `C106_pool` is for all calls together: for every number there is an execution of two threads with a pool of one
item in which a single get of thread 0 has made that many accesses and has not returned, because the other thread gets and
releases in between each time. -/
theorem C106_pool_overtaken (k : Nat) : ∃ s0 sched s, Created 1 s0 ∧ exec s0 ((0, .callGet) :: sched) = some s ∧ s.pc 0 ≠ .idle ∧
    (∀ c ∈ sched, c.1 < 2) ∧ (∀ c ∈ sched, c.1 = 0 → ∃ up, c.2 = .run up) ∧
    k ≤ accesses (sched.filter fun c => c.1 = 0) := by
  have h0 : ((poolOf 1).bind fun s => (step s 0 .callGet)).map (fun q => (q.1.pc 0, q.1.pc 1, q.1.head.index, q.1.resource 1)) =
      some (.get, .idle, 1, true) := rfl
  cases hp : poolOf 1 with
  | none => rw [hp] at h0; simp at h0
  | some s0 =>
    rw [hp] at h0
    simp only [Option.bind_some, Option.map_eq_some_iff, Prod.mk.injEq] at h0
    obtain ⟨⟨s1, r⟩, h1, h2, h3, h4, h5⟩ := h0
    obtain ⟨sched, s, e, b, c1, c2, c3⟩ := overtaken_often (s := s1) ⟨h2, h3, h4, h5⟩ k
    exact ⟨s0, sched, s, poolOf_created hp, by simp [exec, h1, e], by rw [b.1]; simp, c2, c3, c1⟩

/-- Four threads and two items, with an exchange that fails: four calls, three of which have returned, in 12 accesses, where the
theorem allows 48. -/
example : ∃ s0 s, (∀ t, s0.pc t = .idle) ∧ (∀ c ∈ contention, c.1 < 4) ∧ exec s0 contention = some s ∧
    accesses contention = 12 ∧ calls contention = 4 ∧ returns s0 contention = 3 ∧ busy s 4 = 1 := by
  have key : ((poolOf 2).bind fun s0 => (exec s0 contention).map fun s => (returns s0 contention, busy s 4)) = some (3, 1) := rfl
  cases hp : poolOf 2 with
  | none => rw [hp] at key; simp at key
  | some s0 =>
    rw [hp] at key
    simp only [Option.bind_some, Option.map_eq_some_iff, Prod.mk.injEq] at key
    obtain ⟨s, e, k1, k2⟩ := key
    refine ⟨s0, s, fun t => ?_, by decide, e, by decide, by decide, k1, k2⟩
    obtain ⟨p, q, created, -, -, -, rfl⟩ := poolOf_created hp
    rfl

/-- Thread 1 of the same schedule after the exchange of thread 2, alone: four accesses are needed. -/
example : ((poolOf 2).bind fun s0 => exec s0 (contention.take 7)).map (fun s => (decide (s.pc 1 = .idle), left s.head (s.pc 1))) =
    some (false, 4) := rfl

end Verif.Pool
