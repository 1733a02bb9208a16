import Verif.Pool.Lemmas
import Mathlib.Data.List.Induction

/-! # Properties of the resource pool: C09, C10, C55 -/

namespace Verif.Pool

/-! ## Creation and destruction -/

/-- The calls of `resourceCreate` that are made: up to the first that fails. -/
def made : List (Option Nat × Bool) → List (Option Nat)
  | [] => []
  | (r, ok) :: rest => if ok then r :: made rest else [r]

theorem initLoop_spec : ∀ (created : List (Option Nat × Bool)) (p : Pool) (i : Nat), 1 ≤ i → p.count + 1 = i →
    p.head.index + 1 = i →
    let q := (initLoop p i created).1
    q.stack = p.stack ∧ q.count = p.count + (made created).length ∧ q.head.index = p.head.index + (made created).length ∧
    q.head.aba = p.head.aba ∧
    (∀ j, j < i → q.resource j = p.resource j ∧ q.next j = p.next j) ∧
    (∀ j (h : j < (made created).length), q.resource (i + j) = (made created)[j] ∧ q.next (i + j) + 1 = i + j) ∧
    (∀ j, i + (made created).length ≤ j → q.resource j = p.resource j) := by
  intro created
  induction created with
  | nil => intro p i h1 h2 h3; simp [initLoop, made]
  | cons c rest ih =>
    obtain ⟨r, ok⟩ := c
    intro p i h1 h2 h3
    cases ok with
    | false =>
      simp only [initLoop, made, Bool.false_eq_true, if_false]
      refine ⟨trivial, by simp, by simp; omega, trivial, ?_, ?_, ?_⟩
      · intro j hj; simp [set_ne _ _ (show j ≠ i by omega)]
      · intro j hj
        have : j = 0 := by simpa using hj
        subst this
        simp; omega
      · intro j hj; simp at hj; exact set_ne _ _ (by omega)
    | true =>
      simp only [initLoop, made, if_true]
      generalize hp : ({ p with
        resource := set p.resource i r, count := p.count + 1, next := set p.next i p.head.index,
        head := { p.head with index := i } } : Pool) = p1
      have e1 : p1.count = p.count + 1 := by subst hp; rfl
      have e2 : p1.head.index = i := by subst hp; rfl
      have e3 : p1.resource = set p.resource i r := by subst hp; rfl
      have e4 : p1.next = set p.next i p.head.index := by subst hp; rfl
      have e5 : p1.stack = p.stack := by subst hp; rfl
      have e6 : p1.head.aba = p.head.aba := by subst hp; rfl
      obtain ⟨a1, a2, a3, a4, a5, a6, a7⟩ := ih p1 (i + 1) (by omega) (by omega) (by omega)
      refine ⟨by rw [a1, e5], by rw [a2, e1]; simp; omega, by rw [a3, e2]; simp; omega, by rw [a4, e6], ?_, ?_, ?_⟩
      · intro j hj
        obtain ⟨b1, b2⟩ := a5 j (by omega)
        rw [b1, b2, e3, e4, set_ne _ _ (show j ≠ i by omega), set_ne _ _ (show j ≠ i by omega)]
        exact ⟨rfl, rfl⟩
      · intro j hj
        cases j with
        | zero =>
          obtain ⟨b1, b2⟩ := a5 i (by omega)
          simp only [Nat.add_zero, List.getElem_cons_zero]
          rw [b1, b2, e3, e4, set_self, set_self]
          exact ⟨rfl, h3⟩
        | succ j =>
          have := a6 j (by simpa using hj)
          simp only [List.getElem_cons_succ]
          rw [show i + (j + 1) = i + 1 + j by omega]
          exact this
      · intro j hj
        simp at hj
        rw [a7 j (by omega), e3]
        exact set_ne _ _ (by omega)

theorem freeLoop_spec (p : Pool) : ∀ (l : List (Option Nat)) (i : Nat), (∀ j (h : j < l.length), p.resource (i + j) = l[j]) →
    freeLoop p i l.length = l.filterMap id := by
  intro l
  induction l with
  | nil => intro i _; rfl
  | cons r l ih =>
    intro i h
    have h0 := h 0 (by simp)
    simp at h0
    have hl := ih (i + 1) fun j hj => by
      have := h (j + 1) (by simpa using hj)
      rw [show i + 1 + j = i + (j + 1) by omega]; simpa using this
    cases r <;> simp [freeLoop, h0, hl]

/-- C55: whatever `resourceCreate` gives and wherever it fails, freeing the pool passes exactly the resources created to
`resourceFree`, each as often as it was created and in the order of creation (for up to 65534 items). Missing: larger numbers,
see `C55_wraps_violated`. -/
theorem C55_freed_partial (p : Pool) (memory : Bool) (created : List (Option Nat × Bool)) (hc : created.length < 65535) :
    ∃ q, init p memory created = some q ∧
      free q = if memory then (made created).filterMap id else [] := by
  cases memory with
  | false => exact ⟨_, rfl, by simp [free]⟩
  | true =>
    simp only [init, if_true]
    rw [if_neg (by omega)]
    refine ⟨_, rfl, ?_⟩
    generalize hp : ({ p with
      count := 0, head := ⟨0, 0, 0⟩, stack := true, resource := set p.resource 0 none } : Pool) = p1
    have e0 : p1.resource 0 = none := by subst hp; simp
    obtain ⟨a1, a2, a3, a4, a5, a6, a7⟩ := initLoop_spec created p1 1 (by omega) (by subst hp; rfl) (by subst hp; rfl)
    generalize hq : (initLoop p1 1 created).1 = q at *
    have hst : q.stack = true := by rw [a1]; subst hp; rfl
    have hcount : q.count = (made created).length := by rw [a2]; subst hp; simp
    simp only [free, hst, if_true, hcount]
    have := freeLoop_spec q (none :: made created) 0 (by
      intro j hj
      cases j with
      | zero => simpa [(a5 0 (by omega)).1] using e0
      | succ j =>
        have := (a6 j (by simpa using hj)).1
        simp only [Nat.zero_add, List.getElem_cons_succ]
        rw [Nat.add_comm]; exact this)
    simpa using this

/-- Memory with arbitrary contents. -/
def anyPool : Pool := ⟨true, ⟨9, 9, 9⟩, 9, fun i => some i, fun _ => 9⟩

/-- Three resources, the creation of the third fails and leaves a resource nevertheless, the fourth is not created. -/
example : ((init anyPool true [(some 7, true), (none, true), (some 8, false), (some 9, true)]).map free) =
    some [7, 8] := by decide

/-- A pool for 65535 concurrent users is not initialised: the item count wraps to zero. -/
theorem C55_wraps_violated (p : Pool) (created : List (Option Nat × Bool)) (h : created.length = 65535) :
    init p true created = none := by
  simp [init, h]

/-! ## Threads -/

/-- The pool as the threads start: created with `n` resources without any failure. -/
def Created (n : Nat) (s : State) : Prop :=
  ∃ (p q : Pool) (created : List (Option Nat × Bool)), created.length = n ∧ (∀ c ∈ created, c.1.isSome ∧ c.2 = true) ∧
    init p true created = some q ∧ s = start q

theorem made_all {created : List (Option Nat × Bool)} (h : ∀ c ∈ created, c.1.isSome ∧ c.2 = true) :
    made created = created.map (·.1) := by
  induction created with
  | nil => rfl
  | cons c rest ih =>
    obtain ⟨r, ok⟩ := c
    have h1 := h (r, ok) List.mem_cons_self
    simp only at h1
    simp [made, h1.2, ih fun c hc => h c (List.mem_cons_of_mem _ hc)]

theorem chain_down {next : Nat → Nat} : ∀ (n : Nat), (∀ j, 1 ≤ j → j ≤ n → next j + 1 = j) →
    Chain next n ((List.range' 1 n).reverse) := by
  intro n
  induction n with
  | zero => intro _; rfl
  | succ n ih =>
    intro h
    rw [List.range'_concat, List.reverse_append]
    refine ⟨by omega, by omega, ?_⟩
    have := h (n + 1) (by omega) (by omega)
    rw [show 1 + 1 * n = n + 1 by omega, show next (n + 1) = n by omega]
    exact ih fun j h1 h2 => h j h1 (by omega)

theorem Created.inv {n : Nat} {s : State} (h : Created n s) : ∃ l own, Inv n s l own := by
  obtain ⟨p, q, created, hl, hall, hi, rfl⟩ := h
  simp only [init, if_true] at hi
  split at hi
  · simp at hi
  simp only [Option.some.injEq] at hi
  generalize hp : ({ p with
      count := 0, head := ⟨0, 0, 0⟩, stack := true, resource := set p.resource 0 none } : Pool) = p1 at hi
  have e0 : p1.resource 0 = none := by subst hp; simp
  obtain ⟨a1, a2, a3, a4, a5, a6, a7⟩ := initLoop_spec created p1 1 (by omega) (by subst hp; rfl) (by subst hp; rfl)
  rw [hi] at a1 a2 a3 a4 a5 a6 a7
  have hm := made_all hall
  have hlen : (made created).length = n := by rw [hm]; simpa using hl
  rw [hlen] at a2 a3
  have hidx : q.head.index = n := by rw [a3]; subst hp; simp
  have haba : q.head.aba = 0 := by rw [a4]; subst hp; rfl
  refine ⟨(List.range' 1 n).reverse, fun _ => .pool, ?_⟩
  constructor
  · show Chain q.next q.head.index _
    rw [hidx]
    refine chain_down n fun j h1 h2 => ?_
    have := (a6 (j - 1) (by omega)).2
    rw [show 1 + (j - 1) = j by omega] at this
    exact this
  · exact List.pairwise_reverse.2 ((List.nodup_range' (s := 1) (n := n)).imp Ne.symm)
  · intro i; simp [List.mem_range'_1]; omega
  · intro i _; rfl
  · intro i; rfl
  · intro t i; simp [start, Pc.releasing]
  · intro i hi'
    show (q.resource i).isSome = _
    cases i with
    | zero => rw [(a5 0 (by omega)).1, e0]; rfl
    | succ i =>
      have h1 := (a6 i (by omega)).1
      rw [Nat.add_comm i 1, h1]
      simp only [hm, List.getElem_map]
      simpa using (hall _ (List.getElem_mem _)).1
  · simp [start, haba]
  · intro t o k h; simp [start, Pc.orig] at h
  · intro t o m k h; simp [start] at h
  · intro t o m k h; simp [start] at h

/-- Whenever a get exchanges the head, fewer than 65536 exchanges by others happened since it read the head: the
16 bit counter kept against the ABA problem has not come round. -/
def Timely (s : State) : Schedule → Prop
  | [] => True
  | (t, a) :: rest => InTime s t ∧ ∀ s' r, step s t a = some (s', r) → Timely s' rest

theorem Inv.exec {n : Nat} : ∀ {sched : Schedule} {s s' : State} {l : List Nat} {own : Nat → Owner}, Inv n s l own →
    Timely s sched → exec s sched = some s' → ∃ l' own', Inv n s' l' own' := by
  intro sched
  induction sched with
  | nil => intro s s' l own h _ he; cases he; exact ⟨l, own, h⟩
  | cons c rest ih =>
    obtain ⟨t, a⟩ := c
    intro s s' l own h ht he
    simp only [Pool.exec, Option.bind_eq_bind] at he
    cases hs : Pool.step s t a with
    | none => simp [hs] at he
    | some q =>
      obtain ⟨s1, r⟩ := q
      simp only [hs, Option.bind_some] at he
      obtain ⟨⟨l1, own1, h1⟩, -⟩ := h.step ht.1 hs
      exact ih h1 (ht.2 s1 r hs) he

/-- A state reached by a timely schedule of any number of threads from a pool of `n` items. -/
def Reached (n : Nat) (s : State) : Prop :=
  ∃ s0 sched, Created n s0 ∧ Timely s0 sched ∧ exec s0 sched = some s

theorem Reached.inv {n : Nat} {s : State} (h : Reached n s) : ∃ l own, Inv n s l own := by
  obtain ⟨s0, sched, hc, ht, he⟩ := h
  obtain ⟨l, own, hi⟩ := hc.inv
  exact hi.exec ht he

/-- C09: no item is ever held twice, and an item a get returns is one of the pool's that nobody holds and that is not being
released. Missing: a counter that comes round during a call, see `C09_aba_violated`. -/
theorem C09_exclusive_partial {n : Nat} {s : State} (h : Reached n s) :
    (∀ i, s.held i ≤ 1) ∧
    ∀ t a s' i, InTime s t → step s t a = some (s', .item i) →
      s.held i = 0 ∧ 1 ≤ i ∧ i ≤ n ∧ (∀ t', (s.pc t').releasing ≠ some i) ∧ s'.held = set s.held i 1 := by
  obtain ⟨l, own, hi⟩ := h.inv
  refine ⟨fun i => ?_, ?_⟩
  · have := hi.held i
    split at this <;> omega
  · intro t a s' i ht hs
    obtain ⟨-, hg⟩ := hi.step ht hs
    have hg' : own i = .pool ∧ s'.held = set s.held i 1 ∧ s.held i = 0 ∧ i ≠ 0 := by
      cases a <;> exact hg
    have hin : 1 ≤ i ∧ i ≤ n := by
      refine ⟨by omega, ?_⟩
      cases a with
      | callGet => simp only [step] at hs; split at hs <;> simp at hs
      | callRelease j => simp only [step] at hs; split at hs <;> simp at hs
      | run u =>
        simp only [step] at hs
        generalize hp : s.pc t = pc at hs
        cases pc <;> simp only [access] at hs
        all_goals first | (split at hs) | skip
        all_goals simp at hs
        obtain ⟨-, rfl⟩ := hs
        exact (hi.orig t _ _ (by rw [hp]; rfl)).1
    refine ⟨hg'.2.2.1, hin.1, hin.2, fun t' ht' => ?_, hg'.2.1⟩
    have := (hi.call t' i).1 ht'
    simp [hg'.1] at this

/-- All calls have returned. -/
def Quiet (s : State) : Prop := ∀ t, s.pc t = .idle

/-- An item is taken: held by a caller or in a call that is releasing it. -/
def Taken (s : State) (i : Nat) : Prop := s.held i = 1 ∨ ∃ t, (s.pc t).releasing = some i

/-- What a get by thread `t` returns while no other thread does anything. -/
def getAlone (s : State) (t : Nat) : Option Ret := do
  let (s, _) ← step s t .callGet
  let (s, _) ← step s t (.run 0)
  let (s, r) ← step s t (.run 0)
  if r = .failed then pure .failed
  else do
    let (_, r) ← step s t (.run 0)
    pure r

/-- C10: when all calls have returned, every item not held is available: a get returns one of them, and fails only if there is
none. Missing: a counter that comes round during a call, see `C10_lost_violated`. -/
theorem C10_conserved_partial {n : Nat} {s : State} (h : Reached n s) (hq : Quiet s) (t : Nat) :
    ((∃ i, 1 ≤ i ∧ i ≤ n ∧ s.held i = 0) → ∃ i, getAlone s t = some (.item i) ∧ 1 ≤ i ∧ i ≤ n ∧ s.held i = 0) ∧
    ((¬ ∃ i, 1 ≤ i ∧ i ≤ n ∧ s.held i = 0) → getAlone s t = some .failed) := by
  obtain ⟨l, own, hi⟩ := h.inv
  have hmem : ∀ i, i ∈ l ↔ 1 ≤ i ∧ i ≤ n ∧ s.held i = 0 := by
    intro i
    rw [hi.mem i, hi.held i]
    have hno : ∀ t, own i ≠ .call t := by
      intro t ht
      have := (hi.call t i).2 ht
      simp [hq t, Pc.releasing] at this
    cases ho : own i with
    | pool => simp
    | caller => simp
    | call t => exact absurd ho (hno t)
  have hres := hi.res s.head.index hi.head_le
  have hidle := hq t
  constructor
  · rintro ⟨j, hj⟩
    have hjl := (hmem j).2 hj
    have hne : s.head.index ≠ 0 := by
      intro h0
      have := hi.chain
      rw [h0] at this
      rw [this.zero] at hjl
      simp at hjl
    obtain ⟨l', e, -⟩ := hi.chain.head_ne hne
    refine ⟨s.head.index, ?_, (hmem _).1 (e ▸ List.mem_cons_self)⟩
    simp [hne] at hres
    simp [getAlone, step, hidle, State.goto, access, hres]
  · intro hex
    have hl : l = [] := by
      cases l with
      | nil => rfl
      | cons j l => exact absurd ⟨j, (hmem j).1 List.mem_cons_self⟩ hex
    subst hl
    have h0 : s.head.index = 0 := hi.chain
    simp [h0] at hres
    simp [getAlone, step, hidle, State.goto, access, h0, hres]

/-- Once the call has read the head and will fail, all items were taken when it read it. -/
theorem all_taken {n : Nat} {s : State} {l : List Nat} {own : Nat → Owner} (hi : Inv n s l own)
    (h0 : s.head.index = 0) : ∀ i, 1 ≤ i → i ≤ n → Taken s i := by
  intro i h1 h2
  have hl : l = [] := by
    have := hi.chain
    rw [h0] at this
    exact this.zero
  subst hl
  have hm := hi.mem i
  have hh := hi.held i
  cases ho : own i with
  | pool => simp [ho, h1, h2] at hm
  | caller => left; simpa [ho] using hh
  | call t => right; exact ⟨t, (hi.call t i).2 ho⟩

theorem exec_append {s : State} {a b : Schedule} : exec s (a ++ b) = (exec s a).bind fun s => exec s b := by
  induction a generalizing s with
  | nil => rfl
  | cons c rest ih =>
    obtain ⟨t, x⟩ := c
    simp only [List.cons_append, exec, Option.bind_eq_bind]
    cases step s t x with
    | none => rfl
    | some q => simp [ih]

theorem timely_append {s : State} {a b : Schedule} (h : Timely s (a ++ b)) :
    Timely s a ∧ ∀ s', exec s a = some s' → Timely s' b := by
  induction a generalizing s with
  | nil => exact ⟨trivial, fun s' e => by cases e; exact h⟩
  | cons c rest ih =>
    obtain ⟨t, x⟩ := c
    obtain ⟨h1, h2⟩ := h
    refine ⟨⟨h1, fun s' r hs => (ih (h2 s' r hs)).1⟩, ?_⟩
    intro s' he
    simp only [exec, Option.bind_eq_bind] at he
    cases hs : step s t x with
    | none => simp [hs] at he
    | some q =>
      simp only [hs, Option.bind_some] at he
      exact (ih (h2 q.1 q.2 hs)).2 s' he

/-- A step of another thread leaves a thread where it is. -/
theorem step_other {s s' : State} {t u : Nat} {a : Act} {r : Ret} (h : step s u a = some (s', r)) (hne : t ≠ u) :
    s'.pc t = s.pc t := by
  cases a with
  | callGet =>
    simp only [step] at h
    split at h
    · simp at h; rw [← h.1, pc_goto_ne _ _ hne]
    · simp at h
  | callRelease i =>
    simp only [step] at h
    split at h
    · simp at h; rw [← h.1]; exact pc_goto_ne _ _ hne
    · simp at h
  | run up =>
    simp only [step] at h
    generalize s.pc u = pc at h
    cases pc <;> simp only [access] at h
    all_goals first | (split at h) | skip
    all_goals simp at h
    all_goals (rw [← h.1]; exact pc_goto_ne _ _ hne)

/-- The read of the head that a thread's local variable comes from. -/
theorem read_at {t : Nat} : ∀ (sched : Schedule) (s0 s : State) (orig : Head) (seen : Nat), (∀ o k, s0.pc t ≠ .getRead o k) →
    exec s0 sched = some s → s.pc t = .getRead orig seen →
    ∃ pre post u s1, sched = pre ++ (t, .run u) :: post ∧ (∀ c ∈ post, c.1 ≠ t) ∧ exec s0 pre = some s1 ∧
      s1.pc t = .get ∧ s1.head = orig := by
  intro sched
  induction sched using List.reverseRecOn with
  | nil => intro s0 s orig seen hn he hp; cases he; exact absurd hp (hn _ _)
  | append_singleton rest c ih =>
    obtain ⟨v, a⟩ := c
    intro s0 s orig seen hn he hp
    rw [exec_append] at he
    cases h1 : exec s0 rest with
    | none => simp [h1] at he
    | some s1 =>
      simp only [h1, Option.bind_some, exec, Option.bind_eq_bind] at he
      cases hs : step s1 v a with
      | none => simp [hs] at he
      | some q =>
        obtain ⟨s2, r⟩ := q
        simp only [hs, Option.bind_some, Option.some.injEq] at he
        subst he
        by_cases hv : v = t
        · subst hv
          cases a with
          | callGet =>
            simp only [step] at hs
            split at hs
            · simp at hs; rw [← hs.1, pc_goto_self] at hp; simp at hp
            · simp at hs
          | callRelease i =>
            simp only [step] at hs
            split at hs
            · simp at hs; rw [← hs.1] at hp; simp [pc_goto_self] at hp
            · simp at hs
          | run u =>
            refine ⟨rest, [], u, s1, rfl, by simp, h1, ?_⟩
            simp only [step] at hs
            generalize hpc : s1.pc v = pc at hs
            cases pc <;> simp only [access] at hs
            all_goals first | (split at hs) | skip
            all_goals simp at hs
            all_goals (rw [← hs.1] at hp; simp [pc_goto_self] at hp)
            exact ⟨rfl, hp.1⟩
        · rw [step_other hs (Ne.symm hv)] at hp
          obtain ⟨pre, post, u, s3, e, hpost, b1, b2, b3⟩ := ih s0 s1 orig seen hn h1 hp
          refine ⟨pre, post ++ [(v, a)], u, s3, by simp [e], ?_, b1, b2, b3⟩
          intro c hc
          rcases List.mem_append.1 hc with hc | hc
          · exact hpost c hc
          · simp at hc; rw [hc]; exact hv

/-- C10: a get that fails was at an instant of its call where all items were taken: the schedule can be cut at a point from which
on the thread only performs this call's read of the head and then fails, and where every item is held or being released.
Missing: a counter that comes round during a call, see `C10_lost_violated`. -/
theorem C10_failed_partial {n : Nat} {s0 s s' : State} {sched : Schedule} (hc : Created n s0)
    (ht : Timely s0 sched) (he : exec s0 sched = some s) {t : Nat} {a : Act}
    (hs : step s t a = some (s', .failed)) :
    ∃ pre post u s1, sched = pre ++ (t, .run u) :: post ∧ (∀ c ∈ post, c.1 ≠ t) ∧ exec s0 pre = some s1 ∧
      s1.pc t = .get ∧ ∀ i, 1 ≤ i → i ≤ n → Taken s1 i := by
  obtain ⟨l0, own0, hi0⟩ := hc.inv
  obtain ⟨l, own, hi⟩ := hi0.exec ht he
  have hstart : ∀ o k, s0.pc t ≠ .getRead o k := by
    obtain ⟨p, q, created, -, -, -, rfl⟩ := hc
    intro o k; simp [start]
  have hfail : ∃ orig seen, s.pc t = .getRead orig seen ∧ s.resource orig.index = false := by
    cases a with
    | callGet => simp only [step] at hs; split at hs <;> simp at hs
    | callRelease j => simp only [step] at hs; split at hs <;> simp at hs
    | run u =>
      simp only [step] at hs
      generalize hp : s.pc t = pc at hs
      cases pc <;> simp only [access] at hs
      all_goals first | (split at hs) | skip
      all_goals simp at hs
      rename_i hr
      exact ⟨_, _, rfl, hr⟩
  obtain ⟨orig, seen, hp, hr⟩ := hfail
  have h0 : orig.index = 0 := by
    have h1 := hi.res orig.index (hi.orig t orig seen (by rw [hp]; rfl)).1
    rw [hr] at h1
    simpa using h1
  obtain ⟨pre, post, u, s1, e, hpost, b1, b2, b3⟩ := read_at sched s0 s orig seen hstart he hp
  refine ⟨pre, post, u, s1, e, hpost, b1, b2, ?_⟩
  obtain ⟨l1, own1, hi1⟩ := hi0.exec (timely_append (e ▸ ht)).1 b1
  exact all_taken hi1 (by rw [b3, h0])

/-- C10: a call goes round its loop again only if another call's exchange succeeded since it read the head, so some call always
completes. Missing: a counter that comes round during a call, see `C10_lost_violated`. -/
theorem C10_progress_partial {n : Nat} {s s' : State} (h : Reached n s) {t : Nat} {u : Nat} {r : Ret}
    (hs : step s t (.run u) = some (s', r)) {orig : Head} {seen : Nat} (ho : (s.pc t).orig = some (orig, seen))
    (hagain : s'.pc t = .get ∨ ∃ i, s'.pc t = .release i) : seen < s.swaps := by
  obtain ⟨l, own, hi⟩ := h.inv
  have h1 := hi.orig t orig seen ho
  rcases Nat.lt_or_ge seen s.swaps with h2 | h2
  · exact h2
  · exfalso
    have h3 := h1.2.2.2 (by omega)
    simp only [step] at hs
    generalize hp : s.pc t = pc at hs ho
    cases pc <;> simp [Pc.orig] at ho <;> obtain ⟨rfl, rfl⟩ := ho <;> simp only [access] at hs
    all_goals first | (rw [if_pos h3.symm] at hs) | (split at hs) | skip
    all_goals
      simp at hs
      rw [← hs.1] at hagain
      simp [pc_goto_self] at hagain

theorem step_swaps {s s' : State} {t : Nat} {a : Act} {r : Ret} (h : step s t a = some (s', r)) :
    s'.swaps ≤ s.swaps + 1 := by
  cases a with
  | callGet =>
    simp only [step] at h
    split at h
    · simp at h; rw [← h.1]; simp [State.goto]
    · simp at h
  | callRelease i =>
    simp only [step] at h
    split at h
    · simp at h; rw [← h.1]; simp [State.goto]
    · simp at h
  | run up =>
    simp only [step] at h
    generalize s.pc t = pc at h
    cases pc <;> simp only [access] at h
    all_goals first | (split at h) | skip
    all_goals simp at h
    all_goals (rw [← h.1]; simp [State.goto])

/-- Every schedule of fewer than 65536 steps is timely, so the theorems hold for all of them. -/
theorem timely_short : ∀ (sched : Schedule) (s : State), s.swaps + sched.length < 2 ^ 16 → Timely s sched := by
  intro sched
  induction sched with
  | nil => intro s _; trivial
  | cons c rest ih =>
    obtain ⟨t, a⟩ := c
    intro s h
    simp at h
    refine ⟨fun o m k _ => by omega, fun s' r hs => ih s' ?_⟩
    have := step_swaps hs
    omega

/-! ## The ABA counter coming round -/

/-- A get and a release of the item on top by a thread alone. -/
def lap (t i : Nat) : Schedule :=
  [(t, .callGet), (t, .run 0), (t, .run 0), (t, .run 0), (t, .callRelease i), (t, .run 0), (t, .run 0), (t, .run 0)]

theorem set_set {α : Type} (f : Nat → α) (n : Nat) (v w : α) : set (set f n v) n w = set f n w := by
  funext x; simp only [set]; split <;> rfl

theorem set_same {α : Type} {f : Nat → α} {n : Nat} {v : α} (h : f n = v) : set f n v = f := by
  funext x; simp only [set]; split
  · rename_i e; rw [e, h]
  · rfl

theorem lap_spec (s : State) (t i : Nat) (hp : s.pc t = .idle) (hi : s.head.index = i) (hr : s.resource i = true)
    (hh : s.held i = 0) :
    exec s (lap t i) = some { s with head := ⟨i, inc16 (inc16 s.head.aba), 0⟩, swaps := s.swaps + 2 } := by
  subst hi
  simp [lap, exec, step, hp, State.goto, access, hr, hh, set_set, set_same]

/-- `m` laps. -/
def laps (t i m : Nat) : Schedule := (List.replicate m (lap t i)).flatten

theorem laps_spec (t i : Nat) : ∀ (m : Nat) (s : State), s.pc t = .idle → s.head.index = i → s.resource i = true →
    s.held i = 0 → s.head.aba < 2 ^ 16 → s.head.upper = 0 →
    exec s (laps t i m) = some { s with head := ⟨i, (s.head.aba + 2 * m) % 2 ^ 16, 0⟩, swaps := s.swaps + 2 * m } := by
  intro m
  induction m with
  | zero =>
    intro s _ hi _ _ ha hu
    obtain ⟨⟨a, b, c⟩, x1, x2, x3, x4, x5⟩ := s
    simp only at hi ha hu
    subst hi hu
    simp [laps, exec]
    omega
  | succ m ih =>
    intro s hp hi hr hh ha hu
    rw [laps, List.replicate_succ, List.flatten_cons, exec_append, lap_spec s t i hp hi hr hh]
    simp only [Option.bind_some]
    have := ih { s with head := ⟨i, inc16 (inc16 s.head.aba), 0⟩, swaps := s.swaps + 2 } hp rfl hr hh
      (by simp only [inc16]; omega) rfl
    rw [laps] at this
    rw [this]
    simp only [inc16, Option.some.injEq, State.mk.injEq, true_and, Head.mk.injEq, and_true]
    omega

/-- A get by a thread alone. -/
def getNow (t : Nat) : Schedule := [(t, .callGet), (t, .run 0), (t, .run 0), (t, .run 0)]
/-- A release by a thread alone. -/
def releaseNow (t i : Nat) : Schedule := [(t, .callRelease i), (t, .run 0), (t, .run 0), (t, .run 0)]

/-- A pool of `n` resources. -/
def poolOf (n : Nat) : Option State :=
  (init anyPool true ((List.range n).map fun i => (some i, true))).map start

theorem poolOf_created {n : Nat} {s : State} (h : poolOf n = some s) : Created n s := by
  simp only [poolOf, Option.map_eq_some_iff] at h
  obtain ⟨q, hq, rfl⟩ := h
  refine ⟨anyPool, q, _, by simp, ?_, hq, rfl⟩
  intro c hc
  simp only [List.mem_map] at hc
  obtain ⟨i, -, rfl⟩ := hc
  exact ⟨rfl, rfl⟩

/-- Three threads and two items: thread 1 reads the head, thread 2 gets the item on top, thread 1's exchange fails and
it goes round again to get the other, thread 3 fails, thread 2 releases. -/
def contention : Schedule :=
  [(1, .callGet), (1, .run 0), (1, .run 0)] ++ getNow 2 ++
    [(1, .run 0), (1, .run 0), (1, .run 0), (1, .run 5), (3, .callGet), (3, .run 0), (3, .run 0), (2, .callRelease 2),
      (2, .run 0)]

/-- The hypotheses of the theorems are met by that schedule. -/
example : ∃ s, Reached 2 s ∧ s.held 1 = 1 ∧ s.held 2 = 0 ∧ Taken s 2 ∧ s.pc 3 = .idle := by
  have h0 : (poolOf 2).isSome := by decide
  obtain ⟨s0, hs0⟩ := Option.isSome_iff_exists.1 h0
  have key : ((poolOf 2).bind fun s => exec s contention).map (fun s => (s.held 1, s.held 2, s.pc 2, s.pc 3)) =
      some (1, 0, .releaseRead 2 ⟨0, 2, 5⟩ 2, .idle) := rfl
  rw [hs0] at key
  simp only [Option.bind_some, Option.map_eq_some_iff, Prod.mk.injEq] at key
  obtain ⟨s, e, k1, k2, k3, k4⟩ := key
  have hz : s0.swaps = 0 := by
    obtain ⟨p, q, created, -, -, -, rfl⟩ := poolOf_created hs0
    rfl
  exact ⟨s, ⟨s0, contention, poolOf_created hs0, timely_short _ _ (by rw [hz]; decide), e⟩, k1, k2,
    .inr ⟨2, by rw [k3]; rfl⟩, k4⟩

/-- Thread 1 is about to exchange the head for a get of item 4; in the meantime thread 2 has got items 4, 3 and 2 and
released 4. -/
def before4 : Schedule :=
  [(1, .callGet), (1, .run 0), (1, .run 0)] ++ getNow 2 ++ getNow 2 ++ getNow 2 ++ releaseNow 2 4

/-- C09 fails when the 16 bit counter comes round: with thread 1 stopped between its read and its exchange, thread 2
gets and releases 65536 times altogether, after which thread 1 makes an item available that thread 2 has. The next
get returns it to thread 3. -/
theorem C09_aba_violated : ∃ s0 sched s, Created 4 s0 ∧ exec s0 sched = some s ∧ s.held 3 = 2 := by
  have h0 : (poolOf 4).isSome := by decide
  obtain ⟨s0, hs0⟩ := Option.isSome_iff_exists.1 h0
  have key : ((poolOf 4).bind fun s => exec s before4).map (fun s =>
      (s.head, s.pc 1, s.pc 2, s.pc 3, s.resource 4, s.resource 3, s.held 4, s.held 3, s.next 3)) =
      some (⟨4, 4, 0⟩, .getNext ⟨4, 0, 0⟩ 3 0, .idle, .idle, true, true, 0, 1, 2) := rfl
  rw [hs0] at key
  simp only [Option.bind_some, Option.map_eq_some_iff, Prod.mk.injEq] at key
  obtain ⟨s1, e1, k1, k2, k3, k4, k5, k6, k7, k8, k9⟩ := key
  obtain ⟨m, hm⟩ : ∃ m, 2 * m = 65532 := ⟨32766, rfl⟩
  refine ⟨s0, before4 ++ laps 2 4 m ++ ((1, .run 0) :: getNow 3), ?_⟩
  rw [exec_append, exec_append, e1, Option.bind_some,
    laps_spec 2 4 m s1 k3 (by rw [k1]) k5 k7 (by rw [k1]; decide) (by rw [k1]), Option.bind_some]
  refine ⟨_, poolOf_created hs0, by
    simp [getNow, exec, step, access, State.goto, k1, k2, k4, k6, set_ne, hm]; rfl, ?_⟩
  simp [set, k8]

/-- Thread 1 is about to exchange the head for a get of item 3; in the meantime thread 2 has got all items and
released them in another order. -/
def before3 : Schedule :=
  [(1, .callGet), (1, .run 0), (1, .run 0)] ++ getNow 2 ++ getNow 2 ++ getNow 2 ++ releaseNow 2 2 ++ releaseNow 2 1 ++
    releaseNow 2 3

theorem getNow_spec (s : State) (t i : Nat) (hp : s.pc t = .idle) (hi : s.head.index = i) (hr : s.resource i = true) :
    exec s (getNow t) = some { s with
      head := ⟨s.next i, inc16 s.head.aba, 0⟩, swaps := s.swaps + 1, held := set s.held i (s.held i + 1) } := by
  subst hi
  simp [getNow, exec, step, hp, State.goto, access, hr, set_set, set_same]

theorem releaseNow_spec (s : State) (t i : Nat) (hp : s.pc t = .idle) (hh : 0 < s.held i) :
    exec s (releaseNow t i) = some { s with
      head := ⟨i, inc16 s.head.aba, 0⟩, swaps := s.swaps + 1, held := set s.held i (s.held i - 1)
      next := set s.next i s.head.index } := by
  simp [releaseNow, exec, step, hp, State.goto, access, hh, set_set, set_same]

/-- C10 fails in the same way: an item is lost, so that with no call in progress and nothing held, only two of the
three items can be got. -/
theorem C10_lost_violated : ∃ s0 sched s s', Created 3 s0 ∧ exec s0 sched = some s ∧ Quiet s ∧ (∀ i, s.held i = 0) ∧
    exec s (getNow 1 ++ getNow 1) = some s' ∧ getAlone s' 1 = some .failed := by
  have h0 : (poolOf 3).isSome := by decide
  obtain ⟨s0, hs0⟩ := Option.isSome_iff_exists.1 h0
  have key : (poolOf 3).map (fun s => (s.head, s.resource 1, s.resource 2, s.resource 3, s.resource 0, s.next 3, s.next 2,
      s.next 1)) = some (⟨3, 0, 0⟩, true, true, true, false, 2, 1, 0) := rfl
  have hst := poolOf_created hs0
  rw [hs0] at key
  simp only [Option.map_some, Option.some.injEq, Prod.mk.injEq] at key
  obtain ⟨k1, k2, k3, k4, k5, k6, k7, k8⟩ := key
  obtain ⟨hpc, hheld, hsw⟩ : s0.pc = (fun _ => .idle) ∧ s0.held = (fun _ => 0) ∧ s0.swaps = 0 := by
    obtain ⟨p, q, created, -, -, -, rfl⟩ := hst
    exact ⟨rfl, rfl, rfl⟩
  obtain ⟨x1, x2, x3, x4, x5, x6⟩ := s0
  simp only at k1 k2 k3 k4 k5 k6 k7 k8 hpc hheld hsw
  subst k1 hpc hheld hsw
  have e1 : exec ⟨⟨3, 0, 0⟩, x2, x3, fun _ => .idle, fun _ => 0, 0⟩ before3 =
      some ⟨⟨3, 6, 0⟩, set (set (set x2 2 0) 1 2) 3 1, x3, set (fun _ => .idle) 1 (.getNext ⟨3, 0, 0⟩ 2 0), fun _ => 0,
        6⟩ := by
    have a0 : exec ⟨⟨3, 0, 0⟩, x2, x3, fun _ => .idle, fun _ => 0, 0⟩ [(1, .callGet), (1, .run 0), (1, .run 0)] =
        some ⟨⟨3, 0, 0⟩, x2, x3, set (fun _ => .idle) 1 (.getNext ⟨3, 0, 0⟩ 2 0), fun _ => 0, 0⟩ := by
      simp [exec, step, access, State.goto, k4, k6, set_set]
    have hp : set (fun _ => Pc.idle) 1 (.getNext ⟨3, 0, 0⟩ 2 0) 2 = .idle := by simp [set]
    rw [before3, exec_append, exec_append, exec_append, exec_append, exec_append, exec_append, a0, Option.bind_some,
      getNow_spec _ 2 3 hp rfl k4, Option.bind_some, getNow_spec _ 2 2 hp k6 k3, Option.bind_some,
      getNow_spec _ 2 1 hp k7 k2, Option.bind_some, releaseNow_spec _ 2 2 hp (by simp [set]), Option.bind_some,
      releaseNow_spec _ 2 1 hp (by simp [set]), Option.bind_some,
      releaseNow_spec _ 2 3 hp (by simp [set])]
    simp only [k8, inc16, Option.some.injEq, State.mk.injEq, true_and]
    refine ⟨?_, trivial⟩
    funext x
    simp only [set]
    repeat' split
    all_goals first | rfl | omega
  obtain ⟨m, hm⟩ : ∃ m, 2 * m = 65530 := ⟨32765, rfl⟩
  have e2 := laps_spec 2 3 m ⟨⟨3, 6, 0⟩, set (set (set x2 2 0) 1 2) 3 1, x3,
    set (fun _ => .idle) 1 (.getNext ⟨3, 0, 0⟩ 2 0), fun _ => 0, 6⟩ (by simp [set]) rfl k4 rfl (by simp) rfl
  simp only [hm] at e2
  refine ⟨_, before3 ++ laps 2 3 m ++ ((1, .run 0) :: releaseNow 1 3),
    ⟨⟨3, 2, 0⟩, set (set (set x2 2 0) 1 2) 3 2, x3, fun _ => .idle, fun _ => 0, 65538⟩,
    ⟨⟨0, 4, 0⟩, set (set (set x2 2 0) 1 2) 3 2, x3, fun _ => .idle, set (set (fun _ => 0) 3 1) 2 1, 65540⟩,
    hst, ?_, fun _ => rfl, fun _ => rfl, ?_, ?_⟩
  · rw [exec_append, exec_append, e1, Option.bind_some, e2, Option.bind_some]
    simp [releaseNow, exec, step, access, State.goto, set_set, inc16]
    constructor <;> funext x <;> simp [set]
  · rw [exec_append, getNow_spec _ 1 3 rfl rfl k4, Option.bind_some, getNow_spec _ 1 2 rfl (by simp [set]) k3]
    simp [set, inc16]
  · simp [getAlone, step, access, State.goto, k5]

end Verif.Pool
