import Verif.Resource.Model
import Mathlib.Tactic.ByContra

/-! # The invariant of the resource manager -/

namespace Verif.Resource

@[simp] theorem set_self {α : Type} (f : Nat → α) (n : Nat) (v : α) : set f n v n = v := by simp [set]
theorem set_ne {α : Type} (f : Nat → α) {n x : Nat} (v : α) (h : x ≠ n) : set f n v x = f x := by simp [set, h]

/-- The handle whose use count includes the thread. -/
def Pc.uses : Pc → Option Nat
  | .swap _ p | .dec _ p | .decSelf _ p _ | .decRead _ p _ => some p
  | _ => none

/-- The handle of a replace or free call. -/
def Ctx.new : Ctx → Option Nat
  | .user => none
  | .replace n | .free n => some n

/-- The new handle the thread has not yet made active. -/
def Pc.new : Pc → Option Nat
  | .inc c | .incActive c _ | .incSelf c _ _ | .incRead c _ | .incAddr c _ _ | .swap c _ => c.new
  | _ => none

/-- A handle the thread has read from `manager->active`. -/
def Pc.addr : Pc → Option Nat
  | .incActive _ a | .incSelf _ a _ | .incAddr _ _ a => some a
  | _ => none

/-- The handle the thread has decremented to zero and may be about to free. -/
def Pc.last : Pc → Option (Nat × Counter)
  | .decCheck _ p d | .decFree _ p d => some (p, d)
  | _ => none

/-- The handle the thread found not to be active. -/
def Pc.found : Pc → Option Nat
  | .decFree _ p _ => some p
  | _ => none

/-- The number of users: the ones outside and the calls in progress. -/
def refs (s : State) (p : Nat) : Nat := s.held p + s.pcs.countP fun pc => pc.uses = some p

/-- The invariant. -/
structure Inv (s : State) : Prop where
  act : s.was s.active = true
  wasLt : ∀ p, s.was p = true → p < s.fresh
  cnt : ∀ p, s.was p = true →
    (s.counter p = ⟨some p, refs s p⟩ ∧ s.freed p = 0) ∨
    ((s.counter p).self = none ∧ refs s p = 0 ∧ s.freed p = 1 ∧ p ≠ s.active)
  notWas : ∀ p, s.was p = false → refs s p = 0 ∧ s.freed p = 0
  new : ∀ (t : Nat) (pc : Pc) (n : Nat), s.pcs[t]? = some pc → pc.new = some n → n < s.fresh ∧ s.was n = false ∧ s.counter n = ⟨some n, 0⟩
  uniq : ∀ (t : Nat) (pc : Pc) (t' : Nat) (pc' : Pc) (n : Nat), s.pcs[t]? = some pc → s.pcs[t']? = some pc' → pc.new = some n → pc'.new = some n → t = t'
  addr : ∀ (pc : Pc) (a : Nat), pc ∈ s.pcs → pc.addr = some a → s.was a = true
  last : ∀ (pc : Pc) (p : Nat) (d : Counter), pc ∈ s.pcs → pc.last = some (p, d) → d = ⟨some p, 0⟩ ∧ s.was p = true
  found : ∀ (pc : Pc) (p : Nat), pc ∈ s.pcs → pc.found = some p → p ≠ s.active
  live : ∀ p, s.was p = true → p ≠ s.active → s.freed p = 0 → 0 < refs s p ∨ ∃ (pc : Pc) (d : Counter), pc ∈ s.pcs ∧ pc.last = some (p, d)

theorem countP_set {f : Pc → Bool} : ∀ {l : List Pc} {t : Nat} {old new : Pc}, l[t]? = some old →
    (l.set t new).countP f + (if f old then 1 else 0) = l.countP f + (if f new then 1 else 0) := by
  intro l
  induction l with
  | nil => intro t old new h; simp at h
  | cons x l ih =>
    intro t old new h
    cases t with
    | zero =>
      simp at h; subst h
      simp only [List.set_cons_zero, List.countP_cons]
      omega
    | succ t =>
      simp at h
      have := ih (new := new) h
      simp only [List.set_cons_succ, List.countP_cons]
      omega

theorem mem_set_of_ne {l : List Pc} {t : Nat} {old new pc : Pc} (h : l[t]? = some old) (hm : pc ∈ l) (hne : pc ≠ old) :
    pc ∈ l.set t new := by
  obtain ⟨i, hi, rfl⟩ := List.getElem_of_mem hm
  have hit : t ≠ i := by
    rintro rfl
    rw [List.getElem?_eq_getElem hi] at h
    exact hne (by simpa using h)
  exact List.mem_iff_getElem.2 ⟨i, by simpa using hi, by simp [hit]⟩

theorem mem_set_self {l : List Pc} {t : Nat} {old new : Pc} (h : l[t]? = some old) : new ∈ l.set t new := by
  have hlt : t < l.length := (List.getElem?_eq_some_iff.1 h).1
  exact List.mem_set hlt new

theorem mem_of_getElem? {l : List Pc} {t : Nat} {pc : Pc} (h : l[t]? = some pc) : pc ∈ l :=
  List.mem_of_getElem? h

theorem getElem?_set' {l : List Pc} {t i : Nat} {old new pc : Pc} (h : l[t]? = some old)
    (hi : (l.set t new)[i]? = some pc) : (i = t ∧ pc = new) ∨ (i ≠ t ∧ l[i]? = some pc) := by
  have hlt : t < l.length := (List.getElem?_eq_some_iff.1 h).1
  rw [List.getElem?_set] at hi
  by_cases e : t = i
  · subst e; simp [hlt] at hi; exact .inl ⟨rfl, hi.symm⟩
  · simp [e] at hi; exact .inr ⟨Ne.symm e, hi⟩

/-- A thread with the given use is counted. -/
theorem refs_pos {s : State} {t : Nat} {pc : Pc} {p : Nat} (h : s.pcs[t]? = some pc) (hu : pc.uses = some p) :
    0 < refs s p := by
  have : 0 < s.pcs.countP fun pc => pc.uses = some p :=
    List.countP_pos_iff.2 ⟨pc, mem_of_getElem? h, by simpa using hu⟩
  simp only [refs]; omega

/-- What is left to show about a state in which one thread moved on: everything about the new state in terms of
the old. -/
theorem Inv.update {s s' : State} (h : Inv s) {t : Nat} {old new : Pc} (ht : s.pcs[t]? = some old)
    (hp : s'.pcs = s.pcs.set t new) (hfr : s.fresh ≤ s'.fresh) (hact : s'.active = s.active) (hwas : s'.was = s.was)
    (hcnt : ∀ p, s.was p = true →
      (s'.counter p = ⟨some p, refs s' p⟩ ∧ s'.freed p = 0) ∨
      ((s'.counter p).self = none ∧ refs s' p = 0 ∧ s'.freed p = 1 ∧ p ≠ s.active))
    (hnot : ∀ p, s.was p = false → refs s' p = 0 ∧ s'.freed p = 0)
    (hnew : ∀ n, new.new = some n → n < s'.fresh ∧ s.was n = false ∧ s'.counter n = ⟨some n, 0⟩ ∧
      (old.new = some n ∨ ∀ (t' : Nat) (pc' : Pc), s.pcs[t']? = some pc' → pc'.new ≠ some n))
    (hcn : ∀ n, n < s.fresh → s.was n = false → s'.counter n = s.counter n)
    (haddr : ∀ a, new.addr = some a → s.was a = true)
    (hlast : ∀ p d, new.last = some (p, d) → d = ⟨some p, 0⟩ ∧ s.was p = true)
    (hfound : ∀ p, new.found = some p → p ≠ s.active)
    (hlive : ∀ p, s.was p = true → p ≠ s.active → s'.freed p = 0 → s.freed p = 0 ∧
      (0 < refs s p → 0 < refs s' p ∨ ∃ d, new.last = some (p, d)) ∧
      (∀ d, old.last = some (p, d) → 0 < refs s' p ∨ ∃ d, new.last = some (p, d))) :
    Inv s' where
  act := by rw [hwas, hact]; exact h.act
  wasLt := fun p hw => Nat.lt_of_lt_of_le (h.wasLt p (hwas ▸ hw)) hfr
  cnt := fun p hw => by rw [hact]; exact hcnt p (hwas ▸ hw)
  notWas := fun p hw => hnot p (hwas ▸ hw)
  new := by
    intro i pc n hi hn
    rw [hp] at hi
    rcases getElem?_set' ht hi with ⟨rfl, rfl⟩ | ⟨-, hi⟩
    · have := hnew n hn
      exact ⟨this.1, by rw [hwas]; exact this.2.1, this.2.2.1⟩
    · have := h.new i pc n hi hn
      exact ⟨Nat.lt_of_lt_of_le this.1 hfr, by rw [hwas]; exact this.2.1, by rw [hcn n this.1 this.2.1]; exact this.2.2⟩
  uniq := by
    intro i pc j pc' n hi hj hn hn'
    rw [hp] at hi hj
    rcases getElem?_set' ht hi with ⟨rfl, rfl⟩ | ⟨hit, hi'⟩ <;> clear hi <;>
      rcases getElem?_set' ht hj with ⟨rfl, rfl⟩ | ⟨hjt, hj'⟩ <;> clear hj
    · rfl
    · rcases (hnew n hn).2.2.2 with ho | ho
      · exact h.uniq i old j pc' n ht hj' ho hn'
      · exact absurd hn' (ho j pc' hj')
    · rcases (hnew n hn').2.2.2 with ho | ho
      · exact h.uniq i pc j old n hi' ht hn ho
      · exact absurd hn (ho i pc hi')
    · exact h.uniq i pc j pc' n hi' hj' hn hn'
  addr := by
    intro pc a hm ha
    rw [hp] at hm
    rw [hwas]
    rcases List.mem_or_eq_of_mem_set hm with hm | rfl
    · exact h.addr pc a hm ha
    · exact haddr a ha
  last := by
    intro pc p d hm hl
    rw [hp] at hm
    rw [hwas]
    rcases List.mem_or_eq_of_mem_set hm with hm | rfl
    · exact h.last pc p d hm hl
    · exact hlast p d hl
  found := by
    intro pc p hm hl
    rw [hp] at hm
    rw [hact]
    rcases List.mem_or_eq_of_mem_set hm with hm | rfl
    · exact h.found pc p hm hl
    · exact hfound p hl
  live := by
    intro p hw hne hf
    rw [hwas] at hw
    rw [hact] at hne
    obtain ⟨h1, h2, h3⟩ := hlive p hw hne hf
    have fin : (0 < refs s' p ∨ ∃ d, new.last = some (p, d)) →
        0 < refs s' p ∨ ∃ (pc : Pc) (d : Counter), pc ∈ s'.pcs ∧ pc.last = some (p, d) := by
      rintro (h | ⟨d, h⟩)
      · exact .inl h
      · exact .inr ⟨new, d, by rw [hp]; exact mem_set_self ht, h⟩
    rcases h.live p hw hne h1 with h4 | ⟨pc, d, hm, hl⟩
    · exact fin (h2 h4)
    · by_cases e : pc = old
      · subst e; exact fin (h3 d hl)
      · exact .inr ⟨pc, d, by rw [hp]; exact mem_set_of_ne ht hm e, hl⟩

theorem refs_move {s s' : State} {t : Nat} {old new : Pc} (ht : s.pcs[t]? = some old) (hp : s'.pcs = s.pcs.set t new)
    (p : Nat) : refs s' p + s.held p + (if old.uses = some p then 1 else 0) =
      refs s p + s'.held p + (if new.uses = some p then 1 else 0) := by
  have := countP_set (f := fun pc => decide (pc.uses = some p)) (new := new) ht
  simp only [decide_eq_true_eq] at this
  simp only [refs, hp]
  omega

/-- A thread moves on without any effect on counters and users. -/
theorem Inv.move {s s' : State} (h : Inv s) {t : Nat} {old new : Pc} (ht : s.pcs[t]? = some old)
    (hp : s'.pcs = s.pcs.set t new) (hfr : s'.fresh = s.fresh) (hact : s'.active = s.active) (hwas : s'.was = s.was)
    (hc : s'.counter = s.counter) (hf : s'.freed = s.freed) (hh : s'.held = s.held)
    (hu : new.uses = old.uses) (hn : ∀ n, new.new = some n → old.new = some n)
    (haddr : ∀ a, new.addr = some a → s.was a = true)
    (hlast : ∀ p d, new.last = some (p, d) → d = ⟨some p, 0⟩ ∧ s.was p = true)
    (hfound : ∀ p, new.found = some p → p ≠ s.active)
    (hlive : ∀ p d, old.last = some (p, d) → p ≠ s.active → s.freed p = 0 → 0 < refs s p ∨ ∃ d, new.last = some (p, d)) :
    Inv s' := by
  have hr : ∀ p, refs s' p = refs s p := by
    intro p
    have := refs_move ht hp p
    rw [hu, hh] at this
    omega
  refine h.update ht hp (by omega) hact hwas ?_ ?_ ?_ (fun n _ _ => by rw [hc]) haddr hlast hfound ?_
  · intro p hw; rw [hr, hc, hf]; exact h.cnt p hw
  · intro p hw; rw [hr, hf]; exact h.notWas p hw
  · intro n hnn
    have := h.new t old n ht (hn n hnn)
    exact ⟨by rw [hfr]; exact this.1, this.2.1, by rw [hc]; exact this.2.2, .inl (hn n hnn)⟩
  · intro p hw hne hf'
    rw [hf] at hf'
    refine ⟨hf', fun hpos => .inl (by rw [hr]; exact hpos), fun d hl => ?_⟩
    rw [hr]
    exact hlive p d hl hne hf'

/-- What the callers see of a step. -/
def Gave (s s' : State) : Act → Ret → Prop
  | .callRelease p, _ => s.was p = true ∧ s'.held = set s.held p (s.held p - 1)
  | _, .got (some p) => s.was p = true ∧ s'.held = set s.held p (s.held p + 1) ∧ s.freed p = 0
  | _, _ => s'.held = s.held

theorem afterDec_uses (c : Ctx) : (afterDec c).1.uses = none := by cases c <;> rfl
theorem afterDec_new (c : Ctx) : (afterDec c).1.new = none := by cases c <;> rfl
theorem afterDec_addr (c : Ctx) : (afterDec c).1.addr = none := by cases c <;> rfl
theorem afterDec_last (c : Ctx) : (afterDec c).1.last = none := by cases c <;> rfl
theorem afterDec_found (c : Ctx) : (afterDec c).1.found = none := by cases c <;> rfl

theorem Inv.callRelease {s s' : State} (h : Inv s) {t p : Nat} (ht : s.pcs[t]? = some .idle) (hh : 0 < s.held p)
    (hp : s'.pcs = s.pcs.set t (.dec .user p)) (hfr : s'.fresh = s.fresh) (hact : s'.active = s.active)
    (hwas : s'.was = s.was) (hcnt : s'.counter = s.counter) (hf : s'.freed = s.freed)
    (hheld : s'.held = set s.held p (s.held p - 1)) : Inv s' ∧ s.was p = true := by
  have hw : s.was p = true := by
    by_contra hc
    have := (h.notWas p (by simpa using hc)).1
    simp only [refs] at this; omega
  refine ⟨?_, hw⟩
  have hr : ∀ q, refs s' q = refs s q := by
    intro q
    have := refs_move ht hp q
    rw [hheld] at this
    by_cases e : q = p
    · subst e; simp [Pc.uses] at this; omega
    · simp [Pc.uses, set_ne _ _ e, Ne.symm e] at this; omega
  refine h.update ht hp (by omega) hact hwas ?_ ?_ (by simp [Pc.new]) (fun _ _ _ => by rw [hcnt]) (by simp [Pc.addr])
    (by simp [Pc.last]) (by simp [Pc.found]) ?_
  · intro q hq; rw [hr, hcnt, hf]; exact h.cnt q hq
  · intro q hq; rw [hr, hf]; exact h.notWas q hq
  · intro q hq hne hf'
    rw [hf] at hf'
    exact ⟨hf', fun hpos => .inl (by rw [hr]; exact hpos), by simp [Pc.last]⟩

/-- `fiftyoneDegreesResourceReplace` and `fiftyoneDegreesResourceManagerFree` begin. -/
theorem Inv.setup {s s' : State} (h : Inv s) {t : Nat} (ht : s.pcs[t]? = some .idle) {c : Ctx} (hc : c.new = some s.fresh)
    (hp : s'.pcs = s.pcs.set t (.inc c)) (hfr : s'.fresh = s.fresh + 1) (hact : s'.active = s.active)
    (hwas : s'.was = s.was) (hcnt : s'.counter = set s.counter s.fresh ⟨some s.fresh, 0⟩) (hf : s'.freed = s.freed)
    (hh : s'.held = s.held) : Inv s' := by
  have hfw : s.was s.fresh = false := by
    cases hw : s.was s.fresh with
    | false => rfl
    | true => exact absurd (h.wasLt _ hw) (Nat.lt_irrefl _)
  have hr : ∀ q, refs s' q = refs s q := by
    intro q
    have := refs_move ht hp q
    simp only [Pc.uses, hh] at this
    simp at this
    omega
  refine h.update ht hp (by omega) hact hwas ?_ ?_ ?_ ?_ (by simp [Pc.addr]) (by simp [Pc.last]) (by simp [Pc.found]) ?_
  · intro q hq
    have hne : q ≠ s.fresh := by rintro rfl; rw [hfw] at hq; cases hq
    rw [hr, hcnt, set_ne _ _ hne, hf]; exact h.cnt q hq
  · intro q hq; rw [hr, hf]; exact h.notWas q hq
  · intro n hn
    simp only [Pc.new, hc, Option.some.injEq] at hn
    subst hn
    refine ⟨by omega, hfw, by rw [hcnt, set_self], .inr ?_⟩
    intro t' pc' hpc hn
    exact absurd (h.new t' pc' _ hpc hn).1 (Nat.lt_irrefl _)
  · intro n hn _
    rw [hcnt, set_ne _ _ (by omega)]
  · intro q hq hne hf'
    rw [hf] at hf'
    exact ⟨hf', fun hpos => .inl (by rw [hr]; exact hpos), by simp [Pc.last]⟩

/-- The successful exchange of an increment. -/
theorem Inv.incremented {s s' : State} (h : Inv s) {t a : Nat} {c : Ctx} {compare : Counter}
    (ht : s.pcs[t]? = some (.incAddr c compare a)) (he : s.counter a = compare) {new : Pc}
    (hp : s'.pcs = s.pcs.set t new) (hfr : s'.fresh = s.fresh) (hact : s'.active = s.active) (hwas : s'.was = s.was)
    (hcnt : s'.counter = set s.counter a ⟨compare.self, compare.inUse + 1⟩) (hf : s'.freed = s.freed)
    (hcase : (c = .user ∧ new = .idle ∧ ∀ p, compare.self = some p → s'.held = set s.held p (s.held p + 1)) ∨
      (c ≠ .user ∧ s'.held = s.held ∧ ∃ p, compare.self = some p ∧ new = .swap c p))
    (hnone : compare.self = none → s'.held = s.held) :
    Inv s' ∧ ∀ p, compare.self = some p → p = a ∧ s.freed p = 0 ∧ s.was p = true := by
  have hwa : s.was a = true := h.addr _ a (mem_of_getElem? ht) rfl
  subst he
  have hnewc : ∀ n, new.new = some n → (Pc.incAddr c (s.counter a) a).new = some n := by
    intro n hn
    rcases hcase with ⟨-, rfl, -⟩ | ⟨-, -, p, -, rfl⟩
    · simp [Pc.new] at hn
    · exact hn
  have hnl : new.last = none := by
    rcases hcase with ⟨-, rfl, -⟩ | ⟨-, -, p, -, rfl⟩ <;> rfl
  have hna : new.addr = none := by
    rcases hcase with ⟨-, rfl, -⟩ | ⟨-, -, p, -, rfl⟩ <;> rfl
  have hnf : new.found = none := by
    rcases hcase with ⟨-, rfl, -⟩ | ⟨-, -, p, -, rfl⟩ <;> rfl
  have fin : (∀ q, s.was q = true →
      (s'.counter q = ⟨some q, refs s' q⟩ ∧ s'.freed q = 0) ∨
      ((s'.counter q).self = none ∧ refs s' q = 0 ∧ s'.freed q = 1 ∧ q ≠ s.active)) →
      (∀ q, s.was q = false → refs s' q = refs s q) → (∀ q, refs s q ≤ refs s' q) → Inv s' := by
    intro h1 h2 h3
    refine h.update ht hp (by omega) hact hwas h1 ?_ ?_ ?_ (by simp [hna]) (by simp [hnl]) (by simp [hnf]) ?_
    · intro q hq; rw [h2 q hq, hf]; exact h.notWas q hq
    · intro n hn
      have h4 := h.new t _ n ht (hnewc n hn)
      have hne : n ≠ a := by rintro rfl; rw [hwa] at h4; cases h4.2.1
      exact ⟨by omega, h4.2.1, by rw [hcnt, set_ne _ _ hne]; exact h4.2.2, .inl (hnewc n hn)⟩
    · intro n _ hn
      have hne : n ≠ a := by rintro rfl; rw [hwa] at hn; cases hn
      rw [hcnt, set_ne _ _ hne]
    · intro q hq hne hf'
      rw [hf] at hf'
      exact ⟨hf', fun hpos => .inl (Nat.lt_of_lt_of_le hpos (h3 q)), by simp [Pc.last]⟩
  rcases h.cnt a hwa with ⟨hc, hfa⟩ | ⟨hc, hra, hfa, hne⟩
  · -- the handle is alive
    have hself : (s.counter a).self = some a := by rw [hc]
    have hr : ∀ q, refs s' q = refs s q + if q = a then 1 else 0 := by
      intro q
      have h4 := refs_move ht hp q
      rcases hcase with ⟨-, rfl, hheld⟩ | ⟨-, hheld, p, hps, rfl⟩
      · rw [hheld a hself] at h4
        by_cases e : q = a
        · subst e; simp [Pc.uses] at h4 ⊢; omega
        · simp [Pc.uses, set_ne _ _ e, e] at h4 ⊢; omega
      · rw [hself] at hps
        cases hps
        rw [hheld] at h4
        by_cases e : q = a
        · subst e; simp [Pc.uses] at h4 ⊢; omega
        · simp [Pc.uses, Ne.symm e, e] at h4 ⊢; omega
    refine ⟨fin ?_ ?_ ?_, ?_⟩
    · intro q hq
      by_cases e : q = a
      · subst e
        left
        rw [hcnt, set_self, hr, hf]
        simp [hc, hfa]
      · rw [hcnt, set_ne _ _ e, hr, hf]
        simpa [e] using h.cnt q hq
    · intro q hq
      have e : q ≠ a := by rintro rfl; rw [hwa] at hq; cases hq
      rw [hr]; simp [e]
    · intro q; rw [hr]; omega
    · intro p hps
      rw [hself] at hps
      cases hps
      exact ⟨rfl, hfa, hwa⟩
  · -- the handle has been emptied
    have hheld : s'.held = s.held := hnone hc
    have hnu : new.uses = none := by
      rcases hcase with ⟨-, rfl, -⟩ | ⟨-, -, p, hps, rfl⟩
      · rfl
      · rw [hc] at hps; cases hps
    have hr : ∀ q, refs s' q = refs s q := by
      intro q
      have h4 := refs_move ht hp q
      rw [hheld, hnu] at h4
      simp [Pc.uses] at h4
      omega
    refine ⟨fin ?_ (fun q _ => hr q) (fun q => by rw [hr]; exact Nat.le_refl _), ?_⟩
    · intro q hq
      by_cases e : q = a
      · subst e
        right
        rw [hcnt, set_self, hr, hf]
        exact ⟨hc, hra, hfa, hne⟩
      · rw [hcnt, set_ne _ _ e, hr, hf]
        exact h.cnt q hq
    · intro p hps; rw [hc] at hps; cases hps

/-- The successful exchange of a decrement. -/
theorem Inv.decremented {s s' : State} (h : Inv s) {t p : Nat} {c : Ctx} {compare : Counter}
    (ht : s.pcs[t]? = some (.decRead c p compare)) (he : s.counter p = compare) {new : Pc}
    (hp : s'.pcs = s.pcs.set t new) (hfr : s'.fresh = s.fresh) (hact : s'.active = s.active) (hwas : s'.was = s.was)
    (hcnt : s'.counter = set s.counter p ⟨compare.self, compare.inUse - 1⟩) (hf : s'.freed = s.freed)
    (hh : s'.held = s.held)
    (hcase : if compare.inUse - 1 = 0 then new = .decCheck c p ⟨compare.self, compare.inUse - 1⟩
      else new = (afterDec c).1) : Inv s' := by
  have hpos := refs_pos ht (p := p) rfl
  have hwp : s.was p = true := by
    by_contra hc
    have := (h.notWas p (by simpa using hc)).1
    omega
  subst he
  obtain ⟨hc, hfp⟩ : s.counter p = ⟨some p, refs s p⟩ ∧ s.freed p = 0 := by
    rcases h.cnt p hwp with hc | ⟨-, hr, -⟩
    · exact hc
    · omega
  rw [hc] at hcase hcnt
  simp only at hcase hcnt
  have hnu : new.uses = none := by
    split at hcase <;> subst hcase
    · rfl
    · exact afterDec_uses c
  have hnn : new.new = none := by
    split at hcase <;> subst hcase
    · rfl
    · exact afterDec_new c
  have hna : new.addr = none := by
    split at hcase <;> subst hcase
    · rfl
    · exact afterDec_addr c
  have hnf : new.found = none := by
    split at hcase <;> subst hcase
    · rfl
    · exact afterDec_found c
  have hr : ∀ q, refs s' q + (if q = p then 1 else 0) = refs s q := by
    intro q
    have h4 := refs_move ht hp q
    rw [hh, hnu] at h4
    by_cases e : q = p
    · subst e; simp [Pc.uses] at h4 ⊢; omega
    · simp [Pc.uses, Ne.symm e, e] at h4 ⊢; omega
  refine h.update ht hp (by omega) hact hwas ?_ ?_ (by simp [hnn]) ?_ (by simp [hna]) ?_ (by simp [hnf]) ?_
  · intro q hq
    by_cases e : q = p
    · subst e
      left
      have := hr q
      simp at this
      rw [hcnt, set_self, hf]
      refine ⟨?_, hfp⟩
      simp only [Counter.mk.injEq, true_and]
      omega
    · have := hr q
      simp [e] at this
      rw [hcnt, set_ne _ _ e, this, hf]
      exact h.cnt q hq
  · intro q hq
    have e : q ≠ p := by rintro rfl; rw [hwp] at hq; cases hq
    have := hr q
    simp [e] at this
    rw [this, hf]; exact h.notWas q hq
  · intro n _ hn
    have e : n ≠ p := by rintro rfl; rw [hwp] at hn; cases hn
    rw [hcnt, set_ne _ _ e]
  · intro q d hl
    split at hcase
    · rename_i h0
      subst hcase
      simp only [Pc.last, Option.some.injEq, Prod.mk.injEq] at hl
      obtain ⟨rfl, rfl⟩ := hl
      exact ⟨by rw [h0], hwp⟩
    · subst hcase
      rw [afterDec_last] at hl; cases hl
  · intro q hq hne hf'
    rw [hf] at hf'
    refine ⟨hf', fun hpos' => ?_, by simp [Pc.last]⟩
    have h5 := hr q
    by_cases e : q = p
    · subst e
      simp at h5
      split at hcase
      · subst hcase; exact .inr ⟨_, rfl⟩
      · rename_i h0
        left
        omega
    · simp [e] at h5
      left; omega

/-- The exchange of the active handle. -/
theorem Inv.swapped {s s' : State} (h : Inv s) {t n : Nat} {c : Ctx} (hn : c.new = some n)
    (ht : s.pcs[t]? = some (.swap c s.active)) (hp : s'.pcs = s.pcs.set t (.dec c s.active)) (hfr : s'.fresh = s.fresh)
    (hact : s'.active = n) (hwas : s'.was = set s.was n true)
    (hcnt : s'.counter = s.counter) (hf : s'.freed = s.freed) (hh : s'.held = s.held) : Inv s' := by
  obtain ⟨n1, n2, n3⟩ := h.new t _ n ht hn
  have hr : ∀ q, refs s' q = refs s q := by
    intro q
    have := refs_move ht hp q
    by_cases e : s.active = q
    · simp [Pc.uses, hh, e] at this; omega
    · simp [Pc.uses, hh, e] at this; omega
  have hne : ∀ q, s.was q = true → q ≠ n := by rintro q hq rfl; rw [n2] at hq; cases hq
  have hwas' : ∀ q, s'.was q = true ↔ (q = n ∨ s.was q = true) := by
    intro q
    rw [hwas]
    by_cases e : q = n
    · subst e; simp
    · simp [set_ne _ _ e, e]
  have hnn : ∀ (i : Nat) (pc : Pc) (m : Nat), (s'.pcs)[i]? = some pc → pc.new = some m → m ≠ n ∧ s.pcs[i]? = some pc := by
    intro i pc m hi hm
    rw [hp] at hi
    rcases getElem?_set' ht hi with ⟨rfl, rfl⟩ | ⟨hit, hi⟩
    · simp [Pc.new] at hm
    · refine ⟨?_, hi⟩
      rintro rfl
      exact hit (h.uniq i pc t _ m hi ht hm hn)
  have hdis : s.was s.active = true := h.act
  constructor
  · rw [hact, hwas, set_self]
  · intro p hpw
    rw [hfr]
    rcases (hwas' p).1 hpw with rfl | hpw
    · exact n1
    · exact h.wasLt p hpw
  · intro p hpw
    rw [hr, hcnt, hf, hact]
    rcases (hwas' p).1 hpw with rfl | hpw
    · left
      have := h.notWas p n2
      rw [this.1]; exact ⟨n3, this.2⟩
    · rcases h.cnt p hpw with h1 | ⟨h1, h2, h3, -⟩
      · exact .inl h1
      · exact .inr ⟨h1, h2, h3, hne p hpw⟩
  · intro p hpw
    have : s.was p = false := by
      cases h1 : s.was p with
      | false => rfl
      | true => rw [(hwas' p).2 (.inr h1)] at hpw; cases hpw
    rw [hr, hf]; exact h.notWas p this
  · intro i pc m hi hm
    obtain ⟨h1, h2⟩ := hnn i pc m hi hm
    obtain ⟨h3, h4, h5⟩ := h.new i pc m h2 hm
    exact ⟨by rw [hfr]; exact h3, by rw [hwas, set_ne _ _ h1]; exact h4, by rw [hcnt]; exact h5⟩
  · intro i pc j pc' m hi hj hm hm'
    exact h.uniq i pc j pc' m (hnn i pc m hi hm).2 (hnn j pc' m hj hm').2 hm hm'
  · intro pc a hm ha
    rw [hp] at hm
    rcases List.mem_or_eq_of_mem_set hm with hm | rfl
    · exact (hwas' a).2 (.inr (h.addr pc a hm ha))
    · simp [Pc.addr] at ha
  · intro pc p d hm hl
    rw [hp] at hm
    rcases List.mem_or_eq_of_mem_set hm with hm | rfl
    · have := h.last pc p d hm hl
      exact ⟨this.1, (hwas' p).2 (.inr this.2)⟩
    · simp [Pc.last] at hl
  · intro pc p hm hl
    rw [hp] at hm
    rw [hact]
    rcases List.mem_or_eq_of_mem_set hm with hm | rfl
    · have : ∃ d, pc.last = some (p, d) := by
        cases pc <;> simp [Pc.found] at hl
        subst hl
        exact ⟨_, rfl⟩
      obtain ⟨d, hd⟩ := this
      exact hne p (h.last pc p d hm hd).2
    · simp [Pc.found] at hl
  · intro p hpw hpa hpf
    rw [hr]
    rcases (hwas' p).1 hpw with rfl | hpw
    · exact absurd hact.symm hpa
    · by_cases e : p = s.active
      · subst e
        exact .inl (refs_pos ht rfl)
      · rw [hf] at hpf
        rcases h.live p hpw e hpf with h1 | ⟨pc, d, hm, hl⟩
        · exact .inl h1
        · refine .inr ⟨pc, d, ?_, hl⟩
          rw [hp]
          refine mem_set_of_ne ht hm ?_
          rintro rfl
          simp [Pc.last] at hl

/-- The exchange of the counter for the empty one. -/
theorem Inv.emptied {s s' : State} (h : Inv s) {t p : Nat} {c : Ctx} {d : Counter}
    (ht : s.pcs[t]? = some (.decFree c p d)) (he : s.counter p = d)
    (hp : s'.pcs = s.pcs.set t (afterDec c).1) (hfr : s'.fresh = s.fresh) (hact : s'.active = s.active)
    (hwas : s'.was = s.was) (hcnt : s'.counter = set s.counter p ⟨none, 0⟩)
    (hf : s'.freed = set s.freed p (s.freed p + 1)) (hh : s'.held = s.held) :
    Inv s' ∧ refs s p = 0 ∧ s.freed p = 0 ∧ p ≠ s.active := by
  obtain ⟨rfl, hwp⟩ := h.last _ p d (mem_of_getElem? ht) rfl
  have hna := h.found _ p (mem_of_getElem? ht) rfl
  obtain ⟨hc, hfp⟩ : s.counter p = ⟨some p, refs s p⟩ ∧ s.freed p = 0 := by
    rcases h.cnt p hwp with hc | ⟨hc, -⟩
    · exact hc
    · rw [he] at hc; cases hc
  rw [he] at hc
  have hr0 : refs s p = 0 := by
    simp only [Counter.mk.injEq, true_and] at hc; omega
  have hr : ∀ q, refs s' q = refs s q := by
    intro q
    have := refs_move ht hp q
    rw [hh, afterDec_uses] at this
    simp [Pc.uses] at this
    omega
  refine ⟨?_, hr0, hfp, hna⟩
  refine h.update ht hp (by omega) hact hwas ?_ ?_ (by simp [afterDec_new]) ?_ (by simp [afterDec_addr])
    (by simp [afterDec_last]) (by simp [afterDec_found]) ?_
  · intro q hq
    by_cases e : q = p
    · subst e
      right
      rw [hcnt, set_self, hr, hf, set_self, hfp]
      exact ⟨rfl, hr0, rfl, hna⟩
    · rw [hcnt, set_ne _ _ e, hr, hf, set_ne _ _ e]
      exact h.cnt q hq
  · intro q hq
    have e : q ≠ p := by rintro rfl; rw [hwp] at hq; cases hq
    rw [hr, hf, set_ne _ _ e]; exact h.notWas q hq
  · intro n _ hn
    have e : n ≠ p := by rintro rfl; rw [hwp] at hn; cases hn
    rw [hcnt, set_ne _ _ e]
  · intro q hq hne hf'
    have e : q ≠ p := by rintro rfl; rw [hf, set_self] at hf'; omega
    rw [hf, set_ne _ _ e] at hf'
    refine ⟨hf', fun hpos => .inl (by rw [hr]; exact hpos), ?_⟩
    intro d' hl
    simp only [Pc.last, Option.some.injEq, Prod.mk.injEq] at hl
    exact absurd hl.1.symm e

theorem Inv.step {s s' : State} (h : Inv s) {t : Nat} {a : Act} {r : Ret} (hs : step s t a = some (s', r)) :
    Inv s' ∧ Gave s s' a r := by
  simp only [Resource.step, Option.bind_eq_bind] at hs
  cases ht : s.pcs[t]? with
  | none => simp [ht] at hs
  | some pc =>
    simp only [ht, Option.bind_some] at hs
    cases a with
    | callGet =>
      simp only at hs
      split at hs
      · rename_i hi
        obtain ⟨rfl, -⟩ := hi
        simp only [Option.some.injEq, Prod.mk.injEq] at hs
        obtain ⟨rfl, rfl⟩ := hs
        exact ⟨h.move ht rfl rfl rfl rfl rfl rfl rfl rfl (by simp [Pc.new, Ctx.new]) (by simp [Pc.addr])
          (by simp [Pc.last]) (by simp [Pc.found]) (by simp [Pc.last]), rfl⟩
      · simp at hs
    | callRelease p =>
      simp only at hs
      split at hs
      · rename_i hi
        obtain ⟨rfl, hh⟩ := hi
        simp only [Option.some.injEq, Prod.mk.injEq] at hs
        obtain ⟨rfl, rfl⟩ := hs
        obtain ⟨h1, h2⟩ := h.callRelease (s' := { s.goto t (.dec .user p) with held := set s.held p (s.held p - 1) })
          ht hh rfl rfl rfl rfl rfl rfl rfl
        exact ⟨h1, h2, rfl⟩
      · simp at hs
    | callReplace =>
      simp only at hs
      split at hs
      · rename_i hi
        obtain ⟨rfl, -⟩ := hi
        simp only [Option.some.injEq, Prod.mk.injEq] at hs
        obtain ⟨rfl, rfl⟩ := hs
        exact ⟨h.setup ht (c := .replace s.fresh) rfl rfl rfl rfl rfl rfl rfl rfl, rfl⟩
      · simp at hs
    | callFree =>
      simp only at hs
      split at hs
      · rename_i hi
        obtain ⟨rfl, -⟩ := hi
        simp only [Option.some.injEq, Prod.mk.injEq] at hs
        obtain ⟨rfl, rfl⟩ := hs
        exact ⟨h.setup ht (c := .free s.fresh) rfl rfl rfl rfl rfl rfl rfl rfl, rfl⟩
      · simp at hs
    | run =>
      simp only at hs
      have hmem := mem_of_getElem? ht
      cases pc with
      | idle => simp [access] at hs
      | inc c =>
        simp only [access, Option.some.injEq, Prod.mk.injEq] at hs
        obtain ⟨rfl, rfl⟩ := hs
        refine ⟨h.move ht rfl rfl rfl rfl rfl rfl rfl rfl (fun n hn => hn) ?_ (by simp [Pc.last]) (by simp [Pc.found])
          (by simp [Pc.last]), rfl⟩
        intro a ha
        simp only [Pc.addr, Option.some.injEq] at ha
        subst ha; exact h.act
      | incActive c a =>
        simp only [access, Option.some.injEq, Prod.mk.injEq] at hs
        obtain ⟨rfl, rfl⟩ := hs
        refine ⟨h.move ht rfl rfl rfl rfl rfl rfl rfl rfl (fun n hn => hn) ?_ (by simp [Pc.last]) (by simp [Pc.found])
          (by simp [Pc.last]), rfl⟩
        intro a' ha
        simp only [Pc.addr, Option.some.injEq] at ha
        subst ha; exact h.addr _ _ hmem rfl
      | incSelf c a self =>
        simp only [access, Option.some.injEq, Prod.mk.injEq] at hs
        obtain ⟨rfl, rfl⟩ := hs
        exact ⟨h.move ht rfl rfl rfl rfl rfl rfl rfl rfl (fun n hn => hn) (by simp [Pc.addr]) (by simp [Pc.last])
          (by simp [Pc.found]) (by simp [Pc.last]), rfl⟩
      | incRead c compare =>
        simp only [access, Option.some.injEq, Prod.mk.injEq] at hs
        obtain ⟨rfl, rfl⟩ := hs
        refine ⟨h.move ht rfl rfl rfl rfl rfl rfl rfl rfl (fun n hn => hn) ?_ (by simp [Pc.last]) (by simp [Pc.found])
          (by simp [Pc.last]), rfl⟩
        intro a ha
        simp only [Pc.addr, Option.some.injEq] at ha
        subst ha; exact h.act
      | incAddr c compare a =>
        simp only [access] at hs
        split at hs
        · rename_i he
          cases hself : compare.self with
          | none =>
            cases c with
            | user =>
              simp only [hself, Option.some.injEq, Prod.mk.injEq] at hs
              obtain ⟨rfl, rfl⟩ := hs
              have := h.incremented (s' := State.goto { s.touch a with
                counter := set s.counter a ⟨none, compare.inUse + 1⟩ } t .idle) ht he (new := .idle) rfl rfl rfl rfl
                (by rw [hself]; rfl) rfl
                (.inl ⟨rfl, rfl, by simp [hself]⟩) (fun _ => rfl)
              exact ⟨this.1, rfl⟩
            | replace n => simp [hself] at hs
            | free n => simp [hself] at hs
          | some p =>
            cases c with
            | user =>
              simp only [hself, Option.some.injEq, Prod.mk.injEq] at hs
              obtain ⟨rfl, rfl⟩ := hs
              have := h.incremented (s' := { State.goto { s.touch a with
                counter := set s.counter a ⟨some p, compare.inUse + 1⟩ } t .idle with
                held := set s.held p (s.held p + 1) }) ht he (new := .idle) rfl rfl rfl rfl
                (by rw [hself]; rfl) rfl
                (.inl ⟨rfl, rfl, by
                  intro q hq
                  rw [hself] at hq; cases hq; rfl⟩) (by simp [hself])
              obtain ⟨-, b2, b3⟩ := this.2 p hself
              exact ⟨this.1, b3, rfl, b2⟩
            | replace n =>
              simp only [hself, Option.some.injEq, Prod.mk.injEq] at hs
              obtain ⟨rfl, rfl⟩ := hs
              have := h.incremented (s' := State.goto { s.touch a with
                counter := set s.counter a ⟨some p, compare.inUse + 1⟩ } t (.swap (.replace n) p)) ht he
                (new := .swap (.replace n) p) rfl rfl rfl rfl (by rw [hself]; rfl) rfl
                (.inr ⟨by simp, rfl, p, hself, rfl⟩) (by simp [hself])
              exact ⟨this.1, rfl⟩
            | free n =>
              simp only [hself, Option.some.injEq, Prod.mk.injEq] at hs
              obtain ⟨rfl, rfl⟩ := hs
              have := h.incremented (s' := State.goto { s.touch a with
                counter := set s.counter a ⟨some p, compare.inUse + 1⟩ } t (.swap (.free n) p)) ht he
                (new := .swap (.free n) p) rfl rfl rfl rfl (by rw [hself]; rfl) rfl
                (.inr ⟨by simp, rfl, p, hself, rfl⟩) (by simp [hself])
              exact ⟨this.1, rfl⟩
        · simp only [Option.some.injEq, Prod.mk.injEq] at hs
          obtain ⟨rfl, rfl⟩ := hs
          exact ⟨h.move ht rfl rfl rfl rfl rfl rfl rfl rfl (fun n hn => hn) (by simp [Pc.addr]) (by simp [Pc.last])
            (by simp [Pc.found]) (by simp [Pc.last]), rfl⟩
      | swap c old =>
        have fin : ∀ n, c.new = some n → some ((if s.active = old then
            { s with active := n, was := set s.was n true } else s).goto t (.dec c old), Ret.nothing) = some (s', r) →
            Inv s' ∧ Gave s s' .run r := by
          intro n hn hs
          simp only [Option.some.injEq, Prod.mk.injEq] at hs
          obtain ⟨rfl, rfl⟩ := hs
          split
          · rename_i he
            subst he
            exact ⟨h.swapped hn ht rfl rfl rfl rfl rfl rfl rfl, rfl⟩
          · exact ⟨h.move ht rfl rfl rfl rfl rfl rfl rfl rfl (by simp [Pc.new]) (by simp [Pc.addr]) (by simp [Pc.last])
              (by simp [Pc.found]) (by simp [Pc.last]), rfl⟩
        cases c with
        | user => simp [access] at hs
        | replace n => exact fin n rfl hs
        | free n => exact fin n rfl hs
      | dec c p =>
        simp only [access, Option.some.injEq, Prod.mk.injEq] at hs
        obtain ⟨rfl, rfl⟩ := hs
        exact ⟨h.move ht rfl rfl rfl rfl rfl rfl rfl rfl (by simp [Pc.new]) (by simp [Pc.addr]) (by simp [Pc.last])
          (by simp [Pc.found]) (by simp [Pc.last]), rfl⟩
      | decSelf c p self =>
        simp only [access, Option.some.injEq, Prod.mk.injEq] at hs
        obtain ⟨rfl, rfl⟩ := hs
        exact ⟨h.move ht rfl rfl rfl rfl rfl rfl rfl rfl (by simp [Pc.new]) (by simp [Pc.addr]) (by simp [Pc.last])
          (by simp [Pc.found]) (by simp [Pc.last]), rfl⟩
      | decRead c p compare =>
        simp only [access] at hs
        split at hs
        · rename_i he
          split at hs
          · rename_i h0
            simp only [Option.some.injEq, Prod.mk.injEq] at hs
            obtain ⟨rfl, rfl⟩ := hs
            exact ⟨h.decremented ht he rfl rfl rfl rfl rfl rfl rfl (by rw [if_pos h0]), rfl⟩
          · rename_i h0
            simp only [Option.some.injEq, Prod.mk.injEq] at hs
            obtain ⟨rfl, rfl⟩ := hs
            refine ⟨h.decremented ht he rfl rfl rfl rfl rfl rfl rfl (by rw [if_neg h0]), ?_⟩
            cases c <;> rfl
        · simp only [Option.some.injEq, Prod.mk.injEq] at hs
          obtain ⟨rfl, rfl⟩ := hs
          exact ⟨h.move ht rfl rfl rfl rfl rfl rfl rfl rfl (by simp [Pc.new]) (by simp [Pc.addr]) (by simp [Pc.last])
            (by simp [Pc.found]) (by simp [Pc.last]), rfl⟩
      | decCheck c p d =>
        obtain ⟨rfl, hw⟩ := h.last _ p d hmem rfl
        simp only [access] at hs
        split at hs
        · rename_i he
          simp only [Option.some.injEq, Prod.mk.injEq] at hs
          obtain ⟨rfl, rfl⟩ := hs
          refine ⟨h.move ht rfl rfl rfl rfl rfl rfl rfl rfl (by simp [Pc.new]) (by simp [Pc.addr]) ?_ ?_ ?_, rfl⟩
          · intro q d hl; exact h.last _ q d hmem hl
          · intro q hq
            simp only [Pc.found, Option.some.injEq] at hq
            subst hq
            intro hc
            apply he
            simp [State.touch, hc]
          · intro q d hl _ _; exact .inr ⟨d, hl⟩
        · rename_i he
          simp only [Option.some.injEq, Prod.mk.injEq] at hs
          obtain ⟨rfl, rfl⟩ := hs
          refine ⟨h.move ht rfl rfl rfl rfl rfl rfl rfl (by rw [afterDec_uses]; rfl) (by simp [afterDec_new])
            (by simp [afterDec_addr]) (by simp [afterDec_last]) (by simp [afterDec_found]) ?_, ?_⟩
          · intro q d hl hq _
            simp only [Pc.last, Option.some.injEq, Prod.mk.injEq] at hl
            obtain ⟨rfl, -⟩ := hl
            simp [State.touch] at he
            exact absurd he hq
          · cases c <;> rfl
      | decFree c p d =>
        obtain ⟨rfl, hw⟩ := h.last _ p d hmem rfl
        simp only [access] at hs
        split at hs
        · rename_i he
          simp only [Option.some.injEq, Prod.mk.injEq] at hs
          obtain ⟨rfl, rfl⟩ := hs
          have := h.emptied (s' := State.goto { s.touch p with
            counter := set s.counter p ⟨none, 0⟩, freed := set s.freed p (s.freed p + 1),
            gone := set s.gone p true } t (afterDec c).1) ht he rfl rfl rfl rfl rfl rfl rfl
          refine ⟨this.1, ?_⟩
          cases c <;> rfl
        · rename_i he
          simp only [Option.some.injEq, Prod.mk.injEq] at hs
          obtain ⟨rfl, rfl⟩ := hs
          refine ⟨h.move ht rfl rfl rfl rfl rfl rfl rfl (by rw [afterDec_uses]; rfl) (by simp [afterDec_new])
            (by simp [afterDec_addr]) (by simp [afterDec_last]) (by simp [afterDec_found]) ?_, ?_⟩
          · intro q d hl hq hf
            simp only [Pc.last, Option.some.injEq, Prod.mk.injEq] at hl
            obtain ⟨rfl, -⟩ := hl
            left
            rcases h.cnt p hw with ⟨hc, -⟩ | ⟨-, -, hc, -⟩
            · rcases Nat.eq_zero_or_pos (refs s p) with h0 | h0
              · rw [hc, h0] at he; exact absurd rfl he
              · exact h0
            · omega
          · cases c <;> rfl
      | freeNew n =>
        simp only [access, Option.some.injEq, Prod.mk.injEq] at hs
        obtain ⟨rfl, rfl⟩ := hs
        exact ⟨h.move ht rfl rfl rfl rfl rfl rfl rfl rfl (by simp [Pc.new]) (by simp [Pc.addr]) (by simp [Pc.last])
          (by simp [Pc.found]) (by simp [Pc.last]), rfl⟩

theorem start_inv (n : Nat) : Inv (start n) := by
  have hr : ∀ p, refs (start n) p = 0 := by
    intro p
    simp only [refs, start, Nat.zero_add]
    rw [List.countP_eq_zero]
    intro pc hm
    rw [List.mem_replicate] at hm
    simp [hm.2, Pc.uses]
  have hidle : ∀ {t : Nat} {pc : Pc}, (start n).pcs[t]? = some pc → pc = .idle := by
    intro t pc h
    have := mem_of_getElem? h
    simp only [start, List.mem_replicate] at this
    exact this.2
  have hidle' : ∀ {pc : Pc}, pc ∈ (start n).pcs → pc = .idle := by
    intro pc h
    simp only [start, List.mem_replicate] at h
    exact h.2
  constructor
  · rfl
  · intro p hp
    have : p = 0 := by simpa [start] using hp
    subst this; exact Nat.one_pos
  · intro p hp
    have : p = 0 := by simpa [start] using hp
    subst this
    left
    rw [hr]
    exact ⟨rfl, rfl⟩
  · intro p _; exact ⟨hr p, rfl⟩
  · intro t pc m h hm; rw [hidle h] at hm; cases hm
  · intro t pc t' pc' m h h' hm; rw [hidle h] at hm; cases hm
  · intro pc a h hm; rw [hidle' h] at hm; cases hm
  · intro pc a d h hm; rw [hidle' h] at hm; cases hm
  · intro pc a h hm; rw [hidle' h] at hm; cases hm
  · intro p hp hne
    have : p = 0 := by simpa [start] using hp
    subst this
    exact absurd rfl hne

end Verif.Resource
