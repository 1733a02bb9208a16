import Verif.Data.Model

/-! # C38: reusable data buffers -/

namespace Verif.Data

/-- Invariant of a data structure and the heap. -/
structure Inv (h : Heap) (d : Data) : Prop where
  fresh : ∀ b ∈ h.live, b.1 < h.next
  nodup : h.live.Pairwise fun a b => a.1 ≠ b.1
  block : d.allocated > 0 → ∃ p size, d.ptr = some p ∧ (p, size) ∈ h.live ∧ d.allocated ≤ size
  good : h.badFree = false

theorem inv_start : Inv ⟨0, [], false⟩ reset := ⟨by simp, by simp, by simp [reset], rfl⟩

theorem malloc_inv {h : Heap} (hf : ∀ b ∈ h.live, b.1 < h.next) (hn : h.live.Pairwise fun a b => a.1 ≠ b.1)
    (size : Nat) : (∀ b ∈ (h.malloc size true).1.live, b.1 < (h.malloc size true).1.next) ∧
      (h.malloc size true).1.live.Pairwise fun a b => a.1 ≠ b.1 := by
  simp only [Heap.malloc, if_true]
  refine ⟨?_, ?_⟩
  · intro b hb
    simp only [List.mem_append, List.mem_singleton] at hb
    rcases hb with hb | rfl
    · have := hf b hb; omega
    · simp
  · rw [List.pairwise_append]
    refine ⟨hn, by simp, ?_⟩
    intro a ha b hb
    simp only [List.mem_singleton] at hb
    subst hb
    have := hf a ha
    simp only; omega

/-- One request from a good state. -/
theorem dataMalloc_step {h : Heap} {d : Data} (inv : Inv h d) (n : Nat) (ok : Bool) :
    let r := dataMalloc h d n ok
    Inv r.1 r.2.1 ∧
    (∀ p, r.2.2 = some p → ∃ size, (p, size) ∈ r.1.live ∧ n ≤ size) ∧
    (ok = true → r.2.2 ≠ none) ∧
    (0 < d.allocated → n ≤ d.allocated → r = (h, d, d.ptr)) := by
  by_cases ha : d.allocated > 0
  · obtain ⟨p, size, hp, hl, hs⟩ := inv.block ha
    by_cases hb : n > d.allocated
    · have hany : (h.live.any fun b => b.1 == p) = true := by
        simp only [List.any_eq_true, beq_iff_eq]; exact ⟨_, hl, rfl⟩
      have hff : ∀ b ∈ (h.live.filter (·.1 != p)), b.1 < h.next :=
        fun b hb => inv.fresh b ((List.mem_filter.mp hb).1)
      have hnn : (h.live.filter (·.1 != p)).Pairwise fun a b => a.1 ≠ b.1 := inv.nodup.filter _
      simp only [dataMalloc, ha, hb, and_self, if_true, hp, Heap.free, hany]
      cases ok with
      | true =>
        have := malloc_inv (h := ⟨h.next, h.live.filter (·.1 != p), h.badFree⟩) hff hnn n
        simp only [Heap.malloc, if_true] at this ⊢
        refine ⟨⟨this.1, this.2, ?_, inv.good⟩, ?_, by simp, by intro _ hle; omega⟩
        · intro _
          exact ⟨h.next, n, rfl, by simp, Nat.mod_le _ _⟩
        · intro q hq
          simp only [Option.some.injEq] at hq
          exact ⟨n, by simp [hq], Nat.le_refl _⟩
      | false =>
        simp only [Heap.malloc]
        exact ⟨⟨hff, hnn, by simp, inv.good⟩, by simp, by simp, by intro _ hle; omega⟩
    · have hn0 : d.allocated ≠ 0 := by omega
      simp only [dataMalloc, hb, and_false, if_false, hn0]
      refine ⟨inv, ?_, ?_, fun _ _ => trivial⟩
      · intro q hq
        simp only [hp, Option.some.injEq] at hq
        exact ⟨size, hq ▸ hl, by omega⟩
      · intro _; rw [hp]; simp
  · have h0 : d.allocated = 0 := by omega
    simp only [dataMalloc, h0, gt_iff_lt, Nat.lt_irrefl, false_and, if_false, if_true]
    cases ok with
    | true =>
      have := malloc_inv inv.fresh inv.nodup n
      simp only [Heap.malloc, if_true] at this ⊢
      refine ⟨⟨this.1, this.2, ?_, inv.good⟩, ?_, by simp, by simp⟩
      · intro _; exact ⟨h.next, n, rfl, by simp, Nat.mod_le _ _⟩
      · intro q hq
        simp only [Option.some.injEq] at hq
        exact ⟨n, by simp [hq], Nat.le_refl _⟩
    | false =>
      simp only [Heap.malloc]
      refine ⟨⟨inv.fresh, inv.nodup, by simp, inv.good⟩, by simp, by simp, by simp⟩

theorem run_spec {h : Heap} {d : Data} (inv : Inv h d) (reqs : List (Nat × Bool)) :
    let r := run h d reqs
    Inv r.1 r.2.1 ∧ r.2.2.length = reqs.length ∧
    ∀ (i n : Nat) (ok : Bool) (heap : Heap) (out : Option Nat), reqs[i]? = some (n, ok) → r.2.2[i]? = some (heap, out) →
      (∀ p, out = some p → ∃ size, (p, size) ∈ heap.live ∧ n ≤ size) ∧ (ok = true → out ≠ none) := by
  induction reqs generalizing h d with
  | nil => simp [run, inv]
  | cons q reqs ih =>
    obtain ⟨n, ok⟩ := q
    have step := dataMalloc_step inv n ok
    simp only [run]
    rcases hr : dataMalloc h d n ok with ⟨h1, d1, p⟩
    rw [hr] at step
    obtain ⟨i1, i2, i3, -⟩ := step
    obtain ⟨j1, j2, j3⟩ := ih i1
    refine ⟨j1, by simp [j2], ?_⟩
    intro i n' ok' heap out hq ho
    cases i with
    | zero =>
      simp only [List.getElem?_cons_zero, Option.some.injEq, Prod.mk.injEq] at hq ho
      obtain ⟨rfl, rfl⟩ := hq
      obtain ⟨rfl, rfl⟩ := ho
      exact ⟨i2, i3⟩
    | succ i =>
      simp only [List.getElem?_cons_succ] at hq ho
      exact j3 i n' ok' heap out hq ho

/-- C38: in any sequence of requests on a data structure, each buffer returned is a live block of at least
the size asked for, a request fails only when memory is not available, and no block is freed twice. -/
theorem C38_requests (reqs : List (Nat × Bool)) :
    (run ⟨0, [], false⟩ reset reqs).1.badFree = false ∧
    ∀ (i n : Nat) (ok : Bool) (heap : Heap) (out : Option Nat), reqs[i]? = some (n, ok) →
      (run ⟨0, [], false⟩ reset reqs).2.2[i]? = some (heap, out) →
      (∀ p, out = some p → ∃ size, (p, size) ∈ heap.live ∧ n ≤ size) ∧ (ok = true → out ≠ none) := by
  obtain ⟨h1, -, h3⟩ := run_spec inv_start reqs
  exact ⟨h1.good, h3⟩

theorem run_append (h : Heap) (d : Data) (a b : List (Nat × Bool)) :
    run h d (a ++ b) = (let r := run h d a; let q := run r.1 r.2.1 b; (q.1, q.2.1, r.2.2 ++ q.2.2)) := by
  induction a generalizing h d with
  | nil => simp [run]
  | cons q a ih => obtain ⟨n, ok⟩ := q; simp only [List.cons_append, run, ih]

/-- C38: a request that fits in the current buffer returns that buffer and allocates nothing. -/
theorem C38_reuse (reqs : List (Nat × Bool)) (n : Nat) (ok : Bool) :
    let r := run ⟨0, [], false⟩ reset reqs
    0 < r.2.1.allocated → n ≤ r.2.1.allocated → dataMalloc r.1 r.2.1 n ok = (r.1, r.2.1, r.2.1.ptr) := by
  intro r ha hn
  exact (dataMalloc_step (run_spec inv_start reqs).1 n ok).2.2.2 ha hn

/-- C38: for sizes from 1 to 2^32-1 nothing leaks: at any time the only live block is the current one. -/
theorem C38_no_leak (reqs : List (Nat × Bool)) (hsz : ∀ q ∈ reqs, 0 < q.1 ∧ q.1 < 2 ^ 32) :
    let r := run ⟨0, [], false⟩ reset reqs
    r.1.live.map (fun b => some b.1) = if r.2.1.ptr = none then [] else [r.2.1.ptr] := by
  have key : ∀ (reqs : List (Nat × Bool)) (h : Heap) (d : Data), (∀ q ∈ reqs, 0 < q.1 ∧ q.1 < 2 ^ 32) →
      Inv h d → (d.allocated = 0 ↔ d.ptr = none) →
      h.live.map (fun b => some b.1) = (if d.ptr = none then [] else [d.ptr]) →
      let r := run h d reqs
      r.1.live.map (fun b => some b.1) = if r.2.1.ptr = none then [] else [r.2.1.ptr] := by
    intro reqs
    induction reqs with
    | nil => intro h d _ _ _ hl; exact hl
    | cons q reqs ih =>
      intro h d hq inv hz hl
      obtain ⟨n, ok⟩ := q
      have hq1 := hq (n, ok) (by simp)
      have hmod : n % 2 ^ 32 = n := Nat.mod_eq_of_lt hq1.2
      have step := (dataMalloc_step inv n ok).1
      simp only [run]
      have goal : ((dataMalloc h d n ok).2.1.allocated = 0 ↔ (dataMalloc h d n ok).2.1.ptr = none) ∧
          (dataMalloc h d n ok).1.live.map (fun b => some b.1) =
            (if (dataMalloc h d n ok).2.1.ptr = none then [] else [(dataMalloc h d n ok).2.1.ptr]) := by
        by_cases ha : d.allocated > 0
        · obtain ⟨p, size, hp, hm, hs⟩ := inv.block ha
          rw [hp] at hl
          simp only [reduceCtorEq, if_false] at hl
          obtain ⟨b, hb1, hb2⟩ : ∃ b, h.live = [b] ∧ b.1 = p := by
            rcases hlv : h.live with _ | ⟨b, _ | ⟨c, l⟩⟩
            · rw [hlv] at hl; simp at hl
            · rw [hlv] at hl; simp at hl; exact ⟨b, rfl, hl⟩
            · rw [hlv] at hl; simp at hl
          by_cases hb : n > d.allocated
          · simp only [dataMalloc, ha, hb, and_self, if_true, hp, Heap.free, hb1, hb2, List.any_cons,
              beq_self_eq_true, Bool.true_or]
            cases ok with
            | true =>
              simp only [Heap.malloc, if_true, hmod]
              refine ⟨by simp; omega, by simp [hb2]⟩
            | false => simp [Heap.malloc, hb2]
          · have hn0 : d.allocated ≠ 0 := by omega
            simp only [dataMalloc, hb, and_false, if_false, hn0]
            refine ⟨by simp [hp], by simp [hb1, hb2, hp]⟩
        · have h0 : d.allocated = 0 := by omega
          rw [hz.mp h0] at hl
          simp only [if_true, List.map_eq_nil_iff] at hl
          simp only [dataMalloc, h0, gt_iff_lt, Nat.lt_irrefl, false_and, if_false, if_true]
          cases ok with
          | true =>
            simp only [Heap.malloc, if_true, hl, hmod]
            refine ⟨by simp; omega, by simp⟩
          | false => simp [Heap.malloc, hl]
      exact ih _ _ (fun q hq' => hq q (by simp [hq'])) step goal.1 goal.2
  exact key reqs _ _ hsz inv_start (by simp [reset]) (by simp [reset])

example : (run ⟨0, [], false⟩ reset [(4, true), (2, true), (9, true)]).2.2.map (·.2) = [some 0, some 0, some 1] := by
  decide
example : (run ⟨0, [], false⟩ reset [(4, true), (2, true), (9, true)]).1.live = [(1, 9)] := by decide
/-- A zero size request followed by another leaks the first block (hence the size condition above). -/
example : (run ⟨0, [], false⟩ reset [(0, true), (2, true)]).1.live = [(0, 0), (1, 2)] := by decide

/-- The bounds of `C38_no_leak` matter: `allocated` is 32 bits wide, so a block of 2^32 bytes is forgotten by the next
request. -/
example : (run ⟨0, [], false⟩ reset [(2 ^ 32, true), (1, true)]).1.live = [(0, 2 ^ 32), (1, 1)] := by decide

end Verif.Data
