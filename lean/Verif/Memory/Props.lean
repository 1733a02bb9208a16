import Verif.Memory.Model

/-! # C15, C34, C44: memory reader, tracking, aligned sizes -/

namespace Verif.Memory

/-! ## C15 -/

theorem createFromMemory_some {r r' : Reader} {h : Header} {a : Area} (hc : createFromMemory r h = (r', some a)) :
    a.first = r.current ∧ a.size = h.length ∧ r'.image = r.image ∧ r'.current = r.current + h.length ∧
      r'.current ≤ r.image.length ∧ (a.elementSize ≠ 0 → a.count = a.size / a.elementSize) := by
  unfold createFromMemory at hc
  split at hc
  · simp at hc
  · simp only [advance] at hc
    by_cases hl : r.current + h.length > r.image.length
    · simp [hl] at hc
    · simp only [hl, decide_false, Bool.not_false, Prod.mk.injEq, Option.some.injEq] at hc
      obtain ⟨rfl, rfl⟩ := hc
      refine ⟨rfl, rfl, rfl, rfl, by simp; omega, ?_⟩
      intro he; simp only at he ⊢; simp [he]

theorem header_reader {r r' : Reader} {es : Nat} {b : Bool} {h : Header}
    (hh : headerFromMemory r es b = some (r', h)) : r'.image = r.image ∧ r'.current = r.current + 4 := by
  simp only [headerFromMemory, Option.map_eq_some_iff] at hh
  obtain ⟨n, -, hn⟩ := hh
  simp only [advance, Prod.mk.injEq] at hn
  rw [← hn.1]; exact ⟨rfl, rfl⟩

theorem run_spec (ops : List Op) (r : Reader) (hr : r.current ≤ r.image.length) (as : List Area) (ok : Bool)
    (h : run r ops = some (as, ok)) :
    (∀ a ∈ as, r.current ≤ a.first ∧ a.first + a.size ≤ r.image.length ∧
      (a.elementSize ≠ 0 → a.count = a.size / a.elementSize)) ∧
    as.Pairwise fun a b => a.first + a.size ≤ b.first := by
  induction ops generalizing r as ok with
  | nil => simp [run] at h; obtain ⟨rfl, -⟩ := h; simp
  | cons o ops ih =>
    cases o with
    | skip n =>
      simp only [run, advance] at h
      by_cases hl : r.current + n > r.image.length
      · simp [hl] at h; obtain ⟨rfl, -⟩ := h; simp
      · simp only [hl, decide_false, Bool.not_false] at h
        obtain ⟨h1, h2⟩ := ih ⟨r.image, r.current + n⟩ (by simp; omega) as ok h
        refine ⟨fun a ha => ?_, h2⟩
        have := h1 a ha
        simp only at this
        exact ⟨by omega, this.2⟩
    | coll es b =>
      simp only [run, Option.bind_eq_some_iff] at h
      obtain ⟨⟨r1, hd⟩, hh, h⟩ := h
      obtain ⟨hi1, hc1⟩ := header_reader hh
      rcases hcr : createFromMemory r1 hd with ⟨r2, _ | a⟩
      · rw [hcr] at h; simp at h; obtain ⟨rfl, -⟩ := h; simp
      · rw [hcr] at h
        obtain ⟨f1, f2, f3, f4, f5, f6⟩ := createFromMemory_some hcr
        simp only [Option.map_eq_some_iff] at h
        obtain ⟨⟨as', ok'⟩, hr2, he⟩ := h
        simp only [Prod.mk.injEq] at he
        obtain ⟨rfl, rfl⟩ := he
        rw [hi1] at f5
        have f3' : r2.image = r.image := f3.trans hi1
        obtain ⟨h1, h2⟩ := ih r2 (by rw [f3']; exact f5) as' ok' hr2
        refine ⟨?_, ?_⟩
        · intro x hx
          simp only [List.mem_cons] at hx
          rcases hx with rfl | hx
          · exact ⟨by omega, by omega, f6⟩
          · have := h1 x hx
            rw [f3'] at this
            exact ⟨by omega, this.2⟩
        · rw [List.pairwise_cons]
          refine ⟨?_, h2⟩
          intro x hx
          have := (h1 x hx).1
          omega

/-- C15: working through any image, every area handed out lies inside the image, and later areas start at or
after the end of earlier ones. -/
theorem C15_areas (image : List UInt8) (ops : List Op) (as : List Area) (ok : Bool)
    (h : run ⟨image, 0⟩ ops = some (as, ok)) :
    (∀ a ∈ as, a.first + a.size ≤ image.length) ∧ as.Pairwise fun a b => a.first + a.size ≤ b.first := by
  obtain ⟨h1, h2⟩ := run_spec ops ⟨image, 0⟩ (by simp) as ok h
  exact ⟨fun a ha => (h1 a ha).2.1, h2⟩

/-- C15: every fixed size item got from an area handed out lies wholly inside the image, every variable size
item starts inside it. -/
theorem C15_items (image : List UInt8) (ops : List Op) (as : List Area) (ok : Bool)
    (h : run ⟨image, 0⟩ ops = some (as, ok)) (a : Area) (ha : a ∈ as) (i p : Nat) :
    (a.elementSize ≠ 0 → getFixed a i = some p → a.first ≤ p ∧ p + a.elementSize ≤ image.length) ∧
    (getVariable a i = some p → a.first ≤ p ∧ p < image.length) := by
  obtain ⟨h1, -⟩ := run_spec ops ⟨image, 0⟩ (by simp) as ok h
  obtain ⟨-, h3, h4⟩ := h1 a ha
  simp only at h3
  refine ⟨?_, ?_⟩
  · intro he hg
    simp only [getFixed] at hg
    split at hg
    · rename_i hi
      rw [h4 he] at hi
      simp only [Option.some.injEq] at hg
      have h5 : (i + 1) * a.elementSize ≤ a.size / a.elementSize * a.elementSize :=
        Nat.mul_le_mul_right _ (by omega)
      have h6 : a.size / a.elementSize * a.elementSize ≤ a.size := Nat.div_mul_le_self _ _
      rw [Nat.add_mul, Nat.one_mul] at h5
      omega
    · simp at hg
  · intro hg
    simp only [getVariable] at hg
    split at hg
    · simp only [Option.some.injEq] at hg; omega
    · simp at hg

/-- C15: a header that is in step with the reader gives a collection exactly when its length fits in what is
left of the image. -/
theorem C15_reported (r : Reader) (h : Header) (hs : h.startPosition = r.current % 2 ^ 32) :
    (createFromMemory r h).2 = none ↔ r.image.length < r.current + h.length := by
  simp only [createFromMemory, hs, ne_eq, not_true_eq_false, if_false, advance]
  by_cases hl : r.current + h.length > r.image.length <;> simp [hl]

theorem read32_some (r : Reader) : read32 r ≠ none ↔ r.current + 4 ≤ r.image.length := by
  have hlen : (r.image.drop r.current).length = r.image.length - r.current := List.length_drop
  unfold read32
  rcases hd : r.image.drop r.current with _ | ⟨a, _ | ⟨b, _ | ⟨c, _ | ⟨d, l⟩⟩⟩⟩ <;> rw [hd] at hlen <;>
    simp at hlen ⊢ <;> omega

/-- C15: reading a header stays inside the image exactly when four bytes are left; the code does not check
this (`C15_violated`). -/
theorem C15_header_partial (r : Reader) (es : Nat) (b : Bool) :
    headerFromMemory r es b ≠ none ↔ r.current + 4 ≤ r.image.length := by
  rw [← read32_some, headerFromMemory]
  cases read32 r <;> simp

/-- C15 fails for an image that ends inside a header: the header is read past the end of the image. -/
theorem C15_violated : run ⟨[1, 0, 0, 0, 7, 9, 9], 0⟩ [.coll 1 true, .coll 1 true] = none := by decide

/-- A number below 2^32 as four bytes, least significant first. -/
def le32 (n : Nat) : List UInt8 := [UInt8.ofNat n, UInt8.ofNat (n / 256), UInt8.ofNat (n / 65536),
  UInt8.ofNat (n / 16777216)]

theorem read32_le32 (pre body : List UInt8) (n : Nat) (hn : n < 2 ^ 32) :
    read32 ⟨pre ++ le32 n ++ body, pre.length⟩ = some n := by
  have : (pre ++ le32 n ++ body).drop pre.length = le32 n ++ body := by
    rw [List.append_assoc, List.drop_left]
  simp only [read32, this]
  simp only [le32, List.cons_append, UInt8.toNat_ofNat', List.nil_append, Option.some.injEq]
  omega

theorem create_at (image : List UInt8) (p len count : Nat) (hlen : p + len ≤ image.length) :
    createFromMemory ⟨image, p⟩ ⟨p % 2 ^ 32, len, count⟩ =
      (⟨image, p + len⟩, some ⟨p, len, if count = 0 then 0 else len / count,
        if (if count = 0 then 0 else len / count) ≠ 0 then len / (if count = 0 then 0 else len / count)
        else count⟩) := by
  simp only [createFromMemory, ne_eq, not_true_eq_false, if_false, advance]
  simp only [show ¬ (p + len > image.length) by omega, decide_false, Bool.not_false]

/-- C15: a count `n` of items of `es` bytes in the image, followed by that many bytes, gives the collection of these `n` items:
item `i` starts `i * es` bytes after the header, and there are no others. The next collection is read from the first byte
after them. Missing: counts whose items take 4 GiB or more, see `C15_wrap_violated`. -/
theorem C15_counted_partial (pre body : List UInt8) (n es : Nat) (hn : 0 < n) (hes : 0 < es)
    (hfits : n * es < 2 ^ 32) (hbody : n * es ≤ body.length) :
    ∃ h r a, headerFromMemory ⟨pre ++ le32 n ++ body, pre.length⟩ es true =
        some (⟨pre ++ le32 n ++ body, pre.length + 4⟩, h) ∧
      createFromMemory ⟨pre ++ le32 n ++ body, pre.length + 4⟩ h = (r, some a) ∧
      r = ⟨pre ++ le32 n ++ body, pre.length + 4 + n * es⟩ ∧ a.count = n ∧ a.elementSize = es ∧ a.size = n * es ∧
      ∀ i, getFixed a i = if i < n then some (pre.length + 4 + i * es) else none := by
  have hn32 : n < 2 ^ 32 := Nat.lt_of_le_of_lt (Nat.le_mul_of_pos_right n hes) hfits
  have hl : (pre ++ le32 n ++ body).length = pre.length + 4 + body.length := by simp [le32]; omega
  have h0 : n ≠ 0 := by omega
  have h1 : n * es / n = es := Nat.mul_div_cancel_left es hn
  have h2 : n * es / es = n := Nat.mul_div_cancel n hes
  refine ⟨⟨(pre.length + 4) % 2 ^ 32, n * es, n⟩, ⟨pre ++ le32 n ++ body, pre.length + 4 + n * es⟩,
    ⟨pre.length + 4, n * es, es, n⟩, ?_, ?_, rfl, rfl, rfl, rfl, fun i => rfl⟩
  · simp only [headerFromMemory, read32_le32 pre body n hn32, Option.map_some, if_true, advance, hl,
      Nat.mod_eq_of_lt hfits, show ¬ (pre.length + 4 > pre.length + 4 + body.length) by omega, decide_false,
      Bool.not_false]
  · rw [create_at _ _ _ _ (by omega)]
    simp only [h0, if_false, h1, ne_eq, show ¬ es = 0 by omega, not_false_eq_true, if_true, h2]

/-- C15: a length in bytes of variable sized items, followed by that many bytes, gives a collection in which
every offset below the length starts an item at that many bytes after the header, and no other does. -/
theorem C15_sized (pre body : List UInt8) (n : Nat) (hn : n < 2 ^ 32) (hbody : n ≤ body.length) :
    ∃ h r a, headerFromMemory ⟨pre ++ le32 n ++ body, pre.length⟩ 0 false =
        some (⟨pre ++ le32 n ++ body, pre.length + 4⟩, h) ∧
      createFromMemory ⟨pre ++ le32 n ++ body, pre.length + 4⟩ h = (r, some a) ∧
      r = ⟨pre ++ le32 n ++ body, pre.length + 4 + n⟩ ∧ a.count = 0 ∧ a.elementSize = 0 ∧ a.size = n ∧
      ∀ i, getVariable a i = if i < n then some (pre.length + 4 + i) else none := by
  have hl : (pre ++ le32 n ++ body).length = pre.length + 4 + body.length := by simp [le32]; omega
  refine ⟨⟨(pre.length + 4) % 2 ^ 32, n, 0⟩, ⟨pre ++ le32 n ++ body, pre.length + 4 + n⟩,
    ⟨pre.length + 4, n, 0, 0⟩, ?_, ?_, rfl, rfl, rfl, rfl, fun i => rfl⟩
  · simp only [headerFromMemory, read32_le32 pre body n hn, Option.map_some, Bool.false_eq_true, if_false, advance, hl,
      Nat.lt_irrefl, gt_iff_lt, show ¬ (pre.length + 4 + body.length < pre.length + 4) by omega, decide_false,
      Bool.not_false, if_true]
  · rw [create_at _ _ _ _ (by omega)]
    simp

/-- C15: a length in bytes of fixed sized items gives the collection of as many items as fit. -/
theorem C15_length (pre body : List UInt8) (n es : Nat) (hn : 0 < n) (hes : 0 < es) (hfits : n * es < 2 ^ 32)
    (hbody : n * es ≤ body.length) :
    ∃ h r a, headerFromMemory ⟨pre ++ le32 (n * es) ++ body, pre.length⟩ es false =
        some (⟨pre ++ le32 (n * es) ++ body, pre.length + 4⟩, h) ∧
      createFromMemory ⟨pre ++ le32 (n * es) ++ body, pre.length + 4⟩ h = (r, some a) ∧
      r = ⟨pre ++ le32 (n * es) ++ body, pre.length + 4 + n * es⟩ ∧ a.count = n ∧ a.elementSize = es ∧
      a.size = n * es ∧ ∀ i, getFixed a i = if i < n then some (pre.length + 4 + i * es) else none := by
  have hl : (pre ++ le32 (n * es) ++ body).length = pre.length + 4 + body.length := by simp [le32]; omega
  have h0 : n ≠ 0 := by omega
  have h1 : n * es / n = es := Nat.mul_div_cancel_left es hn
  have h2 : n * es / es = n := Nat.mul_div_cancel n hes
  refine ⟨⟨(pre.length + 4) % 2 ^ 32, n * es, n⟩, ⟨pre ++ le32 (n * es) ++ body, pre.length + 4 + n * es⟩,
    ⟨pre.length + 4, n * es, es, n⟩, ?_, ?_, rfl, rfl, rfl, rfl, fun i => rfl⟩
  · simp only [headerFromMemory, read32_le32 pre body (n * es) hfits, Option.map_some, Bool.false_eq_true, if_false,
      advance, hl, gt_iff_lt, show ¬ (pre.length + 4 + body.length < pre.length + 4) by omega, decide_false,
      Bool.not_false, if_true, hes, h2]
  · rw [create_at _ _ _ _ (by omega)]
    simp only [h0, if_false, h1, ne_eq, show ¬ es = 0 by omega, not_false_eq_true, if_true, h2]

/-- C15 fails for a count whose items take 4 GiB or more: the length wraps, the header of 2^30 items of 4 bytes
is accepted in an image of 4 bytes, and every one of the items is handed out at the end of the image. -/
theorem C15_wrap_violated : ∃ a, run ⟨le32 (2 ^ 30), 0⟩ [.coll 4 true] = some ([a], true) ∧
    ∀ i < 2 ^ 30, getFixed a i = some 4 := by
  refine ⟨⟨4, 0, 0, 2 ^ 30⟩, by decide, fun i hi => ?_⟩
  simp [getFixed, hi]

example : run ⟨[2, 0, 0, 0, 1, 1, 2, 2, 3, 0, 0, 0, 7, 7, 7], 0⟩ [.coll 2 true, .coll 0 false] =
    some ([⟨4, 4, 2, 2⟩, ⟨12, 3, 0, 0⟩], true) := by decide
example : run ⟨[2, 0, 0, 0, 1, 1, 2], 0⟩ [.coll 2 true] = some ([], false) := by decide

/-! ## C44 -/

/-- C44: the size reserved is at least the size asked for, and is a multiple of the alignment exactly when the
size already is one or is half an alignment beyond one. Missing: other sizes (`C44_violated`). -/
theorem C44_partial (alignment size : Nat) (ha : 0 < alignment) (hs : size + size % alignment < 2 ^ 64) :
    size ≤ alignedSize alignment size ∧
    (alignedSize alignment size % alignment = 0 ↔ size % alignment = 0 ∨ 2 * (size % alignment) = alignment) := by
  rw [alignedSize, Nat.mod_eq_of_lt hs]
  refine ⟨by omega, ?_⟩
  have hlt := Nat.mod_lt size ha
  have : (size + size % alignment) % alignment = (2 * (size % alignment)) % alignment := by
    rw [Nat.add_mod, Nat.mod_mod, ← Nat.two_mul]
  rw [this]
  by_cases h : 2 * (size % alignment) < alignment
  · rw [Nat.mod_eq_of_lt h]; omega
  · rw [Nat.mod_eq_sub_mod (by omega), Nat.mod_eq_of_lt (by omega)]; omega

/-- C44 fails for 5 bytes aligned to 4: 6 bytes are asked for, which `aligned_alloc` need not accept. -/
theorem C44_violated : ∃ a n, 0 < a ∧ alignedSize a n % a ≠ 0 := ⟨4, 5, by decide, by decide⟩

example : alignedSize 128 192 = 256 := by decide

/-! ## C34 -/

/-- Total size of the blocks allocated and not freed. -/
def total (live : List (Nat × Nat)) : Nat := (live.map (·.2)).sum

/-- The blocks live after a call, from its meaning alone. -/
def after (live : List (Nat × Nat)) : Call → List (Nat × Nat)
  | .malloc size p => (p, size) :: live
  | .mallocAligned al size p => (p, size + size % al) :: live
  | .free p => live.eraseP (fun r => r.1 = p)

/-- A history on a heap with these live blocks: allocations succeed with less than 4 GiB at a pointer not in
use, frees are of live blocks, and the total stays within `size_t`. -/
def Valid (live : List (Nat × Nat)) : List Call → Prop
  | [] => total live < 2 ^ 64
  | c :: cs => total live < 2 ^ 64 ∧ (match c with
      | .malloc size p => size < 2 ^ 32 ∧ p ∉ live.map (·.1)
      | .mallocAligned al size p => size + size % al < 2 ^ 32 ∧ p ∉ live.map (·.1)
      | .free p => p ∈ live.map (·.1)) ∧ Valid (after live c) cs

/-- The totals at each point of a history. -/
def totals (live : List (Nat × Nat)) : List Call → List Nat
  | [] => [total live]
  | c :: cs => total live :: totals (after live c) cs

/-- The largest total so far at each point, starting from `m`. -/
def peaks (m : Nat) : List Nat → List Nat
  | [] => []
  | t :: ts => max m t :: peaks (max m t) ts

/-- Recorded entries of a shard are the live blocks that belong to it. -/
def Recorded (s : Track) (live : List (Nat × Nat)) : Prop :=
  ∀ i, s.shards i = live.filter fun r => shardOf r.1 = i

theorem find_filter (live : List (Nat × Nat)) (p : Nat) :
    (live.filter fun r => shardOf r.1 = shardOf p).find? (fun r => r.1 = p) = live.find? (fun r => r.1 = p) := by
  induction live with
  | nil => rfl
  | cons r live ih =>
    by_cases h : r.1 = p
    · subst h; simp
    · by_cases hs : shardOf r.1 = shardOf p <;> simp [hs, h, ih]

theorem erase_filter_same (live : List (Nat × Nat)) (p : Nat) :
    (live.eraseP (fun r => r.1 = p)).filter (fun r => shardOf r.1 = shardOf p) =
      (live.filter fun r => shardOf r.1 = shardOf p).eraseP (fun r => r.1 = p) := by
  induction live with
  | nil => rfl
  | cons r live ih =>
    by_cases h : r.1 = p
    · subst h; simp
    · by_cases hs : shardOf r.1 = shardOf p <;> simp [List.eraseP_cons, hs, h, ih]

theorem erase_filter_other (live : List (Nat × Nat)) (p i : Nat) (hi : i ≠ shardOf p) :
    (live.eraseP (fun r => r.1 = p)).filter (fun r => shardOf r.1 = i) = live.filter fun r => shardOf r.1 = i := by
  induction live with
  | nil => rfl
  | cons r live ih =>
    by_cases h : r.1 = p
    · subst h; simp [Ne.symm hi]
    · by_cases hs : shardOf r.1 = i <;> simp [List.eraseP_cons, hs, h, ih]

theorem total_erase (live : List (Nat × Nat)) (p : Nat) (r : Nat × Nat)
    (h : live.find? (fun r => r.1 = p) = some r) :
    total live = total (live.eraseP (fun r => r.1 = p)) + r.2 := by
  induction live with
  | nil => simp at h
  | cons x live ih =>
    by_cases hx : x.1 = p
    · simp [hx] at h; subst h; simp [total, hx]; omega
    · simp [hx] at h
      have := ih (by simpa using h)
      simp [total, List.eraseP_cons, hx] at this ⊢; omega

theorem calls_spec (cs : List Call) (s : Track) (live : List (Nat × Nat)) (hv : Valid live cs)
    (hr : Recorded s live) (hsz : ∀ r ∈ live, r.2 < 2 ^ 32) (ha : s.allocated = total live)
    (hm : total live ≤ s.max) :
    ∃ ts, calls s cs = some ts ∧ ts.map (·.allocated) = totals live cs ∧
      ts.map (·.max) = peaks s.max (totals live cs) := by
  induction cs generalizing s live with
  | nil => exact ⟨[s], rfl, by simp [totals, ha], by simp [totals, peaks]; omega⟩
  | cons c cs ih =>
    have alloc : ∀ (size p : Nat), size < 2 ^ 32 → total live + size < 2 ^ 64 →
        Recorded (track s p size) ((p, size) :: live) ∧ (track s p size).allocated = total ((p, size) :: live) ∧
        (track s p size).max = max s.max (total ((p, size) :: live)) := by
      intro size p h1 h2
      refine ⟨?_, ?_, ?_⟩
      · intro i
        by_cases hi : shardOf p = i
        · subst hi; simp [track, hr (shardOf p), Nat.mod_eq_of_lt h1]
        · simp [track, hr i, hi, Ne.symm hi]
      · simp only [track, ha, Nat.mod_eq_of_lt h2, total, List.map_cons, List.sum_cons]; simp only [total] at *; omega
      · simp only [track, ha, Nat.mod_eq_of_lt h2, total, List.map_cons, List.sum_cons]
        simp only [total] at *
        split <;> omega
    obtain ⟨h0, hc, hv'⟩ := hv
    have hlt : total (after live c) < 2 ^ 64 := by cases cs with | nil => exact hv' | cons => exact hv'.1
    cases c with
    | malloc size p =>
      have hlt' : total live + size < 2 ^ 64 := by simpa [after, total, Nat.add_comm] using hlt
      obtain ⟨a1, a2, a3⟩ := alloc size p hc.1 hlt'
      obtain ⟨ts, b1, b2, b3⟩ := ih (track s p size) ((p, size) :: live) hv' a1
        (by intro r hr'; simp only [List.mem_cons] at hr'; rcases hr' with rfl | hr'; exact hc.1; exact hsz r hr')
        a2 (by rw [a3]; exact Nat.le_max_right _ _)
      refine ⟨s :: ts, by simp [calls, call, b1], by simp [totals, after, ha, b2], ?_⟩
      simp only [List.map_cons, totals, peaks, after, b3, a3, Nat.max_eq_left hm]
      have : (totals ((p, size) :: live) cs) = total ((p, size) :: live) :: (totals ((p, size) :: live) cs).tail := by
        cases cs <;> rfl
      rw [this]; simp [peaks]
    | mallocAligned al size p =>
      have hlt' : total live + (size + size % al) < 2 ^ 64 := by simpa [after, total, Nat.add_comm] using hlt
      have hmod : (size + size % al) % 2 ^ 64 = size + size % al := Nat.mod_eq_of_lt (by have := hc.1; omega)
      obtain ⟨a1, a2, a3⟩ := alloc (size + size % al) p hc.1 hlt'
      obtain ⟨ts, b1, b2, b3⟩ := ih (track s p (size + size % al)) ((p, size + size % al) :: live) hv' a1
        (by intro r hr'; simp only [List.mem_cons] at hr'; rcases hr' with rfl | hr'; exact hc.1; exact hsz r hr')
        a2 (by rw [a3]; exact Nat.le_max_right _ _)
      refine ⟨s :: ts, by simp only [calls, call, hmod, Option.bind_some, b1, Option.map_some],
        by simp [totals, after, ha, b2], ?_⟩
      simp only [List.map_cons, totals, peaks, after, b3, a3, Nat.max_eq_left hm]
      have : (totals ((p, size + size % al) :: live) cs) =
          total ((p, size + size % al) :: live) :: (totals ((p, size + size % al) :: live) cs).tail := by
        cases cs <;> rfl
      rw [this]; simp [peaks]
    | free p =>
      have hf : ∃ r, live.find? (fun r => r.1 = p) = some r := by
        simp only [List.mem_map] at hc
        obtain ⟨r, hr1, hr2⟩ := hc
        rcases h : live.find? (fun r => r.1 = p) with _ | r'
        · rw [List.find?_eq_none] at h; exact absurd hr2 (by simpa using h r hr1)
        · exact ⟨r', h⟩
      obtain ⟨r, hf⟩ := hf
      have ht := total_erase live p r hf
      have hu : untrack s p = some
          { s with
            shards := fun i => if i = shardOf p then (s.shards i).eraseP (fun r => r.1 = p) else s.shards i
            allocated := (s.allocated + 2 ^ 64 - r.2) % 2 ^ 64 } := by
        simp only [untrack, hr (shardOf p), find_filter, hf]
      have hall : (s.allocated + 2 ^ 64 - r.2) % 2 ^ 64 = total (live.eraseP (fun r => r.1 = p)) := by
        rw [ha, ht, show total (live.eraseP (fun r => r.1 = p)) + r.2 + 2 ^ 64 - r.2 =
          total (live.eraseP (fun r => r.1 = p)) + 2 ^ 64 by omega, Nat.add_mod_right, Nat.mod_eq_of_lt (by omega)]
      obtain ⟨ts, b1, b2, b3⟩ := ih
        { s with
          shards := fun i => if i = shardOf p then (s.shards i).eraseP (fun r => r.1 = p) else s.shards i
          allocated := (s.allocated + 2 ^ 64 - r.2) % 2 ^ 64 }
        (live.eraseP (fun r => r.1 = p)) hv'
        (by
          intro i
          by_cases hi : i = shardOf p
          · subst hi; simp only [if_true, hr (shardOf p), erase_filter_same]
          · simp only [hi, if_false, hr i, erase_filter_other live p i hi])
        (fun r hr' => hsz r (List.mem_of_mem_eraseP hr')) hall (by simp only; omega)
      refine ⟨s :: ts, by simp [calls, call, hu, b1], by simp [totals, after, ha, b2], ?_⟩
      simp only [List.map_cons, totals, peaks, after, b3, Nat.max_eq_left hm]

/-- C34: through any history of successful allocations below 4 GiB and frees of live blocks, the allocated
total reported at every point is the sum of the sizes of the live blocks and the maximum reported is the
largest total so far. Missing: larger blocks (`C34_violated`) and failed allocations
(`C34_failed_violated`). -/
theorem C34_totals_partial (cs : List Call) (hv : Valid [] cs) :
    ∃ ts, calls Track.start cs = some ts ∧ ts.map (·.allocated) = totals [] cs ∧
      ts.map (·.max) = peaks 0 (totals [] cs) :=
  calls_spec cs Track.start [] hv (by intro i; rfl) (by simp) rfl (by simp [total])

/-- C34 fails for a block of 4 GiB: after freeing it, it is still counted. -/
theorem C34_violated : (calls Track.start [.malloc (2 ^ 32) 4096, .free 4096]).map (·.map (·.allocated)) =
    some [0, 2 ^ 32, 2 ^ 32] ∧ totals [] [.malloc (2 ^ 32) 4096, .free 4096] = [0, 2 ^ 32, 0] := by decide

/-- C34 fails when memory runs out: the failed allocation (returning NULL) is counted although there is no
block. -/
theorem C34_failed_violated : (calls Track.start [.malloc 10 0]).map (·.map (·.allocated)) = some [0, 10] := by
  decide

example : Valid [] [.malloc 10 4096, .mallocAligned 8 12 8192, .free 4096, .malloc 5 4096, .free 8192] := by
  simp [Valid, after, total]
example : totals [] [.malloc 10 4096, .mallocAligned 8 12 8192, .free 4096, .malloc 5 4096, .free 8192] =
    [0, 10, 26, 16, 21, 5] := by decide

end Verif.Memory
