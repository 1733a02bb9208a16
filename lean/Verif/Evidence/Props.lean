import Verif.Evidence.Model

/-! # C19, C20, C21: evidence -/

namespace Verif.Evidence

/-! ## C19 -/

/-- Specification: offer each pair of a list in turn to a callback until it declines; the final state,
whether it never declined, and the number of pairs offered. -/
def offer {σ : Type} (cb : σ → Pair → σ × Bool) : List Pair → σ → σ × Bool × Nat
  | [], s => (s, true, 0)
  | p :: ps, s =>
    if (cb s p).2 then let r := offer cb ps (cb s p).1; (r.1, r.2.1, r.2.2 + 1)
    else ((cb s p).1, false, 1)

/-- Specification: the pair as the callback must see it, with a parsed value. -/
def seen (p : Pair) : Pair := ⟨p.pfx, p.field, p.orig, if p.parsed = none then p.orig else p.parsed⟩

/-- Specification: every bit of the pair's prefix is among those asked for. -/
def wanted (prefixes : Nat) (p : Pair) : Bool := p.pfx &&& prefixes == p.pfx

theorem seen_eq (p : Pair) : (if p.parsed = none then parsePair p else p) = seen p := by
  unfold seen parsePair; split <;> rfl

theorem iterateSub_offer {σ : Type} (prefixes : Nat) (cb : σ → Pair → σ × Bool) (ps : List Pair) (s : σ) :
    let r := iterateSub prefixes cb ps s true
    (r.1, r.2.1, r.2.2.1) = offer cb ((ps.filter (wanted prefixes)).map seen) s := by
  induction ps generalizing s with
  | nil => rfl
  | cons p ps ih =>
    simp only [iterateSub, if_true]
    by_cases h : p.pfx &&& prefixes = p.pfx
    · rw [seen_eq]
      simp only [h, if_true]
      rw [List.filter_cons_of_pos (by simp [wanted, h]), List.map_cons, offer]
      rcases hc : cb s (seen p) with ⟨s1, k⟩
      cases k with
      | true => simp only; rw [← ih s1, if_pos trivial]
      | false =>
        have : iterateSub prefixes cb ps s1 false = (s1, false, 0, ps) := by
          cases ps <;> simp [iterateSub]
        simp [this]
    · simp only [h, if_false]
      rw [List.filter_cons_of_neg (by simp [wanted, h])]
      exact ih s

theorem offer_append {σ : Type} (cb : σ → Pair → σ × Bool) (ps qs : List Pair) (s : σ) :
    offer cb (ps ++ qs) s =
      (let r := offer cb ps s
       if r.2.1 then let q := offer cb qs r.1; (q.1, q.2.1, r.2.2 + q.2.2) else r) := by
  induction ps generalizing s with
  | nil => simp [offer]
  | cons p ps ih =>
    simp only [List.cons_append, offer]
    cases hk : (cb s p).2 with
    | false => simp
    | true =>
      simp only [ih, if_true]
      cases hq : (offer cb ps (cb s p).1).2.1
      · simp [hq]
      · simp; omega

/-- C19: iterating offers exactly the wanted pairs, evidence first and then pseudo evidence, in order,
until the callback declines; the result is the number offered. -/
theorem C19_iterate {σ : Type} (e : Arr) (prefixes : Nat) (cb : σ → Pair → σ × Bool) (s : σ) :
    let spec := offer cb (((e.items ++ e.pseudo.getD []).filter (wanted prefixes)).map seen) s
    (iterate e prefixes cb s).1 = spec.1 ∧ (iterate e prefixes cb s).2.1 = spec.2.2 := by
  have h1 := iterateSub_offer prefixes cb e.items s
  simp only [List.filter_append, List.map_append, offer_append, ← h1, iterate]
  generalize iterateSub prefixes cb e.items s true = r
  obtain ⟨s1, c, n, items⟩ := r
  cases c with
  | false => simp
  | true =>
    rcases hp : e.pseudo with _ | ps
    · simp [offer]
    · have h2 := iterateSub_offer prefixes cb ps s1
      simp only [Option.getD_some, ← h2, if_true, and_self]

/-- A callback that never declines. -/
def record (log : List Pair) (p : Pair) : List Pair × Bool := (log ++ [p], true)

theorem offer_record (ps : List Pair) (log : List Pair) :
    offer record ps log = (log ++ ps, true, ps.length) := by
  induction ps generalizing log with
  | nil => simp [offer]
  | cons p ps ih => simp [offer, record, ih]

/-- C19: a callback that never declines sees every wanted pair once, in order, and nothing else. -/
theorem C19_iterate_all (e : Arr) (prefixes : Nat) :
    let vis := ((e.items ++ e.pseudo.getD []).filter (wanted prefixes)).map seen
    (iterate e prefixes record []).1 = vis ∧ (iterate e prefixes record []).2.1 = vis.length := by
  have := C19_iterate e prefixes record []
  simp only [offer_record, List.nil_append] at this
  exact this

/-- C19: iteration leaves the evidence as it was apart from filling in parsed values with the original
ones. -/
theorem C19_iterate_keeps {σ : Type} (e : Arr) (prefixes : Nat) (cb : σ → Pair → σ × Bool) (s : σ) :
    let e' := (iterate e prefixes cb s).2.2
    e'.capacity = e.capacity ∧ e'.items.map seen = e.items.map seen ∧
      (e'.pseudo.getD []).map seen = (e.pseudo.getD []).map seen := by
  have key : ∀ (ps : List Pair) (s : σ) (c : Bool),
      (iterateSub prefixes cb ps s c).2.2.2.map seen = ps.map seen := by
    intro ps
    induction ps with
    | nil => intro s c; rfl
    | cons p ps ih =>
      intro s c
      simp only [iterateSub]
      split
      · split
        · rw [seen_eq]
          simp only [List.map_cons, ih]
          have : seen (seen p) = seen p := by unfold seen; cases p.parsed <;> simp
          rw [this]
        · simp [ih]
      · rfl
  have h1 := key e.items s true
  unfold iterate
  generalize iterateSub prefixes cb e.items s true = r at h1
  obtain ⟨s1, c, n, items⟩ := r
  obtain ⟨cap, its, psd⟩ := e
  cases c with
  | false => exact ⟨rfl, h1, rfl⟩
  | true =>
    rcases psd with _ | ps
    · exact ⟨rfl, h1, rfl⟩
    · exact ⟨rfl, h1, key ps s1 true⟩

example :
    let e : Arr := ⟨3, [⟨1, c!"UA", some c!"x", none⟩, ⟨8, c!"q", some c!"y", none⟩], some [⟨1, c!"P", some c!"z", none⟩]⟩
    (iterate e 1 record []).1 = [⟨1, c!"UA", some c!"x", some c!"x"⟩, ⟨1, c!"P", some c!"z", some c!"z"⟩] := by
  decide
/-- a callback that stops at the first pair -/
example :
    let e : Arr := ⟨3, [⟨1, c!"UA", some c!"x", none⟩, ⟨8, c!"q", some c!"y", none⟩], some [⟨1, c!"P", some c!"z", none⟩]⟩
    (iterate e 9 (fun (n : Nat) _ => (n + 1, false)) 0).2.1 = 1 := by
  decide

/-! ## C20 -/

/-- Run a sequence of additions, collecting which were accepted. -/
def addAll (e : Arr) : List (Nat × CStr × CStr) → Arr × List Bool
  | [] => (e, [])
  | (p, f, v) :: rest =>
    let (e1, b) := addString e p f v
    let (e2, bs) := addAll e1 rest
    (e2, b :: bs)

/-- C20: after any sequence of additions to new evidence of a given capacity, the pairs stored are the
first `capacity` ones, in order, unparsed; an addition is refused exactly when the capacity is used up. -/
theorem C20_additions (capacity : Nat) (adds : List (Nat × CStr × CStr)) :
    (addAll (create capacity) adds).1.items =
      (adds.take capacity).map (fun a => ⟨a.1, a.2.1, some a.2.2, none⟩) ∧
    (addAll (create capacity) adds).2 = (List.range adds.length).map (fun i => decide (i < capacity)) := by
  have key : ∀ (adds : List (Nat × CStr × CStr)) (e : Arr), e.items.length ≤ e.capacity →
      (addAll e adds).1.items = e.items ++
        (adds.take (e.capacity - e.items.length)).map (fun a => ⟨a.1, a.2.1, some a.2.2, none⟩) ∧
      (addAll e adds).2 = (List.range adds.length).map (fun i => decide (e.items.length + i < e.capacity)) := by
    intro adds
    induction adds with
    | nil => intro e _; simp [addAll]
    | cons a adds ih =>
      intro e he
      obtain ⟨p, f, v⟩ := a
      simp only [addAll, addString]
      by_cases h : e.items.length < e.capacity
      · simp only [h, if_true]
        obtain ⟨i1, i2⟩ := ih { e with items := e.items ++ [⟨p, f, some v, none⟩] } (by simp; omega)
        rw [i1, i2]
        have : e.capacity - e.items.length = (e.capacity - (e.items.length + 1)) + 1 := by omega
        constructor
        · simp only [List.length_append, List.length_cons, List.length_nil, this, List.take_succ_cons,
            List.map_cons, List.append_assoc, List.cons_append, List.nil_append]
        · rw [List.length_cons, List.range_succ_eq_map]
          simp [h, Function.comp_def]
          intro x _; constructor <;> intro h <;> omega
      · simp only [h, if_false]
        obtain ⟨i1, i2⟩ := ih e he
        rw [i1, i2]
        have : e.capacity - e.items.length = 0 := by omega
        constructor
        · simp [this]
        · rw [List.length_cons, List.range_succ_eq_map]
          simp [h, Function.comp_def]
          intro x _; constructor <;> intro h <;> omega
  have := key adds (create capacity) (by simp [create])
  simpa [create] using this

/-- C20: capacity is never exceeded. -/
theorem C20_capacity (capacity : Nat) (adds : List (Nat × CStr × CStr)) :
    (addAll (create capacity) adds).1.items.length ≤ capacity := by
  rw [(C20_additions capacity adds).1]; simp [Nat.min_le_left]

example : (addAll (create 1) [(1, c!"a", c!"x"), (1, c!"b", c!"y")]).2 = [true, false] := by decide

/-! ## C21 -/

/-- Specification: the prefixes an evidence key may carry and their enum values, from the public
documentation (evidence.h). -/
def prefixes : List (CStr × Nat) := [(c!"header.", 1), (c!"server.", 4), (c!"query.", 8), (c!"cookie.", 16)]

theorem strncmpEq_iff (a b : CStr) : strncmpEq a.length a b = true ↔ a <+: b := by
  induction a generalizing b with
  | nil => simp [strncmpEq]
  | cons x a ih => cases b with
    | nil => simp [strncmpEq]
    | cons y b => simp [strncmpEq, ih, List.cons_prefix_cons]

/-- C21: a key maps to a prefix exactly when it is that prefix followed by at least one more byte. -/
theorem C21_mapPrefix (key : CStr) (pre : CStr) (en : Nat) :
    (∃ n, mapPrefix key = some ⟨pre, n, en⟩) ↔
      (pre, en) ∈ prefixes ∧ ∃ rest, rest ≠ [] ∧ key = pre ++ rest := by
  have pick : ∀ m ∈ map, (m.prefixLength < key.length && strncmpEq m.prefixLength m.prefixStr key) = true ↔
      ∃ rest, rest ≠ [] ∧ key = m.prefixStr ++ rest := by
    intro m hm
    have hl : m.prefixLength = m.prefixStr.length := by
      revert m; decide
    rw [hl, Bool.and_eq_true, strncmpEq_iff, decide_eq_true_eq]
    constructor
    · rintro ⟨h1, rest, rfl⟩
      refine ⟨rest, ?_, rfl⟩
      intro h; simp [h] at h1
    · rintro ⟨rest, h1, rfl⟩
      refine ⟨?_, rest, rfl⟩
      have := List.length_pos_iff.mpr h1
      simp; omega
  constructor
  · rintro ⟨n, h⟩
    have hp := List.find?_some h
    have hm : ⟨pre, n, en⟩ ∈ map := List.mem_of_find?_eq_some h
    refine ⟨?_, (pick _ hm).mp hp⟩
    simp [map] at hm
    rcases hm with h | h | h | h <;> simp [prefixes, h]
  · rintro ⟨hm, rest, hr, rfl⟩
    simp only [prefixes, List.mem_cons, List.not_mem_nil, or_false, Prod.mk.injEq] at hm
    obtain ⟨r, rs, rfl⟩ : ∃ r rs, rest = r :: rs := by
      cases rest with
      | nil => exact absurd rfl hr
      | cons r rs => exact ⟨r, rs, rfl⟩
    rcases hm with ⟨rfl, rfl⟩ | ⟨rfl, rfl⟩ | ⟨rfl, rfl⟩ | ⟨rfl, rfl⟩ <;>
      simp [mapPrefix, map, strncmpEq]

/-- C21: at most one prefix fits a key, so the order of the table does not matter. -/
theorem C21_unique (key pre pre' rest rest' : CStr) (en en' : Nat)
    (h : (pre, en) ∈ prefixes) (h' : (pre', en') ∈ prefixes)
    (hk : key = pre ++ rest) (hk' : key = pre' ++ rest') : pre = pre' ∧ en = en' := by
  rw [hk] at hk'
  simp only [prefixes, List.mem_cons, List.not_mem_nil, or_false, Prod.mk.injEq] at h h'
  rcases h with ⟨rfl, rfl⟩ | ⟨rfl, rfl⟩ | ⟨rfl, rfl⟩ | ⟨rfl, rfl⟩ <;>
    rcases h' with ⟨rfl, rfl⟩ | ⟨rfl, rfl⟩ | ⟨rfl, rfl⟩ | ⟨rfl, rfl⟩ <;> simp_all

/-- C21: the recorded length is that of the prefix, and the prefix text of a mapped key's enum is the
key's beginning: skipping it leaves the field name. -/
theorem C21_prefixString (key : CStr) (m : PrefixMap) (h : mapPrefix key = some m) :
    prefixString m.prefixEnum = some m.prefixStr ∧ m.prefixStr ++ key.drop m.prefixLength = key := by
  have hm : m ∈ map := List.mem_of_find?_eq_some h
  have h2 := (C21_mapPrefix key m.prefixStr m.prefixEnum).mp ⟨m.prefixLength, h⟩
  obtain ⟨-, rest, -, rfl⟩ := h2
  have h3 : prefixString m.prefixEnum = some m.prefixStr ∧ m.prefixLength = m.prefixStr.length := by
    have : ∀ m ∈ map, prefixString m.prefixEnum = some m.prefixStr ∧ m.prefixLength = m.prefixStr.length := by
      decide
    exact this m hm
  exact ⟨h3.1, by rw [h3.2]; simp⟩

/-- C21: enum values without a text prefix have no prefix string. -/
theorem C21_prefixString_none (e : Nat) : prefixString e = none ↔ e ≠ 1 ∧ e ≠ 4 ∧ e ≠ 8 ∧ e ≠ 16 := by
  simp [prefixString, map, List.find?_eq_none]; omega

example : mapPrefix c!"header.User-Agent" = some ⟨c!"header.", 7, 1⟩ := by decide
example : mapPrefix c!"header." = none := by decide

/-- Specification: the pair a key/value entry contributes. -/
def contribution (rel : Nat → Bool) (kv : CStr × CStr) : Option Pair :=
  match mapPrefix kv.1 with
  | some m => if rel m.prefixEnum then some ⟨m.prefixEnum, kv.1.drop m.prefixLength, some kv.2, none⟩ else none
  | none => none

/-- C20/C21: the evidence built from a key/value map holds one pair for every relevant key with a known
prefix, in key order, with the prefix removed from the field. -/
theorem C20_baseGet (rel : Nat → Bool) (kvs : List (CStr × CStr)) :
    (baseGet rel kvs).items = kvs.filterMap (contribution rel) := by
  have key : ∀ (kvs : List (CStr × CStr)) (e : Arr), e.items.length + kvs.length ≤ e.capacity →
      (kvs.foldl (baseStep rel) e).items = e.items ++ kvs.filterMap (contribution rel) := by
    intro kvs
    induction kvs with
    | nil => intro e _; simp
    | cons kv kvs ih =>
      intro e he
      simp only [List.length_cons] at he
      rw [List.foldl_cons, List.filterMap_cons]
      have hc : e.items.length < e.capacity := by omega
      simp only [baseStep, contribution]
      rcases hm : mapPrefix kv.1 with _ | m
      · simp only; rw [ih e (by omega)]
      · simp only
        split
        · rw [ih _ (by simp [addString, hc]; omega)]
          simp [addString, hc]
        · rw [ih e (by omega)]
  unfold baseGet
  rw [key kvs (create kvs.length) (by simp [create])]
  simp [create]

example : (baseGet (fun _ => true) [(c!"header.UA", c!"x"), (c!"other", c!"y")]).items =
    [⟨1, c!"UA", some c!"x", none⟩] := by decide

end Verif.Evidence
