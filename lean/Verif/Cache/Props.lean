import Verif.Cache.Invariant
import Mathlib.Data.List.Induction

/-! # C04 to C08, C54: the cache -/

namespace Verif.Cache

open Verif.Tree (Heap Ptr Good Detached Frame)

variable {K V : Type}

/-! ## Histories -/

theorem run_snoc (hash : K → Int) (fuel : Nat) (op : Op K V) : ∀ (ops : List (Op K V)) (s : Shard V),
    run hash fuel s (ops ++ [op]) = (run hash fuel s ops).bind fun r =>
      (step hash fuel r.1 op).map fun q => (q.1, r.2 ++ [q.2]) := by
  intro ops
  induction ops with
  | nil => intro s; cases h : step hash fuel s op <;> simp [run, h]
  | cons o ops ih =>
    intro s
    cases h : step hash fuel s o with
    | none => simp [run, h]
    | some r =>
      simp only [List.cons_append, run, h, Option.bind_eq_bind, Option.bind_some, ih]
      cases h2 : run hash fuel r.1 ops with
      | none => simp
      | some r2 => cases h3 : step hash fuel r2.1 op <;> simp [h3]

theorem step_spec {hash : K → Int} {s : Shard V} {evs m t l} (i : Inv hash s evs m t l) {fuel : Nat}
    (hf : Enough s.capacity fuel) {op : Op K V} {s' : Shard V} {e : Event K V}
    (h : step hash fuel s op = some (s', e)) :
    (∃ m' t' l', Inv hash s' (evs ++ [e]) m' t' l') ∧ s'.capacity = s.capacity ∧ Keeps s s' e ∧
      (∀ k v ok, op = .get k v ok → Did hash s m l k v ok e) ∧
      (∀ n, op = .release n → e = .released n ∧ n < s.allocated ∧ s.active n ≠ 0) := by
  cases op with
  | get k v ok =>
    obtain ⟨s1, e1, m', t', l', h1, h2, h3, h4, h5⟩ := get_spec i hf k v ok
    rw [step, h1] at h
    cases h
    refine ⟨⟨m', t', l', h2⟩, h3, h4, ?_, by simp⟩
    intro k' v' ok' hh; cases hh; exact h5
  | release n =>
    rcases release_spec i n with ⟨-, h1⟩ | ⟨s1, l', h0, h1, h2, h3, h4⟩
    · simp [step, h1] at h
    · simp only [step, h1, Option.map_some, Option.some.injEq, Prod.mk.injEq] at h
      obtain ⟨rfl, rfl⟩ := h
      refine ⟨⟨m, t, l', h2⟩, h3, h4, by simp, ?_⟩
      intro n' hh; cases hh; exact ⟨rfl, h0⟩

theorem run_spec {hash : K → Int} {fuel : Nat} : ∀ {ops : List (Op K V)} {s : Shard V} {evs m t l},
    Inv hash s evs m t l → Enough s.capacity fuel → ∀ {s' : Shard V} {es : List (Event K V)},
    run hash fuel s ops = some (s', es) →
    (∃ m' t' l', Inv hash s' (evs ++ es) m' t' l') ∧ s'.capacity = s.capacity := by
  intro ops
  induction ops with
  | nil => intro s evs m t l i _ s' es h; cases h; exact ⟨⟨m, t, l, by simpa using i⟩, rfl⟩
  | cons op ops ih =>
    intro s evs m t l i hf s' es h
    simp only [run, Option.bind_eq_bind] at h
    cases h1 : step hash fuel s op with
    | none => simp [h1] at h
    | some r =>
      obtain ⟨s1, e⟩ := r
      simp only [h1, Option.bind_some] at h
      cases h2 : run hash fuel s1 ops with
      | none => simp [h2] at h
      | some r2 =>
        obtain ⟨s2, es2⟩ := r2
        simp [h2] at h
        obtain ⟨rfl, rfl⟩ := h
        obtain ⟨⟨m1, t1, l1, i1⟩, c1, -⟩ := step_spec i hf h1
        obtain ⟨⟨m2, t2, l2, i2⟩, c2⟩ := ih i1 (by rw [c1]; exact hf) h2
        exact ⟨⟨m2, t2, l2, by simpa using i2⟩, c2.trans c1⟩

/-- A shard after any history of calls since its initialisation in any memory, with the calls' events. -/
structure After (hash : K → Int) (fuel capacity : Nat) (ops : List (Op K V)) (s : Shard V)
    (evs : List (Event K V)) : Prop where
  intro ::
  enough : Enough capacity fuel
  reached : ∃ (d0 : V) (mem start : Shard V), shardInit d0 capacity mem = some start ∧
    run hash fuel start ops = some (s, evs)

theorem After.inv {hash : K → Int} {fuel capacity : Nat} {ops : List (Op K V)} {s : Shard V}
    {evs : List (Event K V)} (a : After hash fuel capacity ops s evs) :
    (∃ m t l, Inv hash s evs m t l) ∧ s.capacity = capacity := by
  obtain ⟨hf, d0, mem, start, h1, h2⟩ := a
  obtain ⟨s1, e1, i1, c1, -⟩ := shardInit_spec hash d0 capacity mem
  rw [h1] at e1
  cases e1
  have := run_spec i1 (by rw [c1]; exact hf) h2
  exact ⟨this.1, this.2.trans c1⟩

theorem After.more {hash : K → Int} {fuel capacity : Nat} {ops : List (Op K V)} {s : Shard V}
    {evs : List (Event K V)} (a : After hash fuel capacity ops s evs) {op : Op K V} {s' : Shard V} {e : Event K V}
    (h : step hash fuel s op = some (s', e)) : After hash fuel capacity (ops ++ [op]) s' (evs ++ [e]) := by
  obtain ⟨hf, d0, mem, start, h1, h2⟩ := a
  exact ⟨hf, d0, mem, start, h1, by rw [run_snoc, h2]; simp [h]⟩

theorem Inv.held {hash : K → Int} {s : Shard V} {evs m t l} (i : Inv hash s evs m t l) (n : Nat) :
    Cache.held n evs ≠ 0 ↔ n < s.allocated ∧ s.active n ≠ 0 := by
  unfold Cache.held
  by_cases h : n < s.allocated
  · have := i.count n h; omega
  · have := i.unused n (by omega); omega

/-! ## C04 -/

/-- No call fails to finish or dereferences a bad pointer: a get always returns, a release returns exactly when
the node is held by someone. -/
theorem C04_total {hash : K → Int} {fuel capacity : Nat} {ops : List (Op K V)} {s : Shard V}
    {evs : List (Event K V)} (a : After hash fuel capacity ops s evs) :
    (∀ k v ok, ∃ s' e, step hash fuel s (.get k v ok) = some (s', e)) ∧
    ∀ n, (∃ s' e, step hash fuel s (.release n) = some (s', e)) ↔ held n evs ≠ 0 := by
  obtain ⟨⟨m, t, l, i⟩, c⟩ := a.inv
  constructor
  · intro k v ok
    obtain ⟨s1, e1, m', t', l', h1, -⟩ := get_spec i (by rw [c]; exact a.enough) k v ok
    exact ⟨s1, e1, h1⟩
  · intro n
    rw [i.held]
    rcases release_spec i n with ⟨h0, h1⟩ | ⟨s1, l', h0, h1, -⟩
    · simp [step, h1]; simpa using h0
    · simp [step, h1]; simpa using h0

/-- After any history, a get of `k` that returns node `n` returns it with the data of the last load into `n`,
and that load was for `k`. The load succeeded, unless it was made by this very get (which then reports the
exception). -/
theorem C04_get {hash : K → Int} (inj : ∀ a b, hash a = hash b → a = b) {fuel capacity : Nat}
    {ops : List (Op K V)} {s : Shard V} {evs : List (Event K V)} (a : After hash fuel capacity ops s evs)
    {k : K} {v : V} {ok : Bool} {s' : Shard V} {e : Event K V} (h : step hash fuel s (.get k v ok) = some (s', e))
    {n : Nat} (hn : e.isGet n) :
    ∃ v' ok', lastLoad n (evs ++ [e]) = some (k, v', ok') ∧ s'.data n = v' ∧
      (ok' = true ∨ (ok' = false ∧ e = .loaded k v false n)) := by
  obtain ⟨⟨m, t, l, i⟩, c⟩ := a.inv
  obtain ⟨⟨m', t', l', i'⟩, -, -, hd, -⟩ := step_spec i (by rw [c]; exact a.enough) h
  rcases hd k v ok rfl with ⟨n', hm, rfl⟩ | ⟨-, ⟨-, -, rfl⟩ | ⟨n', rfl, -⟩⟩
  · simp only [Event.isGet, decide_eq_true_eq] at hn
    subst hn
    have hlt : n' < s.allocated := i.member _ hm
    obtain ⟨k1, v1, ok1, w1, w2, w3⟩ := i.loads n' hlt
    obtain ⟨rfl, hk⟩ := (w3 _).1 hm
    have := inj _ _ hk
    subst this
    have hx : n' < s'.allocated := by
      have := (i'.held n').1 (by
        have := i.count n' hlt
        unfold held
        rw [gets_snoc, releases_snoc]; simp [Event.isGet, Event.isRelease]; omega)
      exact this.1
    obtain ⟨k2, v2, ok2, x1, x2, x3⟩ := i'.loads n' hx
    rw [lastLoad_snoc] at x1
    simp only [w1, Option.some.injEq, Prod.mk.injEq] at x1
    obtain ⟨rfl, rfl, rfl⟩ := x1
    exact ⟨v1, true, by rw [lastLoad_snoc]; exact w1, x2, .inl rfl⟩
  · simp [Event.isGet] at hn
  · simp only [Event.isGet, decide_eq_true_eq] at hn
    subst hn
    have hx : n' < s'.allocated := by
      refine Classical.byContradiction fun hh => ?_
      have := (i'.unused n' (by omega)).1
      rw [gets_snoc] at this
      simp [Event.isGet] at this
    obtain ⟨k2, v2, ok2, x1, x2, x3⟩ := i'.loads n' hx
    rw [lastLoad_snoc] at x1
    simp only [if_true, Option.some.injEq, Prod.mk.injEq] at x1
    obtain ⟨rfl, rfl, rfl⟩ := x1
    refine ⟨v, ok, by rw [lastLoad_snoc]; simp, x2, ?_⟩
    cases ok <;> simp

theorem lastLoad_mem {n : Nat} {k : K} {v : V} {ok : Bool} : ∀ {evs : List (Event K V)},
    lastLoad n evs = some (k, v, ok) → .loaded k v ok n ∈ evs := by
  intro evs
  induction evs using List.reverseRecOn with
  | nil => simp [lastLoad]
  | append_singleton evs e ih =>
    rw [lastLoad_snoc]
    cases e with
    | loaded k' v' ok' m =>
      simp only
      split
      · rintro h; simp at h; simp [*]
      · intro h; simp [ih h]
    | hit k' m => intro h; simp [ih h]
    | full k' => intro h; simp [ih h]
    | released m => intro h; simp [ih h]

theorem run_loaded {hash : K → Int} {fuel : Nat} {k : K} {v : V} {ok : Bool} {n : Nat} :
    ∀ {ops : List (Op K V)} {s s' : Shard V} {evs : List (Event K V)}, run hash fuel s ops = some (s', evs) →
    .loaded k v ok n ∈ evs → .get k v ok ∈ ops := by
  intro ops
  induction ops with
  | nil => intro s s' evs h hm; cases h; simp at hm
  | cons op ops ih =>
    intro s s' evs h hm
    simp only [run, Option.bind_eq_bind] at h
    cases h1 : step hash fuel s op with
    | none => simp [h1] at h
    | some r =>
      obtain ⟨s1, e⟩ := r
      simp only [h1, Option.bind_some] at h
      cases h2 : run hash fuel s1 ops with
      | none => simp [h2] at h
      | some r2 =>
        obtain ⟨s2, es2⟩ := r2
        simp [h2] at h
        obtain ⟨rfl, rfl⟩ := h
        rcases List.mem_cons.1 hm with rfl | hm
        · cases op with
          | release n =>
            simp only [step] at h1
            cases h3 : shardRelease s n <;> simp [h3] at h1
          | get k' v' ok' =>
            simp only [step, shardGet, Option.bind_eq_bind] at h1
            cases h3 : Tree.find fuel s.tree (hash k') with
            | none => simp [h3] at h1
            | some p =>
              simp only [h3, Option.bind_some] at h1
              split at h1
              · simp at h1
              · cases h4 : load fuel s (hash k') v' ok' with
                | none => simp [h4] at h1
                | some q =>
                  obtain ⟨s3, o⟩ := q
                  cases o with
                  | none => simp [h4] at h1
                  | some n' =>
                    simp [h4] at h1
                    obtain ⟨-, rfl, rfl, rfl, rfl⟩ := h1
                    simp
              · simp at h1
        · exact List.mem_cons_of_mem _ (ih h2 hm)

/-- With a loader that always produces the same data `f k` for a key `k` when it succeeds, every get of `k` that
returns a node without an exception returns `f k`, whatever was loaded, evicted, released or failed before. -/
theorem C04_loader {hash : K → Int} (inj : ∀ a b, hash a = hash b → a = b) (f : K → V) {fuel capacity : Nat}
    {ops : List (Op K V)} {s : Shard V} {evs : List (Event K V)} (a : After hash fuel capacity ops s evs)
    (hload : ∀ k v, .get k v true ∈ ops → v = f k)
    {k : K} {s' : Shard V} {e : Event K V} {ok : Bool} {v : V} (hv : ok = true → v = f k)
    (h : step hash fuel s (.get k v ok) = some (s', e))
    {n : Nat} (hn : e.isGet n) (he : e ≠ .loaded k v false n) :
    s'.data n = f k := by
  obtain ⟨v', ok', h1, h2, h3⟩ := C04_get inj a h hn
  rcases h3 with rfl | ⟨-, h3⟩
  · rw [h2]
    have hm := lastLoad_mem h1
    have := a.more h
    obtain ⟨-, d0, mem, start, -, hr⟩ := this
    have := run_loaded hr hm
    simp only [List.mem_append, List.mem_singleton, Op.get.injEq] at this
    rcases this with this | ⟨-, rfl, hh⟩
    · exact hload _ _ this
    · exact hv hh.symm
  · exact absurd h3 he

/-- The hash functions of the library tell all keys apart. -/
theorem C04_hash : (∀ a b, hash32 a = hash32 b → a = b) ∧ (∀ a b, hash64 a = hash64 b → a = b) := by
  constructor
  · intro a b h
    simp only [hash32, Int32.toInt_toInt64] at h
    exact Int32.toInt_inj.1 h
  · intro a b h
    exact Int64.toInt_inj.1 h

/-! ## C05 -/

/-- While a node is held by someone, it is not loaded into, and it keeps its data and its key. -/
theorem C05_kept {hash : K → Int} {fuel capacity : Nat} {n : Nat} : ∀ {ops' : List (Op K V)} {ops : List (Op K V)}
    {s : Shard V} {evs : List (Event K V)} (_ : After hash fuel capacity ops s evs)
    {s' : Shard V} {evs' : List (Event K V)} (_ : run hash fuel s ops' = some (s', evs'))
    (_ : ∀ p r, evs' = p ++ r → r ≠ [] → held n (evs ++ p) ≠ 0),
    s'.data n = s.data n ∧ s'.tree.key (.node n) = s.tree.key (.node n) ∧ ∀ e ∈ evs', e.isLoad n = false := by
  intro ops'
  induction ops' with
  | nil => intro ops s evs _ s' evs' h _; cases h; simp
  | cons op ops' ih =>
    intro ops s evs a s' evs' h hheld
    simp only [run, Option.bind_eq_bind] at h
    cases h1 : step hash fuel s op with
    | none => simp [h1] at h
    | some r =>
      obtain ⟨s1, e⟩ := r
      simp only [h1, Option.bind_some] at h
      cases h2 : run hash fuel s1 ops' with
      | none => simp [h2] at h
      | some r2 =>
        obtain ⟨s2, es2⟩ := r2
        simp [h2] at h
        obtain ⟨rfl, rfl⟩ := h
        obtain ⟨⟨m, t, l, i⟩, c⟩ := a.inv
        obtain ⟨-, -, hk, -⟩ := step_spec i (by rw [c]; exact a.enough) h1
        have hh := hheld [] (e :: es2) rfl (by simp)
        rw [List.append_nil, i.held] at hh
        obtain ⟨k1, k2, k3⟩ := hk n hh.1 hh.2
        obtain ⟨j1, j2, j3⟩ := ih (a.more h1) h2 (by
          intro p r hp hr
          have := hheld (e :: p) r (by simp [hp]) hr
          simpa using this)
        refine ⟨j1.trans k1, j2.trans k2, ?_⟩
        intro x hx
        rcases List.mem_cons.1 hx with rfl | hx
        · exact k3
        · exact j3 x hx

/-- While a node whose load succeeded is held, it is not evicted: every get of its key returns this node. -/
theorem C05_notEvicted {hash : K → Int} {fuel capacity : Nat} {ops : List (Op K V)} {s : Shard V}
    {evs : List (Event K V)} (a : After hash fuel capacity ops s evs) {n : Nat} (hn : held n evs ≠ 0) {k : K} {w : V}
    (hl : lastLoad n evs = some (k, w, true)) (v : V) (ok : Bool) {s' : Shard V} {e : Event K V}
    (h : step hash fuel s (.get k v ok) = some (s', e)) : e = .hit k n ∧ s'.data n = w := by
  obtain ⟨⟨m, t, l, i⟩, c⟩ := a.inv
  rw [i.held] at hn
  obtain ⟨k1, v1, ok1, w1, w2, w3⟩ := i.loads n hn.1
  rw [hl] at w1
  cases w1
  have hm : (n, hash k) ∈ m := (w3 _).2 ⟨rfl, rfl⟩
  obtain ⟨-, -, hk, hd, -⟩ := step_spec i (by rw [c]; exact a.enough) h
  have h3 := hk n hn.1 hn.2
  refine ⟨?_, by rw [h3.1, w2]⟩
  rcases hd k v ok rfl with ⟨n', hm', rfl⟩ | ⟨hm', -⟩
  · have h1 := Tree.lookup_eq i.good hm
    have h2 := Tree.lookup_eq i.good hm'
    simp only at h1 h2
    rw [h1] at h2
    cases h2; rfl
  · exact absurd rfl (hm' _ hm)

/-! ## C06 -/

/-- A get of a key returns NULL only when every node of the shard is in use. -/
theorem C06_full {hash : K → Int} {fuel capacity : Nat} {ops : List (Op K V)} {s : Shard V}
    {evs : List (Event K V)} (a : After hash fuel capacity ops s evs) {k : K} {v : V} {ok : Bool} {s' : Shard V}
    (h : step hash fuel s (.get k v ok) = some (s', .full k)) : ∀ n, n < capacity → held n evs ≠ 0 := by
  obtain ⟨⟨m, t, l, i⟩, c⟩ := a.inv
  obtain ⟨-, -, -, hd, -⟩ := step_spec i (by rw [c]; exact a.enough) h
  rcases hd k v ok rfl with ⟨n', hm, hx⟩ | ⟨-, ⟨h1, rfl, -⟩ | ⟨n', hx, -⟩⟩
  · cases hx
  · intro n hn
    rw [i.held]
    have : n < s.allocated := by omega
    refine ⟨this, fun hz => ?_⟩
    have := (i.free n).2 ⟨this, hz⟩
    simp at this
  · cases hx

/-- A load goes into a node never used before while there is one; otherwise into the node nobody holds whose last
release is the oldest. -/
theorem C06_oldest {hash : K → Int} {fuel capacity : Nat} {ops : List (Op K V)} {s : Shard V}
    {evs : List (Event K V)} (a : After hash fuel capacity ops s evs) {k : K} {v : V} {ok : Bool} {s' : Shard V}
    {n : Nat} (h : step hash fuel s (.get k v ok) = some (s', .loaded k v ok n)) :
    n < capacity ∧
    (gets n evs = 0 ∨
      ((∀ x, x < capacity → gets x evs ≠ 0) ∧ held n evs = 0 ∧
        ∀ x, x < capacity → x ≠ n → held x evs = 0 → LaterRelease evs x n)) := by
  obtain ⟨⟨m, t, l, i⟩, c⟩ := a.inv
  obtain ⟨-, -, -, hd, -⟩ := step_spec i (by rw [c]; exact a.enough) h
  have hp : Picked s l n := by
    rcases hd k v ok rfl with ⟨n', hm, hx⟩ | ⟨-, ⟨-, -, hx⟩ | ⟨n', hx, hp⟩⟩
    · cases hx
    · cases hx
    · cases hx; exact hp
  rcases hp with ⟨rfl, hlt⟩ | ⟨hac, l', rfl⟩
  · exact ⟨by omega, .inl (i.unused _ (Nat.le_refl _)).1⟩
  · have hn := (i.free n).1 (by simp)
    have heldz : ∀ x, x < capacity → (held x evs = 0 ↔ x ∈ l' ++ [n]) := by
      intro x hx
      have := i.held x
      rw [i.free]
      constructor
      · intro h0
        refine ⟨by omega, ?_⟩
        refine Classical.byContradiction fun hne => ?_
        exact this.2 ⟨by omega, hne⟩ h0
      · rintro ⟨h1, h2⟩
        refine Classical.byContradiction fun hne => ?_
        exact (this.1 hne).2 h2
    refine ⟨by omega, .inr ⟨?_, ?_, ?_⟩⟩
    · intro x hx
      obtain ⟨k1, v1, ok1, w1, -⟩ := i.loads x (by omega)
      have hmem := lastLoad_mem w1
      intro h0
      unfold gets at h0
      rw [List.countP_eq_zero] at h0
      have := h0 _ hmem
      simp [Event.isGet] at this
    · exact (heldz n (by omega)).2 (by simp)
    · intro x hx hxn hz
      have hmem := (heldz x hx).1 hz
      have hrec := i.recent
      rw [List.pairwise_append] at hrec
      simp [hxn] at hmem
      exact hrec.2.2 x hmem n (by simp)

/-! ## C07 -/

theorem walk_spec {s : Shard V} : ∀ {l : List Nat} (fuel : Nat) (p : Option Nat), p = l.head? →
    (∀ a n b, l = a ++ n :: b → s.next n = b.head?) → l.length ≤ fuel → walk s fuel p = some l := by
  intro l
  induction l with
  | nil => intro fuel p hp _ _; simp at hp; subst hp; cases fuel <;> rfl
  | cons n l ih =>
    intro fuel p hp hl hf
    simp at hp
    subst hp
    cases fuel with
    | zero => simp at hf
    | succ fuel =>
      have h1 := hl [] n l rfl
      simp only [walk]
      rw [ih fuel (s.next n) h1 (fun a x b e => hl (n :: a) x b (by simp [e])) (by simpa using hf)]
      rfl

/-- After any history, including failed loads, the list of free nodes is well formed, and every node of the shard
is exactly one of: never handed out; held; in the list. The count of holders in the node is exact. -/
theorem C07_states {hash : K → Int} {fuel capacity : Nat} {ops : List (Op K V)} {s : Shard V}
    {evs : List (Event K V)} (a : After hash fuel capacity ops s evs) :
    ∃ l, walk s capacity s.first = some l ∧ l.Nodup ∧
      (∀ n, n ∈ l ↔ n < capacity ∧ gets n evs ≠ 0 ∧ held n evs = 0) ∧
      (∀ n, gets n evs ≠ 0 → n < capacity ∧ s.active n = held n evs) := by
  obtain ⟨⟨m, t, l, i⟩, c⟩ := a.inv
  have hall := i.allocated
  have hlt : ∀ x ∈ l, x < capacity := fun x hx => by have := ((i.free x).1 hx).1; omega
  have hgets : ∀ n, gets n evs ≠ 0 ↔ n < s.allocated := by
    intro n
    constructor
    · intro h; refine Classical.byContradiction fun hh => h (i.unused n (by omega)).1
    · intro h h0
      obtain ⟨k1, v1, ok1, w1, -⟩ := i.loads n h
      have hmem := lastLoad_mem w1
      unfold gets at h0
      rw [List.countP_eq_zero] at h0
      have := h0 _ hmem
      simp [Event.isGet] at this
  refine ⟨l, walk_spec _ _ i.dll.first (fun a n b e => (i.dll.links a n b e).1) ?_, i.dll.nodup, ?_, ?_⟩
  · have : l.length ≤ (List.range capacity).length :=
      (List.Nodup.subperm i.dll.nodup fun x hx => by simpa using hlt x hx).length_le
    simpa using this
  · intro n
    rw [i.free, hgets]
    constructor
    · rintro ⟨h1, h2⟩
      refine ⟨by omega, h1, ?_⟩
      have := i.count n h1
      unfold held; omega
    · rintro ⟨h1, h2, h3⟩
      have := i.count n h2
      unfold held at h3
      exact ⟨h2, by omega⟩
  · intro n hn
    rw [hgets] at hn
    have := i.count n hn
    unfold held
    exact ⟨by omega, by omega⟩

/-- As long as one node is not held, no capacity is lost: a get of any key returns a node. -/
theorem C07_noLeak {hash : K → Int} {fuel capacity : Nat} {ops : List (Op K V)} {s : Shard V}
    {evs : List (Event K V)} (a : After hash fuel capacity ops s evs)
    (hrel : ∃ n, n < capacity ∧ held n evs = 0) (k : K) (v : V) (ok : Bool) {s' : Shard V} {e : Event K V}
    (h : step hash fuel s (.get k v ok) = some (s', e)) : ∃ n, n < capacity ∧ e.isGet n := by
  obtain ⟨⟨m, t, l, i⟩, c⟩ := a.inv
  have hall := i.allocated
  obtain ⟨-, -, -, hd, -⟩ := step_spec i (by rw [c]; exact a.enough) h
  rcases hd k v ok rfl with ⟨n', hm, rfl⟩ | ⟨-, ⟨h1, rfl, rfl⟩ | ⟨n', rfl, hp⟩⟩
  · have := i.member _ hm
    exact ⟨n', by simp only at this; omega, by simp [Event.isGet]⟩
  · obtain ⟨n, h2, h3⟩ := hrel
    exact absurd h3 (C06_full a h n h2)
  · refine ⟨n', ?_, by simp [Event.isGet]⟩
    rcases hp with ⟨rfl, hlt⟩ | ⟨hac, l', rfl⟩
    · omega
    · have := ((i.free n').1 (by simp)).1; omega

/-! ### The whole cache -/

/-- The events of one shard. -/
def eventsOf (i : Nat) (evs : List (Nat × Event K V)) : List (Event K V) :=
  (evs.filter fun e => e.1 = i).map (·.2)

/-- The gets that were answered from the cache. -/
def hitCount (evs : List (Nat × Event K V)) : Nat :=
  evs.countP fun e => match e.2 with | .hit .. => true | _ => false

/-- The gets that were not. -/
def missCount (evs : List (Nat × Event K V)) : Nat :=
  evs.countP fun e => match e.2 with | .loaded .. => true | .full _ => true | _ => false

theorem shardGet_ne_released {hash : K → Int} {fuel : Nat} {s s' : Shard V} {k : K} {v : V} {ok : Bool} {n : Nat} :
    shardGet hash fuel s k v ok ≠ some (s', .released n) := by
  intro h
  simp only [shardGet, Option.bind_eq_bind] at h
  cases h3 : Tree.find fuel s.tree (hash k) with
  | none => simp [h3] at h
  | some p =>
    simp only [h3, Option.bind_some] at h
    split at h
    · simp at h
    · cases h4 : load fuel s (hash k) v ok with
      | none => simp [h4] at h
      | some q =>
        obtain ⟨s3, o⟩ := q
        cases o <;> simp [h4] at h
    · simp at h

theorem cacheStep_spec {hash : K → Int} {fuel : Nat} {c c' : Cache V} {op : COp K V} {i : Nat} {e : Event K V}
    (h : cacheStep hash fuel c op = some (c', i, e)) :
    i < c.concurrency ∧ c'.concurrency = c.concurrency ∧
    (∃ o : Op K V, step hash fuel (c.shards i) o = some (c'.shards i, e)) ∧
    (∀ j, j ≠ i → c'.shards j = c.shards j) ∧
    c'.hits % 2 ^ 64 = (c.hits + hitCount [(i, e)]) % 2 ^ 64 ∧
    c'.misses % 2 ^ 64 = (c.misses + missCount [(i, e)]) % 2 ^ 64 ∧
    hitCount [(i, e)] + missCount [(i, e)] = (match op with | .get .. => 1 | .release .. => 0) := by
  cases op with
  | get k v ok =>
    simp only [cacheStep, Option.bind_eq_bind] at h
    cases h1 : shardIndex c.concurrency (hash k) with
    | none => simp [h1] at h
    | some j =>
      simp only [h1, Option.bind_some] at h
      split at h
      · rename_i hj
        cases h2 : shardGet hash fuel (c.shards j.toNat) k v ok with
        | none => simp [h2] at h
        | some r =>
          obtain ⟨s, e'⟩ := r
          simp only [h2, Option.bind_some, Option.pure_def, Option.some.injEq, Prod.mk.injEq] at h
          obtain ⟨rfl, rfl, rfl⟩ := h
          have hne : ∀ n, e' ≠ .released n := fun n hh => shardGet_ne_released (hh ▸ h2)
          refine ⟨hj.2, by cases e' <;> rfl, ⟨.get k v ok, ?_⟩, ?_, ?_, ?_, ?_⟩
          · simp only [step, h2]; cases e' <;> simp
          · intro x hx; cases e' <;> simp [set_ne _ _ hx]
          · cases e' <;> simp [hitCount, inc64]
          · cases e' <;> simp [missCount, inc64, List.countP_cons]
            exact absurd rfl (hne _)
          · cases e' <;> simp [missCount, hitCount, List.countP_cons]
            exact absurd rfl (hne _)
      · simp at h
  | release j n =>
    simp only [cacheStep, Option.bind_eq_bind] at h
    split at h
    · rename_i hj
      cases h2 : shardRelease (c.shards j) n with
      | none => simp [h2] at h
      | some s =>
        simp only [h2, Option.bind_some, Option.pure_def, Option.some.injEq, Prod.mk.injEq] at h
        obtain ⟨rfl, rfl, rfl⟩ := h
        refine ⟨hj, rfl, ⟨.release n, by simp [step, h2]⟩, fun x hx => by simp [set_ne _ _ hx], ?_, ?_, ?_⟩
        · simp [hitCount]
        · simp [missCount]
        · simp [hitCount, missCount]
    · simp at h

theorem run_append {hash : K → Int} {fuel : Nat} {s s1 : Shard V} {ops : List (Op K V)} {evs : List (Event K V)}
    (h1 : run hash fuel s ops = some (s1, evs)) {op : Op K V} {s2 : Shard V} {e : Event K V}
    (h2 : step hash fuel s1 op = some (s2, e)) : run hash fuel s (ops ++ [op]) = some (s2, evs ++ [e]) := by
  rw [run_snoc, h1]; simp [h2]

theorem cacheRun_spec {hash : K → Int} {fuel : Nat} : ∀ {ops : List (COp K V)} {c c' : Cache V}
    {evs : List (Nat × Event K V)}, cacheRun hash fuel c ops = some (c', evs) →
    c'.concurrency = c.concurrency ∧ (∀ e ∈ evs, e.1 < c.concurrency) ∧
    (∀ i, ∃ o : List (Op K V), run hash fuel (c.shards i) o = some (c'.shards i, eventsOf i evs)) ∧
    c'.hits % 2 ^ 64 = (c.hits + hitCount evs) % 2 ^ 64 ∧
    c'.misses % 2 ^ 64 = (c.misses + missCount evs) % 2 ^ 64 ∧
    hitCount evs + missCount evs = ops.countP fun o => match o with | .get .. => true | .release .. => false := by
  intro ops
  induction ops with
  | nil =>
    intro c c' evs h; cases h
    exact ⟨rfl, by simp, fun i => ⟨[], by simp [run, eventsOf]⟩, by simp [hitCount], by simp [missCount],
      by simp [hitCount, missCount]⟩
  | cons op ops ih =>
    intro c c' evs h
    simp only [cacheRun, Option.bind_eq_bind] at h
    cases h1 : cacheStep hash fuel c op with
    | none => simp [h1] at h
    | some r =>
      obtain ⟨c1, i, e⟩ := r
      simp only [h1, Option.bind_some] at h
      cases h2 : cacheRun hash fuel c1 ops with
      | none => simp [h2] at h
      | some r2 =>
        obtain ⟨c2, es2⟩ := r2
        simp [h2] at h
        obtain ⟨rfl, rfl⟩ := h
        obtain ⟨a1, a2, ⟨o, a3⟩, a4, a5, a6, a7⟩ := cacheStep_spec h1
        obtain ⟨b1, b2, b3, b4, b5, b6⟩ := ih h2
        have hc : hitCount ((i, e) :: es2) = hitCount [(i, e)] + hitCount es2 := by
          rw [hitCount, show (i, e) :: es2 = [(i, e)] ++ es2 from rfl, List.countP_append]; rfl
        have mc : missCount ((i, e) :: es2) = missCount [(i, e)] + missCount es2 := by
          rw [missCount, show (i, e) :: es2 = [(i, e)] ++ es2 from rfl, List.countP_append]; rfl
        refine ⟨b1.trans a2, ?_, ?_, ?_, ?_, ?_⟩
        · intro x hx
          rcases List.mem_cons.1 hx with rfl | hx
          · exact a1
          · rw [← a2]; exact b2 x hx
        · intro j
          obtain ⟨oj, hj⟩ := b3 j
          by_cases hji : j = i
          · subst hji
            refine ⟨o :: oj, ?_⟩
            simp [run, a3, hj, eventsOf]
          · refine ⟨oj, ?_⟩
            rw [← a4 j hji, hj]
            simp [eventsOf, Ne.symm hji]
        · rw [hc]; omega
        · rw [mc]; omega
        · rw [hc, mc, List.countP_cons]
          cases op <;> simp_all <;> omega

/-- A cache whose shards are newly initialised. -/
def NewCache (capacity : Nat) (c : Cache V) : Prop :=
  c.hits = 0 ∧ c.misses = 0 ∧
    ∀ i, i < c.concurrency → ∃ (d0 : V) (mem : Shard V), shardInit d0 capacity mem = some (c.shards i)

/-- Whatever history of calls is made on the whole cache, each of its shards is in a state reached by a history of
calls on that shard alone, so what is proved about a shard holds for every shard of the cache. -/
theorem C04_shards {hash : K → Int} {fuel capacity : Nat} (hf : Enough capacity fuel) {c c' : Cache V}
    (hc : NewCache capacity c) {ops : List (COp K V)} {evs : List (Nat × Event K V)}
    (h : cacheRun hash fuel c ops = some (c', evs)) {i : Nat} (hi : i < c.concurrency) :
    ∃ o, After hash fuel capacity o (c'.shards i) (eventsOf i evs) := by
  obtain ⟨-, -, h3, -⟩ := cacheRun_spec h
  obtain ⟨o, ho⟩ := h3 i
  obtain ⟨d0, mem, hm⟩ := hc.2.2 i hi
  exact ⟨o, hf, d0, mem, _, hm, ho⟩

/-- C04 for the whole cache: the node a get returns holds what the last load into it produced, and that load was
for the key of this get. -/
theorem C04_cache {hash : K → Int} (inj : ∀ a b, hash a = hash b → a = b) {fuel capacity : Nat}
    (hf : Enough capacity fuel) {c c' c'' : Cache V} (hc : NewCache capacity c) {ops : List (COp K V)}
    {evs : List (Nat × Event K V)} (h : cacheRun hash fuel c ops = some (c', evs)) {k : K} {v : V} {ok : Bool}
    {i : Nat} {e : Event K V} (hg : cacheStep hash fuel c' (.get k v ok) = some (c'', i, e)) {n : Nat}
    (hn : e.isGet n) :
    ∃ v' ok', lastLoad n (eventsOf i evs ++ [e]) = some (k, v', ok') ∧ (c''.shards i).data n = v' ∧
      (ok' = true ∨ (ok' = false ∧ e = .loaded k v false n)) := by
  simp only [cacheStep, Option.bind_eq_bind] at hg
  obtain ⟨hconc, -⟩ := cacheRun_spec h
  cases h1 : shardIndex c'.concurrency (hash k) with
  | none => simp [h1] at hg
  | some j =>
    simp only [h1, Option.bind_some] at hg
    split at hg
    · rename_i hj
      cases h2 : shardGet hash fuel (c'.shards j.toNat) k v ok with
      | none => simp [h2] at hg
      | some r =>
        obtain ⟨s, e'⟩ := r
        simp only [h2, Option.bind_some, Option.pure_def, Option.some.injEq, Prod.mk.injEq] at hg
        obtain ⟨rfl, rfl, rfl⟩ := hg
        obtain ⟨o, ha⟩ := C04_shards hf hc h (i := j.toNat) (by rw [← hconc]; exact hj.2)
        have := C04_get inj ha (show step hash fuel _ (.get k v ok) = some (s, e') from h2) hn
        have hs : ∀ (x : Cache V), x.shards = set c'.shards j.toNat s → (x.shards j.toNat).data n = s.data n := by
          intro x hx; rw [hx]; simp
        cases e' <;> (rw [hs _ rfl]; exact this)
    · simp at hg

/-- Hits plus misses is the number of gets, when the calls do not overlap (the counts are `unsigned long`). Missing: calls that
overlap, see `C07_counts_violated`. -/
theorem C07_counts_partial {hash : K → Int} {fuel capacity : Nat} {c c' : Cache V} (hc : NewCache capacity c)
    {ops : List (COp K V)} {evs : List (Nat × Event K V)} (h : cacheRun hash fuel c ops = some (c', evs)) :
    c'.hits % 2 ^ 64 = hitCount evs % 2 ^ 64 ∧ c'.misses % 2 ^ 64 = missCount evs % 2 ^ 64 ∧
    hitCount evs + missCount evs = ops.countP fun o => match o with | .get .. => true | .release .. => false := by
  obtain ⟨-, -, -, h1, h2, h3⟩ := cacheRun_spec h
  refine ⟨?_, ?_, h3⟩
  · rw [h1, hc.1]; simp
  · rw [h2, hc.2.1]; simp

/-- Two threads which hold the locks of different shards and both have a hit can leave the count at one. -/
theorem C07_counts_violated : countRun [false, true, false, true] (0, .start, .start) = (1, .done, .done) := by
  decide

/-! ### Concrete histories -/

/-- Any memory to put a shard in. -/
def anyMemory : Shard Nat where
  tree := ⟨fun _ => 7, fun _ => .null, fun _ => .root, fun _ => .null, fun _ => .red⟩
  capacity := 9
  allocated := 3
  first := some 4
  last := some 2
  next := fun n => some n
  prev := fun _ => none
  active := fun _ => 5
  data := fun _ => 0

/-- The events of a history on a new shard with integer keys. -/
def demo (capacity : Nat) (ops : List (Op Int Nat)) : Option (List (Event Int Nat)) := do
  let s ← shardInit 0 capacity anyMemory
  let r ← run id 12 s ops
  pure r.2

/-- A history that fills a shard of two nodes, hits, fails a load, evicts the least recently released node and is
refused when both nodes are held. -/
example : demo 2
    [.get 5 50 true, .get 7 70 true, .release 0, .get 5 0 true, .release 0, .release 1, .get 9 90 true,
      .get 8 80 false, .get 5 50 true, .release 1, .get 7 71 true] =
    some [.loaded 5 50 true 0, .loaded 7 70 true 1, .released 0, .hit 5 0, .released 0, .released 1,
      .loaded 9 90 true 0, .loaded 8 80 false 1, .full 5, .released 1, .loaded 7 71 true 1] := by
  decide +kernel

/-- The hypothesis of the theorems above is met by that kind of history. -/
example : ∃ (ops : List (Op Int Nat)) (s : Shard Nat) (evs : List (Event Int Nat)), After id 12 2 ops s evs ∧
    held 1 evs ≠ 0 ∧ lastLoad 1 evs = some (7, 70, true) ∧ held 0 evs = 0 := by
  obtain ⟨start, h1, -⟩ := shardInit_spec (K := Int) id 0 2 anyMemory
  have h2 : ((shardInit 0 2 anyMemory).bind fun s =>
      (run id 12 s [.get 5 50 true, .get 7 70 true, .release 0]).map fun r => (r.2 : List (Event Int Nat))) =
      some [.loaded 5 50 true 0, .loaded 7 70 true 1, .released 0] := by decide +kernel
  rw [h1] at h2
  simp only [Option.bind_some, Option.map_eq_some_iff] at h2
  obtain ⟨⟨s, evs⟩, h3, rfl⟩ := h2
  exact ⟨_, s, _, ⟨by show 2 * Nat.log2 3 + 2 ≤ 12; decide, 0, anyMemory, start, h1, h3⟩, by decide, by decide, by decide⟩

/-- The nodes a failed load used are lost when the cache is used through a collection: `getFromCache` drops the
node without a release. With room for two items and every item released before the next, two failed loads leave
the cache unusable for ever. -/
theorem C07_collection_violated :
    ((shardInit 0 2 anyMemory).bind fun s => (useInTurn (K := Int) id 12 s
      [(1, 10, true), (2, 0, false), (3, 0, false), (1, 10, true), (4, 40, true)]).map (·.2)) =
    some [some 0, none, none, none, none] := by
  decide +kernel

/-- A history on a cache of three shards with two nodes each: keys 1, 4 and 7 share a shard, -5 goes to shard 2. -/
example : ((shardInit 0 2 anyMemory).bind fun s =>
    (cacheRun (K := Int) (V := Nat) id 12 ⟨3, fun _ => s, 0, 0⟩
      [.get 1 10 true, .get (-5) 50 true, .get 1 0 true, .get 4 40 true, .get 7 70 true, .release 1 0, .release 1 0,
        .get 7 70 true]).map fun r => (r.1.hits, r.1.misses, r.2)) =
    some (1, 5, [(1, .loaded 1 10 true 0), (2, .loaded (-5) 50 true 0), (1, .hit 1 0), (1, .loaded 4 40 true 1),
      (1, .full 7), (1, .released 0), (1, .released 0), (1, .loaded 7 70 true 0)]) := by
  decide +kernel

/-! ## C08 -/

/-- The shard is one of the `concurrency` shards for all keys whose low 32 bits are not `0x80000000`. Missing: that key hash, see
`C08_shard_violated`. -/
theorem C08_shard_partial (concurrency : Nat) (hc : 0 < concurrency) (keyHash : Int)
    (h : toInt keyHash ≠ -2 ^ 31) :
    ∃ i, shardIndex concurrency keyHash = some i ∧ 0 ≤ i ∧ i < concurrency := by
  refine ⟨_, by simp only [shardIndex, cAbs, if_neg h, Option.bind_eq_bind, Option.bind_some, Option.pure_def]; rfl,
    ?_, ?_⟩
  · exact Int.tmod_nonneg _ (by omega)
  · exact Int.tmod_lt_of_pos _ (by omega)

example : shardIndex 3 (2 ^ 32 * 5 - 7) = some 1 := by decide +kernel

/-- After any history of calls on the whole cache, a get of a key whose low 32 bits are not `0x80000000` returns. The shard it is
made in is one of those the cache has, and the key always goes to the same one. Missing: that key hash, see
`C08_shard_violated`. -/
theorem C08_get_partial {hash : K → Int} {fuel capacity : Nat} (hf : Enough capacity fuel) {c c' : Cache V}
    (hc : NewCache capacity c) {ops : List (COp K V)} {evs : List (Nat × Event K V)}
    (h : cacheRun hash fuel c ops = some (c', evs)) (hpos : 0 < c.concurrency) (k : K)
    (hk : toInt (hash k) ≠ -2 ^ 31) : ∃ i, i < c.concurrency ∧ i = (toInt (hash k)).natAbs % c.concurrency ∧
      ∀ v ok, ∃ c'' e, cacheStep hash fuel c' (.get k v ok) = some (c'', i, e) := by
  obtain ⟨hconc, -⟩ := cacheRun_spec h
  refine ⟨(toInt (hash k)).natAbs % c.concurrency, Nat.mod_lt _ hpos, rfl, fun v ok => ?_⟩
  have hi : shardIndex c'.concurrency (hash k) = some (((toInt (hash k)).natAbs % c.concurrency : Nat) : Int) := by
    simp only [shardIndex, cAbs, if_neg hk, Option.bind_eq_bind, Option.bind_some, Option.pure_def, hconc]
    rw [← Int.ofNat_tmod]
  generalize hn : (toInt (hash k)).natAbs % c.concurrency = i at *
  have hlt : i < c.concurrency := by rw [← hn]; exact Nat.mod_lt _ hpos
  obtain ⟨o, ha⟩ := C04_shards hf hc h hlt
  obtain ⟨s', e, hs⟩ := (C04_total ha).1 k v ok
  simp only [cacheStep, hi, Option.bind_eq_bind, Option.bind_some, Int.toNat_natCast]
  rw [if_pos ⟨by omega, by omega⟩, show shardGet hash fuel (c'.shards i) k v ok = some (s', e) from hs]
  exact ⟨_, e, rfl⟩

/-- After any history of calls on the whole cache, a release returns exactly when the node is held in that shard. -/
theorem C08_release {hash : K → Int} {fuel capacity : Nat} (hf : Enough capacity fuel) {c c' : Cache V}
    (hc : NewCache capacity c) {ops : List (COp K V)} {evs : List (Nat × Event K V)}
    (h : cacheRun hash fuel c ops = some (c', evs)) (i n : Nat) :
    (∃ c'' e, cacheStep hash fuel c' (.release i n) = some (c'', i, e)) ↔ held n (eventsOf i evs) ≠ 0 := by
  obtain ⟨hconc, hin, -⟩ := cacheRun_spec h
  by_cases hi : i < c.concurrency
  · obtain ⟨o, ha⟩ := C04_shards hf hc h hi
    rw [← (C04_total ha).2 n]
    simp only [cacheStep, step, hconc, if_pos hi, Option.bind_eq_bind]
    cases shardRelease (c'.shards i) n <;> simp
  · have : eventsOf i evs = [] := by
      rw [eventsOf, List.map_eq_nil_iff, List.filter_eq_nil_iff]
      intro e he
      have := hin e he
      simp only [decide_eq_true_eq]
      omega
    rw [this]
    simp only [cacheStep, hconc, if_neg hi]
    simp [held, gets, releases]

/-- The hypotheses are met by a history on a cache of three shards; key 3 goes to the first of them. -/
example : ∃ (c c' : Cache Nat) (ops : List (COp Int Nat)) (evs : List (Nat × Event Int Nat)), NewCache 2 c ∧
    Enough 2 12 ∧ cacheRun id 12 c ops = some (c', evs) ∧ 0 < c.concurrency ∧ toInt 3 ≠ -2 ^ 31 ∧
    held 0 (eventsOf 0 evs) ≠ 0 ∧ held 1 (eventsOf 0 evs) = 0 := by
  obtain ⟨start, h1, -⟩ := shardInit_spec (K := Int) id 0 2 anyMemory
  have h2 : ((shardInit 0 2 anyMemory).bind fun s =>
      (cacheRun (K := Int) (V := Nat) id 12 ⟨3, fun _ => s, 0, 0⟩ [.get 3 30 true]).map fun r => r.2) =
      some [(0, .loaded 3 30 true 0)] := by decide +kernel
  rw [h1] at h2
  simp only [Option.bind_some, Option.map_eq_some_iff] at h2
  obtain ⟨⟨c', evs⟩, h3, rfl⟩ := h2
  exact ⟨⟨3, fun _ => start, 0, 0⟩, c', _, _, ⟨rfl, rfl, fun _ _ => ⟨0, anyMemory, h1⟩⟩,
    by show 2 * Nat.log2 3 + 2 ≤ 12; decide, h3, Nat.zero_lt_succ 2, by decide, by decide, by decide⟩

/-- For a key hash with low 32 bits `0x80000000` the call of `abs` is undefined; where it gives `INT_MIN` back,
the index is negative, before the first shard. -/
theorem C08_shard_violated : shardIndex 3 (2 ^ 31) = none ∧ shardIndexWrapping 3 (2 ^ 31) = -2 := by decide +kernel

/-! ## C54 -/

/-- C54: when the shards together have fewer than 2^31 nodes (so that the number fits the `int32_t` it is kept in), an
accepted cache has room for at least the capacity asked for, each shard for at least `concurrency` nodes, and the
shards' nodes are disjoint parts of the memory allocated. Missing: more nodes, see `C54_capacity_violated`. -/
theorem C54_capacity_partial (capacity : UInt32) (concurrency : UInt16) (ha : createAccepts capacity concurrency = true)
    (hc : (capacity.toNat % concurrency.toNat + capacity.toNat / concurrency.toNat) * concurrency.toNat < 2 ^ 31) :
    capacity.toNat ≤ shardCapacity capacity concurrency * concurrency.toNat ∧
    concurrency.toNat ≤ shardCapacity capacity concurrency ∧
    ∀ i, i < concurrency.toNat →
      shardFirstNode capacity concurrency i + shardCapacity capacity concurrency ≤
        allocatedNodes capacity concurrency ∧
      (i + 1 < concurrency.toNat → shardFirstNode capacity concurrency (i + 1) =
        shardFirstNode capacity concurrency i + shardCapacity capacity concurrency) := by
  simp only [createAccepts, decide_eq_true_eq, not_or, UInt32.lt_iff_toNat_lt, UInt32.toNat_div,
    UInt16.toNat_toUInt32] at ha
  obtain ⟨h0, h1⟩ := ha
  have hpos : 0 < concurrency.toNat := by
    rcases Nat.eq_zero_or_pos concurrency.toNat with h | h
    · exact absurd (UInt16.toNat_inj.1 (by simpa using h)) h0
    · exact h
  generalize hC : concurrency.toNat = C at *
  generalize hN : capacity.toNat = N at *
  have hdiv : C * (N / C) + N % C = N := Nat.div_add_mod N C
  have hle : N ≤ (N % C + N / C) * C := by
    have : N % C ≤ N % C * C := Nat.le_mul_of_pos_right _ hpos
    rw [Nat.add_mul, Nat.mul_comm (N / C) C]; omega
  have hsum : N % C + N / C < 2 ^ 31 := Nat.lt_of_le_of_lt (Nat.le_mul_of_pos_right _ hpos) hc
  have hq : (cacheShardCapacity capacity concurrency).toNat = N % C + N / C := by
    simp only [cacheShardCapacity, UInt32.toNat_add, UInt32.toNat_mod, UInt32.toNat_div, UInt16.toNat_toUInt32, hC,
      hN]
    omega
  have hstored : storedCapacity capacity concurrency = ((N % C + N / C) * C : Nat) := by
    have : (cacheShardCapacity capacity concurrency * concurrency.toUInt32).toNat = (N % C + N / C) * C := by
      rw [UInt32.toNat_mul, hq, UInt16.toNat_toUInt32, hC, Nat.mod_eq_of_lt (by omega)]
    rw [storedCapacity, this, toInt]
    generalize (N % C + N / C) * C = x at *
    omega
  have hshard : shardCapacity capacity concurrency = N % C + N / C := by
    rw [shardCapacity, hstored, hC, ← Int.ofNat_tdiv, Nat.mul_div_cancel _ hpos]
    clear hle hc hdiv hstored hq h1
    generalize N % C + N / C = x at *
    have h6 : (x : Int) % 2 ^ 32 = x := Int.emod_eq_of_lt (by omega) (by omega)
    rw [h6, Int.toNat_natCast]
  have halloc : allocatedNodes capacity concurrency = (N % C + N / C) * C := by rw [allocatedNodes, hq, hC]
  have hfirst : ∀ i, i < C → shardFirstNode capacity concurrency i = (N % C + N / C) * i := by
    intro i hi
    rw [shardFirstNode, hshard, Nat.mod_eq_of_lt]
    exact Nat.lt_of_le_of_lt (Nat.mul_le_mul_left _ (by omega : i ≤ C)) (by omega)
  rw [hshard, halloc]
  refine ⟨hle, by omega, fun i hi => ⟨?_, fun hi' => ?_⟩⟩
  · rw [hfirst i hi, ← Nat.mul_succ]
    exact Nat.mul_le_mul_left _ hi
  · rw [hfirst i hi, hfirst _ hi', Nat.mul_succ]

/-- C54: this is so for every accepted capacity below 2^30. Missing: larger capacities, see `C54_capacity_violated`. -/
theorem C54_below_partial (capacity : UInt32) (concurrency : UInt16) (ha : createAccepts capacity concurrency = true)
    (hc : capacity.toNat < 2 ^ 30) :
    (capacity.toNat % concurrency.toNat + capacity.toNat / concurrency.toNat) * concurrency.toNat < 2 ^ 31 := by
  simp only [createAccepts, decide_eq_true_eq, not_or, UInt32.lt_iff_toNat_lt, UInt32.toNat_div,
    UInt16.toNat_toUInt32] at ha
  obtain ⟨h0, h1⟩ := ha
  have hpos : 0 < concurrency.toNat := by
    rcases Nat.eq_zero_or_pos concurrency.toNat with h | h
    · exact absurd (UInt16.toNat_inj.1 (by simpa using h)) h0
    · exact h
  generalize concurrency.toNat = C at *
  generalize capacity.toNat = N at *
  have hdiv : C * (N / C) + N % C = N := Nat.div_add_mod N C
  have hmod : N % C < C := Nat.mod_lt _ hpos
  have hCC : C * C ≤ N := by
    calc C * C ≤ C * (N / C) := Nat.mul_le_mul_left _ (by omega)
      _ ≤ N := by omega
  have : N % C * C ≤ C * C := Nat.mul_le_mul_right _ (by omega)
  rw [Nat.add_mul, Nat.mul_comm (N / C) C]; omega

example : createAccepts 1000 7 = true ∧ shardCapacity 1000 7 = 148 := by decide +kernel

/-- With a capacity of 2^31 and two shards, the shards believe to have three times as many nodes as there are. -/
theorem C54_capacity_violated : createAccepts 2147483648 2 = true ∧ allocatedNodes 2147483648 2 = 2 ^ 31 ∧
    shardCapacity 2147483648 2 = 3 * 2 ^ 30 := by
  decide +kernel

end Verif.Cache
