import Verif.Cache.Threads

/-! # C114: a cache of the size its users were told to ask for has room

cache.h:41-45 says that the size of a cache must be at least the number of items which will be in use at the same time across all
threads. This module says when that is enough for `fiftyoneDegreesCacheGet` never to fail for want of a node. The model is that of
C87, C54 and C08. -/

namespace Verif.Cache.Threads

variable {K V : Type}

/-! ## Specification -/

/-- The node that the call handed out, with its shard. -/
def got : Nat × Event K V → Option (Nat × Nat)
  | (i, .hit _ n) | (i, .loaded _ _ _ n) => some (i, n)
  | _ => none

/-- The items in use: those that calls of get have handed out, to whomever, more often than calls of release that have returned gave
them back. An item that several callers have counts once. -/
def itemsInUse (log : List (Nat × Event K V)) : List (Nat × Nat) :=
  (log.filterMap got).eraseDups.filter fun x => decide (held x.2 (eventsOf x.1 log) ≠ 0)

/-! ## Proofs -/

theorem mem_itemsInUse {log : List (Nat × Event K V)} {i n : Nat} (h : held n (eventsOf i log) ≠ 0) : (i, n) ∈ itemsInUse log := by
  rw [itemsInUse, List.mem_filter]
  refine ⟨?_, by simpa using h⟩
  rw [List.mem_eraseDups, List.mem_filterMap]
  have : gets n (eventsOf i log) ≠ 0 := by unfold held at h; omega
  rw [gets, Ne, List.countP_eq_zero] at this
  have : ∃ e ∈ eventsOf i log, e.isGet n = true := by
    refine Classical.byContradiction fun hn => this fun e he hg => hn ⟨e, he, hg⟩
  obtain ⟨e, he, hg⟩ := this
  simp only [eventsOf, List.mem_map, List.mem_filter, decide_eq_true_eq] at he
  obtain ⟨⟨j, e'⟩, ⟨h1, rfl⟩, rfl⟩ := he
  refine ⟨_, h1, ?_⟩
  cases e' <;> simp_all [Event.isGet, got]

variable {hash : K → Int} {fuel capacity : Nat} {s s' : State K V} {log : List (Nat × Event K V)}

/-- C114: a get fails only when all nodes of the shard of its key are in use, and so as many items as a shard has nodes. -/
theorem C114_shard (h : Reached hash fuel capacity s log) {t i : Nat} {a : Act K V} {k : K}
    (hs : step hash fuel s t a = some (s', some (i, .full k))) :
    (∀ n < capacity, (i, n) ∈ itemsInUse log) ∧ capacity ≤ (itemsInUse log).length := by
  have key : ∀ n < capacity, (i, n) ∈ itemsInUse log := by
    obtain ⟨A, h⟩ := h.inv
    rw [step] at hs
    cases hpc : s.pcs[t]? with
    | none => rw [hpc] at hs; cases hs
    | some pc =>
      rw [hpc] at hs
      simp only at hs
      cases a with
      | get k =>
        simp only at hs
        split at hs
        · split at hs <;> cases hs
        · cases hs
      | release i n =>
        simp only at hs
        split at hs
        · split at hs <;> cases hs
        · cases hs
      | answer v ok =>
        simp only [Option.map_eq_some_iff] at hs
        obtain ⟨s1, h1, hs⟩ := hs
        cases hs
      | run =>
        simp only at hs
        cases pc with
        | leave j e' =>
          cases hs
          obtain ⟨q, g1, -, g3⟩ := h.owned i t (h.inside t _ i hpc rfl)
          rw [hpc] at g1; cases g1
          obtain ⟨op, ho⟩ := g3
          obtain ⟨ops, ha⟩ := h.after i
          intro n hn
          apply mem_itemsInUse
          cases op with
          | get k' v ok =>
            have hk : k' = k := by
              obtain ⟨⟨m, t', l, inv⟩, hc⟩ := ha.inv
              rcases (step_spec inv (by rw [hc]; exact ha.enough) ho).2.2.2.1 k' v ok rfl with
                ⟨n', -, he⟩ | ⟨-, ⟨-, -, he⟩ | ⟨n', he, -⟩⟩ <;> cases he
              rfl
            subst hk
            exact C06_full ha ho n hn
          | release m =>
            obtain ⟨⟨m', t', l, inv⟩, hc⟩ := ha.inv
            have := (step_spec inv (by rw [hc]; exact ha.enough) ho).2.2.2.2 m rfl
            cases this.1
        | get i k => rw [State.run] at hs; split at hs <;> cases hs
        | release i k => rw [State.run] at hs; split at hs <;> cases hs
        | hits i k n => cases hs
        | hitsWrite i k n x => cases hs
        | misses i e => cases hs
        | missesWrite i e x => cases hs
        | _ =>
          simp only [State.run, Pc.inside, Option.bind_none, Option.bind_some, Option.map_eq_some_iff] at hs
          first
            | (obtain ⟨q, -, hs⟩ := hs; cases hs)
            | cases hs
  refine ⟨key, ?_⟩
  have hnd : ((List.range capacity).map fun n => (i, n)).Nodup :=
    List.Pairwise.map _ (fun a b hab h => hab (by cases h; rfl)) List.nodup_range
  have := (hnd.subperm (l₂ := itemsInUse log) fun x hx => by
    simp only [List.mem_map, List.mem_range] at hx
    obtain ⟨n, hn, rfl⟩ := hx
    exact key n hn).length_le
  simpa using this

/-- The nodes of a shard of a cache that was created, by the numbers asked for. -/
theorem shardCapacity_eq (size : UInt32) (concurrency : UInt16) (ha : createAccepts size concurrency = true)
    (hc : size.toNat < 2 ^ 30) :
    concurrency.toNat ≤ shardCapacity size concurrency ∧ size.toNat ≤ shardCapacity size concurrency * concurrency.toNat :=
  have h := C54_capacity_partial size concurrency ha (C54_below_partial size concurrency ha hc)
  ⟨h.2.1, h.1⟩

/-- C114: in a cache created with the size documented and one shard a get never fails, as long as fewer items are in use than the size.
Missing: more shards, see `C114_size_violated`, and sizes from 2^30, see `C54_capacity_violated`. -/
theorem C114_size_partial {size : UInt32} (ha : createAccepts size 1 = true) (hc : size.toNat < 2 ^ 30)
    (h : Reached hash fuel (shardCapacity size 1) s log) (hu : (itemsInUse log).length < size.toNat) {t i : Nat} {a : Act K V} {k : K} :
    step hash fuel s t a ≠ some (s', some (i, .full k)) := by
  intro hs
  have h1 := (C114_shard h hs).2
  have h2 := (shardCapacity_eq size 1 ha hc).2
  have e : (1 : UInt16).toNat = 1 := rfl
  rw [e, Nat.mul_one] at h2
  omega

/-- C114: whatever the number of shards, a get never fails as long as fewer items are in use than the concurrency the cache was created
for: as many threads with one item each never fail. -/
theorem C114_concurrency_partial {size : UInt32} {concurrency : UInt16} (ha : createAccepts size concurrency = true)
    (hc : size.toNat < 2 ^ 30) (h : Reached hash fuel (shardCapacity size concurrency) s log)
    (hu : (itemsInUse log).length < concurrency.toNat) {t i : Nat} {a : Act K V} {k : K} :
    step hash fuel s t a ≠ some (s', some (i, .full k)) := by
  intro hs
  have h1 := (C114_shard h hs).2
  have h2 := (shardCapacity_eq size concurrency ha hc).1
  omega

/-- C114: a cache whose size is the number of items in use at once times the number of shards always has room. Missing: the size
documented, which does not have the factor, see `C114_size_violated`. -/
theorem C114_factor_partial {size : UInt32} {concurrency : UInt16} (ha : createAccepts size concurrency = true)
    (hc : size.toNat < 2 ^ 30) (h : Reached hash fuel (shardCapacity size concurrency) s log)
    (hu : (itemsInUse log).length * concurrency.toNat < size.toNat) {t i : Nat} {a : Act K V} {k : K} :
    step hash fuel s t a ≠ some (s', some (i, .full k)) := by
  intro hs
  have h1 := (C114_shard h hs).2
  have h2 := (shardCapacity_eq size concurrency ha hc).2
  have h3 := Nat.mul_le_mul_right concurrency.toNat h1
  omega

/-! ### The size documented is not enough -/

/-- The nodes of a shard. -/
theorem shardCapacity_nodes (size : UInt32) (concurrency : UInt16) (ha : createAccepts size concurrency = true)
    (hc : size.toNat < 2 ^ 30) :
    shardCapacity size concurrency = size.toNat % concurrency.toNat + size.toNat / concurrency.toNat ∧
      shardCapacity size concurrency * concurrency.toNat < 2 ^ 31 := by
  have hb := C54_below_partial size concurrency ha hc
  simp only [createAccepts, decide_eq_true_eq, not_or, UInt32.lt_iff_toNat_lt, UInt32.toNat_div,
    UInt16.toNat_toUInt32] at ha
  obtain ⟨h0, h1⟩ := ha
  have hpos : 0 < concurrency.toNat := by
    rcases Nat.eq_zero_or_pos concurrency.toNat with h | h
    · exact absurd (UInt16.toNat_inj.1 (by simpa using h)) h0
    · exact h
  suffices h : shardCapacity size concurrency = size.toNat % concurrency.toNat + size.toNat / concurrency.toNat from
    ⟨h, by rw [h]; exact hb⟩
  generalize hC : concurrency.toNat = C at *
  generalize hN : size.toNat = N at *
  have hsum : N % C + N / C < 2 ^ 31 := Nat.lt_of_le_of_lt (Nat.le_mul_of_pos_right _ hpos) hb
  have hq : (cacheShardCapacity size concurrency).toNat = N % C + N / C := by
    simp only [cacheShardCapacity, UInt32.toNat_add, UInt32.toNat_mod, UInt32.toNat_div, UInt16.toNat_toUInt32, hC, hN]
    omega
  have hstored : storedCapacity size concurrency = ((N % C + N / C) * C : Nat) := by
    have : (cacheShardCapacity size concurrency * concurrency.toUInt32).toNat = (N % C + N / C) * C := by
      rw [UInt32.toNat_mul, hq, UInt16.toNat_toUInt32, hC, Nat.mod_eq_of_lt (by omega)]
    rw [storedCapacity, this, toInt]
    generalize (N % C + N / C) * C = x at *
    omega
  rw [shardCapacity, hstored, hC, ← Int.ofNat_tdiv, Nat.mul_div_cancel _ hpos]
  clear hb hstored hq h1
  generalize N % C + N / C = x at *
  have h6 : (x : Int) % 2 ^ 32 = x := Int.emod_eq_of_lt (by omega) (by omega)
  rw [h6, Int.toNat_natCast]

theorem cacheRun_snoc {fuel : Nat} {op : COp K V} : ∀ {ops : List (COp K V)} {c c1 c2 : Cache V}
    {evs : List (Nat × Event K V)} {x : Nat × Event K V}, cacheRun hash fuel c ops = some (c1, evs) →
    cacheStep hash fuel c1 op = some (c2, x) → cacheRun hash fuel c (ops ++ [op]) = some (c2, evs ++ [x])
  | [], c, c1, c2, evs, x, h, hs => by
    cases h
    simp [cacheRun, hs]
  | o :: ops, c, c1, c2, evs, x, h, hs => by
    simp only [cacheRun, Option.bind_eq_bind, Option.bind_eq_some_iff, Option.pure_def, Option.some.injEq] at h
    obtain ⟨⟨c3, e3⟩, h1, ⟨c4, e4⟩, h2, h3⟩ := h
    cases h3
    simp only [List.cons_append, cacheRun, Option.bind_eq_bind, h1, Option.bind_some, cacheRun_snoc h2 hs, Option.pure_def]

theorem cacheStep_get {fuel : Nat} {c c' : Cache V} {k : K} {v : V} {ok : Bool} {i : Nat} {e : Event K V}
    (h : cacheStep hash fuel c (.get k v ok) = some (c', i, e)) :
    ∃ s', Cache.step hash fuel (c.shards i) (.get k v ok) = some (s', e) := by
  simp only [cacheStep, Option.bind_eq_bind] at h
  cases h1 : shardIndex c.concurrency (hash k) with
  | none => simp [h1] at h
  | some j =>
    simp only [h1, Option.bind_some] at h
    split at h
    · cases h2 : shardGet hash fuel (c.shards j.toNat) k v ok with
      | none => simp [h2] at h
      | some r =>
        obtain ⟨s, e'⟩ := r
        simp only [h2, Option.bind_some, Option.pure_def, Option.some.injEq, Prod.mk.injEq] at h
        obtain ⟨-, rfl, rfl⟩ := h
        exact ⟨s, h2⟩
    · cases h

/-- After gets of the keys 0, C, 2C and so on: all are in shard 0, in a node each. -/
structure Filled (C : Nat) (j : Nat) (evs : List (Nat × Event Int V)) (ns : List Nat) : Prop where
  length : evs.length = j
  nodes : ns.length = j
  nodup : ns.Nodup
  shard : ∀ x ∈ evs, x.1 = 0
  gets : ∀ n, gets n (Cache.eventsOf 0 evs) ≠ 0 ↔ n ∈ ns
  releases : ∀ n, releases n (Cache.eventsOf 0 evs) = 0
  keys : ∀ n k v ok, lastLoad n (Cache.eventsOf 0 evs) = some (k, v, ok) → ∃ m < j, k = ((m * C : Nat) : Int)

theorem eventsOf_zero (evs : List (Nat × Event Int V)) (e : Event Int V) :
    Cache.eventsOf 0 (evs ++ [(0, e)]) = Cache.eventsOf 0 evs ++ [e] := by
  simp [Cache.eventsOf]

/-- One more get. -/
theorem Filled.next {C fuel capacity j : Nat} {evs : List (Nat × Event Int V)} {ns : List Nat} (f : Filled C j evs ns)
    (hC : 0 < C) {ops : List (Op Int V)} {s s' : Shard V} (a : After id fuel capacity ops s (Cache.eventsOf 0 evs)) {v : V}
    {e : Event Int V} (h : Cache.step id fuel s (.get ((j * C : Nat) : Int) v true) = some (s', e)) :
    (j < capacity ∧ ∃ ns', Filled C (j + 1) (evs ++ [(0, e)]) ns') ∨ (j = capacity ∧ e = .full ((j * C : Nat) : Int)) := by
  have below : ∀ n ∈ ns, n < capacity := by
    intro n hn
    obtain ⟨l, -, -, -, h4⟩ := C07_states a
    exact (h4 n ((f.gets n).2 hn)).1
  have hj : j ≤ capacity := by
    have := (f.nodup.subperm (l₂ := List.range capacity) fun n hn => List.mem_range.2 (below n hn)).length_le
    rw [f.nodes, List.length_range] at this
    exact this
  have hheld : ∀ n, held n (Cache.eventsOf 0 evs) = Cache.gets n (Cache.eventsOf 0 evs) := by
    intro n; rw [held, f.releases n]; rfl
  obtain ⟨⟨m, t, l, inv⟩, hc⟩ := a.inv
  rcases (step_spec inv (by rw [hc]; exact a.enough) h).2.2.2.1 _ v true rfl with
    ⟨n, -, rfl⟩ | ⟨-, ⟨-, -, rfl⟩ | ⟨n, rfl, -⟩⟩
  · exfalso
    obtain ⟨v', ok', h1, -⟩ := C04_get (fun _ _ h => h) a h (n := n) (by simp [Event.isGet])
    rw [lastLoad_snoc] at h1
    obtain ⟨m, h2, h3⟩ := f.keys n _ _ _ h1
    have := Nat.eq_of_mul_eq_mul_right hC (Int.ofNat_inj.1 h3)
    omega
  · right
    refine ⟨?_, rfl⟩
    have all := C06_full a h
    have := (List.nodup_range.subperm (l₁ := List.range capacity) (l₂ := ns) fun n hn =>
      (f.gets n).1 (by rw [← hheld]; exact all n (List.mem_range.1 hn))).length_le
    rw [f.nodes, List.length_range] at this
    omega
  · left
    obtain ⟨hn, hfree⟩ := C06_oldest a h
    have hnew : Cache.gets n (Cache.eventsOf 0 evs) = 0 := by
      rcases hfree with h1 | ⟨-, h2, -⟩
      · exact h1
      · rw [← hheld]; exact h2
    have hni : n ∉ ns := fun hh => (f.gets n).2 hh hnew
    have hnd : (n :: ns).Nodup := List.nodup_cons.2 ⟨hni, f.nodup⟩
    refine ⟨?_, n :: ns, ⟨by simp [f.length], by simp [f.nodes], hnd, ?_, ?_, ?_, ?_⟩⟩
    · have := (hnd.subperm (l₂ := List.range capacity) fun x hx => List.mem_range.2 (by
        rcases List.mem_cons.1 hx with rfl | hx
        · exact hn
        · exact below x hx)).length_le
      rw [List.length_cons, f.nodes, List.length_range] at this
      exact this
    · intro x hx
      rcases List.mem_append.1 hx with hx | hx
      · exact f.shard x hx
      · rw [List.mem_singleton.1 hx]
    · intro x
      rw [eventsOf_zero, List.mem_cons, ← f.gets x]
      simp only [Cache.gets, List.countP_append, List.countP_singleton, Event.isGet, decide_eq_true_eq]
      by_cases hx : n = x
      · simp [hx]
      · simp [hx, Ne.symm hx]
    · intro x
      rw [eventsOf_zero]
      have := f.releases x
      simp only [Cache.releases] at this
      simp [Cache.releases, this, Event.isRelease]
    · intro x k' v' ok' h1
      rw [eventsOf_zero, lastLoad_snoc] at h1
      simp only at h1
      split at h1
      · cases h1
        exact ⟨j, by omega, rfl⟩
      · obtain ⟨m, h2, h3⟩ := f.keys x _ _ _ h1
        exact ⟨m, by omega, h3⟩

theorem length_itemsInUse (log : List (Nat × Event K V)) : (itemsInUse log).length ≤ log.length := by
  have hd : ∀ (k : Nat) (l : List (Nat × Nat)), l.length ≤ k → l.eraseDups.length ≤ l.length := by
    intro k
    induction k with
    | zero => intro l hl; rw [List.length_eq_zero_iff.1 (Nat.le_zero.1 hl)]; exact Nat.le_refl _
    | succ k ih =>
      intro l hl
      cases l with
      | nil => exact Nat.le_refl _
      | cons a l =>
        rw [List.eraseDups_cons, List.length_cons, List.length_cons]
        have h1 := List.length_filter_le (fun b => !b == a) l
        rw [List.length_cons] at hl
        have h2 := ih _ (Nat.le_trans h1 (Nat.le_of_succ_le_succ hl))
        omega
  exact Nat.le_trans (List.length_filter_le _ _) (Nat.le_trans (hd _ _ (Nat.le_refl _)) (List.length_filterMap_le _ _))

/-- C114 does not hold as stated: in every cache with two or more shards, of whatever size, a get fails with fewer items in use than
the size. The keys are the multiples of the number of shards, which are all in the first shard. -/
theorem C114_size_violated {size : UInt32} {concurrency : UInt16} (ha : createAccepts size concurrency = true)
    (hc : size.toNat < 2 ^ 30) (h2 : 2 ≤ concurrency.toNat) {fuel : Nat} (hf : Enough (shardCapacity size concurrency) fuel)
    {c : Cache V} (hn : NewCache (shardCapacity size concurrency) c) (hcc : c.concurrency = concurrency.toNat) (v : V) :
    ∃ ops c' evs k, cacheRun (K := Int) id fuel c ops = some (c', evs ++ [(0, .full k)]) ∧
      (itemsInUse evs).length < size.toNat := by
  obtain ⟨e1, e2⟩ := shardCapacity_nodes size concurrency ha hc
  have hpos : 0 < c.concurrency := by omega
  -- a get of the next key
  have next : ∀ {j ops c' evs ns}, j ≤ shardCapacity size concurrency → cacheRun (K := Int) id fuel c ops = some (c', evs) →
      Filled (V := V) concurrency.toNat j evs ns →
      ∃ c'' e, cacheRun (K := Int) id fuel c (ops ++ [.get ((j * concurrency.toNat : Nat) : Int) v true]) = some (c'', evs ++ [(0, e)]) ∧
        ((j < shardCapacity size concurrency ∧ ∃ ns', Filled concurrency.toNat (j + 1) (evs ++ [(0, e)]) ns') ∨
          (j = shardCapacity size concurrency ∧ e = .full ((j * concurrency.toNat : Nat) : Int))) := by
    intro j ops c' evs ns hj hr f
    have hk : j * concurrency.toNat < 2 ^ 31 := Nat.lt_of_le_of_lt (Nat.mul_le_mul_right _ hj) e2
    have ht : toInt (id ((j * concurrency.toNat : Nat) : Int)) = ((j * concurrency.toNat : Nat) : Int) := by
      generalize j * concurrency.toNat = x at *
      simp only [toInt, id]
      omega
    obtain ⟨i, i1, i2, i3⟩ := C08_get_partial hf hn hr hpos ((j * concurrency.toNat : Nat) : Int) (by rw [ht]; omega)
    rw [ht, hcc, Int.natAbs_natCast, Nat.mul_mod_left] at i2
    subst i2
    obtain ⟨c'', e, h3⟩ := i3 v true
    obtain ⟨s', h4⟩ := cacheStep_get h3
    obtain ⟨o, ha⟩ := C04_shards hf hn hr i1
    exact ⟨c'', e, cacheRun_snoc hr h3, f.next (by omega) ha h4⟩
  have fill : ∀ j, j ≤ shardCapacity size concurrency → ∃ ops c' evs ns, cacheRun (K := Int) id fuel c ops = some (c', evs) ∧
      Filled (V := V) concurrency.toNat j evs ns := by
    intro j
    induction j with
    | zero =>
      intro _
      exact ⟨[], c, [], [], rfl, rfl, rfl, List.nodup_nil, by simp, by simp [Cache.eventsOf, gets],
        by simp [Cache.eventsOf, releases], by simp [Cache.eventsOf, lastLoad]⟩
    | succ j ih =>
      intro hj
      obtain ⟨ops, c', evs, ns, h3, h4⟩ := ih (by omega)
      obtain ⟨c'', e, h5, ⟨-, ns', h6⟩ | ⟨h6, -⟩⟩ := next (by omega) h3 h4
      · exact ⟨_, c'', _, ns', h5, h6⟩
      · omega
  obtain ⟨ops, c', evs, ns, h3, h4⟩ := fill _ (Nat.le_refl _)
  obtain ⟨c'', e, h5, ⟨h6, -⟩ | ⟨-, rfl⟩⟩ := next (Nat.le_refl _) h3 h4
  · exact absurd h6 (Nat.lt_irrefl _)
  · refine ⟨_, c'', evs, _, h5, Nat.lt_of_le_of_lt (length_itemsInUse evs) ?_⟩
    rw [h4.length, e1]
    have hq : concurrency.toNat ≤ size.toNat / concurrency.toNat := by
      simp only [createAccepts, decide_eq_true_eq, not_or, UInt32.lt_iff_toNat_lt, UInt32.toNat_div, UInt16.toNat_toUInt32] at ha
      omega
    have hdiv := Nat.div_add_mod size.toNat concurrency.toNat
    have := Nat.mul_le_mul_right (size.toNat / concurrency.toNat) h2
    omega

/-! ### Concrete cases -/

/-- A whole get of a key that is not in the cache, with its load, and one that is not loaded for want of a node. -/
def load (t : Nat) (k : Int) (v : Nat) : Schedule Int Nat := (t, .get k) :: steps t 3 ++ (t, .answer v true) :: steps t 4
def refused (t : Nat) (k : Int) : Schedule Int Nat := (t, .get k) :: steps t 5

/-- A cache of size 4 for two threads has two shards of two nodes; one of size 2 for one thread has one. -/
example : createAccepts 4 2 = true ∧ shardCapacity 4 2 = 2 ∧ createAccepts 2 1 = true ∧ shardCapacity 2 1 = 2 := by decide +kernel

/-- In the former two threads have the items of the keys 2 and 4, and the get of 6 fails, though the size is 4; that of 5 does not. -/
example : (tried 2 (load 0 2 20 ++ load 1 4 40 ++ refused 2 6 ++ steps 2 1 ++ load 2 5 50)).map (fun o => (o.log, itemsInUse o.log)) =
    some ([(0, .loaded 2 20 true 0), (0, .loaded 4 40 true 1), (0, .full 6), (1, .loaded 5 50 true 0)], [(0, 0), (0, 1), (1, 0)]) := by
  decide +kernel

/-- In the latter, one item that two threads have is in use, and there is room for another: the hypotheses of `C114_size_partial` and
of `C114_factor_partial` are met. Those of `C114_concurrency_partial` are met with the former and one item. -/
example : ∃ s log, Reached id 12 (shardCapacity 2 1) s log ∧ itemsInUse log = [(0, 0)] ∧
    log = [((0, .loaded 4 40 true 0) : Nat × Event Int Nat), (0, .hit 4 0)] := by
  obtain ⟨s, h, -⟩ := tried_reached (c := 1) (sched := load 0 4 40 ++ (1, .get 4) :: steps 1 7) (hits := 1) (misses := 1)
    (pcs := [.idle, .idle, .idle]) (log := [(0, .loaded 4 40 true 0), (0, .hit 4 0)]) (by decide +kernel)
  exact ⟨s, _, (show shardCapacity 2 1 = 2 by decide +kernel) ▸ h, by decide +kernel, rfl⟩

/-- The hypotheses of `C114_shard` are met: thread 2 is about to return without a node. -/
example : (tried 2 (load 0 2 20 ++ load 1 4 40 ++ refused 2 6)).map (·.pcs) = some [.idle, .idle, .leave 0 (.full 6)] := by
  decide +kernel

/-- Those of `C114_size_violated`, for the cache of size 4. -/
example : ∃ c : Cache Nat, NewCache (shardCapacity 4 2) c ∧ c.concurrency = (2 : UInt16).toNat ∧ Enough (shardCapacity 4 2) 12 := by
  obtain ⟨start, h1, -⟩ := shardInit_spec (K := Int) id 0 (shardCapacity 4 2) anyMemory
  exact ⟨⟨2, fun _ => start, 0, 0⟩, ⟨rfl, rfl, fun _ _ => ⟨0, anyMemory, h1⟩⟩, rfl,
    (show shardCapacity 4 2 = 2 by decide +kernel) ▸ (by show 2 * Nat.log2 3 + 2 ≤ 12; decide)⟩

end Verif.Cache.Threads
