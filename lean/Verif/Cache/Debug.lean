import Verif.Cache.Threads

/-! # C98: the cache with its asserts

In a build without `NDEBUG` a failing `assert` ends the process. Those of cache.c:190-191, 239 and 426 and of tree.c are
already part of the model (`none`). Here are the others: cache.c:204-206, 361 and 414, and with
`FIFTYONE_DEGREES_CACHE_VALIDATE` also 249 and those of `cacheValidate`, 42-81, which counts the nodes of the tree. -/

namespace Verif.Cache.Debug

open Verif.Tree (Heap Ptr Good Detached Frame)

variable {K V : Type}

/-! ## Model -/

/-- `cacheAddToHead` with all its asserts, cache.c:188-207. -/
def addToHead (s : Shard V) (n : Nat) : Option (Shard V) := do
  let s ← Cache.addToHead s n
  if s.first = some n ∧ s.prev n = none then
    match s.last with
    | some l => if s.next l = none then some s else none
    | none => none
  else none

/-- `x - 1` of an `int`, undefined for the smallest. -/
def oneLess (x : Int) : Option Int := if x < -2147483647 then none else some (x - 1)

/-- The counts before and after `TreeDelete`, cache.c:243-250: `uint32_t` put into an `int`. -/
def countCheck (validate : Bool) (fuel : Nat) (before after : Heap) : Option Unit :=
  if validate then do
    let b ← Tree.count fuel before
    let a ← Tree.count fuel after
    let c ← oneLess (toInt b)
    if c = toInt a then some () else none
  else some ()

/-- `cacheGetNextFree` with its asserts, cache.c:217-258. -/
def getNextFree (validate : Bool) (fuel : Nat) (s : Shard V) : Option (Shard V × Option Nat) :=
  if s.allocated < s.capacity then do
    let n := s.allocated
    let s := { s with allocated := s.allocated + 1 }
    let tree ← Tree.nodeRemove s.tree (.node n)
    pure ({ s with tree := tree }, some n)
  else
    match s.last with
    | none => pure (s, none)
    | some n =>
      if s.active n = 0 then do
        let s := removeFromList s n
        let tree ← Tree.delete fuel s.tree (.node n)
        countCheck validate fuel s.tree tree
        let tree ← Tree.nodeRemove tree (.node n)
        pure ({ s with tree := tree }, some n)
      else none

/-- `cacheLoad`, cache.c:268-291. -/
def load (validate : Bool) (fuel : Nat) (s : Shard V) (hash : Int) (v : V) (ok : Bool) : Option (Shard V × Option Nat) := do
  let (s, node) ← getNextFree validate fuel s
  match node with
  | none => pure (s, none)
  | some n =>
    let s := { s with active := set s.active n 1 }
    let s := { s with data := set s.data n v }
    if ok then
      let tree ← s.tree.setKey (.node n) hash
      let tree ← Tree.insert fuel tree (.node n)
      pure ({ s with tree := tree }, some n)
    else pure (s, some n)

/-- `fiftyoneDegreesCacheGet` on its shard with the assert at the end, cache.c:394-416. -/
def shardGet (validate : Bool) (hash : K → Int) (fuel : Nat) (s : Shard V) (k : K) (v : V) (ok : Bool) :
    Option (Shard V × Event K V) := do
  match ← Tree.find fuel s.tree (hash k) with
  | .node n =>
    let s := incrementCheckAndRemove s n
    if s.active n > 0 then pure (s, .hit k n) else none
  | .null =>
    match ← load validate fuel s (hash k) v ok with
    | (s, some n) => if s.active n > 0 then pure (s, .loaded k v ok n) else none
    | (s, none) => pure (s, .full k)
  | _ => none

/-- `fiftyoneDegreesCacheRelease`, cache.c:419-434. -/
def shardRelease (s : Shard V) (n : Nat) : Option (Shard V) :=
  if n < s.capacity ∧ s.active n ≠ 0 then
    let s := { s with active := set s.active n (s.active n - 1) }
    if s.active n = 0 then addToHead s n else some s
  else none

/-- A call. -/
def step (validate : Bool) (hash : K → Int) (fuel : Nat) (s : Shard V) : Op K V → Option (Shard V × Event K V)
  | .get k v ok => shardGet validate hash fuel s k v ok
  | .release n => (shardRelease s n).map fun s => (s, .released n)

/-- Calls one after the other. -/
def run (validate : Bool) (hash : K → Int) (fuel : Nat) : Shard V → List (Op K V) → Option (Shard V × List (Event K V))
  | s, [] => some (s, [])
  | s, op :: ops => do
    let (s, e) ← step validate hash fuel s op
    let (s, es) ← run validate hash fuel s ops
    pure (s, e :: es)

/-- The loop from the first node to the last, cache.c:49-56: `rounds` are left, `n` were made. The assert ends it when there are
too many nodes. -/
def forward (s : Shard V) : Nat → Nat → Option Nat → Option Nat
  | _, n, none => some n
  | 0, _, some _ => none
  | rounds + 1, n, some x =>
    if n ≤ s.allocated then
      if n + 1 ≤ s.allocated then forward s rounds (n + 1) (s.next x) else none
    else some n

/-- The loop from the last node to the first, cache.c:59-66, whose assert is always true. -/
def backward (s : Shard V) : Nat → Nat → Option Nat → Option Nat
  | _, n, none => some n
  | 0, _, some _ => none
  | rounds + 1, n, some x => if n ≤ s.allocated then backward s rounds (n + 1) (s.prev x) else some n

/-- `cacheValidateShard`, cache.c:42-73. The difference at the end is of `uint32_t`. -/
def validateShard (fuel : Nat) (s : Shard V) : Option Unit := do
  let _ ← forward s (s.allocated + 1) 0 s.first
  let _ ← backward s (s.allocated + 2) 0 s.last
  let entries ← Tree.count fuel s.tree
  if entries = s.allocated ∨ entries = (s.allocated + 4294967296 - 1) % 4294967296 then some () else none

/-- `cacheInit`, cache.c:130-141, of the shards in the memory there is. -/
def initShards (d0 : V) (capacity : Nat) : List (Shard V) → Option (List (Shard V))
  | [] => some []
  | s :: ss => do
    let s ← shardInit d0 capacity s
    let ss ← initShards d0 capacity ss
    some (s :: ss)

/-- `cacheValidate`, cache.c:75-81. -/
def validateAll (fuel : Nat) : List (Shard V) → Option Unit
  | [] => some ()
  | s :: ss => do
    validateShard fuel s
    validateAll fuel ss

/-- `fiftyoneDegreesCacheCreate` with its asserts, cache.c:315-367: `mem` is the memory for the shards, `none` if there is not
enough; the inner option is the pointer returned. -/
def create (validate : Bool) (fuel : Nat) (d0 : V) (capacity : UInt32) (concurrency : UInt16) (mem : Option (List (Shard V))) :
    Option (Option (List (Shard V))) :=
  if createAccepts capacity concurrency then
    match mem with
    | none => none
    | some ss => do
      let ss ← initShards d0 (shardCapacity capacity concurrency) ss
      if validate then validateAll fuel ss else some ()
      some (some ss)
  else some none

/-! ## What is wanted -/

/-- The load the event is for put the data into a node whose last load had failed. -/
def Reuses (evs : List (Event K V)) (e : Event K V) : Prop :=
  ∃ k v ok n k' v', e = .loaded k v ok n ∧ lastLoad n evs = some (k', v', false)

/-- Did the last load of the node fail? -/
def failed (evs : List (Event K V)) (n : Nat) : Bool :=
  match lastLoad n evs with
  | some (_, _, ok) => !ok
  | none => false

/-! ## Lemmas -/

theorem count_good {h : Heap} {m : List (Nat × Int)} {t : Tree.T} (g : Good h m t) {fuel : Nat}
    (hf : 2 * Nat.log2 (m.length + 1) + 1 ≤ fuel) (hm : m.length < 4294967296) : Tree.count fuel h = some m.length := by
  have hl : h.left .root = t.ptr := g.inv.zip.crep
  have hh := g.height
  have hlen : (t.postorder.map Ptr.node).length = m.length := by
    rw [List.length_map, t.postorder_perm.length_eq, g.perm.length_eq, List.length_map]
  have := Tree.iterate_spec fuel g.inv.zip.rep (by omega) g.inv.sorted
  simp only [Tree.count, Tree.iterateNodes, Tree.left?_root, hl, Option.bind_eq_bind, Option.bind_some, this, Option.pure_def]
  rw [Tree.foldl_count _ _ (Nat.two_pow_pos 32), hlen, Nat.zero_add, Nat.mod_eq_of_lt hm]

theorem filter_count (m : Members) (n : Nat) :
    m.length = (m.filter fun e => e.1 ≠ n).length + (m.map (·.1)).count n := by
  induction m with
  | nil => rfl
  | cons e m ih =>
    by_cases h : e.1 = n
    · rw [List.filter_cons_of_neg (by simpa using h), List.map_cons, List.count_cons, List.length_cons, ih, h]
      simp only [beq_self_eq_true, if_true]
      omega
    · rw [List.filter_cons_of_pos (by simpa using h), List.map_cons, List.count_cons, List.length_cons, List.length_cons,
        if_neg (by simpa using h)]
      omega

theorem toInt_small {n : Nat} (h : n < 2147483648) : toInt n = n := by
  unfold toInt; omega

theorem countCheck_of {fuel x y : Nat} {before after : Heap} (h1 : Tree.count fuel before = some x)
    (h2 : Tree.count fuel after = some y) (hx : x < 2147483648) (hy : y < 2147483648) :
    countCheck true fuel before after = some () ↔ x = y + 1 := by
  have ha : oneLess (toInt x) = some ((x : Int) - 1) := by rw [toInt_small hx, oneLess, if_neg (by omega)]
  have hb : (x : Int) - 1 = y ↔ x = y + 1 := by omega
  rw [countCheck, if_pos rfl, h1, Option.bind_eq_bind, Option.bind_some, h2, Option.bind_eq_bind, Option.bind_some, ha,
    Option.bind_some, toInt_small hy]
  by_cases h : x = y + 1
  · rw [if_pos (hb.2 h)]; exact ⟨fun _ => h, fun _ => rfl⟩
  · rw [if_neg (fun e => h (hb.1 e))]; exact ⟨fun e => (nomatch e), fun e => absurd e h⟩

theorem addToHead_eq {s : Shard V} {l : List Nat} {n : Nat} (d : DLL s l) (hn : n ∉ l)
    (ho : s.next n = none ∧ s.prev n = none) : addToHead s n = Cache.addToHead s n := by
  obtain ⟨s', a1, a2, a3, a4⟩ := d.addToHead hn ho
  have hf := a2.first
  have hl := a2.last
  have hp := (a2.links [] n l rfl).2
  obtain ⟨x, hx⟩ : ∃ x, (n :: l).getLast? = some x := by
    cases h : (n :: l).getLast? with
    | none => simp at h
    | some x => exact ⟨x, rfl⟩
  have hsplit : n :: l = (n :: l).dropLast ++ x :: [] := (List.dropLast_append_getLast? x hx).symm
  have hnx := (a2.links _ x [] hsplit).1
  rw [hx] at hl
  simp only [addToHead, a1, Option.bind_eq_bind, Option.bind_some]
  rw [if_pos ⟨by simpa using hf, by simpa using hp⟩, hl]
  simp only
  rw [if_pos (by simpa using hnx)]

theorem shardRelease_eq {hash : K → Int} {s : Shard V} {evs m t l} (i : Inv hash s evs m t l) (n : Nat) :
    shardRelease s n = Cache.shardRelease s n := by
  unfold shardRelease Cache.shardRelease
  by_cases hc : n < s.capacity ∧ s.active n ≠ 0
  · rw [if_pos hc, if_pos hc]
    simp only
    split
    · have hnl : n ∉ l := fun h => hc.2 ((i.free n).1 h).2
      exact addToHead_eq (l := l) ⟨i.dll.first, i.dll.last, i.dll.links, i.dll.nodup⟩ hnl (i.off n hc.1 hnl)
    · rfl
  · rw [if_neg hc, if_neg hc]

/-- The check of the counts, when a node is taken from the list. -/
theorem countCheck_eq {hash : K → Int} {s : Shard V} {evs m t l'} {n : Nat} (i : Inv hash s evs m t (l' ++ [n])) {fuel : Nat}
    (hf : Enough s.capacity fuel) (hc : s.capacity < 2147483648) {tree : Heap} {t' : Tree.T}
    (g : Good tree (m.filter fun e => e.1 ≠ n) t') :
    (countCheck true fuel s.tree tree = some () ↔ ∃ k v, lastLoad n evs = some (k, v, true)) := by
  have hlen := i.length
  have hall := i.allocated
  have hlog := i.log hf
  have hle : (m.filter fun e => e.1 ≠ n).length ≤ m.length := List.length_filter_le _ _
  have hm2 := log2_mono hle
  have c1 := count_good i.good (fuel := fuel) (by omega) (by omega)
  have c2 := count_good g (fuel := fuel) (by omega) (by omega)
  have hn : n < s.allocated := ((i.free n).1 (by simp)).1
  obtain ⟨k, v, ok, w1, -, w3⟩ := i.loads n hn
  have nd := i.good.nodup
  have hsplit := filter_count m n
  have hcount : (m.map (·.1)).count n = if ok then 1 else 0 := by
    cases ok with
    | true =>
      have : (n, hash k) ∈ m := (w3 _).2 ⟨rfl, rfl⟩
      rw [nd.count, if_pos (List.mem_map.2 ⟨_, this, rfl⟩)]; rfl
    | false =>
      refine List.count_eq_zero.2 fun h => ?_
      obtain ⟨⟨x, y⟩, he, rfl⟩ := List.mem_map.1 h
      have := (w3 y).1 he
      simp at this
  rw [hcount] at hsplit
  rw [countCheck_of c1 c2 (by omega) (by omega), w1, hsplit]
  cases ok with
  | true => exact ⟨fun _ => ⟨k, v, rfl⟩, fun _ => rfl⟩
  | false =>
    rw [if_neg Bool.false_ne_true]
    exact ⟨fun h => absurd h (by omega), fun ⟨k', v', h⟩ => by simp at h⟩

/-- Where the check is made, or the node is new. -/
theorem getNextFree_eq {hash : K → Int} {s : Shard V} {evs m t l} (i : Inv hash s evs m t l) {fuel : Nat}
    (hf : Enough s.capacity fuel) (hc : s.capacity < 2147483648) {s' : Shard V} {o : Option Nat}
    (h : Cache.getNextFree fuel s = some (s', o)) (validate : Bool) :
    (getNextFree validate fuel s = some (s', o) ∧
      (validate = true → ∀ n k v, o = some n → lastLoad n evs ≠ some (k, v, false))) ∨
    (getNextFree validate fuel s = none ∧ validate = true ∧
      ∃ n k v, o = some n ∧ lastLoad n evs = some (k, v, false)) := by
  unfold Cache.getNextFree at h
  unfold getNextFree
  by_cases ha : s.allocated < s.capacity
  · rw [if_pos ha] at h ⊢
    refine .inl ⟨h, fun _ n k v hn => ?_⟩
    cases hr : Tree.nodeRemove s.tree (.node s.allocated) with
    | none => simp [hr] at h
    | some tree =>
      simp [hr] at h
      rw [← h.2] at hn
      cases hn
      rw [(i.unused s.allocated (Nat.le_refl _)).2.2.1]
      simp
  · rw [if_neg ha] at h ⊢
    cases hl : s.last with
    | none =>
      rw [hl] at h
      simp at h
      refine .inl ⟨by simp [h], fun _ n k v hn => ?_⟩
      rw [← h.2] at hn; cases hn
    | some n =>
      rw [hl] at h
      simp only at h ⊢
      have hln := i.dll.last
      rw [hl] at hln
      obtain ⟨l', rfl⟩ : ∃ l', l = l' ++ [n] := ⟨_, (List.dropLast_append_getLast? n hln.symm).symm⟩
      have hfree := (i.free n).1 (by simp)
      rw [if_pos hfree.2] at h ⊢
      obtain ⟨r1, r2, r3⟩ := DLL.remove (a := l') (b := []) (n := n) i.dll
      obtain ⟨h1, t1, e1, g1, lv1⟩ := i.good.delete (i := n) (fun hm => i.detached n (by have := i.allocated; omega) hm)
        i.empty (i.log hf)
      rw [r2.tree, e1] at h
      rw [r2.tree, e1]
      simp only [Option.bind_eq_bind, Option.bind_some] at h ⊢
      have ho : o = some n := by
        cases hr : Tree.nodeRemove h1 (.node n) with
        | none => simp [hr] at h
        | some tree => simp [hr] at h; exact h.2.symm
      cases validate with
      | false => exact .inl ⟨by simpa [countCheck] using h, fun h => by cases h⟩
      | true =>
        have hcc := countCheck_eq i hf hc g1
        obtain ⟨k, v, ok, w1, -⟩ := i.loads n hfree.1
        cases ok with
        | true =>
          rw [hcc.2 ⟨k, v, w1⟩]
          refine .inl ⟨h, fun _ x k' v' hx => ?_⟩
          rw [ho] at hx
          cases hx
          rw [w1]; simp
        | false =>
          refine .inr ⟨?_, rfl, n, k, v, ho, w1⟩
          cases hn : countCheck true fuel s.tree h1 with
          | none => rfl
          | some u =>
            obtain ⟨k', v', hh⟩ := hcc.1 hn
            rw [w1] at hh; simp at hh

theorem load_eq (validate : Bool) {fuel : Nat} {s : Shard V} (key : Int) (v : V) (ok : Bool)
    (h : getNextFree validate fuel s = Cache.getNextFree fuel s) :
    load validate fuel s key v ok = Cache.load fuel s key v ok := by
  unfold load Cache.load
  rw [h]
  cases Cache.getNextFree fuel s with
  | none => rfl
  | some r => obtain ⟨s1, o⟩ := r; cases o <;> rfl

theorem load_none {validate : Bool} {fuel : Nat} {s : Shard V} (key : Int) (v : V) (ok : Bool)
    (h : getNextFree validate fuel s = none) : load validate fuel s key v ok = none := by
  unfold load
  rw [h]; rfl

theorem load_active {fuel : Nat} {s s' : Shard V} {key : Int} {v : V} {ok : Bool} {n : Nat}
    (h : Cache.load fuel s key v ok = some (s', some n)) : s'.active n = 1 ∧ ∃ s1, Cache.getNextFree fuel s = some (s1, some n) := by
  unfold Cache.load at h
  cases hg : Cache.getNextFree fuel s with
  | none => rw [hg] at h; cases h
  | some r =>
    obtain ⟨s1, o⟩ := r
    rw [hg] at h
    simp only [Option.bind_eq_bind, Option.bind_some] at h
    cases o with
    | none => cases h
    | some x =>
      simp only at h
      cases ok with
      | false =>
        cases h
        exact ⟨set_self _ _ _, s1, rfl⟩
      | true =>
        simp only [if_true] at h
        cases h1 : s1.tree.setKey (.node x) key with
        | none => rw [h1] at h; cases h
        | some tree =>
          rw [h1] at h
          simp only [Option.bind_some] at h
          cases h2 : Tree.insert fuel tree (.node x) with
          | none => rw [h2] at h; cases h
          | some tree2 =>
            rw [h2] at h
            cases h
            exact ⟨set_self _ _ _, s1, rfl⟩

theorem increment_active (s : Shard V) (n : Nat) : (incrementCheckAndRemove s n).active n = s.active n + 1 := by
  unfold incrementCheckAndRemove
  simp only
  split
  · have : ∀ s : Shard V, (removeFromList s n).active = s.active := by
      intro s
      unfold removeFromList fixPrev fixNext
      cases s.next n <;> cases s.prev n <;> simp only <;> split <;> rfl
    rw [this]; simp
  · simp

/-- What a get with asserts does. -/
theorem shardGet_eq {hash : K → Int} {s : Shard V} {evs m t l} (i : Inv hash s evs m t l) {fuel : Nat}
    (hf : Enough s.capacity fuel) (hc : s.capacity < 2147483648) (validate : Bool) {k : K} {v : V} {ok : Bool} {s' : Shard V}
    {e : Event K V} (h : Cache.shardGet hash fuel s k v ok = some (s', e)) :
    (shardGet validate hash fuel s k v ok = some (s', e) ∧ (validate = true → ¬ Reuses evs e)) ∨
    (shardGet validate hash fuel s k v ok = none ∧ validate = true ∧ Reuses evs e) := by
  rcases i.find hf (hash k) with ⟨n, hn, hfind⟩ | ⟨hm, hfind⟩
  · rw [Threads.shardGet_node hfind] at h
    cases h
    left
    refine ⟨?_, fun _ => ?_⟩
    · rw [shardGet, hfind]
      simp only [Option.bind_eq_bind, Option.bind_some]
      rw [if_pos (by rw [increment_active]; omega)]
      rfl
    · rintro ⟨k', v', ok', n', k2, v2, he, -⟩
      cases he
  · rw [Threads.shardGet_null hfind] at h
    rw [Option.map_eq_some_iff] at h
    obtain ⟨⟨s1, o⟩, hl, he⟩ := h
    have hsg : ∀ r, load validate fuel s (hash k) v ok = r → shardGet validate hash fuel s k v ok =
        r.bind fun r => match r with
          | (s, some n) => if s.active n > 0 then some (s, .loaded k v ok n) else none
          | (s, none) => some (s, .full k) := by
      intro r hr
      rw [shardGet, hfind]
      simp only [Option.bind_eq_bind, Option.bind_some, hr]
      cases r with
      | none => rfl
      | some r => obtain ⟨s2, o2⟩ := r; cases o2 <;> rfl
    cases hg : Cache.getNextFree fuel s with
    | none => rw [Cache.load, hg] at hl; cases hl
    | some q =>
      obtain ⟨s2, o2⟩ := q
      rcases getNextFree_eq i hf hc hg validate with ⟨h1, h2⟩ | ⟨h1, h2, n, k', v', h3, h4⟩
      · left
        have hle := load_eq validate (hash k) v ok (h1.trans hg.symm)
        rw [hsg _ (hle.trans hl)]
        cases o with
        | none =>
          simp only at he
          cases he
          refine ⟨rfl, fun _ => ?_⟩
          rintro ⟨k', v', ok', n', k2, v2, he, -⟩
          cases he
        | some n =>
          simp only at he
          cases he
          obtain ⟨ha, s3, hg3⟩ := load_active hl
          rw [hg] at hg3
          cases hg3
          refine ⟨?_, fun hv => ?_⟩
          · simp only [Option.bind_some]
            rw [if_pos (by omega)]
          · rintro ⟨k', v', ok', n', k2, v2, he, hlast⟩
            cases he
            exact h2 hv _ _ _ rfl hlast
      · right
        rw [hsg _ (load_none (hash k) v ok h1)]
        refine ⟨rfl, h2, ?_⟩
        subst h3
        cases o with
        | none =>
          rw [Cache.load, hg] at hl
          simp only [Option.bind_eq_bind, Option.bind_some] at hl
          cases ok with
          | false => cases hl
          | true =>
            simp only [if_true] at hl
            cases h1 : s2.tree.setKey (.node n) (hash k) with
            | none => rw [h1] at hl; cases hl
            | some tree =>
              rw [h1] at hl
              simp only [Option.bind_some] at hl
              cases h2 : Tree.insert fuel tree (.node n) with
              | none => rw [h2] at hl; cases hl
              | some tree2 => rw [h2] at hl; cases hl
        | some x =>
          simp only at he
          cases he
          obtain ⟨-, s3, hg3⟩ := load_active hl
          rw [hg] at hg3
          cases hg3
          exact ⟨k, v, ok, n, k', v', rfl, h4⟩

theorem step_eq {hash : K → Int} {s : Shard V} {evs m t l} (i : Inv hash s evs m t l) {fuel : Nat}
    (hf : Enough s.capacity fuel) (hc : s.capacity < 2147483648) (validate : Bool) {op : Op K V} {s' : Shard V}
    {e : Event K V} (h : Cache.step hash fuel s op = some (s', e)) :
    (step validate hash fuel s op = some (s', e) ∧ (validate = true → ¬ Reuses evs e)) ∨
    (step validate hash fuel s op = none ∧ validate = true ∧ Reuses evs e) := by
  cases op with
  | get k v ok => exact shardGet_eq i hf hc validate h
  | release n =>
    left
    rw [Cache.step, Option.map_eq_some_iff] at h
    obtain ⟨s1, h1, h2⟩ := h
    cases h2
    refine ⟨by rw [step, shardRelease_eq i, h1]; rfl, fun _ => ?_⟩
    rintro ⟨k', v', ok', n', k2, v2, he, -⟩
    cases he

theorem step_none {hash : K → Int} {s : Shard V} {evs m t l} (i : Inv hash s evs m t l) {fuel : Nat}
    (hf : Enough s.capacity fuel) (validate : Bool) {op : Op K V}
    (h : Cache.step hash fuel s op = none) : step validate hash fuel s op = none := by
  cases op with
  | get k v ok =>
    obtain ⟨s1, e1, m', t', l', h1, -⟩ := get_spec i hf k v ok
    rw [Cache.step, h1] at h
    cases h
  | release n =>
    rw [Cache.step, Option.map_eq_none_iff] at h
    rw [step, shardRelease_eq i, h]; rfl

/-! ## C98 -/

/-- C98: after any calls, a get with its asserts goes on and does what it does without them, except that with
`FIFTYONE_DEGREES_CACHE_VALIDATE` the process ends exactly when the node it takes is one whose last load failed. A release
goes on exactly when it is allowed. Missing: after a failed load with validation, and data races, see
`C98_failedLoad_violated` and `C98_race_violated`. -/
theorem C98_call_partial {hash : K → Int} {fuel capacity : Nat} {ops : List (Op K V)} {s : Shard V} {evs : List (Event K V)}
    (a : After hash fuel capacity ops s evs) (hc : capacity < 2147483648) (validate : Bool) (op : Op K V) (r : Shard V × Event K V) :
    step validate hash fuel s op = some r ↔
      Cache.step hash fuel s op = some r ∧ ¬ (validate = true ∧ Reuses evs r.2) := by
  obtain ⟨⟨m, t, l, i⟩, c⟩ := a.inv
  have hf : Enough s.capacity fuel := by rw [c]; exact a.enough
  cases h : Cache.step hash fuel s op with
  | none =>
    rw [step_none i hf validate h]
    exact ⟨fun e => (nomatch e), fun e => (nomatch e.1)⟩
  | some q =>
    obtain ⟨s', e⟩ := q
    rcases step_eq i hf (by rw [c]; exact hc) validate h with ⟨h1, h2⟩ | ⟨h1, h2, h3⟩
    · rw [h1]
      constructor
      · intro hr; cases hr; exact ⟨rfl, fun hh => h2 hh.1 hh.2⟩
      · exact fun hr => hr.1
    · rw [h1]
      constructor
      · intro hr; cases hr
      · rintro ⟨hr, hn⟩; cases hr; exact absurd ⟨h2, h3⟩ hn

/-- C98: without `FIFTYONE_DEGREES_CACHE_VALIDATE` no assert ever fails: any calls on a new shard do the same with the asserts as
without. With it, the same holds if no load fails. Missing: failed loads with validation, and overlapping calls, see
`C98_failedLoad_violated` and `C98_race_violated`. -/
theorem C98_run_partial (hash : K → Int) {fuel capacity : Nat} (hf : Enough capacity fuel) (hc : capacity < 2147483648)
    {d0 : V} {mem start : Shard V} (hi : shardInit d0 capacity mem = some start) (validate : Bool) (ops : List (Op K V))
    (hv : validate = true → ∀ k v ok, .get k v ok ∈ ops → ok = true) :
    run validate hash fuel start ops = Cache.run hash fuel start ops := by
  obtain ⟨s1, e1, i1, c1, -⟩ := shardInit_spec hash d0 capacity mem
  rw [hi] at e1
  cases e1
  have key : ∀ (ops : List (Op K V)) (s : Shard V) (evs : List (Event K V)) m t l, Inv hash s evs m t l →
      s.capacity = capacity →
      (validate = true → (∀ k v ok, .get k v ok ∈ ops → ok = true) ∧ ∀ k v ok n, .loaded k v ok n ∈ evs → ok = true) →
      run validate hash fuel s ops = Cache.run hash fuel s ops := by
    intro ops
    induction ops with
    | nil => intros; rfl
    | cons op ops ih =>
      intro s evs m t l i c h
      rw [run, Cache.run]
      have hf' : Enough s.capacity fuel := by rw [c]; exact hf
      cases hs : Cache.step hash fuel s op with
      | none => rw [step_none i hf' validate hs]; rfl
      | some q =>
        obtain ⟨s', e⟩ := q
        have he := step_spec i hf' hs
        have hnot : validate = true → ¬ Reuses evs e := by
          rintro hv ⟨k, v, ok, n, k', v', -, hl⟩
          have := (h hv).2 k' v' false n (lastLoad_mem hl)
          cases this
        rcases step_eq i hf' (by rw [c]; exact hc) validate hs with ⟨h1, -⟩ | ⟨-, h2, h3⟩
        · rw [h1]
          simp only [Option.bind_eq_bind, Option.bind_some]
          obtain ⟨⟨m', t', l', i'⟩, c', -, hd, hr⟩ := he
          rw [ih s' (evs ++ [e]) m' t' l' i' (c'.trans c) ?_]
          intro hv
          obtain ⟨q1, q2⟩ := h hv
          refine ⟨fun k v ok hm => q1 k v ok (List.mem_cons_of_mem _ hm), fun k v ok n hm => ?_⟩
          rcases List.mem_append.1 hm with hm | hm
          · exact q2 k v ok n hm
          · rw [List.mem_singleton] at hm
            cases op with
            | release x =>
              rw [(hr x rfl).1] at hm
              cases hm
            | get k' v' ok' =>
              rcases hd k' v' ok' rfl with ⟨n', -, rfl⟩ | ⟨-, ⟨-, -, rfl⟩ | ⟨n', rfl, -⟩⟩
              · cases hm
              · cases hm
              · cases hm; exact q1 k v ok (List.mem_cons_self ..)
        · exact absurd h3 (hnot h2)
  exact key ops start [] _ _ _ i1 c1 fun h => ⟨hv h, fun k v ok n hm => by cases hm⟩

/-! ### The whole cache -/

theorem forward_spec {s : Shard V} : ∀ (l : List Nat) (rounds n : Nat) (p : Option Nat), p = l.head? →
    (∀ a x b, l = a ++ x :: b → s.next x = b.head?) → l.length ≤ rounds → n + l.length ≤ s.allocated →
    forward s rounds n p = some (n + l.length) := by
  intro l
  induction l with
  | nil => intro rounds n p hp _ _ _; subst hp; rw [List.head?_nil, forward]; rfl
  | cons x l ih =>
    intro rounds n p hp hl hr hn
    subst hp
    rw [List.length_cons] at hr hn
    cases rounds with
    | zero => omega
    | succ rounds =>
      rw [List.head?_cons, forward, if_pos (by omega), if_pos (by omega),
        ih rounds (n + 1) _ (hl [] x l rfl) (fun a y b e => hl (x :: a) y b (by rw [e]; rfl)) (by omega) (by omega),
        List.length_cons]
      congr 1
      omega

theorem backward_spec {s : Shard V} : ∀ (l : List Nat) (rounds n : Nat) (p : Option Nat), p = l.getLast? →
    (∀ a x b, l = a ++ x :: b → s.prev x = a.getLast?) → l.length ≤ rounds → n + l.length ≤ s.allocated →
    backward s rounds n p = some (n + l.length) := by
  intro l
  induction l using List.reverseRecOn with
  | nil => intro rounds n p hp _ _ _; subst hp; rw [List.getLast?_nil, backward]; rfl
  | append_singleton l x ih =>
    intro rounds n p hp hl hr hn
    subst hp
    rw [List.length_append, List.length_singleton] at hr hn
    cases rounds with
    | zero => omega
    | succ rounds =>
      rw [List.getLast?_concat, backward, if_pos (by omega),
        ih rounds (n + 1) _ (hl l x [] rfl) (fun a y b e => hl a y (b ++ [x]) (by rw [e]; simp)) (by omega) (by omega),
        List.length_append, List.length_singleton]
      congr 1
      omega

theorem failed_true {evs : List (Event K V)} {n : Nat} {k : K} {v : V} {ok : Bool} (h : lastLoad n evs = some (k, v, ok)) :
    failed evs n = !ok := by
  rw [failed, h]

theorem Inv.tree_length {hash : K → Int} {s : Shard V} {evs m t l} (i : Inv hash s evs m t l) :
    m.length + (List.range s.capacity).countP (failed evs) = s.allocated := by
  have hp : (m.map (·.1)).Perm ((List.range s.allocated).filter fun n => !failed evs n) := by
    refine (List.perm_ext_iff_of_nodup i.good.nodup (List.nodup_range.filter _)).2 fun n => ?_
    rw [List.mem_filter, List.mem_range]
    constructor
    · intro h
      obtain ⟨⟨x, key⟩, he, rfl⟩ := List.mem_map.1 h
      have hlt := i.member _ he
      obtain ⟨k, v, ok, w1, -, w3⟩ := i.loads x hlt
      have := ((w3 key).1 he).1
      subst this
      exact ⟨hlt, by rw [failed_true w1]; rfl⟩
    · rintro ⟨hlt, hn⟩
      obtain ⟨k, v, ok, w1, -, w3⟩ := i.loads n hlt
      rw [failed_true w1, Bool.not_not] at hn
      exact List.mem_map.2 ⟨(n, hash k), (w3 _).2 ⟨hn, rfl⟩, rfl⟩
  have h1 := hp.length_eq
  rw [List.length_map, ← List.countP_eq_length_filter] at h1
  have h2 : (List.range s.capacity).countP (failed evs) = (List.range s.allocated).countP (failed evs) := by
    obtain ⟨d, hd⟩ := Nat.exists_eq_add_of_le i.allocated
    rw [hd, List.range_add, List.countP_append, List.countP_map]
    have : (List.range d).countP (failed evs ∘ fun x => s.allocated + x) = 0 := by
      refine List.countP_eq_zero.2 fun x _ => ?_
      show ¬ failed evs (s.allocated + x) = true
      rw [failed, (i.unused _ (Nat.le_add_right _ _)).2.2.1]
      exact Bool.false_ne_true
    rw [this]; rfl
  have h3 := List.length_eq_countP_add_countP (failed evs) (l := List.range s.allocated)
  rw [List.length_range] at h3
  have h4 : (List.range s.allocated).countP (fun a => decide ¬ failed evs a = true) =
      (List.range s.allocated).countP fun n => !failed evs n := by
    congr 1
    funext n
    cases failed evs n <;> rfl
  omega

theorem Inv.list_length {hash : K → Int} {s : Shard V} {evs m t l} (i : Inv hash s evs m t l) : l.length ≤ s.allocated := by
  have : l.length ≤ (List.range s.allocated).length :=
    (List.Nodup.subperm i.dll.nodup fun x hx => List.mem_range.2 ((i.free x).1 hx).1).length_le
  rwa [List.length_range] at this

/-- C98: after any calls the check of a whole shard succeeds exactly if there is at most one node whose last load failed. Missing:
shards with two or more such nodes, for which the check fails, see `C98_failedLoad_violated`. -/
theorem C98_valid_partial {hash : K → Int} {fuel capacity : Nat} {ops : List (Op K V)} {s : Shard V} {evs : List (Event K V)}
    (a : After hash fuel capacity ops s evs) (hc : capacity < 2147483648) :
    validateShard fuel s = some () ↔ (List.range capacity).countP (failed evs) ≤ 1 := by
  obtain ⟨⟨m, t, l, i⟩, c⟩ := a.inv
  have hf : Enough s.capacity fuel := by rw [c]; exact a.enough
  have hlog := i.log hf
  have hall := i.allocated
  have htree := Inv.tree_length i
  have hlist := Inv.list_length i
  rw [c] at htree
  have h1 := forward_spec l (s.allocated + 1) 0 s.first i.dll.first (fun a x b e => (i.dll.links a x b e).1) (by omega) (by omega)
  have h2 := backward_spec l (s.allocated + 2) 0 s.last i.dll.last (fun a x b e => (i.dll.links a x b e).2) (by omega) (by omega)
  have h3 := count_good i.good (fuel := fuel) (by omega) (by omega)
  rw [validateShard, h1, Option.bind_eq_bind, Option.bind_some, h2, Option.bind_some, h3,
    Option.bind_some]
  constructor
  · intro h
    split at h
    · next hh => omega
    · cases h
  · intro h
    rw [if_pos (by omega)]

theorem initShards_spec (d0 : V) (capacity : Nat) : ∀ ss : List (Shard V), ∃ ss', initShards d0 capacity ss = some ss' ∧
    ss'.length = ss.length ∧ ∀ s ∈ ss', ∃ mem, shardInit d0 capacity mem = some s := by
  intro ss
  induction ss with
  | nil => exact ⟨[], rfl, rfl, fun s hs => by cases hs⟩
  | cons s ss ih =>
    obtain ⟨ss', h1, h2, h3⟩ := ih
    obtain ⟨s', e, -⟩ := shardInit_spec (K := Int) id d0 capacity s
    refine ⟨s' :: ss', by rw [initShards, e, h1]; rfl, by rw [List.length_cons, List.length_cons, h2], fun x hx => ?_⟩
    rcases List.mem_cons.1 hx with rfl | hx
    · exact ⟨s, e⟩
    · exact h3 x hx

theorem validateAll_spec {fuel : Nat} : ∀ {ss : List (Shard V)}, (∀ s ∈ ss, validateShard fuel s = some ()) →
    validateAll fuel ss = some () := by
  intro ss
  induction ss with
  | nil => intro _; rfl
  | cons s ss ih =>
    intro h
    rw [validateAll, h s (List.mem_cons_self ..), Option.bind_eq_bind, Option.bind_some,
      ih fun x hx => h x (List.mem_cons_of_mem _ hx)]

/-- C98: a cache is created with the asserts, and checked, whenever the numbers are accepted and there is memory; numbers that are
not accepted give NULL. Missing: too little memory, see `C98_noMemory_violated`. -/
theorem C98_create_partial {fuel : Nat} (hf : 1 ≤ fuel) (validate : Bool) (d0 : V) (capacity : UInt32) (concurrency : UInt16)
    (mem : List (Shard V)) :
    (createAccepts capacity concurrency = true → ∃ ss, create validate fuel d0 capacity concurrency (some mem) = some (some ss) ∧
      ss.length = mem.length ∧ ∀ s ∈ ss, ∃ mem, shardInit d0 (shardCapacity capacity concurrency) mem = some s) ∧
    (createAccepts capacity concurrency = false → ∀ m, create validate fuel d0 capacity concurrency m = some none) := by
  constructor
  · intro ha
    obtain ⟨ss, h1, h2, h3⟩ := initShards_spec d0 (shardCapacity capacity concurrency) mem
    refine ⟨ss, ?_, h2, h3⟩
    have hv : validateAll fuel ss = some () := by
      refine validateAll_spec fun s hs => ?_
      obtain ⟨m, hm⟩ := h3 s hs
      obtain ⟨s', e, i, -, hz⟩ := shardInit_spec (K := Int) id d0 (shardCapacity capacity concurrency) m
      rw [hm] at e
      cases e
      have g1 := forward_spec [] (s.allocated + 1) 0 s.first i.dll.first (fun a x b e => (i.dll.links a x b e).1)
        (Nat.zero_le _) (by rw [hz]; exact Nat.le_refl _)
      have g2 := backward_spec [] (s.allocated + 2) 0 s.last i.dll.last (fun a x b e => (i.dll.links a x b e).2)
        (Nat.zero_le _) (by rw [hz]; exact Nat.le_refl _)
      have g3 := count_good i.good (fuel := fuel) hf (by decide)
      rw [validateShard, g1, Option.bind_eq_bind, Option.bind_some, g2, Option.bind_some, g3,
        Option.bind_some, if_pos (.inl (by rw [hz]; rfl))]
    cases validate <;> simp only [create, ha, if_true, h1, hv, Option.bind_eq_bind, Option.bind_some, Bool.false_eq_true, if_false]
  · intro ha m
    simp only [create, ha, Bool.false_eq_true, if_false]

/-- C98 does not hold as stated: when there is not enough memory the assert of cache.c:361 ends the process, where a build
without asserts returns NULL as documented. -/
theorem C98_noMemory_violated (validate : Bool) (fuel : Nat) (d0 : V) :
    createAccepts 100 4 = true ∧ create validate fuel d0 100 4 none = none := by
  have : createAccepts 100 4 = true := by decide +kernel
  exact ⟨this, by rw [create, if_pos this]⟩

/-- The outcome of calls on a new shard with asserts. -/
def demo (validate : Bool) (capacity : Nat) (ops : List (Op Int Nat)) : Option (List (Event Int Nat)) := do
  let s ← shardInit 0 capacity anyMemory
  let r ← run validate id 12 s ops
  pure r.2

/-- C98 does not hold as stated: with `FIFTYONE_DEGREES_CACHE_VALIDATE` a load that failed ends the process when its node, given
back, is used again. -/
theorem C98_failedLoad_violated :
    demo true 1 [.get 5 50 false, .release 0, .get 6 60 true] = none ∧
    demo false 1 [.get 5 50 false, .release 0, .get 6 60 true] =
      some [.loaded 5 50 false 0, .released 0, .loaded 6 60 true 0] := by decide +kernel

/-- Loads that succeed, hits, and nodes used again, with all the checks. -/
example : demo true 2
    [.get 5 50 true, .get 7 70 true, .release 0, .get 5 0 true, .release 0, .release 1, .get 9 90 true, .get 8 80 true,
      .get 5 50 true] =
    some [.loaded 5 50 true 0, .loaded 7 70 true 1, .released 0, .hit 5 0, .released 0, .released 1, .loaded 9 90 true 0,
      .loaded 8 80 true 1, .full 5] := by decide +kernel

/-- One failed load passes the check of the shard, two do not. -/
example : ((shardInit 0 3 anyMemory).bind fun s => (run true (id : Int → Int) 12 s [.get 5 50 false]).bind fun r =>
      validateShard 12 r.1) = some () ∧
    ((shardInit 0 3 anyMemory).bind fun s => (run true (id : Int → Int) 12 s [.get 5 50 false, .get 6 60 false]).bind fun r =>
      validateShard 12 r.1) = none := by decide +kernel

/-- A cache of four shards, checked. -/
example : ((create true 12 0 100 4 (some (List.replicate 4 anyMemory))).bind fun r => r.map List.length) = some 4 := by
  decide +kernel

/-! ### With threads -/

/-- The count of a node in use, whatever the thread with the lock has done so far: at most one less, and then it is giving the
node back. -/
theorem mid_active {hash : K → Int} {fuel : Nat} {a c : Shard V} {evs m t l} (i : Inv hash a evs m t l)
    (hf : Enough a.capacity fuel) {pc : Threads.Pc K V} (h : Threads.Mid hash fuel a c pc) {n : Nat} (h1 : n < a.allocated)
    (h2 : a.active n ≠ 0) : ∀ j, pc.inside = some j → a.active n ≤ c.active n + if pc.releasing j n then 1 else 0 := by
  have hstep : ∀ (op : Op K V) (e : Event K V), Cache.step hash fuel a op = some (c, e) →
      a.active n ≤ c.active n + if e.isRelease n then 1 else 0 := by
    intro op e he
    obtain ⟨⟨m', t', l', i'⟩, c', hk, -⟩ := step_spec i hf he
    have hcount := i.count n h1
    by_cases hn : n < c.allocated
    · have := i'.count n hn
      rw [gets_snoc, releases_snoc] at this
      split at this <;> split at this <;> simp_all <;> omega
    · have := i'.unused n (by omega)
      rw [gets_snoc] at this
      omega
  have hset : ∀ (x v : Nat), a.active x ≤ v → a.active n ≤ set a.active x v n := by
    intro x v hx
    by_cases hnx : n = x
    · subst hnx; rw [set_self]; exact hx
    · rw [set_ne _ _ hnx]; exact Nat.le_refl _
  have hfree : ∀ x s1, Cache.getNextFree fuel a = some (s1, some x) → s1.active = a.active ∧ n ≠ x := by
    intro x s1 hg
    rcases getNextFree_spec i hf with ⟨-, -, e⟩ | ⟨x', s', t', l', e, tk, hp⟩
    · rw [hg] at e; cases e
    · rw [hg] at e
      cases e
      refine ⟨tk.active, ?_⟩
      rintro rfl
      rcases hp with ⟨rfl, -⟩ | ⟨-, rfl⟩
      · exact Nat.lt_irrefl _ h1
      · exact h2 ((i.free n).1 (by simp)).2
  intro j hj
  cases pc with
  | find j k => cases h; exact Nat.le_add_right _ _
  | increment j k x => rw [h.1]; exact Nat.le_add_right _ _
  | check j k x =>
    rw [h.1]
    exact Nat.le_add_right_of_le (hset x _ (Nat.le_succ _))
  | hits j k x | hitsWrite j k x count =>
    have := hstep (.get k (a.data 0) true) (.hit k x) (by rw [Cache.step, Threads.shardGet_node h.2, h.1])
    exact Nat.le_trans this (Nat.add_le_add_left (by simp [Event.isRelease]) _)
  | next j k => rw [h.1]; exact Nat.le_add_right _ _
  | loading j k x =>
    obtain ⟨s1, hg, rfl, -⟩ := h
    obtain ⟨h3, h4⟩ := hfree x s1 hg
    show _ ≤ set s1.active x 1 n + _
    rw [set_ne _ _ h4, h3]; exact Nat.le_add_right _ _
  | insert j k x v =>
    obtain ⟨s1, hg, rfl, -⟩ := h
    obtain ⟨h3, h4⟩ := hfree x s1 hg
    show _ ≤ set s1.active x 1 n + _
    rw [set_ne _ _ h4, h3]; exact Nat.le_add_right _ _
  | misses j e | missesWrite j e count =>
    obtain ⟨k, v, ok, hg⟩ := h
    have h3 := hstep (.get k v ok) e hg
    have h4 : e.isRelease n = false := by
      rcases (step_spec i hf (op := .get k v ok) hg).2.2.2.1 k v ok rfl with ⟨n', -, rfl⟩ | ⟨-, ⟨-, -, rfl⟩ | ⟨n', rfl, -⟩⟩ <;> rfl
    rw [h4, if_neg Bool.false_ne_true] at h3
    exact Nat.le_add_right_of_le h3
  | decrement j x => cases h; exact Nat.le_add_right _ _
  | add j x =>
    rw [h.2]
    cases hj
    show _ ≤ set a.active x (a.active x - 1) n + _
    by_cases hnx : n = x
    · subst hnx; rw [set_self]; simp [Threads.Pc.releasing]; omega
    · rw [set_ne _ _ hnx]; exact Nat.le_add_right _ _
  | leave j e =>
    obtain ⟨op, ho⟩ := h
    have := hstep op e ho
    cases hj
    cases e <;> simp [Event.isRelease, Threads.Pc.releasing] at this ⊢ <;> exact this
  | _ => cases h

/-- C98: with any number of threads, at every moment, a node someone holds is counted as in use, so that the assert at the end of
get (cache.c:414), made after the lock was given back, does not fail whenever it is made. -/
theorem C98_threads {hash : K → Int} {fuel capacity : Nat} {s : Threads.State K V} {log : List (Nat × Event K V)}
    (h : Threads.Reached hash fuel capacity s log) {i n : Nat} (hn : s.held i n ≠ 0) : 0 < (s.shards i).active n := by
  obtain ⟨A, h⟩ := h.inv
  obtain ⟨u1, u2⟩ := h.used (i := i) (n := n) (by omega)
  obtain ⟨ops, ha⟩ := h.after i
  obtain ⟨⟨m, t, l, inv⟩, hc⟩ := ha.inv
  cases hl : s.locks i with
  | none => rw [h.free i hl]; omega
  | some u =>
    obtain ⟨pc, h1, h2, h3⟩ := h.owned i u hl
    have h4 := mid_active inv (by rw [hc]; exact ha.enough) h3 u1 u2 i h2
    have h5 := inv.count n u1
    have h6 := h.held i n
    by_cases hr : pc.releasing i n = true
    · have : 0 < s.pcs.countP (Threads.Pc.releasing i n) := by
        obtain ⟨hlt, hx⟩ := List.getElem?_eq_some_iff.1 h1
        exact List.countP_pos_iff.2 ⟨pc, hx ▸ List.getElem_mem hlt, hr⟩
      rw [if_pos hr] at h4
      omega
    · rw [if_neg hr] at h4
      omega

/-- A schedule on a new cache, with what the callers hold of the first node and its count. -/
def heldAfter (sched : Threads.Schedule Int Nat) : Option (List (Threads.Pc Int Nat) × Nat × Nat) :=
  (shardInit 0 2 anyMemory).bind fun s => (Threads.exec id 12 (Threads.newCache 1 s) sched).map fun r =>
    (r.1.pcs, r.1.held 0 0, (r.1.shards 0).active 0)

/-- C98 does not hold as stated: the assert at the end of get reads the count without the lock. Thread 0 was given the node and
makes its assert, and the next step of thread 1, which has the lock, writes the count: a data race, undefined in C. -/
theorem C98_race_violated : ∃ (sched : Threads.Schedule Int Nat),
    heldAfter sched = some ([.idle, .increment 0 4 0, .idle], 1, 1) ∧
    heldAfter (sched ++ [(1, .run)]) = some ([.idle, .check 0 4 0, .idle], 1, 2) :=
  ⟨(0, .get 4) :: Threads.steps 0 3 ++ ((0, .answer 40 true) :: Threads.steps 0 4) ++ ((1, .get 4) :: Threads.steps 1 2),
    by decide +kernel, by decide +kernel⟩

/-- The hypothesis of `C98_threads` is met there. -/
example : ∃ (s : Threads.State Int Nat) (log : List (Nat × Event Int Nat)), Threads.Reached id 12 2 s log ∧ s.held 0 0 ≠ 0 := by
  have h : heldAfter ((0, .get 4) :: Threads.steps 0 3 ++ ((0, .answer 40 true) :: Threads.steps 0 4)) =
      some ([.idle, .idle, .idle], 1, 1) := by decide +kernel
  simp only [heldAfter, Option.bind_eq_some_iff, Option.map_eq_some_iff] at h
  obtain ⟨sh, h1, ⟨s, l⟩, h2, h3⟩ := h
  refine ⟨s, l, ⟨by show 2 * Nat.log2 3 + 2 ≤ 12; decide, _, _, Threads.newCache_start h1 1, h2⟩, ?_⟩
  simp only [Prod.mk.injEq] at h3
  omega

end Verif.Cache.Debug
