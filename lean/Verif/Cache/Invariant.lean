import Verif.Cache.Lemmas
import Verif.Cache.Spec
import Mathlib.Data.List.Perm.Subperm

/-! # Every call keeps the invariant of a shard -/

namespace Verif.Cache

open Verif.Tree (Heap Ptr Good Detached Frame)

variable {K V : Type}

section events
variable (n : Nat) (evs : List (Event K V)) (e : Event K V)

theorem gets_snoc : gets n (evs ++ [e]) = gets n evs + if e.isGet n then 1 else 0 := by
  simp [gets, List.countP_append, List.countP_singleton]

theorem releases_snoc : releases n (evs ++ [e]) = releases n evs + if e.isRelease n then 1 else 0 := by
  simp [releases, List.countP_append, List.countP_singleton]

theorem lastLoad_snoc : lastLoad n (evs ++ [e]) = match e with
    | .loaded k v ok m => if m = n then some (k, v, ok) else lastLoad n evs
    | _ => lastLoad n evs := by
  cases e <;> simp [lastLoad, List.foldl_append]

theorem LaterRelease.snoc {evs : List (Event K V)} {a b : Nat} {e : Event K V} (h : LaterRelease evs a b)
    (hb : e.isRelease b = false) : LaterRelease (evs ++ [e]) a b := by
  obtain ⟨x, y, rfl, h1, h2⟩ := h
  refine ⟨x, y ++ [e], by simp, by simp [h1], ?_⟩
  simp only [List.mem_append, List.mem_singleton, not_or]
  exact ⟨h2, by rintro rfl; simp [Event.isRelease] at hb⟩

end events

/-- The members of the tree with their keys. -/
abbrev Members := List (Nat × Int)

/-- What holds of a shard after the calls `evs`: the tree holds `m` as `t`, the list holds `l`. -/
structure Inv (hash : K → Int) (s : Shard V) (evs : List (Event K V)) (m : Members) (t : Tree.T)
    (l : List Nat) : Prop where
  good : Good s.tree m t
  empty : s.tree.left .empty = .empty ∧ s.tree.right .empty = .empty
  detached : ∀ n, n < s.capacity → (∀ e ∈ m, e.1 ≠ n) → Detached s.tree n
  allocated : s.allocated ≤ s.capacity
  dll : DLL s l
  free : ∀ n, n ∈ l ↔ n < s.allocated ∧ s.active n = 0
  off : ∀ n, n < s.capacity → n ∉ l → s.next n = none ∧ s.prev n = none
  unused : ∀ n, s.allocated ≤ n → gets n evs = 0 ∧ releases n evs = 0 ∧ lastLoad n evs = none ∧
    (n < s.capacity → s.active n = 0)
  count : ∀ n, n < s.allocated → s.active n + releases n evs = gets n evs
  recent : l.Pairwise (LaterRelease evs)
  loads : ∀ n, n < s.allocated → ∃ k v ok, lastLoad n evs = some (k, v, ok) ∧ s.data n = v ∧
    ∀ key, (n, key) ∈ m ↔ ok = true ∧ key = hash k
  member : ∀ e ∈ m, e.1 < s.allocated

theorem Inv.length {hash : K → Int} {s : Shard V} {evs m t l} (i : Inv hash s evs m t l) :
    m.length ≤ s.allocated := by
  have h1 : (m.map (·.1)).length ≤ (List.range s.allocated).length := by
    apply List.Subperm.length_le
    refine List.Nodup.subperm i.good.nodup ?_
    intro x hx
    simp at hx
    obtain ⟨b, hb⟩ := hx
    simpa using i.member _ hb
  simpa using h1

theorem log2_mono {a b : Nat} (h : a ≤ b) : Nat.log2 (a + 1) ≤ Nat.log2 (b + 1) := by
  rw [Nat.le_log2 (by omega)]
  exact Nat.le_trans (Nat.log2_self_le (by omega)) (by omega)

/-- Enough rounds for the loops of the tree. -/
def Enough (capacity fuel : Nat) : Prop := 2 * Nat.log2 (capacity + 1) + 2 ≤ fuel

theorem Inv.log {hash : K → Int} {s : Shard V} {evs m t l} (i : Inv hash s evs m t l) {fuel : Nat}
    (hf : Enough s.capacity fuel) : 2 * Nat.log2 (m.length + 1) + 2 ≤ fuel := by
  have := log2_mono (Nat.le_trans i.length i.allocated)
  unfold Enough at hf
  omega

/-! ## Taking a node for a load -/

/-- What `getNextFree` hands to `load`: node `n` is out of the tree and out of the list. -/
structure Taken (s s' : Shard V) (m : Members) (n : Nat) (t' : Tree.T) (l' : List Nat) : Prop where
  good : Good s'.tree (m.filter fun e => e.1 ≠ n) t'
  empty : s'.tree.left .empty = .empty ∧ s'.tree.right .empty = .empty
  detached : ∀ x, x < s.capacity → (∀ e ∈ m, e.1 ≠ x) ∨ x = n → Detached s'.tree x
  capacity : s'.capacity = s.capacity
  allocated : s'.allocated = max s.allocated (n + 1)
  lt : n < s.capacity
  dll : DLL s' l'
  off : ∀ x, x < s.capacity → x ∉ l' → s'.next x = none ∧ s'.prev x = none
  active : s'.active = s.active
  data : s'.data = s.data
  key : ∀ x, x ≠ n → s'.tree.key (.node x) = s.tree.key (.node x)

theorem getNextFree_spec {hash : K → Int} {s : Shard V} {evs m t l} (i : Inv hash s evs m t l) {fuel : Nat}
    (hf : Enough s.capacity fuel) :
    (s.allocated = s.capacity ∧ l = [] ∧ getNextFree fuel s = some (s, none)) ∨
    ∃ n s' t' l', getNextFree fuel s = some (s', some n) ∧ Taken s s' m n t' l' ∧
      ((n = s.allocated ∧ s.allocated < s.capacity ∧ l' = l) ∨ (s.allocated = s.capacity ∧ l = l' ++ [n])) := by
  by_cases ha : s.allocated < s.capacity
  · right
    have hm : ∀ e ∈ m, e.1 ≠ s.allocated := fun e he => Nat.ne_of_lt (i.member e he)
    obtain ⟨h', h1, h2, h3, h4, h5⟩ := i.good.nodeRemove hm
    have hfil : (m.filter fun e => e.1 ≠ s.allocated) = m := by
      rw [List.filter_eq_self]; intro e he; simpa using hm e he
    refine ⟨s.allocated, { s with allocated := s.allocated + 1, tree := h' }, t, l, ?_, ⟨by rw [hfil]; exact h2, ?_,
      ?_, rfl, by simp, ha, ⟨i.dll.first, i.dll.last, i.dll.links, i.dll.nodup⟩, i.off, rfl, rfl,
      fun x _ => by rw [show ({ s with allocated := s.allocated + 1, tree := h' } : Shard V).tree = h' from rfl, h5]⟩,
      .inl ⟨rfl, ha, rfl⟩⟩
    · simp [getNextFree, ha, h1]
    · exact ⟨h3.empty.1.trans i.empty.1, h3.empty.2.trans i.empty.2⟩
    · rintro x hx hor
      by_cases hxn : x = s.allocated
      · subst hxn; exact h4
      · exact (i.detached x hx (hor.resolve_right hxn)).same (h3.same x hxn (hor.resolve_right hxn))
  · have hac : s.allocated = s.capacity := Nat.le_antisymm i.allocated (by omega)
    cases hl : s.last with
    | none =>
      left
      have : l = [] := by
        have := i.dll.last; rw [hl] at this; exact List.getLast?_eq_none_iff.1 this.symm
      refine ⟨hac, this, by simp [getNextFree, ha, hl]⟩
    | some n =>
      right
      have hln := i.dll.last
      rw [hl] at hln
      obtain ⟨l', rfl⟩ : ∃ l', l = l' ++ [n] := by
        have := List.dropLast_append_getLast? n hln.symm
        exact ⟨_, this.symm⟩
      have hfree := (i.free n).1 (by simp)
      obtain ⟨r1, r2, r3⟩ := DLL.remove (a := l') (b := []) (n := n) i.dll
      obtain ⟨h1, t1, e1, g1, lv1⟩ := i.good.delete (i := n) (fun hm => i.detached n (by omega) hm) i.empty (i.log hf)
      obtain ⟨h2, e2, g2, lv2, d2, k2⟩ := g1.nodeRemove (i := n) (by
        intro e he; simpa using (List.mem_filter.1 he).2)
      refine ⟨n, { removeFromList s n with tree := h2 }, t1, l', ?_, ⟨g2, ?_, ?_, r2.capacity, ?_, by omega, ?_, ?_,
        r2.active, r2.data, ?_⟩, .inr ⟨hac, rfl⟩⟩
      · simp [getNextFree, ha, hl, hfree.2, r2.tree, e1, e2]
      · refine ⟨?_, ?_⟩
        · exact lv2.empty.1.trans (lv1.empty.1.trans i.empty.1)
        · exact lv2.empty.2.trans (lv1.empty.2.trans i.empty.2)
      · rintro x hx hor
        by_cases hxn : x = n
        · subst hxn; exact d2
        · have hx' := hor.resolve_right hxn
          refine ((i.detached x hx hx').same (lv1.same x hxn hx')).same (lv2.same x hxn ?_)
          intro e he
          exact hx' e (List.mem_filter.1 he).1
      · show (removeFromList s n).allocated = _
        rw [r2.allocated]; omega
      · have := r1
        simp only [List.append_nil] at this
        exact ⟨this.first, this.last, this.links, this.nodup⟩
      · intro x hx hxl
        refine r3 x (by simpa using hxl) ?_
        by_cases hxn : x = n
        · exact .inl hxn
        · exact .inr (i.off x hx (by simp [hxl, hxn]))
      · intro x hxn
        show h2.key _ = _
        rw [k2, lv1.key x hxn]

/-! ## Calls -/

/-- The nodes in use keep their data and their key. -/
def Keeps (s s' : Shard V) (e : Event K V) : Prop :=
  ∀ n, n < s.allocated → s.active n ≠ 0 →
    s'.data n = s.data n ∧ s'.tree.key (.node n) = s.tree.key (.node n) ∧ e.isLoad n = false

theorem hit_spec {hash : K → Int} {s : Shard V} {evs m t l} (i : Inv hash s evs m t l) {k : K} {n : Nat} {key : Int}
    (hn : (n, key) ∈ m) :
    ∃ l', Inv hash (incrementCheckAndRemove s n) (evs ++ [.hit k n]) m t l' ∧
      (incrementCheckAndRemove s n).capacity = s.capacity ∧
      Keeps s (incrementCheckAndRemove s n) (.hit k n : Event K V) := by
  have hlt := i.member _ hn
  simp only at hlt
  have hcap := i.allocated
  have hev : ∀ x, releases x (evs ++ [Event.hit (V := V) k n]) = releases x evs ∧
      lastLoad x (evs ++ [Event.hit (V := V) k n]) = lastLoad x evs ∧
      gets x (evs ++ [Event.hit (V := V) k n]) = gets x evs + if n = x then 1 else 0 := by
    intro x; simp [releases_snoc, lastLoad_snoc, gets_snoc, Event.isGet, Event.isRelease]
  -- the state before the check
  have key : ∀ (s' : Shard V) (l' : List Nat), ListOnly { s with active := set s.active n (s.active n + 1) } s' →
      DLL s' l' → (∀ x, x ∈ l' ↔ x ∈ l ∧ x ≠ n) →
      (∀ x, x < s.capacity → x ∉ l' → s'.next x = none ∧ s'.prev x = none) → l'.Sublist l →
      Inv hash s' (evs ++ [.hit k n]) m t l' ∧ s'.capacity = s.capacity ∧ Keeps s s' (.hit k n : Event K V) := by
    intro s' l' lo dll hl hoff hsub
    have q1 : s'.tree = s.tree := lo.tree
    have q2 : s'.capacity = s.capacity := lo.capacity
    have q3 : s'.allocated = s.allocated := lo.allocated
    have q4 : s'.active = set s.active n (s.active n + 1) := lo.active
    have q5 : s'.data = s.data := lo.data
    refine ⟨⟨by rw [q1]; exact i.good, by rw [q1]; exact i.empty, by rw [q1, q2]; exact i.detached,
      by rw [q2, q3]; exact i.allocated, dll, ?_, by rw [q2]; exact hoff, ?_, ?_, ?_, ?_, by rw [q3]; exact i.member⟩,
      q2, ?_⟩
    · intro x
      rw [hl, i.free, q3, q4]
      by_cases hx : x = n
      · subst hx; simp
      · simp [set_ne _ _ hx, hx]
    · intro x hx
      rw [q3] at hx
      have hxn : n ≠ x := by omega
      obtain ⟨u1, u2, u3, u4⟩ := i.unused x hx
      obtain ⟨v1, v2, v3⟩ := hev x
      refine ⟨by simp [v3, u1, hxn], by rw [v1, u2], by rw [v2, u3], fun h => ?_⟩
      rw [q4, set_ne _ _ (Ne.symm hxn)]; exact u4 (by omega)
    · intro x hx
      rw [q3] at hx
      have := i.count x hx
      obtain ⟨v1, v2, v3⟩ := hev x
      rw [q4, v1, v3]
      by_cases hxn : x = n
      · subst hxn; simp; omega
      · simp [set_ne _ _ hxn, Ne.symm hxn]; omega
    · refine (i.recent.sublist hsub).imp fun h => h.snoc (by simp [Event.isRelease])
    · intro x hx
      rw [q3] at hx
      rw [(hev x).2.1, q5]
      exact i.loads x hx
    · intro x _ _
      rw [q5, q1]
      exact ⟨rfl, rfl, rfl⟩
  unfold incrementCheckAndRemove
  simp only [set_self]
  by_cases ha : s.active n = 0
  · rw [if_pos (by omega)]
    have hmem : n ∈ l := (i.free n).2 ⟨hlt, ha⟩
    obtain ⟨a, b, rfl⟩ := List.append_of_mem hmem
    have nd := i.dll.nodup
    have d' : DLL { s with active := set s.active n (s.active n + 1) } (a ++ n :: b) :=
      ⟨i.dll.first, i.dll.last, i.dll.links, i.dll.nodup⟩
    obtain ⟨r1, r2, r3⟩ := d'.remove
    simp only [List.nodup_append, List.nodup_cons, List.mem_cons] at nd
    refine ⟨a ++ b, key _ _ r2 r1 ?_ ?_ ?_⟩
    · intro x; simp; grind
    · intro x hx hxl
      refine r3 x hxl ?_
      by_cases hxn : x = n
      · exact .inl hxn
      · exact .inr (i.off x hx (by simp at hxl ⊢; grind))
    · simp
  · rw [if_neg (by omega)]
    have hmem : n ∉ l := fun h => ha ((i.free n).1 h).2
    refine ⟨l, key _ _ ⟨rfl, rfl, rfl, rfl, rfl⟩ ⟨i.dll.first, i.dll.last, i.dll.links, i.dll.nodup⟩ ?_ i.off
      (List.Sublist.refl _)⟩
    intro x; constructor
    · intro h; exact ⟨h, fun e => hmem (e ▸ h)⟩
    · exact fun h => h.1

/-- What a load did. -/
def Picked (s : Shard V) (l : List Nat) (n : Nat) : Prop :=
  (n = s.allocated ∧ s.allocated < s.capacity) ∨ (s.allocated = s.capacity ∧ ∃ l', l = l' ++ [n])

theorem load_spec {hash : K → Int} {s : Shard V} {evs m t l} (i : Inv hash s evs m t l) {fuel : Nat}
    (hf : Enough s.capacity fuel) (k : K) (v : V) (ok : Bool) (hk : ∀ e ∈ m, e.2 ≠ hash k) :
    (s.allocated = s.capacity ∧ l = [] ∧ load fuel s (hash k) v ok = some (s, none)) ∨
    ∃ n s' m' t' l', load fuel s (hash k) v ok = some (s', some n) ∧
      Inv hash s' (evs ++ [.loaded k v ok n]) m' t' l' ∧ s'.capacity = s.capacity ∧
      Keeps s s' (.loaded k v ok n) ∧ Picked s l n := by
  rcases getNextFree_spec i hf with ⟨h1, h2, h3⟩ | ⟨n, s1, t1, l1, e1, tk, hp⟩
  · left; exact ⟨h1, h2, by simp [load, h3]⟩
  right
  have hpick : Picked s l n := by
    rcases hp with ⟨a, b, c⟩ | ⟨a, b⟩
    · exact .inl ⟨a, b⟩
    · exact .inr ⟨a, _, b⟩
  have hact : s.active n = 0 := by
    rcases hp with ⟨a, b, c⟩ | ⟨a, b⟩
    · exact (i.unused n (by omega)).2.2.2 tk.lt
    · exact ((i.free n).1 (by rw [b]; simp)).2
  have hl1 : ∀ x, x ∈ l1 ↔ x ∈ l ∧ x ≠ n := by
    rcases hp with ⟨a, b, rfl⟩ | ⟨a, rfl⟩
    · intro x; refine ⟨fun h => ⟨h, ?_⟩, fun h => h.1⟩
      have := ((i.free x).1 h).1; omega
    · have nd := i.dll.nodup
      simp only [List.nodup_append] at nd
      intro x; simp; grind
  have hsub : l1.Sublist l := by
    rcases hp with ⟨a, b, rfl⟩ | ⟨a, rfl⟩ <;> simp
  have hev : ∀ x, releases x (evs ++ [Event.loaded k v ok n]) = releases x evs ∧
      lastLoad x (evs ++ [Event.loaded k v ok n]) = (if n = x then some (k, v, ok) else lastLoad x evs) ∧
      gets x (evs ++ [Event.loaded k v ok n]) = gets x evs + if n = x then 1 else 0 := by
    intro x; simp [releases_snoc, lastLoad_snoc, gets_snoc, Event.isGet, Event.isRelease]
  have hcnt : releases n evs = gets n evs := by
    by_cases hx : n < s.allocated
    · have := i.count n hx; omega
    · have := i.unused n (by omega); omega
  have halloc : ∀ x, x < s1.allocated ↔ x < s.allocated ∨ x = n := by
    intro x; rw [tk.allocated]
    rcases hp with ⟨a, b, c⟩ | ⟨a, b⟩ <;> [skip; have := ((i.free n).1 (by rw [b]; simp)).1] <;> omega
  have hle : s1.allocated ≤ s.capacity := by
    have := i.allocated; have := tk.lt; rw [tk.allocated]; omega
  -- everything but the tree
  have key : ∀ (h' : Heap) (m' : Members) (t' : Tree.T), Good h' m' t' →
      (h'.left .empty = .empty ∧ h'.right .empty = .empty) →
      (∀ x, x < s.capacity → (∀ e ∈ m', e.1 ≠ x) → Detached h' x) →
      (∀ x, x ≠ n → h'.key (.node x) = s.tree.key (.node x)) →
      (∀ x key, x ≠ n → ((x, key) ∈ m' ↔ (x, key) ∈ m)) → (∀ key, (n, key) ∈ m' ↔ ok = true ∧ key = hash k) →
      Inv hash { s1 with active := set s1.active n 1, data := set s1.data n v, tree := h' }
        (evs ++ [.loaded k v ok n]) m' t' l1 ∧
      Keeps s ({ s1 with active := set s1.active n 1, data := set s1.data n v, tree := h' } : Shard V)
        (.loaded k v ok n) := by
    intro h' m' t' g he hd hkey hm hmn
    have hmem : ∀ e ∈ m', e.1 < s1.allocated := by
      rintro ⟨x, y⟩ hxy
      rw [halloc]
      by_cases hx : x = n
      · exact .inr hx
      · exact .inl (i.member _ ((hm x y hx).1 hxy))
    refine ⟨⟨g, he, by rw [← tk.capacity] at hd; exact hd, by rw [← tk.capacity] at hle; exact hle,
      ⟨tk.dll.first, tk.dll.last, tk.dll.links, tk.dll.nodup⟩, ?_, by have := tk.off; rw [← tk.capacity] at this; exact this, ?_, ?_, ?_,
      ?_, hmem⟩, ?_⟩
    · intro x
      show x ∈ l1 ↔ x < s1.allocated ∧ set s1.active n 1 x = 0
      rw [hl1, halloc, i.free, tk.active]
      by_cases hx : x = n
      · subst hx; simp
      · simp [set_ne _ _ hx, hx]
    · intro x hx
      replace hx : s1.allocated ≤ x := hx
      have hx2 : ¬ x < s1.allocated := by omega
      rw [halloc] at hx2
      have hxn : n ≠ x := by omega
      obtain ⟨u1, u2, u3, u4⟩ := i.unused x (by omega)
      obtain ⟨v1, v2, v3⟩ := hev x
      refine ⟨by simp [v3, u1, hxn], by rw [v1, u2], by rw [v2, if_neg hxn, u3], fun h => ?_⟩
      show set s1.active n 1 x = 0
      rw [set_ne _ _ (Ne.symm hxn), tk.active]
      exact u4 (by rw [← tk.capacity]; exact h)
    · intro x hx
      replace hx : x < s1.allocated := hx
      obtain ⟨v1, v2, v3⟩ := hev x
      show set s1.active n 1 x + _ = _
      rw [v1, v3]
      by_cases hxn : x = n
      · subst hxn; simp; omega
      · rw [halloc] at hx
        have := i.count x (hx.resolve_right hxn)
        simp [set_ne _ _ hxn, Ne.symm hxn, tk.active, this]
    · exact (i.recent.sublist hsub).imp fun h => h.snoc (by simp [Event.isRelease])
    · intro x hx
      replace hx : x < s1.allocated := hx
      rw [(hev x).2.1]
      show ∃ k' v' ok', _ ∧ set s1.data n v x = v' ∧ _
      by_cases hxn : x = n
      · subst hxn
        exact ⟨k, v, ok, by simp, by simp, hmn⟩
      · rw [halloc] at hx
        obtain ⟨k', v', ok', w1, w2, w3⟩ := i.loads x (hx.resolve_right hxn)
        refine ⟨k', v', ok', by rw [if_neg (Ne.symm hxn), w1], by rw [set_ne _ _ hxn, tk.data, w2], fun key => ?_⟩
        rw [hm x key hxn, w3]
    · intro x _ hxa
      have hxn : x ≠ n := by rintro rfl; exact hxa hact
      refine ⟨?_, hkey x hxn, by simp [Event.isLoad, Ne.symm hxn]⟩
      show set s1.data n v x = _
      rw [set_ne _ _ hxn, tk.data]
  cases ok with
  | false =>
    obtain ⟨k1, k2⟩ := key s1.tree (m.filter fun e => e.1 ≠ n) t1 tk.good tk.empty (by
        intro x hx hm
        refine tk.detached x hx ?_
        by_cases hxn : x = n
        · exact .inr hxn
        · left; intro e he hex
          exact hm e (List.mem_filter.2 ⟨he, by simpa [hex] using hxn⟩) hex) tk.key (by
        intro x key hx; simp [List.mem_filter, hx]) (by simp [List.mem_filter])
    exact ⟨n, _, _, t1, l1, by simp [load, e1], k1, tk.capacity, k2, hpick⟩
  | true =>
    have hlen : ((m.filter fun e => e.1 ≠ n).length) ≤ m.length := List.length_filter_le _ _
    have hlog := i.log hf
    have hm2 := log2_mono hlen
    obtain ⟨h2, t2, e2, g2, lv⟩ := tk.good.insert (i := n) (key := hash k) (by
      intro e he
      have := List.mem_filter.1 he
      exact ⟨by simpa using this.2, hk e this.1⟩) (fuel := fuel) (by omega)
    obtain ⟨k1, k2⟩ := key h2 _ t2 g2 ⟨lv.empty.1.trans tk.empty.1, lv.empty.2.trans tk.empty.2⟩ (by
        intro x hx hm
        have hxn : x ≠ n := by rintro rfl; exact hm (x, hash k) (by simp) rfl
        have hxm : ∀ e ∈ m, e.1 ≠ x := by
          intro e he hex
          exact hm e (List.mem_cons_of_mem _ (List.mem_filter.2 ⟨he, by simpa [hex] using hxn⟩)) hex
        exact (tk.detached x hx (.inl hxm)).same (lv.same x hxn fun e he => hxm e (List.mem_filter.1 he).1))
      (fun x hx => by rw [lv.key x hx, tk.key x hx]) (by
        intro x key hx; simp [List.mem_filter, hx]) (by simp [List.mem_filter])
    exact ⟨n, _, _, t2, l1, by simp [load, e1, e2], k1, tk.capacity, k2, hpick⟩

/-- What a get did: a hit of the node with the key, or a load into a node picked, or nothing when there is none. -/
def Did (hash : K → Int) (s : Shard V) (m : Members) (l : List Nat) (k : K) (v : V) (ok : Bool)
    (e : Event K V) : Prop :=
  (∃ n, (n, hash k) ∈ m ∧ e = .hit k n) ∨
  ((∀ x ∈ m, x.2 ≠ hash k) ∧
    ((s.allocated = s.capacity ∧ l = [] ∧ e = .full k) ∨ ∃ n, e = .loaded k v ok n ∧ Picked s l n))

theorem Inv.find {hash : K → Int} {s : Shard V} {evs m t l} (i : Inv hash s evs m t l) {fuel : Nat}
    (hf : Enough s.capacity fuel) (key : Int) :
    (∃ n, (n, key) ∈ m ∧ Tree.find fuel s.tree key = some (.node n)) ∨
      ((∀ e ∈ m, e.2 ≠ key) ∧ Tree.find fuel s.tree key = some .null) := by
  have hlog := i.log hf
  rw [i.good.find key (fuel := fuel) (by omega)]
  by_cases hm : ∃ e ∈ m, e.2 = key
  · obtain ⟨e, he, rfl⟩ := hm
    exact .inl ⟨e.1, he, by rw [Tree.lookup_eq i.good he]⟩
  · have hm' : ∀ e ∈ m, e.2 ≠ key := fun e he hh => hm ⟨e, he, hh⟩
    refine .inr ⟨hm', ?_⟩
    have : m.find? (fun e => e.2 = key) = none := List.find?_eq_none.2 fun e he => by simpa using hm' e he
    simp [Tree.lookup, this]

theorem Inv.full {hash : K → Int} {s : Shard V} {evs m t l} (i : Inv hash s evs m t l) (k : K) :
    Inv hash s (evs ++ [.full k]) m t l := by
  have hev : ∀ x, releases x (evs ++ [Event.full (V := V) k]) = releases x evs ∧
      lastLoad x (evs ++ [Event.full (V := V) k]) = lastLoad x evs ∧
      gets x (evs ++ [Event.full (V := V) k]) = gets x evs := by
    intro x; simp [releases_snoc, lastLoad_snoc, gets_snoc, Event.isGet, Event.isRelease]
  refine ⟨i.good, i.empty, i.detached, i.allocated, i.dll, i.free, i.off, fun x => ?_, fun x => ?_, ?_, fun x => ?_,
    i.member⟩
  · rw [(hev x).1, (hev x).2.1, (hev x).2.2]; exact i.unused x
  · rw [(hev x).1, (hev x).2.2]; exact i.count x
  · exact i.recent.imp fun h => h.snoc (by simp [Event.isRelease])
  · rw [(hev x).2.1]; exact i.loads x

theorem get_spec {hash : K → Int} {s : Shard V} {evs m t l} (i : Inv hash s evs m t l) {fuel : Nat}
    (hf : Enough s.capacity fuel) (k : K) (v : V) (ok : Bool) :
    ∃ s' e m' t' l', shardGet hash fuel s k v ok = some (s', e) ∧ Inv hash s' (evs ++ [e]) m' t' l' ∧
      s'.capacity = s.capacity ∧ Keeps s s' e ∧ Did hash s m l k v ok e := by
  rcases i.find hf (hash k) with ⟨n, hn, hfind⟩ | ⟨hm, hfind⟩
  · obtain ⟨l', h1, h2, h3⟩ := hit_spec i (k := k) hn
    exact ⟨_, _, m, t, l', by simp [shardGet, hfind], h1, h2, h3, .inl ⟨n, hn, rfl⟩⟩
  · rcases load_spec i hf k v ok hm with ⟨h1, h2, h3⟩ | ⟨n, s', m', t', l', h1, h2, h3, h4, h5⟩
    · refine ⟨s, .full k, m, t, l, by simp [shardGet, hfind, h3], i.full k, rfl, fun x _ _ => ⟨rfl, rfl, rfl⟩,
        .inr ⟨hm, .inl ⟨h1, h2, rfl⟩⟩⟩
    · exact ⟨s', _, m', t', l', by simp [shardGet, hfind, h1], h2, h3, h4, .inr ⟨hm, .inr ⟨n, rfl, h5⟩⟩⟩

theorem release_spec {hash : K → Int} {s : Shard V} {evs m t l} (i : Inv hash s evs m t l) (n : Nat) :
    (¬ (n < s.allocated ∧ s.active n ≠ 0) ∧ shardRelease s n = none) ∨
    ∃ s' l', (n < s.allocated ∧ s.active n ≠ 0) ∧ shardRelease s n = some s' ∧
      Inv hash s' (evs ++ [.released n]) m t l' ∧ s'.capacity = s.capacity ∧ Keeps s s' (.released n : Event K V) := by
  have hcap := i.allocated
  by_cases hc : n < s.allocated ∧ s.active n ≠ 0
  · right
    obtain ⟨hlt, hne⟩ := hc
    have hnl : n ∉ l := fun h => hne ((i.free n).1 h).2
    have hoff := i.off n (by omega) hnl
    have hev : ∀ x, releases x (evs ++ [Event.released (K := K) (V := V) n]) = releases x evs + (if n = x then 1 else 0) ∧
        lastLoad x (evs ++ [Event.released n]) = lastLoad x evs ∧
        gets x (evs ++ [Event.released n]) = gets x evs := by
      intro x; simp [releases_snoc, lastLoad_snoc, gets_snoc, Event.isGet, Event.isRelease]
    have key : ∀ (s' : Shard V) (l' : List Nat), ListOnly { s with active := set s.active n (s.active n - 1) } s' →
        DLL s' l' → (∀ x, x ∈ l' ↔ x ∈ l ∨ (x = n ∧ s.active n = 1)) →
        (∀ x, x < s.capacity → x ∉ l' → s'.next x = none ∧ s'.prev x = none) →
        l'.Pairwise (LaterRelease (evs ++ [.released n])) →
        Inv hash s' (evs ++ [.released n]) m t l' ∧ s'.capacity = s.capacity ∧
          Keeps s s' (.released n : Event K V) := by
      intro s' l' lo dll hl hoff hrec
      have q1 : s'.tree = s.tree := lo.tree
      have q2 : s'.capacity = s.capacity := lo.capacity
      have q3 : s'.allocated = s.allocated := lo.allocated
      have q4 : s'.active = set s.active n (s.active n - 1) := lo.active
      have q5 : s'.data = s.data := lo.data
      refine ⟨⟨by rw [q1]; exact i.good, by rw [q1]; exact i.empty, by rw [q1, q2]; exact i.detached,
        by rw [q2, q3]; exact i.allocated, dll, ?_, by rw [q2]; exact hoff, ?_, ?_, hrec, ?_,
        by rw [q3]; exact i.member⟩, q2, ?_⟩
      · intro x
        rw [hl, i.free, q3, q4]
        by_cases hx : x = n
        · subst hx; simp; omega
        · simp [set_ne _ _ hx, hx]
      · intro x hx
        rw [q3] at hx
        have hxn : n ≠ x := by omega
        obtain ⟨u1, u2, u3, u4⟩ := i.unused x hx
        obtain ⟨v1, v2, v3⟩ := hev x
        refine ⟨by rw [v3, u1], by simp [v1, u2, hxn], by rw [v2, u3], fun h => ?_⟩
        rw [q4, set_ne _ _ (Ne.symm hxn)]; exact u4 (by omega)
      · intro x hx
        rw [q3] at hx
        have := i.count x hx
        obtain ⟨v1, v2, v3⟩ := hev x
        rw [q4, v1, v3]
        by_cases hxn : x = n
        · subst hxn; simp; omega
        · simp [set_ne _ _ hxn, Ne.symm hxn]; omega
      · intro x hx
        rw [q3] at hx
        rw [(hev x).2.1, q5]
        exact i.loads x hx
      · intro x _ _
        rw [q5, q1]
        exact ⟨rfl, rfl, rfl⟩
    have hrec : l.Pairwise (LaterRelease (evs ++ [.released n])) := by
      refine i.recent.imp_of_mem fun {a b} _ hb h => h.snoc ?_
      have : n ≠ b := fun e => hnl (e ▸ hb)
      simp [Event.isRelease, this]
    by_cases h1 : s.active n = 1
    · obtain ⟨s', a1, a2, a3, a4⟩ := DLL.addToHead
        (s := { s with active := set s.active n (s.active n - 1) }) (l := l) (n := n)
        ⟨i.dll.first, i.dll.last, i.dll.links, i.dll.nodup⟩ hnl hoff
      refine ⟨s', n :: l, ⟨hlt, hne⟩, ?_, key s' (n :: l) a3 a2 ?_ ?_ ?_⟩
      · rw [shardRelease, if_pos ⟨by omega, hne⟩]
        simp only [set_self]
        rw [if_pos (by omega)]; exact a1
      · intro x; simp [h1]; grind
      · intro x hx hxl
        obtain ⟨b1, b2⟩ := a4 x hxl
        rw [b1, b2]
        exact i.off x hx (by simp at hxl; exact hxl.2)
      · rw [List.pairwise_cons]
        refine ⟨fun b hb => ⟨evs, [.released n], rfl, by simp, ?_⟩, hrec⟩
        have : b ≠ n := fun e => hnl (e ▸ hb)
        simp [this]
    · refine ⟨_, l, ⟨hlt, hne⟩, ?_, key { s with active := set s.active n (s.active n - 1) } l
        ⟨rfl, rfl, rfl, rfl, rfl⟩ ⟨i.dll.first, i.dll.last, i.dll.links, i.dll.nodup⟩ ?_ i.off hrec⟩
      · rw [shardRelease, if_pos ⟨by omega, hne⟩]
        simp only [set_self]
        rw [if_neg (by omega)]
      · intro x; simp [h1]
  · left
    refine ⟨hc, ?_⟩
    rw [shardRelease, if_neg]
    rintro ⟨h1, h2⟩
    by_cases hlt : n < s.allocated
    · exact hc ⟨hlt, h2⟩
    · exact h2 ((i.unused n (by omega)).2.2.2 h1)

/-! ## The new shard -/

theorem initNodes_spec (d0 : V) : ∀ (n : Nat) (s : Shard V), Good s.tree [] .nil →
    (s.tree.left .empty = .empty ∧ s.tree.right .empty = .empty) →
    ∃ s', initNodes d0 n s = some s' ∧ Good s'.tree [] .nil ∧
      (s'.tree.left .empty = .empty ∧ s'.tree.right .empty = .empty) ∧
      (∀ x, x < n → Detached s'.tree x ∧ s'.next x = none ∧ s'.prev x = none ∧ s'.active x = 0) ∧
      s'.capacity = s.capacity ∧ s'.allocated = s.allocated ∧ s'.first = s.first ∧ s'.last = s.last := by
  intro n
  induction n with
  | zero => intro s g he; exact ⟨s, rfl, g, he, by omega, rfl, rfl, rfl, rfl⟩
  | succ n ih =>
    intro s g he
    obtain ⟨s1, e1, g1, he1, h1, c1, c2, c3, c4⟩ := ih s g he
    have gk : Good (s1.tree.sk (.node n) 0) [] .nil :=
      ⟨g1.inv.frame (by simp [Tree.T.ids]) (by simp [Tree.T.ids]) (by simp) (by simp) (by simp), g1.perm, by simp⟩
    obtain ⟨h2, e2, g2, lv, d2, k2⟩ := gk.nodeRemove (i := n) (by simp)
    refine ⟨{ s1 with
      tree := h2, data := set s1.data n d0, next := set s1.next n none, prev := set s1.prev n none,
      active := set s1.active n 0 }, by simp [initNodes, e1, Tree.nodeInit, e2], g2, ?_, ?_, c1, c2, c3, c4⟩
    · exact ⟨lv.empty.1.trans he1.1, lv.empty.2.trans he1.2⟩
    · intro x hx
      by_cases hxn : x = n
      · subst hxn; simp [d2]
      · obtain ⟨q1, q2, q3, q4⟩ := h1 x (by omega)
        refine ⟨?_, ?_⟩
        · have : Detached (s1.tree.sk (.node n) 0) x := q1.same (by simp [Tree.Same])
          exact this.same (lv.same x hxn (by simp))
        · simp [set_ne _ _ hxn, q2, q3, q4]

theorem shardInit_spec (hash : K → Int) (d0 : V) (capacity : Nat) (s : Shard V) :
    ∃ s', shardInit d0 capacity s = some s' ∧ Inv hash s' [] [] .nil [] ∧ s'.capacity = capacity ∧
      s'.allocated = 0 := by
  obtain ⟨s', e1, g1, he1, h1, c1, c2, c3, c4⟩ := initNodes_spec d0 capacity
    { s with capacity := capacity, allocated := 0, tree := Tree.rootInit s.tree, first := none, last := none }
    (Tree.rootInit_good _) (by simp [Tree.rootInit])
  simp only at c1 c2 c3 c4
  refine ⟨s', e1, ⟨g1, he1, ?_, by omega, ⟨by simp [c3], by simp [c4], by simp, by simp⟩, by simp [c2], ?_, ?_, ?_,
    by simp, ?_, by simp⟩, c1, c2⟩
  · intro x hx _; exact (h1 x (by omega)).1
  · intro x hx _; have := h1 x (by omega); exact ⟨this.2.1, this.2.2.1⟩
  · intro x _; exact ⟨rfl, rfl, rfl, fun hx => (h1 x (by omega)).2.2.2⟩
  · intro x hx; omega
  · intro x hx; omega

end Verif.Cache
