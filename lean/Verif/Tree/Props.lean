import Verif.Tree.Ops

/-! # C01, C02, C03: the tree is a balanced map -/

namespace Verif.Tree

open Colour

/-! ## Specification: histories of calls and the map they build -/

/-- A call of the tree's interface by its owner: initialise a node, insert a node after setting its key, delete
a node. -/
inductive Op where
  | init (i : Nat)
  | insert (i : Nat) (key : Int)
  | delete (i : Nat)
deriving DecidableEq, Repr

/-- The member nodes with their keys after one more call. -/
def next (m : List (Nat × Int)) : Op → List (Nat × Int)
  | .init _ => m
  | .insert i key => (i, key) :: m
  | .delete i => m.filter fun e => e.1 ≠ i

/-- The member nodes with their keys after a history that starts with `m`. -/
def members (m : List (Nat × Int)) (ops : List Op) : List (Nat × Int) := ops.foldl next m

/-- A call the interface allows: only nodes which are not members are initialised or inserted, only under keys
no member has, and only members are deleted. -/
def Allowed (m : List (Nat × Int)) : Op → Prop
  | .init i => ∀ e ∈ m, e.1 ≠ i
  | .insert i key => ∀ e ∈ m, e.1 ≠ i ∧ e.2 ≠ key
  | .delete i => ∃ e ∈ m, e.1 = i

/-- All calls of a history are allowed. -/
def AllowedAll (m : List (Nat × Int)) : List Op → Prop
  | [] => True
  | op :: ops => Allowed m op ∧ AllowedAll (next m op) ops

instance (m : List (Nat × Int)) : ∀ op, Decidable (Allowed m op)
  | .init _ => by unfold Allowed; infer_instance
  | .insert _ _ => by unfold Allowed; infer_instance
  | .delete _ => by unfold Allowed; infer_instance

instance : ∀ (m : List (Nat × Int)) (ops : List Op), Decidable (AllowedAll m ops)
  | _, [] => .isTrue trivial
  | m, op :: ops =>
    have : Decidable (AllowedAll (next m op) ops) := instDecidableAllowedAll (next m op) ops
    by unfold AllowedAll; infer_instance

/-- The code run by a call. -/
def exec (fuel : Nat) (h : Heap) : Op → Option Heap
  | .init i => nodeInit h (.node i)
  | .insert i key => do insert fuel (← h.setKey (.node i) key) (.node i)
  | .delete i => delete fuel h (.node i)

/-- The code run by a history. -/
def execAll (fuel : Nat) : Heap → List Op → Option Heap
  | h, [] => some h
  | h, op :: ops => do execAll fuel (← exec fuel h op) ops

/-- The node a map finds for a key. -/
def lookup (m : List (Nat × Int)) (key : Int) : Ptr :=
  match m.find? fun e => e.2 = key with
  | some e => .node e.1
  | none => .null

/-- A path of `n` nodes going down from `p` through child pointers. -/
inductive Path (h : Heap) : Ptr → Nat → Prop
  | stop (p : Ptr) : Path h p 0
  | left {p : Ptr} {n : Nat} : p ≠ .empty → Path h (h.left p) n → Path h p (n + 1)
  | right {p : Ptr} {n : Nat} : p ≠ .empty → Path h (h.right p) n → Path h p (n + 1)

/-! ## The invariant over histories -/

/-- The heap holds a red black search tree of the members. -/
structure Good (h : Heap) (m : List (Nat × Int)) (t : T) : Prop where
  inv : Inv h t
  perm : t.ids.Perm (m.map (·.1))
  keys : ∀ e ∈ m, h.key (.node e.1) = e.2

theorem Good.nodup {h m t} (g : Good h m t) : (m.map (·.1)).Nodup := by
  have := g.inv.zip.nodup
  simp only [Ctx.pre, Ctx.post, List.nil_append, List.append_nil] at this
  exact g.perm.nodup_iff.1 this

theorem Good.mem {h m t} (g : Good h m t) (i : Nat) : i ∈ t.ids ↔ ∃ e ∈ m, e.1 = i := by
  rw [g.perm.mem_iff]; simp

theorem Good.height {h m t} (g : Good h m t) : t.height ≤ 2 * Nat.log2 (m.length + 1) := by
  have := g.inv.height
  rwa [g.perm.length_eq, List.length_map] at this

theorem Inv.frame {h h' : Heap} {t : T} (inv : Inv h t) (hs : ∀ i ∈ t.ids, Same h h' i)
    (hk : ∀ i ∈ t.ids, h'.key (.node i) = h.key (.node i)) (hl : h'.left .root = h.left .root)
    (hr : h'.colour .root = h.colour .root) (he : h'.colour .empty = h.colour .empty) : Inv h' t := by
  refine ⟨⟨?_, inv.zip.rep.frame hs, inv.zip.nodup, ?_, ?_⟩, inv.rb, inv.black, ?_⟩
  · exact inv.zip.crep.frame (by simp [Ctx.pre, Ctx.post]) hl
  · rw [hr, inv.zip.rootBlack]
  · rw [he, inv.zip.emptyBlack]
  · exact inv.sorted.imp_of_mem fun hi hj h => by rw [hk _ hi, hk _ hj]; exact h

/-- The node a call is about. -/
def Op.id : Op → Nat
  | .init i => i
  | .insert i _ => i
  | .delete i => i

/-- A call leaves alone the nodes which are neither members nor the node the call is about, the links of the empty
node, and the keys of all other nodes. -/
structure Leaves (h h' : Heap) (m : List (Nat × Int)) (i : Nat) : Prop where
  same : ∀ k, k ≠ i → (∀ e ∈ m, e.1 ≠ k) → Same h h' k
  empty : h'.left .empty = h.left .empty ∧ h'.right .empty = h.right .empty
  key : ∀ k, k ≠ i → h'.key (.node k) = h.key (.node k)

theorem exec_good {h : Heap} {m : List (Nat × Int)} {t : T} (g : Good h m t) {op : Op} (ha : Allowed m op)
    {fuel : Nat} (hf : 2 * Nat.log2 (m.length + 1) + 1 ≤ fuel) :
    ∃ h' t', exec fuel h op = some h' ∧ Good h' (next m op) t' ∧ Leaves h h' m op.id := by
  have hh := g.height
  cases op with
  | init i =>
    have hi : ∀ j ∈ t.ids, j ≠ i := by
      intro j hj; obtain ⟨e, he, rfl⟩ := (g.mem j).1 hj; exact ha e he
    refine ⟨_, t, rfl, ⟨g.inv.frame (fun j hj => ?_) (fun j hj => ?_) ?_ ?_ ?_, g.perm, fun e he => ?_⟩, ?_⟩
    · simp [Same, hi j hj]
    · simp [hi j hj]
    · simp
    · simp
    · simp
    · have : e.1 ≠ i := ha e he
      simpa [this] using g.keys e he
    · exact ⟨fun k hk _ => by simp [Same, show k ≠ i from hk], by simp, fun k hk => by simp [show k ≠ i from hk]⟩
  | insert i key =>
    have hi : ∀ j ∈ t.ids, j ≠ i := by
      intro j hj; obtain ⟨e, he, rfl⟩ := (g.mem j).1 hj; exact (ha e he).1
    have hinv : Inv (h.sk (.node i) key) t :=
      g.inv.frame (fun j hj => by simp [Same]) (fun j hj => by simp [hi j hj]) (by simp) (by simp) (by simp)
    obtain ⟨h', t', e1, i1, k1, p1⟩ := insert_spec hinv (i := i) (fun hh => hi i hh rfl) (by
      intro j hj
      obtain ⟨e, he, rfl⟩ := (g.mem j).1 hj
      have h1 := (ha e he).1
      have h2 := (ha e he).2
      simpa [h1, g.keys e he] using h2) (fuel := fuel) (by omega)
    refine ⟨h', t', by simp [exec, e1], ⟨i1, ?_, ?_⟩, ⟨fun k hk hm => ?_, by simp [k1.empty], fun k hk => ?_⟩⟩
    · simpa [next] using p1.trans (g.perm.cons i)
    · intro e he
      simp only [next, List.mem_cons] at he
      rcases he with rfl | he
      · simp [k1.key]
      · have h1 := (ha e he).1
        simpa [k1.key, h1] using g.keys e he
    · have := k1.same k (by
        simp only [List.mem_cons, not_or]
        refine ⟨hk, fun hh => ?_⟩
        obtain ⟨e, he, hek⟩ := (g.mem k).1 hh
        exact hm e he hek)
      simpa [Same] using this
    · simp [k1.key, show k ≠ i from hk]
  | delete i =>
    obtain ⟨h', t', e1, i1, k1, p1⟩ := delete_spec g.inv ((g.mem i).2 ha) (fuel := fuel) (by omega)
    refine ⟨h', t', e1, ⟨i1, ?_, ?_⟩, ⟨fun k hk hm => k1.same k fun hh => ?_, k1.empty, fun k _ => by rw [k1.key]⟩⟩
    · rw [p1]
      have hn := g.nodup
      refine (g.perm.erase i).trans ?_
      rw [hn.erase_eq_filter]
      simp only [next, List.filter_map]
      apply List.Perm.of_eq
      congr 1
      apply List.filter_congr
      intro e _
      simp only [Function.comp_apply, bne]
      by_cases h : e.1 = i <;> simp [h]
    · intro e he
      rw [k1.key]; exact g.keys e ((List.mem_filter.1 he).1)
    · obtain ⟨e, he, hek⟩ := (g.mem k).1 hh
      exact hm e he hek

theorem length_next (m : List (Nat × Int)) (op : Op) : (next m op).length ≤ m.length + 1 := by
  cases op with
  | init i => simp [next]
  | insert i key => simp [next]
  | delete i => exact Nat.le_succ_of_le (List.length_filter_le _ _)

theorem execAll_good : ∀ {ops : List Op} {h : Heap} {m : List (Nat × Int)} {t : T}, Good h m t → AllowedAll m ops →
    ∀ {fuel : Nat}, 2 * Nat.log2 (m.length + ops.length + 1) + 1 ≤ fuel →
    ∃ h' t', execAll fuel h ops = some h' ∧ Good h' (members m ops) t' := by
  intro ops
  induction ops with
  | nil => intro h m t g _ fuel _; exact ⟨h, t, rfl, g⟩
  | cons op ops ih =>
    intro h m t g ha fuel hf
    have mono : ∀ {a b : Nat}, a ≤ b → Nat.log2 (a + 1) ≤ Nat.log2 (b + 1) := by
      intro a b hab
      rw [Nat.le_log2 (by omega)]
      exact Nat.le_trans (Nat.log2_self_le (by omega)) (by omega)
    have l1 : Nat.log2 (m.length + 1) ≤ Nat.log2 (m.length + (op :: ops).length + 1) := mono (by omega)
    obtain ⟨h1, t1, e1, g1, -⟩ := exec_good g ha.1 (fuel := fuel) (by omega)
    have l2 : Nat.log2 ((next m op).length + ops.length + 1) ≤ Nat.log2 (m.length + (op :: ops).length + 1) :=
      mono (by have := length_next m op; simp only [List.length_cons]; omega)
    obtain ⟨h2, t2, e2, g2⟩ := ih g1 ha.2 (fuel := fuel) (by omega)
    exact ⟨h2, t2, by simp [execAll, e1, e2], by simpa [members] using g2⟩

theorem rootInit_good (h : Heap) : Good (rootInit h) [] .nil := by
  refine ⟨⟨⟨?_, trivial, by simp [Ctx.pre, Ctx.post, T.ids], ?_, ?_⟩, ⟨0, rfl⟩, rfl, by simp [Sorted, T.ids]⟩,
    by simp [T.ids], by simp⟩
  · simp [CRep, rootInit]
  · simp [rootInit]
  · simp [rootInit]

/-- Every allowed history runs to the end, without dereferencing NULL, with no loop taking more than
`2 * log2 (number of calls + 1) + 1` rounds, and leaves a heap holding the members. -/
theorem reach (h0 : Heap) {ops : List Op} (ha : AllowedAll [] ops) {fuel : Nat}
    (hf : 2 * Nat.log2 (ops.length + 1) + 1 ≤ fuel) :
    ∃ h t, execAll fuel (rootInit h0) ops = some h ∧ Good h (members [] ops) t :=
  execAll_good (rootInit_good h0) ha (by simpa using hf)

/-! ## The properties -/

/-- The key found is the one of the member with that key, for any position in the member list. -/
theorem lookup_eq {h m t} (g : Good h m t) {e : Nat × Int} (he : e ∈ m) : lookup m e.2 = .node e.1 := by
  have hk : ∀ e' ∈ m, e'.2 = e.2 → e' = e := by
    intro e' he' hkey
    have i1 : e'.1 ∈ t.ids := (g.mem _).2 ⟨e', he', rfl⟩
    have i2 : e.1 ∈ t.ids := (g.mem _).2 ⟨e, he, rfl⟩
    have hs := g.inv.sorted
    have hid : e'.1 = e.1 := by
      apply Classical.byContradiction
      intro hne
      have hkk : h.key (.node e'.1) = h.key (.node e.1) := by rw [g.keys e' he', g.keys e he, hkey]
      have : ∀ {l : List Nat}, l.Pairwise (fun i j => h.key (.node i) < h.key (.node j)) →
          ∀ a ∈ l, ∀ b ∈ l, a ≠ b → h.key (.node a) ≠ h.key (.node b) := by
        intro l hl
        induction hl with
        | nil => simp
        | cons hx _ ih =>
          intro a ha b hb hab
          simp only [List.mem_cons] at ha hb
          rcases ha with rfl | ha <;> rcases hb with rfl | hb
          · exact absurd rfl hab
          · have := hx b hb; omega
          · have := hx a ha; omega
          · exact ih a ha b hb hab
      exact this hs _ i1 _ i2 hne hkk
    exact Prod.ext hid hkey
  unfold lookup
  cases hfd : m.find? (fun e' => e'.2 = e.2) with
  | none =>
    have := List.find?_eq_none.1 hfd e he
    simp at this
  | some e' =>
    have h1 := List.mem_of_find?_eq_some hfd
    have h2 := List.find?_some hfd
    simp at h2
    rw [hk e' h1 h2]

/-- A lookup finds what the members say. -/
theorem Good.find {h m t} (g : Good h m t) (key : Int) {fuel : Nat} (hf : 2 * Nat.log2 (m.length + 1) + 1 ≤ fuel) :
    Tree.find fuel h key = some (lookup m key) := by
  have hl : h.left .root = t.ptr := g.inv.zip.crep
  have hh := g.height
  simp only [Tree.find, left?_root, hl, Option.bind_eq_bind, Option.bind_some]
  rcases findFrom_spec (key := key) fuel g.inv.zip.rep (by omega) g.inv.sorted with ⟨i, h1, h2, h3⟩ | ⟨h1, h2⟩
  · obtain ⟨e', he', rfl⟩ := (g.mem i).1 h1
    have hx := lookup_eq g he'
    rw [← g.keys e' he', h2] at hx
    rw [h3, hx]
  · rw [h2]
    unfold lookup
    cases hfd : m.find? (fun e' => e'.2 = key) with
    | none => rfl
    | some e' =>
      have q1 := List.mem_of_find?_eq_some hfd
      have q2 := List.find?_some hfd
      simp at q2
      exact absurd ((g.keys e' q1).trans q2) (h1 e'.1 ((g.mem _).2 ⟨e', q1, rfl⟩))

/-- After any history of calls on a tree set up by `rootInit` in any memory, a lookup of any key gives the node
inserted under that key and not deleted since, or NULL if there is none. -/
theorem C01_find (h0 : Heap) (ops : List Op) (ha : AllowedAll [] ops) (fuel : Nat)
    (hf : 2 * Nat.log2 (ops.length + 1) + 1 ≤ fuel) :
    ∃ h, execAll fuel (rootInit h0) ops = some h ∧
      ∀ key, find (2 * Nat.log2 ((members [] ops).length + 1) + 1) h key = some (lookup (members [] ops) key) := by
  obtain ⟨h, t, e, g⟩ := reach h0 ha hf
  exact ⟨h, e, fun key => g.find key (Nat.le_refl _)⟩

theorem foldl_count : ∀ (l : List Ptr) (n : Nat), n < 2 ^ 32 →
    l.foldl (fun n _ => (n + 1) % 2 ^ 32) n = (n + l.length) % 2 ^ 32
  | [], n, h => by simp [Nat.mod_eq_of_lt h]
  | _ :: l, n, h => by
    rw [List.foldl_cons, foldl_count l _ (Nat.mod_lt _ (by omega)), List.length_cons]
    omega

/-- The count is the number of members (as a `uint32_t`). -/
theorem C01_count (h0 : Heap) (ops : List Op) (ha : AllowedAll [] ops) (fuel : Nat)
    (hf : 2 * Nat.log2 (ops.length + 1) + 1 ≤ fuel) :
    ∃ h, execAll fuel (rootInit h0) ops = some h ∧
      count (2 * Nat.log2 ((members [] ops).length + 1) + 1) h = some ((members [] ops).length % 2 ^ 32) := by
  obtain ⟨h, t, e, g⟩ := reach h0 ha hf
  refine ⟨h, e, ?_⟩
  have hl : h.left .root = t.ptr := g.inv.zip.crep
  have hh := g.height
  have := iterate_spec (2 * Nat.log2 ((members [] ops).length + 1) + 1) g.inv.zip.rep (by omega) g.inv.sorted
  simp only [count, iterateNodes, left?_root, hl, Option.bind_eq_bind, Option.bind_some, this, Option.pure_def]
  rw [foldl_count _ _ (by omega), List.length_map, t.postorder_perm.length_eq, g.perm.length_eq, List.length_map]
  simp

theorem Path.le_height {h : Heap} : ∀ {t : T} {p q : Ptr} {n : Nat}, Rep h p t → q = t.ptr → Path h q n →
    n ≤ t.height := by
  intro t
  induction t with
  | nil =>
    intro p q n _ hq hp
    subst hq
    cases hp with
    | stop => omega
    | left h1 _ => exact absurd rfl h1
    | right h1 _ => exact absurd rfl h1
  | node c l i r ihl ihr =>
    intro p q n hr hq hp
    obtain ⟨a, b, d, e, f, g⟩ := hr
    subst hq
    simp only [T.height]
    cases hp with
    | stop => omega
    | left _ h2 => have := ihl f b h2; omega
    | right _ h2 => have := ihr g d h2; omega

/-- No path down from the root is longer than `2 * log2 (n + 1)`, `n` being the number of members, and a lookup
looks at no more nodes than that (its loop ends within one round more). -/
theorem C02_balanced (h0 : Heap) (ops : List Op) (ha : AllowedAll [] ops) (fuel : Nat)
    (hf : 2 * Nat.log2 (ops.length + 1) + 1 ≤ fuel) :
    ∃ h, execAll fuel (rootInit h0) ops = some h ∧
      (∀ n, Path h (h.left .root) n → n ≤ 2 * Nat.log2 ((members [] ops).length + 1)) ∧
      ∀ key, (find (2 * Nat.log2 ((members [] ops).length + 1) + 1) h key).isSome := by
  obtain ⟨h, t, e, g⟩ := reach h0 ha hf
  obtain ⟨h', e', hfind⟩ := C01_find h0 ops ha fuel hf
  have : h' = h := by rw [e] at e'; exact (Option.some.inj e').symm
  subst this
  exact ⟨h', e, fun n hn => Nat.le_trans (Path.le_height g.inv.zip.rep g.inv.zip.crep hn) g.height,
    fun key => by rw [hfind key]; rfl⟩

/-- Iterating calls back exactly once for every member and for nothing else, and none of the code's own checks
on the order of keys fails. -/
theorem C03_iterate (h0 : Heap) (ops : List Op) (ha : AllowedAll [] ops) (fuel : Nat)
    (hf : 2 * Nat.log2 (ops.length + 1) + 1 ≤ fuel) :
    ∃ h, execAll fuel (rootInit h0) ops = some h ∧
      ∃ visited, iterateNodes (2 * Nat.log2 ((members [] ops).length + 1) + 1) h = some visited ∧
        visited.Nodup ∧ ∀ p, p ∈ visited ↔ ∃ e ∈ members [] ops, p = .node e.1 := by
  obtain ⟨h, t, e, g⟩ := reach h0 ha hf
  refine ⟨h, e, t.postorder.map .node, ?_, ?_, fun p => ?_⟩
  · have hl : h.left .root = t.ptr := g.inv.zip.crep
    have hh := g.height
    have := iterate_spec (2 * Nat.log2 ((members [] ops).length + 1) + 1) g.inv.zip.rep (by omega) g.inv.sorted
    simp only [iterateNodes, left?_root, hl, Option.bind_eq_bind, Option.bind_some, this]
  · have hn := g.inv.zip.nodup
    simp only [Ctx.pre, Ctx.post, List.nil_append, List.append_nil] at hn
    have hn' := t.postorder_perm.nodup_iff.2 hn
    exact List.Pairwise.map _ (fun a b hab => by simpa using hab) hn'
  · simp only [List.mem_map]
    constructor
    · rintro ⟨i, hi, rfl⟩
      obtain ⟨e', he', rfl⟩ := (g.mem i).1 (t.postorder_perm.mem_iff.1 hi)
      exact ⟨e', he', rfl⟩
    · rintro ⟨e', he', rfl⟩
      exact ⟨e'.1, t.postorder_perm.mem_iff.2 ((g.mem _).2 ⟨e', he', rfl⟩), rfl⟩

/-! ## A concrete history

Nine inserts in growing order and three deletes, one of them of a node with two children: rotations in both
repairs happen, and the code as modelled, run by the kernel, gives what the theorems say. -/

/-- The history. -/
def demo : List Op :=
  [.init 1, .insert 1 10, .insert 2 20, .insert 3 30, .insert 4 40, .insert 5 50, .insert 6 60, .insert 7 70,
    .insert 8 80, .insert 9 (-5), .delete 4, .delete 1, .delete 8, .insert 4 15]

example : AllowedAll [] demo := by decide

/-- Memory before `rootInit`. -/
def blank : Heap := ⟨fun _ => 7, fun _ => .null, fun _ => .null, fun _ => .null, fun _ => red⟩

example : (execAll 9 (rootInit blank) demo).bind (fun h => find 9 h 15) = some (.node 4) := by decide +kernel
example : (execAll 9 (rootInit blank) demo).bind (fun h => find 9 h 40) = some .null := by decide +kernel
example : (execAll 9 (rootInit blank) demo).bind (fun h => count 9 h) = some 7 := by decide +kernel

end Verif.Tree
