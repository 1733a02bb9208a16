import Verif.Tree.Model

/-! # Trees represented by a heap, and what the pointer operations do to them -/

namespace Verif.Tree

open Colour

/-- A binary tree of caller nodes with colours. -/
inductive T where
  | nil
  | node (c : Colour) (l : T) (i : Nat) (r : T)

/-- The position of a subtree in a tree: the path to it, innermost step first. -/
inductive Ctx where
  | top
  | L (c : Colour) (i : Nat) (r : T) (up : Ctx)
  | R (c : Colour) (l : T) (i : Nat) (up : Ctx)

/-- The nodes of a tree from left to right. -/
def T.ids : T → List Nat
  | .nil => []
  | .node _ l i r => l.ids ++ i :: r.ids

/-- The pointer to the root of a tree. -/
def T.ptr : T → Ptr
  | .nil => .empty
  | .node _ _ i _ => .node i

/-- The colour of the root of a tree. -/
def T.col : T → Colour
  | .nil => black
  | .node c _ _ _ => c

/-- The pointer to the node above a position. -/
def Ctx.ptr : Ctx → Ptr
  | .top => .root
  | .L _ i _ _ => .node i
  | .R _ _ i _ => .node i

/-- The colour of the node above a position. -/
def Ctx.col : Ctx → Colour
  | .top => black
  | .L c _ _ _ => c
  | .R c _ _ _ => c

/-- The nodes left of a position. -/
def Ctx.pre : Ctx → List Nat
  | .top => []
  | .L _ _ _ up => up.pre
  | .R _ l i up => up.pre ++ l.ids ++ [i]

/-- The nodes right of a position. -/
def Ctx.post : Ctx → List Nat
  | .top => []
  | .L _ i r up => i :: r.ids ++ up.post
  | .R _ _ _ up => up.post

/-- The whole tree with `t` at a position. -/
def Ctx.plug : Ctx → T → T
  | .top, t => t
  | .L c i r up, t => up.plug (.node c t i r)
  | .R c l i up, t => up.plug (.node c l i t)

/-- The number of steps to the top. -/
def Ctx.depth : Ctx → Nat
  | .top => 0
  | .L _ _ _ up => up.depth + 1
  | .R _ _ _ up => up.depth + 1

theorem Ctx.ids_plug (ctx : Ctx) : ∀ t, (ctx.plug t).ids = ctx.pre ++ t.ids ++ ctx.post := by
  induction ctx with
  | top => intro t; simp [plug, pre, post]
  | L c i r up ih => intro t; simp [plug, ih, pre, post, T.ids]
  | R c l i up ih => intro t; simp [plug, ih, pre, post, T.ids]

/-- The heap holds tree `t` below `par`. -/
def Rep (h : Heap) : Ptr → T → Prop
  | _, .nil => True
  | par, .node c l i r =>
    h.parent (.node i) = par ∧ h.left (.node i) = l.ptr ∧ h.right (.node i) = r.ptr ∧
      h.colour (.node i) = c ∧ Rep h (.node i) l ∧ Rep h (.node i) r

/-- The heap holds the surroundings of a position with `q` as the pointer to what is at the position. -/
def CRep (h : Heap) : Ctx → Ptr → Prop
  | .top, q => h.left .root = q
  | .L c i r up, q =>
    h.parent (.node i) = up.ptr ∧ h.left (.node i) = q ∧ h.right (.node i) = r.ptr ∧
      h.colour (.node i) = c ∧ Rep h (.node i) r ∧ CRep h up (.node i)
  | .R c l i up, q =>
    h.parent (.node i) = up.ptr ∧ h.left (.node i) = l.ptr ∧ h.right (.node i) = q ∧
      h.colour (.node i) = c ∧ Rep h (.node i) l ∧ CRep h up (.node i)

/-- The heap holds the tree `ctx.plug t`, seen from the position `ctx`. -/
structure Zip (h : Heap) (ctx : Ctx) (t : T) : Prop where
  crep : CRep h ctx t.ptr
  rep : Rep h ctx.ptr t
  nodup : (ctx.pre ++ t.ids ++ ctx.post).Nodup
  rootBlack : h.colour .root = black
  emptyBlack : h.colour .empty = black

/-! ## Reading and writing fields -/

section simp_lemmas
variable (h : Heap) (p v x : Ptr) (i : Nat) (c : Colour) (k : Int)

@[simp] theorem key?_node : h.key? (.node i) = some (h.key (.node i)) := rfl
@[simp] theorem parent?_node : h.parent? (.node i) = some (h.parent (.node i)) := rfl
@[simp] theorem left?_node : h.left? (.node i) = some (h.left (.node i)) := rfl
@[simp] theorem right?_node : h.right? (.node i) = some (h.right (.node i)) := rfl
@[simp] theorem colour?_node : h.colour? (.node i) = some (h.colour (.node i)) := rfl
@[simp] theorem key?_root : h.key? .root = some (h.key .root) := rfl
@[simp] theorem left?_root : h.left? .root = some (h.left .root) := rfl
@[simp] theorem right?_root : h.right? .root = some (h.right .root) := rfl
@[simp] theorem colour?_root : h.colour? .root = some (h.colour .root) := rfl
@[simp] theorem parent?_empty : h.parent? .empty = some (h.parent .empty) := rfl
@[simp] theorem colour?_empty : h.colour? .empty = some (h.colour .empty) := rfl

@[simp] theorem left?_cptr (ctx : Ctx) : h.left? ctx.ptr = some (h.left ctx.ptr) := by cases ctx <;> rfl
@[simp] theorem right?_cptr (ctx : Ctx) : h.right? ctx.ptr = some (h.right ctx.ptr) := by cases ctx <;> rfl
@[simp] theorem colour?_cptr (ctx : Ctx) : h.colour? ctx.ptr = some (h.colour ctx.ptr) := by cases ctx <;> rfl
@[simp] theorem key?_cptr (ctx : Ctx) : h.key? ctx.ptr = some (h.key ctx.ptr) := by cases ctx <;> rfl
@[simp] theorem colour?_tptr (t : T) : h.colour? t.ptr = some (h.colour t.ptr) := by cases t <;> rfl
@[simp] theorem parent?_tptr (t : T) : h.parent? t.ptr = some (h.parent t.ptr) := by cases t <;> rfl
@[simp] theorem setParent_tptr (t : T) : h.setParent t.ptr v = some (h.sp t.ptr v) := by cases t <;> rfl
@[simp] theorem setColour_tptr (t : T) : h.setColour t.ptr c = some (h.sc t.ptr c) := by cases t <;> rfl
@[simp] theorem setLeft_cptr (ctx : Ctx) : h.setLeft ctx.ptr v = some (h.sl ctx.ptr v) := by
  cases ctx <;> rfl
@[simp] theorem setRight_cptr (ctx : Ctx) : h.setRight ctx.ptr v = some (h.sr ctx.ptr v) := by
  cases ctx <;> rfl

@[simp] theorem setParent_node : h.setParent (.node i) v = some (h.sp (.node i) v) := rfl
@[simp] theorem setLeft_node : h.setLeft (.node i) v = some (h.sl (.node i) v) := rfl
@[simp] theorem setRight_node : h.setRight (.node i) v = some (h.sr (.node i) v) := rfl
@[simp] theorem setColour_node : h.setColour (.node i) c = some (h.sc (.node i) c) := rfl
@[simp] theorem setKey_node : h.setKey (.node i) k = some (h.sk (.node i) k) := rfl
@[simp] theorem setLeft_root : h.setLeft .root v = some (h.sl .root v) := rfl
@[simp] theorem setRight_root : h.setRight .root v = some (h.sr .root v) := rfl
@[simp] theorem setParent_empty : h.setParent .empty v = some (h.sp .empty v) := rfl
@[simp] theorem setColour_empty : h.setColour .empty c = some (h.sc .empty c) := rfl

@[simp] theorem sk_key : (h.sk p k).key x = if x = p then k else h.key x := rfl
@[simp] theorem sk_parent : (h.sk p k).parent = h.parent := rfl
@[simp] theorem sk_left : (h.sk p k).left = h.left := rfl
@[simp] theorem sk_right : (h.sk p k).right = h.right := rfl
@[simp] theorem sk_colour : (h.sk p k).colour = h.colour := rfl
@[simp] theorem sp_key : (h.sp p v).key = h.key := rfl
@[simp] theorem sp_parent : (h.sp p v).parent x = if x = p then v else h.parent x := rfl
@[simp] theorem sp_left : (h.sp p v).left = h.left := rfl
@[simp] theorem sp_right : (h.sp p v).right = h.right := rfl
@[simp] theorem sp_colour : (h.sp p v).colour = h.colour := rfl
@[simp] theorem sl_key : (h.sl p v).key = h.key := rfl
@[simp] theorem sl_parent : (h.sl p v).parent = h.parent := rfl
@[simp] theorem sl_left : (h.sl p v).left x = if x = p then v else h.left x := rfl
@[simp] theorem sl_right : (h.sl p v).right = h.right := rfl
@[simp] theorem sl_colour : (h.sl p v).colour = h.colour := rfl
@[simp] theorem sr_key : (h.sr p v).key = h.key := rfl
@[simp] theorem sr_parent : (h.sr p v).parent = h.parent := rfl
@[simp] theorem sr_left : (h.sr p v).left = h.left := rfl
@[simp] theorem sr_right : (h.sr p v).right x = if x = p then v else h.right x := rfl
@[simp] theorem sr_colour : (h.sr p v).colour = h.colour := rfl
@[simp] theorem sc_key : (h.sc p c).key = h.key := rfl
@[simp] theorem sc_parent : (h.sc p c).parent = h.parent := rfl
@[simp] theorem sc_left : (h.sc p c).left = h.left := rfl
@[simp] theorem sc_right : (h.sc p c).right = h.right := rfl
@[simp] theorem sc_colour : (h.sc p c).colour x = if x = p then c else h.colour x := rfl

end simp_lemmas

@[simp] theorem T.ptr_node (c l i r) : (T.node c l i r).ptr = .node i := rfl
@[simp] theorem T.col_node (c l i r) : (T.node c l i r).col = c := rfl
@[simp] theorem T.ptr_nil : T.nil.ptr = .empty := rfl
@[simp] theorem Ctx.ptr_top : Ctx.top.ptr = .root := rfl
@[simp] theorem Ctx.ptr_L (c i r up) : (Ctx.L c i r up).ptr = .node i := rfl
@[simp] theorem Ctx.ptr_R (c l i up) : (Ctx.R c l i up).ptr = .node i := rfl
@[simp] theorem T.ptr_ne_null (t : T) : t.ptr ≠ .null := by cases t <;> simp
@[simp] theorem T.ptr_ne_root (t : T) : t.ptr ≠ .root := by cases t <;> simp
@[simp] theorem T.root_ne_ptr (t : T) : Ptr.root ≠ t.ptr := by cases t <;> simp
@[simp] theorem Ctx.ptr_ne_null (t : Ctx) : t.ptr ≠ .null := by cases t <;> simp
@[simp] theorem Ctx.ptr_ne_empty (t : Ctx) : t.ptr ≠ .empty := by cases t <;> simp
@[simp] theorem Ctx.empty_ne_ptr (t : Ctx) : Ptr.empty ≠ t.ptr := by cases t <;> simp

theorem T.ptr_mem {t : T} {i : Nat} (e : t.ptr = .node i) : i ∈ t.ids := by
  cases t with
  | nil => simp at e
  | node c l j r => simp at e; simp [T.ids, e]

theorem T.ptr_ne_of_notMem {t : T} {i : Nat} (e : i ∉ t.ids) : t.ptr ≠ .node i :=
  fun h => e (T.ptr_mem h)

theorem Ctx.ptr_mem {t : Ctx} {i : Nat} (e : t.ptr = .node i) : i ∈ t.pre ∨ i ∈ t.post := by
  cases t with
  | top => simp at e
  | L c j r up => simp at e; simp [Ctx.post, e]
  | R c l j up => simp at e; simp [Ctx.pre, e]

theorem Ctx.ptr_ne_of_notMem {t : Ctx} {i : Nat} (e : i ∉ t.pre) (e' : i ∉ t.post) : t.ptr ≠ .node i :=
  fun h => (Ctx.ptr_mem h).elim e e'

/-! ## Frame lemmas -/

/-- Two heaps give node `i` the same pointers and colour. -/
def Same (h h' : Heap) (i : Nat) : Prop :=
  h'.parent (.node i) = h.parent (.node i) ∧ h'.left (.node i) = h.left (.node i) ∧
    h'.right (.node i) = h.right (.node i) ∧ h'.colour (.node i) = h.colour (.node i)

theorem Same.trans {h h' h'' : Heap} {i : Nat} (a : Same h h' i) (b : Same h' h'' i) : Same h h'' i :=
  ⟨b.1.trans a.1, b.2.1.trans a.2.1, b.2.2.1.trans a.2.2.1, b.2.2.2.trans a.2.2.2⟩

/-- Nothing but the nodes `ids`, the scratch fields of the empty node and the tree's root was changed, and no
key. -/
structure Frame (ids : List Nat) (h h' : Heap) : Prop where
  key : h'.key = h.key
  empty : h'.left .empty = h.left .empty ∧ h'.right .empty = h.right .empty
  same : ∀ k, k ∉ ids → Same h h' k

theorem Frame.trans {ids : List Nat} {h h' h'' : Heap} (a : Frame ids h h') (b : Frame ids h' h'') :
    Frame ids h h'' :=
  ⟨b.key.trans a.key, ⟨b.empty.1.trans a.empty.1, b.empty.2.trans a.empty.2⟩,
    fun k hk => (a.same k hk).trans (b.same k hk)⟩

theorem Frame.mono {ids ids' : List Nat} {h h' : Heap} (a : Frame ids h h') (hs : ids ⊆ ids') : Frame ids' h h' :=
  ⟨a.key, a.empty, fun k hk => a.same k fun hh => hk (hs hh)⟩

theorem Rep.frame {h h' : Heap} : ∀ {t : T} {p : Ptr}, Rep h p t → (∀ i ∈ t.ids, Same h h' i) → Rep h' p t := by
  intro t
  induction t with
  | nil => intros; trivial
  | node c l i r ihl ihr =>
    intro p hr hs
    obtain ⟨a, b, d, e, f, g⟩ := hr
    obtain ⟨s1, s2, s3, s4⟩ := hs i (by simp [T.ids])
    exact ⟨by rw [s1, a], by rw [s2, b], by rw [s3, d], by rw [s4, e],
      ihl f fun j hj => hs j (by simp [T.ids, hj]), ihr g fun j hj => hs j (by simp [T.ids, hj])⟩

/-- The parent pointer of the top node of a subtree may be changed along with the rest. -/
theorem Rep.reparent {h h' : Heap} {t : T} {p p' : Ptr} (hr : Rep h p t) (nd : t.ids.Nodup)
    (hs : ∀ i ∈ t.ids, t.ptr ≠ .node i → Same h h' i)
    (ht : ∀ i, t.ptr = .node i → h'.parent (.node i) = p' ∧ h'.left (.node i) = h.left (.node i) ∧
      h'.right (.node i) = h.right (.node i) ∧ h'.colour (.node i) = h.colour (.node i)) : Rep h' p' t := by
  cases t with
  | nil => trivial
  | node c l i r =>
    obtain ⟨a, b, d, e, f, g⟩ := hr
    obtain ⟨s1, s2, s3, s4⟩ := ht i rfl
    simp only [T.ids] at nd hs
    have nd' := nd
    rw [List.nodup_append] at nd
    obtain ⟨n1, n2, n3⟩ := nd
    rw [List.nodup_cons] at n2
    refine ⟨s1, by rw [s2, b], by rw [s3, d], by rw [s4, e], f.frame fun j hj => ?_, g.frame fun j hj => ?_⟩
    · exact hs j (by simp [hj]) (by simp; intro e; exact n3 j hj i (by simp) e.symm)
    · exact hs j (by simp [hj]) (by simp; intro e; subst e; exact n2.1 hj)

theorem CRep.frame {h h' : Heap} : ∀ {ctx : Ctx} {q : Ptr}, CRep h ctx q →
    (∀ i, i ∈ ctx.pre ∨ i ∈ ctx.post → Same h h' i) → h'.left .root = h.left .root → CRep h' ctx q := by
  intro ctx
  induction ctx with
  | top => intro q hc _ hl; simpa [CRep, hl] using hc
  | L c i r up ih =>
    intro q hr hs hl
    obtain ⟨a, b, d, e, f, g⟩ := hr
    obtain ⟨s1, s2, s3, s4⟩ := hs i (by simp [Ctx.post])
    exact ⟨by rw [s1, a], by rw [s2, b], by rw [s3, d], by rw [s4, e],
      f.frame fun j hj => hs j (by simp [Ctx.post, hj]),
      ih g (fun j hj => hs j (by rcases hj with hj | hj <;> simp [Ctx.pre, Ctx.post, hj])) hl⟩
  | R c l i up ih =>
    intro q hr hs hl
    obtain ⟨a, b, d, e, f, g⟩ := hr
    obtain ⟨s1, s2, s3, s4⟩ := hs i (by simp [Ctx.pre])
    exact ⟨by rw [s1, a], by rw [s2, b], by rw [s3, d], by rw [s4, e],
      f.frame fun j hj => hs j (by simp [Ctx.pre, hj]),
      ih g (fun j hj => hs j (by rcases hj with hj | hj <;> simp [Ctx.pre, Ctx.post, hj])) hl⟩

/-! ## Moving in a tree -/

theorem Zip.upL {h : Heap} {c i r up t} : Zip h (.L c i r up) t ↔ Zip h up (.node c t i r) := by
  constructor
  · rintro ⟨⟨a, b, d, e, f, g⟩, hr, nd, rb, eb⟩
    exact ⟨g, ⟨a, b, d, e, hr, f⟩, by simpa [Ctx.pre, Ctx.post, T.ids] using nd, rb, eb⟩
  · rintro ⟨g, ⟨a, b, d, e, hr, f⟩, nd, rb, eb⟩
    exact ⟨⟨a, b, d, e, f, g⟩, hr, by simpa [Ctx.pre, Ctx.post, T.ids] using nd, rb, eb⟩

theorem Zip.upR {h : Heap} {c l i up t} : Zip h (.R c l i up) t ↔ Zip h up (.node c l i t) := by
  constructor
  · rintro ⟨⟨a, b, d, e, f, g⟩, hr, nd, rb, eb⟩
    exact ⟨g, ⟨a, b, d, e, f, hr⟩, by simpa [Ctx.pre, Ctx.post, T.ids] using nd, rb, eb⟩
  · rintro ⟨g, ⟨a, b, d, e, f, hr⟩, nd, rb, eb⟩
    exact ⟨⟨a, b, d, e, f, g⟩, hr, by simpa [Ctx.pre, Ctx.post, T.ids] using nd, rb, eb⟩

theorem Zip.plug {h : Heap} : ∀ {ctx : Ctx} {t : T}, Zip h ctx t ↔ Zip h .top (ctx.plug t) := by
  intro ctx
  induction ctx with
  | top => intro t; rfl
  | L c i r up ih => intro t; rw [Zip.upL, ih]; rfl
  | R c l i up ih => intro t; rw [Zip.upR, ih]; rfl

theorem exists_ctx {i : Nat} : ∀ {t : T}, i ∈ t.ids → ∃ ctx c l r, t = Ctx.plug ctx (.node c l i r) := by
  suffices ∀ (t : T), i ∈ t.ids → ∀ up : Ctx, ∃ ctx c l r, up.plug t = Ctx.plug ctx (.node c l i r) from
    fun {t} hi => this t hi .top
  intro t
  induction t with
  | nil => intro hi; simp [T.ids] at hi
  | node c l j r ihl ihr =>
    intro hi up
    simp only [T.ids, List.mem_append, List.mem_cons] at hi
    rcases hi with hi | hi | hi
    · exact ihl hi (.L c j r up)
    · subst hi; exact ⟨up, c, l, r, rfl⟩
    · exact ihr hi (.R c l j up)

/-! ## Colours -/

theorem Zip.setColour {h : Heap} {ctx c l i r} (c' : Colour) (z : Zip h ctx (.node c l i r)) :
    Zip (h.sc (.node i) c') ctx (.node c' l i r) := by
  obtain ⟨hc, ⟨a, b, d, e, f, g⟩, nd, rb, eb⟩ := z
  have nd' := nd
  simp only [T.ids, List.nodup_append, List.nodup_cons, List.mem_append, List.mem_cons] at nd
  have key : ∀ j, j ≠ i → Same h (h.sc (.node i) c') j := by
    intro j hj; simp [Same, hj]
  refine ⟨hc.frame (fun j hj => key j ?_) (by simp), ⟨by simp [a], by simp [b], by simp [d], by simp,
    f.frame (fun j hj => key j ?_), g.frame (fun j hj => key j ?_)⟩, nd', by simp [rb], by simp [eb]⟩
  all_goals grind

/-! ## Replacing what is at a position -/

/-- After `replaceInParent`, the new pointer is at the position. -/
theorem replaceInParent_spec {h : Heap} {ctx : Ctx} {i : Nat} {q : Ptr} (hc : CRep h ctx (.node i))
    (hp : h.parent (.node i) = ctx.ptr) (hn : i ∉ ctx.pre) (hn' : i ∉ ctx.post)
    (nd : (ctx.pre ++ ctx.post).Nodup) :
    ∃ h', replaceInParent h (.node i) q = some h' ∧ CRep h' ctx q ∧
      h'.parent = h.parent ∧ h'.colour = h.colour ∧ h'.key = h.key ∧
      (∀ x, x ≠ ctx.ptr → h'.left x = h.left x ∧ h'.right x = h.right x) := by
  cases ctx with
  | top =>
    refine ⟨h.sl .root q, ?_, by simp [CRep], rfl, rfl, rfl, by intro x hx; simp at hx; simp [hx]⟩
    simp only [CRep] at hc
    simp [replaceInParent, hp, hc]
  | L c j r up =>
    obtain ⟨a, b, d, e, f, g⟩ := hc
    simp [Ctx.pre, Ctx.post] at hn hn' nd
    refine ⟨h.sl (.node j) q, by simp [replaceInParent, hp, b], ?_, rfl, rfl, rfl,
      by intro x hx; simp at hx; simp [hx]⟩
    have key : ∀ k, k ≠ j → Same h (h.sl (.node j) q) k := by intro k hk; simp [Same, hk]
    refine ⟨a, by simp, by simp [d], e, f.frame fun k hk => key k ?_, g.frame (fun k hk => key k ?_) (by simp)⟩
    all_goals grind
  | R c l j up =>
    obtain ⟨a, b, d, e, f, g⟩ := hc
    simp [Ctx.pre, Ctx.post] at hn hn' nd
    have hl : l.ptr ≠ .node i := T.ptr_ne_of_notMem (by grind)
    refine ⟨h.sr (.node j) q, by simp [replaceInParent, hp, b, Ne.symm hl], ?_, rfl, rfl, rfl,
      by intro x hx; simp at hx; simp [hx]⟩
    have key : ∀ k, k ≠ j → Same h (h.sr (.node j) q) k := by intro k hk; simp [Same, hk]
    refine ⟨a, by simp [b], by simp, e, f.frame fun k hk => key k ?_, g.frame (fun k hk => key k ?_) (by simp)⟩
    all_goals grind

end Verif.Tree
