import Verif.Tree.Delete

/-! # Insert, delete, find and iterate -/

namespace Verif.Tree

open Colour

/-- The number of nodes on the longest path down. -/
def T.height : T → Nat
  | .nil => 0
  | .node _ l _ r => max l.height r.height + 1

theorem Ctx.depth_plug : ∀ (ctx : Ctx) (t : T), ctx.depth + t.height ≤ (ctx.plug t).height := by
  intro ctx
  induction ctx with
  | top => intro t; simp [plug, depth]
  | L c i r up ih => intro t; have := ih (.node c t i r); simp only [plug, depth, T.height] at *; omega
  | R c l i up ih => intro t; have := ih (.node c l i t); simp only [plug, depth, T.height] at *; omega

/-- The keys of the nodes grow along a list. -/
def Sorted (h : Heap) (ids : List Nat) : Prop :=
  ids.Pairwise fun i j => h.key (.node i) < h.key (.node j)

/-- The heap holds the red black search tree `t`. -/
structure Inv (h : Heap) (t : T) : Prop where
  zip : Zip h .top t
  rb : ∃ m, RB t m
  black : t.col = black
  sorted : Sorted h t.ids

/-! ## Insert -/

theorem descend_spec {h : Heap} {i : Nat} : ∀ {t : T} (fuel : Nat) {ctx : Ctx}, Rep h ctx.ptr t →
    t.height < fuel → Sorted h t.ids →
    (∀ j ∈ ctx.pre, h.key (.node j) < h.key (.node i)) → (∀ j ∈ ctx.post, h.key (.node i) < h.key (.node j)) →
    (∀ j ∈ t.ids, h.key (.node j) ≠ h.key (.node i)) →
    ∃ ctx' : Ctx, ctx'.plug .nil = ctx.plug t ∧ descend fuel h (.node i) t.ptr ctx.ptr = some ctx'.ptr ∧
      (∀ j ∈ ctx'.pre, h.key (.node j) < h.key (.node i)) ∧
      (∀ j ∈ ctx'.post, h.key (.node i) < h.key (.node j)) := by
  intro t
  induction t with
  | nil =>
    intro fuel ctx _ hf _ h1 h2 _
    cases fuel with
    | zero => omega
    | succ fuel => exact ⟨ctx, rfl, by simp [descend], h1, h2⟩
  | node c l j r ihl ihr =>
    intro fuel ctx hr hf hs h1 h2 h3
    cases fuel with
    | zero => omega
    | succ fuel =>
      obtain ⟨a, b, d, e, f, g⟩ := hr
      simp only [T.height] at hf
      simp only [Sorted, T.ids, List.pairwise_append, List.pairwise_cons, List.mem_cons] at hs
      simp only [T.ids, List.mem_append, List.mem_cons] at h3
      have hj := h3 j (by simp)
      by_cases hlt : h.key (.node i) < h.key (.node j)
      · obtain ⟨ctx', p1, p2, p3, p4⟩ := ihl fuel (ctx := .L c j r ctx) f (by omega) hs.1 h1 (by
            simp only [Ctx.post, List.mem_append, List.mem_cons]
            rintro k ((rfl | hk) | hk)
            · exact hlt
            · exact Int.lt_trans hlt (hs.2.1.1 k hk)
            · exact h2 k hk) (fun k hk => h3 k (.inl hk))
        refine ⟨ctx', p1, ?_, p3, p4⟩
        simp [descend, hj.symm, hlt, b]; simpa using p2
      · obtain ⟨ctx', p1, p2, p3, p4⟩ := ihr fuel (ctx := .R c l j ctx) g (by omega) hs.2.1.2 (by
            simp only [Ctx.pre, List.mem_append, List.mem_cons]
            rintro k ((hk | hk) | hk)
            · exact h1 k hk
            · have := hs.2.2 k hk j (.inl rfl); omega
            · simp at hk; subst hk; omega) h2 (fun k hk => h3 k (.inr (.inr hk)))
        refine ⟨ctx', p1, ?_, p3, p4⟩
        simp [descend, hj.symm, hlt, d]; simpa using p2

/-- Linking a new red leaf. -/
theorem link_spec {h : Heap} {ctx : Ctx} {i : Nat} (z : Zip h ctx .nil) (hi : i ∉ ctx.pre) (hi' : i ∉ ctx.post)
    (h1 : ∀ j ∈ ctx.pre, h.key (.node j) < h.key (.node i))
    (h2 : ∀ j ∈ ctx.post, h.key (.node i) < h.key (.node j)) :
    ∃ h', linkLeaf h (.node i) ctx.ptr = some h' ∧ Frame (ctx.pre ++ i :: ctx.post) h h' ∧
      Zip h' ctx (.node red .nil i .nil) := by
  have nd := z.nodup
  have nd' : (ctx.pre ++ (T.node red .nil i .nil).ids ++ ctx.post).Nodup := by
    simp only [T.ids, List.nodup_append, List.mem_append, List.nil_append, List.mem_cons, List.nodup_cons,
      List.append_nil] at nd ⊢
    grind
  cases ctx with
  | top =>
    refine ⟨_, rfl, ⟨rfl, by simp, fun k hk => ?_⟩, ⟨?_, ?_, nd', ?_, ?_⟩⟩
    · simp [Ctx.pre, Ctx.post] at hk; simp [Same, hk]
    · simp [CRep]
    · simp [Rep]
    · simp [z.rootBlack]
    · simp [z.emptyBlack]
  | L c j r up =>
    obtain ⟨a, b, d, e, f, g⟩ := z.crep
    simp only [Ctx.pre, Ctx.post, List.mem_cons, List.mem_append, T.ids, List.append_nil] at hi hi' h1 h2 nd
    simp only [List.nodup_append, List.nodup_cons, List.mem_cons, List.mem_append] at nd
    have hij : i ≠ j := by grind
    have hk : h.key (.node i) < h.key (.node j) := h2 j (by simp)
    refine ⟨((((h.sl (.node i) .empty).sr (.node i) .empty).sp (.node i) (.node j)).sl (.node j) (.node i)).sc
      (.node i) red, by simp [linkLeaf, hk], ⟨rfl, by simp, fun k hk => ?_⟩, ⟨?_, ?_, nd', ?_, ?_⟩⟩
    · simp [Ctx.pre, Ctx.post] at hk; simp [Same, hk]
    · have key : ∀ k, k ≠ i → k ≠ j → Same h (((((h.sl (.node i) .empty).sr (.node i) .empty).sp
          (.node i) (.node j)).sl (.node j) (.node i)).sc (.node i) red) k := by
        intro k h1 h2; simp [Same, h1, h2]
      refine ⟨by simp [a, Ne.symm hij], by simp, by simp [d, Ne.symm hij], by simp [e, Ne.symm hij],
        f.frame fun k hk => key k ?_ ?_, g.frame (fun k hk => key k ?_ ?_) (by simp)⟩
      all_goals grind
    · simp [Rep, hij]
    · simp [z.rootBlack]
    · simp [z.emptyBlack]
  | R c l j up =>
    obtain ⟨a, b, d, e, f, g⟩ := z.crep
    simp only [Ctx.pre, Ctx.post, List.mem_cons, List.mem_append, T.ids, List.append_nil] at hi hi' h1 h2 nd
    simp only [List.nodup_append, List.nodup_cons, List.mem_cons, List.mem_append] at nd
    have hij : i ≠ j := by grind
    have hk : ¬ h.key (.node i) < h.key (.node j) := by have := h1 j (by simp); omega
    refine ⟨((((h.sl (.node i) .empty).sr (.node i) .empty).sp (.node i) (.node j)).sr (.node j) (.node i)).sc
      (.node i) red, by simp [linkLeaf, hk], ⟨rfl, by simp, fun k hk => ?_⟩, ⟨?_, ?_, nd', ?_, ?_⟩⟩
    · simp [Ctx.pre, Ctx.post] at hk; simp [Same, hk]
    · have key : ∀ k, k ≠ i → k ≠ j → Same h (((((h.sl (.node i) .empty).sr (.node i) .empty).sp
          (.node i) (.node j)).sr (.node j) (.node i)).sc (.node i) red) k := by
        intro k h1 h2; simp [Same, h1, h2]
      refine ⟨by simp [a, Ne.symm hij], by simp [b, Ne.symm hij], by simp, by simp [e, Ne.symm hij],
        f.frame fun k hk => key k ?_ ?_, g.frame (fun k hk => key k ?_ ?_) (by simp)⟩
      all_goals grind
    · simp [Rep, hij]
    · simp [z.rootBlack]
    · simp [z.emptyBlack]

theorem insert_spec {h : Heap} {t : T} (inv : Inv h t) {i : Nat} (hi : i ∉ t.ids)
    (hk : ∀ j ∈ t.ids, h.key (.node j) ≠ h.key (.node i)) {fuel : Nat} (hf : t.height + 1 ≤ fuel) :
    ∃ h' t', insert fuel h (.node i) = some h' ∧ Inv h' t' ∧ Frame (i :: t.ids) h h' ∧ t'.ids.Perm (i :: t.ids) := by
  obtain ⟨ctx, p1, p2, p3, p4⟩ := descend_spec (i := i) fuel (ctx := .top) inv.zip.rep (by omega) inv.sorted
    (by simp [Ctx.pre]) (by simp [Ctx.post]) hk
  simp only [Ctx.plug] at p1
  have hl : h.left .root = t.ptr := inv.zip.crep
  have z : Zip h ctx .nil := Zip.plug.2 (by rw [p1]; exact inv.zip)
  have hids : t.ids = ctx.pre ++ ctx.post := by rw [← p1, Ctx.ids_plug]; simp [T.ids]
  have hd : ctx.depth ≤ t.height := by have := ctx.depth_plug .nil; rw [p1] at this; simp [T.height] at this; omega
  obtain ⟨m, hm⟩ := inv.rb
  obtain ⟨n, c1, c2, -, -⟩ := RB.split (ctx := ctx) (t := .nil) (by rw [p1]; exact hm) (by rw [p1]; exact inv.black)
  have hn : n = 0 := c2
  subst hn
  obtain ⟨h1, e1, k1, z1⟩ := link_spec (i := i) z (fun hh => hi (by rw [hids]; simp [hh]))
    (fun hh => hi (by rw [hids]; simp [hh])) p3 p4
  obtain ⟨h2, t2, e2, ⟨d1, d2, d3, ⟨m', d4⟩⟩⟩ := insertRepair_spec fuel z1 (n := 0) ⟨rfl, rfl, rfl, rfl⟩ c1 (by omega)
  have hne : t2 ≠ .nil := by rintro rfl; simp [T.ids] at d2
  have hfirst : h2.left .root = t2.ptr := d1.crep
  have hins : insert fuel h (.node i) = some (h2.sc t2.ptr black) := by
    simp [insert, hl, show descend fuel h (.node i) t.ptr .root = some ctx.ptr from p2, e1, e2, hfirst]
  have hkey : (h2.sc t2.ptr black).key = h.key := by simp [d3.key, k1.key]
  have hframe : Frame (i :: t.ids) h (h2.sc t2.ptr black) := by
    refine ⟨hkey, by simp [d3.empty, k1.empty], fun k hk => ?_⟩
    have hkc : k ∉ ctx.pre ++ i :: ctx.post := by rw [hids] at hk; simp at hk ⊢; grind
    have q := (k1.same k hkc).trans (d3.same k (by simpa [T.ids] using hkc))
    have hk2 : t2.ptr ≠ .node k := T.ptr_ne_of_notMem (by rw [d2]; simpa [T.ids] using hkc)
    simpa [Same, Ne.symm hk2] using q
  cases t2 with
  | nil => exact absurd rfl hne
  | node c l j r =>
    have hids' : (T.node black l j r).ids = ctx.pre ++ i :: ctx.post := by
      simp only [T.ids] at d2 ⊢; rw [d2]; simp
    refine ⟨_, .node black l j r, hins, ⟨d1.setColour black, ?_, rfl, ?_⟩, hframe, ?_⟩
    · cases c with
      | red => exact ⟨m' + 1, d4.2.2⟩
      | black => exact ⟨m', d4⟩
    · have hs := inv.sorted
      rw [hids] at hs
      simp only [Sorted, hids', List.pairwise_append, List.pairwise_cons, List.mem_cons, hkey] at hs ⊢
      grind
    · rw [hids', hids]; exact List.perm_middle

/-! ## Delete -/

/-- The unlinking of `y`, whose only subtree is `s`, tree.c:318-331. -/
theorem unlink_spec {h : Heap} {ctx : Ctx} {c l y r} {s : T} (z : Zip h ctx (.node c l y r))
    (hs : (s = l ∧ r = .nil) ∨ (s = r ∧ l = .nil)) :
    ∃ h', unlink h (.node y) s.ptr = some h' ∧
      Zip h' ctx s ∧ h'.parent s.ptr = ctx.ptr ∧ Frame (ctx.pre ++ s.ids ++ ctx.post) h h' ∧
      h'.colour = h.colour := by
  have hp : h.parent (.node y) = ctx.ptr := z.rep.1
  have hids : (T.node c l y r).ids = l.ids ++ y :: r.ids := rfl
  have nd := z.nodup
  simp only [hids, List.nodup_append, List.nodup_cons, List.mem_append, List.mem_cons] at nd
  have hrep : Rep h (.node y) s := by
    rcases hs with ⟨rfl, _⟩ | ⟨rfl, _⟩
    · exact z.rep.2.2.2.2.1
    · exact z.rep.2.2.2.2.2
  have hys : y ∉ s.ids := by rcases hs with ⟨rfl, _⟩ | ⟨rfl, _⟩ <;> grind
  have hsy : s.ptr ≠ .node y := T.ptr_ne_of_notMem hys
  have hsc : ∀ k, k ∈ ctx.pre ∨ k ∈ ctx.post → k ∉ s.ids := by
    rcases hs with ⟨rfl, _⟩ | ⟨rfl, _⟩ <;> grind
  have hcs : s.ptr ≠ ctx.ptr := by
    intro e
    cases hx : ctx.ptr with
    | null => simp at hx
    | root => rw [hx] at e; simp at e
    | empty => simp at hx
    | node k =>
      rw [hx] at e
      exact hsc k (Ctx.ptr_mem hx) (T.ptr_mem e)
  have ndc : (ctx.pre ++ ctx.post).Nodup := by
    simp only [List.nodup_append]; grind
  have nds : (ctx.pre ++ s.ids ++ ctx.post).Nodup := by
    simp only [List.nodup_append, List.mem_append]
    rcases hs with ⟨rfl, _⟩ | ⟨rfl, _⟩ <;> grind
  have nds' : s.ids.Nodup := by
    rcases hs with ⟨rfl, _⟩ | ⟨rfl, _⟩ <;> grind
  have hc1 : CRep (h.sp s.ptr ctx.ptr) ctx (.node y) := by
    refine z.crep.frame (fun k hk => ?_) (by simp)
    have : s.ptr ≠ .node k := T.ptr_ne_of_notMem (hsc k hk)
    simp [Same, Ne.symm this]
  have hp1 : (h.sp s.ptr ctx.ptr).parent (.node y) = ctx.ptr := by simp [Ne.symm hsy, hp]
  obtain ⟨h', e, cr, p', col', k', lr'⟩ := replaceInParent_spec (q := s.ptr) hc1 hp1 (by grind) (by grind) ndc
  refine ⟨h', ?_, ⟨cr, ?_, nds, ?_, ?_⟩, by simp [p'], ⟨by simp [k'], ?_, fun k hk => ?_⟩, by simp [col']⟩
  · rw [← e]
    cases ctx with
    | top =>
      have hl : h.left .root = .node y := z.crep
      simp at hp
      simp [unlink, hp, replaceInParent, Ne.symm hsy, hl]
    | L c' j r' up => simp at hp; simp [unlink, hp, replaceInParent, Ne.symm hsy]
    | R c' l' j up => simp at hp; simp [unlink, hp, replaceInParent, Ne.symm hsy]
  · refine hrep.reparent nds' (fun k hk hne => ?_) (fun k hk => ?_)
    · have hx : Ptr.node k ≠ ctx.ptr := fun hx => hsc k (Ctx.ptr_mem hx.symm) hk
      simp [Same, p', col', lr' _ hx, Ne.symm hne]
    · have hx : Ptr.node k ≠ ctx.ptr := fun hx => hsc k (Ctx.ptr_mem hx.symm) (T.ptr_mem hk)
      simp [p', col', lr' _ hx, hk]
  · simp [col', z.rootBlack]
  · simp [col', z.emptyBlack]
  · simp [lr' .empty (by simp)]
  · simp at hk
    have hx := lr' (.node k) (Ne.symm (Ctx.ptr_ne_of_notMem (by grind) (by grind)))
    have hks : s.ptr ≠ .node k := T.ptr_ne_of_notMem (by grind)
    simp [Same, hx, p', col', Ne.symm hks]

/-- Putting `y` where `node` is, tree.c:336-345. -/
theorem transplant_spec {h : Heap} {ctx : Ctx} {c l i r} {y : Nat} (z : Zip h ctx (.node c l i r))
    (hy : y ∉ ctx.pre ++ (l.ids ++ i :: r.ids) ++ ctx.post) :
    ∃ h', takePlace h (.node i) (.node y) = some h' ∧
      Zip h' ctx (.node c l y r) ∧ Frame (ctx.pre ++ (l.ids ++ y :: r.ids) ++ ctx.post) h h' := by
  obtain ⟨hc, ⟨a, b, d, e, f, g⟩, nd, rb, eb⟩ := z
  simp only [T.ids, List.nodup_append, List.nodup_cons, List.mem_append, List.mem_cons] at nd hy
  have hyi : y ≠ i := by grind
  have hli : l.ptr ≠ .node i := T.ptr_ne_of_notMem (by grind)
  have hri : r.ptr ≠ .node i := T.ptr_ne_of_notMem (by grind)
  have hly : l.ptr ≠ .node y := T.ptr_ne_of_notMem (by grind)
  have hry : r.ptr ≠ .node y := T.ptr_ne_of_notMem (by grind)
  have hci : ctx.ptr ≠ .node i := Ctx.ptr_ne_of_notMem (by grind) (by grind)
  have hcy : ctx.ptr ≠ .node y := Ctx.ptr_ne_of_notMem (by grind) (by grind)
  have ndc : (ctx.pre ++ ctx.post).Nodup := by simp only [List.nodup_append]; grind
  let h1 : Heap := (((((h.sl (.node y) l.ptr).sr (.node y) r.ptr).sp (.node y) ctx.ptr).sc (.node y) c).sp
    l.ptr (.node y)).sp r.ptr (.node y)
  have old : ∀ k, k ≠ y → l.ptr ≠ .node k → r.ptr ≠ .node k → Same h h1 k := by
    intro k q1 q2 q3; simp [Same, h1, q1, Ne.symm q2, Ne.symm q3]
  have hc1 : CRep h1 ctx (.node i) :=
    hc.frame (fun k hk => old k (by grind) (T.ptr_ne_of_notMem (by grind)) (T.ptr_ne_of_notMem (by grind)))
      (by simp [h1])
  have hp1 : h1.parent (.node i) = ctx.ptr := by simp [h1, Ne.symm hli, Ne.symm hri, Ne.symm hyi, a]
  obtain ⟨h', e', cr, p', col', k', lr'⟩ := replaceInParent_spec (q := .node y) hc1 hp1 (by grind) (by grind) ndc
  have hxy := lr' (.node y) (Ne.symm hcy)
  have sub : ∀ k, k ∈ l.ids ∨ k ∈ r.ids → h'.left (.node k) = h.left (.node k) ∧
      h'.right (.node k) = h.right (.node k) ∧ h'.colour (.node k) = h.colour (.node k) := by
    intro k hk
    have hx := lr' (.node k) (Ne.symm (Ctx.ptr_ne_of_notMem (by grind) (by grind)))
    have hky : k ≠ y := by grind
    simp [hx, h1, hky, col']
  refine ⟨h', ?_, ⟨cr, ⟨?_, ?_, ?_, ?_, ?_, ?_⟩, ?_, ?_, ?_⟩, ⟨by simp [k', h1], ?_, fun k hk => ?_⟩⟩
  · rw [← e']
    simp [takePlace, a, b, d, e, Ne.symm hyi, h1]
  · simp [p', h1, Ne.symm hly, Ne.symm hry]
  · simp [hxy, h1]
  · simp [hxy, h1]
  · simp [col', h1]
  · refine f.reparent (by grind) (fun k hk hne => ?_) (fun k hk => ?_)
    · obtain ⟨s1, s2, s3⟩ := sub k (.inl hk)
      have hky : k ≠ y := by grind
      have hkr : r.ptr ≠ .node k := T.ptr_ne_of_notMem (by grind)
      exact ⟨by simp [p', h1, hky, Ne.symm hne, Ne.symm hkr], s1, s2, s3⟩
    · obtain ⟨s1, s2, s3⟩ := sub k (.inl (T.ptr_mem hk))
      exact ⟨by simp [p', h1, hk], s1, s2, s3⟩
  · refine g.reparent (by grind) (fun k hk hne => ?_) (fun k hk => ?_)
    · obtain ⟨s1, s2, s3⟩ := sub k (.inr hk)
      have hky : k ≠ y := by grind
      have hkr : l.ptr ≠ .node k := T.ptr_ne_of_notMem (by grind)
      exact ⟨by simp [p', h1, hky, Ne.symm hne, Ne.symm hkr], s1, s2, s3⟩
    · obtain ⟨s1, s2, s3⟩ := sub k (.inr (T.ptr_mem hk))
      exact ⟨by simp [p', h1, hk], s1, s2, s3⟩
  · simp only [T.ids, List.nodup_append, List.nodup_cons, List.mem_append, List.mem_cons]
    grind
  · simp [col', h1, rb]
  · simp [col', h1, eb]
  · simp [lr' .empty (by simp), h1]
  · simp at hk
    have hx := lr' (.node k) (Ne.symm (Ctx.ptr_ne_of_notMem (by grind) (by grind)))
    have o := old k (by grind) (T.ptr_ne_of_notMem (by grind)) (T.ptr_ne_of_notMem (by grind))
    simpa [Same, hx, p', col'] using o

/-- The leftmost node of a subtree. -/
theorem leftmost_spec {h : Heap} : ∀ {t : T} (fuel : Nat) {up : Ctx}, t ≠ .nil → Rep h up.ptr t →
    t.height ≤ fuel → ∃ (ctx : Ctx) (c : Colour) (j : Nat) (jr : T),
      up.plug t = ctx.plug (.node c .nil j jr) ∧ ctx.pre = up.pre ∧
      t.ids ++ up.post = j :: (jr.ids ++ ctx.post) ∧ leftmost fuel h t.ptr = some (.node j) ∧
      (up ≠ .top → ctx ≠ .top) := by
  intro t
  induction t with
  | nil => intro _ _ hn; exact absurd rfl hn
  | node c l i r ihl _ =>
    intro fuel up _ hr hf
    obtain ⟨a, b, d, e, f, g⟩ := hr
    cases fuel with
    | zero => simp [T.height] at hf
    | succ fuel =>
      simp only [T.height] at hf
      cases l with
      | nil =>
        refine ⟨up, c, i, r, rfl, rfl, by simp [T.ids], ?_, id⟩
        simp at b; simp [leftmost, b]
      | node lc ll li lr =>
        obtain ⟨ctx, c', j, jr, q1, q2, q3, q4, q5⟩ := ihl fuel (up := .L c i r up) (by simp) f (by omega)
        refine ⟨ctx, c', j, jr, q1, q2, ?_, ?_, fun _ => q5 (by simp)⟩
        · rw [← q3]; simp [T.ids, Ctx.post]
        · simp at b q4; simp [leftmost, b, q4]

theorem RB.rename {ctx : Ctx} {c l i j r} {m : Nat} (h : RB (ctx.plug (.node c l i r)) m)
    (hb : (ctx.plug (.node c l i r)).col = black) :
    (∃ m, RB (ctx.plug (.node c l j r)) m) ∧ (ctx.plug (.node c l j r)).col = black := by
  obtain ⟨n, h1, h2, h3, h4⟩ := RB.split h hb
  have h2' : RB (.node c l j r) n := by
    cases c with
    | red => exact h2
    | black => cases n with
      | zero => exact h2.elim
      | succ n => exact h2
  obtain ⟨m', hm, hb'⟩ := RB.plug h1 h2' h3
  refine ⟨⟨m', hm⟩, ?_⟩
  cases ctx with
  | top => exact h4 rfl
  | _ => exact hb' (by simp)

/-- Unlinking `y` and repairing, tree.c:318-334. -/
theorem unlinkRepair_spec {h : Heap} {ctx : Ctx} {c l y r} {s : T} (z : Zip h ctx (.node c l y r))
    (hs : (s = l ∧ r = .nil) ∨ (s = r ∧ l = .nil)) {m : Nat} (hrb : RB (ctx.plug (.node c l y r)) m)
    (hb : (ctx.plug (.node c l y r)).col = black) {fuel : Nat} (hf : ctx.depth + 2 ≤ fuel) :
    ∃ h' t', (unlink h (.node y) s.ptr >>= fun h =>
        if h.colour (.node y) = Colour.black then deleteRepair fuel h s.ptr else some h) = some h' ∧
      Done h h' (ctx.pre ++ s.ids ++ ctx.post) t' ∧ t'.col = black := by
  obtain ⟨h1, e1, z1, p1, k1, c1⟩ := unlink_spec z hs
  have hyc : h1.colour (.node y) = c := by rw [c1]; exact z.rep.2.2.2.1
  obtain ⟨n, q1, q2, q3, q4⟩ := RB.split hrb hb
  rw [e1]
  simp only [Option.bind_eq_bind, Option.bind_some, hyc]
  cases c with
  | black =>
    cases n with
    | zero => exact q2.elim
    | succ n =>
      have hsn : RB s n := hs.elim (fun hs => hs.1 ▸ q2.1) (fun hs => hs.1 ▸ q2.2)
      have hshort : Short s n := by
        cases s with
        | nil => exact hsn
        | node sc sl si sr => cases sc with
          | red => exact hsn.2.2
          | black => exact hsn
      obtain ⟨h', t', e, d, b⟩ := repairOK fuel z1 p1 hshort q1 (by omega) (fun _ _ => hf)
      refine ⟨h', t', by simpa using e, ?_, b⟩
      exact ⟨d.1, d.2.1, k1.trans d.2.2.1, d.2.2.2⟩
  | red =>
    have hsn : RB s n ∧ s.col = black := by
      obtain ⟨a1, a2, a3, a4⟩ := q2
      exact hs.elim (fun hs => hs.1 ▸ ⟨a3, a1⟩) (fun hs => hs.1 ▸ ⟨a4, a2⟩)
    have hnt : ctx ≠ .top := fun hx => by simpa using q4 hx
    obtain ⟨m', hm, hb'⟩ := RB.plug q1 hsn.1 (fun _ => hsn.2)
    exact ⟨h1, _, by simp, ⟨Zip.plug.1 z1, Ctx.ids_plug _ _, k1, ⟨m', hm⟩⟩, hb' hnt⟩

theorem Sorted.sub {h h' : Heap} {a b : List Nat} (hs : Sorted h b) (hk : h'.key = h.key) (hab : a.Sublist b) :
    Sorted h' a := by
  simp only [Sorted, hk]; exact hs.sublist hab

theorem delete_spec {h : Heap} {t : T} (inv : Inv h t) {i : Nat} (hi : i ∈ t.ids) {fuel : Nat}
    (hf : t.height + 1 ≤ fuel) :
    ∃ h' t', delete fuel h (.node i) = some h' ∧ Inv h' t' ∧ Frame t.ids h h' ∧ t'.ids = t.ids.erase i := by
  obtain ⟨ctx, c, l, r, rfl⟩ := exists_ctx hi
  have z : Zip h ctx (.node c l i r) := Zip.plug.2 inv.zip
  have hd := ctx.depth_plug (.node c l i r)
  simp only [T.height] at hd
  obtain ⟨m, hm⟩ := inv.rb
  have hil : h.left (.node i) = l.ptr := z.rep.2.1
  have hir : h.right (.node i) = r.ptr := z.rep.2.2.1
  have nd := z.nodup
  have nd0 := nd
  simp only [T.ids, List.nodup_append, List.nodup_cons, List.mem_append, List.mem_cons] at nd
  have hsort := inv.sorted
  have herase : (ctx.plug (.node c l i r)).ids.erase i = ctx.pre ++ (l.ids ++ r.ids) ++ ctx.post := by
    rw [Ctx.ids_plug]
    simp only [T.ids, List.append_assoc, List.cons_append]
    rw [List.erase_append_right _ (by grind), List.erase_append_right _ (by grind)]
    simp
  have hsub : (ctx.pre ++ (l.ids ++ r.ids) ++ ctx.post).Sublist (ctx.plug (.node c l i r)).ids := by
    rw [← herase]; exact List.erase_sublist
  by_cases hone : l = .nil ∨ r = .nil
  · -- `y` is `node` itself
    have hs : ∃ s : T, ((s = l ∧ r = .nil) ∨ (s = r ∧ l = .nil)) ∧
        ((l.ptr = .empty ∧ s = r) ∨ (l.ptr ≠ .empty ∧ r.ptr = .empty ∧ s = l)) := by
      cases l with
      | nil => exact ⟨r, .inr ⟨rfl, rfl⟩, .inl ⟨rfl, rfl⟩⟩
      | node lc ll li lr =>
        have hr : r = .nil := hone.resolve_left (by simp)
        exact ⟨.node lc ll li lr, .inl ⟨rfl, hr⟩, .inr ⟨by simp, by simp [hr], rfl⟩⟩
    obtain ⟨s, hs, hx⟩ := hs
    have hsids : s.ids = l.ids ++ r.ids := by
      rcases hs with ⟨h1, h2⟩ | ⟨h1, h2⟩ <;> simp [h1, h2, T.ids]
    obtain ⟨h', t', e, ⟨d1, d2, d3, d4⟩, b⟩ := unlinkRepair_spec z hs hm inv.black (fuel := fuel) (by omega)
    refine ⟨h', t', ?_, ⟨d1, d4, b, ?_⟩, d3.mono (by rw [hsids]; exact hsub.subset), ?_⟩
    · rw [← e]
      rcases hx with ⟨hx, rfl⟩ | ⟨hx, hx', rfl⟩
      · simp [delete, hil, hir, hx]
      · simp [delete, hil, hir, hx, hx']
    · rw [d2, hsids]; exact hsort.sub d3.key hsub
    · rw [d2, hsids, herase]
  · -- `y` is the successor
    have hl : l ≠ .nil := fun hx => hone (.inl hx)
    have hr : r ≠ .nil := fun hx => hone (.inr hx)
    have hlp : l.ptr ≠ .empty := by cases l <;> simp_all
    have hrp : r.ptr ≠ .empty := by cases r <;> simp_all
    obtain ⟨cy, yc, y, yr, q1, q2, q3, q4, q5⟩ := leftmost_spec fuel (up := .R c l i ctx) hr (Zip.upR.2 z).rep
      (by omega)
    simp only [Ctx.plug] at q1
    simp only [Ctx.pre] at q2
    simp only [Ctx.post] at q3
    have zy : Zip h cy (.node yc .nil y yr) := Zip.plug.2 (by rw [← q1]; exact inv.zip)
    have hyl : h.left (.node y) = .empty := zy.rep.2.1
    have hyr : h.right (.node y) = yr.ptr := zy.rep.2.2.1
    have hdy := cy.depth_plug (.node yc .nil y yr)
    rw [← q1] at hdy
    simp only [T.height] at hdy
    obtain ⟨h', t', e, ⟨d1, d2, d3, ⟨m', d4⟩⟩, b⟩ := unlinkRepair_spec zy (s := yr) (.inr ⟨rfl, rfl⟩)
      (by rw [← q1]; exact hm) (by rw [← q1]; exact inv.black) (fuel := fuel) (by omega)
    have hids : t'.ids = ctx.pre ++ l.ids ++ i :: (yr.ids ++ cy.post) := by
      rw [d2, q2]; simp
    have hall : ctx.pre ++ l.ids ++ i :: y :: (yr.ids ++ cy.post) = (ctx.plug (.node c l i r)).ids := by
      rw [Ctx.ids_plug, ← q3]; simp [T.ids]
    have ndall : (ctx.pre ++ l.ids ++ i :: y :: (yr.ids ++ cy.post)).Nodup := by
      rw [hall, Ctx.ids_plug]; exact nd0
    have ndall' := ndall
    simp only [List.nodup_append, List.nodup_cons, List.mem_append, List.mem_cons] at ndall
    have hiy : y ≠ i := by grind
    obtain ⟨ctx2, c2, l2, r2, rfl⟩ := exists_ctx (t := t') (i := i) (by rw [hids]; simp)
    have z2 := Zip.plug.2 d1
    have hids2 := Ctx.ids_plug ctx2 (.node c2 l2 i r2)
    rw [hids] at hids2
    simp only [T.ids] at hids2
    -- the nodes before and after `i` are the same in both trees
    have hsplit : ctx.pre ++ l.ids = ctx2.pre ++ l2.ids ∧ yr.ids ++ cy.post = r2.ids ++ ctx2.post := by
      have h1 : (ctx.pre ++ l.ids) ++ i :: (yr.ids ++ cy.post) =
          (ctx2.pre ++ l2.ids) ++ i :: (r2.ids ++ ctx2.post) := by
        simpa using hids2
      have n1 : i ∉ ctx.pre ++ l.ids := by simp; grind
      have n2 : i ∉ ctx2.pre ++ l2.ids := by
        have := z2.nodup
        simp only [T.ids, List.nodup_append, List.nodup_cons, List.mem_append, List.mem_cons] at this
        simp; grind
      rw [List.append_eq_append_iff] at h1
      rcases h1 with ⟨w, hw1, hw2⟩ | ⟨w, hw1, hw2⟩
      · cases w with
        | nil => simp at hw1 hw2; exact ⟨by simp [hw1], hw2⟩
        | cons x w => simp at hw2; exact absurd (by rw [hw1, hw2.1]; simp) n2
      · cases w with
        | nil => simp at hw1 hw2; exact ⟨by simp [hw1], hw2.symm⟩
        | cons x w => simp at hw2; exact absurd (by rw [hw1, hw2.1]; simp) n1
    have hy2 : y ∉ ctx2.pre ++ (l2.ids ++ i :: r2.ids) ++ ctx2.post := by
      have hx : ctx2.pre ++ (l2.ids ++ i :: r2.ids) ++ ctx2.post =
          (ctx.pre ++ l.ids) ++ i :: (yr.ids ++ cy.post) := by
        rw [hsplit.1, hsplit.2]; simp
      rw [hx]; simp; grind
    obtain ⟨h3, e3, z3, k3⟩ := transplant_spec z2 hy2
    have hids3 : (ctx2.plug (.node c2 l2 y r2)).ids = (ctx.plug (.node c l i r)).ids.erase i := by
      rw [Ctx.ids_plug, ← hall, List.erase_append_right _ (by simp; grind)]
      simp only [List.erase_cons_head, T.ids]
      rw [hsplit.1, hsplit.2]; simp
    obtain ⟨w1, w2⟩ := RB.rename (j := y) d4 b
    refine ⟨h3, ctx2.plug (.node c2 l2 y r2), ?_, ⟨Zip.plug.1 z3, w1, w2, ?_⟩, ?_, hids3⟩
    · have hcond : ¬ (l.ptr = .empty ∨ r.ptr = .empty) := by simp [hlp, hrp]
      simp only [Option.bind_eq_bind] at e
      simp only [delete, successor, left?_node, right?_node, hil, hir, Option.bind_eq_bind, Option.bind_some,
        if_neg hcond, ne_eq, hrp, not_false_eq_true, if_true, q4, hyl, hyr, colour?_node, Option.pure_def,
        Ptr.node.injEq, hiy]
      cases hu : unlink h (.node y) yr.ptr with
      | none => simp [hu] at e
      | some h1 =>
        simp only [hu, Option.bind_some] at e ⊢
        split at e
        · rename_i hb
          simp [hb, hlp, e, e3]
        · rename_i hb
          cases e
          simp [hb, hlp, e3]
    · rw [hids3]; exact hsort.sub (by rw [k3.key, d3.key]) List.erase_sublist
    · refine (d3.mono ?_).trans (k3.mono ?_)
      · rw [← d2, hids, ← hall]; intro k; simp; grind
      · have := hids3
        rw [Ctx.ids_plug] at this
        simp only [T.ids] at this
        rw [this]; exact List.erase_subset

/-! ## Find -/

theorem findFrom_spec {h : Heap} {key : Int} : ∀ {t : T} (fuel : Nat) {p : Ptr}, Rep h p t → t.height < fuel →
    Sorted h t.ids →
    (∃ i ∈ t.ids, h.key (.node i) = key ∧ findFrom fuel h key t.ptr = some (.node i)) ∨
      ((∀ i ∈ t.ids, h.key (.node i) ≠ key) ∧ findFrom fuel h key t.ptr = some .null) := by
  intro t
  induction t with
  | nil =>
    intro fuel p _ hf _
    cases fuel with
    | zero => omega
    | succ fuel => exact .inr ⟨by simp [T.ids], by simp [findFrom]⟩
  | node c l j r ihl ihr =>
    intro fuel p hr hf hs
    cases fuel with
    | zero => omega
    | succ fuel =>
      obtain ⟨a, b, d, e, f, g⟩ := hr
      simp only [T.height] at hf
      simp only [Sorted, T.ids, List.pairwise_append, List.pairwise_cons, List.mem_cons] at hs
      simp only [T.ids, List.mem_append, List.mem_cons, T.ptr_node]
      by_cases hk : key = h.key (.node j)
      · exact .inl ⟨j, by simp, hk.symm, by simp [findFrom, hk]⟩
      · by_cases hlt : key < h.key (.node j)
        · rcases ihl fuel f (by omega) hs.1 with ⟨i, h1, h2, h3⟩ | ⟨h1, h2⟩
          · exact .inl ⟨i, .inl h1, h2, by simp [findFrom, hk, hlt, b, h3]⟩
          · refine .inr ⟨?_, by simp [findFrom, hk, hlt, b, h2]⟩
            rintro i (hi | rfl | hi)
            · exact h1 i hi
            · exact fun hx => hk hx.symm
            · have := hs.2.1.1 i hi; omega
        · rcases ihr fuel g (by omega) hs.2.1.2 with ⟨i, h1, h2, h3⟩ | ⟨h1, h2⟩
          · exact .inl ⟨i, .inr (.inr h1), h2, by simp [findFrom, hk, hlt, d, h3]⟩
          · refine .inr ⟨?_, by simp [findFrom, hk, hlt, d, h2]⟩
            rintro i (hi | rfl | hi)
            · have := hs.2.2 i hi j (.inl rfl); omega
            · exact fun hx => hk hx.symm
            · exact h1 i hi

/-! ## Iterate -/

/-- The nodes in the order the code visits them: children before parents. -/
def T.postorder : T → List Nat
  | .nil => []
  | .node _ l i r => l.postorder ++ r.postorder ++ [i]

theorem T.postorder_perm : ∀ t : T, t.postorder.Perm t.ids
  | .nil => .refl _
  | .node _ l i r => by
    simp only [postorder, ids, List.append_assoc]
    refine (l.postorder_perm).append ?_
    exact (List.perm_append_comm.trans (by simp)).trans ((r.postorder_perm).cons i)

theorem iterate_spec {h : Heap} : ∀ {t : T} (fuel : Nat) {p : Ptr}, Rep h p t → t.height < fuel → Sorted h t.ids →
    iterate fuel h t.ptr = some (t.postorder.map .node) := by
  intro t
  induction t with
  | nil =>
    intro fuel p _ hf _
    cases fuel with
    | zero => omega
    | succ fuel => simp [iterate, T.postorder]
  | node c l j r ihl ihr =>
    intro fuel p hr hf hs
    cases fuel with
    | zero => omega
    | succ fuel =>
      obtain ⟨a, b, d, e, f, g⟩ := hr
      simp only [T.height] at hf
      simp only [Sorted, T.ids, List.pairwise_append, List.pairwise_cons, List.mem_cons] at hs
      have el := ihl fuel f (by omega) hs.1
      have er := ihr fuel g (by omega) hs.2.1.2
      cases l with
      | nil =>
        cases r with
        | nil => simp at b d; simp [iterate, b, d, T.postorder]
        | node rc rl ri rr =>
          have hkr := hs.2.1.1 ri (by simp [T.ids])
          simp at b d er; simp [iterate, b, d, hkr, er, T.postorder]
      | node lc ll li lr =>
        have hkl := hs.2.2 li (by simp [T.ids]) j (.inl rfl)
        cases r with
        | nil => simp at b d el; simp [iterate, b, d, hkl, el, T.postorder]
        | node rc rl ri rr =>
          have hkr := hs.2.1.1 ri (by simp [T.ids])
          simp at b d el er; simp [iterate, b, d, hkl, hkr, el, er, T.postorder]

/-! ## Height -/

theorem RB.size : ∀ {t : T} {n : Nat}, RB t n → 2 ^ n ≤ t.ids.length + 1 := by
  intro t
  induction t with
  | nil => intro n h; have : n = 0 := h; subst this; simp [T.ids]
  | node c l i r ihl ihr =>
    intro n h
    simp only [T.ids, List.length_append, List.length_cons]
    cases c with
    | red => have := ihl h.2.2.1; omega
    | black =>
      cases n with
      | zero => exact h.elim
      | succ n => have := ihl h.1; have := ihr h.2; rw [Nat.pow_succ]; omega

theorem RB.height : ∀ {t : T} {n : Nat}, RB t n → t.height ≤ 2 * n + (if t.col = red then 1 else 0) := by
  intro t
  induction t with
  | nil => intro n h; simp [T.height]
  | node c l i r ihl ihr =>
    intro n h
    simp only [T.height, T.col_node]
    cases c with
    | red =>
      have h1 := ihl h.2.2.1; have h2 := ihr h.2.2.2
      simp [h.1] at h1; simp [h.2.1] at h2
      simp; omega
    | black =>
      cases n with
      | zero => exact h.elim
      | succ n =>
        have h1 := ihl h.1; have h2 := ihr h.2
        simp
        split at h1 <;> split at h2 <;> omega

theorem Inv.height {h : Heap} {t : T} (inv : Inv h t) : t.height ≤ 2 * Nat.log2 (t.ids.length + 1) := by
  obtain ⟨m, hm⟩ := inv.rb
  have h1 := hm.height
  simp [inv.black] at h1
  have h2 := hm.size
  have : m ≤ Nat.log2 (t.ids.length + 1) := (Nat.le_log2 (by omega)).2 h2
  omega

end Verif.Tree
