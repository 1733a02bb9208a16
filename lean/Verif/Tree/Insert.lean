import Verif.Tree.Rotate

/-! # The red black invariant and repair after an insert -/

namespace Verif.Tree

open Colour

/-- No red node has a red child and every path down has `n` black nodes. -/
def RB : T → Nat → Prop
  | .nil, n => n = 0
  | .node red l _ r, n => l.col = black ∧ r.col = black ∧ RB l n ∧ RB r n
  | .node black _ _ _, 0 => False
  | .node black l _ r, n + 1 => RB l n ∧ RB r n

/-- The node above is an ordinary black node. -/
def Ctx.BlackNode : Ctx → Prop
  | .top => False
  | .L c _ _ _ => c = black
  | .R c _ _ _ => c = black

/-- The surroundings of a position are right for a subtree with `n` black nodes on every path. -/
def CRB : Ctx → Nat → Prop
  | .top, _ => True
  | .L red _ r up, n => r.col = black ∧ RB r n ∧ up.BlackNode ∧ CRB up n
  | .R red l _ up, n => l.col = black ∧ RB l n ∧ up.BlackNode ∧ CRB up n
  | .L black _ r up, n => RB r n ∧ CRB up (n + 1)
  | .R black l _ up, n => RB l n ∧ CRB up (n + 1)

theorem RB.plug : ∀ {ctx : Ctx} {t : T} {n : Nat}, CRB ctx n → RB t n → (ctx.col = red → t.col = black) →
    ∃ m, RB (ctx.plug t) m ∧ (ctx ≠ .top → (ctx.plug t).col = black) := by
  intro ctx
  induction ctx with
  | top => intro t n _ ht _; exact ⟨n, ht, by simp⟩
  | L c i r up ih =>
    intro t n hc ht hcol
    cases c with
    | red =>
      obtain ⟨h1, h2, h3, h4⟩ := hc
      obtain ⟨m, hm, hb⟩ := ih (t := .node red t i r) h4 ⟨hcol rfl, h1, ht, h2⟩
        (by cases up <;> simp_all [Ctx.BlackNode, Ctx.col])
      exact ⟨m, hm, fun _ => hb (by rintro rfl; exact h3)⟩
    | black =>
      obtain ⟨h1, h2⟩ := hc
      obtain ⟨m, hm, hb⟩ := ih (t := .node black t i r) h2 ⟨ht, h1⟩ (fun _ => rfl)
      refine ⟨m, hm, fun _ => ?_⟩
      cases up with
      | top => rfl
      | _ => exact hb (by simp)
  | R c l i up ih =>
    intro t n hc ht hcol
    cases c with
    | red =>
      obtain ⟨h1, h2, h3, h4⟩ := hc
      obtain ⟨m, hm, hb⟩ := ih (t := .node red l i t) h4 ⟨h1, hcol rfl, h2, ht⟩
        (by cases up <;> simp_all [Ctx.BlackNode, Ctx.col])
      exact ⟨m, hm, fun _ => hb (by rintro rfl; exact h3)⟩
    | black =>
      obtain ⟨h1, h2⟩ := hc
      obtain ⟨m, hm, hb⟩ := ih (t := .node black l i t) h2 ⟨h1, ht⟩ (fun _ => rfl)
      refine ⟨m, hm, fun _ => ?_⟩
      cases up with
      | top => rfl
      | _ => exact hb (by simp)

/-- The converse: splitting a red black tree with a black root at a position. -/
theorem RB.split : ∀ {ctx : Ctx} {t : T} {m : Nat}, RB (ctx.plug t) m → (ctx.plug t).col = black →
    ∃ n, CRB ctx n ∧ RB t n ∧ (ctx.col = red → t.col = black) ∧ (ctx = .top → t.col = black) := by
  intro ctx
  induction ctx with
  | top => intro t m h hc; exact ⟨m, trivial, h, by simp [Ctx.col], fun _ => hc⟩
  | L c i r up ih =>
    intro t m h hc
    obtain ⟨n, h1, h2, h3, h4⟩ := ih (t := .node c t i r) h hc
    cases c with
    | red =>
      obtain ⟨a, b, d, e⟩ := h2
      refine ⟨n, ⟨b, e, ?_, h1⟩, d, fun _ => a, by simp⟩
      cases up with
      | top => exact absurd (h4 rfl) (by simp [T.col])
      | L c' _ _ _ => cases c' with
        | red => exact absurd (h3 rfl) (by simp [T.col])
        | black => rfl
      | R c' _ _ _ => cases c' with
        | red => exact absurd (h3 rfl) (by simp [T.col])
        | black => rfl
    | black =>
      cases n with
      | zero => exact h2.elim
      | succ n => exact ⟨n, ⟨h2.2, h1⟩, h2.1, by simp [Ctx.col], by simp⟩
  | R c l i up ih =>
    intro t m h hc
    obtain ⟨n, h1, h2, h3, h4⟩ := ih (t := .node c l i t) h hc
    cases c with
    | red =>
      obtain ⟨a, b, d, e⟩ := h2
      refine ⟨n, ⟨a, d, ?_, h1⟩, e, fun _ => b, by simp⟩
      cases up with
      | top => exact absurd (h4 rfl) (by simp [T.col])
      | L c' _ _ _ => cases c' with
        | red => exact absurd (h3 rfl) (by simp [T.col])
        | black => rfl
      | R c' _ _ _ => cases c' with
        | red => exact absurd (h3 rfl) (by simp [T.col])
        | black => rfl
    | black =>
      cases n with
      | zero => exact h2.elim
      | succ n => exact ⟨n, ⟨h2.1, h1⟩, h2.2, by simp [Ctx.col], by simp⟩

theorem Rep.colour {h : Heap} {p : Ptr} {t : T} (hr : Rep h p t) (eb : h.colour .empty = black) :
    h.colour t.ptr = t.col := by
  cases t with
  | nil => exact eb
  | node c l i r => exact hr.2.2.2.1

theorem CRep.colour {h : Heap} {ctx : Ctx} {q : Ptr} (hc : CRep h ctx q) (rb : h.colour .root = black) :
    h.colour ctx.ptr = ctx.col := by
  cases ctx with
  | top => exact rb
  | L c i r up => exact hc.2.2.2.1
  | R c l i up => exact hc.2.2.2.1

/-- The state on return from a repair: the heap holds a red black tree with the nodes `ids` in order. -/
def Done (h h' : Heap) (ids : List Nat) (t' : T) : Prop :=
  Zip h' .top t' ∧ t'.ids = ids ∧ Frame ids h h' ∧ ∃ m, RB t' m

theorem insertRepair_spec : ∀ (fuel : Nat) {h : Heap} {ctx : Ctx} {l : T} {i : Nat} {r : T} {n : Nat},
    Zip h ctx (.node red l i r) → RB (.node red l i r) n → CRB ctx n → ctx.depth < fuel →
    ∃ h' t', insertRepair fuel h (.node i) = some h' ∧
      Done h h' (ctx.pre ++ (l.ids ++ i :: r.ids) ++ ctx.post) t' := by
  intro fuel
  induction fuel with
  | zero => intro h ctx l i r n _ _ _ hf; omega
  | succ fuel ih =>
    intro h ctx l i r n z hrb hcrb hf
    have hp : h.parent (.node i) = ctx.ptr := z.rep.1
    have hpc : h.colour ctx.ptr = ctx.col := z.crep.colour z.rootBlack
    by_cases hcol : ctx.col = black
    · refine ⟨h, ctx.plug (.node red l i r), ?_, Zip.plug.1 z, ?_, ⟨rfl, ⟨rfl, rfl⟩, fun _ _ => ⟨rfl, rfl, rfl, rfl⟩⟩, ?_⟩
      · simp [insertRepair, hp, hpc, hcol]
      · rw [Ctx.ids_plug]; rfl
      · obtain ⟨m, hm, _⟩ := RB.plug hcrb hrb (by simp [hcol]); exact ⟨m, hm⟩
    have hcol' : ctx.col = red := by cases hc : ctx.col <;> simp_all
    clear hcol
    cases ctx with
    | top => cases hcol'
    | L c p u up =>
      cases hcol'
      obtain ⟨u1, u2, u3, u4⟩ := hcrb
      have zz := Zip.upL.1 z
      have pp : h.parent (.node p) = up.ptr := zz.rep.1
      have pl : h.left (.node p) = .node i := zz.rep.2.1
      have pr : h.right (.node p) = u.ptr := zz.rep.2.2.1
      simp only [Ctx.ptr_L] at hp hpc
      simp only [Ctx.col] at hpc
      cases up with
      | top => exact u3.elim
      | L c g w up =>
        cases u3
        obtain ⟨w1, w2⟩ := u4
        have zg := Zip.upL.1 zz
        have gl : h.left (.node g) = .node p := zg.rep.2.1
        have gr : h.right (.node g) = w.ptr := zg.rep.2.2.1
        have wc : h.colour w.ptr = w.col := zg.rep.2.2.2.2.2.colour zg.emptyBlack
        simp only [Ctx.ptr_L] at pp
        have nd := zg.nodup
        simp only [T.ids, List.nodup_append, List.nodup_cons, List.mem_append, List.mem_cons] at nd
        have hiu : u.ptr ≠ .node i := T.ptr_ne_of_notMem (by grind)
        have hgp : g ≠ p := by grind
        have hgi : g ≠ i := by grind
        have hpi : p ≠ i := by grind
        cases hw : w.col with
        | red =>
          cases w with
          | nil => cases hw
          | node wc wl wi wr =>
            cases hw
            obtain ⟨q1, q2, q3, q4⟩ := w1
            have z1 := zz.setColour black
            have z2 := (Zip.upR.2 (Zip.upL.1 z1)).setColour black
            have z3 := (Zip.upR.1 z2).setColour red
            obtain ⟨h', t', e, d⟩ := ih (n := n + 1) z3 ⟨rfl, rfl, ⟨hrb, u2⟩, ⟨q3, q4⟩⟩ w2
              (by simp [Ctx.depth] at hf; omega)
            refine ⟨h', t', ?_, ?_⟩
            · rw [← e]
              simp only [T.ptr_node] at gr wc
              simp [insertRepair, recolour, hp, pp, gl, gr, hpc, wc, T.col]
            · obtain ⟨d1, d2, d3, d4⟩ := d
              refine ⟨d1, by simpa [T.ids, Ctx.pre, Ctx.post] using d2, ⟨by simpa using d3.key, by simpa using d3.empty, fun k hk => ?_⟩, d4⟩
              have q := d3.same k (by simpa [T.ids, Ctx.pre, Ctx.post] using hk)
              simp [T.ids, Ctx.pre, Ctx.post] at hk
              simpa [Same, hk] using q
        | black =>
          have z1 := zz.setColour black
          have z2 := (Zip.upL.1 z1).setColour red
          obtain ⟨h3, e3, z3, k3⟩ := rotateRight_spec z2
          obtain ⟨h', t', e, d⟩ := ih (n := n) (Zip.upL.2 z3) hrb ⟨⟨u1, hw, u2, w1⟩, w2⟩
              (by simp [Ctx.depth] at hf ⊢; omega)
          refine ⟨h', t', ?_, ?_⟩
          · rw [← e]
            simp [insertRepair, hp, pp, gl, gr, hpc, wc, hw, pr, hiu.symm, e3]
          · obtain ⟨d1, d2, d3, d4⟩ := d
            refine ⟨d1, by simpa [T.ids, Ctx.pre, Ctx.post] using d2, ⟨by simpa [k3.key] using d3.key, by simpa [k3.empty] using d3.empty, fun k hk => ?_⟩, d4⟩
            have q := d3.same k (by simpa [T.ids, Ctx.pre, Ctx.post] using hk)
            have q := (k3.same k (by simpa [T.ids, Ctx.pre, Ctx.post] using hk)).trans q
            simp [T.ids, Ctx.pre, Ctx.post] at hk
            simpa [Same, hk] using q
      | R c w g up =>
        cases u3
        obtain ⟨w1, w2⟩ := u4
        have zg := Zip.upR.1 zz
        have gr : h.right (.node g) = .node p := zg.rep.2.2.1
        have gl : h.left (.node g) = w.ptr := zg.rep.2.1
        have wc : h.colour w.ptr = w.col := zg.rep.2.2.2.2.1.colour zg.emptyBlack
        simp only [Ctx.ptr_R] at pp
        have nd := zg.nodup
        simp only [T.ids, List.nodup_append, List.nodup_cons, List.mem_append, List.mem_cons] at nd
        have hpw : w.ptr ≠ .node p := T.ptr_ne_of_notMem (by grind)
        cases hw : w.col with
        | red =>
          cases w with
          | nil => cases hw
          | node wc wl wi wr =>
            cases hw
            obtain ⟨q1, q2, q3, q4⟩ := w1
            have z1 := zz.setColour black
            have z2 := (Zip.upL.2 (Zip.upR.1 z1)).setColour black
            have z3 := (Zip.upL.1 z2).setColour red
            obtain ⟨h', t', e, d⟩ := ih (n := n + 1) z3 ⟨rfl, rfl, ⟨q3, q4⟩, ⟨hrb, u2⟩⟩ w2
              (by simp [Ctx.depth] at hf; omega)
            refine ⟨h', t', ?_, ?_⟩
            · rw [← e]
              simp only [T.ptr_node] at gl wc hpw
              simp [insertRepair, recolour, hp, pp, gl, gr, hpc, wc, T.col, Ne.symm hpw]
            · obtain ⟨d1, d2, d3, d4⟩ := d
              refine ⟨d1, by simpa [T.ids, Ctx.pre, Ctx.post] using d2, ⟨by simpa using d3.key, by simpa using d3.empty, fun k hk => ?_⟩, d4⟩
              have q := d3.same k (by simpa [T.ids, Ctx.pre, Ctx.post] using hk)
              simp [T.ids, Ctx.pre, Ctx.post] at hk
              simpa [Same, hk] using q
        | black =>
          obtain ⟨h1, e1, z1, k1⟩ := rotateRight_spec zz
          have z1p : h1.parent (.node p) = .node i := z1.rep.2.2.2.2.2.1
          have z1i : h1.parent (.node i) = .node g := z1.rep.1
          have z2 := z1.setColour black
          have z3 := (Zip.upR.1 z2).setColour red
          obtain ⟨h4, e4, z4, k4⟩ := rotateLeft_spec z3
          obtain ⟨v1, v2, v3, v4⟩ := hrb
          obtain ⟨h', t', e, d⟩ := ih (n := n) (Zip.upR.2 z4) ⟨v2, u1, v4, u2⟩ ⟨⟨hw, v1, w1, v3⟩, w2⟩
              (by simp [Ctx.depth] at hf ⊢; omega)
          refine ⟨h', t', ?_, ?_⟩
          · rw [← e]
            simp [insertRepair, hp, pp, gl, gr, hpc, wc, hw, pr, pl, Ne.symm hpw, e1, z1p, z1i, e4]
          · obtain ⟨d1, d2, d3, d4⟩ := d
            refine ⟨d1, by simpa [T.ids, Ctx.pre, Ctx.post] using d2, ⟨by simpa [k1.key, k4.key] using d3.key, by simpa [k1.empty, k4.empty] using d3.empty, fun k hk => ?_⟩, d4⟩
            have q := d3.same k (by simpa [T.ids, Ctx.pre, Ctx.post] using hk)
            have q := (k4.same k (by simpa [T.ids, Ctx.pre, Ctx.post] using hk)).trans q
            have w := k1.same k (by simpa [T.ids, Ctx.pre, Ctx.post] using hk)
            simp [T.ids, Ctx.pre, Ctx.post] at hk
            exact w.trans (by simpa [Same, hk] using q)
    | R c u p up =>
      cases hcol'
      obtain ⟨u1, u2, u3, u4⟩ := hcrb
      have zz := Zip.upR.1 z
      have pp : h.parent (.node p) = up.ptr := zz.rep.1
      have pl : h.left (.node p) = u.ptr := zz.rep.2.1
      have pr : h.right (.node p) = .node i := zz.rep.2.2.1
      simp only [Ctx.ptr_R] at hp hpc
      simp only [Ctx.col] at hpc
      cases up with
      | top => exact u3.elim
      | L c g w up =>
        cases u3
        obtain ⟨w1, w2⟩ := u4
        have zg := Zip.upL.1 zz
        have gl : h.left (.node g) = .node p := zg.rep.2.1
        have gr : h.right (.node g) = w.ptr := zg.rep.2.2.1
        have wc : h.colour w.ptr = w.col := zg.rep.2.2.2.2.2.colour zg.emptyBlack
        simp only [Ctx.ptr_L] at pp
        cases hw : w.col with
        | red =>
          cases w with
          | nil => cases hw
          | node wc wl wi wr =>
            cases hw
            obtain ⟨q1, q2, q3, q4⟩ := w1
            have z1 := zz.setColour black
            have z2 := (Zip.upR.2 (Zip.upL.1 z1)).setColour black
            have z3 := (Zip.upR.1 z2).setColour red
            obtain ⟨h', t', e, d⟩ := ih (n := n + 1) z3 ⟨rfl, rfl, ⟨u2, hrb⟩, ⟨q3, q4⟩⟩ w2
              (by simp [Ctx.depth] at hf; omega)
            refine ⟨h', t', ?_, ?_⟩
            · rw [← e]
              simp only [T.ptr_node] at gr wc
              simp [insertRepair, recolour, hp, pp, gl, gr, hpc, wc, T.col]
            · obtain ⟨d1, d2, d3, d4⟩ := d
              refine ⟨d1, by simpa [T.ids, Ctx.pre, Ctx.post] using d2, ⟨by simpa using d3.key, by simpa using d3.empty, fun k hk => ?_⟩, d4⟩
              have q := d3.same k (by simpa [T.ids, Ctx.pre, Ctx.post] using hk)
              simp [T.ids, Ctx.pre, Ctx.post] at hk
              simpa [Same, hk] using q
        | black =>
          obtain ⟨h1, e1, z1, k1⟩ := rotateLeft_spec zz
          have z1p : h1.parent (.node p) = .node i := z1.rep.2.2.2.2.1.1
          have z1i : h1.parent (.node i) = .node g := z1.rep.1
          have z2 := z1.setColour black
          have z3 := (Zip.upL.1 z2).setColour red
          obtain ⟨h4, e4, z4, k4⟩ := rotateRight_spec z3
          obtain ⟨v1, v2, v3, v4⟩ := hrb
          obtain ⟨h', t', e, d⟩ := ih (n := n) (Zip.upL.2 z4) ⟨u1, v1, u2, v3⟩ ⟨⟨v2, hw, v4, w1⟩, w2⟩
              (by simp [Ctx.depth] at hf ⊢; omega)
          refine ⟨h', t', ?_, ?_⟩
          · rw [← e]
            simp [insertRepair, hp, pp, gl, gr, hpc, wc, hw, pr, pl, e1, z1p, z1i, e4]
          · obtain ⟨d1, d2, d3, d4⟩ := d
            refine ⟨d1, by simpa [T.ids, Ctx.pre, Ctx.post] using d2, ⟨by simpa [k1.key, k4.key] using d3.key, by simpa [k1.empty, k4.empty] using d3.empty, fun k hk => ?_⟩, d4⟩
            have q := d3.same k (by simpa [T.ids, Ctx.pre, Ctx.post] using hk)
            have q := (k4.same k (by simpa [T.ids, Ctx.pre, Ctx.post] using hk)).trans q
            have w := k1.same k (by simpa [T.ids, Ctx.pre, Ctx.post] using hk)
            simp [T.ids, Ctx.pre, Ctx.post] at hk
            exact w.trans (by simpa [Same, hk] using q)
      | R c w g up =>
        cases u3
        obtain ⟨w1, w2⟩ := u4
        have zg := Zip.upR.1 zz
        have gr : h.right (.node g) = .node p := zg.rep.2.2.1
        have gl : h.left (.node g) = w.ptr := zg.rep.2.1
        have wc : h.colour w.ptr = w.col := zg.rep.2.2.2.2.1.colour zg.emptyBlack
        simp only [Ctx.ptr_R] at pp
        have nd := zg.nodup
        simp only [T.ids, List.nodup_append, List.nodup_cons, List.mem_append, List.mem_cons] at nd
        have hpw : w.ptr ≠ .node p := T.ptr_ne_of_notMem (by grind)
        have hiu : u.ptr ≠ .node i := T.ptr_ne_of_notMem (by grind)
        cases hw : w.col with
        | red =>
          cases w with
          | nil => cases hw
          | node wc wl wi wr =>
            cases hw
            obtain ⟨q1, q2, q3, q4⟩ := w1
            have z1 := zz.setColour black
            have z2 := (Zip.upL.2 (Zip.upR.1 z1)).setColour black
            have z3 := (Zip.upL.1 z2).setColour red
            obtain ⟨h', t', e, d⟩ := ih (n := n + 1) z3 ⟨rfl, rfl, ⟨q3, q4⟩, ⟨u2, hrb⟩⟩ w2
              (by simp [Ctx.depth] at hf; omega)
            refine ⟨h', t', ?_, ?_⟩
            · rw [← e]
              simp only [T.ptr_node] at gl wc hpw
              simp [insertRepair, recolour, hp, pp, gl, gr, hpc, wc, T.col, Ne.symm hpw]
            · obtain ⟨d1, d2, d3, d4⟩ := d
              refine ⟨d1, by simpa [T.ids, Ctx.pre, Ctx.post] using d2, ⟨by simpa using d3.key, by simpa using d3.empty, fun k hk => ?_⟩, d4⟩
              have q := d3.same k (by simpa [T.ids, Ctx.pre, Ctx.post] using hk)
              simp [T.ids, Ctx.pre, Ctx.post] at hk
              simpa [Same, hk] using q
        | black =>
          have z1 := zz.setColour black
          have z2 := (Zip.upR.1 z1).setColour red
          obtain ⟨h3, e3, z3, k3⟩ := rotateLeft_spec z2
          obtain ⟨h', t', e, d⟩ := ih (n := n) (Zip.upR.2 z3) hrb ⟨⟨hw, u1, w1, u2⟩, w2⟩
              (by simp [Ctx.depth] at hf ⊢; omega)
          refine ⟨h', t', ?_, ?_⟩
          · rw [← e]
            simp [insertRepair, hp, pp, gl, gr, hpc, wc, hw, pl, hiu.symm, Ne.symm hpw, e3]
          · obtain ⟨d1, d2, d3, d4⟩ := d
            refine ⟨d1, by simpa [T.ids, Ctx.pre, Ctx.post] using d2, ⟨by simpa [k3.key] using d3.key, by simpa [k3.empty] using d3.empty, fun k hk => ?_⟩, d4⟩
            have q := d3.same k (by simpa [T.ids, Ctx.pre, Ctx.post] using hk)
            have q := (k3.same k (by simpa [T.ids, Ctx.pre, Ctx.post] using hk)).trans q
            simp [T.ids, Ctx.pre, Ctx.post] at hk
            simpa [Same, hk] using q

end Verif.Tree
