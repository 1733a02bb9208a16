import Verif.Tree.Insert

/-! # Repair after a delete -/

namespace Verif.Tree

open Colour

/-- The end of a round of `deleteRepair` for a left child, from tree.c:195 on. -/
def lastL (fuel : Nat) (h : Heap) (node sibling : Ptr) : Option Heap := do
  let h ← h.setColour sibling (← h.colour? (← h.parent? node))
  let h ← h.setColour (← h.parent? node) black
  let h ← h.setColour (← h.right? sibling) black
  let h ← rotateLeft h (← h.parent? node)
  deleteRepair fuel h (← h.left? .root)

/-- The round of `deleteRepair` for a left child once its sibling is black, from tree.c:183 on. -/
def restL (fuel : Nat) (h : Heap) (node sibling : Ptr) : Option Heap := do
  if (← h.colour? (← h.right? sibling)) = black ∧ (← h.colour? (← h.left? sibling)) = black then
    let h ← h.setColour sibling red
    deleteRepair fuel h (← h.parent? node)
  else
    if (← h.colour? (← h.right? sibling)) = black then
      let h ← h.setColour (← h.left? sibling) black
      let h ← h.setColour sibling red
      let h ← rotateRight h sibling
      lastL fuel h node (← h.right? (← h.parent? node))
    else lastL fuel h node sibling

/-- The end of a round of `deleteRepair` for a right child, from tree.c:222 on. -/
def lastR (fuel : Nat) (h : Heap) (node sibling : Ptr) : Option Heap := do
  let h ← h.setColour sibling (← h.colour? (← h.parent? node))
  let h ← h.setColour (← h.parent? node) black
  let h ← h.setColour (← h.left? sibling) black
  let h ← rotateRight h (← h.parent? node)
  deleteRepair fuel h (← h.left? .root)

/-- The round of `deleteRepair` for a right child once its sibling is black, from tree.c:210 on. -/
def restR (fuel : Nat) (h : Heap) (node sibling : Ptr) : Option Heap := do
  if (← h.colour? (← h.right? sibling)) = black ∧ (← h.colour? (← h.left? sibling)) = black then
    let h ← h.setColour sibling red
    deleteRepair fuel h (← h.parent? node)
  else
    if (← h.colour? (← h.left? sibling)) = black then
      let h ← h.setColour (← h.right? sibling) black
      let h ← h.setColour sibling red
      let h ← rotateLeft h sibling
      lastR fuel h node (← h.left? (← h.parent? node))
    else lastR fuel h node sibling

theorem deleteRepair_succ (fuel : Nat) (h : Heap) (node : Ptr) : deleteRepair (fuel + 1) h node = (do
    if (← h.colour? node) = black ∧ node ≠ (← h.left? .root) then
      if node = (← h.left? (← h.parent? node)) then
        let sibling ← h.right? (← h.parent? node)
        if (← h.colour? sibling) = red then
            let h ← h.setColour sibling black
            let h ← h.setColour (← h.parent? node) red
            let h ← rotateLeft h (← h.parent? node)
            restL fuel h node (← h.right? (← h.parent? node))
          else restL fuel h node sibling
      else
        let sibling ← h.left? (← h.parent? node)
        if (← h.colour? sibling) = red then
            let h ← h.setColour sibling black
            let h ← h.setColour (← h.parent? node) red
            let h ← rotateRight h (← h.parent? node)
            restR fuel h node (← h.left? (← h.parent? node))
          else restR fuel h node sibling
    else h.setColour node black) := by
  rw [deleteRepair]
  rfl

/-- A subtree with one black node too few on every path, unless its red top is painted black. -/
def Short : T → Nat → Prop
  | .node red l _ r, n => RB l n ∧ RB r n
  | t, n => RB t n

/-- What `deleteRepair` achieves within `fuel` rounds. -/
def RepairOK (fuel : Nat) : Prop :=
  ∀ {h : Heap} {ctx : Ctx} {t : T} {n : Nat}, Zip h ctx t → h.parent t.ptr = ctx.ptr → Short t n →
    CRB ctx (n + 1) → 1 ≤ fuel → (t.col = black → ctx ≠ .top → ctx.depth + 2 ≤ fuel) →
    ∃ h' t', deleteRepair fuel h t.ptr = some h' ∧ Done h h' (ctx.pre ++ t.ids ++ ctx.post) t' ∧
      t'.col = black

theorem Zip.parent_ptr {h : Heap} {ctx : Ctx} {t : T} (z : Zip h ctx t) (ht : t ≠ .nil) :
    h.parent t.ptr = ctx.ptr := by
  cases t with
  | nil => exact absurd rfl ht
  | node c l i r => exact z.rep.1

theorem Ctx.plug_ne_nil : ∀ {ctx : Ctx} {t : T}, t ≠ .nil → ctx.plug t ≠ .nil := by
  intro ctx
  induction ctx with
  | top => intro t ht; exact ht
  | L c i r up ih => intro t _; exact ih (by simp)
  | R c l i up ih => intro t _; exact ih (by simp)

theorem short_of_black {t : T} {n : Nat} (h : RB t n) (hc : t.col = black) : Short t n := by
  cases t with
  | nil => exact h
  | node c l i r => cases hc; exact h

theorem rb_of_short {t : T} {n : Nat} (h : Short t n) (hc : t.col = black) : RB t n := by
  cases t with
  | nil => exact h
  | node c l i r => cases hc; exact h

/-- Finishing at the top with a tree that is already right. -/
theorem RepairOK.finish {fuel : Nat} (ok : RepairOK fuel) {h : Heap} {ctx : Ctx} {c l i r} {n : Nat}
    (z : Zip h ctx (.node c l i r)) (hrb : RB (.node c l i r) n) (hcrb : CRB ctx n)
    (hcol : ctx.col = red → c = black) (htop : ctx = .top → c = black) (hf : 1 ≤ fuel) :
    ∃ h' t', (do deleteRepair fuel h (← h.left? .root)) = some h' ∧
      Done h h' (ctx.pre ++ (T.node c l i r).ids ++ ctx.post) t' ∧ t'.col = black := by
  have z' := Zip.plug.1 z
  obtain ⟨m, hm, hb⟩ := RB.plug hcrb hrb hcol
  have hblack : (ctx.plug (.node c l i r)).col = black := by
    cases hx : ctx with
    | top => exact htop hx
    | L => subst hx; exact hb (by simp)
    | R => subst hx; exact hb (by simp)
  have hl : h.left .root = (ctx.plug (.node c l i r)).ptr := z'.crep
  obtain ⟨h', t', e, d, b⟩ := ok z' (z'.parent_ptr (Ctx.plug_ne_nil (by simp))) (short_of_black hm hblack)
    trivial hf (fun _ h => absurd rfl h)
  refine ⟨h', t', ?_, ?_, b⟩
  · simpa [hl] using e
  · simpa [Ctx.pre, Ctx.post, Ctx.ids_plug] using d

theorem lastL_spec {fuel : Nat} (ok : RepairOK fuel) {h : Heap} {c p sl si a ri b up} {t : T} {n : Nat}
    (z : Zip h (.L c p (.node black sl si (.node red a ri b)) up) t) (hp : h.parent t.ptr = .node p)
    (htb : t.col = black) (ht : RB t n) (hsl : RB sl n) (ha : RB a n) (hb : RB b n)
    (hcrb : CRB (.L c p (.node black sl si (.node red a ri b)) up) (n + 1)) (hf : 1 ≤ fuel) :
    ∃ h' t', lastL fuel h t.ptr (.node si) = some h' ∧
      Done h h' (up.pre ++ (t.ids ++ p :: (sl.ids ++ si :: (a.ids ++ ri :: b.ids))) ++ up.post) t' ∧
      t'.col = black := by
  have zp := Zip.upL.1 z
  have hpc : h.colour (.node p) = c := zp.rep.2.2.2.1
  have hsr : h.right (.node si) = .node ri := (Zip.upR.2 zp).rep.2.2.1
  have z1 := (Zip.upR.2 zp).setColour c
  have z2 := (Zip.upR.1 z1).setColour black
  have z3 := (Zip.upR.2 (Zip.upR.2 z2)).setColour black
  obtain ⟨h4, e4, z4, k4⟩ := rotateLeft_spec (Zip.upR.1 (Zip.upR.1 z3))
  have : ∃ N, RB (.node c (.node black t p sl) si (.node black a ri b)) N ∧ CRB up N ∧
      (up.col = red → c = black) ∧ (up = .top → c = black) := by
    cases c with
    | black => exact ⟨n + 2, ⟨⟨ht, hsl⟩, ⟨ha, hb⟩⟩, hcrb.2, fun _ => rfl, fun _ => rfl⟩
    | red =>
      obtain ⟨q1, q2, q3, q4⟩ := hcrb
      refine ⟨n + 1, ⟨rfl, rfl, ⟨ht, hsl⟩, ⟨ha, hb⟩⟩, q4, ?_, ?_⟩
      · intro hc; cases up <;> simp_all [Ctx.BlackNode, Ctx.col]
      · rintro rfl; exact q3.elim
  obtain ⟨N, hN, hup, hc1, hc2⟩ := this
  obtain ⟨h', t', e, d, bl⟩ := ok.finish z4 hN hup hc1 hc2 hf
  refine ⟨h', t', ?_, ?_, bl⟩
  · rw [← e]
    simp [lastL, hp, hpc, hsr, e4]
  · obtain ⟨d1, d2, d3, d4⟩ := d
    refine ⟨d1, by simpa [T.ids] using d2, ⟨by simpa [k4.key] using d3.key, by simpa [k4.empty] using d3.empty, fun k hk => ?_⟩, d4⟩
    have q := d3.same k (by simpa [T.ids, Ctx.pre, Ctx.post] using hk)
    have q := (k4.same k (by simpa [T.ids, Ctx.pre, Ctx.post] using hk)).trans q
    simp [T.ids, Ctx.pre, Ctx.post] at hk
    simpa [Same, hk] using q

theorem restL_spec {fuel : Nat} (ok : RepairOK fuel) {h : Heap} {c p s up} {t : T} {n : Nat}
    (z : Zip h (.L c p s up) t) (hp : h.parent t.ptr = .node p)
    (htb : t.col = black) (ht : RB t n) (hsb : s.col = black)
    (hcrb : CRB (.L c p s up) (n + 1)) (hf : 1 ≤ fuel) (hf' : c = black → up.depth + 2 ≤ fuel) :
    ∃ h' t', restL fuel h t.ptr s.ptr = some h' ∧
      Done h h' (up.pre ++ (t.ids ++ p :: s.ids) ++ up.post) t' ∧ t'.col = black := by
  have hs : RB s (n + 1) := by
    cases c with
    | red => exact hcrb.2.1
    | black => exact hcrb.1
  cases s with
  | nil => simp [RB] at hs
  | node sc sl si sr =>
    cases hsb
    obtain ⟨hsl, hsr⟩ := hs
    have zp := Zip.upL.1 z
    have zs := Zip.upR.2 zp
    have hpc : h.colour (.node p) = c := zp.rep.2.2.2.1
    have hpp : h.parent (.node p) = up.ptr := zp.rep.1
    have sil : h.left (.node si) = sl.ptr := zs.rep.2.1
    have sir : h.right (.node si) = sr.ptr := zs.rep.2.2.1
    have slc : h.colour sl.ptr = sl.col := zs.rep.2.2.2.2.1.colour zs.emptyBlack
    have src : h.colour sr.ptr = sr.col := zs.rep.2.2.2.2.2.colour zs.emptyBlack
    simp only [T.ptr_node]
    cases hsrc : sr.col with
    | red =>
      cases sr with
      | nil => cases hsrc
      | node rc a ri b =>
        cases hsrc
        obtain ⟨-, -, ha, hb⟩ := hsr
        obtain ⟨h', t', e, d, bl⟩ := lastL_spec ok z hp htb ht hsl ha hb hcrb hf
        refine ⟨h', t', ?_, d, bl⟩
        rw [← e]
        simp only [T.ptr_node] at sir src
        simp [restL, sir, sil, src, T.col]
    | black =>
      cases hslc : sl.col with
      | red =>
        cases sl with
        | nil => cases hslc
        | node lc a li b =>
          cases hslc
          obtain ⟨ha0, hb0, ha, hb⟩ := hsl
          have z1 := (Zip.upL.2 zs).setColour black
          have z2 := (Zip.upL.1 z1).setColour red
          obtain ⟨h3, e3, z3, k3⟩ := rotateRight_spec z2
          have z4 := Zip.upL.2 (Zip.upR.1 z3)
          have hp3 : h3.parent t.ptr = .node p := by
            cases t with
            | nil => simpa [k3.emptyParent] using hp
            | node tc tl ti tr => exact z4.rep.1
          have hr3 : h3.right (.node p) = .node li := z4.crep.2.2.1
          obtain ⟨h', t', e, d, bl⟩ := lastL_spec ok z4 hp3 htb ht ha hb hsr (by
            cases c with
            | red => exact ⟨rfl, ⟨ha, ⟨hb0, hsrc, hb, hsr⟩⟩, hcrb.2.2.1, hcrb.2.2.2⟩
            | black => exact ⟨⟨ha, ⟨hb0, hsrc, hb, hsr⟩⟩, hcrb.2⟩) hf
          refine ⟨h', t', ?_, ?_, bl⟩
          · rw [← e]
            simp only [T.ptr_node] at sil slc
            simp [restL, sir, sil, src, slc, hsrc, e3, hp3, hr3]
          · obtain ⟨d1, d2, d3, d4⟩ := d
            refine ⟨d1, by simpa [T.ids] using d2, ⟨by simpa [k3.key] using d3.key, by simpa [k3.empty] using d3.empty, fun k hk => ?_⟩, d4⟩
            have q := d3.same k (by simpa [T.ids, Ctx.pre, Ctx.post] using hk)
            have q := (k3.same k (by simpa [T.ids, Ctx.pre, Ctx.post] using hk)).trans q
            simp [T.ids, Ctx.pre, Ctx.post] at hk
            simpa [Same, hk] using q
      | black =>
        have z1 := zs.setColour red
        have z2 := Zip.upR.1 z1
        have : Short (.node c t p (.node red sl si sr)) (n + (if c = black then 1 else 0)) ∧
            CRB up (n + (if c = black then 1 else 0) + 1) := by
          cases c with
          | red => exact ⟨⟨ht, hslc, hsrc, hsl, hsr⟩, hcrb.2.2.2⟩
          | black => exact ⟨⟨ht, hslc, hsrc, hsl, hsr⟩, hcrb.2⟩
        obtain ⟨h', t', e, d, bl⟩ := ok z2 (by simpa using hpp) this.1 this.2 hf
          (fun hc _ => hf' hc)
        refine ⟨h', t', ?_, ?_, bl⟩
        · rw [← e]
          simp [restL, sir, sil, src, slc, hsrc, hslc, hp]
        · obtain ⟨d1, d2, d3, d4⟩ := d
          refine ⟨d1, by simpa [T.ids] using d2, ⟨by simpa using d3.key, by simpa using d3.empty, fun k hk => ?_⟩, d4⟩
          have q := d3.same k (by simpa [T.ids, Ctx.pre, Ctx.post] using hk)
          simp [T.ids, Ctx.pre, Ctx.post] at hk
          simpa [Same, hk] using q

theorem lastR_spec {fuel : Nat} (ok : RepairOK fuel) {h : Heap} {c p sr si a li b up} {t : T} {n : Nat}
    (z : Zip h (.R c (.node black (.node red a li b) si sr) p up) t) (hp : h.parent t.ptr = .node p)
    (htb : t.col = black) (ht : RB t n) (hsr : RB sr n) (ha : RB a n) (hb : RB b n)
    (hcrb : CRB (.R c (.node black (.node red a li b) si sr) p up) (n + 1)) (hf : 1 ≤ fuel) :
    ∃ h' t', lastR fuel h t.ptr (.node si) = some h' ∧
      Done h h' (up.pre ++ (((a.ids ++ li :: b.ids) ++ si :: sr.ids) ++ p :: t.ids) ++ up.post) t' ∧
      t'.col = black := by
  have zp := Zip.upR.1 z
  have hpc : h.colour (.node p) = c := zp.rep.2.2.2.1
  have hsl : h.left (.node si) = .node li := (Zip.upL.2 zp).rep.2.1
  have z1 := (Zip.upL.2 zp).setColour c
  have z2 := (Zip.upL.1 z1).setColour black
  have z3 := (Zip.upL.2 (Zip.upL.2 z2)).setColour black
  obtain ⟨h4, e4, z4, k4⟩ := rotateRight_spec (Zip.upL.1 (Zip.upL.1 z3))
  have : ∃ N, RB (.node c (.node black a li b) si (.node black sr p t)) N ∧ CRB up N ∧
      (up.col = red → c = black) ∧ (up = .top → c = black) := by
    cases c with
    | black => exact ⟨n + 2, ⟨⟨ha, hb⟩, ⟨hsr, ht⟩⟩, hcrb.2, fun _ => rfl, fun _ => rfl⟩
    | red =>
      obtain ⟨q1, q2, q3, q4⟩ := hcrb
      refine ⟨n + 1, ⟨rfl, rfl, ⟨ha, hb⟩, ⟨hsr, ht⟩⟩, q4, ?_, ?_⟩
      · intro hc; cases up <;> simp_all [Ctx.BlackNode, Ctx.col]
      · rintro rfl; exact q3.elim
  obtain ⟨N, hN, hup, hc1, hc2⟩ := this
  obtain ⟨h', t', e, d, bl⟩ := ok.finish z4 hN hup hc1 hc2 hf
  refine ⟨h', t', ?_, ?_, bl⟩
  · rw [← e]
    simp [lastR, hp, hpc, hsl, e4]
  · obtain ⟨d1, d2, d3, d4⟩ := d
    refine ⟨d1, by simpa [T.ids] using d2, ⟨by simpa [k4.key] using d3.key, by simpa [k4.empty] using d3.empty, fun k hk => ?_⟩, d4⟩
    have q := d3.same k (by simpa [T.ids, Ctx.pre, Ctx.post] using hk)
    have q := (k4.same k (by simpa [T.ids, Ctx.pre, Ctx.post] using hk)).trans q
    simp [T.ids, Ctx.pre, Ctx.post] at hk
    simpa [Same, hk] using q

theorem restR_spec {fuel : Nat} (ok : RepairOK fuel) {h : Heap} {c p s up} {t : T} {n : Nat}
    (z : Zip h (.R c s p up) t) (hp : h.parent t.ptr = .node p)
    (htb : t.col = black) (ht : RB t n) (hsb : s.col = black)
    (hcrb : CRB (.R c s p up) (n + 1)) (hf : 1 ≤ fuel) (hf' : c = black → up.depth + 2 ≤ fuel) :
    ∃ h' t', restR fuel h t.ptr s.ptr = some h' ∧
      Done h h' (up.pre ++ (s.ids ++ p :: t.ids) ++ up.post) t' ∧ t'.col = black := by
  have hs : RB s (n + 1) := by
    cases c with
    | red => exact hcrb.2.1
    | black => exact hcrb.1
  cases s with
  | nil => simp [RB] at hs
  | node sc sl si sr =>
    cases hsb
    obtain ⟨hsl, hsr⟩ := hs
    have zp := Zip.upR.1 z
    have zs := Zip.upL.2 zp
    have hpc : h.colour (.node p) = c := zp.rep.2.2.2.1
    have hpp : h.parent (.node p) = up.ptr := zp.rep.1
    have sil : h.left (.node si) = sl.ptr := zs.rep.2.1
    have sir : h.right (.node si) = sr.ptr := zs.rep.2.2.1
    have slc : h.colour sl.ptr = sl.col := zs.rep.2.2.2.2.1.colour zs.emptyBlack
    have src : h.colour sr.ptr = sr.col := zs.rep.2.2.2.2.2.colour zs.emptyBlack
    simp only [T.ptr_node]
    cases hslc : sl.col with
    | red =>
      cases sl with
      | nil => cases hslc
      | node rc a li b =>
        cases hslc
        obtain ⟨-, -, ha, hb⟩ := hsl
        obtain ⟨h', t', e, d, bl⟩ := lastR_spec ok z hp htb ht hsr ha hb hcrb hf
        refine ⟨h', t', ?_, d, bl⟩
        rw [← e]
        simp only [T.ptr_node] at sil slc
        simp [restR, sir, sil, slc]
    | black =>
      cases hsrc : sr.col with
      | red =>
        cases sr with
        | nil => cases hsrc
        | node lc a ri b =>
          cases hsrc
          obtain ⟨ha0, hb0, ha, hb⟩ := hsr
          have z1 := (Zip.upR.2 zs).setColour black
          have z2 := (Zip.upR.1 z1).setColour red
          obtain ⟨h3, e3, z3, k3⟩ := rotateLeft_spec z2
          have z4 := Zip.upR.2 (Zip.upL.1 z3)
          have hp3 : h3.parent t.ptr = .node p := by
            cases t with
            | nil => simpa [k3.emptyParent] using hp
            | node tc tl ti tr => exact z4.rep.1
          have hr3 : h3.left (.node p) = .node ri := z4.crep.2.1
          obtain ⟨h', t', e, d, bl⟩ := lastR_spec ok z4 hp3 htb ht hb hsl ha (by
            cases c with
            | red => exact ⟨rfl, ⟨⟨hslc, ha0, hsl, ha⟩, hb⟩, hcrb.2.2.1, hcrb.2.2.2⟩
            | black => exact ⟨⟨⟨hslc, ha0, hsl, ha⟩, hb⟩, hcrb.2⟩) hf
          refine ⟨h', t', ?_, ?_, bl⟩
          · rw [← e]
            simp only [T.ptr_node] at sir src
            simp [restR, sir, sil, src, slc, hslc, e3, hp3, hr3]
          · obtain ⟨d1, d2, d3, d4⟩ := d
            refine ⟨d1, by simpa [T.ids] using d2, ⟨by simpa [k3.key] using d3.key, by simpa [k3.empty] using d3.empty, fun k hk => ?_⟩, d4⟩
            have q := d3.same k (by simpa [T.ids, Ctx.pre, Ctx.post] using hk)
            have q := (k3.same k (by simpa [T.ids, Ctx.pre, Ctx.post] using hk)).trans q
            simp [T.ids, Ctx.pre, Ctx.post] at hk
            simpa [Same, hk] using q
      | black =>
        have z1 := zs.setColour red
        have z2 := Zip.upL.1 z1
        have : Short (.node c (.node red sl si sr) p t) (n + (if c = black then 1 else 0)) ∧
            CRB up (n + (if c = black then 1 else 0) + 1) := by
          cases c with
          | red => exact ⟨⟨⟨hslc, hsrc, hsl, hsr⟩, ht⟩, hcrb.2.2.2⟩
          | black => exact ⟨⟨⟨hslc, hsrc, hsl, hsr⟩, ht⟩, hcrb.2⟩
        obtain ⟨h', t', e, d, bl⟩ := ok z2 (by simpa using hpp) this.1 this.2 hf
          (fun hc _ => hf' hc)
        refine ⟨h', t', ?_, ?_, bl⟩
        · rw [← e]
          simp [restR, sir, sil, src, slc, hsrc, hslc, hp]
        · obtain ⟨d1, d2, d3, d4⟩ := d
          refine ⟨d1, by simpa [T.ids] using d2, ⟨by simpa using d3.key, by simpa using d3.empty, fun k hk => ?_⟩, d4⟩
          have q := d3.same k (by simpa [T.ids, Ctx.pre, Ctx.post] using hk)
          simp [T.ids, Ctx.pre, Ctx.post] at hk
          simpa [Same, hk] using q

theorem CRep.first : ∀ {h : Heap} {ctx : Ctx} {q : Ptr}, CRep h ctx q → ctx ≠ .top →
    ∃ j, h.left .root = .node j ∧ (j ∈ ctx.pre ∨ j ∈ ctx.post) := by
  intro h ctx
  induction ctx with
  | top => intro q _ hn; exact absurd rfl hn
  | L c i r up ih =>
    intro q hc _
    cases up with
    | top => exact ⟨i, hc.2.2.2.2.2, by simp [Ctx.post]⟩
    | _ =>
      obtain ⟨j, h1, h2⟩ := ih hc.2.2.2.2.2 (by simp)
      exact ⟨j, h1, by simp only [Ctx.pre, Ctx.post, List.mem_append, List.mem_cons] at h2 ⊢; grind⟩
  | R c l i up ih =>
    intro q hc _
    cases up with
    | top => exact ⟨i, hc.2.2.2.2.2, by simp [Ctx.pre]⟩
    | _ =>
      obtain ⟨j, h1, h2⟩ := ih hc.2.2.2.2.2 (by simp)
      exact ⟨j, h1, by simp only [Ctx.pre, Ctx.post, List.mem_append, List.mem_cons] at h2 ⊢; grind⟩

theorem Zip.setEmptyBlack {h : Heap} {ctx : Ctx} {t : T} (z : Zip h ctx t) : Zip (h.sc .empty black) ctx t := by
  have key : ∀ j, Same h (h.sc .empty black) j := by intro j; simp [Same]
  exact ⟨z.crep.frame (fun j _ => key j) (by simp), z.rep.frame (fun j _ => key j), z.nodup,
    by simp [z.rootBlack], by simp⟩

theorem repairOK : ∀ fuel, RepairOK fuel := by
  intro fuel
  induction fuel with
  | zero => intro h ctx t n _ _ _ _ hf; omega
  | succ fuel ok =>
    intro h ctx t n z hp hs hcrb _ hf
    have htc : h.colour t.ptr = t.col := z.rep.colour z.emptyBlack
    by_cases hexit : t.col = black ∧ ctx ≠ .top
    · -- another round
      obtain ⟨hb, htop⟩ := hexit
      have hf := hf hb htop
      have ht := rb_of_short hs hb
      have nd := z.nodup
      simp only [List.nodup_append, List.mem_append] at nd
      have hne : t.ptr ≠ h.left .root := by
        obtain ⟨j, h1, h2⟩ := z.crep.first htop
        rw [h1]; exact T.ptr_ne_of_notMem (by grind)
      cases ctx with
      | top => exact absurd rfl htop
      | L c p s up =>
        have zp := Zip.upL.1 z
        have hpp : h.parent (.node p) = up.ptr := zp.rep.1
        have pl : h.left (.node p) = t.ptr := zp.rep.2.1
        have pr : h.right (.node p) = s.ptr := zp.rep.2.2.1
        have hsc : h.colour s.ptr = s.col := zp.rep.2.2.2.2.2.colour zp.emptyBlack
        simp only [Ctx.ptr_L] at hp
        simp only [Ctx.depth] at hf
        cases hsb : s.col with
        | black =>
          obtain ⟨h', t', e, d, bl⟩ := restL_spec ok z hp hb ht hsb hcrb (by omega) (by omega)
          refine ⟨h', t', ?_, by simpa [Ctx.pre, Ctx.post] using d, bl⟩
          rw [← e, deleteRepair_succ]
          simp [htc, hb, hne, hp, pl, pr, hsc, hsb]
        | red =>
          cases c with
          | red => exact absurd hcrb.1 (by simp [hsb])
          | black =>
            cases s with
            | nil => cases hsb
            | node sc sl si sr =>
              cases hsb
              obtain ⟨⟨q1, q2, q3, q4⟩, q5⟩ := hcrb
              have z1 := (Zip.upR.2 zp).setColour black
              have z2 := (Zip.upR.1 z1).setColour red
              obtain ⟨h3, e3, z3, k3⟩ := rotateLeft_spec z2
              have z4 := Zip.upL.2 (Zip.upL.2 z3)
              have hp3 : h3.parent t.ptr = .node p := by
                cases t with
                | nil => simpa [k3.emptyParent] using hp
                | node tc tl ti tr => exact z4.rep.1
              have pr3 : h3.right (.node p) = sl.ptr := z4.crep.2.2.1
              obtain ⟨h', t', e, d, bl⟩ := restL_spec ok z4 hp3 hb ht q1 ⟨q1, q3, rfl, ⟨q4, q5⟩⟩
                (by omega) (by simp)
              refine ⟨h', t', ?_, ?_, bl⟩
              · rw [← e, deleteRepair_succ]
                simp only [T.ptr_node] at pr hsc
                simp [htc, hb, hne, hp, pl, pr, hsc, e3, hp3, pr3]
              · obtain ⟨d1, d2, d3, d4⟩ := d
                refine ⟨d1, by simpa [T.ids, Ctx.pre, Ctx.post] using d2, ⟨by simpa [k3.key] using d3.key, by simpa [k3.empty] using d3.empty, fun k hk => ?_⟩, d4⟩
                have q := d3.same k (by simpa [T.ids, Ctx.pre, Ctx.post] using hk)
                have q := (k3.same k (by simpa [T.ids, Ctx.pre, Ctx.post] using hk)).trans q
                simp [T.ids, Ctx.pre, Ctx.post] at hk
                simpa [Same, hk] using q
      | R c s p up =>
        have zp := Zip.upR.1 z
        have hpp : h.parent (.node p) = up.ptr := zp.rep.1
        have pl : h.left (.node p) = s.ptr := zp.rep.2.1
        have pr : h.right (.node p) = t.ptr := zp.rep.2.2.1
        have hsc : h.colour s.ptr = s.col := zp.rep.2.2.2.2.1.colour zp.emptyBlack
        simp only [Ctx.ptr_R] at hp
        simp only [Ctx.depth] at hf
        have hsrb : RB s (n + 1) := by
          cases c with
          | red => exact hcrb.2.1
          | black => exact hcrb.1
        have hst : t.ptr ≠ s.ptr := by
          cases s with
          | nil => simp [RB] at hsrb
          | node sc sl si sr =>
            refine T.ptr_ne_of_notMem ?_
            simp only [Ctx.pre, Ctx.post, T.ids, List.mem_append, List.mem_cons] at nd
            grind
        cases hsb : s.col with
        | black =>
          obtain ⟨h', t', e, d, bl⟩ := restR_spec ok z hp hb ht hsb hcrb (by omega) (by omega)
          refine ⟨h', t', ?_, by simpa [Ctx.pre, Ctx.post] using d, bl⟩
          rw [← e, deleteRepair_succ]
          simp [htc, hb, hne, hp, pl, hsc, hsb, hst]
        | red =>
          cases c with
          | red => exact absurd hcrb.1 (by simp [hsb])
          | black =>
            cases s with
            | nil => cases hsb
            | node sc sl si sr =>
              cases hsb
              obtain ⟨⟨q1, q2, q3, q4⟩, q5⟩ := hcrb
              have z1 := (Zip.upL.2 zp).setColour black
              have z2 := (Zip.upL.1 z1).setColour red
              obtain ⟨h3, e3, z3, k3⟩ := rotateRight_spec z2
              have z4 := Zip.upR.2 (Zip.upR.2 z3)
              have hp3 : h3.parent t.ptr = .node p := by
                cases t with
                | nil => simpa [k3.emptyParent] using hp
                | node tc tl ti tr => exact z4.rep.1
              have pl3 : h3.left (.node p) = sr.ptr := z4.crep.2.1
              obtain ⟨h', t', e, d, bl⟩ := restR_spec ok z4 hp3 hb ht q2 ⟨q2, q4, rfl, ⟨q3, q5⟩⟩
                (by omega) (by simp)
              refine ⟨h', t', ?_, ?_, bl⟩
              · rw [← e, deleteRepair_succ]
                simp only [T.ptr_node] at pl hsc hst
                simp [htc, hb, hne, hp, pl, hsc, hst, e3, hp3, pl3]
              · obtain ⟨d1, d2, d3, d4⟩ := d
                refine ⟨d1, by simpa [T.ids, Ctx.pre, Ctx.post] using d2, ⟨by simpa [k3.key] using d3.key, by simpa [k3.empty] using d3.empty, fun k hk => ?_⟩, d4⟩
                have q := d3.same k (by simpa [T.ids, Ctx.pre, Ctx.post] using hk)
                have q := (k3.same k (by simpa [T.ids, Ctx.pre, Ctx.post] using hk)).trans q
                simp [T.ids, Ctx.pre, Ctx.post] at hk
                simpa [Same, hk] using q
    · -- the loop ends
      have hcond : ¬ (h.colour t.ptr = black ∧ t.ptr ≠ h.left .root) := by
        rintro ⟨h1, h2⟩
        refine hexit ⟨htc ▸ h1, ?_⟩
        rintro rfl
        exact h2 z.crep.symm
      have he : deleteRepair (fuel + 1) h t.ptr = some (h.sc t.ptr black) := by
        rw [deleteRepair_succ]
        simp only [colour?_tptr, left?_root, Option.bind_eq_bind, Option.bind_some, if_neg hcond, setColour_tptr]
      refine ⟨_, ctx.plug (match t with | .nil => .nil | .node _ l i r => .node black l i r), he, ?_⟩
      cases t with
      | nil =>
        have htop : ctx = .top := Classical.byContradiction fun hx => hexit ⟨rfl, hx⟩
        subst htop
        exact ⟨⟨z.setEmptyBlack, rfl, ⟨rfl, ⟨rfl, rfl⟩, fun _ _ => by simp [Same]⟩, ⟨n, hs⟩⟩, rfl⟩
      | node c l i r =>
        have z' := z.setColour black
        have hrb : RB (.node black l i r) (n + 1) ∨ (ctx = .top ∧ RB (.node black l i r) n) := by
          cases c with
          | red => exact .inl hs
          | black => exact .inr ⟨Classical.byContradiction fun hx => hexit ⟨rfl, hx⟩, hs⟩
        have : ∃ m, RB (ctx.plug (.node black l i r)) m ∧ (ctx.plug (.node black l i r)).col = black := by
          rcases hrb with hrb | ⟨rfl, hrb⟩
          · obtain ⟨m, hm, hb⟩ := RB.plug hcrb hrb (fun _ => rfl)
            refine ⟨m, hm, ?_⟩
            cases ctx with
            | top => rfl
            | _ => exact hb (by simp)
          · exact ⟨n, hrb, rfl⟩
        obtain ⟨m, hm, hb⟩ := this
        refine ⟨⟨Zip.plug.1 z', by rw [Ctx.ids_plug]; rfl, ⟨rfl, ⟨rfl, rfl⟩, fun k hk => ?_⟩, ⟨m, hm⟩⟩, hb⟩
        simp [T.ids] at hk
        simp [Same, hk]

end Verif.Tree
