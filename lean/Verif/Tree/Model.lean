/-! # Model of the red black tree (tree.c)

The tree is modelled at pointer level: a heap of node structures whose `parent`, `left` and `right` fields are
pointers which the functions read and overwrite in the order the C code does. One tree is modelled, so every
node's `root` field is the same structure and `TREE_EMPTY(n)`, `TREE_ROOT(n)` (tree.c:37, 40) are the constants
`Ptr.empty` and `Ptr.root`. Dereferencing NULL is undefined behaviour (`none`). Loops take a number of rounds
(`fuel`) and give `none` when they are not finished by then; the theorems say how many rounds suffice. -/

namespace Verif.Tree

/-- A pointer to a node: NULL, the `root` or the `empty` member of `fiftyoneDegreesTreeRoot` (tree.h:87-90),
or one of the caller's nodes. -/
inductive Ptr where
  | null
  | root
  | empty
  | node (i : Nat)
deriving DecidableEq, Repr

/-- `COLOUR_RED` and `COLOUR_BLACK`, tree.c:33-34. -/
inductive Colour where
  | red
  | black
deriving DecidableEq, Repr

/-- The fields of all nodes, tree.h:77-84 (`root` is constant, see above). Keys are `int64_t` values, which the
code only compares. -/
structure Heap where
  key : Ptr → Int
  parent : Ptr → Ptr
  left : Ptr → Ptr
  right : Ptr → Ptr
  colour : Ptr → Colour

/-- A write to one field. -/
def upd {α : Type} (f : Ptr → α) (p : Ptr) (v : α) : Ptr → α := fun x => if x = p then v else f x

namespace Heap

/-- `p->key`. -/
def key? (h : Heap) (p : Ptr) : Option Int := if p = .null then none else some (h.key p)
/-- `p->parent`. -/
def parent? (h : Heap) (p : Ptr) : Option Ptr := if p = .null then none else some (h.parent p)
/-- `p->left`. -/
def left? (h : Heap) (p : Ptr) : Option Ptr := if p = .null then none else some (h.left p)
/-- `p->right`. -/
def right? (h : Heap) (p : Ptr) : Option Ptr := if p = .null then none else some (h.right p)
/-- `p->colour`. -/
def colour? (h : Heap) (p : Ptr) : Option Colour := if p = .null then none else some (h.colour p)

/-- The heap after `p->key = v`. -/
def sk (h : Heap) (p : Ptr) (v : Int) : Heap := { h with key := upd h.key p v }
/-- The heap after `p->parent = v`. -/
def sp (h : Heap) (p : Ptr) (v : Ptr) : Heap := { h with parent := upd h.parent p v }
/-- The heap after `p->left = v`. -/
def sl (h : Heap) (p : Ptr) (v : Ptr) : Heap := { h with left := upd h.left p v }
/-- The heap after `p->right = v`. -/
def sr (h : Heap) (p : Ptr) (v : Ptr) : Heap := { h with right := upd h.right p v }
/-- The heap after `p->colour = v`. -/
def sc (h : Heap) (p : Ptr) (v : Colour) : Heap := { h with colour := upd h.colour p v }

/-- `p->parent = v`. -/
def setParent (h : Heap) (p v : Ptr) : Option Heap := if p = .null then none else some (h.sp p v)
/-- `p->left = v`. -/
def setLeft (h : Heap) (p v : Ptr) : Option Heap := if p = .null then none else some (h.sl p v)
/-- `p->right = v`. -/
def setRight (h : Heap) (p v : Ptr) : Option Heap := if p = .null then none else some (h.sr p v)
/-- `p->colour = v`. -/
def setColour (h : Heap) (p : Ptr) (v : Colour) : Option Heap :=
  if p = .null then none else some (h.sc p v)
/-- `p->key = v`. -/
def setKey (h : Heap) (p : Ptr) (v : Int) : Option Heap := if p = .null then none else some (h.sk p v)

end Heap

open Colour

/-- `if (node == node->parent->left) node->parent->left = child; else node->parent->right = child;`, the
replacement step of tree.c:62-67, 86-91, 323-330 and 339-344. -/
def replaceInParent (h : Heap) (node child : Ptr) : Option Heap := do
  if node = (← h.left? (← h.parent? node)) then
    h.setLeft (← h.parent? node) child
  else
    h.setRight (← h.parent? node) child

/-- `rotateLeft`, tree.c:53-71. -/
def rotateLeft (h : Heap) (node : Ptr) : Option Heap := do
  let child ← h.right? node
  let h ← h.setRight node (← h.left? child)
  let h ← if (← h.left? child) ≠ .empty then h.setParent (← h.left? child) node else pure h
  let h ← h.setParent child (← h.parent? node)
  let h ← replaceInParent h node child
  let h ← h.setLeft child node
  h.setParent node child

/-- `rotateRight`, tree.c:77-95. -/
def rotateRight (h : Heap) (node : Ptr) : Option Heap := do
  let child ← h.left? node
  let h ← h.setLeft node (← h.right? child)
  let h ← if (← h.right? child) ≠ .empty then h.setParent (← h.right? child) node else pure h
  let h ← h.setParent child (← h.parent? node)
  let h ← replaceInParent h node child
  let h ← h.setRight child node
  h.setParent node child

/-- The three assignments of the red uncle case, tree.c:108-111 and 124-127 (the caller then moves to the
grandparent). -/
def recolour (h : Heap) (node uncle : Ptr) : Option Heap := do
  let h ← h.setColour (← h.parent? node) black
  let h ← h.setColour uncle black
  h.setColour (← h.parent? (← h.parent? node)) red

/-- `insertRepair`, tree.c:101-142. -/
def insertRepair : Nat → Heap → Ptr → Option Heap
  | 0, _, _ => none
  | fuel + 1, h, node => do
    if (← h.colour? (← h.parent? node)) = red then
      if (← h.parent? node) = (← h.left? (← h.parent? (← h.parent? node))) then
        let uncle ← h.right? (← h.parent? (← h.parent? node))
        if (← h.colour? uncle) = red then
          let h ← recolour h node uncle
          insertRepair fuel h (← h.parent? (← h.parent? node))
        else
          let (node, h) ← if node = (← h.right? (← h.parent? node)) then do
              let node ← h.parent? node
              let h ← rotateLeft h node
              pure (node, h)
            else pure (node, h)
          let h ← h.setColour (← h.parent? node) black
          let h ← h.setColour (← h.parent? (← h.parent? node)) red
          let h ← rotateRight h (← h.parent? (← h.parent? node))
          insertRepair fuel h node
      else
        let uncle ← h.left? (← h.parent? (← h.parent? node))
        if (← h.colour? uncle) = red then
          let h ← recolour h node uncle
          insertRepair fuel h (← h.parent? (← h.parent? node))
        else
          let (node, h) ← if node = (← h.left? (← h.parent? node)) then do
              let node ← h.parent? node
              let h ← rotateRight h node
              pure (node, h)
            else pure (node, h)
          let h ← h.setColour (← h.parent? node) black
          let h ← h.setColour (← h.parent? (← h.parent? node)) red
          let h ← rotateLeft h (← h.parent? (← h.parent? node))
          insertRepair fuel h node
    else pure h

/-- The loop of `successor` down the left edge, tree.c:152-154. -/
def leftmost : Nat → Heap → Ptr → Option Ptr
  | 0, _, _ => none
  | fuel + 1, h, s => do
    if (← h.left? s) ≠ .empty then leftmost fuel h (← h.left? s) else pure s

/-- The loop of `successor` up to the first ancestor reached from the left, tree.c:157-161. -/
def climb : Nat → Heap → Ptr → Ptr → Option Ptr
  | 0, _, _, _ => none
  | fuel + 1, h, node, s => do
    if node = (← h.right? s) then climb fuel h s (← h.parent? s) else pure s

/-- `successor`, tree.c:149-167. -/
def successor (fuel : Nat) (h : Heap) (node : Ptr) : Option Ptr := do
  let s ← h.right? node
  if s ≠ .empty then leftmost fuel h s
  else
    let s ← climb fuel h node (← h.parent? node)
    if s = .root then pure .empty else pure s

/-- `deleteRepair`, tree.c:173-233. The two colours of tree.c:184-185 (and 211-212) are both read, where C stops
after the first when it is red; reading a colour changes nothing. -/
def deleteRepair : Nat → Heap → Ptr → Option Heap
  | 0, _, _ => none
  | fuel + 1, h, node => do
    if (← h.colour? node) = black ∧ node ≠ (← h.left? .root) then
      if node = (← h.left? (← h.parent? node)) then
        let sibling ← h.right? (← h.parent? node)
        let (sibling, h) ← if (← h.colour? sibling) = red then do
            let h ← h.setColour sibling black
            let h ← h.setColour (← h.parent? node) red
            let h ← rotateLeft h (← h.parent? node)
            pure (← h.right? (← h.parent? node), h)
          else pure (sibling, h)
        if (← h.colour? (← h.right? sibling)) = black ∧ (← h.colour? (← h.left? sibling)) = black then
          let h ← h.setColour sibling red
          deleteRepair fuel h (← h.parent? node)
        else
          let (sibling, h) ← if (← h.colour? (← h.right? sibling)) = black then do
              let h ← h.setColour (← h.left? sibling) black
              let h ← h.setColour sibling red
              let h ← rotateRight h sibling
              pure (← h.right? (← h.parent? node), h)
            else pure (sibling, h)
          let h ← h.setColour sibling (← h.colour? (← h.parent? node))
          let h ← h.setColour (← h.parent? node) black
          let h ← h.setColour (← h.right? sibling) black
          let h ← rotateLeft h (← h.parent? node)
          deleteRepair fuel h (← h.left? .root)
      else
        let sibling ← h.left? (← h.parent? node)
        let (sibling, h) ← if (← h.colour? sibling) = red then do
            let h ← h.setColour sibling black
            let h ← h.setColour (← h.parent? node) red
            let h ← rotateRight h (← h.parent? node)
            pure (← h.left? (← h.parent? node), h)
          else pure (sibling, h)
        if (← h.colour? (← h.right? sibling)) = black ∧ (← h.colour? (← h.left? sibling)) = black then
          let h ← h.setColour sibling red
          deleteRepair fuel h (← h.parent? node)
        else
          let (sibling, h) ← if (← h.colour? (← h.left? sibling)) = black then do
              let h ← h.setColour (← h.right? sibling) black
              let h ← h.setColour sibling red
              let h ← rotateLeft h sibling
              pure (← h.left? (← h.parent? node), h)
            else pure (sibling, h)
          let h ← h.setColour sibling (← h.colour? (← h.parent? node))
          let h ← h.setColour (← h.parent? node) black
          let h ← h.setColour (← h.left? sibling) black
          let h ← rotateRight h (← h.parent? node)
          deleteRepair fuel h (← h.left? .root)
    else h.setColour node black

/-- `iterate`, tree.c:245-257, giving the nodes for which the callback is called, in order. The recursion depth
is bounded by `fuel`; the failing `assert`s of a debug build are `none`. -/
def iterate : Nat → Heap → Ptr → Option (List Ptr)
  | 0, _, _ => none
  | fuel + 1, h, node => do
    if node ≠ .empty then
      let a ← if (← h.left? node) ≠ .empty then do
          if (← h.key? node) > (← h.key? (← h.left? node)) then iterate fuel h (← h.left? node) else none
        else pure []
      let b ← if (← h.right? node) ≠ .empty then do
          if (← h.key? node) < (← h.key? (← h.right? node)) then iterate fuel h (← h.right? node) else none
        else pure []
      pure (a ++ b ++ [node])
    else pure []

/-- The loop of `fiftyoneDegreesTreeFind`, tree.c:264-269. -/
def findFrom : Nat → Heap → Int → Ptr → Option Ptr
  | 0, _, _, _ => none
  | fuel + 1, h, key, node => do
    if node ≠ .empty then
      if key = (← h.key? node) then pure node
      else if key < (← h.key? node) then findFrom fuel h key (← h.left? node)
      else findFrom fuel h key (← h.right? node)
    else pure .null

/-- `fiftyoneDegreesTreeFind`, tree.c:259-272. -/
def find (fuel : Nat) (h : Heap) (key : Int) : Option Ptr := do findFrom fuel h key (← h.left? .root)

/-- The loop of `fiftyoneDegreesTreeInsert`, tree.c:279-285, giving `parent`. The failing `assert` of a debug
build (equal keys) is `none`. -/
def descend : Nat → Heap → Ptr → Ptr → Ptr → Option Ptr
  | 0, _, _, _, _ => none
  | fuel + 1, h, node, current, parent => do
    if current ≠ .empty then
      if (← h.key? node) = (← h.key? current) then none
      else if (← h.key? node) < (← h.key? current) then descend fuel h node (← h.left? current) current
      else descend fuel h node (← h.right? current) current
    else pure parent

/-- Setting up the new leaf, tree.c:287-298. -/
def linkLeaf (h : Heap) (node parent : Ptr) : Option Heap := do
  let h ← h.setLeft node .empty
  let h ← h.setRight node .empty
  let h ← h.setParent node parent
  let h ← if parent = .root ∨ (← h.key? node) < (← h.key? parent) then h.setLeft parent node
    else h.setRight parent node
  h.setColour node red

/-- `fiftyoneDegreesTreeInsert`, tree.c:274-303. -/
def insert (fuel : Nat) (h : Heap) (node : Ptr) : Option Heap := do
  let parent ← descend fuel h node (← h.left? .root) .root
  let h ← linkLeaf h node parent
  let h ← insertRepair fuel h node
  h.setColour (← h.left? .root) black

/-- Unlinking `y`, whose only subtree is `x`, tree.c:318-331. -/
def unlink (h : Heap) (y x : Ptr) : Option Heap := do
  let h ← h.setParent x (← h.parent? y)
  if (← h.parent? x) = .root then h.setLeft .root x else replaceInParent h y x

/-- Putting `y` in the place of `node`, tree.c:336-345. -/
def takePlace (h : Heap) (node y : Ptr) : Option Heap := do
  let h ← h.setLeft y (← h.left? node)
  let h ← h.setRight y (← h.right? node)
  let h ← h.setParent y (← h.parent? node)
  let h ← h.setColour y (← h.colour? node)
  let h ← h.setParent (← h.left? node) y
  let h ← h.setParent (← h.right? node) y
  replaceInParent h node y

/-- `fiftyoneDegreesTreeDelete`, tree.c:305-347. -/
def delete (fuel : Nat) (h : Heap) (node : Ptr) : Option Heap := do
  let y ← if (← h.left? node) = .empty ∨ (← h.right? node) = .empty then pure node
    else successor fuel h node
  let x ← if (← h.left? y) = .empty then h.right? y else h.left? y
  let h ← unlink h y x
  let h ← if (← h.colour? y) = black then deleteRepair fuel h x else pure h
  if y ≠ node then takePlace h node y else pure h

/-- `fiftyoneDegreesTreeNodeRemove`, tree.c:349-354. -/
def nodeRemove (h : Heap) (node : Ptr) : Option Heap := do
  let h ← h.setLeft node .empty
  let h ← h.setRight node .empty
  let h ← h.setParent node .empty
  h.setColour node black

/-- `fiftyoneDegreesTreeRootInit`, tree.c:356-369. -/
def rootInit (h : Heap) : Heap :=
  let h := ((((h.sc .empty black).sl .empty .empty).sr .empty .empty).sp .empty .null).sk .empty 0
  ((((h.sc .root black).sl .root .empty).sr .root .empty).sp .root .null).sk .root 0

/-- `fiftyoneDegreesTreeNodeInit`, tree.c:371-377. -/
def nodeInit (h : Heap) (node : Ptr) : Option Heap := do nodeRemove (← h.setKey node 0) node

/-- `fiftyoneDegreesTreeIterateNodes`, tree.c:379-384, giving the nodes visited, in order. -/
def iterateNodes (fuel : Nat) (h : Heap) : Option (List Ptr) := do iterate fuel h (← h.left? .root)

/-- `fiftyoneDegreesTreeCount`, tree.c:386-390 with `increaseCount`, tree.c:238-240 (a `uint32_t`). -/
def count (fuel : Nat) (h : Heap) : Option Nat := do
  pure ((← iterateNodes fuel h).foldl (fun n _ => (n + 1) % 2 ^ 32) 0)

end Verif.Tree
