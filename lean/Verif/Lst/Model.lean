import Verif.Base

/-! # Model of `list.c` -/

namespace Verif.Lst

/-- `fiftyoneDegreesList` (list.h): whether `items` is not NULL, the capacity and the `count` items in use
(collection items are identified by numbers), together with what the outside has seen: items released to
their collections in order, arrays allocated and arrays freed. -/
structure St where
  array : Bool
  capacity : Nat
  items : List Nat
  released : List Nat
  allocs : Nat
  frees : Nat
deriving DecidableEq, Repr

/-- Operations on a list. `init`'s flag says whether memory is available. -/
inductive Op where
  | init (capacity : Nat) (ok : Bool)
  | add (item : Nat)
  | reset
  | release
  | free
deriving DecidableEq, Repr

/-- `fiftyoneDegreesListInit`, list.c:27-37. -/
def init (s : St) (capacity : Nat) (ok : Bool) : St :=
  if ok then { s with array := true, capacity := capacity, items := [], allocs := s.allocs + 1 }
  else { s with array := false }

/-- `fiftyoneDegreesListAdd`, list.c:39-45. The asserts are compiled out in release builds, so adding to a
full list writes past the array. -/
def add (s : St) (item : Nat) : UB St :=
  if s.array = true ∧ s.items.length < s.capacity then some { s with items := s.items ++ [item] } else none

/-- `fiftyoneDegreesListReset`, list.c:53-57. -/
def reset (s : St) : St := { s with capacity := 0, items := [], array := false }

/-- `fiftyoneDegreesListRelease`, list.c:59-65. -/
def release (s : St) : St := { s with released := s.released ++ s.items, items := [] }

/-- `fiftyoneDegreesListFree`, list.c:67-74. -/
def free (s : St) : St :=
  let s := release s
  let s := if s.array then { s with frees := s.frees + 1 } else s
  { s with array := false, capacity := 0 }

/-- One operation. -/
def step (s : St) : Op → UB St
  | .init c ok => some (init s c ok)
  | .add i => add s i
  | .reset => some (reset s)
  | .release => some (release s)
  | .free => some (free s)

/-- A sequence of operations. -/
def run (s : St) : List Op → UB St
  | [] => some s
  | o :: os => (step s o).bind fun s => run s os

/-- An uninitialised structure that has been reset. -/
def start : St := ⟨false, 0, [], [], 0, 0⟩

end Verif.Lst
