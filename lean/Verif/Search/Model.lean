import Verif.Base

/-! # Model of `fiftyoneDegreesCollectionBinarySearch` (collection.c) -/

namespace Verif.Search

/-- The collection as the search uses it. `get i` is the item, `none` when `collection->get` returns NULL, and then
`raises i` says whether it also sets an exception (it does not when the cache is full, `C13_full_violated`); `cmp x i` is
the comparer's result for item `x` at index `i`, `none` when it sets an exception. -/
structure Coll (α : Type) where
  get : Nat → Option α
  cmp : α → Nat → Option Int
  raises : Nat → Bool := fun _ => true

/-- What a search did: its return value, whether an exception was set, the indexes fetched (in order), and
the index of the item still held on return, if any. -/
structure Out where
  ret : Int
  error : Bool
  touched : List Nat
  held : Option Nat
deriving DecidableEq, Repr

/-- The loop of `fiftyoneDegreesCollectionBinarySearch`, collection.c:1189-1224, for at most `fuel` rounds
(`none`: not finished). Indexes are `uint32_t`. -/
def loop {α : Type} (c : Coll α) : Nat → Nat → Nat → List Nat → Option Out
  | 0, _, _, _ => none
  | fuel + 1, lower, upper, touched =>
    if lower ≤ upper then
      let middle := lower + (upper - lower) / 2
      match c.get middle with
      | none => some ⟨0, c.raises middle, touched ++ [middle], none⟩
      | some x =>
        match c.cmp x middle with
        | none => some ⟨0, true, touched ++ [middle], some middle⟩
        | some r =>
          if r = 0 then some ⟨middle, false, touched ++ [middle], some middle⟩
          else if r > 0 then
            if middle ≠ 0 then loop c fuel lower (middle - 1) (touched ++ [middle])
            else loop c fuel ((lower + 1) % 2 ^ 32) upper (touched ++ [middle])
          else loop c fuel ((middle + 1) % 2 ^ 32) upper (touched ++ [middle])
    else some ⟨-1, false, touched, none⟩

/-- `fiftyoneDegreesCollectionBinarySearch`, collection.c:1177-1228. -/
def search {α : Type} (c : Coll α) (fuel lower upper : Nat) : Option Out := loop c fuel lower upper []

end Verif.Search
