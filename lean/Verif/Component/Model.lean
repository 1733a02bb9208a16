import Verif.Base

/-! # Model of `component.c` over a memory image -/

namespace Verif.Component

/-- Byte `i` of the image; undefined outside it. -/
def byteAt (image : List UInt8) (i : Nat) : UB Nat := (image[i]?).map UInt8.toNat

/-- A little-endian `uint16_t`. -/
def read16 (image : List UInt8) (i : Nat) : UB Nat := do
  let a ← byteAt image i
  let b ← byteAt image (i + 1)
  some (a + 256 * b)

/-- A little-endian `uint32_t`. -/
def read32 (image : List UInt8) (i : Nat) : UB Nat := do
  let a ← read16 image i
  let b ← read16 image (i + 2)
  some (a + 65536 * b)

/-- `component->keyValuesCount` of the component at offset `a` (packed structure, component.h:79-92). -/
def keyValuesCount (image : List UInt8) (a : Nat) : UB Nat := read16 image (a + 9)

/-- The conversion of an unsigned number to `int32_t`. -/
def toInt32 (n : Nat) : Int := if n % 2 ^ 32 < 2 ^ 31 then (n % 2 ^ 32 : Nat) else ((n % 2 ^ 32 : Nat) : Int) - 2 ^ 32

/-- `getFinalComponentSize`, component.c:27-31: `(count - 1) * sizeof(pair)` is a `size_t` product;
`sizeof(Component)` is 19. -/
def finalSize (count : Nat) : Nat :=
  let trailing := toInt32 ((((count : Int) - 1) % 2 ^ 64).toNat * 8 % 2 ^ 64)
  ((19 + trailing) % 2 ^ 32).toNat

/-- `fiftyoneDegreesComponentGetKeyValuePair`, component.c:65-76, on the component at offset `a`: the offset of
the pair (it starts 11 bytes into the structure, 8 bytes each); the inner `none` is NULL with the exception. -/
def getKeyValuePair (image : List UInt8) (a index : Nat) : UB (Option Nat) := do
  let n ← keyValuesCount image a
  if index > n then some none else some (some (a + 11 + 8 * index))

/-- Reading the key and value of a pair through the pointer returned. -/
def readPair (image : List UInt8) (p : Nat) : UB (Nat × Nat) := do
  let k ← read32 image p
  let v ← read32 image (p + 4)
  some (k, v)

/-- The loop of `fiftyoneDegreesComponentInitList`, component.c:107-122, over a memory collection
(`getMemoryVariable`, collection.c:186-202): the offsets of the items in the list and whether an exception is
set. `n` is the number of components still to add. -/
def initLoop (image : List UInt8) : (n offset : Nat) → UB (List Nat × Bool)
  | 0, _ => some ([], false)
  | n + 1, offset =>
    if offset < image.length then do
      let c ← keyValuesCount image offset
      let (l, e) ← initLoop image n ((offset + finalSize c) % 2 ^ 32)
      some (offset :: l, e)
    else some ([], true)

/-- `fiftyoneDegreesComponentInitList`, component.c:98-124, when the list can be allocated. -/
def initList (image : List UInt8) (count : Nat) : UB (List Nat × Bool) := initLoop image count 0

end Verif.Component
