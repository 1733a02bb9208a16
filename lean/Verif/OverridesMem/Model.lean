import Verif.Overrides.Model

/-! # The memory of the override values of `overrides.c`

`Verif.Overrides.Model` lets an item hold its text and takes memory as available. Here each item has a buffer that
is allocated, reused and freed, every allocation may fail, and what is read back are the bytes in the buffer. -/

namespace Verif.OverridesMem
open Verif.Overrides (Text toInt16)

/-- A byte of a block; `none` is an indeterminate value. -/
abbrev Byte := Option UInt8

/-- The heap: the number of calls of `Malloc` so far, which names the next block, and the bytes of each block
that is allocated. -/
structure Heap where
  next : Nat
  live : Nat → Option (List Byte)

/-- The map with one place changed. -/
def upd (f : Nat → Option (List Byte)) (b : Nat) (v : Option (List Byte)) : Nat → Option (List Byte) :=
  fun x => if x = b then v else f x

/-- `Malloc`; `alloc k` tells that the `k`th allocation succeeds. The bytes of a new block are indeterminate. -/
def malloc (alloc : Nat → Bool) (h : Heap) (n : Nat) : Option Nat × Heap :=
  if alloc h.next then (some h.next, ⟨h.next + 1, upd h.live h.next (some (List.replicate n none))⟩)
  else (none, { h with next := h.next + 1 })

/-- `Free`; freeing what is not allocated is undefined, freeing NULL does nothing. -/
def free (h : Heap) : Option Nat → UB Heap
  | none => some h
  | some b => match h.live b with
    | none => none
    | some _ => some { h with live := upd h.live b none }

/-- `memcpy`/`memset`/a store to a block from byte `off`: undefined outside the block. -/
def write (h : Heap) (b off : Nat) (bytes : List Byte) : UB Heap :=
  match h.live b with
  | none => none
  | some old =>
    if off + bytes.length ≤ old.length then
      some { h with live := upd h.live b (some (old.take off ++ bytes ++ old.drop (off + bytes.length))) }
    else none

/-- Reading a C string: the bytes before the terminator; an indeterminate byte or the end of the block before it
is undefined. -/
def readText : List Byte → UB CStr
  | [] => none
  | none :: _ => none
  | some c :: rest => if c = 0 then some [] else (readText rest).map (c :: ·)

/-- Reading a `String` (string.h:107-120, packed): the two bytes of `size`, little endian, and the text from
`value` on. -/
def readString (h : Heap) (p : Nat) : UB Text :=
  match h.live p with
  | some (some lo :: some hi :: rest) => (readText rest).map fun t => ⟨toInt16 (lo.toNat + 256 * hi.toNat), t⟩
  | _ => none

/-- `fiftyoneDegreesOverrideValue`, overrides.h:89-93, with the pointer and `allocated` of its `Data`; `used` is
only ever set to 0 and is left out. -/
structure Slot where
  idx : Nat
  ptr : Option Nat
  allocated : Nat
deriving DecidableEq, Repr

/-- `fiftyoneDegreesOverrideValueArray`, overrides.h:101-104: its block, and what the block holds. -/
structure Arr where
  self : Nat
  capacity : Nat
  count : Nat
  items : List Slot
deriving DecidableEq, Repr

/-- `sizeof(String)`: 2 for the size, 1 for the first character and 8 for the coordinate (string.h:107-120). -/
def SIZEOF_STRING : Nat := 11

/-- The first statement of `fiftyoneDegreesDataMalloc`, data.c:34-39: a buffer too small is freed. -/
def dropSmall (h : Heap) (s : Slot) (n : Nat) : UB (Heap × Slot) :=
  if s.allocated > 0 ∧ n > s.allocated then (free h s.ptr).map fun h => (h, { s with ptr := none, allocated := 0 })
  else some (h, s)

/-- The second statement of `fiftyoneDegreesDataMalloc`, data.c:40-45; `allocated` is a `uint32_t`. -/
def allocate (alloc : Nat → Bool) (h : Heap) (s : Slot) (n : Nat) : Heap × Slot :=
  if s.allocated = 0 then
    match malloc alloc h n with
    | (some p, h) => (h, { s with ptr := some p, allocated := n % 4294967296 })
    | (none, h) => (h, { s with ptr := none })
  else (h, s)

/-- `fiftyoneDegreesDataMalloc`, data.c:31-47, on the data of a slot. -/
def dataMalloc (alloc : Nat → Bool) (h : Heap) (s : Slot) (n : Nat) : UB (Heap × Slot) :=
  (dropSmall h s n).map fun p => allocate alloc p.1 p.2 n

/-- The bytes of a C string with its terminator. -/
def textBytes (value : CStr) : List Byte := (value ++ [0]).map some

/-- The bytes of `(int16_t)n`, overrides.c:164. -/
def sizeBytes (n : Nat) : List Byte := [some (UInt8.ofNat n), some (UInt8.ofNat (n / 256))]

/-- overrides.c:163-164: the text, then the size; through a NULL pointer undefined. -/
def store (h : Heap) (value : CStr) : Option Nat → UB Heap
  | none => none
  | some p => (write h p 2 (textBytes value)).bind fun h => write h p 0 (sizeBytes (value.length + 1))

/-- overrides.c:155-164: the memory for the text, which is not checked, and the copy. -/
def addText (alloc : Nat → Bool) (h : Heap) (s : Slot) (value : CStr) : UB (Heap × Slot) :=
  (dataMalloc alloc h s (SIZEOF_STRING + value.length)).bind fun p =>
    (store p.1 value p.2.ptr).map fun h => (h, p.2)

/-- The search loop, overrides.c:142-146, with the items still to be looked at; beyond the items undefined. -/
def find (idx : Nat) : Nat → List Slot → UB Nat
  | 0, _ => some 0
  | _ + 1, [] => none
  | c + 1, s :: rest => if s.idx ≠ idx then (find idx c rest).map (· + 1) else some 0

/-- overrides.c:147-164 at item `i`. -/
def addAt (alloc : Nat → Bool) (h : Heap) (a : Arr) (idx : Nat) (value : CStr) (i : Nat) : UB (Heap × Arr) :=
  match a.items[i]? with
  | none => none
  | some s =>
    (addText alloc h (if i = a.count then { s with idx := idx } else s) value).map fun p =>
      (p.1, { a with count := if i = a.count then a.count + 1 else a.count, items := a.items.set i p.2 })

/-- `fiftyoneDegreesOverridesAdd`, overrides.c:129-169, without its result (`C25` has that). The array must be
allocated. -/
def add (alloc : Nat → Bool) (h : Heap) (a : Arr) (idx : Int) (value : CStr) : UB (Heap × Arr) :=
  if (h.live a.self).isNone then none
  else if idx ≥ 0 ∧ a.count < a.capacity then
    (find idx.toNat a.count a.items).bind fun i => addAt alloc h a idx.toNat value i
  else some (h, a)

/-- `fiftyoneDegreesOverrideValuesCreate`, overrides.c:216-230; the items are in the array's block, whose bytes
are not modelled. -/
def create (alloc : Nat → Bool) (h : Heap) (capacity : Nat) : Option Arr × Heap :=
  match malloc alloc h 0 with
  | (none, h) => (none, h)
  | (some b, h) => (some ⟨b, capacity, 0, List.replicate capacity ⟨0, none, 0⟩⟩, h)

/-- The loop of `fiftyoneDegreesOverrideValuesGetFirst`, overrides.c:279-294, giving the pointer put into the
item. -/
def getLoop (idx : Nat) : Nat → List Slot → UB (Option Nat)
  | 0, _ => some none
  | _ + 1, [] => none
  | c + 1, s :: rest => if s.idx = idx then some s.ptr else getLoop idx c rest

/-- `fiftyoneDegreesOverrideValuesGetFirst`, overrides.c:273-297, on an array that is not NULL. -/
def getFirst (h : Heap) (a : Arr) (idx : Nat) : UB (Option Nat) :=
  if (h.live a.self).isNone then none else getLoop idx a.count a.items

/-- The body of the loop of `fiftyoneDegreesOverrideValuesReset`, overrides.c:395-400. -/
def resetSlot (h : Heap) (s : Slot) : UB (Heap × Slot) :=
  match s.ptr with
  | none => some (h, s)
  | some p =>
    if s.allocated > 0 then
      (write h p 0 (List.replicate s.allocated (some 0))).map fun h => (h, { s with idx := 0 })
    else some (h, s)

/-- The loop of `fiftyoneDegreesOverrideValuesReset`, overrides.c:394-401. -/
def resetLoop (h : Heap) : List Slot → UB (Heap × List Slot)
  | [] => some (h, [])
  | s :: rest => (resetSlot h s).bind fun p => (resetLoop p.1 rest).map fun q => (q.1, p.2 :: q.2)

/-- `fiftyoneDegreesOverrideValuesReset`, overrides.c:389-404. -/
def reset (h : Heap) (a : Arr) : UB (Heap × Arr) :=
  if (h.live a.self).isNone then none
  else (resetLoop h a.items).map fun p => (p.1, { a with count := 0, items := p.2 })

/-- The body of the loop of `fiftyoneDegreesOverrideValuesFree`, overrides.c:379-382. -/
def freeSlot (h : Heap) (s : Slot) : UB Heap :=
  if s.ptr ≠ none ∧ s.allocated > 0 then free h s.ptr else some h

/-- The loop of `fiftyoneDegreesOverrideValuesFree`, overrides.c:378-383. -/
def freeLoop (h : Heap) : List Slot → UB Heap
  | [] => some h
  | s :: rest => (freeSlot h s).bind fun h => freeLoop h rest

/-- `fiftyoneDegreesOverrideValuesFree`, overrides.c:373-387, on an array that is not NULL. -/
def valuesFree (h : Heap) (a : Arr) : UB Heap :=
  if (h.live a.self).isNone then none else (freeLoop h a.items).bind fun h => free h (some a.self)

end Verif.OverridesMem
