import Verif.Properties.Model

/-! # The memory of `properties.c`: names held, evidence arrays, failing reads and allocations

The model in `Verif.Properties.Model` takes the names of the data set as a list that can always be read. Here
every call of the caller's methods is a step that may fail, every name got is a handle to a collection item that
has to be given back, and every allocation may fail. -/

namespace Verif.Avail
open Verif.Properties (strnicmp isSeparator)

/-- The caller's side of `properties.c`: `propertiesSource` (properties.c:37-44) and the allocator.
`names` are the data set's property names; `fails k` tells that the `k`th call of `getName` returns NULL though
there may be a property (a failed read of the data file); `owned` tells that the items have a collection
(`item->collection != NULL`); `count i` is what `getEvidence` returns for property `i` when asked for the count
and `fill i` what it writes when given the array; `alloc k` tells that the `k`th allocation succeeds. -/
structure Source where
  names : List CStr
  owned : Bool
  fails : Nat → Bool
  count : Nat → Nat
  fill : Nat → List Nat
  alloc : Nat → Bool

/-- The number of calls of `getName` and of `Malloc` so far, the items held (named by the call that gave them)
and the blocks allocated (named by the allocation). -/
structure World where
  calls : Nat
  allocs : Nat
  items : List Nat
  blocks : List Nat
deriving DecidableEq, Repr

/-- A string item got from the source: its handle and its text. -/
structure Name where
  id : Nat
  text : CStr
deriving DecidableEq, Repr

/-- `source->getName`, a call of the caller's method (properties.h:190-204): NULL when there is no property at
the index or the read fails, else a string which is held until released, if it is of a collection. -/
def getName (s : Source) (w : World) (i : Nat) : Option Name × World :=
  if s.fails w.calls then (none, { w with calls := w.calls + 1 })
  else match s.names[i]? with
    | none => (none, { w with calls := w.calls + 1 })
    | some n => (some ⟨w.calls, n⟩,
        { w with calls := w.calls + 1, items := if s.owned then w.calls :: w.items else w.items })

/-- `COLLECTION_RELEASE` where the item has a collection: releasing what is not held is undefined. -/
def release (w : World) (n : Name) : UB World :=
  if n.id ∈ w.items then some { w with items := w.items.erase n.id } else none

/-- `if (stringItem.collection != NULL) COLLECTION_RELEASE(...)`, properties.c:57-59, 132-134, 137-139. -/
def releaseOwned (s : Source) (w : World) (n : Name) : UB World :=
  if s.owned then release w n else some w

/-- The loop of `countAvailableProperties`, properties.c:52-63. The first argument bounds the recursion; the
source has no property beyond its names, so `names.length + 1` calls are enough. -/
def countLoop (s : Source) : Nat → World → Nat → UB (Nat × World)
  | 0, w, i => some (i, w)
  | fuel + 1, w, i =>
    match getName s w i with
    | (none, w) => some (i, w)
    | (some n, w) => (releaseOwned s w n).bind fun w => countLoop s fuel w (i + 1)

/-- `countAvailableProperties`, properties.c:52-63. -/
def countAvailable (s : Source) (w : World) : UB (Nat × World) := countLoop s (s.names.length + 1) w 0

/-- The loop of `getPropertyIndex`, properties.c:125-141; `none` is -1. Bounded as `countLoop`. -/
def indexLoop (s : Source) (required : CStr) : Nat → World → Nat → UB (Option Nat × World)
  | 0, w, _ => some (none, w)
  | fuel + 1, w, i =>
    match getName s w i with
    | (none, w) => some (none, w)
    | (some n, w) =>
      if n.text.length = required.length ∧ strnicmp required.length n.text required = 0 then
        (releaseOwned s w n).map fun w => (some i, w)
      else (releaseOwned s w n).bind fun w => indexLoop s required fuel w (i + 1)

/-- `getPropertyIndex`, properties.c:117-143. -/
def getPropertyIndex (s : Source) (w : World) (required : CStr) : UB (Option Nat × World) :=
  indexLoop s required (s.names.length + 1) w 0

/-- One requested name within `iteratePropertiesFrom...`: the index passed to `match`, before those that
`rest` passes. `match` touches the available properties only and the source does not, so the indexes are
collected first and handed to `match` afterwards. -/
def matched (s : Source) (w : World) (required : CStr) (rest : World → UB (List Nat × World)) :
    UB (List Nat × World) :=
  (getPropertyIndex s w required).bind fun p => (rest p.2).map fun q => (p.1.toList ++ q.1, q.2)

/-- `iteratePropertiesFromString`, properties.c:167-190; `property` is the text between the pointers `property`
and `end`. -/
def fromString (s : Source) (property : CStr) : CStr → World → UB (List Nat × World)
  | [], w => matched s w property fun w => some ([], w)
  | c :: cs, w =>
    if isSeparator c then matched s w property (fromString s [] cs)
    else fromString s (property ++ [c]) cs w

/-- `iteratePropertiesFromArray`, properties.c:192-208. -/
def fromArray (s : Source) : List CStr → World → UB (List Nat × World)
  | [], w => some ([], w)
  | r :: rest, w => matched s w r (fromArray s rest)

/-- `iteratePropertiesFromExisting`, properties.c:145-165: names that are NULL are passed over. -/
def fromExisting (s : Source) : List (Option CStr) → World → UB (List Nat × World)
  | [], w => some ([], w)
  | none :: rest, w => fromExisting s rest w
  | some r :: rest, w => matched s w r (fromExisting s rest)

/-- `addRequiredProperty` with `resultsContain`, properties.c:97-115, for each index matched. The items have
room for `cap`; `count` is not compared with the capacity, and writing beyond is undefined. -/
def addAll (cap : Nat) : List Nat → List Nat → UB (List Nat)
  | av, [] => some av
  | av, i :: rest =>
    if i ∈ av then addAll cap av rest
    else if av.length < cap then addAll cap (av ++ [i]) rest
    else none

/-- `Malloc`. -/
def malloc (s : Source) (w : World) : Option Nat × World :=
  if s.alloc w.allocs then (some w.allocs, { w with allocs := w.allocs + 1, blocks := w.allocs :: w.blocks })
  else (none, { w with allocs := w.allocs + 1 })

/-- `Free` of a block: freeing what is not allocated is undefined. -/
def free (w : World) (b : Nat) : UB World :=
  if b ∈ w.blocks then some { w with blocks := w.blocks.erase b } else none

/-- A request (`fiftyoneDegreesPropertiesRequired`, properties.h); an existing list may have NULL names. -/
inductive Request where
  | all
  | existing (names : List (Option CStr))
  | array (names : List CStr)
  | string (text : CStr)
deriving DecidableEq, Repr

/-- The block of the available properties and the indexes in it, in the order added. -/
structure Chosen where
  block : Nat
  indexes : List Nat
deriving DecidableEq, Repr

/-- The two passes of `initRequiredPropertiesFromString` (251-268), `initSpecificPropertiesFromExisting`
(270-283) and `initSpecificPropertiesFromArray` (285-300): count the matches, reserve room for as many
(`initRequiredPropertiesMemory`, 65-82) and go through the request again adding them. `stop` is the check of
line 256, which only the request by string has. -/
def twoPasses (s : Source) (stop : Bool) (pass : World → UB (List Nat × World)) (w : World) :
    UB (Option Chosen × World) :=
  (pass w).bind fun p =>
    if stop ∧ p.1.length = 0 then some (none, p.2)
    else match malloc s p.2 with
      | (none, w) => some (none, w)
      | (some b, w) => (pass w).bind fun q => (addAll p.1.length [] q.1).map fun ixs => (some ⟨b, ixs⟩, q.2)

/-- `initAllProperties`, properties.c:302-314. -/
def allProperties (s : Source) (w : World) : UB (Option Chosen × World) :=
  (countAvailable s w).map fun p =>
    match malloc s p.2 with
    | (none, w) => (none, w)
    | (some b, w) => (some ⟨b, List.range p.1⟩, w)

/-- The choice of properties.c:417-447. -/
def choose (s : Source) (w : World) : Request → UB (Option Chosen × World)
  | .existing l => twoPasses s false (fromExisting s l) w
  | .array [] => allProperties s w
  | .array l => twoPasses s false (fromArray s l) w
  | .string [] => allProperties s w
  | .string t => twoPasses s true (fromString s [] t) w
  | .all => allProperties s w

/-- The evidence properties of a property: the block, the room in it and the indexes written
(`fiftyoneDegreesEvidenceProperties`, properties.h). -/
structure Evidence where
  block : Nat
  capacity : Nat
  indexes : List Nat
deriving DecidableEq, Repr

/-- `fiftyoneDegreesPropertyAvailable`, properties.h: index, name (`none` is `name.data.ptr == NULL`) and
evidence properties (`none` is NULL). `delayExecution` is only ever set by callers and is left out. -/
structure Item where
  index : Nat
  name : Option Name
  evidence : Option Evidence
deriving DecidableEq, Repr

/-- `setPropertyNames`, properties.c:316-327. -/
def setNames (s : Source) : List Nat → World → List Item × World
  | [], w => ([], w)
  | i :: rest, w =>
    let p := getName s w i
    let q := setNames s rest p.2
    (⟨i, p.1, none⟩ :: q.1, q.2)

/-- `setEvidenceProperties`, properties.c:329-354: the caller's method is asked for the count, then given an
array with that room, or nothing when the allocation fails. Writing more than the room is undefined. -/
def setEvidence (s : Source) : List Item → World → UB (List Item × World)
  | [], w => some ([], w)
  | a :: rest, w =>
    match malloc s w with
    | (none, w) => (setEvidence s rest w).map fun q => ({ a with evidence := none } :: q.1, q.2)
    | (some b, w) =>
      if s.count a.index < (s.fill a.index).length then none
      else (setEvidence s rest w).map fun q =>
        ({ a with evidence := some ⟨b, s.count a.index, s.fill a.index⟩ } :: q.1, q.2)

/-- `sortRequiredProperties`, properties.c:365-372, with `comparePropertyNamesAscending`, 356-363. The
comparison takes the address of the text within the name's string, which is not NULL even if the string is, so
the assertion does not stop the read through it: comparing an item without a name is undefined. A sort of two
items or more compares each of them; a single item is compared with nothing. -/
def sortItems (qsort : List Item → List Item) (l : List Item) : UB (List Item) :=
  if 2 ≤ l.length ∧ ∃ a ∈ l, a.name = none then none else some (qsort l)

/-- The loop of `initRequiredProperties` that finds the indexes again, properties.c:389-398; -1 is stored as
an unsigned number. -/
def reindex (s : Source) : List Item → World → UB (List Item × World)
  | [], w => some ([], w)
  | a :: rest, w =>
    match a.name with
    | none => (reindex s rest w).map fun q => (a :: q.1, q.2)
    | some n => (getPropertyIndex s w n.text).bind fun p =>
        (reindex s rest p.2).map fun q => ({ a with index := p.1.getD (2 ^ 32 - 1) } :: q.1, q.2)

/-- `initRequiredProperties`, properties.c:374-399. -/
def initRequired (s : Source) (qsort : List Item → List Item) (ixs : List Nat) (w : World) :
    UB (List Item × World) :=
  let named := setNames s ixs w
  (setEvidence s named.1 named.2).bind fun p =>
    (sortItems qsort p.1).bind fun sorted => reindex s sorted p.2

/-- What `PropertiesCreate` returns: its block and the items. -/
structure Available where
  block : Nat
  items : List Item
deriving DecidableEq, Repr

/-- `fiftyoneDegreesPropertiesCreate`, properties.c:407-455; `none` is NULL. -/
def create (s : Source) (qsort : List Item → List Item) (r : Request) (w : World) : UB (Option Available × World) :=
  (choose s w r).bind fun p =>
    match p with
    | (none, w) => some (none, w)
    | (some c, w) => (initRequired s qsort c.indexes w).map fun q => (some ⟨c.block, q.1⟩, q.2)

/-- The name in one round of `fiftyoneDegreesPropertiesFree`, properties.c:527-530: the collection of a name
that is not NULL is called without a check that there is one. -/
def freeName (s : Source) (w : World) : Option Name → UB World
  | none => some w
  | some n => if s.owned then release w n else none

/-- The evidence properties in one round of `fiftyoneDegreesPropertiesFree`, properties.c:531-533. -/
def freeEvidence (w : World) : Option Evidence → UB World
  | none => some w
  | some e => free w e.block

/-- One round of `fiftyoneDegreesPropertiesFree`, properties.c:526-534. -/
def freeItem (s : Source) (w : World) (a : Item) : UB World :=
  (freeName s w a.name).bind fun w => freeEvidence w a.evidence

/-- The loop of `fiftyoneDegreesPropertiesFree`, properties.c:525-535. -/
def freeItems (s : Source) : List Item → World → UB World
  | [], w => some w
  | a :: rest, w => (freeItem s w a).bind (freeItems s rest)

/-- `fiftyoneDegreesPropertiesFree`, properties.c:522-537. -/
def freeAvailable (s : Source) (a : Option Available) (w : World) : UB World :=
  match a with
  | none => some w
  | some a => (freeItems s a.items w).bind fun w => free w a.block

/-- The status codes that `fiftyoneDegreesDataSetInitProperties` returns (status.h). -/
inductive Code where
  | success
  | reqPropNotPresent
  | collectionFailure
  | insufficientMemory
deriving DecidableEq, Repr

/-- The loop over evidence properties, dataset.c:150-158. -/
def checkEvidence : List Item → Code
  | [] => .success
  | a :: rest =>
    match a.evidence with
    | none => .insufficientMemory
    | some e => if e.capacity ≠ e.indexes.length then .collectionFailure else checkEvidence rest

/-- The checks of the available properties, dataset.c:131-161. -/
def check : Option Available → Code
  | none => .reqPropNotPresent
  | some a =>
    if a.items.length = 0 then .reqPropNotPresent
    else if ∃ i ∈ a.items, i.name = none then .collectionFailure
    else checkEvidence a.items

/-- `fiftyoneDegreesDataSetInitProperties`, dataset.c:116-162: the status and `dataSet->available`. -/
def initProperties (s : Source) (qsort : List Item → List Item) (r : Request) (w : World) :
    UB (Code × Option Available × World) :=
  (create s qsort r w).map fun p => (check p.1, p.1, p.2)

end Verif.Avail
