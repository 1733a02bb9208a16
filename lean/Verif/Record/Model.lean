import Verif.Collection.Props
import Verif.Component.Model
import Verif.Profile.Model

/-! # Model of the records of data files and of searches in collections

The readers of strings, components and profiles (string.c, component.c, profile.c), and the functions which get records
from collections: `CollectionGetInteger32` and `CollectionBinarySearch` (collection.c), the look-up of profiles (profile.c)
and the list of components (component.c). The collections are those of `Verif/Collection/Model.lean`, of any kind. `none`
is undefined behaviour, or that a loop needs more rounds than it was given; the theorems exclude both. -/

namespace Verif.Record

open Verif.Collection
open Verif.Component (read16 read32)

/-! ## Readers

The functions for the final size are only called with the part read first, so that the fields they look at are there. -/

/-- `getFinalStringSize`, string.c:27-29, which adds a signed 16 bit length to a `size_t` and converts to `uint32_t`. -/
def stringSize (initial : CStr) : Nat :=
  let n := (read16 initial 0).getD 0
  let length : Int := if n < 2 ^ 15 then n else (n : Int) - 2 ^ 16
  ((2 + length) % 2 ^ 32).toNat

/-- `fiftyoneDegreesStringRead`, string.c:33-47. -/
def stringReader : Reader := .variable 2 stringSize

/-- `getFinalComponentSize`, component.c:27-31. -/
def componentSize (initial : CStr) : Nat := Component.finalSize ((Component.keyValuesCount initial 0).getD 0)

/-- `fiftyoneDegreesComponentReadFromFile`, component.c:80-94: the first part is the structure without the pair at its end. -/
def componentReader : Reader := .variable 11 componentSize

/-- `getFinalProfileSize`, profile.c:28-32, with `sizeof(Profile)` 9 and the count of values 5 bytes into it. -/
def profileSize (initial : CStr) : Nat := (9 + (read32 initial 5).getD 0 * 4) % 2 ^ 32

/-- `fiftyoneDegreesProfileReadFromFile`, profile.c:229-243. -/
def profileReader : Reader := .variable 9 profileSize

/-! ## Getting records -/

/-- The bytes from the pointer in an item on. -/
def bytesAt (s : State) (item : Item) : UB CStr := item.ptr.bind (view s)

/-- `fiftyoneDegreesCollectionGetInteger32`, collection.c:1163-1175. The local item is new. -/
def getInteger32 (file : CStr) (fuel : Nat) (c : Coll) (s : State) (key : UInt32) : UB (Int × State × Option Err) :=
  match c.get file fuel s key Item.new with
  | none => none
  | some g =>
    match g.ptr with
    | none => some (0, g.state, g.err)
    | some _ => do
      let bytes ← bytesAt g.state g.item
      let v ← read32 bytes 0
      let r ← c.release fuel g.state g.item
      some (Component.toInt32 v, r.1, g.err)

/-- The loop of `fiftyoneDegreesCollectionBinarySearch`, collection.c:1189-1224, with a comparer that does not set an exception:
the result, the item, and the exception. The first argument bounds the rounds. -/
def searchLoop (file : CStr) (fuel : Nat) (c : Coll) (cmp : CStr → UB Int) :
    Nat → State → Item → Nat → Nat → UB (Int × State × Item × Option Err)
  | 0, _, _, _, _ => none
  | rounds + 1, s, item, lower, upper =>
    if lower ≤ upper then
      let middle := lower + (upper - lower) / 2
      match c.get file fuel s (UInt32.ofNat middle) item with
      | none => none
      | some g =>
        if g.ptr = none ∨ g.err ≠ none then some (0, g.state, g.item, g.err)
        else
          match (bytesAt g.state g.item).bind cmp with
          | none => none
          | some r =>
            if r = 0 then some (middle, g.state, g.item, none)
            else
              match c.release fuel g.state g.item with
              | none => none
              | some (s, item) =>
                if r > 0 then
                  if middle ≠ 0 then searchLoop file fuel c cmp rounds s item lower (middle - 1)
                  else searchLoop file fuel c cmp rounds s item ((lower + 1) % 2 ^ 32) upper
                else searchLoop file fuel c cmp rounds s item ((middle + 1) % 2 ^ 32) upper
    else some (-1, s, item, none)

/-- `fiftyoneDegreesCollectionBinarySearch`, collection.c:1177-1228. The data of the item are reset; its handle and collection
are not, but nothing looks at them before they are set. -/
def search (file : CStr) (fuel : Nat) (c : Coll) (cmp : CStr → UB Int) (rounds : Nat) (s : State) (lower upper : Nat) :
    UB (Int × State × Item × Option Err) :=
  searchLoop file fuel c cmp rounds s Item.new lower upper

/-! ## Profiles -/

/-- The exceptions of the look-up. -/
inductive Fail where
  | profileEmpty
  | collection (e : Err)
deriving DecidableEq, Repr

/-- `compareProfileId`, profile.c:50-61, on the bytes of a profile offset. -/
def compareProfileId (id : Nat) (bytes : CStr) : UB Int := (read32 bytes 0).map (Profile.compareId id)

/-- `fiftyoneDegreesProfileGetOffsetForProfileId`, profile.c:151-175: the offset, and the exception. -/
def offsetForId (file : CStr) (fuel : Nat) (c : Coll) (rounds : Nat) (s : State) (id : Nat) :
    UB (Option Nat × State × Option Fail) :=
  if id = 0 then some (none, s, some .profileEmpty)
  else
    match search file fuel c (compareProfileId id) rounds s 0 ((c.getCount + (2 ^ 32 - 1)) % 2 ^ 32) with
    | none => none
    | some (r, s, item, e) =>
      if r ≥ 0 then do
        let bytes ← bytesAt s item
        let o ← read32 bytes 4
        let q ← c.release fuel s item
        some (some o, q.1, e.map .collection)
      else some (none, s, e.map .collection)

/-- What the functions for profiles return: the state of the offsets, what the get of the profile did, if there was one, and
the exception. -/
structure Looked where
  offsets : State
  profile : Option Got
  err : Option Fail

/-- `fiftyoneDegreesProfileGetByProfileId`, profile.c:177-197. The offsets and the profiles have separate states: no memory
belongs to both. -/
def getByProfileId (file : CStr) (fuel : Nat) (offsets profiles : Coll) (rounds : Nat) (s t : State) (id : Nat) (item : Item) :
    UB Looked :=
  match offsetForId file fuel offsets rounds s id with
  | none => none
  | some (some o, s, none) =>
    (profiles.get file fuel t (UInt32.ofNat o) item).map fun g => ⟨s, some g, g.err.map .collection⟩
  | some (_, s, e) => some ⟨s, none, e⟩

/-- `fiftyoneDegreesProfileGetByIndex`, profile.c:199-225. -/
def getByIndex (file : CStr) (fuel : Nat) (offsets profiles : Coll) (s t : State) (index : UInt32) (item : Item) :
    UB Looked :=
  match offsets.get file fuel s index Item.new with
  | none => none
  | some g =>
    if g.ptr ≠ none ∧ g.err = none then do
      let bytes ← bytesAt g.state g.item
      let o ← read32 bytes 4
      let p ← profiles.get file fuel t (UInt32.ofNat o) item
      let q ← offsets.release fuel g.state g.item
      some ⟨q.1, some p, p.err.map .collection⟩
    else some ⟨g.state, none, g.err.map .collection⟩

/-! ## Components -/

/-- What the list of components is after some rounds: it still runs, or has ended with these items and this exception. -/
inductive Listed where
  | running
  | ended (s : State) (items : List Item) (err : Option Err)

/-- The loop of `fiftyoneDegreesComponentInitList`, component.c:107-122, for a number of rounds. When a get returns NULL
without an exception the loop goes round again. -/
def listLoop (file : CStr) (fuel : Nat) (c : Coll) (count : Nat) : Nat → State → List Item → Nat → UB Listed
  | 0, _, _, _ => some .running
  | rounds + 1, s, items, offset =>
    if items.length < count then
      match c.get file fuel s (UInt32.ofNat offset) Item.new with
      | none => none
      | some g =>
        match g.err with
        | some e => some (.ended g.state items (some e))
        | none =>
          match g.ptr with
          | none => listLoop file fuel c count rounds g.state items offset
          | some p =>
            match (view g.state p).bind fun bytes => Component.keyValuesCount bytes 0 with
            | none => none
            | some n =>
              listLoop file fuel c count rounds g.state (items ++ [g.item]) ((offset + Component.finalSize n) % 2 ^ 32)
    else some (.ended s items none)

/-- `fiftyoneDegreesComponentInitList`, component.c:98-124, when the list can be allocated. -/
def initList (file : CStr) (fuel : Nat) (c : Coll) (count rounds : Nat) (s : State) : UB Listed :=
  listLoop file fuel c count rounds s [] 0

end Verif.Record
