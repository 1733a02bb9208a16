import Verif.Record.Whole

/-! # Model of getting items without an exception structure, and with one in which a failure is recorded

The functions of the collections take a pointer to an exception structure. It may be NULL: `EXCEPTION_SET` and `EXCEPTION_OKAY`
(exceptions.h:122-143) ask for that, and then `EXCEPTION_OKAY` is always true. It may also point to a structure in which an earlier
failure is recorded; then `EXCEPTION_OKAY` is false from the start. The models of `Verif/Collection` and `Verif/Record` are for a
structure that is clear before each call. Here the number of free handles of the pool of file handles is kept as well. -/

namespace Verif.Quiet

open Verif.Collection Verif.Record
open Verif.Cache (Cache COp Event cacheStep)
open Verif.Component (read16 read32)
open Verif.Profile (Property)
open Verif.Lookup (Env)

/-- The exception passed: NULL, a clear structure, a structure with a failure. -/
inductive Exc where
  | null
  | clear
  | stale
deriving DecidableEq, Repr

/-- The failures: those of the collections, and `INSUFFICIENT_HANDLES` (pool.c:90). -/
inductive Fault where
  | collection (e : Err)
  | noHandle
deriving DecidableEq, Repr

/-- `EXCEPTION_OKAY`, exceptions.h:142-143, after a call that would set `e`. -/
def okay (x : Exc) (e : Option Fault) : Bool :=
  match x with
  | .null => true
  | .clear => e.isNone
  | .stale => false

/-- `EXCEPTION_SET`, exceptions.h:122-128: what is in the structure afterwards that was not before. -/
def hide (x : Exc) (e : Option Fault) : Option Fault := if x = .null then none else e

/-- The checks before a file handle is asked for: collection.c:992 and 952 for fixed sizes, 1130 for others. -/
def inRange (f : FileColl) (key : UInt32) : Bool :=
  match f.read with
  | .fixed => key.toNat < f.count ∧ key.toNat * f.elementSize % 2 ^ 32 < f.size
  | .variable _ _ => key.toNat < f.size

/-- `getFile`, collection.c:272-297, with the readers 945-1033 and 1112-1157: the heap, the free handles, the item, the pointer
returned, and what is set. With a failure recorded a handle is got, but the reading and the release of the handle are left out (lines 959,
996 and 1137). -/
def fileGet (x : Exc) (file : CStr) (f : FileColl) (free : Nat) (h : Heap) (key : UInt32) (item : Item) :
    UB (Heap × Nat × Item × Option Ref × Option Fault) :=
  if inRange f key then
    if free = 0 then some (h, 0, { item with used := 0, handle := none }, none, hide x (some .noHandle))
    else if x = .stale then some (h, free - 1, { item with used := 0, handle := none }, none, none)
    else (getFile file f h key item).map fun r => (r.1, free, r.2.1, r.2.2.1, hide x (r.2.2.2.map .collection))
  else (getFile file f h key item).map fun r => (r.1, free, r.2.1, r.2.2.1, hide x (r.2.2.2.map .collection))

/-- `loaderCache`, collection.c:353-392: the bytes left in the node, what is set, and the free handles. -/
def load (x : Exc) (file : CStr) (f : FileColl) (free : Nat) (key : UInt32) : UB (CStr × Option Fault × Nat) :=
  match fileGet x file f free ⟨0, fun _ => none⟩ key Item.new with
  | none => none
  | some (h, free, item, some (.block i), none) =>
    if item.used > 0 then (h.block i).map fun b => (b.take item.used, none, free) else some ([], none, free)
  | some (_, free, _, _, e) => some ([], e, free)

/-- `getFromCache`, collection.c:308-342, with `fiftyoneDegreesCacheGet` and `cacheLoad`, cache.c:268-290 and 382-417. As in
`Verif/Collection/Model.lean` what the loader would do is determined before the call, also when it is not called. -/
def cacheGet (x : Exc) (file : CStr) (f : FileColl) (fuel free : Nat) (c : Cache CStr) (key : UInt32) (item : Item) :
    UB (Cache CStr × Nat × Item × Option Ref × Option Fault) :=
  match load x file f free key with
  | none => none
  | some (v, e, after) =>
    match cacheStep keyHash fuel c (.get key v (okay x e)) with
    | none => none
    | some (c, i, .hit _ n) =>
      if x = .stale then some (c, free, { item with used := 0, handle := none, owner := some .cache }, none, none)
      else
        let r := getFromCache.found item c i n
        some (r.1, free, r.2.1, r.2.2.1, none)
    | some (c, i, .loaded _ _ true n) =>
      let r := getFromCache.found item c i n
      some (r.1, after, r.2.1, r.2.2.1, none)
    | some (c, _, .loaded _ _ false _) =>
      some (c, after, { item with used := 0, handle := none, owner := some .cache }, none, e)
    | some (c, _, _) => some (c, free, { item with used := 0, handle := none, owner := some .cache }, none, none)

/-- What a getter does and returns: as `Collection.Got`, with the free handles. -/
structure Result where
  state : State
  free : Nat
  item : Item
  ptr : Option Ref
  err : Option Fault

/-- The end of a getter in memory: `GET_EXCEPTION_SET` reads the status through the pointer, collection.c:44, which is undefined for
NULL, and keeps a failure recorded before. -/
def settle (x : Exc) (free : Nat) (g : Got) : UB Result :=
  match g.err with
  | none => some ⟨g.state, free, g.item, g.ptr, none⟩
  | some e =>
    match x with
    | .null => none
    | .clear => some ⟨g.state, free, g.item, g.ptr, some (.collection e)⟩
    | .stale => some ⟨g.state, free, g.item, g.ptr, none⟩

/-- `collection->get` of a file or cache collection. -/
def backGet (x : Exc) (file : CStr) (fuel : Nat) (b : Back) (f : FileColl) (s : State) (free : Nat) (key : UInt32) (item : Item) :
    UB Result :=
  match b with
  | .file => (fileGet x file f free s.heap key item).map fun r => ⟨{ s with heap := r.1 }, r.2.1, r.2.2.1, r.2.2.2.1, r.2.2.2.2⟩
  | .cache => (cacheGet x file f fuel free s.cache key item).map fun r =>
      ⟨{ s with cache := r.1 }, r.2.1, r.2.2.1, r.2.2.2.1, r.2.2.2.2⟩

/-- `collection->get`: `getMemoryVariable` and `getMemoryFixed`, collection.c:186-219; `getFile` and `getFromCache`;
`getPartialVariable` and `getPartialFixed`, 226-270, which return the pointer in the item. -/
def get (x : Exc) (file : CStr) (fuel : Nat) (c : Coll) (s : State) (free : Nat) (key : UInt32) (item : Item) : UB Result :=
  match c with
  | .memory m => (getMemory m s key item).bind (settle x free)
  | .back b f => backGet x file fuel b f s free key item
  | .part m (some (b, f)) =>
    if key.toNat < (if m.elementSize = 0 then m.size else m.count) then
      (getPartial file fuel m none s key item).bind (settle x free)
    else (backGet x file fuel b f s free key item).map fun r => { r with ptr := r.item.ptr }
  | .part m none => (getPartial file fuel m none s key item).bind (settle x free)

/-! ## Looking up without an exception structure

As in `Verif/Record`, with every test of the exception passed. There is a handle for each reader. -/

/-- `collection->get` with NULL for the exception and a free handle. -/
def quiet (file : CStr) (fuel : Nat) (c : Coll) (s : State) (key : UInt32) (item : Item) : UB Got :=
  (get .null file fuel c s 1 key item).map fun r => ⟨r.state, r.item, r.ptr, none⟩

/-- `fiftyoneDegreesCollectionGetInteger32`, collection.c:1163-1175. -/
def integer32 (file : CStr) (fuel : Nat) (c : Coll) (s : State) (key : UInt32) : UB (Int × State) :=
  match quiet file fuel c s key Item.new with
  | none => none
  | some g =>
    match g.ptr with
    | none => some (0, g.state)
    | some _ => do
      let bytes ← bytesAt g.state g.item
      let v ← read32 bytes 0
      let r ← c.release fuel g.state g.item
      some (Component.toInt32 v, r.1)

/-- `fiftyoneDegreesPropertyGetValueType`, property.c:147-161. -/
def valueType (file : CStr) (fuel : Nat) (properties : Coll) (s : State) (key : UInt32) : UB (Nat × State) :=
  match quiet file fuel properties s key Item.new with
  | none => none
  | some g =>
    if g.ptr ≠ none then do
      let bytes ← bytesAt g.state g.item
      let v ← bytes[7]?
      let r ← properties.release fuel g.state g.item
      some (v.toNat, r.1)
    else some (0, g.state)

/-- `fiftyoneDegreesComponentGetDefaultProfileId`, component.c:33-51. -/
def defaultProfileId (file : CStr) (fuel : Nat) (profiles : Coll) (s : State) (offset : UInt32) : UB (Nat × State) :=
  match quiet file fuel profiles s offset Item.new with
  | none => none
  | some g =>
    if g.ptr ≠ none then do
      let bytes ← bytesAt g.state g.item
      let v ← read32 bytes 1
      let r ← profiles.release fuel g.state g.item
      some (v, r.1)
    else some (0, g.state)

/-- The loop of `fiftyoneDegreesCollectionBinarySearch`, collection.c:1189-1224, with a comparer that may use a second collection. -/
def search (file : CStr) (fuel : Nat) (c : Coll) (cmp : CStr → State → UB (Int × State)) :
    Nat → State → Item → State → Nat → Nat → UB SearchEnd
  | 0, _, _, _, _, _ => none
  | rounds + 1, s, item, t, lower, upper =>
    if lower ≤ upper then
      let middle := lower + (upper - lower) / 2
      match quiet file fuel c s (UInt32.ofNat middle) item with
      | none => none
      | some g =>
        if g.ptr = none then some ⟨0, g.state, g.item, t, none⟩
        else
          match (bytesAt g.state g.item).bind (cmp · t) with
          | none => none
          | some (r, t) =>
            if r = 0 then some ⟨middle, g.state, g.item, t, none⟩
            else
              match c.release fuel g.state g.item with
              | none => none
              | some (s, item) =>
                if r > 0 then
                  if middle ≠ 0 then search file fuel c cmp rounds s item t lower (middle - 1)
                  else search file fuel c cmp rounds s item t ((lower + 1) % 2 ^ 32) upper
                else search file fuel c cmp rounds s item t ((middle + 1) % 2 ^ 32) upper
    else some ⟨-1, s, item, t, none⟩

/-- `compareValueByName`, value.c:127-153. -/
def compareValue (file : CStr) (fuel : Nat) (strings : Coll) (e : Env) (target : CStr) (bytes : CStr) (t : State) :
    UB (Int × State) := do
  let o ← read32 bytes 2
  let p ← quiet file fuel strings t (UInt32.ofNat o) Item.new
  if p.ptr ≠ none then do
    let b ← bytesAt p.state p.item
    let n ← storedName b
    let r ← Lookup.compareName e target n
    let q ← strings.release fuel p.state p.item
    some (r.getD 0, q.1)
  else some (0, p.state)

/-- `fiftyoneDegreesValueGetIndexByName`, value.c:198-222. -/
def valueIndex (file : CStr) (fuel : Nat) (values strings : Coll) (e : Env) (rounds : Nat) (q : Property) (target : CStr)
    (s t : State) : UB SearchEnd :=
  (search file fuel values (compareValue file fuel strings e target) rounds s Item.new t q.first q.last).bind
    (releaseAfter fuel values q)

/-- `fiftyoneDegreesValueGetByName`, value.c:224-249. -/
def valueByName (file : CStr) (fuel : Nat) (values strings : Coll) (e : Env) (rounds : Nat) (q : Property) (target : CStr)
    (s : State) (item : Item) (t : State) : UB (Bool × SearchEnd) :=
  if q.first % 2 ^ 32 ≠ 2 ^ 32 - 1 then
    (search file fuel values (compareValue file fuel strings e target) rounds s (resetItem item) t q.first q.last).map fun r =>
      (decide (r.ret ≥ 0) && r.item.ptr.isSome, r)
  else some (false, ⟨-1, s, item, t, none⟩)

/-- `fiftyoneDegreesProfileGetOffsetForProfileId`, profile.c:151-175. -/
def offsetForId (file : CStr) (fuel : Nat) (c : Coll) (rounds : Nat) (s : State) (id : Nat) : UB (Option Nat × State) :=
  if id = 0 then some (none, s)
  else
    match search file fuel c (fun b t => (compareProfileId id b).map fun r => (r, t)) rounds s Item.new s 0
      ((c.getCount + (2 ^ 32 - 1)) % 2 ^ 32) with
    | none => none
    | some r =>
      if r.ret ≥ 0 then do
        let bytes ← bytesAt r.values r.item
        let o ← read32 bytes 4
        let q ← c.release fuel r.values r.item
        some (some o, q.1)
      else some (none, r.values)

/-- `fiftyoneDegreesProfileGetByProfileId`, profile.c:177-197: the state of the offsets and what the get of the profile did. -/
def profileById (file : CStr) (fuel : Nat) (offsets profiles : Coll) (rounds : Nat) (s t : State) (id : Nat) (item : Item) :
    UB (State × Option Got) :=
  match offsetForId file fuel offsets rounds s id with
  | none => none
  | some (some o, s) => (quiet file fuel profiles t (UInt32.ofNat o) item).map fun g => (s, some g)
  | some (none, s) => some (s, none)

/-- property.c:129-140. -/
def nameCompare (fuel : Nat) (properties : Coll) (name : CStr) (g p : Got) : UB NameRound := do
  let bytes ← bytesAt p.state p.item
  let text ← cstr (bytes.drop 2)
  if Profile.strcmp text name ≠ 0 then do
    let a ← properties.release fuel g.state g.item
    let b ← properties.release fuel p.state p.item
    some ⟨a.1, a.2, b.1, b.2, false, none⟩
  else do
    let b ← properties.release fuel p.state p.item
    some ⟨g.state, g.item, b.1, b.2, true, none⟩

/-- The body of the loop of `fiftyoneDegreesPropertyGetByName`, property.c:113-142. -/
def nameRound (file : CStr) (fuel : Nat) (properties strings : Coll) (name : CStr) (i : Nat) (s : State) (item : Item)
    (t : State) (nameItem : Item) : UB NameRound :=
  match quiet file fuel properties s (UInt32.ofNat i) item with
  | none => none
  | some g =>
    if g.ptr ≠ none then do
      let bytes ← bytesAt g.state g.item
      let o ← read32 bytes 12
      let p ← quiet file fuel strings t (UInt32.ofNat o) nameItem
      if p.ptr = none then some ⟨g.state, g.item, p.state, p.item, true, none⟩
      else nameCompare fuel properties name g p
    else some ⟨g.state, g.item, t, nameItem, false, none⟩

/-- The loop, property.c:111-143. -/
def nameLoop (file : CStr) (fuel : Nat) (properties strings : Coll) (name : CStr) :
    (n i : Nat) → State → Item → State → Item → UB NameFound
  | 0, _, s, item, t, _ => some ⟨s, item, t, none, none⟩
  | n + 1, i, s, item, t, nameItem =>
    match nameRound file fuel properties strings name i s item t nameItem with
    | none => none
    | some r =>
      if r.found = false then
        nameLoop file fuel properties strings name n (i + 1) r.properties r.item r.strings r.nameItem
      else some ⟨r.properties, r.item, r.strings, some i, none⟩

/-- `fiftyoneDegreesPropertyGetByName`, property.c:99-145. -/
def propertyByName (file : CStr) (fuel : Nat) (properties strings : Coll) (nj : Option Ref) (name : CStr) (s : State) (item : Item)
    (t : State) : UB NameFound :=
  nameLoop file fuel properties strings name properties.getCount 0 s item t (localItem nj)

/-- The loop of `fiftyoneDegreesComponentInitList`, component.c:107-122. -/
def listLoop (file : CStr) (fuel : Nat) (c : Coll) (count : Nat) : Nat → State → List Item → Nat → UB Listed
  | 0, _, _, _ => some .running
  | rounds + 1, s, items, offset =>
    if items.length < count then
      match quiet file fuel c s (UInt32.ofNat offset) Item.new with
      | none => none
      | some g =>
        match g.ptr with
        | none => listLoop file fuel c count rounds g.state items offset
        | some p =>
          match (view g.state p).bind fun bytes => Component.keyValuesCount bytes 0 with
          | none => none
          | some n =>
            listLoop file fuel c count rounds g.state (items ++ [g.item]) ((offset + Component.finalSize n) % 2 ^ 32)
    else some (.ended s items none)

end Verif.Quiet
