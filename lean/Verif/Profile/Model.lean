import Verif.Search.Model

/-! # Model of `profile.c`, `property.c`, `value.c` (lookups and iteration) -/

namespace Verif.Profile

open Verif.Search (Coll Out)

/-- A profile (profile.h:88-93) as laid out in memory: its values (`uint32_t` value indexes after the header,
`valueCount` of them) and the word that follows them, `none` when the bytes after the profile do not exist (the
profile was read from file or is the last thing in memory). -/
structure Profile where
  values : List Nat
  after : Option Nat
deriving DecidableEq, Repr

/-- The value range of a property (property.h:108-109). -/
structure Property where
  first : Nat
  last : Nat
deriving DecidableEq, Repr

/-- Reading `*valueIndex` at position `i` of the values. -/
def Profile.read (p : Profile) (i : Nat) : UB Nat :=
  if i < p.values.length then p.values[i]? else if i = p.values.length then p.after else none

/-- `compareValueToProperty`, profile.c:65-75. -/
def compareValue (q : Property) (v : Nat) : Int := if v < q.first then 1 else if v > q.last then -1 else 0

/-- glibc's `bsearch` over positions `l` to `u` (exclusive), used at profile.c:83-88. -/
def bsearch (q : Property) (vs : List Nat) (l u : Nat) : Option Nat :=
  if h : l < u then
    let m := (l + u) / 2
    match vs[m]? with
    | none => none
    | some v =>
      if compareValue q v < 0 then bsearch q vs l m
      else if compareValue q v > 0 then bsearch q vs (m + 1) u
      else some m
  else none
termination_by u - l
decreasing_by all_goals omega

/-- The loops at profile.c:95-98 and 125-128: move back while the value before is at least the first value of
the property. -/
def moveBack (q : Property) (vs : List Nat) : Nat → Nat
  | 0 => 0
  | i + 1 =>
    match vs[i]? with
    | some v => if v ≥ q.first then moveBack q vs i else i + 1
    | none => i + 1

/-- `getFirstValueForProfileAndProperty`, profile.c:77-101: the position, `none` is NULL. -/
def firstValue (p : Profile) (q : Property) : Option Nat :=
  (bsearch q p.values 0 p.values.length).map (moveBack q p.values)

/-- The loop at profile.c:132-146 from position `i`, for `fuel` rounds. `get` says whether the value can be
fetched from the values collection (otherwise an exception is set); `cb` is the callback's answer, given the
values passed to it so far, the latest last; `seen` are the values passed so far and `err` says an exception is
set. The result is the values passed and whether an exception is set. The condition reads `*valueIndex` before
testing the position. -/
def iterateLoop (get : Nat → Bool) (cb : List Nat → Bool) (p : Profile) (q : Property) :
    Nat → Nat → List Nat → Bool → UB (List Nat × Bool)
  | 0, _, _, _ => none
  | fuel + 1, i, seen, err => do
    let v ← p.read i
    if v ≤ q.last ∧ i < p.values.length ∧ err = false then
      if get v then
        if cb (seen ++ [v]) then iterateLoop get cb p q fuel (i + 1) (seen ++ [v]) false
        else some (seen ++ [v], false)
      else iterateLoop get cb p q fuel (i + 1) seen true
    else some (seen, err)

/-- `iterateValues`, profile.c:108-149. -/
def iterateValues (get : Nat → Bool) (cb : List Nat → Bool) (p : Profile) (q : Property) (i : Nat) :
    UB (List Nat × Bool) :=
  iterateLoop get cb p q (p.values.length + 1) (moveBack q p.values i) [] false

/-- `fiftyoneDegreesProfileIterateValuesForProperty`, profile.c:247-270: the values passed to the callback (the
count returned is their number) and whether an exception is set. -/
def iterateForProperty (get : Nat → Bool) (cb : List Nat → Bool) (p : Profile) (q : Property) :
    UB (List Nat × Bool) :=
  match firstValue p q with
  | none => some ([], false)
  | some i => iterateValues get cb p q i

/-- The loop at profile.c:319-331: whether the value is found from position `i` on. -/
def hasValueLoop (p : Profile) (q : Property) (x : Nat) : Nat → Nat → UB Bool
  | 0, _ => none
  | fuel + 1, i => do
    let v ← p.read i
    if v ≤ q.last ∧ i < p.values.length then
      if x = v then some true else hasValueLoop p q x fuel (i + 1)
    else some false

/-- profile.c:312-333: whether the callback is called for a profile. -/
def hasValue (p : Profile) (q : Property) (x : Nat) : UB Bool :=
  match firstValue p q with
  | none => some false
  | some i => hasValueLoop p q x (p.values.length + 1) i

/-- The loop of `fiftyoneDegreesProfileIterateProfilesForPropertyAndValue`, profile.c:300-342, from profile
index `i`, when all items can be fetched: the indexes of the profiles passed to the callback. -/
def profilesLoop (q : Property) (x : Nat) (i : Nat) : List Profile → UB (List Nat)
  | [] => some []
  | p :: rest => do
    let b ← hasValue p q x
    let r ← profilesLoop q x (i + 1) rest
    some (if b then i :: r else r)

/-- `compareProfileId`, profile.c:50-61. -/
def compareId (id a : Nat) : Int := if a < id then -1 else if a > id then 1 else 0

/-- A record of the profile offsets collection (profile.h:103-106). -/
structure Offset where
  id : Nat
  offset : Nat
deriving DecidableEq, Repr

/-- The profile offsets as the binary search sees them; `ok i` says whether record `i` can be fetched. -/
def offsetColl (offs : List Offset) (ok : Nat → Bool) (id : Nat) : Coll Offset where
  get i := if ok i then offs[i]? else none
  cmp o _ := some (compareId id o.id)

/-- What a lookup reports: an offset, no profile, or an exception. -/
inductive Found where
  | offset (o : Nat)
  | notFound
  | exception
deriving DecidableEq, Repr

/-- `fiftyoneDegreesProfileGetOffsetForProfileId`, profile.c:151-175. The binary search returns 0 when an item
cannot be fetched, and the item's data is then NULL and is dereferenced: undefined behaviour. -/
def offsetForId (offs : List Offset) (ok : Nat → Bool) (fuel id : Nat) : UB Found :=
  if id = 0 then some .exception
  else
    match Search.search (offsetColl offs ok id) fuel 0 ((offs.length + (2 ^ 32 - 1)) % 2 ^ 32) with
    | none => none
    | some o =>
      if o.ret ≥ 0 then
        match o.held.bind fun i => offs[i]? with
        | some x => some (.offset x.offset)
        | none => none
      else some .notFound

/-- C `strcmp`: bytes compared as unsigned; the sign of the result. -/
def strcmp : CStr → CStr → Int
  | [], [] => 0
  | [], _ :: _ => -1
  | _ :: _, [] => 1
  | x :: a, y :: b => if x = y then strcmp a b else if x.toNat < y.toNat then -1 else 1

/-- The values of a data set with string names, as the search in value.c sees them; `compareValueByName`,
value.c:127-153, for names that are not coordinates or IP addresses. -/
def valueColl (names : List CStr) (name : CStr) : Coll CStr where
  get i := names[i]?
  cmp x _ := some (strcmp x name)

/-- `fiftyoneDegreesValueGetIndexByName`, value.c:198-222: the index returned (0 with an exception). -/
def valueIndexByName (names : List CStr) (fuel : Nat) (q : Property) (name : CStr) : Option Out :=
  Search.search (valueColl names name) fuel q.first q.last

/-- The loop of `fiftyoneDegreesPropertyGetByName`, property.c:99-145, from index `i`, when all items can be
fetched: the index of the property returned and the number of properties released, `none` is NULL. -/
def propertyByNameFrom (name : CStr) (i : Nat) : List CStr → Option Nat
  | [] => none
  | n :: rest => if strcmp n name ≠ 0 then propertyByNameFrom name (i + 1) rest else some i

/-- `fiftyoneDegreesPropertyGetByName`, property.c:99-145. -/
def propertyByName (names : List CStr) (name : CStr) : Option Nat := propertyByNameFrom name 0 names

/-- `fiftyoneDegreesProfileIterateProfilesForPropertyAndValue`, profile.c:272-347, when all items can be
fetched: the property is found by name, the value by name among the property's values, and the profiles with the
value are passed to the callback. Properties are given by name and range. -/
def profilesFor (props : List (CStr × Property)) (valueNames : List CStr) (profiles : List Profile) (fuel : Nat)
    (propertyName valueName : CStr) : UB (List Nat) :=
  match propertyByName (props.map (·.1)) propertyName with
  | none => some []
  | some i =>
    match props[i]? with
    | none => none
    | some q =>
      match valueIndexByName valueNames fuel q.2 valueName with
      | none => none
      | some o => if o.ret ≥ 0 ∧ o.error = false then profilesLoop q.2 o.ret.toNat 0 profiles else some []

end Verif.Profile
