import Verif.Str.Model

/-! # Model of `properties.c` -/

namespace Verif.Properties

/-- `_stricmp` (`strcasecmp`): both strings lower-cased and compared as unsigned bytes. Only the sign of the
result is used. -/
def stricmp : CStr → CStr → Int
  | [], [] => 0
  | [], _ :: _ => -1
  | _ :: _, [] => 1
  | x :: a, y :: b =>
    let d := ((toLower x).toNat : Int) - (toLower y).toNat
    if d ≠ 0 then d else stricmp a b

/-- `_strnicmp` (`strncasecmp`). -/
def strnicmp : Nat → CStr → CStr → Int
  | 0, _, _ => 0
  | _ + 1, [], [] => 0
  | _ + 1, [], _ :: _ => -1
  | _ + 1, _ :: _, [] => 1
  | n + 1, x :: a, y :: b =>
    let d := ((toLower x).toNat : Int) - (toLower y).toNat
    if d ≠ 0 then d else strnicmp n a b

/-- `getPropertyIndex`, properties.c:117-143, from index `i`. The data set's properties are given by their
names in index order (`source->getName`); `none` is -1. -/
def getPropertyIndexFrom (required : CStr) (i : Nat) : List CStr → Option Nat
  | [] => none
  | name :: rest =>
    if name.length = required.length ∧ strnicmp required.length name required = 0 then some i
    else getPropertyIndexFrom required (i + 1) rest

/-- `getPropertyIndex`, properties.c:117-143. -/
def getPropertyIndex (names : List CStr) (required : CStr) : Option Nat := getPropertyIndexFrom required 0 names

/-- Test against `separators`, properties.c:28, for a character that is not the terminator. -/
def isSeparator (c : UInt8) : Bool := c = 124 || c = 44 || c = 32

/-- `iteratePropertiesFromString`, properties.c:167-190: the indexes passed to `match`, in order. `property`
is the text between the pointers `property` and `end`. -/
def iterateFromString (names : List CStr) (property : CStr) : CStr → List Nat
  | [] => (getPropertyIndex names property).toList
  | c :: cs =>
    if isSeparator c then (getPropertyIndex names property).toList ++ iterateFromString names [] cs
    else iterateFromString names (property ++ [c]) cs

/-- `iteratePropertiesFromArray`, properties.c:192-208, and `iteratePropertiesFromExisting`, 145-165 (for the
names of the existing list, none of which are NULL): the indexes passed to `match`. -/
def iterateFromList (names : List CStr) : List CStr → List Nat
  | [] => []
  | r :: rest => (getPropertyIndex names r).toList ++ iterateFromList names rest

/-- `addRequiredProperty` with `resultsContain`, properties.c:97-115. -/
def addRequired (av : List Nat) (i : Nat) : List Nat := if i ∈ av then av else av ++ [i]

/-- An available property: its index in the data set and its name (properties.h). Evidence properties and
delay execution come from the caller's method and are not modelled. -/
structure Avail where
  index : Nat
  name : CStr
deriving DecidableEq, Repr

/-- A request: nothing, an existing list of names, an array, or a string (`fiftyoneDegreesPropertiesRequired`,
properties.h; an empty array or string counts as nothing, properties.c:426-443). -/
inductive Request where
  | all
  | existing (names : List CStr)
  | array (names : List CStr)
  | string (s : CStr)
deriving DecidableEq, Repr

/-- The index list and its capacity made by `initSpecificPropertiesFromExisting` (268-281),
`initSpecificPropertiesFromArray` (283-298), `initRequiredPropertiesFromString` (251-268) and
`initAllProperties` (300-314); `none` is NULL. The capacity is the number of matches counted first. -/
def init (names : List CStr) : Request → Option (Nat × List Nat)
  | .existing l => some ((iterateFromList names l).length, (iterateFromList names l).foldl addRequired [])
  | .array l => some ((iterateFromList names l).length, (iterateFromList names l).foldl addRequired [])
  | .string s =>
    let found := iterateFromString names [] s
    if found.length = 0 then none else some (found.length, found.foldl addRequired [])
  | .all => some (names.length, List.range names.length)

/-- Selection of the method, properties.c:417-447: an empty array or string requests everything. -/
def effective : Request → Request
  | .array [] => .all
  | .string [] => .all
  | r => r

/-- `initRequiredProperties`, properties.c:374-399: names are set, `qsort` orders by `_stricmp` of the names
(351-372) and the indexes are found again from the names. `qsort` is the C library's. -/
def initRequired (qsort : List Avail → List Avail) (names : List CStr) (ixs : List Nat) : List Avail :=
  (qsort (ixs.map fun i => ⟨i, names.getD i []⟩)).map fun a =>
    { a with index := (getPropertyIndex names a.name).getD (2 ^ 32 - 1) }

/-- `fiftyoneDegreesPropertiesCreate`, properties.c:407-455. -/
def create (qsort : List Avail → List Avail) (names : List CStr) (r : Request) : Option (List Avail) :=
  (init names (effective r)).map fun x => initRequired qsort names x.2

/-- The C library's `bsearch` (binary search over the half-open range from `l` to `u`), as used at
properties.c:470-477 with `comparePropertyNamesAscendingSearch` (401-405). -/
def bsearch (av : List Avail) (name : CStr) (l u : Nat) : Option Nat :=
  if h : l < u then
    let m := (l + u) / 2
    match av[m]? with
    | none => none
    | some a =>
      let d := Str.compare name a.name
      if d < 0 then bsearch av name l m
      else if d > 0 then bsearch av name (m + 1) u
      else some m
  else none
termination_by u - l
decreasing_by all_goals omega

/-- `fiftyoneDegreesPropertiesGetRequiredPropertyIndexFromName`, properties.c:466-487; `none` is -1. -/
def requiredIndexFromName (av : List Avail) (name : CStr) : Option Nat := bsearch av name 0 av.length

/-- `fiftyoneDegreesPropertiesGetPropertyIndexFromRequiredIndex`, properties.c:457-465. -/
def indexFromRequired (av : List Avail) (i : Int) : Int :=
  if i ≥ 0 ∧ i < av.length then ((av.getD i.toNat ⟨0, []⟩).index : Int) else -1

/-- `fiftyoneDegreesPropertiesGetPropertyIndexFromName`, properties.c:489-501. -/
def indexFromName (av : List Avail) (name : CStr) : Int :=
  match requiredIndexFromName av name with
  | some i => indexFromRequired av i
  | none => -1

/-- `fiftyoneDegreesPropertiesIsSetHeaderAvailable`, properties.c:510-520: the substring search must return
the start of the name. -/
def isSetHeaderAvailable (av : List Avail) : Bool :=
  av.any fun a => Str.subString a.name c!"SetHeader" = some 0

end Verif.Properties
