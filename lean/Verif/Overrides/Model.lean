import Verif.Str.Model
import Verif.Evidence.Model

/-! # Model of `overrides.c` -/

namespace Verif.Overrides
open Verif.Evidence (Pair Arr iterate)

/-- Conversion of a number to `int16_t` as at overrides.c:164 (two's complement). -/
def toInt16 (n : Nat) : Int := if n % 65536 < 32768 then (n % 65536 : Nat) else (n % 65536 : Nat) - 65536

/-- The `String` stored for an override: text and `int16_t size` (string.h). -/
structure Text where
  size : Int
  value : CStr
deriving DecidableEq, Repr

/-- `fiftyoneDegreesOverrideValueArray`, overrides.h:97-106: the `count` used items and the capacity.
The buffers of each item are reused as modelled in `Verif.Data`; here an item holds the text itself, and
allocation succeeds (the code does not check it). -/
structure Values where
  capacity : Nat
  items : List (Nat × Text)
deriving DecidableEq, Repr

/-- `fiftyoneDegreesOverrideValuesCreate`, overrides.c:216-230. -/
def valuesCreate (capacity : Nat) : Values := ⟨capacity, []⟩

/-- `fiftyoneDegreesOverrideValuesReset`, overrides.c:389-404: only the used items are observable. -/
def reset (v : Values) : Values := { v with items := [] }

/-- The search loop of `OverridesAdd`, overrides.c:142-146: the first item for the property, or `count`. -/
def findItem (idx : Nat) : List (Nat × Text) → Nat
  | [] => 0
  | it :: rest => if it.1 ≠ idx then findItem idx rest + 1 else 0

/-- `fiftyoneDegreesOverridesAdd`, overrides.c:129-169. -/
def add (v : Values) (idx : Int) (value : CStr) : Values × Bool :=
  let v' :=
    if idx ≥ 0 ∧ v.items.length < v.capacity then
      let i := findItem idx.toNat v.items
      let text : Text := ⟨toInt16 (value.length + 1), value⟩
      if i = v.items.length then { v with items := v.items ++ [(idx.toNat, text)] }
      else { v with items := v.items.set i (idx.toNat, text) }
    else v
  (v', decide (v'.items.length < v'.capacity))

/-- `OVERRIDE_PREFIX`, overrides.c:27. -/
def OVERRIDE_PREFIX : CStr := c!"51D_"

/-- `skipPrefix`, overrides.c:95-105; `sizeof(OVERRIDE_PREFIX)` is 5. The comparison reads at most 4
characters and `field` has more than 5, so it is defined; the `none` case cannot happen. -/
def skipPrefix (prefixed : Bool) (field : CStr) : CStr :=
  if prefixed = true ∧ field.length > 5 ∧
      Str.compareLength (field ++ [0]) (OVERRIDE_PREFIX ++ [0]) 4 = some 0 then field.drop 4
  else field

/-- `fiftyoneDegreesOverridePropertyArray`, overrides.h:76-95: the prefix flag and, for each overridable
property, its required property index and name. -/
structure Props where
  pre : Bool
  items : List (Nat × CStr)
deriving DecidableEq, Repr

/-- `countOverridableProperties`, overrides.c:186-198. The filter sees the property index. -/
def countOverridable (filter : Nat → Bool) (i : Nat) : List CStr → Nat
  | [] => 0
  | _ :: rest => (if filter i then 1 else 0) + countOverridable filter (i + 1) rest

/-- `addOverridableProperties`, overrides.c:200-214, from property `i`. -/
def addOverridable (filter : Nat → Bool) (i : Nat) : List CStr → List (Nat × CStr)
  | [] => []
  | name :: rest => (if filter i then [(i, name)] else []) ++ addOverridable filter (i + 1) rest

/-- `fiftyoneDegreesOverridePropertiesCreate`, overrides.c:232-247; `none` is NULL. The available
properties are given by their names. -/
def propertiesCreate (available : List CStr) (pre : Bool) (filter : Nat → Bool) : Option Props :=
  if countOverridable filter 0 available > 0 then some ⟨pre, addOverridable filter 0 available⟩ else none

/-- The loop of `getRequiredPropertyIndexFromName`, overrides.c:117-126. -/
def indexLoop (name : CStr) : List (Nat × CStr) → Int
  | [] => -1
  | p :: rest => if Str.compare p.2 name = 0 then (p.1 : Int) else indexLoop name rest

/-- `getRequiredPropertyIndexFromName`, overrides.c:107-127. -/
def requiredPropertyIndexFromName (p : Props) (name : CStr) : Int :=
  indexLoop (skipPrefix p.pre name) p.items

/-- `addOverrideToResults`, overrides.c:172-184. The parsed value is the pair's original value, which
callers provide (a NULL value is not modelled and treated as empty). -/
def addOverrideToResults (p : Props) (v : Values) (pair : Pair) : Values × Bool :=
  add v (requiredPropertyIndexFromName p pair.field) (pair.parsed.getD [])

/-- `FIFTYONE_DEGREES_EVIDENCE_COOKIE | FIFTYONE_DEGREES_EVIDENCE_QUERY`, evidence.h:133-147. -/
def COOKIE_OR_QUERY : Nat := 24

/-- `fiftyoneDegreesOverridesExtractFromEvidence`, overrides.c:254-271. -/
def extractFromEvidence (p : Option Props) (v : Values) (e : Arr) : Values × Nat :=
  match p with
  | none => (v, 0)
  | some p => let r := iterate e COOKIE_OR_QUERY (addOverrideToResults p) v; (r.1, r.2.1)

/-- The loop of `fiftyoneDegreesOverrideValuesGetFirst`, overrides.c:279-294. -/
def getFirstLoop (idx : Nat) : List (Nat × Text) → Option Text
  | [] => none
  | it :: rest => if it.1 = idx then some it.2 else getFirstLoop idx rest

/-- `fiftyoneDegreesOverrideValuesGetFirst`, overrides.c:273-297; `none` is NULL. -/
def getFirst (v : Values) (idx : Nat) : Option Text := getFirstLoop idx v.items

/-- The loop of `HasValueForRequiredPropertyIndex`, overrides.c:307-312. -/
def hasValueLoop (idx : Nat) : List (Nat × Text) → Bool
  | [] => false
  | it :: rest => if it.1 = idx then true else hasValueLoop idx rest

/-- `fiftyoneDegreesOverrideHasValueForRequiredPropertyIndex`, overrides.c:299-315. -/
def hasValue (v : Values) (idx : Nat) : Bool := hasValueLoop idx v.items

/-- `fiftyoneDegreesOverrideValuesAdd`, overrides.c:317-352: the loop at 333-349 adding to a list with
`capacity` places that already holds `list`. Returns the list and the number added. -/
def valuesAdd (idx : Nat) (capacity : Nat) : List (Nat × Text) → List Text → List Text × Nat
  | [], list => (list, 0)
  | it :: rest, list =>
    if list.length < capacity then
      if it.1 = idx then
        let r := valuesAdd idx capacity rest (list ++ [it.2])
        (r.1, r.2 + 1)
      else valuesAdd idx capacity rest list
    else (list, 0)

/-- The loop of `startsWith`, overrides.c:75-82, over the first `n` characters; reading past the
terminator of either string is undefined behaviour. -/
def startsWithLoop : Nat → List UInt8 → List UInt8 → UB Bool
  | 0, _, _ => some true
  | n + 1, x :: xs, y :: ys => if x ≠ y then some false else startsWithLoop n xs ys
  | _ + 1, _, _ => none

/-- `startsWith`, overrides.c:68-86. The stored `size` is the length with the terminator. -/
def startsWith (string pre : CStr) : UB Bool :=
  if string.length + 1 > pre.length + 1 then startsWithLoop (pre.length + 1 - 1) (string ++ [0]) (pre ++ [0])
  else some false

/-- The loop of `GetOverridingRequiredPropertyIndex`, overrides.c:361-369, from property `i`. -/
def overridingLoop (idx : Nat) (name : CStr) (i : Nat) : List CStr → UB Int
  | [] => some (-1)
  | c :: rest =>
    if i ≠ idx then
      match startsWith c name with
      | none => none
      | some true => some i
      | some false => overridingLoop idx name (i + 1) rest
    else overridingLoop idx name (i + 1) rest

/-- `fiftyoneDegreesOverridesGetOverridingRequiredPropertyIndex`, overrides.c:354-371; an index out of
range is undefined behaviour. -/
def getOverriding (available : List CStr) (idx : Nat) : UB Int :=
  match available[idx]? with
  | none => none
  | some name => overridingLoop idx name 0 available

/-- C library `isdigit` on a non-negative `char`; the code tests the sign first (overrides.c:407, 418). -/
def isDigit (c : UInt8) : Bool := 48 ≤ c.toNat && c.toNat ≤ 57

/-- C library `atoi` on text starting with a digit; a number that does not fit `int` is undefined
behaviour. -/
def atoi (s : CStr) : UB Nat :=
  let n := (s.takeWhile isDigit).foldl (fun n c => n * 10 + (c.toNat - 48)) 0
  if n < 2147483648 then some n else none

/-- `extractProfileId`, overrides.c:406-413; the state is the ids reported so far. -/
def extractProfileId (value : CStr) (ids : List Nat) : UB (List Nat) :=
  match value with
  | [] => some ids
  | c :: _ => if isDigit c then (atoi value).map fun n => ids ++ [n] else some ids

/-- `extractProfileIds`, overrides.c:415-425. `previous` and `current` are the texts from the pointers on. -/
def extractLoop (previous : CStr) : CStr → List Nat → UB (List Nat)
  | [], ids => extractProfileId previous ids
  | c :: cs, ids =>
    if isDigit c = false then (extractProfileId previous ids).bind fun ids => extractLoop cs cs ids
    else extractLoop previous cs ids

/-- `iteratorProfileId`, overrides.c:427-434. -/
def iteratorProfileId (ids : UB (List Nat)) (pair : Pair) : UB (List Nat) × Bool :=
  (if Str.compare (skipPrefix true pair.field) c!"ProfileIds" = 0 then
    ids.bind fun ids => extractLoop (pair.parsed.getD []) (pair.parsed.getD []) ids
   else ids, true)

/-- `fiftyoneDegreesOverrideProfileIds`, overrides.c:436-449, with a callback that records the ids. -/
def overrideProfileIds (e : Arr) : UB (List Nat) :=
  (iterate e COOKIE_OR_QUERY iteratorProfileId (some [])).1

end Verif.Overrides
