import Verif.Base

/-! # Model of the result values (Value.hpp, ResultsBase.cpp, Exceptions.cpp)

What the engine provides (the virtual methods of `ResultsBase`) is given by parameters. The overloads which take a
property name only look up the index first (ResultsBase.cpp:106-116, ...) and are not modelled. -/

namespace Verif.Value

/-- `fiftyoneDegreesResultsNoValueReason`, results.h:56-89. -/
inductive Reason where
  | difference
  | noMatchedNodes
  | invalidProperty
  | noResultForProperty
  | noResults
  | tooManyValues
  | nullProfile
  | unknown
deriving DecidableEq, Repr

/-- The exceptions of Exceptions.hpp:122-177 with their messages. -/
inductive Exn where
  | invalidProperty (message : CStr)
  | tooManyValues (message : CStr)
  | noValuesAvailable (message : CStr)
deriving DecidableEq, Repr

/-- `InvalidPropertyException`, Exceptions.cpp:73-79; both constructors. -/
def newInvalidProperty : Option CStr → Exn
  | none => .invalidProperty c!"Requested property is not available"
  | some m => .invalidProperty m

/-- `NoValuesAvailableException`, Exceptions.cpp:81-88; both constructors. -/
def newNoValuesAvailable : Option CStr → Exn
  | none => .noValuesAvailable c!"No values are available for the property requested"
  | some m => .noValuesAvailable m

/-- `TooManyValuesException`, Exceptions.cpp:90-92. -/
def newTooManyValues : Exn := .tooManyValues c!"Type conversation only available for properties with a single value"

/-- `Value<T>`, Value.hpp:196-202. -/
structure Value (α : Type) where
  has : Bool
  value : α
  message : Option CStr
  reason : Reason
deriving Repr

/-- The constructor, Value.hpp:82-85, and the initial values, Value.hpp:199-202; `d` is `T()`. -/
def Value.new {α : Type} (d : α) : Value α := ⟨false, d, none, .unknown⟩

/-- `setValue`, Value.hpp:159-162. -/
def Value.setValue {α : Type} (v : Value α) (x : α) : Value α := { v with value := x, has := true }

/-- `setNoValueReason`, Value.hpp:172-177. -/
def Value.setNoValueReason {α : Type} (v : Value α) (r : Reason) (m : Option CStr) : Value α :=
  { v with reason := r, message := m }

/-- `getValue` and `operator*`, Value.hpp:129-153, 190-192. -/
def Value.getValue {α : Type} (v : Value α) : Except Exn α :=
  if v.has then .ok v.value
  else
    match v.reason with
    | .invalidProperty =>
      match v.message with
      | some m => .error (newInvalidProperty (some m))
      | none => .error (newInvalidProperty none)
    | .tooManyValues => .error newTooManyValues
    | .difference => .error (newNoValuesAvailable v.message)
    | .noResultForProperty => .error (newNoValuesAvailable v.message)
    | .noResults => .error (newNoValuesAvailable v.message)
    | .unknown => .error (newNoValuesAvailable v.message)
    | _ => .error (newNoValuesAvailable none)

/-- What the engine says about a property: `hasValuesInternal`, `getNoValueReasonInternal`,
`getNoValueMessageInternal` and `getValuesInternal`, ResultsBase.hpp. -/
structure Source where
  has : Bool
  reason : Reason
  message : Reason → Option CStr
  values : List CStr

/-- The values written to the stream, ResultsBase.cpp:89-96; `first` says whether the iterator is at the beginning. -/
def join : Bool → List CStr → CStr
  | _, [] => []
  | first, v :: vs => (if first then [] else [124]) ++ v ++ join false vs

/-- `ResultsBase::getValueAsString`, ResultsBase.cpp:75-104. -/
def getValueAsString (s : Source) : Value CStr :=
  let result := Value.new []
  if s.has = false then result.setNoValueReason s.reason (s.message s.reason)
  else if s.values.length > 1 then result.setValue (join true s.values)
  else
    match s.values with
    | v :: _ => result.setValue v
    | [] => result

/-- The common shape of the conversions to single values, ResultsBase.cpp:118-140, 154-176, 190-212. `convert` is
undefined where its C function is. -/
def getValueAs {α : Type} (d : α) (convert : CStr → UB α) (s : Source) : UB (Value α) :=
  let result := Value.new d
  if s.has = false then some (result.setNoValueReason s.reason (s.message s.reason))
  else if s.values.length > 1 then some (result.setNoValueReason .tooManyValues none)
  else
    match s.values with
    | v :: _ => (convert v).map result.setValue
    | [] => some result

/-- `ResultsBase::getValueAsBool`, ResultsBase.cpp:118-140. -/
def getValueAsBool : Source → UB (Value Bool) := getValueAs false fun v => some (v == c!"True")

/-- `isspace` in the "C" locale. -/
def isSpace (c : UInt8) : Bool := c = 32 || (9 ≤ c && c ≤ 13)

/-- `isdigit`. -/
def isDigit (c : UInt8) : Bool := 48 ≤ c && c ≤ 57

/-- The number the leading digits give, after `n`. -/
def digits (n : Nat) : CStr → Nat
  | [] => n
  | c :: t => if isDigit c then digits (n * 10 + (c.toNat - 48)) t else n

/-- Whether there is a minus sign, and what follows the sign. -/
def sign : CStr → Bool × CStr
  | 45 :: t => (true, t)
  | 43 :: t => (false, t)
  | t => (false, t)

/-- `atoi`: white space, a sign, digits. It is undefined when the result is not an `int`. -/
def atoi (s : CStr) : UB Int :=
  let x := sign (s.dropWhile isSpace)
  let n : Int := if x.1 then - (digits 0 x.2 : Int) else digits 0 x.2
  if - 2 ^ 31 ≤ n ∧ n < 2 ^ 31 then some n else none

/-- `ResultsBase::getValueAsInteger`, ResultsBase.cpp:154-176. -/
def getValueAsInteger : Source → UB (Value Int) := getValueAs 0 atoi

/-- `ResultsBase::getValueAsDouble`, ResultsBase.cpp:190-212; `strtod` is a parameter. -/
def getValueAsDouble {α : Type} (zero : α) (strtod : CStr → α) : Source → UB (Value α) :=
  getValueAs zero fun v => some (strtod v)

/-- `ResultsBase::getValues`, ResultsBase.cpp:226-242. -/
def getValues (s : Source) : Value (List CStr) :=
  let result := Value.new []
  if s.has = false then result.setNoValueReason s.reason (s.message s.reason)
  else result.setValue s.values

end Verif.Value
