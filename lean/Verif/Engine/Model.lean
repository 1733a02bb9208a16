import Verif.Headers.Model
import Verif.Overrides.Model
import Verif.Properties.Model
import Verif.Ip.Model
import Verif.Status.Model

/-! # Model of the C++ base classes: EngineBase.cpp, ResultsBase.cpp, ValueMetaData.cpp, ConfigBase.cpp,
IpAddress.cpp, Exceptions.cpp and the exception messages of exceptionsc.c

A `std::string` made from a C string is its bytes. Allocations by the C++ library succeed. -/

namespace Verif.Engine

/-! ## EngineBase: the evidence keys -/

/-- `EngineBase::addKey`, EngineBase.cpp:53-57. -/
def addKey (keys : List CStr) (key : CStr) : List CStr := if key ∈ keys then keys else keys ++ [key]

/-- The text put between the prefix and the property's name, EngineBase.cpp:66-68 and 79-81. -/
def overridePrefix (pre : Bool) : CStr := if pre then c!"51D_" else []

/-- One round of the loop of `EngineBase::initOverrideKeys`, EngineBase.cpp:64-90; the name of an available property is
never NULL, so nothing is thrown. -/
def overrideStep (pre : Bool) (keys : List CStr) (item : Nat × CStr) : List CStr :=
  addKey (addKey keys (c!"cookie." ++ overridePrefix pre ++ item.2)) (c!"query." ++ overridePrefix pre ++ item.2)

/-- `EngineBase::initOverrideKeys`, EngineBase.cpp:59-93; `none` is a NULL array. -/
def initOverrideKeys (keys : List CStr) : Option Overrides.Props → List CStr
  | none => keys
  | some p => p.items.foldl (overrideStep p.pre) keys

/-- The text put between the prefix and the header's name, EngineBase.cpp:105-107. -/
def headerPrefix (upper : Bool) : CStr := if upper then c!"HTTP_" else []

/-- The inner loop of `EngineBase::initHttpHeaderKeys`, EngineBase.cpp:103-110. -/
def headerKeys (upper : Bool) (name : CStr) (keys : List CStr) : List CStr → List CStr
  | [] => keys
  | p :: rest => headerKeys upper name (addKey keys (p ++ headerPrefix upper ++ name)) rest

/-- One round of the outer loop of `EngineBase::initHttpHeaderKeys`, EngineBase.cpp:99-112. -/
def headerStep (upper : Bool) (keys : List CStr) (h : Headers.Header) : List CStr :=
  if h.name.contains 0x1F then keys else headerKeys upper h.name keys [c!"header.", c!"query."]

/-- `EngineBase::initHttpHeaderKeys`, EngineBase.cpp:95-113. `upper` is `getUseUpperPrefixHeaders`. -/
def initHttpHeaderKeys (upper : Bool) (keys : List CStr) (hs : Headers.Headers) : List CStr :=
  hs.items.foldl (headerStep upper) keys

/-! ## ResultsBase: the properties of the results -/

/-- `ResultsBase::getPropertyName`, ResultsBase.cpp:59-73. The names of available properties are never NULL. -/
def getPropertyName (av : List Properties.Avail) (i : Int) : CStr :=
  if i ≥ 0 ∧ i < av.length then (av.getD i.toNat ⟨0, []⟩).name else []

/-- `ResultsBase::getProperties`, ResultsBase.cpp:50-57, with `getAvailableProperties` (39-41). -/
def getProperties (av : List Properties.Avail) : List CStr :=
  (List.range av.length).map fun i => getPropertyName av (Int.ofNat i)

/-- `ResultsBase::getRequiredPropertyIndex`, ResultsBase.cpp:259-264. -/
def getRequiredPropertyIndex (av : List Properties.Avail) (name : CStr) : Int :=
  match Properties.requiredIndexFromName av name with
  | some i => i
  | none => -1

/-- `ResultsBase::containsProperty`, ResultsBase.cpp:43-48. `c_str` ends at the first zero byte. -/
def containsProperty (av : List Properties.Avail) (name : List UInt8) : Bool :=
  getRequiredPropertyIndex av (name.takeWhile (· ≠ 0)) ≥ 0

/-! ## ValueMetaDataKey -/

/-- `operator<` of `std::string`: bytes are compared as unsigned and a proper prefix comes first. -/
def stringLess : List UInt8 → List UInt8 → Bool
  | [], [] => false
  | [], _ :: _ => true
  | _ :: _, [] => false
  | x :: a, y :: b => if x.toNat < y.toNat then true else if y.toNat < x.toNat then false else stringLess a b

/-- `ValueMetaDataKey`, ValueMetaData.cpp:27-38. -/
structure Key where
  property : List UInt8
  value : List UInt8
deriving DecidableEq, Repr

/-- `ValueMetaDataKey::operator<`, ValueMetaData.cpp:62-68. -/
def Key.less (k other : Key) : Bool :=
  if other.property = k.property then stringLess other.value k.value else stringLess other.property k.property

/-- `ValueMetaDataKey::operator==`, ValueMetaData.cpp:76-79. -/
def Key.equal (k other : Key) : Bool := other.property = k.property && other.value = k.value

/-! ## IpAddress -/

/-- `FIFTYONE_DEGREES_EVIDENCE_IP_TYPE_...`, ip.h:59-63. -/
def typeValue : Ip.Ty → Nat
  | .v4 => 0
  | .v6 => 1
  | .invalid => 2

/-- `IpAddress`, IpAddress.hpp:112-115: a cell is `none` if it is not initialised. -/
structure IpAddress where
  ty : Ip.Ty
  bytes : List (Option UInt8)
deriving DecidableEq, Repr

/-- `memcpy` into the start of `to`; copying more than either has is undefined. -/
def memcpy (to source : List (Option UInt8)) (n : Nat) : UB (List (Option UInt8)) :=
  if n ≤ to.length ∧ n ≤ source.length then some (source.take n ++ to.drop n) else none

/-- `IpAddress::init`, IpAddress.cpp:59-73, in a new object. -/
def IpAddress.init (data : List (Option UInt8)) (ty : Ip.Ty) : UB IpAddress :=
  let fresh : List (Option UInt8) := List.replicate 16 none
  match ty with
  | .v4 => (memcpy fresh data 4).map fun b => ⟨ty, b⟩
  | .v6 => (memcpy fresh data 16).map fun b => ⟨ty, b⟩
  | .invalid => some ⟨ty, List.replicate 16 (some 0)⟩

/-- The default constructor, IpAddress.cpp:32-35. -/
def IpAddress.default : IpAddress := ⟨.invalid, List.replicate 16 (some 0)⟩

/-- The constructor from a text, IpAddress.cpp:42-57, when the allocation succeeds: the bytes the parser does not write
are not initialised. -/
def IpAddress.ofText (s : CStr) : UB IpAddress := do
  let a ← Ip.parse s s.length
  IpAddress.init (a.bytes.map some ++ List.replicate (Ip.capacity a.ty - a.bytes.length) none) a.ty

/-- `IpAddress::getCopyOfIpAddress`, IpAddress.cpp:75-81. -/
def IpAddress.getCopy (a : IpAddress) (copy : List (Option UInt8)) (size : Nat) : UB (List (Option UInt8)) :=
  let dataSize := if a.ty = .v4 then typeValue .v4 else typeValue .v6
  let copySize := if size < dataSize then size else dataSize
  memcpy copy a.bytes copySize

/-! ## ConfigBase: the temporary directories -/

/-- `ConfigBase` with the part of `fiftyoneDegreesConfigBase` it looks after: the C++ strings, the C array (its heap block and
the texts its elements point at), the count and the heap blocks allocated. -/
structure Conf where
  tempDirs : List CStr
  array : Option (Nat × List CStr)
  count : Nat
  alive : List Nat
  next : Nat
deriving DecidableEq, Repr

/-- A new configuration, ConfigBase.cpp:29-31, over a C structure without directories. -/
def Conf.new : Conf := ⟨[], none, 0, [], 0⟩

/-- `ConfigBase::mapTempDirectories`, ConfigBase.cpp:83-90; the allocation is not checked and taken to succeed. -/
def Conf.mapTempDirectories (c : Conf) : Conf :=
  { c with
    count := c.tempDirs.length
    array := some (c.next, c.tempDirs)
    alive := c.next :: c.alive
    next := c.next + 1 }

/-- `ConfigBase::setTempDirectories`, ConfigBase.cpp:49-53. -/
def Conf.setTempDirectories (c : Conf) (dirs : List CStr) : Conf :=
  { c with tempDirs := dirs }.mapTempDirectories

/-- `ConfigBase::freeTempDirectories`, ConfigBase.cpp:75-81, which is what the destructor does. Freeing a block that is
not allocated is undefined. -/
def Conf.freeTempDirectories (c : Conf) : UB Conf :=
  match c.array with
  | none => some { c with count := 0 }
  | some (b, _) => if b ∈ c.alive then some { c with array := none, count := 0, alive := c.alive.erase b } else none

/-! ## Exceptions -/

/-- `fiftyoneDegreesException`, exceptions.h:110-115; `none` is NULL. -/
structure Exc where
  file : Option CStr
  func : Option CStr
  line : Int
  status : Nat
deriving DecidableEq, Repr

/-- `FIFTYONE_DEGREES_STATUS_NOT_SET`, status.h:87. -/
def NOT_SET : Nat := 7

/-- `FIFTYONE_DEGREES_EXCEPTION_SET`, exceptions.h:121-127. -/
def Exc.set (_e : Exc) (file func : CStr) (line : Int) (s : Nat) : Exc := ⟨some file, some func, line, s⟩

/-- `FIFTYONE_DEGREES_EXCEPTION_CLEAR`, exceptions.h:132-136. -/
def Exc.clear : Exc := ⟨none, none, -1, NOT_SET⟩

/-- `FIFTYONE_DEGREES_EXCEPTION_OKAY`, exceptions.h:141-142, when the exception is given. -/
def Exc.okay (e : Exc) : Bool := e.status = NOT_SET

/-- An argument of `snprintf`: a pointer to a string, or an `int`. -/
inductive Arg where
  | str (s : Option CStr)
  | int (i : Int)

/-- The text `snprintf` makes of a format: a NULL string, a missing argument or one that does not fit is undefined. -/
def expand : CStr → List Arg → UB CStr
  | [], _ => some []
  | 37 :: 115 :: rest, .str (some s) :: args => (expand rest args).map (s ++ ·)
  | 37 :: 100 :: rest, .int i :: args => (expand rest args).map (Status.decimal i ++ ·)
  | 37 :: _, _ => none
  | c :: rest, args => (expand rest args).map (c :: ·)

/-- `format`, exceptionsc.c:30-34. -/
def format : CStr := c!"Message:  %s\r\nSource:   %s\r\nFunction: %s\r\nLine:     %d\r\n"

/-- The C string in a block. -/
def cstr (b : Status.Block) : CStr := b.bytes.takeWhile (· ≠ 0)

/-- `fiftyoneDegreesExceptionGetMessage`, exceptionsc.c:27-58, when the allocations succeed. -/
def Exc.message (e : Exc) : UB Status.Block := do
  let b ← Status.getMessage true true e.status none
  let m := cstr b
  let length := format.length + m.length + (match e.file with | some f => f.length | none => 0) +
    (match e.func with | some f => f.length | none => 0) + 10
  let text ← expand format [.str (some m), .str e.file, .str e.func, .int e.line]
  some ⟨length, text.take (length - 1) ++ [0]⟩

/-- `StatusCodeException`, Exceptions.hpp:74-87: the message and the code, `none` if it is not initialised. -/
structure Thrown where
  message : CStr
  code : Option Nat
deriving DecidableEq, Repr

/-- The constructors from a status, Exceptions.cpp:30-49, when the allocations succeed. -/
def Thrown.ofStatus (code : Nat) (file : Option CStr) : UB Thrown := do
  let b ← Status.getMessage true true code file
  some ⟨cstr b, some code⟩

/-- `FatalException`, Exceptions.cpp:60-67, with the default constructor of its base (28). -/
def Thrown.ofException (e : Exc) : UB Thrown := do
  let b ← e.message
  some ⟨cstr b, none⟩

/-- `StatusCodeException::getCode`, Exceptions.cpp:56-58: reading a value that is not initialised is undefined. -/
def Thrown.getCode (t : Thrown) : UB Nat := t.code

end Verif.Engine
