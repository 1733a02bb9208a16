import Verif.Properties.Model

/-! # Model of the required properties configuration (RequiredPropertiesConfig.cpp) -/

namespace Verif.Config

open Verif.Properties (stricmp)

/-- `fiftyoneDegreesPropertiesRequired` (properties.h) as the class uses it: the constructors set the array or the
string or neither. The array holds C strings. The string is the allocated memory without the terminating NUL; as
`strtok` writes to it, it may contain zero bytes. Allocation is taken to succeed (the code does not check it). -/
inductive Conf where
  | none
  | array (l : List CStr)
  | string (buffer : CStr)
deriving DecidableEq, Repr

/-- The string constructor, RequiredPropertiesConfig.cpp:62-68. -/
def ofString (s : CStr) : Conf := .string s

/-- The list constructor, RequiredPropertiesConfig.cpp:44-55. The copies end at the first zero byte of a string. For an
empty list `Malloc(0)` may give NULL, which makes no difference to the queries. -/
def ofList (l : List CStr) : Conf := .array (l.map fun s => s.takeWhile (· ≠ 0))

/-- `strtok` with the delimiter `,` from the start of the given part of the memory: the token, that part of the memory
up to where the next call continues, as written, and the rest of the memory. -/
def strtok (b : CStr) : Option (CStr × CStr × CStr) :=
  let p := b.takeWhile (· = 44)
  let r := b.dropWhile (· = 44)
  match r with
  | [] => .none
  | c :: _ =>
    if c = 0 then .none
    else
      let t := r.takeWhile fun c => c ≠ 44 ∧ c ≠ 0
      match r.dropWhile fun c => c ≠ 44 ∧ c ≠ 0 with
      | 44 :: r => some (t, p ++ t ++ [0], r)
      | r => some (t, p ++ t, r)

/-- The loop of `getProperties`, RequiredPropertiesConfig.cpp:101-105: the tokens and the memory afterwards. `n` bounds
the rounds; the length of the memory is enough. -/
def listLoop : Nat → CStr → List CStr × CStr
  | 0, b => ([], b)
  | n + 1, b =>
    match strtok b with
    | .none => ([], b)
    | some (t, w, r) =>
      let x := listLoop n r
      (t :: x.1, w ++ x.2)

/-- `RequiredPropertiesConfig::getProperties`, RequiredPropertiesConfig.cpp:91-108, with the configuration afterwards. -/
def getProperties : Conf → List CStr × Conf
  | .none => ([], .none)
  | .array l => (l, .array l)
  | .string b =>
    let x := listLoop b.length b
    (x.1, .string x.2)

/-- The loop of `containsProperty`, RequiredPropertiesConfig.cpp:121-127. -/
def containsLoop (property : CStr) : Nat → CStr → Bool × CStr
  | 0, b => (false, b)
  | n + 1, b =>
    match strtok b with
    | .none => (false, b)
    | some (t, w, r) =>
      if stricmp property t = 0 then (true, w ++ r)
      else
        let x := containsLoop property n r
        (x.1, w ++ x.2)

/-- `RequiredPropertiesConfig::containsProperty`, RequiredPropertiesConfig.cpp:110-131. -/
def containsProperty (conf : Conf) (property : CStr) : Bool × Conf :=
  match conf with
  | .none => (false, .none)
  | .array l => (l.any fun s => stricmp property s = 0, .array l)
  | .string b =>
    let x := containsLoop property b.length b
    (x.1, .string x.2)

/-- `RequiredPropertiesConfig::getCount`, RequiredPropertiesConfig.cpp:138-156. -/
def getCount : Conf → Nat
  | .none => 0
  | .array l => l.length
  | .string b => (b.takeWhile (· ≠ 0)).count 44

end Verif.Config
