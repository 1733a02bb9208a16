import Verif.Base

/-! # Model of `string.c` -/

namespace Verif.Str

/-- `fiftyoneDegreesStringCompare`, string.c:63-74. Both arguments are whole C strings, the loop
walks both until a difference or the end of one. -/
def compare : CStr → CStr → Int
  | [], [] => 0
  | [], _ :: _ => -1
  | _ :: _, [] => 1
  | x :: a, y :: b =>
    let d := lowerInt x - lowerInt y
    if d ≠ 0 then d else compare a b

/-- `fiftyoneDegreesStringCompareLength`, string.c:76-88. The loop does not look for terminators, so
the arguments are the readable bytes starting at the two pointers (terminator included) and reading
past them is undefined. -/
def compareLength : List UInt8 → List UInt8 → Nat → UB Int
  | _, _, 0 => some 0
  | x :: a, y :: b, n + 1 =>
    let d := lowerInt x - lowerInt y
    if d ≠ 0 then some d else compareLength a b n
  | _, _, _ + 1 => none

/-- The inner loop string.c:98-103, started with `d = 0`: returns the final `d`. -/
def subInner : CStr → CStr → Int
  | x :: a, y :: b =>
    let d := lowerInt x - lowerInt y
    if d ≠ 0 then d else subInner a b
  | _, _ => 0

/-- `fiftyoneDegreesStringSubString`, string.c:90-110. Returns the offset of the returned pointer
from the start of `a`, `none` for NULL. `i` is the number of bytes already skipped. -/
def subStringFrom (i : Nat) : CStr → CStr → Option Nat
  | [], _ => none
  | _ :: _, [] => none
  | x :: a, y :: b =>
    if lowerInt x - lowerInt y = 0 then
      if subInner a b = 0 then some i else subStringFrom (i + 1) a (y :: b)
    else subStringFrom (i + 1) a (y :: b)

/-- string.c:90-110 from the start of the haystack. -/
def subString (a b : CStr) : Option Nat := subStringFrom 0 a b

end Verif.Str
