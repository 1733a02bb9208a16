import Verif.Base
import Mathlib.Data.Int.Log
import Mathlib.Data.Rat.Floor

/-! # Model of the stored single precision format (float.c)

Native floats are binary32 values: a non-zero finite one is given by its exact value, a rational number. Every
floating point operation of the code is the exact operation followed by the rounding `rnd`. The rounding is a
parameter, of which the theorems only assume that it leaves values alone that binary32 has, as IEEE 754 requires.
`powf` and `frexp` are taken to give the exact result rounded. The bit fields are taken to be laid out from the lowest
bit, as on little endian machines with gcc, clang and MSVC. -/

namespace Verif.Flt

/-- A native float. NaNs have a sign and a payload, which no operation here looks at. -/
inductive Native where
  | nan (neg : Bool) (payload : Nat)
  | inf (neg : Bool)
  | zero (neg : Bool)
  | num (q : ℚ)
deriving DecidableEq

/-- The fields of `fiftyoneDegreesFloatU`, float.h:118-125: 1, 8 and 23 bits. -/
structure Stored where
  sign : Nat
  exponent : Nat
  mantissa : Nat
deriving DecidableEq, Repr

/-- Assignment to the bit fields keeps the low bits. -/
def Stored.make (sign exponent mantissa : Int) : Stored :=
  ⟨(sign % 2).toNat, (exponent % 256).toNat, (mantissa % 8388608).toNat⟩

/-- `powf(2, k)`, `FIFTYONE_DEGREES_FLOAT_RADIX` being 2. -/
def pow2 (rnd : ℚ → ℚ) (k : ℤ) : ℚ := rnd ((2 : ℚ) ^ k)

/-- `powf(-1, sign)`. -/
def sgn (rnd : ℚ → ℚ) (sign : Nat) : ℚ := rnd ((-1) ^ sign)

/-- The float with the given value. -/
def Native.ofRat (q : ℚ) : Native := if q = 0 then .zero false else .num q

/-- `fiftyoneDegreesFloatToNative`, float.c:27-79. -/
def toNative (rnd : ℚ → ℚ) (f : Stored) : Native :=
  if f.exponent = 0 then
    if f.mantissa = 0 then .zero false
    else
      let v := sgn rnd f.sign
      let v := rnd (v * pow2 rnd (1 - 127))
      .ofRat (rnd (v * rnd (rnd f.mantissa / pow2 rnd 23)))
  else if f.exponent = 255 then
    -- the macros `INFINITY` and `NAN`
    if f.mantissa = 8388607 then .inf false else .nan false 4194304
  else
    let v := sgn rnd f.sign
    let v := rnd (v * pow2 rnd ((f.exponent : ℤ) - 127))
    .ofRat (rnd (v * rnd (1 + rnd (rnd f.mantissa / pow2 rnd 23))))

/-- The exponent `frexp` gives: the significand has absolute value in [1/2, 1). -/
def frexpExponent (q : ℚ) : ℤ := Int.log 2 |q| + 1

/-- The significand `frexp` gives. -/
def frexpSignificand (q : ℚ) : ℚ := q / 2 ^ frexpExponent q

/-- Conversion of a positive float to `int`: towards zero. -/
def trunc (q : ℚ) : ℤ := ⌊q⌋

/-- `fiftyoneDegreesNativeToFloat`, float.c:81-126; `fpclassify` calls a value normal from 2^-126 on. -/
def toStored (rnd : ℚ → ℚ) : Native → Stored
  | .nan _ _ => .make 0 255 1
  | .inf _ => .make 0 255 8388607
  | .zero _ => .make 0 0 0
  | .num q =>
    let significand := rnd (frexpSignificand q)
    let sign : Int := if q ≥ 0 then 0 else -1
    if |q| < 2 ^ (-126 : ℤ) then .make sign 0 (trunc (rnd (|significand| * pow2 rnd 23)))
    else .make sign (frexpExponent q - 1 + 127) (trunc (rnd (rnd (rnd (|significand| * 2) - 1) * pow2 rnd 23)))

/-- The four bytes of the stored value. -/
def Stored.bytes (f : Stored) : List UInt8 :=
  let n := f.mantissa + f.exponent * 8388608 + f.sign * 2147483648
  [UInt8.ofNat n, UInt8.ofNat (n / 256), UInt8.ofNat (n / 65536), UInt8.ofNat (n / 16777216)]

/-- The loop of `fiftyoneDegreesFloatIsEqual`, float.c:130-132, over the indexes `is`; reading outside the bytes is
undefined. -/
def equalLoop (a b : List UInt8) (r : Nat) : List Nat → UB Nat
  | [] => some r
  | i :: is => do
    let x ← a[i]?
    let y ← b[i]?
    equalLoop a b (r ||| if x = y then 0 else 1) is

/-- `fiftyoneDegreesFloatIsEqual`, float.c:128-134: 0 when all bytes are equal. -/
def isEqual (a b : List UInt8) : UB Nat := equalLoop a b 0 (List.range 4)

end Verif.Flt
