import Verif.Profile.Model
import Verif.Ip.Model

/-! # Model of looking values up by name (value.c), for names of all three formats -/

namespace Verif.Lookup

open Verif.Search (Coll Out)
open Verif.Profile (Property strcmp)

/-- A value's name as `fiftyoneDegreesValueGetName` gives it: a string, a coordinate (`STRING_COORDINATE`: the bytes of
two `fiftyoneDegreesFloat`), an IP address (`STRING_IP_ADDRESS`: `size - 1` bytes), or NULL and whether an exception is
set (string.h:76-84, 111-121). A `text` does not start with the byte 1 or 2, which mark the other formats. -/
inductive Name where
  | text (s : CStr)
  | coordinate (lat lon : List UInt8)
  | ip (bytes : List UInt8)
  | missing (raises : Bool)
deriving DecidableEq, Repr

/-- What the comparison depends on besides its arguments: `num s` are the bytes of `NATIVE_TO_FLOAT((float)atof(s))`,
and `memory` says whether the address can be allocated. -/
structure Env where
  num : CStr → List UInt8
  memory : Bool

/-- C `memcmp` of `n` bytes (the sign); reading beyond the bytes is undefined behaviour. -/
def memcmp : Nat → List UInt8 → List UInt8 → UB Int
  | 0, _, _ => some 0
  | n + 1, x :: a, y :: b => if x = y then memcmp n a b else some (if x.toNat < y.toNat then -1 else 1)
  | _ + 1, _, _ => none

/-- The text after the first comma, `strstr(target, ",") + 1`, value.c:58, 62; `none` when there is no comma. -/
def afterComma : CStr → Option CStr
  | [] => none
  | c :: cs => if c = 44 then some cs else afterComma cs

/-- `compareCoordinate`, value.c:56-73; `sizeof(Float)` is 4. -/
def compareCoordinate (e : Env) (lat lon : List UInt8) (target : CStr) : UB Int :=
  match afterComma target with
  | some rest =>
    match memcmp 4 lat (e.num target) with
    | none => none
    | some r => if r = 0 then memcmp 4 lon (e.num rest) else some r
  | none => some (-1)

/-- value.c:93-103: the number of bytes of an address of a type. -/
def searchLength : Ip.Ty → Nat
  | .v4 => 4
  | .v6 => 16
  | .invalid => 0

/-- `compareIpAddress`, value.c:84-119. The result stays 0 when the address cannot be allocated. -/
def compareIp (e : Env) (value : List UInt8) (target : CStr) : UB Int :=
  if e.memory then
    match Ip.parse target target.length with
    | none => none
    | some a =>
      if searchLength a.ty = 0 then some (-1)
      else
        match memcmp (min value.length (searchLength a.ty)) value a.bytes with
        | none => none
        | some r => if r = 0 then some ((value.length : Int) - searchLength a.ty) else some r
  else some 0

/-- `compareValueByName`, value.c:127-153; the inner `none` is an exception. Without a name the result stays 0. -/
def compareName (e : Env) (target : CStr) : Name → UB (Option Int)
  | .text s => some (some (strcmp s target))
  | .coordinate lat lon => (compareCoordinate e lat lon target).map some
  | .ip bytes => (compareIp e bytes target).map some
  | .missing true => some none
  | .missing false => some (some 0)

/-- The values as the search sees them; a comparison that is undefined is reported as an exception here, see
`indexByName`. -/
def coll (e : Env) (names : List Name) (target : CStr) : Coll Name where
  get i := names[i]?
  cmp v _ := (compareName e target v).join

/-- Whether comparing with the name at an index is defined. -/
def defined (e : Env) (names : List Name) (target : CStr) (i : Nat) : Bool :=
  match names[i]? with
  | some v => (compareName e target v).isSome
  | none => true

/-- `fiftyoneDegreesValueGetIndexByName`, value.c:198-222: undefined when one of the comparisons made is. -/
def indexByName (e : Env) (names : List Name) (fuel : Nat) (q : Property) (target : CStr) : UB Out :=
  match Search.search (coll e names target) fuel q.first q.last with
  | none => none
  | some o => if o.touched.all (defined e names target) then some o else none

/-- `fiftyoneDegreesValueGetByName`, value.c:224-249: the index of the value returned, the inner `none` is NULL.
`(int)firstValueIndex != -1` compares the `uint32_t` with its largest value. -/
def getByName (e : Env) (names : List Name) (fuel : Nat) (q : Property) (target : CStr) : UB (Option Nat) :=
  if q.first % 2 ^ 32 ≠ 2 ^ 32 - 1 then
    match indexByName e names fuel q target with
    | none => none
    | some o => if o.ret ≥ 0 ∧ o.error = false then some o.held else some none
  else some none

end Verif.Lookup
