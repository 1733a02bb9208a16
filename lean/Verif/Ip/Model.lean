import Verif.Base

/-! # Model of `ip.c` -/

namespace Verif.Ip

/-- `fiftyoneDegreesEvidenceIpType`, ip.h:60-65. -/
inductive Ty where
  | invalid
  | v4
  | v6
deriving DecidableEq, Repr

/-- The separators tested at ip.c:163-167. -/
def isSep (c : UInt8) : Bool := c = 44 || c = 58 || c = 46 || c = 32 || c = 0

/-- `getIpTypeFromSeparator`, ip.c:112-121. -/
def typeFromSep (c : UInt8) : Ty := if c = 46 then .v4 else if c = 58 then .v6 else .invalid

/-- `getSegmentTypeWithSeparator`, ip.c:123-143. -/
def segType (c : UInt8) (ipType last : Ty) : Ty :=
  match ipType with
  | .v4 => .v4
  | .v6 => if c = 58 then .v6 else if c = 46 then .v4 else last
  | .invalid => typeFromSep c

/-- One call of `foundSegment`: the segment type, the characters from `nextSegment` to `current - 1`, and the
string that starts at `nextSegment` (which `atoi` reads). -/
structure Seg where
  ty : Ty
  text : CStr
  at_ : CStr
deriving DecidableEq, Repr

/-- What one round of the loop does with a separator (ip.c:168-177): the new type, the new segment type and
the call made, if any. -/
def step (type cur : Ty) (atStart : Bool) (seg segAt : CStr) (c : UInt8) : Ty × Ty × List Seg :=
  let cur' := segType c type cur
  let type' := if type = .invalid then cur' else type
  (type', cur', if atStart then [] else [⟨cur', seg, segAt⟩])

/-- The loop of `iterateIpAddress`, ip.c:149-183, as the type returned and the calls made. `n` is
`end - current`, `rest` the string at `current`, `seg` the characters between `nextSegment` and `current`,
`segAt` the string at `nextSegment` and `atStart` says `current = start`. The calls do not affect the loop, so
they are collected and applied afterwards. -/
def scan : (n : Nat) → (type cur : Ty) → (atStart : Bool) → (seg segAt rest : CStr) → Ty × List Seg
  | 0, type, cur, atStart, seg, segAt, rest =>
    if seg = [] then (type, [])
    else
      let c := rest.headD 0
      if isSep c then
        let r := step type cur atStart seg segAt c
        (r.1, r.2.2)
      else (type, [])
  | n + 1, type, cur, atStart, seg, segAt, rest =>
    let c := rest.headD 0
    if isSep c then
      let r := step type cur atStart seg segAt c
      let t := scan n r.1 r.2.1 false [] rest.tail rest.tail
      (t.1, r.2.2 ++ t.2)
    else scan n type cur false (seg ++ [c]) segAt rest.tail

/-- `iterateIpAddress`, ip.c:149-183, on the string `s` with `end = start + stop`. -/
def iterate (s : CStr) (stop : Nat) (type : Ty) : Ty × List Seg := scan stop type .invalid true [] s s

/-- `callbackIpAddressCount`, ip.c:35-48, over all calls. -/
def countBytes : List Seg → Nat
  | [] => 0
  | g :: rest =>
    (if g.text ≠ [] ∧ g.ty ≠ .invalid then if g.ty = .v6 then 2 else 1 else 0) + countBytes rest

/-- `getIpByte`, ip.c:58-66. -/
def ipByte (v : Int) : UInt8 := if v < 0 then 0 else if v > 255 then 255 else UInt8.ofNat v.toNat

/-- `isspace` in the "C" locale. -/
def isSpace (c : UInt8) : Bool := c = 32 || (9 ≤ c && c ≤ 13)

/-- `strtol` skips white space first. -/
def skipSpace : CStr → CStr
  | [] => []
  | c :: cs => if isSpace c then skipSpace cs else c :: cs

/-- The optional sign read by `strtol`: whether negative, and the rest. -/
def sign : CStr → Bool × CStr
  | [] => (false, [])
  | c :: cs => if c = 45 then (true, cs) else if c = 43 then (false, cs) else (false, c :: cs)

/-- The value of a digit in bases up to 16. -/
def digit (c : UInt8) : Option Nat :=
  if 48 ≤ c ∧ c ≤ 57 then some (c.toNat - 48)
  else if 97 ≤ c ∧ c ≤ 102 then some (c.toNat - 87)
  else if 65 ≤ c ∧ c ≤ 70 then some (c.toNat - 55)
  else none

/-- The number at the start of a string, read until the first character that is not a digit of the base. -/
def digits (base : Nat) (acc : Nat) : CStr → Nat
  | [] => acc
  | c :: cs =>
    match digit c with
    | some d => if d < base then digits base (acc * base + d) cs else acc
    | none => acc

/-- With base 16 `strtol` skips a `0x` prefix when a digit follows (otherwise the `0` is the number, the same
value). -/
def skipPrefix : CStr → CStr
  | [] => []
  | [c] => [c]
  | c :: x :: cs => if c = 48 ∧ (x = 120 ∨ x = 88) then cs else c :: x :: cs

/-- `strtol` with a 64 bit `long`: white space, sign, prefix, digits, saturating. -/
def strtol (base : Nat) (s : CStr) : Int :=
  let (neg, t) := sign (skipSpace s)
  let v := digits base 0 (if base = 16 then skipPrefix t else t)
  if neg then -((min v (2 ^ 63) : Nat) : Int) else ((min v (2 ^ 63 - 1) : Nat) : Int)

/-- The conversion of a `long` to `int`. -/
def toInt (v : Int) : Int := if v % 2 ^ 32 < 2 ^ 31 then v % 2 ^ 32 else v % 2 ^ 32 - 2 ^ 32

/-- glibc's `atoi`: `(int)strtol(s, NULL, 10)`. -/
def atoi (s : CStr) : Int := toInt (strtol 10 s)

/-- `*address->current = b; address->current++` with `cap` bytes allocated after the structure; undefined
behaviour past them. `w` holds the bytes written so far. -/
def write (cap : Nat) (w : List UInt8) (b : UInt8) : UB (List UInt8) :=
  if w.length < cap then some (w ++ [b]) else none

/-- `n` bytes written in turn. -/
def writeAll (cap : Nat) (w : List UInt8) : List UInt8 → UB (List UInt8)
  | [] => some w
  | b :: bs => (write cap w b).bind fun w' => writeAll cap w' bs

/-- Character `i` from the end of a segment, `'0'` before its start (ip.c:86-87). -/
def fromEnd (text : CStr) (i : Nat) : UInt8 := (text.reverse[i]?).getD 48

/-- The bytes stored by `parseIpV6Segment`, ip.c:68-98; `present` is `address->bytesPresent`. -/
def v6Bytes (present : Nat) (text : CStr) : List UInt8 :=
  if text = [] then List.replicate (16 - present) 0
  else [ipByte (toInt (strtol 16 [fromEnd text 3, fromEnd text 2])),
        ipByte (toInt (strtol 16 [fromEnd text 1, fromEnd text 0]))]

/-- The bytes stored by `callbackIpAddressBuild`, ip.c:100-110, for one call. -/
def segBytes (present : Nat) (g : Seg) : List UInt8 :=
  match g.ty with
  | .v4 => [ipByte (atoi g.at_)]
  | .v6 => v6Bytes present g.text
  | .invalid => []

/-- `callbackIpAddressBuild`, ip.c:100-110, over all calls. -/
def build (cap present : Nat) (w : List UInt8) : List Seg → UB (List UInt8)
  | [] => some w
  | g :: rest => (writeAll cap w (segBytes present g)).bind fun w' => build cap present w' rest

/-- A parsed address: type and the bytes written (the remaining allocated bytes are not initialised). -/
structure Addr where
  ty : Ty
  bytes : List UInt8
deriving DecidableEq, Repr

/-- The address bytes allocated by `mallocIpAddress`, ip.c:185-200. -/
def capacity : Ty → Nat
  | .v4 => 4
  | _ => 16

/-- `fiftyoneDegreesIpParseAddress`, ip.c:214-250, on the string `s` with `end = start + stop`, when the
allocation succeeds. -/
def parse (s : CStr) (stop : Nat) : UB Addr :=
  let r := iterate s stop .invalid
  let present := countBytes r.2 % 256
  let g := iterate s stop r.1
  (build (capacity r.1) present [] g.2).map fun w => ⟨r.1, w⟩

/-- The loop of `fiftyoneDegreesIpParseAddresses`, ip.c:252-283, as the list of addresses: the list argument
is the string at `current`, `startAt` the string at `start` and `m` is `current - start` after the increment of
line 260. -/
def parseLoop (startAt : CStr) (m : Nat) : CStr → UB (List Addr)
  | [] => some []
  | _ :: rest =>
    if rest.headD 0 = 32 ∨ rest.headD 0 = 44 ∨ rest.headD 0 = 0 then
      (parse startAt m).bind fun a => (parseLoop rest.tail 0 rest).map (a :: ·)
    else parseLoop startAt (m + 1) rest

/-- `fiftyoneDegreesIpParseAddresses`, ip.c:252-283, when allocations succeed. -/
def parseAll (s : CStr) : UB (List Addr) := parseLoop s 1 s

/-- `fiftyoneDegreesCompareIpAddresses`, ip.c:285-312: the loop over `n` bytes. -/
def compareLoop : Nat → List UInt8 → List UInt8 → UB Int
  | 0, _, _ => some 0
  | n + 1, x :: a, y :: b => if (x.toNat : Int) - y.toNat ≠ 0 then some ((x.toNat : Int) - y.toNat) else compareLoop n a b
  | _ + 1, _, _ => none

/-- `fiftyoneDegreesCompareIpAddresses`, ip.c:285-312; reading past either address is undefined. -/
def compare (a b : List UInt8) (ty : Ty) : UB Int :=
  compareLoop (match ty with | .v4 => 4 | .v6 => 16 | .invalid => 0) a b

/-- A heap block and an offset into it. -/
structure Ptr where
  block : Nat
  offset : Nat
deriving DecidableEq, Repr

/-- `free`: undefined unless given the start of an allocated block. -/
def free (alive : List Nat) (p : Ptr) : UB (List Nat) :=
  if p.offset = 0 ∧ p.block ∈ alive then some (alive.erase p.block) else none

/-- `sizeof(fiftyoneDegreesEvidenceIpAddress)` on a 64 bit machine; any positive size gives the same results.
-/
def sizeofAddress : Nat := 40

/-- `fiftyoneDegreesIpFreeAddresses`, ip.c:202-212, for a list of addresses given by the heap blocks that hold
them: `prev->address` is the byte after the structure (ip.c:231). -/
def freeAddresses (alive : List Nat) : List Nat → UB (List Nat)
  | [] => some alive
  | b :: rest => (free alive ⟨b, sizeofAddress⟩).bind fun h => freeAddresses h rest

end Verif.Ip
