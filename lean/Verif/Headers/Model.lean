import Verif.Str.Model

/-! # Model of `headers.c` -/

namespace Verif.Headers

/-- `PSEUDO_HEADER_SEP`, pseudoheader.h:31. -/
def SEP : UInt8 := 0x1F

/-- `fiftyoneDegreesHeader`, headers.h:125-134. `nameLength` is always the length of `name`
(headers.c:184); a segment is the text it points at. -/
structure Header where
  name : CStr
  segments : List CStr
  isDataSet : Bool
  uniqueId : Nat
deriving DecidableEq, Repr

/-- The loop of `countHeaderSegments`, headers.c:42-56; `last` is `*last`. -/
def countGo (last : UInt8) : CStr → Nat
  | [] => if last ≠ SEP then 1 else 0
  | c :: cs => (if c = SEP ∧ last ≠ SEP then 1 else 0) + countGo c cs

/-- `countHeaderSegments`, headers.c:35-58. For the empty string `*last` is the terminator. Counts are
naturals rather than `int`. -/
def countHeaderSegments (name : CStr) : Nat := countGo (name.headD 0) name

/-- `countAllSegments`, headers.c:63-82. The get method is the list of (name, unique id) it returns. -/
def countAllSegments : List (CStr × Nat) → Nat
  | [] => 0
  | (name, _) :: rest =>
    let segments := countHeaderSegments name
    segments + (if segments > 1 then 1 else 0) + countAllSegments rest

/-- The loop of `createSegmentArray` with `addSegment`, headers.c:110-123 and 143-156. `seg` is the text
between `last` and `current` (the code keeps `last ≤ current` at the head of the loop); `none` is the
POINTER_OUT_OF_BOUNDS exception. -/
def segGo (cap : Nat) : CStr → CStr → List CStr → Option (List CStr)
  | [], seg, segs =>
    if seg ≠ [] then
      if segs.length ≥ cap then none else some (segs ++ [seg])
    else some segs
  | c :: cs, seg, segs =>
    if c = SEP then
      if seg ≠ [] then
        if segs.length ≥ cap then none else segGo cap cs [] (segs ++ [seg])
      else segGo cap cs [] segs
    else segGo cap cs (seg ++ [c]) segs

/-- `createSegmentArray`, headers.c:131-163 (allocation succeeds); `none` is NULL. -/
def createSegmentArray (name : CStr) : Option (List CStr) :=
  segGo (countHeaderSegments name) name [] []

/-- `getHeaderIndex`, headers.c:225-239, from position `i`. `name` are the readable bytes at the pointer
(never NULL here); `some none` is -1. -/
def getHeaderIndexFrom (name : List UInt8) (length : Nat) (i : Nat) : List Header → UB (Option Nat)
  | [] => some none
  | h :: hs =>
    if h.name.length = length then
      match Str.compareLength name (h.name ++ [0]) length with
      | none => none
      | some d => if d = 0 then some (some i) else getHeaderIndexFrom name length (i + 1) hs
    else getHeaderIndexFrom name length (i + 1) hs

/-- headers.c:225-239. -/
def getHeaderIndex (hs : List Header) (name : List UInt8) (length : Nat) : UB (Option Nat) :=
  getHeaderIndexFrom name length 0 hs

/-- `addHeadersFromDataSet`, headers.c:256-297 with `setHeaderFromDataSet` (191-203). Writing
`items[count]` with `count` equal to the capacity is undefined; the inner `none` is a `false` result.
Item acquisition and release are not modelled here. -/
def addHeadersFromDataSet (cap : Nat) : List (CStr × Nat) → List Header → UB (Option (List Header))
  | [], hs => some (some hs)
  | (name, uid) :: rest, hs =>
    if name.length > 0 ∧ countHeaderSegments name > 0 then
      match getHeaderIndex hs (name ++ [0]) name.length with
      | none => none
      | some (some _) => addHeadersFromDataSet cap rest hs
      | some none =>
        if hs.length < cap then
          match createSegmentArray name with
          | none => some none
          | some segs => addHeadersFromDataSet cap rest (hs ++ [⟨name, segs, true, uid⟩])
        else none
    else addHeadersFromDataSet cap rest hs

/-- The inner loop of `addHeadersFromSegments`, headers.c:310-321 with `setHeaderFromSegment`
(208-220). -/
def addSegs (cap : Nat) : List CStr → List Header → UB (Option (List Header))
  | [], hs => some (some hs)
  | seg :: rest, hs =>
    match getHeaderIndex hs (seg ++ [0]) seg.length with
    | none => none
    | some (some _) => addSegs cap rest hs
    | some none =>
      if hs.length < cap then
        match createSegmentArray seg with
        | none => some none
        | some segs => addSegs cap rest (hs ++ [⟨seg, segs, false, 0⟩])
      else none

/-- `addHeadersFromSegments`, headers.c:303-324. The first argument are the `max` headers present when
the loop starts; they are never changed by it. -/
def addHeadersFromSegments (cap : Nat) : List Header → List Header → UB (Option (List Header))
  | [], hs => some (some hs)
  | h :: rest, hs =>
    match addSegs cap h.segments hs with
    | none => none
    | some none => some none
    | some (some hs') => addHeadersFromSegments cap rest hs'

/-- `fiftyoneDegreesHeadersIsPseudo`, headers.c:329-331. -/
def isPseudo (name : CStr) : Bool := name.contains SEP

/-- `countPseudoHeaders`, headers.c:88-98. -/
def countPseudoHeaders (hs : List Header) : Nat := (hs.filter fun h => h.segments.length > 1).length

/-- The headers array, headers.h:136-149. -/
structure Headers where
  items : List Header
  capacity : Nat
  expectUpper : Bool
  pseudoCount : Nat
deriving DecidableEq, Repr

/-- `fiftyoneDegreesHeadersCreate`, headers.c:333-368. Outer `none` is undefined behaviour, inner `none`
is NULL. -/
def create (expectUpper : Bool) (ds : List (CStr × Nat)) : UB (Option Headers) :=
  let cap := countAllSegments ds
  match addHeadersFromDataSet cap ds [] with
  | none => none
  | some none => some none
  | some (some hs) =>
    match addHeadersFromSegments cap hs hs with
    | none => none
    | some none => some none
    | some (some hs') => some (some ⟨hs', cap, expectUpper, countPseudoHeaders hs'⟩)

/-- `HTTP_PREFIX_UPPER`, headers.c:28. -/
def HTTP_ : CStr := c!"HTTP_"

/-- `fiftyoneDegreesHeaderGetIndex`, headers.c:370-402. `sizeof("HTTP_")` is 6. -/
def headerGetIndex (h : Headers) (name : List UInt8) (length : Nat) : UB (Option Nat) :=
  if h.expectUpper ∧ length > 6 then
    match Str.compareLength name (HTTP_ ++ [0]) 5 with
    | none => none
    | some d =>
      if d = 0 then getHeaderIndex h.items (name.drop 5) (length - 5)
      else getHeaderIndex h.items name length
  else getHeaderIndex h.items name length

/-- `fiftyoneDegreesHeadersGetHeaderFromUniqueId`, headers.c:404-414. -/
def getHeaderFromUniqueId (h : Headers) (uid : Nat) : Option Header :=
  h.items.find? fun x => x.uniqueId = uid

/-- `fiftyoneDegreesHeadersIsHttp`, headers.c:430-437; `field` is what is in memory from the pointer to the field on. -/
def isHttp (h : Headers) (field : List UInt8) : UB Bool :=
  match headerGetIndex h field (field.takeWhile (· ≠ 0)).length with
  | none => none
  | some (some _) => some true
  | some none => some false

end Verif.Headers
