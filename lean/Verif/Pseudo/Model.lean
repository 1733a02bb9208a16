import Verif.Headers.Model
import Verif.Evidence.Model

/-! # Model of `pseudoheader.c` -/

namespace Verif.Pseudo
open Verif.Headers (Header SEP isPseudo)
open Verif.Evidence (Pair)

/-- `getEvidenceValueForHeader`, pseudoheader.c:36-56. The length test (line 46) makes the bounded
comparison read exactly the field and the segment, so it is total here. `none` is NULL: no pair, or a pair
whose value is NULL. -/
def getEvidenceValueForHeader (seg : CStr) (ev : List Pair) (pfx : Nat) : Option CStr :=
  match ev with
  | [] => none
  | p :: ps =>
    if p.pfx = pfx ∧ p.field.length = seg.length ∧
        Str.compareLength (p.field ++ [0]) seg p.field.length = some 0 then p.orig
    else getEvidenceValueForHeader seg ps pfx

/-- `Snprintf(current, size, "%s", value)`: the text left at `current` (when `size > 0`); the return
value is `value.length`. Encoding errors (a negative result) do not happen for "%s". -/
def snprintfText (size : Nat) (value : CStr) : CStr := value.take (size - 1)

/-- The loop of `constructPseudoEvidence`, pseudoheader.c:85-121. `i` is the loop index, `written` the
text between `buffer` and `current`. Returns the result and the C string left in the buffer. -/
def constructGo (bufferSize : Nat) (ev : List Pair) (pfx : Nat) : Nat → CStr → List CStr → Nat × CStr
  | _, written, [] => (written.length, written)
  | i, written, seg :: segs =>
    match getEvidenceValueForHeader seg ev pfx with
    | none => (0, [])
    | some value =>
      let written := if i ≠ 0 ∧ written.length + 1 < bufferSize then written ++ [SEP] else written
      let size := bufferSize - written.length
      if value.length ≥ size then (written.length + value.length, written ++ snprintfText size value)
      else constructGo bufferSize ev pfx (i + 1) (written ++ value) segs

/-- `constructPseudoEvidence`, pseudoheader.c:71-122. `old` is the C string in the buffer before. With no
segments nothing is written; with a zero size buffer nothing is written either. Lengths are naturals
rather than `int`. -/
def constructPseudoEvidence (bufferSize : Nat) (old : CStr) (h : Header) (ev : List Pair) (pfx : Nat) :
    Nat × CStr :=
  if h.segments = [] then (0, old)
  else
    let r := constructGo bufferSize ev pfx 0 [] h.segments
    if bufferSize = 0 then (r.1, old) else r

/-- `isEvidencePresentForHeader`, pseudoheader.c:133-163. -/
def isEvidencePresentForHeader (ev : List Pair) (h : Header) (prefixes : List Nat) : Bool :=
  ev.any fun p => prefixes.contains p.pfx && p.field.length == h.name.length &&
    Str.compare h.name p.field == 0

/-- One item of the pseudo evidence array: `buf` is the preallocated `originalValue` buffer as the C
string in it, `none` if NULL. -/
structure Slot where
  field : Option CStr
  pfx : Nat
  buf : Option CStr
deriving DecidableEq, Repr

/-- The pseudo evidence array: all `capacity` items and `count`. -/
structure PseudoArr where
  slots : List Slot
  count : Nat
deriving DecidableEq, Repr

/-- The loop over prefixes, pseudoheader.c:195-227, for the slot at `count`. -/
def addForHeader (bufferSize : Nat) (ev : List Pair) (h : Header) :
    List Nat → CStr → PseudoArr → PseudoArr
  | [], buf, pa => { pa with slots := pa.slots.modify pa.count fun s => { s with buf := some buf } }
  | p :: ps, buf, pa =>
    let (n, buf') := constructPseudoEvidence bufferSize buf h ev p
    if n > 0 then
      { slots := pa.slots.set pa.count ⟨some h.name, p, some buf'⟩, count := pa.count + 1 }
    else addForHeader bufferSize ev h ps buf' pa

/-- `fiftyoneDegreesPseudoHeadersAddEvidence`, pseudoheader.c:165-237, the loop over headers. Reading
`items[count]` beyond the array is undefined behaviour. The evidence items themselves are not written. -/
def addEvidence (bufferSize : Nat) (ev : List Pair) (prefixes : List Nat) :
    List Header → PseudoArr → UB PseudoArr
  | [], pa => some pa
  | h :: hs, pa =>
    if isPseudo h.name then
      if isEvidencePresentForHeader ev h prefixes = false then
        match pa.slots[pa.count]? with
        | none => none
        | some slot =>
          match slot.buf with
          | none => addEvidence bufferSize ev prefixes hs pa
          | some buf => addEvidence bufferSize ev prefixes hs (addForHeader bufferSize ev h prefixes buf pa)
      else addEvidence bufferSize ev prefixes hs pa
    else addEvidence bufferSize ev prefixes hs pa

/-- `fiftyoneDegreesPseudoHeadersRemoveEvidence`, pseudoheader.c:239-251. -/
def removeEvidence (pa : PseudoArr) : PseudoArr :=
  { slots := pa.slots.mapIdx fun i s =>
      if i < pa.count then { s with field := none, buf := s.buf.map fun _ => [] } else s,
    count := 0 }

end Verif.Pseudo
