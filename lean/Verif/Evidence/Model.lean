import Verif.Base

/-! # Model of `evidence.c` -/

namespace Verif.Evidence

/-- `fiftyoneDegreesEvidenceKeyValuePair`, evidence.h:160-165. The enum is the `int` the code uses it as;
the value pointers are the strings they point at, `none` is NULL. -/
structure Pair where
  pfx : Nat
  field : CStr
  orig : Option CStr
  parsed : Option CStr
deriving DecidableEq, Repr

/-- `fiftyoneDegreesEvidenceKeyValuePairArray`, evidence.h:167-172 with array.h:48-56. `items` are the
`count` used items. The pseudo evidence array's own `pseudoEvidence` member is never read. -/
structure Arr where
  capacity : Nat
  items : List Pair
  pseudo : Option (List Pair)
deriving DecidableEq, Repr

/-- `fiftyoneDegreesEvidenceCreate`, evidence.c:54-69 (allocation succeeds). -/
def create (capacity : Nat) : Arr := ⟨capacity, [], none⟩

/-- `fiftyoneDegreesEvidenceAddString`, evidence.c:76-90. Returns the new array and whether the returned
pointer is non-NULL. -/
def addString (e : Arr) (pfx : Nat) (field value : CStr) : Arr × Bool :=
  if e.items.length < e.capacity then
    ({ e with items := e.items ++ [⟨pfx, field, some value, none⟩] }, true)
  else (e, false)

/-- `parsePair`, evidence.c:41-52: every case copies the original value. -/
def parsePair (p : Pair) : Pair := { p with parsed := p.orig }

/-- `evidenceIterateSub`, evidence.c:106-125. Returns the callback's state, `*cont`, the count, and the
array's items as left behind (with `parsedValue` filled in). The callback does not modify the pair. -/
def iterateSub {σ : Type} (prefixes : Nat) (cb : σ → Pair → σ × Bool) :
    List Pair → σ → Bool → σ × Bool × Nat × List Pair
  | [], s, cont => (s, cont, 0, [])
  | p :: ps, s, cont =>
    if cont then
      if p.pfx &&& prefixes = p.pfx then
        let p' := if p.parsed = none then parsePair p else p
        let (s1, k) := cb s p'
        let (s2, c2, n, ps') := iterateSub prefixes cb ps s1 k
        (s2, c2, n + 1, p' :: ps')
      else
        let (s2, c2, n, ps') := iterateSub prefixes cb ps s cont
        (s2, c2, n, p :: ps')
    else (s, cont, 0, p :: ps)

/-- `fiftyoneDegreesEvidenceIterate`, evidence.c:127-150. Counts are unbounded naturals rather than
`uint32_t`. Returns the callback's state, the count and the array left behind. -/
def iterate {σ : Type} (e : Arr) (prefixes : Nat) (cb : σ → Pair → σ × Bool) (s : σ) : σ × Nat × Arr :=
  let (s1, cont, n, items) := iterateSub prefixes cb e.items s true
  match cont, e.pseudo with
  | true, some ps =>
    let (s2, _, m, ps') := iterateSub prefixes cb ps s1 true
    (s2, n + m, { e with items := items, pseudo := some ps' })
  | _, _ => (s1, n, { e with items := items })

/-- `EvidencePrefixMap`, evidence.h:151-155. -/
structure PrefixMap where
  prefixStr : CStr
  prefixLength : Nat
  prefixEnum : Nat
deriving DecidableEq, Repr

/-- `_map`, evidence.c:34-39, with the enum values of evidence.h:133-147. -/
def map : List PrefixMap :=
  [⟨c!"server.", 7, 4⟩, ⟨c!"header.", 7, 1⟩, ⟨c!"query.", 6, 8⟩, ⟨c!"cookie.", 7, 16⟩]

/-- C library `strncmp(a, b, n) == 0`, used at evidence.c:160. -/
def strncmpEq : Nat → CStr → CStr → Bool
  | 0, _, _ => true
  | _ + 1, [], [] => true
  | n + 1, x :: a, y :: b => x == y && strncmpEq n a b
  | _ + 1, _, _ => false

/-- `fiftyoneDegreesEvidenceMapPrefix`, evidence.c:152-165. -/
def mapPrefix (key : CStr) : Option PrefixMap :=
  map.find? fun m => m.prefixLength < key.length && strncmpEq m.prefixLength m.prefixStr key

/-- `fiftyoneDegreesEvidencePrefixString`, evidence.c:167-178. -/
def prefixString (e : Nat) : Option CStr :=
  (map.find? fun m => m.prefixEnum = e).map (·.prefixStr)

/-- The loop body of `EvidenceBase::get`, EvidenceBase.cpp:50-58. `isRelevant` is the virtual method
(lines 67-70). -/
def baseStep (isRelevant : Nat → Bool) (e : Arr) (kv : CStr × CStr) : Arr :=
  match mapPrefix kv.1 with
  | some m => if isRelevant m.prefixEnum then
      (addString e m.prefixEnum (kv.1.drop m.prefixLength) kv.2).1 else e
  | none => e

/-- `EvidenceBase::get`, EvidenceBase.cpp:40-62: the evidence array built from a `map<string,string>`,
given as its key/value list in key order. -/
def baseGet (isRelevant : Nat → Bool) (kvs : List (CStr × CStr)) : Arr :=
  kvs.foldl (baseStep isRelevant) (create kvs.length)

end Verif.Evidence
