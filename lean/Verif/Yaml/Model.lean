import Verif.Base

/-!
Model of yamlfile.c: iterating the documents of a YAML file. The array of key and value buffers given by the
caller is modelled with its contents, so that writes and reads outside of a buffer and pairs outside of the
array are undefined behaviour, and buffers keep what earlier documents left in them. Reading the file is
reliable: `fread` gives the next bytes of the file. The first increment of a NULL pointer in `readNext`
(yamlfile.c:75) is taken to be harmless.
-/

namespace Verif.Yaml

/-- `fiftyoneDegreesKeyValuePair`, pair.h: the key buffer and the value buffer with all their bytes. -/
abbrev Pair := List UInt8 × List UInt8

/-- The bytes before the first NUL; `none` if the buffer has no NUL. What a callback sees in a buffer. -/
def cstr (b : List UInt8) : Option CStr := if 0 ∈ b then some (b.takeWhile (· ≠ 0)) else none

/-- `PairState` and the counters of `FileState`, yamlfile.c:28-49. `current` is the byte `off` of the value
(`inValue`) or key buffer of the pair `slot`; `end` is the last byte of that buffer. `count` and `out` are the
number of documents counted and the pairs passed to the callback. -/
structure St where
  pairs : List Pair
  index : Int
  slot : Nat
  inValue : Bool
  off : Nat
  dash : Nat := 0
  dot : Nat := 0
  nl : Nat := 0
  quote : Nat := 0
  pos : Nat := 0
  colon : Nat := 0
  count : Nat := 0
  out : List (List (Option CStr × Option CStr)) := []
deriving DecidableEq, Repr

/-- The buffer `current` points into. -/
def buf (s : St) : List UInt8 :=
  match s.pairs[s.slot]? with
  | none => []
  | some p => if s.inValue then p.2 else p.1

/-- `*state->current = c`. -/
def write (s : St) (c : UInt8) : UB St :=
  match s.pairs[s.slot]? with
  | none => none
  | some p =>
    if s.off < (buf s).length then
      let p' := if s.inValue then (p.1, p.2.set s.off c) else (p.1.set s.off c, p.2)
      some { s with pairs := s.pairs.set s.slot p' }
    else none

/-- `setCurrentKey` and `setCurrentValue`, yamlfile.c:85-97: reads the pair at `index`. -/
def setCurrent (s : St) (value : Bool) : UB St :=
  if 0 ≤ s.index ∧ s.index < s.pairs.length then
    some { s with slot := s.index.toNat, inValue := value, off := 0 }
  else none

/-- `switchKeyValue`, yamlfile.c:99-104. -/
def switchKeyValue (s : St) : UB St := (write s 0).bind fun s => setCurrent s true

/-- Conversion of an `int` to `int16_t`. -/
def wrap16 (i : Int) : Int := if i = 32768 then -32768 else i

/-- `nextPair`, yamlfile.c:106-112. -/
def nextPair (s : St) : UB St :=
  (write s 0).bind fun s => setCurrent { s with index := wrap16 (s.index + 1) } false

/-- `newLine`, yamlfile.c:114-122. -/
def newLine (s : St) : St := { s with nl := 0, dot := 0, dash := 0, pos := 0, colon := 0, quote := 0 }

/-- `advance`, yamlfile.c:129-133. -/
def advance (s : St) : St := { s with nl := 0, pos := s.pos + 1 }

/-- `isValue`, yamlfile.c:135-138. -/
def isValue (s : St) : Bool := s.colon = 0 || s.pos > s.colon + 1

/-- `addCharacter`, yamlfile.c:140-151. -/
def addCharacter (s : St) (c : UInt8) : UB St :=
  if s.off + 1 < (buf s).length ∧ s.index < s.pairs.length ∧ isValue s = true then
    (write s c).map fun s => { s with off := s.off + 1 }
  else some s

/-- `callback(keyValuePairs, pairState.index, state)`; called with a positive index only. -/
def callback (s : St) : St :=
  { s with out := s.out ++ [(s.pairs.take s.index.toNat).map fun p => (cstr p.1, cstr p.2)] }

/-- Removal of the closing quote, yamlfile.c:206-209. Reading the byte before the buffer is undefined. -/
def closeQuote (s : St) : UB St :=
  if s.quote > 0 then
    if s.off = 0 then none
    else if (buf s)[s.off - 1]? = some 39 then some { s with off := s.off - 1 } else some s
  else some s

/-- The end of a line or of the file: yamlfile.c:201-212. -/
def endLine (s : St) : UB St := if s.nl = 0 then (closeQuote s).bind nextPair else some s

/-- One character, the body of the loop at yamlfile.c:196-281; the Boolean is true if the loop is left.
`limit` is the limit after line 191. -/
def step (limit : Nat) (s : St) (c : UInt8) : UB (St × Bool) :=
  if c = 10 ∨ c = 13 then
    (endLine s).map fun s => ({ newLine s with nl := 1 }, false)
  else if c = 45 ∧ s.pos = s.dash then
    let s := advance s
    let s := { s with dash := s.dash + 1 }
    if s.dash = 3 then
      if s.index > 0 then
        let s := { callback s with count := s.count + 1 }
        if s.count ≥ limit then some (s, true) else some ({ s with index := -1 }, false)
      else some ({ s with index := -1 }, false)
    else some (s, false)
  else if c = 46 ∧ s.pos = s.dot then
    let s := advance s
    let s := { s with dot := s.dot + 1 }
    if s.dot = 3 then some (if s.index > 0 then callback s else s, true) else some (s, false)
  else if c = 58 ∧ s.colon = 0 then
    (switchKeyValue (advance s)).map fun s => ({ s with colon := s.pos }, false)
  else if c = 39 ∧ s.colon > 0 ∧ s.colon + 1 = s.pos then
    let s := advance s
    some ({ s with quote := s.pos }, false)
  else (addCharacter (advance s) c).map fun s => (s, false)

/-- The end of the file, yamlfile.c:201-224. -/
def eof (s : St) : UB St := (endLine s).map fun s => if s.index > 0 then callback s else s

/-- The loop over the characters of the file. -/
def run (limit : Nat) : St → List UInt8 → UB (List (List (Option CStr × Option CStr)))
  | s, [] => (eof s).map (·.out)
  | s, c :: cs =>
    (step limit s c).bind fun r => if r.2 then some r.1.out else run limit r.1 cs

/-- Where reading stands: what is left in the buffer and what is left in the file. -/
structure Reader where
  block : List UInt8
  rest : List UInt8

/-- `readNext` with `readNextBlock`, yamlfile.c:51-83. `length` is the size of the buffer. -/
def readNext (length : Nat) (r : Reader) : Option (UInt8 × Reader) :=
  match r.block with
  | c :: b => some (c, ⟨b, r.rest⟩)
  | [] =>
    match r.rest.take length with
    | c :: b => some (c, ⟨b, r.rest.drop length⟩)
    | [] => none

theorem readNext_less {length : Nat} {r r' : Reader} {c : UInt8} (h : readNext length r = some (c, r')) :
    r'.block.length + r'.rest.length < r.block.length + r.rest.length := by
  unfold readNext at h
  split at h
  · rename_i hb; cases h; simp [hb]
  · split at h
    · rename_i hb _ _ _ ht; cases h
      have : (r.rest.take length).length + (r.rest.drop length).length = r.rest.length := by
        rw [← List.length_append, List.take_append_drop]
      rw [ht] at this
      simp [hb] at this ⊢; omega
    · cases h

/-- The loop over the characters as they are read. -/
def runBlocks (length limit : Nat) (s : St) (r : Reader) : UB (List (List (Option CStr × Option CStr))) :=
  match h : readNext length r with
  | none => (eof s).map (·.out)
  | some (c, r') =>
    (step limit s c).bind fun q => if q.2 then some q.1.out else runBlocks length limit q.1 r'
termination_by r.block.length + r.rest.length
decreasing_by exact readNext_less h

/-- `PairState` and `FileState` at the start, yamlfile.c:170-187; reads the first pair. -/
def start (pairs : List Pair) : UB St :=
  if pairs = [] then none else some { pairs := pairs, index := 0, slot := 0, inValue := false, off := 0 }

/-- `limit` after yamlfile.c:189-193. -/
def effective (limit : Int) : Nat := if limit < 0 then 2147483647 else limit.toNat

/-- `fiftyoneDegreesYamlFileIterateWithLimit`, yamlfile.c:153-286, on a file that can be opened: the documents
passed to the callback, each as the pairs given, in the order of the calls. -/
def iterateWithLimit (file : List UInt8) (length : Nat) (pairs : List Pair) (limit : Int) :
    UB (List (List (Option CStr × Option CStr))) :=
  (start pairs).bind fun s => runBlocks length (effective limit) s ⟨[], file⟩

/-- `fiftyoneDegreesYamlFileIterate`, yamlfile.c:288-306. -/
def iterate (file : List UInt8) (length : Nat) (pairs : List Pair) :
    UB (List (List (Option CStr × Option CStr))) :=
  iterateWithLimit file length pairs (-1)

end Verif.Yaml
