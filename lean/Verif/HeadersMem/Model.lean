import Verif.Headers.Model

/-! # The memory of `headers.c`: names held, allocations and reads that fail

`Verif.Headers.Model` takes the header names of the data set as a list and all memory as available. Here every
call of the caller's method may fail, every name got is an item to be given back, and every allocation may
fail. -/

namespace Verif.HeadersMem
open Verif.Headers (Header countHeaderSegments createSegmentArray getHeaderIndex)

/-- The caller's side: the names and unique ids of the data set's headers; `fails k` tells that the `k`th call
of the get method returns -1 though there may be a header (a failed read), `alloc k` that the `k`th allocation
succeeds. -/
structure Source where
  names : List (CStr × Nat)
  fails : Nat → Bool
  alloc : Nat → Bool

/-- The number of calls of the get method and of `Malloc` so far, the items held (named by the call) and the
blocks allocated (named by the allocation). -/
structure World where
  calls : Nat
  allocs : Nat
  items : List Nat
  blocks : List Nat
deriving DecidableEq, Repr

/-- An item with a header name: its handle, the text and the unique id returned with it. -/
structure Name where
  id : Nat
  text : CStr
  uniqueId : Nat
deriving DecidableEq, Repr

/-- A call of the get method (headers.h:160-172): -1 (`none`) when there is no header at the index or the read
fails. -/
def get (s : Source) (w : World) (i : Nat) : Option Name × World :=
  if s.fails w.calls then (none, { w with calls := w.calls + 1 })
  else match s.names[i]? with
    | none => (none, { w with calls := w.calls + 1 })
    | some (n, uid) => (some ⟨w.calls, n, uid⟩, { w with calls := w.calls + 1, items := w.calls :: w.items })

/-- `COLLECTION_RELEASE(name.collection, &name)`: releasing what is not held is undefined. -/
def release (w : World) (n : Name) : UB World :=
  if n.id ∈ w.items then some { w with items := w.items.erase n.id } else none

/-- `Malloc`. -/
def malloc (s : Source) (w : World) : Option Nat × World :=
  if s.alloc w.allocs then (some w.allocs, { w with allocs := w.allocs + 1, blocks := w.allocs :: w.blocks })
  else (none, { w with allocs := w.allocs + 1 })

/-- `Free` of a block: freeing what is not allocated is undefined. -/
def free (w : World) (b : Nat) : UB World :=
  if b ∈ w.blocks then some { w with blocks := w.blocks.erase b } else none

/-- `countAllSegments`, headers.c:63-82. The first argument bounds the recursion; there is no header beyond the
names, so `names.length + 1` calls are enough. -/
def countLoop (s : Source) : Nat → World → Nat → Nat → UB (Nat × World)
  | 0, w, _, count => some (count, w)
  | fuel + 1, w, i, count =>
    match get s w i with
    | (none, w) => some (count, w)
    | (some n, w) =>
      let segments := countHeaderSegments n.text
      (release w n).bind fun w =>
        countLoop s fuel w (i + 1) (count + segments + if segments > 1 then 1 else 0)

/-- A header and the blocks of its name and its segments. -/
structure Owned where
  header : Header
  nameBlock : Nat
  segmentsBlock : Nat
deriving DecidableEq, Repr

/-- `createSegmentArray`, headers.c:131-163: NULL when there is no memory, or, with the array freed again, when
there are more segments than were counted. -/
def createSegments (s : Source) (w : World) (name : CStr) : UB (Option (Nat × List CStr) × World) :=
  match malloc s w with
  | (none, w) => some (none, w)
  | (some b, w) =>
    match createSegmentArray name with
    | none => (free w b).map fun w => (none, w)
    | some segs => some (some (b, segs), w)

/-- What an attempt to add a header gives: whether it succeeded, the headers and the world. -/
structure Added where
  ok : Bool
  headers : List Owned
  world : World
deriving DecidableEq, Repr

/-- `setHeaderFromDataSet` (headers.c:191-203) with `copyHeaderName` (169-186) at `items[count]`, and the count
(284). Writing with the count at the capacity is undefined. When there is no memory for the segments the name
stays allocated. -/
def setFromDataSet (s : Source) (cap : Nat) (hs : List Owned) (n : Name) (w : World) : UB Added :=
  match malloc s w with
  | (none, w) => some ⟨false, hs, w⟩
  | (some b, w) =>
    if hs.length < cap then
      (createSegments s w n.text).map fun p =>
        match p with
        | (none, w) => ⟨false, hs, w⟩
        | (some (c, segs), w) => ⟨true, hs ++ [⟨⟨n.text, segs, true, n.uniqueId⟩, b, c⟩], w⟩
    else none

/-- The body of the loop of `addHeadersFromDataSet`, headers.c:270-285, before the item is released. -/
def addName (s : Source) (cap : Nat) (hs : List Owned) (n : Name) (w : World) : UB Added :=
  if n.text.length > 0 ∧ countHeaderSegments n.text > 0 then
    (getHeaderIndex (hs.map (·.header)) (n.text ++ [0]) n.text.length).bind fun found =>
      match found with
      | some _ => some ⟨true, hs, w⟩
      | none => setFromDataSet s cap hs n w
  else some ⟨true, hs, w⟩

/-- `addHeadersFromDataSet`, headers.c:256-297. When a header cannot be set the function returns at once
(280), without releasing the item. Bounded as `countLoop`. -/
def addNames (s : Source) (cap : Nat) : Nat → World → Nat → List Owned → UB Added
  | 0, w, _, hs => some ⟨true, hs, w⟩
  | fuel + 1, w, i, hs =>
    match get s w i with
    | (none, w) => some ⟨true, hs, w⟩
    | (some n, w) =>
      (addName s cap hs n w).bind fun a =>
        if a.ok then (release a.world n).bind fun w => addNames s cap fuel w (i + 1) a.headers
        else some a

/-- `setHeaderFromSegment` (headers.c:208-220) with `copyHeaderName` at `items[count]`, and the count (320).
Here the name is freed when there is no memory for the segments. -/
def setFromSegment (s : Source) (cap : Nat) (hs : List Owned) (seg : CStr) (w : World) : UB Added :=
  match malloc s w with
  | (none, w) => some ⟨false, hs, w⟩
  | (some b, w) =>
    if hs.length < cap then
      (createSegments s w seg).bind fun p =>
        match p with
        | (none, w) => (free w b).map fun w => ⟨false, hs, w⟩
        | (some (c, segs), w) => some ⟨true, hs ++ [⟨⟨seg, segs, false, 0⟩, b, c⟩], w⟩
    else none

/-- The body of the inner loop of `addHeadersFromSegments`, headers.c:311-321. -/
def addSegment (s : Source) (cap : Nat) (hs : List Owned) (seg : CStr) (w : World) : UB Added :=
  (getHeaderIndex (hs.map (·.header)) (seg ++ [0]) seg.length).bind fun found =>
    match found with
    | some _ => some ⟨true, hs, w⟩
    | none => setFromSegment s cap hs seg w

/-- The inner loop of `addHeadersFromSegments`, headers.c:310-322. -/
def addSegments (s : Source) (cap : Nat) : List CStr → List Owned → World → UB Added
  | [], hs, w => some ⟨true, hs, w⟩
  | seg :: rest, hs, w =>
    (addSegment s cap hs seg w).bind fun a =>
      if a.ok then addSegments s cap rest a.headers a.world else some a

/-- `addHeadersFromSegments`, headers.c:303-325. The first argument are the `max` headers present when the loop
starts; it does not change them. -/
def addAllSegments (s : Source) (cap : Nat) : List Owned → List Owned → World → UB Added
  | [], hs, w => some ⟨true, hs, w⟩
  | h :: rest, hs, w =>
    (addSegments s cap h.header.segments hs w).bind fun a =>
      if a.ok then addAllSegments s cap rest a.headers a.world else some a

/-- The headers array and its block. -/
structure Made where
  block : Nat
  headers : List Owned
  capacity : Nat
  expectUpper : Bool
  pseudoCount : Nat
deriving DecidableEq, Repr

/-- The loop of `fiftyoneDegreesHeadersFree`, headers.c:420-424. -/
def freeHeaders : List Owned → World → UB World
  | [], w => some w
  | h :: rest, w => (free w h.nameBlock).bind fun w => (free w h.segmentsBlock).bind (freeHeaders rest)

/-- `fiftyoneDegreesHeadersFree`, headers.c:416-428. -/
def freeMade (block : Nat) (hs : List Owned) (w : World) : UB World :=
  (freeHeaders hs w).bind fun w => free w block

/-- `fiftyoneDegreesHeadersFree`, headers.c:416-428, of the result of `HeadersCreate`; NULL is ignored. -/
def headersFree (m : Option Made) (w : World) : UB World :=
  match m with
  | none => some w
  | some m => freeMade m.block m.headers w

/-- `fiftyoneDegreesHeadersCreate`, headers.c:333-368; the inner `none` is NULL. -/
def create (s : Source) (expectUpper : Bool) (w : World) : UB (Option Made × World) :=
  (countLoop s (s.names.length + 1) w 0 0).bind fun c =>
    match malloc s c.2 with
    | (none, w) => some (none, w)
    | (some b, w) =>
      (addNames s c.1 (s.names.length + 1) w 0 []).bind fun a =>
        if a.ok then
          (addAllSegments s c.1 a.headers a.headers a.world).bind fun a =>
            if a.ok then
              some (some ⟨b, a.headers, c.1, expectUpper,
                Headers.countPseudoHeaders (a.headers.map (·.header))⟩, a.world)
            else (freeMade b a.headers a.world).map fun w => (none, w)
        else (freeMade b a.headers a.world).map fun w => (none, w)

/-- The status codes that `fiftyoneDegreesDataSetInitHeaders` returns (status.h). -/
inductive Code where
  | success
  | corruptData
deriving DecidableEq, Repr

/-- `fiftyoneDegreesDataSetInitHeaders`, dataset.c:164-181: the status and `dataSet->uniqueHeaders`. -/
def initHeaders (s : Source) (expectUpper : Bool) (w : World) : UB (Code × Option Made × World) :=
  (create s expectUpper w).map fun p => (if p.1 = none then .corruptData else .success, p.1, p.2)

end Verif.HeadersMem
