import Verif.Base

/-! # Model of `data.c` over an explicit heap -/

namespace Verif.Data

/-- The heap as far as one data structure's block matters: blocks allocated and not freed with their sizes,
and whether some `Free` was given a pointer that was not live. -/
structure Heap where
  next : Nat
  live : List (Nat × Nat)
  badFree : Bool
deriving DecidableEq, Repr

/-- `fiftyoneDegreesData` (data.h): pointer (as a block id, `none` is NULL) and `allocated`, a `uint32_t`.
`used` is not read by this code. -/
structure Data where
  ptr : Option Nat
  allocated : Nat
deriving DecidableEq, Repr

/-- `malloc`; `ok` says whether it succeeds. -/
def Heap.malloc (h : Heap) (size : Nat) (ok : Bool) : Heap × Option Nat :=
  if ok then ({ h with next := h.next + 1, live := h.live ++ [(h.next, size)] }, some h.next) else (h, none)

/-- `free`; freeing NULL is allowed, freeing a block that is not live is recorded. -/
def Heap.free (h : Heap) : Option Nat → Heap
  | none => h
  | some p =>
    if h.live.any (·.1 == p) then { h with live := h.live.filter (·.1 != p) } else { h with badFree := true }

/-- `fiftyoneDegreesDataReset`, data.c:27-31. -/
def reset : Data := ⟨none, 0⟩

/-- `fiftyoneDegreesDataMalloc`, data.c:33-49. `allocated` is `uint32_t`, so the size is truncated (45). -/
def dataMalloc (h : Heap) (d : Data) (bytesNeeded : Nat) (ok : Bool) : Heap × Data × Option Nat :=
  let (h, d) :=
    if d.allocated > 0 ∧ bytesNeeded > d.allocated then (h.free d.ptr, (⟨none, 0⟩ : Data)) else (h, d)
  if d.allocated = 0 then
    match h.malloc bytesNeeded ok with
    | (h, some p) => (h, ⟨some p, bytesNeeded % 2 ^ 32⟩, some p)
    | (h, none) => (h, ⟨none, d.allocated⟩, none)
  else (h, d, d.ptr)

/-- A sequence of requests on one data structure, each with its size and whether memory is available;
returns what each request returned together with the heap at that time. -/
def run (h : Heap) (d : Data) : List (Nat × Bool) → Heap × Data × List (Heap × Option Nat)
  | [] => (h, d, [])
  | (n, ok) :: rest =>
    let (h1, d1, p) := dataMalloc h d n ok
    let (h2, d2, out) := run h1 d1 rest
    (h2, d2, (h1, p) :: out)

end Verif.Data
