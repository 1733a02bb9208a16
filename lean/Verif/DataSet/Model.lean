import Verif.Resource.Props

/-! # Model of getting, releasing and reloading data sets (dataset.c)

Data sets are numbered in the order they are allocated. The manager and its handles are those of `Verif.Resource`,
stepping in the same way; this adds which data set each handle has, the reload functions up to the replacement, and
which data sets a failed reload frees.

Simplifications: the method that initialises the data set is given by the caller, here it succeeds or fails as the
schedule says, reads the existing data set's properties through the pointer it was given, and on failure has freed
what the data set points to and, from a file, the data set itself (its contract, dataset.h:156-160; that of the method
for memory, dataset.h:131-154, says nothing of it and the reload function frees the data set); the memory of a freed
data set keeps its contents. -/

namespace Verif.DataSet

open Verif.Resource (set)

/-- Which of the two reload functions. -/
inductive Kind where
  | memory
  | file
deriving DecidableEq, Repr

/-- Where a thread is in a reload function before the replacement. -/
inductive Phase where
  /-- Not in a reload, or in its replacement. -/
  | none
  /-- At the start, dataset.c:273, 315. -/
  | start (k : Kind)
  /-- After the read of `manager->active`, whose `resource->available` and `resource->config` are to be read,
  dataset.c:273-274, 315-316. -/
  | reading (k : Kind) (a : Nat)
  /-- With `properties.existing` inside the data set of handle `a`, before the allocation, dataset.c:277, 319. -/
  | existing (k : Kind) (a : Nat)
  /-- With the replacement `ds`, before `initDataSet`, dataset.c:288, 325. -/
  | init (k : Kind) (a : Nat) (ds : Nat)
deriving DecidableEq, Repr

/-- The manager, the threads and the data sets. -/
structure State where
  mgr : Resource.State
  /-- The number of data sets allocated. -/
  next : Nat
  /-- `handle->resource`: NULL for the handle of `fiftyoneDegreesResourceManagerFree`. -/
  dataOf : Nat → Option Nat
  /-- How often a reload function or, from a file, the initialisation method passed each data set to `Free`. -/
  discarded : Nat → Nat
  phase : Nat → Phase
  /-- A ghost: whether a reload read memory of a freed handle or data set. -/
  uaf : Bool

/-- What a thread does next. -/
inductive Act where
  /-- `fiftyoneDegreesDataSetGet`, dataset.c:252-255, is `fiftyoneDegreesResourceHandleIncUse`;
  `fiftyoneDegreesDataSetRelease`, dataset.c:257-259, is `fiftyoneDegreesResourceHandleDecUse` with the handle. -/
  | get
  | release (p : Nat)
  | free
  /-- The next access of a call of the resource manager. -/
  | run
  /-- A reload function is called. -/
  | reload (k : Kind)
  /-- The next step of the reload; `ok` is whether the allocation or initialisation in this step, if any, succeeds. -/
  | load (ok : Bool)
deriving DecidableEq, Repr

/-- What a step gives back to the caller. -/
inductive Ret where
  | nothing
  | got (p : Option Nat)
  | done
  /-- The reload returned another status than SUCCESS. -/
  | failed
deriving DecidableEq, Repr

def Ret.ofManager : Resource.Ret → Ret
  | .nothing => .nothing
  | .got p => .got p
  | .done => .done

/-- A step of the manager, for a thread that is not in the first part of a reload. -/
def State.manage (s : State) (t : Nat) (a : Resource.Act) : Option (State × Ret) :=
  if s.phase t = .none then do
    let (mgr, r) ← Resource.step s.mgr t a
    some ({ s with mgr := mgr }, .ofManager r)
  else none

/-- A read in the data set of handle `a` through the handle. -/
def State.touch (s : State) (a : Nat) : State := { s with uaf := s.uaf || s.mgr.gone a || decide (0 < s.mgr.freed a) }

def State.goto (s : State) (t : Nat) (p : Phase) : State := { s with phase := set s.phase t p }

/-- `fiftyoneDegreesDataSetReloadManagerFromMemory`, dataset.c:261-302, and
`fiftyoneDegreesDataSetReloadManagerFromFile`, dataset.c:304-337, up to the replacement. -/
def State.load (s : State) (t : Nat) (ok : Bool) : Phase → Option (State × Ret)
  | .none => none
  | .start k => some (s.goto t (.reading k s.mgr.active), .nothing)
  | .reading k a => some ((s.touch a).goto t (.existing k a), .nothing)
  | .existing k a =>
    if ok then some ({ s.goto t (.init k a s.next) with next := s.next + 1 }, .nothing)
    else some (s.goto t .none, .failed)
  | .init k a ds =>
    let s := s.touch a
    if ok then do
      -- `replace`, dataset.c:36-50, starts; the new handle has number `fresh`
      let (mgr, _) ← Resource.step s.mgr t .callReplace
      some ({ s.goto t .none with mgr := mgr, dataOf := set s.dataOf s.mgr.fresh (some ds) }, .nothing)
    else match k with
      -- dataset.c:296-299
      | .memory => some ({ s.goto t .none with discarded := set s.discarded ds (s.discarded ds + 1) }, .failed)
      -- dataset.c:331-333; freed by `initDataSet` by its contract, dataset.h:160
      | .file => some ({ s.goto t .none with discarded := set s.discarded ds (s.discarded ds + 1) }, .failed)

/-- One step of thread `t`. -/
def step (s : State) (t : Nat) : Act → Option (State × Ret)
  | .get => s.manage t .callGet
  | .release p => s.manage t (.callRelease p)
  | .free => s.manage t .callFree
  | .run => s.manage t .run
  | .reload k =>
    if s.phase t = .none ∧ s.mgr.pcs[t]? = some .idle ∧ s.mgr.closed = false then some (s.goto t (.start k), .nothing)
    else none
  | .load ok => s.load t ok (s.phase t)

/-- A schedule: which thread does what. -/
abbrev Schedule := List (Nat × Act)

/-- The state after a schedule. -/
def exec (s : State) : Schedule → Option State
  | [] => some s
  | (t, a) :: rest => do
    let (s, _) ← step s t a
    exec s rest

/-- A manager with one data set and `n` threads. -/
def start (n : Nat) : State where
  mgr := Resource.start n
  next := 1
  dataOf := fun h => if h = 0 then some 0 else none
  discarded := fun _ => 0
  phase := fun _ => .none
  uaf := false

end Verif.DataSet
