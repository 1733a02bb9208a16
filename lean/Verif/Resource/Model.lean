import Verif.Base

/-! # Model of the resource manager (resource.c)

The reference counting is modelled at the level of its memory accesses: any number of threads each perform one access
at a time, in any order (sequential consistency). The double width counter is read in two halves and exchanged as a
whole. Handles are numbered in the order they are allocated and each carries one resource, so the number also stands
for the resource.

Simplifications: the memory of a freed handle keeps its contents and is not used again (`uaf` records that freed
memory was accessed); `inUse` does not overflow; the asserts are compiled out, as in release builds; the allocation of
a handle succeeds. Builds with `FIFTYONE_DEGREES_NO_THREADING` are modelled in `Verif.Single`. -/

namespace Verif.Resource

/-- `Counter`, resource.c:34-38: the handle's pointer to itself and the number of users. -/
structure Counter where
  self : Option Nat
  inUse : Int
deriving DecidableEq, Repr

/-- Who called `fiftyoneDegreesResourceHandleIncUse` or `fiftyoneDegreesResourceHandleDecUse`. -/
inductive Ctx where
  /-- A user of the resource. -/
  | user
  /-- `fiftyoneDegreesResourceReplace` with the new handle. -/
  | replace (new : Nat)
  /-- `fiftyoneDegreesResourceManagerFree`, through replace with a new handle that has no resource. -/
  | free (new : Nat)
deriving DecidableEq, Repr

/-- Where a thread is. -/
inductive Pc where
  /-- Not in a call. -/
  | idle
  /-- In `fiftyoneDegreesResourceHandleIncUse` at the start of the loop, resource.c:278. -/
  | inc (c : Ctx)
  /-- After the read of `manager->active`, resource.c:279. -/
  | incActive (c : Ctx) (a : Nat)
  /-- After the read of the first half of the counter, resource.c:279. -/
  | incSelf (c : Ctx) (a : Nat) (self : Option Nat)
  /-- With the local variable `compare`, resource.c:280-292. -/
  | incRead (c : Ctx) (compare : Counter)
  /-- After the second read of `manager->active`, for the address of the exchange, resource.c:293. -/
  | incAddr (c : Ctx) (compare : Counter) (a : Nat)
  /-- In `fiftyoneDegreesResourceReplace` after the increment, resource.c:342. -/
  | swap (c : Ctx) (old : Nat)
  /-- In `fiftyoneDegreesResourceHandleDecUse` at the start of the loop, resource.c:209. -/
  | dec (c : Ctx) (p : Nat)
  /-- After the read of the first half of the counter, resource.c:210. -/
  | decSelf (c : Ctx) (p : Nat) (self : Option Nat)
  /-- With the local variable `compare`, resource.c:211-223. -/
  | decRead (c : Ctx) (p : Nat) (compare : Counter)
  /-- After the decrement to zero, before the read of `handle->manager->active`, resource.c:235. -/
  | decCheck (c : Ctx) (p : Nat) (decremented : Counter)
  /-- Before the exchange of the counter for the empty one, resource.c:247-258. -/
  | decFree (c : Ctx) (p : Nat) (decremented : Counter)
  /-- In `fiftyoneDegreesResourceManagerFree` after the replace, resource.c:194. -/
  | freeNew (new : Nat)
deriving DecidableEq, Repr

/-- The manager, the handles, the threads and what users have. -/
structure State where
  /-- `handle->counter` of each handle. -/
  counter : Nat → Counter
  /-- `manager->active`. -/
  active : Nat
  /-- The number of handles allocated so far. -/
  fresh : Nat
  /-- How often each resource was passed to `freeResource`. -/
  freed : Nat → Nat
  /-- Whether the memory of the handle was freed. -/
  gone : Nat → Bool
  /-- How many users have got each resource and not released it. -/
  held : Nat → Nat
  /-- The threads. -/
  pcs : List Pc
  /-- Whether `fiftyoneDegreesResourceManagerFree` was called. -/
  closed : Bool
  /-- A ghost: whether memory of a freed handle was read or written. -/
  uaf : Bool
  /-- A ghost: which handles have ever been active. -/
  was : Nat → Bool

/-- A write to one handle's field. -/
def set {α : Type} (f : Nat → α) (n : Nat) (v : α) : Nat → α := fun x => if x = n then v else f x

/-- The state with thread `t` elsewhere. -/
def State.goto (s : State) (t : Nat) (pc : Pc) : State := { s with pcs := s.pcs.set t pc }

/-- The state after an access of the memory of handle `p`. -/
def State.touch (s : State) (p : Nat) : State := { s with uaf := s.uaf || s.gone p }

/-- What a thread does next. -/
inductive Act where
  /-- A user calls `fiftyoneDegreesResourceHandleIncUse`. -/
  | callGet
  /-- A user calls `fiftyoneDegreesResourceHandleDecUse` with a handle some user has. -/
  | callRelease (p : Nat)
  /-- `fiftyoneDegreesResourceReplace` is called with a new resource. -/
  | callReplace
  /-- `fiftyoneDegreesResourceManagerFree` is called. -/
  | callFree
  /-- The next access of the call the thread is in. -/
  | run
deriving DecidableEq, Repr

/-- What a step gives back to the caller. -/
inductive Ret where
  | nothing
  /-- The get returned the handle or NULL. -/
  | got (p : Option Nat)
  /-- The call returned. -/
  | done
deriving DecidableEq, Repr

/-- A thread in the loop of a get or replace. -/
def Pc.getting : Pc → Bool
  | .inc _ | .incActive .. | .incSelf .. | .incRead .. | .incAddr .. | .swap .. => true
  | _ => false

/-- Return from `fiftyoneDegreesResourceHandleDecUse`: to the user, or through replace to its caller, or through replace
to `fiftyoneDegreesResourceManagerFree` which frees the new handle. -/
def afterDec : Ctx → Pc × Ret
  | .free n => (.freeNew n, .nothing)
  | _ => (.idle, .done)

/-- `setupResource`, resource.c:125-160: the new handle with an empty counter that points to itself. -/
def State.setup (s : State) : State :=
  { s with counter := set s.counter s.fresh ⟨some s.fresh, 0⟩, fresh := s.fresh + 1 }

/-- The next access of thread `t`, which is in a call. -/
def access (s : State) (t : Nat) : Pc → Option (State × Ret)
  | .idle => none
  -- resource.c:279, 293
  | .inc c => some (s.goto t (.incActive c s.active), .nothing)
  | .incActive c a => some ((s.touch a).goto t (.incSelf c a (s.counter a).self), .nothing)
  | .incSelf c a self => some ((s.touch a).goto t (.incRead c ⟨self, (s.counter a).inUse⟩), .nothing)
  | .incRead c compare => some (s.goto t (.incAddr c compare s.active), .nothing)
  -- the exchange, resource.c:292-295, and the return, resource.c:304
  | .incAddr c compare a =>
    if s.counter a = compare then
      let s := { s.touch a with counter := set s.counter a ⟨compare.self, compare.inUse + 1⟩ }
      match c, compare.self with
      | .user, some p => some ({ s.goto t .idle with held := set s.held p (s.held p + 1) }, .got (some p))
      | .user, none => some (s.goto t .idle, .got none)
      | c, some p => some (s.goto t (.swap c p), .nothing)
      -- `fiftyoneDegreesResourceHandleDecUse(NULL)` follows, resource.c:351
      | _, none => none
    else some ((s.touch a).goto t (.inc c), .nothing)
  -- resource.c:343-346: the exchange gives the old pointer back, which is not NULL and so never equal to `false`:
  -- the loop is left whether or not the exchange took place
  | .swap c old =>
    match c with
    | .user => none
    | .replace n | .free n =>
      let s := if s.active = old then { s with active := n, was := set s.was n true } else s
      some (s.goto t (.dec c old), .nothing)
  -- resource.c:210-225
  | .dec c p => some ((s.touch p).goto t (.decSelf c p (s.counter p).self), .nothing)
  | .decSelf c p self => some ((s.touch p).goto t (.decRead c p ⟨self, (s.counter p).inUse⟩), .nothing)
  | .decRead c p compare =>
    if s.counter p = compare then
      let decremented : Counter := ⟨compare.self, compare.inUse - 1⟩
      let s := { s.touch p with counter := set s.counter p decremented }
      if decremented.inUse = 0 then some (s.goto t (.decCheck c p decremented), .nothing)
      else some (s.goto t (afterDec c).1, (afterDec c).2)
    else some ((s.touch p).goto t (.dec c p), .nothing)
  -- resource.c:234-235
  | .decCheck c p decremented =>
    let s := s.touch p
    if decremented.self ≠ some s.active then some (s.goto t (.decFree c p decremented), .nothing)
    else some (s.goto t (afterDec c).1, (afterDec c).2)
  -- the exchange, resource.c:255-258, and `freeHandle`, which only the thread whose exchange succeeded runs,
  -- resource.c:162-165, 263
  | .decFree c _ decremented =>
    match decremented.self with
    | none => none
    | some q =>
      if s.counter q = decremented then
        let s := { s.touch q with
          counter := set s.counter q ⟨none, 0⟩, freed := set s.freed q (s.freed q + 1), gone := set s.gone q true }
        some (s.goto t (afterDec c).1, (afterDec c).2)
      else some ((s.touch q).goto t (afterDec c).1, (afterDec c).2)
  -- resource.c:194
  | .freeNew n => some ({ s.goto t .idle with gone := set s.gone n true }, .done)

/-- One step of thread `t`; `none` when the thread cannot do that or when it is undefined. The callers of
`fiftyoneDegreesResourceManagerFree` must make sure that there is no get or replace at the same time or later
(resource.h:204, resource.c:181-184). -/
def step (s : State) (t : Nat) (a : Act) : Option (State × Ret) := do
  let pc ← s.pcs[t]?
  match a with
  | .callGet => if pc = .idle ∧ s.closed = false then some (s.goto t (.inc .user), .nothing) else none
  | .callRelease p =>
    if pc = .idle ∧ 0 < s.held p then
      some ({ s.goto t (.dec .user p) with held := set s.held p (s.held p - 1) }, .nothing)
    else none
  | .callReplace =>
    if pc = .idle ∧ s.closed = false then
      -- resource.c:330-334
      some (((s.touch s.active).setup).goto t (.inc (.replace s.fresh)), .nothing)
    else none
  | .callFree =>
    if pc = .idle ∧ s.closed = false ∧ s.pcs.all (fun pc => !pc.getting) then
      some ({ ((s.touch s.active).setup).goto t (.inc (.free s.fresh)) with closed := true }, .nothing)
    else none
  | .run => access s t pc

/-- A schedule: which thread does what. -/
abbrev Schedule := List (Nat × Act)

/-- The state after a schedule. -/
def exec (s : State) : Schedule → Option State
  | [] => some s
  | (t, a) :: rest => do
    let (s, _) ← step s t a
    exec s rest

/-- After `fiftyoneDegreesResourceManagerInit`, resource.c:167-177, with `n` threads. -/
def start (n : Nat) : State where
  counter := fun p => if p = 0 then ⟨some 0, 0⟩ else ⟨none, 0⟩
  active := 0
  fresh := 1
  freed := fun _ => 0
  gone := fun _ => false
  held := fun _ => 0
  pcs := List.replicate n .idle
  closed := false
  uaf := false
  was := fun p => p == 0

end Verif.Resource
