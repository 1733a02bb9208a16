import Verif.Base

/-! # Model of the resource pool (pool.c)

The non locking stack is modelled at the level of its atomic memory accesses: any number of threads each perform
one access at a time, in any order (sequential consistency; the accesses of `head` and `next` are taken to be
atomic). Builds with `FIFTYONE_DEGREES_NO_THREADING` are modelled in `Verif.Single`. -/

namespace Verif.Pool

/-- `fiftyoneDegreesPoolHead`, pool.h:186-192: a `long` in a union with two `uint16_t`. `upper` stands for the
bytes of the `long` beyond the two values (there are none where `long` has 32 bits). -/
structure Head where
  index : Nat
  aba : Nat
  upper : Nat
deriving DecidableEq, Repr

/-- `aba + 1` stored in a `uint16_t`. -/
def inc16 (n : Nat) : Nat := (n + 1) % 2 ^ 16

/-- A write to one item's field. -/
def set {α : Type} (f : Nat → α) (n : Nat) (v : α) : Nat → α := fun x => if x = n then v else f x

/-! ## Creation and destruction -/

/-- `fiftyoneDegreesPool`, pool.h:197-204, with the fields of the items, pool.h:177-181. A NULL `stack` is
`false`, a resource is `none` when NULL. -/
structure Pool where
  stack : Bool
  head : Head
  count : Nat
  resource : Nat → Option Nat
  next : Nat → Nat

/-- The loop of `fiftyoneDegreesPoolInit`, pool.c:57-65, for the items from `i` on. `created` are the results of the
calls of `resourceCreate`: the resource and whether the exception is okay afterwards. The calls left over are given
back with the pool. -/
def initLoop (p : Pool) (i : Nat) : List (Option Nat × Bool) → Pool × List (Option Nat × Bool)
  | [] => (p, [])
  | (r, ok) :: rest =>
    let p := { p with
      resource := set p.resource i r, count := p.count + 1, next := set p.next i p.head.index,
      head := { p.head with index := i } }
    if ok then initLoop p (i + 1) rest else (p, rest)

/-- `fiftyoneDegreesPoolInit`, pool.c:27-74, in memory with arbitrary contents `p`. `memory` says whether the stack
could be allocated, `created` what each of the `concurrency` calls of `resourceCreate` would give. With a concurrency
of 65535 `listItems` wraps to 0 and the first write is outside of the allocated memory. -/
def init (p : Pool) (memory : Bool) (created : List (Option Nat × Bool)) : UB Pool :=
  let p := { p with count := 0, head := ⟨0, 0, 0⟩, stack := memory }
  if memory then
    if (created.length + 1) % 2 ^ 16 = 0 then none
    else some (initLoop { p with resource := set p.resource 0 none } 1 created).1
  else some p

/-- The resources passed to `resourceFree` by the loop of `fiftyoneDegreesPoolFree`, pool.c:139-144, from item `i` on
for `n` rounds. -/
def freeLoop (p : Pool) (i : Nat) : Nat → List Nat
  | 0 => []
  | n + 1 =>
    match p.resource i with
    | some r => r :: freeLoop p (i + 1) n
    | none => freeLoop p (i + 1) n

/-- `fiftyoneDegreesPoolFree`, pool.c:134-149, with a `resourceFree` function: the resources passed to it. -/
def free (p : Pool) : List Nat := if p.stack then freeLoop p 0 (p.count + 1) else []

/-! ## Getting and releasing items with threads -/

/-- Where a thread is. `orig` is the local variable, `seen` is a ghost: the number of exchanges when `orig` was
read. -/
inductive Pc where
  /-- Not in a call. -/
  | idle
  /-- In `fiftyoneDegreesPoolItemGet`, at the start of the loop, pool.c:81. -/
  | get
  /-- After `orig = pool->head`, pool.c:84. -/
  | getRead (orig : Head) (seen : Nat)
  /-- After the check of the resource and the read of `next`, pool.c:89-96. -/
  | getNext (orig : Head) (next : Nat) (seen : Nat)
  /-- In `fiftyoneDegreesPoolItemRelease`, at the start of the loop, pool.c:110. -/
  | release (item : Nat)
  /-- After `orig = item->pool->head`, pool.c:111. -/
  | releaseRead (item : Nat) (orig : Head) (seen : Nat)
  /-- After `item->next = orig.values.index`, pool.c:112. -/
  | releaseNext (item : Nat) (orig : Head) (seen : Nat)
deriving DecidableEq, Repr

/-- The pool, the threads and what the callers have. -/
structure State where
  head : Head
  next : Nat → Nat
  /-- Whether the item's resource is not NULL. -/
  resource : Nat → Bool
  pc : Nat → Pc
  /-- How many times each item was returned by a get and not yet passed to a release. -/
  held : Nat → Nat
  /-- A ghost: the number of successful exchanges of the head. No step depends on it. -/
  swaps : Nat

/-- What a thread does. -/
inductive Act where
  /-- It calls `fiftyoneDegreesPoolItemGet`. -/
  | callGet
  /-- It calls `fiftyoneDegreesPoolItemRelease` with an item some caller has. -/
  | callRelease (item : Nat)
  /-- It performs the next access of the call it is in. `upper` are the bytes in the part of the local variable
  `next` that is never set. -/
  | run (upper : Nat)
deriving DecidableEq, Repr

/-- What a step returns to the caller. -/
inductive Ret where
  | nothing
  /-- The get returned the item. -/
  | item (i : Nat)
  /-- The get returned NULL with `INSUFFICIENT_HANDLES`. -/
  | failed
  /-- The release returned. -/
  | released
deriving DecidableEq, Repr

/-- The state with thread `t` elsewhere. -/
def State.goto (s : State) (t : Nat) (pc : Pc) : State := { s with pc := set s.pc t pc }

/-- The next access of thread `t`, which is in a call. -/
def access (s : State) (t : Nat) (upper : Nat) : Pc → Option (State × Ret)
  | .idle => none
  -- pool.c:84
  | .get => some (s.goto t (.getRead s.head s.swaps), .nothing)
  -- pool.c:89-96
  | .getRead orig seen =>
    if s.resource orig.index = false then some (s.goto t .idle, .failed)
    else some (s.goto t (.getNext orig (s.next orig.index) seen), .nothing)
  -- pool.c:97-105
  | .getNext orig next _ =>
    if s.head = orig then
      some ({ s.goto t .idle with
        head := ⟨next, inc16 orig.aba, upper⟩, swaps := s.swaps + 1,
        held := set s.held orig.index (s.held orig.index + 1) }, .item orig.index)
    else some (s.goto t .get, .nothing)
  -- pool.c:111
  | .release i => some (s.goto t (.releaseRead i s.head s.swaps), .nothing)
  -- pool.c:112
  | .releaseRead i orig seen =>
    some ({ s.goto t (.releaseNext i orig seen) with next := set s.next i orig.index }, .nothing)
  -- pool.c:113-118
  | .releaseNext i orig _ =>
    if s.head = orig then
      some ({ s.goto t .idle with head := ⟨i, inc16 orig.aba, upper⟩, swaps := s.swaps + 1 }, .released)
    else some (s.goto t (.release i), .nothing)

/-- One step of thread `t`; `none` when the thread cannot do that. -/
def step (s : State) (t : Nat) : Act → Option (State × Ret)
  | .callGet => if s.pc t = .idle then some (s.goto t .get, .nothing) else none
  | .callRelease i =>
    if s.pc t = .idle ∧ 0 < s.held i then
      some ({ s.goto t (.release i) with held := set s.held i (s.held i - 1) }, .nothing)
    else none
  | .run upper => access s t upper (s.pc t)

/-- A schedule: which thread does what. -/
abbrev Schedule := List (Nat × Act)

/-- The state after a schedule. -/
def exec (s : State) : Schedule → Option State
  | [] => some s
  | (t, a) :: rest => do
    let (s, _) ← step s t a
    exec s rest

/-- The threads' view of a pool after `init`, before any call. -/
def start (p : Pool) : State where
  head := p.head
  next := p.next
  resource := fun i => (p.resource i).isSome
  pc := fun _ => .idle
  held := fun _ => 0
  swaps := 0

end Verif.Pool
