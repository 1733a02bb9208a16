import Verif.Base

/-! # Model of the auto reset signal (threading.c, the pthread implementation)

Any number of threads call `fiftyoneDegreesSignalSet` and `fiftyoneDegreesSignalWait` on one signal. The pthread mutex
and condition are modelled by their POSIX semantics: one owner, `pthread_cond_wait` releases the mutex and sleeps in one
step and owns it again when it returns, `pthread_cond_signal` wakes one sleeping thread if there is any, and a sleeping
thread may also wake without cause (so more than one may be woken). `pthread_mutex_lock` and `pthread_cond_wait` are
taken not to fail. The Windows implementation (threading.c:27-67) only calls the operating system and is not modelled;
destroying the signal is not either. -/

namespace Verif.Signal

/-- Where a thread is. -/
inductive Pc where
  /-- Not in a call. -/
  | idle
  /-- `fiftyoneDegreesSignalSet` called, at threading.c:117. -/
  | setLock
  /-- Owns the mutex, at threading.c:118. -/
  | setHeld
  /-- At threading.c:119. -/
  | setStored
  /-- At threading.c:120. -/
  | setSignalled
  /-- Mutex released, about to return from the set. -/
  | setDone
  /-- `fiftyoneDegreesSignalWait` called, at threading.c:125. -/
  | waitLock
  /-- Owns the mutex, at threading.c:126. -/
  | check
  /-- In `pthread_cond_wait`, threading.c:130, not woken. -/
  | asleep
  /-- In `pthread_cond_wait`, woken, has to own the mutex again to return. -/
  | woken
  /-- At threading.c:133, the loop has ended. -/
  | taking
  /-- At threading.c:134. -/
  | taken
  /-- Mutex released, about to return from the wait. -/
  | waitDone
deriving DecidableEq, Repr

/-- `fiftyoneDegreesSignal`, threading.h:121-125, and where the threads are. -/
structure State where
  wait : Bool
  owner : Option Nat
  pc : Nat → Pc

/-- `fiftyoneDegreesSignalCreate`, threading.c:97-108, when it does not return NULL. -/
def create : State := ⟨false, none, fun _ => .idle⟩

/-- What happens in a step, for the statement of the properties. -/
inductive Event where
  | callSet (t : Nat)
  /-- The signal becomes set. -/
  | set (t : Nat)
  | retSet (t : Nat)
  | callWait (t : Nat)
  /-- The signal is found set and is reset. -/
  | take (t : Nat)
  | retWait (t : Nat)
deriving DecidableEq, Repr

/-- The next thing a thread does. -/
inductive Act where
  | callSet
  | callWait
  /-- The next line of code; `w` is the thread `pthread_cond_signal` wakes, if it is called. -/
  | go (w : Option Nat)
  /-- Wakes without having been signalled. -/
  | spurious
deriving DecidableEq, Repr

/-- One thread's place changed. -/
def put (f : Nat → Pc) (t : Nat) (p : Pc) : Nat → Pc := fun x => if x = t then p else f x

/-- `pthread_cond_signal` may wake `w`: a sleeping thread; `none` only if no thread below `n` sleeps, where `n` bounds
the threads there are. -/
def wakes (s : State) (n : Nat) (w : Option Nat) : Bool :=
  match w with
  | some u => decide (u < n ∧ s.pc u = .asleep)
  | none => (List.range n).all fun u => s.pc u ≠ .asleep

/-- One step of thread `t`, of `n` threads; `none` when it cannot be made. -/
def step (n : Nat) (s : State) (t : Nat) : Act → Option (State × List Event)
  | .callSet => if t < n ∧ s.pc t = .idle then some ({ s with pc := put s.pc t .setLock }, [.callSet t]) else none
  | .callWait => if t < n ∧ s.pc t = .idle then some ({ s with pc := put s.pc t .waitLock }, [.callWait t]) else none
  | .spurious => if s.pc t = .asleep then some ({ s with pc := put s.pc t .woken }, []) else none
  | .go w =>
    match s.pc t with
    | .idle => none
    -- threading.c:117
    | .setLock => if s.owner = none then some ({ s with owner := some t, pc := put s.pc t .setHeld }, []) else none
    -- threading.c:118
    | .setHeld => some ({ s with wait := false, pc := put s.pc t .setStored }, [.set t])
    -- threading.c:119
    | .setStored =>
      if wakes s n w then
        match w with
        | some u => some ({ s with pc := put (put s.pc t .setSignalled) u .woken }, [])
        | none => some ({ s with pc := put s.pc t .setSignalled }, [])
      else none
    -- threading.c:120
    | .setSignalled => some ({ s with owner := none, pc := put s.pc t .setDone }, [])
    | .setDone => some ({ s with pc := put s.pc t .idle }, [.retSet t])
    -- threading.c:125
    | .waitLock => if s.owner = none then some ({ s with owner := some t, pc := put s.pc t .check }, []) else none
    -- threading.c:126-130
    | .check =>
      if s.wait then some ({ s with owner := none, pc := put s.pc t .asleep }, [])
      else some ({ s with pc := put s.pc t .taking }, [])
    | .asleep => none
    | .woken => if s.owner = none then some ({ s with owner := some t, pc := put s.pc t .check }, []) else none
    -- threading.c:133
    | .taking => some ({ s with wait := true, pc := put s.pc t .taken }, [.take t])
    -- threading.c:134
    | .taken => some ({ s with owner := none, pc := put s.pc t .waitDone }, [])
    | .waitDone => some ({ s with pc := put s.pc t .idle }, [.retWait t])

/-- A run: the steps of a schedule, with the events in order; `none` if a step cannot be made. -/
def exec (n : Nat) (s : State) : List (Nat × Act) → Option (State × List Event)
  | [] => some (s, [])
  | (t, a) :: rest => do
    let (s, e) ← step n s t a
    let (s, es) ← exec n s rest
    return (s, e ++ es)

end Verif.Signal
