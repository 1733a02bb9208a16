import Verif.Cache.Model

/-! # What a history of cache calls says about the nodes

These definitions look only at the calls and what they returned, not at the shard. -/

namespace Verif.Cache

variable {K V : Type}

/-- The event hands node `n` to a caller. -/
def Event.isGet (n : Nat) : Event K V → Bool
  | .hit _ m => m = n
  | .loaded _ _ _ m => m = n
  | _ => false

/-- The event gives node `n` back. -/
def Event.isRelease (n : Nat) : Event K V → Bool
  | .released m => m = n
  | _ => false

/-- The event loads into node `n`. -/
def Event.isLoad (n : Nat) : Event K V → Bool
  | .loaded _ _ _ m => m = n
  | _ => false

/-- How often node `n` was handed out. -/
def gets (n : Nat) (evs : List (Event K V)) : Nat := evs.countP (Event.isGet n)

/-- How often node `n` was given back. -/
def releases (n : Nat) (evs : List (Event K V)) : Nat := evs.countP (Event.isRelease n)

/-- The number of callers that hold node `n`. -/
def held (n : Nat) (evs : List (Event K V)) : Nat := gets n evs - releases n evs

/-- What the last load into a node was for, what it produced, and whether it succeeded. -/
def lastLoad (n : Nat) (evs : List (Event K V)) : Option (K × V × Bool) :=
  evs.foldl (fun last e => match e with
    | .loaded k v ok m => if m = n then some (k, v, ok) else last
    | _ => last) none

/-- Node `a` was released after the last release of node `b`. -/
def LaterRelease (evs : List (Event K V)) (a b : Nat) : Prop :=
  ∃ before after, evs = before ++ after ∧ .released a ∈ after ∧ .released b ∉ after

/-- The number of calls of get. -/
def getCalls (evs : List (Event K V)) : Nat :=
  evs.countP fun e => match e with | .released _ => false | _ => true

/-- The nodes of the shard's list, read by following the pointers from the first to the last. -/
def walk (s : Shard V) : Nat → Option Nat → Option (List Nat)
  | _, none => some []
  | 0, some _ => none
  | fuel + 1, some n => (walk s fuel (s.next n)).map (n :: ·)

end Verif.Cache
