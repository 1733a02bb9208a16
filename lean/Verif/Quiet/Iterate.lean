import Verif.Quiet.Props

/-! # C95: a failure while the profiles with a value are reported -/

namespace Verif.Quiet

open Verif.Collection Verif.Record
open Verif.Cache (Cache COp Event cacheStep shardGet)
open Verif.Component (read16 read32 le32 read32_le)

/-! ## Model -/

/-- What a round of the loop leaves: as `Record.Round`, with the free handles. -/
structure Turn where
  offsets : State
  offsetItem : Item
  profiles : State
  profileItem : Item
  hit : Bool
  free : Nat
  err : Option Fault

/-- The body of the loop of `fiftyoneDegreesProfileIterateProfilesForPropertyAndValue`, profile.c:304-341, as long as there was no
exception. The offsets and the profiles are in the same file and share its handles. -/
def turn (file : CStr) (fuel : Nat) (offsets profiles : Coll) (q : Profile.Property) (x i : Nat) (s : State) (offsetItem : Item)
    (t : State) (profileItem : Item) (free : Nat) : UB Turn :=
  match get .clear file fuel offsets s free (UInt32.ofNat i) offsetItem with
  | none => none
  | some g =>
    if g.ptr ≠ none ∧ g.err = none then do
      let bytes ← bytesAt g.state g.item
      let o ← read32 bytes 4
      let p ← get .clear file fuel profiles t g.free (UInt32.ofNat o) profileItem
      if p.ptr ≠ none ∧ p.err = none then do
        let bytes ← bytesAt p.state p.item
        let profile ← parseProfile bytes
        let hit ← Profile.hasValue profile q x
        let a ← offsets.release fuel p.state p.item
        let b ← offsets.release fuel g.state g.item
        some ⟨b.1, b.2, a.1, a.2, hit, p.free, none⟩
      else do
        let b ← offsets.release fuel g.state g.item
        some ⟨b.1, b.2, p.state, p.item, false, p.free, p.err⟩
    else some ⟨g.state, g.item, t, profileItem, false, g.free, g.err⟩

/-- What the iteration leaves. -/
structure Ended where
  offsets : State
  profiles : State
  seen : List Nat
  free : Nat
  err : Option Fault

/-- The rounds after an exception `e`, profile.c:304-309: the offset is got, but since there is an exception, nothing else is done,
and it is not released. A failure replaces the one recorded (exceptions.h:122-128). -/
def rest (file : CStr) (fuel : Nat) (offsets : Coll) :
    (n i : Nat) → State → Item → (free : Nat) → (e : Option Fault) → UB (State × Nat × Option Fault)
  | 0, _, s, _, free, e => some (s, free, e)
  | n + 1, i, s, item, free, e =>
    match get .stale file fuel offsets s free (UInt32.ofNat i) item with
    | none => none
    | some r => rest file fuel offsets n (i + 1) r.state r.item r.free (r.err.or e)

/-- The loop, profile.c:303-342, for the next `n` indexes. -/
def turnsFrom (file : CStr) (fuel : Nat) (offsets profiles : Coll) (q : Profile.Property) (x : Nat) :
    (n i : Nat) → State → Item → State → Item → List Nat → Nat → UB Ended
  | 0, _, s, _, t, _, seen, free => some ⟨s, t, seen, free, none⟩
  | n + 1, i, s, oi, t, pi, seen, free =>
    match turn file fuel offsets profiles q x i s oi t pi free with
    | none => none
    | some r =>
      let seen := if r.hit then seen ++ [i] else seen
      if r.err = none then
        turnsFrom file fuel offsets profiles q x n (i + 1) r.offsets r.offsetItem r.profiles r.profileItem seen r.free
      else (rest file fuel offsets n (i + 1) r.offsets r.offsetItem r.free r.err).map fun a => ⟨a.1, r.profiles, seen, a.2.1, a.2.2⟩

/-- `fiftyoneDegreesProfileIterateProfilesForPropertyAndValue`, profile.c:272-347, from where the property and the value have been found, as
`Record.iterateProfiles`, but to its end also after an exception. -/
def iterate (file : CStr) (fuel : Nat) (offsets profiles : Coll) (oj pj : Option Ref) (q : Profile.Property) (x : Nat)
    (s t : State) (free : Nat) : UB Ended :=
  turnsFrom file fuel offsets profiles q x offsets.getCount 0 s (localItem oj) t (localItem pj) [] free

/-! ## Lemmas -/

variable {file : CStr} {fuel free : Nat} {s t : State} {key : UInt32} {item oi pi : Item} {c c2 : Coll} {q : Profile.Property}
  {x i n : Nat} {seen : List Nat}

/-- What a round leaves, with the free handles. -/
def turned (free : Nat) (r : Round) : Turn :=
  ⟨r.offsets, r.offsetItem, r.profiles, r.profileItem, r.hit, free, r.err.map .collection⟩

theorem turn_clear (hf : free ≠ 0) :
    turn file fuel c c2 q x i s oi t pi free = (Record.round file fuel c c2 q x i s oi t pi).map (turned free) := by
  rw [turn, Record.round, get_clear c hf]
  cases hg : c.get file fuel s (UInt32.ofNat i) oi with
  | none => rfl
  | some g =>
    simp only [Option.map_some, withFree, Option.map_eq_none_iff]
    split
    · cases bytesAt g.state g.item with
      | none => rfl
      | some b =>
        simp only [Option.bind_eq_bind, Option.bind_some]
        cases read32 b 4 with
        | none => rfl
        | some o =>
          simp only [Option.bind_some, get_clear c2 hf]
          cases hp : c2.get file fuel t (UInt32.ofNat o) pi with
          | none => rfl
          | some p =>
            simp only [Option.map_some, withFree, Option.map_eq_none_iff, Option.bind_some]
            split
            · cases bytesAt p.state p.item with
              | none => rfl
              | some b =>
                simp only [Option.bind_some]
                cases parseProfile b with
                | none => rfl
                | some pr =>
                  simp only [Option.bind_some]
                  cases Profile.hasValue pr q x with
                  | none => rfl
                  | some hit =>
                    simp only [Option.bind_some]
                    cases c.release fuel p.state p.item with
                    | none => rfl
                    | some a =>
                      simp only [Option.bind_some]
                      cases c.release fuel g.state g.item <;> rfl
            · cases c.release fuel g.state g.item <;> rfl
    · rfl

/-- The first `k` rounds have no exception, and the next has one: what the loop does is to get the remaining offsets. -/
theorem turns_fail (hf : free ≠ 0) {e : Err} : ∀ (k n i : Nat) (s t : State) (oi pi : Item) (seen : List Nat) (r0 r : Iterated),
    k + 1 ≤ n → roundsFrom file fuel c c2 q x k i s oi t pi seen = some r0 → r0.err = none →
    roundsFrom file fuel c c2 q x (k + 1) i s oi t pi seen = some r → r.err = some e →
    ∃ oi', turnsFrom file fuel c c2 q x n i s oi t pi seen free =
      (rest file fuel c (n - k - 1) (i + k + 1) r.offsets oi' free (some (.collection e))).map fun a =>
        ⟨a.1, r.profiles, r.seen, a.2.1, a.2.2⟩ := by
  intro k
  induction k with
  | zero =>
    intro n i s t oi pi seen r0 r hn h0 h0e h1 h1e
    obtain ⟨n, rfl⟩ : ∃ m, n = m + 1 := ⟨n - 1, by omega⟩
    rw [roundsFrom] at h1
    rw [turnsFrom, turn_clear hf]
    cases hr : Record.round file fuel c c2 q x i s oi t pi with
    | none => rw [hr] at h1; cases h1
    | some a =>
      rw [hr] at h1
      simp only at h1
      split at h1
      · rw [roundsFrom] at h1; cases h1; cases h1e
      · cases h1
        simp only at h1e
        refine ⟨a.offsetItem, ?_⟩
        simp [turned, h1e]
  | succ k ih =>
    intro n i s t oi pi seen r0 r hn h0 h0e h1 h1e
    obtain ⟨n, rfl⟩ : ∃ m, n = m + 1 := ⟨n - 1, by omega⟩
    rw [roundsFrom] at h0 h1
    rw [turnsFrom, turn_clear hf]
    cases hr : Record.round file fuel c c2 q x i s oi t pi with
    | none => rw [hr] at h1; cases h1
    | some a =>
      rw [hr] at h0 h1
      simp only at h0 h1
      split at h0
      · rename_i ha
        rw [if_pos ha] at h1
        obtain ⟨oi', h2⟩ := ih n (i + 1) _ _ _ _ _ r0 r (by omega) h0 h0e h1 h1e
        refine ⟨oi', ?_⟩
        simp only [Option.map_some, turned, ha, Option.map_none, if_true]
        have e1 : n + 1 - (k + 1) - 1 = n - k - 1 := by omega
        have e2 : i + (k + 1) + 1 = i + 1 + k + 1 := by omega
        rw [e1, e2]
        exact h2
      · rename_i ha
        cases h0
        exact absurd h0e ha

/-- An exception in some round: the first in which there is one. -/
theorem rounds_first : ∀ (n i : Nat) (s t : State) (oi pi : Item) (seen : List Nat) (r : Iterated),
    roundsFrom file fuel c c2 q x n i s oi t pi seen = some r → r.err ≠ none →
    ∃ k r0, k + 1 ≤ n ∧ roundsFrom file fuel c c2 q x k i s oi t pi seen = some r0 ∧ r0.err = none ∧
      roundsFrom file fuel c c2 q x (k + 1) i s oi t pi seen = some r := by
  intro n
  induction n with
  | zero => intro i s t oi pi seen r h he; cases h; exact absurd rfl he
  | succ n ih =>
    intro i s t oi pi seen r h he
    rw [roundsFrom] at h
    cases hr : Record.round file fuel c c2 q x i s oi t pi with
    | none => rw [hr] at h; cases h
    | some a =>
      rw [hr] at h
      simp only at h
      split at h
      · rename_i ha
        obtain ⟨k, r0, k1, k2, k3, k4⟩ := ih _ _ _ _ _ _ r h he
        refine ⟨k + 1, r0, by omega, ?_, k3, ?_⟩
        · rw [roundsFrom, hr]
          simpa only [if_pos ha] using k2
        · rw [roundsFrom, hr]
          simpa only [if_pos ha] using k4
      · rename_i ha
        refine ⟨0, ⟨s, t, seen, none⟩, by omega, rfl, rfl, ?_⟩
        rw [roundsFrom, hr]
        simpa only [if_neg ha] using h

/-! ## C95 -/

/-- C95: without an exception the loop does what `Record.roundsFrom` does (C75), and all file handles are free again. Missing: exceptions;
see the next theorems. -/
theorem C95_same_partial (hf : free ≠ 0) : ∀ (n i : Nat) (s t : State) (oi pi : Item) (seen : List Nat) (r : Iterated),
    roundsFrom file fuel c c2 q x n i s oi t pi seen = some r → r.err = none →
    turnsFrom file fuel c c2 q x n i s oi t pi seen free = some ⟨r.offsets, r.profiles, r.seen, free, none⟩ := by
  intro n
  induction n with
  | zero => intro i s t oi pi seen r h he; cases h; rfl
  | succ n ih =>
    intro i s t oi pi seen r h he
    rw [roundsFrom] at h
    rw [turnsFrom, turn_clear hf]
    cases hr : Record.round file fuel c c2 q x i s oi t pi with
    | none => rw [hr] at h; cases h
    | some a =>
      rw [hr] at h
      simp only at h
      split at h
      · rename_i ha
        simp only [Option.map_some, turned, ha, Option.map_none, if_true]
        exact ih _ _ _ _ _ _ r h he
      · rename_i ha
        cases h
        exact absurd he ha

/-- C95: after an exception, whatever the collections, no profile is reported and nothing is done to the profiles. Missing: what happens to
the offsets; see the other theorems. -/
theorem C95_seen_partial (hf : free ≠ 0) {r : Iterated} (h : roundsFrom file fuel c c2 q x n i s oi t pi seen = some r) {a : Ended}
    (ha : turnsFrom file fuel c c2 q x n i s oi t pi seen free = some a) : a.seen = r.seen ∧ a.profiles = r.profiles := by
  cases he : r.err with
  | none =>
    rw [C95_same_partial hf n i s t oi pi seen r h he] at ha
    cases ha
    exact ⟨rfl, rfl⟩
  | some e =>
    obtain ⟨k, r0, k1, k2, k3, k4⟩ := rounds_first n i s t oi pi seen r h (by simp [he])
    obtain ⟨oi', h2⟩ := turns_fail hf k n i s t oi pi seen r0 r k1 k2 k3 k4 he
    rw [h2] at ha
    obtain ⟨b, b1, b2⟩ := Option.map_eq_some_iff.1 ha
    subst b2
    exact ⟨rfl, rfl⟩

/-- The first `n` items of the collection are in memory. -/
def Loaded (c : Coll) (n : Nat) : Prop :=
  ∃ m, (c = .memory m ∨ ∃ next, c = .part m next) ∧ n ≤ (if m.elementSize = 0 then m.size else m.count)

theorem get_loaded {x : Exc} (hl : Loaded c n) (hk : key.toNat < n) :
    ∃ item' p, get x file fuel c s free key item = some ⟨s, free, item', some p, none⟩ := by
  obtain ⟨m, hm, hn⟩ := hl
  have hlt : key.toNat < (if m.elementSize = 0 then m.size else m.count) := by omega
  rcases hm with rfl | ⟨next, rfl⟩
  · rw [get, getMemory]
    split at hlt
    · rename_i h0
      rw [if_pos h0, if_pos hlt]
      exact ⟨_, _, rfl⟩
    · rename_i h0
      rw [if_neg h0, if_pos hlt]
      exact ⟨_, _, rfl⟩
  · cases next with
    | none =>
      rw [get, getPartial, if_pos hlt]
      exact ⟨_, _, rfl⟩
    | some b =>
      rw [get, if_pos hlt, getPartial, if_pos hlt]
      exact ⟨_, _, rfl⟩

theorem rest_loaded {m : Nat} (hl : Loaded c m) (hm : m ≤ 2 ^ 32) {e : Option Fault} : ∀ (n i : Nat) (item : Item), i + n ≤ m →
    rest file fuel c n i s item free e = some (s, free, e) := by
  intro n
  induction n with
  | zero => intro i item _; rfl
  | succ n ih =>
    intro i item hi
    have hk : (UInt32.ofNat i).toNat < m := by
      rw [UInt32.toNat_ofNat', Nat.mod_eq_of_lt (by omega)]
      omega
    obtain ⟨item', p, h1⟩ := get_loaded (file := file) (fuel := fuel) (s := s) (free := free) (item := item) (x := .stale) hl hk
    rw [rest, h1]
    exact ih (i + 1) item' (by omega)

/-- C95: when the offsets are in memory, or partly and all of those looked at are, then a failure costs nothing: the loop ends as it would have at
the failure, with the exception of that failure, and all file handles are free again. Missing: offsets in the file and in a cache, see
`C95_handles_violated` and `C95_nodes_violated`. -/
theorem C95_loaded_partial (hf : free ≠ 0) (hl : Loaded c (i + n)) (hn : i + n ≤ 2 ^ 32) {r : Iterated}
    (h : roundsFrom file fuel c c2 q x n i s oi t pi seen = some r) :
    turnsFrom file fuel c c2 q x n i s oi t pi seen free =
      some ⟨r.offsets, r.profiles, r.seen, free, r.err.map .collection⟩ := by
  cases he : r.err with
  | none => exact C95_same_partial hf n i s t oi pi seen r h he
  | some e =>
    obtain ⟨k, r0, k1, k2, k3, k4⟩ := rounds_first n i s t oi pi seen r h (by simp [he])
    obtain ⟨oi', h2⟩ := turns_fail hf k n i s t oi pi seen r0 r k1 k2 k3 k4 he
    rw [h2, rest_loaded hl hn (n - k - 1) (i + k + 1) oi' (by omega)]
    rfl

theorem rest_file {f : FileColl} : ∀ (n i free : Nat) (item : Item) (e : Option Fault),
    (∀ j, i ≤ j → j < i + n → inRange f (UInt32.ofNat j) = true) →
    rest file fuel (.back .file f) n i s item free e =
      some (s, free - n, if n ≤ free then e else some .noHandle) := by
  intro n
  induction n with
  | zero => intro i free item e _; rfl
  | succ n ih =>
    intro i free item e hr
    have h1 := hr i (by omega) (by omega)
    rw [rest, get, backGet, fileGet, if_pos h1]
    by_cases h0 : free = 0
    · subst h0
      simp only [if_true, Option.map_some]
      rw [ih (i + 1) 0 _ _ fun j h2 h3 => hr j (by omega) (by omega)]
      simp [hide]
    · simp only [if_neg h0, if_true, Option.map_some]
      rw [ih (i + 1) (free - 1) _ _ fun j h2 h3 => hr j (by omega) (by omega)]
      have e1 : free - 1 - n = free - (n + 1) := by omega
      rw [e1]
      by_cases h2 : n + 1 ≤ free
      · rw [if_pos h2, if_pos (by omega)]; rfl
      · rw [if_neg h2, if_neg (by omega)]

/-- C95 fails when the offsets are in the file: after a failure with the offset of index `i + k`, every further offset costs a file handle, which
is never free again; and when there are none left, then the exception reported is not that of the failure. -/
theorem C95_handles_violated (hf : free ≠ 0) {f : FileColl} (hfix : f.read = .fixed) (hin : i + n ≤ f.count)
    (hsize : f.count * f.elementSize ≤ f.size) (he : 0 < f.elementSize) (h32 : f.size < 4294967296)
    {k : Nat} (hk : k + 1 ≤ n) {r0 r : Iterated} {e : Err}
    (h0 : roundsFrom file fuel (.back .file f) c2 q x k i s oi t pi seen = some r0) (h0e : r0.err = none)
    (h1 : roundsFrom file fuel (.back .file f) c2 q x (k + 1) i s oi t pi seen = some r) (h1e : r.err = some e) :
    turnsFrom file fuel (.back .file f) c2 q x n i s oi t pi seen free =
      some ⟨r.offsets, r.profiles, r.seen, free - (n - k - 1),
        some (if n - k - 1 ≤ free then .collection e else .noHandle)⟩ := by
  have hr : ∀ j, i ≤ j → j < i + n → inRange f (UInt32.ofNat j) = true := by
    intro j _ hj
    have h3 : (j + 1) * f.elementSize ≤ f.size := (Nat.mul_le_mul_right _ (by omega)).trans hsize
    have h4 : j * f.elementSize < f.size := by rw [Nat.add_mul] at h3; omega
    have h5 : j ≤ j * f.elementSize := Nat.le_mul_of_pos_right _ he
    have h6 : (UInt32.ofNat j).toNat = j := by rw [UInt32.toNat_ofNat']; exact Nat.mod_eq_of_lt (by omega)
    simp only [inRange, hfix, h6, decide_eq_true_eq]
    rw [Nat.mod_eq_of_lt (by omega)]
    omega
  obtain ⟨oi', h2⟩ := turns_fail hf k n i s t oi pi seen r0 r hk h0 h0e h1 h1e
  rw [h2, rest_file _ _ _ _ _ fun j h3 h4 => hr j (by omega) (by omega)]
  simp only [Option.map_some]
  split <;> rfl

/-- C95: an index that is not in the file's collection, or whose offset is not, costs no file handle, whatever exception is passed and
whether a handle is free or not: nothing is got, and the exception set, if there is somewhere to, is that of the range. -/
theorem C95_outside {f : FileColl} (hf : f.read = .fixed) {key : UInt32}
    (hk : f.count ≤ key.toNat ∨ f.size ≤ key.toNat * f.elementSize % 4294967296) {e : Exc} :
    get e file fuel (.back .file f) s free key item =
      some ⟨s, free, { item with used := 0, handle := none }, none,
        if e = .null then none else some (.collection (if f.count ≤ key.toNat then .indexOutOfRange else .offsetOutOfRange))⟩ := by
  have h1 : inRange f key = false := by
    simp only [inRange, hf, decide_eq_false_iff_not]
    omega
  have h2 : getFile file f s.heap key item = some (s.heap, { item with used := 0, handle := none }, none,
      some (if f.count ≤ key.toNat then .indexOutOfRange else .offsetOutOfRange)) := by
    simp only [getFile, readItem, hf, readFixed]
    by_cases h3 : f.count ≤ key.toNat
    · rw [if_neg (by omega), if_pos h3]; rfl
    · rw [if_pos (by omega), if_neg (by omega), if_neg h3]; rfl
  rw [get, backGet, fileGet, h1, h2]
  simp [hide]

/-- Its condition is met, with a failure recorded. -/
example : ((newState 1).bind fun s => (get .stale valueFile 12 (offsetsIn ⟨0, 0, 0⟩) s 2 3 Item.new).map fun r =>
    (r.free, r.ptr.isSome, r.err)) = some (2, false, some (.collection .indexOutOfRange)) := by decide +kernel

/-- Profiles of which only the first `size` bytes belong to the collection. -/
def cutProfiles (size : Nat) : Coll := .back .file ⟨24, size, 0, 0, profileReader⟩

/-- The iteration with `free` file handles: the indexes reported, the handles left and the exception; and then what getting an offset
again gives: whether there is a pointer, and the exception. -/
def cutRun (c c2 : Coll) (capacity free : Nat) (key : UInt32 := 0) : UB (List Nat × Nat × Option Fault × Bool × Option Fault) :=
  (newState capacity).bind fun s => (iterate valueFile 12 c c2 none none ⟨4, 6⟩ 4 s s free).bind fun r =>
    (get .clear valueFile 12 c r.offsets r.free key Item.new).map fun g => (r.seen, r.free, r.err, g.ptr.isSome, g.err)

/-- With nothing failing; with the second profile outside of the collection and the offsets in memory, and partly loaded. -/
example :
    cutRun (offsetsIn ⟨0, 0, 0⟩) (cutProfiles 55) 1 1 = some ([0, 2], 1, none, true, none) ∧
    cutRun (createFromMemory valueFile valueTableHeader) (cutProfiles 21) 1 1 =
      some ([0], 1, some (.collection .offsetOutOfRange), true, none) ∧
    cutRun (offsetsIn ⟨3, 0, 0⟩) (cutProfiles 21) 1 1 = some ([0], 1, some (.collection .offsetOutOfRange), true, none) ∧
    Loaded (offsetsIn ⟨3, 0, 0⟩) 3 := by
  refine ⟨?_, ?_, ?_, ⟨_, .inr ⟨_, rfl⟩, ?_⟩⟩ <;> decide +kernel

/-- With the offsets in the file: after the second profile could not be got, the only handle is gone, and with it all access to the file; after
the first could not be got, two handles are needed, and the exception reported is another one. -/
example :
    cutRun (offsetsIn ⟨0, 0, 0⟩) (cutProfiles 21) 1 1 = some ([0], 0, some (.collection .offsetOutOfRange), false, some .noHandle) ∧
    cutRun (offsetsIn ⟨0, 0, 0⟩) (cutProfiles 0) 1 1 = some ([], 0, some .noHandle, false, some .noHandle) ∧
    cutRun (offsetsIn ⟨0, 0, 0⟩) (cutProfiles 0) 1 3 = some ([], 1, some (.collection .offsetOutOfRange), true, none) ∧
    0 + 3 ≤ 3 ∧ 3 * 8 ≤ 24 ∧ offsetsIn ⟨0, 0, 0⟩ = .back .file ⟨0, 24, 3, 8, .fixed⟩ := by
  refine ⟨?_, ?_, ?_, ?_, ?_, rfl⟩ <;> decide +kernel

/-- C95 fails when the offsets are cached: after the failure the node of the cache, its only one, is held for ever, and no offset can be got any
more, though there is no exception. With two nodes one is left. When nothing fails none is lost. -/
theorem C95_nodes_violated :
    cutRun (offsetsIn ⟨0, 1, 1⟩) (made valueFile ⟨0, 1, 1⟩ ⟨24, 21, 0⟩ profileReader) 1 9 0 =
      some ([0], 8, some (.collection .offsetOutOfRange), false, none) ∧
    cutRun (offsetsIn ⟨0, 1, 1⟩) (made valueFile ⟨0, 1, 1⟩ ⟨24, 21, 0⟩ profileReader) 1 9 1 =
      some ([0], 8, some (.collection .offsetOutOfRange), false, none) ∧
    cutRun (offsetsIn ⟨0, 1, 1⟩) (made valueFile ⟨0, 1, 1⟩ ⟨24, 21, 0⟩ profileReader) 1 9 2 =
      some ([0], 8, some (.collection .offsetOutOfRange), false, none) ∧
    cutRun (offsetsIn ⟨0, 2, 1⟩) (made valueFile ⟨0, 1, 1⟩ ⟨24, 21, 0⟩ profileReader) 2 9 2 =
      some ([0], 8, some (.collection .offsetOutOfRange), true, none) ∧
    cutRun (offsetsIn ⟨0, 1, 1⟩) (profilesIn ⟨0, 1, 1⟩) 1 9 = some ([0, 2], 9, none, true, none) := by
  refine ⟨?_, ?_, ?_, ?_, ?_⟩ <;> decide +kernel

end Verif.Quiet
