import Verif.Quiet.Props

/-! # C94: gets and look-ups that fail, from a file and from the part of a collection that is not loaded -/

namespace Verif.Quiet

open Verif.Collection Verif.Record
open Verif.Component (read16 read32)

variable {file : CStr} {fuel free : Nat} {s : State} {key : UInt32} {item : Item} {f : FileColl}

/-! ## Lemmas -/

/-- A get from the file with NULL is that with a structure, which is not looked at afterwards. -/
theorem quiet_file : quiet file fuel (.back .file f) s key item =
    ((Coll.back .file f).get file fuel s key item).map fun g => { g with err := none } := by
  rw [quiet]
  cases hg : (Coll.back .file f).get file fuel s key item with
  | none =>
    have : getFile file f s.heap key item = none := by
      simpa [Coll.get, getBack] using hg
    simp [get, backGet, fileGet, this]
  | some g =>
    have h1 : get .clear file fuel (.back .file f) s 1 key item = some (withFree 1 g) := by
      rw [get_clear _ (by decide), hg]; rfl
    by_cases he : (withFree 1 g).err = none
    · rw [C94_get_partial h1 he]
      rfl
    · rw [(C94_file_partial h1 he).1]
      rfl

/-- A get from the file that sets an exception returns NULL. -/
theorem file_err {g : Got} (hg : (Coll.back .file f).get file fuel s key item = some g) (he : g.err ≠ none) : g.ptr = none := by
  have h1 : get .clear file fuel (.back .file f) s 1 key item = some (withFree 1 g) := by
    rw [get_clear _ (by decide), hg]; rfl
  refine (C94_file_partial h1 ?_).2.1
  simpa [withFree] using he

/-- The search without an exception structure in a file. -/
theorem search_file {cmp : CStr → UB Int} (t : State) : ∀ (rounds : Nat) (s : State) (item : Item) (l u : Nat),
    search file fuel (.back .file f) (fun b t => (cmp b).map fun r => (r, t)) rounds s item t l u =
      (searchLoop file fuel (.back .file f) cmp rounds s item l u).map fun r => ⟨r.1, r.2.1, r.2.2.1, t, none⟩ := by
  intro rounds
  induction rounds with
  | zero => intro _ _ _ _; rfl
  | succ rounds ih =>
    intro s item l u
    rw [search, searchLoop]
    by_cases hlu : l ≤ u
    · rw [if_pos hlu, if_pos hlu]
      simp only [quiet_file]
      cases hg : (Coll.back .file f).get file fuel s (UInt32.ofNat (l + (u - l) / 2)) item with
      | none => rfl
      | some g =>
        simp only [Option.map_some]
        by_cases hp : g.ptr = none
        · rw [if_pos hp, if_pos (Or.inl hp)]
          rfl
        · have he : g.err = none := by
            cases hx : g.err with
            | none => rfl
            | some x => exact absurd (file_err hg (by simp [hx])) hp
          rw [if_neg hp, if_neg (by simp [hp, he])]
          cases hb : bytesAt g.state g.item with
          | none => simp
          | some b =>
            simp only [Option.bind_some]
            cases hq : cmp b with
            | none => simp
            | some v =>
              simp only [Option.map_some]
              by_cases hv : v = 0
              · simp [hv]
              · rw [if_neg hv, if_neg hv]
                cases hr : (Coll.back .file f).release fuel g.state g.item with
                | none => rfl
                | some w =>
                  obtain ⟨s', item'⟩ := w
                  simp only
                  by_cases h1 : v > 0
                  · rw [if_pos h1, if_pos h1]
                    by_cases h2 : l + (u - l) / 2 ≠ 0
                    · rw [if_pos h2, if_pos h2, ih]
                    · rw [if_neg h2, if_neg h2, ih]
                  · rw [if_neg h1, if_neg h1, ih]
    · rw [if_neg hlu, if_neg hlu]
      rfl

/-! ## From the file -/

/-- C94: an integer, a value type and the id of a default profile from a file are the same with NULL as with a structure, whether the
get fails or not, and when it fails they are 0. Missing: the other kinds of collection when the get fails. -/
theorem C94_fields_file_partial :
    integer32 file fuel (.back .file f) s key =
      (getInteger32 file fuel (.back .file f) s key).map (fun r => (r.1, r.2.1)) ∧
    valueType file fuel (.back .file f) s key =
      (getValueType file fuel (.back .file f) s key).map (fun r => (r.1, r.2.1)) ∧
    defaultProfileId file fuel (.back .file f) s key =
      (getDefaultProfileId file fuel (.back .file f) s key).map (fun r => (r.1, r.2.1)) ∧
    (∀ g, (Coll.back .file f).get file fuel s key Item.new = some g → g.err ≠ none →
      integer32 file fuel (.back .file f) s key = some (0, g.state) ∧
      valueType file fuel (.back .file f) s key = some (0, g.state) ∧
      defaultProfileId file fuel (.back .file f) s key = some (0, g.state)) := by
  refine ⟨?_, ?_, ?_, ?_⟩
  · rw [integer32, getInteger32, quiet_file]
    cases hg : (Coll.back .file f).get file fuel s key Item.new with
    | none => rfl
    | some g =>
      simp only [Option.map_some]
      cases hp : g.ptr with
      | none => rfl
      | some p =>
        simp only [Option.bind_eq_bind]
        cases bytesAt g.state g.item with
        | none => rfl
        | some b =>
          simp only [Option.bind_some]
          cases read32 b 0 with
          | none => rfl
          | some v =>
            simp only [Option.bind_some]
            cases (Coll.back .file f).release fuel g.state g.item <;> rfl
  · rw [valueType, getValueType, quiet_file]
    cases hg : (Coll.back .file f).get file fuel s key Item.new with
    | none => rfl
    | some g =>
      simp only [Option.map_some]
      by_cases hp : g.ptr = none
      · simp [hp]
      · have he : g.err = none := by
          cases hx : g.err with
          | none => rfl
          | some x => exact absurd (file_err hg (by simp [hx])) hp
        rw [if_pos hp, if_pos ⟨hp, he⟩]
        simp only [Option.bind_eq_bind]
        cases bytesAt g.state g.item with
        | none => rfl
        | some b =>
          simp only [Option.bind_some]
          cases b[7]? with
          | none => rfl
          | some v =>
            simp only [Option.bind_some]
            cases (Coll.back .file f).release fuel g.state g.item <;> rfl
  · rw [defaultProfileId, getDefaultProfileId, quiet_file]
    cases hg : (Coll.back .file f).get file fuel s key Item.new with
    | none => rfl
    | some g =>
      simp only [Option.map_some]
      by_cases hp : g.ptr = none
      · simp [hp]
      · have he : g.err = none := by
          cases hx : g.err with
          | none => rfl
          | some x => exact absurd (file_err hg (by simp [hx])) hp
        rw [if_pos hp, if_pos ⟨hp, he⟩]
        simp only [Option.bind_eq_bind]
        cases bytesAt g.state g.item with
        | none => rfl
        | some b =>
          simp only [Option.bind_some]
          cases read32 b 1 with
          | none => rfl
          | some v =>
            simp only [Option.bind_some]
            cases (Coll.back .file f).release fuel g.state g.item <;> rfl
  · intro g hg he
    have hp := file_err hg he
    rw [integer32, valueType, defaultProfileId, quiet_file, hg]
    simp [hp]

/-- What a get from the file leaves in a new item when it fails: no pointer, or one to memory that has been freed. -/
theorem getFile_left {h : Heap} {r : Heap × Item × Option Ref × Option Err} (hg : getFile file f h key Item.new = some r)
    (he : r.2.2.2 ≠ none) : r.2.1.ptr = none ∨ ∃ i, r.2.1.ptr = some (.block i) ∧ r.1.block i = none := by
  have free1 : ∀ (h h' : Heap) (i : Nat), h.free (some (.block i)) = some h' → h'.block i = none := by
    intro h h' i hf
    rw [Heap.free] at hf
    split at hf
    · cases hf
    · cases hf
      simp
  have malloc1 : ∀ (h : Heap) (n : Nat) (q : Heap × Item × Nat), dataMalloc h { Item.new with used := 0 } n = some q →
      q.2.1.ptr = some (.block q.2.2) := by
    intro h n q hq
    simp [dataMalloc, Item.new] at hq
    subst hq
    rfl
  have aux : ∀ q : Heap × Item × Option Nat × Option Err, readItem file f h key Item.new = some q → q.2.2.2 ≠ none →
      q.2.1.ptr = none ∨ ∃ i, q.2.1.ptr = some (.block i) ∧ q.1.block i = none := by
    intro q hq hqe
    rw [readItem] at hq
    split at hq
    · rw [readFixed] at hq
      split at hq
      · split at hq
        · split at hq
          · cases hq
          · rename_i h1 item1 i1 hm
            have hp := malloc1 _ _ _ hm
            simp only at hp
            split at hq
            · obtain ⟨h2, -, hx⟩ := Option.map_eq_some_iff.1 hq
              subst hx
              exact absurd rfl hqe
            · obtain ⟨h2, h3, hx⟩ := Option.map_eq_some_iff.1 hq
              subst hx
              rw [hp] at h3
              exact .inr ⟨i1, hp, free1 _ _ _ h3⟩
        · cases hq; exact .inl rfl
      · cases hq; exact .inl rfl
    · rw [readVariable] at hq
      split at hq
      · rw [readVariableAt] at hq
        split at hq
        · cases hq; exact .inl rfl
        · simp only at hq
          split at hq
          · cases hq
          · rename_i h1 item1 i1 hm
            have hp := malloc1 _ _ _ hm
            simp only at hp
            split at hq
            · cases hq
            · split at hq
              · split at hq
                · obtain ⟨h2, -, hx⟩ := Option.map_eq_some_iff.1 hq
                  subst hx
                  exact absurd rfl hqe
                · obtain ⟨h2, h3, hx⟩ := Option.map_eq_some_iff.1 hq
                  subst hx
                  rw [hp] at h3
                  exact .inr ⟨i1, hp, free1 _ _ _ h3⟩
              · cases hq
                exact absurd rfl hqe
      · cases hq; exact .inl rfl
  rw [getFile] at hg
  split at hg
  · cases hg
  · cases hg; exact absurd rfl he
  · rename_i h1 item1 i1 e1 hne hq
    cases hg
    exact aux _ hq he

/-- So that the bytes of the item cannot be read. -/
theorem failed_bytes {g : Got} (hg : (Coll.back .file f).get file fuel s key Item.new = some g) (he : g.err ≠ none) :
    bytesAt g.state g.item = none := by
  simp only [Coll.get, getBack, Option.map_eq_some_iff] at hg
  obtain ⟨r, h1, h2⟩ := hg
  subst h2
  simp only at he ⊢
  rcases getFile_left h1 he with h | ⟨i, h, hb⟩
  · simp [bytesAt, h]
  · simp [bytesAt, h, view, hb]

/-- The item of an offset that was got from the file is new again when it is released. -/
theorem released_new {g : Got} (hg : (Coll.back .file f).get file fuel s key item = some g) (hp : g.ptr ≠ none) {w : State × Item}
    (hr : (Coll.back .file f).release fuel g.state g.item = some w) : w.2 = Item.new := by
  simp only [Coll.get, getBack, Option.map_eq_some_iff] at hg
  obtain ⟨r, h1, h2⟩ := hg
  subst h2
  simp only at hp hr
  rw [getFile] at h1
  split at h1
  · cases h1
  · cases h1
    simp [Coll.release, releaseBack, releaseFile] at hr
    obtain ⟨a, -, h3⟩ := hr
    subst h3
    rfl
  · cases h1; exact absurd rfl hp

/-- A search in the file that fails ends at an item whose bytes cannot be read, and returns the index 0. -/
theorem search_failed {cmp : CStr → UB Int} : ∀ (rounds : Nat) (s : State) (l u : Nat) (r : Int × State × Item × Option Err),
    searchLoop file fuel (.back .file f) cmp rounds s Item.new l u = some r → r.2.2.2 ≠ none →
    r.1 = 0 ∧ bytesAt r.2.1 r.2.2.1 = none := by
  intro rounds
  induction rounds with
  | zero => intro _ _ _ _ h; cases h
  | succ rounds ih =>
    intro s l u r h he
    rw [searchLoop] at h
    split at h
    · simp only at h
      cases hg : (Coll.back .file f).get file fuel s (UInt32.ofNat (l + (u - l) / 2)) Item.new with
      | none => rw [hg] at h; cases h
      | some g =>
        rw [hg] at h
        simp only at h
        split at h
        · cases h
          exact ⟨rfl, failed_bytes hg he⟩
        · rename_i hp
          rw [not_or] at hp
          split at h
          · cases h
          · split at h
            · cases h; exact absurd rfl he
            · split at h
              · cases h
              · rename_i s' item' hr
                have hn := released_new hg hp.1 hr
                simp only at hn
                subst hn
                split at h
                · split at h
                  · exact ih _ _ _ _ h he
                  · exact ih _ _ _ _ h he
                · exact ih _ _ _ _ h he
    · cases h; exact absurd rfl he

theorem offset_file {rounds id : Nat} : offsetForId file fuel (.back .file f) rounds s id =
    (Record.offsetForId file fuel (.back .file f) rounds s id).map (fun r => (r.1, r.2.1)) := by
  rw [offsetForId, Record.offsetForId, search_file, Record.search]
  by_cases hid : id = 0
  · simp [hid]
  · rw [if_neg hid, if_neg hid]
    cases searchLoop file fuel (.back .file f) (compareProfileId id) rounds s Item.new 0
        (((Coll.back .file f).getCount + (2 ^ 32 - 1)) % 2 ^ 32) with
    | none => rfl
    | some r =>
      obtain ⟨v, s', item', e⟩ := r
      simp only [Option.map_some]
      by_cases hv : v ≥ 0
      · rw [if_pos hv, if_pos hv]
        simp only [Option.bind_eq_bind]
        cases bytesAt s' item' with
        | none => rfl
        | some b =>
          simp only [Option.bind_some]
          cases read32 b 4 with
          | none => rfl
          | some o =>
            simp only [Option.bind_some]
            cases (Coll.back .file f).release fuel s' item' <;> rfl
      · rw [if_neg hv, if_neg hv]
        rfl

/-- The first item of a search is in the middle. -/
theorem search_first {cmp : CStr → UB Int} {rounds u : Nat} {g : Got}
    (hg : (Coll.back .file f).get file fuel s (UInt32.ofNat (u / 2)) Item.new = some g) (he : g.err ≠ none) :
    Record.search file fuel (.back .file f) cmp (rounds + 1) s 0 u = some (0, g.state, g.item, g.err) := by
  rw [Record.search, searchLoop, if_pos (Nat.zero_le _)]
  simp only [Nat.zero_add, Nat.sub_zero]
  rw [hg]
  simp only
  rw [if_pos (Or.inl (file_err hg he))]

theorem offset_failed {rounds id : Nat} (hid : id ≠ 0) {g : Got}
    (hg : (Coll.back .file f).get file fuel s (UInt32.ofNat ((f.count + 4294967295) % 4294967296 / 2)) Item.new = some g)
    (he : g.err ≠ none) : Record.offsetForId file fuel (.back .file f) (rounds + 1) s id = none := by
  rw [Record.offsetForId, if_neg hid]
  generalize hU : (Coll.getCount _ + _) % _ = u
  have hu : u = (f.count + 4294967295) % 4294967296 := by
    rw [← hU]
    simp only [Coll.getCount, Nat.reducePow, Nat.reduceSub]
  clear hU
  rw [← hu] at hg
  rw [search_first hg he]
  simp only
  rw [if_pos (by decide), failed_bytes hg he]
  rfl

/-- C94 fails for the look-up of an offset in a file, with NULL and with a structure alike: no failed get of an offset is ever reported. When
the middle one cannot be got, then the offset of profile 0 is read from NULL or from memory that was freed; and of the calls that return,
none has an exception other than that for the id 0. -/
theorem C94_offset_violated {rounds id : Nat} (hid : id ≠ 0) :
    (∀ r, Record.offsetForId file fuel (.back .file f) rounds s id = some r → r.2.2 = none) ∧
    (∀ g, (Coll.back .file f).get file fuel s (UInt32.ofNat ((f.count + 4294967295) % 4294967296 / 2)) Item.new = some g →
      g.err ≠ none → Record.offsetForId file fuel (.back .file f) (rounds + 1) s id = none ∧
        offsetForId file fuel (.back .file f) (rounds + 1) s id = none) := by
  have same : ∀ rounds, offsetForId file fuel (.back .file f) rounds s id =
      (Record.offsetForId file fuel (.back .file f) rounds s id).map (fun r => (r.1, r.2.1)) := fun _ => offset_file
  refine ⟨fun r h => ?_, fun g hg he => ?_⟩
  · rw [Record.offsetForId, if_neg hid] at h
    generalize ((Coll.back .file f).getCount + (2 ^ 32 - 1)) % 2 ^ 32 = u at h
    split at h
    · cases h
    · rename_i v s' item' e hs
      have hx : e = none := by
        cases e with
        | none => rfl
        | some e =>
          obtain ⟨h1, h2⟩ := search_failed _ _ _ _ _ hs (by simp)
          simp only at h1 h2
          rw [h1, if_pos (by decide), h2] at h
          cases h
      subst hx
      split at h
      · simp only [Option.bind_eq_bind, Option.bind_eq_some_iff] at h
        obtain ⟨x, -, y, -, z, -, h⟩ := h
        cases h; rfl
      · cases h; rfl
  · have h1 := offset_failed (rounds := rounds) hid hg he
    exact ⟨h1, by rw [same, h1]; rfl⟩

/-- C94: the look-up of an offset, and of a profile, by the id of the profile are the same with NULL as with a structure when both are in
the file, whatever fails and for every id. Missing: the other kinds of collection when a get fails. That a get of an offset that fails is undefined
with a structure as well is `C94_offset_violated`. -/
theorem C94_lookup_file_partial {f2 : FileColl} {rounds id : Nat} {t : State} :
    offsetForId file fuel (.back .file f) rounds s id =
      (Record.offsetForId file fuel (.back .file f) rounds s id).map (fun r => (r.1, r.2.1)) ∧
    profileById file fuel (.back .file f) (.back .file f2) rounds s t id item =
      (Record.getByProfileId file fuel (.back .file f) (.back .file f2) rounds s t id item).map (fun r =>
        (r.offsets, r.profile.map fun g => { g with err := none })) := by
  refine ⟨offset_file, ?_⟩
  rw [profileById, Record.getByProfileId, offset_file]
  cases ho : Record.offsetForId file fuel (.back .file f) rounds s id with
  | none => rfl
  | some r =>
    obtain ⟨o, s', e⟩ := r
    simp only [Option.map_some]
    cases o with
    | none => cases e <;> rfl
    | some o =>
      have he : e = none := by
        by_cases hid : id = 0
        · rw [Record.offsetForId, if_pos hid] at ho
          cases ho
        · exact (C94_offset_violated hid).1 _ ho
      subst he
      simp only [quiet_file]
      cases (Coll.back .file f2).get file fuel t (UInt32.ofNat o) item <;> rfl

/-! ## From the part that is not loaded -/

/-- C94: an item that is not in the loaded part of a collection, but in its file, is got with NULL just as with a structure, whether or not this
fails: the same is done to the item, the memory and the handles, and the same pointer is returned. Missing: that it is NULL after a failure, see
`C94_rest_violated`; the rest of a collection in a cache, see `C94_remembered_violated`. -/
theorem C94_rest_partial {m : Mem} (hk : (if m.elementSize = 0 then m.size else m.count) ≤ key.toNat) :
    get .null file fuel (.part m (some (.file, f))) s free key item =
      (get .clear file fuel (.part m (some (.file, f))) s free key item).map fun r => { r with err := none } := by
  rw [get, get, if_neg (Nat.not_lt.2 hk), if_neg (Nat.not_lt.2 hk), backGet, backGet]
  cases hg : fileGet .clear file f free s.heap key item with
  | some r => simp [(fileGet_null hg).1]
  | none =>
    have : fileGet .null file f free s.heap key item = none := by
      rw [fileGet] at hg ⊢
      split at hg
      · rename_i h1
        rw [if_pos h1]
        split at hg
        · cases hg
        · rename_i h2
          rw [if_neg h2, if_neg (by decide)]
          rw [if_neg (by decide)] at hg
          simpa using hg
      · rename_i h1
        rw [if_neg h1]
        simpa using hg
    simp [this]

/-- C94 fails for an item that is not in the loaded part and cannot be read from the file, because that is too short: the pointer returned is not
NULL, but to memory that has been freed, and without an exception structure there is no sign of it. -/
theorem C94_rest_violated {m : Mem} (hk : (if m.elementSize = 0 then m.size else m.count) ≤ key.toNat) (hf : f.read = .fixed)
    (hc : key.toNat < f.count) (ho : key.toNat * f.elementSize % 4294967296 < f.size)
    (hs : slice file (f.offset + key.toNat * f.elementSize % 4294967296) f.elementSize = none) (h0 : free ≠ 0) :
    ∃ r i, get .null file fuel (.part m (some (.file, f))) s free key Item.new = some r ∧ r.err = none ∧ r.ptr = some (.block i) ∧
      r.state.heap.block i = none := by
  have h1 : inRange f key = true := by
    simp only [inRange, hf, decide_eq_true_eq]
    omega
  have h2 : ∃ h it, getFile file f s.heap key Item.new = some (h, it, none, some .fileReadFail) ∧
      it.ptr = some (.block s.heap.next) ∧ h.block s.heap.next = none := by
    simp only [getFile, readItem, hf, readFixed]
    rw [if_pos hc, if_pos (by omega)]
    simp [dataMalloc, Item.new, Heap.malloc, hs, Heap.free]
  obtain ⟨h, it, h3, h4, h5⟩ := h2
  refine ⟨⟨{ s with heap := h }, free, it, it.ptr, none⟩, s.heap.next, ?_, rfl, h4, h5⟩
  rw [get, if_neg (Nat.not_lt.2 hk), backGet, fileGet, h1, h3]
  simp [hide, h0]

/-! ## The conditions are met -/

/-- With a table of three offsets of which the file holds only the first byte of the second: its integer is 0 with NULL, and
the look-up of any profile but the first is undefined, with NULL as with a structure; in the whole file profile 9 is found. -/
example :
    ((newState 1).bind fun s => (integer32 (valueFile.take 9) 12 (offsetsIn ⟨0, 0, 0⟩) s 1).map fun r => r.1) = some 0 ∧
    ((newState 1).bind fun s => ((offsetsIn ⟨0, 0, 0⟩).get (valueFile.take 9) 12 s 1 Item.new).map fun g => g.err) =
      some (some .fileReadFail) ∧
    ((newState 1).map fun s => (Record.offsetForId (valueFile.take 9) 12 (offsetsIn ⟨0, 0, 0⟩) 4 s 9).isSome) = some false ∧
    ((newState 1).map fun s => (offsetForId (valueFile.take 9) 12 (offsetsIn ⟨0, 0, 0⟩) 4 s 9).isSome) = some false ∧
    ((newState 1).map fun s => (offsetForId valueFile 12 (offsetsIn ⟨0, 0, 0⟩) 4 s 9).isSome) = some true := by
  refine ⟨?_, ?_, ?_, ?_, ?_⟩ <;> decide +kernel

/-- With the first value loaded and the file cut off after it: the get of the second with NULL, and whether its memory is in use. -/
example :
    ((newState 1).bind fun s => (get .null (valuesFile.take 35) 12 (valuesIn ⟨1, 0, 0⟩) s 1 1 Item.new).map fun r =>
      (r.ptr == some (.block 0), r.state.heap.block 0, r.err)) = some (true, none, none) ∧
    ((newState 1).bind fun s => (get .clear (valuesFile.take 35) 12 (valuesIn ⟨1, 0, 0⟩) s 1 1 Item.new).map fun r =>
      (r.ptr == some (.block 0), r.state.heap.block 0, r.err)) = some (true, none, some (.collection .fileReadFail)) := by
  refine ⟨?_, ?_⟩ <;> decide +kernel

end Verif.Quiet
