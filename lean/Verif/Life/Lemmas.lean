import Verif.Life.Model

/-! # Lemmas on the memory of collections -/

namespace Verif.Life

/-- The memory `s` is that of `L` with the blocks `bs` added, all from `n` on; allocation of structures succeeds, that of
caches if `C`, and everything if `A`. -/
structure Own (L : Nat → Bool) (n : Nat) (C A : Prop) (bs : List Nat) (s : St) : Prop where
  nodup : bs.Nodup
  range : ∀ b ∈ bs, n ≤ b ∧ b < s.next
  le : n ≤ s.next
  live : ∀ j, s.live j = (L j || decide (j ∈ bs))
  struct : ∀ b ∈ s.results .struct, b = true
  cache : C → ∀ b ∈ s.results .cache, b = true
  all : A → ∀ k, ∀ b ∈ s.results k, b = true

variable {L : Nat → Bool} {n : Nat} {C A : Prop}

theorem Own.perm {bs cs : List Nat} {s : St} (h : Own L n C A bs s) (p : bs.Perm cs) : Own L n C A cs s := by
  refine ⟨p.nodup_iff.mp h.nodup, fun b hb => h.range b (p.mem_iff.mpr hb), h.le, fun j => ?_, h.struct, h.cache, h.all⟩
  rw [h.live j]
  simp only [p.mem_iff]

theorem Own.malloc {bs : List Nat} {s : St} (h : Own L n C A bs s) : Own L n C A (s.malloc.1 :: bs) s.malloc.2 := by
  refine ⟨?_, ?_, ?_, ?_, h.struct, h.cache, h.all⟩
  · refine List.nodup_cons.mpr ⟨fun hm => ?_, h.nodup⟩
    have := (h.range _ hm).2
    simp [St.malloc] at this
  · intro b hb
    rcases List.mem_cons.mp hb with e | hb
    · subst e
      exact ⟨h.le, Nat.lt_succ_self _⟩
    · have := h.range b hb
      exact ⟨this.1, Nat.lt_succ_of_lt this.2⟩
  · exact Nat.le_succ_of_le h.le
  · intro j
    simp only [St.malloc, h.live j, List.mem_cons, Bool.decide_or]
    cases L j <;> cases decide (j = s.next) <;> simp

theorem Own.ask {bs : List Nat} {s : St} (h : Own L n C A bs s) (k : Kind) : Own L n C A bs (s.ask k).2 := by
  refine ⟨h.nodup, h.range, h.le, h.live, ?_, ?_, ?_⟩
  · intro b hb
    simp only [St.ask] at hb
    split at hb
    · rename_i e; subst e; exact h.struct b (List.mem_of_mem_tail hb)
    · exact h.struct b hb
  · intro hC b hb
    simp only [St.ask] at hb
    split at hb
    · rename_i e; subst e; exact h.cache hC b (List.mem_of_mem_tail hb)
    · exact h.cache hC b hb
  · intro hA j b hb
    simp only [St.ask] at hb
    split at hb
    · rename_i e; subst e; exact h.all hA _ b (List.mem_of_mem_tail hb)
    · exact h.all hA _ b hb

theorem ask_true {s : St} {k : Kind} (h : ∀ b ∈ s.results k, b = true) : (s.ask k).1 = true := by
  simp only [St.ask]
  cases e : s.results k with
  | nil => rfl
  | cons b bs => exact h b (by rw [e]; exact List.mem_cons_self ..)

theorem Own.free {bs : List Nat} {s : St} (h : Own L n C A bs s) (hL : ∀ j, n ≤ j → L j = false) {b : Nat}
    (hb : b ∈ bs) : ∃ s', s.free b = some s' ∧ Own L n C A (bs.erase b) s' := by
  have hlive : s.live b = true := by rw [h.live b]; simp [hb]
  refine ⟨{ s with live := fun j => j ≠ b && s.live j }, by rw [St.free, if_pos hlive],
    ⟨h.nodup.erase b, ?_, h.le, ?_, h.struct, h.cache, h.all⟩⟩
  · intro c hc
    exact h.range c (List.mem_of_mem_erase hc)
  · intro j
    simp only [h.live j]
    by_cases e : j = b
    · subst e
      simp [hL j (h.range j hb).1, h.nodup.not_mem_erase]
    · simp [e, List.mem_erase_of_ne e]

theorem Own.free_cons {bs : List Nat} {s : St} {b : Nat} (h : Own L n C A (b :: bs) s) (hL : ∀ j, n ≤ j → L j = false) :
    ∃ s', s.free b = some s' ∧ Own L n C A bs s' := by
  have := h.free hL (List.mem_cons_self ..)
  rwa [List.erase_cons_head] at this

/-- The blocks of a collection. -/
def FileColl.blocks (f : FileColl) : List Nat := [f.state, f.self]

def Back.blocks : Back → List Nat
  | .file f => f.blocks
  | .cache self state source table nodes => source.blocks ++ (nodes ++ (table :: [state, self]))

def Coll.blocks : Coll → List Nat
  | .back b => b.blocks
  | .memory self state toFree next =>
    ((next.map Back.blocks).getD []) ++ (toFree.toList ++ [state, self])

theorem freeCollection_own {bs : List Nat} {s : St} {self state : Nat} (h : Own L n C A (state :: self :: bs) s)
    (hL : ∀ j, n ≤ j → L j = false) : ∃ s', freeCollection s self state = some s' ∧ Own L n C A bs s' := by
  obtain ⟨s1, e1, h1⟩ := h.free_cons hL
  obtain ⟨s2, e2, h2⟩ := h1.free_cons hL
  exact ⟨s2, by simp [freeCollection, e1, e2], h2⟩

theorem fileFree_own {bs : List Nat} {s : St} {f : FileColl} (h : Own L n C A (f.blocks ++ bs) s)
    (hL : ∀ j, n ≤ j → L j = false) : ∃ s', f.free s = some s' ∧ Own L n C A bs s' :=
  freeCollection_own h hL

theorem freeNodes_own {bs : List Nat} (nodes : List Nat) : ∀ {s : St}, Own L n C A (nodes ++ bs) s →
    (∀ j, n ≤ j → L j = false) → ∃ s', freeNodes s nodes = some s' ∧ Own L n C A bs s' := by
  induction nodes with
  | nil => intro s h _; exact ⟨s, rfl, h⟩
  | cons b ns ih =>
    intro s h hL
    obtain ⟨s1, e1, h1⟩ := h.free_cons hL
    obtain ⟨s2, e2, h2⟩ := ih h1 hL
    exact ⟨s2, by simp [freeNodes, e1, e2], h2⟩

theorem backFree_own {bs : List Nat} {s : St} (b : Back) (h : Own L n C A (b.blocks ++ bs) s)
    (hL : ∀ j, n ≤ j → L j = false) : ∃ s', b.free s = some s' ∧ Own L n C A bs s' := by
  cases b with
  | file f => exact fileFree_own h hL
  | cache self state source table nodes =>
    simp only [Back.blocks, List.append_assoc] at h
    obtain ⟨s1, e1, h1⟩ := fileFree_own h hL
    obtain ⟨s2, e2, h2⟩ := freeNodes_own nodes h1 hL
    obtain ⟨s3, e3, h3⟩ := h2.free_cons hL
    obtain ⟨s4, e4, h4⟩ := freeCollection_own h3 hL
    exact ⟨s4, by simp [Back.free, e1, e2, e3, e4], h4⟩

theorem collFree_own {bs : List Nat} {s : St} (c : Coll) (h : Own L n C A (c.blocks ++ bs) s)
    (hL : ∀ j, n ≤ j → L j = false) : ∃ s', c.free s = some s' ∧ Own L n C A bs s' := by
  cases c with
  | back b => exact backFree_own b h hL
  | memory self state toFree next =>
    simp only [Coll.blocks, List.append_assoc] at h
    have h1 : ∃ s1, freeNext s next = some s1 ∧
        Own L n C A (toFree.toList ++ ([state, self] ++ bs)) s1 := by
      cases next with
      | none => exact ⟨s, rfl, h⟩
      | some b => exact backFree_own b h hL
    obtain ⟨s1, e1, h1⟩ := h1
    have h2 : ∃ s2, freeBuffer s1 toFree = some s2 ∧
        Own L n C A ([state, self] ++ bs) s2 := by
      cases toFree with
      | none => exact ⟨s1, rfl, h1⟩
      | some m => exact h1.free_cons hL
    obtain ⟨s2, e2, h2⟩ := h2
    obtain ⟨s3, e3, h3⟩ := freeCollection_own h2 hL
    refine ⟨s3, ?_, h3⟩
    simp [Coll.free, freeMemoryCollection, e1, e2, e3]

theorem createCollection_own {bs : List Nat} {s : St} (h : Own L n C A bs s) :
    ∃ s' c st, createCollection s = some (s', some (c, st)) ∧ Own L n C A (st :: c :: bs) s' := by
  have t1 : (s.ask .struct).1 = true := ask_true h.struct
  have h1 := (h.ask .struct).malloc
  have t2 : ((s.ask .struct).2.malloc.2.ask .struct).1 = true := ask_true h1.struct
  have h2 := (h1.ask .struct).malloc
  refine ⟨_, _, _, ?_, h2⟩
  unfold createCollection
  cases e : s.ask .struct with | mk a s1 =>
  rw [e] at t1 t2
  subst t1
  simp only
  cases e2 : s1.malloc.2.ask .struct with | mk a2 s2 =>
  simp only at t2
  rw [e2] at t2
  subst t2
  simp [e, e2]

theorem createFromFile_own {bs : List Nat} {s : St} (h : Own L n C A bs s) (hL : ∀ j, n ≤ j → L j = false) :
    ∃ s' r, createFromFile s = some (s', r) ∧ Own L n C A ((r.map FileColl.blocks).getD [] ++ bs) s' ∧
      (A → r.isSome) := by
  obtain ⟨s1, c, st, e1, h1⟩ := createCollection_own h
  have h2 := h1.ask .io
  have hA : A → (s1.ask .io).1 = true := fun a => ask_true (h1.all a .io)
  cases e : s1.ask .io with | mk ok s2 =>
  rw [e] at h2 hA
  cases ok with
  | true => exact ⟨s2, some ⟨c, st⟩, by simp [createFromFile, e1, e], h2, fun _ => rfl⟩
  | false =>
    obtain ⟨s3, e3, h3⟩ := freeCollection_own h2 hL
    exact ⟨s3, none, by simp [createFromFile, e1, e, e3], h3, fun a => absurd (hA a) (by simp)⟩

theorem abandon_own {bs : List Nat} {s : St} {self state : Nat} {toFree : Option Nat} {source : FileColl}
    (h : Own L n C A (toFree.toList ++ (state :: self :: (source.blocks ++ bs))) s) (hL : ∀ j, n ≤ j → L j = false) :
    ∃ s', abandon s self state toFree source = some (s', none) ∧ Own L n C A bs s' := by
  have h0 : Own L n C A ((Coll.memory self state toFree none).blocks ++ (source.blocks ++ bs)) s := by
    simpa [Coll.blocks] using h
  obtain ⟨s1, e1, h1⟩ := collFree_own _ h0 hL
  obtain ⟨s2, e2, h2⟩ := fileFree_own h1 hL
  simp only [Coll.free] at e1
  exact ⟨s2, by simp [abandon, e1, e2], h2⟩

theorem readPartial_own {bs : List Nat} {s : St} {self state m : Nat} {source : FileColl}
    (h : Own L n C A (m :: state :: self :: (source.blocks ++ bs)) s) (hL : ∀ j, n ≤ j → L j = false) :
    ∃ s' r, readPartial s self state m source = some (s', r) ∧ Own L n C A ((r.map Coll.blocks).getD [] ++ bs) s' ∧
      (r = none ∨ r = some (.memory self state (some m) none)) ∧ (A → r.isSome) := by
  have h1 := h.ask .io
  have a1 : A → (s.ask .io).1 = true := fun a => ask_true (h.all a .io)
  unfold readPartial
  cases e1 : s.ask .io with | mk ok1 s1 =>
  rw [e1] at h1 a1
  cases ok1 with
  | false =>
    obtain ⟨s', e', h'⟩ := abandon_own (toFree := some m) h1 hL
    exact ⟨s', none, e', h', Or.inl rfl, fun a => absurd (a1 a) (by simp)⟩
  | true =>
    have h2 := h1.ask .io
    have a2 : A → (s1.ask .io).1 = true := fun a => ask_true (h1.all a .io)
    simp only
    cases e2 : s1.ask .io with | mk ok2 s2 =>
    rw [e2] at h2 a2
    cases ok2 with
    | false =>
      obtain ⟨s', e', h'⟩ := abandon_own (toFree := some m) h2 hL
      exact ⟨s', none, e', h', Or.inl rfl, fun a => absurd (a2 a) (by simp)⟩
    | true =>
      have h3 := h2.ask .io
      have a3 : A → (s2.ask .io).1 = true := fun a => ask_true (h2.all a .io)
      simp only
      cases e3 : s2.ask .io with | mk ok3 s3 =>
      rw [e3] at h3 a3
      cases ok3 with
      | false =>
        obtain ⟨s', e', h'⟩ := abandon_own (toFree := some m) h3 hL
        exact ⟨s', none, e', h', Or.inl rfl, fun a => absurd (a3 a) (by simp)⟩
      | true =>
        have h4 : Own L n C A (source.blocks ++ (m :: state :: self :: bs)) s3 := by
          refine h3.perm ?_
          have : (m :: state :: self :: (source.blocks ++ bs)) = [m, state, self] ++ source.blocks ++ bs := by simp
          rw [this]
          have : source.blocks ++ (m :: state :: self :: bs) = source.blocks ++ [m, state, self] ++ bs := by simp
          rw [this]
          exact List.Perm.append_right _ List.perm_append_comm
        obtain ⟨s', e', h'⟩ := fileFree_own h4 hL
        exact ⟨s', _, by simp only [e']; rfl, by simpa [Coll.blocks] using h', Or.inr rfl, fun _ => rfl⟩

theorem ask_head {s : St} {k : Kind} (h : (s.results k).headD true = true) : (s.ask k).1 = true := h

theorem createCollection_results {s s' : St} {r : Option (Nat × Nat)} (h : createCollection s = some (s', r)) (k : Kind)
    (hk : k ≠ .struct) : s'.results k = s.results k := by
  unfold createCollection at h
  simp only [St.ask, St.malloc, St.free] at h
  split at h
  · rename_i e
    simp only [Prod.mk.injEq] at e
    obtain ⟨_, e⟩ := e
    cases h
    subst e
    simp [hk]
  · rename_i e
    simp only [Prod.mk.injEq] at e
    obtain ⟨_, e⟩ := e
    subst e
    split at h
    · rename_i e2
      simp only [Prod.mk.injEq] at e2
      obtain ⟨_, e2⟩ := e2
      subst e2
      simp at h
      obtain ⟨h, _⟩ := h
      subst h
      simp [hk]
    · rename_i e2
      simp only [Prod.mk.injEq] at e2
      obtain ⟨_, e2⟩ := e2
      subst e2
      cases h
      simp [hk]

/-- With the first `fseek` successful. -/
theorem createFromFile_some {bs : List Nat} {s : St} (h : Own L n C A bs s) (hio : (s.results .io).headD true = true) :
    ∃ s' f, createFromFile s = some (s', some f) ∧ Own L n C A (f.blocks ++ bs) s' := by
  obtain ⟨s1, c, st, e1, h1⟩ := createCollection_own h
  have hr := createCollection_results e1 .io (by decide)
  have h2 := h1.ask .io
  have ha : (s1.ask .io).1 = true := ask_head (by rw [hr]; exact hio)
  cases e : s1.ask .io with | mk ok s2 =>
  rw [e] at h2 ha
  simp only at ha
  subst ha
  exact ⟨s2, ⟨c, st⟩, by simp [createFromFile, e1, e], h2⟩

theorem createFromFilePartial_own {s : St} (v : Bool) (h : Own L n C A [] s) (hL : ∀ j, n ≤ j → L j = false)
    (hio : (s.results .io).headD true = true) :
    ∃ s' r, createFromFilePartial s v = some (s', r) ∧ Own L n C A ((r.map Coll.blocks).getD []) s' ∧
      (r = none ∨ ∃ c st m, r = some (.memory c st (some m) none)) ∧ (A → r.isSome) := by
  obtain ⟨s1, f, e1, h1⟩ := createFromFile_some h hio
  obtain ⟨s2, c, st, e2, h2⟩ := createCollection_own h1
  have h3 : Own L n C A (st :: c :: (f.blocks ++ [])) (if v then s2.ask .io else (true, s2)).2 := by
    cases v
    · exact h2
    · exact h2.ask .io
  have a3 : A → (if v then s2.ask .io else (true, s2)).1 = true := by
    intro a
    cases v
    · rfl
    · exact ask_true (h2.all a .io)
  unfold createFromFilePartial
  simp only [e1, e2, bind, Option.bind]
  cases e3 : (if v then s2.ask .io else (true, s2)) with | mk sized s3 =>
  rw [e3] at h3 a3
  cases sized with
  | false =>
    obtain ⟨s', e', h'⟩ := abandon_own (toFree := none) h3 hL
    exact ⟨s', none, by simpa using e', h', Or.inl rfl, fun a => absurd (a3 a) (by simp)⟩
  | true =>
    have h4 := h3.ask .buffer
    have a4 : A → (s3.ask .buffer).1 = true := fun a => ask_true (h3.all a .buffer)
    simp only [if_true]
    cases e4 : s3.ask .buffer with | mk ok s4 =>
    rw [e4] at h4 a4
    cases ok with
    | false =>
      obtain ⟨s', e', h'⟩ := abandon_own (toFree := none) h4 hL
      exact ⟨s', none, by simpa using e', h', Or.inl rfl, fun a => absurd (a4 a) (by simp)⟩
    | true =>
      obtain ⟨s', r, e', h', hr, ha⟩ := readPartial_own h4.malloc hL
      refine ⟨s', r, e', by simpa using h', ?_, ha⟩
      rcases hr with hr | hr
      · exact Or.inl hr
      · exact Or.inr ⟨_, _, _, hr⟩

/-- The cache can be made. -/
def Config.Valid (cfg : Config) : Prop := cfg.concurrency ≠ 0 ∧ cfg.concurrency ≤ cfg.capacity / cfg.concurrency

theorem cacheCreate_own {bs : List Nat} {s : St} {cfg : Config} (h : Own L n C A bs s) (hC : C) (hv : cfg.Valid) :
    ∃ s' t, cacheCreate s cfg = (s', some t) ∧ Own L n C A (t :: bs) s' := by
  have h1 := h.ask .cache
  have a1 : (s.ask .cache).1 = true := ask_true (h.cache hC)
  unfold cacheCreate
  rw [if_neg (by have := hv.1; have := hv.2; omega)]
  cases e : s.ask .cache with | mk ok s1 =>
  rw [e] at h1 a1
  simp only at a1
  subst a1
  exact ⟨_, _, rfl, h1.malloc⟩

theorem createFromFileCached_own {bs : List Nat} {s : St} {cfg : Config} (h : Own L n C A bs s)
    (hL : ∀ j, n ≤ j → L j = false) (hC : C) (hv : cfg.Valid) :
    ∃ s' r, createFromFileCached s cfg = some (s', r) ∧ Own L n C A ((r.map Back.blocks).getD [] ++ bs) s' ∧
      (A → r.isSome) := by
  obtain ⟨s1, c, st, e1, h1⟩ := createCollection_own h
  obtain ⟨s2, r, e2, h2, a2⟩ := createFromFile_own h1 hL
  unfold createFromFileCached
  simp only [e1, e2, bind, Option.bind]
  cases r with
  | none =>
    obtain ⟨s', e', h'⟩ := freeCollection_own h2 hL
    exact ⟨s', none, by simp [e'], h', fun a => absurd (a2 a) (by simp)⟩
  | some f =>
    obtain ⟨s3, t, e3, h3⟩ := cacheCreate_own h2 hC hv
    refine ⟨s3, some (.cache c st f t []), by simp [e3], ?_, fun _ => rfl⟩
    refine h3.perm ?_
    simp only [Option.map_some, Option.getD_some, Back.blocks, List.nil_append, List.append_assoc, List.cons_append]
    exact List.perm_middle.symm

theorem createFromFileSecond_own {bs : List Nat} {s : St} {cfg : Config} (h : Own L n C A bs s)
    (hL : ∀ j, n ≤ j → L j = false) (hC : cfg.capacity > 0 ∧ cfg.concurrency > 0 → C ∧ cfg.Valid) :
    ∃ s' r, createFromFileSecond s cfg = some (s', r) ∧ Own L n C A ((r.map Back.blocks).getD [] ++ bs) s' ∧
      (A → r.isSome) := by
  have h1 := h.ask .io
  have a1 : A → (s.ask .io).1 = true := fun a => ask_true (h.all a .io)
  unfold createFromFileSecond
  cases e : s.ask .io with | mk ok s1 =>
  rw [e] at h1 a1
  cases ok with
  | false => exact ⟨s1, none, rfl, h1, fun a => absurd (a1 a) (by simp)⟩
  | true =>
    simp only
    split
    · rename_i hcfg
      exact createFromFileCached_own h1 hL (hC hcfg).1 (hC hcfg).2
    · obtain ⟨s2, r, e2, h2, a2⟩ := createFromFile_own h1 hL
      refine ⟨s2, r.map .file, by simp [e2], ?_, by simpa using a2⟩
      cases r <;> exact h2

theorem create_own {s : St} {cfg : Config} (v more : Bool) (h : Own L n C A [] s) (hL : ∀ j, n ≤ j → L j = false)
    (hC : cfg.capacity > 0 ∧ cfg.concurrency > 0 → C ∧ cfg.Valid)
    (hio : cfg.loaded > 0 → (s.results .io).headD true = true) :
    ∃ s' r, create s cfg v more = some (s', r) ∧ Own L n C A ((r.map Coll.blocks).getD []) s' ∧ (A → r.isSome) := by
  unfold create
  split
  · rename_i hl
    obtain ⟨s1, r, e1, h1, hr, a1⟩ := createFromFilePartial_own v h hL (hio hl)
    simp only [e1, bind, Option.bind]
    rcases hr with hr | ⟨c, st, m, hr⟩
    · subst hr
      exact ⟨s1, none, rfl, h1, a1⟩
    · subst hr
      simp only
      cases more with
      | false => exact ⟨s1, _, rfl, h1, a1⟩
      | true =>
        obtain ⟨s2, r2, e2, h2, a2⟩ := createFromFileSecond_own h1 hL hC
        simp only [if_true, addSecond, e2, bind, Option.bind]
        cases r2 with
        | some b => exact ⟨s2, _, rfl, by simpa [Coll.blocks] using h2, fun _ => rfl⟩
        | none =>
          obtain ⟨s3, e3, h3⟩ := collFree_own (bs := []) (.memory c st (some m) none) (by simpa using h2) hL
          simp only [Coll.free] at e3
          exact ⟨s3, none, by simp [e3], h3, fun a => absurd (a2 a) (by simp)⟩
  · obtain ⟨s1, r, e1, h1, a1⟩ := createFromFileSecond_own h hL hC
    refine ⟨s1, r.map .back, by simp [e1], ?_, by simpa using a1⟩
    cases r <;> simpa [Coll.blocks] using h1

theorem backLoad_own {bs : List Nat} {s : St} (b : Back) (h : Own L n C A (b.blocks ++ bs) s) :
    Own L n C A ((b.load s).2.blocks ++ bs) (b.load s).1 := by
  cases b with
  | file f => exact h
  | cache self state source table nodes =>
    refine h.malloc.perm ?_
    simp only [Back.load, Back.blocks, List.append_assoc, List.cons_append]
    exact List.perm_middle.symm

theorem load_own {s : St} (c : Coll) (h : Own L n C A c.blocks s) : Own L n C A (c.load s).2.blocks (c.load s).1 := by
  cases c with
  | back b => simpa [Coll.load, Coll.blocks] using backLoad_own (bs := []) b (by simpa [Coll.blocks] using h)
  | memory self state toFree next =>
    cases next with
    | none => exact h
    | some b =>
      have := backLoad_own (bs := toFree.toList ++ [state, self]) b (by simpa [Coll.blocks] using h)
      simpa [Coll.load, Coll.blocks] using this

theorem loads_own (k : Nat) : ∀ {s : St} (c : Coll), Own L n C A c.blocks s →
    Own L n C A (Coll.loads k s c).2.blocks (Coll.loads k s c).1 := by
  induction k with
  | zero => intro s c h; exact h
  | succ k ih => intro s c h; exact ih _ (load_own c h)

end Verif.Life
