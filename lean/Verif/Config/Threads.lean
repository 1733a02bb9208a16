import Verif.Config.Props

/-! # C111: configurations queried in several threads -/

namespace Verif.Config.Threads
open Verif Verif.Properties Verif.Config

/-! ## Model -/

/-- Where a thread is in `getProperties` (RequiredPropertiesConfig.cpp:91-108) or `containsProperty` (110-131) of a
configuration made from a text, with the tokens it was given so far. -/
inductive Pc where
  | before
  /-- In the loop, the next call is `strtok(NULL, ",")`. -/
  | going (got : List CStr)
  /-- Returned; `found` is what `containsProperty` returned. -/
  | done (got : List CStr) (found : Bool)
deriving DecidableEq, Repr

/-- A thread with a configuration of its own: its text and its query, which is `containsProperty` of a name or
`getProperties` (`none`). -/
structure Thread where
  text : CStr
  query : Option CStr
  pc : Pc
deriving DecidableEq, Repr

/-- `saved` is the text from where `strtok(NULL, ",")` goes on. The C library keeps it once for all threads (C11
7.24.5.8: `strtok` is not required to avoid data races); a call of `strtok` is taken to happen at once. Each thread has
its own configuration and makes one query, so what `strtok` writes to the text (C41) is not seen again and not
modelled. -/
structure State where
  saved : CStr
  threads : List Thread
deriving DecidableEq, Repr

/-- `_stricmp(property, current) == 0`, RequiredPropertiesConfig.cpp:124. -/
def hit (query : Option CStr) (token : CStr) : Bool :=
  match query with
  | none => false
  | some q => decide (stricmp q token = 0)

/-- One round of the loop, from the call of `strtok` on `b` (RequiredPropertiesConfig.cpp:101, 104, 122, 127): the
thread afterwards and the saved text. -/
def round (x : Thread) (got : List CStr) (b : CStr) : Thread × CStr :=
  match strtok b with
  | none => ({ x with pc := .done got false }, [])
  | some (token, _, r) =>
    if hit x.query token then ({ x with pc := .done (got ++ [token]) true }, r)
    else ({ x with pc := .going (got ++ [token]) }, r)

/-- The next call of `strtok` of a thread. -/
def next (x : Thread) (saved : CStr) : Thread × CStr :=
  match x.pc with
  | .before => round x [] x.text
  | .going got => round x got saved
  | .done _ _ => (x, saved)

/-- A step of thread `t`. -/
def step (s : State) (t : Nat) : State :=
  match s.threads[t]? with
  | none => s
  | some x => ⟨(next x s.saved).2, s.threads.set t (next x s.saved).1⟩

/-- A history: which thread is next. -/
def run (s : State) : List Nat → State
  | [] => s
  | t :: ts => run (step s t) ts

/-- Threads about to make these queries of configurations with these texts. -/
def init (queries : List (CStr × Option CStr)) : State := ⟨[], queries.map fun x => ⟨x.1, x.2, .before⟩⟩

/-! ## Specification -/

/-- What the query must give: the names of the thread's own text. -/
def Right (x : Thread) : Prop :=
  ∀ got found, x.pc = .done got found →
    match x.query with
    | none => got = names x.text
    | some q => found = true ↔ ∃ n ∈ names x.text, Same q n

/-- A thread is in its loop. -/
def Going (x : Thread) : Prop := ∃ got, x.pc = .going got

/-- The queries of the history do not overlap: each starts when no other is in its loop. -/
def OneByOne (s : State) : List Nat → Prop
  | [] => True
  | t :: ts => ((∃ x, s.threads[t]? = some x ∧ x.pc = .before) → ∀ x ∈ s.threads, ¬ Going x) ∧ OneByOne (step s t) ts

/-! ## Lemmas -/

theorem tok_spec (b : CStr) (hz : (0 : UInt8) ∉ b) :
    (strtok b = none → names b = []) ∧
    ∀ t w r, strtok b = some (t, w, r) → names b = t :: names r ∧ (0 : UInt8) ∉ r := by
  rcases cases_text b hz with h | ⟨p, t, h, rfl⟩ | ⟨p, t, r, h, rfl⟩
  · have hn : names b = [] := by simpa [names, fields] using names_commas (t := []) h
    have := strtok_none (r := []) h (by simp)
    rw [List.append_nil] at this
    exact ⟨fun _ => hn, by simp [this]⟩
  · have hn : names (p ++ t) = [t] := by rw [names_commas h.commas, names_last (token_no_comma h) h.some]
    have := strtok_token h (r := []) (by simp)
    simp only [List.append_nil] at this
    refine ⟨by simp [this], ?_⟩
    intro t' w r' he
    simp only [this, Option.some.injEq, Prod.mk.injEq] at he
    obtain ⟨rfl, -, rfl⟩ := he
    exact ⟨by rw [hn]; simp [names, fields], by simp⟩
  · have hn : names (p ++ t ++ 44 :: r) = t :: names r := by
      rw [List.append_assoc, names_commas h.commas, names_token (token_no_comma h) h.some]
    have := strtok_token h (r := 44 :: r) (by simp)
    simp only at this
    refine ⟨by rw [this]; simp, ?_⟩
    intro t' w r' he
    simp only [this, Option.some.injEq, Prod.mk.injEq] at he
    obtain ⟨rfl, -, rfl⟩ := he
    exact ⟨hn, fun hm => hz (by simp [hm])⟩

/-- A thread in its loop, going on with the saved text. -/
def Good (x : Thread) (saved : CStr) : Prop :=
  (∀ got, x.pc = .going got →
    (0 : UInt8) ∉ saved ∧ names x.text = got ++ names saved ∧ ∀ n ∈ got, hit x.query n = false) ∧
  ∀ got found, x.pc = .done got found →
    (found = false → got = names x.text ∧ ∀ n ∈ got, hit x.query n = false) ∧
    (found = true → ∃ n ∈ names x.text, hit x.query n = true)

theorem round_good (x : Thread) (got : List CStr) (b : CStr) (hz : (0 : UInt8) ∉ b)
    (hn : names x.text = got ++ names b) (hm : ∀ n ∈ got, hit x.query n = false) :
    Good (round x got b).1 (round x got b).2 ∧ (round x got b).1.text = x.text ∧
      (round x got b).1.query = x.query := by
  obtain ⟨h1, h2⟩ := tok_spec b hz
  unfold round
  rcases hs : strtok b with _ | ⟨t, w, r⟩
  · refine ⟨⟨by simp, ?_⟩, rfl, rfl⟩
    intro g f hgf
    simp only [Pc.done.injEq] at hgf
    obtain ⟨rfl, rfl⟩ := hgf
    refine ⟨fun _ => ⟨?_, hm⟩, by simp⟩
    simp only
    rw [hn, h1 hs, List.append_nil]
  · obtain ⟨h3, h4⟩ := h2 t w r hs
    simp only
    split
    · rename_i hh
      refine ⟨⟨by simp, ?_⟩, rfl, rfl⟩
      intro g f hgf
      simp only [Pc.done.injEq] at hgf
      obtain ⟨rfl, rfl⟩ := hgf
      refine ⟨by simp, fun _ => ⟨t, ?_, hh⟩⟩
      simp only
      rw [hn, h3]
      simp
    · rename_i hh
      refine ⟨⟨?_, by simp⟩, rfl, rfl⟩
      intro g hg
      simp only [Pc.going.injEq] at hg
      subst hg
      refine ⟨h4, ?_, ?_⟩
      · simp only
        rw [hn, h3]
        simp
      · intro n hn'
        rcases List.mem_append.mp hn' with hn' | hn'
        · exact hm n hn'
        · simp only [List.mem_singleton] at hn'
          subst hn'
          simpa using hh

theorem next_good (x : Thread) (saved : CStr) (hz : (0 : UInt8) ∉ x.text) (h : Good x saved) :
    Good (next x saved).1 (next x saved).2 ∧ (next x saved).1.text = x.text ∧
      (next x saved).1.query = x.query := by
  unfold next
  rcases hp : x.pc with _ | got | ⟨got, found⟩
  · exact round_good x [] x.text hz (by simp) (by simp)
  · obtain ⟨h1, h2, h3⟩ := h.1 got hp
    exact round_good x got saved h1 h2 h3
  · exact ⟨h, rfl, rfl⟩

/-- A thread out of its loop does not depend on the saved text. -/
theorem good_saved {x : Thread} {saved saved' : CStr} (h : Good x saved) (hg : ¬ Going x) : Good x saved' :=
  ⟨fun got hp => absurd ⟨got, hp⟩ hg, h.2⟩

/-- All are right so far, and at most one is in its loop. -/
def One (s : State) : Prop :=
  (∀ x ∈ s.threads, (0 : UInt8) ∉ x.text ∧ Good x s.saved) ∧
  ∀ (t u : Nat) (x y : Thread), s.threads[t]? = some x → s.threads[u]? = some y → Going x → Going y → t = u

theorem step_one {s : State} (h : One s) (t : Nat)
    (ho : (∃ x, s.threads[t]? = some x ∧ x.pc = .before) → ∀ x ∈ s.threads, ¬ Going x) : One (step s t) := by
  unfold step
  rcases hx : s.threads[t]? with _ | x
  · exact h
  · have hmem := List.mem_of_getElem? hx
    have hlt : t < s.threads.length := (List.getElem?_eq_some_iff.mp hx).1
    obtain ⟨hz, hg⟩ := h.1 x hmem
    obtain ⟨h1, h2, h3⟩ := next_good x s.saved hz hg
    by_cases hd : ∃ got found, x.pc = .done got found
    · obtain ⟨got, found, hd⟩ := hd
      have e : next x s.saved = (x, s.saved) := by simp only [next, hd]
      simp only [e]
      have : s.threads.set t x = s.threads := by
        obtain ⟨h5, h6⟩ := List.getElem?_eq_some_iff.mp hx
        rw [← h6, List.set_getElem_self]
      rw [this]
      exact h
    · -- no other thread is in its loop
      have hothers : ∀ u y, u ≠ t → s.threads[u]? = some y → ¬ Going y := by
        intro u y hu hy hgy
        rcases hp : x.pc with _ | got | ⟨got, found⟩
        · exact ho ⟨x, hx, hp⟩ y (List.mem_of_getElem? hy) hgy
        · exact hu (h.2 u t y x hy hx hgy ⟨got, hp⟩)
        · exact hd ⟨got, found, hp⟩
      refine ⟨?_, ?_⟩
      · intro y hy
        simp only at hy
        obtain ⟨u, hu⟩ := List.mem_iff_getElem?.mp hy
        by_cases hut : u = t
        · subst hut
          rw [List.getElem?_set_self hlt, Option.some.injEq] at hu
          subst hu
          exact ⟨by rw [h2]; exact hz, h1⟩
        · rw [List.getElem?_set_ne (Ne.symm hut)] at hu
          obtain ⟨h5, h6⟩ := h.1 y (List.mem_of_getElem? hu)
          exact ⟨h5, good_saved h6 (hothers u y hut hu)⟩
      · intro u v y z hu hv hgy hgz
        simp only at hu hv
        by_cases hut : u = t
        · by_cases hvt : v = t
          · rw [hut, hvt]
          · rw [List.getElem?_set_ne (Ne.symm hvt)] at hv
            exact absurd hgz (hothers v z hvt hv)
        · rw [List.getElem?_set_ne (Ne.symm hut)] at hu
          exact absurd hgy (hothers u y hut hu)

theorem run_one {s : State} (h : One s) (ts : List Nat) (ho : OneByOne s ts) : One (run s ts) := by
  induction ts generalizing s with
  | nil => exact h
  | cons t ts ih => exact ih (step_one h t ho.1) ho.2

theorem init_one (queries : List (CStr × Option CStr)) (hz : ∀ x ∈ queries, (0 : UInt8) ∉ x.1) :
    One (init queries) := by
  have hb : ∀ x ∈ (init queries).threads, x.pc = .before ∧ (0 : UInt8) ∉ x.text := by
    intro x hx
    simp only [init, List.mem_map] at hx
    obtain ⟨y, hy, rfl⟩ := hx
    exact ⟨rfl, hz y hy⟩
  refine ⟨fun x hx => ⟨(hb x hx).2, ⟨?_, ?_⟩⟩, ?_⟩
  · intro got hp; rw [(hb x hx).1] at hp; simp at hp
  · intro got found hp; rw [(hb x hx).1] at hp; simp at hp
  · rintro t u x y hx - ⟨got, hp⟩ -
    rw [(hb x (List.mem_of_getElem? hx)).1] at hp
    simp at hp

/-- The names a thread was given. -/
def given (x : Thread) : List CStr :=
  match x.pc with
  | .before => []
  | .going got => got
  | .done got _ => got

/-- Every name given, and every name to come, is in one of the texts. -/
def Known (texts : List CStr) (s : State) : Prop :=
  (∀ x ∈ s.threads, x.text ∈ texts ∧ ∀ n ∈ given x, ∃ b ∈ texts, n ∈ names b) ∧
  (0 : UInt8) ∉ s.saved ∧ ∀ n ∈ names s.saved, ∃ b ∈ texts, n ∈ names b

theorem round_known (texts : List CStr) (x : Thread) (got : List CStr) (b : CStr) (hz : (0 : UInt8) ∉ b)
    (hb : ∀ n ∈ names b, ∃ b ∈ texts, n ∈ names b) (hg : ∀ n ∈ got, ∃ b ∈ texts, n ∈ names b) :
    (round x got b).1.text = x.text ∧ (∀ n ∈ given (round x got b).1, ∃ b ∈ texts, n ∈ names b) ∧
      (0 : UInt8) ∉ (round x got b).2 ∧ ∀ n ∈ names (round x got b).2, ∃ b ∈ texts, n ∈ names b := by
  obtain ⟨h1, h2⟩ := tok_spec b hz
  unfold round
  rcases hs : strtok b with _ | ⟨t, w, r⟩
  · exact ⟨rfl, hg, by simp, by simp [names, fields]⟩
  · obtain ⟨h3, h4⟩ := h2 t w r hs
    have h5 : ∀ n ∈ got ++ [t], ∃ b ∈ texts, n ∈ names b := by
      intro n hn
      rcases List.mem_append.mp hn with hn | hn
      · exact hg n hn
      · exact hb n (by rw [h3]; simp at hn; simp [hn])
    have h6 : ∀ n ∈ names r, ∃ b ∈ texts, n ∈ names b := fun n hn => hb n (by rw [h3]; simp [hn])
    simp only
    split
    · exact ⟨rfl, h5, h4, h6⟩
    · exact ⟨rfl, h5, h4, h6⟩

theorem step_known {texts : List CStr} (ht : ∀ b ∈ texts, (0 : UInt8) ∉ b) {s : State} (h : Known texts s) (t : Nat) :
    Known texts (step s t) := by
  unfold step
  rcases hx : s.threads[t]? with _ | x
  · exact h
  · obtain ⟨h1, h2⟩ := h.1 x (List.mem_of_getElem? hx)
    have key : (next x s.saved).1.text = x.text ∧
        (∀ n ∈ given (next x s.saved).1, ∃ b ∈ texts, n ∈ names b) ∧ (0 : UInt8) ∉ (next x s.saved).2 ∧
        ∀ n ∈ names (next x s.saved).2, ∃ b ∈ texts, n ∈ names b := by
      unfold next
      rcases hp : x.pc with _ | got | ⟨got, found⟩
      · exact round_known texts x [] x.text (ht _ h1) (fun n hn => ⟨x.text, h1, hn⟩) (by simp)
      · exact round_known texts x got s.saved h.2.1 h.2.2 (by simpa [given, hp] using h2)
      · exact ⟨rfl, h2, h.2.1, h.2.2⟩
    refine ⟨?_, key.2.2⟩
    intro y hy
    rcases List.mem_or_eq_of_mem_set hy with hy | rfl
    · exact h.1 y hy
    · exact ⟨by rw [key.1]; exact h1, key.2.1⟩

/-! ## Theorems -/

/-- C111, partial: when queries of configurations do not overlap, each query gives the names of the text of its own
configuration, whatever queries were made in other threads before. Missing: queries that overlap, see
`C111_names_violated` and `C111_contains_violated`. -/
theorem C111_own_partial (queries : List (CStr × Option CStr)) (hz : ∀ x ∈ queries, (0 : UInt8) ∉ x.1)
    (ts : List Nat) (ho : OneByOne (init queries) ts) : ∀ x ∈ (run (init queries) ts).threads, Right x := by
  intro x hx
  obtain ⟨-, -, hg⟩ := (run_one (init_one queries hz) ts ho).1 x hx
  intro got found hp
  obtain ⟨h1, h2⟩ := hg got found hp
  rcases hq : x.query with _ | q
  · simp only
    cases found with
    | false => exact (h1 rfl).1
    | true => obtain ⟨n, -, hn⟩ := h2 rfl; simp [hq, hit] at hn
  · simp only
    constructor
    · intro hf
      obtain ⟨n, hn, hh⟩ := h2 hf
      refine ⟨n, hn, (stricmp_same q n).mp ?_⟩
      simpa [hq, hit] using hh
    · rintro ⟨n, hn, hs⟩
      cases found with
      | true => rfl
      | false =>
        obtain ⟨h3, h4⟩ := h1 rfl
        rw [← h3] at hn
        have := h4 n hn
        simp [hq, hit, (stricmp_same q n).mpr hs] at this

/-- C111: however queries overlap, every name given to any of them is a name of one of the configurations. -/
theorem C111_somewhere (queries : List (CStr × Option CStr)) (hz : ∀ x ∈ queries, (0 : UInt8) ∉ x.1)
    (ts : List Nat) : ∀ x ∈ (run (init queries) ts).threads, ∀ got found, x.pc = .done got found →
      ∀ n ∈ got, ∃ y ∈ queries, n ∈ names y.1 := by
  have ht : ∀ b ∈ queries.map (·.1), (0 : UInt8) ∉ b := by
    intro b hb
    obtain ⟨x, hx, rfl⟩ := List.mem_map.mp hb
    exact hz x hx
  have h0 : Known (queries.map (·.1)) (init queries) := by
    refine ⟨?_, by simp [init], by simp [init, names, fields]⟩
    intro x hx
    simp only [init, List.mem_map] at hx
    obtain ⟨y, hy, rfl⟩ := hx
    exact ⟨List.mem_map_of_mem hy, by simp [given]⟩
  have h : ∀ ts s, Known (queries.map (·.1)) s → Known (queries.map (·.1)) (run s ts) := by
    intro ts
    induction ts with
    | nil => intro s hs; exact hs
    | cons t ts ih => intro s hs; exact ih _ (step_known ht hs t)
  intro x hx got found hp n hn
  obtain ⟨b, hb, hnb⟩ := ((h ts _ h0).1 x hx).2 n (by simpa [given, hp] using hn)
  obtain ⟨y, hy, rfl⟩ := List.mem_map.mp hb
  exact ⟨y, hy, hnb⟩

/-- C111 is violated: two threads list the properties of their own configurations `A,B` and `C,D`. One is given `A` and
`D`, the other only `C`. -/
theorem C111_names_violated : ∃ ts, (run (init [(c!"A,B", none), (c!"C,D", none)]) ts).threads =
    [⟨c!"A,B", none, .done [c!"A", c!"D"] false⟩, ⟨c!"C,D", none, .done [c!"C"] false⟩] :=
  ⟨[0, 1, 0, 0, 1], by decide⟩

/-- C111 is violated: a configuration for `A,B` is said to contain `D`, and another one for `C,D` not to. -/
theorem C111_contains_violated : ∃ ts x y, (run (init [(c!"A,B", some c!"D"), (c!"C,D", some c!"D")]) ts).threads =
    [⟨c!"A,B", some c!"D", .done x true⟩, ⟨c!"C,D", some c!"D", .done y false⟩] :=
  ⟨[0, 1, 0, 1], [c!"A", c!"D"], [c!"C"], by decide⟩

/-- Queries one after the other. -/
example : OneByOne (init [(c!"A,,B,", none), (c!"C,D", some c!"d")]) [0, 0, 0, 1, 1] ∧
    (run (init [(c!"A,,B,", none), (c!"C,D", some c!"d")]) [0, 0, 0, 1, 1]).threads =
      [⟨c!"A,,B,", none, .done [c!"A", c!"B"] false⟩, ⟨c!"C,D", some c!"d", .done [c!"C", c!"D"] true⟩] := by
  refine ⟨⟨?_, ?_, ?_, ?_, ?_, trivial⟩, by decide⟩
  · rintro - x hx ⟨g, hg⟩
    simp [init] at hx
    rcases hx with rfl | rfl <;> simp at hg
  · rintro ⟨x, hx, hp⟩
    have : (step (init [(c!"A,,B,", none), (c!"C,D", some c!"d")]) 0).threads[0]? =
      some ⟨c!"A,,B,", none, .going [c!"A"]⟩ := by decide
    rw [this, Option.some.injEq] at hx
    subst hx
    simp at hp
  · rintro ⟨x, hx, hp⟩
    have : (step (step (init [(c!"A,,B,", none), (c!"C,D", some c!"d")]) 0) 0).threads[0]? =
      some ⟨c!"A,,B,", none, .going [c!"A", c!"B"]⟩ := by decide
    rw [this, Option.some.injEq] at hx
    subst hx
    simp at hp
  · rintro - x hx ⟨g, hg⟩
    have : (step (step (step (init [(c!"A,,B,", none), (c!"C,D", some c!"d")]) 0) 0) 0).threads =
      [⟨c!"A,,B,", none, .done [c!"A", c!"B"] false⟩, ⟨c!"C,D", some c!"d", .before⟩] := by decide
    rw [this] at hx
    simp at hx
    rcases hx with rfl | rfl <;> simp at hg
  · rintro ⟨x, hx, hp⟩
    have : (step (step (step (step (init [(c!"A,,B,", none), (c!"C,D", some c!"d")]) 0) 0) 0) 1).threads[1]? =
      some ⟨c!"C,D", some c!"d", .going [c!"C"]⟩ := by decide
    rw [this, Option.some.injEq] at hx
    subst hx
    simp at hp

end Verif.Config.Threads
