import Verif.Config.Model
import Verif.Properties.Props

/-! # The required properties configuration: C41 -/

namespace Verif.Config

open Verif.Properties (stricmp stricmp_zero_iff)

/-! ## What is wanted -/

/-- The parts of a text between its commas. -/
def fields : CStr → List CStr
  | [] => [[]]
  | c :: t =>
    if c = 44 then [] :: fields t
    else
      match fields t with
      | [] => [[c]]
      | f :: fs => (c :: f) :: fs

/-- The names in a text: the parts that are not empty. -/
def names (text : CStr) : List CStr := (fields text).filter (· ≠ [])

/-! ## Lemmas -/

theorem names_commas {p t : CStr} (h : ∀ c ∈ p, c = 44) : names (p ++ t) = names t := by
  induction p with
  | nil => rfl
  | cons c p ih =>
    have hc := h c (by simp)
    subst hc
    have := ih (fun c hc => h c (by simp [hc]))
    simpa [names, fields] using this

theorem fields_token {t : CStr} (h : ∀ c ∈ t, c ≠ 44) (r : CStr) : fields (t ++ 44 :: r) = t :: fields r := by
  induction t with
  | nil => simp [fields]
  | cons c t ih =>
    have := ih (fun c hc => h c (by simp [hc]))
    simp [fields, this, h c (by simp)]

theorem fields_last {t : CStr} (h : ∀ c ∈ t, c ≠ 44) : fields t = [t] := by
  induction t with
  | nil => rfl
  | cons c t ih =>
    have := ih (fun c hc => h c (by simp [hc]))
    simp [fields, this, h c (by simp)]

theorem names_token {t : CStr} (h : ∀ c ∈ t, c ≠ 44) (hne : t ≠ []) (r : CStr) : names (t ++ 44 :: r) = t :: names r := by
  simp [names, fields_token h, hne]

theorem names_last {t : CStr} (h : ∀ c ∈ t, c ≠ 44) (hne : t ≠ []) : names t = [t] := by
  simp [names, fields_last h, hne]

/-- Memory is commas, a token, and what follows it. -/
structure Token (p t : CStr) : Prop where
  commas : ∀ c ∈ p, c = 44
  clean : ∀ c ∈ t, c ≠ 44 ∧ c ≠ 0
  some : t ≠ []

theorem takeWhile_stop {p : UInt8 → Bool} {a r : CStr} (h : ∀ c ∈ a, p c = true) (hr : ∀ c, r.head? = some c → p c = false) :
    (a ++ r).takeWhile p = a ∧ (a ++ r).dropWhile p = r := by
  induction a with
  | nil =>
    cases r with
    | nil => simp
    | cons c r => have := hr c rfl; simp [this]
  | cons c a ih =>
    have := ih (fun c hc => h c (by simp [hc]))
    simp [h c (by simp), this]

theorem strtok_token {p t r : CStr} (h : Token p t) (hr : ∀ c, r.head? = some c → c = 44 ∨ c = 0) :
    strtok (p ++ t ++ r) =
      match (motive := CStr → Option (CStr × CStr × CStr)) r with
      | 44 :: r => some (t, p ++ t ++ [0], r)
      | r => some (t, p ++ t, r) := by
  obtain ⟨c, t', ht⟩ : ∃ c t', t = c :: t' := by
    cases t with
    | nil => exact absurd rfl h.some
    | cons c t => exact ⟨c, t, rfl⟩
  have h1 := takeWhile_stop (p := fun c => decide (c = 44)) (a := p) (r := t ++ r) (by simpa using h.commas)
    (by intro d hd; rw [ht] at hd; simp at hd; subst hd; simpa using (h.clean c (by simp [ht])).1)
  have h2 := takeWhile_stop (p := fun c => decide (c ≠ 44 ∧ c ≠ 0)) (a := t) (r := r) (by simpa using h.clean)
    (by intro d hd; rcases hr d hd with rfl | rfl <;> simp)
  rw [strtok, List.append_assoc, h1.1, h1.2]
  simp only [h2.1, h2.2]
  rw [ht, List.cons_append]
  simp only [(h.clean c (by simp [ht])).2, if_false]
  rfl

theorem strtok_none {p r : CStr} (h : ∀ c ∈ p, c = 44) (hr : ∀ c, r.head? = some c → c = 0) : strtok (p ++ r) = none := by
  have h1 := takeWhile_stop (p := fun c => decide (c = 44)) (a := p) (r := r) (by simpa using h)
    (by intro d hd; rw [hr d hd]; rfl)
  rw [strtok, h1.2]
  cases r with
  | nil => rfl
  | cons c r => simp [hr c rfl]

/-- A text is only commas, or has a first name, after which it ends or goes on after a comma. -/
theorem cases_text (b : CStr) (hz : (0 : UInt8) ∉ b) :
    (∀ c ∈ b, c = 44) ∨ (∃ p t, Token p t ∧ b = p ++ t) ∨ ∃ p t r, Token p t ∧ b = p ++ t ++ 44 :: r := by
  induction b with
  | nil => left; simp
  | cons c b ih =>
    have hz' : (0 : UInt8) ∉ b := fun h => hz (by simp [h])
    have hc0 : c ≠ 0 := fun h => hz (by simp [h])
    by_cases hc : c = 44
    · subst hc
      rcases ih hz' with h | ⟨p, t, h, e⟩ | ⟨p, t, r, h, e⟩
      · left; intro d hd; rcases List.mem_cons.1 hd with rfl | hd
        · rfl
        · exact h d hd
      · right; left
        refine ⟨44 :: p, t, ⟨?_, h.clean, h.some⟩, by rw [e]; rfl⟩
        intro d hd; rcases List.mem_cons.1 hd with rfl | hd
        · rfl
        · exact h.commas d hd
      · right; right
        refine ⟨44 :: p, t, r, ⟨?_, h.clean, h.some⟩, by rw [e]; rfl⟩
        intro d hd; rcases List.mem_cons.1 hd with rfl | hd
        · rfl
        · exact h.commas d hd
    · -- the name starts here
      right
      rcases ih hz' with h | ⟨p, t, h, e⟩ | ⟨p, t, r, h, e⟩
      · cases b with
        | nil => left; exact ⟨[], [c], ⟨by simp, by simp [hc, hc0], by simp⟩, rfl⟩
        | cons d b =>
          right
          have := h d (by simp)
          subst this
          exact ⟨[], [c], b, ⟨by simp, by simp [hc, hc0], by simp⟩, rfl⟩
      · cases p with
        | nil =>
          left
          refine ⟨[], c :: t, ⟨by simp, ?_, by simp⟩, by rw [e]; rfl⟩
          intro d hd; rcases List.mem_cons.1 hd with rfl | hd
          · exact ⟨hc, hc0⟩
          · exact h.clean d hd
        | cons d p =>
          right
          have := h.commas d (by simp)
          subst this
          exact ⟨[], [c], p ++ t, ⟨by simp, by simp [hc, hc0], by simp⟩, by rw [e]; simp⟩
      · right
        cases p with
        | nil =>
          refine ⟨[], c :: t, r, ⟨by simp, ?_, by simp⟩, by rw [e]; rfl⟩
          intro d hd; rcases List.mem_cons.1 hd with rfl | hd
          · exact ⟨hc, hc0⟩
          · exact h.clean d hd
        | cons d p =>
          have := h.commas d (by simp)
          subst this
          exact ⟨[], [c], p ++ t ++ 44 :: r, ⟨by simp, by simp [hc, hc0], by simp⟩, by rw [e]; simp⟩

theorem token_no_comma {p t : CStr} (h : Token p t) : ∀ c ∈ t, c ≠ 44 := fun c hc => (h.clean c hc).1

/-- The memory a query leaves when the first name was `t`. -/
def Cut (b t : CStr) : Prop := ∃ p, Token p t ∧ (b = p ++ t ∨ ∃ x, b = p ++ t ++ 0 :: x)

theorem strtok_cut {b t : CStr} (h : Cut b t) : ∃ w r, strtok b = some (t, w, r) ∧ b = w ++ r ∧ strtok r = none ∧
    (∀ n, listLoop n r = ([], r)) ∧ ∀ q n, containsLoop q n r = (false, r) := by
  obtain ⟨p, hp, h⟩ := h
  have nil : ∀ r, strtok r = none → strtok r = none ∧ (∀ n, listLoop n r = ([], r)) ∧
      ∀ q n, containsLoop q n r = (false, r) := by
    intro r hr
    refine ⟨hr, ?_, ?_⟩
    · intro n; cases n <;> simp [listLoop, hr]
    · intro q n; cases n <;> simp [containsLoop, hr]
  rcases h with rfl | ⟨x, rfl⟩
  · refine ⟨p ++ t, [], ?_, by simp, nil [] rfl⟩
    have := strtok_token hp (r := []) (by simp)
    simpa using this
  · refine ⟨p ++ t, 0 :: x, ?_, rfl, nil _ (strtok_none (p := []) (r := 0 :: x) (by simp) (by simp))⟩
    exact strtok_token hp (r := 0 :: x) (by simp)

theorem list_cut {b t : CStr} (h : Cut b t) : listLoop b.length b = ([t], b) := by
  have hne : b.length ≠ 0 := by
    obtain ⟨p, hp, h⟩ := h
    have := List.length_pos_iff.2 hp.some
    rcases h with rfl | ⟨x, rfl⟩ <;> simp only [List.length_append, List.length_cons] <;> omega
  obtain ⟨w, r, h1, h2, -, h4, -⟩ := strtok_cut h
  obtain ⟨n, hn⟩ := Nat.exists_eq_succ_of_ne_zero hne
  rw [hn, listLoop, h1]
  simp only [h4]
  rw [← h2]

theorem contains_cut {b t : CStr} (h : Cut b t) (q : CStr) :
    containsLoop q b.length b = (decide (stricmp q t = 0), b) := by
  have hne : b.length ≠ 0 := by
    obtain ⟨p, hp, h⟩ := h
    have := List.length_pos_iff.2 hp.some
    rcases h with rfl | ⟨x, rfl⟩ <;> simp only [List.length_append, List.length_cons] <;> omega
  obtain ⟨w, r, h1, h2, -, -, h5⟩ := strtok_cut h
  obtain ⟨n, hn⟩ := Nat.exists_eq_succ_of_ne_zero hne
  rw [hn, containsLoop, h1]
  simp only [h5]
  split
  · rename_i h; simp [h, ← h2]
  · rename_i h; simp [h, ← h2]

/-- The list loop on a text. -/
theorem list_text : ∀ (n : Nat) (b : CStr), b.length ≤ n → (0 : UInt8) ∉ b →
    (listLoop n b).1 = names b ∧
    ((names b = [] ∧ (listLoop n b).2 = b) ∨ ∃ t ts, names b = t :: ts ∧ Cut (listLoop n b).2 t) := by
  intro n
  induction n with
  | zero =>
    intro b hl _
    have : b = [] := List.length_eq_zero_iff.1 (by omega)
    subst this
    exact ⟨rfl, .inl ⟨rfl, rfl⟩⟩
  | succ n ih =>
    intro b hl hz
    rcases cases_text b hz with h | ⟨p, t, h, rfl⟩ | ⟨p, t, r, h, rfl⟩
    · have hn : names b = [] := by simpa [names, fields] using names_commas (t := []) h
      have := strtok_none (r := []) h (by simp)
      rw [List.append_nil] at this
      rw [listLoop, this, hn]
      exact ⟨rfl, .inl ⟨rfl, rfl⟩⟩
    · have hn : names (p ++ t) = [t] := by rw [names_commas h.commas, names_last (token_no_comma h) h.some]
      have := strtok_token h (r := []) (by simp)
      simp only [List.append_nil] at this
      have h0 : listLoop n [] = ([], []) := by cases n <;> simp [listLoop, strtok]
      rw [listLoop, this, hn]
      simp only [h0, List.append_nil]
      exact ⟨trivial, .inr ⟨t, [], rfl, p, h, .inl rfl⟩⟩
    · have hn : names (p ++ t ++ 44 :: r) = t :: names r := by
        rw [List.append_assoc, names_commas h.commas, names_token (token_no_comma h) h.some]
      have := strtok_token h (r := 44 :: r) (by simp)
      simp only at this
      have hzr : (0 : UInt8) ∉ r := fun hm => hz (by simp [hm])
      have hi := ih r (by simp at hl; omega) hzr
      rw [listLoop, this, hn]
      simp only
      exact ⟨by rw [hi.1], .inr ⟨t, _, rfl, p, h, .inr ⟨(listLoop n r).2, by simp⟩⟩⟩

/-- The membership loop on a text. -/
theorem contains_text (q : CStr) : ∀ (n : Nat) (b : CStr), b.length ≤ n → (0 : UInt8) ∉ b →
    (containsLoop q n b).1 = (names b).any (fun t => decide (stricmp q t = 0)) ∧
    ((names b = [] ∧ (containsLoop q n b).2 = b) ∨ ∃ t ts, names b = t :: ts ∧ Cut (containsLoop q n b).2 t) := by
  intro n
  induction n with
  | zero =>
    intro b hl _
    have : b = [] := List.length_eq_zero_iff.1 (by omega)
    subst this
    exact ⟨rfl, .inl ⟨rfl, rfl⟩⟩
  | succ n ih =>
    intro b hl hz
    rcases cases_text b hz with h | ⟨p, t, h, rfl⟩ | ⟨p, t, r, h, rfl⟩
    · have hn : names b = [] := by simpa [names, fields] using names_commas (t := []) h
      have := strtok_none (r := []) h (by simp)
      rw [List.append_nil] at this
      rw [containsLoop, this, hn]
      exact ⟨rfl, .inl ⟨rfl, rfl⟩⟩
    · have hn : names (p ++ t) = [t] := by rw [names_commas h.commas, names_last (token_no_comma h) h.some]
      have := strtok_token h (r := []) (by simp)
      simp only [List.append_nil] at this
      have h0 : containsLoop q n [] = (false, []) := by cases n <;> simp [containsLoop, strtok]
      rw [containsLoop, this, hn]
      simp only [h0, List.append_nil]
      split
      · rename_i hq; exact ⟨by simp [hq], .inr ⟨t, [], rfl, p, h, .inl rfl⟩⟩
      · rename_i hq; exact ⟨by simp [hq], .inr ⟨t, [], rfl, p, h, .inl rfl⟩⟩
    · have hn : names (p ++ t ++ 44 :: r) = t :: names r := by
        rw [List.append_assoc, names_commas h.commas, names_token (token_no_comma h) h.some]
      have := strtok_token h (r := 44 :: r) (by simp)
      simp only at this
      have hzr : (0 : UInt8) ∉ r := fun hm => hz (by simp [hm])
      have hi := ih r (by simp at hl; omega) hzr
      rw [containsLoop, this, hn]
      simp only
      split
      · rename_i hq; exact ⟨by simp [hq], .inr ⟨t, _, rfl, p, h, .inr ⟨r, by simp⟩⟩⟩
      · rename_i hq; exact ⟨by simp [hq, hi.1], .inr ⟨t, _, rfl, p, h, .inr ⟨(containsLoop q n r).2, by simp⟩⟩⟩

/-! ## The properties -/

/-- The same name, apart from case. -/
def Same (a b : CStr) : Prop := a.map toLower = b.map toLower

theorem stricmp_same (a b : CStr) : stricmp a b = 0 ↔ Same a b := by
  rw [stricmp_zero_iff]; rfl

/-- A query. -/
inductive Query where
  | list
  | contains (name : CStr)
  | count

/-- The configuration after some queries. -/
def after (conf : Conf) : List Query → Conf
  | [] => conf
  | .list :: qs => after (getProperties conf).2 qs
  | .contains n :: qs => after (containsProperty conf n).2 qs
  | .count :: qs => after conf qs

/-- C41: built from a list, after any queries, the list, the count and the membership test agree with the list. Missing:
configurations built from a text, see the next theorems. -/
theorem C41_list_partial (l : List CStr) (hz : ∀ s ∈ l, (0 : UInt8) ∉ s) (qs : List Query) (name : CStr) :
    let conf := after (ofList l) qs
    (getProperties conf).1 = l ∧ getCount conf = l.length ∧
    ((containsProperty conf name).1 = true ↔ ∃ s ∈ l, Same name s) := by
  have e : l.map (fun s => s.takeWhile (· ≠ 0)) = l := by
    rw [List.map_eq_iff]
    intro i
    cases hi : l[i]? with
    | none => simp
    | some s =>
      have := hz s (List.mem_of_getElem? hi)
      simp only [Option.map_some, Option.some.injEq]
      have := takeWhile_stop (p := fun c => decide (c ≠ 0)) (a := s) (r := []) (by
        intro c hc; simp; rintro rfl; exact this hc) (by simp)
      simpa using this.1.symm
  have h : after (ofList l) qs = .array l := by
    rw [ofList, e]
    induction qs with
    | nil => rfl
    | cons q qs ih => cases q <;> simpa [after, getProperties, containsProperty] using ih
  intro conf
  rw [show conf = .array l from h]
  refine ⟨rfl, rfl, ?_⟩
  simp [containsProperty, stricmp_same]

/-- C41: built from a text, the first list query gives the names in the text, a first membership query tells whether one of them
is the name asked for. Missing: later queries and the count, see `C41_again_violated` and `C41_count_violated`. -/
theorem C41_text_partial (text : CStr) (hz : (0 : UInt8) ∉ text) (name : CStr) :
    (getProperties (ofString text)).1 = names text ∧
    ((containsProperty (ofString text) name).1 = true ↔ ∃ s ∈ names text, Same name s) := by
  refine ⟨(list_text _ text (Nat.le_refl _) hz).1, ?_⟩
  have := (contains_text name _ text (Nat.le_refl _) hz).1
  simp only [containsProperty, ofString, this]
  simp [stricmp_same]

/-- C41: what later queries give: only the first name is left. Missing: the other names, see `C41_again_violated`. -/
theorem C41_later_partial (text : CStr) (hz : (0 : UInt8) ∉ text) (q : Query) (hq : q ≠ .count) (qs : List Query)
    (name : CStr) :
    let conf := after (ofString text) (q :: qs)
    (getProperties conf).1 = (names text).take 1 ∧
    ((containsProperty conf name).1 = true ↔ ∃ s ∈ (names text).take 1, Same name s) := by
  -- the memory after the first query, and after all others
  have h1 : ∃ b, after (ofString text) (q :: qs) = after (.string b) qs ∧
      ((names text = [] ∧ b = text) ∨ ∃ t ts, names text = t :: ts ∧ Cut b t) := by
    cases q with
    | list => exact ⟨_, rfl, (list_text _ text (Nat.le_refl _) hz).2⟩
    | contains n => exact ⟨_, rfl, (contains_text n _ text (Nat.le_refl _) hz).2⟩
    | count => exact absurd rfl hq
  obtain ⟨b, e, h⟩ := h1
  have h2 : after (.string b) qs = .string b := by
    clear e
    induction qs with
    | nil => rfl
    | cons q qs ih =>
      cases q with
      | count => exact ih
      | list =>
        have : (getProperties (.string b)).2 = .string b := by
          rcases h with ⟨hn, rfl⟩ | ⟨t, ts, -, hc⟩
          · rcases (list_text _ b (Nat.le_refl _) hz).2 with ⟨-, h⟩ | ⟨t, ts, h, -⟩
            · simp [getProperties, h]
            · rw [hn] at h; cases h
          · simp [getProperties, list_cut hc]
        rw [after, this]; exact ih
      | contains n =>
        have : (containsProperty (.string b) n).2 = .string b := by
          rcases h with ⟨hn, rfl⟩ | ⟨t, ts, -, hc⟩
          · rcases (contains_text n _ b (Nat.le_refl _) hz).2 with ⟨-, h⟩ | ⟨t, ts, h, -⟩
            · simp [containsProperty, h]
            · rw [hn] at h; cases h
          · simp [containsProperty, contains_cut hc]
        rw [after, this]; exact ih
  intro conf
  rw [show conf = .string b from e.trans h2]
  rcases h with ⟨hn, rfl⟩ | ⟨t, ts, hn, hc⟩
  · refine ⟨?_, ?_⟩
    · have := (list_text _ b (Nat.le_refl _) hz).1
      simp only [getProperties, this, hn]; rfl
    · have := (contains_text name _ b (Nat.le_refl _) hz).1
      simp only [containsProperty, this, hn]; simp
  · refine ⟨?_, ?_⟩
    · simp only [getProperties, list_cut hc, hn]; rfl
    · simp only [containsProperty, contains_cut hc, hn]; simp [stricmp_same]

/-- C41: the count of a text no other query has been made of is the number of its commas, so it is the number of names when each
is followed by a comma. Missing: texts whose last name has no comma after it, see `C41_count_violated`. -/
theorem C41_count_partial (l : List CStr) (hl : ∀ s ∈ l, s ≠ [] ∧ (44 : UInt8) ∉ s ∧ (0 : UInt8) ∉ s) :
    names (l.flatMap fun s => s ++ [44]) = l ∧ getCount (ofString (l.flatMap fun s => s ++ [44])) = l.length := by
  have hz : ∀ c ∈ l.flatMap (fun s => s ++ [44]), c ≠ (0 : UInt8) := by
    intro c hc h
    subst h
    obtain ⟨s, hs, hc⟩ := List.mem_flatMap.1 hc
    rcases List.mem_append.1 hc with h | h
    · exact (hl s hs).2.2 h
    · simp at h
  have e := (takeWhile_stop (p := fun c => decide (c ≠ 0)) (a := l.flatMap fun s => s ++ [44]) (r := [])
    (by simpa using hz) (by simp)).1
  rw [List.append_nil] at e
  simp only [getCount, ofString]
  rw [e]
  clear hz e
  induction l with
  | nil => exact ⟨rfl, rfl⟩
  | cons s l ih =>
    have hs := hl s (by simp)
    obtain ⟨h1, h2⟩ := ih (fun s hs => hl s (by simp [hs]))
    simp only [List.flatMap_cons]
    constructor
    · rw [List.append_assoc, List.singleton_append, names_token (fun c hc e => hs.2.1 (e ▸ hc)) hs.1, h1]
    · rw [List.count_append, List.count_append, h2, List.count_eq_zero.2 hs.2.1]
      simp; omega

/-- C41: without names there are none, and nothing is contained. -/
theorem C41_none (name : CStr) :
    (getProperties .none).1 = [] ∧ getCount .none = 0 ∧ (containsProperty .none name).1 = false := ⟨rfl, rfl, rfl⟩

/-- C41, counterexample: the count is the number of commas, not of names. -/
theorem C41_count_violated : (getProperties (ofString c!"A,B")).1 = [c!"A", c!"B"] ∧ getCount (ofString c!"A,B") = 1 := by
  decide

/-- C41, counterexample: a query changes the text for all later ones (and for the engine the configuration is for):
asked twice, the list is not the same, and a name in it is not contained. -/
theorem C41_again_violated : (getProperties (ofString c!"A,B")).1 = [c!"A", c!"B"] ∧
    (getProperties (after (ofString c!"A,B") [.list])).1 = [c!"A"] ∧
    (containsProperty (after (ofString c!"A,B") [.list]) c!"B").1 = false ∧
    (containsProperty (after (ofString c!"A,B") [.contains c!"A"]) c!"B").1 = false := by decide

example : (getProperties (after (ofList [c!"A", c!"Bc", c!"A"]) [.list, .contains c!"x", .count])).1 =
    [c!"A", c!"Bc", c!"A"] ∧ (containsProperty (ofList [c!"A", c!"Bc"]) c!"bC").1 = true ∧
    names c!",A,,bc,D,," = [c!"A", c!"bc", c!"D"] ∧
    (getProperties (ofString c!",A,,bc,D,,")).1 = [c!"A", c!"bc", c!"D"] := by decide

end Verif.Config
