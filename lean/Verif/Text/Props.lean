import Verif.Text.Model
import Mathlib.Data.List.TakeWhile

/-! # Properties of the text file iteration: C33 -/

namespace Verif.Text

/-- The lines of a text: every `\r` or `\n` ends one, and what follows the last one is another if there is anything. -/
def lines : CStr → List CStr
  | [] => []
  | c :: r => if isNl c then [] :: lines r else match lines r with
    | [] => [[c]]
    | l :: ls => (c :: l) :: ls

/-- The lines that are not empty. -/
def full (ls : List CStr) : List CStr := ls.filter (· ≠ [])

/-- Every line, with its end, fits into a buffer of the given length. -/
def Fits (length : Nat) (text : CStr) : Prop := ∀ l ∈ lines text, l.length < length

theorem lines_append {l r : CStr} {n : UInt8} (hl : ∀ c ∈ l, isNl c = false) (hn : isNl n = true) :
    lines (l ++ n :: r) = l :: lines r := by
  induction l with
  | nil => simp [lines, hn]
  | cons c l ih =>
    have hc : isNl c = false := hl c (by simp)
    simp only [List.cons_append, lines, hc, ih (fun x hx => hl x (by simp [hx]))]
    rfl

theorem lines_single {l : CStr} (hl : ∀ c ∈ l, isNl c = false) (hne : l ≠ []) : lines l = [l] := by
  induction l with
  | nil => exact absurd rfl hne
  | cons c l ih =>
    have hc : isNl c = false := hl c (by simp)
    cases l with
    | nil => simp [lines, hc]
    | cons d l =>
      rw [lines, ih (fun x hx => hl x (by simp [hx])) (by simp)]
      simp [hc]

/-- A text without a line end in its first part starts with a line at least that long. -/
theorem lines_prefix {l r : CStr} (hl : ∀ c ∈ l, isNl c = false) (hne : l ≠ []) : ∃ x ls, lines (l ++ r) = (l ++ x) :: ls := by
  induction l with
  | nil => exact absurd rfl hne
  | cons c l ih =>
    have hc : isNl c = false := hl c (by simp)
    simp only [List.cons_append, lines, hc]
    cases l with
    | nil =>
      simp only [List.nil_append]
      cases lines r with
      | nil => exact ⟨[], [], rfl⟩
      | cons y ys => exact ⟨y, ys, rfl⟩
    | cons d l =>
      obtain ⟨x, ls, e⟩ := ih (fun x hx => hl x (by simp [hx])) (by simp)
      exact ⟨x, ls, by rw [e]; rfl⟩

theorem split (buf : CStr) : (∀ c ∈ buf, isNl c = false) ∨
    ∃ l n r, buf = l ++ n :: r ∧ (∀ c ∈ l, isNl c = false) ∧ isNl n = true := by
  induction buf with
  | nil => left; simp
  | cons c buf ih =>
    cases hc : isNl c with
    | true => exact .inr ⟨[], c, buf, rfl, by simp, hc⟩
    | false =>
      rcases ih with ih | ⟨l, n, r, rfl, h1, h2⟩
      · left; intro x hx; simp at hx; rcases hx with rfl | hx
        · exact hc
        · exact ih x hx
      · exact .inr ⟨c :: l, n, r, rfl, by intro x hx; simp at hx; rcases hx with rfl | hx; exact hc; exact h1 x hx, h2⟩

theorem nextLine_none {buf : CStr} (h : ∀ c ∈ buf, isNl c = false) : nextLine buf = (none, []) := by
  have : buf.dropWhile (fun c => !isNl c) = [] := by
    rw [List.dropWhile_eq_nil_iff]; intro c hc; simp [h c hc]
  simp [nextLine, this]

theorem cstr_self {l : CStr} (h : (0 : UInt8) ∉ l) : cstr l = l := by
  rw [cstr, List.takeWhile_eq_self_iff]
  intro c hc
  simp only [bne_iff_ne]
  rintro rfl
  exact h hc

theorem nextLine_some {l r : CStr} {n : UInt8} (hl : ∀ c ∈ l, isNl c = false) (hn : isNl n = true)
    (hz : (0 : UInt8) ∉ l) : nextLine (l ++ n :: r) = (some l, r.dropWhile isNl) := by
  have h1 : (l ++ n :: r).dropWhile (fun c => !isNl c) = n :: r := by
    rw [List.dropWhile_append_of_pos (by intro c hc; simp [hl c hc]), List.dropWhile_cons_of_neg (by simp [hn])]
  have h2 : (l ++ n :: r).takeWhile (fun c => !isNl c) = l := by
    rw [List.takeWhile_append_of_pos (by intro c hc; simp [hl c hc]), List.takeWhile_cons_of_neg (by simp [hn])]
    simp
  simp only [nextLine, h1, h2, cstr_self hz]

theorem full_skip (r f : CStr) : full (lines (r ++ f)) = full (lines (r.dropWhile isNl ++ f)) := by
  induction r with
  | nil => rfl
  | cons c r ih =>
    cases hc : isNl c with
    | true =>
      rw [List.dropWhile_cons_of_pos hc, ← ih]
      simp [lines, hc, full]
    | false => rw [List.dropWhile_cons_of_neg (by simp [hc])]

theorem mem_skip {r f l : CStr} (h : l ∈ lines (r.dropWhile isNl ++ f)) : l ∈ lines (r ++ f) := by
  induction r with
  | nil => exact h
  | cons c r ih =>
    cases hc : isNl c with
    | true =>
      rw [List.dropWhile_cons_of_pos hc] at h
      simp [lines, hc, ih h]
    | false => rwa [List.dropWhile_cons_of_neg (by simp [hc])] at h

theorem dropWhile_length_le (r : CStr) : (r.dropWhile isNl).length ≤ r.length :=
  List.Sublist.length_le (List.dropWhile_sublist _)

theorem not_mem_dropWhile {r : CStr} {z : UInt8} (h : z ∉ r) : z ∉ r.dropWhile isNl := fun hm =>
  h ((List.dropWhile_sublist _).mem hm)

theorem full_cons (l : CStr) (ls : List CStr) : full (l :: ls) = full [l] ++ full ls := by
  by_cases h : l = [] <;> simp [full, h]

theorem full_append (a b : List CStr) : full (a ++ b) = full a ++ full b := by simp [full]

/-- The last loop without limit delivers the lines of a text that ends with a line end. -/
theorem final_full : ∀ (fuel counter : Nat) (buf : CStr), buf.length ≤ fuel → (0 : UInt8) ∉ buf →
    (∀ c, buf.getLast? = some c → isNl c = true) →
    full (final (-1) fuel counter buf) = full (lines buf) := by
  intro fuel
  induction fuel with
  | zero =>
    intro counter buf hl _ _
    have : buf = [] := List.length_eq_zero_iff.1 (by omega)
    subst this; rfl
  | succ fuel ih =>
    intro counter buf hl hz hlast
    by_cases hb : buf = []
    · subst hb; simp [final, lines, full]
    · rcases split buf with h | ⟨l, n, r, rfl, h1, h2⟩
      · have := hlast _ (List.getLast?_eq_some_getLast hb)
        rw [h _ (List.getLast_mem hb)] at this
        cases this
      · have hzl : (0 : UInt8) ∉ l := fun hm => hz (by simp [hm])
        have hzr : (0 : UInt8) ∉ r := fun hm => hz (by simp [hm])
        rw [final, if_pos ⟨hb, by simp [within]⟩, nextLine_some h1 h2 hzl, lines_append h1 h2]
        simp only [Option.toList_some]
        rw [full_append, full_cons l (lines r)]
        have hlen := dropWhile_length_le r
        have hsub : full (lines r) = full (lines (r.dropWhile isNl)) := by simpa using full_skip r []
        rw [ih (counter + 1) (r.dropWhile isNl) (by simp at hl; omega) (not_mem_dropWhile hzr), ← hsub]
        · intro c hc
          apply hlast c
          have hsuf : r.dropWhile isNl <:+ l ++ n :: r :=
            (List.dropWhile_suffix _).trans ⟨l ++ [n], by simp⟩
          obtain ⟨t, ht⟩ := hsuf
          rw [← ht, List.getLast?_append, hc]; rfl

/-- The text ends with something else than a line end. -/
def Open (t : CStr) : Prop := ∃ c, t.getLast? = some c ∧ isNl c = false

theorem open_skip {l r f : CStr} {n : UInt8} (hn : isNl n = true) (h : Open (l ++ n :: (r ++ f))) :
    Open (r.dropWhile isNl ++ f) := by
  have h1 : Open (n :: (r ++ f)) := by
    obtain ⟨c, hc, h2⟩ := h
    rw [List.getLast?_append] at hc
    exact ⟨c, by simpa [List.getLast?_cons] using hc, h2⟩
  clear h
  induction r generalizing n with
  | nil =>
    obtain ⟨c, hc, h2⟩ := h1
    cases f with
    | nil => simp at hc; rw [hc] at hn; rw [hn] at h2; cases h2
    | cons d f => exact ⟨c, by simpa [List.getLast?_cons] using hc, h2⟩
  | cons d r ih =>
    cases hd : isNl d with
    | true =>
      rw [List.dropWhile_cons_of_pos hd]
      apply ih hd
      obtain ⟨c, hc, h2⟩ := h1
      exact ⟨c, by simpa [List.getLast?_cons] using hc, h2⟩
    | false =>
      rw [List.dropWhile_cons_of_neg (by simp [hd])]
      obtain ⟨c, hc, h2⟩ := h1
      exact ⟨c, by simpa [List.getLast?_cons] using hc, h2⟩

theorem lines_snoc : ∀ {t : CStr}, Open t → lines (t ++ [10]) = lines t := by
  intro t
  induction t with
  | nil => rintro ⟨c, h, -⟩; simp at h
  | cons d t ih =>
    rintro ⟨c, hc, h⟩
    cases t with
    | nil =>
      simp at hc; subst hc
      have h10 : isNl 10 = true := rfl
      simp [lines, h, h10]
    | cons e t =>
      have := ih ⟨c, by simpa [List.getLast?_cons] using hc, h⟩
      simp only [List.cons_append, lines] at this ⊢
      rw [this]

theorem finish_full {counter : Nat} {held read : CStr} (hz : (0 : UInt8) ∉ held ++ read) (hne : held ++ read ≠ [])
    (h : Open (held ++ read) ∨ read ≠ []) :
    ∃ out, finish (-1) counter held read = some out ∧ full out = full (lines (held ++ read)) := by
  have hw : within (-1) counter = true := by simp [within]
  have hl := List.getLast?_eq_some_getLast hne
  generalize (held ++ read).getLast hne = c at hl
  rw [finish, if_pos hw, hl]
  simp only
  cases hc : isNl c with
  | true =>
    have hr : read ≠ [] := by
      rcases h with ⟨d, hd, h⟩ | h
      · rw [hl] at hd; cases hd; rw [h] at hc; cases hc
      · exact h
    refine ⟨_, rfl, ?_⟩
    rw [if_pos hr]
    exact final_full _ _ _ (Nat.le_refl _) hz (by intro d hd; rw [hl] at hd; cases hd; exact hc)
  | false =>
    refine ⟨_, rfl, ?_⟩
    rw [final_full _ _ _ (by simp; omega) (by simp at hz ⊢; exact hz) (by intro d hd; simp at hd; subst hd; rfl),
      lines_snoc ⟨c, hl, hc⟩]

/-- What a full buffer looks like. -/
theorem full_buffer {length : Nat} {held file : CStr} (hh : held.length < length) (hf : Fits length (held ++ file))
    (hr : (file.take (length - held.length)).length = length - held.length) :
    ∃ l n r, held ++ file.take (length - held.length) = l ++ n :: r ∧ (∀ c ∈ l, isNl c = false) ∧ isNl n = true ∧
      held ++ file = l ++ n :: (r ++ file.drop (length - held.length)) := by
  have e : held ++ file = (held ++ file.take (length - held.length)) ++ file.drop (length - held.length) := by simp
  rcases split (held ++ file.take (length - held.length)) with h | ⟨l, n, r, e1, h1, h2⟩
  · exfalso
    have hne : held ++ file.take (length - held.length) ≠ [] := by
      intro e; have := congrArg List.length e; simp only [List.length_append, hr, List.length_nil] at this; omega
    obtain ⟨x, ls, e2⟩ := lines_prefix (r := file.drop (length - held.length)) h hne
    rw [← e] at e2
    have := hf _ (by rw [e2]; exact List.mem_cons_self)
    simp only [List.length_append, hr] at this
    omega
  · exact ⟨l, n, r, e1, h1, h2, by rw [e, e1]; simp⟩

theorem rest_length {length : Nat} {held file l r : CStr} {n : UInt8} (hh : held.length < length)
    (hr : (file.take (length - held.length)).length = length - held.length)
    (e : held ++ file.take (length - held.length) = l ++ n :: r) : (r.dropWhile isNl).length < length := by
  have h1 := congrArg List.length e
  simp only [List.length_append, hr, List.length_cons] at h1
  have := dropWhile_length_le r
  omega

/-- The whole iteration without limit of a text that does not end with a line end. -/
theorem loop_full {length : Nat} : ∀ (fuel counter : Nat) (held file : CStr), file.length < fuel → held.length < length →
    (0 : UInt8) ∉ held ++ file → Fits length (held ++ file) → Open (held ++ file) →
    ∃ out, loop length (-1) fuel counter held file = some out ∧ full out = full (lines (held ++ file)) := by
  intro fuel
  induction fuel with
  | zero => intro _ _ _ h; omega
  | succ fuel ih =>
    intro counter held file hfu hh hz hfits hopen
    have hw : within (-1) counter = true := by simp [within]
    simp only [loop, hw, if_true]
    by_cases hr : (file.take (length - held.length)).length = length - held.length
    · rw [if_pos hr]
      obtain ⟨l, n, r, e, h1, h2, e'⟩ := full_buffer hh hfits hr
      have hzl : (0 : UInt8) ∉ l := fun hm => hz (by rw [e']; simp [hm])
      rw [e, nextLine_some h1 h2 hzl]
      rw [e'] at hz hfits hopen
      have hz' : (0 : UInt8) ∉ r.dropWhile isNl ++ file.drop (length - held.length) := by
        intro hm
        simp only [List.mem_append] at hm
        rcases hm with hm | hm
        · exact hz (by simp [(List.dropWhile_sublist _).mem hm])
        · exact hz (by simp [hm])
      have hlen : (file.drop (length - held.length)).length < fuel := by
        rw [List.length_drop]
        rw [List.length_take] at hr
        omega
      obtain ⟨out, h3, h4⟩ := ih (counter + 1) (r.dropWhile isNl) (file.drop (length - held.length)) hlen
        (rest_length hh hr e) hz'
        (fun x hx => hfits x (by rw [lines_append h1 h2]; simp [mem_skip hx])) (open_skip h2 hopen)
      refine ⟨[l] ++ out, by simp [h3], ?_⟩
      rw [e', lines_append h1 h2, full_append, h4, full_cons l (lines _), ← full_skip]
    · rw [if_neg hr]
      have hall : file.take (length - held.length) = file := by
        rw [List.length_take] at hr
        exact List.take_of_length_le (by omega)
      rw [hall]
      exact finish_full hz (by rintro e; rw [e] at hopen; obtain ⟨c, hc, -⟩ := hopen; simp at hc) (.inl hopen)

/-- Whatever the text ends with, what is delivered is a start of the lines. -/
theorem loop_prefix {length : Nat} : ∀ (fuel counter : Nat) (held file : CStr) (out : List CStr), held.length < length →
    (0 : UInt8) ∉ held ++ file → Fits length (held ++ file) →
    loop length (-1) fuel counter held file = some out → full out <+: full (lines (held ++ file)) := by
  intro fuel
  induction fuel with
  | zero => intro _ _ _ _ _ _ _ h; cases h
  | succ fuel ih =>
    intro counter held file out hh hz hfits ho
    have hw : within (-1) counter = true := by simp [within]
    simp only [loop, hw, if_true] at ho
    by_cases hr : (file.take (length - held.length)).length = length - held.length
    · rw [if_pos hr] at ho
      obtain ⟨l, n, r, e, h1, h2, e'⟩ := full_buffer hh hfits hr
      have hzl : (0 : UInt8) ∉ l := fun hm => hz (by rw [e']; simp [hm])
      rw [e, nextLine_some h1 h2 hzl] at ho
      rw [e'] at hz hfits
      have hz' : (0 : UInt8) ∉ r.dropWhile isNl ++ file.drop (length - held.length) := by
        intro hm
        simp only [List.mem_append] at hm
        rcases hm with hm | hm
        · exact hz (by simp [(List.dropWhile_sublist _).mem hm])
        · exact hz (by simp [hm])
      simp only [Option.map_eq_some_iff] at ho
      obtain ⟨out', h3, rfl⟩ := ho
      have := ih (counter + 1) (r.dropWhile isNl) (file.drop (length - held.length)) out' (rest_length hh hr e) hz'
        (fun x hx => hfits x (by rw [lines_append h1 h2]; simp [mem_skip hx])) h3
      rw [e', lines_append h1 h2, full_append, full_cons l, full_skip]
      simpa using this
    · rw [if_neg hr] at ho
      have hall : file.take (length - held.length) = file := by
        rw [List.length_take] at hr
        exact List.take_of_length_le (by omega)
      rw [hall] at ho
      by_cases hne : held ++ file = []
      · rw [finish, if_pos hw, hne] at ho; simp at ho
      · by_cases hf : file = []
        · subst hf
          have hl := List.getLast?_eq_some_getLast hne
          generalize (held ++ []).getLast hne = c at hl
          cases hc : isNl c with
          | true =>
            rw [finish, if_pos hw, hl] at ho
            simp [hc] at ho
            subst ho
            simp [full]
          | false =>
            obtain ⟨out', h1, h2⟩ := finish_full (counter := counter) hz hne (.inl ⟨c, hl, hc⟩)
            rw [h1] at ho; cases ho; rw [h2]; exact List.prefix_refl _
        · obtain ⟨out', h1, h2⟩ := finish_full (counter := counter) hz hne (.inr hf)
          rw [h1] at ho; cases ho; rw [h2]; exact List.prefix_refl _

/-! ## With a limit, for texts without empty lines -/

/-- The lines still to be delivered. -/
def upTo (limit : Int) (counter : Nat) (ls : List CStr) : List CStr :=
  if limit < 0 then ls else ls.take (limit - counter).toNat

theorem upTo_cons {limit : Int} {counter : Nat} {l : CStr} {ls : List CStr} (h : within limit counter = true) :
    upTo limit counter (l :: ls) = l :: upTo limit (counter + 1) ls := by
  simp only [within, Bool.or_eq_true, decide_eq_true_eq] at h
  simp only [upTo]
  by_cases hl : limit < 0
  · simp [hl]
  · rw [if_neg hl, if_neg hl]
    have : (limit - counter).toNat = (limit - ((counter + 1 : Nat) : Int)).toNat + 1 := by omega
    rw [this, List.take_succ_cons]

theorem upTo_done {limit : Int} {counter : Nat} {ls : List CStr} (h : within limit counter = false) :
    upTo limit counter ls = [] := by
  simp only [within, Bool.or_eq_false_iff, decide_eq_false_iff_not] at h
  rw [upTo, if_neg h.1]
  have : (limit - counter).toNat = 0 := by omega
  rw [this, List.take_zero]

/-- Without empty lines there is nothing to skip. -/
theorem skip_id {r f : CStr} (h : [] ∉ lines (r ++ f)) : r.dropWhile isNl = r := by
  cases r with
  | nil => rfl
  | cons c r =>
    cases hc : isNl c with
    | true => simp [lines, hc] at h
    | false => rw [List.dropWhile_cons_of_neg (by simp [hc])]

theorem final_exact (limit : Int) : ∀ (fuel counter : Nat) (buf : CStr), buf.length ≤ fuel → (0 : UInt8) ∉ buf →
    (∀ c, buf.getLast? = some c → isNl c = true) → [] ∉ lines buf →
    final limit fuel counter buf = upTo limit counter (lines buf) := by
  intro fuel
  induction fuel with
  | zero =>
    intro counter buf hl _ _ _
    have : buf = [] := List.length_eq_zero_iff.1 (by omega)
    subst this; simp [final, lines, upTo]
  | succ fuel ih =>
    intro counter buf hl hz hlast hem
    by_cases hb : buf = []
    · subst hb; simp [final, lines, upTo]
    · cases hw : within limit counter with
      | false => rw [final, if_neg (by simp [hw]), upTo_done hw]
      | true =>
        rcases split buf with h | ⟨l, n, r, rfl, h1, h2⟩
        · have := hlast _ (List.getLast?_eq_some_getLast hb)
          rw [h _ (List.getLast_mem hb)] at this
          cases this
        · have hzl : (0 : UInt8) ∉ l := fun hm => hz (by simp [hm])
          have hzr : (0 : UInt8) ∉ r := fun hm => hz (by simp [hm])
          rw [lines_append h1 h2] at hem
          have hem' : [] ∉ lines r := fun hm => hem (by simp [hm])
          have hid : r.dropWhile isNl = r := skip_id (f := []) (by simpa using hem')
          rw [final, if_pos ⟨hb, hw⟩, nextLine_some h1 h2 hzl, lines_append h1 h2, upTo_cons hw, hid]
          simp only [Option.toList_some]
          rw [ih (counter + 1) r (by simp at hl; omega) hzr ?_ hem']
          · rfl
          · intro c hc
            apply hlast c
            rw [List.getLast?_append, List.getLast?_cons, hc]; rfl

theorem finish_exact {limit : Int} {counter : Nat} {held read : CStr} (hz : (0 : UInt8) ∉ held ++ read)
    (hne : held ++ read ≠ []) (h : Open (held ++ read) ∨ read ≠ []) (hem : [] ∉ lines (held ++ read)) :
    finish limit counter held read = some (upTo limit counter (lines (held ++ read))) := by
  cases hw : within limit counter with
  | false => rw [finish, if_neg (by simp [hw]), upTo_done hw]
  | true =>
    have hl := List.getLast?_eq_some_getLast hne
    generalize (held ++ read).getLast hne = c at hl
    rw [finish, if_pos hw, hl]
    simp only
    cases hc : isNl c with
    | true =>
      have hr : read ≠ [] := by
        rcases h with ⟨d, hd, h⟩ | h
        · rw [hl] at hd; cases hd; rw [h] at hc; cases hc
        · exact h
      rw [if_pos rfl, if_pos hr, final_exact _ _ _ _ (Nat.le_refl _) hz (by intro d hd; rw [hl] at hd; cases hd; exact hc) hem]
    | false =>
      rw [if_neg (by simp), final_exact _ _ _ _ (by simp; omega) (by simp at hz ⊢; exact hz)
        (by intro d hd; simp at hd; subst hd; rfl) (by rw [lines_snoc ⟨c, hl, hc⟩]; exact hem), lines_snoc ⟨c, hl, hc⟩]

theorem loop_exact {length : Nat} (limit : Int) : ∀ (fuel counter : Nat) (held file : CStr), file.length < fuel →
    held.length < length → (0 : UInt8) ∉ held ++ file → Fits length (held ++ file) → Open (held ++ file) →
    [] ∉ lines (held ++ file) →
    loop length limit fuel counter held file = some (upTo limit counter (lines (held ++ file))) := by
  intro fuel
  induction fuel with
  | zero => intro _ _ _ h; omega
  | succ fuel ih =>
    intro counter held file hfu hh hz hfits hopen hem
    cases hw : within limit counter with
    | false => simp [loop, hw, upTo_done hw]
    | true =>
      simp only [loop, hw, if_true]
      by_cases hr : (file.take (length - held.length)).length = length - held.length
      · rw [if_pos hr]
        obtain ⟨l, n, r, e, h1, h2, e'⟩ := full_buffer hh hfits hr
        have hzl : (0 : UInt8) ∉ l := fun hm => hz (by rw [e']; simp [hm])
        rw [e, nextLine_some h1 h2 hzl]
        have hrl := rest_length hh hr e
        rw [e'] at hz hfits hopen hem
        rw [lines_append h1 h2] at hem
        have hem' : [] ∉ lines (r ++ file.drop (length - held.length)) := fun hm => hem (by simp [hm])
        have hid : r.dropWhile isNl = r := skip_id hem'
        have hop := open_skip h2 hopen
        rw [hid] at hop hrl ⊢
        have hlen : (file.drop (length - held.length)).length < fuel := by
          rw [List.length_drop]
          rw [List.length_take] at hr
          omega
        rw [ih (counter + 1) r (file.drop (length - held.length)) hlen hrl
          (fun hm => hz (List.mem_append_right _ (List.mem_cons_of_mem _ hm)))
          (fun x hx => hfits x (by rw [lines_append h1 h2]; simp [hx])) hop hem', e', lines_append h1 h2, upTo_cons hw]
        rfl
      · rw [if_neg hr]
        have hall : file.take (length - held.length) = file := by
          rw [List.length_take] at hr
          exact List.take_of_length_le (by omega)
        rw [hall]
        exact finish_exact hz (by rintro e; rw [e] at hopen; obtain ⟨c, hc, -⟩ := hopen; simp at hc) (.inl hopen) hem

/-! ## The properties -/

/-- C33: without a limit, for every file without zero bytes whose lines fit into the buffer and which does not end with a line
end, the callbacks are, apart from empty strings, the lines that are not empty, each once, in order. Missing: files that end
with a line end, see `C33_lost_violated`. -/
theorem C33_lines_partial (content : CStr) (length : Nat) (hz : (0 : UInt8) ∉ content) (hf : Fits length content)
    (hopen : Open content) :
    ∃ out, iterate content length (-1) = some out ∧ full out = full (lines content) := by
  have hlen : 0 < length := by
    obtain ⟨c, hc, -⟩ := hopen
    cases content with
    | nil => simp at hc
    | cons d t =>
      have : ∃ l, l ∈ lines (d :: t) := by
        simp only [lines]
        split
        · exact ⟨_, List.mem_cons_self⟩
        · split
          · exact ⟨_, List.mem_cons_self⟩
          · exact ⟨_, List.mem_cons_self⟩
      obtain ⟨l, hl⟩ := this
      have := hf l hl
      omega
  exact loop_full _ 0 [] content (Nat.lt_succ_self _) hlen hz hf hopen

/-- C33: with any limit, if moreover no line is empty, the callbacks are exactly the first `limit` lines (all of them if the limit
is negative). Missing: empty lines, and files that end with a line end, see `C33_crlf_violated` and `C33_lost_violated`. -/
theorem C33_exact_partial (content : CStr) (length : Nat) (limit : Int) (hz : (0 : UInt8) ∉ content)
    (hf : Fits length content) (hopen : Open content) (hem : [] ∉ lines content) :
    iterate content length limit = some (if limit < 0 then lines content else (lines content).take limit.toNat) := by
  have hlen : 0 < length := by
    obtain ⟨c, hc, -⟩ := hopen
    cases content with
    | nil => simp at hc
    | cons d t =>
      have : ∃ l, l ∈ lines (d :: t) := by
        simp only [lines]
        split
        · exact ⟨_, List.mem_cons_self⟩
        · split
          · exact ⟨_, List.mem_cons_self⟩
          · exact ⟨_, List.mem_cons_self⟩
      obtain ⟨l, hl⟩ := this
      have := hf l hl
      omega
  have := loop_exact limit (content.length + 1) 0 [] content (Nat.lt_succ_self _) hlen hz hf hopen hem
  rw [iterate, this]
  simp [upTo]

/-- C33: the same for every file, whatever it ends with, that is shorter than the buffer. Missing: the empty file, see
`C33_empty_violated`. -/
theorem C33_short_partial (content : CStr) (length : Nat) (limit : Int) (hz : (0 : UInt8) ∉ content)
    (hlt : content.length < length) (hne : content ≠ []) :
    (∃ out, iterate content length (-1) = some out ∧ full out = full (lines content)) ∧
    ([] ∉ lines content →
      iterate content length limit = some (if limit < 0 then lines content else (lines content).take limit.toNat)) := by
  have key : ∀ limit, iterate content length limit = finish limit 0 [] content := by
    intro limit
    rw [iterate, loop]
    cases hw : within limit 0 with
    | false => simp [finish, hw]
    | true =>
      have h1 : content.take (length - ([] : CStr).length) = content := List.take_of_length_le (by simp; omega)
      simp only [if_true, h1]
      rw [if_neg (by simp; omega)]
  constructor
  · rw [key]; exact finish_full hz hne (.inr hne)
  · intro hem
    rw [key, finish_exact (held := []) hz hne (.inr hne) hem]
    simp [upTo]

/-- C33: for every file whose lines fit into the buffer, what is delivered is never wrong: apart from empty strings it is a start
of the lines that are not empty. Missing: the lines that may be lost, see `C33_lost_violated`. -/
theorem C33_prefix_partial (content : CStr) (length : Nat) (hlen : 0 < length) (hz : (0 : UInt8) ∉ content)
    (hf : Fits length content) (out : List CStr) (h : iterate content length (-1) = some out) :
    full out <+: full (lines content) := loop_prefix _ 0 [] content out hlen hz hf h

/-- What is delivered are ends of lines, each line at most once and in their order. -/
inductive Ends : (delivered lines : List CStr) → Prop
  | nil {ls : List CStr} : Ends [] ls
  | skip {out ls : List CStr} (l : CStr) : Ends out ls → Ends out (l :: ls)
  | take {out ls : List CStr} {d l : CStr} : d <:+ l → Ends out ls → Ends (d :: out) (l :: ls)

theorem Ends.longer {out ls : List CStr} {l : CStr} (p : CStr) (h : Ends out (l :: ls)) : Ends out ((p ++ l) :: ls) := by
  cases h with
  | nil => exact .nil
  | skip _ h => exact .skip _ h
  | take hd h => exact .take (hd.trans (List.suffix_append _ _)) h

theorem Ends.none {out : List CStr} (h : Ends out []) (ls : List CStr) : Ends out ls := by cases h; exact .nil

theorem Ends.skipped {out : List CStr} {r f : CStr} (h : Ends out (lines (r.dropWhile isNl ++ f))) : Ends out (lines (r ++ f)) := by
  induction r with
  | nil => exact h
  | cons c r ih =>
    cases hc : isNl c with
    | true =>
      rw [List.dropWhile_cons_of_pos hc] at h
      rw [List.cons_append, lines, if_pos hc]
      exact .skip _ (ih h)
    | false => rwa [List.dropWhile_cons_of_neg (by simp [hc])] at h

theorem Ends.before {out : List CStr} {l r : CStr} (hl : ∀ c ∈ l, isNl c = false) (h : Ends out (lines r)) : Ends out (lines (l ++ r)) := by
  induction l with
  | nil => exact h
  | cons c l ih =>
    have := ih fun x hx => hl x (by simp [hx])
    rw [List.cons_append, lines, if_neg (by simp [hl c])]
    cases hx : lines (l ++ r) with
    | nil => rw [hx] at this; exact this.none _
    | cons y ys => rw [hx] at this; exact this.longer [c]

theorem final_ends (limit : Int) : ∀ (fuel counter : Nat) (buf : CStr), (0 : UInt8) ∉ buf →
    Ends (final limit fuel counter buf) (lines buf) := by
  intro fuel
  induction fuel with
  | zero => intro counter buf _; exact .nil
  | succ fuel ih =>
    intro counter buf hz
    rw [final]
    by_cases hb : buf ≠ [] ∧ within limit counter = true
    · rw [if_pos hb]
      rcases split buf with h | ⟨l, n, r, rfl, h1, h2⟩
      · rw [nextLine_none h]
        have := ih (counter + 1) [] (by simp)
        simpa using Ends.none this (lines buf)
      · have hzl : (0 : UInt8) ∉ l := fun hm => hz (by simp [hm])
        have hzr : (0 : UInt8) ∉ r := fun hm => hz (by simp [hm])
        rw [nextLine_some h1 h2 hzl, lines_append h1 h2]
        have := ih (counter + 1) (r.dropWhile isNl) (not_mem_dropWhile hzr)
        have := Ends.skipped (r := r) (f := []) (out := final limit fuel (counter + 1) (r.dropWhile isNl)) (by simpa using this)
        exact .take (List.suffix_refl _) (by simpa using this)
    · rw [if_neg hb]; exact .nil

theorem finish_ends {limit : Int} {counter : Nat} {held read : CStr} (hz : (0 : UInt8) ∉ held ++ read) {out : List CStr}
    (h : finish limit counter held read = some out) : Ends out (lines (held ++ read)) := by
  rw [finish] at h
  split at h
  · split at h
    · cases h
    · rename_i c hl
      split at h
      · cases h
        split
        · exact final_ends limit _ _ _ hz
        · exact .nil
      · rename_i hc
        cases h
        rw [← lines_snoc ⟨c, hl, by simpa using hc⟩]
        exact final_ends limit _ _ _ (by simp at hz ⊢; exact hz)
  · cases h; exact .nil

theorem loop_ends {length : Nat} (limit : Int) : ∀ (fuel counter : Nat) (held file : CStr) (out : List CStr),
    (0 : UInt8) ∉ held ++ file → loop length limit fuel counter held file = some out → Ends out (lines (held ++ file)) := by
  intro fuel
  induction fuel with
  | zero => intro _ _ _ _ _ h; cases h
  | succ fuel ih =>
    intro counter held file out hz ho
    by_cases hw : within limit counter = true
    · simp only [loop, hw, if_true] at ho
      have e : held ++ file = held ++ file.take (length - held.length) ++ file.drop (length - held.length) := by
        rw [List.append_assoc, List.take_append_drop]
      have hz1 : (0 : UInt8) ∉ held ++ file.take (length - held.length) := fun hm =>
        hz (by rw [e]; simp only [List.mem_append] at hm ⊢; exact .inl hm)
      have hz2 : (0 : UInt8) ∉ file.drop (length - held.length) := fun hm =>
        hz (by rw [e]; exact List.mem_append_right _ hm)
      by_cases hr : (file.take (length - held.length)).length = length - held.length
      · rw [if_pos hr, Option.map_eq_some_iff] at ho
        obtain ⟨out', h3, rfl⟩ := ho
        rw [e]
        rcases split (held ++ file.take (length - held.length)) with h | ⟨l, n, r, e2, h1, h2⟩
        · rw [nextLine_none h] at h3 ⊢
          have := ih (counter + 1) [] _ out' (by simpa using hz2) h3
          exact Ends.before h (by simpa using this)
        · rw [e2] at hz1 h3 ⊢
          have hzl : (0 : UInt8) ∉ l := fun hm => hz1 (by simp [hm])
          have hzr : (0 : UInt8) ∉ r := fun hm => hz1 (by simp [hm])
          rw [nextLine_some h1 h2 hzl] at h3 ⊢
          have := ih (counter + 1) (r.dropWhile isNl) _ out' (by
            simp only [List.mem_append, not_or]; exact ⟨not_mem_dropWhile hzr, hz2⟩) h3
          have := Ends.skipped this
          rw [List.append_assoc, List.cons_append, lines_append h1 h2]
          exact .take (List.suffix_refl _) this
      · rw [if_neg hr] at ho
        have hall : file.take (length - held.length) = file := by
          rw [List.length_take] at hr
          exact List.take_of_length_le (by omega)
        rw [hall] at ho
        exact finish_ends hz ho
    · simp only [loop, hw] at ho
      cases ho; exact .nil

/-- C33: whatever the file, the buffer and the limit, also when lines do not fit: each string delivered is the end of a line, each
line gives at most one, and in the order of the lines. -/
theorem C33_ends (content : CStr) (length : Nat) (limit : Int) (hz : (0 : UInt8) ∉ content) (out : List CStr)
    (h : iterate content length limit = some out) : Ends out (lines content) := loop_ends limit _ 0 [] content out hz h

/-- Of a line that does not fit into the buffer only an end is delivered. -/
example : iterate c!"abcdefgh\nij" 4 (-1) = some [[], c!"ij"] ∧
    iterate c!"abcdefg\nij" 4 (-1) = some [c!"efg", c!"ij"] := by decide

/-- C33, counterexample: when the last full read ends exactly at the end of the file, and the file ends with a line end,
the lines still in the buffer are not delivered, textfile.c:95. -/
theorem C33_lost_violated : iterate c!"ab\ncd\n" 6 (-1) = some [c!"ab"] ∧ lines c!"ab\ncd\n" = [c!"ab", c!"cd"] := by
  decide

/-- C33, counterexample: for an empty file the byte before the buffer is read, textfile.c:81. -/
theorem C33_empty_violated : iterate [] 10 (-1) = none ∧ iterate c!"ab\n" 3 (-1) = none := by decide

/-- C33, counterexample: when `\r` and `\n` of one line end are in different reads, an empty line is delivered between
the lines, and counts against the limit. -/
theorem C33_crlf_violated : iterate c!"ab\r\ncd" 3 (-1) = some [c!"ab", [], c!"cd"] ∧
    iterate c!"ab\r\ncd" 3 2 = some [c!"ab", []] ∧ iterate c!"ab\r\ncd" 4 2 = some [c!"ab", c!"cd"] := by decide

/-- The hypotheses are met by a file that needs several reads. -/
example : iterate c!"abc\ndefg\nhi\njklmn" 7 (-1) = some [c!"abc", c!"defg", c!"hi", c!"jklmn"] ∧
    iterate c!"abc\ndefg\nhi\njklmn" 7 3 = some [c!"abc", c!"defg", c!"hi"] ∧
    (∀ l ∈ lines c!"abc\ndefg\nhi\njklmn", l.length < 7) ∧ [] ∉ lines c!"abc\ndefg\nhi\njklmn" := by decide

example : Open c!"abc\ndefg\nhi\njklmn" := ⟨110, by decide, by decide⟩

/-- Two full reads with empty lines between. -/
example : iterate c!"a\n\nb\n\n\nc" 4 (-1) = some [c!"a", c!"b", c!"c"] := by decide

end Verif.Text
