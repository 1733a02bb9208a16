import Verif.Yaml.Lemmas

/-!
C60 and C61: iterating the documents of a YAML file.
-/

namespace Verif.Yaml

/-! ## The files: what a document looks like, yamlfile.h:33-52 -/

/-- A line with a pair: the value may be put into single quotes, and the line ends with one or more carriage
returns and line feeds. -/
structure Line where
  key : CStr
  value : CStr
  quoted : Bool
  eol : CStr

/-- The value as it is in the file. -/
def Line.shown (l : Line) : CStr := if l.quoted then c!"'" ++ l.value ++ c!"'" else l.value

/-- The line as it is in the file. -/
def Line.text (l : Line) : CStr := l.key ++ c!": " ++ l.shown ++ l.eol

/-- A document: the line ends after the three dashes and the lines. -/
structure Doc where
  eol : CStr
  lines : List Line

/-- The document as it is in the file. -/
def Doc.text (d : Doc) : CStr := c!"---" ++ d.eol ++ d.lines.flatMap Line.text

/-- A line end. -/
def Eol (e : CStr) : Prop := e ≠ [] ∧ ∀ c ∈ e, c = 10 ∨ c = 13

/-- The lines that are understood: keys do not start with a dash or a dot and have no colon; values that are
not quoted do not start with a quote. -/
structure Line.Ok (l : Line) : Prop where
  key : ∀ c ∈ l.key, c ≠ 0 ∧ c ≠ 10 ∧ c ≠ 13 ∧ c ≠ 58
  dash : l.key.head? ≠ some 45
  dot : l.key.head? ≠ some 46
  value : ∀ c ∈ l.value, c ≠ 0 ∧ c ≠ 10 ∧ c ≠ 13
  quote : l.quoted = false → l.value.head? ≠ some 39
  eol : Eol l.eol

structure Doc.Ok (d : Doc) : Prop where
  eol : Eol d.eol
  lines : ∀ l ∈ d.lines, l.Ok

/-- The buffers are large enough: one more pair than the document has, space for the key, the value and the
closing quote, and the NUL. -/
structure Fits (pairs : List Pair) (d : Doc) : Prop where
  count : d.lines.length < pairs.length ∧ d.lines.length < 32768
  size : ∀ l ∈ d.lines, ∀ p ∈ pairs, l.key.length < p.1.length ∧
    l.value.length + (if l.quoted then 1 else 0) < p.2.length

/-- What the callback should be given: the pairs of each document that has any. -/
def contents (docs : List Doc) : List (List (Option CStr × Option CStr)) :=
  (docs.map fun d => d.lines.map fun l => (some l.key, some l.value)).filter (· ≠ [])

/-! ## Lines and documents -/

variable {caps : List (Nat × Nat)} {ps : List (CStr × CStr)} {n : Nat}
  {o : List (List (Option CStr × Option CStr))} {s : St}

theorem run_line (h : AtLine caps ps n o s) (limit : Nat) (l : Line) (hl : l.Ok) (rest : CStr)
    (hcap : ∀ c ∈ caps, l.key.length < c.1 ∧ l.value.length + (if l.quoted then 1 else 0) < c.2)
    (hroom : ps.length + 1 < caps.length) (h16 : ps.length < 32767) :
    ∃ s', run limit s (l.text ++ rest) = run limit s' rest ∧ AtLine caps (ps ++ [(l.key, l.value)]) n o s' := by
  obtain ⟨e0, e1⟩ := hl.eol
  obtain ⟨p, hp⟩ := h.cur
  have hc1 : caps[ps.length]? = some (p.1.length, p.2.length) := by
    rw [← h.caps, ← h.slot]; exact lens_get hp
  obtain ⟨f1, f2⟩ := hcap _ (List.mem_of_getElem? hc1)
  simp only at f1 f2
  have hb : (buf s).length = p.1.length := by simp [buf, hp, h.inValue]
  obtain ⟨s1, r1, k1, b1⟩ := run_key limit l.key l.key (c!": " ++ l.shown ++ l.eol ++ rest) h.toInKey rfl
    (fun c hc => ⟨(hl.key c hc).2.1, (hl.key c hc).2.2.1, (hl.key c hc).2.2.2⟩) hl.dash hl.dot (by omega)
  obtain ⟨s2, r2, k2, b2, p2⟩ := step_separator k1 limit (l.shown ++ l.eol ++ rest) (fun c hc => (hl.key c hc).1)
    (by omega)
  rw [hc1] at b2
  simp only [Option.map_some, Option.some.injEq] at b2
  have hvc : ∀ c ∈ l.value, c ≠ 10 ∧ c ≠ 13 := fun c hc => (hl.value c hc).2
  have hstart : run limit s (l.text ++ rest) = run limit s2 (l.shown ++ l.eol ++ rest) := by
    rw [← r2, Line.text]
    have := r1
    simp only [List.append_assoc] at this ⊢
    exact this
  obtain ⟨c, eol, he⟩ : ∃ c eol, l.eol = c :: eol := by
    cases h : l.eol with
    | nil => exact absurd h e0
    | cons c eol => exact ⟨c, eol, rfl⟩
  have hce : c = 10 ∨ c = 13 := e1 c (by rw [he]; simp)
  have heol : ∀ x ∈ eol, x = 10 ∨ x = 13 := fun x hx => e1 x (by rw [he]; simp [hx])
  have hv0 : ∀ c ∈ l.value, c ≠ 0 := fun c hc => (hl.value c hc).1
  have hfin : ∀ (t : CStr) (s3 : St), InValue caps ps n o l.key t l.quoted s3 →
      t = (if l.quoted then l.value ++ [39] else l.value) → t.length < (buf s3).length →
      ∃ s', run limit s3 (l.eol ++ rest) = run limit s' rest ∧
        AtLine caps (ps ++ [(l.key, l.value)]) n o s' := by
    intro t s3 k3 ht hlen
    obtain ⟨s4, r4, k4⟩ := end_pair k3 l.value ht hv0 hlen hroom h16 limit c hce
    refine ⟨s4, ?_, k4⟩
    rw [he, List.cons_append, run_cons _ _ _ _ _ r4]
    exact run_blank k4 limit eol rest heol
  rcases hq : l.quoted with _ | _
  · rw [hq] at hfin f2
    obtain ⟨s3, r3, k3, b3⟩ := run_value limit l.value l.value (l.eol ++ rest) k2 rfl hvc (fun _ => hl.quote hq) (by
      simp at f2; omega)
    obtain ⟨s4, r4, k4⟩ := hfin l.value s3 k3 (by simp) (by simp at f2; omega)
    refine ⟨s4, ?_, k4⟩
    rw [hstart, Line.shown, hq]
    simp only [Bool.false_eq_true, if_false, List.append_assoc]
    rw [r3, r4]
  · rw [hq] at hfin f2
    obtain ⟨s3, r3, k3, b3⟩ := step_quote k2 p2 limit (l.value ++ [39] ++ l.eol ++ rest)
    obtain ⟨s4, r4, k4, b4⟩ := run_value limit (l.value ++ [39]) (l.value ++ [39]) (l.eol ++ rest) k3 rfl (by
      intro c hc
      rcases List.mem_append.1 hc with h | h
      · exact hvc c h
      · simp only [List.mem_singleton] at h; subst h; decide) (by simp) (by simp at f2 ⊢; omega)
    obtain ⟨s5, r5, k5⟩ := hfin (l.value ++ [39]) s4 k4 (by simp) (by simp at f2 ⊢; omega)
    refine ⟨s5, ?_, k5⟩
    rw [hstart, Line.shown, hq]
    simp only [if_true]
    have r3' : run limit s2 (c!"'" ++ l.value ++ c!"'" ++ l.eol ++ rest) = run limit s3 (l.value ++ [39] ++ l.eol ++ rest) := by
      rw [← r3]; simp
    rw [r3']
    rw [List.append_assoc (l.value ++ [39]), r4, r5]

theorem run_lines (limit : Nat) (lines : List Line) (rest : CStr) (h : AtLine caps ps n o s)
    (hl : ∀ l ∈ lines, l.Ok)
    (hcap : ∀ l ∈ lines, ∀ c ∈ caps, l.key.length < c.1 ∧ l.value.length + (if l.quoted then 1 else 0) < c.2)
    (hroom : ps.length + lines.length < caps.length) (h16 : ps.length + lines.length < 32768) :
    ∃ s', run limit s (lines.flatMap Line.text ++ rest) = run limit s' rest ∧
      AtLine caps (ps ++ lines.map fun l => (l.key, l.value)) n o s' := by
  induction lines generalizing ps s with
  | nil => exact ⟨s, rfl, by simpa using h⟩
  | cons l lines ih =>
    simp only [List.length_cons] at hroom h16
    obtain ⟨s1, r1, k1⟩ := run_line h limit l (hl l (by simp)) (lines.flatMap Line.text ++ rest)
      (hcap l (by simp)) (by omega) (by omega)
    obtain ⟨s2, r2, k2⟩ := ih k1 (fun x hx => hl x (by simp [hx])) (fun x hx => hcap x (by simp [hx]))
      (by simp; omega) (by simp; omega)
    refine ⟨s2, ?_, by simpa using k2⟩
    rw [List.flatMap_cons, List.append_assoc, r1, r2]

/-- What is passed to the callback for pairs. -/
def emit (ps : List (CStr × CStr)) : List (List (Option CStr × Option CStr)) :=
  if ps = [] then [] else [ps.map fun t => (some t.1, some t.2)]

theorem take_pairs (h : Base caps ps n o s) :
    (s.pairs.take ps.length).map (fun p => (cstr p.1, cstr p.2)) = ps.map fun t => (some t.1, some t.2) := by
  apply List.ext_getElem?
  intro i
  simp only [List.getElem?_map, List.getElem?_take]
  by_cases hi : i < ps.length
  · rw [if_pos hi]
    obtain ⟨p, hp, h1, h2⟩ := h.done i ps[i] (List.getElem?_eq_getElem hi)
    rw [hp, List.getElem?_eq_getElem hi]
    simp [h1, h2]
  · rw [if_neg hi, List.getElem?_eq_none (by omega)]
    rfl

theorem callback_out (h : Base caps ps n o s) : (if s.index > 0 then callback s else s).out = o ++ emit ps := by
  rw [emit, h.index]
  by_cases hp : ps = []
  · subst hp
    simp [h.out]
  · have hpos : 0 < ps.length := List.length_pos_iff.2 hp
    rw [if_pos (by omega), if_neg hp, callback]
    simp only [h.index, Int.toNat_natCast]
    rw [take_pairs h, h.out]

/-- The dashes: the document so far is passed to the callback and a new one begins. -/
theorem run_dashes (h : InKey caps ps n o [] s) (limit : Nat) (eol rest : CStr) (he : Eol eol)
    (hcap : ∀ c ∈ caps, 0 < c.1) :
    if ps ≠ [] ∧ limit ≤ n + 1 then run limit s (c!"---" ++ eol ++ rest) = some (o ++ emit ps)
    else ∃ s', run limit s (c!"---" ++ eol ++ rest) = run limit s' rest ∧
      AtLine caps [] (if ps = [] then n else n + 1) (o ++ emit ps) s' := by
  obtain ⟨e0, e1⟩ := he
  obtain ⟨c, eol, rfl⟩ : ∃ c e, eol = c :: e := by
    cases eol with
    | nil => exact absurd rfl e0
    | cons c e => exact ⟨c, e, rfl⟩
  have hce : c = 10 ∨ c = 13 := e1 c (by simp)
  have hpos : s.pos = 0 := h.pos
  let s1 : St := { s with nl := 0, pos := 1, dash := 1 }
  let s2 : St := { s with nl := 0, pos := 2, dash := 2 }
  let s3 : St := { s with nl := 0, pos := 3, dash := 3 }
  have r1 : step limit s 45 = some (s1, false) := by
    rw [step, if_neg (by decide), if_pos ⟨rfl, by rw [hpos, h.dash]⟩]
    simp only [advance, h.dash, hpos]
    rfl
  have r2 : step limit s1 45 = some (s2, false) := by
    rw [step, if_neg (by decide), if_pos ⟨rfl, rfl⟩]; rfl
  have b3 : Base caps ps n o s3 := ⟨h.caps, h.index, h.slot, h.lt, h.done, h.count, h.out⟩
  have hout := callback_out b3
  have r3 : step limit s2 45 =
      if ps ≠ [] ∧ limit ≤ n + 1 then some ({ callback s3 with count := n + 1 }, true)
      else some ({ (if s3.index > 0 then callback s3 else s3) with
        count := if ps = [] then n else n + 1, index := -1 }, false) := by
    rw [step, if_neg (by decide), if_pos ⟨rfl, rfl⟩]
    show (if s3.index > 0 then
        if s3.count + 1 ≥ limit then some ({ callback s3 with count := s3.count + 1 }, true)
        else some ({ { callback s3 with count := s3.count + 1 } with index := -1 }, false)
      else some ({ s3 with index := -1 }, false)) = _
    rw [b3.count, b3.index]
    by_cases hp : ps = []
    · subst hp
      simp [b3.count]
    · have hl : (0 : Int) < ps.length := by have := List.length_pos_iff.2 hp; omega
      rw [if_pos hl, if_pos hl]
      simp only [hp, ne_eq, not_false_eq_true, true_and, if_false, ge_iff_le]
  have hrun : run limit s (c!"---" ++ (c :: eol) ++ rest) = run limit s2 (45 :: (c :: eol ++ rest)) := by
    show run limit s (45 :: 45 :: 45 :: (c :: eol ++ rest)) = _
    rw [run_cons _ _ _ _ _ r1, run_cons _ _ _ _ _ r2]
  rw [hrun]
  by_cases hcond : ps ≠ [] ∧ limit ≤ n + 1
  · rw [if_pos hcond] at r3 ⊢
    rw [run, r3]
    have hl : (0 : Int) < ps.length := by have := List.length_pos_iff.2 hcond.1; omega
    rw [b3.index, if_pos hl] at hout
    simpa using hout
  · rw [if_neg hcond] at r3 ⊢
    rw [run_cons _ _ _ _ _ r3]
    let x : St := if s3.index > 0 then callback s3 else s3
    let s4 : St := { x with count := if ps = [] then n else n + 1, index := -1 }
    have hx : ∀ {α} (f : St → α), f (callback s3) = f s3 → f x = f s3 := by
      intro α f hf
      show f (if _ then _ else _) = _
      split
      · exact hf
      · rfl
    have x1 : x.pairs = s.pairs := hx (·.pairs) rfl
    have x2 : x.slot = ps.length := (hx (·.slot) rfl).trans h.slot
    have x3 : x.inValue = false := (hx (·.inValue) rfl).trans h.inValue
    have x4 : x.off = 0 := (hx (·.off) rfl).trans h.off
    have x5 : x.nl = 0 := hx (·.nl) rfl
    have x6 : x.quote = 0 := (hx (·.quote) rfl).trans h.quote
    obtain ⟨p, hp⟩ := h.cur
    rw [h.slot] at hp
    have hp4 : s4.pairs[s4.slot]? = some p := by
      show x.pairs[x.slot]? = _
      rw [x1, x2]; exact hp
    have hcp : 0 < p.1.length := by
      have hc1 : caps[ps.length]? = some (p.1.length, p.2.length) := by
        rw [← h.caps]; exact lens_get hp
      exact hcap _ (List.mem_of_getElem? hc1)
    obtain ⟨pairs, w1, w2, w3, w4, w5⟩ := write_spec s4 p 0 hp4 (by
      have : buf s4 = p.1 := by
        rw [buf, hp4]; show (if x.inValue = true then _ else _) = _; rw [x3]; rfl
      rw [this]; show x.off < _; rw [x4]; exact hcp)
    have w2' : lens pairs = lens s.pairs := by rw [w2]; show lens x.pairs = _; rw [x1]
    have hpl : pairs.length = s.pairs.length := by rw [← lens_length, w2', lens_length]
    have r4 : step limit s4 c = some ({ newLine { s4 with pairs := pairs, off := 0, index := 0, slot := 0, inValue := false } with nl := 1 }, false) := by
      have hq : closeQuote s4 = some s4 := by
        rw [closeQuote, if_neg (by show ¬ x.quote > 0; rw [x6]; decide)]
      have hn : nextPair s4 = some { s4 with pairs := pairs, off := 0, index := 0, slot := 0, inValue := false } := by
        rw [nextPair, w1, Option.bind_some, setCurrent]
        have hlt := h.lt
        rw [if_pos (by
          show 0 ≤ wrap16 (-1 + 1) ∧ wrap16 (-1 + 1) < (pairs.length : Int)
          rw [hpl]; simp [wrap16]; omega)]
        rfl
      rw [step, if_pos hce, endLine, if_pos (by show x.nl = 0; exact x5), hq, Option.bind_some, hn]
      rfl
    have k4 : AtLine caps [] (if ps = [] then n else n + 1) (o ++ emit ps)
        { newLine { s4 with pairs := pairs, off := 0, index := 0, slot := 0, inValue := false } with nl := 1 } := by
      refine ⟨⟨⟨?_, rfl, rfl, ?_, ?_, rfl, hout⟩, rfl, rfl, rfl, rfl, rfl, rfl, rfl, rfl⟩, rfl⟩
      · show lens pairs = caps
        rw [w2', h.caps]
      · show 0 < pairs.length
        rw [hpl]; have := h.lt; omega
      · intro i t hi; simp at hi
    refine ⟨_, ?_, k4⟩
    rw [List.cons_append, run_cons _ _ _ _ _ r4]
    exact run_blank k4 limit eol rest (fun x hx => e1 x (by simp [hx]))

/-- The dots: the last document is passed to the callback. -/
theorem run_dots (h : InKey caps ps n o [] s) (limit : Nat) (rest : CStr) :
    run limit s (c!"..." ++ rest) = some (o ++ emit ps) := by
  have hpos : s.pos = 0 := h.pos
  have r1 : step limit s 46 = some ({ s with nl := 0, pos := 1, dot := 1 }, false) := by
    rw [step, if_neg (by decide), if_neg (by simp), if_pos ⟨rfl, by rw [hpos, h.dot]⟩]
    simp only [advance, h.dot, hpos]
    rfl
  have r2 : step limit { s with nl := 0, pos := 1, dot := 1 } 46 = some ({ s with nl := 0, pos := 2, dot := 2 }, false) := by
    rw [step, if_neg (by decide), if_neg (by simp), if_pos ⟨rfl, rfl⟩]; rfl
  have b3 : Base caps ps n o { s with nl := 0, pos := 3, dot := 3 } :=
    ⟨h.caps, h.index, h.slot, h.lt, h.done, h.count, h.out⟩
  have r3 : step limit { s with nl := 0, pos := 2, dot := 2 } 46 =
      some (if { s with nl := 0, pos := 3, dot := 3 : St }.index > 0 then callback { s with nl := 0, pos := 3, dot := 3 }
        else { s with nl := 0, pos := 3, dot := 3 }, true) := by
    rw [step, if_neg (by decide), if_neg (by simp), if_pos ⟨rfl, rfl⟩]; rfl
  show run limit s (46 :: 46 :: 46 :: rest) = _
  rw [run_cons _ _ _ _ _ r1, run_cons _ _ _ _ _ r2, run, r3, Option.bind_some, if_pos rfl, callback_out b3]

theorem run_eof (h : AtLine caps ps n o s) (limit : Nat) : run limit s [] = some (o ++ emit ps) := by
  rw [run, eof, endLine, if_neg (by rw [h.nl]; decide)]
  simp only [Option.map_some, callback_out h.toBase]

theorem contents_cons (d : Doc) (docs : List Doc) :
    contents (d :: docs) = emit (d.lines.map fun l => (l.key, l.value)) ++ contents docs := by
  by_cases h : d.lines = []
  · simp [contents, emit, h]
  · simp [contents, emit, h, Function.comp_def]

theorem take_emit (ps : List (CStr × CStr)) (k : Nat) (hk : 0 < k) : (emit ps).take k = emit ps := by
  apply List.take_of_length_le
  unfold emit
  split <;> simp <;> omega

/-- All documents. -/
theorem run_docs (limit : Nat) (docs : List Doc) (tail : CStr) (h : InKey caps ps n o [] s)
    (hok : ∀ d ∈ docs, d.Ok) (hcap1 : ∀ c ∈ caps, 0 < c.1)
    (hcap : ∀ d ∈ docs, ∀ l ∈ d.lines, ∀ c ∈ caps, l.key.length < c.1 ∧
      l.value.length + (if l.quoted then 1 else 0) < c.2)
    (hroom : ∀ d ∈ docs, d.lines.length < caps.length ∧ d.lines.length < 32768)
    (htail : (∃ rest, tail = c!"..." ++ rest) ∨ tail = [] ∧ (docs ≠ [] ∨ s.nl = 1)) (hn : n < max 1 limit) :
    run limit s (docs.flatMap Doc.text ++ tail) =
      some (o ++ (emit ps ++ contents docs).take (max 1 limit - n)) := by
  induction docs generalizing s ps n o with
  | nil =>
    have hc : contents [] = [] := rfl
    rw [hc, List.append_nil, take_emit _ _ (by omega)]
    rcases htail with ⟨rest, rfl⟩ | ⟨rfl, ht⟩
    · exact run_dots h limit rest
    · exact run_eof ⟨h, by simpa using ht⟩ limit
  | cons d docs ih =>
    have hd := hok d (by simp)
    have key := run_dashes h limit d.eol (d.lines.flatMap Line.text ++ (docs.flatMap Doc.text ++ tail)) hd.eol hcap1
    have htext : (d :: docs).flatMap Doc.text ++ tail =
        c!"---" ++ d.eol ++ (d.lines.flatMap Line.text ++ (docs.flatMap Doc.text ++ tail)) := by
      simp [List.flatMap_cons, Doc.text]
    rw [htext, contents_cons]
    by_cases hstop : ps ≠ [] ∧ limit ≤ n + 1
    · rw [if_pos hstop] at key
      rw [key]
      have h1 : max 1 limit - n = 1 := by omega
      rw [h1]
      simp [emit, hstop.1]
    · rw [if_neg hstop] at key
      obtain ⟨s1, r1, k1⟩ := key
      have hr := hroom d (by simp)
      obtain ⟨s2, r2, k2⟩ := run_lines limit d.lines (docs.flatMap Doc.text ++ tail) k1 hd.lines
        (hcap d (by simp)) (by simpa using hr.1) (by simpa using hr.2)
      rw [List.nil_append] at k2
      have := ih k2.toInKey (fun x hx => hok x (by simp [hx])) (fun x hx => hcap x (by simp [hx]))
        (fun x hx => hroom x (by simp [hx]))
        (by rcases htail with h | ⟨h, -⟩
            · exact .inl h
            · exact .inr ⟨h, .inr k2.nl⟩)
        (by
          by_cases hp : ps = []
          · simp only [hp, if_true]; exact hn
          · simp only [hp, if_false]
            have : ¬ limit ≤ n + 1 := fun h => hstop ⟨hp, h⟩
            omega)
      rw [r1, r2, this]
      by_cases hp : ps = []
      · subst hp; simp [emit]
      · have hlim : ¬ limit ≤ n + 1 := fun h => hstop ⟨hp, h⟩
        simp only [hp, if_false, emit, List.cons_append, List.nil_append, List.append_assoc]
        have : max 1 limit - n = (max 1 limit - (n + 1)) + 1 := by omega
        rw [this, List.take_succ_cons]

/-! ## The blocks -/

theorem runBlocks_eq (length limit : Nat) (hl : 0 < length) (k : Nat) (s : St) (r : Reader)
    (hk : r.block.length + r.rest.length ≤ k) :
    runBlocks length limit s r = run limit s (r.block ++ r.rest) := by
  induction k generalizing s r with
  | zero =>
    have h1 : r.block = [] := List.length_eq_zero_iff.1 (by omega)
    have h2 : r.rest = [] := List.length_eq_zero_iff.1 (by omega)
    rw [runBlocks]
    have hn : readNext length r = none := by simp [readNext, h1, h2]
    split
    · simp [h1, h2, run]
    · rename_i h; rw [hn] at h; cases h
  | succ k ih =>
    rw [runBlocks]
    have key : (readNext length r = none ∧ r.block ++ r.rest = []) ∨
        ∃ c r', readNext length r = some (c, r') ∧ r.block ++ r.rest = c :: (r'.block ++ r'.rest) := by
      cases hb : r.block with
      | cons c b => exact .inr ⟨c, ⟨b, r.rest⟩, by simp [readNext, hb], by simp⟩
      | nil =>
        cases hr : r.rest with
        | nil => exact .inl ⟨by simp [readNext, hb, hr], rfl⟩
        | cons c rest =>
          obtain ⟨m, rfl⟩ : ∃ m, length = m + 1 := ⟨length - 1, by omega⟩
          exact .inr ⟨c, ⟨rest.take m, rest.drop m⟩, by simp [readNext, hb, hr], by simp⟩
    rcases key with ⟨h1, h2⟩ | ⟨c, r', h1, h2⟩
    · split
      · rw [h2]; rfl
      · rename_i h; rw [h1] at h; cases h
    · split
      · rename_i h; rw [h1] at h; cases h
      · rename_i c' r'' h
        rw [h1] at h
        cases h
        rw [h2, run]
        have hlt := readNext_less h1
        congr 1
        funext q
        split
        · rfl
        · exact ih q.1 r' (by omega)

theorem iterate_run (file : List UInt8) (length : Nat) (hl : 0 < length) (pairs : List Pair) (limit : Int) :
    iterateWithLimit file length pairs limit = (start pairs).bind fun s => run (effective limit) s file := by
  rw [iterateWithLimit]
  congr 1
  funext s
  rw [runBlocks_eq length _ hl _ _ _ (Nat.le_refl _)]
  rfl

/-! ## C60 -/

/-- The documents that a file with the given ending has. -/
theorem iterate_docs (docs : List Doc) (hok : ∀ d ∈ docs, d.Ok) (pairs : List Pair) (hp : pairs ≠ [])
    (hp1 : ∀ p ∈ pairs, 0 < p.1.length) (hfit : ∀ d ∈ docs, Fits pairs d) (tail : CStr)
    (htail : (∃ rest, tail = c!"..." ++ rest) ∨ tail = [] ∧ docs ≠ []) (length : Nat) (hl : 0 < length)
    (limit : Int) :
    iterateWithLimit (docs.flatMap Doc.text ++ tail) length pairs limit =
      some ((contents docs).take (max 1 (effective limit))) := by
  rw [iterateWithLimit, start, if_neg hp, Option.bind_some, runBlocks_eq length _ hl _ _ _ (Nat.le_refl _)]
  have hk : InKey (lens pairs) [] 0 [] []
      { pairs := pairs, index := 0, slot := 0, inValue := false, off := 0 } :=
    ⟨⟨rfl, rfl, rfl, List.length_pos_iff.2 hp, by intro i t h; simp at h, rfl, rfl⟩, rfl, rfl, rfl, rfl, rfl, rfl, rfl, rfl⟩
  have hmem : ∀ c ∈ lens pairs, ∃ p ∈ pairs, c = (p.1.length, p.2.length) := by
    intro c hc
    obtain ⟨p, h1, h2⟩ := List.mem_map.1 hc
    exact ⟨p, h1, h2.symm⟩
  have := run_docs (effective limit) docs tail hk hok
    (by intro c hc; obtain ⟨p, h1, rfl⟩ := hmem c hc; exact hp1 p h1)
    (by intro d hd l hl c hc; obtain ⟨p, h1, rfl⟩ := hmem c hc; exact (hfit d hd).size l hl p h1)
    (by intro d hd; rw [lens_length]; exact (hfit d hd).count)
    (by rcases htail with h | ⟨h1, h2⟩
        · exact .inl h
        · exact .inr ⟨h1, .inl h2⟩) (by omega)
  simpa [emit] using this

/-- C60: the callback is given exactly the documents of the file in order, each with exactly its keys and
values, for every size of the read buffer, whatever the buffers for the pairs held before. The file ends
after the last document or with a line of dots, after which anything may follow. Missing, because the code
violates it: documents with as many pairs as there is room for (`C60_full_violated`), texts that do not fit
(`C60_cut_violated`), keys that start with a dot (`C60_dot_violated`), values that are a single quote
(`C60_quote_violated`), files that are empty or start with an empty line (`C60_empty_violated`,
`C60_blank_violated`) and more than 32767 pairs, the limit of the `int16_t` index. -/
theorem C60_documents_partial (docs : List Doc) (hok : ∀ d ∈ docs, d.Ok) (pairs : List Pair) (hp : pairs ≠ [])
    (hp1 : ∀ p ∈ pairs, 0 < p.1.length) (hfit : ∀ d ∈ docs, Fits pairs d) (tail : CStr)
    (htail : (∃ rest, tail = c!"..." ++ rest) ∨ tail = [] ∧ docs ≠ []) (length : Nat) (hl : 0 < length)
    (hmany : docs.length < 2 ^ 31) :
    iterate (docs.flatMap Doc.text ++ tail) length pairs = some (contents docs) := by
  rw [iterate, iterate_docs docs hok pairs hp hp1 hfit tail htail length hl]
  congr 1
  apply List.take_of_length_le
  have : (contents docs).length ≤ docs.length := by
    rw [contents]; exact Nat.le_trans (List.length_filter_le _ _) (by simp)
  have h2 : max 1 (effective (-1)) = 2147483647 := by decide
  omega

/-- C60: the size of the read buffer has no effect, whatever is in the file. -/
theorem C60_buffer (file : List UInt8) (a b : Nat) (ha : 0 < a) (hb : 0 < b) (pairs : List Pair) (limit : Int) :
    iterateWithLimit file a pairs limit = iterateWithLimit file b pairs limit := by
  rw [iterateWithLimit, iterateWithLimit]
  congr 1
  funext s
  rw [runBlocks_eq a _ ha _ _ _ (Nat.le_refl _), runBlocks_eq b _ hb _ _ _ (Nat.le_refl _)]

theorem run_newline (limit : Nat) (s : St) (file : List UInt8) : run limit s (file ++ [10]) = run limit s file := by
  induction file generalizing s with
  | nil =>
    show run limit s [10] = run limit s []
    have hs : step limit s 10 = (endLine s).map fun s => ({ newLine s with nl := 1 }, false) := by
      rw [step, if_pos (Or.inl rfl)]
    rw [run, run, hs, eof]
    rcases he : endLine s with _ | s1
    · rfl
    · simp only [Option.map_some, Option.bind_some, Bool.false_eq_true, if_false]
      rw [run, eof, endLine, if_neg (by simp)]
      simp only [Option.map_some, newLine]
      by_cases hi : s1.index > 0
      · rw [if_pos hi, if_pos hi]; rfl
      · rw [if_neg hi, if_neg hi]
  | cons c file ih =>
    simp only [List.cons_append, run]
    congr 1
    funext q
    split
    · rfl
    · exact ih q.1

/-- C60: the last line needs no line end; a file without one gives the same as the file with one. -/
theorem C60_lastLine (file : List UInt8) (length : Nat) (hl : 0 < length) (pairs : List Pair) (limit : Int) :
    iterateWithLimit file length pairs limit = iterateWithLimit (file ++ c!"\n") length pairs limit := by
  rw [iterateWithLimit, iterateWithLimit]
  congr 1
  funext s
  rw [runBlocks_eq length _ hl _ _ _ (Nat.le_refl _), runBlocks_eq length _ hl _ _ _ (Nat.le_refl _)]
  exact (run_newline _ s file).symm

/-- C61: with a positive limit the callback is given the first documents of the file, as many as the limit
says or as there are. Missing: a limit of zero (`C61_zero_violated`). -/
theorem C61_limit_partial (docs : List Doc) (hok : ∀ d ∈ docs, d.Ok) (pairs : List Pair) (hp : pairs ≠ [])
    (hp1 : ∀ p ∈ pairs, 0 < p.1.length) (hfit : ∀ d ∈ docs, Fits pairs d) (tail : CStr)
    (htail : (∃ rest, tail = c!"..." ++ rest) ∨ tail = [] ∧ docs ≠ []) (length : Nat) (hl : 0 < length)
    (limit : Nat) (hlim : 0 < limit) :
    iterateWithLimit (docs.flatMap Doc.text ++ tail) length pairs limit = some ((contents docs).take limit) := by
  rw [iterate_docs docs hok pairs hp hp1 hfit tail htail length hl]
  have : max 1 (effective (limit : Int)) = limit := by
    rw [effective, if_neg (by omega), Int.toNat_natCast]; omega
  rw [this]

/-- C61: every negative limit means that there is none: the result is that of the iteration without a limit, whatever is
in the file. -/
theorem C61_none (file : List UInt8) (length : Nat) (pairs : List Pair) (limit : Int) (h : limit < 0) :
    iterateWithLimit file length pairs limit = iterate file length pairs := by
  rw [iterate, iterateWithLimit, iterateWithLimit, effective, if_pos h]
  rfl

/-! ## Concrete files -/

/-- Room for `n` pairs with texts of at most seven bytes; the buffers hold old bytes and no NUL. -/
def room (n : Nat) : List Pair := List.replicate n (List.replicate 8 120, List.replicate 8 120)

/-- Two documents and an empty one between them. -/
def sample : List Doc :=
  [⟨c!"\n", [⟨c!"a.b", c!"1:2", false, c!"\n"⟩, ⟨c!"c-d", c!"it's", true, c!"\r\n\n"⟩]⟩, ⟨c!"\r\n", []⟩,
   ⟨c!"\n", [⟨c!"e", c!"", false, c!"\n"⟩]⟩]

example : sample.flatMap Doc.text = c!"---\na.b: 1:2\nc-d: 'it's'\r\n\n---\r\n---\ne: \n" := by decide

example : contents sample =
    [[(some c!"a.b", some c!"1:2"), (some c!"c-d", some c!"it's")], [(some c!"e", some c!"")]] := by decide

theorem sample_ok : (∀ d ∈ sample, d.Ok) ∧ ∀ d ∈ sample, Fits (room 3) d := by
  simp only [sample, List.forall_mem_cons, List.not_mem_nil, false_implies, implies_true, and_true]
  refine ⟨⟨⟨?_, ?_⟩, ⟨?_, ?_⟩, ⟨?_, ?_⟩⟩, ⟨?_, ?_⟩, ⟨?_, ?_⟩, ⟨?_, ?_⟩⟩ <;>
    first
    | exact ⟨by decide, by decide⟩
    | decide
    | simp only [List.forall_mem_cons, List.not_mem_nil, false_implies, implies_true, and_true]
  · exact ⟨⟨by decide, by decide, by decide, by decide, by decide, ⟨by decide, by decide⟩⟩,
      ⟨by decide, by decide, by decide, by decide, by decide, ⟨by decide, by decide⟩⟩⟩
  · exact ⟨by decide, by decide, by decide, by decide, by decide, ⟨by decide, by decide⟩⟩

example : iterate (sample.flatMap Doc.text ++ c!"...\nx") 5 (room 3) = some (contents sample) :=
  C60_documents_partial sample sample_ok.1 (room 3) (by decide) (by decide) sample_ok.2 _ (.inl ⟨_, rfl⟩) 5
    (by decide) (by decide)

example : iterateWithLimit (sample.flatMap Doc.text) 5 (room 3) 1 = some ((contents sample).take 1) :=
  C61_limit_partial sample sample_ok.1 (room 3) (by decide) (by decide) sample_ok.2 [] (.inr ⟨rfl, by decide⟩) 5
    (by decide) 1 (by decide)

/-! ## Violations -/

/-- C60 fails for a document with as many pairs as the array has: the pair after the last one is read. -/
theorem C60_full_violated : iterate c!"---\na: 1\nb: 2\n...\n" 16 (room 2) = none := by
  rw [iterate, iterate_run _ _ (by decide)]; decide

/-- C60 fails for a text that does not fit: it is cut and no error is reported (yamlfile.h:61-64 promises an
error). -/
theorem C60_cut_violated : iterate c!"---\na: 123456789\n...\n" 16 (room 2) =
    some [[(some c!"a", some c!"1234567")]] := by
  rw [iterate, iterate_run _ _ (by decide)]; decide

/-- C60 fails for a key that starts with a dot, which yamlfile.h:45 allows: the dot is lost. -/
theorem C60_dot_violated : iterate c!"---\n.a: 1\n...\n" 16 (room 2) = some [[(some c!"a", some c!"1")]] := by
  rw [iterate, iterate_run _ _ (by decide)]; decide

/-- C60 fails for a value that is a single quote: the byte before the value buffer is read. -/
theorem C60_quote_violated : iterate c!"---\na: '\n...\n" 16 (room 2) = none := by
  rw [iterate, iterate_run _ _ (by decide)]; decide

/-- C60 fails for an empty file: the callback is given a document with one pair whose value buffer has not
been written. -/
theorem C60_empty_violated : iterate [] 16 (room 2) = some [[(some [], none)]] := by
  rw [iterate, iterate_run _ _ (by decide)]; decide

/-- C60 fails for a file that starts with an empty line: the callback is given a document that is not in the
file. -/
theorem C60_blank_violated : iterate c!"\n---\na: 1\n...\n" 16 (room 2) =
    some [[(some [], none)], [(some c!"a", some c!"1")]] := by
  rw [iterate, iterate_run _ _ (by decide)]; decide

/-- C60 fails for a line without a separator: the callback is given the value of another document. -/
theorem C60_stale_violated : iterate c!"---\na: 1\n---\nb\n...\n" 16 (room 2) =
    some [[(some c!"a", some c!"1")], [(some c!"b", some c!"1")]] := by
  rw [iterate, iterate_run _ _ (by decide)]; decide

/-- C60 fails for a pair on the line of the dashes: the pair before the first one is read. -/
theorem C60_start_violated : iterate c!"--- a: 1\n...\n" 16 (room 2) = none := by
  rw [iterate, iterate_run _ _ (by decide)]; decide

/-- C61: in the sample file without a limit all documents are given, with a limit of one the first. -/
example : iterateWithLimit (sample.flatMap Doc.text ++ c!"...\n") 7 (room 3) (-5) = some (contents sample) ∧
    iterateWithLimit (sample.flatMap Doc.text ++ c!"...\n") 7 (room 3) 1 = some ((contents sample).take 1) := by
  refine ⟨?_, C61_limit_partial sample sample_ok.1 (room 3) (by decide) (by decide) sample_ok.2 _
    (Or.inl ⟨_, rfl⟩) 7 (by decide) 1 (by decide)⟩
  rw [C61_none _ _ _ _ (by decide)]
  exact C60_documents_partial sample sample_ok.1 (room 3) (by decide) (by decide) sample_ok.2 _
    (Or.inl ⟨c!"\n", rfl⟩) 7 (by decide) (by decide)

/-- C61 fails for a limit of zero: one document is passed to the callback. -/
theorem C61_zero_violated : iterateWithLimit c!"---\na: 1\n---\nb: 2\n...\n" 16 (room 2) 0 =
    some [[(some c!"a", some c!"1")]] := by
  rw [iterate_run _ _ (by decide)]; decide

end Verif.Yaml
