import Verif.Status.Model

/-! # Properties of the status messages: C36 -/

namespace Verif.Status

/-- A format with no conversion. -/
def plain (l : CStr) : Bool := l.all (· != 37)

/-- Splits a format at its first `%s`. -/
def splitFile : CStr → Option (CStr × CStr)
  | 37 :: 115 :: rest => some ([], rest)
  | [] => none
  | c :: rest => (splitFile rest).map fun q => (c :: q.1, q.2)

theorem expand_cons {c : UInt8} {rest : CStr} {a : Option Arg} (h : c ≠ 37) :
    expand (c :: rest) a = (expand rest a).map (c :: ·) := by
  rw [expand] <;> simp_all

theorem expand_append {pre rest : CStr} {a : Option Arg} (h : plain pre = true) :
    expand (pre ++ rest) a = (expand rest a).map (pre ++ ·) := by
  induction pre with
  | nil => simp
  | cons c pre ih =>
    simp only [plain, List.all_cons, Bool.and_eq_true, bne_iff_ne] at h
    rw [List.cons_append, expand_cons h.1, ih (by simpa [plain] using h.2)]
    cases expand rest a <;> simp

theorem expand_plain {l : CStr} {a : Option Arg} (h : plain l = true) : expand l a = some l := by
  have := expand_append (rest := []) (a := a) h
  simpa [expand] using this

theorem expand_str {pre post s : CStr} (h1 : plain pre = true) (h2 : plain post = true) :
    expand (pre ++ 37 :: 115 :: post) (some (.str s)) = some (pre ++ s ++ post) := by
  rw [expand_append h1, expand, expand_plain h2]
  simp

theorem expand_int {pre post : CStr} {i : Int} (h1 : plain pre = true) (h2 : plain post = true) :
    expand (pre ++ 37 :: 105 :: post) (some (.int i)) = some (pre ++ decimal i ++ post) := by
  rw [expand_append h1, expand, expand_plain h2]
  simp

theorem hasFile_append {pre post : CStr} : hasFile (pre ++ 37 :: 115 :: post) = true := by
  induction pre with
  | nil => simp [hasFile]
  | cons c pre ih =>
    cases pre with
    | nil => simp [hasFile]
    | cons d pre => simp only [List.cons_append, hasFile] at ih ⊢; rw [ih]; simp

theorem hasFile_plain {l : CStr} (h : plain l = true) : hasFile l = false := by
  induction l with
  | nil => rfl
  | cons c l ih =>
    simp only [plain, List.all_cons, Bool.and_eq_true, bne_iff_ne] at h
    cases l with
    | nil => rfl
    | cons d l =>
      simp only [hasFile, ih (by simpa [plain] using h.2), Bool.or_false, Bool.and_eq_false_iff]
      exact .inl (by simpa using h.1)

/-- What the table contains: texts without zero bytes, with at most one conversion, which is `%s`. -/
def rowOk (m : CStr) : Bool :=
  m.all (· != 0) &&
  (plain m || match splitFile m with
    | some (pre, post) => (m == pre ++ 37 :: 115 :: post) && plain pre && plain post
    | none => false)

theorem messages_ok : messages.all (fun r => rowOk r.2) = true := by decide +kernel

theorem row {status : Nat} {m : CStr} (h : find status = some m) :
    (∀ c ∈ m, c ≠ 0) ∧ (plain m = true ∨ ∃ pre post, m = pre ++ 37 :: 115 :: post ∧ plain pre = true ∧ plain post = true) := by
  simp only [find, Option.map_eq_some_iff] at h
  obtain ⟨r, h, rfl⟩ := h
  have hr := List.all_eq_true.1 messages_ok r (List.mem_of_find?_eq_some h)
  simp only [rowOk, Bool.and_eq_true, Bool.or_eq_true, List.all_eq_true, bne_iff_ne] at hr
  refine ⟨hr.1, ?_⟩
  rcases hr.2 with h1 | h1
  · exact .inl h1
  · split at h1
    · rename_i pre post _
      simp only [beq_iff_eq, Bool.and_eq_true] at h1
      exact .inr ⟨pre, post, h1.1.1, h1.1.2, h1.2⟩
    · cases h1

/-- C36: for every status with a message and every file name (or none) the message is complete and fills the memory
allocated for it exactly, terminator included; it contains no other zero byte; and where the text of the message has
`%s` the message has the file name. -/
theorem C36_message {status : Nat} {m : CStr} (h : find status = some m) (file : Option CStr)
    (hz : ∀ f ∈ file, ∀ c ∈ f, c ≠ 0) (alloc2 : Bool) :
    ∃ text, getMessage true alloc2 status file = some ⟨(text ++ [0]).length, text ++ [0]⟩ ∧ (∀ c ∈ text, c ≠ 0) ∧
      ((37 ∉ m ∧ text = m) ∨
       ∃ pre post, m = pre ++ c!"%s" ++ post ∧ text = pre ++ file.getD c!"null" ++ post ∧ 37 ∉ pre ∧ 37 ∉ post) := by
  have hf : ∀ c ∈ file.getD c!"null", c ≠ 0 := by
    cases file with
    | none => decide
    | some f => exact hz f rfl
  have hpl : ∀ l, plain l = true → 37 ∉ l := by
    intro l h hm
    simp only [plain, List.all_eq_true, bne_iff_ne] at h
    exact h _ hm rfl
  obtain ⟨h0, hrow⟩ := row h
  rcases hrow with h1 | ⟨pre, post, rfl, h1, h2⟩
  · refine ⟨m, ?_, h0, .inl ⟨hpl m h1, rfl⟩⟩
    simp only [getMessage, h, if_true, snprintf, expand_plain h1, hasFile_plain h1]
    simp
  · refine ⟨pre ++ file.getD c!"null" ++ post, ?_, ?_, .inr ⟨pre, post, by simp, rfl, hpl _ h1, hpl _ h2⟩⟩
    · simp only [getMessage, h, if_true, snprintf, expand_str h1 h2, hasFile_append]
      have e : (pre ++ 37 :: 115 :: post).length + (file.getD c!"null").length - 1 =
          (pre ++ file.getD c!"null" ++ post ++ [0]).length := by simp only [List.length_append, List.length_cons, List.length_nil]; omega
      rw [e]
      have e' : (pre ++ file.getD c!"null" ++ post ++ [0]).length = (pre ++ file.getD c!"null" ++ post).length + 1 := by
        rw [List.length_append (bs := [0])]; rfl
      simp only [Option.bind_eq_bind, Option.bind_some, e', Nat.add_sub_cancel, List.take_length]
      simp
    · intro c hc
      simp only [List.mem_append] at hc
      rcases hc with (hc | hc) | hc
      · exact h0 c (by simp [hc])
      · exact hf c hc
      · exact h0 c (by simp [hc])

theorem digits_ne (n : Nat) : ∀ c ∈ digits n, c ≠ 0 := by
  intro c hc
  simp only [digits, List.mem_map] at hc
  obtain ⟨d, hd, rfl⟩ := hc
  have h := Nat.isDigit_of_mem_toDigits (by omega) (by omega) hd
  simp only [Char.isDigit, Bool.and_eq_true, decide_eq_true_eq] at h
  have h1 : 48 ≤ d.toNat := h.1
  have h2 : d.toNat ≤ 57 := h.2
  intro e
  have e := congrArg UInt8.toNat e
  simp at e
  omega

theorem decimal_ne (i : Int) : ∀ c ∈ decimal i, c ≠ 0 := by
  cases i with
  | ofNat n => exact digits_ne n
  | negSucc n =>
    intro c hc
    simp only [decimal, List.mem_cons] at hc
    rcases hc with rfl | hc
    · decide
    · exact digits_ne _ c hc

/-- C36: for every other status, and when there is no memory for the message, the message is the start of the default
text with the number of the status, terminated within the memory allocated for it. -/
theorem C36_default (status : Nat) (file : Option CStr) (alloc1 : Bool) (h : find status = none ∨ alloc1 = false) :
    ∃ text i, getMessage alloc1 true status file = some ⟨52, text ++ [0]⟩ ∧ (text ++ [0]).length ≤ 52 ∧ (∀ c ∈ text, c ≠ 0) ∧
      text = (c!"Status code " ++ decimal i ++ c!" does not have any message text.").take 51 ∧
      (i - status) % 4294967296 = 0 := by
  have hs : defaultMessage = c!"Status code " ++ 37 :: 105 :: c!" does not have any message text." := by decide
  have hl : defaultMessage.length + 1 + 5 = 52 := by decide
  refine ⟨_, if status < 2147483648 then status else status - 4294967296, ?_, ?_, ?_, rfl, ?_⟩
  · have : getMessage alloc1 true status file = default true status := by
      rcases h with h | h
      · simp [getMessage, h]
      · simp only [getMessage, h]; split <;> simp
    rw [this, default, if_pos rfl, snprintf, hl, hs, expand_int (by decide) (by decide)]
    rfl
  · simp only [List.length_append, List.length_take, List.length_cons, List.length_nil]; omega
  · intro c hc
    have hc := List.mem_of_mem_take hc
    simp only [List.mem_append] at hc
    have k1 : ∀ c ∈ c!"Status code ", c ≠ 0 := by decide
    have k2 : ∀ c ∈ c!" does not have any message text.", c ≠ 0 := by decide
    rcases hc with (hc | hc) | hc
    · exact k1 c hc
    · exact decimal_ne _ c hc
    · exact k2 c hc
  · split <;> omega

/-- C36: the default text is complete for numbers of up to seven digits, so for every value of the enumeration. -/
theorem C36_defaultComplete (status : Nat) (file : Option CStr) (h : find status = none) (hlt : status < 10000000) :
    getMessage true true status file =
      some ⟨52, c!"Status code " ++ digits status ++ c!" does not have any message text." ++ [0]⟩ := by
  have hs : defaultMessage = c!"Status code " ++ 37 :: 105 :: c!" does not have any message text." := by decide
  have hl : defaultMessage.length + 1 + 5 = 52 := by decide
  have hlen : (digits status).length ≤ 7 := by
    rw [digits, List.length_map]
    exact (Nat.length_toDigits_le_iff (by omega) (by omega)).2 hlt
  have h2 : status < 2147483648 := by omega
  simp only [getMessage, h, default, if_true, h2, snprintf, hl]
  rw [hs, expand_int (by decide) (by decide)]
  simp only [Option.bind_eq_bind, Option.bind_some]
  congr 2
  rw [if_neg (by omega), List.take_of_length_le]
  · rfl
  · have e1 : (c!"Status code ").length = 12 := by decide
    have e2 : (c!" does not have any message text.").length = 32 := by decide
    rw [List.length_append, List.length_append]
    show _ + (digits status).length + _ ≤ _
    rw [e1, e2]
    omega

/-- A status with a file name, one without, and one that has no message. -/
example : (getMessage true true 4 (some c!"a.dat")).map Block.bytes =
    some (c!"The data file 'a.dat' could not be found. Check the file path and that the program has sufficient read permissions." ++ [0]) := by
  decide +kernel

example : find 22 = some c!"End of file." := by decide +kernel
example : find 5 = none ∧ find 7 = none ∧ find 33 = none := by decide +kernel

/-- Every value of the enumeration (status.h:77-141) but `FILE_BUSY` and `NOT_SET` has a message, no other number has one
and no number has two. -/
theorem C36_codes : (∀ status, find status = none ↔ status = 5 ∨ status = 7 ∨ 32 < status) ∧
    (messages.map (·.1)).Nodup ∧ (messages.map (·.2)).Nodup := by
  refine ⟨fun status => ?_, by decide +kernel, by decide +kernel⟩
  have hmem : ∀ n, (∃ r ∈ messages, r.1 = n) ↔ n ≤ 32 ∧ n ≠ 5 ∧ n ≠ 7 := by
    intro n
    have h1 : ∀ r ∈ messages, r.1 ≤ 32 ∧ r.1 ≠ 5 ∧ r.1 ≠ 7 := by decide +kernel
    have h2 : ∀ n, n < 33 → n ≠ 5 ∧ n ≠ 7 → ∃ r ∈ messages, r.1 = n := by decide +kernel
    constructor
    · rintro ⟨r, hr, rfl⟩; exact h1 r hr
    · rintro ⟨h3, h4⟩; exact h2 n (by omega) h4
  have := hmem status
  simp only [find, Option.map_eq_none_iff, List.find?_eq_none]
  constructor
  · intro h
    have hn : ¬ ∃ r ∈ messages, r.1 = status := by
      rintro ⟨r, hr, he⟩
      exact h r hr (by simp [he])
    rw [this] at hn
    omega
  · intro h r hr he
    have := this.mp ⟨r, hr, by simpa using he⟩
    omega

/-- Specification: the number a decimal text stands for. -/
def number : CStr → Int
  | 45 :: ds => - ((ds.foldl (fun n c => n * 10 + (c.toNat - 48)) 0 : Nat) : Int)
  | ds => (ds.foldl (fun n c => n * 10 + (c.toNat - 48)) 0 : Nat)

theorem foldl_digits (l : List Char) (h : ∀ c ∈ l, c.isDigit = true) (n : Nat) :
    (l.map fun c => UInt8.ofNat c.toNat).foldl (fun n c => n * 10 + (c.toNat - 48)) n = Nat.ofDigitChars 10 l n := by
  induction l generalizing n with
  | nil => rfl
  | cons c l ih =>
    have hc := h c (by simp)
    simp only [Char.isDigit, Bool.and_eq_true, decide_eq_true_eq] at hc
    have h1 : 48 ≤ c.toNat := hc.1
    have h2 : c.toNat ≤ 57 := hc.2
    simp only [List.map_cons, List.foldl_cons, Nat.ofDigitChars_cons]
    rw [ih (fun c hc => h c (by simp [hc]))]
    congr 1
    have e : (UInt8.ofNat c.toNat).toNat = c.toNat := by
      rw [UInt8.toNat_ofNat']; omega
    have e0 : '0'.toNat = 48 := rfl
    rw [e, e0]; omega

/-- C36: the number written for a status is the number itself. -/
theorem C36_decimal (i : Int) : number (decimal i) = i := by
  have key : ∀ n, (digits n).foldl (fun n c => n * 10 + (c.toNat - 48)) 0 = n := by
    intro n
    rw [digits, foldl_digits _ (fun c hc => Nat.isDigit_of_mem_toDigits (by omega) (by omega) hc)]
    exact Nat.ofDigitChars_toDigits (by omega) (by omega)
  have nd : ∀ n, ∀ c ∈ digits n, c ≠ 45 := by
    intro n c hc
    simp only [digits, List.mem_map] at hc
    obtain ⟨d, hd, rfl⟩ := hc
    have h := Nat.isDigit_of_mem_toDigits (by omega) (by omega) hd
    simp only [Char.isDigit, Bool.and_eq_true, decide_eq_true_eq] at h
    have h1 : 48 ≤ d.toNat := h.1
    have h2 : d.toNat ≤ 57 := h.2
    intro e
    have e := congrArg UInt8.toNat e
    rw [UInt8.toNat_ofNat'] at e
    have : (45 : UInt8).toNat = 45 := rfl
    rw [this] at e
    omega
  cases i with
  | ofNat n =>
    simp only [decimal]
    have hk := key n
    have hn := nd n
    generalize digits n = ds at hk hn
    unfold number
    split
    · exact absurd rfl (hn 45 (by simp))
    · rw [hk]; rfl
  | negSucc n =>
    simp only [decimal, number]
    rw [key]; omega

example : decimal (-120) = c!"-120" ∧ number c!"-120" = -120 := by decide +kernel

end Verif.Status
