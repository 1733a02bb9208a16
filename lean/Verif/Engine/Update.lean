import Verif.Base
import Mathlib.Data.List.Basic
import Mathlib.Data.List.TakeWhile
import Mathlib.Data.List.Induction

/-! # C99: the address new data is fetched from

A `std::string` is its bytes, zero bytes included. What `getType` and `getProduct` return is a parameter: they are pure
virtual (EngineBase.hpp:220 and 227). The receiving end is the small specification at the top: it splits an address as
RFC 3986 and the encoding of forms do. -/

namespace Verif.Engine.Update

/-! ## What a server reads in an address -/

/-- The address before its query. -/
def path (url : CStr) : CStr := url.takeWhile fun b => b != 63 && b != 35

/-- What is left after the first byte `b`, and the part before it. -/
def cut (b : UInt8) (s : CStr) : CStr × CStr := (s.takeWhile (· != b), (s.dropWhile (· != b)).drop 1)

/-- The query: after the first `?` and before a `#`. -/
def query (url : CStr) : CStr := (cut 63 (cut 35 url).1).2

/-- The parts of a string between the bytes `b`. -/
def splitAt (b : UInt8) : CStr → List CStr
  | [] => [[]]
  | c :: s => if c = b then [] :: splitAt b s else
    match splitAt b s with
    | [] => [[c]]
    | p :: ps => (c :: p) :: ps

/-- The value of a hexadecimal digit. -/
def hex (b : UInt8) : Option UInt8 :=
  if 48 ≤ b ∧ b ≤ 57 then some (b - 48)
  else if 65 ≤ b ∧ b ≤ 70 then some (b - 55)
  else if 97 ≤ b ∧ b ≤ 102 then some (b - 87)
  else none

/-- The text a value of a form stands for. -/
def decode : CStr → CStr
  | [] => []
  | [b] => [if b = 43 then 32 else b]
  | [b, c] => (if b = 43 then 32 else b) :: decode [c]
  | b :: c :: d :: s =>
    match hex c, hex d with
    | some x, some y => if b = 37 then (16 * x + y) :: decode s else (if b = 43 then 32 else b) :: decode (c :: d :: s)
    | _, _ => (if b = 43 then 32 else b) :: decode (c :: d :: s)

/-- A parameter: its name and its value. -/
def param (s : CStr) : CStr × CStr := (decode (cut 61 s).1, decode (cut 61 s).2)

/-- The parameters of an address. -/
def params (url : CStr) : List (CStr × CStr) := (splitAt 38 (query url)).map param

/-- A text that can stand in an address as it is and be read back. -/
def Plain (s : CStr) : Prop := ∀ b ∈ s, b ≠ 0 ∧ b ≠ 35 ∧ b ≠ 38 ∧ b ≠ 37 ∧ b ≠ 43

instance (s : CStr) : Decidable (Plain s) := inferInstanceAs (Decidable (∀ b ∈ s, _))

/-! ## The code -/

/-- The two strings of an engine, EngineBase.hpp:266-270. -/
structure Engine where
  /-- `updateUrl`. -/
  updateUrl : CStr
  /-- `licenceKey`. -/
  licenceKey : CStr
  deriving DecidableEq

/-- The constructor, EngineBase.cpp:32-33. -/
def create : Engine := ⟨[], []⟩

/-- The calls that change the two strings. -/
inductive Call where
  /-- `setLicenseKey`. -/
  | setLicenseKey (key : CStr)
  /-- `setDataUpdateUrl`. -/
  | setDataUpdateUrl (url : CStr)

/-- `EngineBase::setLicenseKey`, EngineBase.cpp:115-117, and `EngineBase::setDataUpdateUrl`, EngineBase.cpp:119-121. -/
def step (e : Engine) : Call → Engine
  | .setLicenseKey key => { e with licenceKey := key }
  | .setDataUpdateUrl url => { e with updateUrl := url }

/-- The bytes a stream takes from `c_str`, EngineBase.cpp:130: up to the first zero byte. -/
def cStr (s : CStr) : CStr := s.takeWhile (· != 0)

/-- `EngineBase::getDataUpdateUrl`, EngineBase.cpp:123-135. -/
def getDataUpdateUrl (type product : CStr) (e : Engine) : CStr :=
  if e.updateUrl.isEmpty = false then e.updateUrl
  else if e.licenceKey.isEmpty = false then
    c!"https://distributor.51degrees.com/api/v2/download" ++ c!"?LicenceKeys=" ++ cStr e.licenceKey ++ c!"&Type=" ++ type ++
      c!"&Product=" ++ product
  else []

/-- `EngineBase::getAutomaticUpdatesEnabled`, EngineBase.cpp:141-143. -/
def getAutomaticUpdatesEnabled (type product : CStr) (e : Engine) : Bool := (getDataUpdateUrl type product e).isEmpty = false

/-- A sequence of calls on a new engine. -/
def run (calls : List Call) : Engine := calls.foldl step create

/-! ## What was last set -/

/-- The key of a call. -/
def Call.key : Call → Option CStr
  | .setLicenseKey key => some key
  | .setDataUpdateUrl _ => none

/-- The URL of a call. -/
def Call.url : Call → Option CStr
  | .setLicenseKey _ => none
  | .setDataUpdateUrl url => some url

/-- The key last given, empty when none was. -/
def lastKey (calls : List Call) : CStr := ((calls.filterMap Call.key).getLast?).getD []

/-- The URL last given, empty when none was. -/
def lastUrl (calls : List Call) : CStr := ((calls.filterMap Call.url).getLast?).getD []

theorem run_eq (calls : List Call) : run calls = ⟨lastUrl calls, lastKey calls⟩ := by
  induction calls using List.reverseRecOn with
  | nil => rfl
  | append_singleton l c ih =>
    rw [run, List.foldl_append, List.foldl_cons, List.foldl_nil, ← run, ih]
    cases c <;> simp [step, lastKey, lastUrl, Call.key, Call.url]

/-! ## Lemmas about reading an address -/

theorem takeWhile_ne {b : UInt8} {s : CStr} (h : b ∉ s) : s.takeWhile (· != b) = s := by
  rw [List.takeWhile_eq_self_iff]
  intro x hx
  simp only [bne_iff_ne, ne_eq]
  rintro rfl
  exact h hx

theorem cut_append {b : UInt8} {s : CStr} (h : b ∉ s) (t : CStr) : cut b (s ++ b :: t) = (s, t) := by
  have ha : ∀ x ∈ s, (x != b) = true := by
    intro x hx
    simp only [bne_iff_ne, ne_eq]
    rintro rfl
    exact h hx
  simp [cut, List.takeWhile_append_of_pos ha, List.dropWhile_append_of_pos ha]

theorem splitAt_ne_nil (b : UInt8) (s : CStr) : splitAt b s ≠ [] := by
  induction s with
  | nil => simp [splitAt]
  | cons c s ih =>
    simp only [splitAt]
    split
    · simp
    · split <;> simp

theorem splitAt_none {b : UInt8} {s : CStr} (h : b ∉ s) : splitAt b s = [s] := by
  induction s with
  | nil => rfl
  | cons c s ih =>
    simp only [List.mem_cons, not_or] at h
    simp [splitAt, ih h.2, Ne.symm h.1]

theorem splitAt_append {b : UInt8} {s : CStr} (h : b ∉ s) (t : CStr) : splitAt b (s ++ b :: t) = s :: splitAt b t := by
  induction s with
  | nil => simp [splitAt]
  | cons c s ih =>
    simp only [List.mem_cons, not_or] at h
    simp [splitAt, ih h.2, Ne.symm h.1]

/-- The first part is what stands before the first separator. -/
theorem splitAt_head (b : UInt8) (s : CStr) : (splitAt b s).head? = some (s.takeWhile (· != b)) := by
  induction s with
  | nil => rfl
  | cons c s ih =>
    simp only [splitAt]
    split
    · next h => simp [h]
    · next h =>
      obtain ⟨p, ps, hp⟩ := List.exists_cons_of_ne_nil (splitAt_ne_nil b s)
      rw [hp] at ih ⊢
      simp only [List.head?_cons, Option.some.injEq] at ih
      simp [ih, h]

theorem decode_length (s : CStr) : (decode s).length ≤ s.length := by
  induction s using decode.induct with
  | case1 => simp [decode]
  | case2 => simp [decode]
  | case3 b c ih => simp only [decode, List.length_cons] at *; omega
  | case4 c d s x y hy hx ih => simp only [decode, hx, hy, List.length_cons, ite_true] at *; omega
  | case5 b c d s x y hy hx hb ih => simp only [decode, hx, hy, hb, List.length_cons, ite_false] at *; omega
  | case6 b c d s h ih =>
    have e : decode (b :: c :: d :: s) = (if b = 43 then 32 else b) :: decode (c :: d :: s) := by
      rw [decode]
      split
      · next x y hx hy => exact absurd hy (h x y hx)
      · rfl
    rw [e]
    simp only [List.length_cons] at *
    omega

theorem decode_plain {s : CStr} (h : ∀ b ∈ s, b ≠ 37 ∧ b ≠ 43) : decode s = s := by
  induction s using decode.induct with
  | case1 => rfl
  | case2 b => simp [decode, h b]
  | case3 b c ih => simp only [decode]; simp [decode, h b, h c]
  | case4 c d s x y hy hx ih => exact absurd rfl (h 37 (by simp)).1
  | case5 b c d s x y hy hx hb ih =>
    simp only [decode, hx, hy, hb, ite_false]
    rw [ih (fun z hz => h z (List.mem_cons_of_mem _ hz)), if_neg (h b (by simp)).2]
  | case6 b c d s hh ih =>
    have e : decode (b :: c :: d :: s) = (if b = 43 then 32 else b) :: decode (c :: d :: s) := by
      rw [decode]
      split
      · next x y hx hy => exact absurd hy (hh x y hx)
      · rfl
    rw [e, ih (fun z hz => h z (List.mem_cons_of_mem _ hz)), if_neg (h b (by simp)).2]

theorem Plain.not_mem {s : CStr} (h : Plain s) : 0 ∉ s ∧ 35 ∉ s ∧ 38 ∉ s :=
  ⟨fun m => (h 0 m).1 rfl, fun m => (h 35 m).2.1 rfl, fun m => (h 38 m).2.2.1 rfl⟩

theorem Plain.decode {s : CStr} (h : Plain s) : decode s = s := decode_plain fun b hb => (h b hb).2.2.2

/-- A key that is in an address as it is: it has none of the bytes that end it and reads back as itself. -/
def Sent (key : CStr) : Prop := 0 ∉ key ∧ 35 ∉ key ∧ 38 ∉ key ∧ decode key = key

theorem Plain.sent {s : CStr} (h : Plain s) : Sent s := ⟨h.not_mem.1, h.not_mem.2.1, h.not_mem.2.2, h.decode⟩

/-- The part of a key before a byte that ends it. -/
def until_ (key : CStr) : CStr := key.takeWhile fun b => b != 0 && b != 35 && b != 38

/-- The fixed part of the address. -/
def base : CStr := c!"https://distributor.51degrees.com/api/v2/download"

/-- The query the code writes. -/
def asked (key type product : CStr) : CStr :=
  c!"LicenceKeys=" ++ (cStr key ++ 38 :: (c!"Type=" ++ (type ++ 38 :: (c!"Product=" ++ product))))

theorem url_eq {type product : CStr} {e : Engine} (hu : e.updateUrl = []) (hk : e.licenceKey ≠ []) :
    getDataUpdateUrl type product e = base ++ 63 :: asked e.licenceKey type product := by
  have hk' : e.licenceKey.isEmpty = false := by simpa using hk
  have h2 : c!"?LicenceKeys=" = 63 :: c!"LicenceKeys=" := rfl
  have h3 : c!"&Type=" = 38 :: c!"Type=" := rfl
  have h4 : c!"&Product=" = 38 :: c!"Product=" := rfl
  rw [getDataUpdateUrl, hu, hk', h2, h3, h4]
  simp only [List.isEmpty_nil, asked, base, List.append_assoc, List.cons_append]
  rfl

theorem query_eq (q : CStr) : query (base ++ 63 :: q) = q.takeWhile (· != 35) := by
  have h1 : ∀ x ∈ base, (x != 35) = true := by decide +kernel
  have h2 : 63 ∉ base := by decide +kernel
  have e : (cut 35 (base ++ 63 :: q)).1 = base ++ 63 :: q.takeWhile (· != 35) := by
    show (base ++ 63 :: q).takeWhile (· != 35) = _
    rw [List.takeWhile_append_of_pos h1, List.takeWhile_cons_of_pos (by rfl)]
  rw [query, e, cut_append h2]

theorem path_eq (q : CStr) : path (base ++ 63 :: q) = base := by
  have h1 : ∀ x ∈ base, (x != 63 && x != 35) = true := by decide +kernel
  rw [path, List.takeWhile_append_of_pos h1, List.takeWhile_cons_of_neg (by decide), List.append_nil]

theorem takeWhile_stop {p : UInt8 → Bool} {b : UInt8} (hb : p b = false) (s t : CStr) :
    (s ++ b :: t).takeWhile p = s.takeWhile p := by
  induction s with
  | nil => simp [hb]
  | cons c s ih => simp [List.takeWhile_cons, ih]

theorem first_eq (key type product : CStr) :
    (params (base ++ 63 :: asked key type product)).head? = some (c!"LicenceKeys", decode (until_ key)) := by
  have h1 : ∀ x ∈ c!"LicenceKeys=", ((x != 38) && (x != 35)) = true := by decide +kernel
  have h2 : (61 : UInt8) ∉ c!"LicenceKeys" := by decide +kernel
  have h3 : c!"LicenceKeys=" = c!"LicenceKeys" ++ [61] := rfl
  have h4 : decode c!"LicenceKeys" = c!"LicenceKeys" := by decide +kernel
  have h5 : (cStr key).takeWhile (fun x => x != 38 && x != 35) = until_ key := by
    rw [cStr, List.takeWhile_takeWhile, until_]
    congr 1
    funext x
    cases x != 0 <;> cases x != 35 <;> cases x != 38 <;> rfl
  rw [params, query_eq, List.head?_map, splitAt_head, List.takeWhile_takeWhile, asked, Option.map_some]
  have h6 : (fun a : UInt8 => decide ((a != 38) = true ∧ (a != 35) = true)) = fun x => x != 38 && x != 35 := by
    funext x; cases x != 38 <;> cases x != 35 <;> rfl
  simp only [h6]
  rw [List.takeWhile_append_of_pos h1, takeWhile_stop (by rfl), h5, param, h3, List.append_assoc, List.singleton_append,
    cut_append h2, h4]

theorem takeWhile_len {p : UInt8 → Bool} {s : CStr} (h : s.length ≤ (s.takeWhile p).length) : s.takeWhile p = s :=
  (List.takeWhile_prefix p).eq_of_length_le h

theorem until_self {key : CStr} (h : decode (until_ key) = key) : Sent key := by
  have hu : until_ key = key := takeWhile_len (by
    have := decode_length (until_ key)
    rw [h] at this
    exact this)
  rw [hu] at h
  have hm : ∀ b ∈ key, (b != 0 && b != 35 && b != 38) = true := List.takeWhile_eq_self_iff.1 hu
  exact ⟨fun m => by simpa using hm 0 m, fun m => by simpa using hm 35 m, fun m => by simpa using hm 38 m, h⟩

theorem all_eq {key type product : CStr} (hk : Sent key) (ht : Plain type) (hp : Plain product) :
    params (base ++ 63 :: asked key type product) =
      [(c!"LicenceKeys", key), (c!"Type", type), (c!"Product", product)] := by
  obtain ⟨k0, k35, k38, kd⟩ := hk
  have ht' := ht.not_mem
  have hp' := hp.not_mem
  have hq : 35 ∉ asked key type product := by
    have a1 : (35 : UInt8) ∉ c!"LicenceKeys=" := by decide +kernel
    have a2 : (35 : UInt8) ∉ c!"Type=" := by decide +kernel
    have a3 : (35 : UInt8) ∉ c!"Product=" := by decide +kernel
    have no : ∀ {a b : CStr}, 35 ∉ a → 35 ∉ b → 35 ∉ a ++ b := by
      intro a b h1 h2; rw [List.mem_append, not_or]; exact ⟨h1, h2⟩
    have nc : ∀ {b : CStr}, 35 ∉ b → 35 ∉ (38 : UInt8) :: b := by
      intro b h; rw [List.mem_cons, not_or]; exact ⟨by decide, h⟩
    rw [asked, cStr, takeWhile_ne k0]
    exact no a1 (no k35 (nc (no a2 (no ht'.2.1 (nc (no a3 hp'.2.1))))))
  have s1 : (38 : UInt8) ∉ c!"LicenceKeys=" ++ key := by
    have : (38 : UInt8) ∉ c!"LicenceKeys=" := by decide +kernel
    simp only [List.mem_append, not_or]; exact ⟨this, k38⟩
  have s2 : (38 : UInt8) ∉ c!"Type=" ++ type := by
    have : (38 : UInt8) ∉ c!"Type=" := by decide +kernel
    simp only [List.mem_append, not_or]; exact ⟨this, ht'.2.2⟩
  have s3 : (38 : UInt8) ∉ c!"Product=" ++ product := by
    have : (38 : UInt8) ∉ c!"Product=" := by decide +kernel
    simp only [List.mem_append, not_or]; exact ⟨this, hp'.2.2⟩
  have pr : ∀ (name value : CStr), (61 : UInt8) ∉ name → decode name = name → decode value = value →
      param ((name ++ [61]) ++ value) = (name, value) := by
    intro name value h1 h2 h3
    rw [param, List.append_assoc, List.singleton_append, cut_append h1, h2, h3]
  rw [params, query_eq, takeWhile_ne hq, asked, cStr, takeWhile_ne k0, ← List.append_assoc, splitAt_append s1,
    ← List.append_assoc (c!"Type="), splitAt_append s2, splitAt_none s3]
  simp only [List.map_cons, List.map_nil]
  have e1 := pr c!"LicenceKeys" key (by decide +kernel) (by decide +kernel) kd
  have e2 := pr c!"Type" type (by decide +kernel) (by decide +kernel) ht.decode
  have e3 := pr c!"Product" product (by decide +kernel) (by decide +kernel) hp.decode
  exact congrArg₂ List.cons e1 (congrArg₂ List.cons e2 (congrArg₂ List.cons e3 rfl))

/-! ## C99 -/

/-- Whatever was set before, the URL last given is the one returned, byte for byte, when it is not empty. -/
theorem C99_own (type product : CStr) (calls : List Call) (h : lastUrl calls ≠ []) :
    getDataUpdateUrl type product (run calls) = lastUrl calls := by
  rw [run_eq, getDataUpdateUrl]
  exact if_pos (by simpa using h)

/-- With no URL of its own and no key there is no address. -/
theorem C99_none (type product : CStr) (calls : List Call) (h : lastUrl calls = []) (hk : lastKey calls = []) :
    getDataUpdateUrl type product (run calls) = [] := by
  rw [run_eq, getDataUpdateUrl, h, hk]
  rfl

/-- Automatic updates are enabled exactly when the URL or the key last given is not empty. -/
theorem C99_enabled (type product : CStr) (calls : List Call) :
    getAutomaticUpdatesEnabled type product (run calls) = true ↔ lastUrl calls ≠ [] ∨ lastKey calls ≠ [] := by
  rw [getAutomaticUpdatesEnabled]
  by_cases hu : lastUrl calls = []
  · by_cases hk : lastKey calls = []
    · rw [C99_none type product calls hu hk]
      simp [hu, hk]
    · have e := url_eq (type := type) (product := product) (e := run calls) (by rw [run_eq]; exact hu) (by rw [run_eq]; exact hk)
      rw [e]
      simp [hk]
  · rw [C99_own type product calls hu]
    simp [hu]

/-- With a key and no URL of its own the address is the distributor's, and the server reads exactly the three parameters meant,
key, type and product, if and only if the key can stand in an address as it is. Missing: other keys, see
`C99_injected_violated`, `C99_decoded_violated` and `C99_zero_violated`. -/
theorem C99_params_partial {type product : CStr} (ht : Plain type) (hp : Plain product) {calls : List Call}
    (hu : lastUrl calls = []) (hk : lastKey calls ≠ []) :
    path (getDataUpdateUrl type product (run calls)) = c!"https://distributor.51degrees.com/api/v2/download" ∧
      (params (getDataUpdateUrl type product (run calls)) =
          [(c!"LicenceKeys", lastKey calls), (c!"Type", type), (c!"Product", product)] ↔ Sent (lastKey calls)) := by
  have e := url_eq (type := type) (product := product) (e := run calls) (by rw [run_eq]; exact hu) (by rw [run_eq]; exact hk)
  rw [run_eq] at e ⊢
  rw [e]
  refine ⟨path_eq _, ⟨fun h => until_self ?_, fun h => all_eq h ht hp⟩⟩
  have := first_eq (lastKey calls) type product
  dsimp only at h
  rw [h] at this
  simpa using this.symm

/-- Whatever the key, the type and the product, the key the server reads is what stands in it before a zero byte, a `#` or a `&`,
decoded. Missing: that this is the key, see `C99_injected_violated` and `C99_decoded_violated`. -/
theorem C99_key_partial (type product : CStr) {calls : List Call} (hu : lastUrl calls = []) (hk : lastKey calls ≠ []) :
    (params (getDataUpdateUrl type product (run calls))).head? =
      some (c!"LicenceKeys", decode ((lastKey calls).takeWhile fun b => b != 0 && b != 35 && b != 38)) := by
  have e := url_eq (type := type) (product := product) (e := run calls) (by rw [run_eq]; exact hu) (by rw [run_eq]; exact hk)
  rw [run_eq] at e ⊢
  rw [e]
  exact first_eq _ _ _

/-- A key with no special byte can stand in an address. -/
theorem C99_plain {key : CStr} (h : Plain key) : Sent key := h.sent

/-- The calls of the examples: a key, a URL, the URL taken back, another key. -/
def calls : List Call := [.setLicenseKey c!"AAA", .setDataUpdateUrl c!"http://x/y", .setDataUpdateUrl [], .setLicenseKey c!"Bb-9"]

example : Plain c!"HashV41" ∧ Plain c!"V4TAC" ∧ lastUrl calls = [] ∧ lastKey calls = c!"Bb-9" ∧ Sent c!"Bb-9" ∧
    getDataUpdateUrl c!"HashV41" c!"V4TAC" (run calls) =
      c!"https://distributor.51degrees.com/api/v2/download?LicenceKeys=Bb-9&Type=HashV41&Product=V4TAC" ∧
    params (getDataUpdateUrl c!"HashV41" c!"V4TAC" (run calls)) =
      [(c!"LicenceKeys", c!"Bb-9"), (c!"Type", c!"HashV41"), (c!"Product", c!"V4TAC")] := by
  refine ⟨?_, ?_, ?_, ?_, C99_plain ?_, ?_, ?_⟩ <;> decide +kernel

example : lastUrl (calls.take 2) = c!"http://x/y" ∧ getDataUpdateUrl c!"T" c!"P" (run (calls.take 2)) = c!"http://x/y" ∧
    getAutomaticUpdatesEnabled c!"T" c!"P" (run []) = false := by decide +kernel

/-- A key is not encoded: one with a `&` sets the parameters after it, and the server reads another key and two products. -/
theorem C99_injected_violated : ∃ key : CStr, key ≠ [] ∧
    params (getDataUpdateUrl c!"HashV41" c!"V4TAC" (run [.setLicenseKey key])) =
      [(c!"LicenceKeys", c!"A"), (c!"Product", c!"Other"), (c!"Type", c!"HashV41"), (c!"Product", c!"V4TAC")] :=
  ⟨c!"A&Product=Other", by decide +kernel, by decide +kernel⟩

/-- A key with a `+` is read with a space, and one with a `%` and two digits with another byte, so that two different keys
ask for the same data. -/
theorem C99_decoded_violated : ∃ a b : CStr, a ≠ b ∧
    params (getDataUpdateUrl c!"T" c!"P" (run [.setLicenseKey a])) =
      params (getDataUpdateUrl c!"T" c!"P" (run [.setLicenseKey b])) ∧
    params (getDataUpdateUrl c!"T" c!"P" (run [.setLicenseKey a])) ≠ [(c!"LicenceKeys", a), (c!"Type", c!"T"), (c!"Product", c!"P")] :=
  ⟨c!"A+B", c!"A%20B", by decide +kernel, by decide +kernel, by decide +kernel⟩

/-- A key that begins with a zero byte enables updates with an address that has no key. -/
theorem C99_zero_violated : ∃ key : CStr, getAutomaticUpdatesEnabled c!"T" c!"P" (run [.setLicenseKey key]) = true ∧
    params (getDataUpdateUrl c!"T" c!"P" (run [.setLicenseKey key])) =
      [(c!"LicenceKeys", []), (c!"Type", c!"T"), (c!"Product", c!"P")] :=
  ⟨[0, 65], by decide +kernel, by decide +kernel⟩

end Verif.Engine.Update
