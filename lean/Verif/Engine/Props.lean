import Verif.Engine.Model
import Verif.Evidence.Props
import Verif.Headers.Props
import Verif.Overrides.Props
import Verif.Properties.Props
import Verif.Ip.Props
import Verif.Status.Props

/-! # C62 to C67: the C++ base classes -/

namespace Verif.Engine
open Verif.Str (fold)

/-! ## C62: the keys an engine asks for -/

theorem mem_addKey (keys : List CStr) (key k : CStr) : k ∈ addKey keys key ↔ k ∈ keys ∨ k = key := by
  unfold addKey
  split
  · constructor
    · exact .inl
    · rintro (h | rfl) <;> assumption
  · simp

theorem nodup_addKey {keys : List CStr} (h : keys.Nodup) (key : CStr) : (addKey keys key).Nodup := by
  unfold addKey
  split
  · exact h
  · rename_i hk
    rw [List.nodup_append]
    refine ⟨h, by simp, ?_⟩
    intro a ha b hb
    simp only [List.mem_singleton] at hb
    subst hb
    rintro rfl
    exact hk ha

theorem headerKeys_spec (up : Bool) (name : CStr) (ps : List CStr) : ∀ keys : List CStr,
    (∀ k, k ∈ headerKeys up name keys ps ↔ k ∈ keys ∨ ∃ p ∈ ps, k = p ++ headerPrefix up ++ name) ∧
    (keys.Nodup → (headerKeys up name keys ps).Nodup) := by
  induction ps with
  | nil => intro keys; simp [headerKeys]
  | cons p ps ih =>
    intro keys
    have ih := ih (addKey keys (p ++ headerPrefix up ++ name))
    constructor
    · intro k
      rw [headerKeys, ih.1, mem_addKey]
      simp only [List.mem_cons, exists_eq_or_imp]
      rw [or_assoc]
    · intro h; exact ih.2 (nodup_addKey h _)

/-- C62: the keys for headers are the names of the headers that are not pseudo headers, after `header.` and `query.`
(and `HTTP_` where such prefixes are used): these are added to the keys there were and nothing else is. No key
is there twice. -/
theorem C62_headerKeys (up : Bool) (hs : Headers.Headers) (keys : List CStr) :
    (∀ k, k ∈ initHttpHeaderKeys up keys hs ↔ k ∈ keys ∨ ∃ h ∈ hs.items, 0x1F ∉ h.name ∧
      ∃ p ∈ [c!"header.", c!"query."], k = p ++ (if up then c!"HTTP_" else []) ++ h.name) ∧
    (keys.Nodup → (initHttpHeaderKeys up keys hs).Nodup) := by
  unfold initHttpHeaderKeys
  generalize hs.items = l
  induction l generalizing keys with
  | nil => simp
  | cons h l ih =>
    rw [List.foldl_cons]
    have ih := ih (headerStep up keys h)
    have hk := headerKeys_spec up h.name [c!"header.", c!"query."] keys
    constructor
    · intro k
      rw [ih.1]
      simp only [List.mem_cons (b := h), exists_eq_or_imp, ← or_assoc]
      refine or_congr ?_ Iff.rfl
      unfold headerStep
      split
      · rename_i hc
        have hc : 0x1F ∈ h.name := by simpa using hc
        simp [hc]
      · rename_i hc
        have hc : 0x1F ∉ h.name := by simpa using hc
        rw [hk.1]
        simp only [hc, not_false_eq_true, true_and]
        rfl
    · intro hn
      apply ih.2
      unfold headerStep
      split
      · exact hn
      · exact hk.2 hn

/-- C62: the keys for overrides are the names of the overridable properties after `cookie.` and `query.` (and `51D_`
where it is used), added to the keys there were. No key is there twice. -/
theorem C62_overrideKeys (p : Option Overrides.Props) (keys : List CStr) :
    (∀ k, k ∈ initOverrideKeys keys p ↔ k ∈ keys ∨ ∃ q, p = some q ∧ ∃ i name, (i, name) ∈ q.items ∧
      ∃ s ∈ [c!"cookie.", c!"query."], k = s ++ (if q.pre then c!"51D_" else []) ++ name) ∧
    (keys.Nodup → (initOverrideKeys keys p).Nodup) := by
  rcases p with _ | q
  · simp [initOverrideKeys]
  · simp only [initOverrideKeys, Option.some.injEq, exists_eq_left']
    generalize q.items = l
    induction l generalizing keys with
    | nil => simp
    | cons x l ih =>
      rw [List.foldl_cons]
      have ih := ih (overrideStep q.pre keys x)
      constructor
      · intro k
        rw [ih.1]
        simp only [overrideStep, mem_addKey, List.mem_cons, List.not_mem_nil, or_false, exists_eq_or_imp, exists_eq_left]
        have ho : overridePrefix q.pre = if q.pre then c!"51D_" else [] := rfl
        rw [ho]
        constructor
        · rintro (((h | h) | h) | ⟨i, n, h1, h2⟩)
          · exact .inl h
          · exact .inr ⟨x.1, x.2, .inl rfl, .inl h⟩
          · exact .inr ⟨x.1, x.2, .inl rfl, .inr h⟩
          · exact .inr ⟨i, n, .inr h1, h2⟩
        · rintro (h | ⟨i, n, rfl | h1, h2⟩)
          · exact .inl (.inl (.inl h))
          · rcases h2 with h2 | h2
            · exact .inl (.inl (.inr h2))
            · exact .inl (.inr h2)
          · exact .inr ⟨i, n, h1, h2⟩
      · intro hn
        exact ih.2 (nodup_addKey (nodup_addKey hn _) _)

/-- Evidence given for a key made of a known prefix and a field arrives as that field. -/
theorem baseGet_key (rel : Nat → Bool) (p : CStr) (en : Nat) (hp : (p, en) ∈ Evidence.prefixes) (hr : rel en = true)
    (field v : CStr) (hf : field ≠ []) :
    (Evidence.baseGet rel [(p ++ field, v)]).items = [⟨en, field, some v, none⟩] := by
  obtain ⟨n, hm⟩ := (Evidence.C21_mapPrefix (p ++ field) p en).mpr ⟨hp, field, hf, rfl⟩
  have hd := (Evidence.C21_prefixString _ _ hm).2
  simp only [List.append_cancel_left_eq] at hd
  rw [Evidence.C20_baseGet]
  simp [Evidence.contribution, hm, hr, hd]

/-- C62: evidence given for an advertised header key reaches the header it was advertised for, whatever the value, when
the prefix is relevant to the engine. Missing: with `HTTP_` prefixes, headers with names of one character
(`C62_header_violated`). -/
theorem C62_header_partial (up : Bool) (ds : List (CStr × Nat)) (hs : Headers.Headers)
    (hc : Headers.create up ds = some (some hs)) (i : Nat) (x : Headers.Header) (hx : hs.items[i]? = some x)
    (hp : 0x1F ∉ x.name) (hl : up = true → x.name.length ≠ 1) (p : CStr) (en : Nat)
    (hpe : (p, en) ∈ [(c!"header.", 1), (c!"query.", 8)]) (rel : Nat → Bool) (hr : rel en = true) (v : CStr)
    (keys : List CStr) :
    ∃ k ∈ initHttpHeaderKeys up keys hs, ∃ field, (Evidence.baseGet rel [(k, v)]).items = [⟨en, field, some v, none⟩] ∧
      Headers.headerGetIndex hs (field ++ [0]) field.length = some (some i) := by
  obtain ⟨hs', e, good, hu, -⟩ := Headers.C22_create up ds _ hc
  cases e
  have hm : x ∈ hs.items := List.mem_of_getElem? hx
  have hne : x.name ≠ [] := by
    intro h0
    have := good.split x hm
    rw [h0] at this
    exact this.2 (this.1.trans (by decide))
  have hpe' : (p, en) ∈ Evidence.prefixes ∧ p ∈ [c!"header.", c!"query."] := by
    simp only [List.mem_cons, List.not_mem_nil, or_false, Prod.mk.injEq] at hpe
    rcases hpe with ⟨rfl, rfl⟩ | ⟨rfl, rfl⟩ <;> decide
  refine ⟨p ++ (if up then c!"HTTP_" else []) ++ x.name,
    ((C62_headerKeys up hs keys).1 _).mpr (.inr ⟨x, hm, hp, p, hpe'.2, rfl⟩),
    (if up then c!"HTTP_" else []) ++ x.name, ?_, ?_⟩
  · rw [List.append_assoc]
    exact baseGet_key rel p en hpe'.1 hr _ v (by simp [hne])
  · have hidx : hs.items.findIdx? (fun y => fold y.name = fold x.name) = some i := by
      obtain ⟨hi, rfl⟩ := List.getElem?_eq_some_iff.mp hx
      rw [List.findIdx?_eq_some_iff_getElem]
      refine ⟨hi, by simp, ?_⟩
      intro j hj
      have := List.pairwise_iff_getElem.mp good.distinct j i (by omega) hi hj
      simpa using this
    cases up with
    | false =>
      simp only [Bool.false_eq_true, if_false, List.nil_append]
      rw [Headers.C23_plain hs x.name [0] hu, hidx]
    | true =>
      simp only [if_true]
      have h1 := hl rfl
      have hpos := List.length_pos_of_ne_nil hne
      rw [Headers.C23_headerGetIndex_partial hs (c!"HTTP_" ++ x.name) [0] (fun _ h => by simp at h; omega)]
      have : Headers.stripHttp (c!"HTTP_" ++ x.name) = x.name := by
        rw [Headers.stripHttp, if_pos]
        · rfl
        · refine ⟨rfl, ?_⟩
          simp only [List.length_append, List.length_cons, List.length_nil]
          omega
      rw [hu, if_pos rfl, this, hidx]

/-- C62 fails for a header with a name of one character where `HTTP_` prefixes are used: the advertised key leads to no
header. -/
theorem C62_header_violated : ∃ (hs : Headers.Headers) (field : CStr),
    Headers.create true [(c!"X", 1)] = some (some hs) ∧
    initHttpHeaderKeys true [] hs = [c!"header.HTTP_X", c!"query.HTTP_X"] ∧
    (Evidence.baseGet (fun _ => true) [(c!"header.HTTP_X", c!"v")]).items = [⟨1, field, some c!"v", none⟩] ∧
    Headers.headerGetIndex hs (field ++ [0]) field.length = some none :=
  ⟨⟨[⟨c!"X", [c!"X"], true, 1⟩], 1, true, 0⟩, c!"HTTP_X", by decide, by decide, by decide, by decide⟩

theorem named_of {items : List (Nat × CStr)} {i : Nat} {name : CStr}
    (hu : ∀ j n, (j, n) ∈ items → fold n = fold name → j = i) (hm : (i, name) ∈ items) :
    Overrides.named items name = i := by
  unfold Overrides.named
  rcases hf : items.find? (fun p => fold p.2 = fold name) with _ | q
  · have := List.find?_eq_none.mp hf _ hm
    simp at this
  · have h1 := List.mem_of_find?_eq_some hf
    have h2 := List.find?_some hf
    simp only [decide_eq_true_eq] at h2
    rw [hf]
    exact congrArg Int.ofNat (hu q.1 q.2 h1 h2)

/-- C62: evidence given for an advertised override key reaches the property it was advertised for, when the names of the
properties differ ignoring case. Missing: with the `51D_` prefix, properties with names of one character
(`C62_override_violated`). -/
theorem C62_override_partial (names : List CStr) (hd : Properties.Distinct names) (pre : Bool) (filter : Nat → Bool)
    (p : Overrides.Props) (hc : Overrides.propertiesCreate names pre filter = some p) (i : Nat) (name : CStr)
    (hn : names[i]? = some name) (hf : filter i = true) (hne : name ≠ []) (hl : pre = true → name.length ≠ 1)
    (s : CStr) (en : Nat) (hs : (s, en) ∈ [(c!"cookie.", 16), (c!"query.", 8)]) (rel : Nat → Bool)
    (hr : rel en = true) (v : CStr) (keys : List CStr) :
    ∃ k ∈ initOverrideKeys keys (some p), ∃ field, (Evidence.baseGet rel [(k, v)]).items = [⟨en, field, some v, none⟩] ∧
      Overrides.requiredPropertyIndexFromName p field = i := by
  obtain ⟨hpp, -, hit⟩ := (Overrides.C46_overridable names pre filter).1 p hc
  have hm : (i, name) ∈ p.items := (hit i name).mpr ⟨hn, hf⟩
  have hnamed : Overrides.named p.items name = i :=
    named_of (fun j n hj he => hd.unique ((hit j n).mp hj).1 hn he) hm
  have hs' : (s, en) ∈ Evidence.prefixes ∧ s ∈ [c!"cookie.", c!"query."] := by
    simp only [List.mem_cons, List.not_mem_nil, or_false, Prod.mk.injEq] at hs
    rcases hs with ⟨rfl, rfl⟩ | ⟨rfl, rfl⟩ <;> decide
  refine ⟨s ++ (if p.pre then c!"51D_" else []) ++ name,
    ((C62_overrideKeys (some p) keys).1 _).mpr (.inr ⟨p, rfl, i, name, hm, s, hs'.2, rfl⟩),
    (if p.pre then c!"51D_" else []) ++ name, ?_, ?_⟩
  · rw [List.append_assoc]
    exact baseGet_key rel s en hs'.1 hr _ v (by simp [hne])
  · obtain ⟨q, items⟩ := p
    simp only at hpp hnamed ⊢
    subst hpp
    cases q with
    | false =>
      simp only [Bool.false_eq_true, if_false, List.nil_append]
      rw [Overrides.C46_unprefixed, hnamed]
    | true =>
      have h1 := hl rfl
      have hpos := List.length_pos_of_ne_nil hne
      rw [if_pos rfl, Overrides.C46_prefixed_partial items c!"51D_" name rfl (by omega), hnamed]

/-- C62 fails for a property with a name of one character where the `51D_` prefix is used. -/
theorem C62_override_violated : ∃ (p : Overrides.Props) (field : CStr),
    Overrides.propertiesCreate [c!"X"] true (fun _ => true) = some p ∧
    initOverrideKeys [] (some p) = [c!"cookie.51D_X", c!"query.51D_X"] ∧
    (Evidence.baseGet (fun _ => true) [(c!"query.51D_X", c!"v")]).items = [⟨8, field, some c!"v", none⟩] ∧
    Overrides.requiredPropertyIndexFromName p field = -1 :=
  ⟨⟨true, [(0, c!"X")]⟩, c!"51D_X", by decide, by decide, by decide, by decide⟩

example : initHttpHeaderKeys false (initOverrideKeys [] (some ⟨true, [(3, c!"Width")]⟩))
    ⟨[⟨c!"User-Agent", [c!"User-Agent"], true, 1⟩, ⟨c!"A\x1fB", [c!"A", c!"B"], true, 2⟩], 2, false, 1⟩ =
    [c!"cookie.51D_Width", c!"query.51D_Width", c!"header.User-Agent", c!"query.User-Agent"] := by decide

/-! ## C63: the order of value keys -/

/-- Specification: the order of words in a dictionary, by the numbers of the bytes. -/
def Before (a b : List UInt8) : Prop :=
  (∃ c t, b = a ++ c :: t) ∨ ∃ p x y s t, a = p ++ x :: s ∧ b = p ++ y :: t ∧ x.toNat < y.toNat

theorem before_cons {x : UInt8} {a b : List UInt8} : Before (x :: a) (x :: b) ↔ Before a b := by
  constructor
  · rintro (⟨c, t, h⟩ | ⟨p, u, w, s, t, h1, h2, h3⟩)
    · simp only [List.cons_append, List.cons.injEq, true_and] at h
      exact .inl ⟨c, t, h⟩
    · cases p with
      | nil =>
        simp only [List.nil_append, List.cons.injEq] at h1 h2
        rw [← h1.1, ← h2.1] at h3
        omega
      | cons z p =>
        simp only [List.cons_append, List.cons.injEq] at h1 h2
        exact .inr ⟨p, u, w, s, t, h1.2, h2.2, h3⟩
  · rintro (⟨c, t, rfl⟩ | ⟨p, u, w, s, t, rfl, rfl, h3⟩)
    · exact .inl ⟨c, t, rfl⟩
    · exact .inr ⟨x :: p, u, w, s, t, rfl, rfl, h3⟩

theorem stringLess_iff (a b : List UInt8) : stringLess a b = true ↔ Before a b := by
  induction a generalizing b with
  | nil =>
    cases b with
    | nil => simp [stringLess, Before]
    | cons y b => simp [stringLess, Before]
  | cons x a ih =>
    cases b with
    | nil => simp [stringLess, Before]
    | cons y b =>
      rw [stringLess]
      rcases Nat.lt_trichotomy x.toNat y.toNat with h | h | h
      · simp only [h, if_true, true_iff]
        exact .inr ⟨[], x, y, a, b, rfl, rfl, h⟩
      · have := UInt8.toNat_inj.mp h
        subst this
        simp only [Nat.lt_irrefl, if_false]
        rw [ih, before_cons]
      · have h' : ¬ x.toNat < y.toNat := by omega
        simp only [h', h, if_true, if_false, Bool.false_eq_true, false_iff]
        rintro (⟨c, t, e⟩ | ⟨p, u, w, s, t, h1, h2, h3⟩)
        · simp only [List.cons_append, List.cons.injEq] at e
          rw [e.1] at h; omega
        · cases p with
          | nil =>
            simp only [List.nil_append, List.cons.injEq] at h1 h2
            rw [← h1.1, ← h2.1] at h3; omega
          | cons z p =>
            simp only [List.cons_append, List.cons.injEq] at h1 h2
            rw [h1.1, h2.1] at h; omega

theorem stringLess_trans {a b c : List UInt8} (h1 : stringLess a b = true) (h2 : stringLess b c = true) :
    stringLess a c = true := by
  induction a generalizing b c with
  | nil =>
    cases b with
    | nil => simp [stringLess] at h1
    | cons y b => cases c with
      | nil => simp [stringLess] at h2
      | cons z c => rfl
  | cons x a ih =>
    cases b with
    | nil => simp [stringLess] at h1
    | cons y b =>
      cases c with
      | nil => simp [stringLess] at h2
      | cons z c =>
        rw [stringLess] at h1 h2 ⊢
        split at h1
        · split at h2
          · rw [if_pos (by omega)]
          · split at h2
            · cases h2
            · rw [if_pos (by omega)]
        · split at h1
          · cases h1
          · split at h2
            · rw [if_pos (by omega)]
            · split at h2
              · cases h2
              · rw [if_neg (by omega), if_neg (by omega)]
                exact ih h1 h2

theorem stringLess_irrefl (a : List UInt8) : stringLess a a = false := by
  induction a with
  | nil => rfl
  | cons x a ih => simp [stringLess, ih]

theorem stringLess_total {a b : List UInt8} (h : a ≠ b) : stringLess a b = true ∨ stringLess b a = true := by
  induction a generalizing b with
  | nil =>
    cases b with
    | nil => exact absurd rfl h
    | cons y b => exact .inl rfl
  | cons x a ih =>
    cases b with
    | nil => exact .inr rfl
    | cons y b =>
      rw [stringLess, stringLess]
      rcases Nat.lt_trichotomy x.toNat y.toNat with hl | hl | hl
      · exact .inl (by rw [if_pos hl])
      · have := UInt8.toNat_inj.mp hl
        subst this
        simp only [Nat.lt_irrefl, if_false]
        exact ih (by simpa using h)
      · exact .inr (by rw [if_pos hl])

/-- C63: a key is before another exactly if the other's property name is before its own in the dictionary, or they are
the same and the other's value name is before its own: the keys are in descending order. -/
theorem C63_less (k other : Key) : k.less other = true ↔
    Before other.property k.property ∨ other.property = k.property ∧ Before other.value k.value := by
  unfold Key.less
  split
  · rename_i h
    rw [stringLess_iff, h]
    constructor
    · intro hv; exact .inr ⟨rfl, hv⟩
    · rintro (hv | ⟨-, hv⟩)
      · have := (stringLess_iff _ _).mpr hv
        rw [stringLess_irrefl] at this; cases this
      · exact hv
  · rename_i h
    rw [stringLess_iff]
    simp [h]

/-- C63: two keys are equal exactly if both names are. -/
theorem C63_equal (k other : Key) : k.equal other = true ↔ k = other := by
  obtain ⟨p, v⟩ := k
  obtain ⟨p', v'⟩ := other
  simp only [Key.equal, Bool.and_eq_true, decide_eq_true_eq, Key.mk.injEq]
  exact ⟨fun h => ⟨h.1.symm, h.2.symm⟩, fun h => ⟨h.1.symm, h.2.symm⟩⟩

/-- C63: the order is one `std::map` and `std::sort` may be given: no key is before itself, it is transitive, and of
two keys exactly one is before the other or they are equal. -/
theorem C63_order (a b c : Key) : a.less a = false ∧ (a.less b = true → b.less c = true → a.less c = true) ∧
    (a.less b = true ∧ b.less a = false ∧ a.equal b = false ∨ a.less b = false ∧ b.less a = true ∧ a.equal b = false ∨
      a.less b = false ∧ b.less a = false ∧ a.equal b = true) := by
  have irr : ∀ a : Key, a.less a = false := by intro a; simp [Key.less, stringLess_irrefl]
  have tr : ∀ a b c : Key, a.less b = true → b.less c = true → a.less c = true := by
    intro a b c h1 h2
    rw [C63_less] at h1 h2 ⊢
    simp only [← stringLess_iff] at h1 h2 ⊢
    rcases h1 with h1 | ⟨h1, h1'⟩
    · rcases h2 with h2 | ⟨h2, h2'⟩
      · exact .inl (stringLess_trans h2 h1)
      · rw [h2]; exact .inl h1
    · rcases h2 with h2 | ⟨h2, h2'⟩
      · rw [← h1]; exact .inl h2
      · exact .inr ⟨h2.trans h1, stringLess_trans h2' h1'⟩
  refine ⟨irr a, tr a b c, ?_⟩
  have asym : ∀ x y : Key, x.less y = true → y.less x = false := by
    intro x y h
    rcases hy : y.less x with _ | _
    · rfl
    · have := tr x y x h hy
      rw [irr] at this; cases this
  have ne : ∀ x y : Key, x.less y = true → x.equal y = false := by
    intro x y h
    rcases he : x.equal y with _ | _
    · rfl
    · rw [C63_equal] at he
      subst he; rw [irr] at h; cases h
  rcases hab : a.less b with _ | _
  · rcases hba : b.less a with _ | _
    · refine .inr (.inr ⟨rfl, rfl, ?_⟩)
      rw [C63_equal]
      obtain ⟨p, v⟩ := a
      obtain ⟨p', v'⟩ := b
      simp only [Key.less] at hab hba
      by_cases hp : p' = p
      · subst hp
        simp only [if_true] at hab hba
        by_cases hv : v = v'
        · subst hv; rfl
        · rcases stringLess_total hv with h | h
          · rw [h] at hba; cases hba
          · rw [h] at hab; cases hab
      · rw [if_neg hp] at hab
        rw [if_neg (Ne.symm hp)] at hba
        rcases stringLess_total hp with h | h
        · rw [h] at hab; cases hab
        · rw [h] at hba; cases hba
    · refine .inr (.inl ⟨rfl, rfl, ?_⟩)
      rcases he : a.equal b with _ | _
      · rfl
      · rw [C63_equal] at he
        subst he; rw [irr] at hba; cases hba
  · exact .inl ⟨rfl, asym _ _ hab, ne _ _ hab⟩

example : (⟨c!"B", c!"1"⟩ : Key).less ⟨c!"A", c!"9"⟩ = true ∧ (⟨c!"A", c!"1"⟩ : Key).less ⟨c!"A", c!"10"⟩ = false := by decide

/-! ## C64: IP address objects -/

theorem ofText_eq {s : CStr} {a : Ip.Addr} (hp : Ip.parse s s.length = some a) (hl : a.bytes.length = Ip.capacity a.ty)
    (ht : a.ty ≠ .invalid) :
    IpAddress.ofText s = some ⟨a.ty, a.bytes.map some ++ List.replicate (16 - a.bytes.length) none⟩ := by
  obtain ⟨ty, bytes⟩ := a
  simp only at hl ht
  simp only [IpAddress.ofText, hp, Option.bind_eq_bind, Option.bind_some, hl, Nat.sub_self, List.replicate_zero,
    List.append_nil, IpAddress.init]
  cases ty with
  | invalid => exact absurd rfl ht
  | v4 =>
    simp only [Ip.capacity] at hl
    simp [memcpy, hl, Ip.capacity, List.take_of_length_le]
  | v6 =>
    simp only [Ip.capacity] at hl
    simp [memcpy, hl, Ip.capacity, List.take_of_length_le]

/-- C64: an object made from a dotted text is an IPv4 address whose first four bytes are its numbers. -/
theorem C64_v4 (a b c d : CStr) (ha : Ip.DecPart a) (hb : Ip.DecPart b) (hc : Ip.DecPart c) (hd : Ip.DecPart d) :
    ∃ x, IpAddress.ofText (a ++ 46 :: (b ++ 46 :: (c ++ 46 :: d))) = some x ∧ x.ty = .v4 ∧
      x.bytes.take 4 = [a, b, c, d].map fun t => some (UInt8.ofNat (Ip.decNum t)) := by
  have h := Ip.C31_v4 a b c d [] ha hb hc hd (by decide)
  rw [List.append_nil] at h
  refine ⟨_, ofText_eq h rfl (by simp), rfl, ?_⟩
  simp

/-- C64: an object made from a full IPv6 text (with an IPv4 tail or without) is an IPv6 address with its bytes. -/
theorem C64_v6 (g : CStr) (gs : List CStr) (l : Ip.Last) (hg : ∀ x ∈ g :: gs, Ip.HexGroup x) (hl : l.wf)
    (h16 : ((g :: gs).flatMap Ip.groupBytes ++ l.bytes).length = 16) :
    IpAddress.ofText (Ip.colons (g :: gs) ++ l.text) =
      some ⟨.v6, ((g :: gs).flatMap Ip.groupBytes ++ l.bytes).map some⟩ := by
  have h := Ip.C31_v6_full g gs l [] hg hl (.inl rfl) h16
  rw [List.append_nil] at h
  rw [ofText_eq h h16 (by simp)]
  simp only [h16, Nat.sub_self, List.replicate_zero, List.append_nil]

/-- C64: an object made from an abbreviated IPv6 text is an IPv6 address with its bytes and zeros for the part left
out. -/
theorem C64_v6_abbreviated (pre : List CStr) (post : Ip.Post) (hpre : ∀ x ∈ pre, Ip.HexGroup x) (hpost : post.wf)
    (h14 : (pre.flatMap Ip.groupBytes ++ Ip.Post.bytes post).length ≤ 14) :
    IpAddress.ofText (Ip.abbrevText pre post) = some ⟨.v6, (pre.flatMap Ip.groupBytes ++
        List.replicate (16 - (pre.flatMap Ip.groupBytes ++ Ip.Post.bytes post).length) 0 ++ Ip.Post.bytes post).map some⟩ := by
  have h := Ip.C31_v6_abbreviated pre post [] hpre hpost (.inl rfl) h14
  rw [List.append_nil] at h
  have hl : (pre.flatMap Ip.groupBytes ++
        List.replicate (16 - (pre.flatMap Ip.groupBytes ++ Ip.Post.bytes post).length) 0 ++ Ip.Post.bytes post).length = 16 := by
    simp only [List.length_append, List.length_replicate] at h14 ⊢
    omega
  rw [ofText_eq h hl (by simp)]
  simp only [hl, Nat.sub_self, List.replicate_zero, List.append_nil]

/-- C64: an object made from bytes has the type given and the bytes given for it, and all zeros for an invalid one. -/
theorem C64_bytes (data : List (Option UInt8)) (ty : Ip.Ty) (h : ty ≠ .invalid → Ip.capacity ty ≤ data.length) :
    ∃ x, IpAddress.init data ty = some x ∧ x.ty = ty ∧ x.bytes.length = 16 ∧
      (ty ≠ .invalid → x.bytes.take (Ip.capacity ty) = data.take (Ip.capacity ty)) ∧
      (ty = .invalid → x = IpAddress.default) := by
  cases ty with
  | invalid => exact ⟨_, rfl, rfl, rfl, by simp, fun _ => rfl⟩
  | v4 =>
    have h := h (by simp)
    simp only [Ip.capacity] at h
    refine ⟨_, by simp only [IpAddress.init, memcpy]; rw [if_pos ⟨by simp, h⟩]; rfl, rfl, ?_, ?_, by simp⟩
    · simp; omega
    · simp [Ip.capacity, List.take_append, h]
  | v6 =>
    have h := h (by simp)
    simp only [Ip.capacity] at h
    refine ⟨_, by simp only [IpAddress.init, memcpy]; rw [if_pos ⟨by simp, h⟩]; rfl, rfl, ?_, ?_, by simp⟩
    · simp; omega
    · simp [Ip.capacity, List.take_append, List.take_take]

/-- C64: a copy is never written outside the buffer of the size given, and what is written is the beginning of the
address. Missing: that all of the address is copied (`C64_copy_violated`). -/
theorem C64_copy_partial (x : IpAddress) (hx : x.bytes.length = 16) (buffer : List (Option UInt8)) :
    ∃ n ≤ buffer.length, x.getCopy buffer buffer.length = some (x.bytes.take n ++ buffer.drop n) := by
  simp only [IpAddress.getCopy]
  have h : ∀ d : Nat, d ≤ 1 → ∃ n ≤ buffer.length,
      memcpy buffer x.bytes (if buffer.length < d then buffer.length else d) = some (x.bytes.take n ++ buffer.drop n) := by
    intro d hd
    refine ⟨if buffer.length < d then buffer.length else d, by split <;> omega, ?_⟩
    rw [memcpy, if_pos]
    constructor <;> split <;> omega
  apply h
  split <;> simp [typeValue]

/-- C64 fails for the copy: whatever the size of the buffer, nothing of an IPv4 address is copied to it, and only the
first byte of an IPv6 address. -/
theorem C64_copy_violated (x : IpAddress) (hx : x.bytes.length = 16) (buffer : List (Option UInt8)) :
    (x.ty = .v4 → x.getCopy buffer buffer.length = some buffer) ∧
    (x.ty = .v6 → buffer.length ≥ 16 → x.getCopy buffer buffer.length = some (x.bytes.take 1 ++ buffer.drop 1)) := by
  constructor
  · intro h
    simp [IpAddress.getCopy, h, typeValue, memcpy]
  · intro h hb
    simp only [IpAddress.getCopy, h, typeValue]
    rw [memcpy, if_pos]
    · have : ¬ buffer.length < 1 := by omega
      simp [this]
    · have : ¬ buffer.length < 1 := by omega
      simp [this, hx]; omega

example : (IpAddress.ofText c!"10.0.0.255").bind (·.getCopy [some 9, some 9, some 9, some 9] 4) =
    some [some 9, some 9, some 9, some 9] := by decide

/-- C64 fails for the unused part of an IPv4 object: its last twelve bytes are not initialised. -/
theorem C64_uninitialised_violated : (IpAddress.ofText c!"1.2.3.4").map (·.bytes) =
    some ([some 1, some 2, some 3, some 4] ++ List.replicate 12 none) := by decide

/-! ## C65: temporary directories -/

/-- The directories set one after the other. -/
def sets (c : Conf) : List (List CStr) → Conf
  | [] => c
  | d :: rest => sets (c.setTempDirectories d) rest

theorem sets_append (c : Conf) (l : List (List CStr)) (d : List CStr) :
    sets c (l ++ [d]) = (sets c l).setTempDirectories d := by
  induction l generalizing c with
  | nil => rfl
  | cons x l ih => exact ih _

/-- C65: after any number of settings the C structure has exactly the directories set last, in their order, in memory
that is still allocated. -/
theorem C65_directories (l : List (List CStr)) (d : List CStr) :
    let c := sets Conf.new (l ++ [d])
    c.tempDirs = d ∧ c.count = d.length ∧ ∃ b, c.array = some (b, d) ∧ b ∈ c.alive := by
  simp only [sets_append]
  exact ⟨rfl, rfl, _, rfl, by simp [Conf.setTempDirectories, Conf.mapTempDirectories]⟩

/-- The blocks allocated by the settings. -/
theorem sets_alive (l : List (List CStr)) :
    (sets Conf.new l).next = l.length ∧ (sets Conf.new l).alive = (List.range l.length).reverse := by
  induction l using List.reverseRecOn with
  | nil => exact ⟨rfl, rfl⟩
  | append_singleton l d ih =>
    rw [sets_append]
    simp [Conf.setTempDirectories, Conf.mapTempDirectories, ih.1, ih.2, List.range_succ]

/-- C65: the destructor frees the array of a configuration whose directories were set at most once, so nothing is left.
Before it the structure counts exactly the directories set, which are none for a new configuration.
Missing: directories set again (`C65_leak_violated`). -/
theorem C65_freed_partial (l : List (List CStr)) (h : l.length ≤ 1) :
    (sets Conf.new l).count = (l.flatten).length ∧
    ∃ c, (sets Conf.new l).freeTempDirectories = some c ∧ c.array = none ∧ c.count = 0 ∧ c.alive = [] := by
  match l, h with
  | [], _ => exact ⟨rfl, _, rfl, rfl, rfl, rfl⟩
  | [d], _ =>
    refine ⟨by simp [sets, Conf.setTempDirectories, Conf.mapTempDirectories], ?_⟩
    refine ⟨{ sets Conf.new [d] with array := none, count := 0, alive := [] }, ?_, rfl, rfl, rfl⟩
    simp [sets, Conf.new, Conf.setTempDirectories, Conf.mapTempDirectories, Conf.freeTempDirectories]

/-- C65 fails for directories set more than once: of `n` arrays the destructor frees one, for every `n`. -/
theorem C65_leak_violated (l : List (List CStr)) (d : List CStr) :
    ∃ c, (sets Conf.new (l ++ [d])).freeTempDirectories = some c ∧ c.alive.length = l.length := by
  obtain ⟨-, -, b, hb, hm⟩ := C65_directories l d
  refine ⟨{ sets Conf.new (l ++ [d]) with array := none, count := 0, alive := (sets Conf.new (l ++ [d])).alive.erase b }, ?_, ?_⟩
  · simp only [Conf.freeTempDirectories, hb]
    rw [if_pos hm]
  · show ((sets Conf.new (l ++ [d])).alive.erase b).length = _
    rw [List.length_erase_of_mem hm, (sets_alive _).2]
    simp

example : (sets Conf.new [[c!"/tmp"], [c!"/var", c!"."]]).array = some (1, [c!"/var", c!"."]) ∧
    (sets Conf.new [[c!"/tmp"], [c!"/var", c!"."]]).alive = [1, 0] := by decide

/-! ## C66: exceptions -/

theorem expand_cons {c : UInt8} {rest : CStr} {a : List Arg} (h : c ≠ 37) :
    expand (c :: rest) a = (expand rest a).map (c :: ·) := by
  rw [expand] <;> simp_all

theorem expand_append {pre rest : CStr} {a : List Arg} (h : ∀ c ∈ pre, c ≠ 37) :
    expand (pre ++ rest) a = (expand rest a).map (pre ++ ·) := by
  induction pre with
  | nil => simp
  | cons c pre ih =>
    rw [List.cons_append, expand_cons (h c (by simp)), ih (fun c hc => h c (by simp [hc]))]
    cases expand rest a <;> simp

theorem expand_str {pre rest s : CStr} {a : List Arg} (h : ∀ c ∈ pre, c ≠ 37) :
    expand (pre ++ 37 :: 115 :: rest) (.str (some s) :: a) = (expand rest a).map (pre ++ s ++ ·) := by
  rw [expand_append h, expand]
  cases expand rest a <;> simp

theorem expand_int {pre rest : CStr} {i : Int} {a : List Arg} (h : ∀ c ∈ pre, c ≠ 37) :
    expand (pre ++ 37 :: 100 :: rest) (.int i :: a) = (expand rest a).map (pre ++ Status.decimal i ++ ·) := by
  rw [expand_append h, expand]
  cases expand rest a <;> simp

theorem format_eq : format = c!"Message:  " ++ 37 :: 115 :: (c!"\r\nSource:   " ++ 37 :: 115 ::
    (c!"\r\nFunction: " ++ 37 :: 115 :: (c!"\r\nLine:     " ++ 37 :: 100 :: c!"\r\n"))) := by decide

theorem expand_format (m f g : CStr) (i : Int) :
    expand format [.str (some m), .str (some f), .str (some g), .int i] =
      some (c!"Message:  " ++ m ++ c!"\r\nSource:   " ++ f ++ c!"\r\nFunction: " ++ g ++ c!"\r\nLine:     " ++
        Status.decimal i ++ c!"\r\n") := by
  rw [format_eq, expand_str (by decide), expand_str (by decide), expand_str (by decide), expand_int (by decide)]
  simp [expand]

theorem decimal_length (i : Int) (h1 : -2147483648 ≤ i) (h2 : i < 2147483648) : (Status.decimal i).length ≤ 11 := by
  have key : ∀ n : Nat, n < 10 ^ 10 → (Status.digits n).length ≤ 10 := by
    intro n hn
    rw [Status.digits, List.length_map]
    exact (Nat.length_toDigits_le_iff (by omega) (by omega)).2 hn
  cases i with
  | ofNat n =>
    have := key n (by simp only [Int.ofNat_eq_natCast] at h2; omega)
    simp only [Status.decimal]; omega
  | negSucc n =>
    have := key (n + 1) (by omega)
    simp only [Status.decimal, List.length_cons]; omega

theorem status_message (status : Nat) : ∃ size m, Status.getMessage true true status none = some ⟨size, m ++ [0]⟩ ∧
    (∀ c ∈ m, c ≠ 0) := by
  rcases h : Status.find status with _ | t
  · obtain ⟨m, i, h1, -, h2, -⟩ := Status.C36_default status none true (.inl h)
    exact ⟨_, m, h1, h2⟩
  · obtain ⟨m, h1, h2, -⟩ := Status.C36_message h none (by simp) true
    exact ⟨_, m, h1, h2⟩

theorem cstr_eq (size : Nat) (m : CStr) (h : ∀ c ∈ m, c ≠ 0) : cstr ⟨size, m ++ [0]⟩ = m := by
  simp only [cstr]
  rw [List.takeWhile_append_of_pos (by simpa using h)]
  simp

/-- The message of an exception with a file and a function: it has the message of the status, the file, the function
and the line, for every line number an `int` can be, and with its terminator it fits the memory allocated for it. -/
theorem message_text (e : Exc) (f g : CStr) (hf : e.file = some f) (hg : e.func = some g)
    (h1 : -2147483648 ≤ e.line) (h2 : e.line < 2147483648) :
    ∃ s m size text, Status.getMessage true true e.status none = some ⟨s, m ++ [0]⟩ ∧
      text = c!"Message:  " ++ m ++ c!"\r\nSource:   " ++ f ++ c!"\r\nFunction: " ++ g ++ c!"\r\nLine:     " ++
        Status.decimal e.line ++ c!"\r\n" ∧
      e.message = some ⟨size, text ++ [0]⟩ ∧ (text ++ [0]).length ≤ size := by
  obtain ⟨s, m, hm, hz⟩ := status_message e.status
  have hl := decimal_length e.line h1 h2
  have hfl : format.length = 56 := by decide
  have hlen : (c!"Message:  " ++ m ++ c!"\r\nSource:   " ++ f ++ c!"\r\nFunction: " ++ g ++ c!"\r\nLine:     " ++
        Status.decimal e.line ++ c!"\r\n").length < format.length + m.length + f.length + g.length + 10 := by
    simp only [List.length_append, List.length_cons, List.length_nil, hfl]; omega
  refine ⟨s, m, format.length + m.length + f.length + g.length + 10, _, hm, rfl, ?_, ?_⟩
  rotate_left
  · rw [List.length_append (bs := [0])]
    exact hlen
  · simp only [Exc.message, hm, Option.bind_eq_bind, Option.bind_some, cstr_eq s m hz, hf, hg, expand_format]
    rw [List.take_of_length_le (by omega)]

/-- C66: the message of an exception that was set is complete, whatever it was before: it has the message of the status, the
file as the source, the function and the line, for every line number an `int` can be, and with its terminator it fits the
memory allocated for it. Missing: exceptions without a file or function (`C66_clear_violated`). -/
theorem C66_message_partial (before : Exc) (file func : CStr) (line : Int) (status : Nat)
    (h1 : -2147483648 ≤ line) (h2 : line < 2147483648) :
    ∃ s m size text, Status.getMessage true true status none = some ⟨s, m ++ [0]⟩ ∧
      text = c!"Message:  " ++ m ++ c!"\r\nSource:   " ++ file ++ c!"\r\nFunction: " ++ func ++ c!"\r\nLine:     " ++
        Status.decimal line ++ c!"\r\n" ∧
      (before.set file func line status).message = some ⟨size, text ++ [0]⟩ ∧ (text ++ [0]).length ≤ size :=
  message_text (before.set file func line status) file func rfl rfl h1 h2

/-- C66 fails for an exception that is clear, or was set by hand without a file: its text is undefined, as NULL is given
for a string. -/
theorem C66_clear_violated : Exc.clear.okay = true ∧ Exc.clear.message = none ∧
    ∀ g line, (⟨none, some g, line, 4⟩ : Exc).message = none := by
  have key : ∀ m b c d, expand format (.str (some m) :: .str none :: .str b :: .int c :: d) = none := by
    intro m b c d
    rw [format_eq, expand_str (by decide), expand_append (by decide), expand] <;> simp
  refine ⟨rfl, ?_, ?_⟩
  · obtain ⟨s, m, hm, -⟩ := status_message NOT_SET
    simp [Exc.message, Exc.clear, hm, key]
  · intro g line
    obtain ⟨s, m, hm, -⟩ := status_message 4
    simp [Exc.message, hm, key]

/-- C66: an exception is okay exactly when its status is the one of a cleared exception, which is 7, so setting any
other status is noticed. Clearing removes the file, the function and the line. -/
theorem C66_okay (e : Exc) (file func : CStr) (line : Int) (s : Nat) :
    ((e.set file func line s).okay = true ↔ s = Exc.clear.status) ∧ Exc.clear.status = 7 ∧
    Exc.clear.file = none ∧ Exc.clear.func = none ∧ Exc.clear.line = -1 :=
  ⟨decide_eq_true_iff, rfl, rfl, rfl, rfl⟩

/-- C66: an exception made from a status has its code and its message. -/
theorem C66_status (code : Nat) (file : Option CStr) (hz : ∀ f ∈ file, ∀ c ∈ f, c ≠ 0) :
    ∃ t size m, Thrown.ofStatus code file = some t ∧ t.getCode = some code ∧
      Status.getMessage true true code file = some ⟨size, m ++ [0]⟩ ∧ t.message = m := by
  have : ∃ size m, Status.getMessage true true code file = some ⟨size, m ++ [0]⟩ ∧ (∀ c ∈ m, c ≠ 0) := by
    rcases h : Status.find code with _ | t
    · obtain ⟨m, i, h1, -, h2, -⟩ := Status.C36_default code file true (.inl h)
      exact ⟨_, m, h1, h2⟩
    · obtain ⟨m, h1, h2, -⟩ := Status.C36_message h file hz true
      exact ⟨_, m, h1, h2⟩
  obtain ⟨size, m, h1, h2⟩ := this
  refine ⟨⟨m, some code⟩, size, m, ?_, rfl, h1, rfl⟩
  simp only [Thrown.ofStatus, h1, Option.bind_eq_bind, Option.bind_some, cstr_eq size m h2]

/-- C66 fails for the exceptions thrown when a C exception is set: whatever its status, the code of the one thrown is never
initialised. -/
theorem C66_fatal_violated (e : Exc) (t : Thrown) (h : Thrown.ofException e = some t) : t.getCode = none := by
  simp only [Thrown.ofException, Option.bind_eq_bind, Option.bind_eq_some_iff, Option.some.injEq] at h
  obtain ⟨b, -, rfl⟩ := h
  rfl

example : (Thrown.ofException ⟨some c!"a.c", some c!"f", 42, 22⟩).map (·.message) =
    some c!"Message:  End of file.\r\nSource:   a.c\r\nFunction: f\r\nLine:     42\r\n" := by decide +kernel

/-! ## C67: the properties of results -/

theorem getPropertyName_of {av : List Properties.Avail} {i : Nat} {a : Properties.Avail} (h : av[i]? = some a) :
    getPropertyName av (Int.ofNat i) = a.name := by
  obtain ⟨hi, rfl⟩ := List.getElem?_eq_some_iff.mp h
  simp [getPropertyName, hi]

theorem getProperties_eq (av : List Properties.Avail) : getProperties av = av.map (·.name) := by
  apply List.ext_getElem?
  intro i
  simp only [getProperties, List.getElem?_map]
  by_cases hi : i < av.length
  · have h : av[i]? = some av[i] := by simp [hi]
    rw [List.getElem?_range hi, h]
    simp only [Option.map_some]
    rw [getPropertyName_of h]
  · rw [List.getElem?_eq_none (by simpa using hi), List.getElem?_eq_none (by simpa using hi)]; rfl

/-- C67: results list exactly the properties of the data set that were requested. -/
theorem C67_properties (q : List Properties.Avail → List Properties.Avail) (hq : Properties.IsQsort q) (names : List CStr)
    (h : Properties.Distinct names) (r : Properties.Request) (av : List Properties.Avail)
    (hc : Properties.create q names r = some av) (n : CStr) :
    n ∈ getProperties av ↔ n ∈ names ∧ Properties.Requested r n := by
  rw [getProperties_eq]
  exact (Properties.C27_create q hq names h r av hc).2.2 n

/-- C67: a position outside the list has the empty name. -/
theorem C67_outside (av : List Properties.Avail) (i : Int) (h : i < 0 ∨ (getProperties av).length ≤ i) :
    getPropertyName av i = [] := by
  rw [getProperties_eq, List.length_map] at h
  rw [getPropertyName, if_neg (by omega)]

/-- C67: the name at a position leads back to that position, in any case, and results contain a property by a name exactly
when it is a listed one ignoring case, when the names are ASCII and have no zero byte. Missing: other names
(`C67_violated`). -/
theorem C67_contains_partial (q : List Properties.Avail → List Properties.Avail) (hq : Properties.IsQsort q)
    (names : List CStr) (h : Properties.Distinct names) (hascii : ∀ n ∈ names, Properties.Ascii n)
    (r : Properties.Request) (av : List Properties.Avail) (hc : Properties.create q names r = some av) (name : CStr)
    (hz : 0 ∉ name) :
    (containsProperty av name = true ↔ ∃ n ∈ getProperties av, fold n = fold name) ∧
    (∀ i : Nat, i < (getProperties av).length → fold name = fold (getPropertyName av i) →
      getRequiredPropertyIndex av name = i) := by
  have ht : name.takeWhile (· ≠ 0) = name := by
    have := List.takeWhile_append_of_pos (p := (· ≠ 0)) (l₁ := name) (l₂ := [])
      (by intro c hc; simp only [decide_eq_true_eq]; rintro rfl; exact hz hc)
    simpa using this
  have hs : av.Pairwise fun a b => Properties.stricmp a.name b.name ≤ 0 :=
    (Properties.C27_create q hq names h r av hc).1.imp fun {a b} h => by
      have := (Properties.stricmp_neg_iff a.name b.name).mpr h; omega
  have hasc : ∀ a ∈ av, Properties.Ascii a.name := by
    intro a ha
    exact hascii _ (((Properties.C27_create q hq names h r av hc).2.2 a.name).mp (List.mem_map_of_mem ha)).1
  have hl := Properties.C28_lookup_partial av hs hasc name
  constructor
  · simp only [containsProperty, ht, getRequiredPropertyIndex, getProperties_eq]
    rcases hr : Properties.requiredIndexFromName av name with _ | i
    · rw [hr] at hl
      simp only at hl
      simp only [decide_eq_true_eq]
      constructor
      · intro h; exact absurd h (by decide)
      · rintro ⟨n, hn, he⟩
        obtain ⟨a, ha, rfl⟩ := List.mem_map.mp hn
        exact absurd he (hl a ha)
    · rw [hr] at hl
      simp only at hl
      obtain ⟨a, ha, he⟩ := hl
      simp only [decide_eq_true_eq]
      exact ⟨fun _ => ⟨a.name, List.mem_map_of_mem (List.mem_of_getElem? ha), he⟩, fun _ => Int.natCast_nonneg i⟩
  · intro i hi he
    rw [getProperties_eq, List.length_map] at hi
    have ha : av[i]? = some av[i] := by simp [hi]
    have hg := getPropertyName_of ha
    simp only [Int.ofNat_eq_natCast] at hg
    rw [hg] at he
    obtain ⟨h1, -⟩ := Properties.C28_roundtrip_partial q hq names h hascii r av hc i _ ha name he
    simp only [getRequiredPropertyIndex, h1]

/-- C67 fails for names with other bytes: results may list a property and yet not contain it. -/
theorem C67_violated : ∃ av : List Properties.Avail, av.Pairwise (fun a b => Properties.stricmp a.name b.name ≤ 0) ∧
    [0xE9] ∈ getProperties av ∧ containsProperty av [0xE9] = false := by
  obtain ⟨av, h1, ⟨a, ha, he⟩, h2⟩ := Properties.C28_violated
  refine ⟨av, h1, ?_, ?_⟩
  · rw [getProperties_eq, ← he]; exact List.mem_map_of_mem ha
  · have : ([0xE9] : List UInt8).takeWhile (· ≠ 0) = [0xE9] := by decide
    simp only [containsProperty, this, getRequiredPropertyIndex, h2]
    decide

example : getProperties [⟨1, c!"Id"⟩, ⟨0, c!"IsMobile"⟩] = [c!"Id", c!"IsMobile"] ∧
    getPropertyName [⟨1, c!"Id"⟩, ⟨0, c!"IsMobile"⟩] 2 = [] := by decide

end Verif.Engine
