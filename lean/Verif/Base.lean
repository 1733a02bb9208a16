/-!
# Shared conventions

* `CStr` is a C string: the bytes before the terminating NUL.
* `UB α` is the result of code that may have undefined behaviour: `none` means the code would read
  or write outside an object, dereference NULL, or use freed memory.
-/

namespace Verif

/-- The bytes of a C string, without the terminating NUL. -/
abbrev CStr := List UInt8

/-- Result of code that may hit undefined behaviour; `none` is undefined behaviour. -/
abbrev UB (α : Type) := Option α

/-- `c!"abc"` is the list of the (Latin-1) bytes of a literal, built at elaboration time so the kernel
sees plain numerals. -/
macro:max "c!" s:str : term => do
  let elems := s.getString.toList.toArray.map fun c => Lean.Syntax.mkNumLit (toString c.toNat)
  `(([$[($elems : UInt8)],*] : List UInt8))

/-- `tolower` in the "C" locale on one byte (used by string.c:65, 82, 94, 99): only `A`-`Z` change. -/
def toLower (b : UInt8) : UInt8 := if 65 ≤ b ∧ b ≤ 90 then b + 32 else b

/-- The `int` a `char` promotes to. `char` is taken to be signed, as on x86 and with gcc/clang/MSVC
defaults there. -/
def charVal (b : UInt8) : Int := if b.toNat < 128 then (b.toNat : Int) else (b.toNat : Int) - 256

/-- `tolower(*a)` as an `int` for a plain `char` (string.c:65). glibc's `tolower` maps every value in
-128..255 outside `A`-`Z` to itself in the "C" locale. -/
def lowerInt (b : UInt8) : Int := charVal (toLower b)

theorem charVal_inj {a b : UInt8} (h : charVal a = charVal b) : a = b := by
  have ha := a.toNat_lt; have hb := b.toNat_lt
  apply UInt8.toNat_inj.mp
  unfold charVal at h
  split at h <;> split at h <;> omega

theorem lowerInt_eq_iff {a b : UInt8} : lowerInt a = lowerInt b ↔ toLower a = toLower b :=
  ⟨charVal_inj, fun h => by rw [lowerInt, h, lowerInt]⟩

end Verif
