import Verif.Spec.PyParser
import Verif.Model.DialectSource
/-
What C47 assumes of Python: how identifiers and floating point numbers are written.
-/
namespace Mcpyrate.PyText
open Py

/-- Digits, at least one. -/
def Digits (s : Str) : Prop := s ≠ [] ∧ ∀ c ∈ s, isDigit c = true

/-- A fraction, perhaps missing. -/
def Fraction (s : Str) : Prop := s = [] ∨ ∃ ds, s = '.' :: ds ∧ ∀ c ∈ ds, isDigit c = true

/-- An exponent, perhaps missing. -/
def Exponent (s : Str) : Prop :=
  s = [] ∨ ∃ sign ds, s = 'e' :: sign ++ ds ∧ (sign = [] ∨ sign = ['+'] ∨ sign = ['-']) ∧ Digits ds

/-- A number: digits, with a fraction or an exponent or both. -/
def Numeral (s : Str) : Prop := ∃ ds fr ex, s = ds ++ fr ++ ex ∧ Digits ds ∧ Fraction fr ∧ Exponent ex

/-- Neither a fraction nor an exponent: an integer. -/
def Integral (s : Str) : Prop := ∀ c ∈ s, isDigit c = true

structure Reading.Lawful (P : Reading) : Prop where
  /-- What begins an identifier may also continue it. -/
  start_cont : ∀ c, P.identStart c = true → P.identCont c = true
  /-- There is no white space in identifiers. -/
  noSpace : ∀ c, P.identCont c = true → Dialects.isSpace c = false
  /-- `float(repr(x)) == x`, where `repr` gives a floating point literal, or `inf`; then `1e309` is a literal for it. -/
  float : ∀ s, Numeral s →
    ((Numeral (P.float s).toList ∧ ¬ Integral (P.float s).toList ∧ P.float (P.float s).toList = P.float s) ∨
      (P.float s = "inf" ∧ P.float "1e309".toList = "inf"))
  /-- Likewise for imaginary numbers, whose `repr` ends with `j`. -/
  imag : ∀ s, Numeral s →
    ((∃ s', (P.imag s).toList = s' ++ ['j'] ∧ Numeral s' ∧ P.imag s' = P.imag s) ∨
      (P.imag s = "infj" ∧ P.imag "1e309".toList = "infj"))

/-- The tokens that the lexer returns. -/
def TokOK (P : Reading) : Tok → Prop
  | .name s => (∃ c w, s.toList = c :: w ∧ P.start c = true) ∧ (∀ c ∈ s.toList, P.cont c = true) ∧ keyword? s = none
  | .float r => ∃ s, Numeral s ∧ r = P.float s
  | .imag r => ∃ s, Numeral s ∧ r = P.imag s
  | .bytes b => ∀ x ∈ b, x < 256
  | _ => True

end Mcpyrate.PyText
