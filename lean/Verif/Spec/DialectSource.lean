import Verif.Model.DialectSource
import Verif.Spec.Dialects
/-
Specification of the source scanner.
-/
namespace Mcpyrate.Dialects
open Py GetMacros Paths

/-- Whitespace within a line. -/
def Blank (w : Str) : Prop := ∀ c ∈ w, isSpace c = true ∧ c ≠ '\n'

/-- A character of a module name: a dot, a letter, a digit or an underscore. -/
def ModuleChar (c : Char) : Prop := c = '.' ∨ c.isAlphanum = true ∨ c = '_'

/-- `from m import dialects, ns` on one line, without parentheses or backslashes. -/
def DialectStmt (s : Str) : Prop := ∃ w1 m w2 w3 ns,
  s = "from".toList ++ (w1 ++ (m ++ (w2 ++ ("import dialects,".toList ++ (w3 ++ ns))))) ∧
  Blank w1 ∧ w1 ≠ [] ∧ Blank w2 ∧ w2 ≠ [] ∧ Blank w3 ∧ w3 ≠ [] ∧
  m ≠ [] ∧ (∀ c ∈ m, ModuleChar c) ∧ ns ≠ [] ∧ (∀ c ∈ ns, c ≠ '\n' ∧ c ≠ '(' ∧ c ≠ '\\') ∧
  ∀ h, isSpace (ns.getLast h) = false

/-- A line that is no dialect-import and does not look like the beginning of one: it does not begin with the word
`from`, or it continues with two words other than `<module> import dialects,`. -/
def Ordinary (l : Str) : Prop :=
  ¬ "from".toList <+: l ∨ (∃ c r, l = "from".toList ++ c :: r ∧ isSpace c = false) ∨
  ∃ w1 m w2 rest, l = "from".toList ++ (w1 ++ (m ++ (w2 ++ rest))) ∧ Blank w1 ∧ w1 ≠ [] ∧ Blank w2 ∧ w2 ≠ [] ∧
    m ≠ [] ∧ (∀ c ∈ m, isSpace c = false) ∧ (∀ c, rest.head? = some c → isSpace c = false) ∧ rest ≠ [] ∧
    ¬ "import dialects,".toList <+: rest

/-- The dialect-imports among the lines, with their line numbers. -/
inductive Imports : Nat → List Str → List (Nat × Str) → Prop
  | nil {n} : Imports n [] []
  | ordinary {n l ls out} : '\n' ∉ l → Ordinary l → Imports (n + 1) ls out → Imports n (l :: ls) out
  | dialect {n s trail ls out} : DialectStmt s → Blank trail → Imports (n + 1) ls out →
      Imports n ((s ++ trail) :: ls) ((n, s) :: out)

/-- The first line that is not blank, if there is one, has a parenthesis or a backslash. -/
def Stops (ls : List Str) : Prop := ∀ pre l post, ls = pre ++ l :: post → (∀ b ∈ pre, Blank b) → ¬ Blank l →
  '(' ∈ l ∨ '\\' ∈ l

/-- So it is after every dialect-import. -/
def Guarded (ls : List Str) : Prop := ∀ pre s trail post, ls = pre ++ (s ++ trail) :: post → DialectStmt s →
  Blank trail → Stops post

/-- The text made of the lines. -/
def unlines : List Str → Str
  | [] => []
  | [l] => l
  | l :: ls => l ++ '\n' :: unlines ls

/-- A text with these dialect-imports. -/
def HasImports (out : List (Nat × Str)) (c : Str) : Prop := ∃ ls, c = unlines ls ∧ Imports 1 ls out ∧ Guarded ls

/-- The first occurrences of each statement, other than those already done. -/
def distinct (done : List Str) : List (Nat × Str) → List (Nat × Str)
  | [] => []
  | x :: xs => if x.2 ∈ done then distinct done xs else x :: distinct (x.2 :: done) xs

/-- A dialect-import is processed: where it is, its source text, and the calls of the transformers. -/
structure Record (D : Type) where
  line : Nat
  statement : Str
  calls : List (Call D Str)

/-- Statements are processed one after the other: each is parsed on its own, its dialects are imported and their
transformers applied from left to right. -/
inductive SourceSteps {σ M O D : Type} (K : Classes σ O D Str) (I : Interp σ M O) (parse : Str → Except Err Val)
    (filename : Str) : Str → σ → List (Record D) → Str → σ → Prop
  | nil {c s} : SourceSteps K I parse filename c s [] c s
  | cons {c s} {n : Nat} {st t a b s1 calls c2 s2 recs c' s'} : parse st = .ok t →
      getMacros I { filename, allowAsname := false } t s = (.ok (a, b), s1) →
      Applied K (.int n) (.int 0) b c s1 calls c2 s2 → SourceSteps K I parse filename c2 s2 recs c' s' →
      SourceSteps K I parse filename c s (⟨n, st, calls⟩ :: recs) c' s'

end Mcpyrate.Dialects
