import Verif.Py.Ast
/-
What a module body consists of: an optional docstring, a run of future-imports, the rest.
-/
namespace Mcpyrate.FutureImports
open Py

/-- `from __future__ import …`. -/
def IsFuture (s : Val) : Prop := s.isK .ImportFrom = true ∧ s.get? .module_ = some (.str "__future__")

/-- A statement consisting of a string literal. -/
def IsDocstring (s : Val) : Prop :=
  s.isK .Expr = true ∧ ∃ e v, s.get? .value = some e ∧ e.isK .Constant = true ∧
    e.get? .value = some (.str v)

/-- `doc`, `fut`, `rest` are the docstring, the maximal run of future-imports after it, and the rest
of `body`. -/
structure IsSplit (body doc fut rest : List Val) : Prop where
  concat : doc ++ fut ++ rest = body
  docstring : (∃ s, doc = [s] ∧ IsDocstring s) ∨ (doc = [] ∧ ∀ s, body.head? = some s → ¬ IsDocstring s)
  future : ∀ s ∈ fut, IsFuture s
  maximal : ∀ s, rest.head? = some s → ¬ IsFuture s

/-- The parser's output, as far as it matters here: an expression statement has a value, and a
Constant has a value, which is a constant. -/
def WellFormed (body : List Val) : Prop :=
  ∀ s, body.head? = some s → s.isK .Expr = true →
    ∃ e, s.get? .value = some e ∧
      (e.isK .Constant = true → ∃ c, e.get? .value = some (.const c))

end Mcpyrate.FutureImports
