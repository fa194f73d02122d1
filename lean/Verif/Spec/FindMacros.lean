import Verif.Model.FindMacros
import Verif.Spec.Splicing
import Verif.Spec.Coverage
/-
Specification of `find_macros`.
-/
namespace Mcpyrate.FindMacros
open Py GetMacros Splicing

variable {σ M O : Type}

/-- The macro-imports among the statements. -/
def macroImports (body : List Val) : List Val := body.filter (isImport "macros")

/-- Running the macro-imports one after the other, in order: the module names and the bindings. -/
inductive Runs (I : Interp σ M O) (o : Opts) : σ → List Val → List (String × Dict String O) → σ → Prop
  | nil {s} : Runs I o s [] [] s
  | cons {s s1 s2 t ts a b rs} : getMacros I o t s = (.ok (a, b), s1) → Runs I o s1 ts rs s2 →
      Runs I o s (t :: ts) ((a, b) :: rs) s2

/-- All bindings, later ones override earlier ones: `k` is bound to `f` by the last import that binds
`k`. -/
def Union (bs : List (Dict String O)) (b : Dict String O) : Prop :=
  b.WF ∧ ∀ k f, b.get k = some f ↔ ∃ before d after, bs = before ++ d :: after ∧ d.get k = some f ∧
    ∀ e ∈ after, e.get k = none

/-- `t` is `from __self__ import …`. -/
def isSelf (t : Val) : Bool := (t.get? .module_).getD .none == .str "__self__"

/-- `import a`, located at `old`. -/
def IsImportOf (a : String) (old : Loc) (v : Val) : Prop :=
  ∃ l l', v = .node (.py .Import) l
      [(.names, .list [.node (.py .alias) l' [(.name, .str a), (.asname, .none)]])] ∧
    Expander.LocatedAt old l ∧ Expander.LocatedAt old l'

/-- The new body, given the names of the modules: a macro-import becomes an absolute import; a
self-macro-import (in a module that is being expanded in several phases) becomes a coverage dummy if it
has a location, and is left out otherwise; anything else is kept. -/
inductive Rewritten (self : Bool) : List Val → List String → List Val → Prop
  | nil : Rewritten self [] [] []
  | keep {t ts as out} : isImport "macros" t = false → Rewritten self ts as out →
      Rewritten self (t :: ts) as (t :: out)
  | import {t ts a as v out} : isImport "macros" t = true → (self && isSelf t) = false →
      IsImportOf a (Expander.locOf t) v → Rewritten self ts as out →
      Rewritten self (t :: ts) (a :: as) (v :: out)
  | dummy {t ts a as v out} : isImport "macros" t = true → (self && isSelf t) = true →
      (Expander.locOf t).lineno ≠ .missing → Expander.CoverageDummy (Expander.locOf t) v →
      Rewritten self ts as out → Rewritten self (t :: ts) (a :: as) (v :: out)
  | delete {t ts a as out} : isImport "macros" t = true → (self && isSelf t) = true →
      (Expander.locOf t).lineno = .missing → Rewritten self ts as out →
      Rewritten self (t :: ts) (a :: as) out

/-- Statements as the parser makes them: an import has a non-empty list of names, and if it has a column,
then it has a line number. -/
def Parsed (body : List Val) : Prop :=
  ∀ t ∈ body, (t.isK .ImportFrom = true →
      ∃ a as n, t.get? .names = some (.list (a :: as)) ∧ a.get? .name = some n) ∧
    (t.isK .ImportFrom = true → (Expander.locOf t).lineno = .missing → (Expander.locOf t).colOffset = .missing)

end Mcpyrate.FindMacros
