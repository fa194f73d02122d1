import Verif.Spec.Invocation
import Verif.Spec.Keeps
/-
What it means that no macro invocations are left, and conditions on trees and macros under which that holds.
-/
namespace Mcpyrate.Expander
open Py

variable {υ : Type}

/-- No macro invocation in `t`, outside of `Done`-marked parts. -/
def NoInvocations (E : Env υ) (w : World υ) (t : Val) : Prop := ∀ u, Open t u → ¬ Invocation E w u

/-- A statement that can be a macro invocation. -/
def isMacroStmt (t : Val) : Bool := t.isK .With || t.isK .FunctionDef || t.isK .ClassDef

/-- `Load()`, `Store()`, `Del()`. -/
def isCtxNode : Val → Bool
  | .node (.py .Load) _ [] => true
  | .node (.py .Store) _ [] => true
  | .node (.py .Del) _ [] => true
  | _ => false

/-- Subscripts, calls and items of a `with` have no statements as children; a `with` has a body; a name has no child
nodes except the context. -/
def nestingOk (t : Val) : Bool :=
  (!(t.isK .Subscript || t.isK .Call || t.isK .withitem) || (childNodes t).all fun u => !isMacroStmt u) &&
    (!t.isK .With || hasField t .body) && (!t.isK .Name || (childNodes t).all isCtxNode)

/-- All nodes have the fields that Python's grammar requires, and statements are not inside expressions. -/
def Grammatical (t : Val) : Prop := WellFormed t ∧ ∀ u, Reach t u → nestingOk u = true

/-- The node itself, or the nodes of the list. -/
def roots : Val → List Val
  | .list xs => xs
  | v => [v]

/-- An expression that names a macro but does not invoke one: `k`, where `k` is not an identifier macro, or `k(a)`. -/
def BareName (E : Env υ) (w : World υ) (t : Val) : Prop := Names E w t ∧ ¬ Invocation E w t

/-- The logged application may return `v`, when the bindings are those of `w`. -/
def Returns (E : Env υ) (w : World υ) (e : App) (v : Val) : Prop :=
  ∃ n s s' ret, bindings s.world = bindings w ∧
    run (visit E n) ((E.macros e.fn).fn e.margs) s = some (.ok ret, s') ∧ checkRet ret = some v

/-- `v` is a grammatical expansion that is not just the name of a macro; and an expression, if it comes from an
identifier macro. -/
structure GoodExpansion (E : Env υ) (w : World υ) (e : App) (v : Val) : Prop where
  grammatical : Grammatical v
  notBare : ∀ x ∈ roots v, ¬ BareName E w x
  name : e.margs.synt = .name → v.isNone = true ∨ (v.isAST = true ∧ isMacroStmt v = false)

end Mcpyrate.Expander
