import Verif.Spec.Expander
/-
Notions for deleted invocations: run-time meaning of a tiny part of Python, and the dummy assignment
that makes coverage tools report a line as covered.
-/
namespace Mcpyrate.Expander
open Py

/-- What a run-time expression evaluates to: a constant, or a function without parameters. -/
inductive RtVal where
  | const (c : Const)
  | thunk (body : Val)

/-- Evaluation of constants, `lambda: …`, and calls without arguments. -/
inductive Evals : Val → RtVal → Prop
  | const {t c} : t.isK .Constant = true → t.get? .value = some (.const c) → Evals t (.const c)
  | lambda {t a b} : t.isK .Lambda = true → t.get? .args = some a → a.isK .arguments = true →
      (∀ f ∈ [F.posonlyargs, .args, .kwonlyargs, .kw_defaults, .defaults], a.get? f = some (.list [])) →
      a.get? .vararg = some .none → a.get? .kwarg = some .none → t.get? .body = some b →
      Evals t (.thunk b)
  | call {t f b v} : t.isK .Call = true → t.get? .func = some f → Evals f (.thunk b) →
      t.get? .args = some (.list []) → t.get? .keywords = some (.list []) → Evals b v → Evals t v

/-- The location `l` is that of `old`, as far as `old` has one. -/
def LocatedAt (old l : Loc) : Prop :=
  (∀ n, old.lineno = .int n → l.lineno = .int n) ∧ (∀ n, old.colOffset = .int n → l.colOffset = .int n) ∧
  (∀ n, old.endLineno = .int n → l.endLineno = .int n) ∧
  (∀ n, old.endColOffset = .int n → l.endColOffset = .int n)

/-- The node is marked `Done`, is located at `old`, and without the marker evaluates to `None`. -/
def DeletedExpr (old : Loc) (v : Val) : Prop :=
  ∃ c l fs, v = done (.node c l fs) ∧ LocatedAt old l ∧ Evals (.node c l fs) (.const .none)

/-- The statement `_mcpyrate_coverage = "…"`, located at `old` and marked `Done`. -/
def CoverageDummy (old : Loc) (v : Val) : Prop :=
  ∃ l l1 l2 s kind rest, LocatedAt old l ∧ LocatedAt old l1 ∧ LocatedAt old l2 ∧
    v = done (.node (.py .Assign) l ((.targets, .list [.node (.py .Name) l1
          [(.id, .str "_mcpyrate_coverage"), (.ctx, mk .Store [])]]) ::
        (.value, .node (.py .Constant) l2 [(.value, .str s), (.kind, kind)]) :: rest))

/-- The statements an expansion stands for. -/
def stmts : Val → List Val
  | .list xs => xs
  | .node c l fs => [.node c l fs]
  | .const _ => []

/-- Where the coverage tool should see a statement macro: the `with` statement, or the decorator. -/
def reportedAt (t c : Val) (synt : Syn) : Loc := if synt = .decorator then locOf c else locOf t

end Mcpyrate.Expander
