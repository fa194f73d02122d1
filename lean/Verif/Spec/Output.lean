import Verif.Spec.Expander
import Verif.Spec.FixCtx
import Verif.Spec.FixLocations
import Verif.Spec.Coverage
/-
What the expander may do to the output of a macro.
-/
namespace Mcpyrate.Expander
open Py

/-- What a macro may return, and the expansion it stands for: `None`, an AST, an iterable of ASTs (the
empty string is an iterable without items). -/
inductive Accepted : Ret → Val → Prop
  | none : Accepted (.val .none) .none
  | ast {c l fs} : Accepted (.val (.node c l fs)) (.node c l fs)
  | list {xs : List Val} : (∀ x ∈ xs, x.isAST = true) → Accepted (.val (.list xs)) (.list xs)
  | emptyStr : Accepted (.val (.str "")) (.list [])
  | emptyBytes : Accepted (.val (.const (.bytes []))) (.list [])

/-- `e` is `v` with missing locations filled in from `ref`, and with `ctx` fields as their positions require; otherwise
the same. -/
def Fitted (ref : Loc) (v e : Val) : Prop :=
  ∃ m, FixLocations.eraseLoc m = FixLocations.eraseLoc v ∧
    (FixLocations.Located ref →
      FixLocations.locs m = (FixLocations.locs v).map (FixLocations.onLocated (FixLocations.fill (FixLocations.source ref)))) ∧
    (¬ FixLocations.Located ref → m = v) ∧
    FixCtx.eraseCtx e = FixCtx.eraseCtx m ∧
    (FixCtx.TargetsOk m → ∀ d c l fs, FixCtx.At .Load e d (.node c l fs) → c.hasCtx = true →
      fs.lookup .ctx = some (mk d []))

/-- The name `k`. -/
def Itself (k : String) (e : Val) : Prop := ∃ l fs, e = .node (.py .Name) l fs ∧ fs.lookup .id = some (.str k)

/-- What stands in place of the invocation of `k`, if the output has become `e`: `e` itself; statements may be preceded
by a statement for coverage, and a name is marked as done if its macro has returned just this name. -/
inductive Placed (k : String) : Syn → Val → Val → Prop
  | expr {e} : e.isNone = false → Placed k .expr e e
  | stmt {synt e} : synt = .block ∨ synt = .decorator → Placed k synt e e
  | covered {synt e d} : synt = .block ∨ synt = .decorator → isDone d = true → Placed k synt e (.list (d :: stmts e))
  | name {e} : e.isNone = false → ¬ Itself k e → Placed k .name e e
  | done {e} : Itself k e → Placed k .name e (done e)

end Mcpyrate.Expander
