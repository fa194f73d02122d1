import Verif.Spec.Invocation
/-
Several macros on one statement.
-/
namespace Mcpyrate.Expander
open Py

variable {υ : Type}

/-- The macro applications between two states that were not made from inside a running macro function:
names and macro functions, in order. -/
def applied (s s' : St υ) : List (String × Nat) :=
  ((fresh s s').filter fun e => e.depth = s.depth).map fun e => (e.name, e.fn)

/-- The context expressions of a `with` statement, in order. -/
def contextExprs (t : Val) : List Val :=
  match t.get? .items with
  | some (.list items) => items.filterMap (·.get? .context_expr)
  | _ => []

/-- The decorators of a definition, outermost first. -/
def decorators (t : Val) : List Val :=
  match t.get? .decorator_list with
  | some (.list items) => items
  | _ => []

/-- `Macros E w cs L`: the expressions among `cs` that name macros are, in order, those listed in
`L`. -/
inductive Macros (E : Env υ) (w : World υ) : List Val → List (String × Nat) → Prop
  | nil : Macros E w [] []
  | skip {c cs L} : ¬ Names E w c → Macros E w cs L → Macros E w (c :: cs) L
  | take {c k as id cs L} : Candidate c k as → Accepts E w k as id → Macros E w cs L →
      Macros E w (c :: cs) ((k, id) :: L)

/-- A block macro that does not interfere with the other macros of the statement: when it returns, the
bindings are as before, and if it was given a `with` statement, it returned a `with` statement with
the same items (and a body, which may be different). -/
def KeepsItems (E : Env υ) (id : Nat) : Prop :=
  ∀ n a s ret s', a.synt = .block → run (visit E n) ((E.macros id).fn a) s = some (.ok ret, s') →
    (∀ k, isbound s'.world k = isbound s.world k) ∧
    ∀ w, a.tree = .list [w] → w.isK .With = true → WellFormed w → (w.get? .body).isSome = true →
      ∃ w', ret = .val (.list [w']) ∧ w'.isK .With = true ∧ w'.get? .items = w.get? .items ∧
        (w'.get? .body).isSome = true ∧ WellFormed w'

/-- A decorator macro that does not interfere with the other macros of the statement. -/
def KeepsDecorators (E : Env υ) (id : Nat) : Prop :=
  ∀ n a s ret s', a.synt = .decorator → run (visit E n) ((E.macros id).fn a) s = some (.ok ret, s') →
    (∀ k, isbound s'.world k = isbound s.world k) ∧
    ((a.tree.isK .FunctionDef = true ∨ a.tree.isK .ClassDef = true) → WellFormed a.tree →
      ∃ w', ret = .val w' ∧ (w'.isK .FunctionDef = true ∨ w'.isK .ClassDef = true) ∧
        w'.get? .decorator_list = a.tree.get? .decorator_list ∧ WellFormed w')

end Mcpyrate.Expander
