import Verif.Spec.Fixpoint
import Verif.Spec.StepExpansion
/-
Expanding one layer at a time: conditions on trees and macros.
-/
namespace Mcpyrate.Expander
open Py

variable {υ : Type}

/-- The macro function `i` returns `v` (and the expander accepts that) when it receives `a`. -/
def Gives (E : Env υ) (i : Nat) (a : MArgs) (v : Val) : Prop :=
  ∃ r, (E.macros i).fn a = .ret r ∧ checkRet r = some v

/-- Statements that can be macro invocations are in lists of statements: not the value of a field, and not
decorators. -/
def stmtsInBlocks (t : Val) : Bool :=
  match t with
  | .node _ _ fs => fs.all fun p => !isMacroStmt p.2 && match p.2 with
    | .list xs => p.1 != .decorator_list || xs.all fun x => !isMacroStmt x
    | _ => true
  | _ => true

/-- Statements are where Python's grammar has them, and nodes have the fields it requires. -/
def Tidy (t : Val) : Prop := Grammatical t ∧ ∀ u, Reach t u → stmtsInBlocks u = true

/-- The macro returns a tidy tree; an expression if it was invoked by an expression. -/
structure TidyExpansion (y : Syn) (v : Val) : Prop where
  tidy : Tidy v
  expr : y = .expr ∨ y = .name → v.isNone = true ∨ (v.isAST = true ∧ isMacroStmt v = false)

/-- The macro function `i`, when it receives `a`, returns without using the expander; if the expander accepts the return
value, that is a tidy expansion. -/
structure Plain (E : Env υ) (i : Nat) (a : MArgs) : Prop where
  returns : ∃ r, (E.macros i).fn a = .ret r
  tidy : ∀ v, Gives E i a v → TidyExpansion a.synt v

/-- All logged applications are like that. -/
def TidyMacros (E : Env υ) (log : List App) : Prop := ∀ e ∈ log, Plain E e.fn e.margs

/-- `c` is where the expander looks for the name of a macro: `c[…]`, `c(…)`, `with c`, `@c`. -/
inductive Head : Val → Val → Prop
  | subscript {t c} : t.isK .Subscript = true → t.get? .value = some c → Head t c
  | call {t c} : t.isK .Call = true → t.get? .func = some c → Head t c
  | item {t c} : t.isK .withitem = true → t.get? .context_expr = some c → Head t c
  | decorator {t items c} : (t.isK .FunctionDef = true ∨ t.isK .ClassDef = true) →
      t.get? .decorator_list = some (.list items) → c ∈ items → Head t c

/-- An invocation whose expansion does not name a macro. -/
def NamesNothing (E : Env υ) (w : World υ) (c : Val) : Prop :=
  ∀ k i a d, Invokes E w c k i a d → ∀ v, Gives E i a v → ¬ Names E w v

/-- Where the expander looks for the name of a macro, `t` has no invocations that expand to the name of a macro. -/
def Settled (E : Env υ) (w : World υ) (t : Val) : Prop := ∀ u c, Open t u → Head u c → NamesNothing E w c

/-- `u` is `t`, or is reached by expanding it once, repeatedly. -/
inductive Later (E : Env υ) : St υ → Val → Val → Prop
  | refl {s t} : Later E s t t
  | step {s s1 t t1 u} : Runs E .once t s (.ok (done t1)) s1 → Later E s1 t1 u → Later E s t u

/-- Expanding once, repeatedly, starting with `t` in state `s`, ends with `r`, without any invocations, in state `s'`. -/
inductive Layered (E : Env υ) : Val → St υ → Val → St υ → Prop
  | finished {t s} : NoInvocations E s.world t → Layered E t s t s
  | step {t s t1 s1 r s'} : Runs E .once t s (.ok (done t1)) s1 → Layered E t1 s1 r s' → Layered E t s r s'

open Collector StepExpansion in
/-- What stepping needs to know about the trees that it meets. -/
structure Steppable {σ : Type} (E : Env (User σ)) (w : W σ) (dump : Bool) (u : Val) : Prop where
  settled : Settled E w u
  collects : ∃ l, Collects E w u (.ok ()) l
  shaped : Shaped u
  prints : formats dump (.val u) = true
  nonempty : u ≠ .list []

end Mcpyrate.Expander
