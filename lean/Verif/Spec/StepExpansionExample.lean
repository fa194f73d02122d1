import Verif.Spec.StepExpansion
import Verif.Spec.ExpanderExample
/-
A small set of macros for the concrete cases beside the theorems about `step_expansion`.
-/
namespace Mcpyrate.StepExpansion.Ex
open Py Expander Expander.Ex

/-- `m[e]` expands to `e`. -/
def identity : MacroDef (User Unit) := ⟨false, false, fun a => .ret (.val a.tree)⟩
/-- `r[e]` expands to `m[e]`. -/
def toM : MacroDef (User Unit) := ⟨false, false, fun a => .ret (.val (sub (name "m") a.tree))⟩
/-- `with d: …` expands to nothing. -/
def delete : MacroDef (User Unit) := ⟨false, false, fun _ => .ret (.val .none)⟩
/-- `e[…]` raises an exception. -/
def raises : MacroDef (User Unit) := ⟨false, false, fun _ => .raise (.user 7 true)⟩

def envWith (step : MArgs → Prog (User Unit)) : Env (User Unit) where
  macros
    | 0 => identity | 1 => toM | 2 => delete | 3 => raises | _ => ⟨false, true, step⟩
  hooks := printStep
  filename := "a.py"
  loc := fun _ => ["a.py:1: x"]

/-- With these macros, and `step_expansion`; it needs to know which macros take arguments and which are identifier macros. -/
def env : Env (User Unit) := envWith (stepExpansion (envWith fun _ => .hang) id 20)

def world : W Unit where
  locals := [("m", 0), ("r", 1), ("d", 2), ("e", 3), ("s", 4)]
  globals := []
  user := ⟨[], [], ()⟩

def start : Expander.St (User Unit) := init world

/-- The call of a macro `k[args][t]`. -/
def exprArgs (args : List Val) (t : Val) : MArgs := ⟨.expr, t, some args, none, sub (name "s") t⟩
/-- The call of a macro `with k[args]: …`. -/
def blockArgs (args : List Val) (body : List Val) : MArgs :=
  ⟨.block, .list body, some args, some .none, withStmt [name "s"] body⟩

/-- A string. -/
def str (x : String) : Val := mk .Constant [(.value, .str x), (.kind, .none)]

end Mcpyrate.StepExpansion.Ex
