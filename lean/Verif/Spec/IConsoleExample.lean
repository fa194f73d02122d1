import Verif.Spec.IConsole
import Verif.Spec.ConsoleExample
/-
A small IPython session for the concrete cases.
-/
namespace Mcpyrate.IConsole.Ex
open Py Expander GetMacros Compiler Modules RunCode

def counted (sh : Shell Nat) : Shell Nat :=
  { sh with state := ⟨sh.state.globals, sh.state.registry, (sh.state.user.1, sh.state.user.2 + 1)⟩ }

/-- The macros and modules are those of the example of the console.  Cells are run by counting; so are the imports of macro
functions. -/
def tools : Tools Nat String where
  con := Console.Ex.console
  exec := fun _ sh => some (counted sh)
  silent := fun _ sh => some (counted sh)

/-- The creation of the magic module. -/
def setup (p : State Nat) : State Nat :=
  ⟨p.globals, p.registry, ({ p.user.1 with modules := [("__mcpyrate_repl_self__".toList, .obj 6)] }, p.user.2)⟩

/-- The variable `k` of the user is the function 1. -/
def world : State Nat :=
  ⟨[], [], (⟨[], fun i => if i = 5 then [("k".toList, .obj 1), ("__name__".toList, .none)] else [], 7⟩, 0)⟩

def start : Shell Nat := ⟨fun _ => ⟨[], false⟩, 0, [], [], [], none, none, world⟩

def code (body : List Val) : Val := Compiler.Ex.module_ body
def importF : Val := code [GetMacros.Ex.absolute "lib" [("f", none)]]
def importG : Val := code [GetMacros.Ex.absolute "lib" [("g", none)]]
def importBad : Val := code [GetMacros.Ex.absolute "bad" [("f", none)]]
def importK : Val := code [GetMacros.Ex.absolute "__self__" [("k", none)]]
def useF : Val := code [Console.Ex.use "f"]
def useG : Val := code [Console.Ex.use "g"]

inductive Action where
  | load | unload | cell (t : Val)

/-- The outcomes of the cells, and the shell after that. -/
def play (n : Nat) : List Action → Shell Nat → Option (List (Except Raised Unit) × Shell Nat)
  | [], sh => some ([], sh)
  | .load :: l, sh => play n l (load setup sh)
  | .unload :: l, sh => play n l (unload sh)
  | .cell t :: l, sh =>
    match cell tools n t sh with
    | none => none
    | some (r, sh1) => (play n l sh1).map fun y => (r :: y.1, y.2)

end Mcpyrate.IConsole.Ex
