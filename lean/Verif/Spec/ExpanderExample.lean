import Verif.Spec.Expander
/-
A small set of macros for the concrete cases beside the theorems.
-/
namespace Mcpyrate.Expander.Ex
open Py

/-- `v[i]` -/
def sub (v i : Val) : Val := mk .Subscript [(.value, v), (.slice, i), (.ctx, mk .Load [])]
/-- `f(args)` -/
def call (f : Val) (args : List Val) : Val :=
  mk .Call [(.func, f), (.args, .list args), (.keywords, .list [])]
/-- `pass` -/
def pass : Val := mk .Pass []
/-- `with e: …` without variable, for each item -/
def withStmt (items body : List Val) : Val :=
  mk .With [(.items, .list (items.map fun e => mk .withitem [(.context_expr, e), (.optional_vars, .none)])),
    (.body, .list body), (.type_comment, .none)]
/-- `def f(): …` with decorators -/
def defStmt (decorators body : List Val) : Val :=
  mk .FunctionDef [(.name, .str "f"), (.args, mk .arguments []), (.body, .list body),
    (.decorator_list, .list decorators), (.returns, .none)]

/-- `m[e]` expands to `e`. -/
def identity : MacroDef Unit := ⟨false, false, fun a => .ret (.val a.tree)⟩
/-- `r[e]` expands to `m[e]`. -/
def toM : MacroDef Unit := ⟨false, false, fun a => .ret (.val (sub (name "m") a.tree))⟩
/-- `n` is an identifier macro that leaves itself. -/
def nameIdentity : MacroDef Unit := ⟨true, false, fun a => .ret (.val a.tree)⟩
/-- `e[…]` raises an exception. -/
def raises : MacroDef Unit := ⟨false, false, fun _ => .raise (.user 7 true)⟩
/-- `p(a)[e]`, `p[a][e]` expand to `e`. -/
def param : MacroDef Unit := ⟨false, true, fun a => .ret (.val a.tree)⟩
/-- `o[e]` expands `e` once. -/
def once : MacroDef Unit := ⟨false, false, fun a => .visit .once a.tree fun
  | .ok v => .ret (.val v)
  | .error e => .raise e⟩
/-- `d[e]`, `with d: …` expand to nothing. -/
def delete : MacroDef Unit := ⟨false, false, fun _ => .ret (.val .none)⟩
/-- `b` is an identifier macro that expands to `m[x]`. -/
def nameToM : MacroDef Unit := ⟨true, false, fun _ => .ret (.val (sub (name "m") (name "x")))⟩
/-- `t[e]` expands `e` in the current mode. -/
def now : MacroDef Unit := ⟨false, false, fun a => .visit .current a.tree fun
  | .ok v => .ret (.val v)
  | .error e => .raise e⟩

def env : Env Unit where
  macros
    | 0 => identity | 1 => toM | 2 => nameIdentity | 3 => raises | 4 => param | 5 => once
    | 6 => delete | 7 => nameToM | _ => now
  hooks := fun _ _ _ _ => .ret (.val .none)
  filename := "a.py"
  loc := fun _ => ["a.py:1: x"]

def world : World Unit where
  locals := [("m", 0), ("r", 1), ("n", 2), ("e", 3), ("p", 4), ("o", 5), ("d", 6), ("b", 7), ("t", 8)]
  globals := [("m", 3), ("g", 0)]
  user := ()

def start : St Unit := init world

end Mcpyrate.Expander.Ex
