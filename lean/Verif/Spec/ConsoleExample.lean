import Verif.Spec.Console
import Verif.Spec.CompilerExample
/-
A small console for the concrete cases.
-/
namespace Mcpyrate.Console.Ex
open Py Expander GetMacros Compiler Modules RunCode

/-- `m[x]` -/
def use (m : String) : Val := exprStmt (Expander.Ex.sub (name m) (name "x"))

/-- The inputs that the parser knows. -/
def table : List (String × List Val) :=
  [("from lib import macros, f", [GetMacros.Ex.absolute "lib" [("f", none)]]),
   ("from lib import macros, g as f", [GetMacros.Ex.absolute "lib" [("g", some "f")]]),
   ("from lib import macros, h", [GetMacros.Ex.absolute "lib" [("h", none)]]),
   ("from lib import macros, f; f[x]", [GetMacros.Ex.absolute "lib" [("f", none)], use "f"]),
   ("from lib import macros, g; g[x]", [GetMacros.Ex.absolute "lib" [("g", none)], use "g"]),
   ("from __self__ import macros, k", [GetMacros.Ex.absolute "__self__" [("k", none)]]),
   ("from nolib import macros, f", [GetMacros.Ex.absolute "nolib" [("f", none)]]),
   ("from bad import macros, f", [GetMacros.Ex.absolute "bad" [("f", none)]]),
   ("f[x]", [use "f"]),
   ("x = y", [Compiler.Ex.assign]),
   ("from lib import f as f", [Compiler.Ex.assign]),
   ("from lib import f as k", [Compiler.Ex.assign]),
   ("mcpyrate.repl.utils.doc(f)", [use "doc"])]

/-- `lib` has the macros `f` (1), `g` (2) and `h` (3).  The module `bad` raises RuntimeError when it is imported.
`f` returns its tree, any other macro raises.  `h` is defined inside of a function.  Code is run by counting.
Object 5 is the namespace of the session, object 6 the magic module. -/
def console : Tools Nat String (List Val) where
  interp :=
    { importModule := fun n p => if n = "lib" then (.ok n, p) else
        if n = "bad" then (.error .runtimeError, p) else (.error .moduleNotFoundError, p)
      reload := fun m p => (.ok m, p)
      sysModules := fun p n => (p.user.1.modules.get n.toList).bind fun o => match o with | .obj _ => some n | _ => none
      attr := fun p m k => if m = "__mcpyrate_repl_self__" then
          match p.user.1.modules.get m.toList with
          | some (.obj i) => match (p.user.1.attrs i).get k.toList with | some (.obj f) => some f | _ => none
          | _ => none
        else [("f", 1), ("g", 2), ("h", 3)].lookup k
      callable := fun _ => true
      fs := Paths.plainFS
      syspath := [] }
  env :=
    { macros := fun i => ⟨false, false, fun a => if i = 1 then .ret (.val a.tree) else .raise (.user 7 true)⟩
      hooks := fun _ _ _ _ => .ret (.val .none), filename := "<interactive input>", loc := fun _ => [] }
  post := fun _ t s => some (.ok t, s)
  isOwn := fun c => c == .marker "Done"
  verdict := fun s => if s = "if x:".toList then .incomplete else .complete
  dedent := fun s => s
  parse := fun s => match table.find? fun x => x.1.toList == s with
    | some x => .ok (Compiler.Ex.module_ x.2)
    | none => .error .syntaxError
  compile := fun body => .ok body
  runcode := fun _ x => some (.ok (), (x.1, ⟨x.2.globals, x.2.registry, (x.2.user.1, x.2.user.2 + 1)⟩))
  origin := fun f => if f = 1 then some ("lib".toList, "f".toList) else
    if f = 3 then some ("lib".toList, "outer.<locals>.h".toList) else none
  locals := 5
  metadata := [("__name__".toList, .str "__mcpyrate_repl_self__".toList)]
  filename := "<interactive input>".toList

/-- In the beginning: no macros; the variable `k` is the function 1. -/
def start : Session Nat where
  bindings := []
  changed := false
  state := { globals := [], registry := [], user := (⟨[("__mcpyrate_repl_self__".toList, .obj 6)],
    fun i => if i = 5 then [("k".toList, .obj 1), ("__name__".toList, .none)] else [], 7⟩, 0) }
  output := []

/-- Several inputs, up to the first one that ends the session: the results, and the session after that. -/
def play (n : Nat) : List String → Session Nat → Option (List (Except Exc Bool) × Session Nat)
  | [], s => some ([], s)
  | x :: xs, s =>
    match runsource console n x.toList s with
    | none => none
    | some (.error e, s1) => some ([.error e], s1)
    | some (.ok b, s1) => (play n xs s1).map fun y => (.ok b :: y.1, y.2)

/-- The results, the bindings, the number of times code was run, and what was shown. -/
def view (x : Option (List (Except Exc Bool) × Session Nat)) :
    Option (List (Except Exc Bool) × Dict String Nat × Nat × List Shown) :=
  x.map fun y => (y.1, y.2.bindings, y.2.state.user.2, y.2.output)

end Mcpyrate.Console.Ex
