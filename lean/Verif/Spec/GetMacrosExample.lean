import Verif.Model.GetMacros
import Verif.Lemmas.Paths
/-
A small interpreter for the examples about macro-imports: the state is the list of imported modules.
-/
namespace Mcpyrate.GetMacros.Ex
open Py Paths

/-- Modules `lib` and `p.lib`, with macros `f` (1) and `g` (2) and a constant `data` (0). -/
def interp : Interp (List String) String Nat where
  importModule := fun n s =>
    if n = "lib" ∨ n = "p.lib" then (.ok n, if n ∈ s then s else s ++ [n]) else (.error .moduleNotFoundError, s)
  reload := fun m s => (.ok m, s)
  sysModules := fun s n => if n ∈ s then some n else none
  attr := fun _ _ n => if n = "f" then some 1 else if n = "g" then some 2 else if n = "data" then some 0 else none
  callable := fun x => x != 0
  fs := plainFS
  syspath := ["/home/u".toList, "/home/u/lib/site".toList, "/opt".toList]

def opts : Opts where
  filename := "/home/u/lib/site/p/q/m.py".toList
  selfModule := some "p.q.m"

def alias (n : String) (a : Option String) : Val :=
  .node (.py .alias) {} [(.name, .str n), (.asname, match a with | some s => .str s | none => .none)]

/-- `from <dots><module> import macros, …`. -/
def from_ (level : Int) (module : Option String) (ns : List (String × Option String)) : Val :=
  .node (.py .ImportFrom) { lineno := .int 7, colOffset := .int 0, endLineno := .missing, endColOffset := .missing }
    [(.module_, match module with | some s => .str s | none => .none),
     (.names, .list ((("macros", none) :: ns).map fun x => alias x.1 x.2)), (.level, .int level)]

def absolute (module : String) (ns : List (String × Option String)) : Val := from_ 0 (some module) ns

/-- `from ..lib import macros, f, g as h, f as h`. -/
def relative : Val := from_ 2 (some "lib") [("f", none), ("g", some "h"), ("f", some "h")]

end Mcpyrate.GetMacros.Ex
