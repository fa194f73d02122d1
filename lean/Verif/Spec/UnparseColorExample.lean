import Verif.Spec.Painted
/-
For the examples of C69.
-/
namespace Mcpyrate.ColorCase
open Py Unparse Unparse.Color

/-- A terminal with some colors. -/
def ansi : Scheme where
  code
    | .keyword => lit "\x1b[33m"
    | .number => lit "\x1b[32m"
    | .defName => lit "\x1b[36m"
    | .decorator => lit "\x1b[94m"
    | .builtin => lit "\x1b[1m"
    | _ => lit "\x1b[2m"
  reset := lit "\x1b[0m"

/-- One with a single color. -/
def bright : Scheme where
  code _ := lit "\x1b[1m"
  reset := lit "\x1b[0m"

theorem solid_of {S : Scheme} (h : S.reset = lit "\x1b[0m") : Solid S where
  first x r e := by
    rw [h] at e
    have := (List.cons.inj e).1
    rw [← this]
    decide +kernel
  last x r e := by
    rw [h, show lit "\x1b[0m" = lit "\x1b[0" ++ ['m'] by decide +kernel] at e
    have := (List.cons.inj (List.append_inj' e rfl).2).1
    rw [← this]
    decide +kernel
  ne := by rw [h]; decide +kernel

def host : Host := ⟨fun _ => false⟩

/-- `print` is a builtin, there are no macros, and `v` is a captured value. -/
def opts (debug : Bool) (color : Option Scheme) : Opts where
  debug := debug
  color := color
  isException _ := false
  isBuiltin x := x == lit "print"
  isbound _ := false
  str _ := lit "None"
  capturedValue t := .ok (if t = mk .Call [(.func, name "lookup"), (.args, .list []), (.keywords, .list [])] then some (lit "v") else none)
  capturedMacro _ := .ok none

/-- ```
@deco
class C:
    print(1 in lookup())
``` -/
def tree : Val :=
  .node (.py .Module) {} [(.body, .list [
    .node (.py .ClassDef) { lineno := .int 2 } [(.name, .str "C"), (.bases, .list []), (.keywords, .list []),
      (.body, .list [.node (.py .Expr) { lineno := .int 3 } [(.value, mk .Call [(.func, name "print"),
        (.args, .list [mk .Compare [(.left, mk .Constant [(.value, .const (.int 1))]), (.ops, .list [mk .In []]),
          (.comparators, .list [mk .Call [(.func, name "lookup"), (.args, .list []), (.keywords, .list [])]])]]),
        (.keywords, .list [])])]]),
      (.decorator_list, .list [.node (.py .Name) { lineno := .int 1 } [(.id, .str "deco")]])]])]

/-- ` for x in y`, by itself. -/
def clause : Val :=
  mk .comprehension [(.target, name "x"), (.iter, name "y"), (.ifs, .list []), (.is_async, .const (.int 0))]

/-- A class without a name. -/
def nameless : Val :=
  mk .ClassDef [(.name, .none), (.bases, .list []), (.keywords, .list []), (.body, .list [mk .Pass []]),
    (.decorator_list, .list [])]

end Mcpyrate.ColorCase
