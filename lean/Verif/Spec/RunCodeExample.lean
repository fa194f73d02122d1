import Verif.Spec.RunCode
import Verif.Spec.CompilerExample
/-
A small world for the concrete cases about `run`.
-/
namespace Mcpyrate.RunCode.Ex
open Py Expander GetMacros Compiler Modules

/-- `'text'` as a statement. -/
def docStmt : Val := exprStmt (constant (.str "text"))
/-- `42` as a statement. -/
def numStmt : Val := exprStmt (constant (.int 42))

/-- There are no modules with macros and no dialects.  The parser knows a few texts.  Code is a tree; running it sets the
attribute `x` of the module to `__doc__`, and counts. -/
def runner : Runner Nat Unit Unit Val where
  interp := ⟨fun _ p => (.error .moduleNotFoundError, p), fun _ p => (.ok (), p), fun _ _ => none, fun _ _ _ => none,
    fun _ => true, Paths.plainFS, []⟩
  env := ⟨fun _ => ⟨false, false, fun a => .ret (.val a.tree)⟩, fun _ _ _ _ => .ret (.val .none), "a.py", fun _ => []⟩
  post := fun _ t s => some (.ok t, s)
  dialects := ⟨fun _ => true, fun _ _ _ s => (some (), s), fun _ => none, fun _ => none, fun t => t.isAST⟩
  sources := ⟨fun _ => true, fun _ _ _ s => (some (), s), fun _ => none, fun _ => none, fun t => t ≠ []⟩
  decode := fun _ => .error .syntaxError
  parse := fun s => if s = "x = y".toList then some Compiler.Ex.plain else if s = "'text'".toList then
    some (Compiler.Ex.module_ [docStmt]) else none
  parseStmt := fun _ => .error .syntaxError
  isOwn := fun c => c == .marker "Done"
  isMarker := fun c => match c with | .marker _ => true | _ => false
  multiphase := fun t _ => pure t
  host := ⟨fun _ => true, fun _ => true, fun _ => true⟩
  unparse := fun t => match t with | .list [s] => if s = docStmt then .ok "'text'".toList else .error .unparserError
                                   | _ => .error .unparserError
  compile := fun t _ => .ok t
  exec := fun _ m p => some (.ok (), ⟨p.globals, p.registry,
    ({ p.user.1 with attrs := fun i => if i = m then
        ((p.user.1.attrs m).set "x".toList (((p.user.1.attrs m).get "__doc__".toList).getD .none)) else p.user.1.attrs i },
      p.user.2 + 1)⟩)
  object := fun _ => 99

/-- One module, `m`, with a source file. -/
def start : State Nat where
  globals := []
  registry := []
  user := (⟨[("m".toList, .obj 3)], fun i => if i = 3 then metadata "m".toList "/home/u/m.py".toList .none else [], 4⟩, 0)

/-- The name and some attributes of a result. -/
def shown (r : Option (Except Exc Obj × State Nat)) : Option (Except Exc (Obj × List (Option Obj) × Option Obj) × Nat) :=
  r.map fun x => (x.1.map fun o => match o with
    | .obj m => (o, ["__name__".toList, "__doc__".toList, "x".toList].map ((x.2.user.1.attrs m).get ·),
        x.2.user.1.modules.get "dynamically_created_module_0a".toList)
    | _ => (o, [], none), x.2.user.2)

end Mcpyrate.RunCode.Ex
