import Verif.Spec.Compiler
import Verif.Spec.ExpanderExample
import Verif.Spec.GetMacrosExample
/-
A small set of modules, macros, dialects and postprocessors for the concrete cases about `expand`.
-/
namespace Mcpyrate.Compiler.Ex
open Py Expander GetMacros Paths Dialects

/-- The modules `lib` and `p.lib`; the names of the imported modules are the state. -/
def interp : Interp (Proc (List String)) String Nat where
  importModule := fun n p => let r := GetMacros.Ex.interp.importModule n p.user; (r.1, { p with user := r.2 })
  reload := fun m p => (.ok m, p)
  sysModules := fun p n => GetMacros.Ex.interp.sysModules p.user n
  attr := fun p => GetMacros.Ex.interp.attr p.user
  callable := GetMacros.Ex.interp.callable
  fs := GetMacros.Ex.interp.fs
  syspath := GetMacros.Ex.interp.syspath

/-- `f` (1) registers the postprocessor 7, and returns its tree; `g` (2) raises. -/
def env : Env (List Nat × List String) where
  macros
    | 1 => ⟨false, false, fun a => .get fun _ w =>
        .put { w with user := (w.user.1 ++ [7], w.user.2) } (.ret (.val a.tree))⟩
    | _ => ⟨false, false, fun _ => .raise (.user 7 true)⟩
  hooks := fun _ _ _ _ => .ret (.val .none)
  filename := "a.py"
  loc := fun _ => ["a.py:1: x"]

/-- A module with a name added at the end. -/
def add (x : String) (t : Val) : Val := withField t .body (.list (Dialects.stmts t ++ [exprStmt (name x)]))

/-- The dialect `f` (1) adds the name `f`, `g` (2) has a postprocessor. -/
def dialects : Classes (Proc (List String)) Nat Nat Val where
  isDialect := fun o => o != 0
  new := fun o _ _ s => (some o, s)
  method := fun d => some fun t s => if d = 1 then (.value (add "f" t), s) else (.notImplemented, s)
  post := fun d => some fun t s => if d = 2 then (.value (add "post_g" t), s) else (.notImplemented, s)
  truthy := fun t => t.isAST

/-- A source transformer that does nothing. -/
def sources : Classes (Proc (List String)) Nat Nat Str where
  isDialect := fun o => o != 0
  new := fun o _ _ s => (some o, s)
  method := fun _ => some fun _ s => (.notImplemented, s)
  post := fun _ => none
  truthy := fun t => t ≠ []

/-- `from lib import dialects, f, g`. -/
def dialectImport : Val :=
  .node (.py .ImportFrom) { lineno := .int 3, colOffset := .int 0, endLineno := .missing, endColOffset := .missing }
    [(.module_, .str "lib"), (.names, .list (["dialects", "f", "g"].map fun x => GetMacros.Ex.alias x none)), (.level, .int 0)]

def module_ (body : List Val) : Val := mk .Module [(.body, .list body), (.type_ignores, .list [])]

/-- `x = y` -/
def assign : Val := mk .Assign [(.targets, .list [mk .Name [(.id, .str "x"), (.ctx, mk .Store [])]]), (.value, name "y"),
  (.type_comment, .none)]

/-- A module without macros: `x = y`. -/
def plain : Val := module_ [assign]

/-- `from lib import dialects, f, g`, `from lib import macros, f as m`, `m[x]`. -/
def full : Val := module_ [dialectImport, GetMacros.Ex.absolute "lib" [("f", some "m")],
  exprStmt (Expander.Ex.sub (name "m") (name "x"))]

/-- `from lib import macros, g as e`, `e[x]`. -/
def fails : Val := module_ [GetMacros.Ex.absolute "lib" [("g", some "e")], exprStmt (Expander.Ex.sub (name "e") (name "x"))]

/-- `from mcpyrate.multiphase import macros, phase`. -/
def phased : Val := module_ [GetMacros.Ex.absolute "mcpyrate.multiphase" [("phase", none)]]

def tools : Tools (List String) String Nat where
  interp
  env
  post := fun f t s => some (.ok (add (if f = 7 then "post_7" else "?") t), s)
  dialects
  sources
  decode := fun b => if b = [1] then .ok "x = y".toList else .error .syntaxError
  parse := fun s => if s = "x = y".toList then some plain else none
  parseStmt := fun _ => .error .syntaxError
  isOwn := fun c => c == .marker "Done"
  isMarker := fun c => match c with | .marker _ => true | _ => false
  multiphase := fun t _ => pure t

def start : Proc (List String) := ⟨[("e", 2)], [], []⟩

end Mcpyrate.Compiler.Ex
