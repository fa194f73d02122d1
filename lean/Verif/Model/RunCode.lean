import Verif.Model.Compiler
import Verif.Model.Modules
/-
Model of `run`, `compile` and `_compile`, mcpyrate/compiler.py:186-278 and 317-438.
-/
namespace Mcpyrate.RunCode
open Py Expander GetMacros Compiler Modules

variable {υ μ D Code : Type}

/-- The state: that of the compiler, with `sys.modules` and the attributes of all objects in it. -/
abbrev State (υ : Type) := Proc (Sys × υ)

def State.sys (p : State υ) : Sys := p.user.1
def State.setSys (p : State υ) (s : Sys) : State υ := { p with user := (s, p.user.2) }

/-- What `run` uses besides the expander: the unparser, Python's compiler, and Python itself.  Running code may change
everything, and may not finish. -/
structure Runner (υ μ D Code : Type) extends Tools (Sys × υ) μ D where
  host : Host
  /-- `mcpyrate.unparse(tree)`, with no options; for a tree or a list -/
  unparse : Val → Except Err Str
  /-- `builtins.compile(tree, filename, mode="exec", dont_inherit=True, optimize=…)` -/
  compile : Val → Str → Except Err Code
  /-- `exec(code, module.__dict__)` -/
  exec : Code → Nat → State υ → Option (Except Exc Unit × State υ)
  /-- the object of a constant that is neither `None` nor a string -/
  object : Const → Nat

/-- The argument `source` of `run`. -/
inductive RunSource (Code : Type) where
  | code (c : Code)
  | source (s : Source)

/-- The argument `module` of `run`. -/
inductive ModuleArg where
  | none
  | name (n : Str)
  | module (m : Nat)
  | other

abbrev R (υ α : Type) := Py.M Exc (State υ) α

/-- `create_module()`, or `sys.modules[dotted_name]`, or the module itself, compiler.py:417-426. `uuid` is the value of
`gensym("")`. -/
def findModule (T : Runner υ μ D Code) (uuid : Str) : ModuleArg → R υ Obj
  | .none => fun p =>
    let r := createModule T.host .none .none true uuid p.sys
    some (liftErr (r.1.map Obj.obj), p.setSys r.2)
  | .name n => fun p =>
    match p.sys.modules.get n with
    | some x => some (.ok x, p)
    | none => some (.error (.py .moduleNotFoundError), p)
  | .module m => pure (.obj m)
  | .other => M.throw (.py .typeError)

/-- `getattr(x, name)`, for the attributes of objects that can be modules. -/
def getAttr (name : Str) (x : Obj) : R υ Obj := fun p =>
  match x with
  | .obj i =>
    match (p.sys.attrs i).get name with
    | some v => some (.ok v, p)
    | none => some (.error (.py .attributeError), p)
  | _ => some (.error (.py .attributeError), p)

/-- `filename.endswith(".py")`. -/
def endsPy (filename : Str) : Bool := filename.drop (filename.length - 3) == ".py".toList

/-- The docstring as an object. -/
def docObj (T : Runner υ μ D Code) : Option Const → Obj
  | none => .none
  | some .none => .none
  | some (.str s) => .str s.toList
  | some c => .obj (T.object c)

/-- `if not (filename and filename.endswith(".py")): if isinstance(source, (ast.AST, list)): source = unparse(source)`,
compiler.py:271-273. -/
def dynamic (T : Runner υ μ D Code) (filename : Str) : Source → Except Err Source
  | .tree t => if endsPy filename then .ok (.tree t) else (T.unparse t).map .str
  | .list xs => if endsPy filename then .ok (.list xs) else (T.unparse (.list xs)).map .str
  | src => .ok src

/-- `_compile(source, filename, optimize, self_module)`, compiler.py:227-278. -/
def compileSource (T : Runner υ μ D Code) (filename : Str) (self : Option String) (n : Nat) (src : Source) :
    R υ (Code × Option Const) := do
  let src ← M.ofExcept (liftErr (dynamic T filename src))
  let t ← (fun p => Compiler.expand T.toTools filename self n src p : R υ Val)
  match t.isK .Module, t.get? .body with
  | false, _ => M.throw (.py .assertionError)
  | true, none => M.throw (.py .attributeError)
  | true, some (.list body) => do
    let d ← M.ofExcept (liftErr (FutureImports.getdocstring body))
    let c ← M.ofExcept (liftErr (T.compile t filename))
    return (c, d)
  | true, some _ => M.throw (.py .typeError)       -- a body that is not a list; simplified

/-- `__name__` as `self_module`.  A name that is not a string counts as missing (simplified). -/
def selfOf : Obj → Option String
  | .str s => some (String.ofList s)
  | _ => none

/-- The code and the docstring, compiler.py:427-435.  A module whose `__file__` is not a string is a TypeError (it is one
in `builtins.compile` at the latest; simplified: the effects of the expansion before are left out). -/
def codeOf (T : Runner υ μ D Code) (file name : Obj) (n : Nat) : RunSource Code → R υ (Code × Option Const)
  | .code c => pure (c, none)
  | .source src =>
    match file with
    | .str filename => compileSource T filename (selfOf name) n src
    | _ => M.throw (.py .typeError)

/-- `run(source, module)`, compiler.py:317-438. -/
def run (T : Runner υ μ D Code) (uuid : Str) (n : Nat) (source : RunSource Code) (module : ModuleArg) : R υ Obj := do
  let x ← findModule T uuid module
  let file ← getAttr "__file__".toList x
  let name ← getAttr "__name__".toList x
  let (c, d) ← codeOf T file name n source
  match x with
  | .obj m => do
    (fun p => let r := setAttr T.host x "__doc__".toList (docObj T d) p.sys; some (liftErr r.1, p.setSys r.2) : R υ Unit)
    (T.exec c m : R υ Unit)
    return x
  | _ => M.throw (.py .attributeError)             -- does not occur after `getAttr`

end Mcpyrate.RunCode
