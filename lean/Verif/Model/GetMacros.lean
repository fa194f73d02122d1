import Verif.Py.Dict
import Verif.Py.Ast
import Verif.Model.Paths
import Verif.Model.MacroImport
/-
Model of `get_macros`, coreutils.py:91-199, with `importlib.util.resolve_name`.

Importing a module runs its code, so it acts on a state `σ` (the state of the interpreter).  Modules
and run-time objects are of the abstract types `M` and `O`.
-/
namespace Mcpyrate.GetMacros
open Py Paths

/-- What `get_macros` uses of the interpreter. -/
structure Interp (σ M O : Type) where
  /-- `importlib.import_module(name)` for an absolute name -/
  importModule : String → σ → Except Err M × σ
  /-- `importlib.reload(module)` -/
  reload : M → σ → Except Err M × σ
  /-- `sys.modules.get(name)` -/
  sysModules : σ → String → Option M
  /-- `getattr(module, name)`; `none` if that raises AttributeError -/
  attr : σ → M → String → Option O
  /-- `callable(x)` -/
  callable : O → Bool
  /-- `pathlib.Path(…).expanduser().resolve()` -/
  fs : FS
  /-- `sys.path` -/
  syspath : List Str

/-- The keyword arguments of `get_macros`. -/
structure Opts where
  filename : Str
  reload : Bool := false
  allowAsname : Bool := true
  selfModule : Option String := none

/-- `s.split(".")`. -/
def splitDots : Str → List Str
  | [] => [[]]
  | c :: cs =>
    if c = '.' then [] :: splitDots cs
    else match splitDots cs with
      | [] => [[c]]                              -- does not occur
      | x :: xs => (c :: x) :: xs

/-- `".".join(xs)`. -/
def joinDots : List Str → Str
  | [] => []
  | [x] => x
  | x :: xs => x ++ '.' :: joinDots xs

/-- `importlib.util.resolve_name("." * dots + name, package)` (Python 3.9+; there `_resolve_name` is
`bits = package.rsplit('.', level - 1)`, `len(bits) < level` is an ImportError, the base is `bits[0]`).
`name` does not begin with a dot. -/
def resolveName (dots : Nat) (name : String) (package : Option Str) : Except Err String :=
  if dots = 0 then .ok name
  else
    match package with
    | none => .error .importError
    | some [] => .error .importError
    | some (c :: cs) =>
      let bits := splitDots (c :: cs)
      if bits.length < dots then .error .importError
      else
        let base := joinDots (bits.take (bits.length - (dots - 1)))
        .ok (if name = "" then String.ofList base else String.ofList (base ++ '.' :: name.toList))

/-- `bool(macroimport.level)`.  The optional field defaults to None. -/
def levelTruthy (t : Val) : Bool :=
  match t.get? .level with
  | some (.const (.int n)) => n != 0
  | some (.const .none) => false
  | none => false
  | some _ => true

/-- `"." * macroimport.level`: the number of dots; TypeError unless it is a number. -/
def dots (t : Val) : Except Err Nat :=
  match t.get? .level with
  | some (.const (.int n)) => .ok n.toNat
  | _ => .error .typeError

/-- The alias `name.name`, `name.asname` (coreutils.py:180-197).  The field `asname` is optional.
Simplified: a name or alias that is neither missing, None nor a string is a TypeError in any case. -/
def aliasOf (a : Val) : Except Err (String × Option String) :=
  match a.get? .name, (a.get? .asname).getD .none with
  | none, _ => .error .attributeError
  | some (.const (.str n)), .const .none => .ok (n, none)
  | some (.const (.str n)), .const (.str s) => .ok (n, some s)
  | _, _ => .error .typeError

/-- `asname or name`. -/
def key (n : String) : Option String → String
  | some s => if s = "" then n else s
  | none => n

variable {σ M O : Type}

/-- The loop of coreutils.py:179-197. -/
def bindNames (I : Interp σ M O) (o : Opts) (s : σ) (m : M) :
    List Val → Dict String O → Except Err (Dict String O)
  | [], b => .ok b
  | a :: as, b =>
    match aliasOf a with
    | .error e => .error e
    | .ok (n, asname) =>
      if !o.allowAsname && asname.isSome then .error .importError
      else
        match I.attr s m n with
        | none => .error .importError
        | some x =>
          if !I.callable x then .error .importError
          else bindNames I o s m as (b.set (key n asname) x)

/-- coreutils.py:178-199, with the module found. -/
def bindAll (I : Interp σ M O) (o : Opts) (t : Val) (absname : String) (m : M) (s : σ) :
    Except Err (String × Dict String O) :=
  match t.get? .names with
  | some (.list names) =>
    match bindNames I o s m (names.drop 1) [] with
    | .error e => .error e
    | .ok b => .ok (absname, b)
  | some _ => .error .typeError
  | none => .error .attributeError

/-- `package_absname`, coreutils.py:124-129. -/
def packageOf (I : Interp σ M O) (o : Opts) (t : Val) : Except Err (Option Str) :=
  if levelTruthy t && ".py".toList.isSuffixOf o.filename then
    match resolvePackage I.fs I.syspath o.filename with
    | .ok p => .ok (some p)
    | .error _ => .error .importError
  else .ok none

/-- Find the module, coreutils.py:131-176.  `module_` is an optional field.  Simplified: a module name
that is neither None nor a string is a TypeError. -/
def findModule (I : Interp σ M O) (o : Opts) (t : Val) (package : Option Str) (s : σ) :
    Except Err (String × M) × σ :=
  match (t.get? .module_).getD .none with
  | .const .none => (.error .syntaxError, s)
  | .const (.str name) =>
    if name = "__self__" then
      if levelTruthy t then (.error .syntaxError, s)
      else
        match o.selfModule with
        | none => (.error .moduleNotFoundError, s)
        | some a =>
          match I.sysModules s a with
          | some m => (.ok (a, m), s)
          | none => (.error .moduleNotFoundError, s)
    else
      match dots t with
      | .error e => (.error e, s)
      | .ok d =>
        match resolveName d name package with
        | .error e => (.error e, s)
        | .ok a =>
          match I.importModule a s with
          -- a ModuleNotFoundError is raised anew, with a better message
          | (.error e, s) => (.error e, s)
          | (.ok m, s) =>
            if o.reload then
              match I.reload m s with
              | (.error e, s) => (.error e, s)
              | (.ok m, s) => (.ok (a, m), s)
            else (.ok (a, m), s)
  | _ => (.error .typeError, s)

/-- `get_macros(macroimport, …)`, coreutils.py:91-199. -/
def getMacros (I : Interp σ M O) (o : Opts) (t : Val) (s : σ) :
    Except Err (String × Dict String O) × σ :=
  match packageOf I o t with
  | .error e => (.error e, s)
  | .ok package =>
    match findModule I o t package s with
    | (.error e, s) => (.error e, s)
    | (.ok (a, m), s) => (bindAll I o t a m s, s)

end Mcpyrate.GetMacros
