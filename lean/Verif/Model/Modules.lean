import Verif.Py.Dict
import Verif.Py.Err
import Verif.Model.GetMacros
/-
Model of `create_module` and `temporary_module`, compiler.py:441-586: `sys.modules` and the attributes
of module objects.
-/
namespace Mcpyrate.Modules
open Py GetMacros

abbrev Str := List Char

/-- A value: `None`, a string, or an object with an identity. -/
inductive Obj where
  | none
  | str (s : Str)
  | obj (id : Nat)
  deriving DecidableEq, Repr

/-- The interpreter: `sys.modules`, the attributes of the objects, and the next unused identity. -/
structure Sys where
  modules : Dict Str Obj
  attrs : Nat → Dict Str Obj
  next : Nat

/-- What is asked of Python: `str.isidentifier`, and for an object (found in `sys.modules`) whether it
is true and whether attributes can be set on it. -/
structure Host where
  isIdent : Str → Bool
  truthy : Nat → Bool
  settable : Nat → Bool

/-- `bool(x)`. -/
def Host.bool (P : Host) : Obj → Bool
  | .none => false
  | .str s => s != []
  | .obj i => P.truthy i

/-- An argument: `None`, a string, or something else (true or false). -/
inductive Arg where
  | none
  | str (s : Str)
  | other (truthy : Bool)
  deriving DecidableEq, Repr

/-- `s.rsplit(".", maxsplit=1)` if there is a dot in `s`. -/
def rsplitDot : Str → Option (Str × Str)
  | [] => none
  | c :: cs =>
    match rsplitDot cs with
    | some (a, b) => some (c :: a, b)
    | none => if c = '.' then some ([], cs) else none

/-- `setattr(x, name, value)`. -/
def setAttr (P : Host) (x : Obj) (name : Str) (v : Obj) (s : Sys) : Except Err Unit × Sys :=
  match x with
  | .obj i =>
    if P.settable i then
      (.ok (), { s with attrs := fun j => if j = i then (s.attrs i).set name v else s.attrs j })
    else (.error .attributeError, s)
  | _ => (.error .attributeError, s)

/-- `delattr(x, name)`. -/
def delAttr (P : Host) (x : Obj) (name : Str) (s : Sys) : Except Err Unit × Sys :=
  match x with
  | .obj i =>
    if P.settable i && ((s.attrs i).get name).isSome then
      (.ok (), { s with attrs := fun j => if j = i then (s.attrs i).del name else s.attrs j })
    else (.error .attributeError, s)
  | _ => (.error .attributeError, s)

/-- The checks of compiler.py:496-501, and `dotted_name` if it is true. -/
def checkName (P : Host) : Arg → Except Err (Option Str)
  | .none => .ok none
  | .str [] => .ok none
  | .str (c :: cs) => if (splitDots (c :: cs)).all P.isIdent then .ok (some (c :: cs)) else .error .typeError
  | .other true => .error .typeError
  | .other false => .ok none

/-- `filename` if it is true, compiler.py:502-503. -/
def checkFile : Arg → Except Err (Option Str)
  | .none => .ok none
  | .str [] => .ok none
  | .str (c :: cs) => .ok (some (c :: cs))
  | .other true => .error .typeError
  | .other false => .ok none

/-- `__file__`, compiler.py:506-510. -/
def fileOf (name file : Option Str) (uuid : Str) : Str :=
  match file, name with
  | some f, _ => f
  | none, some n => "<dynamically created module '".toList ++ n ++ "'>".toList
  | none, none => "<dynamically created module ".toList ++ uuid ++ ">".toList

/-- `__name__`, compiler.py:511. -/
def nameOf (name : Option Str) (uuid : Str) : Str :=
  name.getD ("dynamically_created_module_".toList ++ uuid)

/-- The attributes of the new module, compiler.py:525-527 and 539. -/
def metadata (name file : Str) (package : Obj) : Dict Str Obj :=
  [("__name__".toList, .str name), ("__doc__".toList, .none), ("__package__".toList, package),
   ("__loader__".toList, .none), ("__spec__".toList, .none), ("__file__".toList, .str file)]

/-- The last steps of `create_module`, compiler.py:525-547: `name` and `file` are determined. -/
def register (P : Host) (name file : Str) (updateParent : Bool) (s : Sys) : Except Err Nat × Sys :=
  let module := s.next
  match rsplitDot name with
  | none =>
    (.ok module,
      { modules := s.modules.set name (.obj module)
        attrs := fun j => if j = module then metadata name file .none else s.attrs j
        next := module + 1 })
  | some (packagename, finalcomponent) =>
    match s.modules.get packagename with
    | none => (.error .moduleNotFoundError, s)
    | some package =>
      if !P.bool package then (.error .moduleNotFoundError, s)
      else
        let s1 : Sys :=
          { s with attrs := fun j => if j = module then metadata name file (.str packagename) else s.attrs j
                   next := module + 1 }
        if updateParent then
          match setAttr P package finalcomponent (.obj module) s1 with
          | (.error e, _) => (.error e, s)
          | (.ok (), s2) => (.ok module, { s2 with modules := s2.modules.set name (.obj module) })
        else (.ok module, { s1 with modules := s1.modules.set name (.obj module) })

/-- `create_module(dotted_name, filename, update_parent=…)`, compiler.py:441-547.  `uuid` is the value
of `gensym("")`.  The unreachable module object left behind by a failing call is not kept. -/
def createModule (P : Host) (dottedName filename : Arg) (updateParent : Bool) (uuid : Str) (s : Sys) :
    Except Err Nat × Sys :=
  match checkName P dottedName, checkFile filename with
  | .error e, _ => (.error e, s)
  | .ok _, .error e => (.error e, s)
  | .ok n, .ok f => register P (nameOf n uuid) (fileOf n f uuid) updateParent s

/-- The `finally` part of `temporary_module`, compiler.py:575-586: any exception is dropped.  A name
that is not a string is not in `sys.modules` (KeyError). -/
def cleanup (P : Host) (dottedName : Arg) (updateParent : Bool) (s : Sys) : Sys :=
  match dottedName with
  | .str name =>
    match s.modules.get name with
    | none => s
    | some _ =>
      let s1 := { s with modules := s.modules.del name }
      if updateParent then
        match rsplitDot name with
        | none => s1
        | some (packagename, finalcomponent) =>
          -- `delattr(None, …)` if the package is not there
          (delAttr P ((s1.modules.get packagename).getD .none) finalcomponent s1).2
      else s1
  | _ => s

/-- `with temporary_module(dotted_name, filename, update_parent=…) as module: body`,
compiler.py:550-586; `ε` are the exceptions of the body. -/
def temporaryModule {ε α : Type} (P : Host) (dottedName filename : Arg) (updateParent : Bool) (uuid : Str)
    (body : Nat → Sys → Except ε α × Sys) (s : Sys) : Except (Err ⊕ ε) α × Sys :=
  match createModule P dottedName filename updateParent uuid s with
  | (.error e, s1) => (.error (.inl e), cleanup P dottedName updateParent s1)
  | (.ok m, s1) =>
    match body m s1 with
    | (.error e, s2) => (.error (.inr e), cleanup P dottedName updateParent s2)
    | (.ok a, s2) => (.ok a, cleanup P dottedName updateParent s2)

end Mcpyrate.Modules
