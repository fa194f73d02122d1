import Verif.Py.Walk
/-
Model of `mcpyrate.utils.rename`, utils.py:84-147.
-/
namespace Mcpyrate.Rename
open Py

/-- `if tree.f == oldname: tree.f = newname` for the fields in `fields`; a field in `req` that is
missing raises AttributeError (fields of optional type default to `None` on the class). -/
def edit (old new : String) (l : Loc) (fs : Fields) (req fields : List F) : Except Err (Out Unit) :=
  if req.all (fun f => (fs.lookup f).isSome) then
    .ok { loc := l, child := fun _ => (),
          leaf := fun f v => if f ∈ fields ∧ v = .str old then some (.str new) else none }
  else .error .attributeError

/-- `for j in range(len(tree.names)): if tree.names[j] == oldname: tree.names[j] = newname`.
Simplified: an AST inside such a list of strings is not visited afterwards; a `names` that is
neither missing nor a list raises TypeError (Python: depends on the type). -/
def editNames (old new : String) (l : Loc) (fs : Fields) : Except Err (Out Unit) :=
  match fs.lookup .names with
  | none => .error .attributeError
  | some (.list _) =>
    .ok { loc := l, child := fun _ => (),
          leaf := fun f v =>
            match f, v with
            | .names, .list xs => some (.list (xs.map fun x => if x = .str old then .str new else x))
            | _, _ => none }
  | some _ => .error .typeError

/-- `Renamer.transform`, utils.py:111-146, up to the `generic_visit`. -/
def step (old new : String) (_ : Unit) (c : Cls) (l : Loc) (fs : Fields) : Except Err (Out Unit) :=
  match c with
  | .py .Name => edit old new l fs [.id] [.id]
  | .py .Attribute => edit old new l fs [.attr] [.attr]
  | .py .FunctionDef | .py .AsyncFunctionDef | .py .ClassDef => edit old new l fs [.name] [.name]
  | .py .arg => edit old new l fs [.arg] [.arg]
  | .py .keyword => edit old new l fs [] [.arg]
  | .py .ImportFrom => edit old new l fs [] [.module_]
  | .py .alias => edit old new l fs [.name] [.name, .asname]
  | .py .ExceptHandler => edit old new l fs [] [.name]
  | .py .Global | .py .Nonlocal => editNames old new l fs
  | .py .MatchAs | .py .MatchStar => edit old new l fs [] [.name]
  | _ => edit old new l fs [] []

/-- `rename(oldname, newname, tree)`, utils.py:84-147. -/
def rename (old new : String) (t : Val) : Except Err Val := walk (step old new) () t

end Mcpyrate.Rename
