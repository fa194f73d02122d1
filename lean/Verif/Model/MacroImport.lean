import Verif.Py.Ast
import Verif.Py.Err
/-
Model of `ismacroimport` (coreutils.py:75-88).
-/
namespace Mcpyrate
open Py

/-- `ismacroimport(statement, magicname)`, coreutils.py:75-88.  An `ImportFrom` without `names`
raises AttributeError, with empty `names` IndexError; an alias without `name` AttributeError; the
optional field `asname` defaults to `None`.  Simplified: `names` that is not a list (a string, say)
counts as missing. -/
def ismacroimport (magicname : String) (t : Val) : Except Err Bool :=
  if t.isK .ImportFrom then
    match t.get? .names with
    | some (.list []) => .error .indexError
    | some (.list (first :: _)) =>
      match first.get? .name with
      | none => .error .attributeError
      | some n => .ok (n == .str magicname && ((first.get? .asname).getD .none).isNone)
    | _ => .error .attributeError
  else .ok false

end Mcpyrate
