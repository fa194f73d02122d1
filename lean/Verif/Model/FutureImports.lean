import Verif.Py.Ast
import Verif.Py.Err
/-
Model of `isfutureimport`, `split_futureimports`, `inject_after_futureimports`
(coreutils.py:257-304) and `getdocstring` (utils.py:175-196).
-/
namespace Mcpyrate.FutureImports
open Py

/-- `bool(c)`.  Simplified: a floating point or complex zero is recognised by the usual `repr`. -/
def truthy : Const → Bool
  | .none => false
  | .bool b => b
  | .int n => n != 0
  | .str s => s != ""
  | .bytes b => b != []
  | .float r => r != "0.0" && r != "-0.0"
  | .complex r => r != "0j" && r != "-0j"
  | .ellipsis => true

/-- `getdocstring(body)` for a list, utils.py:175-196: the value of the `Constant` in a leading
`Expr`, of whatever type.  (`ast.Str` does not occur on Python 3.8+.)  The value of a Constant is
always a constant here. -/
def getdocstring : List Val → Except Err (Option Const)
  | [] => .ok none
  | s :: _ =>
    if s.isK .Expr then
      match s.get? .value with
      | none => .error .attributeError
      | some v =>
        if v.isK .Constant then
          match v.get? .value with
          | some (.const c) => .ok (some c)
          | some _ => .ok none
          | none => .error .attributeError
        else .ok none
    else .ok none

/-- `isfutureimport(tree)`, coreutils.py:257-259.  The optional field `module` defaults to `None`. -/
def isfutureimport (t : Val) : Bool :=
  t.isK .ImportFrom && (t.get? .module_).getD .none == .str "__future__"

/-- The loop of coreutils.py:275-278, from index `i`, with the current value of `k`; the result is
the value of `k` after the loop. -/
def loop : Int → Nat → List Val → Int
  | k, _, [] => k
  | _, i, s :: rest => if !isfutureimport s then i else loop i (i + 1) rest

/-- `bool(getdocstring(body))`, given the docstring. -/
def docTruthy : Option Const → Bool
  | some c => truthy c
  | none => false

/-- `split_futureimports(body)`, coreutils.py:261-281. -/
def split (body : List Val) : Except Err (List Val × List Val × List Val) := do
  let d ← getdocstring body
  -- `if getdocstring(body)`; coreutils.py:270 cannot fail because then the body is not empty
  let isdoc := docTruthy d
  let doc := if isdoc then body.take 1 else []
  let body := if isdoc then body.drop 1 else body
  let k := loop (-1) 0 body
  return if k ≥ 0 then (doc, body.take k.toNat, body.drop k.toNat) else (doc, [], body)

/-- `isinstance(x, ast.stmt)`. -/
def isStmt : Val → Bool
  | .node (.py k) _ _ => k.isStmt
  | _ => false

/-- `inject_after_futureimports(stmts, body)`, coreutils.py:283-304. -/
def inject (stmts body : Val) : Except Err (List Val) :=
  match body with
  | .list body =>
    match stmts with
    | .list stmts => do
      let (d, f, r) ← split body
      return d ++ f ++ stmts ++ r
    | s =>
      if isStmt s then do
        let (d, f, r) ← split body
        return d ++ f ++ [s] ++ r
      else .error .typeError
  | _ => .error .typeError

end Mcpyrate.FutureImports
