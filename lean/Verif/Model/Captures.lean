import Verif.Model.Quotes
/-
Model of the recognisers of hygienic captures, quotes.py:413-632.
-/
namespace Mcpyrate.Quotes
open Py

/-- `x.f` (Python's attribute access, as used throughout quotes.py:481-632), where a missing attribute raises
AttributeError. -/
def attrOf (x : Obj) (f : F) : Except Err Obj :=
  match x.get? f with
  | some v => .ok v
  | none => .error .attributeError

/-- `x[i]` for a list, as in `tree.args[1]`, quotes.py:504.  Simplification: other sequences in a list-valued field count as
a TypeError. -/
def itemAt (x : Obj) (i : Nat) : Except Err Obj :=
  match x with
  | .list xs =>
    match xs[i]? with
    | some y => .ok y
    | none => .error .indexError
  | _ => .error .typeError

/-- `_is_mcpyrate_quotes_reference(tree)`, quotes.py:607-629; the two kinds of reference are not distinguished. -/
def isQuotesReference (tree : Obj) : Except Err Bool :=
  if tree.isK .Attribute then do
    if (← attrOf tree .attr) = .str "quotes" then do
      let m ← attrOf tree .value
      if m.isK .Name then return (← attrOf m .id) = .str "mcpyrate"
      else if m.isK .Call then do
        let f ← attrOf m .func
        if f.isK .Name then do
          if (← attrOf f .id) = .str "__import__" then do
            let a ← itemAt (← attrOf m .args) 0
            if a.isK .Constant then return (← attrOf a .value) = .str "mcpyrate.quotes" else return false
          else return false
        else return false
      else return false
    else return false
  else return false

/-- `type(x) is ast.Constant and type(x.value) is str`, as an assertion, quotes.py:505, 510, 601, 602. -/
def strConstant (x : Obj) : Except Err String :=
  if x.isK .Constant then do
    match ← attrOf x .value with
    | .str s => return s
    | _ => .error .assertionError
  else .error .assertionError

/-- `type(x) is ast.Constant and type(x.value) is bytes`, as an assertion, quotes.py:511, 603. -/
def bytesConstant (x : Obj) : Except Err (List Nat) :=
  if x.isK .Constant then do
    match ← attrOf x .value with
    | .bytes b => return b
    | _ => .error .assertionError
  else .error .assertionError

/-- `tree.args[0].elts`, as a list, quotes.py:508-509, 599-600 (same simplification). -/
def keyElts (tree : Obj) : Except Err (List Obj) := do
  let key ← itemAt (← attrOf tree .args) 0
  match ← attrOf key .elts with
  | .list xs => return xs
  | _ => .error .typeError

/-- The name and the frozen value, quotes.py:509-512. -/
def valueKey : List Obj → Except Err (Option (String × Option (List Nat)))
  | [n, v] => do
    let n' ← strConstant n
    return some (n', some (← bytesConstant v))
  | _ => .error .valueError

/-- The name, the unique name and the frozen macro, quotes.py:600-604. -/
def macroKey : List Obj → Except Err (Option (String × String × List Nat))
  | [n, u, v] => do
    let n' ← strConstant n
    let u' ← strConstant u
    return some (n', u', ← bytesConstant v)
  | _ => .error .valueError

/-- `is_captured_value(tree)`, quotes.py:413-514: nothing, or the name and the frozen value, if there is one. -/
def isCapturedValue (tree : Obj) : Except Err (Option (String × Option (List Nat))) :=
  if tree.isK .Call then do
    let callee ← attrOf tree .func
    if callee.isK .Attribute then do
      let a ← attrOf callee .attr
      if a = .str "capture_value" ∨ a = .str "lookup_value" then do
        if ← isQuotesReference (← attrOf callee .value) then
          if a = .str "capture_value" then do
            let n ← itemAt (← attrOf tree .args) 1
            return some (← strConstant n, none)
          else do
            valueKey (← keyElts tree)
        else return none
      else return none
    else return none
  else return none

/-- `is_captured_macro(tree)`, quotes.py:517-604: nothing, or the name, the unique name and the frozen macro. -/
def isCapturedMacro (tree : Obj) : Except Err (Option (String × String × List Nat)) :=
  if tree.isK .Call then do
    let callee ← attrOf tree .func
    if callee.isK .Attribute then do
      let a ← attrOf callee .attr
      if a = .str "lookup_macro" then do
        if ← isQuotesReference (← attrOf callee .value) then do
          macroKey (← keyElts tree)
        else return none
      else return none
    else return none
  else return none

end Mcpyrate.Quotes
