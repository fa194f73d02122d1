import Verif.Py.Ast
import Verif.Py.Err
/-
Model of `mcpyrate/markers.py` on AST values.

`isinstance(tree, cls)` is a predicate `p` on classes, so that any marker class hierarchy is
covered.
-/
namespace Mcpyrate.Markers
open Py

mutual
/-- `ASTMarkerCollector.examine` on a node, markers.py:48-51: collect if it is a marker, then
`generic_visit` (`ast.NodeVisitor.generic_visit`: AST-valued fields, and AST items of list-valued
fields, in order). -/
def collect (p : Cls → Bool) : Val → List Val
  | .node c l fs => (if p c then [.node c l fs] else []) ++ collectF p fs
  | _ => []
/-- The loop over the fields. -/
def collectF (p : Cls → Bool) : List (F × Val) → List Val
  | [] => []
  | (_, .node c l fs) :: r => collect p (.node c l fs) ++ collectF p r
  | (_, .list xs) :: r => collectL p xs ++ collectF p r
  | (_, .const _) :: r => collectF p r
/-- The loop over the items of a list-valued field; `if isinstance(item, AST)`. -/
def collectL (p : Cls → Bool) : List Val → List Val
  | [] => []
  | .node c l fs :: r => collect p (.node c l fs) ++ collectL p r
  | .list _ :: r => collectL p r
  | .const _ :: r => collectL p r
end

/-- `ASTVisitor.visit`, walkers.py:138-151, without state: a list is visited item by item (any
item), anything else is examined; examining a non-AST raises AttributeError in `generic_visit`
(no `_fields`).  markers.py:45-54. -/
def getMarkers (p : Cls → Bool) : Val → Except Err (List Val)
  | .node c l fs => .ok (collect p (.node c l fs))
  | .const _ => .error .attributeError
  | .list xs => go xs
where
  go : List Val → Except Err (List Val)
    | [] => .ok []
    | x :: xs =>
      match getMarkers p x with
      | .error e => .error e
      | .ok a =>
        match go xs with
        | .error e => .error e
        | .ok b => .ok (a ++ b)

/-- `check_no_markers_remaining`, markers.py:71-89.  Formatting of the report is not modelled. -/
def checkNoMarkersRemaining (p : Cls → Bool) (t : Val) : Except Err Unit :=
  match getMarkers p t with
  | .error e => .error e
  | .ok [] => .ok ()
  | .ok (_ :: _) => .error .macroExpansionError

mutual
/-- `utils.flatten` on AST values (utils.py:69-81). -/
def flattenV : List Val → List Val
  | [] => []
  | x :: xs => flattenItem x ++ flattenV xs
def flattenItem : Val → List Val
  | .list ys => flattenV ys
  | .const .none => []
  | x => [x]
end

/-- What `ast.NodeTransformer.generic_visit` does with the result of visiting an AST item of a list:
`None` is dropped, an AST is kept, anything else is passed to `list.extend`.  (A non-iterable
constant would raise TypeError there; the transformers modelled with this function return nodes or
lists only.) -/
def spliceResult : Val → List Val
  | .const .none => []
  | .list ys => ys
  | x => [x]

mutual
/-- `ASTMarkerDeleter.visit`/`transform`, markers.py:63-68 with walkers.py:179-194. -/
def del (p : Cls → Bool) : Val → Except Err Val
  | .const _ => .error .attributeError            -- generic_visit of a non-AST
  | .list xs =>
    match delElts p xs with
    | .error e => .error e
    | .ok rs => .ok (.list (flattenV rs))
  | .node c l fs =>
    if p c then delBody p fs
    else
      match delFields p fs with
      | .error e => .error e
      | .ok fs' => .ok (.node c l fs')
/-- `self.visit(tree.body)` for a marker; no `body` attribute: AttributeError. -/
def delBody (p : Cls → Bool) : List (F × Val) → Except Err Val
  | [] => .error .attributeError
  | (f, v) :: r => if f = .body then del p v else delBody p r
/-- `self.visit(elt) for elt in tree`, walkers.py:186. -/
def delElts (p : Cls → Bool) : List Val → Except Err (List Val)
  | [] => .ok []
  | x :: xs =>
    match del p x with
    | .error e => .error e
    | .ok r =>
      match delElts p xs with
      | .error e => .error e
      | .ok rs => .ok (r :: rs)
/-- `ast.NodeTransformer.generic_visit`: the loop over the fields. -/
def delFields (p : Cls → Bool) : List (F × Val) → Except Err (List (F × Val))
  | [] => .ok []
  | (f, .const c) :: r =>
    match delFields p r with
    | .error e => .error e
    | .ok r' => .ok ((f, .const c) :: r')
  | (f, .list xs) :: r =>
    match delItems p xs with
    | .error e => .error e
    | .ok ys =>
      match delFields p r with
      | .error e => .error e
      | .ok r' => .ok ((f, .list ys) :: r')
  | (f, .node c l fs) :: r =>
    match del p (.node c l fs) with
    | .error e => .error e
    | .ok v =>
      match delFields p r with
      | .error e => .error e
      -- a result of `None` deletes the attribute
      | .ok r' => .ok (if v.isNone then r' else (f, v) :: r')
/-- `generic_visit`: the loop over the items of a list-valued field. -/
def delItems (p : Cls → Bool) : List Val → Except Err (List Val)
  | [] => .ok []
  | .node c l fs :: r =>
    match del p (.node c l fs) with
    | .error e => .error e
    | .ok v =>
      match delItems p r with
      | .error e => .error e
      | .ok r' => .ok (spliceResult v ++ r')
  | .list xs :: r =>
    match delItems p r with
    | .error e => .error e
    | .ok r' => .ok (.list xs :: r')
  | .const c :: r =>
    match delItems p r with
    | .error e => .error e
    | .ok r' => .ok (.const c :: r')
end

/-- `delete_markers(tree, cls)`, markers.py:57-68. -/
abbrev deleteMarkers := del

end Mcpyrate.Markers
