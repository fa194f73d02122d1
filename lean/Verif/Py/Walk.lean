import Verif.Py.Ast
import Verif.Py.Err
/-
A common form for the tree walks in which every node is kept: the visitor looks at a node, possibly
raises, rewrites the location and some leaf fields of the node in place, and goes on to the
children.

Models `ast.NodeTransformer.generic_visit` together with `ASTTransformer.visit`
(walkers.py:179-194) for a `transform` of the form "edit `tree`, then `return
self.generic_visit(tree)`".
-/
namespace Mcpyrate.Py

/-- What the visitor does at one node. -/
structure Out (σ : Type) where
  /-- the new location attributes -/
  loc : Loc
  /-- the visitor's state for the children in a field -/
  child : F → σ
  /-- fields that are overwritten with a leaf -/
  leaf : F → Val → Option Val := fun _ _ => none
  /-- fields that were missing and are now set -/
  extra : Fields := []

/-- The overwritten leaf, or else the visited value. -/
def orLeaf : Option Val → Except Err Val → Except Err Val
  | some w, _ => .ok w
  | none, r => r

variable {σ : Type} (step : σ → Cls → Loc → Fields → Except Err (Out σ))

mutual
/-- Visit a tree or a suite. -/
def walk (s : σ) : Val → Except Err Val
  | .const _ => .error .attributeError       -- not an AST: no `_fields` / `_attributes`
  | .list xs =>
    match walkElts s xs with
    | .error e => .error e
    | .ok ys => .ok (.list ys)
  | .node c l fs =>
    match step s c l fs with
    | .error e => .error e
    | .ok o =>
      match walkF o fs with
      | .error e => .error e
      | .ok fs' => .ok (.node c o.loc (fs' ++ o.extra))
/-- Visit the items of a suite; the result of a nested list is flattened (utils.py:69-81). -/
def walkElts (s : σ) : List Val → Except Err (List Val)
  | [] => .ok []
  | x :: xs =>
    match walk s x with
    | .error e => .error e
    | .ok y =>
      match walkElts s xs with
      | .error e => .error e
      | .ok ys => .ok ((match y with | .list zs => zs | _ => [y]) ++ ys)
/-- Visit the fields of a node.  A leaf that was overwritten is a leaf, so visiting it has no effect;
constants are not visited; an AST is visited; of a list the AST items are visited. -/
def walkF (o : Out σ) : List (F × Val) → Except Err (List (F × Val))
  | [] => .ok []
  | (f, .const c) :: r =>
    match orLeaf (o.leaf f (.const c)) (.ok (.const c)), walkF o r with
    | .ok v', .ok r' => .ok ((f, v') :: r')
    | .error e, _ => .error e
    | _, .error e => .error e
  | (f, .node c l gs) :: r =>
    match orLeaf (o.leaf f (.node c l gs)) (walk (o.child f) (.node c l gs)), walkF o r with
    | .ok v', .ok r' => .ok ((f, v') :: r')
    | .error e, _ => .error e
    | _, .error e => .error e
  | (f, .list xs) :: r =>
    match orLeaf (o.leaf f (.list xs)) ((walkL (o.child f) xs).map .list), walkF o r with
    | .ok v', .ok r' => .ok ((f, v') :: r')
    | .error e, _ => .error e
    | _, .error e => .error e
/-- The items of a list-valued field. -/
def walkL (s : σ) : List Val → Except Err (List Val)
  | [] => .ok []
  | .node c l fs :: r =>
    match walk s (.node c l fs) with
    | .error e => .error e
    | .ok y =>
      match walkL s r with
      | .error e => .error e
      | .ok r' => .ok (y :: r')
  | .list xs :: r =>
    match walkL s r with
    | .error e => .error e
    | .ok r' => .ok (.list xs :: r')
  | .const c :: r =>
    match walkL s r with
    | .error e => .error e
    | .ok r' => .ok (.const c :: r')
end

end Mcpyrate.Py
