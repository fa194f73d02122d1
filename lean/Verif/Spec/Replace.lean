import Verif.Spec.Tree
/-
Replacing nodes of a tree.
-/
namespace Mcpyrate.Py

/-- How a replacement takes the place of one item of a list: a list contributes its items, `None`
nothing, a node itself. -/
def inList : Val → List Val
  | .const .none => []
  | .list ys => ys
  | x => [x]

mutual
/-- The tree in which every outermost node with `p` is replaced by `r`: an item of a list (of
statements, say) by the item or the items of `r`, the value of a field by `r` (`None` removes the
field).  Everything else stays as it is. -/
def replace (p : Val → Bool) (r : Val) : Val → Val
  | .const c => .const c
  | .list xs => .list (replaceL p r xs)
  | .node c l fs => if p (.node c l fs) then r else .node c l (replaceF p r fs)
def replaceF (p : Val → Bool) (r : Val) : List (F × Val) → List (F × Val)
  | [] => []
  | (g, .const c) :: rest => (g, .const c) :: replaceF p r rest
  | (g, .list xs) :: rest => (g, .list (replaceL p r xs)) :: replaceF p r rest
  | (g, .node c l fs) :: rest =>
    if (replace p r (.node c l fs)).isNone then replaceF p r rest
    else (g, replace p r (.node c l fs)) :: replaceF p r rest
def replaceL (p : Val → Bool) (r : Val) : List Val → List Val
  | [] => []
  | .const c :: rest => .const c :: replaceL p r rest
  | .list xs :: rest => .list xs :: replaceL p r rest
  | .node c l fs :: rest => inList (replace p r (.node c l fs)) ++ replaceL p r rest
end

mutual
/-- The outermost nodes with `p`, in preorder. -/
def outermost (p : Val → Bool) : Val → List Val
  | .const _ => []
  | .list xs => outermostL p xs
  | .node c l fs => if p (.node c l fs) then [.node c l fs] else outermostF p fs
def outermostF (p : Val → Bool) : List (F × Val) → List Val
  | [] => []
  | (_, v) :: rest => outermost p v ++ outermostF p rest
def outermostL (p : Val → Bool) : List Val → List Val
  | [] => []
  | .const _ :: rest => outermostL p rest
  | .list _ :: rest => outermostL p rest
  | .node c l fs :: rest => outermost p (.node c l fs) ++ outermostL p rest
end

end Mcpyrate.Py
