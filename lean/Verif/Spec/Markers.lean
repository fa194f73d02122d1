import Verif.Spec.Tree
/-
Specification for marker removal: the non-marker nodes of a tree, in preorder, where of a marker
only its `body` counts.
-/
namespace Mcpyrate.Markers
open Py

mutual
/-- The non-marker nodes in preorder.  Each entry says how many non-marker nodes enclose the node,
in which field of the innermost one it is, and its header (class, location, constants): this
determines the tree, up to the markers.  `d` and `o` are the number and field for `t` itself. -/
def heads (p : Cls → Bool) (d : Nat) (o : Option F) :
    Val → List (Nat × Option F × Cls × Loc × List (F × List Const))
  | .node c l fs => if p c then headsBody p d o fs else (d, o, header c l fs) :: headsF p (d + 1) fs
  | .list xs => headsE p d o xs
  | .const _ => []
/-- the body of a marker -/
def headsBody (p : Cls → Bool) (d : Nat) (o : Option F) :
    List (F × Val) → List (Nat × Option F × Cls × Loc × List (F × List Const))
  | [] => []
  | (f, v) :: r => if f = .body then heads p d o v else headsBody p d o r
/-- the fields of an ordinary node -/
def headsF (p : Cls → Bool) (d : Nat) :
    List (F × Val) → List (Nat × Option F × Cls × Loc × List (F × List Const))
  | [] => []
  | (f, .node c l fs) :: r => heads p d (some f) (.node c l fs) ++ headsF p d r
  | (f, .list xs) :: r => headsL p d (some f) xs ++ headsF p d r
  | (_, .const _) :: r => headsF p d r
/-- the items of a list-valued field -/
def headsL (p : Cls → Bool) (d : Nat) (o : Option F) :
    List Val → List (Nat × Option F × Cls × Loc × List (F × List Const))
  | [] => []
  | .node c l fs :: r => heads p d o (.node c l fs) ++ headsL p d o r
  | .list _ :: r => headsL p d o r
  | .const _ :: r => headsL p d o r
/-- the items of a suite -/
def headsE (p : Cls → Bool) (d : Nat) (o : Option F) :
    List Val → List (Nat × Option F × Cls × Loc × List (F × List Const))
  | [] => []
  | x :: r => heads p d o x ++ headsE p d o r
end

/-- Every marker in `t` has a body that is an AST node or a list of AST nodes. -/
def BodiesOk (p : Cls → Bool) (t : Val) : Prop :=
  ∀ m, Reach t m → m.hasCls p = true → ∃ v, m.get? .body = some v ∧ v.isTree = true

end Mcpyrate.Markers
