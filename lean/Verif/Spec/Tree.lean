import Verif.Py.Ast
/-
Tree notions used in specifications, independent of the model: child nodes, reachability, preorder.
-/
namespace Mcpyrate.Py

/-- `s` is a child node of `t`: an AST-valued field of the node `t`, an AST item of a list-valued
field of `t`, or, for a list `t` (a suite), an AST item.  (Python: `ast.iter_child_nodes`.) -/
inductive Child : Val → Val → Prop
  | field {c l fs f s} : (f, s) ∈ fs → s.isAST = true → Child (.node c l fs) s
  | item {c l fs f xs s} : (f, .list xs) ∈ fs → s ∈ xs → s.isAST = true → Child (.node c l fs) s
  | elt {xs s} : s ∈ xs → s.isAST = true → Child (.list xs) s

/-- `s` occurs in `t` (at any depth, `t` itself included). -/
inductive Reach : Val → Val → Prop
  | refl (t) : Reach t t
  | step {t u s} : Child t u → Reach u s → Reach t s

/-- The class of a node satisfies `p`. -/
def Val.hasCls (p : Cls → Bool) : Val → Bool
  | .node c _ _ => p c
  | _ => false

mutual
/-- All nodes of a tree or suite in preorder. -/
def preorder : Val → List Val
  | .node c l fs => .node c l fs :: preorderF fs
  | .list xs => preorderL xs
  | .const _ => []
def preorderF : List (F × Val) → List Val
  | [] => []
  | (_, v) :: r => preorder v ++ preorderF r
/-- Only AST items of a list count as children. -/
def preorderL : List Val → List Val
  | [] => []
  | .node c l fs :: r => preorder (.node c l fs) ++ preorderL r
  | .list _ :: r => preorderL r
  | .const _ :: r => preorderL r
end

/-- A tree or a suite: an AST node, or a list of AST nodes. -/
def Val.isTree : Val → Bool
  | .node .. => true
  | .list xs => xs.all Val.isAST
  | .const _ => false

/-- What is written in a node apart from its child nodes: the class, the location, and for each
field its name and the constants stored there. -/
def header (c : Cls) (l : Loc) (fs : Fields) : Cls × Loc × List (F × List Const) :=
  (c, l, fs.map fun (f, v) => (f, match v with
    | .const k => [k]
    | .list xs => xs.filterMap fun | .const k => some k | _ => none
    | .node .. => []))

end Mcpyrate.Py
