import Verif.Spec.Tree
/-
Specification for renaming: which fields of which node classes hold identifiers, and the action of a
function on all identifiers of a tree.
-/
namespace Mcpyrate.Rename
open Py

/-- The fields of type `identifier` or `identifier?` in Python's abstract grammar
(Parser/Python.asdl, Python 3.12). -/
def asdlIdent : Cls → F → Bool
  | .py .FunctionDef, .name | .py .AsyncFunctionDef, .name | .py .ClassDef, .name => true
  | .py .ImportFrom, .module_ => true
  | .py .Attribute, .attr => true
  | .py .Name, .id => true
  | .py .ExceptHandler, .name => true
  | .py .arg, .arg => true
  | .py .keyword, .arg => true
  | .py .alias, .name | .py .alias, .asname => true
  | .py .MatchMapping, .rest => true
  | .py .MatchStar, .name | .py .MatchAs, .name => true
  | .py .TypeVar, .name | .py .ParamSpec, .name | .py .TypeVarTuple, .name => true
  | _, _ => false

/-- The fields of type `identifier*`. -/
def asdlIdents : Cls → F → Bool
  | .py .Global, .names | .py .Nonlocal, .names => true
  | .py .MatchClass, .kwd_attrs => true
  | _, _ => false

/-- Apply `g` to a string constant. -/
def mapStr (g : String → String) : Val → Val
  | .const (.str s) => .str (g s)
  | v => v

mutual
/-- Apply `g` to every identifier in the tree. -/
def mapIdents (g : String → String) : Val → Val
  | .const c => .const c
  | .list xs => .list (mapIdentsL g xs)
  | .node c l fs => .node c l (mapIdentsF g c fs)
def mapIdentsF (g : String → String) (c : Cls) : List (F × Val) → List (F × Val)
  | [] => []
  | (f, .const k) :: r =>
    (f, if asdlIdent c f then mapStr g (.const k) else .const k) :: mapIdentsF g c r
  | (f, .list xs) :: r =>
    (f, .list (if asdlIdents c f then xs.map (mapStr g) else mapIdentsL g xs)) :: mapIdentsF g c r
  | (f, .node d l fs) :: r => (f, mapIdents g (.node d l fs)) :: mapIdentsF g c r
def mapIdentsL (g : String → String) : List Val → List Val
  | [] => []
  | .node c l fs :: r => mapIdents g (.node c l fs) :: mapIdentsL g r
  | .list xs :: r => .list xs :: mapIdentsL g r
  | .const k :: r => .const k :: mapIdentsL g r
end

/-- A string constant. -/
def strOf : Val → List String
  | .const (.str s) => [s]
  | _ => []

mutual
/-- All identifiers in the tree, in order, with repetitions. -/
def idents : Val → List String
  | .const _ => []
  | .list xs => identsL xs
  | .node c _ fs => identsF c fs
def identsF (c : Cls) : List (F × Val) → List String
  | [] => []
  | (f, .const k) :: r => (if asdlIdent c f then strOf (.const k) else []) ++ identsF c r
  | (f, .list xs) :: r => (if asdlIdents c f then xs.flatMap strOf else identsL xs) ++ identsF c r
  | (_, .node d l fs) :: r => idents (.node d l fs) ++ identsF c r
def identsL : List Val → List String
  | [] => []
  | .node c l fs :: r => idents (.node c l fs) ++ identsL r
  | .list _ :: r => identsL r
  | .const _ :: r => identsL r
end

/-- The substitution of `new` for `old`. -/
def subst (old new : String) (s : String) : String := if s = old then new else s

/-- The node classes with identifiers that `rename` knows nothing about. -/
def unsupported : Cls → Bool
  | .py .MatchMapping | .py .MatchClass | .py .TypeVar | .py .ParamSpec | .py .TypeVarTuple => true
  | _ => false

/-- No node of an unsupported class. -/
def Supported (t : Val) : Prop := ∀ m, Reach t m → m.hasCls unsupported = false

/-- Python's rules for identifier fields: those that are not optional are present, `names` of
`global` and `nonlocal` is a list. -/
def IdentFieldsOk (t : Val) : Prop :=
  ∀ c l fs, Reach t (.node c l fs) →
    (c = .py .Name → (fs.lookup .id).isSome) ∧
    (c = .py .Attribute → (fs.lookup .attr).isSome) ∧
    (c = .py .FunctionDef ∨ c = .py .AsyncFunctionDef ∨ c = .py .ClassDef ∨ c = .py .alias →
      (fs.lookup .name).isSome) ∧
    (c = .py .arg → (fs.lookup .arg).isSome) ∧
    (c = .py .Global ∨ c = .py .Nonlocal → ∃ xs, fs.lookup .names = some (.list xs))

end Mcpyrate.Rename
