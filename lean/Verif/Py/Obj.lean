import Verif.Py.Fields
/-
Python objects, as far as the quasiquote system distinguishes them.
-/
namespace Mcpyrate.Py

/-- A Python object: a constant, a list, a tuple, a set (as a list of its elements in iteration order), a dict (its
keys and its values, in the same order), an AST node, an object of the library found under a dotted name, or any other
object. -/
inductive Obj where
  | const (c : Const)
  | list (xs : List Obj)
  | tuple (xs : List Obj)
  | set (xs : List Obj)
  | dict (ks vs : List Obj)
  | node (c : Cls) (loc : Loc) (fs : List (F × Obj))
  | ref (path : List String)
  | ext (n : Nat)

namespace Obj

@[match_pattern] abbrev none : Obj := .const .none
@[match_pattern] abbrev str (s : String) : Obj := .const (.str s)
@[match_pattern] abbrev bytes (b : List Nat) : Obj := .const (.bytes b)

mutual
/-- An AST value as an object. -/
def ofVal : Val → Obj
  | .const c => .const c
  | .list xs => .list (ofVals xs)
  | .node c l fs => .node c l (ofFields fs)
def ofVals : List Val → List Obj
  | [] => []
  | x :: xs => ofVal x :: ofVals xs
def ofFields : List (F × Val) → List (F × Obj)
  | [] => []
  | (f, x) :: xs => (f, ofVal x) :: ofFields xs
end

mutual
/-- The other way round; `none` if there is something else than constants, lists and nodes. -/
def toVal : Obj → Option Val
  | .const c => some (.const c)
  | .list xs => (toVals xs).map .list
  | .node c l fs => (toFields fs).map (.node c l)
  | _ => Option.none
def toVals : List Obj → Option (List Val)
  | [] => some []
  | x :: xs =>
    match toVal x, toVals xs with
    | some y, some ys => some (y :: ys)
    | _, _ => Option.none
def toFields : List (F × Obj) → Option (List (F × Val))
  | [] => some []
  | (f, x) :: xs =>
    match toVal x, toFields xs with
    | some y, some ys => some ((f, y) :: ys)
    | _, _ => Option.none
end

/-- `isinstance(x, ast.AST)`. -/
def isAST : Obj → Bool
  | .node .. => true
  | _ => false

/-- `getattr(node, f)`; `Option.none` when the attribute is missing or `x` is not a node. -/
def get? : Obj → F → Option Obj
  | .node _ _ fs, f => fs.lookup f
  | _, _ => Option.none

/-- `type(x) is ast.K`. -/
def isK (k : K) : Obj → Bool
  | .node (.py k') _ _ => k == k'
  | _ => false

end Obj

mutual
def Obj.decEq : (a b : Obj) → Decidable (a = b)
  | .const c, .const d => if h : c = d then isTrue (by rw [h]) else isFalse (by simpa using h)
  | .list xs, .list ys =>
    match Obj.decEqL xs ys with
    | isTrue h => isTrue (by rw [h])
    | isFalse h => isFalse (by simpa using h)
  | .tuple xs, .tuple ys =>
    match Obj.decEqL xs ys with
    | isTrue h => isTrue (by rw [h])
    | isFalse h => isFalse (by simpa using h)
  | .set xs, .set ys =>
    match Obj.decEqL xs ys with
    | isTrue h => isTrue (by rw [h])
    | isFalse h => isFalse (by simpa using h)
  | .dict xs vs, .dict ys ws =>
    match Obj.decEqL xs ys with
    | isTrue h =>
      match Obj.decEqL vs ws with
      | isTrue h' => isTrue (by rw [h, h'])
      | isFalse h => isFalse (by simp [h])
    | isFalse h => isFalse (by simp [h])
  | .node c l fs, .node d m gs =>
    if h1 : c = d then
      if h2 : l = m then
        match Obj.decEqF fs gs with
        | isTrue h => isTrue (by rw [h1, h2, h])
        | isFalse h => isFalse (by simp [h])
      else isFalse (by simp [h2])
    else isFalse (by simp [h1])
  | .ref p, .ref q => if h : p = q then isTrue (by rw [h]) else isFalse (by simpa using h)
  | .ext p, .ext q => if h : p = q then isTrue (by rw [h]) else isFalse (by simpa using h)
  | .const _, .list _ | .const _, .tuple _ | .const _, .set _ | .const _, .dict .. | .const _, .node ..
  | .const _, .ref _ | .const _, .ext _ => isFalse (by simp)
  | .list _, .const _ | .list _, .tuple _ | .list _, .set _ | .list _, .dict .. | .list _, .node ..
  | .list _, .ref _ | .list _, .ext _ => isFalse (by simp)
  | .tuple _, .const _ | .tuple _, .list _ | .tuple _, .set _ | .tuple _, .dict .. | .tuple _, .node ..
  | .tuple _, .ref _ | .tuple _, .ext _ => isFalse (by simp)
  | .set _, .const _ | .set _, .list _ | .set _, .tuple _ | .set _, .dict .. | .set _, .node ..
  | .set _, .ref _ | .set _, .ext _ => isFalse (by simp)
  | .dict .., .const _ | .dict .., .list _ | .dict .., .tuple _ | .dict .., .set _ | .dict .., .node ..
  | .dict .., .ref _ | .dict .., .ext _ => isFalse (by simp)
  | .node .., .const _ | .node .., .list _ | .node .., .tuple _ | .node .., .set _ | .node .., .dict ..
  | .node .., .ref _ | .node .., .ext _ => isFalse (by simp)
  | .ref _, .const _ | .ref _, .list _ | .ref _, .tuple _ | .ref _, .set _ | .ref _, .dict ..
  | .ref _, .node .. | .ref _, .ext _ => isFalse (by simp)
  | .ext _, .const _ | .ext _, .list _ | .ext _, .tuple _ | .ext _, .set _ | .ext _, .dict ..
  | .ext _, .node .. | .ext _, .ref _ => isFalse (by simp)
def Obj.decEqL : (a b : List Obj) → Decidable (a = b)
  | [], [] => isTrue rfl
  | [], _ :: _ => isFalse (by simp)
  | _ :: _, [] => isFalse (by simp)
  | x :: xs, y :: ys =>
    match Obj.decEq x y with
    | isTrue h1 =>
      match Obj.decEqL xs ys with
      | isTrue h2 => isTrue (by rw [h1, h2])
      | isFalse h => isFalse (by simp [h])
    | isFalse h => isFalse (by simp [h])
def Obj.decEqF : (a b : List (F × Obj)) → Decidable (a = b)
  | [], [] => isTrue rfl
  | [], _ :: _ => isFalse (by simp)
  | _ :: _, [] => isFalse (by simp)
  | (f, x) :: xs, (g, y) :: ys =>
    if h0 : f = g then
      match Obj.decEq x y with
      | isTrue h1 =>
        match Obj.decEqF xs ys with
        | isTrue h2 => isTrue (by rw [h0, h1, h2])
        | isFalse h => isFalse (by simp [h])
      | isFalse h => isFalse (by simp [h])
    else isFalse (by simp [h0])
end

instance : DecidableEq Obj := Obj.decEq

end Mcpyrate.Py
