import Verif.Model.Quotes
/-
Specification for the quasiquote compiler (C32) and the splicing of list unquotes (C34).
-/
namespace Mcpyrate.Quotes
open Py

variable {σ : Type}

/-! ### Trees -/

/-- The fields of a node are fields of its class, in their order, and the optional ones are set: what the parser builds
and what the constructors of node classes build.  (Fields that are not optional, such as `ctx`, may be missing.) -/
def shaped (k : K) (fs : List (F × Obj)) : Bool :=
  (fs.map (·.1)).isSublist k.fields && k.fields.all fun f => !k.isOptional f || (fs.map (·.1)).contains f

def isComplex : Const → Bool
  | .complex _ => true
  | _ => false

mutual
/-- A tree of nodes, lists and constants, each node with the fields of its class: what the parser builds. -/
def parsed : Obj → Bool
  | .const _ => true
  | .list xs => parsedL xs
  | .node (.py k) _ fs => shaped k fs && parsedF fs
  | _ => false
def parsedL : List Obj → Bool
  | [] => true
  | x :: xs => parsed x && parsedL xs
def parsedF : List (F × Obj) → Bool
  | [] => true
  | (_, x) :: r => parsed x && parsedF r
end

mutual
/-- There is a complex number in the tree. -/
def hasComplex : Obj → Bool
  | .const c => isComplex c
  | .list xs => hasComplexL xs
  | .node _ _ fs => hasComplexF fs
  | _ => false
def hasComplexL : List Obj → Bool
  | [] => false
  | x :: xs => hasComplex x || hasComplexL xs
def hasComplexF : List (F × Obj) → Bool
  | [] => false
  | (_, x) :: r => hasComplex x || hasComplexF r
end

mutual
/-- The tree without source locations. -/
def noLoc : Obj → Obj
  | .list xs => .list (noLocL xs)
  | .tuple xs => .tuple (noLocL xs)
  | .set xs => .set (noLocL xs)
  | .dict ks vs => .dict (noLocL ks) (noLocL vs)
  | .node c _ fs => .node c {} (noLocF fs)
  | x => x
def noLocL : List Obj → List Obj
  | [] => []
  | x :: xs => noLoc x :: noLocL xs
def noLocF : List (F × Obj) → List (F × Obj)
  | [] => []
  | (f, x) :: r => (f, noLoc x) :: noLocF r
end

/-- The name `mcpyrate` at the place where the generated code runs is the package (the import of `mcpyrate.quotes` is
added to each module that uses the quasiquote operators). -/
def Imported (H : Host σ) : Prop := H.name "mcpyrate" = pure (.ref ["mcpyrate"])

/-! ### Templates: quoted code with unquotes -/

mutual
/-- Quoted code whose unquotes have been replaced by markers, and values as `u[…]` accepts; no macro is captured.
`E` is `expander.isbound`. -/
def template (E : Option (String → Option Obj)) : Obj → Bool
  | .const c => !isComplex c
  | .list xs => templateL E xs
  | .tuple xs => templateL E xs
  | .set xs => templateL E xs
  | .dict ks vs => templateL E ks && templateL E vs
  | .node (.py k) _ fs => shaped k fs && templateF E fs
  | .node (.marker n) _ fs =>
    if n = "Done" then fs.map (·.1) == [.body] && templateF E fs
    else
      match fs with
      | [(.body, e)] => (n = "Unquote" || n = "ASTList" || n = "ASTTuple") && !e.isK .Starred
      | [(.body, e), (.filename, .const _)] => n = "LiftSourcecode" && !e.isK .Starred
      | [(.body, e), (.syntax_, .const _)] => n = "ASTLiteral" && !e.isK .Starred
      | [(.body, e), (.name, .const _)] => n = "Capture" && !e.isK .Starred && (captured E e).isNone
      | _ => false
  | _ => false
def templateL (E : Option (String → Option Obj)) : List Obj → Bool
  | [] => true
  | x :: xs => template E x && templateL E xs
def templateF (E : Option (String → Option Obj)) : List (F × Obj) → Bool
  | [] => true
  | (_, x) :: r => template E x && templateF E r
end

mutual
/-- What a template stands for: itself without source locations, where each unquote is replaced by what its operator makes
of the value that its body has where the quote is used; evaluation from left to right. -/
def meaning (H : Host σ) : Obj → Q σ Obj
  | .list xs => do return .list (← meaningL H xs)
  | .tuple xs => do return .tuple (← meaningL H xs)
  | .set xs => do lift (H.mkSet (← meaningL H xs))
  | .dict ks vs => do lift (H.mkDict (← runDict (meanings H ks) (meanings H vs)))
  | .node (.py k) _ fs => do return .node (.py k) {} (← meaningF H fs)
  | .node (.marker n) _ fs =>
    if n = "Done" then do return .node (.marker "Done") {} (← meaningF H fs)
    else
      match fs with
      | [(.body, e)] => do
        let v ← eval H e
        if n = "Unquote" then astify H none v
        else if n = "ASTList" then lift (astList H v)
        else lift (astTuple H v)
      | [(.body, e), (.filename, _)] => do lift (liftSourcecode H (← eval H e))
      | [(.body, e), (.syntax_, s)] => do lift (astLiteral H (← eval H e) s)
      | [(.body, e), (.name, .const c)] => do lift (captureValue H (← eval H e) c)
      | _ => M.throw .typeError
  | x => return x
def meaningL (H : Host σ) : List Obj → Q σ (List Obj)
  | [] => return []
  | x :: xs => do
    let y ← meaning H x
    return y :: (← meaningL H xs)
def meaningF (H : Host σ) : List (F × Obj) → Q σ (List (F × Obj))
  | [] => return []
  | (f, x) :: r => do
    let y ← meaning H x
    return (f, y) :: (← meaningF H r)
def meanings (H : Host σ) : List Obj → List (Option (Q σ Obj))
  | [] => []
  | x :: xs => some (meaning H x) :: meanings H xs
end

/-! ### Splicing -/

/-- `SpliceNodes(items)`: what a list unquote leaves for `splice_ast_literals`. -/
def spliceNodes (l : Loc) (items : List Obj) : Obj := .node (.marker "SpliceNodes") l [(.body, .list items)]

mutual
/-- The tree with the items of each list unquote put in its place, wherever it is an item of a list; a list unquote
anywhere else has no meaning. -/
def filled : Obj → Option Obj
  | .list xs => (filledL xs).map .list
  | .node c l fs =>
    if c = .marker "SpliceNodes" then none else (filledF fs).map (.node c l)
  | x => some x
def filledL : List Obj → Option (List Obj)
  | [] => some []
  | x :: xs =>
    match filledItem x, filledL xs with
    | some ys, some zs => some (ys ++ zs)
    | _, _ => none
def filledItem : Obj → Option (List Obj)
  | .list xs => (filledL xs).map fun ys => [.list ys]
  | .node c l fs =>
    if c = .marker "SpliceNodes" then filledBody fs
    else (filledF fs).map fun gs => [.node c l gs]
  | x => some [x]
def filledBody : List (F × Obj) → Option (List Obj)
  | [] => none
  | (f, x) :: r => if f = .body then filledItems x else filledBody r
def filledItems : Obj → Option (List Obj)
  | .list xs => filledL xs
  | _ => none
def filledF : List (F × Obj) → Option (List (F × Obj))
  | [] => some []
  | (f, x) :: r =>
    match filled x, filledF r with
    | some y, some r' => some ((f, y) :: r')
    | _, _ => none
end

def isList : Obj → Bool
  | .list _ => true
  | _ => false

mutual
/-- No list is directly an item of a list, as in all trees that the parser builds. -/
def flat : Obj → Bool
  | .list xs => flatL xs
  | .node _ _ fs => flatF fs
  | _ => true
def flatL : List Obj → Bool
  | [] => true
  | x :: xs => !isList x && flat x && flatL xs
def flatF : List (F × Obj) → Bool
  | [] => true
  | (_, x) :: r => flat x && flatF r
end

mutual
/-- There is a list unquote somewhere in the tree. -/
def marked : Obj → Bool
  | .list xs => markedL xs
  | .node c _ fs => c = .marker "SpliceNodes" || markedF fs
  | _ => false
def markedL : List Obj → Bool
  | [] => false
  | x :: xs => marked x || markedL xs
def markedF : List (F × Obj) → Bool
  | [] => false
  | (_, x) :: r => marked x || markedF r
end

mutual
/-- Every list unquote is an item of a list, and from the root one gets to it through lists only; and the lists that one
gets to in this way contain only nodes, except for the names in `global` and `nonlocal`. -/
def reached : Obj → Bool
  | .list xs => reachedL xs
  | .node c _ fs =>
    if c = .marker "SpliceNodes" then false
    else if c = .py .Global ∨ c = .py .Nonlocal then !markedF fs
    else reachedF fs
  | _ => false
def reachedL : List Obj → Bool
  | [] => true
  | x :: xs => reachedItem x && reachedL xs
def reachedItem : Obj → Bool
  | .list xs => reachedL xs
  | .node c _ fs =>
    if c = .marker "SpliceNodes" then reachedBody fs
    else if c = .py .Global ∨ c = .py .Nonlocal then !markedF fs
    else reachedF fs
  | _ => false
def reachedBody : List (F × Obj) → Bool
  | [] => false
  | (f, x) :: r => if f = .body then reachedItems x else reachedBody r
def reachedItems : Obj → Bool
  | .list xs => reachedL xs
  | _ => false
def reachedF : List (F × Obj) → Bool
  | [] => true
  | (_, x) :: r => reachedField x && reachedF r
def reachedField : Obj → Bool
  | .list xs => reachedL xs
  | x => !marked x
end

/-! ### The items of a list unquote -/

/-- The second list has the items of the first one, with the items of lists in it in their places, at any depth, and without
`None`. -/
inductive Flattened : List Obj → List Obj → Prop
  | nil : Flattened [] []
  | none {xs ys : List Obj} (h : Flattened xs ys) : Flattened (.none :: xs) ys
  | list {xs ys zs ws : List Obj} (h : Flattened xs ys) (h' : Flattened zs ws) : Flattened (.list xs :: zs) (ys ++ ws)
  | item {x : Obj} {xs ys : List Obj} (hn : x ≠ .none) (hl : ∀ zs, x ≠ .list zs) (h : Flattened xs ys) : Flattened (x :: xs) (x :: ys)

/-- A node of a class for which `p` holds, or a marker whose body is such a node, or a list of such nodes. -/
inductive OfKind (p : K → Bool) : Obj → Prop
  | node {k : K} {l : Loc} {fs : List (F × Obj)} (h : p k = true) : OfKind p (.node (.py k) l fs)
  | marker {n : String} {l : Loc} {fs : List (F × Obj)} {x : Obj} (hb : fs.lookup .body = some x) (h : OfKind p x) :
      OfKind p (.node (.marker n) l fs)
  | suite {n : String} {l : Loc} {fs : List (F × Obj)} {xs : List Obj} (hb : fs.lookup .body = some (.list xs))
      (h : ∀ x ∈ xs, OfKind p x) : OfKind p (.node (.marker n) l fs)

end Mcpyrate.Quotes
