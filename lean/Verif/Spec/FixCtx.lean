import Verif.Spec.Tree
/-
Specification for `fix_ctx`: which `ctx` each position of the Python grammar requires.
-/
namespace Mcpyrate.FixCtx
open Py

/-- The three ctx classes. -/
def IsCtx (s : K) : Prop := s = .Load ∨ s = .Store ∨ s = .Del

/-- The ctx required of the children in field `f` of a node of class `c`, when the position of the
node itself requires `d`.  Assignment-like targets are `Store`, deletion targets `Del`; the parts of a
starred, list or tuple target are targets of the same kind; an AST marker stands for its body; in
everything else the parts are read. -/
def childCtx (c : Cls) (d : K) (f : F) : K :=
  match c, f with
  | .py .Assign, .targets | .py .AnnAssign, .target | .py .AugAssign, .target => .Store
  | .py .NamedExpr, .target => .Store
  | .py .For, .target | .py .AsyncFor, .target | .py .comprehension, .target => .Store
  | .py .withitem, .optional_vars => .Store
  | .py .TypeAlias, .name => .Store
  | .py .Delete, .targets => .Del
  | .py .Attribute, .value | .py .Subscript, .value | .py .Subscript, .slice => .Load
  | .py .Starred, .ctx | .py .List, .ctx | .py .Tuple, .ctx => .Load    -- the `ctx` object itself
  | .py .Name, .ctx | .py .Attribute, .ctx | .py .Subscript, .ctx => .Load
  | .py .Starred, _ | .py .List, _ | .py .Tuple, _ => d
  | .py .Name, _ | .py .Attribute, _ | .py .Subscript, _ => d    -- no further child nodes
  | .marker _, _ => d
  | _, _ => .Load

/-- `At d t d' s`: if the position of `t` requires `d`, then `s` occurs in `t` at a position that
requires `d'`. -/
inductive At : K → Val → K → Val → Prop
  | refl (d t) : At d t d t
  | field {d d' c l fs f u s} : (f, u) ∈ fs → u.isAST = true → At (childCtx c d f) u d' s →
      At d (.node c l fs) d' s
  | item {d d' c l fs f xs u s} : (f, .list xs) ∈ fs → u ∈ xs → u.isAST = true →
      At (childCtx c d f) u d' s → At d (.node c l fs) d' s
  | elt {d d' xs u s} : u ∈ xs → u.isAST = true → At d u d' s → At d (.list xs) d' s

/-- The expressions that can be assigned to or deleted; markers stand for their body. -/
def isTarget : Cls → Bool
  | .py .Name | .py .Attribute | .py .Subscript | .py .Starred | .py .List | .py .Tuple => true
  | .marker _ => true
  | _ => false

/-- What Python's compiler demands: only targets in target positions. -/
def TargetsOk (t : Val) : Prop := ∀ d s, At .Load t d s → d ≠ .Load → s.isAST = true →
  s.hasCls isTarget = true

/-- Every node that has a context has exactly the one that its position requires. -/
def AllRight (t : Val) : Prop := ∀ d c l fs, At .Load t d (.node c l fs) → c.hasCtx = true →
  (fs.filter fun q => q.1 == .ctx) = [(.ctx, mk d [])]

mutual
/-- Forget all `ctx` fields. -/
def eraseCtx : Val → Val
  | .const c => .const c
  | .list xs => .list (eraseCtxL xs)
  | .node c l fs => .node c l (eraseCtxF c fs)
def eraseCtxF (c : Cls) : List (F × Val) → List (F × Val)
  | [] => []
  | (f, .const k) :: r =>
    if c.hasCtx ∧ f = .ctx then eraseCtxF c r else (f, .const k) :: eraseCtxF c r
  | (f, .list xs) :: r =>
    if c.hasCtx ∧ f = .ctx then eraseCtxF c r else (f, .list (eraseCtxL xs)) :: eraseCtxF c r
  | (f, .node d l fs) :: r =>
    if c.hasCtx ∧ f = .ctx then eraseCtxF c r else (f, eraseCtx (.node d l fs)) :: eraseCtxF c r
def eraseCtxL : List Val → List Val
  | [] => []
  | .node c l fs :: r => eraseCtx (.node c l fs) :: eraseCtxL r
  | .list xs :: r => .list xs :: eraseCtxL r
  | .const c :: r => .const c :: eraseCtxL r
end

/-- The fields that Python's grammar requires are there, for the classes with targets. -/
def FieldsOk (t : Val) : Prop :=
  ∀ k l fs, Reach t (.node (.py k) l fs) →
    (k = .Assign → (fs.lookup .targets).isSome ∧ (fs.lookup .value).isSome) ∧
    (k = .AnnAssign → (fs.lookup .target).isSome ∧ (fs.lookup .annotation).isSome) ∧
    (k = .NamedExpr ∨ k = .AugAssign → (fs.lookup .target).isSome ∧ (fs.lookup .value).isSome) ∧
    (k = .Attribute → (fs.lookup .value).isSome) ∧
    (k = .Subscript → (fs.lookup .value).isSome ∧ (fs.lookup .slice).isSome) ∧
    (k = .comprehension →
      (fs.lookup .target).isSome ∧ (fs.lookup .iter).isSome ∧ (fs.lookup .ifs).isSome) ∧
    (k = .For ∨ k = .AsyncFor → (fs.lookup .target).isSome ∧ (fs.lookup .iter).isSome) ∧
    (k = .withitem → (fs.lookup .context_expr).isSome) ∧
    (k = .Delete → (fs.lookup .targets).isSome) ∧
    (k = .TypeAlias → (fs.lookup .name).isSome)

end Mcpyrate.FixCtx
