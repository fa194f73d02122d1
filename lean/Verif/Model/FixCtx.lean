import Verif.Py.Walk
/-
Model of `mcpyrate.astfixers.fix_ctx` on trees in which no node object occurs twice,
astfixers.py:14-104.  (Sharing: Model/FixCtxShared.lean.)

The walker state is `self.state.ctxclass`.  `withstate(tree.f, ctxclass=C)` registers `C` for the
node in field `f`, or for each node in the list in field `f`; without sharing this is the same as
saying which state the children in field `f` are visited with (see also Props/Walkers.lean).
-/
namespace Mcpyrate.FixCtx
open Py

/-- The attributes that `_setup_subtree_contexts` reads and that have no class-level default
(astfixers.py:39-90); reading a missing one raises AttributeError. -/
def required : Cls → List F
  | .py .Assign => [.targets, .value]
  | .py .AnnAssign => [.target, .annotation]
  | .py .NamedExpr => [.target, .value]
  | .py .AugAssign => [.target, .value]
  | .py .Attribute => [.value]
  | .py .Subscript => [.value, .slice]
  | .py .comprehension => [.target, .iter, .ifs]
  | .py .For | .py .AsyncFor => [.target, .iter]
  | .py .withitem => [.context_expr]
  | .py .Delete => [.targets]
  | .py .TypeAlias => [.name]
  | _ => []

/-- The state with which the children in a field are visited, astfixers.py:39-90. -/
def childState (c : Cls) (s : K) (f : F) : K :=
  match c, f with
  | .py .Assign, .targets => .Store
  | .py .Assign, .value => .Load
  | .py .AnnAssign, .target => .Store
  | .py .AnnAssign, .annotation => .Load
  | .py .AnnAssign, .value => .Load
  | .py .NamedExpr, .target => .Store
  | .py .NamedExpr, .value => .Load
  | .py .AugAssign, .target => .Store
  | .py .AugAssign, .value => .Load
  | .py .Attribute, .value => .Load
  | .py .Subscript, .value => .Load
  | .py .Subscript, .slice => .Load
  | .py .comprehension, .target => .Store
  | .py .comprehension, .iter => .Load
  | .py .comprehension, .ifs => .Load
  | .py .For, .target => .Store
  | .py .For, .iter => .Load
  | .py .AsyncFor, .target => .Store
  | .py .AsyncFor, .iter => .Load
  | .py .withitem, .context_expr => .Load
  | .py .withitem, .optional_vars => .Store
  | .py .Delete, .targets => .Del
  | .py .TypeAlias, .name => .Store
  | _, _ => s

/-- `_fix_one`, astfixers.py:27-39: `tree.ctx = self.state.ctxclass()` if the class has a `ctx`.
The new `ctx` object is a leaf. -/
def step (s : K) (c : Cls) (l : Loc) (fs : Fields) : Except Err (Out K) :=
  if (required c).all (fun f => (fs.lookup f).isSome) then
    .ok { loc := l, child := childState c s,
          leaf := fun f _ => if c.hasCtx ∧ f = .ctx then some (mk s []) else none,
          extra := if c.hasCtx ∧ (fs.lookup .ctx).isNone then [(.ctx, mk s [])] else [] }
  else .error .attributeError

/-- `fix_ctx(tree)`, astfixers.py:93-104; the initial state is `Load`. -/
def fixCtx (t : Val) : Except Err Val := walk step .Load t

end Mcpyrate.FixCtx
