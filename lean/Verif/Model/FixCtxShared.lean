import Verif.Model.FixCtx
/-
Model of `fix_ctx` on object graphs, where the same node object may occur in several places
(astfixers.py:14-104 with walkers.py:64-94, 179-194 and `ast.NodeTransformer.generic_visit`).

A heap of objects: nodes and lists.  Identity (`id`) is the address.  Objects are never freed during
the walk, so addresses are not reused.  Locations are left out: `fix_ctx` does not look at them.
-/
namespace Mcpyrate.FixCtx
open Py

/-- A value in the heap: a constant, or a reference to an object. -/
inductive HV where
  | const (c : Const)
  | ref (r : Nat)
  deriving DecidableEq, Repr

inductive Obj where
  | node (c : Cls) (fs : List (F × HV))
  | list (xs : List HV)
  deriving DecidableEq, Repr

/-- The walker: heap, `self._seen`, `self._subtree_overrides`. -/
structure St where
  heap : List Obj
  seen : List Nat := []
  over : List (Nat × K) := []
  deriving DecidableEq, Repr

/-- `withstate(x, ctxclass=k)`: for a list, for each of its items; the last call wins.
Constants are registered under their `id` too, but are never visited. -/
def register (σ : St) (v : HV) (k : K) : St :=
  match v with
  | .const _ => σ
  | .ref r =>
    match σ.heap[r]? with
    | some (.list xs) =>
      xs.foldl (fun σ x => match x with
        | .ref a => { σ with over := (a, k) :: σ.over.filter (·.1 ≠ a) }
        | .const _ => σ) σ
    | _ => { σ with over := (r, k) :: σ.over.filter (·.1 ≠ r) }

/-- The fields for which `_setup_subtree_contexts` calls `withstate`, in order; see `childState`. -/
def registered : Cls → List F
  | .py .Assign => [.targets, .value]
  | .py .AnnAssign => [.target, .annotation, .value]
  | .py .NamedExpr => [.target, .value]
  | .py .AugAssign => [.target, .value]
  | .py .Attribute => [.value]
  | .py .Subscript => [.value, .slice]
  | .py .comprehension => [.target, .iter, .ifs]
  | .py .For | .py .AsyncFor => [.target, .iter]
  | .py .withitem => [.context_expr, .optional_vars]
  | .py .Delete => [.targets]
  | .py .TypeAlias => [.name]
  | _ => []

/-- `_setup_subtree_contexts(tree)`, astfixers.py:41-90. -/
def setup (c : Cls) (fs : List (F × HV)) (σ : St) : St :=
  (registered c).foldl (fun σ f =>
    match fs.lookup f with
    | some v => register σ v (childState c .Load f)
    | none => σ) σ

/-- `_fix_one(tree)`, astfixers.py:27-39: returns the node to go on with. -/
def fixOne (copySeen : Bool) (cur : K) (r : Nat) (c : Cls) (fs : List (F × HV)) (σ : St) :
    Nat × List (F × HV) × St :=
  if c.hasCtx then
    -- `tree = copy(tree)`: a new node object with the same field values
    let (r, σ) : Nat × St :=
      if copySeen ∧ r ∈ σ.seen then (σ.heap.length, { σ with heap := σ.heap ++ [.node c fs] })
      else (r, σ)
    -- `tree.ctx = self.state.ctxclass()`: a new object
    let a := σ.heap.length
    let fs := if (fs.lookup .ctx).isSome
      then fs.map fun (g, v) => if g = .ctx then (g, .ref a) else (g, v)
      else fs ++ [(.ctx, .ref a)]
    (r, fs, { σ with heap := (σ.heap ++ [Obj.node (.py cur) []]).set r (Obj.node c fs),
                     seen := r :: σ.seen })
  else (r, fs, σ)

/-- `ast.NodeTransformer.generic_visit`, the items of a list.  Simplified: the items are read once,
before the loop; `visit` never returns `None` or a list here. -/
def visitItems (visit : Nat → St → Option (Nat × St)) : List HV → St → Option (List HV × St)
  | [], σ => some ([], σ)
  | .const c :: xs, σ =>
    match visitItems visit xs σ with
    | none => none
    | some (ys, σ) => some (.const c :: ys, σ)
  | .ref r :: xs, σ =>
    match visit r σ with
    | none => none
    | some (r', σ) =>
      match visitItems visit xs σ with
      | none => none
      | some (ys, σ) => some (.ref r' :: ys, σ)

/-- `setattr(node, field, value)`. -/
def setField (heap : List Obj) (r : Nat) (f : F) (v : HV) : List Obj :=
  match heap[r]? with
  | some (.node c fs) =>
    heap.set r (.node c (fs.map fun (g, w) => if g = f then (g, v) else (g, w)))
  | _ => heap

/-- `generic_visit(node)`: loop over the fields. -/
def visitFields (visit : Nat → St → Option (Nat × St)) (r : Nat) : List F → St → Option St
  | [], σ => some σ
  | f :: rest, σ =>
    match σ.heap[r]? with
    | some (.node _ fs) =>
      match fs.lookup f with
      | some (.ref a) =>
        match σ.heap[a]? with
        | some (.list xs) =>
          match visitItems visit xs σ with
          | none => none
          | some (ys, σ) => visitFields visit r rest { σ with heap := σ.heap.set a (.list ys) }
        | some (.node ..) =>
          match visit a σ with
          | none => none
          | some (a', σ) => visitFields visit r rest { σ with heap := setField σ.heap r f (.ref a') }
        | none => none
      | _ => visitFields visit r rest σ
    | _ => none

/-- `visit(tree)` of a node: pop the registered state, `transform`.  `none`: the recursion is deeper
than the fuel, or a reference is dangling. -/
def visit (copySeen : Bool) : Nat → K → Nat → St → Option (Nat × St)
  | 0, _, _, _ => none
  | n + 1, cur, r, σ =>
    let cur := (σ.over.lookup r).getD cur
    let σ : St := { σ with over := σ.over.filter (·.1 ≠ r) }
    match σ.heap[r]? with
    | some (.node c fs) =>
      let (r, fs, σ) := fixOne copySeen cur r c fs σ
      let σ := setup c fs σ
      match visitFields (visit copySeen n cur) r (fs.map (·.1)) σ with
      | none => none
      | some σ => some (r, σ)
    | _ => none

/-- `fix_ctx(tree, copy_seen_nodes=…)` for the node at `r`. -/
def fixCtxHeap (copySeen : Bool) (fuel : Nat) (heap : List Obj) (r : Nat) : Option (Nat × List Obj) :=
  (visit copySeen fuel .Load r { heap := heap }).map fun (r, σ) => (r, σ.heap)

/-- Map over a list, failing if one item fails. -/
def mapL {α β : Type} (g : α → Option β) : List α → Option (List β)
  | [] => some []
  | x :: xs =>
    match g x, mapL g xs with
    | some y, some ys => some (y :: ys)
    | _, _ => none

/-- Map over field values. -/
def mapF (g : HV → Option Val) : List (F × HV) → Option Fields
  | [] => some []
  | (f, x) :: xs =>
    match g x, mapF g xs with
    | some y, some ys => some ((f, y) :: ys)
    | _, _ => none

/-- The tree that one sees when following the references from a value (not modelled code: this is
how the theorems read a result). -/
def unfold (heap : List Obj) : Nat → HV → Option Val
  | 0, _ => none
  | _ + 1, .const c => some (.const c)
  | n + 1, .ref r =>
    match heap[r]? with
    | some (.node c fs) => (mapF (unfold heap n) fs).map (.node c {} ·)
    | some (.list xs) => (mapL (unfold heap n) xs).map .list
    | none => none

end Mcpyrate.FixCtx
