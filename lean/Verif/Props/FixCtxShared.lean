import Verif.Lemmas.FixCtxCheck
/-
C13 fix_ctx with shared nodes.

Full property: with `copy_seen_nodes=True`, every position gets the right ctx, however nodes are
shared.  False of the code (`…_violated`).

What holds (`_partial`): it is so if nodes in a field with a context of its own (`targets`, `value` of
an assignment, the parts of a subscript, …) are used only there, and nodes used in positions with
different contexts have a `ctx` themselves and no list of children: `Sharing`, in
Spec/FixCtxShared.lean.
-/
namespace Mcpyrate
open Py FixCtx

/-- C13, partial: for an acyclic graph `H` with the root node at `root`, shared as in `Sharing`:
`fix_ctx` gives a graph which, read as a tree, has the right ctx in every position, and differs from
the original in `ctx` fields only. -/
theorem C13_partial (copySeen : Bool) (H : List Obj) (rank : Nat → Nat) (root : Nat)
    (hG : Graph H rank) (hS : Sharing copySeen H root) (hn : IsNode H root) (n : Nat) (t : Val)
    (hu : unfold H n (.ref root) = some t) (ht : TargetsOk t) (fuel : Nat)
    (hf : rank root + 2 ≤ fuel) :
    ∃ r' H' t', fixCtxHeap copySeen fuel H root = some (r', H') ∧
      unfold H' (n + 1) (.ref r') = some t' ∧
      (∀ d c l fs, At .Load t' d (.node c l fs) → c.hasCtx = true →
        fs.lookup .ctx = some (mk d [])) ∧
      eraseCtx t' = eraseCtx t := by
  obtain ⟨r', H', h1, h2⟩ := fixCtxHeap_tmap hG hS hu hn ht hf
  exact ⟨r', H', _, h1, h2,
    fun d c l fs ha hc => (CtxOk_at ha (ctx_tmap .Load (.inl rfl) t ht)).1 hc, erase_tmap .Load t⟩

/-- C13, partial: sharing of this kind makes no difference, the result is that for the tree without
sharing. -/
theorem C13_as_tree_partial (copySeen : Bool) (H : List Obj) (rank : Nat → Nat) (root : Nat)
    (hG : Graph H rank) (hS : Sharing copySeen H root) (hn : IsNode H root) (n : Nat) (t t' : Val)
    (hu : unfold H n (.ref root) = some t) (ht : TargetsOk t) (h : fixCtx t = .ok t') (fuel : Nat)
    (hf : rank root + 2 ≤ fuel) :
    ∃ r' H', fixCtxHeap copySeen fuel H root = some (r', H') ∧
      unfold H' (n + 1) (.ref r') = some t' := by
  obtain ⟨c, fs, hn'⟩ := hn
  obtain ⟨m, gs, _, _, e⟩ := unfold_node hn' hu
  rw [walk_tmap total .Load t t' h (e ▸ rfl)]
  exact fixCtxHeap_tmap hG hS hu ⟨c, fs, hn'⟩ ht hf

section
/-- `(x, y) = f(x, f, x)` with one object for all `x`, one for both `f`, one for the old ctx. -/
private def heapOk : List Obj :=
  [.node (.py .Assign) [(.targets, .ref 1), (.value, .ref 6), (.type_comment, .const .none)],
   .list [.ref 2],
   .node (.py .Tuple) [(.elts, .ref 3), (.ctx, .ref 9)],
   .list [.ref 4, .ref 5],
   .node (.py .Name) [(.id, .const (.str "x")), (.ctx, .ref 9)],
   .node (.py .Name) [(.id, .const (.str "y"))],
   .node (.py .Call) [(.func, .ref 10), (.args, .ref 7), (.keywords, .ref 8)],
   .list [.ref 4, .ref 10, .ref 4],
   .list [],
   .node (.py .Load) [],
   .node (.py .Name) [(.id, .const (.str "f")), (.ctx, .ref 9)]]

/-- `(x, y) = f(x, f, x)`. -/
private def treeOk (cx ct : K) (y : Val) : Val :=
  mk .Assign [(.targets, .list [mk .Tuple [(.elts, .list [name "x" cx, y]), (.ctx, mk ct [])]]),
    (.value, mk .Call [(.func, name "f"), (.args, .list [name "x", name "f", name "x"]),
      (.keywords, .list [])]),
    (.type_comment, .none)]

private def rankOk : Nat → Nat
  | 0 => 3 | 2 => 2 | 6 => 2 | _ => 0

example : Graph heapOk rankOk := graph_of (by decide +kernel)
/-- The two `x` positions require different contexts. -/
example : Sharing true heapOk 0 := sharing_of
  [(.Load, 0), (.Store, 2), (.Store, 4), (.Store, 5), (.Load, 6), (.Load, 4), (.Load, 10)]
  (by decide +kernel)
example : IsNode heapOk 0 := ⟨_, _, rfl⟩
example : unfold heapOk 6 (.ref 0) = some (treeOk .Load .Load (mk .Name [(.id, .str "y")])) := by
  decide +kernel
example : TargetsOk (treeOk .Load .Load (mk .Name [(.id, .str "y")])) := .of_valid (by decide)
example : ((fixCtxHeap true 5 heapOk 0).bind fun (r, H) => unfold H 7 (.ref r)) =
    some (treeOk .Store .Store (name "y" .Store)) := by decide +kernel
/-- Without copying, this graph is not handled. -/
example : ((fixCtxHeap false 5 heapOk 0).bind fun (r, H) => unfold H 7 (.ref r)) =
    some (treeOk .Load .Store (name "y" .Store)) := by decide +kernel
/-- Without copying, sharing in positions with the same context is fine: `f(f, f)`. -/
private def heapSame : List Obj :=
  [.node (.py .Call) [(.func, .ref 1), (.args, .ref 2), (.keywords, .ref 3)],
   .node (.py .Name) [(.id, .const (.str "f"))],
   .list [.ref 1, .ref 1],
   .list []]
example : Graph heapSame fun | 0 => 1 | _ => 0 := graph_of (by decide +kernel)
example : Sharing false heapSame 0 := sharing_of [(.Load, 0), (.Load, 1)] (by decide +kernel)
end

section
/-- `with f(x) as x` where both `x` are the same `Name` object (at address 3). -/
private def heapWith : List Obj :=
  [.node (.py .withitem) [(.context_expr, .ref 1), (.optional_vars, .ref 3)],
   .node (.py .Call) [(.func, .ref 2), (.args, .ref 4), (.keywords, .ref 5)],
   .node (.py .Name) [(.id, .const (.str "f"))],
   .node (.py .Name) [(.id, .const (.str "x"))],
   .list [.ref 3],
   .list []]

private def withTree (c1 c2 : K) : Val :=
  mk .withitem [(.context_expr, mk .Call [(.func, name "f"), (.args, .list [name "x" c1]),
    (.keywords, .list [])]), (.optional_vars, name "x" c2)]

/-- `x = x` with one `Name` object. -/
private def heapAssign : List Obj :=
  [.node (.py .Assign) [(.targets, .ref 1), (.value, .ref 2), (.type_comment, .const .none)],
   .list [.ref 2],
   .node (.py .Name) [(.id, .const (.str "x"))]]

/-- `a, b = (a, b)` with one `Tuple` object for both sides. -/
private def heapTuple : List Obj :=
  [.node (.py .Assign) [(.targets, .ref 1), (.value, .ref 6), (.type_comment, .const .none)],
   .list [.ref 2],
   .node (.py .Tuple) [(.elts, .ref 3)],
   .list [.ref 4, .ref 5],
   .node (.py .Name) [(.id, .const (.str "a"))],
   .node (.py .Name) [(.id, .const (.str "b"))],
   .node (.py .Starred) [(.value, .ref 2)]]

private def tupleTree (c1 c2 : K) : Val :=
  mk .Assign [(.targets, .list [mk .Tuple [(.elts, .list [name "a" c1, name "b" c1]),
      (.ctx, mk .Store [])]]),
    (.value, mk .Starred [(.value, mk .Tuple [(.elts, .list [name "a" c2, name "b" c2]),
      (.ctx, mk .Load [])]), (.ctx, mk .Load [])]),
    (.type_comment, .none)]

/-- What the user sees after `fix_ctx(tree, copy_seen_nodes=True)`: the resulting graph as a tree. -/
private def fixedTree (heap : List Obj) : Option Val :=
  (fixCtxHeap true 10 heap 0).bind fun (r, heap') => unfold heap' 10 (.ref r)

/-- C13 fails, `with f(x) as x`: the state registered for the target is used up by the first
occurrence of the shared node, so `f(x)` gets `Store` and the target gets `Load`. -/
theorem C13_with_violated :
    fixedTree heapWith = some (withTree .Store .Load) ∧
      fixCtx (withTree .Store .Load) = .ok (withTree .Load .Store) := by
  constructor <;> decide +kernel

/-- C13 fails, `x = x` with a shared `Name`: both `withstate` calls use the same key, the last one
wins; the target ends up with `Load`. -/
theorem C13_assign_violated :
    fixedTree heapAssign = some (mk .Assign [(.targets, .list [name "x" .Load]),
      (.value, name "x" .Load), (.type_comment, .none)]) := by decide +kernel

/-- C13 fails, a shared `Tuple` in a target and in a value: the copy of the tuple shares the list of
elements with the original, so the second visit rewrites the elements of the target to `Load`. -/
theorem C13_tuple_violated :
    fixedTree heapTuple = some (tupleTree .Load .Load) ∧
      fixCtx (tupleTree .Load .Load) = .ok (tupleTree .Store .Load) := by
  constructor <;> decide +kernel

/-- `a[x][x] = 1` with one `Name` object for the two `x`. -/
private def heapSubscript : List Obj :=
  [.node (.py .Assign) [(.targets, .ref 1), (.value, .ref 6), (.type_comment, .const .none)],
   .list [.ref 2],
   .node (.py .Subscript) [(.value, .ref 3), (.slice, .ref 5)],
   .node (.py .Subscript) [(.value, .ref 4), (.slice, .ref 5)],
   .node (.py .Name) [(.id, .const (.str "a"))],
   .node (.py .Name) [(.id, .const (.str "x"))],
   .node (.py .Constant) [(.value, .const (.int 1))]]

private def subscriptTree (c : K) : Val :=
  mk .Assign [(.targets, .list [mk .Subscript [
      (.value, mk .Subscript [(.value, name "a"), (.slice, name "x"), (.ctx, mk .Load [])]),
      (.slice, name "x" c), (.ctx, mk .Store [])]]),
    (.value, mk .Constant [(.value, .int 1)]), (.type_comment, .none)]

/-- C13 fails, `a[x][x] = 1`, even though both positions of the shared `x` require `Load`: the state
registered for the second one is used up by the first one, and the second one gets the `Store` of the
whole target. -/
theorem C13_subscript_violated :
    fixedTree heapSubscript = some (subscriptTree .Store) ∧
      fixCtx (subscriptTree .Store) = .ok (subscriptTree .Load) := by
  constructor <;> decide +kernel
end

end Mcpyrate
