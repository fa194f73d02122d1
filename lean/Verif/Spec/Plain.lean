import Verif.Spec.StmtTree
/-
C47: the constructs that the unparser does not write in a way that is read back, and the trees without them.  (The theorems
whose names end with `violated`, in Props/Unparse.lean, Props/UnparseStmts.lean and Props/UnparseMatch.lean, have an example
for each of them.)
-/
namespace Mcpyrate.PyText
open Py

/-- An `as` pattern. -/
def IsAs (p : Val) : Prop := ∃ l q n, p = .node (.py .MatchAs) l [(.pattern, q), (.name, n)] ∧ q ≠ .none

/-- A node of class `k` with fields `fs` is one of these:
* `{**d}`
* `a[()]`
* a `with` whose only item is a tuple display without `as` and without starred elements
* alternatives, or an `as` pattern, among alternatives, or an `as` pattern before another `as`
* a number with a sign, or a complex one, as a key of a mapping pattern
* a complex number with a sign as a pattern -/
def Odd (k : K) (fs : Fields) : Prop :=
  match k with
  | .Dict => ∃ ks, (F.keys, Val.list ks) ∈ fs ∧ Val.none ∈ ks
  | .Subscript => ∃ l c, (F.slice, Val.node (.py .Tuple) l [(.elts, .list []), c]) ∈ fs
  | .With => ∃ is, (F.items, Val.list is) ∈ fs ∧ inParens is ≠ none
  | .AsyncWith => ∃ is, (F.items, Val.list is) ∈ fs ∧ inParens is ≠ none
  | .MatchOr => ∃ ps p, (F.patterns, Val.list ps) ∈ fs ∧ p ∈ ps ∧ (p.isK .MatchOr = true ∨ IsAs p)
  | .MatchAs => ∃ p, (F.pattern, p) ∈ fs ∧ IsAs p
  | .MatchMapping => ∃ ks k, (F.keys, Val.list ks) ∈ fs ∧ k ∈ ks ∧ (k.isK .UnaryOp = true ∨ k.isK .BinOp = true)
  | .MatchValue => ∃ l a r, (F.value, Val.node (.py .BinOp) l ((.left, a) :: r)) ∈ fs ∧ a.isK .UnaryOp = true
  | _ => False

mutual
/-- None of these is in the tree.  (There is nothing to be looked for in a context, such as `Load`.) -/
def Plain : Val → Prop
  | .node (.py k) _ fs => ¬ Odd k fs ∧ PlainF fs
  | .node (.marker _) _ fs => PlainF fs
  | .list xs => PlainL xs
  | .const _ => True
def PlainF : Fields → Prop
  | [] => True
  | (f, v) :: r => (f = .ctx ∨ Plain v) ∧ PlainF r
def PlainL : List Val → Prop
  | [] => True
  | v :: r => Plain v ∧ PlainL r
end

end Mcpyrate.PyText
