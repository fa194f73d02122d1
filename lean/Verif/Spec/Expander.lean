import Verif.Spec.Tree
import Verif.Model.Expander
/-
Notions used in the statements about the expander.
-/
namespace Mcpyrate.Expander
open Py

variable {υ : Type}

/-- The macro applications that happened between two states. -/
def fresh (s s' : St υ) : List App := s'.log.drop s.log.length

/-- The invocations expanded directly (not from inside a macro function that is running) between two
states, in order. -/
def invocations (s s' : St υ) : List Val :=
  ((fresh s s').filter fun e => e.depth = s.depth).map (·.margs.invocation)

/-- `expander.visit…(t)` in state `s` finishes with outcome `r` (a value or an exception), in state
`s'`. -/
def Runs (E : Env υ) (mode : Mode) (t : Val) (s : St υ) (r : Except Exc Val) (s' : St υ) : Prop :=
  ∃ n, visitAs E n mode t s = some (r, s')

/-- `visit_once` wraps the result in `Done`. -/
def wrap (mode : Mode) (t : Val) : Val := if mode = .once then done t else t

/-- `t` was the invocation of a macro application between two states that was not made from inside a
macro function that is running. -/
def Expanded (s s' : St υ) (t : Val) : Prop :=
  ∃ e ∈ fresh s s', e.depth = s.depth ∧ e.margs.invocation = t

/-- The child nodes of a node or suite, in order. -/
def childNodes : Val → List Val
  | .node _ _ fs => fs.flatMap fun (_, v) => match v with
    | .node .. => [v]
    | .list xs => xs.filter Val.isAST
    | .const _ => []
  | .list xs => xs.filter Val.isAST
  | .const _ => []

mutual
/-- `Pass t L`: the nodes `L` are met, in this order, by one top-down pass over `t` that does not
look into `Done`-marked parts, and not into the nodes it picks either (nor at what replaces them);
each occurrence is met at most once. -/
inductive Pass : Val → List Val → Prop
  | skip (t) : Pass t []
  | here (t) : isDone t = false → Pass t [t]
  | inside (t L) : isDone t = false → PassL (childNodes t) L → Pass t L
inductive PassL : List Val → List Val → Prop
  | nil : PassL [] []
  | cons (t ts L M) : Pass t L → PassL ts M → PassL (t :: ts) (L ++ M)
end

mutual
/-- `Agree A t t'`: `t'` is `t` except that subtrees for which `A` holds have been replaced (by
anything: a node, several nodes, nothing).  A `Done`-marked subtree is not looked into. -/
inductive Agree (A : Val → Prop) : Val → Val → Prop
  | refl (t) : Agree A t t
  | replaced (t t') : A t → Agree A t t'
  | node (c l fs fs') : isDone (.node c l fs) = false → AgreeF A fs fs' →
      Agree A (.node c l fs) (.node c l fs')
/-- The fields of a node: constants are the same; a field whose value was replaced by nothing is
deleted. -/
inductive AgreeF (A : Val → Prop) : Fields → Fields → Prop
  | nil : AgreeF A [] []
  | const (f c fs fs') : AgreeF A fs fs' → AgreeF A ((f, .const c) :: fs) ((f, .const c) :: fs')
  | list (f xs ys fs fs') : AgreeL A xs ys → AgreeF A fs fs' →
      AgreeF A ((f, .list xs) :: fs) ((f, .list ys) :: fs')
  | node (f v v' fs fs') : v.isAST = true → Agree A v v' → v'.isNone = false → AgreeF A fs fs' →
      AgreeF A ((f, v) :: fs) ((f, v') :: fs')
  | deleted (f v v' fs fs') : v.isAST = true → Agree A v v' → v'.isNone = true → AgreeF A fs fs' →
      AgreeF A ((f, v) :: fs) fs'
/-- The items of a list; a replacement by several nodes is spliced in. -/
inductive AgreeL (A : Val → Prop) : List Val → List Val → Prop
  | nil : AgreeL A [] []
  | same (x xs ys) : AgreeL A xs ys → AgreeL A (x :: xs) (x :: ys)
  | item (x x' xs ys) : Agree A x x' → AgreeL A xs ys →
      AgreeL A (x :: xs) (Markers.spliceResult x' ++ ys)
end

/-- `u` occurs in `t`, and no node on the way from `t` down to `u` itself satisfies `A` or is
`Done`-marked (above `u`). -/
inductive Outside (A : Val → Prop) : Val → Val → Prop
  | refl (t) : ¬ A t → Outside A t t
  | step {t u s} : ¬ A t → isDone t = false → u ∈ childNodes t → Outside A u s → Outside A t s

/-- Item by item. -/
inductive AgreeS (A : Val → Prop) : List Val → List Val → Prop
  | nil : AgreeS A [] []
  | cons (x y xs ys) : Agree A x y → AgreeS A xs ys → AgreeS A (x :: xs) (y :: ys)

/-- A result of visiting a suite: the suite itself, or the results for the items, flattened; nothing
(`None`) if that is empty. -/
def AgreeSuite (A : Val → Prop) (xs : List Val) (r : Val) : Prop :=
  r = .list xs ∨ ∃ ys, AgreeS A xs ys ∧
    r = if (Markers.flattenV ys).isEmpty then .none else .list (Markers.flattenV ys)

/-- A result of visiting a node or a suite. -/
def AgreeTop (A : Val → Prop) (t r : Val) : Prop :=
  match t with
  | .list xs => AgreeSuite A xs r
  | t => Agree A t r

end Mcpyrate.Expander
