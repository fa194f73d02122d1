import Verif.Spec.FixCtx
/-
Trees that are the same up to locations and `ctx` fields.
-/
namespace Mcpyrate.Expander
open Py

mutual
/-- `Like t u`: `u` is `t` with other locations and (for the classes that have one) other `ctx`, which is added when it
is missing. -/
inductive Like : Val → Val → Prop
  | const (c) : Like (.const c) (.const c)
  | list {xs ys} : LikeL xs ys → Like (.list xs) (.list ys)
  | node {c l l' fs fs'} : LikeF c fs fs' → (F.ctx ∈ fs.map (·.1) → fs'.length = fs.length) →
      Like (.node c l fs) (.node c l' fs')
inductive LikeF : Cls → Fields → Fields → Prop
  | nil {c} : LikeF c [] []
  | extra {c s} : c.hasCtx = true → FixCtx.IsCtx s → LikeF c [] [(.ctx, mk s [])]
  | field {c f v v' r r'} : Like v v' → LikeF c r r' → LikeF c ((f, v) :: r) ((f, v') :: r')
  | ctx {c v s r r'} : c.hasCtx = true → FixCtx.IsCtx s → LikeF c r r' →
      LikeF c ((.ctx, v) :: r) ((.ctx, mk s []) :: r')
inductive LikeL : List Val → List Val → Prop
  | nil : LikeL [] []
  | same {x xs ys} : LikeL xs ys → LikeL (x :: xs) (x :: ys)
  | cons {x y xs ys} : Like x y → LikeL xs ys → LikeL (x :: xs) (y :: ys)
end

end Mcpyrate.Expander
