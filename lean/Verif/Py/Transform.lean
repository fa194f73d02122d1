import Verif.Py.Ast
import Verif.Py.Err
import Verif.Model.Markers
/-
`mcpyrate.walkers.ASTTransformer` (walkers.py:165-194), without the per-subtree state, for
transformers whose `transform(tree)` either returns a replacement or `self.generic_visit(tree)`.

`f t s` is one call of `transform`: `some r` means "return `r`", `none` means "return
`self.generic_visit(t)`"; `s` is the state of the transformer object.
-/
namespace Mcpyrate.Py
open Markers (flattenV spliceResult)

variable {σ : Type}

abbrev Rule (σ : Type) := Val → σ → Except Err (Option Val × σ)

mutual
/-- `ASTTransformer.visit`, walkers.py:179-194, and `ast.NodeTransformer.generic_visit`.
`generic_visit` of a non-AST raises AttributeError (no `_fields`). -/
def rew (f : Rule σ) : Val → σ → Except Err (Val × σ)
  | .list xs, s =>
    match rewElts f xs s with
    | .error e => .error e
    | .ok (rs, s) => .ok (.list (flattenV rs), s)
  | .const c, s =>
    match f (.const c) s with
    | .error e => .error e
    | .ok (some r, s) => .ok (r, s)
    | .ok (none, _) => .error .attributeError
  | .node c l fs, s =>
    match f (.node c l fs) s with
    | .error e => .error e
    | .ok (some r, s) => .ok (r, s)
    | .ok (none, s) =>
      match rewF f fs s with
      | .error e => .error e
      | .ok (fs', s) => .ok (.node c l fs', s)
/-- `self.visit(elt) for elt in tree`, walkers.py:186. -/
def rewElts (f : Rule σ) : List Val → σ → Except Err (List Val × σ)
  | [], s => .ok ([], s)
  | x :: xs, s =>
    match rew f x s with
    | .error e => .error e
    | .ok (r, s) =>
      match rewElts f xs s with
      | .error e => .error e
      | .ok (rs, s) => .ok (r :: rs, s)
/-- `generic_visit`: the loop over the fields. -/
def rewF (f : Rule σ) : List (F × Val) → σ → Except Err (List (F × Val) × σ)
  | [], s => .ok ([], s)
  | (g, .const c) :: r, s =>
    match rewF f r s with
    | .error e => .error e
    | .ok (r', s) => .ok ((g, .const c) :: r', s)
  | (g, .list xs) :: r, s =>
    match rewL f xs s with
    | .error e => .error e
    | .ok (ys, s) =>
      match rewF f r s with
      | .error e => .error e
      | .ok (r', s) => .ok ((g, .list ys) :: r', s)
  | (g, .node c l fs) :: r, s =>
    match rew f (.node c l fs) s with
    | .error e => .error e
    | .ok (v, s) =>
      match rewF f r s with
      | .error e => .error e
      -- a result of `None` deletes the attribute
      | .ok (r', s) => .ok (if v.isNone then r' else (g, v) :: r', s)
/-- `generic_visit`: the loop over the items of a list-valued field. -/
def rewL (f : Rule σ) : List Val → σ → Except Err (List Val × σ)
  | [], s => .ok ([], s)
  | .node c l fs :: r, s =>
    match rew f (.node c l fs) s with
    | .error e => .error e
    | .ok (v, s) =>
      match rewL f r s with
      | .error e => .error e
      | .ok (r', s) => .ok (spliceResult v ++ r', s)
  | .list xs :: r, s =>
    match rewL f r s with
    | .error e => .error e
    | .ok (r', s) => .ok (.list xs :: r', s)
  | .const c :: r, s =>
    match rewL f r s with
    | .error e => .error e
    | .ok (r', s) => .ok (.const c :: r', s)
end

end Mcpyrate.Py
