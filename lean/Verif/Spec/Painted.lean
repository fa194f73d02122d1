import Verif.Model.UnparseColor
/-
Text with colors: what a terminal shows when it is printed.
-/
namespace Mcpyrate
open Unparse

/-- `Painted S t p`: the text `t` is `p` with the colors of the scheme `S`.  Each colored run is a reset, the code of a
color, the text of the run, and a reset; so all colors are off after a run.  (Within a run there may be another one.) -/
inductive Painted (S : Unparse.Color.Scheme) : Str → Str → Prop
  | nil : Painted S [] []
  | char (c : Char) {t p : Str} : Painted S t p → Painted S (c :: t) (c :: p)
  | run (paint : Unparse.Color.Paint) {x p t q : Str} : Painted S x p → Painted S t q →
      Painted S (S.reset ++ S.code paint ++ x ++ S.reset ++ t) (p ++ q)

/-- The reset code does not begin or end with white space. -/
structure Solid (S : Unparse.Color.Scheme) : Prop where
  first : ∀ x r, S.reset = x :: r → Dialects.isSpace x = false
  last : ∀ x r, S.reset = r ++ [x] → Dialects.isSpace x = false
  ne : S.reset ≠ []

end Mcpyrate
