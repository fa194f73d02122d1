import Verif.Spec.ExpandStatic
import Verif.Spec.FixLocations
import Verif.Model.FillLocation
/-
Notions for the statements about `fill_location`.
-/
namespace Mcpyrate.FillLocation
open Py Expander

variable {τ : Type}

/-- The value of an attribute. -/
def attrObj : Attr → Obj
  | .int n => .const (.int n)
  | _ => .none

/-- The place where the generated code runs: the name `mcpyrate` refers to the library, `ast.Constant` with a line number
and a column makes a node with this location, and `fix_locations` is the function of C14. -/
structure RunTime (H : Quotes.Host τ) : Prop where
  imported : Quotes.Imported H
  metatools : H.attr (.ref ["mcpyrate"]) "metatools" = pure (.ref ["mcpyrate", "metatools"])
  function : H.attr (.ref ["mcpyrate", "metatools"]) "fix_locations" = pure (.ref ["mcpyrate", "metatools", "fix_locations"])
  constant : ∀ (v k : Obj) (line col : Attr), line ≠ .missing → col ≠ .missing →
    H.call (.ref ["mcpyrate", "quotes", "ast", "Constant"]) []
      [("value", v), ("kind", k), ("lineno", attrObj line), ("col_offset", attrObj col)] =
    pure (.node (.py .Constant) { lineno := line, colOffset := col } [(.value, v), (.kind, k)])
  fixLocations : ∀ (t : Val) (c : Cls) (l : Loc) (fs : List (F × Obj)),
    H.call (.ref ["mcpyrate", "metatools", "fix_locations"]) [.ofVal t, .node c l fs] [("mode", .str "reference")] =
    Quotes.lift ((FixLocations.fixLocations t l .reference).map Obj.ofVal)

/-- The location of the invocation: where it starts. -/
def start (l : Loc) : Loc := ⟨l.lineno, l.colOffset, .none, .none⟩

/-- `t'` is `t` with missing locations filled in from `l`. -/
structure FilledIn (l : Loc) (t t' : Val) : Prop where
  same : FixLocations.eraseLoc t' = FixLocations.eraseLoc t
  locations : FixLocations.locs t' = (FixLocations.locs t).map (FixLocations.onLocated (FixLocations.fill l))

end Mcpyrate.FillLocation
