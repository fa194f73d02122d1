import Verif.Model.ExpandRuntime
import Verif.Model.FixLocations
/-
Model of the macro `fill_location`, `mcpyrate/metatools.py:108-162`.
-/
namespace Mcpyrate.FillLocation
open Py Expander QuoteOps ExpandRuntime

variable {υ : Type}

/-- `astify` of an attribute's value: `None` or a number. -/
def attrConst : Attr → Const
  | .int n => .int n
  | _ => .none

/-- The code of the reference node, metatools.py:145, 156-158: what `astify` makes of `ast.Constant(value="source location
dummy")`, and two more keyword arguments. -/
def referenceCode (l : Loc) : Obj :=
  Quotes.callNode (Quotes.attributeNode (Quotes.quotesAttr "ast") "Constant") []
    [keyword "value" (Quotes.constantNode (.str "source location dummy")), keyword "kind" (Quotes.constantNode .none),
      keyword "lineno" (Quotes.constantNode (attrConst l.lineno)),
      keyword "col_offset" (Quotes.constantNode (attrConst l.colOffset))]

/-- The code that `fill_location` makes, metatools.py:159-162. -/
def fillCode (l : Loc) (tree : Val) : Obj :=
  Quotes.callNode (metatoolsAttr "fix_locations") [.ofVal tree, referenceCode l]
    [keyword "mode" (Quotes.constantNode (.str "reference"))]

/-- The location attributes of an object; other objects than nodes have none. -/
def locOf : Val → Loc
  | .node _ l _ => l
  | _ => {}

/-- `fill_location`, metatools.py:108-162. -/
def fillLocation (a : MArgs) : Prog υ :=
  if a.synt ≠ .expr then .raise (.py .syntaxError)
  else if FixLocations.Attr.has (locOf a.invocation).lineno && FixLocations.Attr.has (locOf a.invocation).colOffset then
    ExpandFirst.give (asCode (fillCode (locOf a.invocation) a.tree))
  else .raise (.py .syntaxError)

end Mcpyrate.FillLocation
