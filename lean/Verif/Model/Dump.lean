import Verif.Model.Unparse
import Verif.Model.DialectSource
/-
`dump`, astdumper.py:16-83.
-/
namespace Mcpyrate.Dump
open Py Unparse

/-- The strings that set a terminal color: `ColorScheme.NODETYPE`, `FIELDNAME`, `BAREVALUE`, each with its compound parts
joined, and `Style.RESET_ALL`; colorizer.py:36-66, 161-165. -/
structure Palette where
  node : Str
  field : Str
  bare : Str
  reset : Str

/-- The options of `dump`; `color` is `none` for `color=False`. -/
structure Options where
  attributes : Bool
  multiline : Bool
  color : Option Palette

/-- `colorize(text, color)`, colorizer.py:69-95. -/
def colorize (P : Palette) (color text : Str) : Str := P.reset ++ color ++ text ++ P.reset

/-- `maybe_colorize(text, ColorScheme.…)`, astdumper.py:35-38. -/
def maybeColorize (o : Options) (which : Palette → Str) (text : Str) : Str :=
  match o.color with
  | none => text
  | some P => colorize P (which P) text

/-- `maybe_colorize_value(value)`, astdumper.py:40-46, for a string: all values are strings already. -/
def maybeColorizeValue (o : Options) (text : Str) : Str :=
  if text.head? = some '[' then text else maybeColorize o Palette.bare text

/-- `separator()`, astdumper.py:49-52. -/
def separator (o : Options) (indent : Nat) : Str :=
  if o.multiline then lit ",\n" ++ List.replicate indent ' ' else lit ", "

/-- `tree.__class__.__name__`. -/
def className : Cls → Str
  | .py k => k.text.toList
  | .marker n => n.toList

/-- `getattr(tree, k, None)` of a location attribute. -/
def attrVal : Attr → Val
  | .missing => .none
  | .none => .none
  | .int n => .const (.int n)

/-- The location attributes by name, in the order of `_attributes`. -/
def attributes (l : Loc) : List (Str × Val) :=
  [(lit "lineno", attrVal l.lineno), (lit "col_offset", attrVal l.colOffset), (lit "end_lineno", attrVal l.endLineno),
    (lit "end_col_offset", attrVal l.endColOffset)]

/-- `f"{k}={v}"` for an entry whose text is `v`, astdumper.py:61-66. -/
def entry (o : Options) (key text : Str) : Str :=
  maybeColorize o Palette.field key ++ lit "=" ++ maybeColorizeValue o text

/-- `items[0] = "[" + items[0].lstrip()`, `items[-1] = items[-1] + "]"`, and joining; astdumper.py:72-76. -/
def bracketed (sep : Str) : List Str → Str
  | [] => lit "[]"
  | x :: xs => sep.intercalate (('[' :: x.dropWhile Dialects.isSpace) :: xs) ++ lit "]"

/-- `recurse` of a constant, astdumper.py:79. -/
def scalar (H : Host) : Val → Str
  | .const c => reprConst H c
  | _ => []

mutual
/-- `recurse(tree, previndent)`, astdumper.py:48-78.  The location attributes are always constants here. -/
def recurse (H : Host) (o : Options) (indent : Nat) : Val → Str
  | .node c l fs =>
    let inner := indent + (className c).length + 1
    let shown := fieldTexts H o inner fs ++
      if o.attributes && c.hasLoc then (attributes l).map fun (k, v) => entry o k (scalar H v) else []
    maybeColorize o Palette.node (className c) ++ lit "(" ++ (separator o inner).intercalate shown ++ lit ")"
  | .list xs => bracketed (separator o (indent + 1)) (itemTexts H o (indent + 1) xs)
  | .const c => reprConst H c
/-- The fields of a node, `iter_fields(tree)`: those that are present, in order. -/
def fieldTexts (H : Host) (o : Options) (inner : Nat) : Fields → List Str
  | [] => []
  | (f, v) :: fs =>
    entry o f.text.toList (recurse H o (inner + f.text.toList.length + 1) v) :: fieldTexts H o inner fs
def itemTexts (H : Host) (o : Options) (indent : Nat) : List Val → List Str
  | [] => []
  | x :: xs => recurse H o indent x :: itemTexts H o indent xs
end

/-- `dump(tree, include_attributes, multiline, color)`, astdumper.py:16-83. -/
def dump (H : Host) (o : Options) (tree : Val) : Except Err Str :=
  match tree with
  | .const _ => .error .typeError
  | t => .ok (recurse H o 0 t)

end Mcpyrate.Dump
