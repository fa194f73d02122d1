import Verif.Model.Dump
import Verif.Spec.Dump
/-
Specification for C62: palettes, and options without colors.
-/
namespace Mcpyrate.Dump

/-- The strings of the palette are escape sequences, which a terminal does not show. -/
structure Palette.Lawful (P : Palette) : Prop where
  node : Codes P.node
  field : Codes P.field
  bare : Codes P.bare
  reset : Codes P.reset

/-- The options without colors. -/
def Options.plain (o : Options) : Options := { o with color := none }

end Mcpyrate.Dump
