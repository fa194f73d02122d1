import Verif.Model.UnparseColor
/-
The text of the debug mode of the unparser, compared to the text without it.
-/
namespace Mcpyrate
open Py Unparse

/-- How a line number is shown: in seven columns, or more if it has more than five digits; dashes if there is none. -/
def lineLabel : Option Int → Str
  | none => lit "L ---- "
  | some n => lit "L" ++ (List.replicate (5 - (reprInt n).length) ' ' ++ reprInt n) ++ lit " "

/-- The line number of a node: `None` and 0 count as none. -/
def lineOf (l : Loc) : Option Int :=
  match l.lineno with
  | .int n => if n = 0 then none else some n
  | _ => none

/-- `Annotated cap d p`: the text `d` of the debug mode shows the code `p`.  A line may have a line number in front, may be
indented differently, and may be marked as an expression statement; a line for a top level node may be inserted; and a
hygienic capture, where `cap` relates the name and the code, is shown as `$h[name]` instead of its code. -/
inductive Annotated (cap : Str → Str → Prop) : Str → Str → Prop
  | nil : Annotated cap [] []
  | char (c : Char) {d p : Str} : Annotated cap d p → Annotated cap (c :: d) (c :: p)
  | line (l : Option Int) (i j : Nat) {d p : Str} : Annotated cap d p →
      Annotated cap ('\n' :: (lineLabel l ++ List.replicate (4 * i) ' ' ++ d)) ('\n' :: (List.replicate (4 * j) ' ' ++ p))
  | indent (i j : Nat) {d p : Str} : Annotated cap d p →
      Annotated cap ('\n' :: (List.replicate (4 * i) ' ' ++ d)) ('\n' :: (List.replicate (4 * j) ' ' ++ p))
  | expr (l : Option Int) (i j : Nat) {d p : Str} : Annotated cap d p →
      Annotated cap ('\n' :: (lineLabel l ++ List.replicate (4 * i) ' ' ++ lit "$Expr: " ++ d))
        ('\n' :: (List.replicate (4 * j) ' ' ++ p))
  | top (l : Option Int) (i : Nat) {n : Str} {d p : Str} : n ∈ [lit "Module", lit "Interactive", lit "Expression"] →
      Annotated cap d p → Annotated cap ('\n' :: (lineLabel l ++ List.replicate (4 * i) ' ' ++ lit "$" ++ n ++ lit ":" ++ d)) p
  | captured {x q d p : Str} : cap x q → Annotated cap d p → Annotated cap (lit "$h[" ++ x ++ lit "]" ++ d) (q ++ p)

/-- A name and a code that belong together: a tree that is a hygienic capture, of a value or macro of this name, has this
code. -/
def CapturedAs (H : Host) (o : Color.Opts) (x q : Str) : Prop :=
  ∃ t, (o.capturedValue t = .ok (some x) ∨ o.capturedMacro t = .ok (some x)) ∧ ∃ n c, Unparse.dispatch H n c t = .ok q

/-- An `if` with `elif`s and an `else`: a location, test and body for each of the branches. -/
def ifChain : Loc × Val × Val → List (Loc × Val × Val) → List Val → Val
  | (l, t, b), [], e => .node (.py .If) l [(.test, t), (.body, b), (.orelse, .list e)]
  | (l, t, b), x :: xs, e => .node (.py .If) l [(.test, t), (.body, b), (.orelse, .list [ifChain x xs e])]

/-- A line of the debug mode, and the lines up to the next one that is not indented. -/
def labelled (l : Loc) (word : String) (text : Str) : Str := '\n' :: (lineLabel (lineOf l) ++ (lit word ++ text))

/-- The text of an `if` in debug mode: each line has the number of its own `if`, and the `else` the one of the last. -/
def ChainText (word : String) (x : Loc × Val × Val) (xs : List (Loc × Val × Val)) (e : List Val) (s : Str) : Prop :=
  ∃ r rs u, rs.length = xs.length ∧
    s = labelled x.1 word r ++ (xs.zip rs).flatMap (fun p => labelled p.1.1 "elif " p.2) ++
      (if e = [] then [] else labelled (xs.getLastD x).1 "else:" u)

/-- The comparison operators, how Python writes them, and whether that is a word. -/
def comparisonSigns : List (K × String × Bool) :=
  [(.Eq, "==", false), (.NotEq, "!=", false), (.Lt, "<", false), (.LtE, "<=", false), (.Gt, ">", false), (.GtE, ">=", false),
    (.Is, "is", true), (.IsNot, "is not", true), (.In, "in", true), (.NotIn, "not in", true)]

/-- The text in the color of keywords, if it is a word. -/
def sign (S : Color.Scheme) (word : Bool) (text : String) : Str :=
  if word then S.reset ++ S.code .keyword ++ text.toList ++ S.reset else text.toList

end Mcpyrate
