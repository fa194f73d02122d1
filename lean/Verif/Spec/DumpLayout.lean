/-
Specification for C62: the layout of a dump.
-/
namespace Mcpyrate.Dump

/-- Where a reader of a text is: between string literals; in one, with this quote, or after a backslash in it; or before
the space after a comma. -/
inductive Place where
  | code
  | text (quote : Char)
  | escape (quote : Char)
  | space

/-- The text with a line break after each comma that is not in a string literal, instead of the space after it.  The next
line is indented so that it begins below the character after the innermost bracket that is open.  `opened` has the columns
after the open brackets, `col` is the present column. -/
def aligned : Place → (opened : List Nat) → (col : Nat) → List Char → List Char
  | _, _, _, [] => []
  | .space, o, n, _ :: r => aligned .code o n r
  | .escape q, o, n, c :: r => c :: aligned (.text q) o (n + 1) r
  | .text q, o, n, c :: r =>
    c :: aligned (if c = q then .code else if c = '\\' then .escape q else .text q) o (n + 1) r
  | .code, o, n, c :: r =>
    if c = ',' then ',' :: '\n' :: List.replicate (o.headD 0) ' ' ++ aligned .space o (o.headD 0) r
    else if c = '(' ∨ c = '[' then c :: aligned .code ((n + 1) :: o) (n + 1) r
    else if c = ')' ∨ c = ']' then c :: aligned .code o.tail (n + 1) r
    else if c = '\'' ∨ c = '"' then c :: aligned (.text c) o (n + 1) r
    else c :: aligned .code o (n + 1) r

end Mcpyrate.Dump
