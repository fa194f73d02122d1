import Verif.Model.Unparse
/-
Source locations in messages: `get_lineno`, `format_location`, `format_context`, utils.py:200-252 and 269-281, and
`SourceLocationInfoValidator`, debug.py:212-266.
-/
namespace Mcpyrate.SourceInfo
open Py

abbrev Str := List Char

def lit (s : String) : Str := s.toList

mutual
/-- `get_lineno(tree)`, utils.py:200-226.  (The field `lineno` of a `TypeIgnore` is not considered; trees have it only if
parsed with type comments.) -/
def getLineno : Val → Option Int
  | .node c l fs =>
    match l.lineno with
    | .int n => some n
    | .none => none
    | .missing =>
      match c with
      | .marker _ => if fs.any (·.1 = F.body) then inBody fs else inFields fs
      | .py _ => inFields fs
  | .list xs => inItems xs
  | .const _ => none
/-- `get_lineno(tree.body)`, utils.py:213. -/
def inBody : List (F × Val) → Option Int
  | [] => none
  | (f, v) :: r => if f = .body then getLineno v else inBody r
/-- The loop over the fields, utils.py:217-220; `if lineno:` is false for `None` and for 0. -/
def inFields : List (F × Val) → Option Int
  | [] => none
  | (_, v) :: r =>
    match getLineno v with
    | some n => if n = 0 then inFields r else some n
    | none => inFields r
/-- The loop over the items, utils.py:222-225. -/
def inItems : List Val → Option Int
  | [] => none
  | v :: r =>
    match getLineno v with
    | some n => if n = 0 then inItems r else some n
    | none => inItems r
end

/-- What `f"{…}"` writes for a line number or `None`. -/
def lineText : Option Int → Str
  | none => lit "None"
  | some n => Unparse.reprInt n

/-- `colorize(text, color)`, colorizer.py:69-95: `set` is the code of the color, `reset` that of `Style.RESET_ALL`. -/
def colorize (reset set text : Str) : Str := reset ++ set ++ text ++ reset

/-- `format_location(filename, tree, sourcecode)`, utils.py:229-252; `None` as source code is the same as `""`. -/
def formatLocation (reset set filename : Str) (tree : Val) (sourcecode : Str) : Str :=
  colorize reset set filename ++ lit ":" ++ lineText (getLineno tree) ++ lit ":" ++
    if sourcecode.isEmpty then [] else (if '\n' ∈ sourcecode then lit "\n" else lit " ") ++ sourcecode

/-- `text.split("\n")`. -/
def splitLines : Str → List Str
  | [] => [[]]
  | c :: r =>
    if c = '\n' then [] :: splitLines r
    else match splitLines r with
      | [] => [[c]]                              -- does not occur
      | l :: ls => (c :: l) :: ls

/-- `"\n".join(lines)`. -/
def joinLines : List Str → Str
  | [] => []
  | [l] => l
  | l :: ls => l ++ '\n' :: joinLines ls

/-- `format_context(tree, n=n)`, utils.py:269-281, from the text that the unparser gives.  (`n` is not negative.) -/
def formatContext (reset grey : Str) (n : Nat) (text : Str) : Str :=
  let lines := splitLines text
  joinLines (lines.take n) ++ if n < lines.length then lit "\n" ++ colorize reset grey (lit "...") else []

/-- `hasattr(tree, x)` for nodes: location attributes and fields.  `end_lineno` and `end_col_offset`, and optional fields,
are `None` in the class if the node does not have its own.  (Methods and the like are left out.) -/
def hasattr (c : Cls) (l : Loc) (fs : Fields) (x : String) : Bool :=
  match x with
  | "lineno" => l.lineno ≠ .missing || fs.any (·.1 = .lineno)      -- the latter for `TypeIgnore`
  | "col_offset" => l.colOffset ≠ .missing
  | "end_lineno" => l.endLineno ≠ .missing || c.hasLoc
  | "end_col_offset" => l.endColOffset ≠ .missing || c.hasLoc
  | x =>
    match F.ofText x with
    | some f => fs.any (·.1 = f) || (match c with | .py k => k.isOptional f | .marker _ => false)
    | none => false

/-- What is collected: the node, its source code, the missing fields. -/
structure Item where
  node : Val
  code : Str
  missing : List String

/-- `SourceLocationInfoValidator(ignore=…, check_fields=…)`; `ignore` contains objects, here the numbers of nodes in the
order in which they are visited; `code` is `format_context`. -/
structure Validator where
  ignore : Nat → Bool
  fields : List String
  code : Val → Str

/-- `examine` without the visit of the children, debug.py:258-265. -/
def Validator.check (v : Validator) (i : Nat) (c : Cls) (l : Loc) (fs : Fields) : List Item :=
  if v.ignore i then []
  else
    let missing := v.fields.filter fun x => !hasattr c l fs x
    if missing.isEmpty then [] else [⟨.node c l fs, v.code (.node c l fs), missing⟩]

mutual
/-- `examine(tree)`, debug.py:258-266; `i` is the number of the node.  The result has the number of the next one. -/
def Validator.examine (v : Validator) (i : Nat) : Val → List Item × Nat
  | .node c l fs =>
    let r := Validator.fields' v (i + 1) fs
    (v.check i c l fs ++ r.1, r.2)
  | _ => ([], i)
/-- `ast.NodeVisitor.generic_visit`: the fields. -/
def Validator.fields' (v : Validator) (i : Nat) : List (F × Val) → List Item × Nat
  | [] => ([], i)
  | (_, .node c l fs) :: r =>
    let a := Validator.examine v i (.node c l fs)
    let b := Validator.fields' v a.2 r
    (a.1 ++ b.1, b.2)
  | (_, .list xs) :: r =>
    let a := Validator.items v i xs
    let b := Validator.fields' v a.2 r
    (a.1 ++ b.1, b.2)
  | (_, .const _) :: r => Validator.fields' v i r
/-- The items of a list in a field. -/
def Validator.items (v : Validator) (i : Nat) : List Val → List Item × Nat
  | [] => ([], i)
  | .node c l fs :: r =>
    let a := Validator.examine v i (.node c l fs)
    let b := Validator.items v a.2 r
    (a.1 ++ b.1, b.2)
  | .list _ :: r => Validator.items v i r
  | .const _ :: r => Validator.items v i r
end

/-- `visit(tree)`, walkers.py:138-151, then `collected`, for a node or a list of nodes; for anything else `generic_visit`
raises AttributeError.  (A list inside of a list is left out, it is visited as well.) -/
def Validator.run (v : Validator) : Val → Except Err (List Item)
  | .node c l fs => .ok (v.examine 0 (.node c l fs)).1
  | .list xs => if xs.all Val.isAST then .ok (v.items 0 xs).1 else .error .attributeError
  | .const _ => .error .attributeError

end Mcpyrate.SourceInfo
