import Verif.Model.Unparse
/-
Model of the unparser with syntax highlighting and debug mode, mcpyrate/unparser.py.  Methods that write no highlighted
text themselves are those of Model/Unparse.lean, with the dispatcher of this file for the parts.
-/
namespace Mcpyrate.Unparse.Color
open Py

/-- The settings of `ColorScheme` that the unparser uses, colorizer.py:119-150. -/
inductive Paint where
  | lineNumber | keyword | exception | builtin | defName | decorator | string | number | nameConstant | macroName
  | invisibleNode | marker | markerClass
  deriving DecidableEq, Repr

/-- The strings that set a terminal color, each with its compound parts joined, and `Style.RESET_ALL`. -/
structure Scheme where
  code : Paint → Str
  reset : Str

/-- The options of `unparse`, and what else the output depends on: the color scheme, if `color` is set; which names are
public builtins, unparser.py:32-37; which names the expander, if given, has macros for; `str(x)` of a `name` that is not a
string; and `is_captured_value`, `is_captured_macro` (quotes.py:413-604, see Model/Captures.lean), as far as the unparser
uses their results. -/
structure Opts where
  debug : Bool
  color : Option Scheme
  isException : Str → Bool
  isBuiltin : Str → Bool
  isbound : Str → Bool
  str : Val → Str
  capturedValue : Val → Except Err (Option Str)
  capturedMacro : Val → Except Err (Option Str)

/-- `self._indent`, `self._except_handler_mode_stack` (`true` is "TryStar"), `self._color_override`, and the options. -/
structure Ctx where
  opts : Opts
  indent : Nat := 0
  modes : List Bool := []
  nocolor : Bool := false

/-- `self.enter()`, unparser.py:167-170: the `:` is written by the caller. -/
def Ctx.enter (c : Ctx) : Ctx := { c with indent := c.indent + 1 }

/-- The scheme, if coloring is not prevented. -/
def Ctx.scheme (c : Ctx) : Option Scheme := if c.nocolor then none else c.opts.color

/-- `setcolor(color)`, `setcolor()`, colorizer.py:36-66. -/
def Scheme.set (S : Scheme) (p : Paint) : Str := S.reset ++ S.code p
def Scheme.clear (S : Scheme) : Str := S.reset

/-- `colorize(text, color)`, colorizer.py:69-95. -/
def colorize (S : Scheme) (p : Paint) (text : Str) : Str := S.set p ++ text ++ S.clear

/-- `self.maybe_colorize(text, color)`, unparser.py:114-120. -/
def paint (c : Ctx) (p : Paint) (text : Str) : Str :=
  match c.scheme with
  | none => text
  | some S => colorize S p text

/-- `self.maybe_colorize_python_keyword(text)`, unparser.py:122-124. -/
def kw (c : Ctx) (text : String) : Str := paint c .keyword (lit text)

/-- `self.maybe_colorize(t.name, color)`, as part of a string: without colors, something that is not a string is a
TypeError; `colorize` formats it. -/
def paintName (c : Ctx) (p : Paint) (v : Val) : R :=
  match c.scheme with
  | none => write v
  | some S => .ok (colorize S p (match v with | .const (.str s) => s.toList | v => c.opts.str v))

/-- `f"{n:5d}"`. -/
def pad5 (n : Int) : Str := List.replicate (5 - (reprInt n).length) ' ' ++ reprInt n

/-- The line number in debug mode, unparser.py:152-160. -/
def label (c : Ctx) (l : Loc) : Str :=
  paint c .lineNumber (match l.lineno with
    | .int n => if n = 0 then lit "L ---- " else lit "L" ++ pad5 n ++ lit " "
    | _ => lit "L ---- ")

/-- `self.fill(text, lineno_node=node)`, unparser.py:145-161; nothing for a node that is not given, or not an AST node. -/
def fill (c : Ctx) (l : Option Loc) (text : Str) : Str :=
  '\n' :: ((if c.opts.debug then (match l with | some l => label c l | none => []) else []) ++
    (List.replicate (4 * c.indent) ' ' ++ text))

/-- The location of an AST node. -/
def nodeLoc : Val → Option Loc
  | .node _ l _ => some l
  | _ => none

abbrev Rec := Ctx → Val → R

/-- The dispatcher in a context, for the methods that do not change the context. -/
def at_ (rec : Rec) (c : Ctx) : Unparse.Rec := fun _ v => rec c v

/-- `self.dispatch(tree)` where `tree` may be a list, unparser.py:178-181. -/
def dispatchAny (rec : Rec) (c : Ctx) : Val → R
  | .list xs => concat (rec c) xs
  | v => rec c v

/-- `self.enter(); self.dispatch(body); self.leave()`. -/
def block (rec : Rec) (c : Ctx) (body : Val) : R := do return ':' :: (← dispatchAny rec c.enter body)

/-- An optional `else` or `finally`, e.g. unparser.py:439-448. -/
def blockIf (rec : Rec) (c : Ctx) (l : Loc) (word : String) (body : Val) : R :=
  opt body fun b => do return fill c (some l) (kw c word) ++ (← block rec c b)

/-! ## Markers and hygienic captures, unparser.py:207-282 -/

/-- `write_astmarker_field_value`, unparser.py:208-215. -/
def markerValue (H : Host) (rec : Rec) (c : Ctx) : Val → R
  | .list xs => concat (rec c) xs
  | .const v => .ok (reprConst H v)
  | v => rec c v

/-- One field in statement mode, unparser.py:249-254. -/
def markerStmtField (H : Host) (rec : Rec) (c : Ctx) (l : Loc) (p : F × Val) : R := do
  return fill c (some l) (lit p.1.text) ++ lit ": " ++ (← markerValue H rec c.enter p.2)

/-- One field in expression mode, unparser.py:262-265. -/
def markerExprField (H : Host) (rec : Rec) (c : Ctx) (p : F × Val) : R := do
  return lit p.1.text ++ lit "=(" ++ (← markerValue H rec c p.2) ++ lit ")"

/-- The fields of a marker, unparser.py:237-265.  Simplified: `_fields` are the fields that are set. -/
def markerFields (H : Host) (rec : Rec) (c : Ctx) (l : Loc) (stmt : Bool) (fs : Fields) : R :=
  match fs with
  | [(.body, b)] => markerValue H rec c b
  | fs =>
    if stmt then concat (markerStmtField H rec c l) fs
    else do return interleave (lit ", ") (← texts (markerExprField H rec c) fs)

/-- `astmarker`, unparser.py:207-268. -/
def astmarker (H : Host) (rec : Rec) (c : Ctx) (l : Loc) (name : String) (fs : Fields) : R :=
  match fs.lookup .body with
  | none => .error .attributeError
  | some b =>
    let header := paint c .marker (lit "$ASTMarker")
    let cls := lit "<" ++ paint c .markerClass name.toList ++ lit ">: "
    if stmtLike b then do return fill c (some l) header ++ cls ++ (← markerFields H rec c.enter l true fs)
    else do return lit "(" ++ header ++ cls ++ (← markerFields H rec c.enter l false fs) ++ lit ")"

/-- `captured_value`, unparser.py:270-275. -/
def capturedValue (c : Ctx) (name : Str) : Str :=
  paint c .marker (lit "$h") ++ paint c .marker (lit "[") ++ name ++ paint c .marker (lit "]")

/-- `captured_macro`, unparser.py:277-282. -/
def capturedMacro (c : Ctx) (name : Str) : Str :=
  paint c .marker (lit "$h") ++ paint c .marker (lit "[") ++ paint c .macroName name ++ paint c .marker (lit "]")

/-! ## Expressions -/

/-- `_Constant`, unparser.py:626-645. -/
def constantText (H : Host) (c : Ctx) (fs : Fields) : R := do
  let kind ← attr .Constant fs .kind
  let v ← attr .Constant fs .value
  let u := if kind = .str "u" then lit "u" else []
  match v with
  | .const .ellipsis => return u ++ lit "..."
  | .const (.int n) => return u ++ paint c .number (replaceInf (reprInt n))
  | .const (.float r) => return u ++ paint c .number (replaceInf r.toList)
  | .const (.complex r) => return u ++ paint c .number (replaceInf r.toList)
  | .const (.str s) => return u ++ paint c .string (reprConst H (.str s))
  | .const (.bytes b) => return u ++ paint c .string (reprConst H (.bytes b))
  | .const k => return u ++ paint c .nameConstant (reprConst H k)
  | _ => .error .unparserError

/-- `_Name`, unparser.py:653-661. -/
def nameText (c : Ctx) (fs : Fields) : R := do
  let x ← write (← attr .Name fs .id)
  if c.opts.isException x then return paint c .exception x
  else if c.opts.isBuiltin x then return paint c .builtin x
  else if c.opts.isbound x then return paint c .macroName x
  else return x

/-- A parenthesised keyword with an optional value: `_Await`, `_Yield`, `_YieldFrom`, unparser.py:393-415. -/
def wordValue (rec : Rec) (c : Ctx) (k : K) (word : String) (fs : Fields) : R := do
  let v ← attr k fs .value
  let x ← opt v fun v => do return ' ' :: (← rec c v)
  return lit "(" ++ kw c word ++ x ++ lit ")"

/-- `_comprehension`, unparser.py:706-715. -/
def comprehension (rec : Rec) (c : Ctx) (fs : Fields) : R := do
  let isAsync ← attr .comprehension fs .is_async
  let a ← rec c (← attr .comprehension fs .target)
  let b ← rec c (← attr .comprehension fs .iter)
  let ifs ← concat (fun x => do return kw c " if " ++ (← rec c x)) (← attrL .comprehension fs .ifs)
  return (if truthy isAsync then kw c " async" else []) ++ kw c " for " ++ a ++ kw c " in " ++ b ++ ifs

/-- `_IfExp`, unparser.py:717-724. -/
def ifExp (rec : Rec) (c : Ctx) (fs : Fields) : R := do
  let a ← rec c (← attr .IfExp fs .body)
  let b ← rec c (← attr .IfExp fs .test)
  let d ← rec c (← attr .IfExp fs .orelse)
  return lit "(" ++ a ++ kw c " if " ++ b ++ kw c " else " ++ d ++ lit ")"

/-- `_UnaryOp`, unparser.py:761-770. -/
def unaryOp (rec : Rec) (c : Ctx) (fs : Fields) : R := do
  let op ← attr .UnaryOp fs .op
  let o ← operator unop op
  let x ← rec c (← attr .UnaryOp fs .operand)
  return lit "(" ++ (if op.isK .Not then paint c .keyword o ++ lit " " else o) ++ x ++ lit ")"

/-- The operators that are words, unparser.py:789. -/
def isWord (op : Val) : Bool := op.isK .Is || op.isK .IsNot || op.isK .In || op.isK .NotIn

/-- One operator with what it compares to, unparser.py:787-793. -/
def comparison (rec : Rec) (c : Ctx) (p : Val × Val) : R := do
  let o ← operator cmpop p.1
  let b ← rec c p.2
  return lit " " ++ (if isWord p.1 then paint c .keyword o else o) ++ lit " " ++ b

/-- `_Compare`, unparser.py:784-794. -/
def compare (rec : Rec) (c : Ctx) (fs : Fields) : R := do
  let a ← rec c (← attr .Compare fs .left)
  let ops ← attrL .Compare fs .ops
  let cs ← attrL .Compare fs .comparators
  return lit "(" ++ a ++ (← concat (comparison rec c) (ops.zip cs)) ++ lit ")"

/-- `_BoolOp`, unparser.py:797-802. -/
def boolOp (rec : Rec) (c : Ctx) (fs : Fields) : R := do
  let o ← operator boolop (← attr .BoolOp fs .op)
  let vs ← attrL .BoolOp fs .values
  return lit "(" ++ interleave (lit " " ++ paint c .keyword o ++ lit " ") (← texts (rec c) vs) ++ lit ")"

/-- The conversion of a formatted value, unparser.py:847-856. -/
def conversion (c : Ctx) : Val → R
  | .const (.int 115) => .ok (paint c .string (lit "!s"))
  | .const (.int 114) => .ok (paint c .string (lit "!r"))
  | .const (.int 97) => .ok (paint c .string (lit "!a"))
  | .const (.int (-1)) => .ok []
  | _ => .error .valueError

/-- A string snippet of an f-string, unparser.py:872-873. -/
def snippet (c : Ctx) : Val → R
  | .const (.str s) => .ok (paint c .string (fescape s.toList))
  | _ => .error .attributeError

/-- `_FormattedValue_helper` and `_JoinedStr_helper`, unparser.py:842-879; the format spec is nested, the number bounds
how deeply. -/
def joined (rec : Rec) (c : Ctx) : Nat → Val → R
  | 0, _ => .error .recursionError
  | n + 1, t => do concat (piece n) (← elems (← attrV t .values))
where
  /-- A piece of an f-string. -/
  piece (n : Nat) (v : Val) : R :=
    match v with
    | .node (.py .Constant) _ fs => do snippet c (← attr .Constant fs .value)
    | .node (.py .FormattedValue) _ fs => formatted n fs
    | _ => .error .valueError
  /-- A formatted value, without the quotes. -/
  formatted (n : Nat) (fs : Fields) : R := do
    let x ← rec c (← attr .FormattedValue fs .value)
    let conv ← conversion c (← attr .FormattedValue fs .conversion)
    let spec ← opt (← attr .FormattedValue fs .format_spec) fun v => do
      return paint c .string (lit ":") ++ (← joined rec c n v)
    return paint c .string (lit "{") ++ x ++ conv ++ spec ++ paint c .string (lit "}")

/-- `_JoinedStr`, unparser.py:862-865. -/
def joinedStr (rec : Rec) (c : Ctx) (n : Nat) (t : Val) : R := do
  return lit "f" ++ paint c .string (lit "'") ++ (← joined rec c n t) ++ paint c .string (lit "'")

/-- `_FormattedValue`, unparser.py:834-840. -/
def formattedValue (rec : Rec) (c : Ctx) (n : Nat) (fs : Fields) : R := do
  return lit "f'" ++ (← joined.formatted rec c n fs) ++ lit "'"

/-- `_Lambda`, unparser.py:1006-1021. -/
def lambda (rec : Rec) (c : Ctx) (fs : Fields) : R := do
  let a ← attr .Lambda fs .args
  let sp ← takesArguments a
  let x ← rec c a
  let b ← rec c (← attr .Lambda fs .body)
  return lit "(" ++ kw c "lambda" ++ (if sp then lit " " else []) ++ x ++ lit ": " ++ b ++ lit ")"

/-- `_alias`, unparser.py:1023-1026. -/
def alias (c : Ctx) (fs : Fields) : R := do
  let a ← write (← attr .alias fs .name)
  return a ++ (← opt (← attr .alias fs .asname) fun v => do return kw c " as " ++ (← write v))

/-- `_withitem`, unparser.py:1028-1032. -/
def withitem (rec : Rec) (c : Ctx) (fs : Fields) : R := do
  let a ← rec c (← attr .withitem fs .context_expr)
  return a ++ (← opt (← attr .withitem fs .optional_vars) fun v => do return kw c " as " ++ (← rec c v))

/-! ## Statements -/

/-- `toplevelnode`, unparser.py:294-305: iterating over a single expression is a TypeError. -/
def toplevel (rec : Rec) (c : Ctx) (l : Loc) (k : K) (name : String) (fs : Fields) : R :=
  if c.opts.debug then do
    return fill c (some l) (paint c .invisibleNode (lit "$" ++ lit name)) ++ lit ":" ++
      (← concat (rec c.enter) (← attrL k fs .body))
  else do concat (rec c) (← attrL k fs .body)

/-- `_Expr`, unparser.py:308-318. -/
def exprStmt (rec : Rec) (c : Ctx) (l : Loc) (fs : Fields) : R :=
  if c.opts.debug then do
    return fill c (some l) (paint c .invisibleNode (lit "$Expr")) ++ lit ": " ++ (← rec c.enter (← attr .Expr fs .value))
  else do return fill c none [] ++ (← rec c (← attr .Expr fs .value))

/-- `_Import`, `_Delete`: a keyword with the items, unparser.py:320-322, 374-376. -/
def wordList (rec : Rec) (c : Ctx) (l : Loc) (word : String) (xs : List Val) : R := do
  return fill c (some l) (kw c word) ++ interleave (lit ", ") (← texts (rec c) xs)

/-- `_ImportFrom`, unparser.py:324-330. -/
def importFrom (rec : Rec) (c : Ctx) (l : Loc) (fs : Fields) : R := do
  let d ← dots (← attr .ImportFrom fs .level)
  let m ← opt (← attr .ImportFrom fs .module_) write
  let ns ← texts (rec c) (← attrL .ImportFrom fs .names)
  return fill c (some l) (kw c "from ") ++ d ++ m ++ kw c " import " ++ interleave (lit ", ") ns

/-- `_Assign`, unparser.py:332-337. -/
def assign (rec : Rec) (c : Ctx) (l : Loc) (fs : Fields) : R := do
  let ts ← concat (fun x => do return (← rec c x) ++ lit " = ") (← attrL .Assign fs .targets)
  return fill c (some l) [] ++ ts ++ (← rec c (← attr .Assign fs .value))

/-- `_AnnAssign`, unparser.py:339-350. -/
def annAssign (rec : Rec) (c : Ctx) (l : Loc) (fs : Fields) : R := do
  let simple ← attr .AnnAssign fs .simple
  let a ← rec c (← attr .AnnAssign fs .target)
  let b ← rec c (← attr .AnnAssign fs .annotation)
  let v ← opt (← attr .AnnAssign fs .value) fun v => do return lit " = " ++ (← rec c v)
  return fill c (some l) [] ++ (if truthy simple then a else lit "(" ++ a ++ lit ")") ++ lit ": " ++ b ++ v

/-- `_AugAssign`, unparser.py:353-357. -/
def augAssign (rec : Rec) (c : Ctx) (l : Loc) (fs : Fields) : R := do
  let a ← rec c (← attr .AugAssign fs .target)
  let o ← operator binop (← attr .AugAssign fs .op)
  let b ← rec c (← attr .AugAssign fs .value)
  return fill c (some l) [] ++ a ++ lit " " ++ o ++ lit "= " ++ b

/-- `_Return`, unparser.py:359-363. -/
def returnStmt (rec : Rec) (c : Ctx) (l : Loc) (fs : Fields) : R := do
  return fill c (some l) (kw c "return") ++ (← opt (← attr .Return fs .value) fun v => do return ' ' :: (← rec c v))

/-- `_Assert`, unparser.py:378-383. -/
def assertStmt (rec : Rec) (c : Ctx) (l : Loc) (fs : Fields) : R := do
  let a ← rec c (← attr .Assert fs .test)
  return fill c (some l) (kw c "assert ") ++ a ++
    (← opt (← attr .Assert fs .msg) fun v => do return lit ", " ++ (← rec c v))

/-- `_Global`, `_Nonlocal`, unparser.py:385-391. -/
def nameList (c : Ctx) (l : Loc) (word : String) (xs : List Val) : R := do
  return fill c (some l) (kw c word) ++ interleave (lit ", ") (← texts write xs)

/-- `_Raise`, unparser.py:417-426. -/
def raiseStmt (rec : Rec) (c : Ctx) (l : Loc) (fs : Fields) : R := do
  let e ← attr .Raise fs .exc
  let cause ← attr .Raise fs .cause
  if truthy e then do
    let a ← rec c e
    return fill c (some l) (kw c "raise") ++ lit " " ++ a ++ (← opt cause fun v => do return kw c " from " ++ (← rec c v))
  else if truthy cause then .error .assertionError
  else return fill c (some l) (kw c "raise")

/-- `__Try_helper`, unparser.py:428-448. -/
def tryStmt (rec : Rec) (c : Ctx) (l : Loc) (star : Bool) (k : K) (fs : Fields) : R := do
  let b ← block rec c (← attr k fs .body)
  let hs ← concat (rec { c with modes := star :: c.modes }) (← attrL k fs .handlers)
  let e ← blockIf rec c l "else" (← attr k fs .orelse)
  let f ← blockIf rec c l "finally" (← attr k fs .finalbody)
  return fill c (some l) (kw c "try") ++ b ++ hs ++ e ++ f

/-- `_ExceptHandler`, unparser.py:456-472. -/
def exceptHandler (rec : Rec) (c : Ctx) (l : Loc) (fs : Fields) : R :=
  match c.modes with
  | [] => .error .indexError
  | star :: _ => do
    let ty ← opt (← attr .ExceptHandler fs .type_) fun v => do return ' ' :: (← rec c v)
    let n ← opt (← attr .ExceptHandler fs .name) fun v => do return kw c " as " ++ (← write v)
    let b ← block rec c (← attr .ExceptHandler fs .body)
    return fill c (some l) (if star then kw c "except*" else kw c "except") ++ ty ++ n ++ b

/-- One decorator, unparser.py:477-487, 523-533: its text is written without colors of its own, in the color for
decorators (`self.color`, whether or not coloring is prevented). -/
def decorator (rec : Rec) (c : Ctx) (d : Val) : R := do
  let x ← rec { c with nocolor := true } d
  return fill c (nodeLoc d) (paint c .decorator (lit "@")) ++
    (match c.opts.color with | none => [] | some S => S.set .decorator) ++ x ++
    (match c.opts.color with | none => [] | some S => S.clear)

/-- `_ClassDef`, unparser.py:474-512.  (Type parameters are not written.) -/
def classDef (rec : Rec) (c : Ctx) (l : Loc) (fs : Fields) : R := do
  let ds ← concat (decorator rec c) (← attrL .ClassDef fs .decorator_list)
  let n ← paintName c .defName (← attr .ClassDef fs .name)
  let bases ← attrL .ClassDef fs .bases
  let kws ← attrL .ClassDef fs .keywords
  let a ← callArgs (at_ rec c) {} bases kws
  let b ← block rec c (← attr .ClassDef fs .body)
  return '\n' :: ds ++ fill c (some l) (kw c "class " ++ n) ++
    (if bases.isEmpty && kws.isEmpty then [] else lit "(" ++ a ++ lit ")") ++ b

/-- `__FunctionDef_helper`, unparser.py:520-545.  (Type parameters are not written.) -/
def functionDef (rec : Rec) (c : Ctx) (l : Loc) (word : String) (k : K) (fs : Fields) : R := do
  let ds ← concat (decorator rec c) (← attrL k fs .decorator_list)
  let n ← paintName c .defName (← attr k fs .name)
  let a ← rec c (← attr k fs .args)
  let r ← opt (← attr k fs .returns) fun v => do return lit " -> " ++ (← rec c v)
  let b ← block rec c (← attr k fs .body)
  return '\n' :: ds ++ fill c (some l) (kw c word ++ lit " " ++ n ++ lit "(") ++ a ++ lit ")" ++ r ++ b

/-- `__For_helper`, unparser.py:554-566. -/
def forStmt (rec : Rec) (c : Ctx) (l : Loc) (word : String) (k : K) (fs : Fields) : R := do
  let a ← rec c (← attr k fs .target)
  let i ← rec c (← attr k fs .iter)
  let b ← block rec c (← attr k fs .body)
  let e ← blockIf rec c l "else" (← attr k fs .orelse)
  return fill c (some l) (kw c word) ++ a ++ kw c " in " ++ i ++ b ++ e

/-- `_If`, unparser.py:569-589: an `else` with nothing but an `if` is written `elif`; the number bounds how often. -/
def ifStmt (rec : Rec) (c : Ctx) (word : String) : Nat → Loc → Fields → R
  | 0, _, _ => .error .recursionError
  | n + 1, l, fs => do
    let t ← rec c (← attr .If fs .test)
    let b ← block rec c (← attr .If fs .body)
    match ← attr .If fs .orelse with
    | .list [.node (.py .If) l' gs] => return fill c (some l) (kw c word) ++ t ++ b ++ (← ifStmt rec c "elif " n l' gs)
    | e => return fill c (some l) (kw c word) ++ t ++ b ++ (← blockIf rec c l "else" e)

/-- `_While`, unparser.py:591-601. -/
def whileStmt (rec : Rec) (c : Ctx) (l : Loc) (fs : Fields) : R := do
  let t ← rec c (← attr .While fs .test)
  let b ← block rec c (← attr .While fs .body)
  return fill c (some l) (kw c "while ") ++ t ++ b ++ (← blockIf rec c l "else" (← attr .While fs .orelse))

/-- `_With`, `_AsyncWith`, unparser.py:603-616. -/
def withStmt (rec : Rec) (c : Ctx) (l : Loc) (word : String) (k : K) (fs : Fields) : R := do
  let is ← texts (rec c) (← attrL k fs .items)
  return fill c (some l) (kw c word) ++ interleave (lit ", ") is ++ (← block rec c (← attr k fs .body))

/-! ## Pattern matching -/

/-- `_Match`, unparser.py:1044-1050. -/
def matchStmt (rec : Rec) (c : Ctx) (l : Loc) (fs : Fields) : R := do
  let s ← rec c (← attr .Match fs .subject)
  let cs ← concat (rec c.enter) (← attrL .Match fs .cases)
  return fill c (some l) (kw c "match ") ++ s ++ lit ":" ++ cs

/-- `_match_case`, unparser.py:1052-1065. -/
def matchCase (rec : Rec) (c : Ctx) (l : Loc) (fs : Fields) : R := do
  let p ← attr .match_case fs .pattern
  let g ← attr .match_case fs .guard
  let x ← rec c p
  let y ← if g.isNone then pure [] else do pure (lit " if " ++ (← rec c g))
  let b ← block rec c (← attr .match_case fs .body)
  return fill c (some l) (kw c "case ") ++ (if g.isNone then x else orParens p x) ++ y ++ b

/-- `_MatchSingleton`, unparser.py:1070-1071. -/
def matchSingleton (H : Host) (c : Ctx) (fs : Fields) : R := do
  match ← attr .MatchSingleton fs .value with
  | .const v => return paint c .nameConstant (reprConst H v)
  | _ => .error .typeError                            -- not modelled: `repr` of other objects

/-- `_MatchStar`, unparser.py:1078-1083. -/
def matchStar (c : Ctx) (fs : Fields) : R := do
  let n ← attr .MatchStar fs .name
  if n.isNone then return lit "*" ++ kw c "_" else return '*' :: (← write n)

/-- `_MatchAs`, unparser.py:1117-1132. -/
def matchAs (rec : Rec) (c : Ctx) (fs : Fields) : R := do
  let n ← attr .MatchAs fs .name
  let p ← attr .MatchAs fs .pattern
  if n.isNone then
    if p.isNone then return kw c "_" else .error .assertionError
  else if p.isNone then write n
  else do
    let x ← rec c p
    return orParens p x ++ lit " as " ++ (← write n)

/-- `_TypeAlias`, unparser.py:1143-1152. -/
def typeAlias (rec : Rec) (c : Ctx) (l : Loc) (fs : Fields) : R := do
  let n ← rec c (← attr .TypeAlias fs .name)
  let ps ← attrL .TypeAlias fs .type_params
  let xs ← texts (rec c) ps
  let v ← rec c (← attr .TypeAlias fs .value)
  return fill c (some l) [] ++ kw c "type " ++ n ++
    (if ps.isEmpty then [] else lit "[" ++ interleave (lit ", ") xs ++ lit "]") ++ lit " = " ++ v

/-! ## The dispatcher -/

/-- The methods `_T`, by class; an UnparserError if there is no such method, unparser.py:191-195. -/
def method (H : Host) (rec : Rec) (n : Nat) (c : Ctx) (t : Val) (l : Loc) (fs : Fields) : K → R
  | .Module => toplevel rec c l .Module "Module" fs
  | .Interactive => toplevel rec c l .Interactive "Interactive" fs
  | .Expression => toplevel rec c l .Expression "Expression" fs
  | .Expr => exprStmt rec c l fs
  | .Import => do wordList rec c l "import " (← attrL .Import fs .names)
  | .ImportFrom => importFrom rec c l fs
  | .Assign => assign rec c l fs
  | .AnnAssign => annAssign rec c l fs
  | .AugAssign => augAssign rec c l fs
  | .Return => returnStmt rec c l fs
  | .Pass => .ok (fill c (some l) (kw c "pass"))
  | .Break => .ok (fill c (some l) (kw c "break"))
  | .Continue => .ok (fill c (some l) (kw c "continue"))
  | .Delete => do wordList rec c l "del " (← attrL .Delete fs .targets)
  | .Assert => assertStmt rec c l fs
  | .Global => do nameList c l "global " (← attrL .Global fs .names)
  | .Nonlocal => do nameList c l "nonlocal " (← attrL .Nonlocal fs .names)
  | .Await => wordValue rec c .Await "await" fs
  | .Yield => wordValue rec c .Yield "yield" fs
  | .YieldFrom => wordValue rec c .YieldFrom "yield from" fs
  | .Raise => raiseStmt rec c l fs
  | .Try => tryStmt rec c l false .Try fs
  | .TryStar => tryStmt rec c l true .TryStar fs
  | .ExceptHandler => exceptHandler rec c l fs
  | .ClassDef => classDef rec c l fs
  | .FunctionDef => functionDef rec c l "def" .FunctionDef fs
  | .AsyncFunctionDef => functionDef rec c l "async def" .AsyncFunctionDef fs
  | .For => forStmt rec c l "for " .For fs
  | .AsyncFor => forStmt rec c l "async for " .AsyncFor fs
  | .If => ifStmt rec c "if " n l fs
  | .While => whileStmt rec c l fs
  | .With => withStmt rec c l "with " .With fs
  | .AsyncWith => withStmt rec c l "async with " .AsyncWith fs
  | .NamedExpr => namedExpr (at_ rec c) {} fs
  | .Constant => constantText H c fs
  | .Name => nameText c fs
  | .List => do display (at_ rec c) {} "[" "]" (← attrL .List fs .elts)
  | .ListComp => comp (at_ rec c) {} .ListComp "[" "]" fs
  | .GeneratorExp => comp (at_ rec c) {} .GeneratorExp "(" ")" fs
  | .SetComp => comp (at_ rec c) {} .SetComp "{" "}" fs
  | .DictComp => dictComp (at_ rec c) {} fs
  | .comprehension => comprehension rec c fs
  | .IfExp => ifExp rec c fs
  | .Set => do
    let es ← attrL .Set fs .elts
    if es.isEmpty then .error .assertionError else display (at_ rec c) {} "{" "}" es
  | .Dict => dict (at_ rec c) {} fs
  | .Tuple => tuple (at_ rec c) {} fs
  | .UnaryOp => unaryOp rec c fs
  | .BinOp => binOp (at_ rec c) {} fs
  | .Compare => compare rec c fs
  | .BoolOp => boolOp rec c fs
  | .Attribute => attributeText (at_ rec c) {} fs
  | .Call => call (at_ rec c) {} fs
  | .FormattedValue => formattedValue rec c n fs
  | .JoinedStr => joinedStr rec c n t
  | .Subscript => subscript (at_ rec c) {} fs
  | .Starred => starred (at_ rec c) {} fs
  | .Slice => slice (at_ rec c) {} fs
  | .arg => argText (at_ rec c) {} fs
  | .arguments => arguments (at_ rec c) {} fs
  | .keyword => keyword (at_ rec c) {} fs
  | .Lambda => lambda rec c fs
  | .alias => alias c fs
  | .withitem => withitem rec c fs
  | .Match => matchStmt rec c l fs
  | .match_case => matchCase rec c l fs
  | .MatchValue => do rec c (← attr .MatchValue fs .value)
  | .MatchSingleton => matchSingleton H c fs
  | .MatchSequence => do display (at_ rec c) {} "[" "]" (← attrL .MatchSequence fs .patterns)
  | .MatchStar => matchStar c fs
  | .MatchMapping => matchMapping (at_ rec c) {} fs
  | .MatchClass => matchClass (at_ rec c) {} fs
  | .MatchAs => matchAs rec c fs
  | .MatchOr => matchOr (at_ rec c) {} fs
  | .TypeAlias => typeAlias rec c l fs
  | .TypeVar => typeVar (at_ rec c) {} fs
  | .ParamSpec => starName .ParamSpec "**" fs
  | .TypeVarTuple => starName .TypeVarTuple "*" fs
  | _ => .error .unparserError

/-- `dispatch` on what is not a hygienic capture, unparser.py:188-195. -/
def dispatchNode (H : Host) (rec : Rec) (n : Nat) (c : Ctx) (t : Val) : R :=
  match t with
  | .node (.py k) l fs => method H rec n c t l fs k
  | .node (.marker m) l fs => astmarker H rec c l m fs
  | .list xs => concat (rec c) xs
  | .const _ => .error .unparserError

/-- The name of a hygienic capture, and whether it is one of a macro, unparser.py:182-187: only asked for in debug mode, and
for what is not a list. -/
def captured (o : Opts) (t : Val) : Except Err (Option (Str × Bool)) :=
  match t with
  | .list _ => .ok none
  | t =>
    if o.debug then do
      match ← o.capturedValue t with
      | some x => return some (x, false)
      | none =>
        match ← o.capturedMacro t with
        | some x => return some (x, true)
        | none => return none
    else .ok none

/-- `dispatch`, unparser.py:176-195; the number is the recursion limit. -/
def dispatch (H : Host) : Nat → Rec
  | 0, _, _ => .error .recursionError
  | n + 1, c, t => do
    match ← captured c.opts t with
    | some (x, false) => return capturedValue c x
    | some (x, true) => return capturedMacro c x
    | none => dispatchNode H (dispatch H n) n c t

/-- `unparse(tree, debug=…, color=…, expander=…)`, unparser.py:1172-1198, and `Unparser.__init__`, unparser.py:103-110.  An
UnparserError is raised anew, with a dump of the tree in the message. -/
def unparse (H : Host) (o : Opts) (limit : Nat) (t : Val) : R := do
  let s ← dispatchAny (dispatch H limit) { opts := o } t
  return Dialects.strip (s ++ lit "\n")

end Mcpyrate.Unparse.Color
