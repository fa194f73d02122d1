import Verif.Py.Fields
import Verif.Py.Err
import Verif.Model.FutureImports
import Verif.Model.DialectSource
/-
Model of the unparser, mcpyrate/unparser.py, without colors and without the debug mode (for these see UnparseColor.lean).
Text is a list of characters.

Simplified: a field that should hold a list but holds something else is a TypeError (a string would be iterated over,
and then be an error).
-/
namespace Mcpyrate.Unparse
open Py

abbrev Str := List Char

/-- A piece of text that the unparser writes. -/
abbrev lit (s : String) : Str := s.toList

abbrev R := Except Err Str

/-! ## `repr` of constants -/

/-- What the unparser needs to know of Python: which characters are printable (`str.isprintable`; only asked for
characters outside of ASCII). -/
structure Host where
  printable : Char → Bool

/-- A digit of a hexadecimal number. -/
def hexDigit (n : Nat) : Char := "0123456789abcdef".toList.getD n '0'

/-- A number in base 16, with the given number of digits. -/
def hex : Nat → Nat → Str
  | 0, _ => []
  | k + 1, n => hex k (n / 16) ++ [hexDigit (n % 16)]

/-- The decimal digits of a number, in front of the given text; `fuel` exceeds the number of digits.  Python's limit on
the length of decimal numbers (`sys.set_int_max_str_digits`) is left out. -/
def decimalAux : Nat → Nat → Str → Str
  | 0, _, acc => acc
  | fuel + 1, n, acc =>
    if n < 10 then Char.ofNat (48 + n) :: acc else decimalAux fuel (n / 10) (Char.ofNat (48 + n % 10) :: acc)

def decimal (n : Nat) : Str := decimalAux (n + 1) n []

/-- `repr` of an `int`. -/
def reprInt : Int → Str
  | .ofNat n => decimal n
  | .negSucc n => '-' :: decimal (n + 1)

/-- The character in a string literal with this quote, as `repr` shows it.  (Lone surrogates are not represented.) -/
def escapeChar (H : Host) (quote : Char) (c : Char) : Str :=
  if c = quote ∨ c = '\\' then ['\\', c]
  else if c = '\t' then lit "\\t"
  else if c = '\n' then lit "\\n"
  else if c = '\r' then lit "\\r"
  else if c.toNat < 32 ∨ c.toNat = 127 then lit "\\x" ++ hex 2 c.toNat
  else if c.toNat < 127 then [c]
  else if H.printable c then [c]
  else if c.toNat < 256 then lit "\\x" ++ hex 2 c.toNat
  else if c.toNat < 65536 then lit "\\u" ++ hex 4 c.toNat
  else lit "\\U" ++ hex 8 c.toNat

/-- The quote that `repr` uses. -/
def quoteFor (single double : Bool) : Char := if single && !double then '"' else '\''

/-- `repr` of a `str`. -/
def reprStr (H : Host) (s : Str) : Str :=
  let q := quoteFor (s.contains '\'') (s.contains '"')
  q :: s.flatMap (escapeChar H q) ++ [q]

/-- A byte in a bytes literal with this quote, as `repr` shows it. -/
def escapeByte (quote : Char) (b : Nat) : Str :=
  if b = quote.toNat ∨ b = 92 then ['\\', Char.ofNat b]
  else if b = 9 then lit "\\t"
  else if b = 10 then lit "\\n"
  else if b = 13 then lit "\\r"
  else if b < 32 ∨ 127 ≤ b then lit "\\x" ++ hex 2 b
  else [Char.ofNat b]

/-- `repr` of a `bytes`. -/
def reprBytes (b : List Nat) : Str :=
  let q := quoteFor (b.contains 39) (b.contains 34)
  'b' :: q :: b.flatMap (escapeByte q) ++ [q]

/-- `.replace("inf", INFSTR)`, unparser.py:29: infinity is written as a number that overflows. -/
def replaceInf : Str → Str
  | 'i' :: 'n' :: 'f' :: r => lit "1e309" ++ replaceInf r
  | c :: r => c :: replaceInf r
  | [] => []

/-- `repr` of a constant. -/
def reprConst (H : Host) : Const → Str
  | .none => lit "None"
  | .bool true => lit "True"
  | .bool false => lit "False"
  | .int n => reprInt n
  | .str s => reprStr H s.toList
  | .bytes b => reprBytes b
  | .float r => r.toList
  | .complex r => r.toList
  | .ellipsis => lit "Ellipsis"

/-! ## Fields -/

/-- `t.f`. -/
def attr (k : K) (fs : Fields) (f : F) : Except Err Val :=
  match fs.lookup f with
  | some v => .ok v
  | none => if k.isOptional f then .ok .none else .error .attributeError

/-- `t.f` of any value. -/
def attrV (t : Val) (f : F) : Except Err Val :=
  match t with
  | .node (.py k) _ fs => attr k fs f
  | .node (.marker _) _ fs =>
    match fs.lookup f with
    | some v => .ok v
    | none => .error .attributeError
  | _ => .error .attributeError

/-- `bool(x)`. -/
def truthy : Val → Bool
  | .const c => FutureImports.truthy c
  | .list xs => !xs.isEmpty
  | .node .. => true

/-- `self.write(x)`, unparser.py:163-165: writing something that is not a string is a TypeError. -/
def write : Val → R
  | .const (.str s) => .ok s.toList
  | _ => .error .typeError

/-- `iter(x)`, for a list. -/
def elems : Val → Except Err (List Val)
  | .list xs => .ok xs
  | _ => .error .typeError

def attrL (k : K) (fs : Fields) (f : F) : Except Err (List Val) := do elems (← attr k fs f)

/-- `interleave`, unparser.py:43-53, on the texts of the items. -/
def interleave (sep : Str) : List Str → Str
  | [] => []
  | [x] => x
  | x :: y :: r => x ++ sep ++ interleave sep (y :: r)

/-- The texts of all the items, in order. -/
def texts {α : Type} (f : α → R) : List α → Except Err (List Str)
  | [] => .ok []
  | x :: xs => do
    let y ← f x
    return y :: (← texts f xs)

/-- The texts of all the items, one after the other. -/
def concat {α : Type} (f : α → R) (xs : List α) : R := do return (← texts f xs).flatten

/-- `self._indent`, and `self._except_handler_mode_stack`: `true` is "TryStar". -/
structure Ctx where
  indent : Nat := 0
  modes : List Bool := []

/-- `self.enter()` … `self.leave()`, unparser.py:167-174: the `:` is written by the caller. -/
def Ctx.enter (c : Ctx) : Ctx := { c with indent := c.indent + 1 }

/-- `self.fill(text)`, unparser.py:145-161. -/
def fill (c : Ctx) (text : Str) : Str := '\n' :: (List.replicate (4 * c.indent) ' ' ++ text)

abbrev Rec := Ctx → Val → R

/-- The text for an optional child: nothing if it is falsy. -/
def opt (v : Val) (f : Val → R) : R := if truthy v then f v else .ok []

/-- `self.dispatch(tree)` where `tree` may be a list, unparser.py:178-181. -/
def dispatchAny (rec : Rec) (c : Ctx) : Val → R
  | .list xs => concat (rec c) xs
  | v => rec c v

/-- `self.enter(); self.dispatch(body); self.leave()`. -/
def block (rec : Rec) (c : Ctx) (body : Val) : R := do return ':' :: (← dispatchAny rec c.enter body)

/-- An optional `else` or `finally`, e.g. unparser.py:439-448. -/
def blockIf (rec : Rec) (c : Ctx) (word : String) (body : Val) : R :=
  opt body fun b => do return fill c (lit word) ++ (← block rec c b)

/-! ## Markers, unparser.py:207-268 -/

/-- `repr(v)` of a constant in a field of a marker, unparser.py:208-215; `v` is not an AST node here. -/
def markerValue (H : Host) (rec : Rec) (c : Ctx) : Val → R
  | .list xs => concat (rec c) xs
  | .const v => .ok (reprConst H v)
  | v => rec c v

/-- `isinstance(tree.body, (ast.stmt, list))`. -/
def stmtLike : Val → Bool
  | .list _ => true
  | .node (.py k) _ _ => k.isStmt
  | _ => false

/-- One field in statement mode, unparser.py:249-254. -/
def markerStmtField (H : Host) (rec : Rec) (c : Ctx) (p : F × Val) : R := do
  return fill c (lit p.1.text) ++ lit ": " ++ (← markerValue H rec c.enter p.2)

/-- One field in expression mode, unparser.py:262-265. -/
def markerExprField (H : Host) (rec : Rec) (c : Ctx) (p : F × Val) : R := do
  return lit p.1.text ++ lit "=(" ++ (← markerValue H rec c p.2) ++ lit ")"

/-- The fields of a marker, unparser.py:237-265.  Simplified: `_fields` are the fields that are set. -/
def markerFields (H : Host) (rec : Rec) (c : Ctx) (stmt : Bool) (fs : Fields) : R :=
  match fs with
  | [(.body, b)] => markerValue H rec c b
  | fs =>
    if stmt then concat (markerStmtField H rec c) fs
    else do return interleave (lit ", ") (← texts (markerExprField H rec c) fs)

/-- `astmarker`, unparser.py:207-268. -/
def astmarker (H : Host) (rec : Rec) (c : Ctx) (name : String) (fs : Fields) : R :=
  match fs.lookup .body with
  | none => .error .attributeError
  | some b =>
    let header := lit "$ASTMarker<" ++ name.toList ++ lit ">: "
    if stmtLike b then do return fill c header ++ (← markerFields H rec c.enter true fs)
    else do return lit "(" ++ header ++ (← markerFields H rec c.enter false fs) ++ lit ")"

/-! ## Operators -/

/-- `unop`, unparser.py:760. -/
def unop : K → Option String
  | .Invert => "~" | .Not => "not" | .UAdd => "+" | .USub => "-"
  | _ => none

/-- `binop`, unparser.py:772-774. -/
def binop : K → Option String
  | .Add => "+" | .Sub => "-" | .Mult => "*" | .MatMult => "@" | .Div => "/" | .Mod => "%"
  | .LShift => "<<" | .RShift => ">>" | .BitOr => "|" | .BitXor => "^" | .BitAnd => "&"
  | .FloorDiv => "//" | .Pow => "**"
  | _ => none

/-- `cmpops`, unparser.py:782-783. -/
def cmpop : K → Option String
  | .Eq => "==" | .NotEq => "!=" | .Lt => "<" | .LtE => "<=" | .Gt => ">" | .GtE => ">="
  | .Is => "is" | .IsNot => "is not" | .In => "in" | .NotIn => "not in"
  | _ => none

/-- `boolops`, unparser.py:796. -/
def boolop : K → Option String
  | .And => "and" | .Or => "or"
  | _ => none

/-- `table[t.__class__.__name__]`: a KeyError if it is not in the table. -/
def operator (table : K → Option String) : Val → R
  | .node (.py k) _ _ =>
    match table k with
    | some s => .ok s.toList
    | none => .error .keyError
  | _ => .error .keyError

/-! ## Expressions -/

/-- `_Constant`, unparser.py:626-645. -/
def constantText (H : Host) (fs : Fields) : R := do
  let kind ← attr .Constant fs .kind
  let v ← attr .Constant fs .value
  let u := if kind = .str "u" then lit "u" else []
  match v with
  | .const .ellipsis => return u ++ lit "..."
  | .const (.int n) => return u ++ replaceInf (reprInt n)
  | .const (.float r) => return u ++ replaceInf r.toList
  | .const (.complex r) => return u ++ replaceInf r.toList
  | .const k => return u ++ reprConst H k
  | _ => .error .unparserError

/-- A parenthesised keyword with an optional value: `_Await`, `_Yield`, `_YieldFrom`, unparser.py:393-415. -/
def wordValue (rec : Rec) (c : Ctx) (k : K) (word : String) (fs : Fields) : R := do
  let v ← attr k fs .value
  let x ← opt v fun v => do return ' ' :: (← rec c v)
  return lit "(" ++ lit word ++ x ++ lit ")"

/-- `_NamedExpr`, unparser.py:619-624. -/
def namedExpr (rec : Rec) (c : Ctx) (fs : Fields) : R := do
  let a ← rec c (← attr .NamedExpr fs .target)
  let b ← rec c (← attr .NamedExpr fs .value)
  return lit "(" ++ a ++ lit " := " ++ b ++ lit ")"

/-- A display of elements: `_List`, unparser.py:671-674, `_Set`, unparser.py:726-730. -/
def display (rec : Rec) (c : Ctx) (opening closing : String) (es : List Val) : R := do
  return lit opening ++ interleave (lit ", ") (← texts (rec c) es) ++ lit closing

/-- `_ListComp`, `_GeneratorExp`, `_SetComp`, unparser.py:676-695. -/
def comp (rec : Rec) (c : Ctx) (k : K) (opening closing : String) (fs : Fields) : R := do
  let e ← rec c (← attr k fs .elt)
  let gs ← concat (rec c) (← attrL k fs .generators)
  return lit opening ++ e ++ gs ++ lit closing

/-- `_DictComp`, unparser.py:697-704. -/
def dictComp (rec : Rec) (c : Ctx) (fs : Fields) : R := do
  let a ← rec c (← attr .DictComp fs .key)
  let b ← rec c (← attr .DictComp fs .value)
  let gs ← concat (rec c) (← attrL .DictComp fs .generators)
  return lit "{" ++ a ++ lit ": " ++ b ++ gs ++ lit "}"

/-- `_comprehension`, unparser.py:706-715. -/
def comprehension (rec : Rec) (c : Ctx) (fs : Fields) : R := do
  let isAsync ← attr .comprehension fs .is_async
  let a ← rec c (← attr .comprehension fs .target)
  let b ← rec c (← attr .comprehension fs .iter)
  let ifs ← concat (fun x => do return lit " if " ++ (← rec c x)) (← attrL .comprehension fs .ifs)
  return (if truthy isAsync then lit " async" else []) ++ lit " for " ++ a ++ lit " in " ++ b ++ ifs

/-- `_IfExp`, unparser.py:717-724. -/
def ifExp (rec : Rec) (c : Ctx) (fs : Fields) : R := do
  let a ← rec c (← attr .IfExp fs .body)
  let b ← rec c (← attr .IfExp fs .test)
  let d ← rec c (← attr .IfExp fs .orelse)
  return lit "(" ++ a ++ lit " if " ++ b ++ lit " else " ++ d ++ lit ")"

/-- A pair of a dict display, or a key with a pattern, unparser.py:734-738, 1087-1091. -/
def pair (rec : Rec) (c : Ctx) (p : Val × Val) : R := do
  let a ← rec c p.1
  let b ← rec c p.2
  return a ++ lit ": " ++ b

/-- `_Dict`, unparser.py:732-740. -/
def dict (rec : Rec) (c : Ctx) (fs : Fields) : R := do
  let ks ← attrL .Dict fs .keys
  let vs ← attrL .Dict fs .values
  return lit "{" ++ interleave (lit ", ") (← texts (pair rec c) (ks.zip vs)) ++ lit "}"

/-- `__Tuple_helper`, unparser.py:752-758. -/
def tupleItems (rec : Rec) (c : Ctx) (fs : Fields) : R := do
  match ← attrL .Tuple fs .elts with
  | [x] => return (← rec c x) ++ lit ","
  | es => return interleave (lit ", ") (← texts (rec c) es)

/-- `_Tuple`, unparser.py:747-750. -/
def tuple (rec : Rec) (c : Ctx) (fs : Fields) : R := do
  return lit "(" ++ (← tupleItems rec c fs) ++ lit ")"

/-- `_UnaryOp`, unparser.py:761-770. -/
def unaryOp (rec : Rec) (c : Ctx) (fs : Fields) : R := do
  let op ← attr .UnaryOp fs .op
  let o ← operator unop op
  let x ← rec c (← attr .UnaryOp fs .operand)
  return lit "(" ++ o ++ (if op.isK .Not then lit " " else []) ++ x ++ lit ")"

/-- `_BinOp`, unparser.py:775-780. -/
def binOp (rec : Rec) (c : Ctx) (fs : Fields) : R := do
  let a ← rec c (← attr .BinOp fs .left)
  let o ← operator binop (← attr .BinOp fs .op)
  let b ← rec c (← attr .BinOp fs .right)
  return lit "(" ++ a ++ lit " " ++ o ++ lit " " ++ b ++ lit ")"

/-- One operator with what it compares to, unparser.py:787-793. -/
def comparison (rec : Rec) (c : Ctx) (p : Val × Val) : R := do
  let o ← operator cmpop p.1
  let b ← rec c p.2
  return lit " " ++ o ++ lit " " ++ b

/-- `_Compare`, unparser.py:784-794. -/
def compare (rec : Rec) (c : Ctx) (fs : Fields) : R := do
  let a ← rec c (← attr .Compare fs .left)
  let ops ← attrL .Compare fs .ops
  let cs ← attrL .Compare fs .comparators
  return lit "(" ++ a ++ (← concat (comparison rec c) (ops.zip cs)) ++ lit ")"

/-- `_BoolOp`, unparser.py:797-802. -/
def boolOp (rec : Rec) (c : Ctx) (fs : Fields) : R := do
  let o ← operator boolop (← attr .BoolOp fs .op)
  let vs ← attrL .BoolOp fs .values
  return lit "(" ++ interleave (lit " " ++ o ++ lit " ") (← texts (rec c) vs) ++ lit ")"

/-- `isinstance(v, ast.Constant) and isinstance(v.value, int)`, unparser.py:810. -/
def isIntConstant (v : Val) : Bool :=
  v.isK .Constant &&
    match v.get? .value with
    | some (.const (.int _)) => true
    | some (.const (.bool _)) => true
    | _ => false

/-- `_Attribute`, unparser.py:804-814. -/
def attributeText (rec : Rec) (c : Ctx) (fs : Fields) : R := do
  let v ← attr .Attribute fs .value
  let x ← rec c v
  let a ← write (← attr .Attribute fs .attr)
  return x ++ (if isIntConstant v then lit " " else []) ++ lit "." ++ a

/-- Positional and keyword arguments, unparser.py:819-831 and, for a class, 494-506. -/
def callArgs (rec : Rec) (c : Ctx) (args kws : List Val) : R := do
  let xs ← texts (rec c) args
  let ys ← texts (rec c) kws
  return interleave (lit ", ") (xs ++ ys)

/-- `_Call`, unparser.py:816-832. -/
def call (rec : Rec) (c : Ctx) (fs : Fields) : R := do
  let f ← rec c (← attr .Call fs .func)
  let args ← callArgs rec c (← attrL .Call fs .args) (← attrL .Call fs .keywords)
  return f ++ lit "(" ++ args ++ lit ")"

/-- The `escape` of `_JoinedStr_helper`, unparser.py:868-869. -/
def fescape (s : Str) : Str :=
  s.flatMap fun c => if c = '\'' then lit "\\'" else if c = '\n' then lit "\\n" else [c]

/-- The conversion of a formatted value, unparser.py:847-856. -/
def conversion : Val → R
  | .const (.int 115) => .ok (lit "!s")
  | .const (.int 114) => .ok (lit "!r")
  | .const (.int 97) => .ok (lit "!a")
  | .const (.int (-1)) => .ok []
  | _ => .error .valueError

/-- A string snippet of an f-string, unparser.py:872-873. -/
def snippet : Val → R
  | .const (.str s) => .ok (fescape s.toList)
  | _ => .error .attributeError

/-- `_FormattedValue_helper` and `_JoinedStr_helper`, unparser.py:842-879; the format spec is nested, the number bounds
how deeply. -/
def joined (rec : Rec) (c : Ctx) : Nat → Val → R
  | 0, _ => .error .recursionError
  | n + 1, t => do concat (piece n) (← elems (← attrV t .values))
where
  /-- A piece of an f-string. -/
  piece (n : Nat) (v : Val) : R :=
    match v with
    | .node (.py .Constant) _ fs => do snippet (← attr .Constant fs .value)
    | .node (.py .FormattedValue) _ fs => formatted n fs
    | _ => .error .valueError
  /-- A formatted value, without the quotes. -/
  formatted (n : Nat) (fs : Fields) : R := do
    let x ← rec c (← attr .FormattedValue fs .value)
    let conv ← conversion (← attr .FormattedValue fs .conversion)
    let spec ← opt (← attr .FormattedValue fs .format_spec) fun v => do return ':' :: (← joined rec c n v)
    return lit "{" ++ x ++ conv ++ spec ++ lit "}"

/-- `_JoinedStr`, unparser.py:862-865. -/
def joinedStr (rec : Rec) (c : Ctx) (n : Nat) (t : Val) : R := do return lit "f'" ++ (← joined rec c n t) ++ lit "'"

/-- `_FormattedValue`, unparser.py:834-840. -/
def formattedValue (rec : Rec) (c : Ctx) (n : Nat) (fs : Fields) : R := do
  return lit "f'" ++ (← joined.formatted rec c n fs) ++ lit "'"

/-- `_Subscript`, unparser.py:881-890. -/
def subscript (rec : Rec) (c : Ctx) (fs : Fields) : R := do
  let a ← rec c (← attr .Subscript fs .value)
  match ← attr .Subscript fs .slice with
  | .node (.py .Tuple) _ gs => return a ++ lit "[" ++ (← tupleItems rec c gs) ++ lit "]"
  | s => return a ++ lit "[" ++ (← rec c s) ++ lit "]"

/-- `_Slice`, unparser.py:903-911. -/
def slice (rec : Rec) (c : Ctx) (fs : Fields) : R := do
  let a ← opt (← attr .Slice fs .lower) (rec c)
  let b ← opt (← attr .Slice fs .upper) (rec c)
  let d ← opt (← attr .Slice fs .step) fun v => do return ':' :: (← rec c v)
  return a ++ lit ":" ++ b ++ d

/-- The text of an annotation. -/
def annotation (rec : Rec) (c : Ctx) (a : Val) : R := opt a fun v => do return lit ": " ++ (← rec c v)

/-- `_arg`, unparser.py:917-921, and the same for `*args` and `**kwargs`, unparser.py:970-973, 993-996. -/
def argText (rec : Rec) (c : Ctx) (fs : Fields) : R := do
  let x ← write (← attr .arg fs .arg)
  return x ++ (← annotation rec c ((fs.lookup .annotation).getD .none))

/-- `t.vararg.arg`, with the annotation. -/
def starArg (rec : Rec) (c : Ctx) : Val → R
  | .node (.py .arg) _ fs => argText rec c fs
  | _ => .error .attributeError

/-- An argument with its default, unparser.py:949-952, 982-985. -/
def argDefault (rec : Rec) (c : Ctx) (p : Val × Val) : R := do
  let a ← rec c p.1
  return a ++ (← opt p.2 fun v => do return '=' :: (← rec c v))

/-- `*args`, or a lone `*` if there are keyword-only arguments, unparser.py:963-973. -/
def starItem (rec : Rec) (c : Ctx) (vararg kwonly : Val) : Except Err (List Str) :=
  if truthy vararg then do return [lit "*" ++ (← starArg rec c vararg)]
  else .ok (if truthy kwonly then [lit "*"] else [])

/-- The keyword-only arguments, unparser.py:975-985. -/
def kwonlyItems (rec : Rec) (c : Ctx) (kwonly : Val) (fs : Fields) : Except Err (List Str) :=
  if truthy kwonly then do texts (argDefault rec c) ((← elems kwonly).zip (← attrL .arguments fs .kw_defaults))
  else .ok []

/-- `**kwargs`, unparser.py:987-996. -/
def doubleItem (rec : Rec) (c : Ctx) (kwarg : Val) : Except Err (List Str) :=
  if truthy kwarg then do return [lit "**" ++ (← starArg rec c kwarg)] else .ok []

/-- `_arguments`, unparser.py:924-996.  The separator `/` is written after the positional-only arguments, if there are
any. -/
def arguments (rec : Rec) (c : Ctx) (fs : Fields) : R := do
  let args ← attrL .arguments fs .args
  let posonly ← match fs.lookup .posonlyargs with
    | some v => elems v
    | none => .ok []
  let defaults ← attrL .arguments fs .defaults
  let padded := List.replicate (args.length + posonly.length - defaults.length) Val.none ++ defaults
  let xs ← texts (argDefault rec c) (posonly.zip (padded.take posonly.length))
  let ys ← texts (argDefault rec c) (args.zip (padded.drop posonly.length))
  let vararg ← attr .arguments fs .vararg
  let kwonly ← attr .arguments fs .kwonlyargs
  let star ← starItem rec c vararg kwonly
  let zs ← kwonlyItems rec c kwonly fs
  let ws ← doubleItem rec c (← attr .arguments fs .kwarg)
  return interleave (lit ", ") (xs ++ (if xs.isEmpty then [] else [lit "/"]) ++ ys ++ star ++ zs ++ ws)

/-- `_keyword`, unparser.py:998-1004. -/
def keyword (rec : Rec) (c : Ctx) (fs : Fields) : R := do
  let a ← attr .keyword fs .arg
  let pre ← if a.isNone then pure (lit "**") else do pure ((← write a) ++ lit "=")
  return pre ++ (← rec c (← attr .keyword fs .value))

/-- `takes_arguments`, unparser.py:1010-1014. -/
def takesArguments (a : Val) : Except Err Bool := do
  if (match a.get? .posonlyargs with | some v => truthy v | none => false) then return true
  else if truthy (← attrV a .args) then return true
  else if truthy (← attrV a .vararg) then return true
  else if truthy (← attrV a .kwonlyargs) then return true
  else return truthy (← attrV a .kwarg)

/-- `_Lambda`, unparser.py:1006-1021. -/
def lambda (rec : Rec) (c : Ctx) (fs : Fields) : R := do
  let a ← attr .Lambda fs .args
  let sp ← takesArguments a
  let x ← rec c a
  let b ← rec c (← attr .Lambda fs .body)
  return lit "(lambda" ++ (if sp then lit " " else []) ++ x ++ lit ": " ++ b ++ lit ")"

/-- `_Starred`, unparser.py:892-894. -/
def starred (rec : Rec) (c : Ctx) (fs : Fields) : R := do return '*' :: (← rec c (← attr .Starred fs .value))

/-- `_alias`, unparser.py:1023-1026. -/
def alias (fs : Fields) : R := do
  let a ← write (← attr .alias fs .name)
  return a ++ (← opt (← attr .alias fs .asname) fun v => do return lit " as " ++ (← write v))

/-- `_withitem`, unparser.py:1028-1032. -/
def withitem (rec : Rec) (c : Ctx) (fs : Fields) : R := do
  let a ← rec c (← attr .withitem fs .context_expr)
  return a ++ (← opt (← attr .withitem fs .optional_vars) fun v => do return lit " as " ++ (← rec c v))

/-! ## Statements -/

/-- `toplevelnode`, unparser.py:294-305: iterating over a single expression is a TypeError. -/
def toplevel (rec : Rec) (c : Ctx) (k : K) (fs : Fields) : R := do concat (rec c) (← attrL k fs .body)

/-- `_Expr`, unparser.py:308-318. -/
def exprStmt (rec : Rec) (c : Ctx) (fs : Fields) : R := do
  return fill c [] ++ (← rec c (← attr .Expr fs .value))

/-- `_Import`, `_Delete`: a keyword with the items, unparser.py:320-322, 374-376. -/
def wordList (rec : Rec) (c : Ctx) (word : String) (xs : List Val) : R := do
  return fill c (lit word) ++ interleave (lit ", ") (← texts (rec c) xs)

/-- `"." * t.level`: a TypeError unless it is a number. -/
def dots : Val → R
  | .const (.int n) => .ok (List.replicate n.toNat '.')
  | .const (.bool b) => .ok (if b then lit "." else [])
  | _ => .error .typeError

/-- `_ImportFrom`, unparser.py:324-330. -/
def importFrom (rec : Rec) (c : Ctx) (fs : Fields) : R := do
  let d ← dots (← attr .ImportFrom fs .level)
  let m ← opt (← attr .ImportFrom fs .module_) write
  let ns ← texts (rec c) (← attrL .ImportFrom fs .names)
  return fill c (lit "from ") ++ d ++ m ++ lit " import " ++ interleave (lit ", ") ns

/-- `_Assign`, unparser.py:332-337. -/
def assign (rec : Rec) (c : Ctx) (fs : Fields) : R := do
  let ts ← concat (fun x => do return (← rec c x) ++ lit " = ") (← attrL .Assign fs .targets)
  return fill c [] ++ ts ++ (← rec c (← attr .Assign fs .value))

/-- `_AnnAssign`, unparser.py:339-350. -/
def annAssign (rec : Rec) (c : Ctx) (fs : Fields) : R := do
  let simple ← attr .AnnAssign fs .simple
  let a ← rec c (← attr .AnnAssign fs .target)
  let b ← rec c (← attr .AnnAssign fs .annotation)
  let v ← opt (← attr .AnnAssign fs .value) fun v => do return lit " = " ++ (← rec c v)
  return fill c [] ++ (if truthy simple then a else lit "(" ++ a ++ lit ")") ++ lit ": " ++ b ++ v

/-- `_AugAssign`, unparser.py:353-357. -/
def augAssign (rec : Rec) (c : Ctx) (fs : Fields) : R := do
  let a ← rec c (← attr .AugAssign fs .target)
  let o ← operator binop (← attr .AugAssign fs .op)
  let b ← rec c (← attr .AugAssign fs .value)
  return fill c [] ++ a ++ lit " " ++ o ++ lit "= " ++ b

/-- `_Return`, unparser.py:359-363. -/
def returnStmt (rec : Rec) (c : Ctx) (fs : Fields) : R := do
  return fill c (lit "return") ++ (← opt (← attr .Return fs .value) fun v => do return ' ' :: (← rec c v))

/-- `_Assert`, unparser.py:378-383. -/
def assertStmt (rec : Rec) (c : Ctx) (fs : Fields) : R := do
  let a ← rec c (← attr .Assert fs .test)
  return fill c (lit "assert ") ++ a ++ (← opt (← attr .Assert fs .msg) fun v => do return lit ", " ++ (← rec c v))

/-- `_Global`, `_Nonlocal`, unparser.py:385-391. -/
def nameList (c : Ctx) (word : String) (xs : List Val) : R := do
  return fill c (lit word) ++ interleave (lit ", ") (← texts write xs)

/-- `_Raise`, unparser.py:417-426. -/
def raiseStmt (rec : Rec) (c : Ctx) (fs : Fields) : R := do
  let e ← attr .Raise fs .exc
  let cause ← attr .Raise fs .cause
  if truthy e then do
    let a ← rec c e
    return fill c (lit "raise ") ++ a ++ (← opt cause fun v => do return lit " from " ++ (← rec c v))
  else if truthy cause then .error .assertionError
  else return fill c (lit "raise")

/-- `__Try_helper`, unparser.py:428-448. -/
def tryStmt (rec : Rec) (c : Ctx) (star : Bool) (k : K) (fs : Fields) : R := do
  let b ← block rec c (← attr k fs .body)
  let hs ← concat (rec { c with modes := star :: c.modes }) (← attrL k fs .handlers)
  let e ← blockIf rec c "else" (← attr k fs .orelse)
  let f ← blockIf rec c "finally" (← attr k fs .finalbody)
  return fill c (lit "try") ++ b ++ hs ++ e ++ f

/-- `_ExceptHandler`, unparser.py:456-472. -/
def exceptHandler (rec : Rec) (c : Ctx) (fs : Fields) : R :=
  match c.modes with
  | [] => .error .indexError
  | star :: _ => do
    let ty ← opt (← attr .ExceptHandler fs .type_) fun v => do return ' ' :: (← rec c v)
    let n ← opt (← attr .ExceptHandler fs .name) fun v => do return lit " as " ++ (← write v)
    let b ← block rec c (← attr .ExceptHandler fs .body)
    return fill c (if star then lit "except*" else lit "except") ++ ty ++ n ++ b

/-- The decorators, unparser.py:477-487, 523-533. -/
def decorators (rec : Rec) (c : Ctx) (ds : List Val) : R := concat (fun d => do return fill c (lit "@") ++ (← rec c d)) ds

/-- `_ClassDef`, unparser.py:474-512.  (Type parameters are not written.) -/
def classDef (rec : Rec) (c : Ctx) (fs : Fields) : R := do
  let ds ← decorators rec c (← attrL .ClassDef fs .decorator_list)
  let n ← write (← attr .ClassDef fs .name)
  let bases ← attrL .ClassDef fs .bases
  let kws ← attrL .ClassDef fs .keywords
  let a ← callArgs rec c bases kws
  let b ← block rec c (← attr .ClassDef fs .body)
  return '\n' :: ds ++ fill c (lit "class ") ++ n ++
    (if bases.isEmpty && kws.isEmpty then [] else lit "(" ++ a ++ lit ")") ++ b

/-- `__FunctionDef_helper`, unparser.py:520-545.  (Type parameters are not written.) -/
def functionDef (rec : Rec) (c : Ctx) (word : String) (k : K) (fs : Fields) : R := do
  let ds ← decorators rec c (← attrL k fs .decorator_list)
  let n ← write (← attr k fs .name)
  let a ← rec c (← attr k fs .args)
  let r ← opt (← attr k fs .returns) fun v => do return lit " -> " ++ (← rec c v)
  let b ← block rec c (← attr k fs .body)
  return '\n' :: ds ++ fill c (lit word) ++ n ++ lit "(" ++ a ++ lit ")" ++ r ++ b

/-- `__For_helper`, unparser.py:554-566. -/
def forStmt (rec : Rec) (c : Ctx) (word : String) (k : K) (fs : Fields) : R := do
  let a ← rec c (← attr k fs .target)
  let i ← rec c (← attr k fs .iter)
  let b ← block rec c (← attr k fs .body)
  let e ← blockIf rec c "else" (← attr k fs .orelse)
  return fill c (lit word) ++ a ++ lit " in " ++ i ++ b ++ e

/-- `_If`, unparser.py:569-589: an `else` with nothing but an `if` is written `elif`; the number bounds how often. -/
def ifStmt (rec : Rec) (c : Ctx) (word : String) : Nat → Fields → R
  | 0, _ => .error .recursionError
  | n + 1, fs => do
    let t ← rec c (← attr .If fs .test)
    let b ← block rec c (← attr .If fs .body)
    match ← attr .If fs .orelse with
    | .list [.node (.py .If) _ gs] => return fill c (lit word) ++ t ++ b ++ (← ifStmt rec c "elif " n gs)
    | e => return fill c (lit word) ++ t ++ b ++ (← blockIf rec c "else" e)

/-- `_While`, unparser.py:591-601. -/
def whileStmt (rec : Rec) (c : Ctx) (fs : Fields) : R := do
  let t ← rec c (← attr .While fs .test)
  let b ← block rec c (← attr .While fs .body)
  return fill c (lit "while ") ++ t ++ b ++ (← blockIf rec c "else" (← attr .While fs .orelse))

/-- `_With`, `_AsyncWith`, unparser.py:603-616. -/
def withStmt (rec : Rec) (c : Ctx) (word : String) (k : K) (fs : Fields) : R := do
  let is ← texts (rec c) (← attrL k fs .items)
  return fill c (lit word) ++ interleave (lit ", ") is ++ (← block rec c (← attr k fs .body))

/-! ## Pattern matching -/

/-- `_Match`, unparser.py:1044-1050. -/
def matchStmt (rec : Rec) (c : Ctx) (fs : Fields) : R := do
  let s ← rec c (← attr .Match fs .subject)
  let cs ← concat (rec c.enter) (← attrL .Match fs .cases)
  return fill c (lit "match ") ++ s ++ lit ":" ++ cs

/-- Parentheses around an or-pattern, where they are "useful", unparser.py:1055-1059, 1126-1130. -/
def orParens (p : Val) (x : Str) : Str := if p.isK .MatchOr then lit "(" ++ x ++ lit ")" else x

/-- `_match_case`, unparser.py:1052-1065. -/
def matchCase (rec : Rec) (c : Ctx) (fs : Fields) : R := do
  let p ← attr .match_case fs .pattern
  let g ← attr .match_case fs .guard
  let x ← rec c p
  let y ← if g.isNone then pure [] else do pure (lit " if " ++ (← rec c g))
  let b ← block rec c (← attr .match_case fs .body)
  return fill c (lit "case ") ++ (if g.isNone then x else orParens p x) ++ y ++ b

/-- `_MatchSingleton`, unparser.py:1070-1071. -/
def matchSingleton (H : Host) (fs : Fields) : R := do
  match ← attr .MatchSingleton fs .value with
  | .const v => return reprConst H v
  | _ => .error .typeError                            -- not modelled: `repr` of other objects

/-- `_MatchStar`, unparser.py:1078-1083. -/
def matchStar (fs : Fields) : R := do
  let n ← attr .MatchStar fs .name
  if n.isNone then return lit "*_" else return '*' :: (← write n)

/-- `_MatchMapping`, unparser.py:1085-1098. -/
def matchMapping (rec : Rec) (c : Ctx) (fs : Fields) : R := do
  let ks ← attrL .MatchMapping fs .keys
  let ps ← attrL .MatchMapping fs .patterns
  let xs ← texts (pair rec c) (ks.zip ps)
  let rest ← attr .MatchMapping fs .rest
  let r ← if rest.isNone then pure [] else do
    pure ((if ps.isEmpty then [] else lit ", ") ++ lit "**" ++ (← write rest))
  return lit "{" ++ interleave (lit ", ") xs ++ r ++ lit "}"

/-- A keyword pattern, unparser.py:1109-1113. -/
def kwdPattern (rec : Rec) (c : Ctx) (p : Val × Val) : R := do
  return (← write p.1) ++ lit "=" ++ (← rec c p.2)

/-- `_MatchClass`, unparser.py:1100-1115. -/
def matchClass (rec : Rec) (c : Ctx) (fs : Fields) : R := do
  let a ← rec c (← attr .MatchClass fs .cls)
  let ps ← attrL .MatchClass fs .patterns
  let xs ← texts (rec c) ps
  let attrs ← attrL .MatchClass fs .kwd_attrs
  let ys ← texts (kwdPattern rec c) (attrs.zip (← attrL .MatchClass fs .kwd_patterns))
  return a ++ lit "(" ++ interleave (lit ", ") xs ++
    (if attrs.isEmpty then [] else (if ps.isEmpty then [] else lit ", ") ++ interleave (lit ", ") ys) ++ lit ")"

/-- `_MatchAs`, unparser.py:1117-1132. -/
def matchAs (rec : Rec) (c : Ctx) (fs : Fields) : R := do
  let n ← attr .MatchAs fs .name
  let p ← attr .MatchAs fs .pattern
  if n.isNone then
    if p.isNone then return lit "_" else .error .assertionError
  else if p.isNone then write n
  else do
    let x ← rec c p
    return orParens p x ++ lit " as " ++ (← write n)

/-- `_MatchOr`, unparser.py:1134-1135. -/
def matchOr (rec : Rec) (c : Ctx) (fs : Fields) : R := do
  return interleave (lit " | ") (← texts (rec c) (← attrL .MatchOr fs .patterns))

/-- `_TypeAlias`, unparser.py:1143-1152. -/
def typeAlias (rec : Rec) (c : Ctx) (fs : Fields) : R := do
  let n ← rec c (← attr .TypeAlias fs .name)
  let ps ← attrL .TypeAlias fs .type_params
  let xs ← texts (rec c) ps
  let v ← rec c (← attr .TypeAlias fs .value)
  return fill c (lit "type ") ++ n ++
    (if ps.isEmpty then [] else lit "[" ++ interleave (lit ", ") xs ++ lit "]") ++ lit " = " ++ v

/-- `_TypeVar`, unparser.py:1154-1159. -/
def typeVar (rec : Rec) (c : Ctx) (fs : Fields) : R := do
  let n ← write (← attr .TypeVar fs .name)
  let b ← attr .TypeVar fs .bound
  if b.isNone then return n else return n ++ lit ": " ++ (← rec c b)

/-- `_ParamSpec`, `_TypeVarTuple`, unparser.py:1161-1169. -/
def starName (k : K) (stars : String) (fs : Fields) : R := do return lit stars ++ (← write (← attr k fs .name))

/-! ## The dispatcher -/

/-- The methods `_T`, by class; an UnparserError if there is no such method, unparser.py:191-195. -/
def method (H : Host) (rec : Rec) (n : Nat) (c : Ctx) (t : Val) (fs : Fields) : K → R
  | .Module => toplevel rec c .Module fs
  | .Interactive => toplevel rec c .Interactive fs
  | .Expression => toplevel rec c .Expression fs
  | .Expr => exprStmt rec c fs
  | .Import => do wordList rec c "import " (← attrL .Import fs .names)
  | .ImportFrom => importFrom rec c fs
  | .Assign => assign rec c fs
  | .AnnAssign => annAssign rec c fs
  | .AugAssign => augAssign rec c fs
  | .Return => returnStmt rec c fs
  | .Pass => .ok (fill c (lit "pass"))
  | .Break => .ok (fill c (lit "break"))
  | .Continue => .ok (fill c (lit "continue"))
  | .Delete => do wordList rec c "del " (← attrL .Delete fs .targets)
  | .Assert => assertStmt rec c fs
  | .Global => do nameList c "global " (← attrL .Global fs .names)
  | .Nonlocal => do nameList c "nonlocal " (← attrL .Nonlocal fs .names)
  | .Await => wordValue rec c .Await "await" fs
  | .Yield => wordValue rec c .Yield "yield" fs
  | .YieldFrom => wordValue rec c .YieldFrom "yield from" fs
  | .Raise => raiseStmt rec c fs
  | .Try => tryStmt rec c false .Try fs
  | .TryStar => tryStmt rec c true .TryStar fs
  | .ExceptHandler => exceptHandler rec c fs
  | .ClassDef => classDef rec c fs
  | .FunctionDef => functionDef rec c "def " .FunctionDef fs
  | .AsyncFunctionDef => functionDef rec c "async def " .AsyncFunctionDef fs
  | .For => forStmt rec c "for " .For fs
  | .AsyncFor => forStmt rec c "async for " .AsyncFor fs
  | .If => ifStmt rec c "if " n fs
  | .While => whileStmt rec c fs
  | .With => withStmt rec c "with " .With fs
  | .AsyncWith => withStmt rec c "async with " .AsyncWith fs
  | .NamedExpr => namedExpr rec c fs
  | .Constant => constantText H fs
  | .Name => do write (← attr .Name fs .id)
  | .List => do display rec c "[" "]" (← attrL .List fs .elts)
  | .ListComp => comp rec c .ListComp "[" "]" fs
  | .GeneratorExp => comp rec c .GeneratorExp "(" ")" fs
  | .SetComp => comp rec c .SetComp "{" "}" fs
  | .DictComp => dictComp rec c fs
  | .comprehension => comprehension rec c fs
  | .IfExp => ifExp rec c fs
  | .Set => do
    let es ← attrL .Set fs .elts
    if es.isEmpty then .error .assertionError else display rec c "{" "}" es
  | .Dict => dict rec c fs
  | .Tuple => tuple rec c fs
  | .UnaryOp => unaryOp rec c fs
  | .BinOp => binOp rec c fs
  | .Compare => compare rec c fs
  | .BoolOp => boolOp rec c fs
  | .Attribute => attributeText rec c fs
  | .Call => call rec c fs
  | .FormattedValue => formattedValue rec c n fs
  | .JoinedStr => joinedStr rec c n t
  | .Subscript => subscript rec c fs
  | .Starred => starred rec c fs
  | .Slice => slice rec c fs
  | .arg => argText rec c fs
  | .arguments => arguments rec c fs
  | .keyword => keyword rec c fs
  | .Lambda => lambda rec c fs
  | .alias => alias fs
  | .withitem => withitem rec c fs
  | .Match => matchStmt rec c fs
  | .match_case => matchCase rec c fs
  | .MatchValue => do rec c (← attr .MatchValue fs .value)
  | .MatchSingleton => matchSingleton H fs
  | .MatchSequence => do display rec c "[" "]" (← attrL .MatchSequence fs .patterns)
  | .MatchStar => matchStar fs
  | .MatchMapping => matchMapping rec c fs
  | .MatchClass => matchClass rec c fs
  | .MatchAs => matchAs rec c fs
  | .MatchOr => matchOr rec c fs
  | .TypeAlias => typeAlias rec c fs
  | .TypeVar => typeVar rec c fs
  | .ParamSpec => starName .ParamSpec "**" fs
  | .TypeVarTuple => starName .TypeVarTuple "*" fs
  | _ => .error .unparserError

/-- `dispatch`, unparser.py:176-195; the number is the recursion limit.  What is not an AST node has no method: for `None`,
it would be called `_NoneType`. -/
def dispatch (H : Host) : Nat → Rec
  | 0, _, _ => .error .recursionError
  | n + 1, c, t =>
    match t with
    | .node (.py k) _ fs => method H (dispatch H n) n c t fs k
    | .node (.marker m) _ fs => astmarker H (dispatch H n) c m fs
    | .list xs => concat (dispatch H n c) xs
    | .const _ => .error .unparserError

/-- `unparse(tree)`, unparser.py:1172-1198, and `Unparser.__init__`, unparser.py:103-110.  An UnparserError is raised anew,
with a dump of the tree in the message. -/
def unparse (H : Host) (limit : Nat) (t : Val) : R := do
  let s ← dispatchAny (dispatch H limit) {} t
  return Dialects.strip (s ++ lit "\n")

end Mcpyrate.Unparse
