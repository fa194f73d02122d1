/-
The Python AST as data.

Models what mcpyrate sees of the standard library module `ast` (Python 3.9 to 3.12):
an AST node has a class, four location attributes and named fields.
-/
namespace Mcpyrate.Py

/-- The concrete classes of `ast` (grammar of Python 3.12).  The pre-3.9 classes `Index`,
`ExtSlice`, `Num`, `Str`, `Bytes`, `NameConstant`, `Ellipsis` are left out: Python 3.9+ does not
produce them. -/
inductive K where
  -- mod
  | Module | Interactive | Expression | FunctionType
  -- stmt
  | FunctionDef | AsyncFunctionDef | ClassDef | Return | Delete | Assign | TypeAlias | AugAssign
  | AnnAssign | For | AsyncFor | While | If | With | AsyncWith | Match | Raise | Try | TryStar
  | Assert | Import | ImportFrom | Global | Nonlocal | Expr | Pass | Break | Continue
  -- expr
  | BoolOp | NamedExpr | BinOp | UnaryOp | Lambda | IfExp | Dict | Set | ListComp | SetComp
  | DictComp | GeneratorExp | Await | Yield | YieldFrom | Compare | Call | FormattedValue
  | JoinedStr | Constant | Attribute | Subscript | Starred | Name | List | Tuple | Slice
  -- expr_context
  | Load | Store | Del
  -- boolop, operator, unaryop, cmpop
  | And | Or
  | Add | Sub | Mult | MatMult | Div | Mod | Pow | LShift | RShift | BitOr | BitXor | BitAnd
  | FloorDiv
  | Invert | Not | UAdd | USub
  | Eq | NotEq | Lt | LtE | Gt | GtE | Is | IsNot | In | NotIn
  -- others
  | comprehension | ExceptHandler | arguments | arg | keyword | alias | withitem | match_case
  | MatchValue | MatchSingleton | MatchSequence | MatchMapping | MatchClass | MatchStar | MatchAs
  | MatchOr
  | TypeIgnore | TypeVar | ParamSpec | TypeVarTuple
  deriving DecidableEq, Repr

/-- Field names.  A trailing underscore only avoids a Lean keyword.  `syntax_`, `filename` are
fields of mcpyrate's own markers. -/
inductive F where
  | body | type_ignores | name | args | decorator_list | returns | type_comment | type_params
  | bases | keywords | value | targets | target | op | annotation | simple | iter | orelse | test
  | items | subject | cases | exc | cause | handlers | finalbody | msg | names | module_ | level
  | values | left | right | operand | keys | elt | generators | key | ops | comparators | func
  | conversion | format_spec | kind | attr | ctx | slice | id | elts | lower | upper | step | ifs
  | is_async | type_ | posonlyargs | vararg | kwonlyargs | kw_defaults | kwarg | defaults | arg
  | asname | context_expr | optional_vars | pattern | guard | patterns | rest | cls | kwd_attrs
  | kwd_patterns | lineno | tag | bound | argtypes
  | syntax_ | filename
  deriving DecidableEq, Repr

/-- The class of a node: a class of `ast`, or a user-defined subclass of `ast.AST` (AST markers,
markers.py:15), identified by its name. -/
inductive Cls where
  | py (k : K)
  | marker (n : String)
  deriving DecidableEq, Repr

/-- Constants that occur as field values: `None`, numbers, strings, `...`.  Identifiers are `str`.
Floating point and complex numbers are kept as their `repr` text; `bytes` as numbers. -/
inductive Const where
  | none
  | bool (b : Bool)
  | int (n : Int)
  | str (s : String)
  | bytes (b : List Nat)
  | float (repr : String)
  | complex (repr : String)
  | ellipsis
  deriving DecidableEq, Repr

/-- A location attribute: missing (`hasattr` is false), present with value `None`, or a number. -/
inductive Attr where
  | missing
  | none
  | int (n : Int)
  deriving DecidableEq, Repr

/-- The location attributes of a node. -/
structure Loc where
  lineno : Attr := .missing
  colOffset : Attr := .missing
  endLineno : Attr := .missing
  endColOffset : Attr := .missing
  deriving DecidableEq, Repr

/-- A value found in an AST: a constant, a list, or a node.  The fields of a node are listed in the
order of the class's `_fields`; a field that is absent from the list is an attribute that was never
set or has been deleted (`delattr` in `ast.NodeTransformer.generic_visit`). -/
inductive Val where
  | const (c : Const)
  | list (xs : List Val)
  | node (c : Cls) (loc : Loc) (fs : List (F × Val))

abbrev Fields := List (F × Val)

mutual
def Val.decEq : (a b : Val) → Decidable (a = b)
  | .const c, .const d => if h : c = d then isTrue (by rw [h]) else isFalse (by simpa using h)
  | .list xs, .list ys =>
    match Val.decEqL xs ys with
    | isTrue h => isTrue (by rw [h])
    | isFalse h => isFalse (by simpa using h)
  | .node c l fs, .node d m gs =>
    if h1 : c = d then
      if h2 : l = m then
        match Val.decEqF fs gs with
        | isTrue h => isTrue (by rw [h1, h2, h])
        | isFalse h => isFalse (by simp [h])
      else isFalse (by simp [h2])
    else isFalse (by simp [h1])
  | .const _, .list _ => isFalse (by simp)
  | .const _, .node .. => isFalse (by simp)
  | .list _, .const _ => isFalse (by simp)
  | .list _, .node .. => isFalse (by simp)
  | .node .., .const _ => isFalse (by simp)
  | .node .., .list _ => isFalse (by simp)
def Val.decEqL : (a b : List Val) → Decidable (a = b)
  | [], [] => isTrue rfl
  | [], _ :: _ => isFalse (by simp)
  | _ :: _, [] => isFalse (by simp)
  | x :: xs, y :: ys =>
    match Val.decEq x y with
    | isTrue h1 =>
      match Val.decEqL xs ys with
      | isTrue h2 => isTrue (by rw [h1, h2])
      | isFalse h => isFalse (by simp [h])
    | isFalse h => isFalse (by simp [h])
def Val.decEqF : (a b : List (F × Val)) → Decidable (a = b)
  | [], [] => isTrue rfl
  | [], _ :: _ => isFalse (by simp)
  | _ :: _, [] => isFalse (by simp)
  | (f, x) :: xs, (g, y) :: ys =>
    if h0 : f = g then
      match Val.decEq x y with
      | isTrue h1 =>
        match Val.decEqF xs ys with
        | isTrue h2 => isTrue (by rw [h0, h1, h2])
        | isFalse h => isFalse (by simp [h])
      | isFalse h => isFalse (by simp [h])
    else isFalse (by simp [h0])
end

instance : DecidableEq Val := Val.decEq

namespace Val

/-- Python's `None`. -/
@[match_pattern] abbrev none : Val := .const .none
@[match_pattern] abbrev str (s : String) : Val := .const (.str s)
@[match_pattern] abbrev int (n : Int) : Val := .const (.int n)

/-- `isinstance(x, ast.AST)`. -/
def isAST : Val → Bool
  | .node .. => true
  | _ => false

/-- `isinstance(x, list)`. -/
def isList : Val → Bool
  | .list _ => true
  | _ => false

def isNone : Val → Bool
  | .const .none => true
  | _ => false

/-- `getattr(node, f)`; `Option.none` when the attribute is missing or `x` is not a node. -/
def get? : Val → F → Option Val
  | .node _ _ fs, f => fs.lookup f
  | _, _ => Option.none

/-- `type(x) is ast.K`. -/
def isK (k : K) : Val → Bool
  | .node (.py k') _ _ => k == k'
  | _ => false

/-- Number of nodes, lists and constants; used as a measure. -/
def size : Val → Nat
  | .const _ => 1
  | .list xs => 1 + sizeL xs
  | .node _ _ fs => 1 + sizeF fs
where
  sizeL : List Val → Nat
    | [] => 0
    | x :: xs => x.size + sizeL xs
  sizeF : List (F × Val) → Nat
    | [] => 0
    | (_, x) :: xs => x.size + sizeF xs

end Val

/-- Replace the value of a field if it is present (assignment to an existing attribute). -/
def setF (fs : Fields) (f : F) (v : Val) : Fields :=
  fs.map fun (g, w) => if g = f then (g, v) else (g, w)

/-- A node of a standard class without location information. -/
abbrev mk (k : K) (fs : Fields) : Val := .node (.py k) {} fs

/-- `ast.Name(id=s, ctx=ctx)`. -/
abbrev name (s : String) (ctx : K := .Load) : Val := mk .Name [(.id, .str s), (.ctx, mk ctx [])]
/-- `ast.Constant(value=c)`. -/
abbrev constant (c : Const) : Val := mk .Constant [(.value, .const c), (.kind, .none)]
/-- `ast.Expr(value=e)`. -/
abbrev exprStmt (e : Val) : Val := mk .Expr [(.value, e)]

/-- Which classes have `lineno`, `col_offset`, `end_lineno`, `end_col_offset` in `_attributes`:
`stmt`, `expr`, `excepthandler`, `pattern`, `type_param`, and `arg`, `keyword`, `alias`.
User-defined subclasses of `ast.AST` inherit the empty `_attributes` of `ast.AST`. -/
def K.hasLoc : K → Bool
  | .Module | .Interactive | .Expression | .FunctionType
  | .Load | .Store | .Del
  | .And | .Or
  | .Add | .Sub | .Mult | .MatMult | .Div | .Mod | .Pow | .LShift | .RShift | .BitOr | .BitXor
  | .BitAnd | .FloorDiv
  | .Invert | .Not | .UAdd | .USub
  | .Eq | .NotEq | .Lt | .LtE | .Gt | .GtE | .Is | .IsNot | .In | .NotIn
  | .comprehension | .arguments | .withitem | .match_case | .TypeIgnore => false
  | _ => true

def Cls.hasLoc : Cls → Bool
  | .py k => k.hasLoc
  | .marker _ => false

/-- `"ctx" in type(tree)._fields`. -/
def K.hasCtx : K → Bool
  | .Attribute | .Subscript | .Starred | .Name | .List | .Tuple => true
  | _ => false

def Cls.hasCtx : Cls → Bool
  | .py k => k.hasCtx
  | .marker _ => false

/-- The statement classes. -/
def K.isStmt : K → Bool
  | .FunctionDef | .AsyncFunctionDef | .ClassDef | .Return | .Delete | .Assign | .TypeAlias
  | .AugAssign | .AnnAssign | .For | .AsyncFor | .While | .If | .With | .AsyncWith | .Match
  | .Raise | .Try | .TryStar | .Assert | .Import | .ImportFrom | .Global | .Nonlocal | .Expr
  | .Pass | .Break | .Continue => true
  | _ => false

/-- The expression classes. -/
def K.isExpr : K → Bool
  | .BoolOp | .NamedExpr | .BinOp | .UnaryOp | .Lambda | .IfExp | .Dict | .Set | .ListComp
  | .SetComp | .DictComp | .GeneratorExp | .Await | .Yield | .YieldFrom | .Compare | .Call
  | .FormattedValue | .JoinedStr | .Constant | .Attribute | .Subscript | .Starred | .Name | .List
  | .Tuple | .Slice => true
  | _ => false

end Mcpyrate.Py
