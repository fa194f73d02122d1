import Verif.Spec.PyPatterns
/-
Reference parser for C47, statements: a sub-language of the grammar of Python 3.12 ("Full Grammar specification" in the
Python language reference).

As for expressions, the parser is deliberately partial: what it accepts, Python parses to the tree it returns.  Left out are
type parameters of functions and classes; several statements in a line, and a body in the line of its header; names
in parentheses after `import`; an `as` in the parentheses of a `with`; and tuples without parentheses, as for
expressions.

`match`, `case`, `type` and `_` are soft keywords.  A line that begins with the name `match` is the first line of a `match`
statement if and only if an indented block follows; a line that begins with the name `type` and another name is a `type`
statement.
-/
namespace Mcpyrate.PyText
open Py

/-! ### Trees -/

def aliasOf (a b : Val) : Val := mk .alias [(.name, a), (.asname, b)]
def importOf (ns : List Val) : Val := mk .Import [(.names, .list ns)]
def importFromOf (m : Val) (ns : List Val) (level : Nat) : Val :=
  mk .ImportFrom [(.module_, m), (.names, .list ns), (.level, .int level)]
def exprOf (v : Val) : Val := mk .Expr [(.value, v)]
def returnOf (v : Val) : Val := mk .Return [(.value, v)]
def deleteOf (ts : List Val) : Val := mk .Delete [(.targets, .list ts)]
def assertOf (a b : Val) : Val := mk .Assert [(.test, a), (.msg, b)]
def raiseOf (a b : Val) : Val := mk .Raise [(.exc, a), (.cause, b)]
def globalOf (k : K) (ns : List Val) : Val := mk k [(.names, .list ns)]
def assignTree (ts : List Val) (v : Val) : Val := mk .Assign [(.targets, .list ts), (.value, v), (.type_comment, .none)]
def annAssignOf (t a v : Val) (simple : Int) : Val :=
  mk .AnnAssign [(.target, t), (.annotation, a), (.value, v), (.simple, .int simple)]
def augAssignOf (t : Val) (k : K) (v : Val) : Val := mk .AugAssign [(.target, t), (.op, mk k []), (.value, v)]
def ifOf (t : Val) (b e : List Val) : Val := mk .If [(.test, t), (.body, .list b), (.orelse, .list e)]
def whileOf (t : Val) (b e : List Val) : Val := mk .While [(.test, t), (.body, .list b), (.orelse, .list e)]
/-- `k` is `For` or `AsyncFor`. -/
def forOf (k : K) (t i : Val) (b e : List Val) : Val :=
  mk k [(.target, t), (.iter, i), (.body, .list b), (.orelse, .list e), (.type_comment, .none)]
def withItemOf (v t : Val) : Val := mk .withitem [(.context_expr, v), (.optional_vars, t)]
/-- `k` is `With` or `AsyncWith`. -/
def withOf (k : K) (is b : List Val) : Val := mk k [(.items, .list is), (.body, .list b), (.type_comment, .none)]
def handlerOf (t n : Val) (b : List Val) : Val := mk .ExceptHandler [(.type_, t), (.name, n), (.body, .list b)]
def tryOf (star : Bool) (b hs e f : List Val) : Val :=
  mk (if star then .TryStar else .Try) [(.body, .list b), (.handlers, .list hs), (.orelse, .list e), (.finalbody, .list f)]
/-- `k` is `FunctionDef` or `AsyncFunctionDef`. -/
def functionOf (k : K) (x : String) (args : Val) (body decorators : List Val) (returns : Val) : Val :=
  mk k [(.name, .str x), (.args, args), (.body, .list body), (.decorator_list, .list decorators), (.returns, returns),
    (.type_comment, .none), (.type_params, .list [])]
def classOf (x : String) (bases keywords body decorators : List Val) : Val :=
  mk .ClassDef [(.name, .str x), (.bases, .list bases), (.keywords, .list keywords), (.body, .list body),
    (.decorator_list, .list decorators), (.type_params, .list [])]

def typeAliasOf (x : String) (ps : List Val) (v : Val) : Val :=
  mk .TypeAlias [(.name, name x .Store), (.type_params, .list ps), (.value, v)]
def typeVarOf (x : String) (b : Val) : Val := mk .TypeVar [(.name, .str x), (.bound, b)]
/-- `k` is `TypeVarTuple` or `ParamSpec`. -/
def typeStarOf (k : K) (x : String) : Val := mk k [(.name, .str x)]

variable (p : Parser)

/-! ### Lists without brackets, and imports -/

def pIdent : List Tok → Res
  | .name x :: r => some (.str x, r)
  | _ => none

def sepRest (item : NT) (x : Val) : List Tok → Res
  | .sym .comma :: r => seq (p (.sep item) r) fun l r => some (cons x l, r)
  | r => some (.list [x], r)

/-- One or more items, separated by commas. -/
def pSep (item : NT) (ts : List Tok) : Res := seq (p item ts) (sepRest p item)

def joinDot (x : String) : Val → Val
  | .str s => .str (x ++ "." ++ s)
  | v => v

/-- `a.b.c`. -/
def pDotted : List Tok → Res
  | .name x :: .sym .dot :: r => seq (p .dotted r) fun v r => some (joinDot x v, r)
  | .name x :: r => some (.str x, r)
  | _ => none

/-- An optional `as x`. -/
def asName (a : Val) : List Tok → Res
  | .sym .kAs :: .name x :: r => some (aliasOf a (.str x), r)
  | r => some (aliasOf a .none, r)

def pImportAs (ts : List Tok) : Res := seq (p .dotted ts) asName
def pFromAs (ts : List Tok) : Res := seq (p .ident ts) asName

def plusInt (k : Int) : Val → Val
  | .int n => .int (k + n)
  | v => v

/-- The number of dots; three of them are one token. -/
def pDots : List Tok → Res
  | .sym .dot :: r => seq (p .dots r) fun n r => some (plusInt 1 n, r)
  | .sym .ellipsis :: r => seq (p .dots r) fun n r => some (plusInt 3 n, r)
  | r => some (.int 0, r)

/-- What is imported. -/
def fromNames : List Tok → Res
  | .sym .star :: r => some (.list [aliasOf (.str "*") .none], r)
  | ts => p (.sep .fromAs) ts

def fromImport (level m : Val) : List Tok → Res
  | .sym .kImport :: r =>
    seq (fromNames p r) fun l r => some (mk .ImportFrom [(.module_, m), (.names, l), (.level, level)], r)
  | _ => none

/-- After the dots: without a module, there have to be some. -/
def fromModule (level : Val) : List Tok → Res
  | .name x :: r => seq (p .dotted (.name x :: r)) (fromImport p level)
  | r =>
    match level with
    | .int 0 => none
    | level => fromImport p level .none r

/-! ### Simple statements -/

def pDelTarget (ts : List Tok) : Res := seq (p .primary ts) (asTarget .Del)

def raiseFrom (a : Val) : List Tok → Res
  | .sym .kFrom :: r => seq (p .expr r) fun b r => some (raiseOf a b, r)
  | r => some (raiseOf a .none, r)

def assertMsg (a : Val) : List Tok → Res
  | .sym .comma :: r => seq (p .expr r) fun b r => some (assertOf a b, r)
  | r => some (assertOf a .none, r)

def assignsRest (v : Val) : List Tok → Res
  | .sym .eq :: r => seq (p .assigns r) fun l r => some (cons v l, r)
  | r => some (.list [v], r)

/-- `a = b = c`, as a list. -/
def pAssigns (ts : List Tok) : Res := seq (p .elem ts) (assignsRest p)

/-- The last one is the value, the others are targets. -/
def assignOf (xs : List Val) : Option Val :=
  match xs.getLast?, toCtxL .Store xs.dropLast with
  | some v, some ts => if isStarred v then none else some (assignTree ts v)
  | _, _ => none

/-- A name, attribute or subscript, as a target. -/
def single (v : Val) : Option Val := if v.isK .Name || v.isK .Attribute || v.isK .Subscript then toCtx .Store v else none

def augSym : Sym → Option K
  | .plusEq => some .Add | .minusEq => some .Sub | .starEq => some .Mult | .slashEq => some .Div
  | .slashSlashEq => some .FloorDiv | .percentEq => some .Mod | .atEq => some .MatMult | .starStarEq => some .Pow
  | .ltLtEq => some .LShift | .gtGtEq => some .RShift | .ampEq => some .BitAnd | .barEq => some .BitOr
  | .caretEq => some .BitXor
  | _ => none

/-- 1 if the target of an annotation is a name without parentheses. -/
def simpleTarget : List Tok → Int
  | .name _ :: .sym .colon :: _ => 1
  | _ => 0

def annValue (t a : Val) (simple : Int) : List Tok → Res
  | .sym .eq :: r => seq (p .expr r) fun v r => some (annAssignOf t a v simple, r)
  | r => some (annAssignOf t a .none simple, r)

/-- After an expression at the beginning of a statement; `ts` are the tokens of the statement. -/
def simpleRest (ts : List Tok) (v : Val) : List Tok → Res
  | .newline :: r => if isStarred v then none else some (exprOf v, .newline :: r)
  | .sym .eq :: r => seq (p .assigns r) fun l r => (assignOf (v :: Val.elts l)).map fun a => (a, r)
  | .sym .colon :: r =>
    match single v with
    | some t => seq (p .expr r) fun a r => annValue p t a (simpleTarget ts) r
    | none => none
  | .sym s :: r =>
    match single v, augSym s with
    | some t, some k => seq (p .expr r) fun a r => some (augAssignOf t k a, r)
    | _, _ => none
  | _ => none

def pSimple : List Tok → Res
  | .sym .kPass :: r => some (mk .Pass [], r)
  | .sym .kBreak :: r => some (mk .Break [], r)
  | .sym .kContinue :: r => some (mk .Continue [], r)
  | .sym .kReturn :: .newline :: r => some (returnOf .none, .newline :: r)
  | .sym .kReturn :: r => seq (p .expr r) fun v r => some (returnOf v, r)
  | .sym .kRaise :: .newline :: r => some (raiseOf .none .none, .newline :: r)
  | .sym .kRaise :: r => seq (p .expr r) (raiseFrom p)
  | .sym .kAssert :: r => seq (p .expr r) (assertMsg p)
  | .sym .kDel :: r => seq (p (.sep .delTarget) r) fun l r => some (deleteOf (Val.elts l), r)
  | .sym .kGlobal :: r => seq (p (.sep .ident) r) fun l r => some (globalOf .Global (Val.elts l), r)
  | .sym .kNonlocal :: r => seq (p (.sep .ident) r) fun l r => some (globalOf .Nonlocal (Val.elts l), r)
  | .sym .kImport :: r => seq (p (.sep .importAs) r) fun l r => some (importOf (Val.elts l), r)
  | .sym .kFrom :: r => seq (p .dots r) (fromModule p)
  | ts => seq (p .elem ts) (simpleRest p ts)

/-- The end of the line. -/
def line (v : Val) : List Tok → Res
  | .newline :: r => some (v, r)
  | _ => none

/-! ### Blocks -/

/-- An indented block, with the colon before it. -/
def pBlock : List Tok → Res
  | .sym .colon :: .newline :: .indent :: r => seq (p .stmt r) fun s r => seq (p .stmts r) fun l r => some (cons s l, r)
  | _ => none

/-- Statements up to the end of the block. -/
def pStmts : List Tok → Res
  | .dedent :: r => some (.list [], r)
  | ts => seq (p .stmt ts) fun s r => seq (p .stmts r) fun l r => some (cons s l, r)

/-- Statements up to the end of the text. -/
def pFile : List Tok → Res
  | [] => some (.list [], [])
  | ts => seq (p .stmt ts) fun s r => seq (p .file r) fun l r => some (cons s l, r)

def pOrelse : List Tok → Res
  | .sym .kElse :: r => p .block r
  | r => some (.list [], r)

def pFinals : List Tok → Res
  | .sym .kFinally :: r => p .block r
  | r => some (.list [], r)

/-- After `if` or `elif`. -/
def pIfRest (ts : List Tok) : Res :=
  seq (p .expr ts) fun t r => seq (p .block r) fun b r => seq (p .elifs r) fun e r => some (ifOf t (Val.elts b) (Val.elts e), r)

def pElifs : List Tok → Res
  | .sym .kElif :: r => seq (p .ifRest r) fun v r => some (.list [v], r)
  | .sym .kElse :: r => p .block r
  | r => some (.list [], r)

def whileRest (ts : List Tok) : Res :=
  seq (p .expr ts) fun t r => seq (p .block r) fun b r => seq (p .orelse r) fun e r => some (whileOf t (Val.elts b) (Val.elts e), r)

def forIn (k : K) (t : Val) : List Tok → Res
  | .sym .kIn :: r =>
    seq (p .expr r) fun i r => seq (p .block r) fun b r => seq (p .orelse r) fun e r =>
      some (forOf k t i (Val.elts b) (Val.elts e), r)
  | _ => none

/-! ### `with` -/

def withAs (v : Val) : List Tok → Res
  | .sym .kAs :: r => seq (p .target r) fun t r => some (withItemOf v t, r)
  | r => some (withItemOf v .none, r)

def pWithItem (ts : List Tok) : Res := seq (p .expr ts) (withAs p)

/-- What is in parentheses after `with`, if that is a list of expressions. -/
def inParens : List Val → Option (List Val)
  | [.node (.py .withitem) _ [(.context_expr, .node (.py .Tuple) _ [(.elts, .list (x :: xs)), (.ctx, _)]), (.optional_vars, .none)]] =>
    if (x :: xs).any isStarred then none else some (x :: xs)
  | _ => none

/-- The tokens after the parenthesis that closes the one before the tokens, and `n` more. -/
def afterParen : Nat → List Tok → List Tok
  | _, [] => []
  | n, .sym .lpar :: r => afterParen (n + 1) r
  | 0, .sym .rpar :: r => r
  | n + 1, .sym .rpar :: r => afterParen n r
  | n, _ :: r => afterParen n r

/-- The items of `with`: in `with (a, b):`, they are in parentheses, but not in `with ((a, b)):`. -/
def withItems (ts : List Tok) (is : List Val) : List Val :=
  match inParens is with
  | none => is
  | some xs =>
    match ts with
    | .sym .lpar :: .sym .lpar :: r => if (afterParen 0 r).head? = some (.sym .rpar) then is else xs.map fun x => withItemOf x .none
    | _ => xs.map fun x => withItemOf x .none

def withBody (k : K) (ts : List Tok) (l : Val) (r : List Tok) : Res :=
  seq (p .block r) fun b r => some (withOf k (withItems ts (Val.elts l)) (Val.elts b), r)

def withRest (k : K) (ts : List Tok) : Res := seq (p (.sep .withItem) ts) (withBody p k ts)

/-! ### `try` -/

def handlerAs (t : Val) : List Tok → Res
  | .sym .kAs :: .name x :: r => seq (p .block r) fun b r => some (handlerOf t (.str x) (Val.elts b), r)
  | r => seq (p .block r) fun b r => some (handlerOf t .none (Val.elts b), r)

/-- After `except`. -/
def handler (star : Bool) : List Tok → Res
  | .sym .star :: r => if star then seq (p .expr r) (handlerAs p) else none
  | .sym .colon :: r =>
    if star then none else seq (p .block (.sym .colon :: r)) fun b r => some (handlerOf .none .none (Val.elts b), r)
  | ts => if star then none else seq (p .expr ts) (handlerAs p)

def pHandlers (star : Bool) : List Tok → Res
  | .sym .kExcept :: r => seq (handler p star r) fun h r => seq (p (.handlers star) r) fun l r => some (cons h l, r)
  | r => some (.list [], r)

def isStar : List Tok → Bool
  | .sym .kExcept :: .sym .star :: _ => true
  | _ => false

/-- After the handlers: without any, there has to be a `finally`. -/
def tryEnd (star : Bool) (b hs : List Val) (r : List Tok) : Res :=
  if hs.isEmpty then
    match r with
    | .sym .kFinally :: r => seq (p .block r) fun f r => some (tryOf star b [] [] (Val.elts f), r)
    | _ => none
  else
    seq (p .orelse r) fun e r => seq (p .finals r) fun f r => some (tryOf star b hs (Val.elts e) (Val.elts f), r)

def tryRest (ts : List Tok) : Res :=
  seq (p .block ts) fun b r => seq (p (.handlers (isStar r)) r) fun hs r' => tryEnd p (isStar r) (Val.elts b) (Val.elts hs) r'

/-! ### Definitions -/

def decoRest (d : Val) : List Tok → Res
  | .newline :: r => seq (p .decos r) fun l r => some (cons d l, r)
  | _ => none

def pDecos : List Tok → Res
  | .sym .at :: r => seq (p .expr r) (decoRest p)
  | r => some (.list [], r)

def returns : List Tok → Res
  | .sym .arrow :: r => p .expr r
  | r => some (.none, r)

def functionRest (k : K) (ds : List Val) : List Tok → Res
  | .name x :: .sym .lpar :: r =>
    seq (p (.params true .rpar) r) fun a r => seq (returns p r) fun t r => seq (p .block r) fun b r =>
      some (functionOf k x a (Val.elts b) ds t, r)
  | _ => none

def classBody (x : String) (ds : List Val) (l : Val) (r : List Tok) : Res :=
  match callParts (Val.elts l) with
  | some (as, ks) => seq (p .block r) fun b r => some (classOf x as ks (Val.elts b) ds, r)
  | none => none

def classRest (ds : List Val) : List Tok → Res
  | .name x :: .sym .lpar :: r => seq (p (.items .arg .rpar) r) (classBody p x ds)
  | .name x :: r => classBody p x ds (.list []) r
  | _ => none

def definition (ds : List Val) : List Tok → Res
  | .sym .kDef :: r => functionRest p .FunctionDef ds r
  | .sym .kAsync :: .sym .kDef :: r => functionRest p .AsyncFunctionDef ds r
  | .sym .kClass :: r => classRest p ds r
  | _ => none

/-! ### `type` -/

def pTypeParam : List Tok → Res
  | .sym .star :: .name x :: r => some (typeStarOf .TypeVarTuple x, r)
  | .sym .starStar :: .name x :: r => some (typeStarOf .ParamSpec x, r)
  | .name x :: .sym .colon :: r => seq (p .expr r) fun b r => some (typeVarOf x b, r)
  | .name x :: r => some (typeVarOf x .none, r)
  | _ => none

/-- The value of a type alias. -/
def typeValue (x : String) (ps : List Val) : List Tok → Res
  | .sym .eq :: r => seq (p .expr r) fun v r => line (typeAliasOf x ps v) r
  | _ => none

/-- After `type x`. -/
def typeRest (x : String) : List Tok → Res
  | .sym .lbrack :: .sym .rbrack :: _ => none
  | .sym .lbrack :: r => seq (p (.items .typeParam .rbrack) r) fun l r => typeValue p x (Val.elts l) r
  | r => typeValue p x [] r

/-- A line that begins with a name. -/
def nameLine (x : String) (r : List Tok) : Res :=
  if x = "match" ∧ opensBlock r then matchRest p r
  else
    match r with
    | .name y :: r' => if x = "type" then typeRest p y r' else none
    | r => seq (p .simple (.name x :: r)) line

/-! ### Statements -/

def pStmt : List Tok → Res
  | .sym .kIf :: r => p .ifRest r
  | .sym .kWhile :: r => whileRest p r
  | .sym .kFor :: r => seq (p .target r) (forIn p .For)
  | .sym .kAsync :: .sym .kFor :: r => seq (p .target r) (forIn p .AsyncFor)
  | .sym .kWith :: r => withRest p .With r
  | .sym .kAsync :: .sym .kWith :: r => withRest p .AsyncWith r
  | .sym .kTry :: r => tryRest p r
  | .sym .at :: r => seq (p .decos (.sym .at :: r)) fun ds r => definition p (Val.elts ds) r
  | .sym .kDef :: r => definition p [] (.sym .kDef :: r)
  | .sym .kAsync :: .sym .kDef :: r => definition p [] (.sym .kAsync :: .sym .kDef :: r)
  | .sym .kClass :: r => definition p [] (.sym .kClass :: r)
  | .name x :: r => nameLine p x r
  | ts => seq (p .simple ts) line

end Mcpyrate.PyText
