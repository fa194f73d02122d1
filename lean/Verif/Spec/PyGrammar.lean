import Verif.Spec.PyLexer
/-
Reference parser for C47, expressions: a sub-language of the grammar of Python 3.12 ("Full Grammar specification" in the
Python language reference), with its precedence levels.  The statements are in `Spec/PyStatements.lean`, and the parser as
a whole in `Spec/PyParser.lean`.

The parser is deliberately partial.  What it accepts, Python parses to the tree it returns; it need not accept everything that
Python accepts.  Left out are other ways of writing the same trees: tuples, `:=` and `yield` without parentheses, a generator
expression as the only argument without parentheses of its own, keyword arguments before `*args`, concatenation of adjacent
strings; and f-strings, which are not covered.

Source locations are not represented.
-/
namespace Mcpyrate.PyText
open Py

/-- The nonterminals.  Those with an argument `left` go on after it. -/
inductive NT where
  | expr | disj | conj | inv | cmp | bin (level : Nat) | factor | power | await | primary | atom
  | disjRest | conjRest | cmpRest | binRest (level : Nat) (left : Val) | primRest (left : Val)
  | elem | items (item : NT) (close : Sym) | paren | brack | brace | pairs | comps | ifs | target
  | subs | slice | arg | param (annotated : Bool) | params (annotated : Bool) (close : Sym)
  | ident | sep (item : NT) | dotted | dots | importAs | fromAs | delTarget | assigns | simple
  | block | stmts | stmt | file | ifRest | elifs | orelse | finals | withItem | handlers (star : Bool) | decos
  | pattern | closedPat | orRest | patParen | patElem | patPair | patArg | cases | typeParam

/-- A result: a tree (or a list of trees), and the remaining tokens. -/
abbrev Res := Option (Val × List Tok)
abbrev Parser := NT → List Tok → Res

def seq {β : Type} (x : Res) (f : Val → List Tok → Option β) : Option β :=
  match x with
  | some (v, r) => f v r
  | none => none

/-! ### Trees -/

def load : Val := mk .Load []
def tuple (xs : List Val) : Val := mk .Tuple [(.elts, .list xs), (.ctx, load)]
def list (xs : List Val) : Val := mk .List [(.elts, .list xs), (.ctx, load)]
def starred (v : Val) : Val := mk .Starred [(.value, v), (.ctx, load)]
def binOp (a : Val) (k : K) (b : Val) : Val := mk .BinOp [(.left, a), (.op, mk k []), (.right, b)]
def unaryOp (k : K) (a : Val) : Val := mk .UnaryOp [(.op, mk k []), (.operand, a)]
def ifExp (a b c : Val) : Val := mk .IfExp [(.test, b), (.body, a), (.orelse, c)]
def constantU (u : Bool) (s : String) : Val :=
  mk .Constant [(.value, .str s), (.kind, if u then .str "u" else .none)]
def attrOf (a : Val) (s : String) : Val := mk .Attribute [(.value, a), (.attr, .str s), (.ctx, load)]
def subscript (a s : Val) : Val := mk .Subscript [(.value, a), (.slice, s), (.ctx, load)]
def sliceOf (a b c : Val) : Val := mk .Slice [(.lower, a), (.upper, b), (.step, c)]
def keywordOf (a v : Val) : Val := mk .keyword [(.arg, a), (.value, v)]
def namedExpr (x : String) (v : Val) : Val := mk .NamedExpr [(.target, name x .Store), (.value, v)]
def argOf (x : String) (a : Val) : Val := mk .arg [(.arg, .str x), (.annotation, a), (.type_comment, .none)]
def lambda (a b : Val) : Val := mk .Lambda [(.args, a), (.body, b)]

def Val.elts : Val → List Val
  | .list xs => xs
  | _ => []

def cons (x l : Val) : Val := .list (x :: Val.elts l)

def isStarred (v : Val) : Bool := v.isK .Starred

/-- `a or b or c`: one node. -/
def boolOp (k : K) (a : Val) : List Val → Val
  | [] => a
  | b :: bs => mk .BoolOp [(.op, mk k []), (.values, .list (a :: b :: bs))]

def fst : Val → Val
  | .list [a, _] => a
  | _ => .none
def snd : Val → Val
  | .list [_, b] => b
  | _ => .none

/-- `a < b < c`: one node. -/
def compare (a : Val) : List Val → Val
  | [] => a
  | b :: bs =>
    mk .Compare [(.left, a), (.ops, .list ((b :: bs).map fst)), (.comparators, .list ((b :: bs).map snd))]

def dict (ps : List Val) : Val := mk .Dict [(.keys, .list (ps.map fst)), (.values, .list (ps.map snd))]

mutual
/-- The expression as a target of an assignment (`Store`) or of `del` (`Del`, where nothing is starred). -/
def toCtx (ctx : K) : Val → Option Val
  | .node (.py .Name) l [(.id, s), (.ctx, _)] => some (.node (.py .Name) l [(.id, s), (.ctx, mk ctx [])])
  | .node (.py .Attribute) l [(.value, v), (.attr, s), (.ctx, _)] =>
    some (.node (.py .Attribute) l [(.value, v), (.attr, s), (.ctx, mk ctx [])])
  | .node (.py .Subscript) l [(.value, v), (.slice, s), (.ctx, _)] =>
    some (.node (.py .Subscript) l [(.value, v), (.slice, s), (.ctx, mk ctx [])])
  | .node (.py .Starred) l [(.value, v), (.ctx, _)] =>
    match toCtx ctx v with
    | some v' => if ctx = .Del then none else some (.node (.py .Starred) l [(.value, v'), (.ctx, mk ctx [])])
    | none => none
  | .node (.py .Tuple) l [(.elts, .list xs), (.ctx, _)] =>
    match toCtxL ctx xs with
    | some ys => some (.node (.py .Tuple) l [(.elts, .list ys), (.ctx, mk ctx [])])
    | none => none
  | .node (.py .List) l [(.elts, .list xs), (.ctx, _)] =>
    match toCtxL ctx xs with
    | some ys => some (.node (.py .List) l [(.elts, .list ys), (.ctx, mk ctx [])])
    | none => none
  | _ => none
def toCtxL (ctx : K) : List Val → Option (List Val)
  | [] => some []
  | x :: xs =>
    match toCtx ctx x, toCtxL ctx xs with
    | some y, some ys => some (y :: ys)
    | _, _ => none
end

/-! ### Operators -/

def unSym : Sym → Option K
  | .plus => some .UAdd | .minus => some .USub | .tilde => some .Invert
  | _ => none

/-- The binary operators, by precedence: `|`, `^`, `&`, shifts, sums, products. -/
def binSym : Nat → Sym → Option K
  | 0, .bar => some .BitOr
  | 1, .caret => some .BitXor
  | 2, .amp => some .BitAnd
  | 3, .ltLt => some .LShift
  | 3, .gtGt => some .RShift
  | 4, .plus => some .Add
  | 4, .minus => some .Sub
  | 5, .star => some .Mult
  | 5, .slash => some .Div
  | 5, .slashSlash => some .FloorDiv
  | 5, .percent => some .Mod
  | 5, .at => some .MatMult
  | _, _ => none

/-- The next tighter level. -/
def binNext (l : Nat) : NT := if l < 5 then .bin (l + 1) else .factor

/-- An operator of this level at the beginning. -/
def binOp? (l : Nat) : List Tok → Option (K × List Tok)
  | .sym s :: r => (binSym l s).map fun k => (k, r)
  | _ => none

/-- A comparison operator at the beginning. -/
def cmpOp? : List Tok → Option (K × List Tok)
  | .sym .kNot :: .sym .kIn :: r => some (.NotIn, r)
  | .sym .kIs :: .sym .kNot :: r => some (.IsNot, r)
  | .sym .kIs :: r => some (.Is, r)
  | .sym .kIn :: r => some (.In, r)
  | .sym .eqEq :: r => some (.Eq, r)
  | .sym .ne :: r => some (.NotEq, r)
  | .sym .lt :: r => some (.Lt, r)
  | .sym .le :: r => some (.LtE, r)
  | .sym .gt :: r => some (.Gt, r)
  | .sym .ge :: r => some (.GtE, r)
  | _ => none

/-! ### Expressions -/

variable (p : Parser)

/-- `a if b else c`, after `if b`. -/
def ternaryElse (a b : Val) : List Tok → Res
  | .sym .kElse :: r => seq (p .expr r) fun c r => some (ifExp a b c, r)
  | _ => none

/-- `a if b else c`, after `a`. -/
def ternary (a : Val) : List Tok → Res
  | .sym .kIf :: r => seq (p .disj r) (ternaryElse p a)
  | r => some (a, r)

/-- A conditional expression or a `lambda`. -/
def pExpr : List Tok → Res
  | .sym .kLambda :: r =>
    seq (p (.params false .colon) r) fun a r => seq (p .expr r) fun b r => some (lambda a b, r)
  | ts => seq (p .disj ts) (ternary p)

def pDisj (ts : List Tok) : Res :=
  seq (p .conj ts) fun a r => seq (p .disjRest r) fun l r => some (boolOp .Or a (Val.elts l), r)

def pDisjRest : List Tok → Res
  | .sym .kOr :: r => seq (p .conj r) fun b r => seq (p .disjRest r) fun l r => some (cons b l, r)
  | r => some (.list [], r)

def pConj (ts : List Tok) : Res :=
  seq (p .inv ts) fun a r => seq (p .conjRest r) fun l r => some (boolOp .And a (Val.elts l), r)

def pConjRest : List Tok → Res
  | .sym .kAnd :: r => seq (p .inv r) fun b r => seq (p .conjRest r) fun l r => some (cons b l, r)
  | r => some (.list [], r)

def pInv : List Tok → Res
  | .sym .kNot :: r => seq (p .inv r) fun a r => some (unaryOp .Not a, r)
  | ts => p .cmp ts

def pCmp (ts : List Tok) : Res :=
  seq (p (.bin 0) ts) fun a r => seq (p .cmpRest r) fun l r => some (compare a (Val.elts l), r)

/-- A list of pairs of an operator and an operand. -/
def pCmpRest (ts : List Tok) : Res :=
  match cmpOp? ts with
  | some (k, r) =>
    seq (p (.bin 0) r) fun b r => seq (p .cmpRest r) fun l r => some (cons (.list [mk k [], b]) l, r)
  | none => some (.list [], ts)

def pBin (l : Nat) (ts : List Tok) : Res := seq (p (binNext l) ts) fun a r => p (.binRest l a) r

def pBinRest (l : Nat) (a : Val) (ts : List Tok) : Res :=
  match binOp? l ts with
  | some (k, r) => seq (p (binNext l) r) fun b r => p (.binRest l (binOp a k b)) r
  | none => some (a, ts)

/-- A sign at the beginning. -/
def unOp? : List Tok → Option (K × List Tok)
  | .sym s :: r => (unSym s).map fun k => (k, r)
  | _ => none

def pFactor (ts : List Tok) : Res :=
  match unOp? ts with
  | some (k, r) => seq (p .factor r) fun a r => some (unaryOp k a, r)
  | none => p .power ts

/-- `a ** b`, after `a`. -/
def powerRest (a : Val) : List Tok → Res
  | .sym .starStar :: r => seq (p .factor r) fun b r => some (binOp a .Pow b, r)
  | r => some (a, r)

def pPower (ts : List Tok) : Res := seq (p .await ts) (powerRest p)

def pAwait : List Tok → Res
  | .sym .kAwait :: r => seq (p .primary r) fun a r => some (mk .Await [(.value, a)], r)
  | ts => p .primary ts

def pPrimary (ts : List Tok) : Res := seq (p .atom ts) fun a r => p (.primRest a) r

/-- Positional arguments come first. -/
def callParts : List Val → Option (List Val × List Val)
  | [] => some ([], [])
  | x :: xs =>
    match callParts xs with
    | some (as, ks) =>
      if x.isK .keyword then (if as.isEmpty then some ([], x :: ks) else none) else some (x :: as, ks)
    | none => none

/-- Calls, after the closing parenthesis. -/
def callOf (f : Val) (xs : List Val) : Option Val :=
  (callParts xs).map fun (as, ks) => mk .Call [(.func, f), (.args, .list as), (.keywords, .list ks)]

def callRest (a l : Val) (r : List Tok) : Res :=
  match callOf a (Val.elts l) with
  | some v => p (.primRest v) r
  | none => none

/-- Attributes, calls and subscripts. -/
def pPrimRest (a : Val) : List Tok → Res
  | .sym .dot :: .name s :: r => p (.primRest (attrOf a s)) r
  | .sym .lpar :: r => seq (p (.items .arg .rpar) r) (callRest p a)
  | .sym .lbrack :: r => seq (p .subs r) fun s r => p (.primRest (subscript a s)) r
  | r => some (a, r)

def pAtom : List Tok → Res
  | .name s :: r => some (name s, r)
  | .int n :: r => some (constant (.int n), r)
  | .float x :: r => some (constant (.float x), r)
  | .imag x :: r => some (constant (.complex x), r)
  | .str u s :: r => some (constantU u s, r)
  | .bytes b :: r => some (constant (.bytes b), r)
  | .sym .kTrue :: r => some (constant (.bool true), r)
  | .sym .kFalse :: r => some (constant (.bool false), r)
  | .sym .kNone :: r => some (constant .none, r)
  | .sym .ellipsis :: r => some (constant .ellipsis, r)
  | .sym .lpar :: r => p .paren r
  | .sym .lbrack :: r => p .brack r
  | .sym .lbrace :: r => p .brace r
  | _ => none

/-! ### Lists in brackets -/

/-- An element of a display: `*a`, or an expression. -/
def pElem : List Tok → Res
  | .sym .star :: r => seq (p (.bin 0) r) fun a r => some (starred a, r)
  | ts => p .expr ts

/-- After an item: a comma, or the end. -/
def itemsRest (item : NT) (close : Sym) (x : Val) : List Tok → Res
  | .sym .comma :: r => seq (p (.items item close) r) fun l r => some (cons x l, r)
  | .sym s :: r => if s = close then some (.list [x], r) else none
  | _ => none

/-- Items separated by commas up to and including the closing symbol; a comma after the last one is allowed. -/
def pItems (item : NT) (close : Sym) (ts : List Tok) : Res :=
  if ts.head? = some (.sym close) then some (.list [], ts.tail)
  else seq (p item ts) (itemsRest p item close)

/-- The closing symbol. -/
def close (s : Sym) (v : Val) : List Tok → Res
  | .sym s' :: r => if s = s' then some (v, r) else none
  | _ => none

/-- A comprehension, after the element(s); `e` makes the tree. -/
def compRest (s : Sym) (e : Val → Val) (ts : List Tok) : Res := seq (p .comps ts) fun gs r => close s (e gs) r

def generator (k : K) (a gs : Val) : Val := mk k [(.elt, a), (.generators, gs)]

/-- After the first element in parentheses. -/
def parenRest (a : Val) : List Tok → Res
  | .sym .comma :: r => seq (p (.items .elem .rpar) r) fun l r => some (tuple (a :: Val.elts l), r)
  | .sym .rpar :: r => if isStarred a then none else some (a, r)
  | .sym .kFor :: r => if isStarred a then none else compRest p .rpar (generator .GeneratorExp a) (.sym .kFor :: r)
  | .sym .kAsync :: r => if isStarred a then none else compRest p .rpar (generator .GeneratorExp a) (.sym .kAsync :: r)
  | _ => none

/-- After an opening parenthesis. -/
def pParen : List Tok → Res
  | .sym .rpar :: r => some (tuple [], r)
  | .sym .kYield :: .sym .kFrom :: r => seq (p .expr r) fun a r => close .rpar (mk .YieldFrom [(.value, a)]) r
  | .sym .kYield :: .sym .rpar :: r => some (mk .Yield [(.value, .none)], r)
  | .sym .kYield :: r => seq (p .expr r) fun a r => close .rpar (mk .Yield [(.value, a)]) r
  | .name x :: .sym .colonEq :: r => seq (p .expr r) fun a r => close .rpar (namedExpr x a) r
  | ts => seq (p .elem ts) (parenRest p)

/-- After the first element in square brackets. -/
def brackRest (a : Val) : List Tok → Res
  | .sym .comma :: r => seq (p (.items .elem .rbrack) r) fun l r => some (list (a :: Val.elts l), r)
  | .sym .rbrack :: r => some (list [a], r)
  | .sym .kFor :: r => if isStarred a then none else compRest p .rbrack (generator .ListComp a) (.sym .kFor :: r)
  | .sym .kAsync :: r => if isStarred a then none else compRest p .rbrack (generator .ListComp a) (.sym .kAsync :: r)
  | _ => none

/-- After an opening square bracket that begins an expression. -/
def pBrack : List Tok → Res
  | .sym .rbrack :: r => some (list [], r)
  | ts => seq (p .elem ts) (brackRest p)

/-- After a pair of a dict display. -/
def pairsRest (kv : Val) : List Tok → Res
  | .sym .comma :: r => seq (p .pairs r) fun l r => some (cons kv l, r)
  | .sym .rbrace :: r => some (.list [kv], r)
  | _ => none

/-- The value after a key. -/
def pairValue (k : Val) : List Tok → Res
  | .sym .colon :: r => seq (p .expr r) fun v r => pairsRest p (.list [k, v]) r
  | _ => none

/-- Pairs of a dict display up to and including the brace; `**d` has the key `None`. -/
def pPairs : List Tok → Res
  | .sym .rbrace :: r => some (.list [], r)
  | .sym .starStar :: r => seq (p (.bin 0) r) fun v r => pairsRest p (.list [.none, v]) r
  | ts => seq (p .expr ts) (pairValue p)

def dictComp (k v gs : Val) : Val := mk .DictComp [(.key, k), (.value, v), (.generators, gs)]

/-- After the first pair in braces. -/
def dictRest (k v : Val) : List Tok → Res
  | .sym .kFor :: r => compRest p .rbrace (dictComp k v) (.sym .kFor :: r)
  | .sym .kAsync :: r => compRest p .rbrace (dictComp k v) (.sym .kAsync :: r)
  | ts => seq (pairsRest p (.list [k, v]) ts) fun l r => some (dict (Val.elts l), r)

/-- After the first element in braces. -/
def braceRest (a : Val) : List Tok → Res
  | .sym .colon :: r => if isStarred a then none else seq (p .expr r) (dictRest p a)
  | .sym .comma :: r => seq (p (.items .elem .rbrace) r) fun l r => some (mk .Set [(.elts, cons a l)], r)
  | .sym .rbrace :: r => some (mk .Set [(.elts, .list [a])], r)
  | .sym .kFor :: r => if isStarred a then none else compRest p .rbrace (generator .SetComp a) (.sym .kFor :: r)
  | .sym .kAsync :: r => if isStarred a then none else compRest p .rbrace (generator .SetComp a) (.sym .kAsync :: r)
  | _ => none

/-- After an opening brace. -/
def pBrace : List Tok → Res
  | .sym .rbrace :: r => some (dict [], r)
  | .sym .starStar :: r => seq (p .pairs (.sym .starStar :: r)) fun l r => some (dict (Val.elts l), r)
  | ts => seq (p .elem ts) (braceRest p)

/-! ### Comprehensions -/

/-- `for target in iter if ... if ...`, after the target. -/
def compIn (isAsync : Int) (t : Val) : List Tok → Res
  | .sym .kIn :: r =>
    seq (p .disj r) fun i r => seq (p .ifs r) fun l r => seq (p .comps r) fun gs r =>
      some (cons (mk .comprehension [(.target, t), (.iter, i), (.ifs, l), (.is_async, .int isAsync)]) gs, r)
  | _ => none

/-- A list of `for` clauses; it may be empty. -/
def pComps : List Tok → Res
  | .sym .kAsync :: .sym .kFor :: r => seq (p .target r) (compIn p 1)
  | .sym .kFor :: r => seq (p .target r) (compIn p 0)
  | r => some (.list [], r)

def pIfs : List Tok → Res
  | .sym .kIf :: r => seq (p .disj r) fun a r => seq (p .ifs r) fun l r => some (cons a l, r)
  | r => some (.list [], r)

/-- As a target, the rest unchanged. -/
def asTarget (ctx : K) (v : Val) (r : List Tok) : Res := (toCtx ctx v).map fun v => (v, r)

/-- The target of a `for`. -/
def pTarget : List Tok → Res
  | .sym .star :: r => seq (p .primary r) fun v r => asTarget .Store (starred v) r
  | ts => seq (p .primary ts) (asTarget .Store)

/-! ### Subscripts -/

/-- Nothing more in this part of a slice. -/
def sliceEnds (ts : List Tok) : Bool :=
  ts.head? = some (.sym .colon) || ts.head? = some (.sym .comma) || ts.head? = some (.sym .rbrack)

/-- The step, after the second colon. -/
def sliceStep (a b : Val) (ts : List Tok) : Res :=
  if sliceEnds ts then some (sliceOf a b .none, ts) else seq (p .expr ts) fun c r => some (sliceOf a b c, r)

/-- After the upper bound. -/
def sliceColon (a b : Val) : List Tok → Res
  | .sym .colon :: r => sliceStep p a b r
  | r => some (sliceOf a b .none, r)

/-- The upper bound, after the first colon. -/
def sliceUpper (a : Val) (ts : List Tok) : Res :=
  if sliceEnds ts then sliceColon p a .none ts else seq (p .expr ts) (sliceColon p a)

/-- After an expression in a subscript. -/
def sliceRest (a : Val) : List Tok → Res
  | .sym .colon :: r => sliceUpper p a r
  | r => some (a, r)

def pSlice : List Tok → Res
  | .sym .star :: r => seq (p (.bin 0) r) fun a r => some (starred a, r)
  | .sym .colon :: r => sliceUpper p .none r
  | ts => seq (p .expr ts) (sliceRest p)

/-- After the first slice.  `a[*b]` is `a[(*b,)]`. -/
def subsRest (a : Val) : List Tok → Res
  | .sym .comma :: r => seq (p (.items .slice .rbrack) r) fun l r => some (tuple (a :: Val.elts l), r)
  | .sym .rbrack :: r => some (if isStarred a then tuple [a] else a, r)
  | _ => none

/-- A subscript, up to and including the bracket. -/
def pSubs (ts : List Tok) : Res := seq (p .slice ts) (subsRest p)

/-! ### Arguments and parameters -/

def pArg : List Tok → Res
  | .sym .star :: r => seq (p .expr r) fun a r => some (starred a, r)
  | .sym .starStar :: r => seq (p .expr r) fun a r => some (keywordOf .none a, r)
  | .name x :: .sym .eq :: r => seq (p .expr r) fun a r => some (keywordOf (.str x) a, r)
  | ts => p .expr ts

/-- An optional annotation; `nt` is what it may be. -/
def annotation (annotated : Bool) (nt : NT) (ts : List Tok) : Res :=
  match annotated, ts with
  | true, .sym .colon :: r => p nt r
  | _, r => some (.none, r)

/-- An optional default value. -/
def defaultValue : List Tok → Res
  | .sym .eq :: r => p .expr r
  | r => some (.none, r)

/-- A parameter, as a pair: the parameter with its default value; `"*"` or `"**"` with the parameter; or one of the
separators `"/"` and `"*"`. -/
def pParam (annotated : Bool) : List Tok → Res
  | .sym .slash :: r => some (.str "/", r)
  | .sym .star :: .name x :: r =>
    seq (annotation p annotated .elem r) fun a r => some (.list [.str "*", argOf x a], r)
  | .sym .star :: r => some (.str "*", r)
  | .sym .starStar :: .name x :: r =>
    seq (annotation p annotated .expr r) fun a r => some (.list [.str "**", argOf x a], r)
  | .name x :: r =>
    seq (annotation p annotated .expr r) fun a r => seq (defaultValue p r) fun d r => some (.list [argOf x a, d], r)
  | _ => none

/-- The ordinary parameters at the beginning, and the rest. -/
def takePlain : List Val → List Val × List Val
  | .list [.node c l fs, d] :: r => (.list [.node c l fs, d] :: (takePlain r).1, (takePlain r).2)
  | r => ([], r)

/-- The positional-only parameters, and the rest. -/
def takePosonly (xs : List Val) : Option (List Val × List Val) :=
  match takePlain xs with
  | (ys, .str "/" :: r) => if ys.isEmpty then none else some (ys, r)
  | _ => some ([], xs)

/-- `*args`, and the keyword-only parameters. -/
def takeStar : List Val → Option (Val × List Val × List Val)
  | .str "*" :: r =>
    if (takePlain r).1.isEmpty then none else some (.none, takePlain r)
  | .list [.str "*", a] :: r => some (a, takePlain r)
  | r => some (.none, [], r)

/-- `**kwargs`, which is the last one. -/
def takeDouble : List Val → Option Val
  | [] => some .none
  | [.list [.str "**", a]] => some a
  | _ => none

/-- The default values: parameters without one come first. -/
def defaultsOf (ds : List Val) : Option (List Val) :=
  let ds := ds.dropWhile Val.isNone
  if ds.any Val.isNone then none else some ds

/-- The tree for the parameters. -/
def assemble (xs : List Val) : Option Val :=
  match takePosonly xs with
  | none => none
  | some (ps, r) =>
    match takeStar (takePlain r).2 with
    | none => none
    | some (vararg, ks, r') =>
      match takeDouble r', defaultsOf ((ps ++ (takePlain r).1).map snd) with
      | some kwarg, some ds =>
        some (mk .arguments [(.posonlyargs, .list (ps.map fst)), (.args, .list ((takePlain r).1.map fst)),
          (.vararg, vararg), (.kwonlyargs, .list (ks.map fst)), (.kw_defaults, .list (ks.map snd)), (.kwarg, kwarg),
          (.defaults, .list ds)])
      | _, _ => none

def assembleRest (l : Val) (r : List Tok) : Res := (assemble (Val.elts l)).map fun a => (a, r)

def pParams (annotated : Bool) (s : Sym) (ts : List Tok) : Res := seq (p (.items (.param annotated) s) ts) assembleRest

end Mcpyrate.PyText
