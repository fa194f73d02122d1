import Verif.Spec.PyGrammar
/-
Reference parser for C47, the patterns of `match` statements: a sub-language of the grammar of Python 3.12 (`patterns` and
what follows it in the "Full Grammar specification" in the Python language reference).

As for expressions, the parser is deliberately partial: what it accepts, Python parses to the tree it returns.  Left out are
sequences without brackets (`case a, b:`) and the concatenation of adjacent strings, which are other ways of writing the
same trees; and f-strings, which are not allowed in patterns.
-/
namespace Mcpyrate.PyText
open Py

/-! ### Trees -/

def matchValue (v : Val) : Val := mk .MatchValue [(.value, v)]
def matchSingleton (c : Const) : Val := mk .MatchSingleton [(.value, .const c)]
/-- `p as x`, a name (where `p` is `None`), or `_` (where both are `None`). -/
def matchAs (p x : Val) : Val := mk .MatchAs [(.pattern, p), (.name, x)]
def matchOr (ps : List Val) : Val := mk .MatchOr [(.patterns, .list ps)]
def matchSequence (ps : List Val) : Val := mk .MatchSequence [(.patterns, .list ps)]
def matchStar (x : Val) : Val := mk .MatchStar [(.name, x)]
def matchMapping (ks ps : List Val) (rest : Val) : Val :=
  mk .MatchMapping [(.keys, .list ks), (.patterns, .list ps), (.rest, rest)]
def matchClass (c : Val) (ps xs qs : List Val) : Val :=
  mk .MatchClass [(.cls, c), (.patterns, .list ps), (.kwd_attrs, .list xs), (.kwd_patterns, .list qs)]
def caseOf (p g : Val) (b : List Val) : Val := mk .match_case [(.pattern, p), (.guard, g), (.body, .list b)]
def matchTree (s : Val) (cs : List Val) : Val := mk .Match [(.subject, s), (.cases, .list cs)]

/-! ### Values -/

/-- After a real number: an imaginary one may be added or subtracted. -/
def complexRest (a : Val) : List Tok → Res
  | .sym .plus :: .imag x :: r => some (binOp a .Add (constant (.complex x)), r)
  | .sym .minus :: .imag x :: r => some (binOp a .Sub (constant (.complex x)), r)
  | r => some (a, r)

/-- A number, with or without a sign; or a complex number. -/
def pNumber : List Tok → Res
  | .int n :: r => complexRest (constant (.int n)) r
  | .float x :: r => complexRest (constant (.float x)) r
  | .imag x :: r => some (constant (.complex x), r)
  | .sym .minus :: .int n :: r => complexRest (unaryOp .USub (constant (.int n))) r
  | .sym .minus :: .float x :: r => complexRest (unaryOp .USub (constant (.float x))) r
  | .sym .minus :: .imag x :: r => some (unaryOp .USub (constant (.complex x)), r)
  | _ => none

/-- Attributes. -/
def attrs (v : Val) : List Tok → Val × List Tok
  | .sym .dot :: .name x :: r => attrs (attrOf v x) r
  | r => (v, r)

/-- A key of a mapping. -/
def patKey : List Tok → Res
  | .str u s :: r => some (constantU u s, r)
  | .bytes b :: r => some (constant (.bytes b), r)
  | .sym .kTrue :: r => some (constant (.bool true), r)
  | .sym .kFalse :: r => some (constant (.bool false), r)
  | .sym .kNone :: r => some (constant .none, r)
  | .name x :: r => if (attrs (name x) r).1.isK .Attribute then some (attrs (name x) r) else none
  | ts => pNumber ts

/-! ### Patterns -/

variable (p : Parser)

/-- A star, and a name or `_`; or a pattern. -/
def pPatElem : List Tok → Res
  | .sym .star :: .name x :: r => some (matchStar (if x = "_" then .none else .str x), r)
  | ts => p .pattern ts

/-- After the first element in parentheses. -/
def patParenRest (a : Val) : List Tok → Res
  | .sym .comma :: r => seq (p (.items .patElem .rpar) r) fun l r => some (matchSequence (a :: Val.elts l), r)
  | .sym .rpar :: r => if a.isK .MatchStar then none else some (a, r)
  | _ => none

/-- After an opening parenthesis: a sequence, or a pattern in parentheses. -/
def pPatParen : List Tok → Res
  | .sym .rpar :: r => some (matchSequence [], r)
  | ts => seq (p .patElem ts) (patParenRest p)

/-- A key with a pattern, as a pair; or `**x`, as a list with the name. -/
def pPatPair : List Tok → Res
  | .sym .starStar :: .name x :: r => if x = "_" then none else some (.list [.str x], r)
  | ts => seq (patKey ts) fun k r =>
    match r with
    | .sym .colon :: r => seq (p .pattern r) fun v r => some (.list [k, v], r)
    | _ => none

/-- The keys, the patterns and the name after `**`, which comes last. -/
def mappingParts : List Val → Option (List Val × List Val × Val)
  | [] => some ([], [], .none)
  | [.list [.str x]] => some ([], [], .str x)
  | .list [k, v] :: r => (mappingParts r).map fun (ks, ps, rest) => (k :: ks, v :: ps, rest)
  | _ => none

/-- An argument of a class pattern; those with a keyword are represented as in a call. -/
def pPatArg : List Tok → Res
  | .name x :: .sym .eq :: r => seq (p .pattern r) fun a r => some (keywordOf (.str x) a, r)
  | ts => p .pattern ts

def keywordName : Val → Val
  | .node _ _ [(.arg, x), (.value, _)] => x
  | _ => .none
def keywordValue : Val → Val
  | .node _ _ [(.arg, _), (.value, v)] => v
  | _ => .none

/-- A class pattern, after the closing parenthesis. -/
def classPattern (c l : Val) (r : List Tok) : Res :=
  (callParts (Val.elts l)).map fun (ps, ks) => (matchClass c ps (ks.map keywordName) (ks.map keywordValue), r)

/-- After a name with attributes. -/
def namePattern (v : Val) : List Tok → Res
  | .sym .lpar :: r => seq (p (.items .patArg .rpar) r) (classPattern v)
  | r => some (matchValue v, r)

/-- A name: a wildcard, a capture, a value or a class. -/
def nameStart (x : String) : List Tok → Res
  | .sym .dot :: .name y :: r => namePattern p (attrs (attrOf (name x) y) r).1 (attrs (attrOf (name x) y) r).2
  | .sym .lpar :: r => namePattern p (name x) (.sym .lpar :: r)
  | r => some (matchAs .none (if x = "_" then .none else .str x), r)

/-- A pattern that is not a sequence of alternatives. -/
def pClosedPat : List Tok → Res
  | .str u s :: r => some (matchValue (constantU u s), r)
  | .bytes b :: r => some (matchValue (constant (.bytes b)), r)
  | .sym .kTrue :: r => some (matchSingleton (.bool true), r)
  | .sym .kFalse :: r => some (matchSingleton (.bool false), r)
  | .sym .kNone :: r => some (matchSingleton .none, r)
  | .sym .lpar :: r => p .patParen r
  | .sym .lbrack :: r => seq (p (.items .patElem .rbrack) r) fun l r => some (matchSequence (Val.elts l), r)
  | .sym .lbrace :: r => seq (p (.items .patPair .rbrace) r) fun l r =>
    (mappingParts (Val.elts l)).map fun (ks, ps, rest) => (matchMapping ks ps rest, r)
  | .name x :: r => nameStart p x r
  | ts => seq (pNumber ts) fun v r => some (matchValue v, r)

/-- More alternatives. -/
def pOrRest : List Tok → Res
  | .sym .bar :: r => seq (p .closedPat r) fun a r => seq (p .orRest r) fun l r => some (cons a l, r)
  | r => some (.list [], r)

/-- One alternative or several. -/
def orOf (a : Val) : List Val → Val
  | [] => a
  | b :: bs => matchOr (a :: b :: bs)

/-- After the alternatives. -/
def patAs (a : Val) : List Tok → Res
  | .sym .kAs :: .name x :: r => if x = "_" then none else some (matchAs a (.str x), r)
  | r => some (a, r)

def pPattern (ts : List Tok) : Res :=
  seq (p .closedPat ts) fun a r => seq (p .orRest r) fun l r => patAs (orOf a (Val.elts l)) r

/-! ### Cases -/

def guard : List Tok → Res
  | .sym .kIf :: r => p .expr r
  | r => some (.none, r)

/-- After `case`. -/
def caseRest (ts : List Tok) : Res :=
  seq (p .pattern ts) fun a r => seq (guard p r) fun g r => seq (p .block r) fun b r => some (caseOf a g (Val.elts b), r)

/-- Cases up to the end of the block. -/
def pCases : List Tok → Res
  | .dedent :: r => some (.list [], r)
  | .name x :: r => if x = "case" then seq (caseRest p r) fun c r => seq (p .cases r) fun l r => some (cons c l, r) else none
  | _ => none

/-- The line is followed by an indented block. -/
def opensBlock : List Tok → Bool
  | [] => false
  | .newline :: r => r.head? = some .indent
  | _ :: r => opensBlock r

/-- After the subject. -/
def matchCases (s : Val) : List Tok → Res
  | .sym .colon :: .newline :: .indent :: .name x :: r => seq (p .cases (.name x :: r)) fun cs r => some (matchTree s (Val.elts cs), r)
  | _ => none

/-- After `match`. -/
def matchRest (ts : List Tok) : Res := seq (p .expr ts) (matchCases p)

end Mcpyrate.PyText
