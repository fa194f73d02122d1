import Verif.Spec.Unparse
/-
The expressions of C47: the ASTs that Python's parser returns for expressions, as far as they are covered.  Compare
"Abstract Grammar" in the documentation of the module `ast`.

Left out: f-strings (`JoinedStr`), `**d` in a dict display (a key `None`), and the empty tuple as a subscript (`a[()]`).
-/
namespace Mcpyrate.PyText
open Py

def binaryOps : List K := [.Add, .Sub, .Mult, .Div, .FloorDiv, .Mod, .MatMult, .Pow, .LShift, .RShift, .BitOr, .BitXor, .BitAnd]
def comparisons : List K := [.Eq, .NotEq, .Lt, .LtE, .Gt, .GtE, .Is, .IsNot, .In, .NotIn]

/-- An identifier that is not a keyword. -/
def IsName (P : Reading) (x : String) : Prop := TokOK P (.name x)

/-- `a < b < c`. -/
def compareTree (a : Val) (ps : List (K × Val)) : Val :=
  mk .Compare [(.left, a), (.ops, .list (ps.map fun p => mk p.1 [])), (.comparators, .list (ps.map (·.2)))]

def dictTree (ps : List (Val × Val)) : Val := mk .Dict [(.keys, .list (ps.map (·.1))), (.values, .list (ps.map (·.2)))]

/-- A parameter: its name, annotation and default value; `none` stands for a missing one. -/
structure Param where
  name : String
  ann : Val
  default : Val

/-- The parameters of a function: positional-only, ordinary and keyword-only ones, `*args` and `**kwargs`, and the default
values of the first two. -/
def argumentsTree (ps as : List Param) (vararg : Val) (ks : List Param) (kwarg : Val) (ds : List Val) : Val :=
  mk .arguments [(.posonlyargs, .list (ps.map fun p => argOf p.name p.ann)), (.args, .list (as.map fun p => argOf p.name p.ann)),
    (.vararg, vararg), (.kwonlyargs, .list (ks.map fun p => argOf p.name p.ann)), (.kw_defaults, .list (ks.map (·.default))),
    (.kwarg, kwarg), (.defaults, .list ds)]

/-- A `for` clause of a comprehension; `k` is 1 for `async for`. -/
def clause (k : Int) (t i : Val) (ls : List Val) : Val :=
  mk .comprehension [(.target, t), (.iter, i), (.ifs, .list ls), (.is_async, .int k)]

variable (P : Reading)

mutual
/-- An expression. -/
inductive Expr : Val → Prop
  | name {x : String} (h : IsName P x) : Expr (name x)
  | int (n : Nat) : Expr (constant (.int n))
  /-- The value of a floating point literal. -/
  | float {s : Str} (h : Numeral s) : Expr (constant (.float (P.float s)))
  | imag {s : Str} (h : Numeral s) : Expr (constant (.complex (P.imag s)))
  /-- A string; `u` if it was written with the prefix `u`. -/
  | str (u : Bool) (s : String) : Expr (constantU u s)
  | bytes {b : List Nat} (h : ∀ x ∈ b, x < 256) : Expr (constant (.bytes b))
  | bool (b : Bool) : Expr (constant (.bool b))
  | none : Expr (constant .none)
  | ellipsis : Expr (constant .ellipsis)
  | binOp {k : K} {a b : Val} (hk : k ∈ binaryOps) (ha : Expr a) (hb : Expr b) : Expr (binOp a k b)
  | unaryOp {k : K} {a : Val} (hk : k ∈ [K.UAdd, .USub, .Invert, .Not]) (ha : Expr a) : Expr (unaryOp k a)
  | boolOp {k : K} {xs : List Val} (hk : k = .And ∨ k = .Or) (hl : 2 ≤ xs.length) (h : ∀ x ∈ xs, Expr x) :
      Expr (mk .BoolOp [(.op, mk k []), (.values, .list xs)])
  | compare {a : Val} {ps : List (K × Val)} (ha : Expr a) (hp : ps ≠ []) (hk : ∀ p ∈ ps, p.1 ∈ comparisons)
      (h : ∀ p ∈ ps, Expr p.2) : Expr (compareTree a ps)
  | ifExp {a b c : Val} (ha : Expr a) (hb : Expr b) (hc : Expr c) : Expr (ifExp a b c)
  | namedExpr {x : String} {a : Val} (hx : IsName P x) (ha : Expr a) : Expr (namedExpr x a)
  | await {a : Val} (h : Expr a) : Expr (mk .Await [(.value, a)])
  | yield {a : Val} (h : Expr a) : Expr (mk .Yield [(.value, a)])
  | yieldNone : Expr (mk .Yield [(.value, .none)])
  | yieldFrom {a : Val} (h : Expr a) : Expr (mk .YieldFrom [(.value, a)])
  | tuple {xs : List Val} (h : ∀ x ∈ xs, Item x) : Expr (tuple xs)
  | list {xs : List Val} (h : ∀ x ∈ xs, Item x) : Expr (list xs)
  | set {xs : List Val} (hx : xs ≠ []) (h : ∀ x ∈ xs, Item x) : Expr (mk .Set [(.elts, .list xs)])
  | dict {ps : List (Val × Val)} (hk : ∀ p ∈ ps, Expr p.1) (hv : ∀ p ∈ ps, Expr p.2) : Expr (dictTree ps)
  | comprehension {k : K} {a : Val} {gs : List Val} (hk : k ∈ [K.ListComp, .SetComp, .GeneratorExp]) (ha : Expr a)
      (hg : gs ≠ []) (h : ∀ g ∈ gs, Clause g) : Expr (generator k a (.list gs))
  | dictComp {a b : Val} {gs : List Val} (ha : Expr a) (hb : Expr b) (hg : gs ≠ []) (h : ∀ g ∈ gs, Clause g) :
      Expr (dictComp a b (.list gs))
  | attribute {a : Val} {x : String} (ha : Expr a) (hx : IsName P x) : Expr (attrOf a x)
  | subscript {a s : Val} (ha : Expr a) (hs : Expr s) (ht : s.isK .Tuple = false) : Expr (subscript a s)
  | subscriptSlice {a x y z : Val} (ha : Expr a) (hx : Opt x) (hy : Opt y) (hz : Opt z) : Expr (subscript a (sliceOf x y z))
  | subscriptTuple {a : Val} {xs : List Val} (ha : Expr a) (hx : xs ≠ []) (h : ∀ x ∈ xs, Index x) :
      Expr (subscript a (tuple xs))
  | call {f : Val} {as ks : List Val} (hf : Expr f) (ha : ∀ a ∈ as, Item a) (hk : ∀ k ∈ ks, Keyword k) :
      Expr (mk .Call [(.func, f), (.args, .list as), (.keywords, .list ks)])
  | lambda {ps as ks : List Param} {v w b : Val} {ds : List Val}
      (hn : ∀ p ∈ ps ++ as ++ ks, IsName P p.name) (ha : ∀ p ∈ ps ++ as ++ ks, p.ann = .none)
      (hv : Star v) (hw : Star w) (ho : ∀ p ∈ ps ++ as ++ ks, Opt p.default)
      (hd : defaultsOf ((ps ++ as).map Param.default) = some ds) (hb : Expr b) :
      Expr (lambda (argumentsTree ps as v ks w ds) b)
/-- An element of a tuple, list or set, or a positional argument: `a` or `*a`. -/
inductive Item : Val → Prop
  | expr {a : Val} (h : Expr a) : Item a
  | starred {a : Val} (h : Expr a) : Item (starred a)
/-- One of several indices. -/
inductive Index : Val → Prop
  | item {a : Val} (h : Item a) : Index a
  | slice {a b c : Val} (ha : Opt a) (hb : Opt b) (hc : Opt c) : Index (sliceOf a b c)
/-- `None`, or an expression. -/
inductive Opt : Val → Prop
  | none : Opt .none
  | some {a : Val} (h : Expr a) : Opt a
/-- A keyword argument: `**d`, or `x=a`. -/
inductive Keyword : Val → Prop
  | doubleStar {a : Val} (h : Expr a) : Keyword (keywordOf .none a)
  | named {x : String} {a : Val} (hx : IsName P x) (h : Expr a) : Keyword (keywordOf (.str x) a)
/-- A `for` clause.  The target is an expression with `Store` as its context. -/
inductive Clause : Val → Prop
  | clause {k : Int} {w t i : Val} {ls : List Val} (hk : k = 0 ∨ k = 1) (hw : Item w) (ht : toCtx .Store w = .some t) (hi : Expr i)
      (hl : ∀ l ∈ ls, Expr l) : Clause (clause k t i ls)
/-- `*args` or `**kwargs` of a `lambda`. -/
inductive Star : Val → Prop
  | none : Star .none
  | arg {x : String} (hx : IsName P x) : Star (argOf x .none)
end

end Mcpyrate.PyText
