import Verif.Spec.PatternTree
/-
The statements of C47: the ASTs that Python's parser returns for statements, as far as they are covered.  Compare
"Abstract Grammar" in the documentation of the module `ast`.

Left out: type parameters of functions and classes, type comments, what is left out of expressions (see Spec/ExprTree.lean)
and of patterns (see Spec/PatternTree.lean), and a `with` whose only item is a tuple display without `as` and without
starred elements (which is not written in a way that is read back, see `C47_withTuple_violated`).
-/
namespace Mcpyrate.PyText
open Py

/-- `a.b.c`. -/
def dottedName : List String → String
  | [] => ""
  | [x] => x
  | x :: xs => x ++ "." ++ dottedName xs

variable (P : Reading)

/-- The name after `as`, or `None`. -/
def OptName (v : Val) : Prop := v = .none ∨ ∃ x, IsName P x ∧ v = .str x

/-- An item of `import`. -/
def ImportAlias (v : Val) : Prop :=
  ∃ xs n, xs ≠ [] ∧ (∀ x ∈ xs, IsName P x) ∧ OptName P n ∧ v = aliasOf (.str (dottedName xs)) n

/-- An item of `from … import`. -/
def FromAlias (v : Val) : Prop := ∃ x n, IsName P x ∧ OptName P n ∧ v = aliasOf (.str x) n

/-- What is imported from a module. -/
def FromNames (ns : List Val) : Prop := ns = [aliasOf (.str "*") .none] ∨ (ns ≠ [] ∧ ∀ n ∈ ns, FromAlias P n)

/-- The module of `from … import`, and the number of dots before it. -/
def FromModule (m : Val) (level : Nat) : Prop :=
  (m = .none ∧ level ≠ 0) ∨ ∃ xs, xs ≠ [] ∧ (∀ x ∈ xs, IsName P x) ∧ m = .str (dottedName xs)

/-- An assignment target: an expression with `Store` as its context. -/
def IsTarget (t : Val) : Prop := ∃ w, Item P w ∧ toCtx .Store w = some t

/-- A target that is a name, an attribute or a subscript. -/
def IsSingle (t : Val) : Prop := ∃ w, Expr P w ∧ single w = some t

/-- The target of `del`. -/
def IsDelTarget (t : Val) : Prop := ∃ w, Expr P w ∧ toCtx .Del w = some t

/-- An item of `with`. -/
def WithItem (v : Val) : Prop := ∃ a t, Expr P a ∧ (t = .none ∨ IsTarget P t) ∧ v = withItemOf a t

/-- `*args` of a function, with or without an annotation, which may be starred (`*args: *a`). -/
def ArgsArg (v : Val) : Prop := v = .none ∨ ∃ x a, IsName P x ∧ (a = .none ∨ Item P a) ∧ v = argOf x a

/-- `**kwargs` of a function, with or without an annotation. -/
def StarArg (v : Val) : Prop := v = .none ∨ ∃ x a, IsName P x ∧ Opt P a ∧ v = argOf x a

/-- The parameters of a function. -/
def IsArguments (v : Val) : Prop :=
  ∃ ps as ks a b ds, (∀ p ∈ ps ++ as ++ ks, IsName P p.name ∧ Opt P p.ann ∧ Opt P p.default) ∧ ArgsArg P a ∧ StarArg P b ∧
    defaultsOf ((ps ++ as).map Param.default) = some ds ∧ v = argumentsTree ps as a ks b ds

/-- A type parameter: `T`, `T: b`, `*Ts` or `**P`. -/
def TypeParam (v : Val) : Prop :=
  (∃ x b, IsName P x ∧ Opt P b ∧ v = typeVarOf x b) ∨ ∃ k x, (k = .TypeVarTuple ∨ k = .ParamSpec) ∧ IsName P x ∧ v = typeStarOf k x

mutual
/-- A statement. -/
inductive Stmt : Val → Prop
  | expr {a : Val} (h : Expr P a) : Stmt (exprOf a)
  | pass : Stmt (mk .Pass [])
  | «break» : Stmt (mk .Break [])
  | «continue» : Stmt (mk .Continue [])
  | «return» {a : Val} (h : Opt P a) : Stmt (returnOf a)
  | delete {ts : List Val} (hn : ts ≠ []) (h : ∀ t ∈ ts, IsDelTarget P t) : Stmt (deleteOf ts)
  | assign {ts : List Val} {a : Val} (hn : ts ≠ []) (ht : ∀ t ∈ ts, IsTarget P t) (h : Expr P a) : Stmt (assignTree ts a)
  | augAssign {t a : Val} {k : K} (hk : k ∈ binaryOps) (ht : IsSingle P t) (h : Expr P a) : Stmt (augAssignOf t k a)
  /-- `x: a = v` -/
  | annName {x : String} {a v : Val} (hx : IsName P x) (h : Expr P a) (hv : Opt P v) : Stmt (annAssignOf (name x .Store) a v 1)
  /-- With another target, or a name in parentheses. -/
  | annOther {t a v : Val} (ht : IsSingle P t) (h : Expr P a) (hv : Opt P v) : Stmt (annAssignOf t a v 0)
  | «import» {ns : List Val} (hn : ns ≠ []) (h : ∀ n ∈ ns, ImportAlias P n) : Stmt (importOf ns)
  | importFrom {m : Val} {ns : List Val} {level : Nat} (hm : FromModule P m level) (h : FromNames P ns) :
      Stmt (importFromOf m ns level)
  | scope {k : K} {xs : List String} (hk : k = .Global ∨ k = .Nonlocal) (hn : xs ≠ []) (h : ∀ x ∈ xs, IsName P x) :
      Stmt (globalOf k (xs.map .str))
  | assert {a b : Val} (ha : Expr P a) (hb : Opt P b) : Stmt (assertOf a b)
  | reraise : Stmt (raiseOf .none .none)
  | raise {a b : Val} (ha : Expr P a) (hb : Opt P b) : Stmt (raiseOf a b)
  | «if» {t : Val} {b e : List Val} (ht : Expr P t) (hn : b ≠ []) (hb : ∀ s ∈ b, Stmt s) (he : ∀ s ∈ e, Stmt s) : Stmt (ifOf t b e)
  | «while» {t : Val} {b e : List Val} (ht : Expr P t) (hn : b ≠ []) (hb : ∀ s ∈ b, Stmt s) (he : ∀ s ∈ e, Stmt s) :
      Stmt (whileOf t b e)
  | «for» {k : K} {t i : Val} {b e : List Val} (hk : k = .For ∨ k = .AsyncFor) (ht : IsTarget P t) (hi : Expr P i) (hn : b ≠ [])
      (hb : ∀ s ∈ b, Stmt s) (he : ∀ s ∈ e, Stmt s) : Stmt (forOf k t i b e)
  | «with» {k : K} {is b : List Val} (hk : k = .With ∨ k = .AsyncWith) (hi : is ≠ []) (hw : ∀ i ∈ is, WithItem P i)
      (ht : inParens is = none) (hn : b ≠ []) (hb : ∀ s ∈ b, Stmt s) : Stmt (withOf k is b)
  /-- Without handlers. -/
  | tryFinally {b f : List Val} (hn : b ≠ []) (hb : ∀ s ∈ b, Stmt s) (hn' : f ≠ []) (hf : ∀ s ∈ f, Stmt s) : Stmt (tryOf false b [] [] f)
  | «try» {star : Bool} {b hs e f : List Val} (hn : b ≠ []) (hb : ∀ s ∈ b, Stmt s) (hn' : hs ≠ []) (hh : ∀ h ∈ hs, Handler star h)
      (he : ∀ s ∈ e, Stmt s) (hf : ∀ s ∈ f, Stmt s) : Stmt (tryOf star b hs e f)
  | function {k : K} {x : String} {a r : Val} {b ds : List Val} (hk : k = .FunctionDef ∨ k = .AsyncFunctionDef) (hx : IsName P x)
      (ha : IsArguments P a) (hn : b ≠ []) (hb : ∀ s ∈ b, Stmt s) (hd : ∀ d ∈ ds, Expr P d) (hr : Opt P r) :
      Stmt (functionOf k x a b ds r)
  | «class» {x : String} {as ks b ds : List Val} (hx : IsName P x) (ha : ∀ a ∈ as, Item P a) (hk : ∀ k ∈ ks, Keyword P k)
      (hn : b ≠ []) (hb : ∀ s ∈ b, Stmt s) (hd : ∀ d ∈ ds, Expr P d) : Stmt (classOf x as ks b ds)
  | «match» {a : Val} {cs : List Val} (ha : Expr P a) (hn : cs ≠ []) (hc : ∀ c ∈ cs, Case c) : Stmt (matchTree a cs)
  /-- `type x[T, …] = a` -/
  | typeAlias {x : String} {ps : List Val} {a : Val} (hx : IsName P x) (hp : ∀ p ∈ ps, TypeParam P p) (ha : Expr P a) :
      Stmt (typeAliasOf x ps a)
/-- An `except` (or `except*`) clause. -/
inductive Handler : Bool → Val → Prop
  | typed {star : Bool} {t n : Val} {b : List Val} (ht : Expr P t) (hx : OptName P n) (hn : b ≠ []) (hb : ∀ s ∈ b, Stmt s) :
      Handler star (handlerOf t n b)
  | bare {b : List Val} (hn : b ≠ []) (hb : ∀ s ∈ b, Stmt s) : Handler false (handlerOf .none .none b)
/-- A `case` clause. -/
inductive Case : Val → Prop
  | case {p g : Val} {b : List Val} (hp : Pattern P p) (hg : Opt P g) (hn : b ≠ []) (hb : ∀ s ∈ b, Stmt s) : Case (caseOf p g b)
end

/-- What `ast.parse` returns for a source text with these statements. -/
def moduleOf (body : List Val) : Val := mk .Module [(.body, .list body), (.type_ignores, .list [])]

end Mcpyrate.PyText
