import Verif.Spec.QuoteOps
import Verif.Spec.Captures
/-
What quasiquoted code evaluates to (C58).
-/
namespace Mcpyrate.Quotes
open Py

variable {σ : Type}

/-- In the state `st`, the expression `e` has the value `v`, and evaluating it leaves the state `st'`. -/
def Evaluates (H : Host σ) (e : Obj) (st : St σ) (v : Obj) (st' : St σ) : Prop := eval H e st = some (.ok v, st')

mutual
/-- Values that can be written as an expression: constants (but complex numbers), lists and tuples; sets and dicts that
Python rebuilds from their items; and syntax trees as the parser builds them. -/
inductive Data (H : Host σ) : Obj → Prop
  | const {c : Const} (h : ∀ s, c ≠ .complex s) : Data H (.const c)
  | list {xs : List Obj} (h : DataL H xs) : Data H (.list xs)
  | tuple {xs : List Obj} (h : DataL H xs) : Data H (.tuple xs)
  | set {xs : List Obj} (h : DataL H xs) (hm : H.mkSet (noLocL xs) = .ok (.set (noLocL xs))) : Data H (.set xs)
  | dict {ks vs : List Obj} (hk : DataL H ks) (hv : DataL H vs) (hl : ks.length = vs.length)
      (hm : H.mkDict (((noLocL ks).map some).zip (noLocL vs)) = .ok (.dict (noLocL ks) (noLocL vs))) : Data H (.dict ks vs)
  | tree {x : Obj} (hp : parsed x = true) (hc : hasComplex x = false) : Data H x
inductive DataL (H : Host σ) : List Obj → Prop
  | nil : DataL H []
  | cons {x : Obj} {xs : List Obj} (h : Data H x) (hs : DataL H xs) : DataL H (x :: xs)
end

/-- Values that contain something that cannot be written as an expression: a complex number, or an object that is neither
a constant, nor a list, tuple, set or dict, nor a syntax tree. -/
inductive Refused : Obj → Prop
  | complex {s} : Refused (.const (.complex s))
  | ref {i} : Refused (.ref i)
  | ext {i} : Refused (.ext i)
  | list {x xs} : x ∈ xs → Refused x → Refused (.list xs)
  | tuple {x xs} : x ∈ xs → Refused x → Refused (.tuple xs)
  | set {x xs} : x ∈ xs → Refused x → Refused (.set xs)
  | key {x ks vs} : x ∈ ks → Refused x → Refused (.dict ks vs)
  | value {x ks vs} : x ∈ vs → Refused x → Refused (.dict ks vs)
  | field {f x fs k l} : (f, x) ∈ fs → Refused x → Refused (.node (.py k) l fs)

/-- `x` is a list display, or tuple display, of these. -/
def IsDisplay (k : K) (x : Obj) (items : List Obj) : Prop := x.isK k = true ∧ x.get? .elts = some (.list items)

/-- The items of the value `v`, lists among them flattened, are `items`, and these are all syntax trees of the right
kind. -/
def Items (H : Host σ) (p : K → Bool) (v : Obj) (items : List Obj) : Prop :=
  ∃ xs, toList H v = .ok xs ∧ Flattened xs items ∧ ∀ z ∈ items, OfKind p z

mutual
/-- `Means t st r st'`: in the state `st`, the quoted code `t`, in which the unquotes have been replaced by commands
(`QuoteOps.Interpolated`), builds the tree `r`, and `st'` is the state afterwards.

* `u[e]` gives an expression whose value is the value of `e`.
* `n[e]` gives the expression in the string that is the value of `e`.
* `a[e]` gives the syntax tree that is the value of `e`; or, if the value is not a syntax tree, its items, to be put in
  the place of `a[e]`.  They must be expressions (statements, when `with a` was used).
* `s[e]` and `t[e]` give a list or tuple display of the items of the value of `e`.
* `h[e]` gives an expression that looks up the value of `e`, frozen at this time.
* All else is copied without source locations, from left to right. -/
inductive Means (H : Host σ) : Obj → St σ → Obj → St σ → Prop
  | u {l e v r st st'} : Evaluates H e st v st' → Data H v → (∀ s, Evaluates H r s (noLoc v) s) →
      Means H (.node (.marker "Unquote") l [(.body, e)]) st r st'
  /-- any other value that is not refused: those with markers or malformed trees in them, and sets and dicts that Python
  does not rebuild from their items -/
  | other {l e v r st st'} : Evaluates H e st v st' → ¬ Data H v → ¬ Refused v →
      Means H (.node (.marker "Unquote") l [(.body, e)]) st r st'
  | n {l e text fn r st st'} : Evaluates H e st (.str text) st' → H.parse text = .ok r →
      Means H (.node (.marker "LiftSourcecode") l [(.body, e), (.filename, .const fn)]) st r st'
  | a {l e r st st'} : Evaluates H e st r st' → OfKind K.isExpr r →
      Means H (.node (.marker "ASTLiteral") l [(.body, e), (.syntax_, .str "expr")]) st r st'
  | items {l e v items st st'} : Evaluates H e st v st' → v.isAST = false → Items H K.isExpr v items →
      Means H (.node (.marker "ASTLiteral") l [(.body, e), (.syntax_, .str "expr")]) st (spliceNodes {} items) st'
  | block {l e v items st st'} : Evaluates H e st v st' → Items H K.isStmt v items →
      Means H (.node (.marker "ASTLiteral") l [(.body, e), (.syntax_, .str "block")]) st (spliceNodes {} items) st'
  | s {l e v items r st st'} : Evaluates H e st v st' → Items H K.isExpr v items → IsDisplay .List r items →
      Means H (.node (.marker "ASTList") l [(.body, e)]) st r st'
  | t {l e v items r st st'} : Evaluates H e st v st' → Items H K.isExpr v items → IsDisplay .Tuple r items →
      Means H (.node (.marker "ASTTuple") l [(.body, e)]) st r st'
  | h {l e v b c r st st'} : Evaluates H e st v st' → H.pickle v = .ok b → (∀ name, c = .str name → FrozenValue r name b) →
      Means H (.node (.marker "Capture") l [(.body, e), (.name, .const c)]) st r st'
  | const {c st} : Means H (.const c) st (.const c) st
  | list {xs ys st st'} : MeansL H xs st ys st' → Means H (.list xs) st (.list ys) st'
  | done {l fs gs st st'} : MeansF H fs st gs st' →
      Means H (.node (.marker "Done") l fs) st (.node (.marker "Done") {} gs) st'
  | node {k l fs gs st st'} : MeansF H fs st gs st' → Means H (.node (.py k) l fs) st (.node (.py k) {} gs) st'
inductive MeansL (H : Host σ) : List Obj → St σ → List Obj → St σ → Prop
  | nil {st} : MeansL H [] st [] st
  | cons {x xs y ys st st1 st'} : Means H x st y st1 → MeansL H xs st1 ys st' → MeansL H (x :: xs) st (y :: ys) st'
inductive MeansF (H : Host σ) : List (F × Obj) → St σ → List (F × Obj) → St σ → Prop
  | nil {st} : MeansF H [] st [] st
  | cons {f x fs y gs st st1 st'} : Means H x st y st1 → MeansF H fs st1 gs st' →
      MeansF H ((f, x) :: fs) st ((f, y) :: gs) st'
end

mutual
/-- `Supplied t st st'`: in the state `st`, every unquote in `t` gets, from left to right, a value that its operator
accepts, and `st'` is the state afterwards.

* `u[e]`: a value that can be written as an expression.
* `n[e]`: a string that can be parsed.
* `a[e]`: an expression, or something whose items are expressions (statements, when `with a` was used).
* `s[e]` and `t[e]`: something whose items are expressions.
* `h[e]`: a value that can be pickled. -/
inductive Supplied (H : Host σ) : Obj → St σ → St σ → Prop
  | u {l e v st st'} : Evaluates H e st v st' → Data H v → Supplied H (.node (.marker "Unquote") l [(.body, e)]) st st'
  | n {l e text fn r st st'} : Evaluates H e st (.str text) st' → H.parse text = .ok r →
      Supplied H (.node (.marker "LiftSourcecode") l [(.body, e), (.filename, .const fn)]) st st'
  | a {l e v st st'} : Evaluates H e st v st' → OfKind K.isExpr v →
      Supplied H (.node (.marker "ASTLiteral") l [(.body, e), (.syntax_, .str "expr")]) st st'
  | items {l e v items st st'} : Evaluates H e st v st' → v.isAST = false → Items H K.isExpr v items →
      Supplied H (.node (.marker "ASTLiteral") l [(.body, e), (.syntax_, .str "expr")]) st st'
  | block {l e v items st st'} : Evaluates H e st v st' → Items H K.isStmt v items →
      Supplied H (.node (.marker "ASTLiteral") l [(.body, e), (.syntax_, .str "block")]) st st'
  | s {l e v items st st'} : Evaluates H e st v st' → Items H K.isExpr v items →
      Supplied H (.node (.marker "ASTList") l [(.body, e)]) st st'
  | t {l e v items st st'} : Evaluates H e st v st' → Items H K.isExpr v items →
      Supplied H (.node (.marker "ASTTuple") l [(.body, e)]) st st'
  | h {l e v b c st st'} : Evaluates H e st v st' → H.pickle v = .ok b →
      Supplied H (.node (.marker "Capture") l [(.body, e), (.name, .const c)]) st st'
  | const {c st} : Supplied H (.const c) st st
  | list {xs st st'} : SuppliedL H xs st st' → Supplied H (.list xs) st st'
  | done {l fs st st'} : SuppliedF H fs st st' → Supplied H (.node (.marker "Done") l fs) st st'
  | node {k l fs st st'} : SuppliedF H fs st st' → Supplied H (.node (.py k) l fs) st st'
inductive SuppliedL (H : Host σ) : List Obj → St σ → St σ → Prop
  | nil {st} : SuppliedL H [] st st
  | cons {x xs st st1 st'} : Supplied H x st st1 → SuppliedL H xs st1 st' → SuppliedL H (x :: xs) st st'
inductive SuppliedF (H : Host σ) : List (F × Obj) → St σ → St σ → Prop
  | nil {st} : SuppliedF H [] st st
  | cons {f x fs st st1 st'} : Supplied H x st st1 → SuppliedF H fs st1 st' → SuppliedF H ((f, x) :: fs) st st'
end

end Mcpyrate.Quotes

namespace Mcpyrate.QuoteOps
open Py Expander

variable {σ : Type}

/-- Code as the parser builds it, without complex numbers. -/
def Source (t : Val) : Prop :=
  Quotes.parsed (Obj.ofVal t) = true ∧ Quotes.hasComplex (Obj.ofVal t) = false ∧ Quotes.flat (Obj.ofVal t) = true

/-- In `w`, no unquote in `t` captures a macro that is bound in `w0`, and no operator is applied to `*…`. -/
def Captures (L : Lib σ) (E : Env (User σ)) (w w0 : W σ) (t : Val) : Prop :=
  ∀ u op x, Reach t u → Bracket L E w u op x → x.isK .Starred = false ∧
    (op = .h → ∀ k, x.isK .Name = true → x.get? .id = some (.str k) → isbound w0 k = none)

/-- The statements are expressions, and these are the expressions. -/
inductive ExprStmts : List Val → List Val → Prop
  | nil : ExprStmts [] []
  | cons {x e xs es} : x.isK .Expr = true → x.get? .value = some e → ExprStmts xs es → ExprStmts (x :: xs) (e :: es)

/-- The values of the expressions, from left to right (`*e` stands for the items of `e`). -/
inductive EvaluatesAll (H : Quotes.Host σ) : List Val → Quotes.St σ → List Obj → Quotes.St σ → Prop
  | nil {st} : EvaluatesAll H [] st [] st
  | cons {x xs v vs st st1 st'} : x.isK .Starred = false → Quotes.Evaluates H (.ofVal x) st v st1 →
      EvaluatesAll H xs st1 vs st' → EvaluatesAll H (x :: xs) st (v :: vs) st'
  | star {x e xs v ys vs st st1 st'} : x.isK .Starred = true → x.get? .value = some e →
      Quotes.Evaluates H (.ofVal e) st v st1 → Quotes.toList H v = .ok ys → EvaluatesAll H xs st1 vs st' →
      EvaluatesAll H (x :: xs) st (ys ++ vs) st'

/-- The uses for which an operator has a meaning: `q` and `a` as expressions and as blocks, the others as expressions
only. -/
def Allowed : Op → Syn → Prop
  | _, .expr => True
  | .q, .block => True
  | .a, .block => True
  | _, _ => False

end Mcpyrate.QuoteOps
