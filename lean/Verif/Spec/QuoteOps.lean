import Verif.Model.QuoteOps
import Verif.Spec.Invocation
import Verif.Spec.Fixpoint
import Verif.Spec.Like
/-
What nested quotes and unquotes mean.
-/
namespace Mcpyrate.QuoteOps
open Py Expander

variable {σ : Type}

/-- The stack of quote levels. -/
def levels (w : W σ) : List Nat := w.user.stack

/-- The bindings and the quote levels. -/
def both (w : W σ) : (Dict String Nat × Dict String Nat) × List Nat := (bindings w, levels w)

/-- The local bindings are quasiquote macros. -/
def LocalOps (L : Lib σ) (w : W σ) : Prop := ∀ k i, w.locals.get k = some i → ∃ op, i = L.id op

/-- The macros that are invoked in `t` are quasiquote macros.  There may be bindings for others.  (The name `mcpyrate`, which
is in the generated code, must not be bound to an identifier macro; nor the empty string.) -/
def OnlyOps (L : Lib σ) (E : Env (User σ)) (w : W σ) (t : Val) : Prop :=
  (∀ u, Reach t u → ∀ k i a c, Invokes E w u k i a c → ∃ op, i = L.id op) ∧
  ∀ i, isbound w "mcpyrate" = some i ∨ isbound w "" = some i → (E.macros i).isName = false

/-- `t` is `k[x]`, where `k` is bound to the operator. -/
def Bracket (L : Lib σ) (E : Env (User σ)) (w : W σ) (t : Val) (op : Op) (x : Val) : Prop :=
  ∃ k a c, Invokes E w t k (L.id op) a c ∧ a.synt = .expr ∧ a.tree = x

/-- The command that the operator leaves for the quasiquote compiler, when `x` has been quoted out of, and has become
`x'`: the expression `x'` is to be evaluated where the quote is, and its value goes here. -/
inductive Interpolated (L : Lib σ) (filename : String) : Op → (x x' m : Val) → Prop
  | u {x x'} : Interpolated L filename .u x x' (marker "Unquote" [(.body, x')])
  | n {x x'} : Interpolated L filename .n x x' (marker "LiftSourcecode" [(.body, x'), (.filename, .str filename)])
  | a {x x'} : Interpolated L filename .a x x' (marker "ASTLiteral" [(.body, x'), (.syntax_, .str "expr")])
  | s {x x'} : Interpolated L filename .s x x' (marker "ASTList" [(.body, x')])
  | t {x x'} : Interpolated L filename .t x x' (marker "ASTTuple" [(.body, x')])
  | h {x x' name} : L.unparse x = .ok name →
      Interpolated L filename .h x x' (marker "Capture" [(.body, x'), (.name, .str name)])

/-- `c` is the code that the quasiquote compiler (C32) generates for the quoted tree `x`. -/
def Compiled (L : Lib σ) (filename : String) (w : W σ) (x c : Val) : Prop :=
  ∃ st st', Quotes.quote L.H (some fun k => (isbound w k).map L.function) (.str filename) (Obj.ofVal x) st =
    some (.ok (Obj.ofVal c), st')

section
variable (L : Lib σ) (E : Env (User σ)) (w : W σ)

mutual
/-- `Res n t r`: at quote level `n`, the tree `t` stands for `r`.

* A quote inside of a quote stays, and raises the level for its contents.
* An unquote lowers it, and stays, when a level remains.
* An unquote that lowers the level to zero is interpolated.
* A quote at level zero is compiled.
* Everything else is copied.

Locations and `ctx` fields may differ.  Parts marked as `Done` are left alone. -/
inductive Res : Nat → Val → Val → Prop
  | innerQuote {n t x x'} : Bracket L E w t .q x → Res (n + 2) x x' → Res (n + 1) t (withField t .slice x')
  | innerUnquote {n t op x x'} : Bracket L E w t op x → op ≠ .q → Res (n + 1) x x' →
      Res (n + 2) t (withField t .slice x')
  | interpolated {t op x x' m} : Bracket L E w t op x → Res 0 x x' → Interpolated L E.filename op x x' m → Res 1 t m
  | quote {t x x' c} : Bracket L E w t .q x → Res 1 x x' → Compiled L E.filename w x' c → Res 0 t c
  | node {n c l fs fs'} : ¬ Invocation E w (.node c l fs) → ResF n fs fs' → Res n (.node c l fs) (.node c l fs')
  | list {n xs ys} : ResL n xs ys → Res n (.list xs) (.list ys)
  | done {n t} : isDone t = true → Res n t t
  | like {n t r r'} : Res n t r → Like r r' → Res n t r'
/-- The fields of a node. -/
inductive ResF : Nat → Fields → Fields → Prop
  | nil {n} : ResF n [] []
  | const {n f c fs fs'} : ResF n fs fs' → ResF n ((f, .const c) :: fs) ((f, .const c) :: fs')
  | field {n f v v' fs fs'} : Res n v v' → ResF n fs fs' → ResF n ((f, v) :: fs) ((f, v') :: fs')
/-- The items of a list. -/
inductive ResL : Nat → List Val → List Val → Prop
  | nil {n} : ResL n [] []
  | other {n x xs ys} : x.isAST = false → ResL n xs ys → ResL n (x :: xs) (x :: ys)
  | item {n x y xs ys} : Res n x y → ResL n xs ys → ResL n (x :: xs) (y :: ys)
end

end

/-- No markers, except `Done`. -/
def Unmarked (t : Val) : Prop := ∀ u, Reach t u → ∀ n l fs, u = .node (.marker n) l fs → n = "Done"

/-- No operator is used in block mode. -/
def NoBlocks (E : Env (User σ)) (w : W σ) (t : Val) : Prop :=
  ∀ u, Reach t u → u.isK .With = true → ¬ Invocation E w u

/-- No lists directly in lists (there are none in Python's syntax trees). -/
def FlatLists (t : Val) : Prop := ∀ u, Reach t u → ∀ c l fs, u = .node c l fs →
  ∀ f xs, (f, .list xs) ∈ fs → ∀ ys, .list ys ∉ xs

/-- Code that follows Python's grammar and uses the operators as expressions. -/
structure Quotable (E : Env (User σ)) (w : W σ) (t : Val) : Prop where
  isAST : t.isAST = true
  grammatical : Grammatical t
  slices : ∀ u, Reach t u → u.isK .Subscript = true → ∀ v, u.get? .slice = some v → v.isAST = true
  flat : FlatLists t
  unmarked : Unmarked t
  noBlocks : NoBlocks E w t

end Mcpyrate.QuoteOps
