import Verif.Spec.Like
import Verif.Spec.QuoteOps
import Verif.Spec.ExpandFirst
import Verif.Spec.Unastify
import Verif.Model.ExpandStatic
/-
Notions for the statements about the static expansion of quoted code.
-/
namespace Mcpyrate.ExpandStatic
open Py Expander QuoteOps

variable {υ σ : Type}

/-- User code `p`, run in state `s`, finishes with outcome `r`, in state `s'`. -/
def Does (E : Env υ) (p : Prog υ) (s : St υ) (r : Except Exc Ret) (s' : St υ) : Prop :=
  ∃ n, run (visit E n) p s = some (r, s')

/-- The quasiquote macros. -/
def ops (L : Lib σ) : List Nat := [L.id .q, L.id .u, L.id .n, L.id .a, L.id .s, L.id .t, L.id .h]

/-- `x` can be the argument of a quote in state `w`, and contains no quotes and unquotes: it is a node, as the parser
builds it, and in the expander that a quote uses, which has only the quasiquote macros and the global bindings, there are
no macro invocations in it.  (C32 says why there must be no complex numbers.) -/
structure Plain (L : Lib σ) (E : Env (User σ)) (w : W σ) (x : Val) : Prop where
  isAST : x.isAST = true
  parsed : Quotes.parsed (Obj.ofVal x) = true
  noComplex : Quotes.hasComplex (Obj.ofVal x) = false
  wellFormed : WellFormed x
  noOps : ∀ w2, ExpandFirst.Second w w2 (ops L) → ∀ u, Reach x u → ¬ Invocation E w2 u

/-- The mode of the expander that expands this many layers of macros. -/
def Layers.mode : Layers → Mode
  | .one => .once
  | .all => .recursively

/-- What the expander returns for a tree that expands to `x`: `visit_once` marks it. -/
def Layers.result (x : Val) : Layers → Val
  | .one => done x
  | .all => x

/-- `mcpyrate`, through which generated code refers to the library, is not an identifier macro. -/
def NotAMacro (E : Env υ) (w : World υ) (k : String) : Prop := ∀ i, isbound w k = some i → (E.macros i).isName = false

/-- The state after the application of the macro `id`, bound as `k`, has been noted in the log (which is not part of the
program, but of the model). -/
def logged (s : St υ) (mode : Bool) (k : String) (id : Nat) (a : MArgs) : St υ :=
  { s with log := s.log ++ [⟨k, id, a, s.depth, mode, some id⟩] }

/-- `code`, run where the quote is, gives `x`. -/
def EvaluatesTo (L : Lib σ) (code x : Val) : Prop := Quotes.eval L.H (Obj.ofVal code) = pure (Quotes.noLoc (Obj.ofVal x))

/-- The commands that stand for unquotes in a quoted tree.  Their body is the expression that is unquoted. -/
def commands : List String := ["Unquote", "LiftSourcecode", "ASTLiteral", "ASTList", "ASTTuple", "Capture"]

mutual
/-- `Forwards E s x y s'`: the expander, in state `s`, expands one layer of macros in the expressions that are unquoted in `x`,
in order.  The result is `y`, with nothing else changed. -/
inductive Forwards (E : Env υ) : St υ → Val → Val → St υ → Prop
  | const {s c} : Forwards E s (.const c) (.const c) s
  | list {s s' xs ys} : ForwardsL E s xs ys s' → Forwards E s (.list xs) (.list ys) s'
  | node {s s' c l fs gs} : (∀ n ∈ commands, c ≠ .marker n) → ForwardsF E s fs gs s' →
      Forwards E s (.node c l fs) (.node c l gs) s'
  | command {s s' n l b b' rest} : n ∈ commands → Runs E .once b s (.ok (done b')) s' →
      Forwards E s (.node (.marker n) l ((.body, b) :: rest)) (.node (.marker n) l ((.body, b') :: rest)) s'
  /-- (not an expression) -/
  | inert {s n l b rest} : n ∈ commands → b.isAST = false →
      Forwards E s (.node (.marker n) l ((.body, b) :: rest)) (.node (.marker n) l ((.body, b) :: rest)) s
inductive ForwardsL (E : Env υ) : St υ → List Val → List Val → St υ → Prop
  | nil {s} : ForwardsL E s [] [] s
  | cons {s s1 s' x y xs ys} : Forwards E s x y s1 → ForwardsL E s1 xs ys s' → ForwardsL E s (x :: xs) (y :: ys) s'
inductive ForwardsF (E : Env υ) : St υ → Fields → Fields → St υ → Prop
  | nil {s} : ForwardsF E s [] [] s
  | cons {s s1 s' f x y fs gs} : Forwards E s x y s1 → ForwardsF E s1 fs gs s' →
      ForwardsF E s ((f, x) :: fs) ((f, y) :: gs) s'
end

/-- The expression `b` is unquoted in `d`. -/
inductive Unquotes : Val → Val → Prop
  | here {n l b rest} : n ∈ commands → Unquotes (.node (.marker n) l ((.body, b) :: rest)) b
  | field {c l fs f x b} : (f, x) ∈ fs → Unquotes x b → Unquotes (.node c l fs) b
  | item {xs x b} : x ∈ xs → Unquotes x b → Unquotes (.list xs) b

/-- The expressions that are unquoted in `d` do not expand to lists of nodes, with the bindings in `w`. -/
def SingleNodes (E : Env υ) (w : World υ) (d : Val) : Prop :=
  ∀ b, Unquotes d b → b.isAST = true → ∀ s r s', (∀ k, isbound s.world k = isbound w k) →
    Runs E .once b s (.ok (done r)) s' → r.isAST = true

/-- `y` is `x` with other locations and `ctx`. -/
inductive Likes : Val → Val → Prop
  | refl {x} : Likes x x
  | step {x y z} : Likes x y → Like y z → Likes x z

/-- `c` is quoted code: what the quasiquote compiler (C32) generates, at some use site, for the tree `d`, which may have commands
in place of unquotes; with any locations. -/
def QuotedCode (L : Lib σ) (d c : Val) : Prop :=
  ∃ filename w c0, Compiled L filename w d c0 ∧
    Quotes.template (some fun k => (isbound w k).map L.function) (Obj.ofVal d) = true ∧ Likes c0 c

end Mcpyrate.ExpandStatic
