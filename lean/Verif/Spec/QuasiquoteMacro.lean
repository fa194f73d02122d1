import Verif.Spec.Quasiquote
/-
What quasiquoted code evaluates to when it captures macros (C58, with C37).
-/
namespace Mcpyrate.Quotes
open Py

variable {σ : Type}

/-- The function frozen in `b` is bound globally to the name `u`, unless that name is bound already; nothing else changes. -/
def BoundTo (H : Host σ) (u : String) (b : List Nat) (st st' : St σ) : Prop :=
  (∃ m, st.globals.get u = some m) ∧ st' = st ∨
  st.globals.get u = none ∧ ∃ m, H.unpickle b = .ok m ∧ st'.host = st.host ∧ st'.gensym = st.gensym ∧
    ∀ k, st'.globals.get k = if k = u then some m else st.globals.get k

/-- The command captures a macro: `h[k]`, where `k` is bound to the macro function `f`. -/
def CapturesMacro (macro_ : String → Option Obj) (n : String) (fs : List (F × Obj)) (k : String) (f : Obj) : Prop :=
  n = "Capture" ∧ ∃ e, fs.lookup .body = some e ∧ IsName e k ∧ macro_ k = some f

mutual
/-- As `Means`, for code that may capture macros.  `macro_` are the macros that are bound where the quote is expanded;
`prev` are the names that had been made by `gensym` when the code was compiled, `prev'` those when that was done.

* `h[k]`, where `k` is bound to a macro, gives a new name, made from `k`, that is bound globally to the macro function,
  which was frozen when the quote was compiled.
* The other commands are carried out as before. -/
inductive Builds (H : Host σ) (macro_ : String → Option Obj) :
    List (List Char) → Obj → St σ → Obj → St σ → List (List Char) → Prop
  | macro_ {prev l e c k f b u st r st'} : CapturesMacro macro_ "Capture" [(.body, e), (.name, .const c)] k f →
      H.pickle f = .ok b → u.toList ∉ prev → (Scrub.scrubUuid H.tables k.toList).isPrefixOf u.toList = true →
      BoundTo H u b st st' → IsName r u →
      Builds H macro_ prev (.node (.marker "Capture") l [(.body, e), (.name, .const c)]) st r st' (u.toList :: prev)
  | command {prev n l fs st r st'} : n ≠ "Done" → (∀ k f, ¬ CapturesMacro macro_ n fs k f) →
      Means H (.node (.marker n) l fs) st r st' → Builds H macro_ prev (.node (.marker n) l fs) st r st' prev
  | const {prev c st} : Builds H macro_ prev (.const c) st (.const c) st prev
  | list {prev prev' xs ys st st'} : BuildsL H macro_ prev xs st ys st' prev' →
      Builds H macro_ prev (.list xs) st (.list ys) st' prev'
  | done {prev prev' l fs gs st st'} : BuildsF H macro_ prev fs st gs st' prev' →
      Builds H macro_ prev (.node (.marker "Done") l fs) st (.node (.marker "Done") {} gs) st' prev'
  | node {prev prev' k l fs gs st st'} : BuildsF H macro_ prev fs st gs st' prev' →
      Builds H macro_ prev (.node (.py k) l fs) st (.node (.py k) {} gs) st' prev'
inductive BuildsL (H : Host σ) (macro_ : String → Option Obj) :
    List (List Char) → List Obj → St σ → List Obj → St σ → List (List Char) → Prop
  | nil {prev st} : BuildsL H macro_ prev [] st [] st prev
  | cons {prev prev1 prev' x xs y ys st st1 st'} : Builds H macro_ prev x st y st1 prev1 →
      BuildsL H macro_ prev1 xs st1 ys st' prev' → BuildsL H macro_ prev (x :: xs) st (y :: ys) st' prev'
inductive BuildsF (H : Host σ) (macro_ : String → Option Obj) :
    List (List Char) → List (F × Obj) → St σ → List (F × Obj) → St σ → List (List Char) → Prop
  | nil {prev st} : BuildsF H macro_ prev [] st [] st prev
  | cons {prev prev1 prev' f x fs y gs st st1 st'} : Builds H macro_ prev x st y st1 prev1 →
      BuildsF H macro_ prev1 fs st1 gs st' prev' → BuildsF H macro_ prev ((f, x) :: fs) st ((f, y) :: gs) st' prev'
end

end Mcpyrate.Quotes

namespace Mcpyrate.QuoteOps
open Py Expander

variable {σ : Type}

/-- No operator in `t` is applied to `*…`. -/
def Unstarred (L : Lib σ) (E : Env (User σ)) (w : W σ) (t : Val) : Prop :=
  ∀ u op x, Reach t u → Bracket L E w u op x → x.isK .Starred = false

/-- The macro functions that are bound to names. -/
def macros (L : Lib σ) (w : W σ) (k : String) : Option Obj := (isbound w k).map L.function

/-- A command of the quasiquote system. -/
def Command (m : Val) : Prop :=
  ∃ n l fs, m = .node (.marker n) l fs ∧ (n = "SpliceNodes" ∨ n = "QuasiquoteSearchDone" ∨ n = "Unquote" ∨
    n = "LiftSourcecode" ∨ n = "ASTLiteral" ∨ n = "ASTList" ∨ n = "ASTTuple" ∨ n = "Capture")

end Mcpyrate.QuoteOps
