import Verif.Spec.Expander
/-
Error reports of nested macro invocations.
-/
namespace Mcpyrate.Expander
open Py

variable {υ : Type}

/-- An exception that is not an `Exception`, such as KeyboardInterrupt. -/
def Interrupt (e : Exc) : Prop := ∃ i, e = .user i false

/-- The lines before the use sites in a report of more than one. -/
def reportHeader : List String :=
  ["An exception occurred during macro expansion.", "", "Macro use site (most recent macro application last):"]

/-- The kinds of invocations in reports. -/
def kindText : Syn → String
  | .expr => "expr"
  | .block => "block"
  | .decorator => "decorator"
  | .name => "name"

/-- The use site of a macro in a report: the location of the invocation, then the kind and the name. -/
def useSite (E : Env υ) (a : MArgs) (name : String) : List String :=
  E.loc a.invocation ++ ["in " ++ kindText a.synt ++ " macro invocation for '" ++ name ++ "'"]

/-- The report for the use sites `sites`, outermost first, of an error `cause`: a
`MacroApplicationError` caused by `cause`, whose message is the single site, or the header followed by
all sites. -/
def telescope (sites : List (List String)) (cause : Exc) : Exc :=
  match sites with
  | [s] => .app s cause
  | _ => .app (reportHeader ++ sites.flatten) cause

/-- `chain` are the macro applications, outermost first, that were still running at the end of the
log `L` of a computation that started at nesting depth `d`: after the outermost one only deeper ones
have been made, and so on. -/
inductive Unwound : Nat → List App → List App → Prop
  | last (d pre e post) : e.depth = d → (∀ x ∈ post, d < x.depth) → Unwound d (pre ++ e :: post) [e]
  | more (d pre e post chain) : e.depth = d → (∀ x ∈ post, d < x.depth) → Unwound (d + 1) post chain →
      Unwound d (pre ++ e :: post) (e :: chain)

/-- User code that does not handle exceptions of the expander, and does not itself raise a
`MacroApplicationError` with a cause. -/
def Prog.Plain : Prog υ → Prop
  | .ret _ => True
  | .raise e => ∀ msg c, e ≠ .app msg c
  | .visit _ _ k => (∀ e, k (.error e) = .raise e) ∧ ∀ v, (k (.ok v)).Plain
  | .withHook _ body k => body.Plain ∧ (∀ e, k (.error e) = .raise e) ∧ ∀ r, (k (.ok r)).Plain
  | .get k => ∀ b w, (k b w).Plain
  | .put _ k => k.Plain
  | .visitNew _ _ k => (∀ e, k (.error e) = .raise e) ∧ ∀ v, (k (.ok v)).Plain
  | .hang => True

/-- The program contains a statement that raises `e`. -/
inductive Prog.Own : Prog υ → Exc → Prop
  | raise (e) : Own (.raise e) e
  | visit {mode t k v e} : Own (k (.ok v)) e → Own (.visit mode t k) e
  | body {h b k e} : Own b e → Own (.withHook h b k) e
  | withHook {h b k r e} : Own (k (.ok r)) e → Own (.withHook h b k) e
  | get {k b w e} : Own (k b w) e → Own (.get k) e
  | put {w k e} : Own k e → Own (.put w k) e
  | visitNew {b t k v e} : Own (k (.ok v)) e → Own (.visitNew b t k) e

structure Env.Plain (E : Env υ) : Prop where
  macros : ∀ i a, ((E.macros i).fn a).Plain
  hooks : ∀ i t r n, (E.hooks i t r n).Plain

/-- Where an error during the application `a` can come from: raised by the macro function or by a
debug hook; an unsuitable return value; an error of Python or of the expander itself (such as
SyntaxError for an invalid macro call). -/
def Origin (E : Env υ) (a : App) (cause : Exc) : Prop :=
  ((E.macros a.fn).fn a.margs).Own cause ∨
  (∃ h r, (E.hooks h a.margs.invocation r a.name).Own cause) ∨
  cause = .app0 (E.loc a.margs.invocation ++ ["bad return value"]) ∨
  ∃ x, cause = .py x

end Mcpyrate.Expander
