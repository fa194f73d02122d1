import Verif.Model.MultiphaseDebug
import Verif.Spec.Multiphase
import Verif.Spec.Compiler
/-
Specification of the debug mode of the multi-phase compiler.
-/
namespace Mcpyrate.Multiphase
open Py Modules

/-- `from mcpyrate.debug import macros, …, step_phases, …`. -/
def IsStepImport (s : Val) : Prop :=
  Splicing.isImport "macros" s = true ∧ s.get? .module_ = some (.str "mcpyrate.debug") ∧
    s.get? .level = some (.int 0) ∧
    ∃ a as b, s.get? .names = some (.list (a :: as)) ∧ b ∈ as ∧ b.get? .name = some (.str "step_phases")

/-- The imports are as made by the parser. -/
def ImportsParsed (body : List Val) : Prop := FindMacros.Parsed body ∧
  ∀ s ∈ body, ∀ as, s.get? .names = some (.list as) → s.isK .ImportFrom = true → ∀ a ∈ as, (a.get? .name).isSome = true

/-- The file name, as it is shown. -/
def shownFile (F : Format) : Arg → Str
  | .none => ['N', 'o', 'n', 'e']
  | .str s => s
  | .other b => F.other b

/-- What is printed at the start, and before each phase. -/
def opening (F : Format) (self : Str) (filename : Arg) : Str :=
  ("**Multi-phase compiling module '" ++ String.ofList self ++ "' (" ++ String.ofList (shownFile F filename) ++ ")").toList
def heading (F : Format) (self : Str) (filename : Arg) (k : Nat) : Str :=
  ("**AST for PHASE " ++ toString k ++ " of module '" ++ String.ofList self ++ "' (" ++ String.ofList (shownFile F filename) ++
    ")").toList

variable {τ : Type}

/-- Compiling and running the phases `k`, …, 1 one after the other, then expanding phase 0, as in `Staged`; the lines are
printed meanwhile: for each phase, before anything else is done, its heading, and then the code, if there is any, before
it is compiled. -/
inductive Reported (C : Compiler τ) (F : Format) (head : Nat → Str) (module : Nat) (body : List Val) :
    Nat → Sys × τ → List Str → Except Err (Option (List Val)) → Sys × τ → Prop
  | last {code c s r s'} : AtPhase 0 body code → code ≠ [] →
      FutureImports.inject (phaseIs 0) (.list code) = .ok c → C.expand c s = (r, s') →
      Reported C F head module body 0 s [head 0, F.unparse c] (r.map some) s'
  | empty {s} : AtPhase 0 body [] → Reported C F head module body 0 s [head 0] (.ok none) s
  | run {k code c s s1 ls r s'} : AtPhase (k + 1) body code → code ≠ [] →
      FutureImports.inject (phaseIs (k + 1)) (.list code) = .ok c → C.run c module s = (.ok (), s1) →
      Reported C F head module body k s1 ls r s' →
      Reported C F head module body (k + 1) s (head (k + 1) :: F.unparse c :: ls) r s'
  | fails {k code c s e s'} : AtPhase (k + 1) body code → code ≠ [] →
      FutureImports.inject (phaseIs (k + 1)) (.list code) = .ok c → C.run c module s = (.error e, s') →
      Reported C F head module body (k + 1) s [head (k + 1), F.unparse c] (.error e) s'
  | skip {k s ls r s'} : AtPhase (k + 1) body [] → Reported C F head module body k s ls r s' →
      Reported C F head module body (k + 1) s (head (k + 1) :: ls) r s'
  /-- only if the code is not as the parser makes it -/
  | malformed {k code s e} : AtPhase k body code →
      FutureImports.inject (phaseIs k) (.list code) = .error e → Reported C F head module body k s [head k] (.error e) s

/-- The lines about one phase: the heading, and the code, if there is any. -/
def About (F : Format) (head : Nat → Str) (body : List Val) (k : Nat) (ls : List Str) : Prop :=
  (AtPhase k body [] ∧ ls = [head k]) ∨
  ∃ code c, AtPhase k body code ∧ code ≠ [] ∧ FutureImports.inject (phaseIs k) (.list code) = .ok c ∧
    ls = [head k, F.unparse c]

/-- The lines about the phases `k`, …, 0, in this order, each once. -/
inductive AllPhases (F : Format) (head : Nat → Str) (body : List Val) : Nat → List Str → Prop
  | zero {ls} : About F head body 0 ls → AllPhases F head body 0 ls
  | succ {k ls rest} : About F head body (k + 1) ls → AllPhases F head body k rest → AllPhases F head body (k + 1) (ls ++ rest)

/-- A macro that always raises an exception. -/
def Refuses {υ : Type} (E : Expander.Env υ) (f : Nat) : Prop :=
  ∀ a, ∃ e, (E.macros f).fn a = .raise e

end Mcpyrate.Multiphase
