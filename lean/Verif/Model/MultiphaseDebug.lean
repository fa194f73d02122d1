import Verif.Model.Multiphase
import Verif.Model.Expander
/-
Model of the debug mode of the multi-phase compiler, mcpyrate/multiphase.py:295-414, and of the macros `phase` and
`step_phases`, multiphase.py:143-226 and 268-292.
-/
namespace Mcpyrate.Multiphase
open Py Modules

/-- The loop over `stmt.names[1:]`, multiphase.py:313-315.  An alias without `name` raises AttributeError. -/
def importsStep : List Val → Except Err Bool
  | [] => .ok false
  | a :: as =>
    match a.get? .name with
    | none => .error .attributeError
    | some n => if n == .str "step_phases" then .ok true else importsStep as

/-- `isdebug(tree)`, multiphase.py:295-316, on the body of the tree.  The optional fields `module` and `level` default to
`None`. -/
def isdebug : List Val → Except Err Bool
  | [] => .ok false
  | s :: rest =>
    match ismacroimport "macros" s with
    | .error e => .error e
    | .ok false => isdebug rest
    | .ok true =>
      if (s.get? .module_).getD .none == .str "mcpyrate.debug" && (s.get? .level).getD .none == .int 0 then
        match s.get? .names with
        | some (.list (_ :: as)) =>
          match importsStep as with
          | .ok false => isdebug rest
          | r => r
        | _ => .error .attributeError         -- does not occur after `ismacroimport`
      else isdebug rest

/-- How things are formatted: `unparse_with_fallbacks(module, debug=True, color=True)` for a module with this body, which
does not raise (unparser.py:1201-1220); and a file name that is neither a string nor `None`. -/
structure Format where
  unparse : List Val → Str
  other : Bool → Str

/-- A file name in a format string. -/
def Format.file (F : Format) : Arg → Str
  | .none => "None".toList
  | .str s => s
  | .other b => F.other b

/-- The headings of multiphase.py:363 and 379.  The escape sequences for colors are left out. -/
def startLine (F : Format) (self : Str) (filename : Arg) : Str :=
  "**Multi-phase compiling module '".toList ++ self ++ "' (".toList ++ F.file filename ++ ")".toList
def phaseLine (F : Format) (self : Str) (filename : Arg) (k : Nat) : Str :=
  "**AST for PHASE ".toList ++ (toString k).toList ++ " of module '".toList ++ self ++ "' (".toList ++ F.file filename ++
    ")".toList

variable {τ : Type}

/-- The state, and what the multi-phase compiler has printed to `sys.stderr`.  What the phases print is part of the
state. -/
abbrev Out (τ : Type) := (Sys × τ) × List Str

/-- `if debug: print(…, file=sys.stderr)`. -/
def say (debug : Bool) (x : Str) (s : Out τ) : Out τ := if debug then (s.1, s.2 ++ [x]) else s

/-- The loop of multiphase.py:377-403, from phase `k` down, with its output.  `head` is the heading of a phase. -/
def loopOut (C : Compiler τ) (F : Format) (debug : Bool) (head : Nat → Str) (module : Nat) :
    Nat → List Val → Out τ → Except Err (Option (List Val)) × Out τ
  | 0, body, s =>
    let s := say debug (head 0) s
    if body = [] then (.ok none, s)
    else
      match FutureImports.inject (assignment 0) (.list body) with
      | .error e => (.error e, s)
      | .ok b =>
        let s := say debug (F.unparse b) s
        match C.expand b s.1 with
        | (.error e, s1) => (.error e, (s1, s.2))
        | (.ok r, s1) => (.ok (some r), (s1, s.2))
  | k + 1, body, s =>
    let s := say debug (head (k + 1)) s
    match extractPhase (k + 1) body with
    | .error e => (.error e, s)
    | .ok (this, rest) =>
      if this = [] then loopOut C F debug head module k rest s
      else
        match FutureImports.inject (assignment (k + 1)) (.list this) with
        | .error e => (.error e, s)
        | .ok b =>
          let s := say debug (F.unparse b) s
          match C.run b module s.1 with
          | (.error e, s1) => (.error e, (s1, s.2))
          | (.ok (), s1) => loopOut C F debug head module k rest (s1, s.2)

/-- `multiphase_expand(tree, filename=…, self_module=…)`, multiphase.py:321-414, on the body of the module, with its
output. -/
def multiphaseExpandOut (P : Host) (C : Compiler τ) (F : Format) (self : Str) (filename : Arg) (uuid : Str)
    (body : List Val) (s : Out τ) : Except Err (List Val) × Out τ :=
  match detectHighest body none with
  | .error e => (.error e, s)
  | .ok n =>
    match isdebug body with
    | .error e => (.error e, s)
    | .ok debug =>
      let original := s.1.1.modules.get self
      let s := say debug (startLine F self filename) s
      match createModule P (.str self) filename false uuid s.1.1 with
      | (.error e, s1) => (.error e, ((s1, s.1.2), s.2))
      | (.ok module, s1) =>
        match n with
        | none => (.error .typeError, ((s1, s.1.2), s.2))         -- `range(None, -1, -1)`
        | some n =>
          match loopOut C F debug (phaseLine F self filename) module n body ((s1, s.1.2), s.2) with
          | (.error e, s2) => (.error e, s2)
          | (.ok expansion, s2) =>
            let s3 := ((restore P self original s2.1.1, s2.1.2), s2.2)
            match expansion with
            | some e => (.ok e, s3)
            | none => (.error .nameError, s3)                     -- UnboundLocalError

/-- The macro `phase`, multiphase.py:143-226; parametric.  The text of the error is left out. -/
def phaseMacro {υ : Type} : Expander.MacroDef υ := ⟨false, true, fun a =>
  if a.synt ≠ .block then .raise (.py .syntaxError) else .raise (.py .syntaxError)⟩

/-- The macro `step_phases`, multiphase.py:268-292; an identifier macro. -/
def stepPhasesMacro {υ : Type} : Expander.MacroDef υ := ⟨true, false, fun _ => .raise (.py .syntaxError)⟩

end Mcpyrate.Multiphase
