import Verif.Model.IConsole
import Verif.Spec.Console
import Verif.Spec.ExpanderErrors
/-
Specification of the IPython extension.
-/
namespace Mcpyrate.IConsole
open Py Expander GetMacros Compiler Modules RunCode

variable {υ μ : Type}

/-- The transformer of the extension `i` turns the tree `t` into the outcome `r`. -/
def Transforms (K : Tools υ μ) (i : Nat) (t : Val) (sh : Shell υ) (r : Except Raised Val) (sh' : Shell υ) : Prop :=
  ∃ n, transform K n i t sh = some (r, sh')

/-- A cell with the tree `t` is dealt with.  The outcome says why it was not run, if it was not. -/
def Deals (K : Tools υ μ) (t : Val) (sh : Shell υ) (r : Except Raised Unit) (sh' : Shell υ) : Prop :=
  ∃ n, cell K n t sh = some (r, sh')

/-- A tree as made by the parser for a cell: a list of statements. -/
def IsCell (t : Val) : Prop := ∃ body, t.get? .body = some (.list body) ∧ FindMacros.Parsed body

/-- The macro-imports of the cell are run in order; they give the bindings `b`, and are replaced.  Before that the
variables of the user become the contents of the module `__self__`. -/
inductive Imported (K : Tools υ μ) (t : Val) (p : State υ) : Val → Dict String Nat → State υ → Prop
  | intro {p1 rs p2 b out} : Console.Synced K.con p p1 →
      FindMacros.Runs K.con.interp (Console.options K.con) p1 (FindMacros.macroImports (Dialects.stmts t)) rs p2 →
      FindMacros.Union (rs.map (·.2)) b → FindMacros.Rewritten true (Dialects.stmts t) (rs.map (·.1)) out →
      Imported K t p (withField t .body (.list out)) b p2

/-- The magic module is gone; or one of the macro-imports raises. -/
inductive NotImported (K : Tools υ μ) (t : Val) (p : State υ) : Err → State υ → Prop
  | gone {e} : (∀ m, p.user.1.modules.get "__mcpyrate_repl_self__".toList ≠ some (.obj m)) →
      (e = .keyError ∨ e = .attributeError) → NotImported K t p e p
  | failed {p1 pre i post rs p2 e p3} : Console.Synced K.con p p1 →
      FindMacros.macroImports (Dialects.stmts t) = pre ++ i :: post →
      FindMacros.Runs K.con.interp (Console.options K.con) p1 pre rs p2 →
      getMacros K.con.interp (Console.options K.con) i p2 = (.error e, p3) → NotImported K t p e p3

/-- How the transformer ends.  An exception, whatever it is, rejects the cell; KeyboardInterrupt and the like pass. -/
inductive Ends : Except Exc Val → Except Raised Val → Prop
  | ok {t} : Ends (.ok t) (.ok t)
  | rejected {e} : ¬ Interrupt e → Ends (.error e) (.error (.rejected e))
  | interrupted {e} : Interrupt e → Ends (.error e) (.error (.other e))

/-- The shell where the extension `i` has the bindings `l` and the flag `ch`, and the rest of the world is `p`. -/
def Becomes (sh : Shell υ) (i : Nat) (l : Dict String Nat) (ch : Bool) (p : State υ) (sh' : Shell υ) : Prop :=
  sh'.exts i = ⟨l, ch⟩ ∧ (∀ j, j ≠ i → sh'.exts j = sh.exts j) ∧ sh'.next = sh.next ∧ sh'.inputs = sh.inputs ∧
    sh'.transformers = sh.transformers ∧ sh'.events = sh.events ∧ sh'.current = sh.current ∧
    sh'.variable_ = sh.variable_ ∧ sh'.state = p

/-- What a transformer does.  `b` are the bindings made by the macro-imports of the cell; they hold already when the cell is
expanded, and they are kept if the expansion fails. -/
inductive Transformed (K : Tools υ μ) (i : Nat) (t : Val) (sh : Shell υ) :
    Dict String Nat → Except Raised Val → Shell υ → Prop
  | notImported {e p r sh'} : NotImported K t sh.state e p → Ends (.error (.py e)) r →
      Becomes sh i (sh.exts i).bindings (sh.exts i).changed p sh' → Transformed K i t sh [] r sh'
  | expanded {t1 b p l ch r0 l' p' r sh'} : Imported K t sh.state t1 b p →
      Console.Added (sh.exts i).bindings b l → (ch = true ↔ (sh.exts i).changed = true ∨ ∃ k f, b.get k = some f) →
      Console.Ran K.con l t1 p r0 l' p' → Ends r0 r → Becomes sh i l' ch p' sh' → Transformed K i t sh b r sh'

/-- The macro that a name is bound to, in the extension `i`. -/
def Bound (sh : Shell υ) (i : Nat) (k : String) (f : Nat) : Prop :=
  (sh.exts i).bindings.get k = some f ∨ (sh.exts i).bindings.get k = none ∧ sh.state.globals.get k = some f

/-- The functions of the macros are imported into the namespace of the user, one after the other. -/
inductive Reimports (K : Tools υ μ) (i : Nat) : List String → Shell υ → Shell υ → Prop
  | nil {sh} : Reimports K i [] sh sh
  | gone {k ks sh} : (∀ f, ¬ Bound sh i k f) → Reimports K i (k :: ks) sh sh
  | skip {k ks sh f sh'} : Bound sh i k f → K.con.origin f = none → Reimports K i ks sh sh' →
      Reimports K i (k :: ks) sh sh'
  | imported {k ks sh f m q sh1 sh'} : Bound sh i k f → K.con.origin f = some (m, q) →
      K.silent ("%%ignore_importerror\nfrom ".toList ++ m ++ " import ".toList ++ q ++ " as ".toList ++ k.toList) sh =
        some sh1 → Reimports K i ks sh1 sh' → Reimports K i (k :: ks) sh sh'

/-- After a cell: if macros were imported since the last time, the functions of all macros are imported. -/
inductive Refreshed (K : Tools υ μ) (i : Nat) (sh : Shell υ) : Shell υ → Prop
  | same : (sh.exts i).changed = false → Refreshed K i sh sh
  | names {ks sh1 sh'} : (sh.exts i).changed = true → (∀ k, k ∈ ks ↔ ∃ f, Bound sh i k f) →
      ((sh.exts i).bindings.WF → sh.state.globals.WF → ks.Nodup) →
      Becomes sh i (sh.exts i).bindings false sh.state sh1 → Reimports K i ks sh1 sh' → Refreshed K i sh sh'

/-- What happens with a cell, if the extension `i` is the only one that is registered. -/
inductive Dealt (K : Tools υ μ) (i : Nat) (t : Val) (sh : Shell υ) :
    Dict String Nat → Except Raised Unit → Shell υ → Prop
  | ran {b t' sh1 sh2 sh'} : Transformed K i t sh b (.ok t') sh1 → K.exec t' sh1 = some sh2 →
      Refreshed K i sh2 sh' → Dealt K i t sh b (.ok ()) sh'
  | notRun {b e sh1 sh'} : Transformed K i t sh b (.error e) sh1 → Refreshed K i sh1 sh' →
      Dealt K i t sh b (.error e) sh'

/-- Neither macros nor the code that is run change the bindings of the expanders. -/
structure Stable (K : Tools υ μ) : Prop where
  macros : K.con.env.Keeps fun w => w.locals
  exec : ∀ t sh sh', K.exec t sh = some sh' → sh'.exts = sh.exts
  silent : ∀ t sh sh', K.silent t sh = some sh' → sh'.exts = sh.exts

/-- Cells one after the other. -/
inductive Cells (K : Tools υ μ) : Shell υ → List Val → Shell υ → Prop
  | nil {sh} : Cells K sh [] sh
  | cons {t ts sh r sh1 sh'} : Deals K t sh r sh1 → Cells K sh1 ts sh' → Cells K sh (t :: ts) sh'

/-- The same, with the bindings made by the macro-imports of each cell. -/
inductive Inputs (K : Tools υ μ) (i : Nat) : Shell υ → List (Val × Dict String Nat) → Shell υ → Prop
  | nil {sh} : Inputs K i sh [] sh
  | cons {t b rest sh r sh1 sh'} : Dealt K i t sh b r sh1 → Inputs K i sh1 rest sh' →
      Inputs K i sh ((t, b) :: rest) sh'

/-- A session of IPython, from its start: the extension is loaded and unloaded, and cells are run. -/
inductive Session (K : Tools υ μ) (setup : State υ → State υ) (e : Nat → Ext) (p : State υ) : Shell υ → Prop
  | start : Session K setup e p ⟨e, 0, [], [], [], none, none, p⟩
  | load {sh} : Session K setup e p sh → Session K setup e p (load setup sh)
  | unload {sh} : Session K setup e p sh → Session K setup e p (unload sh)
  | cell {sh t r sh'} : Session K setup e p sh → Deals K t sh r sh' → Session K setup e p sh'

/-- Code that is run leaves alone what is registered. -/
structure Calm (K : Tools υ μ) : Prop where
  exec : ∀ t sh sh', K.exec t sh = some sh' → sh'.current = sh.current ∧ sh'.inputs = sh.inputs ∧
    sh'.transformers = sh.transformers ∧ sh'.events = sh.events ∧ sh'.next = sh.next
  silent : ∀ t sh sh', K.silent t sh = some sh' → sh'.current = sh.current ∧ sh'.inputs = sh.inputs ∧
    sh'.transformers = sh.transformers ∧ sh'.events = sh.events ∧ sh'.next = sh.next

end Mcpyrate.IConsole
