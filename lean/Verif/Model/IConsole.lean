import Verif.Model.Console
/-
Model of the IPython extension, mcpyrate/repl/iconsole.py, and of the parts of IPython that it is registered with: the
AST transformers, which are applied to a cell one after the other before it is run, and the callbacks for the time after a cell
was run.  AST transformers and callbacks from elsewhere are left out; so is the `src` attribute, which is never read.
-/
namespace Mcpyrate.IConsole
open Py Expander GetMacros Compiler Modules RunCode Postprocess

variable {υ μ : Type}

/-- What an instance of the extension keeps: the local bindings of its expander (iconsole.py:126) and
`_macro_bindings_changed` (iconsole.py:156). -/
structure Ext where
  bindings : Dict String Nat
  changed : Bool
  deriving DecidableEq

/-- The state: the instances of the extension; the next unused number of an instance; `shell.input_transformers_post`,
`shell.ast_transformers` and the callbacks of `post_run_cell`, by the instance that they belong to; `_instance`; the
instance whose expander is the variable `__macro_expander__`; everything else. -/
structure Shell (υ : Type) where
  exts : Nat → Ext
  next : Nat
  inputs : List Nat
  transformers : List Nat
  events : List Nat
  current : Option Nat
  variable_ : Option Nat
  state : State υ

/-- What the extension uses.  `con` has what it has in common with the console: `interp`, `env`, `post`, `isOwn`, `origin`,
`locals` (the user namespace), `metadata` and `filename`; the rest of `con` is not used. -/
structure Tools (υ μ : Type) where
  con : Console.Tools υ μ (List Val)
  /-- IPython runs the statements of a cell.  Exceptions are shown. -/
  exec : Val → Shell υ → Option (Shell υ)
  /-- `shell.run_cell(text, store_history=False, silent=True)`.  Exceptions are shown. -/
  silent : Str → Shell υ → Option (Shell υ)

/-- What leaves an AST transformer: `InputRejected`, with the arguments of the exception; or another exception. -/
inductive Raised where
  | rejected (e : Exc)
  | other (e : Exc)
  deriving DecidableEq

abbrev I (υ α : Type) := Py.M Raised (Shell υ) α

/-- The extension `i`, as a console session. -/
def Shell.session (sh : Shell υ) (i : Nat) : Console.Session υ :=
  ⟨(sh.exts i).bindings, (sh.exts i).changed, sh.state, []⟩

def Shell.setSession (sh : Shell υ) (i : Nat) (s : Console.Session υ) : Shell υ :=
  { sh with exts := fun j => if j = i then ⟨s.bindings, s.changed⟩ else sh.exts j, state := s.state }

/-- The `try` block of `InteractiveMacroTransformer.visit`, iconsole.py:129-146.  The statements are those of the console,
console.py:157-169. -/
def expandCell (K : Tools υ μ) (n : Nat) (t : Val) : Console.C υ Val := do
  Console.sync K.con
  let (t, b) ← Console.findMacrosIn K.con t
  Console.bind b
  let t ← Console.visit K.con n t
  Console.postprocess K.con n t

/-- `except Exception as err: raise InputRejected(*err.args)`, iconsole.py:147-149. -/
def reject (e : Exc) : Raised := if e.isException then .rejected e else .other e

/-- `InteractiveMacroTransformer.visit(tree)` of the extension `i`, iconsole.py:128-149. -/
def transform (K : Tools υ μ) (n i : Nat) (t : Val) : I υ Val := fun sh =>
  (expandCell K n t (sh.session i)).map fun x =>
    (match x.1 with | .ok v => .ok v | .error e => .error (reject e), sh.setSession i x.2)

/-- IPython's `transform_ast`: all transformers in order.  (One that raises something else than InputRejected would be
unregistered; here only exceptions that are not an `Exception` are left, and they are not caught.) -/
def transformAll (K : Tools υ μ) (n : Nat) : List Nat → Val → I υ Val
  | [], t => pure t
  | i :: is, t => do
    let t ← transform K n i t
    transformAll K n is t

/-- The text of the cell that imports a macro function, iconsole.py:220-222. -/
def command (m q : Str) (k : String) : Str :=
  "%%ignore_importerror\nfrom ".toList ++ m ++ " import ".toList ++ q ++ " as ".toList ++ k.toList

/-- The loop of `_refresh_macro_functions`, iconsole.py:213-222. -/
def refreshNames (K : Tools υ μ) (i : Nat) : List String → I υ Unit
  | [] => pure ()
  | k :: rest => do
    let sh ← M.get
    match Console.lookup (sh.session i) k with
    | none => M.throw (.other (.py .keyError))
    | some f =>
      match K.con.origin f with
      | none => refreshNames K i rest
      | some (m, q) => do
        (fun sh => (K.silent (command m q k) sh).map fun sh' => (.ok (), sh') : I υ Unit)
        refreshNames K i rest

/-- `_refresh_macro_functions(info)`, iconsole.py:199-222. -/
def refresh (K : Tools υ μ) (i : Nat) : I υ Unit := do
  let sh ← M.get
  if (sh.exts i).changed then do
    M.modify fun sh => sh.setSession i { sh.session i with changed := false }
    refreshNames K i (Console.names (sh.session i))
  else pure ()

/-- The callbacks for the time after a cell was run.  IPython shows what a callback raises, and goes on. -/
def trigger (K : Tools υ μ) : List Nat → I υ Unit
  | [] => pure ()
  | i :: is => do
    let _ ← M.attempt (refresh K i)
    trigger K is

/-- A cell is transformed, then run.  If it is rejected, it is not run.  Both ways the callbacks come last. -/
def cell (K : Tools υ μ) (n : Nat) (t : Val) : I υ Unit := do
  let sh ← M.get
  let r ← M.attempt (transformAll K n sh.transformers t)
  match r with
  | .ok t' => (fun sh => (K.exec t' sh).map fun sh' => (.ok (), sh') : I υ Unit)
  | .error _ => pure ()
  let sh ← M.get
  trigger K sh.events
  match r with
  | .ok _ => pure ()
  | .error e => M.throw e

/-- `IMcpyrateExtension.__init__`, iconsole.py:155-181.  `setup` is the creation of the magic module, and the definition of
the function `macro`. -/
def new (setup : State υ → State υ) (sh : Shell υ) : Shell υ :=
  { sh with
    exts := fun j => if j = sh.next then ⟨[], false⟩ else sh.exts j
    next := sh.next + 1
    inputs := sh.inputs ++ [sh.next]
    transformers := sh.transformers ++ [sh.next]
    events := sh.events ++ [sh.next]
    variable_ := some sh.next
    state := setup sh.state }

/-- `load_ipython_extension`, iconsole.py:48-66.  An instance is true, as it has neither `__bool__` nor `__len__`. -/
def load (setup : State υ → State υ) (sh : Shell υ) : Shell υ :=
  match sh.current with
  | some _ => sh
  | none => { new setup sh with current := some sh.next }

/-- `IMcpyrateExtension.__del__`, iconsole.py:183-188. -/
def del (i : Nat) (sh : Shell υ) : Shell υ :=
  { sh with
    events := sh.events.erase i
    variable_ := none
    transformers := sh.transformers.erase i
    inputs := sh.inputs.erase i }

/-- `unload_ipython_extension`, iconsole.py:69-71.  Python calls `__del__` when nothing refers to the instance any more:
the bound methods in `input_transformers_post` and in the callbacks do, and so does the transformer (iconsole.py:125). -/
def unload (sh : Shell υ) : Shell υ :=
  match sh.current with
  | none => sh
  | some i =>
    let sh := { sh with current := none }
    if i ∈ sh.inputs ∨ i ∈ sh.transformers ∨ i ∈ sh.events then sh else del i sh

/-- The bindings that `%macros` shows, iconsole.py:89-93: the local ones. -/
def shownMacros (sh : Shell υ) : Except Err (Dict String Nat) :=
  match sh.current with
  | none => .error .attributeError
  | some i => .ok (sh.exts i).bindings

/-- The tree that `%%dump_ast` shows, iconsole.py:110-117: `t` is the parsed cell. -/
def dumpAst (K : Tools υ μ) (n : Nat) (expand : Bool) (t : Val) : I υ Val := do
  let sh ← M.get
  if expand then
    match sh.current with
    | none => M.throw (.other (.py .attributeError))
    | some i => transform K n i t
  else pure t

end Mcpyrate.IConsole
