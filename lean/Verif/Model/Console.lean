import Verif.Model.RunCode
/-
Model of the interactive console, mcpyrate/repl/console.py: `runsource` (133-189), `_internal_execute` (100-116) and
`_refresh_macro_functions` (191-212).  What `__init__` (40-98) sets up is the state a session starts from.
-/
namespace Mcpyrate.Console
open Py Expander GetMacros Compiler Modules RunCode Postprocess

variable {υ μ Code : Type}

/-- What `self.compile(source, filename, symbol)` says about an input, console.py:144-149: complete, incomplete (`None`), or
one of the exceptions that are caught. -/
inductive Verdict where
  | complete | incomplete | invalid
  deriving DecidableEq

/-- What the console writes. -/
inductive Shown where
  /-- `format_bindings(self.expander)`, which shows the local bindings; the text is modelled in `Model/Bindings` -/
  | bindings (locals : Dict String Nat)
  /-- `self.showsyntaxerror(filename)` -/
  | syntaxError (e : Exc)
  /-- the name and the message of an ImportError -/
  | message (e : Err)
  deriving DecidableEq

/-- The session: the local bindings of the expander; `_macro_bindings_changed`; everything else; what has been written. -/
structure Session (υ : Type) where
  bindings : Dict String Nat
  changed : Bool
  state : State υ
  output : List Shown

/-- What the console uses.  `locals` is the namespace of the session, `metadata` the attributes of the magic module
(console.py:91-92). -/
structure Tools (υ μ Code : Type) where
  interp : Interp (State υ) μ Nat
  env : Env (List Nat × (Sys × υ))
  post : Hooks (Dict String Nat × (Sys × υ))
  isOwn : Cls → Bool
  verdict : Str → Verdict
  /-- `textwrap.dedent` -/
  dedent : Str → Str
  /-- `ast.parse(source, filename)` -/
  parse : Str → Except Err Val
  /-- `compile(ast.Interactive(body), …)` -/
  compile : List Val → Except Err Code
  /-- `self.runcode(code)`: exceptions are shown, except SystemExit.  The code can change everything, also the macro
  bindings (by `__macro_expander__`). -/
  runcode : Code → Dict String Nat × State υ → Option (Except Exc Unit × (Dict String Nat × State υ))
  /-- `__module__` and `__qualname__` of a macro function, if both are there, and the first one is true -/
  origin : Nat → Option (Str × Str)
  locals : Nat
  metadata : Dict Str Obj
  filename : Str

abbrev C (υ α : Type) := Py.M Exc (Session υ) α

/-- `self.runcode(code)`. -/
def run (K : Tools υ μ Code) (c : Code) : C υ Unit := fun s =>
  (K.runcode c (s.bindings, s.state)).map fun x => (x.1, { s with bindings := x.2.1, state := x.2.2 })

/-- `tree.body`, for a tree with a list of statements. -/
def bodyOf (t : Val) : Except Err (List Val) :=
  match t.get? .body with
  | some (.list body) => .ok body
  | some _ => .error .typeError
  | none => .error .attributeError

/-- `self._internal_execute(source)`, console.py:100-116. -/
def internal (K : Tools υ μ Code) (source : Str) : C υ Unit := do
  let t ← M.ofExcept (liftErr (K.parse (K.dedent source)))
  let body ← M.ofExcept (liftErr (bodyOf t))
  let c ← M.ofExcept (liftErr (K.compile body))
  run K c

def magicName : String := "__mcpyrate_repl_self__"

/-- The namespace of the magic module is made that of the session, with the metadata on top, console.py:157-162.
The module is cleared first, so if it is itself the namespace of the session nothing of that is left. -/
def sync (K : Tools υ μ Code) : C υ Unit := fun s =>
  match s.state.sys.modules.get magicName.toList with
  | some (.obj m) =>
    let sys := s.state.sys
    let sys' := { sys with attrs := fun i =>
      if i = m then (Dict.update (if K.locals = m then [] else sys.attrs K.locals) K.metadata) else sys.attrs i }
    some (.ok (), { s with state := s.state.setSys sys' })
  | some _ => some (.error (.py .attributeError), s)
  | none => some (.error (.py .keyError), s)

/-- `find_macros(tree, filename=…, reload=True, self_module=…)`, console.py:163-164. -/
def findMacrosIn (K : Tools υ μ Code) (t : Val) : C υ (Val × Dict String Nat) := do
  let body ← M.ofExcept (liftErr (bodyOf t))
  fun s =>
    let r := FindMacros.findMacros K.interp { filename := K.filename, reload := true, selfModule := some magicName } true body
      s.state
    some (liftErr (r.1.map fun x => (Dialects.setBody t x.1, x.2)), { s with state := r.2 })

/-- `if bindings: self._macro_bindings_changed = True; self.expander.bindings.update(bindings)`, console.py:165-167. -/
def bind (b : Dict String Nat) : C υ Unit :=
  M.modify fun s => if b.isEmpty then s else { s with changed := true, bindings := s.bindings.update b }

/-- `self.expander.visit(tree)`, console.py:168.  The expander is kept between inputs; its mode and debug hook are restored after each
(C16), so only the bindings matter. -/
def visit (K : Tools υ μ Code) (n : Nat) (t : Val) : C υ Val := fun s =>
  (visitAs K.env n .current t (init (s.state.world s.bindings))).map fun x =>
    (x.1, { s with bindings := x.2.world.locals, state := .ofWorld x.2.world })

/-- `global_postprocess(tree)`, console.py:169. -/
def postprocess (K : Tools υ μ Code) (n : Nat) (t : Val) : C υ Val := fun s =>
  (globalPostprocess K.isOwn K.post n t s.state.pst).map fun x => (x.1, { s with state := .ofPst x.2 })

/-- The `try` block, console.py:151-172. -/
def translate (K : Tools υ μ Code) (n : Nat) (source : Str) : C υ Code := do
  let t ← M.ofExcept (liftErr (K.parse source))
  sync K
  let (t, b) ← findMacrosIn K t
  bind b
  let t ← visit K n t
  let t ← postprocess K n t
  let body ← M.ofExcept (liftErr (bodyOf t))
  M.ofExcept (liftErr (K.compile body))

/-- The handlers, console.py:173-185; `none` if the exception is not caught.  There is no OverflowError in
`Err`; an exception class of the user is taken to be none of the caught ones. -/
def caught : Exc → Option Shown
  | .py .syntaxError => some (.syntaxError (.py .syntaxError))
  | .py .valueError => some (.syntaxError (.py .valueError))
  | .py .macroExpansionError => some (.syntaxError (.py .macroExpansionError))
  | .app0 m => some (.syntaxError (.app0 m))
  | .app m c => some (.syntaxError (.app m c))
  | .py .moduleNotFoundError => some (.message .moduleNotFoundError)
  | .py .importError => some (.message .importError)
  | _ => none

/-- The value of a name in the ChainMap of the bindings. -/
def lookup (s : Session υ) (k : String) : Option Nat := (s.bindings.get k).or (s.state.globals.get k)

/-- The `try` of the loop, console.py:208-212. -/
def reimport (K : Tools υ μ Code) (m q : Str) (asname : String) : C υ Unit := do
  let r ← M.attempt (internal K ("from ".toList ++ m ++ " import ".toList ++ q ++ " as ".toList ++ asname.toList))
  match r with
  | .ok () => pure ()
  | .error (.py .importError) => pure ()
  | .error (.py .moduleNotFoundError) => pure ()
  | .error e => M.throw e

/-- The loop of `_refresh_macro_functions`, console.py:201-212.  Iterating over a ChainMap takes the names at the start
and looks up each value when its turn comes. -/
def refreshNames (K : Tools υ μ Code) : List String → C υ Unit
  | [] => pure ()
  | k :: rest => do
    let s ← M.get
    match lookup s k with
    | none => M.throw (.py .keyError)
    | some f =>
      match K.origin f with
      | none => refreshNames K rest
      | some (m, q) => do
        reimport K m q k
        refreshNames K rest

/-- The names in a ChainMap, in the order of iteration: those of the global map first. -/
def names (s : Session υ) : List String :=
  s.state.globals.keys ++ s.bindings.keys.filter fun k => !(s.state.globals.keys.contains k)

/-- `_refresh_macro_functions()`, console.py:191-212. -/
def refresh (K : Tools υ μ Code) : C υ Unit := do
  let s ← M.get
  if s.changed then do
    M.modify fun s => { s with changed := false }
    refreshNames K (names s)
  else pure ()

/-- `s.endswith(suffix)`. -/
def endsWith (s suffix : Str) : Bool := suffix.reverse.isPrefixOf s.reverse

/-- `runsource(source)`, console.py:133-189: true if the input is incomplete.  The special commands with an object
return `None`, which the caller only tests for truth. -/
def runsource (K : Tools υ μ Code) (n : Nat) (source : Str) : C υ Bool :=
  if source = "macros?".toList then do
    M.modify fun s => { s with output := s.output ++ [.bindings s.bindings] }
    return false
  else if endsWith source "??".toList then do
    internal K ("mcpyrate.repl.utils.sourcecode(".toList ++ source.take (source.length - 2) ++ ")".toList)
    return false
  else if endsWith source "?".toList then do
    internal K ("mcpyrate.repl.utils.doc(".toList ++ source.take (source.length - 1) ++ ")".toList)
    return false
  else if K.verdict source = .incomplete then return true
  else do
    let r ← M.attempt (translate K n source)
    match r with
    | .ok c => do
      run K c
      refresh K
      return false
    | .error e =>
      match caught e with
      | some w => do
        M.modify fun s => { s with output := s.output ++ [w] }
        return false
      | none => M.throw e

end Mcpyrate.Console
