import Verif.Model.Console
import Verif.Spec.RunCode
import Verif.Spec.Keeps
/-
Specification of the interactive console.
-/
namespace Mcpyrate.Console
open Py Expander GetMacros Compiler Modules RunCode

variable {υ μ Code : Type}

/-- The console, in state `s`, deals with the input, with outcome `r` (true asks for more lines), in state `s'`. -/
def Answers (K : Tools υ μ Code) (source : Str) (s : Session υ) (r : Except Exc Bool) (s' : Session υ) : Prop :=
  ∃ n, runsource K n source s = some (r, s')

/-- Neither a special command, nor incomplete. -/
def Ordinary (K : Tools υ μ Code) (source : Str) : Prop :=
  (∀ a, source ≠ a ++ ['?']) ∧ K.verdict source ≠ .incomplete

/-- The parser makes a module with a list of statements. -/
def ParserOk (K : Tools υ μ Code) : Prop :=
  ∀ source t, K.parse source = .ok t → ∃ body, t.get? .body = some (.list body) ∧ FindMacros.Parsed body

/-- Python source code is run as it is, without macros.  If it cannot be parsed or compiled, nothing is run. -/
inductive Executes (K : Tools υ μ Code) (source : Str) (s : Session υ) : Except Exc Unit → Session υ → Prop
  | unparsable {e} : K.parse (K.dedent source) = .error e → Executes K source s (.error (.py e)) s
  | uncompiled {t body e} : K.parse (K.dedent source) = .ok t → t.get? .body = some (.list body) →
      K.compile body = .error e → Executes K source s (.error (.py e)) s
  | ran {t body c r b p} : K.parse (K.dedent source) = .ok t → t.get? .body = some (.list body) →
      K.compile body = .ok c → K.runcode c (s.bindings, s.state) = some (r, (b, p)) →
      Executes K source s r ⟨b, s.changed, p, s.output⟩

/-- The namespace of the magic module is that of the session, except that the metadata of the module stay.  (If the
namespace of the session is that of the module, it is cleared.) -/
def Synced (K : Tools υ μ Code) (p p' : State υ) : Prop :=
  ∃ m, p.user.1.modules.get "__mcpyrate_repl_self__".toList = some (.obj m) ∧ OnlySys p p' ∧
    p'.user.1.modules = p.user.1.modules ∧ p'.user.1.next = p.user.1.next ∧
    (∀ i, i ≠ m → p'.user.1.attrs i = p.user.1.attrs i) ∧
    ∀ a, (p'.user.1.attrs m).get a =
      (K.metadata.get a).or (if K.locals = m then none else (p.user.1.attrs K.locals).get a)

/-- How the console finds macros: modules are loaded anew, and `__self__` is the magic module. -/
def options (K : Tools υ μ Code) : Opts :=
  { filename := K.filename, reload := true, allowAsname := true, selfModule := some "__mcpyrate_repl_self__" }

/-- The macro-imports of the input are run in order; they give the bindings `b`, and are replaced. -/
inductive Imported (K : Tools υ μ Code) (source : Str) (p : State υ) : Val → Dict String Nat → State υ → Prop
  | intro {t p1 rs p2 b out} : K.parse source = .ok t → Synced K p p1 →
      FindMacros.Runs K.interp (options K) p1 (FindMacros.macroImports (Dialects.stmts t)) rs p2 →
      FindMacros.Union (rs.map (·.2)) b → FindMacros.Rewritten true (Dialects.stmts t) (rs.map (·.1)) out →
      Imported K source p (withField t .body (.list out)) b p2

/-- The input cannot be parsed; or the magic module is gone; or one of the macro-imports raises. -/
inductive NotImported (K : Tools υ μ Code) (source : Str) (p : State υ) : Err → State υ → Prop
  | unparsable {e} : K.parse source = .error e → NotImported K source p e p
  | gone {t e} : K.parse source = .ok t → (∀ m, p.user.1.modules.get "__mcpyrate_repl_self__".toList ≠ some (.obj m)) →
      (e = .keyError ∨ e = .attributeError) → NotImported K source p e p
  | failed {t p1 pre i post rs p2 e p3} : K.parse source = .ok t → Synced K p p1 →
      FindMacros.macroImports (Dialects.stmts t) = pre ++ i :: post →
      FindMacros.Runs K.interp (options K) p1 pre rs p2 → getMacros K.interp (options K) i p2 = (.error e, p3) →
      NotImported K source p e p3

/-- `t` is expanded with the local bindings `l`; then come the postprocessors that are registered by now.  The macros may
change all bindings. -/
inductive Ran (K : Tools υ μ Code) (l : Dict String Nat) (t : Val) (p : State υ) :
    Except Exc Val → Dict String Nat → State υ → Prop
  | raised {e s1} : Expander.Runs K.env .current t
        { recursive := true, hook := none, world := ⟨l, p.globals, (p.registry, p.user)⟩, depth := 0, log := [] }
        (.error e) s1 →
      Ran K l t p (.error e) s1.world.locals ⟨s1.world.globals, s1.world.user.1, s1.world.user.2⟩
  | unfit {t1 s1 e} : Expander.Runs K.env .current t
        { recursive := true, hook := none, world := ⟨l, p.globals, (p.registry, p.user)⟩, depth := 0, log := [] }
        (.ok t1) s1 →
      (Markers.deleteMarkers K.isOwn t1 >>= FixCtx.fixCtx) = .error e →
      Ran K l t p (.error (.py e)) s1.world.locals ⟨s1.world.globals, s1.world.user.1, s1.world.user.2⟩
  | posted {t1 s1 t2 r s2} : Expander.Runs K.env .current t
        { recursive := true, hook := none, world := ⟨l, p.globals, (p.registry, p.user)⟩, depth := 0, log := [] }
        (.ok t1) s1 →
      (Markers.deleteMarkers K.isOwn t1 >>= FixCtx.fixCtx) = .ok t2 →
      Chain K.post s1.world.user.1 t2 ⟨s1.world.user.1, (s1.world.globals, s1.world.user.2)⟩ r s2 →
      Ran K l t p r s1.world.locals ⟨s2.user.1, s2.registry, s2.user.2⟩

/-- `new` has the bindings of `b`, and for other names those of `old`. -/
def Added (old b new : Dict String Nat) : Prop := ∀ k, new.get k = (b.get k).or (old.get k)

/-- From the input to code, or to an exception.  `b` are the bindings made by the macro-imports of the input; they hold
already when the input is expanded, and they are kept if the expansion fails. -/
inductive Translated (K : Tools υ μ Code) (source : Str) (s : Session υ) :
    Dict String Nat → Except Exc Code → Session υ → Prop
  | notImported {e p} : NotImported K source s.state e p →
      Translated K source s [] (.error (.py e)) ⟨s.bindings, s.changed, p, s.output⟩
  | raised {t b p l ch e l' p'} : Imported K source s.state t b p → Added s.bindings b l →
      (ch = true ↔ s.changed = true ∨ ∃ k f, b.get k = some f) → Ran K l t p (.error e) l' p' →
      Translated K source s b (.error e) ⟨l', ch, p', s.output⟩
  | nobody {t b p l ch t' e l' p'} : Imported K source s.state t b p → Added s.bindings b l →
      (ch = true ↔ s.changed = true ∨ ∃ k f, b.get k = some f) → Ran K l t p (.ok t') l' p' →
      (∀ body, t'.get? .body ≠ some (.list body)) → (e = .attributeError ∨ e = .typeError) →
      Translated K source s b (.error (.py e)) ⟨l', ch, p', s.output⟩
  | compiled {t b p l ch t' body l' p'} : Imported K source s.state t b p → Added s.bindings b l →
      (ch = true ↔ s.changed = true ∨ ∃ k f, b.get k = some f) → Ran K l t p (.ok t') l' p' →
      t'.get? .body = some (.list body) →
      Translated K source s b (liftErr (K.compile body)) ⟨l', ch, p', s.output⟩

/-- The exceptions that are shown to the user: those of a wrong input, those of macro expansion, and those of macros or
modules that are not found. -/
inductive Shows : Exc → Shown → Prop
  | syntaxError : Shows (.py .syntaxError) (.syntaxError (.py .syntaxError))
  | valueError : Shows (.py .valueError) (.syntaxError (.py .valueError))
  | expansion : Shows (.py .macroExpansionError) (.syntaxError (.py .macroExpansionError))
  | application0 {m} : Shows (.app0 m) (.syntaxError (.app0 m))
  | application {m c} : Shows (.app m c) (.syntaxError (.app m c))
  | noModule : Shows (.py .moduleNotFoundError) (.message .moduleNotFoundError)
  | noMacro : Shows (.py .importError) (.message .importError)

/-- The macro that a name is bound to. -/
def Bound (s : Session υ) (k : String) (f : Nat) : Prop :=
  s.bindings.get k = some f ∨ s.bindings.get k = none ∧ s.state.globals.get k = some f

/-- `from m import q as k`. -/
def importText (m q : Str) (k : String) : Str :=
  "from ".toList ++ m ++ " import ".toList ++ q ++ " as ".toList ++ k.toList

/-- The functions of the macros are imported, one after the other.  An ImportError does not matter. -/
inductive Reimports (K : Tools υ μ Code) : List String → Session υ → Except Exc Unit → Session υ → Prop
  | nil {s} : Reimports K [] s (.ok ()) s
  | gone {k ks s} : (∀ f, ¬ Bound s k f) → Reimports K (k :: ks) s (.error (.py .keyError)) s
  | skip {k ks s f r s'} : Bound s k f → K.origin f = none → Reimports K ks s r s' → Reimports K (k :: ks) s r s'
  | imported {k ks s f m q r1 s1 r s'} : Bound s k f → K.origin f = some (m, q) →
      Executes K (importText m q k) s r1 s1 →
      (r1 = .ok () ∨ r1 = .error (.py .importError) ∨ r1 = .error (.py .moduleNotFoundError)) →
      Reimports K ks s1 r s' → Reimports K (k :: ks) s r s'
  | failed {k ks s f m q e s1} : Bound s k f → K.origin f = some (m, q) →
      Executes K (importText m q k) s (.error e) s1 → e ≠ .py .importError → e ≠ .py .moduleNotFoundError →
      Reimports K (k :: ks) s (.error e) s1

/-- After an input that ran: if macros were imported since the last time, the functions of all macros are imported. -/
inductive Refreshed (K : Tools υ μ Code) (s : Session υ) : Except Exc Unit → Session υ → Prop
  | same : s.changed = false → Refreshed K s (.ok ()) s
  | names {ks r s'} : s.changed = true → (∀ k, k ∈ ks ↔ ∃ f, Bound s k f) →
      (s.bindings.WF → s.state.globals.WF → ks.Nodup) →
      Reimports K ks ⟨s.bindings, false, s.state, s.output⟩ r s' → Refreshed K s r s'

/-- What happens with an ordinary input.  `b` are the bindings made by its macro-imports. -/
inductive Answer (K : Tools υ μ Code) (source : Str) (s : Session υ) :
    Dict String Nat → Except Exc Bool → Session υ → Prop
  | shown {b e w s1} : Translated K source s b (.error e) s1 → Shows e w →
      Answer K source s b (.ok false) ⟨s1.bindings, s1.changed, s1.state, s1.output ++ [w]⟩
  | raised {b e s1} : Translated K source s b (.error e) s1 → (∀ w, ¬ Shows e w) → Answer K source s b (.error e) s1
  | exits {b c s1 e l p} : Translated K source s b (.ok c) s1 →
      K.runcode c (s1.bindings, s1.state) = some (.error e, (l, p)) →
      Answer K source s b (.error e) ⟨l, s1.changed, p, s1.output⟩
  | ran {b c s1 l p s'} : Translated K source s b (.ok c) s1 →
      K.runcode c (s1.bindings, s1.state) = some (.ok (), (l, p)) →
      Refreshed K ⟨l, s1.changed, p, s1.output⟩ (.ok ()) s' → Answer K source s b (.ok false) s'
  | unrefreshed {b c s1 l p e s'} : Translated K source s b (.ok c) s1 →
      K.runcode c (s1.bindings, s1.state) = some (.ok (), (l, p)) →
      Refreshed K ⟨l, s1.changed, p, s1.output⟩ (.error e) s' → Answer K source s b (.error e) s'

/-- A session: the inputs one after the other, and none of them ends the session. -/
inductive Goes (K : Tools υ μ Code) : Session υ → List Str → Session υ → Prop
  | nil {s} : Goes K s [] s
  | cons {source sources s x s1 s'} : Answers K source s (.ok x) s1 → Goes K s1 sources s' →
      Goes K s (source :: sources) s'

/-- The same, with the bindings made by the macro-imports of each input; an input that is not ordinary makes none. -/
inductive Inputs (K : Tools υ μ Code) : Session υ → List (Str × Dict String Nat) → Session υ → Prop
  | nil {s} : Inputs K s [] s
  | cons {source b rest s x s1 s'} : Answers K source s (.ok x) s1 →
      (Ordinary K source ∧ Answer K source s b (.ok x) s1 ∨ ¬ Ordinary K source ∧ b = []) →
      Inputs K s1 rest s' → Inputs K s ((source, b) :: rest) s'

/-- Neither macros nor the code that is run change the local bindings of the expander by themselves. -/
structure Stable (K : Tools υ μ Code) : Prop where
  macros : K.env.Keeps fun w => w.locals
  code : ∀ c b p r b' p', K.runcode c (b, p) = some (r, (b', p')) → b' = b

/-- The import system finds the magic module in `sys.modules`, and its attributes are those in its namespace. -/
def Linked (K : Tools υ μ Code) : Prop :=
  ∀ p m, p.user.1.modules.get "__mcpyrate_repl_self__".toList = some (.obj m) →
    ∃ x, K.interp.sysModules p "__mcpyrate_repl_self__" = some x ∧
      ∀ k f, K.interp.attr p x k = some f ↔ (p.user.1.attrs m).get k.toList = some (.obj f)

/-- `from __self__ import macros, k`. -/
def IsSelfImport (k : String) (i : Val) : Prop :=
  i.get? .module_ = some (.str "__self__") ∧ i.get? .level = some (.int 0) ∧
    ∃ a b, i.get? .names = some (.list [a, b]) ∧ b.get? .name = some (.str k) ∧ b.get? .asname = some .none

/-- The import of the macro function `f`, as `k`, by its module and its qualified name, is not Python code. -/
def Unimportable (K : Tools υ μ Code) (k : String) (f : Nat) (e : Err) : Prop :=
  ∃ m q, K.origin f = some (m, q) ∧ (K.parse (K.dedent (importText m q k)) = .error e ∨
    ∃ t body, K.parse (K.dedent (importText m q k)) = .ok t ∧ t.get? .body = some (.list body) ∧
      K.compile body = .error e)

/-- Code that is run does not leave the console (by SystemExit), and does not change the global bindings. -/
def Stays (K : Tools υ μ Code) : Prop :=
  ∀ c b p r b' p', K.runcode c (b, p) = some (r, (b', p')) → r = .ok () ∧ p'.globals = p.globals

end Mcpyrate.Console
