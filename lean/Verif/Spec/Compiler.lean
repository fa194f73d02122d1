import Verif.Model.Compiler
import Verif.Spec.Dialects
import Verif.Spec.DialectSource
import Verif.Spec.Postprocess
import Verif.Spec.FixCtx
import Verif.Spec.Invocation
/-
Specification of `expand`.
-/
namespace Mcpyrate.Compiler
open Py Expander GetMacros Paths Dialects

variable {υ μ D : Type}

/-- `expand(source, filename, self_module=self)` in state `p` finishes with outcome `r`, in state `p'`. -/
def Expands (T : Tools υ μ D) (filename : Str) (self : Option String) (source : Source) (p : Proc υ)
    (r : Except Exc Val) (p' : Proc υ) : Prop :=
  ∃ n, expand T filename self n source p = some (r, p')

/-- `from mcpyrate.multiphase import macros, …, phase, …`. -/
def IsPhaseImport (s : Val) : Prop :=
  Splicing.isImport "macros" s = true ∧ s.get? .module_ = some (.str "mcpyrate.multiphase") ∧
    s.get? .level = some (.int 0) ∧
    ∃ a as b, s.get? .names = some (.list (a :: as)) ∧ b ∈ as ∧ b.get? .name = some (.str "phase")

/-- The module asks for multi-phase compilation. -/
def Multiphase (t : Val) : Prop := ∃ s ∈ Dialects.stmts t, IsPhaseImport s

/-- Given a module as made by the parser, the transformers of the dialects return such a module. -/
def ReturnsParsed (K : Classes (Proc υ) Nat D Val) : Prop :=
  ∀ d m c s c' s', K.method d = some m → (∃ body, c.get? .body = some (.list body) ∧ FindMacros.Parsed body) →
    m c s = (.value c', s') →
    ∃ body, c'.get? .body = some (.list body) ∧ FindMacros.Parsed body

/-- A module as made by the parser: a node with a list of statements; an import has a non-empty list of names, and each
of them is a name; a statement with a column has a line. -/
def ParsedModule (t : Val) : Prop := t.isAST = true ∧ ∃ body, t.get? .body = some (.list body) ∧ FindMacros.Parsed body ∧
  ∀ s ∈ body, ∀ as, s.get? .names = some (.list as) → s.isK .ImportFrom = true → ∀ a ∈ as, (a.get? .name).isSome = true

/-- `t` is expanded by an expander with the local bindings `b`, with outcome `r`.  The macros may change the global
bindings, the registered postprocessors, and anything else.  Then the expander's own markers are removed, the contexts are
fixed, and the postprocessors that are registered by now are called, one after the other. -/
inductive Ran (T : Tools υ μ D) (b : Dict String Nat) (t : Val) (p : Proc υ) : Except Exc Val → Proc υ → Prop
  | raised {e s1} : Expander.Runs T.env .current t
        { recursive := true, hook := none, world := ⟨b, p.globals, (p.registry, p.user)⟩, depth := 0, log := [] }
        (.error e) s1 →
      Ran T b t p (.error e) ⟨s1.world.globals, s1.world.user.1, s1.world.user.2⟩
  | unfit {t1 s1 e} : Expander.Runs T.env .current t
        { recursive := true, hook := none, world := ⟨b, p.globals, (p.registry, p.user)⟩, depth := 0, log := [] }
        (.ok t1) s1 →
      (Markers.deleteMarkers T.isOwn t1 >>= FixCtx.fixCtx) = .error e →
      Ran T b t p (.error (.py e)) ⟨s1.world.globals, s1.world.user.1, s1.world.user.2⟩
  | posted {t1 s1 t2 r s2} : Expander.Runs T.env .current t
        { recursive := true, hook := none, world := ⟨b, p.globals, (p.registry, p.user)⟩, depth := 0, log := [] }
        (.ok t1) s1 →
      (Markers.deleteMarkers T.isOwn t1 >>= FixCtx.fixCtx) = .ok t2 →
      Chain T.post s1.world.user.1 t2 ⟨s1.world.user.1, (s1.world.globals, s1.world.user.2)⟩ r s2 →
      Ran T b t p r ⟨s2.user.1, s2.registry, s2.user.2⟩

/-- The stages of single-phase expansion up to the global postprocessors, with outcome `r`: first the dialect-imports are
processed until there are no more; then the macro-imports of the result are run in order; they give the bindings, and are
replaced; then the macros are expanded.  `ds` are the dialects that were applied. -/
def Stages (T : Tools υ μ D) (filename : Str) (self : Option String) (t : Val) (p : Proc υ) (ds : List D)
    (r : Except Exc Val) (p' : Proc υ) : Prop :=
  ∃ recs t1 p1 rs out b p2,
    Steps T.dialects T.interp filename t p recs t1 p1 ∧ dialectImports t1 = [] ∧
    ds = (recs.flatMap (·.2)).map (·.dialect) ∧
    FindMacros.Runs T.interp { filename, selfModule := self } p1 (FindMacros.macroImports (Dialects.stmts t1)) rs p2 ∧
    FindMacros.Union (rs.map (·.2)) b ∧
    FindMacros.Rewritten self.isSome (Dialects.stmts t1) (rs.map (·.1)) out ∧
    Ran T b (withField t1 .body (.list out)) p2 r p'

/-- The initial tree.  A text is transformed by the dialects that are imported in it, and parsed; a module or a list of
statements is taken as it is. -/
inductive Initial (T : Tools υ μ D) (filename : Str) (p : Proc υ) : Source → Val → Proc υ → Prop
  | str {text recs text' p1 t} : SourceSteps T.sources T.interp T.parseStmt filename text p recs text' p1 →
      T.parse text' = some t → Initial T filename p (.str text) t p1
  | bytes {b text t p1} : T.decode b = .ok text → Initial T filename p (.str text) t p1 →
      Initial T filename p (.bytes b) t p1
  | tree {t body} : t.isK .Module = true → t.get? .body = some (.list body) →
      (∀ x ∈ body, ∃ k l fs, x = .node (.py k) l fs ∧ k.isStmt = true) → Initial T filename p (.tree t) t p
  | list {xs} : (∀ x ∈ xs, ∃ k l fs, x = .node (.py k) l fs ∧ k.isStmt = true) →
      Initial T filename p (.list xs) (mk .Module [(.body, .list xs), (.type_ignores, .list [])]) p

/-- The source is `t`, without dialects that transform the text. -/
inductive Given (T : Tools υ μ D) : Source → Val → Prop
  | str {text t} : HasImports [] text → T.parse text = some t → Given T (.str text) t
  | bytes {b text t} : T.decode b = .ok text → Given T (.str text) t → Given T (.bytes b) t
  | tree {t} : (∀ x ∈ Dialects.stmts t, ∃ k l fs, x = .node (.py k) l fs ∧ k.isStmt = true) → Given T (.tree t) t
  | list {xs} : (∀ x ∈ xs, ∃ k l fs, x = .node (.py k) l fs ∧ k.isStmt = true) →
      Given T (.list xs) (mk .Module [(.body, .list xs), (.type_ignores, .list [])])

/-- A module that uses none of the features of mcpyrate: no dialects, no macros, no AST markers. -/
structure Plain (T : Tools υ μ D) (p : Proc υ) (t : Val) : Prop where
  module_ : t.isK .Module = true
  parsed : ParsedModule t
  tree : t.isTree = true
  /-- the module has each attribute once -/
  once : ∀ c l fs, t = .node c l fs → (fs.map (·.1)).Nodup
  dialects : dialectImports t = []
  macros : FindMacros.macroImports (Dialects.stmts t) = []
  /-- no global macro is invoked -/
  invocations : ∀ u, Open t u → fieldsOk u = true ∧ ¬ Invocation T.env (p.world []) u
  markers : ∀ u, Reach t u → u.hasCls T.isMarker = false
  fields : FixCtx.FieldsOk t
  targets : FixCtx.TargetsOk t
  contexts : FixCtx.AllRight t

end Mcpyrate.Compiler
