import Verif.Model.DialectSource
import Verif.Model.Postprocess
import Verif.Model.FutureImports
/-
Model of `expand` and `singlephase_expand`, mcpyrate/compiler.py:33-183 and 281-312, and of `ismultiphase`,
multiphase.py:229-247.  The stages are the models of the dialect expander, `find_macros`, the macro expander and
`global_postprocess`; they all work on one process-wide state.
-/
namespace Mcpyrate.Compiler
open Py Expander GetMacros Paths Postprocess

/-- The state of the process, as far as the stages share it: the global macro bindings (core.py:24), the registered
postprocessors (core.py:27), and everything else. -/
structure Proc (υ : Type) where
  globals : Dict String Nat
  registry : List Nat
  user : υ
  deriving DecidableEq

variable {υ μ D : Type}

/-- The state that a macro expander with these local bindings starts with. -/
def Proc.world (p : Proc υ) (locals : Dict String Nat) : World (List Nat × υ) := ⟨locals, p.globals, (p.registry, p.user)⟩
/-- What an expander leaves behind. -/
def Proc.ofWorld (w : World (List Nat × υ)) : Proc υ := ⟨w.globals, w.user.1, w.user.2⟩
/-- The state as seen by `global_postprocess`. -/
def Proc.pst (p : Proc υ) : PSt (Dict String Nat × υ) := ⟨p.registry, (p.globals, p.user)⟩
def Proc.ofPst (s : PSt (Dict String Nat × υ)) : Proc υ := ⟨s.user.1, s.registry, s.user.2⟩

/-- What the compiler runs and calls: the import system, the macro functions, the postprocessors, the dialects, the
parser.  Functions and classes are identified by numbers.  All of them may change the state. -/
structure Tools (υ μ D : Type) where
  interp : Interp (Proc υ) μ Nat
  env : Env (List Nat × υ)
  post : Hooks (Dict String Nat × υ)
  /-- the dialects, as used by `transform_ast` and `postprocess_ast` -/
  dialects : Dialects.Classes (Proc υ) Nat D Val
  /-- the dialects, as used by `transform_source` -/
  sources : Dialects.Classes (Proc υ) Nat D Str
  /-- `importlib.util.decode_source` -/
  decode : List Nat → Except Err Str
  /-- `ast.parse(text, filename=filename, mode="exec")`; `none` if that raises -/
  parse : Str → Option Val
  /-- `ast.parse(statement).body[0]`, dialects.py:388-389 -/
  parseStmt : Str → Except Err Val
  /-- the subclasses of `MacroExpanderMarker` -/
  isOwn : Cls → Bool
  /-- the subclasses of `ASTMarker` -/
  isMarker : Cls → Bool
  /-- `multiphase_expand(tree, …)`, which has a model of its own (Model/Multiphase.lean) -/
  multiphase : Val → String → Py.M Exc (Dialects.St (Proc υ)) Val

abbrev Comp (υ α : Type) := Py.M Exc (Dialects.St (Proc υ)) α

/-- A step of the dialect expander. -/
def ofDialects {α : Type} (r : Dialects.St (Proc υ) → Option (Except Err α × Dialects.St (Proc υ))) : Comp υ α :=
  fun s => (r s).map fun x => (liftErr x.1, x.2)

/-- A step that works on the process state. -/
def ofProc {α : Type} (r : Proc υ → Option (Except Exc α × Proc υ)) : Comp υ α :=
  fun s => (r s.world).map fun x => (x.1, { s with world := x.2 })

/-- `MacroExpander(bindings, filename).visit(tree)`, expander.py:579. -/
def visitWith (T : Tools υ μ D) (n : Nat) (b : Dict String Nat) (t : Val) : Comp υ Val :=
  ofProc fun p => (visitAs T.env n .current t (init (p.world b))).map fun x => (x.1, .ofWorld x.2.world)

/-- `global_postprocess(expansion)`, expander.py:580. -/
def postprocessed (T : Tools υ μ D) (n : Nat) (t : Val) : Comp υ Val :=
  ofProc fun p => (globalPostprocess T.isOwn T.post n t p.pst).map fun x => (x.1, .ofPst x.2)

/-- `expand_macros(tree, bindings, filename=…)`, expander.py:563-581. -/
def expandMacros (T : Tools υ μ D) (n : Nat) (b : Dict String Nat) (t : Val) : Comp υ Val := do
  let t ← visitWith T n b t
  postprocessed T n t

/-- `find_macros(tree, filename=…, self_module=…)`, expander.py:584-658, on a whole tree: the bindings, and the tree,
whose `body` is changed. -/
def findMacrosIn (T : Tools υ μ D) (filename : Str) (self : Option String) (t : Val) : Comp υ (Val × Dict String Nat) :=
  match t.get? .body with
  | some (.list body) => ofProc fun p =>
    let r := FindMacros.findMacros T.interp { filename, selfModule := self } true body p
    some (liftErr (r.1.map fun x => (Dialects.setBody t x.1, x.2)), r.2)
  | some _ => M.throw (.py .typeError)
  | none => M.throw (.py .attributeError)

/-- `singlephase_expand(tree, filename=…, self_module=…, dexpander=…)`, compiler.py:281-312.  A dialect expander is
always given.  The number bounds the steps of each stage. -/
def singlephaseExpand (T : Tools υ μ D) (filename : Str) (self : Option String) (n : Nat) (t : Val) : Comp υ Val := do
  let (t, ds) ← ofDialects (Dialects.transformAst T.dialects T.interp filename n t)
  let (t, b) ← findMacrosIn T filename self t
  let t ← expandMacros T n b t
  let t ← ofDialects fun s => some (Dialects.postprocess T.dialects ds t s)
  M.ofExcept (liftErr (Markers.checkNoMarkersRemaining T.isMarker t))
  return t

/-- The loop over `stmt.names[1:]`, multiphase.py:244-246.  An alias without `name` raises AttributeError. -/
def importsPhase : List Val → Except Err Bool
  | [] => .ok false
  | a :: as =>
    match a.get? .name with
    | none => .error .attributeError
    | some n => if n == .str "phase" then .ok true else importsPhase as

/-- `ismultiphase(tree)`, multiphase.py:229-247, on the body of the tree.  The optional fields `module` and `level`
default to `None`. -/
def ismultiphase : List Val → Except Err Bool
  | [] => .ok false
  | s :: rest =>
    match ismacroimport "macros" s with
    | .error e => .error e
    | .ok false => ismultiphase rest
    | .ok true =>
      if (s.get? .module_).getD .none == .str "mcpyrate.multiphase" && (s.get? .level).getD .none == .int 0 then
        match s.get? .names with
        | some (.list (_ :: as)) =>
          match importsPhase as with
          | .ok false => ismultiphase rest
          | r => r
        | _ => .error .attributeError         -- does not occur after `ismacroimport`
      else ismultiphase rest

/-- What can be passed to `expand` as `source`. -/
inductive Source where
  | str (text : Str)
  | bytes (b : List Nat)
  | tree (t : Val)
  | list (xs : List Val)
  | other

/-- `self_module` as a Python value is true. -/
def selfName : Option String → Option String
  | some a => if a = "" then none else some a
  | none => none

/-- From the initial tree on, compiler.py:174-181. -/
def expandTree (T : Tools υ μ D) (filename : Str) (self : Option String) (n : Nat) (t : Val) : Comp υ Val :=
  match t.get? .body with
  | some (.list body) =>
    match ismultiphase body with
    | .error e => M.throw (.py e)
    | .ok false => singlephaseExpand T filename self n t
    | .ok true =>
      match selfName self with
      | none => M.throw (.py .valueError)
      | some a => T.multiphase t a
  | some _ => M.throw (.py .typeError)
  | none => M.throw (.py .attributeError)

/-- `isinstance(x, ast.stmt)`.  AST markers are not statements. -/
def isStmt : Val → Bool
  | .node (.py k) _ _ => k.isStmt
  | _ => false

/-- The checks on a tree that was passed in, compiler.py:168-171. -/
def checkBody (t : Val) : Except Err Unit :=
  match t.get? .body with
  | some (.list body) => if body.all isStmt then .ok () else .error .typeError
  | some _ => .error .typeError
  | none => .error .attributeError

/-- The text of a source file, compiler.py:147-160: dialect source transforms, and parsing. -/
def expandText (T : Tools υ μ D) (filename : Str) (self : Option String) (n : Nat) (text : Str) : Comp υ Val := do
  let text ← ofDialects (Dialects.transformSource T.sources T.interp T.parseStmt filename n text)
  match T.parse text with
  | none => M.throw (.py .importError)
  | some t => expandTree T filename self n t

/-- `expand(source, filename, self_module=…)`, compiler.py:33-183, with the dialect expander it creates. -/
def expandWith (T : Tools υ μ D) (filename : Str) (self : Option String) (n : Nat) : Source → Comp υ Val
  | .str text => expandText T filename self n text
  | .bytes b => do
    let text ← M.ofExcept (liftErr (T.decode b))
    expandText T filename self n text
  | .tree t =>
    if t.isK .Module then do
      M.ofExcept (liftErr (checkBody t))
      expandTree T filename self n t
    else M.throw (.py .typeError)
  | .list xs => do
    let t := mk .Module [(.body, .list xs), (.type_ignores, .list [])]
    M.ofExcept (liftErr (checkBody t))
    expandTree T filename self n t
  | .other => M.throw (.py .typeError)

/-- `expand(source, filename, self_module=…)`: the dialect expander is a fresh one, compiler.py:145. -/
def expand (T : Tools υ μ D) (filename : Str) (self : Option String) (n : Nat) (source : Source) (p : Proc υ) :
    Option (Except Exc Val × Proc υ) :=
  (expandWith T filename self n source { world := p }).map fun x => (x.1, x.2.world)

end Mcpyrate.Compiler
