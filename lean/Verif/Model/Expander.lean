import Verif.Py.Run
import Verif.Py.Dict
import Verif.Model.Markers
import Verif.Model.FixLocations
import Verif.Model.FixCtx
/-
Model of the macro expander: `mcpyrate/core.py` (BaseMacroExpander) and `mcpyrate/expander.py`
(MacroExpander, coverage dummies).

Macro functions are arbitrary programs (`Prog`) over the operations of the expander that a macro can
call, so that they may re-enter the expander, raise and catch exceptions, and change the macro
bindings and their own state at any point.

General simplifications:
* Trees are values.  A macro that edits its input in place and returns it, returns the new value.
  What an exception leaves behind in a half-rewritten tree object is not modelled.
* A macro can create another expander instance for the same file and visit a tree with it (`Prog.visitNew`).
  Macros that hand that instance on to other macros are not covered.
* A macro that assigns to the expander's attributes `recursive`, `_debughook` directly is not covered.
* Python 3.9+ (no `ast.Index`).
-/
namespace Mcpyrate.Expander
open Py

/-- Exceptions: raised by user code (`isException` is false for KeyboardInterrupt, SystemExit etc.),
by Python or the library, and `MacroApplicationError` without or with a `__cause__`.  A message is
the list of its lines. -/
inductive Exc where
  | user (id : Nat) (isException : Bool)
  | py (e : Err)
  | app0 (msg : List String)
  | app (msg : List String) (cause : Exc)
  deriving DecidableEq, Repr

/-- `isinstance(err, Exception)`. -/
def Exc.isException : Exc → Bool
  | .user _ b => b
  | _ => true

/-- The invocation types. -/
inductive Syn where
  | expr | block | decorator | name
  deriving DecidableEq, Repr

def Syn.text : Syn → String
  | .expr => "expr" | .block => "block" | .decorator => "decorator" | .name => "name"

/-- What a macro function receives: `syntax`, `tree`, `args` (`None` for a name macro),
`optional_vars` (only for block macros), `invocation`. -/
structure MArgs where
  synt : Syn
  tree : Val
  args : Option (List Val)
  optionalVars : Option Val
  invocation : Val
  deriving DecidableEq

/-- What a macro function returns: an AST value (node, `None`, list or other iterable as a list,
other constants), or some other object that cannot be converted to a list. -/
inductive Ret where
  | val (v : Val)
  | other
  deriving DecidableEq

/-- How a macro calls the expander: `visit`, `visit_recursively`, `visit_once`. -/
inductive Mode where
  | current | recursively | once
  deriving DecidableEq, Repr

/-- What user code can change: the expander's local bindings, the global bindings, and its own state.
A macro function is identified by a number. -/
structure World (υ : Type) where
  locals : Dict String Nat
  globals : Dict String Nat
  user : υ
  deriving DecidableEq

/-- One application of a macro (ghost state; for stating properties). `depth` is the number of macro
functions that are running when this one is called, `recursive` the mode and `bound` the answer of
`isbound(name)` at that time. -/
structure App where
  name : String
  fn : Nat
  margs : MArgs
  depth : Nat
  recursive : Bool
  bound : Option Nat
  deriving DecidableEq

/-- The expander: `self.recursive`, `self._debughook`, the bindings; and ghost state. -/
structure St (υ : Type) where
  recursive : Bool
  hook : Option Nat
  world : World υ
  depth : Nat
  log : List App
  deriving DecidableEq

/-- User code.  `visit` hands the outcome to the continuation, so user code can catch exceptions;
`withHook h body k` is `with expander.debughook(h): body`; `visitNew b t k` visits with another expander:
`MacroExpander(b, expander.filename).visit(t)`; `hang` does not return. -/
inductive Prog (υ : Type) where
  | ret (r : Ret)
  | raise (e : Exc)
  | visit (mode : Mode) (t : Val) (k : Except Exc Val → Prog υ)
  | withHook (h : Nat) (body : Prog υ) (k : Except Exc Ret → Prog υ)
  | get (k : Bool → World υ → Prog υ)
  | put (w : World υ) (k : Prog υ)
  | visitNew (bindings : Dict String Nat) (t : Val) (k : Except Exc Val → Prog υ)
  | hang

/-- A macro function with the marks set by `@namemacro` and `@parametricmacro`. -/
structure MacroDef (υ : Type) where
  isName : Bool
  isParam : Bool
  fn : MArgs → Prog υ

/-- The fixed surroundings: the macro functions and debug hooks behind the numbers, the file name,
and the lines of `format_location(filename, target, sourcecode)`. -/
structure Env (υ : Type) where
  macros : Nat → MacroDef υ
  hooks : Nat → (oldtree : Val) → (newtree : Ret) → String → Prog υ
  filename : String
  loc : Val → List String

variable {υ : Type}

abbrev X (υ α : Type) := M Exc (St υ) α

/-- Lift an error of the AST utilities. -/
def liftErr {α : Type} : Except Err α → Except Exc α
  | .ok a => .ok a
  | .error e => .error (.py e)

/-- `Done(body)`, core.py:75-80. -/
def done (v : Val) : Val := .node (.marker "Done") {} [(.body, v)]

/-- `isinstance(tree, Done)`: `Done` itself, and its subclass `QuasiquoteSearchDone`, quotes.py:56-67. -/
def isDone : Val → Bool
  | .node (.marker "Done") _ _ => true
  | .node (.marker "QuasiquoteSearchDone") _ _ => true
  | _ => false

/-! ### core.py -/

/-- `with self._recursive_mode(b): …`, core.py:151-161. -/
def withMode {α : Type} (b : Bool) (m : X υ α) : X υ α :=
  M.bracket (fun s => { s with recursive := b }) (fun s s' => { s' with recursive := s.recursive }) m

/-- `with self.debughook(h): …`, core.py:163-185. -/
def withHook {α : Type} (h : Nat) (m : X υ α) : X υ α :=
  M.bracket (fun s => { s with hook := some h }) (fun s s' => { s' with hook := s.hook }) m

/-- Run `m` with a new expander instance: its own local bindings, recursive mode, no hook (core.py:96-101); the global
bindings are shared. -/
def withNew {α : Type} (b : Dict String Nat) (m : X υ α) : X υ α :=
  M.bracket (fun s => { s with recursive := true, hook := none, world := { s.world with locals := b } })
    (fun s s' => { s' with recursive := s.recursive, hook := s.hook, world := { s'.world with locals := s.world.locals } }) m

/-- `isbound(name)`, core.py:349-354; `self.bindings` is `ChainMap(local, global)`, core.py:98. -/
def isbound (w : World υ) (n : String) : Option Nat := (Dict.get w.locals n).or (Dict.get w.globals n)

/-- `isbound(name, global_only=True)`. -/
def isboundGlobal (w : World υ) (n : String) : Option Nat := Dict.get w.globals n

/-- `not self.bindings`: a ChainMap is true if one of its maps is. -/
def noBindings (w : World υ) : Bool := w.locals.isEmpty && w.globals.isEmpty

/-- The entry points: `visit`, `visit_recursively` (core.py:125-135), `visit_once` (137-149), given
`visit`. -/
def visitMode (vis : Val → X υ Val) (mode : Mode) (t : Val) : X υ Val :=
  match mode with
  | .current => vis t
  | .recursively => withMode true (vis t)
  | .once => withMode false do return done (← vis t)

/-- Run user code. -/
def run (vis : Val → X υ Val) : Prog υ → X υ Ret
  | .ret r => pure r
  | .raise e => M.throw e
  | .visit mode t k => do
    let r ← M.attempt (visitMode vis mode t)
    run vis (k r)
  | .withHook h body k => do
    let r ← M.attempt (withHook h (run vis body))
    run vis (k r)
  | .get k => do
    let s ← M.get
    run vis (k s.recursive s.world)
  | .put w k => do
    M.modify fun s => { s with world := w }
    run vis k
  | .visitNew b t k => do
    let r ← M.attempt (withNew b (vis t))
    run vis (k r)
  | .hang => M.diverge

/-- Run a macro function or a debug hook; `depth` is ghost state. -/
def runNested (vis : Val → X υ Val) (p : Prog υ) : X υ Ret :=
  M.bracket (fun s => { s with depth := s.depth + 1 }) (fun s s' => { s' with depth := s.depth })
    (run vis p)

/-- `_apply_macro`, core.py:306-330.  If a hook is installed only after the macro has run, `oldid` is
not defined (UnboundLocalError, a NameError). -/
def applyMacro (E : Env υ) (vis : Val → X υ Val) (id : Nat) (name : String) (a : MArgs) :
    X υ Ret := do
  let s ← M.get
  M.modify fun s => { s with log := s.log ++ [⟨name, id, a, s.depth, s.recursive, isbound s.world name⟩] }
  let newtree ← runNested vis ((E.macros id).fn a)
  let s' ← M.get
  match s'.hook, s.hook with
  | none, _ => return newtree
  | some _, none => M.throw (.py .nameError)
  | some h, some _ => do
    let _ ← runNested vis (E.hooks h a.invocation newtree name)
    return newtree

/-- Conversion and check of a macro's return value, core.py:255-271: `None`, an AST, or a list of
ASTs; `none` if rejected.  (`list("")` is the empty list.) -/
def checkRet : Ret → Option Val
  | .val .none => some .none
  | .val (.node c l fs) => some (.node c l fs)
  | .val (.list xs) => if xs.all Val.isAST then some (.list xs) else none
  | .val (.const (.str "")) => some (.list [])
  | .val (.const (.bytes [])) => some (.list [])
  | .val (.const _) => none
  | .other => none

/-- `hint`, core.py:288, as lines. -/
def hint : List String :=
  ["An exception occurred during macro expansion.", "",
   "Macro use site (most recent macro application last):"]

/-- `f"{loc}\nin {syntax} macro invocation for '{macroname}'"`, core.py:275. -/
def site (E : Env υ) (a : MArgs) (name : String) : List String :=
  E.loc a.invocation ++ ["in " ++ a.synt.text ++ " macro invocation for '" ++ name ++ "'"]

/-- The handler of `expand`, core.py:274-302: what is raised instead of `err`. -/
def report (E : Env υ) (a : MArgs) (name : String) (err : Exc) : Exc :=
  match err with
  | .app msg cause =>
    let old := if msg.head? = hint.head? then msg.drop hint.length else msg
    .app (hint ++ site E a name ++ old) cause
  | err => .app (site E a name) err

/-- The body of the `try` of `expand`, core.py:245-271. -/
def expandTry (E : Env υ) (vis : Val → X υ Val) (name : String) (a : MArgs) : X υ Val := do
  let s ← M.get
  match isbound s.world name with
  | none => M.throw (.app0 (E.loc a.invocation ++ ["not bound"]))
  | some id => do
    let r ← applyMacro E vis id name a
    match checkRet r with
    | some v => return v
    | none => M.throw (.app0 (E.loc a.invocation ++ ["bad return value"]))

/-- The location attributes of a node. -/
def locOf : Val → Loc
  | .node _ l _ => l
  | _ => {}

/-- `_visit_expansion`, core.py:332-347. -/
def visitExpansion (vis : Val → X υ Val) (expansion target : Val) : X υ Val :=
  if expansion.isNone then return expansion
  else do
    let e1 ← M.ofExcept (liftErr (FixLocations.fixLocations expansion (locOf target) .reference))
    let e2 ← M.ofExcept (liftErr (FixCtx.fixCtx e1))
    let s ← M.get
    if s.recursive then vis e2 else return e2

/-- `expand`, core.py:187-304. -/
def expand (E : Env υ) (vis : Val → X υ Val) (name : String) (a : MArgs) : X υ Val := do
  let r ← M.attempt (expandTry E vis name a)
  match r with
  | .ok v => visitExpansion vis v a.invocation
  | .error err => M.throw (if err.isException then report E a name err else err)

/-! ### expander.py -/

/-- `getattr(node, f)`; a missing attribute raises AttributeError. -/
def attr (t : Val) (f : F) : Except Exc Val :=
  match t.get? f with
  | some v => .ok v
  | none => .error (.py .attributeError)

/-- The macro name in an `id` field.  Macro names are strings; anything else is never bound. -/
def asName : Val → Option String
  | .str s => some s
  | _ => none

/-- `for x in v`. -/
def asList : Val → Except Exc (List Val)
  | .list xs => .ok xs
  | _ => .error (.py .typeError)

/-- `bool(v)` for a list or `None`. -/
def nonEmpty : Val → Bool
  | .list [] => false
  | .const .none => false
  | _ => true

/-- `destructure_candidate(tree, _validate_call_syntax=validate)`, expander.py:99-136: the macro name
and the macro arguments, or `none`. -/
def destructure (validate : Bool) (t : Val) : Except Exc (Option (String × List Val)) :=
  if t.isK .Name then do
    let i ← attr t .id
    return (asName i).map (·, [])
  else if t.isK .Subscript then do
    let v ← attr t .value
    if v.isK .Name then do
      let sl ← attr t .slice
      let args ← if sl.isK .Tuple then do asList (← attr sl .elts) else pure [sl]
      let i ← attr v .id
      return (asName i).map (·, args)
    else return none
  else if t.isK .Call then do
    let f ← attr t .func
    if f.isK .Name then do
      let kws ← attr t .keywords
      if nonEmpty kws then return none
      else do
        let args ← asList (← attr t .args)
        if validate && args.isEmpty then .error (.py .syntaxError)
        else if validate && args.any (·.isK .Starred) then .error (.py .syntaxError)
        else do
          let i ← attr f .id
          return (asName i).map (·, args)
    else return none
  else return none

/-- `ismacrocall(macroname, macroargs, syntax)`, expander.py:142-152. -/
def ismacrocall (E : Env υ) (w : World υ) (c : Option (String × List Val)) (synt : Syn) : Bool :=
  match c with
  | none => false
  | some (n, args) =>
    if n = "" then false
    else match isbound w n with
      | none => false
      | some id =>
        if synt = .name then (E.macros id).isName
        else args.isEmpty || (E.macros id).isParam

/-- `copy_location(new, old)` of the standard library: the location of `new`, when both classes have
location attributes. -/
def copyLoc (old : Loc) : Loc :=
  { lineno := match old.lineno with | .int n => .int n | _ => .missing
    colOffset := match old.colOffset with | .int n => .int n | _ => .missing
    endLineno := FixLocations.orNone old.endLineno
    endColOffset := FixLocations.orNone old.endColOffset }

/-- `_make_coverage_dummy_expr(macronode)`, expander.py:538-558: `Done` of `(lambda: None)()`. -/
def coverageExpr (old : Loc) : Val :=
  let l := copyLoc old
  done (.node (.py .Call) l
    [(.func, .node (.py .Lambda) l
      [(.args, mk .arguments [(.posonlyargs, .list []), (.args, .list []), (.vararg, .none),
          (.kwonlyargs, .list []), (.kw_defaults, .list []), (.kwarg, .none), (.defaults, .list [])]),
       (.body, .node (.py .Constant) l [(.value, .none), (.kind, .none)])]),
     (.args, .list []), (.keywords, .list [])])

def attrText : Attr → String
  | .int n => toString n
  | _ => "None"

/-- The dummy assignment of expander.py:530-533. -/
def coverageStmt (filename macroname : String) (old : Loc) : Val :=
  let l := copyLoc old
  done (.node (.py .Assign) l
    [(.targets, .list [.node (.py .Name) l [(.id, .str "_mcpyrate_coverage"), (.ctx, mk .Store [])]]),
     (.value, .node (.py .Constant) l
       [(.value, .str (filename ++ ":" ++ attrText old.lineno ++ " invoked macro '" ++ macroname ++ "'")),
        (.kind, .none)]),
     (.type_comment, .none)])

/-- `_insert_coverage_dummy_stmt(tree, macronode, macroname, filename)`, expander.py:510-535.
Line 528 reads `macronode.lineno`, which raises AttributeError when only `col_offset` is there. -/
def insertCoverage (filename macroname : String) (t : Val) (old : Loc) : Except Exc Val :=
  if old.lineno = .missing ∧ old.colOffset = .missing then .ok t
  else if old.lineno = .missing then .error (.py .attributeError)
  else
    match t with
    | .const .none => .ok (.list [coverageStmt filename macroname old])
    | .node c l fs => .ok (.list [coverageStmt filename macroname old, .node c l fs])
    | .list xs => .ok (.list (coverageStmt filename macroname old :: xs))
    | .const _ => .error (.py .attributeError)

/-- `ast.NodeTransformer.generic_visit`: the items of a list-valued field. -/
def genericItems (vis : Val → X υ Val) : List Val → X υ (List Val)
  | [] => pure []
  | x :: xs =>
    if x.isAST then do
      let v ← vis x
      let r ← genericItems vis xs
      return Markers.spliceResult v ++ r
    else do
      let r ← genericItems vis xs
      return x :: r

/-- `ast.NodeTransformer.generic_visit`: the fields; a result `None` deletes the attribute. -/
def genericFields (vis : Val → X υ Val) : Fields → X υ Fields
  | [] => pure []
  | (f, v) :: r =>
    match v with
    | .const c => do
      let r' ← genericFields vis r
      return (f, .const c) :: r'
    | .list xs => do
      let ys ← genericItems vis xs
      let r' ← genericFields vis r
      return (f, .list ys) :: r'
    | .node c l fs => do
      let v' ← vis (.node c l fs)
      let r' ← genericFields vis r
      return if v'.isNone then r' else (f, v') :: r'

/-- `generic_visit(node)`. -/
def genericVisit (vis : Val → X υ Val) : Val → X υ Val
  | .node c l fs => do
    let fs' ← genericFields vis fs
    return .node c l fs'
  | _ => M.throw (.py .attributeError)

/-- Split a list at the first element that satisfies `p`. -/
def splitFirst {α : Type} (p : α → Bool) : List α → Option (List α × α × List α)
  | [] => none
  | x :: xs =>
    if p x then some ([], x, xs)
    else match splitFirst p xs with
      | none => none
      | some (a, y, b) => some (x :: a, y, b)

/-- Split a list at the last element that satisfies `p`. -/
def splitLast {α : Type} (p : α → Bool) : List α → Option (List α × α × List α)
  | [] => none
  | x :: xs =>
    match splitLast p xs with
    | some (a, y, b) => some (x :: a, y, b)
    | none => if p x then some ([], x, xs) else none

/-- The candidate in an item: `item.context_expr` or the decorator itself, expander.py:334-337. -/
def candidateOf (synt : Syn) (item : Val) : Except Exc Val :=
  if synt = .block then attr item .context_expr else .ok item

/-- `_detect_macro_items`, expander.py:322-353: each item with the answer to "is it a macro
invocation".  The warning is not modelled. -/
def detect (E : Env υ) (w : World υ) (synt : Syn) : List Val → Except Exc (List (Val × Bool))
  | [] => .ok []
  | item :: rest => do
    let c ← candidateOf synt item
    let d ← destructure false c
    let r ← detect E w synt rest
    return (item, ismacrocall E w d synt) :: r

/-- A macro call with arguments checked, expander.py:173, 255, 309: `destructure_candidate` with
validation.  (It cannot be `none` here, since it was a macro call without validation.) -/
def destructureCall (t : Val) : Except Exc (String × List Val) := do
  match ← destructure true t with
  | some p => return p
  | none => .error (.py .typeError)

/-- `visit_Subscript`, expander.py:154-188. -/
def visitSubscript (E : Env υ) (vis : Val → X υ Val) (t : Val) : X υ Val := do
  let cand ← M.ofExcept (attr t .value)
  let d ← M.ofExcept (destructure false cand)
  let s ← M.get
  if ismacrocall E s.world d .expr then do
    let (name, args) ← M.ofExcept (destructureCall cand)
    let tree ← M.ofExcept (attr t .slice)
    let r ← expand E vis name ⟨.expr, tree, some args, none, t⟩
    return if r.isNone then coverageExpr (locOf t) else r
  else genericVisit vis t

/-- `visit_With`, expander.py:190-268. -/
def visitWith (E : Env υ) (vis : Val → X υ Val) (t : Val) : X υ Val := do
  let items ← M.ofExcept (do asList (← attr t .items))
  let s ← M.get
  let ds ← M.ofExcept (detect E s.world .block items)
  match splitFirst (·.2) ds with
  | none => genericVisit vis t
  | some (before, (item, _), after) => do
    let cand ← M.ofExcept (attr item .context_expr)
    let (name, args) ← M.ofExcept (destructureCall cand)
    let rest := (before ++ after).map (·.1)
    let body ← M.ofExcept (attr t .body)
    let t' := match t with | .node c l fs => .node c l (setF fs .items (.list rest)) | v => v
    let tree := if rest.isEmpty then body else .list [t']
    let vars := (item.get? .optional_vars).getD .none
    let r ← expand E vis name ⟨.block, tree, some args, some vars, t⟩
    M.ofExcept (insertCoverage E.filename name r (locOf t))

/-- `_visit_Decorated`, expander.py:276-320.  `decorator_list.remove(innermost_macro)` removes the
first occurrence of the object; here: no node object occurs twice in the list. -/
def visitDecorated (E : Env υ) (vis : Val → X υ Val) (t : Val) : X υ Val := do
  let items ← M.ofExcept (do asList (← attr t .decorator_list))
  let s ← M.get
  let ds ← M.ofExcept (detect E s.world .decorator items)
  match splitLast (·.2) ds with
  | none => genericVisit vis t
  | some (before, (item, _), after) => do
    let (name, args) ← M.ofExcept (destructureCall item)
    let rest := (before ++ after).map (·.1)
    let t' := match t with | .node c l fs => .node c l (setF fs .decorator_list (.list rest)) | v => v
    let r ← expand E vis name ⟨.decorator, t', some args, none, t⟩
    M.ofExcept (insertCoverage E.filename name r (locOf item))

/-- `ismodified(tree)` of `visit_Name` is false, expander.py:373-374. -/
def isSameName (name : String) (t : Val) : Bool :=
  t.isK .Name && t.get? .id == some (.str name)

/-- `visit_Name`, expander.py:355-391. -/
def visitName (E : Env υ) (vis : Val → X υ Val) (t : Val) : X υ Val := do
  let i ← M.ofExcept (attr t .id)
  let s ← M.get
  let d := (asName i).map (·, ([] : List Val))
  if ismacrocall E s.world d .name then
    match asName i with
    | none => return t
    | some name => do
      let r ← withMode false (expand E vis name ⟨.name, t, none, none, t⟩)
      if r.isNone then return coverageExpr (locOf t)
      else if isSameName name r then return done r
      else do
        let s ← M.get
        if s.recursive then vis r else return r
  else return t

/-- `super().visit(tree)`, i.e. `ast.NodeVisitor.visit`: dispatch on the class. -/
def visitNode (E : Env υ) (vis : Val → X υ Val) (t : Val) : X υ Val :=
  match t with
  | .node (.py .Subscript) _ _ => visitSubscript E vis t
  | .node (.py .With) _ _ => visitWith E vis t
  | .node (.py .ClassDef) _ _ => visitDecorated E vis t
  | .node (.py .FunctionDef) _ _ => visitDecorated E vis t
  | .node (.py .Name) _ _ => visitName E vis t
  | t => genericVisit vis t

/-- `self.visit(elt) for elt in tree`, core.py:118. -/
def visitElts (vis : Val → X υ Val) : List Val → X υ (List Val)
  | [] => pure []
  | x :: xs => do
    let y ← vis x
    let ys ← visitElts vis xs
    return y :: ys

/-- `visit(tree)`, core.py:103-123, given the recursive calls. -/
def visitBody (E : Env υ) (vis : Val → X υ Val) (t : Val) : X υ Val := do
  let s ← M.get
  if noBindings s.world || isDone t then return t
  else
    match t with
    | .const .none => return t
    | .list xs => do
      let ys ← visitElts vis xs
      let new := Markers.flattenV ys
      return if new.isEmpty then .none else .list new
    | t => visitNode E vis t

/-- `visit(tree)`.  Fuel bounds the depth of nested `visit` calls. -/
def visit (E : Env υ) : Nat → Val → X υ Val
  | 0, _ => M.diverge
  | n + 1, t => visitBody E (visit E n) t

/-- `expander.visit_recursively`, `expander.visit_once` at top level. -/
def visitAs (E : Env υ) (n : Nat) (mode : Mode) (t : Val) : X υ Val := visitMode (visit E n) mode t

/-- A fresh expander, core.py:96-101. -/
def init (w : World υ) : St υ := { recursive := true, hook := none, world := w, depth := 0, log := [] }

end Mcpyrate.Expander
