import Verif.Model.Quotes
/-
Model of the quasiquote macros, `mcpyrate/quotes.py:935-1219`: `q` and the unquotes, as macros of the expander model
(`Verif.Model.Expander`), with the quote level as part of the state that user code can change.

Simplification: `unparse` is a parameter.
-/
namespace Mcpyrate.QuoteOps
open Py Expander

/-- The quasiquote macros. -/
inductive Op where
  | q | u | n | a | s | t | h
  deriving DecidableEq, Repr

/-- What the macros work with besides the expander. -/
structure Lib (σ : Type) where
  H : Quotes.Host σ
  /-- `unparse(tree)` -/
  unparse : Val → Except Err String
  /-- the macro function behind a number, as an object -/
  function : Nat → Obj
  /-- the numbers of the quasiquote macros -/
  id : Op → Nat

/-- The state: the stack of `_quotelevel` (quotes.py:935, utils.py:285-345; the top first), and what `astify` changes.
(`astify` does not look at `st.globals`; the global bindings are those of the expander.) -/
structure User (σ : Type) where
  stack : List Nat
  st : Quotes.St σ

variable {σ : Type}

abbrev W (σ : Type) := World (User σ)

/-- `_quotelevel.value`, utils.py:300-302. -/
def value (w : W σ) : Nat := w.user.stack.headD 0

/-- Entering `with _quotelevel.set_to(v)`, utils.py:304-328. -/
def push (v : Nat) (w : W σ) : W σ := { w with user := { w.user with stack := v :: w.user.stack } }

/-- Leaving it. -/
def pop (w : W σ) : W σ := { w with user := { w.user with stack := w.user.stack.tail } }

/-- `isinstance(x, QuasiquoteSearchDone)`. -/
def isSearchDone : Cls → Bool
  | .marker "QuasiquoteSearchDone" => true
  | _ => false

/-- `isinstance(x, QuasiquoteMarker)`, quotes.py:44-121. -/
def isQuasi : Cls → Bool
  | .marker n => n ∈ ["SpliceNodes", "QuasiquoteSearchDone", "Unquote", "LiftSourcecode", "ASTLiteral", "ASTList",
      "ASTTuple", "Capture"]
  | _ => false

/-- `QuasiquoteSearchDone(body=t)`. -/
def searchDone (t : Val) : Val := .node (.marker "QuasiquoteSearchDone") {} [(.body, t)]

/-- `_replace_tree_in_macro_invocation(invocation, newtree)`, quotes.py:947-966. -/
def replaceTree (invocation newtree : Val) : Except Exc Val :=
  match invocation with
  | .node (.py .Subscript) l fs => .ok (searchDone (.node (.py .Subscript) l (setF fs .slice newtree)))
  | .node (.py .With) l fs => .ok (searchDone (.node (.py .With) l (setF fs .body newtree)))
  | _ => .error (.py .notImplementedError)

/-- End of the block `with _quotelevel.changed_by(…)`: restore the level, then return or raise. -/
def conclude : Option (Except Exc Val × W σ) → Prog (User σ)
  | none => .hang
  | some (.ok v, w) => .put (pop w) (.ret (.val v))
  | some (.error e, w) => .put (pop w) (.raise e)

/-- The rest of such a block after a visit with outcome `r`. -/
def settle (fin : Val → M Exc (W σ) Val) (r : Except Exc Val) : M Exc (W σ) Val :=
  match r with
  | .ok t => fin t
  | .error e => M.throw e

def after (fin : Val → M Exc (W σ) Val) (r : Except Exc Val) : Prog (User σ) :=
  .get fun _ w => conclude (settle fin r w)

/-- `astify(tree, expander)` in the state `w`. -/
def astifyW (L : Lib σ) (tree : Val) : M Exc (W σ) Obj := fun w =>
  match Quotes.astify L.H (some fun n => (isbound w n).map L.function) (Obj.ofVal tree) w.user.st with
  | none => none
  | some (.ok x, st) => some (.ok x, { w with user := { w.user with st := st } })
  | some (.error e, st) => some (.error (.py e), { w with user := { w.user with st := st } })

/-- The code as an AST.  (`astify` of an AST gives an AST, so this does not fail: `Lemmas/QuoteOps.lean`.) -/
def asCode (x : Obj) : Except Exc Val :=
  match x.toVal with
  | some v => .ok v
  | none => .error (.py .typeError)

/-- `check_no_markers_remaining(tree, cls=QuasiquoteMarker)`, with the error replaced by RuntimeError, quotes.py:988-991. -/
def checkCode (code : Val) : Except Exc Unit :=
  match Markers.checkNoMarkersRemaining isQuasi code with
  | .ok () => .ok ()
  | .error .macroExpansionError => .error (.py .runtimeError)
  | .error e => .error (.py e)

/-- Block mode `q`: assign to the asname, quotes.py:1007-1018. -/
def assign (target : Option Val) (code : Val) : Except Exc Val :=
  match target with
  | none => .error (.py .keyError)
  | some t =>
    if t.isNone then .error (.py .syntaxError)
    else if t.isK .Name then
      .ok (mk .Assign [(.targets, .list [t]), (.value, code), (.type_comment, .none)])
    else .error (.py .syntaxError)

/-- The end of the outermost `q`, quotes.py:981-1019. -/
def compile (L : Lib σ) (filename : String) (a : MArgs) (t : Val) : M Exc (W σ) Val := do
  let t ← M.ofExcept (liftErr (Markers.deleteMarkers isSearchDone t))
  let x ← astifyW L t
  let code ← M.ofExcept (asCode x)
  M.ofExcept (checkCode code)
  let tree ← M.ofExcept (asCode (Quotes.callNode (Quotes.quotesAttr "splice_ast_literals")
    [x, Quotes.constantNode (.str filename)] []))
  if a.synt = .block then M.ofExcept (assign a.optionalVars tree) else return tree

/-- The part of `q` after the visit, quotes.py:975-1019. -/
def finishQuote (L : Lib σ) (filename : String) (a : MArgs) (t : Val) : M Exc (W σ) Val := do
  let w ← M.get
  if value w > 1 then M.ofExcept (replaceTree a.invocation t) else compile L filename a t

/-- The bindings of the second expander: `extract_bindings(expander.bindings, q, u, n, a, s, t, h)`, quotes.py:943;
`expander.bindings` is a ChainMap. -/
def quoteBindings (L : Lib σ) (w : W σ) : Dict String Nat :=
  ExtractBindings.extractBindings (Dict.update w.globals w.locals)
    [L.id .q, L.id .u, L.id .n, L.id .a, L.id .s, L.id .t, L.id .h]

/-- `q`, quotes.py:969-1019. -/
def quote (L : Lib σ) (filename : String) (a : MArgs) : Prog (User σ) :=
  if a.synt = .expr ∨ a.synt = .block then
    .get fun _ w => .put (push (value w + 1) w)
      (.visitNew (quoteBindings L w) a.tree (after (finishQuote L filename a)))
  else .raise (.py .syntaxError)

/-- The part of an unquote after the visit; `emit` makes the marker. -/
def finishUnquote (a : MArgs) (emit : Val → Except Exc Val) (t : Val) : M Exc (W σ) Val := do
  let w ← M.get
  if value w > 0 then M.ofExcept (replaceTree a.invocation t) else M.ofExcept (emit t)

/-- The common part of `u`, `n`, `a`, `s`, `t`; the level is at least 1, so `- 1` is exact. -/
def unquote (a : MArgs) (emit : Val → Except Exc Val) : Prog (User σ) :=
  .get fun _ w =>
    if value w < 1 then .raise (.py .syntaxError)
    else .put (push (value w - 1) w) (.visit .recursively a.tree (after (finishUnquote a emit)))

/-- A marker with body and one more field. -/
def marker (name : String) (fs : Fields) : Val := .node (.marker name) {} fs

/-- `Unquote(tree)`, `LiftSourcecode(tree, filename)`, `ASTList(tree)`, `ASTTuple(tree)`. -/
def emitUnquote (t : Val) : Except Exc Val := .ok (marker "Unquote" [(.body, t)])
def emitLift (filename : String) (t : Val) : Except Exc Val :=
  .ok (marker "LiftSourcecode" [(.body, t), (.filename, .str filename)])
def emitList (t : Val) : Except Exc Val := .ok (marker "ASTList" [(.body, t)])
def emitTuple (t : Val) : Except Exc Val := .ok (marker "ASTTuple" [(.body, t)])
/-- `Capture(tree, name)`. -/
def emitCapture (name : String) (t : Val) : Except Exc Val :=
  .ok (marker "Capture" [(.body, t), (.name, .str name)])

/-- The expressions of the `Expr` statements, quotes.py:1141-1145. -/
def stripExprs : List Val → Except Exc (List Val)
  | [] => .ok []
  | x :: xs =>
    if x.isK .Expr then do
      let v ← attr x .value
      let vs ← stripExprs xs
      return v :: vs
    else .error (.py .syntaxError)

/-- `ASTLiteral(…)`, quotes.py:1123-1146. -/
def emitAST (synt : Syn) (t : Val) : Except Exc Val :=
  if synt = .expr then .ok (marker "ASTLiteral" [(.body, t), (.syntax_, .str synt.text)])
  else do
    let out ← stripExprs (← asList t)
    return marker "ASTLiteral" [(.body, mk .List [(.elts, .list out)]), (.syntax_, .str synt.text)]

/-- An unquote that is an expr macro only: `u`, `n`, `s`, `t`, quotes.py:1022-1064, 1149-1172. -/
def exprUnquote (a : MArgs) (emit : Val → Except Exc Val) : Prog (User σ) :=
  if a.synt = .expr then unquote a emit else .raise (.py .syntaxError)

/-- `a`, quotes.py:1067-1146. -/
def astUnquote (a : MArgs) : Prog (User σ) :=
  if a.synt = .expr ∨ a.synt = .block then
    .get fun _ w =>
      if value w < 1 then .raise (.py .syntaxError)
      else if a.synt = .block ∧ a.optionalVars ≠ some .none then .raise (.py .syntaxError)
      else unquote a (emitAST a.synt)
  else .raise (.py .syntaxError)

/-- `type(tree) is ast.Name`, bound to a name macro, quotes.py:1209-1212. -/
def isNameMacro (isName : Nat → Bool) (w : W σ) (t : Val) : Bool :=
  if t.isK .Name then
    match t.get? .id with
    | some (.const (.str k)) =>
      match isbound w k with
      | some i => isName i
      | none => false
    | _ => false
  else false

/-- `h`, quotes.py:1175-1219. -/
def capture (L : Lib σ) (isName : Nat → Bool) (a : MArgs) : Prog (User σ) :=
  if a.synt = .expr then
    .get fun _ w =>
      if value w < 1 then .raise (.py .syntaxError)
      else .put (push (value w - 1) w)
        (match L.unparse a.tree with
        | .error e => after (finishUnquote a (emitCapture "")) (.error (.py e))
        | .ok name =>
          if isNameMacro isName w a.tree then after (finishUnquote a (emitCapture name)) (.ok a.tree)
          else .visit .recursively a.tree (after (finishUnquote a (emitCapture name))))
  else .raise (.py .syntaxError)

/-- The macro function of an operator. -/
def opFn (L : Lib σ) (filename : String) (isName : Nat → Bool) (op : Op) (a : MArgs) : Prog (User σ) :=
  match op with
  | .q => quote L filename a
  | .u => exprUnquote a emitUnquote
  | .n => exprUnquote a (emitLift filename)
  | .a => astUnquote a
  | .s => exprUnquote a emitList
  | .t => exprUnquote a emitTuple
  | .h => capture L isName a

/-- The surroundings contain the quasiquote macros; none of them is parametric or a name macro. -/
def HasOps (L : Lib σ) (E : Env (User σ)) : Prop :=
  ∀ op, E.macros (L.id op) = ⟨false, false, opFn L E.filename (fun i => (E.macros i).isName) op⟩

end Mcpyrate.QuoteOps
