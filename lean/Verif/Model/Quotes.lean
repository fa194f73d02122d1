import Verif.Py.Obj
import Verif.Py.Run
import Verif.Py.Dict
import Verif.Py.Err
import Verif.Model.Utils
import Verif.Model.Expander
/-
Model of `mcpyrate/quotes.py`: the quasiquote compiler and uncompiler (635-928), the run-time parts of the operators
(124-260), hygienic captures (262-401); and an evaluator for the Python expressions that the quasiquote compiler
generates, so that the generated code can be run.

Python 3.9 to 3.12.  In-place changes are modelled as returning the new value.
-/
namespace Mcpyrate.Quotes
open Py

/-- The state of the process: that of user code and the interpreter, of `gensym`, and `global_bindings`
(core.py:24). -/
structure St (σ : Type) where
  host : σ
  gensym : Gensym.State
  globals : Dict String Obj

abbrev Q (σ α : Type) := M Err (St σ) α

/-- What is not part of the library: variables, user functions, Python's own machinery. -/
structure Host (σ : Type) where
  /-- the value of a variable -/
  name : String → Q σ Obj
  /-- `getattr(x, a)` -/
  attr : Obj → String → Q σ Obj
  /-- `f(*args, **kwargs)` -/
  call : Obj → List Obj → List (String × Obj) → Q σ Obj
  /-- the value of any other expression -/
  expr : Obj → Q σ Obj
  /-- `list(x)` for other objects -/
  iter : Obj → Except Err (List Obj)
  /-- the items of `**x` in a call -/
  mapping : Obj → Except Err (List (String × Obj))
  /-- `{k: v, **w, …}` -/
  mkDict : List (Option Obj × Obj) → Except Err Obj
  /-- `{x, …}` -/
  mkSet : List Obj → Except Err Obj
  callable : Obj → Bool
  pickle : Obj → Except Err (List Nat)
  unpickle : List Nat → Except Err Obj
  /-- `ast.parse(s, mode="eval").body` -/
  parse : String → Except Err Obj
  /-- the other globals of the module `mcpyrate.quotes` -/
  moduleGlobals : String → Option Obj
  tables : Scrub.Tables

variable {σ : Type}

/-! ### Building nodes -/

def mkNode (k : K) (fs : List (F × Obj)) : Obj := .node (.py k) {} fs
/-- `ast.Constant(value=x)` -/
def constantNode (c : Const) : Obj := mkNode .Constant [(.value, .const c), (.kind, .none)]
/-- `ast.Name(id=s)` -/
def nameNode (s : String) : Obj := mkNode .Name [(.id, .str s)]
/-- `ast.Attribute(value=v, attr=a)` -/
def attributeNode (v : Obj) (a : String) : Obj := mkNode .Attribute [(.value, v), (.attr, .str a)]
/-- `ast.Call(f, args, keywords)` -/
def callNode (f : Obj) (args keywords : List Obj) : Obj :=
  mkNode .Call [(.func, f), (.args, .list args), (.keywords, .list keywords)]
/-- `ast.List(elts=xs)` -/
def listNode (xs : List Obj) : Obj := mkNode .List [(.elts, .list xs)]
/-- `ast.Tuple(elts=xs)` -/
def tupleNode (xs : List Obj) : Obj := mkNode .Tuple [(.elts, .list xs)]
/-- `ast.Set(elts=xs)` -/
def setNode (xs : List Obj) : Obj := mkNode .Set [(.elts, .list xs)]
/-- `ast.Dict(keys=ks, values=vs)` -/
def dictNode (ks vs : List Obj) : Obj := mkNode .Dict [(.keys, .list ks), (.values, .list vs)]
/-- `ast.keyword(a, v)` -/
def keywordNode (a : F) (v : Obj) : Obj := mkNode .keyword [(.arg, .str a.text), (.value, v)]

/-- A marker with these fields. -/
def markerNode (n : String) (fs : List (F × Obj)) : Obj := .node (.marker n) {} fs

/-- `_mcpyrate_quotes_attr(a)`, quotes.py:34-42 with coreutils.py:202-252: `mcpyrate.quotes.a`. -/
def quotesAttr (a : String) : Obj := attributeNode (attributeNode (nameNode "mcpyrate") "quotes") a

/-- `_mcpyrate_quotes_attr(a, force_import=True)`:
`__import__("mcpyrate.quotes", globals(), None, (), 0).quotes.a`. -/
def quotesAttrImport (a : String) : Obj :=
  attributeNode (attributeNode (callNode (nameNode "__import__")
    [constantNode (.str "mcpyrate.quotes"), callNode (nameNode "globals") [] [], constantNode .none, tupleNode [],
      constantNode (.int 0)] []) "quotes") a

/-- `x.f`, where a missing attribute raises AttributeError. -/
def field (fs : List (F × Obj)) (f : F) : Except Err Obj :=
  match fs.lookup f with
  | some v => .ok v
  | none => .error .attributeError

def lift {α : Type} : Except Err α → Q σ α := M.ofExcept

/-- `ast.copy_location(new, old)`: only between classes that have location attributes. -/
def copyLocation (c : Cls) (newLoc : Loc) (oldC : Cls) (old : Loc) : Loc :=
  if c.hasLoc && oldC.hasLoc then
    { lineno := match old.lineno with | .int n => .int n | _ => newLoc.lineno
      colOffset := match old.colOffset with | .int n => .int n | _ => newLoc.colOffset
      endLineno := FixLocations.orNone old.endLineno
      endColOffset := FixLocations.orNone old.endColOffset }
  else newLoc

/-! ### Captures -/

/-- `gensym(name)` for a string. -/
def gensymQ (b : String) : Q σ String := fun s =>
  match Gensym.gensym (.str b.toList) s.gensym with
  | none => none
  | some (.sym x, g) => some (.ok (String.ofList x), { s with gensym := g })
  | some (.typeError, g) => some (.error .typeError, { s with gensym := g })

def scrub (H : Host σ) (n : String) : String := String.ofList (Scrub.scrubUuid H.tables n.toList)

/-- `capture_macro(macro, name)`, quotes.py:342-371. -/
def captureMacro (H : Host σ) (macro_ : Obj) (name : String) : Q σ Obj := do
  if !H.callable macro_ then M.throw .typeError
  else do
    let frozen ← lift (H.pickle macro_)
    let unique ← gensymQ (scrub H name)
    return callNode (quotesAttr "lookup_macro")
      [tupleNode [constantNode (.str (scrub H name)), constantNode (.str unique), constantNode (.bytes frozen)]] []

/-- `capture_value(value, name)`, quotes.py:262-304.  (The name can be any constant here; it is a string when the call was
generated by `astify`.) -/
def captureValue (H : Host σ) (v : Obj) (name : Const) : Except Err Obj := do
  let frozen ← H.pickle v
  return callNode (quotesAttrImport "lookup_value") [tupleNode [constantNode name, constantNode (.bytes frozen)]] []

/-- `lookup_macro(key)`, quotes.py:390-401, for a key `(name, unique, frozen)`. -/
def lookupMacro (H : Host σ) (unique : String) (frozen : Obj) : Q σ Obj := fun s =>
  match s.globals.get unique with
  | some _ => some (.ok (nameNode unique), s)
  | none =>
    match frozen with
    | .const (.bytes b) =>
      match H.unpickle b with
      | .error e => some (.error e, s)
      | .ok m => some (.ok (nameNode unique), { s with globals := s.globals.set unique m })
    | _ => some (.error .typeError, s)

/-- `capture_as_macro(macro)`, quotes.py:374-387; `name` is `macro.__name__`. -/
def captureAsMacro (H : Host σ) (macro_ : Obj) (name : String) : Q σ Obj := do
  if !H.callable macro_ then M.throw .typeError
  else do
    let frozen ← lift (H.pickle macro_)
    let unique ← gensymQ name
    lookupMacro H unique (.bytes frozen)

/-! ### astify -/

/-- `expander and type(x.body) is ast.Name`, and the name is bound: the macro function and the name. -/
def captured (isbound : Option (String → Option Obj)) (b : Obj) : Option (Obj × String) :=
  match isbound with
  | none => none
  | some f =>
    if b.isK .Name then
      match b.get? .id with
      | some (.str n) => (f n).map (·, n)
      | _ => none
    else none

mutual
/-- `astify(x, expander)`, quotes.py:635-776.  `isbound` is `expander.isbound`, if there is an expander. -/
def astify (H : Host σ) (isbound : Option (String → Option Obj)) : Obj → Q σ Obj
  | .const (.complex _) => M.throw .typeError
  | .const c => return constantNode c
  | .list xs => do return listNode (← astifyL H isbound xs)
  | .tuple xs => do return tupleNode (← astifyL H isbound xs)
  | .set xs => do return setNode (← astifyL H isbound xs)
  | .dict ks vs => do
    let ks' ← astifyL H isbound ks
    return dictNode ks' (← astifyL H isbound vs)
  | .ref _ => M.throw .typeError
  | .ext _ => M.throw .typeError
  | .node (.marker n) _ fs =>
    if n = "Unquote" then do
      return callNode (quotesAttr "astify") [← lift (field fs .body)] []
    else if n = "LiftSourcecode" then do
      let b ← lift (field fs .body)
      match ← lift (field fs .filename) with
      | .const c => return callNode (quotesAttr "lift_sourcecode") [b, constantNode c] []
      | _ => M.throw .typeError
    else if n = "ASTLiteral" then do
      let b ← lift (field fs .body)
      match ← lift (field fs .syntax_) with
      | .const c => return callNode (quotesAttr "ast_literal") [b, constantNode c] []
      | _ => M.throw .typeError
    else if n = "ASTList" then do
      return callNode (quotesAttr "ast_list") [← lift (field fs .body)] []
    else if n = "ASTTuple" then do
      return callNode (quotesAttr "ast_tuple") [← lift (field fs .body)] []
    else if n = "Capture" then do
      let b ← lift (field fs .body)
      match captured isbound b with
      | some (f, name) => captureMacro H f name
      | none =>
        match ← lift (field fs .name) with
        | .const c => return callNode (quotesAttr "capture_value") [b, constantNode c] []
        | _ => M.throw .typeError
    else if n = "Done" then do
      return callNode (quotesAttr "Done") [] (← astifyF H isbound fs)
    else M.throw .typeError
  | .node (.py k) l fs => do
    let kws ← astifyF H isbound fs
    return .node (.py .Call) (copyLocation (.py .Call) {} (.py k) l)
      [(.func, attributeNode (quotesAttr "ast") k.text), (.args, .list []), (.keywords, .list kws)]
/-- `recurse(elt) for elt in x`. -/
def astifyL (H : Host σ) (isbound : Option (String → Option Obj)) : List Obj → Q σ (List Obj)
  | [] => return []
  | x :: xs => do
    let y ← astify H isbound x
    return y :: (← astifyL H isbound xs)
/-- `ast.keyword(a, recurse(b)) for a, b in ast.iter_fields(x)`. -/
def astifyF (H : Host σ) (isbound : Option (String → Option Obj)) : List (F × Obj) → Q σ (List Obj)
  | [] => return []
  | (f, x) :: xs => do
    let y ← astify H isbound x
    return keywordNode f y :: (← astifyF H isbound xs)
end

/-! ### The run-time parts of the operators -/

/-- `list(x)`; strings and bytes are iterated by character. -/
def toList (H : Host σ) : Obj → Except Err (List Obj)
  | .list xs => .ok xs
  | .tuple xs => .ok xs
  | .set xs => .ok xs
  | .dict ks _ => .ok ks
  | .str s => .ok (s.toList.map fun c => .str (String.singleton c))
  | .bytes b => .ok (b.map fun n => .const (.int (Int.ofNat n)))
  | .const _ => .error .typeError
  | .node .. => .error .typeError
  | x => H.iter x

mutual
/-- `flatten(lst)`, utils.py:69-81. -/
def flatten : List Obj → List Obj
  | [] => []
  | x :: xs => flattenItem x ++ flatten xs
def flattenItem : Obj → List Obj
  | .list ys => flatten ys
  | .const .none => []
  | x => [x]
end

mutual
/-- `_typecheck(node, cls, macroname)`, quotes.py:149-159; `p` says which classes are subclasses of `cls`. -/
def typecheck (p : K → Bool) : Obj → Except Err Unit
  | .node (.marker _) _ fs => typecheckBody p fs
  | .node (.py k) _ _ => if p k then .ok () else .error .typeError
  | _ => .error .typeError
/-- `node.body` of a marker. -/
def typecheckBody (p : K → Bool) : List (F × Obj) → Except Err Unit
  | [] => .error .attributeError
  | (f, x) :: r =>
    if f = .body then
      match x with
      | .list xs => typecheckL p xs
      | x => typecheck p x
    else typecheckBody p r
def typecheckL (p : K → Bool) : List Obj → Except Err Unit
  | [] => .ok ()
  | x :: xs =>
    match typecheck p x with
    | .error e => .error e
    | .ok () => typecheckL p xs
end

/-- `_flatten_and_typecheck_iterable(nodes, cls, macroname)`, quotes.py:161-169. -/
def flattenAndTypecheck (H : Host σ) (p : K → Bool) (x : Obj) : Except Err (List Obj) := do
  let xs ← toList H x
  typecheckL p (flatten xs)
  return flatten xs

/-- `ast_literal(tree, syntax)`, quotes.py:171-204. -/
def astLiteral (H : Host σ) (x : Obj) (synt : Obj) : Except Err Obj :=
  if synt = .str "expr" then
    if x.isAST then do
      typecheck K.isExpr x
      return x
    else do
      let xs ← flattenAndTypecheck H K.isExpr x
      return markerNode "SpliceNodes" [(.body, .list xs)]
  else if synt = .str "block" then do
    let xs ← flattenAndTypecheck H K.isStmt x
    return markerNode "SpliceNodes" [(.body, .list xs)]
  else .error .valueError

mutual
/-- `doit(thing)` of `splice_ast_literals`, quotes.py:211-234. -/
def splice : Obj → Except Err Obj
  | .list xs =>
    match spliceL xs with
    | .error e => .error e
    | .ok ys => .ok (.list ys)
  | .node c l fs =>
    if c = .py .Global ∨ c = .py .Nonlocal then .ok (.node c l fs)
    else
      match spliceF fs with
      | .error e => .error e
      | .ok fs' => .ok (.node c l fs')
  | _ => .error .typeError
/-- The items of a list, in order. -/
def spliceL : List Obj → Except Err (List Obj)
  | [] => .ok []
  | x :: xs =>
    match spliceItem x with
    | .error e => .error e
    | .ok ys =>
      match spliceL xs with
      | .error e => .error e
      | .ok zs => .ok (ys ++ zs)
/-- An item of a list; the items of a `SpliceNodes` are put in its place. -/
def spliceItem : Obj → Except Err (List Obj)
  | .list xs =>
    match spliceL xs with
    | .error e => .error e
    | .ok ys => .ok [.list ys]
  | .node c l fs =>
    if c = .marker "SpliceNodes" then spliceBody fs
    else if c = .py .Global ∨ c = .py .Nonlocal then .ok [.node c l fs]
    else
      match spliceF fs with
      | .error e => .error e
      | .ok fs' => .ok [.node c l fs']
  | _ => .error .typeError
/-- `doit(item.body)`, `item.body`: a list in all markers made by `ast_literal`. -/
def spliceBody : List (F × Obj) → Except Err (List Obj)
  | [] => .error .attributeError
  | (f, x) :: r => if f = .body then spliceItems x else spliceBody r
def spliceItems : Obj → Except Err (List Obj)
  | .list xs => spliceL xs
  | _ => .error .typeError
/-- The fields of a node. -/
def spliceF : List (F × Obj) → Except Err (List (F × Obj))
  | [] => .ok []
  | (f, x) :: r =>
    match spliceField x with
    | .error e => .error e
    | .ok y =>
      match spliceF r with
      | .error e => .error e
      | .ok r' => .ok ((f, y) :: r')
/-- Only list-valued fields are processed. -/
def spliceField : Obj → Except Err Obj
  | .list xs =>
    match spliceL xs with
    | .error e => .error e
    | .ok ys => .ok (.list ys)
  | x => .ok x
end

mutual
/-- Whether `get_markers(tree, SpliceNodes)` finds one (markers.py:45-54): nodes in fields, and nodes in list-valued
fields. -/
def hasSplice : Obj → Bool
  | .node c _ fs => c = .marker "SpliceNodes" || hasSpliceF fs
  | _ => false
def hasSpliceF : List (F × Obj) → Bool
  | [] => false
  | (_, x) :: r =>
    (match x with
      | .list xs => hasSpliceL xs
      | x => hasSplice x) || hasSpliceF r
def hasSpliceL : List Obj → Bool
  | [] => false
  | x :: xs => hasSplice x || hasSpliceL xs
end

mutual
/-- `ASTVisitor.visit` of a list visits the items, which may be lists (walkers.py:138-151). -/
def hasSpliceTop : Obj → Bool
  | .list xs => hasSpliceTopL xs
  | x => hasSplice x
def hasSpliceTopL : List Obj → Bool
  | [] => false
  | x :: xs => hasSpliceTop x || hasSpliceTopL xs
end

/-- `splice_ast_literals(tree, filename)`, quotes.py:207-247. -/
def spliceAstLiterals (x : Obj) : Except Err Obj :=
  match splice x with
  | .error e => .error e
  | .ok y => if hasSpliceTop y then .error .runtimeError else .ok y

/-- `ast_list(nodes)`, quotes.py:250-253. -/
def astList (H : Host σ) (x : Obj) : Except Err Obj := do
  return listNode (← flattenAndTypecheck H K.isExpr x)

/-- `ast_tuple(nodes)`, quotes.py:256-259. -/
def astTuple (H : Host σ) (x : Obj) : Except Err Obj := do
  return tupleNode (← flattenAndTypecheck H K.isExpr x)

/-- `lift_sourcecode(value, filename)`, quotes.py:129-147. -/
def liftSourcecode (H : Host σ) : Obj → Except Err Obj
  | .str s => H.parse s
  | _ => .error .typeError

/-- `lookup_value(key)`, quotes.py:307-339, for a key `(name, frozen)`.  The cache is left out here (it is modelled in
`Verif.Model.LookupValue`): the value is unpickled at each lookup. -/
def lookupValue (H : Host σ) : Obj → Except Err Obj
  | .none => .error .valueError
  | .bytes b => H.unpickle b
  | _ => .error .typeError

/-- What expression mode `q` returns, once the unquotes of its own level have been replaced by markers: the end of `q`,
quotes.py:983-1005. -/
def quote (H : Host σ) (isbound : Option (String → Option Obj)) (filename : Const) (tree : Obj) : Q σ Obj := do
  let code ← astify H isbound tree
  return callNode (quotesAttr "splice_ast_literals") [code, constantNode filename] []

/-! ### Evaluation -/

/-- `ast.K(*args, **kwargs)` or `Done(…)`, for a class with these fields: the fields that are given, and `None` for the
optional ones.  `none` when the call does something else: too many arguments, a field given twice, other attributes. -/
def construct (c : Cls) (fields : List F) (optional : F → Bool) (args : List Obj) (kwargs : List (String × Obj)) :
    Option Obj :=
  let given := (fields.map F.text).zip args ++ kwargs
  if args.length ≤ fields.length ∧ (given.map (·.1)).Nodup ∧ ∀ a ∈ kwargs, a.1 ∈ fields.map F.text then
    some (.node c {} (fields.filterMap fun f =>
      match given.lookup f.text with
      | some v => some (f, v)
      | none => if optional f then some (f, .none) else none))
  else none

/-- The parts of the module `mcpyrate.quotes` that generated code uses. -/
def quotesNames : List String :=
  ["ast", "Done", "astify", "lift_sourcecode", "ast_literal", "ast_list", "ast_tuple", "capture_value", "lookup_value",
   "lookup_macro", "splice_ast_literals"]

/-- `getattr(x, a)`. -/
def getAttr (H : Host σ) (x : Obj) (a : String) : Q σ Obj :=
  match x with
  | .ref ["mcpyrate"] => if a = "quotes" then return .ref ["mcpyrate", "quotes"] else H.attr x a
  | .ref ["mcpyrate", "quotes"] => if a ∈ quotesNames then return .ref ["mcpyrate", "quotes", a] else H.attr x a
  | .ref ["mcpyrate", "quotes", "ast"] =>
    if (K.ofText a).isSome then return .ref ["mcpyrate", "quotes", "ast", a] else H.attr x a
  | x => H.attr x a

/-- A call of a function of `mcpyrate.quotes`. -/
def runtime (H : Host σ) (fn : String) (args : List Obj) (kwargs : List (String × Obj)) : Q σ Obj :=
  match fn, args, kwargs with
  | "astify", [x], [] => astify H none x
  | "lift_sourcecode", [x, _], [] => lift (liftSourcecode H x)
  | "ast_literal", [x, y], [] => lift (astLiteral H x y)
  | "ast_list", [x], [] => lift (astList H x)
  | "ast_tuple", [x], [] => lift (astTuple H x)
  | "capture_value", [x, .const n], [] => lift (captureValue H x n)
  | "lookup_value", [.tuple [_, f]], [] => lift (lookupValue H f)
  | "lookup_macro", [.tuple [_, .str u, f]], [] => lookupMacro H u f
  | "splice_ast_literals", [x, _], [] => lift (spliceAstLiterals x)
  | fn, args, kwargs => H.call (.ref ["mcpyrate", "quotes", fn]) args kwargs

/-- `f(*args, **kwargs)`. -/
def call (H : Host σ) (f : Obj) (args : List Obj) (kwargs : List (String × Obj)) : Q σ Obj :=
  match f with
  | .ref ["mcpyrate", "quotes", "ast", n] =>
    match K.ofText n with
    | none => H.call f args kwargs
    | some k =>
      match construct (.py k) k.fields k.isOptional args kwargs with
      | some x => return x
      | none => H.call f args kwargs
  | .ref ["mcpyrate", "quotes", "Done"] =>
    match construct (.marker "Done") [.body] (fun _ => false) args kwargs with
    | some (.node c l ((f, v) :: fs)) => return .node c l ((f, v) :: fs)
    | _ => M.throw .typeError
  | .ref ["mcpyrate", "quotes", fn] => runtime H fn args kwargs
  | .ref ["__import__"] =>
    match args, kwargs with
    | [.str "mcpyrate.quotes", _, _, _, _], [] => return .ref ["mcpyrate"]
    | args, kwargs => H.call f args kwargs
  | f => H.call f args kwargs

/-- The items of a dict display: each key, then its value; no key stands for `**value`. -/
def runDict : List (Option (Q σ Obj)) → List (Option (Q σ Obj)) → Q σ (List (Option Obj × Obj))
  | [], [] => return []
  | none :: ks, some v :: vs => do
    let y ← v
    return (none, y) :: (← runDict ks vs)
  | some k :: ks, some v :: vs => do
    let x ← k
    let y ← v
    return (some x, y) :: (← runDict ks vs)
  | _, _ => M.throw .valueError

mutual
/-- The value of an expression.  A malformed tree is rejected by the compiler (TypeError). -/
def eval (H : Host σ) : Obj → Q σ Obj
  | .node (.py .Constant) _ fs =>
    match fs.lookup .value with
    | some v => return v
    | none => M.throw .typeError
  | .node (.py .Name) _ fs =>
    match fs.lookup .id with
    | some (.str n) => H.name n
    | _ => M.throw .typeError
  | .node (.py .Attribute) _ fs => do
    let v ← evalAt H .value fs
    match fs.lookup .attr with
    | some (.str a) => getAttr H v a
    | _ => M.throw .typeError
  | .node (.py .Call) _ fs => do
    let f ← evalAt H .func fs
    let args ← evalListAt H .args fs
    let kws ← evalKwsAt H fs
    call H f args kws
  | .node (.py .List) _ fs => do return .list (← evalListAt H .elts fs)
  | .node (.py .Tuple) _ fs => do return .tuple (← evalListAt H .elts fs)
  | .node (.py .Set) _ fs => do lift (H.mkSet (← evalListAt H .elts fs))
  | .node (.py .Dict) _ fs =>
    match actsAt H .keys fs, actsAt H .values fs with
    | some ks, some vs => do lift (H.mkDict (← runDict ks vs))
    | _, _ => M.throw .typeError
  | .node c l fs => H.expr (.node c l fs)
  | _ => M.throw .typeError
/-- The value of the expression in a field. -/
def evalAt (H : Host σ) (f : F) : List (F × Obj) → Q σ Obj
  | [] => M.throw .typeError
  | (g, x) :: r => if g = f then eval H x else evalAt H f r
/-- The values of the expressions in a list-valued field. -/
def evalListAt (H : Host σ) (f : F) : List (F × Obj) → Q σ (List Obj)
  | [] => M.throw .typeError
  | (g, x) :: r =>
    if g = f then
      match x with
      | .list xs => evalL H xs
      | _ => M.throw .typeError
    else evalListAt H f r
/-- Expressions in order; `*x` stands for the items of `x`. -/
def evalL (H : Host σ) : List Obj → Q σ (List Obj)
  | [] => return []
  | .node (.py .Starred) _ fs :: xs => do
    let v ← evalAt H .value fs
    let ys ← lift (toList H v)
    return ys ++ (← evalL H xs)
  | x :: xs => do
    let v ← eval H x
    return v :: (← evalL H xs)
/-- The keyword arguments of a call. -/
def evalKwsAt (H : Host σ) : List (F × Obj) → Q σ (List (String × Obj))
  | [] => M.throw .typeError
  | (g, x) :: r =>
    if g = .keywords then
      match x with
      | .list xs => evalKws H xs
      | _ => M.throw .typeError
    else evalKwsAt H r
def evalKws (H : Host σ) : List Obj → Q σ (List (String × Obj))
  | [] => return []
  | .node (.py .keyword) _ fs :: xs =>
    match fs.lookup .arg with
    | some (.str a) => do
      let v ← evalAt H .value fs
      return (a, v) :: (← evalKws H xs)
    | some .none => do
      let v ← evalAt H .value fs
      let ys ← lift (H.mapping v)
      return ys ++ (← evalKws H xs)
    | _ => M.throw .typeError
  | _ => M.throw .typeError
/-- The expressions in a list-valued field, to be evaluated later. -/
def actsAt (H : Host σ) (f : F) : List (F × Obj) → Option (List (Option (Q σ Obj)))
  | [] => none
  | (g, x) :: r =>
    if g = f then
      match x with
      | .list xs => some (acts H xs)
      | _ => none
    else actsAt H f r
def acts (H : Host σ) : List Obj → List (Option (Q σ Obj))
  | [] => []
  | .const .none :: xs => none :: acts H xs
  | x :: xs => some (eval H x) :: acts H xs
end

/-! ### unastify -/

/-- `{k(): v() for k, v in zip(ks, vs)}`, as the list of the items. -/
def runPairs : List (Q σ Obj) → List (Q σ Obj) → Q σ (List (Option Obj × Obj))
  | k :: ks, v :: vs => do
    let x ← k
    let y ← v
    return (some x, y) :: (← runPairs ks vs)
  | _, _ => return []

/-- `unparse(tree.func)`, for a chain of attributes of a name, as the list of the parts. -/
def dotted : Obj → List String → Option (List String)
  | .node (.py .Name) _ fs, acc =>
    match fs.lookup .id with
    | some (.str n) => some (n :: acc)
    | _ => none
  | .node (.py .Attribute) _ fs, acc =>
    match fs.lookup .attr with
    | some (.str a) => dottedAt fs (a :: acc)
    | _ => none
  | _, _ => none
where dottedAt : List (F × Obj) → List String → Option (List String)
  | [], _ => none
  | (g, x) :: r, acc => if g = .value then dotted x acc else dottedAt r acc

/-- `thing = getattr(thing, attrname)` for each name. -/
def getAttrs (H : Host σ) : Obj → List String → Q σ Obj
  | x, [] => return x
  | x, a :: as => do getAttrs H (← getAttr H x a) as

/-- `lookup_thing(dotted_name)`, quotes.py:810-823.  The first test there is on the text: it starts with
`mcpyrate.quotes`, so the second part need only start with `quotes`.  What is not a chain of attributes has a
part that is not an identifier. -/
def lookupThing (H : Host σ) : Option (List String) → Q σ Obj
  | some ("mcpyrate" :: q :: n :: rest) =>
    if "quotes".toList.isPrefixOf q.toList then
      if n ∈ quotesNames then getAttrs H (.ref ["mcpyrate", "quotes", n]) rest
      else
        match H.moduleGlobals n with
        | none => M.throw .keyError
        | some x => getAttrs H x rest
    else M.throw .notImplementedError
  | _ => M.throw .notImplementedError

/-- `tree.args[i]`. -/
def argAt (fs : List (F × Obj)) (i : Nat) : Except Err Obj :=
  match fs.lookup .args with
  | some (.list xs) =>
    match xs[i]? with
    | some x => .ok x
    | none => .error .indexError
  | some _ => .error .typeError
  | none => .error .attributeError

/-- `x.value`. -/
def valueOf (x : Obj) : Except Err Obj :=
  match x.get? .value with
  | some v => .ok v
  | none => .error .attributeError

/-- `[elt.value for elt in key.elts]` after the assertions on the key of `lookup_macro`. -/
def keyValues (key : Obj) : Except Err (List Obj) :=
  if key.isK .Tuple then
    match key.get? .elts with
    | some (.list xs) =>
      if xs.all (·.isK .Constant) then xs.mapM valueOf else .error .assertionError
    | some _ => .error .typeError
    | none => .error .attributeError
  else .error .assertionError

/-- `copy_location(node, tree)` for a node made here. -/
def relocate (node : Obj) (c : Cls) (l : Loc) : Except Err Obj :=
  match node with
  | .node d m fs => .ok (.node d (copyLocation d m c l) fs)
  | _ => .error .attributeError

/-- A keyword argument. -/
def kwarg (p : Obj × Obj) : Except Err (String × Obj) :=
  match p.1 with
  | .str a => .ok (a, p.2)
  | _ => .error .typeError

/-- `{k: v for k, v in pairs}`, passed as `**kwargs`: the keys must be strings. -/
def toKwargs (ps : List (Obj × Obj)) : Except Err (List (String × Obj)) := do
  let qs ← ps.mapM kwarg
  return (qs.foldl (fun d p => Dict.set d p.1 p.2) ([] : Dict String Obj))

/-- The calls that `unastify` turns into a marker, by the name of the function. -/
def uncall (H : Host σ) (n : String) (fs : List (F × Obj)) : Option (Q σ Obj) :=
  if n = "astify" then some do
    return markerNode "Unquote" [(.body, ← lift (argAt fs 0))]
  else if n = "lift_sourcecode" then some do
    let b ← lift (argAt fs 0)
    return markerNode "LiftSourcecode" [(.body, b), (.filename, ← lift ((argAt fs 1).bind valueOf))]
  else if n = "ast_literal" then some do
    let b ← lift (argAt fs 0)
    return markerNode "ASTLiteral" [(.body, b), (.syntax_, ← lift ((argAt fs 1).bind valueOf))]
  else if n = "ast_list" then some do
    return markerNode "ASTList" [(.body, ← lift (argAt fs 0))]
  else if n = "ast_tuple" then some do
    return markerNode "ASTTuple" [(.body, ← lift (argAt fs 0))]
  else if n = "capture_value" then some do
    let b ← lift (argAt fs 0)
    return markerNode "Capture" [(.body, b), (.name, ← lift ((argAt fs 1).bind valueOf))]
  else if n = "lookup_macro" then some do
    let key ← lift ((argAt fs 0).bind keyValues)
    match key with
    | [name, .str u, f] => return markerNode "Capture" [(.body, ← lookupMacro H u f), (.name, name)]
    | [_, _, _] => H.call (.ref ["mcpyrate", "quotes", "lookup_macro"]) [.tuple key] []
    | _ => M.throw .valueError
  else none

mutual
/-- `unastify(tree)`, quotes.py:779-928. -/
def unastify (H : Host σ) : Obj → Q σ Obj
  | .list xs => do return .list (← unastifyL H xs)
  | .node (.py .Constant) _ fs => lift (field fs .value)
  | .node (.py .keyword) _ fs => do
    let a ← lift (field fs .arg)
    return .tuple [a, ← unastifyAt H .value fs]
  | .node (.py .List) _ fs => do return .list (← unastifyListAt H .elts fs)
  | .node (.py .Tuple) _ fs => do return .tuple (← unastifyListAt H .elts fs)
  | .node (.py .Set) _ fs => do lift (H.mkSet (← unastifyListAt H .elts fs))
  | .node (.py .Dict) _ fs =>
    match unastifyActs H .keys fs, unastifyActs H .values fs with
    | some ks, some vs => do lift (H.mkDict (← runPairs ks vs))
    | _, _ => M.throw .attributeError
  | .node (.py .Call) l fs =>
    match fs.lookup .func with
    | none => M.throw .attributeError
    | some f =>
      if dotted f [] = some ["mcpyrate", "quotes", "splice_ast_literals"] then unastifyArg H fs
      else
        match (match dotted f [] with | some ["mcpyrate", "quotes", n] => uncall H n fs | _ => none) with
        | some m => m
        | none => do
          let callee ← lookupThing H (dotted f [])
          let args ← unastifyListAt H .args fs
          let kws ← unastifyPairsAt H fs
          let node ← call H callee args (← lift (toKwargs kws))
          lift (relocate node (.py .Call) l)
  | _ => M.throw .typeError
/-- `unastify(node.f)`. -/
def unastifyAt (H : Host σ) (f : F) : List (F × Obj) → Q σ Obj
  | [] => M.throw .attributeError
  | (g, x) :: r => if g = f then unastify H x else unastifyAt H f r
/-- `unastify(tree.args[0])`. -/
def unastifyArg (H : Host σ) : List (F × Obj) → Q σ Obj
  | [] => M.throw .attributeError
  | (g, x) :: r =>
    if g = .args then
      match x with
      | .list [] => M.throw .indexError
      | .list (y :: _) => unastify H y
      | _ => M.throw .typeError
    else unastifyArg H r
/-- `[unastify(elt) for elt in node.f]`. -/
def unastifyListAt (H : Host σ) (f : F) : List (F × Obj) → Q σ (List Obj)
  | [] => M.throw .attributeError
  | (g, x) :: r =>
    if g = f then
      match x with
      | .list xs => unastifyL H xs
      | _ => M.throw .typeError
    else unastifyListAt H f r
def unastifyL (H : Host σ) : List Obj → Q σ (List Obj)
  | [] => return []
  | x :: xs => do
    let y ← unastify H x
    return y :: (← unastifyL H xs)
/-- `for k, v in unastify(tree.keywords)`: keyword nodes give pairs; of the other nodes only a two-element display would,
which no tree accepted by the compiler has there. -/
def unastifyPairsAt (H : Host σ) : List (F × Obj) → Q σ (List (Obj × Obj))
  | [] => M.throw .attributeError
  | (g, x) :: r =>
    if g = .keywords then
      match x with
      | .list xs => unastifyPairs H xs
      | _ => M.throw .typeError
    else unastifyPairsAt H r
def unastifyPairs (H : Host σ) : List Obj → Q σ (List (Obj × Obj))
  | [] => return []
  | .node (.py .keyword) _ fs :: xs => do
    let a ← lift (field fs .arg)
    let v ← unastifyAt H .value fs
    return (a, v) :: (← unastifyPairs H xs)
  | _ => M.throw .typeError
/-- The elements of a list-valued field, to be processed later. -/
def unastifyActs (H : Host σ) (f : F) : List (F × Obj) → Option (List (Q σ Obj))
  | [] => none
  | (g, x) :: r =>
    if g = f then
      match x with
      | .list xs => some (unastifyActsL H xs)
      | _ => none
    else unastifyActs H f r
def unastifyActsL (H : Host σ) : List Obj → List (Q σ Obj)
  | [] => []
  | x :: xs => unastify H x :: unastifyActsL H xs
end

end Mcpyrate.Quotes
