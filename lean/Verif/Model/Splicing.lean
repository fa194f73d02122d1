import Verif.Py.Transform
import Verif.Model.MacroImport
import Verif.Model.FutureImports
import Verif.Model.FixLocations
/-
Model of `mcpyrate/splicing.py`.

Trees are values here, so `copy.deepcopy` is the identity on them; which object is pasted where (the
one passed in, or a fresh deep copy) is recorded in the state of the splicer, in the order of the
pastes.  The templates and bodies are mutated in place in Python and then returned; here the results
are returned only.
-/
namespace Mcpyrate.Splicing
open Py FutureImports

/-- What is put in the place of a paste-here indicator: the object that was passed in, or a
`copy.deepcopy` of it. -/
inductive Paste where
  | original | copy
  deriving DecidableEq, Repr

/-- The state of `ExpressionSplicer`/`StatementSplicer`: the attribute `first`, and the pastes so
far. -/
structure PSt where
  first : Bool := true
  pastes : List Paste := []
  deriving DecidableEq, Repr

/-- `transform` of both splicers, splicing.py:67-73 and 149-155. -/
def splicer (ispastehere : Val → Except Err Bool) (r : Val) : Rule PSt := fun t s =>
  match ispastehere t with
  | .error e => .error e
  | .ok true =>
    if !s.first then .ok (some r, { s with pastes := s.pastes ++ [.copy] })
    else .ok (some r, { s with first := false, pastes := s.pastes ++ [.original] })
  | .ok false => .ok (none, s)

/-- `bool(template)`, `bool(body)`: an AST node is true; a list is true if it is not empty. -/
def truthyV : Val → Bool
  | .const c => truthy c
  | .list xs => !xs.isEmpty
  | .node .. => true

/-- `isinstance(x, ast.expr)`. -/
def isExprV : Val → Bool
  | .node (.py k) _ _ => k.isExpr
  | _ => false

/-- `isinstance(expr, ast.expr) or (isinstance(expr, ASTMarker) and isinstance(expr.body, ast.expr))`,
splicing.py:53-54.  A marker without `body` raises AttributeError. -/
def okExpr : Val → Except Err Bool
  | .node (.marker _) _ fs =>
    match fs.lookup .body with
    | some b => .ok (isExprV b)
    | none => .error .attributeError
  | v => .ok (isExprV v)

/-- `ispastehere` of `splice_expression`, splicing.py:59-60. -/
def isPasteExpr (tag : String) (t : Val) : Except Err Bool :=
  if t.isK .Name then
    match t.get? .id with
    | none => .error .attributeError
    | some v => .ok (v == .str tag)
  else .ok false

/-- `splice_expression(expr, template, tag)`, splicing.py:16-75. -/
def spliceExpression (expr template : Val) (tag : String) : Except Err (Val × PSt) :=
  if !truthyV template then .ok (expr, {})
  else
    match okExpr expr with
    | .error e => .error e
    | .ok false => .error .typeError
    | .ok true =>
      match template with
      | .const _ => .error .typeError
      | t => rew (splicer (isPasteExpr tag) expr) t {}

/-- `ispastehere` of `splice_statements`, splicing.py:141-142. -/
def isPasteStmt (tag : String) (t : Val) : Except Err Bool :=
  if t.isK .Expr then
    match t.get? .value with
    | none => .error .attributeError
    | some v =>
      if v.isK .Name then
        match v.get? .id with
        | none => .error .attributeError
        | some w => .ok (w == .str tag)
      else .ok false
  else .ok false

/-- `splice_statements(body, template, tag)`, splicing.py:78-157.  Lines 134-135 assign to `body`
where `template` is meant.  Simplified: constants as `body` or `template`, which fail or not
depending on the other argument, are TypeErrors here (`None` as `template` is not). -/
def spliceStatements (body template : Val) (tag : String) : Except Err (Val × PSt) :=
  let body := match body with
    | .node c l fs => .list [.node c l fs]
    | b => b
  let body := match template with
    | .node c l fs => .list [.node c l fs]
    | _ => body
  if !truthyV body then .error .valueError
  else if !truthyV template then .ok (body, {})
  else
    match body, template with
    | .const _, _ => .error .typeError
    | _, .const _ => .error .typeError
    | b, t => rew (splicer (isPasteStmt tag) b) t {}

/-- `ismagicall`, splicing.py:278-282. -/
def isMagicAll (t : Val) : Except Err Bool :=
  if t.isK .Assign then
    match t.get? .targets with
    | some (.list [target]) =>
      if target.isK .Name then
        match target.get? .id with
        | none => .error .attributeError
        | some v => .ok (v == .str "__all__")
      else .ok false
    | some (.list _) => .ok false
    | some _ => .error .typeError
    | none => .error .attributeError
  else .ok false

/-- `MagicAllExtractor.transform`, splicing.py:283-289; the state is `collected`. -/
def magicAllRule : Rule (List Val) := fun t s =>
  match isMagicAll t with
  | .error e => .error e
  | .ok true => .ok (some .none, s ++ [t])
  | .ok false => .ok (some t, s)

/-- `MacroImportExtractor.transform`, splicing.py:297-302. -/
def macroImportRule (magicname : String) : Rule (List Val) := fun t s =>
  match ismacroimport magicname t with
  | .error e => .error e
  | .ok true => .ok (some .none, s ++ [t])
  | .ok false => .ok (none, s)

/-- The extractors work on lists: `w.visit(tree)` changes the list in place; the functions return the
list and what was collected (splicing.py:290-292, 303-305). -/
def extract (f : Rule (List Val)) (xs : List Val) : Except Err (List Val × List Val) :=
  match rew f (.list xs) [] with
  | .error e => .error e
  | .ok (.list ys, c) => .ok (ys, c)
  | .ok (_, c) => .ok (xs, c)                      -- does not occur: `visit` of a list is a list

/-- `a + sep + b` for the docstring values, splicing.py:265-268: TypeError unless both are strings. -/
def joinDocs : Option Const → Option Const → Except Err String
  | some (.str a), some (.str b) =>
    .ok (a ++ "\n" ++ String.ofList (List.replicate 79 '-') ++ "\n" ++ b)
  | _, _ => .error .typeError

/-- `ast.copy_location(ast.Constant(value=…), old)` where `old` is a statement with location `l`
(Lib/ast.py): line and column are copied unless they are missing or None, the end positions unless
they are missing (then they read as None, which is what a new node has anyway). -/
def copiedLoc (l : Loc) : Loc :=
  { lineno := match l.lineno with | .int n => .int n | _ => .missing
    colOffset := match l.colOffset with | .int n => .int n | _ => .missing
    endLineno := l.endLineno, endColOffset := l.endColOffset }

/-- The location of the reference node of `fix_locations`: its attributes, if it is a node. -/
def refLoc : Val → Loc
  | .node _ l _ => l
  | _ => {}

/-- The new docstring, splicing.py:262-273.  The combined docstring is a `Constant`, not an `Expr`. -/
def mergeDocs (user template : List Val) : Except Err (List Val) :=
  match user, template with
  | u :: us, t :: ts => do
    let ud ← getdocstring (u :: us)
    let td ← getdocstring (t :: ts)
    let d ← joinDocs ud td
    return [.node (.py .Constant) (copiedLoc (refLoc u)) [(.value, .str d), (.kind, .none)]]
  | [], t => .ok t
  | u, [] => .ok u

/-- `fix_locations(stmt, srcloc_dummynode, mode="overwrite")` for each statement of the template,
splicing.py:256-257. -/
def relocate (ref : Loc) : List Val → Except Err (List Val)
  | [] => .ok []
  | x :: xs => do
    let y ← FixLocations.fixLocations x ref .overwrite
    let ys ← relocate ref xs
    return y :: ys

/-- `[body]` for a single node, splicing.py:234-237. -/
def asList : Val → Val
  | .node c l fs => .list [.node c l fs]
  | v => v

/-- The reference location of splicing.py:250-255; `lineno`, `colOffset` are the optional arguments.
A fresh node has no `end_lineno`, which `fix_locations` reads as None. -/
def dummyLoc (lineno colOffset : Option Int) (body : List Val) : Loc :=
  match lineno, colOffset with
  | some l, some c => { lineno := .int l, colOffset := .int c }
  | _, _ => match body with | b :: _ => refLoc b | [] => {}

/-- `splice_dialect(body, template, tag, lineno, col_offset)`, splicing.py:160-317, from line 243 on,
for lists. -/
def spliceDialectL (body template : List Val) (tag : String) (lineno colOffset : Option Int) :
    Except Err (List Val) := do
  let template ← relocate (dummyLoc lineno colOffset body) template
  let (udoc, ufut, body) ← split body
  let (tdoc, tfut, template) ← split template
  let doc ← mergeDocs udoc tdoc
  let (body, uall) ← extract magicAllRule body
  let (template, _) ← extract magicAllRule template
  let (template, tdia) ← extract (macroImportRule "dialects") template
  let (template, tmac) ← extract (macroImportRule "macros") template
  let (body, udia) ← extract (macroImportRule "dialects") body
  let (body, umac) ← extract (macroImportRule "macros") body
  let (final, _) ← spliceStatements (.list body) (.list template) tag
  match final with
  | .list final => return doc ++ (tfut ++ ufut) ++ uall ++ (tdia ++ udia) ++ (tmac ++ umac) ++ final
  | _ => .error .typeError                        -- does not occur: the result for a list is a list

/-- `splice_dialect(body, template, tag, lineno, col_offset)`, splicing.py:160-317.  Simplified:
constants other than `None` as `body` or `template` are TypeErrors. -/
def spliceDialect (body template : Val) (tag : String) (lineno colOffset : Option Int) :
    Except Err (List Val) :=
  match asList body, asList template with
  | .const .none, _ => .error .valueError
  | .list [], _ => .error .valueError
  | .list (b :: bs), .const .none => .ok (b :: bs)
  | .list (b :: bs), .list [] => .ok (b :: bs)
  | .list (b :: bs), .list (t :: ts) => spliceDialectL (b :: bs) (t :: ts) tag lineno colOffset
  | _, _ => .error .typeError

end Mcpyrate.Splicing
