import Verif.Model.Expander
/-
Model of `MacroCollector`, `mcpyrate/expander.py:394-507`.
-/
namespace Mcpyrate.Collector
open Py Expander

variable {υ : Type}

/-- `(macroname, syntax)` -/
abbrev Key := String × Syn

/-- Computations of the collector.  The state is `collected`; the set `_seen` has the same elements. -/
abbrev C (α : Type) := M Exc (List Key) α

/-- `if key not in self._seen: …`, e.g. expander.py:446-448. -/
def note (k : Key) : C Unit := M.modify fun l => if k ∈ l then l else l ++ [k]

/-- `for x in xs: f(x)`. -/
def forAll {α : Type} (f : α → C Unit) : List α → C Unit
  | [] => pure ()
  | x :: xs => do
    f x
    forAll f xs

/-- `ast.NodeVisitor.generic_visit`: the nodes in the items of a list-valued field. -/
def genericItem (vis : Val → C Unit) (x : Val) : C Unit := if x.isAST then vis x else pure ()

/-- `ast.NodeVisitor.generic_visit`: one field. -/
def genericField (vis : Val → C Unit) (p : F × Val) : C Unit :=
  match p.2 with
  | .list xs => forAll (genericItem vis) xs
  | .node c l fs => vis (.node c l fs)
  | .const _ => pure ()

/-- `generic_visit(node)`; anything that is not a node has no `_fields`. -/
def generic (vis : Val → C Unit) : Val → C Unit
  | .node _ _ fs => forAll (genericField vis) fs
  | _ => M.throw (.py .attributeError)

/-- A macro with its arguments. -/
def found (vis : Val → C Unit) (synt : Syn) (p : String × List Val) : C Unit := do
  note (p.1, synt)
  vis (.list p.2)

/-- `visit_Subscript`, expander.py:441-457.  (Unlike the expander, this validates the call syntax of a candidate before
it knows whether that is a macro.) -/
def visitSubscript (E : Env υ) (w : World υ) (vis : Val → C Unit) (t : Val) : C Unit := do
  let cand ← M.ofExcept (attr t .value)
  let d ← M.ofExcept (destructure true cand)
  match d with
  | none => generic vis t
  | some p =>
    if ismacrocall E w (some p) .expr then do
      found vis .expr p
      let tree ← M.ofExcept (attr t .slice)
      vis tree
    else generic vis t

/-- The body of the loop over the macros, expander.py:462-469, 485-491. -/
def visitMacro (vis : Val → C Unit) (synt : Syn) (item : Val) : C Unit := do
  let cand ← M.ofExcept (candidateOf synt item)
  let p ← M.ofExcept (destructureCall cand)
  found vis synt p

/-- `macros, others = self.expander._detect_macro_items(…)`. -/
def macrosOf (ds : List (Val × Bool)) : List Val := (ds.filter (·.2)).map (·.1)
def othersOf (ds : List (Val × Bool)) : List Val := (ds.filter (!·.2)).map (·.1)

/-- `visit_With`, expander.py:459-474. -/
def visitWith (E : Env υ) (w : World υ) (vis : Val → C Unit) (t : Val) : C Unit := do
  let items ← M.ofExcept (do asList (← attr t .items))
  let ds ← M.ofExcept (detect E w .block items)
  if (macrosOf ds).isEmpty then generic vis t
  else do
    forAll (visitMacro vis .block) (macrosOf ds)
    forAll vis (othersOf ds)
    let body ← M.ofExcept (attr t .body)
    vis body

/-- The fields that `_visit_Decorated` visits, expander.py:494-497. -/
def otherFields (t : Val) : List Val :=
  match t with
  | .node _ _ fs => (fs.filter fun p => p.1 ≠ .decorator_list ∧ p.1 ≠ .name).map (·.2)
  | _ => []

/-- `_visit_Decorated`, expander.py:482-499. -/
def visitDecorated (E : Env υ) (w : World υ) (vis : Val → C Unit) (t : Val) : C Unit := do
  let items ← M.ofExcept (do asList (← attr t .decorator_list))
  let ds ← M.ofExcept (detect E w .decorator items)
  if (macrosOf ds).isEmpty then generic vis t
  else do
    forAll (visitMacro vis .decorator) (macrosOf ds)
    forAll vis (othersOf ds)
    forAll vis (otherFields t)

/-- `visit_Name`, expander.py:501-507. -/
def visitName (E : Env υ) (w : World υ) (t : Val) : C Unit := do
  let i ← M.ofExcept (attr t .id)
  match asName i with
  | none => pure ()
  | some k => if ismacrocall E w (some (k, [])) .name then note (k, .name) else pure ()

/-- `super().visit(tree)`. -/
def visitNode (E : Env υ) (w : World υ) (vis : Val → C Unit) (t : Val) : C Unit :=
  match t with
  | .node (.py .Subscript) _ _ => visitSubscript E w vis t
  | .node (.py .With) _ _ => visitWith E w vis t
  | .node (.py .ClassDef) _ _ => visitDecorated E w vis t
  | .node (.py .FunctionDef) _ _ => visitDecorated E w vis t
  | .node (.py .Name) _ _ => visitName E w t
  | t => generic vis t

/-- `visit(tree)`, expander.py:422-439, given the recursive calls. -/
def visitBody (E : Env υ) (w : World υ) (vis : Val → C Unit) (t : Val) : C Unit :=
  if noBindings w || isDone t then pure ()
  else
    match t with
    | .const .none => pure ()
    | .list xs => forAll vis xs
    | t => visitNode E w vis t

/-- `visit(tree)`.  Fuel bounds the depth of nested `visit` calls. -/
def visit (E : Env υ) (w : World υ) : Nat → Val → C Unit
  | 0, _ => M.diverge
  | n + 1, t => visitBody E w (visit E w n) t

end Mcpyrate.Collector
