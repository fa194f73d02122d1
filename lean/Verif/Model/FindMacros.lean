import Verif.Model.GetMacros
import Verif.Model.Expander
/-
Model of `find_macros`, expander.py:584-658.
-/
namespace Mcpyrate.FindMacros
open Py GetMacros

variable {σ M O : Type}

/-- `Import(names=[alias(name=module_absname, asname=None)])` with the location of the statement,
expander.py:650-654.  (On Python 3.9 an alias has no location.) -/
def absImport (absname : String) (old : Loc) : Val :=
  .node (.py .Import) (Expander.copyLoc old)
    [(.names, .list [.node (.py .alias) (Expander.copyLoc old) [(.name, .str absname), (.asname, .none)]])]

/-- `bool(self_module)`. -/
def selfTruthy : Option String → Bool
  | some a => a != ""
  | none => false

/-- The result of `_insert_coverage_dummy_stmt(None, …)`, expander.py:643-647: the items that take the
place of the statement. -/
def dummyFor (filename : String) (old : Loc) : Except Err (List Val) :=
  match Expander.insertCoverage filename "<self-macro-import>" .none old with
  | .ok (.list (d :: _)) => .ok [d]
  | .ok _ => .ok []
  | .error _ => .error .attributeError

/-- What takes the place of a macro-import, expander.py:633-654: nothing stands for a statement that
is put on the list of those to be deleted. -/
def transformed (o : Opts) (transform : Bool) (t : Val) (absname : String) : Except Err (List Val) :=
  if transform then
    if selfTruthy o.selfModule && (t.get? .module_).getD .none == .str "__self__" then
      dummyFor (String.ofList o.filename) (Expander.locOf t)
    else .ok [absImport absname (Expander.locOf t)]
  else .ok [t]

/-- The loop of expander.py:629-654.  Deleting statements after the loop amounts to leaving them out.
When an exception is raised, the tree has been changed up to that point; only the exception is
returned here. -/
def loop (I : Interp σ M O) (o : Opts) (transform : Bool) :
    List Val → Dict String O → σ → Except Err (List Val × Dict String O) × σ
  | [], b, s => (.ok ([], b), s)
  | t :: ts, b, s =>
    match ismacroimport "macros" t with
    | .error e => (.error e, s)
    | .ok false =>
      match loop I o transform ts b s with
      | (.error e, s) => (.error e, s)
      | (.ok (ts', b), s) => (.ok (t :: ts', b), s)
    | .ok true =>
      match getMacros I o t s with
      | (.error e, s) => (.error e, s)
      | (.ok (a, more), s) =>
        match transformed o transform t a with
        | .error e => (.error e, s)
        | .ok new =>
          match loop I o transform ts (b.update more) s with
          | (.error e, s) => (.error e, s)
          | (.ok (ts', b), s) => (.ok (new ++ ts', b), s)

/-- `find_macros(tree, …)` with `tree.body` given, expander.py:584-658: the new body, the bindings.
`allow_asname` keeps its default. -/
def findMacros (I : Interp σ M O) (o : Opts) (transform : Bool) (body : List Val) (s : σ) :
    Except Err (List Val × Dict String O) × σ :=
  loop I { o with allowAsname := true } transform body [] s

end Mcpyrate.FindMacros
