import Verif.Model.FindMacros
/-
Model of the dialect expander, mcpyrate/dialects.py:167-443.  Not modelled: the debug mode (it only prints).
Simplified: a dialect does not change the private state of the expander, and does not keep references
to trees and change them later.
-/
namespace Mcpyrate.Dialects
open Py GetMacros Paths

/-- What a transformer method does: it returns `NotImplemented` or something else, or raises. -/
inductive Result (C : Type) where
  | notImplemented
  | value (c : C)
  | raised
  deriving DecidableEq, Repr

/-- What the expander uses of the dialect classes.  `σ` is the state of the interpreter, `O` are the objects
bound by dialect-imports, `D` are the dialect instances, `C` is the content (source text or tree). -/
structure Classes (σ O D C : Type) where
  /-- `isinstance(cls, type) and issubclass(cls, Dialect)` -/
  isDialect : O → Bool
  /-- `cls(expander=self)`, and setting `lineno` and `col_offset`; `none` if it raises -/
  new : O → Attr → Attr → σ → Option D × σ
  /-- the transformer method; `none` if the attribute is missing -/
  method : D → Option (C → σ → Result C × σ)
  /-- the method `postprocess_ast` -/
  post : D → Option (C → σ → Result C × σ)
  /-- `bool(result)` -/
  truthy : C → Bool

/-- The state: that of the interpreter, and `self._seen`, `self._step` (dialects.py:185-190). -/
structure St (σ : Type) where
  world : σ
  seen : List Str := []
  step : Nat := 0

/-- `module_absname, bindings, lineno, col_offset`. -/
structure Found (O : Type) where
  absname : String
  bindings : Dict String O
  lineno : Attr
  colOffset : Attr

/-- The methods `transform_source`, `transform_ast` and `postprocess_ast` of the class `Dialect`, dialects.py:35-123, which
dialects inherit if they do not override them. -/
def inherited {σ C : Type} (_ : C) (s : σ) : Result C × σ := (.notImplemented, s)

variable {σ M O D C : Type}

/-- The loop over the bindings, dialects.py:242-274. -/
def applyAll (K : Classes σ O D C) (f : Found O) :
    List (String × O) → C → List D → St σ → Except Err (C × List D) × St σ
  | [], c, ds, s => (.ok (c, ds), s)
  | (_, cls) :: rest, c, ds, s =>
    if !K.isDialect cls then (.error .typeError, s)
    else
      match K.new cls f.lineno f.colOffset s.world with
      | (none, w) => (.error .importError, { s with world := w })
      | (some d, w) =>
        match K.method d with
        | none => (.error .importError, { s with world := w })
        | some m =>
          match m c w with
          | (.raised, w) => (.error .importError, { s with world := w })
          | (.notImplemented, w) => applyAll K f rest c (ds ++ [d]) { s with world := w }
          | (.value c', w) =>
            if !K.truthy c' then (.error .importError, { s with world := w })
            else applyAll K f rest c' (ds ++ [d]) { s with world := w, step := s.step + 1 }

/-- `_transform(content, …)`, dialects.py:218-286.  `find` may change the content.  The loop may go on forever;
the number bounds it. -/
def transform (K : Classes σ O D C) (find : C → St σ → Except Err (Option (Found O) × C) × St σ) :
    Nat → C → List D → St σ → Option (Except Err (C × List D) × St σ)
  | 0, _, _, _ => none
  | n + 1, c, ds, s =>
    match find c s with
    | (.error e, s) => some (.error e, s)
    | (.ok (none, c), s) => some (.ok (c, ds), s)
    | (.ok (some f, c), s) =>
      match applyAll K f f.bindings c ds s with
      | (.error e, s) => some (.error e, s)
      | (.ok (c, ds), s) => transform K find n c ds s

/-- `postprocess_ast(tree, dialect_instances)`, dialects.py:288-332. -/
def postprocess (K : Classes σ O D C) : List D → C → St σ → Except Err C × St σ
  | [], c, s => (.ok c, s)
  | d :: ds, c, s =>
    match K.post d with
    | none => (.error .importError, s)
    | some m =>
      match m c s.world with
      | (.raised, w) => (.error .importError, { s with world := w })
      | (.notImplemented, w) => postprocess K ds c { s with world := w }
      | (.value c', w) =>
        if !K.truthy c' then (.error .importError, { s with world := w })
        else postprocess K ds c' { s with world := w, step := s.step + 1 }

/-! The tree. -/

/-- The loop of dialects.py:424-428: the statements before the first dialect-import, it, those after. -/
def firstImport : List Val → Except Err (Option (List Val × Val × List Val))
  | [] => .ok none
  | t :: ts =>
    match ismacroimport "dialects" t with
    | .error e => .error e
    | .ok true => .ok (some ([], t, ts))
    | .ok false =>
      match firstImport ts with
      | .error e => .error e
      | .ok none => .ok none
      | .ok (some (pre, x, post)) => .ok (some (t :: pre, x, post))

/-- `tree.body = body`. -/
def setBody (t : Val) (body : List Val) : Val :=
  match t with
  | .node c l fs => .node c l (setF fs .body (.list body))
  | t => t

/-- `x.a if hasattr(x, a) else None`. -/
def attrOrNone : Attr → Attr
  | .missing => .none
  | a => a

/-- The options `get_macros` is called with, dialects.py:388-391 and 429-430. -/
def opts (filename : Str) : Opts := { filename, reload := false, allowAsname := false }

/-- `find_dialectimport_ast(tree)`, dialects.py:394-443. -/
def findAst (I : Interp σ M O) (filename : Str) (tree : Val) (s : St σ) :
    Except Err (Option (Found O) × Val) × St σ :=
  match tree.get? .body with
  | some (.list body) =>
    match firstImport body with
    | .error e => (.error e, s)
    | .ok none => (.ok (none, tree), s)
    | .ok (some (pre, t, post)) =>
      match getMacros I (opts filename) t s.world with
      | (.error e, w) => (.error e, { s with world := w })
      | (.ok (a, b), w) =>
        (.ok (some { absname := a, bindings := b, lineno := attrOrNone (Expander.locOf t).lineno,
                     colOffset := attrOrNone (Expander.locOf t).colOffset },
          setBody tree (pre ++ FindMacros.absImport a (Expander.locOf t) :: post)), { s with world := w })
  | some _ => (.error .typeError, s)
  | none => (.error .attributeError, s)

/-- `transform_ast(tree)`, dialects.py:203-216. -/
def transformAst (K : Classes σ O D Val) (I : Interp σ M O) (filename : Str) (n : Nat) (tree : Val) (s : St σ) :
    Option (Except Err (Val × List D) × St σ) :=
  transform K (findAst I filename) n tree [] s

end Mcpyrate.Dialects
