import Verif.Model.DialectSource
import Verif.Model.Unparse
/-
Model of the debug mode of the dialect expander, and of the dialect `StepExpansion` that turns it on:
mcpyrate/dialects.py:126-163 and 192-332.  Here `none` is the class `StepExpansion`, or an instance of it; the other
classes and instances are `some`.  Simplified: the output of the debug mode is kept apart from the rest of what is
written to `sys.stderr`; the other dialects do not change `expander.debugmode`; `repr` of an instance does not raise; the color scheme is
the same all the time (the header is made when dialects.py is imported).
-/
namespace Mcpyrate.DialectSteps
open Py GetMacros Paths Dialects

def lit (s : String) : Str := s.toList

/-- The settings of the color scheme that are used, and `Style.RESET_ALL`, colorizer.py:36-66 and 155-165. -/
structure Palette where
  heading : Str
  source : Str
  attention : Str
  kind : Str
  name : Str
  reset : Str

/-- `setcolor(color)`, colorizer.py:36-66. -/
def Palette.set (P : Palette) (color : Str) : Str := P.reset ++ color

/-- `setcolor()`. -/
def Palette.clear (P : Palette) : Str := P.reset

/-- What the messages are made of: the colors, the name of the file, `format_for_display`, and
`format_macrofunction(dialect)` (the `repr`, since instances have no `__qualname__`: utils.py:255-266). -/
structure Console (D C : Type) where
  colors : Palette
  filename : Str
  display : C → Str
  repr : Option D → Str

/-- The state of the expander with `self.debugmode` (dialects.py:188), and the output so far. -/
structure Shown (σ : Type) where
  st : St σ
  debug : Bool := false
  out : Str := []

/-- `kind`, dialects.py:197 and 213. -/
inductive Kind where
  | source
  | ast
  deriving DecidableEq, Repr

def Kind.text : Kind → Str
  | .source => lit "source"
  | .ast => lit "AST"

/-- `transform`, dialects.py:199 and 215. -/
def Kind.method : Kind → Str
  | .source => lit "transform_source"
  | .ast => lit "transform_ast"

variable {σ M O D C : Type}

/-- `print(text, file=sys.stderr)`. -/
def print (text : Str) (s : Shown σ) : Shown σ := { s with out := s.out ++ (text ++ ['\n']) }

/-- `_message_header`, dialects.py:126. -/
def header (P : Palette) : Str := P.set P.heading ++ lit "**StepExpansion: " ++ P.clear

/-- `({self._step} step{plural} total)`, dialects.py:221-222, 282-283, 297-298 and 328-329. -/
def total (n : Nat) : Str :=
  lit "(" ++ Unparse.decimal n ++ lit " step" ++ (if n != 1 then lit "s" else []) ++ lit " total)"

/-- `_enable_debugmode()`, dialects.py:159-163. -/
def enable (E : Console D C) (s : Shown σ) : Shown σ :=
  let P := E.colors
  let s := { s with debug := true }
  print (header P ++ (P.set P.source ++ E.filename ++ lit " " ++ P.set P.heading ++ lit "enabled " ++ P.set P.attention ++
    lit "DialectExpander debug mode " ++ P.set P.heading ++ lit "while taking step " ++ Unparse.decimal (s.st.step + 1) ++
    lit "." ++ P.clear)) s

/-- The transformers of `StepExpansion`, dialects.py:140-157. -/
def stepExpansion (E : Console D C) (k : Kind) (c : C) (s : Shown σ) : Result C × Shown σ :=
  match k with
  | .source => (.value c, enable E s)
  | .ast => if s.debug then (.notImplemented, s) else (.value c, enable E s)

/-- dialects.py:220-224. -/
def showBefore (E : Console D C) (k : Kind) (c : C) (s : Shown σ) : Shown σ :=
  let P := E.colors
  if s.debug then
    print (E.display c) (print (header P ++ (P.set P.source ++ E.filename ++ lit " " ++ P.set P.heading ++
      lit "before dialect " ++ P.set P.kind ++ k.text ++ lit " " ++ P.set P.heading ++ lit "transformers " ++
      total s.st.step ++ lit ":" ++ P.clear ++ ['\n'])) s)
  else s

/-- dialects.py:276-279, and (with another name) 322-325. -/
def showAfter (E : Console D C) (who : Str) (c : C) (s : Shown σ) : Shown σ :=
  let P := E.colors
  if s.debug then
    print (E.display c) (print (header P ++ (P.set P.source ++ E.filename ++ lit " " ++ P.set P.heading ++ lit "after " ++
      P.set P.name ++ who ++ lit " " ++ P.set P.heading ++ lit "(step " ++ Unparse.decimal s.st.step ++ lit "):" ++
      P.clear ++ ['\n'])) s)
  else s

/-- dialects.py:281-284. -/
def showCompleted (E : Console D C) (k : Kind) (s : Shown σ) : Shown σ :=
  let P := E.colors
  if s.debug then
    print (header P ++ (P.set P.source ++ E.filename ++ lit " " ++ P.set P.heading ++ lit "completed all dialect " ++
      P.set P.kind ++ k.text ++ lit " " ++ P.set P.heading ++ lit "transforms " ++ total s.st.step ++ lit "." ++
      P.clear)) s
  else s

/-- `self._step += 1`. -/
def count (s : Shown σ) : Shown σ := { s with st := { s.st with step := s.st.step + 1 } }

/-- The interpreter goes on from another state. -/
def setWorld (w : σ) (s : Shown σ) : Shown σ := { s with st := { s.st with world := w } }

/-- The instance and the result of its transformer, dialects.py:242-262. -/
def call (E : Console D C) (k : Kind) (K : Classes σ O D C) (f : Found (Option O)) (cls : Option O) (c : C) (s : Shown σ) :
    Except Err (Option D × Result C) × Shown σ :=
  match cls with
  | none =>
    match stepExpansion E k c s with
    | (r, s) => (.ok (none, r), s)
  | some cls =>
    if !K.isDialect cls then (.error .typeError, s)
    else
      match K.new cls f.lineno f.colOffset s.st.world with
      | (none, w) => (.error .importError, setWorld w s)
      | (some d, w) =>
        match K.method d with
        | none => (.error .importError, setWorld w s)
        | some m =>
          match m c w with
          | (.raised, w) => (.error .importError, setWorld w s)
          | (r, w) => (.ok (some d, r), setWorld w s)

/-- The loop over the bindings, dialects.py:241-279. -/
def applyAll (E : Console D C) (k : Kind) (K : Classes σ O D C) (f : Found (Option O)) :
    List (String × Option O) → C → List (Option D) → Shown σ → Except Err (C × List (Option D)) × Shown σ
  | [], c, ds, s => (.ok (c, ds), s)
  | (x, cls) :: rest, c, ds, s =>
    match call E k K f cls c s with
    | (.error e, s) => (.error e, s)
    | (.ok (d, .notImplemented), s) => applyAll E k K f rest c (ds ++ [d]) s
    | (.ok (_, .raised), s) => (.error .importError, s)
    | (.ok (d, .value c'), s) =>
      if !K.truthy c' then (.error .importError, s)
      else
        applyAll E k K f rest c' (ds ++ [d])
          (showAfter E (lit f.absname ++ lit "." ++ lit x ++ lit "." ++ k.method) c' (count s))

/-- The loop of `_transform`, dialects.py:234-279.  It may go on forever; the number bounds it. -/
def loop (E : Console D C) (k : Kind) (K : Classes σ O D C)
    (find : C → St σ → Except Err (Option (Found (Option O)) × C) × St σ) :
    Nat → C → List (Option D) → Shown σ → Option (Except Err (C × List (Option D)) × Shown σ)
  | 0, _, _, _ => none
  | n + 1, c, ds, s =>
    match find c s.st with
    | (.error e, t) => some (.error e, { s with st := t })
    | (.ok (none, c), t) => some (.ok (c, ds), { s with st := t })
    | (.ok (some f, c), t) =>
      match applyAll E k K f f.bindings c ds { s with st := t } with
      | (.error e, s) => some (.error e, s)
      | (.ok (c, ds), s) => loop E k K find n c ds s

/-- `_transform(content, …)`, dialects.py:218-286. -/
def transform (E : Console D C) (k : Kind) (K : Classes σ O D C)
    (find : C → St σ → Except Err (Option (Found (Option O)) × C) × St σ) (n : Nat) (c : C) (s : Shown σ) :
    Option (Except Err (C × List (Option D)) × Shown σ) :=
  match loop E k K find n c [] (showBefore E k c s) with
  | none => none
  | some (.error e, s) => some (.error e, s)
  | some (.ok r, s) => some (.ok r, showCompleted E k s)

/-- `transform_source(text)`, dialects.py:192-201. -/
def transformSource (E : Console D Str) (K : Classes σ O D Str) (I : Interp σ M (Option O)) (parse : Str → Except Err Val)
    (n : Nat) (text : Str) (s : Shown σ) : Option (Except Err Str × Shown σ) :=
  (transform E .source K (findSource I parse E.filename) n text s).map fun r => (r.1.map Prod.fst, r.2)

/-- `transform_ast(tree)`, dialects.py:203-216. -/
def transformAst (E : Console D Val) (K : Classes σ O D Val) (I : Interp σ M (Option O)) (n : Nat) (tree : Val)
    (s : Shown σ) : Option (Except Err (Val × List (Option D)) × Shown σ) :=
  transform E .ast K (findAst I E.filename) n tree s

/-- dialects.py:296-300. -/
def postBefore (E : Console D C) (c : C) (s : Shown σ) : Shown σ :=
  let P := E.colors
  if s.debug then
    print (E.display c) (print (header P ++ (P.set P.source ++ E.filename ++ lit " " ++ P.set P.heading ++
      lit "before dialect " ++ P.set P.kind ++ lit "AST postprocessors " ++ P.set P.heading ++
      total s.st.step ++ lit ":" ++ P.clear ++ ['\n'])) s)
  else s

/-- dialects.py:327-330. -/
def postCompleted (E : Console D C) (s : Shown σ) : Shown σ :=
  let P := E.colors
  if s.debug then
    print (header P ++ (P.set P.source ++ E.filename ++ lit " " ++ P.set P.heading ++ lit "completed all dialect " ++
      P.set P.kind ++ lit "AST postprocessors " ++ P.set P.heading ++ total s.st.step ++ lit "." ++
      P.clear)) s
  else s

/-- The loop of `postprocess_ast`, dialects.py:302-325.  `StepExpansion` inherits `postprocess_ast` from `Dialect`
(dialects.py:121-123). -/
def postLoop (E : Console D C) (K : Classes σ O D C) : List (Option D) → C → Shown σ → Except Err C × Shown σ
  | [], c, s => (.ok c, s)
  | none :: ds, c, s => postLoop E K ds c s
  | some d :: ds, c, s =>
    match K.post d with
    | none => (.error .importError, s)
    | some m =>
      match m c s.st.world with
      | (.raised, w) => (.error .importError, setWorld w s)
      | (.notImplemented, w) => postLoop E K ds c (setWorld w s)
      | (.value c', w) =>
        if !K.truthy c' then (.error .importError, setWorld w s)
        else
          postLoop E K ds c' (showAfter E (E.repr (some d) ++ lit "." ++ lit "postprocess_ast") c' (count (setWorld w s)))

/-- `postprocess_ast(tree, dialect_instances)`, dialects.py:288-332. -/
def postprocess (E : Console D C) (K : Classes σ O D C) (ds : List (Option D)) (c : C) (s : Shown σ) :
    Except Err C × Shown σ :=
  match postLoop E K ds c (postBefore E c s) with
  | (.error e, s) => (.error e, s)
  | (.ok c, s) => (.ok c, postCompleted E s)

end Mcpyrate.DialectSteps
