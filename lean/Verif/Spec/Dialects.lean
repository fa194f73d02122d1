import Verif.Model.Dialects
import Verif.Spec.FindMacros
import Verif.Spec.Invocation
/-
Specification of the dialect expander.
-/
namespace Mcpyrate.Dialects
open Py GetMacros Paths Splicing

variable {σ M O D C : Type}

/-- A call of a dialect's transformer: the name of the dialect, the instance, the input, and the result. -/
structure Call (D C : Type) where
  name : String
  dialect : D
  input : C
  result : Result C

/-- What the content is after a call. -/
inductive Output (truthy : C → Bool) (c : C) : Result C → C → Prop
  | same : Output truthy c .notImplemented c
  | new {c'} : truthy c' = true → Output truthy c (.value c') c'

/-- The dialects are instantiated and their transformers called one after the other, from left to right, each on
the output of the one before. -/
inductive Applied (K : Classes σ O D C) (lineno col : Attr) :
    List (String × O) → C → σ → List (Call D C) → C → σ → Prop
  | nil {c s} : Applied K lineno col [] c s [] c s
  | cons {x cls rest c s d s1 m r s2 c1 calls c' s'} : K.isDialect cls = true →
      K.new cls lineno col s = (some d, s1) → K.method d = some m → m c s1 = (r, s2) →
      Output K.truthy c r c1 → Applied K lineno col rest c1 s2 calls c' s' →
      Applied K lineno col ((x, cls) :: rest) c s (⟨x, d, c, r⟩ :: calls) c' s'

/-- The ways a single dialect can fail. -/
inductive Bad (K : Classes σ O D C) (lineno col : Attr) : O → C → σ → Err → σ → Prop
  | notDialect {cls c s} : K.isDialect cls = false → Bad K lineno col cls c s .typeError s
  | init {cls c s s1} : K.isDialect cls = true → K.new cls lineno col s = (none, s1) →
      Bad K lineno col cls c s .importError s1
  | noMethod {cls c s d s1} : K.isDialect cls = true → K.new cls lineno col s = (some d, s1) → K.method d = none →
      Bad K lineno col cls c s .importError s1
  | raises {cls c s d s1 m s2} : K.isDialect cls = true → K.new cls lineno col s = (some d, s1) →
      K.method d = some m → m c s1 = (.raised, s2) → Bad K lineno col cls c s .importError s2
  | empty {cls c s d s1 m c1 s2} : K.isDialect cls = true → K.new cls lineno col s = (some d, s1) →
      K.method d = some m → m c s1 = (.value c1, s2) → K.truthy c1 = false →
      Bad K lineno col cls c s .importError s2

/-- The statements of a module. -/
def stmts (t : Val) : List Val :=
  match t.get? .body with
  | some (.list body) => body
  | _ => []

/-- The dialect-imports at the top level. -/
def dialectImports (t : Val) : List Val := (stmts t).filter (isImport "dialects")

/-- `First t pre d post`: the first dialect-import at the top level of `t` is `d`. -/
def First (t : Val) (pre : List Val) (d : Val) (post : List Val) : Prop :=
  t.get? .body = some (.list (pre ++ d :: post)) ∧ isImport "dialects" d = true ∧
    ∀ x ∈ pre, isImport "dialects" x = false

/-- The line (or column) that a dialect sees. -/
def seen : Attr → Attr
  | .int n => .int n
  | _ => .none

/-- The first dialect-import `d` of `t` is run: `t1` is the module with `import a` in its place, `b` are the
dialects. -/
def Imported (I : Interp σ M O) (filename : Str) (t : Val) (s : σ) (d : Val) (b : Dict String O) (t1 : Val)
    (s1 : σ) : Prop :=
  ∃ pre post a v, First t pre d post ∧
    getMacros I { filename, allowAsname := false } d s = (.ok (a, b), s1) ∧
    FindMacros.IsImportOf a (Expander.locOf d) v ∧
    t1 = Expander.withField t .body (.list (pre ++ v :: post))

/-- Any number of dialect-imports are processed: each time the module is scanned from the beginning, and the first
dialect-import is replaced and its dialects are applied.  The records are the statements and their calls. -/
inductive Steps (K : Classes σ O D Val) (I : Interp σ M O) (filename : Str) :
    Val → σ → List (Val × List (Call D Val)) → Val → σ → Prop
  | nil {t s} : Steps K I filename t s [] t s
  | cons {t s d b t1 s1 calls t2 s2 recs t' s'} : Imported I filename t s d b t1 s1 →
      Applied K (seen (Expander.locOf d).lineno) (seen (Expander.locOf d).colOffset) b t1 s1 calls t2 s2 →
      Steps K I filename t2 s2 recs t' s' → Steps K I filename t s ((d, calls) :: recs) t' s'

/-- The postprocessors of the dialects, one after the other. -/
inductive Posted (K : Classes σ O D C) : List D → C → σ → List (Call D C) → C → σ → Prop
  | nil {c s} : Posted K [] c s [] c s
  | cons {d ds c s m r s1 c1 calls c' s'} : K.post d = some m → m c s = (r, s1) → Output K.truthy c r c1 →
      Posted K ds c1 s1 calls c' s' → Posted K (d :: ds) c s (⟨"postprocess_ast", d, c, r⟩ :: calls) c' s'

/-- A module as made by the parser: a list of statements, where each import has a non-empty list of names. -/
def ModuleOk (t : Val) : Prop := ∃ body, t.get? .body = some (.list body) ∧
  ∀ u ∈ body, u.isK .ImportFrom = true →
    ∃ a as n, u.get? .names = some (.list (a :: as)) ∧ a.get? .name = some n

/-- The statements, where dialect-imports have become absolute imports, and all others are the same. -/
inductive Absolute : List Val → List Val → Prop
  | nil : Absolute [] []
  | keep {x xs ys} : isImport "dialects" x = false → Absolute xs ys → Absolute (x :: xs) (x :: ys)
  | import {d a v xs ys} : isImport "dialects" d = true → FindMacros.IsImportOf a (Expander.locOf d) v → Absolute xs ys →
      Absolute (d :: xs) (v :: ys)

end Mcpyrate.Dialects
