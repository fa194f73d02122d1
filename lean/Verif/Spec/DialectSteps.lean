import Verif.Model.DialectSteps
import Verif.Spec.Dialects
/-
Specification of the dialect `StepExpansion`: a dialect that does nothing, and the report of the steps.
-/
namespace Mcpyrate.DialectSteps
open Py GetMacros Paths

variable {σ M O D C : Type}

/-- The ordinary dialect classes, with in place of `StepExpansion` a dialect whose methods all return
`NotImplemented`. -/
def quiet (K : Dialects.Classes σ O D C) : Dialects.Classes σ (Option O) (Option D) C where
  isDialect
    | none => true
    | some o => K.isDialect o
  new
    | none => fun _ _ s => (some none, s)
    | some o => fun l c s => ((K.new o l c s).1.map some, (K.new o l c s).2)
  method
    | none => some fun _ s => (.notImplemented, s)
    | some d => K.method d
  post
    | none => some fun _ s => (.notImplemented, s)
    | some d => K.post d
  truthy := K.truthy

/-- The calls that are made until the end, or until an error: dialect-imports are searched for and their dialects
applied.  Each call comes with the qualified name of the dialect. -/
inductive Performed (K : Dialects.Classes σ O D C)
    (find : C → Dialects.St σ → Except Err (Option (Dialects.Found O) × C) × Dialects.St σ) :
    C → Dialects.St σ → List (Str × Dialects.Call D C) → Except Err C → Prop
  | done {c s c' s'} : find c s = (.ok (none, c'), s') → Performed K find c s [] (.ok c')
  | stuck {c s e s'} : find c s = (.error e, s') → Performed K find c s [] (.error e)
  | round {c s f c1 s1 calls c2 w more r} : find c s = (.ok (some f, c1), s1) →
      Dialects.Applied K f.lineno f.colOffset f.bindings c1 s1.world calls c2 w →
      Performed K find c2 { s1 with world := w } more r →
      Performed K find c s (calls.map (fun x => (f.absname.toList ++ '.' :: x.name.toList, x)) ++ more) r
  | failed {c s f c1 s1 pre x cls post calls c2 w e w'} : find c s = (.ok (some f, c1), s1) →
      f.bindings = pre ++ (x, cls) :: post →
      Dialects.Applied K f.lineno f.colOffset pre c1 s1.world calls c2 w →
      Dialects.Bad K f.lineno f.colOffset cls c2 w e w' →
      Performed K find c s (calls.map fun x => (f.absname.toList ++ '.' :: x.name.toList, x)) (.error e)

/-- The same for the postprocessors. -/
inductive PostPerformed (K : Dialects.Classes σ O D C) :
    List D → C → σ → List (Dialects.Call D C) → Except Err C → Prop
  | done {ds c s calls c' s'} : Dialects.Posted K ds c s calls c' s' → PostPerformed K ds c s calls (.ok c')
  | missing {pre d post c s calls c' s'} : Dialects.Posted K pre c s calls c' s' → K.post d = none →
      PostPerformed K (pre ++ d :: post) c s calls (.error .importError)
  | raises {pre d post c s calls c' s' m s''} : Dialects.Posted K pre c s calls c' s' → K.post d = some m →
      m c' s' = (.raised, s'') → PostPerformed K (pre ++ d :: post) c s calls (.error .importError)
  | empty {pre d post c s calls c' s' m c'' s''} : Dialects.Posted K pre c s calls c' s' → K.post d = some m →
      m c' s' = (.value c'', s'') → K.truthy c'' = false →
      PostPerformed K (pre ++ d :: post) c s calls (.error .importError)

/-- An entry of the report. -/
inductive Entry (C : Type) where
  | enabled (step : Nat)
  | before (what : String) (steps : Nat) (content : C)
  | after (who : Str) (step : Nat) (content : C)
  | completed (what : String) (steps : Nat)

/-- The number of steps so far. -/
def inTotal : Nat → String
  | 1 => "(1 step total)"
  | n => "(" ++ toString n ++ " steps total)"

/-- The message of an entry, without colors. -/
def Entry.message (filename : Str) : Entry C → Str
  | .enabled n => "**StepExpansion: ".toList ++ filename ++ " enabled DialectExpander debug mode while taking step ".toList ++
      (toString n).toList ++ ".\n".toList
  | .before what n _ => "**StepExpansion: ".toList ++ filename ++ " before dialect ".toList ++ what.toList ++ " ".toList ++
      (inTotal n).toList ++ ":\n\n".toList
  | .after who n _ => "**StepExpansion: ".toList ++ filename ++ " after ".toList ++ who ++ " (step ".toList ++
      (toString n).toList ++ "):\n\n".toList
  | .completed what n => "**StepExpansion: ".toList ++ filename ++ " completed all dialect ".toList ++ what.toList ++
      " ".toList ++ (inTotal n).toList ++ ".\n".toList

/-- What is shown after the message. -/
def Entry.content (display : C → Str) : Entry C → Str
  | .before _ _ c => display c ++ ['\n']
  | .after _ _ c => display c ++ ['\n']
  | _ => []

/-- `Colored codes t p`: the text `p`, with some of the codes inserted anywhere, is `t`. -/
inductive Colored (codes : List Str) : Str → Str → Prop
  | nil : Colored codes [] []
  | char {c t p} : Colored codes t p → Colored codes (c :: t) (c :: p)
  | code {k t p} : k ∈ codes → Colored codes t p → Colored codes (k ++ t) p

/-- The color codes of a scheme. -/
def Palette.codes (P : Palette) : List Str := [P.heading, P.source, P.attention, P.kind, P.name, P.reset]

/-- The entries are written one after the other: the message in colors, then the content as `display` shows it. -/
inductive Written (E : Console D C) : List (Entry C) → Str → Prop
  | nil : Written E [] []
  | cons {e es t r} : Colored E.colors.codes t (e.message E.filename) → Written E es r →
      Written E (e :: es) (t ++ e.content E.display ++ r)

/-- Whether there was no error. -/
def ended {α : Type} : Except Err α → Bool
  | .ok _ => true
  | .error _ => false

/-- The report on calls of transformers, if so far there have been `n` steps, and the debug mode is on or not.
A call that returns `NotImplemented` is not a step.  `StepExpansion` turns the debug mode on, which is a step;
its AST transformer does it only if the debug mode is not on yet. -/
def report (ast : Bool) : Bool → Nat → List (Str × Dialects.Call (Option D) C) → List (Entry C)
  | _, _, [] => []
  | debug, n, (who, x) :: r =>
    match x.dialect, x.result with
    | none, _ =>
      if ast && debug then report ast debug n r
      else
        .enabled (n + 1) :: .after (who ++ (if ast then ".transform_ast" else ".transform_source").toList) (n + 1) x.input ::
          report ast true (n + 1) r
    | some _, .value c =>
      if debug then
        .after (who ++ (if ast then ".transform_ast" else ".transform_source").toList) (n + 1) c :: report ast true (n + 1) r
      else report ast false (n + 1) r
    | some _, _ => report ast debug n r

/-- Whether the debug mode is on after the calls. -/
def debugAfter (debug : Bool) (calls : List (Str × Dialects.Call (Option D) C)) : Bool :=
  debug || calls.any fun x => x.2.dialect.isNone

/-- The number of steps after the calls. -/
def stepsAfter (ast : Bool) : Bool → Nat → List (Str × Dialects.Call (Option D) C) → Nat
  | _, n, [] => n
  | debug, n, (_, x) :: r =>
    match x.dialect, x.result with
    | none, _ => if ast && debug then stepsAfter ast debug n r else stepsAfter ast true (n + 1) r
    | some _, .value _ => stepsAfter ast debug (n + 1) r
    | some _, _ => stepsAfter ast debug n r

/-- The report of the postprocessors. -/
def postReport (repr : Option D → Str) : Nat → List (Dialects.Call (Option D) C) → List (Entry C)
  | _, [] => []
  | n, x :: r =>
    match x.result with
    | .value c => .after (repr x.dialect ++ ".postprocess_ast".toList) (n + 1) c :: postReport repr (n + 1) r
    | _ => postReport repr n r

/-- The number of steps that the postprocessors take. -/
def postSteps (calls : List (Dialects.Call D C)) : Nat :=
  calls.countP fun x => match x.result with
    | .value _ => true
    | _ => false

end Mcpyrate.DialectSteps
