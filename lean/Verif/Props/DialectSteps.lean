import Verif.Props.DialectSource
import Verif.Lemmas.DialectStepsRun
/-
C67 The dialect `StepExpansion` shows the steps of the dialect expander, and has no other effect.

Full statement: if `StepExpansion` is dialect-imported, then the source transformers, AST transformers and postprocessors
give the same results and the same errors, and change the interpreter and the expander in the same way, as if it were a
dialect that does nothing.  From its first transformer on, each step of any dialect is shown: the qualified name of the
transformer, the number of the step (counted from one, without gaps, from the creation of the expander on, through all
three parts), and the content after it.  Before the AST transformers and the postprocessors the content is shown, and at the
end of each part the total number of steps, unless there was an error.  If the debug mode was never turned on, nothing is shown.
-/
namespace Mcpyrate
open Py GetMacros Paths DialectSteps

variable {σ M O D C : Type}

/-- C67: the source transformers do the same, in all cases, with errors or without end. -/
theorem C67_source (E : Console D Str) (K : Dialects.Classes σ O D Str) (hK : ∀ text, K.truthy text = true ↔ text ≠ [])
    (I : Interp σ M (Option O)) (parse : Str → Except Err Val) (n : Nat) (text : Str) (s : Shown σ) :
    (transformSource E K I parse n text s).map (fun r => (r.1, r.2.st.world, r.2.st.seen)) =
      (Dialects.transformSource (quiet K) I parse E.filename n text s.st).map fun r => (r.1, r.2.world, r.2.seen) := by
  have := transform_sim (E := E) (k := .source) (search_source (K := K) (fun x r => (hK _).2 (by simp)) I parse E.filename) n text s
  unfold transformSource Dialects.transformSource
  generalize transform E .source K (Dialects.findSource I parse E.filename) n text s = x at this
  generalize Dialects.transform (quiet K) (Dialects.findSource I parse E.filename) n text [] s.st = y at this
  cases x <;> cases y <;> simp_all

/-- C67: the AST transformers do the same; here the instances of the dialects are part of the result. -/
theorem C67_ast (E : Console D Val) (K : Dialects.Classes σ O D Val) (hK : ∀ k l fs, K.truthy (.node k l fs) = true)
    (I : Interp σ M (Option O)) (n : Nat) (tree : Val) (s : Shown σ) :
    (transformAst E K I n tree s).map (fun r => (r.1, r.2.st.world, r.2.st.seen)) =
      (Dialects.transformAst (quiet K) I E.filename n tree s.st).map fun r => (r.1, r.2.world, r.2.seen) :=
  transform_sim (E := E) (k := .ast) (search_ast hK I E.filename) n tree s

/-- C67: the postprocessors do the same. -/
theorem C67_post (E : Console D C) (K : Dialects.Classes σ O D C) (ds : List (Option D)) (c : C) (s : Shown σ) :
    ((postprocess E K ds c s).1, (postprocess E K ds c s).2.st.world, (postprocess E K ds c s).2.st.seen) =
      ((Dialects.postprocess (quiet K) ds c s.st).1, (Dialects.postprocess (quiet K) ds c s.st).2.world,
        (Dialects.postprocess (quiet K) ds c s.st).2.seen) :=
  postprocess_sim ds c s

/-- C67: what is shown while the source transformers run. -/
theorem C67_sourceReport (E : Console D Str) (K : Dialects.Classes σ O D Str) (hK : ∀ text, K.truthy text = true ↔ text ≠ [])
    (I : Interp σ M (Option O)) (parse : Str → Except Err Val) (n : Nat) (text : Str) (s s' : Shown σ) (r : Except Err Str)
    (h : transformSource E K I parse n text s = some (r, s')) :
    ∃ calls shown, Performed (quiet K) (Dialects.findSource I parse E.filename) text s.st calls r ∧
      s'.debug = debugAfter s.debug calls ∧ s'.st.step = stepsAfter false s.debug s.st.step calls ∧
      s'.out = s.out ++ shown ∧
      Written E ((if s.debug then [.before "source transformers" s.st.step text] else []) ++
        report false s.debug s.st.step calls ++
        (if s'.debug && ended r then [.completed "source transforms" s'.st.step] else [])) shown := by
  unfold transformSource at h
  cases hx : transform E .source K (Dialects.findSource I parse E.filename) n text s with
  | none => rw [hx] at h; cases h
  | some x =>
    obtain ⟨q, s1⟩ := x
    rw [hx] at h
    cases h
    obtain ⟨calls, h1, h2, h3, o, h4, h5⟩ := transform_report
      (search_source (K := K) (fun x r => (hK _).2 (by simp)) I parse E.filename) hx
    refine ⟨calls, o, h1, h2, h3, h4, ?_⟩
    have e : ended (q.map Prod.fst) = ended q := by cases q <;> rfl
    rw [e]
    exact h5

/-- C67: what is shown while the AST transformers run. -/
theorem C67_astReport (E : Console D Val) (K : Dialects.Classes σ O D Val) (hK : ∀ k l fs, K.truthy (.node k l fs) = true)
    (I : Interp σ M (Option O)) (n : Nat) (tree : Val) (s s' : Shown σ) (r : Except Err (Val × List (Option D)))
    (h : transformAst E K I n tree s = some (r, s')) :
    ∃ calls shown, Performed (quiet K) (Dialects.findAst I E.filename) tree s.st calls (r.map Prod.fst) ∧
      s'.debug = debugAfter s.debug calls ∧ s'.st.step = stepsAfter true s.debug s.st.step calls ∧
      s'.out = s.out ++ shown ∧
      Written E ((if s.debug then [.before "AST transformers" s.st.step tree] else []) ++
        report true s.debug s.st.step calls ++
        (if s'.debug && ended r then [.completed "AST transforms" s'.st.step] else [])) shown := by
  obtain ⟨calls, h1, h2, h3, o, h4, h5⟩ := transform_report (search_ast hK I E.filename) h
  exact ⟨calls, o, h1, h2, h3, h4, h5⟩

/-- C67: what is shown while the postprocessors run. -/
theorem C67_postReport (E : Console D C) (K : Dialects.Classes σ O D C) (ds : List (Option D)) (c : C) (s s' : Shown σ)
    (r : Except Err C) (h : postprocess E K ds c s = (r, s')) :
    ∃ calls shown, PostPerformed (quiet K) ds c s.st.world calls r ∧ s'.debug = s.debug ∧
      s'.st.step = s.st.step + postSteps calls ∧ s'.out = s.out ++ shown ∧
      Written E (if s.debug then .before "AST postprocessors" s.st.step c :: postReport E.repr s.st.step calls ++
        (if ended r then [.completed "AST postprocessors" s'.st.step] else []) else []) shown := by
  obtain ⟨calls, h1, h2, h3, o, h4, h5⟩ := postprocess_report h
  exact ⟨calls, o, h1, h2, h3, h4, h5⟩

private theorem report_silent (a : Bool) : ∀ (n : Nat) (calls : List (Str × Dialects.Call (Option D) C)),
    debugAfter false calls = false → report a false n calls = []
  | _, [], _ => rfl
  | n, (w, x) :: r, h => by
    rw [debugAfter_cons] at h
    rw [report]
    obtain ⟨nm, d, i, q⟩ := x
    cases d with
    | none => simp [debugAfter] at h
    | some d =>
      have h' : debugAfter false r = false := h
      cases q with
      | value c => simp [report_silent a (n + 1) r h']
      | notImplemented => exact report_silent a n r h'
      | raised => exact report_silent a n r h'

private theorem written_nil {E : Console D C} {o : Str} (h : Written E [] o) : o = [] := by cases h; rfl

/-- C67: nothing is shown if the debug mode is off, before and after. -/
theorem C67_silent (E : Console D Str) (F : Console D Val) (K : Dialects.Classes σ O D Str) (L : Dialects.Classes σ O D Val)
    (hK : ∀ text, K.truthy text = true ↔ text ≠ []) (hL : ∀ k l fs, L.truthy (.node k l fs) = true)
    (I : Interp σ M (Option O)) (parse : Str → Except Err Val) (n : Nat) (s : Shown σ) (hs : s.debug = false) :
    (∀ text r s', transformSource E K I parse n text s = some (r, s') → s'.debug = false → s'.out = s.out) ∧
    (∀ tree r s', transformAst F L I n tree s = some (r, s') → s'.debug = false → s'.out = s.out) ∧
    (∀ ds tree, (postprocess F L ds tree s).2.out = s.out) := by
  refine ⟨?_, ?_, ?_⟩
  · intro text r s' h hd
    obtain ⟨calls, o, _, h2, _, h4, h5⟩ := C67_sourceReport E K hK I parse n text s s' r h
    rw [hs] at h2 h5
    rw [hd] at h2 h5
    simp only [Bool.false_eq_true, if_false, Bool.false_and, List.append_nil, List.nil_append, report_silent _ _ _ h2.symm] at h5
    rw [h4, written_nil h5, List.append_nil]
  · intro tree r s' h hd
    obtain ⟨calls, o, _, h2, _, h4, h5⟩ := C67_astReport F L hL I n tree s s' r h
    rw [hs] at h2 h5
    rw [hd] at h2 h5
    simp only [Bool.false_eq_true, if_false, Bool.false_and, List.append_nil, List.nil_append, report_silent _ _ _ h2.symm] at h5
    rw [h4, written_nil h5, List.append_nil]
  · intro ds tree
    obtain ⟨calls, o, _, _, _, h4, h5⟩ := C67_postReport F L ds tree s (postprocess F L ds tree s).2 (postprocess F L ds tree s).1 rfl
    rw [hs] at h5
    simp only [Bool.false_eq_true, if_false] at h5
    rw [h4, written_nil h5, List.append_nil]

/-! An example: a module with `StepExpansion` between two dialects. -/

namespace DialectSteps.Case

/-- The module `mcpyrate.debug` has `StepExpansion`; the dialects `f` and `g` of `lib` are 1 and 2. -/
def interp : Interp (List String) String (Option Nat) where
  importModule name s := (.ok name, name :: s)
  reload m s := (.ok m, s)
  sysModules _ _ := none
  attr _ m x :=
    if m = "mcpyrate.debug" ∧ x = "StepExpansion" then some none
    else if m = "lib" ∧ x = "f" then some (some 1)
    else if m = "lib" ∧ x = "g" then some (some 2)
    else none
  callable _ := true
  fs := GetMacros.Ex.interp.fs
  syspath := GetMacros.Ex.interp.syspath

/-- `f` appends a comment, and `g` does nothing. -/
def classes : Dialects.Classes (List String) Nat Nat Str where
  isDialect _ := true
  new o _ _ s := (some o, s)
  method d := some fun t s => if d = 1 then (.value (t ++ "\n# f".toList), s) else (.notImplemented, s)
  post _ := none
  truthy t := t ≠ []

def parse (s : Str) : Except Err Val :=
  if s = "from lib import dialects, f, g".toList then .ok (Dialects.Ex.dialectImport "lib" ["f", "g"])
  else if s = "from lib import dialects, f".toList then .ok (Dialects.Ex.dialectImport "lib" ["f"])
  else if s = "from mcpyrate.debug import dialects, StepExpansion".toList then
    .ok (Dialects.Ex.dialectImport "mcpyrate.debug" ["StepExpansion"])
  else .error .syntaxError

def plain : Console Nat Str where
  colors := ⟨[], [], [], [], [], []⟩
  filename := "m.py".toList
  display c := c
  repr _ := "<d>".toList

def colored : Console Nat Str := { plain with colors := ⟨"\x1b[94m".toList, "\x1b[1m".toList, "\x1b[32m".toList,
  "\x1b[32m".toList, "\x1b[33m".toList, "\x1b[0m".toList⟩ }

def text : Str :=
  Dialects.unlines ["from lib import dialects, f".toList, "(0)".toList,
    "from mcpyrate.debug import dialects, StepExpansion".toList, "(1)".toList,
    "from lib import dialects, f, g".toList, "(2)".toList]

def start : Shown (List String) := { st := ⟨[], [], 0⟩ }

/-- The AST transformers and postprocessors of the same dialects: `f` appends a statement in the postprocessor. -/
def astClasses : Dialects.Classes (List String) Nat Nat Val where
  isDialect _ := true
  new o _ _ s := (some o, s)
  method _ := some fun _ s => (.notImplemented, s)
  post d := some fun t s => if d = 1 then (.value (mk .Module [(.body, .list [mk .Pass []])]), "post" :: s)
    else (.notImplemented, s)
  truthy _ := true

def tree : Console Nat Val := { plain with display := fun t => match t.get? .body with
  | some (.list xs) => Unparse.decimal xs.length
  | _ => [] }

end DialectSteps.Case
open DialectSteps.Case

example : ∀ t, classes.truthy t = true ↔ t ≠ [] := by simp [classes]
example : ∀ k l fs, astClasses.truthy (.node k l fs) = true := fun _ _ _ => rfl

/-- The first step is not shown, the others are. -/
example : (transformSource plain classes interp parse 5 text start).map (fun r => String.ofList r.2.out) = some
    ("**StepExpansion: m.py enabled DialectExpander debug mode while taking step 2.\n" ++
     "**StepExpansion: m.py after mcpyrate.debug.StepExpansion.transform_source (step 2):\n\n" ++
     String.ofList text ++ "\n# f\n" ++
     "**StepExpansion: m.py after lib.f.transform_source (step 3):\n\n" ++
     String.ofList text ++ "\n# f\n# f\n" ++
     "**StepExpansion: m.py completed all dialect source transforms (3 steps total).\n") := by
  decide +kernel

/-- The result is that of the dialects `f` and `f`. -/
example : (transformSource colored classes interp parse 5 text start).map (fun r => (r.1.map String.ofList, r.2.st.world)) =
    some (.ok (String.ofList text ++ "\n# f\n# f"), ["lib", "mcpyrate.debug", "lib"]) := by
  decide +kernel

/-- The debug mode turned on by the AST transformer, and the postprocessors. -/
example : ((transformAst tree astClasses interp 5 (mk .Module [(.body, .list [
      Dialects.Ex.dialectImport "mcpyrate.debug" ["StepExpansion"], Dialects.Ex.dialectImport "lib" ["g", "f"]])]) start).map
    fun r => match r with
      | (.ok (t, ds), s) => (ds, String.ofList (postprocess tree astClasses ds t s).2.out)
      | (.error _, _) => ([], "")) = some
    ([none, some 2, some 1],
     "**StepExpansion: m.py enabled DialectExpander debug mode while taking step 1.\n" ++
     "**StepExpansion: m.py after mcpyrate.debug.StepExpansion.transform_ast (step 1):\n\n2\n" ++
     "**StepExpansion: m.py completed all dialect AST transforms (1 step total).\n" ++
     "**StepExpansion: m.py before dialect AST postprocessors (1 step total):\n\n2\n" ++
     "**StepExpansion: m.py after <d>.postprocess_ast (step 2):\n\n1\n" ++
     "**StepExpansion: m.py completed all dialect AST postprocessors (2 steps total).\n") := by
  decide +kernel

end Mcpyrate
