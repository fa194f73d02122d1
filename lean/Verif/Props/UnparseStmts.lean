import Verif.Lemmas.StmtTree
import Verif.Spec.StmtExample
import Verif.Props.Unparse
/-
C47, continued: statements and modules.

Proved here: the statement of C47 for modules, lists of statements and single statements, as far as `Spec/StmtTree.lean`
describes them.  That is all of them but for type parameters of functions and classes, type comments, and a `with` whose
only item is a tuple; and inside, only the expressions of `Spec/ExprTree.lean` and the patterns of `Spec/PatternTree.lean`
(see `Props/UnparseMatch.lean`).  "Parses" refers to the reference lexer and parser of `Spec/PyLexer.lean`,
`Spec/PyGrammar.lean`, `Spec/PyPatterns.lean`, `Spec/PyStatements.lean` and `Spec/PyParser.lean`.  The recursion limit has
to be large enough.
-/
namespace Mcpyrate
open Py PyText
open Unparse (Host unparse)

/-- The text for a module is read as that module. -/
theorem C47_module_partial {P : Reading} (hP : P.Lawful) (H : Host) {body : List Val} (h : ∀ s ∈ body, Stmt P s) :
    ∃ text, Unparse.Writes H (moduleOf body) text ∧ IsModule P text body := by
  obtain ⟨text, h1, N, h2⟩ := statements_text (H := H) hP h
  refine ⟨text, ⟨N + 1, fun n hn => ?_⟩, h1⟩
  obtain ⟨n, rfl⟩ : ∃ m, n = m + 1 := ⟨n - 1, by omega⟩
  obtain ⟨s, e1, e2⟩ := h2 n (by omega)
  show (do let s ← Unparse.concat (Unparse.dispatch H n {}) body; return Dialects.strip (s ++ Unparse.lit "\n")) = _
  rw [e1]
  exact congrArg _ e2

/-- The text for a list of statements is read as those statements. -/
theorem C47_statements_partial {P : Reading} (hP : P.Lawful) (H : Host) {body : List Val} (h : ∀ s ∈ body, Stmt P s) :
    ∃ text, Unparse.Writes H (.list body) text ∧ IsModule P text body := by
  obtain ⟨text, h1, N, h2⟩ := statements_text (H := H) hP h
  refine ⟨text, ⟨N, fun n hn => ?_⟩, h1⟩
  obtain ⟨s, e1, e2⟩ := h2 n hn
  show (do let s ← Unparse.concat (Unparse.dispatch H n {}) body; return Dialects.strip (s ++ Unparse.lit "\n")) = _
  rw [e1]
  exact congrArg _ e2

/-- The text for a statement is read as that statement. -/
theorem C47_statement_partial {P : Reading} (hP : P.Lawful) (H : Host) {t : Val} (h : Stmt P t) :
    ∃ text, Unparse.Writes H t text ∧ IsModule P text [t] := by
  obtain ⟨text, h1, h2⟩ := statement_text (H := H) hP h
  exact ⟨text, h2, h1⟩

/-- A text is that of one module at most. -/
theorem PyText.IsModule.unique {P : Reading} {text : Str} {b c : List Val} (h : IsModule P text b) (h' : IsModule P text c) : b = c := by
  obtain ⟨ts, n, h1, h2⟩ := h
  obtain ⟨us, m, h3, h4⟩ := h'
  rw [h1] at h3
  cases h3
  have := parse_unique h2 h4
  cases this
  rfl

/-- Different modules have different texts. -/
theorem C47_moduleInjective_partial {P : Reading} (hP : P.Lawful) (H : Host) {b c : List Val} (hb : ∀ s ∈ b, Stmt P s)
    (hc : ∀ s ∈ c, Stmt P s) {text : Str} (wb : Unparse.Writes H (moduleOf b) text) (wc : Unparse.Writes H (moduleOf c) text) : b = c := by
  have key : ∀ {b : List Val}, (∀ s ∈ b, Stmt P s) → Unparse.Writes H (moduleOf b) text → IsModule P text b := by
    intro v hv ⟨N, hN⟩
    obtain ⟨s, ⟨M, hM⟩, hs⟩ := C47_module_partial hP H hv
    have e := (hN (N + M) (by omega)).symm.trans (hM (N + M) (by omega))
    cases e
    exact hs
  exact (key hb wb).unique (key hc wc)

/-- The statements of the example are covered. -/
theorem stmtExample_stmts : ∀ s ∈ stmtExample, Stmt asciiReading s := by
  have nf : PyText.IsName asciiReading "f" := isName_of "f" rfl rfl rfl rfl
  have na : PyText.IsName asciiReading "a" := isName_of "a" rfl rfl rfl rfl
  have nb : PyText.IsName asciiReading "b" := isName_of "b" rfl rfl rfl rfl
  have nx : PyText.IsName asciiReading "x" := isName_of "x" rfl rfl rfl rfl
  have ny : PyText.IsName asciiReading "y" := isName_of "y" rfl rfl rfl rfl
  have nc : PyText.IsName asciiReading "C" := isName_of "C" rfl rfl rfl rfl
  have ha : Expr asciiReading (name "a") := .name na
  have hx : Expr asciiReading (name "x") := .name nx
  have hy : Expr asciiReading (name "y") := .name ny
  have tx : IsTarget asciiReading (name "x" .Store) := ⟨name "x", .expr hx, rfl⟩
  have ty : IsTarget asciiReading (name "y" .Store) := ⟨name "y", .expr hy, rfl⟩
  have one : ∀ {p : Val → Prop} {v : Val}, p v → ∀ s ∈ [v], p s := fun h s m => by cases List.mem_singleton.1 m; exact h
  have two : ∀ {p : Val → Prop} {v w : Val}, p v → p w → ∀ s ∈ [v, w], p s := fun h h' s m => by
    simp only [List.mem_cons, List.not_mem_nil, or_false] at m
    rcases m with rfl | rfl
    · exact h
    · exact h'
  have none' : ∀ {p : Val → Prop}, ∀ s ∈ ([] : List Val), p s := fun s m => nomatch m
  unfold stmtExample
  dsimp only
  intro s m
  simp only [List.mem_cons, List.not_mem_nil, or_false] at m
  rcases m with rfl | rfl | rfl
  · exact .importFrom (.inl ⟨rfl, by simp⟩) (.inr ⟨by simp, one ⟨_, _, na, .inr ⟨_, nb, rfl⟩, rfl⟩⟩)
  · refine .function (.inr rfl) nf ⟨_, _, _, _, _, _, ?_, .inr ⟨_, _, nb, .inl rfl, rfl⟩, .inl rfl, rfl, rfl⟩ (by simp) (one ?_) (one ha) (.some hx)
    · intro p m
      simp only [List.cons_append, List.nil_append, List.append_nil, List.mem_cons, List.not_mem_nil, or_false] at m
      rcases m with rfl | rfl
      · exact ⟨nx, .some ha, .none⟩
      · exact ⟨ny, .none, .some hx⟩
    · refine .try (by simp) (one ?_) (by simp) (two ?_ ?_) none' (one (.delete (by simp) (one ⟨_, hx, rfl⟩)))
      · exact .for (.inl rfl) ⟨tuple [name "x", name "y"], .expr (.tuple (two (.expr hx) (.expr hy))), rfl⟩ ha (by simp)
          (one (.augAssign (by decide) ⟨_, hx, rfl⟩ ha)) (one .pass)
      · refine .typed ha (.inr ⟨_, nx, rfl⟩) (by simp) (one (.if hx (by simp) (one .reraise) (one (.if ha (by simp) (one (.return (.some hx))) (one ?_)))))
        exact .with (.inl rfl) (by simp) (two ⟨_, _, ha, .inr tx, rfl⟩ ⟨_, _, hx, .inl rfl, rfl⟩) rfl (by simp) (one (.expr hx))
      · exact .bare (by simp) (one (.assert hx .none))
  · exact .class nc (two (.expr ha) (.starred hx)) (one (.named nb hx)) (by simp)
      (two (.annName nx ha .none) (.assign (by simp) (two tx ty) ha)) none'

example : unparse ⟨fun _ => true⟩ 20 (moduleOf stmtExample) = .ok (
"from . import a as b

@a
async def f(x: a, /, *b, y=x) -> x:
    try:
        for (x, y) in a:
            x += a
        else:
            pass
    except a as x:
        if x:
            raise
        elif a:
            return x
        else:
            with a as x, x:
                x
    except:
        assert x
    finally:
        del x

class C(a, *x, b=x):
    x: a
    x = y = a".toList) := by decide +kernel

/-! ### Where the statement fails -/

/-- `with ((a, b)): pass` has a tuple for its only item; the text for it is read as a `with` that has two items.  (Before
Python 3.9 it was read as a tuple, too.) -/
theorem C47_withTuple_violated (P : Reading) (H : Host) :
    ∃ t u, IsModule P "with ((a, b)):\n    pass".toList [t] ∧ Unparse.Writes H t "with (a, b):\n    pass".toList ∧
      IsModule P "with (a, b):\n    pass".toList [u] ∧ t ≠ u := by
  refine ⟨withOf .With [withItemOf (tuple [name "a", name "b"]) .none] [mk .Pass []],
    withOf .With [withItemOf (name "a") .none, withItemOf (name "b") .none] [mk .Pass []], ⟨_, 60, rfl, rfl⟩, ⟨6, fun n hn => ?_⟩, ⟨_, 60, rfl, rfl⟩, ?_⟩
  · obtain ⟨m, rfl⟩ : ∃ m, n = m + 6 := ⟨n - 6, by omega⟩
    rfl
  · simp [withOf, mk]

end Mcpyrate
