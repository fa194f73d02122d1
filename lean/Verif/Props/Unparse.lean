import Verif.Lemmas.UnparseText
import Verif.Spec.UnparseExample
/-
C47: for every AST that Python can parse, `unparse` returns source text that parses back to the same AST; in particular two
different ASTs never unparse to the same text.

As stated, this is false of the code: see the theorems whose names end with `violated`.

Proved here: the statement for expressions, as far as `Spec/ExprTree.lean` describes them.  That is all of them but for
f-strings, `{**d}` and `a[()]`.  "Parses" refers to the reference lexer and parser of `Spec/PyLexer.lean`,
`Spec/PyGrammar.lean` and `Spec/PyParser.lean`.  The recursion limit has to be large enough.  For statements, see
`Props/UnparseStmts.lean` and `Props/UnparseMatch.lean`.
-/
namespace Mcpyrate
open Py PyText
open Unparse (Host unparse)

/-- If the recursion limit is large enough, this is the text that `unparse` returns. -/
def Unparse.Writes (H : Host) (t : Val) (text : Str) : Prop := ∃ N, ∀ limit, N ≤ limit → unparse H limit t = .ok text

/-- The text for an expression is read as that expression. -/
theorem C47_expr_partial {P : Reading} (hP : P.Lawful) (H : Host) {t : Val} (h : Expr P t) :
    ∃ text, Unparse.Writes H t text ∧ IsExpr P text t := by
  obtain ⟨s, ts, hg⟩ := h.good (H := H) hP
  exact ⟨s, hg.unparses hP, hg.isExpr⟩

/-- Different expressions have different texts. -/
theorem C47_exprInjective_partial {P : Reading} (hP : P.Lawful) (H : Host) {t u : Val} (ht : Expr P t) (hu : Expr P u) {text : Str}
    (wt : Unparse.Writes H t text) (wu : Unparse.Writes H u text) : t = u := by
  have key : ∀ {v : Val}, Expr P v → Unparse.Writes H v text → IsExpr P text v := by
    intro v hv ⟨N, hN⟩
    obtain ⟨s, ⟨M, hM⟩, hs⟩ := C47_expr_partial hP H hv
    have e := (hN (N + M) (by omega)).symm.trans (hM (N + M) (by omega))
    cases e
    exact hs
  obtain ⟨ts, n, h1, h2⟩ := key ht wt
  obtain ⟨us, m, h3, h4⟩ := key hu wu
  rw [h1] at h3
  cases h3
  have := parse_unique h2 h4
  exact congrArg Prod.fst this

/-- The expression of the example is covered. -/
theorem exprExample_expr : Expr asciiReading exprExample := by
  have hf : Expr asciiReading (name "f") := .name (isName_of "f" rfl rfl rfl rfl)
  have ha : Expr asciiReading (name "a") := .name (isName_of "a" rfl rfl rfl rfl)
  have hb : Expr asciiReading (name "b") := .name (isName_of "b" rfl rfl rfl rfl)
  have hx : Expr asciiReading (name "x") := .name (isName_of "x" rfl rfl rfl rfl)
  have hq : Expr asciiReading (constantU false "q") := .str false "q"
  have hfl : Expr asciiReading (constant (.float "1.5e+300")) :=
    .float (s := "1.5e+300".toList) ⟨['1'], ['.', '5'], ['e', '+', '3', '0', '0'], rfl, ⟨by simp, by simp [isDigit]⟩,
      .inr ⟨['5'], rfl, by simp [isDigit]⟩, .inr ⟨['+'], ['3', '0', '0'], rfl, by simp, by simp, by simp [isDigit]⟩⟩
  refine .ifExp (.binOp (by decide) (.subscriptSlice (.call hf ?_ (by simp)) (.some hb) .none .none)
    (.lambda ?_ ?_ .none .none ?_ rfl hx)) ha (.comprehension (by decide) hb (by simp) ?_)
  · simp only [List.mem_cons, List.not_mem_nil, or_false]
    rintro a (rfl | rfl)
    · exact .expr (.unaryOp (by decide) hfl)
    · exact .starred ha
  · simp only [List.append_nil, List.cons_append, List.nil_append, List.mem_cons, List.not_mem_nil, or_false]
    rintro p (rfl | rfl)
    · exact isName_of "x" rfl rfl rfl rfl
    · exact isName_of "y" rfl rfl rfl rfl
  · simp
  · simp only [List.append_nil, List.cons_append, List.nil_append, List.mem_cons, List.not_mem_nil, or_false]
    rintro p (rfl | rfl)
    · exact .none
    · exact .some hq
  · simp only [List.mem_cons, List.not_mem_nil, or_false]
    rintro g rfl
    refine .clause (.inl rfl) (w := tuple [name "a", name "b"]) (.expr (.tuple ?_)) rfl hf (by simp)
    simp only [List.mem_cons, List.not_mem_nil, or_false]
    rintro a (rfl | rfl)
    · exact .expr ha
    · exact .expr hb

example : unparse ⟨fun _ => true⟩ 10 exprExample =
    .ok "((f((-1.5e+300), *a)[b:] ** (lambda x, /, y='q': x)) if a else [b for (a, b) in f])".toList := by decide +kernel

/-! ### Where the statement fails -/

/-- `{**d}` is an expression, and `unparse` raises an error for it. -/
theorem C47_dictUnpacking_violated (P : Reading) (H : Host) :
    ∃ t, IsExpr P "{**d}".toList t ∧ ∀ limit, ∃ e, unparse H limit t = .error e := by
  refine ⟨mk .Dict [(.keys, .list [.none]), (.values, .list [name "d"])], ⟨_, 60, rfl, rfl⟩, fun n => ?_⟩
  rcases n with _ | _ | n <;> exact ⟨_, rfl⟩

/-- `a[()]` is an expression, and the text for it is `a[]`, which is not an expression. -/
theorem C47_emptySubscript_violated (P : Reading) (H : Host) :
    ∃ t, IsExpr P "a[()]".toList t ∧ Unparse.Writes H t "a[]".toList ∧ ∀ u, ¬ IsExpr P "a[]".toList u := by
  refine ⟨subscript (name "a") (tuple []), ⟨_, 60, rfl, rfl⟩, ⟨3, fun n hn => ?_⟩, fun u ⟨ts, n, h1, h2⟩ => ?_⟩
  · obtain ⟨m, rfl⟩ : ∃ m, n = m + 3 := ⟨n - 3, by omega⟩
    rfl
  · cases (show tokens P "a[]".toList = some [.name "a", .sym .lbrack, .sym .rbrack, .newline] from rfl).symm.trans h1
    have := full_iff.2 ⟨n, h2⟩
    rw [full_emptySubscript] at this
    exact nomatch this

/-- `f'{{x}}'`, a text without any holes, and `f'{x}'`. -/
def fstrings : Val × Val :=
  (mk .JoinedStr [(.values, .list [constant (.str "{x}")])],
   mk .JoinedStr [(.values, .list [mk .FormattedValue [(.value, name "x"), (.conversion, .int (-1)), (.format_spec, .none)]])])

/-- Two different f-strings have the same text. -/
theorem C47_fstring_violated (H : Host) :
    fstrings.1 ≠ fstrings.2 ∧ Unparse.Writes H fstrings.1 "f'{x}'".toList ∧ Unparse.Writes H fstrings.2 "f'{x}'".toList := by
  refine ⟨by simp [fstrings, mk, constant, name], ⟨4, fun n hn => ?_⟩, ⟨4, fun n hn => ?_⟩⟩
  · obtain ⟨m, rfl⟩ : ∃ m, n = m + 4 := ⟨n - 4, by omega⟩
    have key : Unparse.joined (Unparse.dispatch H (m + 3)) {} (m + 3) fstrings.1 = .ok "{x}".toList := by
      rw [Unparse.joined]
      show Unparse.concat _ [constant (.str "{x}")] = _
      simp only [Unparse.concat, Unparse.texts, constant, mk]
      rw [Unparse.joined.piece]
      rfl
    show (do let s ← (do return Unparse.lit "f'" ++ (← Unparse.joined (Unparse.dispatch H (m + 3)) {} (m + 3) fstrings.1) ++ Unparse.lit "'"); return Dialects.strip (s ++ Unparse.lit "\n")) = Except.ok _
    rw [key]
    rfl
  · obtain ⟨m, rfl⟩ : ∃ m, n = m + 4 := ⟨n - 4, by omega⟩
    have key : Unparse.joined (Unparse.dispatch H (m + 3)) {} (m + 3) fstrings.2 = .ok "{x}".toList := by
      rw [Unparse.joined]
      show Unparse.concat _ [mk .FormattedValue [(.value, name "x"), (.conversion, .int (-1)), (.format_spec, .none)]] = _
      simp only [Unparse.concat, Unparse.texts, mk]
      rw [Unparse.joined.piece, Unparse.joined.formatted]
      rfl
    show (do let s ← (do return Unparse.lit "f'" ++ (← Unparse.joined (Unparse.dispatch H (m + 3)) {} (m + 3) fstrings.2) ++ Unparse.lit "'"); return Dialects.strip (s ++ Unparse.lit "\n")) = Except.ok _
    rw [key]
    rfl

/-- For what `ast.parse("x", mode="eval")` returns, `unparse` raises a TypeError. -/
theorem C47_expression_violated (H : Host) {limit : Nat} (h : 0 < limit) :
    unparse H limit (mk .Expression [(.body, name "x")]) = .error .typeError := by
  obtain ⟨m, rfl⟩ : ∃ m, limit = m + 1 := ⟨limit - 1, by omega⟩
  rfl

/-- `class C: pass`, with these type parameters. -/
def genericClass (ps : List Val) : Val :=
  mk .ClassDef [(.name, .str "C"), (.bases, .list []), (.keywords, .list []), (.body, .list [mk .Pass []]), (.decorator_list, .list []),
    (.type_params, .list ps)]

/-- The type parameters of a class are lost: the text is the same as without them. -/
theorem C47_typeParams_violated (H : Host) :
    Unparse.Writes H (genericClass [mk .TypeVar [(.name, .str "T"), (.bound, .none)]]) "class C:\n    pass".toList ∧
      Unparse.Writes H (genericClass []) "class C:\n    pass".toList := by
  refine ⟨⟨4, fun n hn => ?_⟩, ⟨4, fun n hn => ?_⟩⟩ <;>
  · obtain ⟨m, rfl⟩ : ∃ m, n = m + 4 := ⟨n - 4, by omega⟩
    rfl

end Mcpyrate
