import Verif.Props.UnparseStmts
/-
C47, continued: `match` and `type` statements.

The theorems of `Props/UnparseStmts.lean` include them, with the patterns that `Spec/PatternTree.lean` describes; here is an
example.  The patterns that are left out there are those for which the statement fails: below, for each kind of them, there
is one that the unparser does not write in a way that is read back as the same pattern.
-/
namespace Mcpyrate
open Py PyText
open Unparse (Host unparse)

/-- The statements of the example are covered. -/
theorem matchExample_stmts : ∀ s ∈ matchExample, Stmt asciiReading s := by
  have na : PyText.IsName asciiReading "a" := isName_of "a" rfl rfl rfl rfl
  have nb : PyText.IsName asciiReading "b" := isName_of "b" rfl rfl rfl rfl
  have nx : PyText.IsName asciiReading "x" := isName_of "x" rfl rfl rfl rfl
  have ny : PyText.IsName asciiReading "y" := isName_of "y" rfl rfl rfl rfl
  have cx : IsCapture asciiReading "x" := ⟨nx, by decide⟩
  have cy : IsCapture asciiReading "y" := ⟨ny, by decide⟩
  have ha : Expr asciiReading (name "a") := .name na
  have hx : Expr asciiReading (name "x") := .name nx
  have int : ∀ n, ClosedPattern asciiReading (intPattern n) := fun n => .value (.number (.real (.int n)))
  have pass : ∀ s ∈ [mk .Pass []], Stmt asciiReading s := fun s m => by cases List.mem_singleton.1 m; exact .pass
  have two : ∀ {p : Val → Prop} {v w : Val}, p v → p w → ∀ s ∈ [v, w], p s := fun h h' s m => by
    simp only [List.mem_cons, List.not_mem_nil, or_false] at m
    rcases m with rfl | rfl
    · exact h
    · exact h'
  have nb' : ∀ y ∈ ["b"], PyText.IsName asciiReading y := fun y m => by cases List.mem_singleton.1 m; exact nb
  unfold matchExample
  dsimp only
  intro s m
  simp only [List.mem_cons, List.not_mem_nil, or_false] at m
  rcases m with rfl | rfl
  · refine .typeAlias na (fun p m => ?_) hx
    simp only [List.mem_cons, List.not_mem_nil, or_false] at m
    rcases m with rfl | rfl | rfl
    · exact .inl ⟨_, _, nx, .some ha, rfl⟩
    · exact .inr ⟨_, _, .inl rfl, ny, rfl⟩
    · exact .inr ⟨_, _, .inr rfl, nb, rfl⟩
  · refine .match ha (by simp) fun c m => ?_
    simp only [List.mem_cons, List.not_mem_nil, or_false] at m
    rcases m with rfl | rfl | rfl | rfl | rfl
    · exact .case (.or (by decide) (two (int 1) .none)) (.some hx) (by simp) pass
    · exact .case (.orAs (by decide) (two (.value (.neg (.real (.int 1)))) (.value (.dotted na (xs := ["b"]) (by simp) nb'))) cy) .none (by simp)
        fun s m => by cases List.mem_singleton.1 m; exact .expr hx
    · refine .case (.closed (.sequence fun p m => ?_)) .none (by simp) pass
      simp only [List.mem_cons, List.not_mem_nil, or_false] at m
      rcases m with rfl | rfl | rfl
      · exact .pattern (.closed (.capture cx))
      · exact .starAny
      · exact .pattern (.or (by decide) (two (int 1) (int 2)))
    · refine .case (.closed (.mapping (kps := [(constantU false "q", matchAs .none (.str "x")), (constant (.bool true), matchAs .none .none)])
        (fun kp m => ?_) (fun kp m => ?_) (.inr ⟨_, cy, rfl⟩))) .none (by simp) pass
      · simp only [List.mem_cons, List.not_mem_nil, or_false] at m
        rcases m with rfl | rfl
        · exact .str false "q"
        · exact .bool true
      · simp only [List.mem_cons, List.not_mem_nil, or_false] at m
        rcases m with rfl | rfl
        · exact .closed (.capture cx)
        · exact .closed .wildcard
    · refine .case (.closed (.class (xs := ["b"]) (kws := [("x", matchAs (intPattern 2) (.str "y"))]) na nb' (fun p m => ?_) (fun kw m => ?_)
        fun kw m => ?_)) (.some ha) (by simp) fun s m => ?_
      · cases List.mem_singleton.1 m; exact .closed (int 1)
      · cases List.mem_singleton.1 m; exact nx
      · cases List.mem_singleton.1 m; exact .as (int 2) cy
      · cases List.mem_singleton.1 m
        exact .match hx (by simp) fun c m => by cases List.mem_singleton.1 m; exact .case (.closed .wildcard) .none (by simp) pass

example : unparse ⟨fun _ => true⟩ 20 (moduleOf matchExample) = .ok (
"type a[x: a, *y, **b] = x
match a:
    case (1 | None) if x:
        pass
    case ((-1) | a.b) as y:
        x
    case [x, *_, 1 | 2]:
        pass
    case {'q': x, True: _, **y}:
        pass
    case a.b(1, x=2 as y) if a:
        match x:
            case _:
                pass".toList) := by decide +kernel

/-! ### Where the statement fails -/

/-- `match a:` with a single case, whose body is `pass`. -/
def matchOne (p : Val) : Val := matchTree (name "a") [caseOf p .none [mk .Pass []]]

/-- The text with this pattern. -/
def matchText (p : String) : Str := ("match a:\n    case " ++ p ++ ":\n        pass").toList

/-- A text that is not a module, whatever the number of steps. -/
theorem notModule {P : Reading} {text : Str} {toks : List Tok} (h : tokens P text = some toks) (hp : ∀ n, parse (n + 60) .file toks = none)
    (b : List Val) : ¬ IsModule P text b := by
  rintro ⟨ts, n, h1, h2⟩
  rw [h] at h1
  cases h1
  have := parse_le (Nat.le_add_right n 60) h2
  rw [hp] at this
  exact nomatch this

/-- `(1 | 2) | 3` is written as `1 | 2 | 3`, which is another pattern. -/
theorem C47_nestedOr_violated (P : Reading) (H : Host) :
    ∃ t u, IsModule P (matchText "(1 | 2) | 3") [t] ∧ Unparse.Writes H t (matchText "1 | 2 | 3") ∧
      IsModule P (matchText "1 | 2 | 3") [u] ∧ t ≠ u := by
  refine ⟨matchOne (matchOr [matchOr [intPattern 1, intPattern 2], intPattern 3]), matchOne (matchOr [intPattern 1, intPattern 2, intPattern 3]),
    ⟨_, 60, rfl, rfl⟩, ⟨8, fun n hn => ?_⟩, ⟨_, 60, rfl, rfl⟩, ?_⟩
  · obtain ⟨m, rfl⟩ : ∃ m, n = m + 8 := ⟨n - 8, by omega⟩
    rfl
  · simp [matchOne, matchTree, caseOf, matchOr, mk]

/-- `(1 as x) | (2 as x)` and `(1 as x) as y` are written without the parentheses, which is not a pattern. -/
theorem C47_nestedAs_violated (P : Reading) (H : Host) :
    (∃ t, IsModule P (matchText "(1 as x) | (2 as x)") [t] ∧ Unparse.Writes H t (matchText "1 as x | 2 as x")) ∧
    (∀ b, ¬ IsModule P (matchText "1 as x | 2 as x") b) ∧
    (∃ t, IsModule P (matchText "(1 as x) as y") [t] ∧ Unparse.Writes H t (matchText "1 as x as y")) ∧
    ∀ b, ¬ IsModule P (matchText "1 as x as y") b := by
  refine ⟨⟨matchOne (matchOr [matchAs (intPattern 1) (.str "x"), matchAs (intPattern 2) (.str "x")]), ⟨_, 60, rfl, rfl⟩, ⟨8, fun n hn => ?_⟩⟩,
    notModule rfl fun _ => rfl,
    ⟨matchOne (matchAs (matchAs (intPattern 1) (.str "x")) (.str "y")), ⟨_, 60, rfl, rfl⟩, ⟨8, fun n hn => ?_⟩⟩, notModule rfl fun _ => rfl⟩ <;>
  · obtain ⟨m, rfl⟩ : ∃ m, n = m + 8 := ⟨n - 8, by omega⟩
    rfl

/-- `{-1: x}` is written as `{(-1): x}`, which is not a pattern. -/
theorem C47_mappingKey_violated (P : Reading) (H : Host) :
    ∃ t, IsModule P (matchText "{-1: x}") [t] ∧ Unparse.Writes H t (matchText "{(-1): x}") ∧ ∀ b, ¬ IsModule P (matchText "{(-1): x}") b := by
  refine ⟨matchOne (matchMapping [unaryOp .USub (constant (.int 1))] [matchAs .none (.str "x")] .none), ⟨_, 60, rfl, rfl⟩, ⟨8, fun n hn => ?_⟩,
    notModule rfl fun _ => rfl⟩
  obtain ⟨m, rfl⟩ : ∃ m, n = m + 8 := ⟨n - 8, by omega⟩
  rfl

/-- `-1 + 2j` is written as `((-1) + 2j)`, which is not a pattern. -/
theorem C47_complexPattern_violated (H : Host) :
    ∃ t, IsModule asciiReading (matchText "-1 + 2j") [t] ∧ Unparse.Writes H t (matchText "((-1) + 2j)") ∧
      ∀ b, ¬ IsModule asciiReading (matchText "((-1) + 2j)") b := by
  refine ⟨matchOne (matchValue (binOp (unaryOp .USub (constant (.int 1))) .Add (constant (.complex "2j")))), ⟨_, 60, rfl, rfl⟩, ⟨8, fun n hn => ?_⟩,
    notModule rfl fun _ => rfl⟩
  obtain ⟨m, rfl⟩ : ∃ m, n = m + 8 := ⟨n - 8, by omega⟩
  rfl

end Mcpyrate
