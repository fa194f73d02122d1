import Verif.Lemmas.CollectorTotal
import Verif.Lemmas.ExpanderQuiet
import Verif.Props.Fixpoint
/-
C24. MacroCollector agrees with MacroExpander.

Full statement: MacroCollector reports at least one invocation exactly when the expander would apply a macro somewhere in the
tree, reports each (name, type) pair once, and never raises on code the expander accepts.

Proved: for trees with nodes where Python's grammar has them, the collector reports each pair at most once and only
invocations that are there (`C24_reports`, also if it raises); if it returns, it has reported every invocation in the tree
that is not part of an expression that names a macro (`C24_complete`), and it has reported something if and only if the
expander applies a macro, when that returns too (`C24_agrees`).  It always finishes, with one possible outcome
(`C24_finishes`).

The last part is false: the collector raises SyntaxError for `f()[0]`, even if `f` is not a macro (`C24_call_violated`), and
AttributeError for a definition that has a macro as a decorator and a type comment (`C24_comment_violated`).  Besides these
two cases it does not raise on well-formed trees without bad macro calls (`C24_no_error_partial`).
-/
namespace Mcpyrate
open Py Expander Collector

variable {υ : Type}

/-- C24: each pair is reported once, and only if there is such an invocation in the tree, outside of `Done`-marked
parts. -/
theorem C24_reports (E : Env υ) (w : World υ) (t : Val) (r : Except Exc Unit) (l : List Key) (ht : t.isTree = true)
    (hs : Shaped t) (h : Collects E w t r l) : l.Nodup ∧ ∀ k ∈ l, ∃ u, Open t u ∧ InvokesAs E w u k := by
  obtain ⟨h1, h2, -⟩ := h.out hs (Simple.of_isTree ht)
  exact ⟨h1, h2⟩

/-- C24: every invocation that is not inside an expression that names a macro is reported. -/
theorem C24_complete (E : Env υ) (w : World υ) (t u : Val) (k : Key) (l : List Key) (ht : t.isTree = true)
    (hs : Shaped t) (h : Collects E w t (.ok ()) l) (hu : Exposed E w t u) (hk : InvokesAs E w u k) : k ∈ l :=
  (h.out hs (Simple.of_isTree ht)).2.2 rfl k ⟨u, hu, hk⟩

/-- C24: nothing is reported if and only if there are no invocations in the tree, outside of `Done`-marked parts. -/
theorem C24_nothing (E : Env υ) (w : World υ) (t : Val) (l : List Key) (ht : t.isTree = true) (hs : Shaped t)
    (h : Collects E w t (.ok ()) l) : l = [] ↔ NoInvocations E w t := by
  obtain ⟨-, h2, h3⟩ := h.out hs (Simple.of_isTree ht)
  constructor
  · rintro rfl u hu hi
    obtain ⟨k, hk⟩ := must_of_open hu hi
    cases h3 rfl k hk
  · intro hn
    cases l with
    | nil => rfl
    | cons k l =>
      obtain ⟨u, hu, hi⟩ := h2 k (by simp)
      exact absurd hi.invocation (hn u hu)

/-- C24: when both return, the collector has reported something if and only if the expander has applied a macro. -/
theorem C24_agrees (E : Env υ) (mode : Mode) (t v : Val) (l : List Key) (s s' : Expander.St υ) (ht : t.isTree = true)
    (hne : t ≠ .list []) (hw : WellFormed t) (hs : Shaped t) (hc : Collects E s.world t (.ok ()) l)
    (h : Runs E mode t s (.ok v) s') : l ≠ [] ↔ fresh s s' ≠ [] := by
  refine not_congr ((C24_nothing E s.world t l ht hs hc).trans ?_)
  constructor
  · intro hn
    rw [(C18_nothing_left E mode t v s s' ht hne hn h).2]
    simp [fresh]
  · intro hf
    exact h.quiet ht hw hs hf

/-- C24: the collector always finishes, and there is only one possible outcome. -/
theorem C24_finishes (E : Env υ) (w : World υ) (t : Val) : ∃ r l, Collects E w t r l ∧
    ∀ r' l', Collects E w t r' l' → r' = r ∧ l' = l := by
  obtain ⟨r, l, h, -⟩ := collects_total (E := E) (w := w) t
  exact ⟨r, l, h, fun _ _ h' => h'.unique h⟩

/-- C24: no exception, for well-formed trees in which no call without arguments or with `*`-unpacking is subscripted or
invokes a macro, and no definition has a type comment. -/
theorem C24_no_error_partial (E : Env υ) (w : World υ) (t : Val) (r : Except Exc Unit) (l : List Key) (ht : t.isTree = true)
    (hw : WellFormed t) (hs : Shaped t) (hb : NoBadCalls E w t) (hn : NoTypeComments t) (h : Collects E w t r l) :
    r = .ok () := by
  refine h.ok ⟨?_, hs, hw, hb, hn⟩
  cases t with
  | node => rfl
  | list xs => exact ht
  | const => cases ht

namespace Collector
open Expander.Ex

/-- `def f(): …` with decorators and a type comment -/
def commented (decorators body : List Val) (comment : String) : Val :=
  mk .FunctionDef [(.name, .str "f"), (.args, mk .arguments []), (.body, .list body),
    (.decorator_list, .list decorators), (.returns, .none), (.type_comment, .str comment)]

end Collector

open Expander.Ex Collector in
/-- C24 fails: `f()[x]`, where `f` is not a macro. -/
theorem C24_call_violated :
    Runs env .recursively (sub (call (name "f") []) (name "x")) start (.ok (sub (call (name "f") []) (name "x"))) start ∧
      Collects env start.world (sub (call (name "f") []) (name "x")) (.error (.py .syntaxError)) [] :=
  ⟨⟨10, by decide +kernel⟩, 10, by decide +kernel⟩

open Expander.Ex Collector in
/-- C24 fails: `@m`, `def f(): pass  # type: () -> None`. -/
theorem C24_comment_violated :
    (∃ v s', Runs env .recursively (commented [name "m"] [pass] "() -> None") start (.ok v) s') ∧
      Collects env start.world (commented [name "m"] [pass] "() -> None") (.error (.py .attributeError))
        [("m", .decorator)] :=
  ⟨⟨_, _, 10, rfl⟩, 10, by decide +kernel⟩

/-! ### Concrete cases -/

section
open Expander.Ex

/-- `with p(r[x]): m[n]` -/
def collectTree : Val := withStmt [call (name "p") [sub (name "r") (name "x")]] [mk .Expr [(.value, sub (name "m") (name "n"))]]

example : Collects env world collectTree (.ok ()) [("p", .block), ("r", .expr), ("m", .expr), ("n", .name)] :=
  ⟨20, by decide +kernel⟩
example : collectTree.isTree = true ∧ WellFormed collectTree ∧ Shaped collectTree ∧ NoBadCalls env world collectTree ∧
    NoTypeComments collectTree :=
  ⟨rfl, wellFormed_of (by decide +kernel), shaped_of (by decide +kernel), noBadCalls_of (by decide +kernel),
    noTypeComments_of (by decide +kernel)⟩
example : Invocation env world collectTree := .block rfl rfl (by simp [List.map]; rfl) rfl
  ⟨"p", [sub (name "r") (name "x")], 4, .parens rfl rfl rfl rfl rfl (.inl rfl) rfl, by decide, rfl, .inr rfl⟩
-- the argument of the macro is exposed
example : Exposed env world collectTree (sub (name "r") (name "x")) := by
  have hb : Head collectTree (call (name "p") [sub (name "r") (name "x")]) :=
    .block rfl rfl (by simp [List.map]; rfl) rfl
  have hc : Candidate (call (name "p") [sub (name "r") (name "x")]) "p" [sub (name "r") (name "x")] :=
    .parens rfl rfl rfl rfl rfl (.inl rfl) rfl
  have ha : Accepts env world "p" [sub (name "r") (name "x")] 4 := ⟨by decide, rfl, .inr rfl⟩
  exact .part (.block rfl rfl (by simp [List.map]; rfl) rfl ⟨_, _, _, hc, ha⟩) (.arg hb hc ha (by simp)) (.refl _ rfl)
-- the name `m` in `m[x]` is not reported as an identifier macro, nor is `n` in `n[x]`
example : Collects env world (sub (name "n") (name "x")) (.ok ()) [("n", .expr)] := ⟨9, by decide +kernel⟩
-- no invocations
example : Collects env world (sub (name "x") (done (name "n"))) (.ok ()) [] := ⟨9, by decide +kernel⟩
-- an expander run to compare with
example : ∃ v s', Runs env .recursively collectTree start (.ok v) s' ∧ fresh start s' ≠ [] :=
  ⟨_, _, ⟨20, rfl⟩, by decide +kernel⟩

end
end Mcpyrate
