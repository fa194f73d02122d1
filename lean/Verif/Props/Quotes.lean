import Verif.Lemmas.QuoteItems
import Verif.Spec.QuotesExample
/-
C32.  Full statement: running the code produced by `astify` for a tree builds a tree equal to the original, for every AST
that Python can parse; in particular `q[...]` of code without unquotes yields the AST of that code.

This is false for trees with complex numbers (`C32_complex_violated`), and, for `q`, for trees with `{**d}`
(`C32_double_star_violated`).  The theorems say exactly when it is true.  Equality is up to
source locations, which quoting leaves out on purpose.

C34.  Full statement: when a quoted tree contains a list-valued AST unquote in a list position, the final tree has the
items of that list in its place, at any depth; a list unquote in a non-list position is an error; no splice marker
survives.

This is false for list unquotes below a field that is not a list (`C34_below_field_violated`): they are an error.
-/
namespace Mcpyrate
open Py Quotes
variable {σ : Type}

/-! ### C32 -/

/-- Quoting a parsed tree without complex numbers: `astify` returns code, and in every state, running that code builds the
tree (without source locations) and changes nothing. -/
theorem C32_quoted_partial (H : Host σ) (hH : Imported H) (E : Option (String → Option Obj)) (x : Obj)
    (hx : parsed x = true) (hc : hasComplex x = false) :
    ∃ code, astify H E x = pure code ∧ eval H code = pure (noLoc x) := by
  obtain ⟨code, h1, -, h2⟩ := compile hH E x (parsed_template E x hx hc)
  exact ⟨code, h1, by rw [h2, meaning_parsed H x hx]⟩

/-- `f(x).y`, with locations -/
example : parsed (Ex.attr (Ex.call (Ex.nameAt 1 0 "f") [Ex.nameAt 1 2 "x"]) "y") = true ∧
    hasComplex (Ex.attr (Ex.call (Ex.nameAt 1 0 "f") [Ex.nameAt 1 2 "x"]) "y") = false := by decide +kernel
example : Imported Ex.host := rfl

/-- The code for `x` is `mcpyrate.quotes.ast.Name(id='x', ctx=mcpyrate.quotes.ast.Load())`. -/
example : Ex.result (astify Ex.host none (Ex.nameAt 3 4 "x")) =
    some (.ok (.node (.py .Call) (Ex.at_ 3 4) [(.func, attributeNode (quotesAttr "ast") "Name"), (.args, .list []),
      (.keywords, .list [keywordNode .id (constantNode (.str "x")), keywordNode .ctx
        (.node (.py .Call) {} [(.func, attributeNode (quotesAttr "ast") "Load"), (.args, .list []),
          (.keywords, .list [])])])])) := by decide +kernel

/-- Otherwise, it raises a TypeError. -/
theorem C32_complex (H : Host σ) (E : Option (String → Option Obj)) (x : Obj) (hx : parsed x = true)
    (hc : hasComplex x = true) : astify H E x = M.throw .typeError :=
  astify_complex H E x hx hc

/-- The tree of `1j`. -/
def Quotes.oneJ : Obj := .node (.py .Constant) {} [(.value, .const (.complex "1j")), (.kind, .none)]

/-- `astify` does not return for all trees that Python can parse: `q[1j]` is a TypeError. -/
theorem C32_complex_violated : ∃ x, parsed x = true ∧ ∀ (σ : Type) (H : Host σ) (E : Option (String → Option Obj)),
    astify H E x = M.throw .typeError :=
  ⟨oneJ, by decide +kernel, fun _ H E => astify_complex H E _ (by decide +kernel) (by decide +kernel)⟩

/-- What `q[...]` gives for code without unquotes and complex numbers: the tree, when all lists in it that one gets to
through lists contain nodes only, otherwise a TypeError. -/
theorem C32_quote_partial (H : Host σ) (hH : Imported H) (E : Option (String → Option Obj)) (filename : Const) (x : Obj)
    (hx : parsed x = true) (hf : flat x = true) (hc : hasComplex x = false) :
    ∃ code, quote H E filename x = pure code ∧
      eval H code = if reached x = true then pure (noLoc x) else M.throw .typeError := by
  obtain ⟨code, h1, h2⟩ := compile_quote hH E filename x (parsed_template E x hx hc)
  refine ⟨code, h1, ?_⟩
  rw [h2, meaning_parsed H x hx, M.pure_bind',
    spliceAstLiterals_plain (by rw [flat_noLoc]; exact hf) (by rw [marked_noLoc]; exact parsed_unmarked x hx),
    reached_noLoc]
  split <;> rfl

/-- `f(x).y` again, and `f(x, g(y))` -/
example : flat (Ex.attr (Ex.call (Ex.nameAt 1 0 "f") [Ex.nameAt 1 2 "x"]) "y") = true ∧
    reached (Ex.attr (Ex.call (Ex.nameAt 1 0 "f") [Ex.nameAt 1 2 "x"]) "y") = true ∧
    reached (Ex.call (Ex.name "f") [Ex.name "x", Ex.call (Ex.name "g") [Ex.name "y"]]) = true := by decide +kernel

/-- The tree of `{**d}`. -/
def Quotes.doubleStar : Obj := .node (.py .Dict) {} [(.keys, .list [.none]), (.values, .list [Ex.name "d"])]

/-- `q[{**d}]` is not the tree of `{**d}`, but a TypeError when it is evaluated; likewise, within an argument or an element
of a list. -/
theorem C32_double_star_violated : ∃ x, parsed x = true ∧ flat x = true ∧ hasComplex x = false ∧
    ∀ (σ : Type) (H : Host σ), Imported H → ∀ (E : Option (String → Option Obj)) (filename : Const),
      ∃ code, quote H E filename x = pure code ∧ eval H code = M.throw .typeError := by
  refine ⟨doubleStar, by decide +kernel, by decide +kernel, by decide +kernel, fun σ H hH E filename => ?_⟩
  obtain ⟨code, h1, h2⟩ := C32_quote_partial H hH E filename doubleStar (by decide +kernel) (by decide +kernel)
    (by decide +kernel)
  refine ⟨code, h1, h2.trans ?_⟩
  rw [if_neg (by decide +kernel)]

/-- Quoted code with unquotes, and other values: running the code that `astify` returns gives what the template stands
for. -/
theorem C32_template (H : Host σ) (hH : Imported H) (E : Option (String → Option Obj)) (t : Obj)
    (ht : template E t = true) :
    ∃ code, astify H E t = pure code ∧ eval H code = meaning H t := by
  obtain ⟨code, h1, -, h2⟩ := compile hH E t ht
  exact ⟨code, h1, h2⟩

/-- `f(u[three], a[tree], n[text], s[lst], h[value])` as a template, and what it stands for: `f(3, t, kitty, [a, b], …)`. -/
def Quotes.exTemplate : Obj := Ex.call (Ex.nameAt 1 0 "f") [
  markerNode "Unquote" [(.body, Ex.name "three")],
  markerNode "ASTLiteral" [(.body, Ex.name "tree"), (.syntax_, .str "expr")],
  markerNode "LiftSourcecode" [(.body, Ex.name "text"), (.filename, .str "m.py")],
  markerNode "ASTList" [(.body, Ex.name "lst")],
  markerNode "Capture" [(.body, Ex.name "value"), (.name, .str "value")]]

example : template none exTemplate = true := by decide +kernel
example : Ex.result (meaning Ex.host exTemplate) = some (.ok (noLoc (Ex.call (Ex.name "f") [
    constantNode (.int 3), Ex.name "t", Ex.name "kitty", listNode [Ex.name "a", Ex.name "b"],
    callNode (quotesAttrImport "lookup_value") [tupleNode [constantNode (.str "value"), constantNode (.bytes [7])]] []])))
    := by decide +kernel
/-- a value for `u[…]`: `[1, ("a", None)]` -/
example : template none (.list [.const (.int 1), .tuple [.str "a", .none]]) = true := by decide +kernel

/-- The same for `q`: list unquotes are then put in their places (C34). -/
theorem C32_quote_template (H : Host σ) (hH : Imported H) (E : Option (String → Option Obj)) (filename : Const) (t : Obj)
    (ht : template E t = true) :
    ∃ code, quote H E filename t = pure code ∧
      eval H code = (do lift (spliceAstLiterals (← meaning H t))) :=
  compile_quote hH E filename t ht

/-- `f(a[lst], x)` -/
def Quotes.exList : Obj := Ex.call (Ex.nameAt 1 0 "f") [
  markerNode "ASTLiteral" [(.body, Ex.name "lst"), (.syntax_, .str "expr")], Ex.name "x"]

example : template none exList = true := by decide +kernel
/-- `f(a, b, x)` -/
example : Ex.result (do
      let code ← quote Ex.host none (.str "m.py") exList
      eval Ex.host code) =
    some (.ok (noLoc (Ex.call (Ex.name "f") [Ex.name "a", Ex.name "b", Ex.name "x"]))) := by decide +kernel

/-! ### C34 -/

/-- What `splice_ast_literals` returns is the tree with the items of each list unquote in its place, wherever it is in the
tree. -/
theorem C34_filled (x y : Obj) (hf : flat x = true) (e : spliceAstLiterals x = .ok y) : filled x = some y :=
  ((spliceAstLiterals_iff hf).1 e).2

/-- `f(<a, g(<b>)>, x)`, where `<…>` is a list unquote: `f(a, g(b), x)` -/
example : flat (Ex.call (Ex.name "f") [spliceNodes {} [Ex.name "a", Ex.call (Ex.name "g") [spliceNodes {} [Ex.name "b"]]],
    Ex.name "x"]) = true := by decide +kernel
example : spliceAstLiterals (Ex.call (Ex.name "f") [spliceNodes {} [Ex.name "a", Ex.call (Ex.name "g")
      [spliceNodes {} [Ex.name "b"]]], Ex.name "x"]) =
    .ok (Ex.call (Ex.name "f") [Ex.name "a", Ex.call (Ex.name "g") [Ex.name "b"], Ex.name "x"]) := by decide +kernel

/-- In particular, a list unquote that is not an item of a list is an error. -/
theorem C34_misplaced (x : Obj) (hf : flat x = true) (h : filled x = none) : ∃ e, spliceAstLiterals x = .error e := by
  cases e : spliceAstLiterals x with
  | error e1 => exact ⟨e1, rfl⟩
  | ok y => rw [C34_filled x y hf e] at h; cases h

/-- `<a, b>.y` -/
example : filled (Ex.attr (spliceNodes {} [Ex.name "a", Ex.name "b"]) "y") = none ∧
    spliceAstLiterals (Ex.attr (spliceNodes {} [Ex.name "a", Ex.name "b"]) "y") = .error .runtimeError := by decide +kernel

/-- No marker survives. -/
theorem C34_no_marker (x y : Obj) (hf : flat x = true) (e : spliceAstLiterals x = .ok y) : marked y = false :=
  spliceAstLiterals_unmarked hf e

/-- It succeeds exactly when every list unquote is an item of a list that one gets to through lists only, and these lists
contain nodes only. -/
theorem C34_succeeds_partial (x y : Obj) (hf : flat x = true) :
    spliceAstLiterals x = .ok y ↔ reached x = true ∧ filled x = some y :=
  spliceAstLiterals_iff hf

example : reached (Ex.call (Ex.name "f") [spliceNodes {} [Ex.name "a"], Ex.name "x"]) = true := by decide +kernel

/-- `g(<a, b>).y`: the list unquote is an argument, but below the `value` of an attribute. -/
def Quotes.belowField : Obj := Ex.attr (Ex.call (Ex.name "g") [spliceNodes {} [Ex.name "a", Ex.name "b"]]) "y"

/-- A list unquote in a list position at some depth is an error: `q[g(a[lst]).y]`, or `return f(a[lst])` in block mode. -/
theorem C34_below_field_violated : ∃ x y, flat x = true ∧ filled x = some y ∧ spliceAstLiterals x = .error .runtimeError :=
  ⟨belowField, Ex.attr (Ex.call (Ex.name "g") [Ex.name "a", Ex.name "b"]) "y", by decide +kernel⟩

/-- A list unquote next to `**d` in a dict display is an error, too: `f(a[lst], {**d})`. -/
theorem C34_double_star_violated : ∃ x y, flat x = true ∧ filled x = some y ∧ spliceAstLiterals x = .error .typeError :=
  ⟨Ex.call (Ex.name "f") [spliceNodes {} [Ex.name "a"], doubleStar], Ex.call (Ex.name "f") [Ex.name "a", doubleStar],
    by decide +kernel⟩

/-- The run-time part of `a[…]`, for a value that is not a node: it succeeds exactly when all the items, at any depth of
lists, are expression nodes (or markers with such a body), and then returns them for `splice_ast_literals`. -/
theorem C34_literal (H : Host σ) (x y : Obj) (hx : x.isAST = false) :
    astLiteral H x (.str "expr") = .ok y ↔
      ∃ items flat, toList H x = .ok items ∧ Flattened items flat ∧ (∀ z ∈ flat, OfKind K.isExpr z) ∧ y = spliceNodes {} flat := by
  unfold astLiteral
  rw [if_pos rfl, if_neg (by simp [hx])]
  constructor
  · intro e
    cases h : flattenAndTypecheck H K.isExpr x with
    | error _ => rw [h] at e; cases e
    | ok flat =>
      rw [h] at e; cases e
      obtain ⟨items, h1, h2, h3⟩ := flattenAndTypecheck_iff.1 h
      exact ⟨items, flat, h1, h2, h3, rfl⟩
  · rintro ⟨items, flat, h1, h2, h3, rfl⟩
    rw [flattenAndTypecheck_iff.2 ⟨items, h1, h2, h3⟩]
    rfl

/-- The run-time part of `with a:`: likewise for statements. -/
theorem C34_block_literal (H : Host σ) (x y : Obj) :
    astLiteral H x (.str "block") = .ok y ↔
      ∃ items flat, toList H x = .ok items ∧ Flattened items flat ∧ (∀ z ∈ flat, OfKind K.isStmt z) ∧ y = spliceNodes {} flat := by
  unfold astLiteral
  rw [if_neg (by decide), if_pos rfl]
  constructor
  · intro e
    cases h : flattenAndTypecheck H K.isStmt x with
    | error _ => rw [h] at e; cases e
    | ok flat =>
      rw [h] at e; cases e
      obtain ⟨items, h1, h2, h3⟩ := flattenAndTypecheck_iff.1 h
      exact ⟨items, flat, h1, h2, h3, rfl⟩
  · rintro ⟨items, flat, h1, h2, h3, rfl⟩
    rw [flattenAndTypecheck_iff.2 ⟨items, h1, h2, h3⟩]
    rfl

example : astLiteral Ex.host (.list [Ex.name "a", .list [Ex.name "b", .none]]) (.str "expr") =
    .ok (spliceNodes {} [Ex.name "a", Ex.name "b"]) := by decide +kernel

/-- A wrong node in a marker is an error. -/
example : astLiteral Ex.host (.list [Ex.name "a", markerNode "Done" [(.body, .list [Ex.name "b", noLoc (.node (.py .Pass) {} [])])]])
    (.str "expr") = .error .typeError := by decide +kernel
example : astLiteral Ex.host (.list [.list [.node (.py .Pass) {} []], .none]) (.str "block") =
    .ok (spliceNodes {} [.node (.py .Pass) {} []]) := by decide +kernel

/-- Items of the wrong kind are a TypeError, in `a[…]`, `with a:`, `s[…]` and `t[…]`. -/
theorem C34_wrong_items (H : Host σ) (x : Obj) (items flat : List Obj) (hi : toList H x = .ok items)
    (hf : Flattened items flat) (hm : ∀ z ∈ flat, ∀ m l fs, z ≠ .node (.marker m) l fs) :
    ((∃ z ∈ flat, ¬ OfKind K.isExpr z) → (x.isAST = false → astLiteral H x (.str "expr") = .error .typeError) ∧
      astList H x = .error .typeError ∧ astTuple H x = .error .typeError) ∧
    ((∃ z ∈ flat, ¬ OfKind K.isStmt z) → astLiteral H x (.str "block") = .error .typeError) := by
  refine ⟨fun hw => ⟨fun hx => ?_, ?_, ?_⟩, fun hw => ?_⟩
  · unfold astLiteral
    rw [if_pos rfl, if_neg (by simp [hx]), flattenAndTypecheck_wrong hi hf hm hw]
    rfl
  · unfold astList
    rw [flattenAndTypecheck_wrong hi hf hm hw]; rfl
  · unfold astTuple
    rw [flattenAndTypecheck_wrong hi hf hm hw]; rfl
  · unfold astLiteral
    rw [if_neg (by decide), if_pos rfl, flattenAndTypecheck_wrong hi hf hm hw]
    rfl

/-- `[a, 1]` -/
example : toList Ex.host (.list [Ex.name "a", .const (.int 1)]) = .ok [Ex.name "a", .const (.int 1)] ∧
    Flattened [Ex.name "a", .const (.int 1)] [Ex.name "a", .const (.int 1)] ∧ ¬ OfKind K.isExpr (.const (.int 1)) := by
  refine ⟨rfl, .item (fun h => nomatch h) (fun _ h => nomatch h) (.item (fun h => nomatch h) (fun _ h => nomatch h) .nil), ?_⟩
  intro h; cases h

/-- A single value of the wrong kind is a TypeError, too: in `a[…]` a syntax tree that is not an expression; a number or
`None` in any of them; and anything but a string in `n[…]`. -/
theorem C34_wrong_value (H : Host σ) :
    (∀ k l fs, K.isExpr k = false → astLiteral H (.node (.py k) l fs) (.str "expr") = .error .typeError) ∧
    (∀ c, (∀ s, c ≠ .str s) → (∀ b, c ≠ .bytes b) → astLiteral H (.const c) (.str "expr") = .error .typeError ∧
      astLiteral H (.const c) (.str "block") = .error .typeError ∧
      astList H (.const c) = .error .typeError ∧ astTuple H (.const c) = .error .typeError) ∧
    (∀ c l fs, astLiteral H (.node c l fs) (.str "block") = .error .typeError ∧
      astList H (.node c l fs) = .error .typeError ∧ astTuple H (.node c l fs) = .error .typeError) ∧
    (∀ x, (∀ s, x ≠ .str s) → liftSourcecode H x = .error .typeError) := by
  refine ⟨fun k l fs hk => ?_, fun c hs hb => ?_, fun c l fs => ⟨rfl, rfl, rfl⟩, fun x hx => ?_⟩
  · unfold astLiteral
    rw [if_pos rfl, if_pos (show (Obj.node (.py k) l fs).isAST = true from rfl), typecheck, if_neg (by simp [hk])]
    rfl
  · cases c <;> first | exact ⟨rfl, rfl, rfl, rfl⟩ | exact absurd rfl (hs _) | exact absurd rfl (hb _)
  · unfold liftSourcecode
    split
    · exact absurd rfl (hx _)
    · rfl

/-- `a[…]` of the statement `pass`, `n[…]` of a syntax tree. -/
example : astLiteral Ex.host (.node (.py .Pass) {} []) (.str "expr") = .error .typeError ∧
    liftSourcecode Ex.host (Ex.name "a") = .error .typeError := by decide +kernel

end Mcpyrate
