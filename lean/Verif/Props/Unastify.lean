import Verif.Lemmas.Unastify
import Verif.Spec.QuotesExample
/-
C33.  Full statement: `unastify(astify(tree)) == tree`, including source locations, and `unastify` rejects input that is
not a quote result.

Proved of the first part: it holds for templates (quoted code with unquotes as markers, and without complex numbers, for
which `astify` raises, see C32) whose nodes have the locations of the parser, and whose set and dict objects, if any, are what
Python makes of their items (`Rebuilt`); without the condition on locations, it holds up to their normalisation.  Macro captures
come back under another name (`C37_uncompile`, `C37_recapture`).

The second part is false: `unastify` accepts calls of node constructors that `astify` never makes
(`C33_positional_violated`).  Proved of it: nodes of classes that `astify` never uses and calls of functions outside
`mcpyrate` are rejected.
-/
namespace Mcpyrate
open Py Quotes
variable {σ : Type}

/-- Uncompiling what `astify` returns gives back the tree, with unquotes as markers and with all source locations. -/
theorem C33_inverse_partial (H : Host σ) (E : Option (String → Option Obj)) (t : Obj) (ht : template E t = true)
    (hs : Rebuilt H t) (hl : located t = true) :
    ∃ code, astify H E t = pure code ∧ unastify H code = pure t := by
  obtain ⟨code, h1, h2⟩ := uncompile H E t ht hs
  exact ⟨code, h1, by rw [h2, reloc_located t hl]⟩

/-- `f(x, u[three]).y` with locations -/
def Quotes.exLocated : Obj := Ex.attr (Ex.call (Ex.nameAt 1 0 "f") [Ex.nameAt 1 2 "x",
  markerNode "Unquote" [(.body, Ex.nameAt 1 5 "three")]]) "y"

example : template none exLocated = true ∧ Rebuilt Ex.host exLocated ∧ located exLocated = true :=
  ⟨by decide +kernel, by simp [exLocated, Ex.attr, Ex.call, Ex.nameAt, Rebuilt, RebuiltF, RebuiltL, markerNode], by decide +kernel⟩
example : Ex.result (do
    let code ← astify Ex.host none exLocated
    unastify Ex.host code) = some (.ok exLocated) := by decide +kernel

/-- A tuple of a set and a dict, with a tree in the dict. -/
def Quotes.exObjects : Obj := .tuple [.set [.const (.int 1), .str "a"], .dict [.const (.int 2)] [Ex.nameAt 1 0 "f"]]

example : template none exObjects = true ∧ Rebuilt Ex.host exObjects ∧ located exObjects = true :=
  ⟨by decide +kernel, ⟨⟨⟨trivial, trivial, trivial⟩, rfl⟩, ⟨⟨trivial, trivial⟩, ⟨⟨trivial, trivial, trivial⟩, trivial⟩, rfl, rfl⟩, trivial⟩,
    by decide +kernel⟩
example : Ex.result (do
    let code ← astify Ex.host none exObjects
    unastify Ex.host code) = some (.ok exObjects) := by decide +kernel

/-- In particular, for a parsed tree without complex numbers. -/
theorem C33_parsed_partial (H : Host σ) (E : Option (String → Option Obj)) (x : Obj) (hx : parsed x = true)
    (hc : hasComplex x = false) (hl : located x = true) :
    ∃ code, astify H E x = pure code ∧ unastify H code = pure x := by
  exact C33_inverse_partial H E x (parsed_template E x hx hc) (parsed_rebuilt H x hx) hl

example : parsed (Ex.attr (Ex.nameAt 1 0 "f") "y") = true ∧ located (Ex.attr (Ex.nameAt 1 0 "f") "y") = true := by
  decide +kernel

/-- When there are nodes without (complete) locations, what is missing reads as missing afterwards, too; everything else is
the same. -/
theorem C33_locations (H : Host σ) (E : Option (String → Option Obj)) (t : Obj) (ht : template E t = true)
    (hs : Rebuilt H t) :
    ∃ code, astify H E t = pure code ∧ unastify H code = pure (reloc t) :=
  uncompile H E t ht hs

example : template none (Ex.call (Ex.name "f") [Ex.nameAt 1 2 "x"]) = true := by decide +kernel

/-- The same for the code that `q[...]` generates. -/
theorem C33_quote_partial (H : Host σ) (E : Option (String → Option Obj)) (filename : Const) (t : Obj)
    (ht : template E t = true) (hs : Rebuilt H t) (hl : located t = true) :
    ∃ code, quote H E filename t = pure code ∧ unastify H code = pure t := by
  obtain ⟨code, h1, h2⟩ := C33_inverse_partial H E t ht hs hl
  refine ⟨callNode (quotesAttr "splice_ast_literals") [code, constantNode filename] [],
    by simp only [quote, h1]; rfl, ?_⟩
  rw [unastify_splice, h2]

example : Ex.result (do
    let code ← quote Ex.host none (.str "m.py") exLocated
    unastify Ex.host code) = some (.ok exLocated) := by decide +kernel

/-- The classes of the nodes that `unastify` processes. -/
def Quotes.uncompiled : List K := [.Constant, .keyword, .List, .Tuple, .Dict, .Set, .Call]

/-- What is not a node of such a class, or a list, is rejected with a TypeError. -/
theorem C33_rejects (H : Host σ) (x : Obj) (h1 : isList x = false) (h2 : ∀ k ∈ uncompiled, x.isK k = false) :
    unastify H x = M.throw .typeError := by
  cases x with
  | list _ => cases h1
  | node c l fs =>
    cases c with
    | marker n => rfl
    | py k =>
      cases k <;> first
        | rfl
        | exact Bool.noConfusion (h2 .Constant (by decide))
        | exact Bool.noConfusion (h2 .keyword (by decide))
        | exact Bool.noConfusion (h2 .List (by decide))
        | exact Bool.noConfusion (h2 .Tuple (by decide))
        | exact Bool.noConfusion (h2 .Dict (by decide))
        | exact Bool.noConfusion (h2 .Set (by decide))
        | exact Bool.noConfusion (h2 .Call (by decide))
  | _ => rfl

example : ∀ k ∈ uncompiled, (Ex.name "x").isK k = false := by decide +kernel

/-- A call of something that is not a dotted name is rejected, as is a dotted name outside of the package, with a
NotImplementedError. -/
theorem C33_rejects_calls (H : Host σ) (l : Loc) (f : Obj) (fs : List (F × Obj))
    (h : ∀ p, dotted f [] = some p → p.head? ≠ some "mcpyrate") :
    unastify H (.node (.py .Call) l ((.func, f) :: fs)) = M.throw .notImplementedError :=
  unastify_foreign H l f fs h

example : dotted (Ex.name "f") [] = some ["f"] := by decide +kernel

/-- `mcpyrate.quotes.ast.Name('x')` -/
def Quotes.positional : Obj := callNode (attributeNode (quotesAttr "ast") "Name") [constantNode (.str "x")] []

/-- `unastify` accepts something that no call of `astify` returns. -/
theorem C33_positional_violated : ∃ code x,
    (∀ (σ : Type) (H : Host σ), unastify H code = pure x) ∧
    ∀ (σ : Type) (H : Host σ) (E : Option (String → Option Obj)) (t : Obj) (s s' : St σ),
      astify H E t s ≠ some (.ok code, s') := by
  refine ⟨positional, .node (.py .Name) { endLineno := .none, endColOffset := .none } [(.id, .str "x")], ?_, ?_⟩
  · intro σ H
    have h := unastify_general H {} (attributeNode (quotesAttr "ast") "Name") [constantNode (.str "x")] []
      ["mcpyrate", "quotes", "ast", "Name"] rfl (by simp) (by simp)
    refine Eq.trans h ?_
    rw [show "Name" = K.text .Name from rfl, lookupThing_class]
    rfl
  · intro σ H E t s s' h
    exact astify_not_positional H E t s s' _ h rfl

end Mcpyrate
