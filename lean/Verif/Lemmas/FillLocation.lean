import Verif.Spec.FillLocation
import Verif.Props.FixLocations
import Verif.Lemmas.ExpandRuntime
/-
Lemmas about `fill_location`.
-/
namespace Mcpyrate.FillLocation
open Py Expander QuoteOps ExpandRuntime

variable {τ υ : Type}

def referenceTree (l : Loc) : Val :=
  mk .Call [(.func, mk .Attribute [(.value, mk .Attribute [(.value, mk .Attribute [(.value, mk .Name [(.id, .str "mcpyrate")]),
      (.attr, .str "quotes")]), (.attr, .str "ast")]), (.attr, .str "Constant")]), (.args, .list []),
    (.keywords, .list [mk .keyword [(.arg, .str "value"), (.value, mk .Constant [(.value, .str "source location dummy"), (.kind, .none)])],
      mk .keyword [(.arg, .str "kind"), (.value, mk .Constant [(.value, .none), (.kind, .none)])],
      mk .keyword [(.arg, .str "lineno"), (.value, mk .Constant [(.value, .const (attrConst l.lineno)), (.kind, .none)])],
      mk .keyword [(.arg, .str "col_offset"), (.value, mk .Constant [(.value, .const (attrConst l.colOffset)), (.kind, .none)])]])]

def fillTree (l : Loc) (tree : Val) : Val :=
  mk .Call [(.func, mk .Attribute [(.value, mk .Attribute [(.value, mk .Name [(.id, .str "mcpyrate")]),
      (.attr, .str "metatools")]), (.attr, .str "fix_locations")]), (.args, .list [tree, referenceTree l]),
    (.keywords, .list [mk .keyword [(.arg, .str "mode"), (.value, mk .Constant [(.value, .str "reference"), (.kind, .none)])]])]

theorem ofVal_fillTree (l : Loc) (tree : Val) : Obj.ofVal (fillTree l tree) = fillCode l tree := rfl

theorem has_iff {a : Attr} : FixLocations.Attr.has a = true ↔ a ≠ .missing := by
  cases a <;> simp [FixLocations.Attr.has]

theorem does_fill {E : Env υ} {a : MArgs} {s : Expander.St υ} {c : Cls} {l : Loc} {fs : Fields} (ha : a.synt = .expr)
    (hi : a.invocation = .node c l fs) (hl : FixLocations.Located l) :
    ExpandStatic.Does E (fillLocation a) s (.ok (.val (fillTree l a.tree))) s := by
  refine ⟨0, ?_⟩
  unfold fillLocation
  rw [if_neg (by simp [ha]), hi]
  rw [if_pos (by
    show (FixLocations.Attr.has l.lineno && FixLocations.Attr.has l.colOffset) = true
    rw [has_iff.2 hl.1, has_iff.2 hl.2]; rfl)]
  show run _ (ExpandFirst.give (asCode (fillCode l a.tree))) s = _
  rw [← ofVal_fillTree, asCode_of]
  rfl

theorem attrObj_eq (a : Attr) : Obj.const (attrConst a) = attrObj a := by cases a <;> rfl

open Quotes in
theorem eval_reference {H : Host τ} (hR : RunTime H) {l : Loc} (hl : FixLocations.Located l) :
    eval H (referenceCode l) = pure (.node (.py .Constant) { lineno := l.lineno, colOffset := l.colOffset }
      [(.value, .str "source location dummy"), (.kind, .none)]) := by
  unfold referenceCode callNode mkNode
  rw [eval_call, eval_attribute, eval_quotesAttr hR.imported (by decide), M.pure_bind']
  have h1 : getAttr H (.ref ["mcpyrate", "quotes", "ast"]) "Constant" = pure (.ref ["mcpyrate", "quotes", "ast", "Constant"]) := rfl
  rw [h1, M.pure_bind']
  show call H (.ref ["mcpyrate", "quotes", "ast", "Constant"]) [] [("value", .str "source location dummy"), ("kind", .none),
    ("lineno", .const (attrConst l.lineno)), ("col_offset", .const (attrConst l.colOffset))] = _
  rw [attrObj_eq, attrObj_eq]
  have h2 : ∀ v k x y, call H (.ref ["mcpyrate", "quotes", "ast", "Constant"]) [] [("value", v), ("kind", k),
      ("lineno", x), ("col_offset", y)] = H.call (.ref ["mcpyrate", "quotes", "ast", "Constant"]) [] [("value", v), ("kind", k),
      ("lineno", x), ("col_offset", y)] := fun _ _ _ _ => rfl
  rw [h2, hR.constant _ _ _ _ hl.1 hl.2]

open Quotes in
theorem eval_fill {H : Host τ} (hR : RunTime H) {l : Loc} (hl : FixLocations.Located l) {tree : Val}
    (ht : tree.isK .Starred = false) :
    eval H (fillCode l tree) = (do
      let v ← eval H (.ofVal tree)
      H.call (.ref ["mcpyrate", "metatools", "fix_locations"]) [v, .node (.py .Constant)
        { lineno := l.lineno, colOffset := l.colOffset } [(.value, .str "source location dummy"), (.kind, .none)]]
        [("mode", .str "reference")]) := by
  have hs : (Obj.ofVal tree).isK .Starred = false := by
    cases tree with
    | node c l fs => cases c with
      | py k => exact ht
      | marker n => rfl
    | _ => rfl
  unfold fillCode callNode mkNode
  have h0 : eval H (metatoolsAttr "fix_locations") = pure (.ref ["mcpyrate", "metatools", "fix_locations"]) := by
    unfold metatoolsAttr
    rw [eval_attribute, eval_attribute]
    have : eval H (nameNode "mcpyrate") = H.name "mcpyrate" := rfl
    rw [this, hR.imported, M.pure_bind']
    show (H.attr (.ref ["mcpyrate"]) "metatools" >>= fun x => getAttr H x "fix_locations") = _
    rw [hR.metatools, M.pure_bind']
    exact hR.function
  rw [eval_call, h0, M.pure_bind', evalL_cons hs, evalL_cons rfl, eval_reference hR hl, M.pure_bind']
  funext s
  change M.bind _ _ s = M.bind _ _ s
  simp only [M.bind]
  cases h : eval H (.ofVal tree) s with
  | none => simp [bind, M.bind, h]
  | some p =>
    obtain ⟨r, s1⟩ := p
    cases r with
    | error e => simp [bind, M.bind, h]
    | ok v => simp [bind, M.bind, h, pure, M.pure]; rfl

theorem filledIn {t : Val} (ht : t.isTree = true) {l : Loc} (hl : FixLocations.Located l) :
    ∃ t', FixLocations.fixLocations t { lineno := l.lineno, colOffset := l.colOffset } .reference = .ok t' ∧
      FilledIn (start l) t t' := by
  obtain ⟨t', h, -⟩ := C14_all_located t { lineno := l.lineno, colOffset := l.colOffset } .reference ht hl
  exact ⟨t', h, C14_only_locations t t' _ _ ht h, C14_reference t t' { lineno := l.lineno, colOffset := l.colOffset } ht hl h⟩

/-! ### Trees without locations -/

mutual
def strip : Val → Val
  | .const c => .const c
  | .list xs => .list (stripL xs)
  | .node c _ fs => .node c {} (stripF fs)
def stripL : List Val → List Val
  | [] => []
  | x :: xs => strip x :: stripL xs
def stripF : List (F × Val) → List (F × Val)
  | [] => []
  | (f, x) :: r => (f, strip x) :: stripF r
end

mutual
theorem ofVal_strip : (x : Val) → Obj.ofVal (strip x) = Quotes.noLoc (.ofVal x)
  | .const c => by simp [strip, Obj.ofVal, Quotes.noLoc]
  | .list xs => by simp [strip, Obj.ofVal, Quotes.noLoc, ofVals_strip xs]
  | .node c l fs => by simp [strip, Obj.ofVal, Quotes.noLoc, ofFields_strip fs]
theorem ofVals_strip : (xs : List Val) → Obj.ofVals (stripL xs) = Quotes.noLocL (Obj.ofVals xs)
  | [] => by simp [stripL, Obj.ofVals, Quotes.noLocL]
  | x :: xs => by simp [stripL, Obj.ofVals, Quotes.noLocL, ofVal_strip x, ofVals_strip xs]
theorem ofFields_strip : (xs : List (F × Val)) → Obj.ofFields (stripF xs) = Quotes.noLocF (Obj.ofFields xs)
  | [] => by simp [stripF, Obj.ofFields, Quotes.noLocF]
  | (f, x) :: r => by simp [stripF, Obj.ofFields, Quotes.noLocF, ofVal_strip x, ofFields_strip r]
end

mutual
theorem preorder_strip : (x : Val) → preorder (strip x) = (preorder x).map strip
  | .const c => by simp [strip, preorder]
  | .list xs => by simp [strip, preorder, preorderL_strip xs]
  | .node c l fs => by simp [strip, preorder, preorderF_strip fs]
theorem preorderF_strip : (xs : List (F × Val)) → preorderF (stripF xs) = (preorderF xs).map strip
  | [] => by simp [stripF, preorderF]
  | (f, x) :: r => by simp [stripF, preorderF, preorder_strip x, preorderF_strip r]
theorem preorderL_strip : (xs : List Val) → preorderL (stripL xs) = (preorderL xs).map strip
  | [] => by simp [stripL, preorderL]
  | .node c l fs :: r => by
    have h := preorder_strip (.node c l fs)
    rw [strip] at h
    rw [stripL, strip, preorderL, preorderL, h, preorderL_strip r, List.map_append]
  | .list ys :: r => by simp [stripL, strip, preorderL, preorderL_strip r]
  | .const c :: r => by simp [stripL, strip, preorderL, preorderL_strip r]
end

theorem locs_strip (x : Val) : FixLocations.locs (strip x) = (FixLocations.locs x).map fun p => (p.1, {}) := by
  unfold FixLocations.locs
  rw [preorder_strip, List.map_map, List.map_map]
  apply List.map_congr_left
  intro u hu
  cases u with
  | node c l fs => simp [strip]
  | const => simp [strip]
  | list => simp [strip]

end Mcpyrate.FillLocation
