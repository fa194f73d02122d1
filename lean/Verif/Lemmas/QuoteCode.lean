import Verif.Lemmas.QuoteNest
import Verif.Lemmas.Unastify
import Verif.Lemmas.ExpanderClean
import Verif.Props.Markers
/-
The code that the quasiquote compiler generates for code without unquotes: it has no markers and no macro invocations.
-/
namespace Mcpyrate.QuoteOps
open Py Expander Quotes

variable {σ : Type}

/-- The classes of the nodes of generated code. -/
def codeClasses : List K := [.Call, .Attribute, .Name, .Constant, .keyword, .List]

mutual
/-- All nodes are of these classes and have the fields that the expander and `fix_ctx` look at; the only name is `mcpyrate`. -/
def codey : Val → Bool
  | .const _ => true
  | .list xs => codeyL xs
  | .node (.py k) l fs => (codeClasses.contains k && (k != .Attribute || (fs.lookup .value).isSome)) &&
      fieldsOk (.node (.py k) l fs) &&
      (k != .Name || fs.lookup .id == some (.str "mcpyrate")) && codeyF fs
  | .node (.marker _) _ _ => false
def codeyL : List Val → Bool
  | [] => true
  | x :: xs => codey x && codeyL xs
def codeyF : List (F × Val) → Bool
  | [] => true
  | (_, x) :: r => codey x && codeyF r
end

theorem codeyL_mem {xs : List Val} (h : codeyL xs = true) {x : Val} (hx : x ∈ xs) : codey x = true := by
  induction xs with
  | nil => cases hx
  | cons y ys ih =>
    simp only [codeyL, Bool.and_eq_true] at h
    rcases List.mem_cons.mp hx with rfl | hx
    · exact h.1
    · exact ih h.2 hx

theorem codeyF_mem {fs : Fields} (h : codeyF fs = true) {f : F} {x : Val} (hx : (f, x) ∈ fs) : codey x = true := by
  induction fs with
  | nil => cases hx
  | cons p fs ih =>
    obtain ⟨g, y⟩ := p
    simp only [codeyF, Bool.and_eq_true] at h
    rcases List.mem_cons.mp hx with e | hx
    · cases e; exact h.1
    · exact ih h.2 hx

theorem codey_child {t u : Val} (ht : codey t = true) (h : Child t u) : codey u = true := by
  cases h with
  | @field c l fs f _ hm _ =>
    cases c with
    | marker => cases ht
    | py k =>
      simp only [codey, Bool.and_eq_true] at ht
      exact codeyF_mem ht.2 hm
  | @item c l fs f xs _ hm hx _ =>
    cases c with
    | marker => cases ht
    | py k =>
      simp only [codey, Bool.and_eq_true] at ht
      have := codeyF_mem ht.2 hm
      exact codeyL_mem (by simpa only [codey] using this) hx
  | elt hx _ => exact codeyL_mem (by simpa only [codey] using ht) hx

theorem codey_reach {t u : Val} (ht : codey t = true) (h : Reach t u) : codey u = true := by
  induction h with
  | refl => exact ht
  | step hc _ ih => exact ih (codey_child ht hc)

/-- Generated code has no macro invocations, unless `mcpyrate` is an identifier macro. -/
theorem codey_clean {υ : Type} {E : Env υ} {w : World υ} {t : Val} (ht : codey t = true)
    (hm : ∀ i, isbound w "mcpyrate" = some i → (E.macros i).isName = false) : Clean E w t := by
  intro u hu
  have hc := codey_reach ht hu.reach
  cases u with
  | const c => exact ⟨rfl, fun hi => Bool.noConfusion hi.isAST⟩
  | list xs => exact ⟨rfl, fun hi => Bool.noConfusion hi.isAST⟩
  | node c l fs =>
    cases c with
    | marker => cases hc
    | py k =>
      simp only [codey, Bool.and_eq_true] at hc
      refine ⟨hc.1.1.2, fun hi => ?_⟩
      have hk := hc.1.1.1.1
      cases hi with
      | expr h1 =>
        have : k = .Subscript := (eq_of_beq (a := K.Subscript) h1).symm
        subst this; revert hk; decide
      | block h1 =>
        have : k = .With := (eq_of_beq (a := K.With) h1).symm
        subst this; revert hk; decide
      | decorator h1 =>
        rcases h1 with h1 | h1
        · have : k = .FunctionDef := (eq_of_beq (a := K.FunctionDef) h1).symm
          subst this; revert hk; decide
        · have : k = .ClassDef := (eq_of_beq (a := K.ClassDef) h1).symm
          subst this; revert hk; decide
      | name h1 h2 h3 h4 h5 =>
        have : k = .Name := (eq_of_beq (a := K.Name) h1).symm
        subst this
        have hid := hc.1.2
        have h2' : fs.lookup .id = _ := h2
        rw [h2'] at hid
        simp at hid
        rw [hid] at h4
        rw [hm _ h4] at h5
        cases h5

theorem codey_noMarkers {t : Val} (ht : codey t = true) (m : Val) (h : Reach t m) :
    m.hasCls isQuasi = false := by
  have hc := codey_reach ht h
  cases m with
  | const => rfl
  | list => rfl
  | node c l fs => cases c with
    | marker => cases hc
    | py => rfl

/-! ### what the compiler generates -/

theorem ofVals_append (xs ys : List Val) : Obj.ofVals (xs ++ ys) = Obj.ofVals xs ++ Obj.ofVals ys := by
  induction xs with
  | nil => rfl
  | cons x xs ih => simp only [List.cons_append, Obj.ofVals, ih]

theorem codey_attrCode (a : String) : codey (attrCode a) = true := by
  simp [attrCode, codey, codeyF, mk, codeClasses, fieldsOk, hasField, Val.get?, List.lookup]

mutual
theorem astify_uniform (x : Val) (h : parsed (.ofVal x) = true)
    (hc : hasComplex (.ofVal x) = false) :
    ∃ c, (∀ (σ : Type) (H : Host σ) B, astify H B (.ofVal x) = pure (.ofVal c)) ∧ codey c = true ∧ c.isAST = true := by
  match x with
  | .const k =>
    refine ⟨mk .Constant [(.value, .const k), (.kind, .none)], ?_, ?_, rfl⟩
    · intro σ H B; cases k <;> first | rfl | cases hc
    · simp [codey, codeyF, mk, codeClasses, fieldsOk]
  | .list xs =>
    obtain ⟨cs, h1, h2⟩ := astifyL_uniform xs (by simpa only [Obj.ofVal, parsed] using h)
      (by simpa only [Obj.ofVal, hasComplex] using hc)
    refine ⟨mk .List [(.elts, .list cs)], ?_, ?_, rfl⟩
    · intro σ H B; simp only [Obj.ofVal, astify, h1]; rfl
    · simp [codey, codeyF, mk, codeClasses, fieldsOk, h2]
  | .node (.marker n) l fs => simp [Obj.ofVal, parsed] at h
  | .node (.py k) l fs =>
    simp only [Obj.ofVal, parsed, Bool.and_eq_true] at h
    obtain ⟨cs, h1, h2⟩ := astifyF_uniform fs h.2 (by simpa only [Obj.ofVal, hasComplex] using hc)
    refine ⟨.node (.py .Call) (copyLocation (.py .Call) {} (.py k) l)
      [(.func, mk .Attribute [(.value, attrCode "ast"), (.attr, .str k.text)]), (.args, .list []), (.keywords, .list cs)],
      ?_, ?_, rfl⟩
    · intro σ H B; simp only [Obj.ofVal, astify, h1]; rfl
    · have := codey_attrCode "ast"
      simp [codey, codeyF, codeyL, mk, codeClasses, h2, this, fieldsOk]
      exact ⟨⟨rfl, rfl⟩, rfl⟩
theorem astifyL_uniform (xs : List Val) (h : parsedL (Obj.ofVals xs) = true)
    (hc : hasComplexL (Obj.ofVals xs) = false) :
    ∃ cs, (∀ (σ : Type) (H : Host σ) B, astifyL H B (Obj.ofVals xs) = pure (Obj.ofVals cs)) ∧ codeyL cs = true := by
  match xs with
  | [] => exact ⟨[], fun _ _ _ => rfl, rfl⟩
  | x :: xs =>
    simp only [Obj.ofVals, parsedL, Bool.and_eq_true] at h
    simp only [Obj.ofVals, hasComplexL, Bool.or_eq_false_iff] at hc
    obtain ⟨c, h1, h2, -⟩ := astify_uniform x h.1 hc.1
    obtain ⟨cs, h3, h4⟩ := astifyL_uniform xs h.2 hc.2
    refine ⟨c :: cs, ?_, by simp [codeyL, h2, h4]⟩
    intro σ H B; simp only [Obj.ofVals, astifyL, h1, h3]; rfl
theorem astifyF_uniform (fs : List (F × Val))
    (h : parsedF (Obj.ofFields fs) = true) (hc : hasComplexF (Obj.ofFields fs) = false) :
    ∃ cs, (∀ (σ : Type) (H : Host σ) B, astifyF H B (Obj.ofFields fs) = pure (Obj.ofVals cs)) ∧ codeyL cs = true := by
  match fs with
  | [] => exact ⟨[], fun _ _ _ => rfl, rfl⟩
  | (f, x) :: fs =>
    simp only [Obj.ofFields, parsedF, Bool.and_eq_true] at h
    simp only [Obj.ofFields, hasComplexF, Bool.or_eq_false_iff] at hc
    obtain ⟨c, h1, h2, -⟩ := astify_uniform x h.1 hc.1
    obtain ⟨cs, h3, h4⟩ := astifyF_uniform fs h.2 hc.2
    refine ⟨mk .keyword [(.arg, .str f.text), (.value, c)] :: cs, ?_, ?_⟩
    · intro σ H B; simp only [Obj.ofFields, astifyF, h1, h3]; rfl
    · simp [codeyL, codey, codeyF, mk, codeClasses, fieldsOk, h2, h4]
end

theorem astify_code (H : Host σ) (x : Val) (h : parsed (.ofVal x) = true)
    (hc : hasComplex (.ofVal x) = false) :
    ∃ c, (∀ B, astify H B (.ofVal x) = pure (.ofVal c)) ∧ codey c = true ∧ c.isAST = true := by
  obtain ⟨c, h1, h2⟩ := astify_uniform x h hc
  exact ⟨c, h1 σ H, h2⟩

/-! ### parsed trees have no markers -/

theorem parsedL_mem {xs : List Val} (h : parsedL (Obj.ofVals xs) = true) {x : Val} (hx : x ∈ xs) :
    parsed (.ofVal x) = true := by
  induction xs with
  | nil => cases hx
  | cons y ys ih =>
    simp only [Obj.ofVals, parsedL, Bool.and_eq_true] at h
    rcases List.mem_cons.mp hx with rfl | hx
    · exact h.1
    · exact ih h.2 hx

theorem parsedF_mem {fs : Fields} (h : parsedF (Obj.ofFields fs) = true) {f : F} {x : Val} (hx : (f, x) ∈ fs) :
    parsed (.ofVal x) = true := by
  induction fs with
  | nil => cases hx
  | cons p fs ih =>
    obtain ⟨g, y⟩ := p
    simp only [Obj.ofFields, parsedF, Bool.and_eq_true] at h
    rcases List.mem_cons.mp hx with e | hx
    · cases e; exact h.1
    · exact ih h.2 hx

theorem parsed_child {t u : Val} (ht : parsed (.ofVal t) = true) (h : Child t u) : parsed (.ofVal u) = true := by
  cases h with
  | @field c l fs f _ hm _ =>
    cases c with
    | marker => simp [Obj.ofVal, parsed] at ht
    | py k =>
      simp only [Obj.ofVal, parsed, Bool.and_eq_true] at ht
      exact parsedF_mem ht.2 hm
  | @item c l fs f xs _ hm hx _ =>
    cases c with
    | marker => simp [Obj.ofVal, parsed] at ht
    | py k =>
      simp only [Obj.ofVal, parsed, Bool.and_eq_true] at ht
      have := parsedF_mem ht.2 hm
      exact parsedL_mem (by simpa only [Obj.ofVal, parsed] using this) hx
  | elt hx _ => exact parsedL_mem (by simpa only [Obj.ofVal, parsed] using ht) hx

theorem parsed_reach {t u : Val} (ht : parsed (.ofVal t) = true) (h : Reach t u) : parsed (.ofVal u) = true := by
  induction h with
  | refl => exact ht
  | step hc _ ih => exact ih (parsed_child ht hc)

theorem parsed_Unmarked {t : Val} (ht : parsed (.ofVal t) = true) : Unmarked t := by
  rintro u hu n l fs rfl
  have := parsed_reach ht hu
  simp [Obj.ofVal, parsed] at this

end Mcpyrate.QuoteOps
