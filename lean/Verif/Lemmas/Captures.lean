import Verif.Spec.Captures
import Verif.Lemmas.Quotes
import Verif.Lemmas.Like
namespace Mcpyrate.Quotes
open Py
variable {σ : Type}

theorem Ex.bind_ok {ε α β : Type} {m : Except ε α} {f : α → Except ε β} {b : β} :
    (m >>= f) = .ok b ↔ ∃ a, m = .ok a ∧ f a = .ok b := by
  cases m with
  | error e => simp [bind, Except.bind]
  | ok a => simp [bind, Except.bind]

theorem Ex.pure_ok {ε α : Type} {a b : α} : (pure a : Except ε α) = .ok b ↔ a = b := by
  simp [pure, Except.pure]

theorem attrOf_ok {x v : Obj} {f : F} : attrOf x f = .ok v ↔ x.get? f = some v := by
  unfold attrOf; cases x.get? f <;> simp

theorem itemAt_ok {x v : Obj} {i : Nat} : itemAt x i = .ok v ↔ ∃ xs, x = .list xs ∧ xs[i]? = some v := by
  cases x <;> simp [itemAt]
  rename_i xs
  cases xs[i]? <;> simp

theorem strConstant_ok {x : Obj} {s : String} : strConstant x = .ok s ↔ IsConst x (.str s) := by
  unfold strConstant IsConst
  by_cases h : x.isK .Constant = true
  · simp only [h, if_true, Ex.bind_ok, attrOf_ok, true_and]
    constructor
    · rintro ⟨a, h1, h2⟩
      split at h2
      · rw [Ex.pure_ok] at h2; rw [h1, h2]
      · cases h2
    · intro h1; exact ⟨_, h1, rfl⟩
  · simp [h]

theorem bytesConstant_ok {x : Obj} {b : List Nat} : bytesConstant x = .ok b ↔ IsConst x (.bytes b) := by
  unfold bytesConstant IsConst
  by_cases h : x.isK .Constant = true
  · simp only [h, if_true, Ex.bind_ok, attrOf_ok, true_and]
    constructor
    · rintro ⟨a, h1, h2⟩
      split at h2
      · rw [Ex.pure_ok] at h2; rw [h1, h2]
      · cases h2
    · intro h1; exact ⟨_, h1, rfl⟩
  · simp [h]

theorem keyElts_ok {x : Obj} {es : List Obj} : keyElts x = .ok es ↔
    ∃ key as, x.get? .args = some (.list (key :: as)) ∧ key.get? .elts = some (.list es) := by
  unfold keyElts
  simp only [Ex.bind_ok, attrOf_ok, itemAt_ok]
  constructor
  · rintro ⟨_, h1, k, ⟨xs, rfl, h2⟩, e, h3, h4⟩
    cases xs with
    | nil => simp at h2
    | cons y ys =>
      simp at h2; subst h2
      refine ⟨_, _, h1, ?_⟩
      split at h4
      · rw [Ex.pure_ok] at h4; rw [h3, h4]
      · cases h4
  · rintro ⟨key, as, h1, h2⟩
    exact ⟨_, h1, key, ⟨_, rfl, rfl⟩, _, h2, rfl⟩

theorem isQuotesReference_iff {x : Obj} : isQuotesReference x = .ok true ↔ IsQuotes x := by
  constructor
  · intro h
    unfold isQuotesReference at h
    by_cases h1 : x.isK .Attribute = true
    · simp only [h1, if_true, Ex.bind_ok, attrOf_ok] at h
      obtain ⟨a, ha, h⟩ := h
      split at h
      · rename_i h2; subst h2
        simp only [Ex.bind_ok, attrOf_ok] at h
        obtain ⟨m, hm, h⟩ := h
        refine ⟨m, ⟨h1, hm, ha⟩, ?_⟩
        by_cases h3 : m.isK .Name = true
        · simp only [h3, if_true, Ex.bind_ok, attrOf_ok, Ex.pure_ok, decide_eq_true_eq] at h
          obtain ⟨v, hv, rfl⟩ := h
          exact .inl ⟨h3, hv⟩
        · simp only [h3] at h
          by_cases h4 : m.isK .Call = true
          · simp only [h4, if_true, Ex.bind_ok, attrOf_ok, Bool.false_eq_true, if_false] at h
            obtain ⟨f, hf, h⟩ := h
            by_cases h5 : f.isK .Name = true
            · simp only [h5, if_true, Ex.bind_ok, attrOf_ok] at h
              obtain ⟨i, hi, h⟩ := h
              split at h
              · rename_i h6; subst h6
                simp only [Ex.bind_ok, attrOf_ok, itemAt_ok] at h
                obtain ⟨_, h7, a, ⟨xs, rfl, h8⟩, h9⟩ := h
                cases xs with
                | nil => simp at h8
                | cons y ys =>
                  simp at h8; subst h8
                  refine .inr ⟨f, y, ys, ⟨h4, hf, h7⟩, ⟨h5, hi⟩, ?_⟩
                  by_cases h10 : y.isK .Constant = true
                  · simp only [h10, if_true, Ex.bind_ok, attrOf_ok, Ex.pure_ok, decide_eq_true_eq] at h9
                    obtain ⟨v, hv, rfl⟩ := h9
                    exact ⟨h10, hv⟩
                  · simp [h10, Ex.pure_ok] at h9
              · simp [Ex.pure_ok] at h
            · simp [h5, Ex.pure_ok] at h
          · simp [h4, Ex.pure_ok] at h
      · simp [Ex.pure_ok] at h
    · simp [h1, Ex.pure_ok] at h
  · rintro ⟨m, ⟨h1, h2, h3⟩, h⟩
    have e1 : attrOf x .attr = .ok (.str "quotes") := attrOf_ok.2 h3
    have e2 : attrOf x .value = .ok m := attrOf_ok.2 h2
    unfold isQuotesReference
    rw [if_pos h1, e1]
    simp only [bind, Except.bind, if_true, e2]
    rcases h with ⟨h4, h5⟩ | ⟨f, a, as, ⟨h4, h5, h6⟩, ⟨h7, h8⟩, h9, h10⟩
    · have e3 : attrOf m .id = .ok (.str "mcpyrate") := attrOf_ok.2 h5
      rw [if_pos h4, e3]; rfl
    · have hn : ¬ m.isK .Name = true := by
        intro hn
        cases m with
        | node c l fs => cases c with
          | py k => simp only [Obj.isK, beq_iff_eq] at h4 hn; rw [← h4] at hn; cases hn
          | marker n => cases h4
        | _ => cases h4
      have e3 : attrOf m .func = .ok f := attrOf_ok.2 h5
      have e4 : attrOf f .id = .ok (.str "__import__") := attrOf_ok.2 h8
      have e5 : attrOf m .args = .ok (.list (a :: as)) := attrOf_ok.2 h6
      have e6 : attrOf a .value = .ok (.str "mcpyrate.quotes") := attrOf_ok.2 h10
      rw [if_neg hn, if_pos h4, e3]
      simp only [if_pos h7, e4, e5, if_true, itemAt, List.getElem?_cons_zero, if_pos h9, e6]
      rfl

theorem isCapturedValue_some {x : Obj} {n : String} {b : Option (List Nat)} :
    isCapturedValue x = .ok (some (n, b)) ↔
      (b = none ∧ PendingValue x n) ∨ ∃ fr, b = some fr ∧ FrozenValue x n fr := by
  constructor
  · intro h
    unfold isCapturedValue at h
    by_cases h1 : x.isK .Call = true
    · simp only [h1, if_true, Ex.bind_ok, attrOf_ok] at h
      obtain ⟨f, hf, h⟩ := h
      by_cases h2 : f.isK .Attribute = true
      · simp only [h2, if_true, Ex.bind_ok, attrOf_ok] at h
        obtain ⟨a, ha, h⟩ := h
        split at h
        · rename_i h3
          simp only [Ex.bind_ok, attrOf_ok] at h
          obtain ⟨r, hr, t, ht, h⟩ := h
          cases t with
          | false => simp [Ex.pure_ok] at h
          | true =>
            rw [isQuotesReference_iff] at ht
            simp only [if_true] at h
            split at h
            · rename_i h4; subst h4
              simp only [Ex.bind_ok, attrOf_ok, itemAt_ok, strConstant_ok, Ex.pure_ok] at h
              obtain ⟨_, h5, k, ⟨xs, rfl, h6⟩, s, h7, h8⟩ := h
              obtain ⟨rfl, rfl⟩ : s = n ∧ none = b := by simpa using h8
              match xs, h6 with
              | v :: k' :: as, h6 =>
                simp at h6; subst h6
                exact .inl ⟨rfl, v, k', as, ⟨f, r, ⟨h1, hf, h5⟩, ⟨h2, hr, ha⟩, ht⟩, h7⟩
              | [_], h6 => simp at h6
              | [], h6 => simp at h6
            · rename_i h4
              have h3 := h3.resolve_left h4
              subst h3
              simp only [Ex.bind_ok, keyElts_ok] at h
              obtain ⟨es, ⟨key, as, h5, h6⟩, h⟩ := h
              unfold valueKey at h
              split at h
              · rename_i kn kv
                simp only [Ex.bind_ok, strConstant_ok, bytesConstant_ok, Ex.pure_ok] at h
                obtain ⟨s, h7, fr, h8, h9⟩ := h
                obtain ⟨rfl, rfl⟩ : s = n ∧ some fr = b := by simpa using h9
                exact .inr ⟨fr, rfl, key, as, kn, kv, ⟨f, r, ⟨h1, hf, h5⟩, ⟨h2, hr, ha⟩, ht⟩, h6, h7, h8⟩
              · cases h
        · simp [Ex.pure_ok] at h
      · simp [h2, Ex.pure_ok] at h
    · simp [h1, Ex.pure_ok] at h
  · rintro (⟨rfl, v, k, as, ⟨f, r, ⟨h1, h2, h3⟩, ⟨h4, h5, h6⟩, h7⟩, h8⟩ |
      ⟨fr, rfl, key, as, kn, kv, ⟨f, r, ⟨h1, h2, h3⟩, ⟨h4, h5, h6⟩, h7⟩, h8, h9, h10⟩)
    · unfold isCapturedValue
      simp only [if_pos h1, attrOf_ok.2 h2, bind, Except.bind, if_pos h4, attrOf_ok.2 h6, attrOf_ok.2 h5,
        isQuotesReference_iff.2 h7, true_or, if_true, attrOf_ok.2 h3, itemAt, List.getElem?_cons_succ,
        List.getElem?_cons_zero, strConstant_ok.2 h8]
      rfl
    · have e : keyElts x = .ok [kn, kv] := keyElts_ok.2 ⟨key, as, h3, h8⟩
      unfold isCapturedValue
      have hne : ¬ (Obj.str "lookup_value" = Obj.str "capture_value") := by decide
      simp only [if_pos h1, attrOf_ok.2 h2, bind, Except.bind, if_pos h4, attrOf_ok.2 h6, attrOf_ok.2 h5,
        isQuotesReference_iff.2 h7, or_true, if_true, if_neg hne, e, valueKey, strConstant_ok.2 h9, bytesConstant_ok.2 h10]
      rfl

theorem isCapturedMacro_some {x : Obj} {n u : String} {b : List Nat} :
    isCapturedMacro x = .ok (some (n, u, b)) ↔ FrozenMacro x n u b := by
  constructor
  · intro h
    unfold isCapturedMacro at h
    by_cases h1 : x.isK .Call = true
    · simp only [h1, if_true, Ex.bind_ok, attrOf_ok] at h
      obtain ⟨f, hf, h⟩ := h
      by_cases h2 : f.isK .Attribute = true
      · simp only [h2, if_true, Ex.bind_ok, attrOf_ok] at h
        obtain ⟨a, ha, h⟩ := h
        split at h
        · rename_i h3; subst h3
          simp only [Ex.bind_ok, attrOf_ok] at h
          obtain ⟨r, hr, t, ht, h⟩ := h
          cases t with
          | false => simp [Ex.pure_ok] at h
          | true =>
            rw [isQuotesReference_iff] at ht
            simp only [if_true, Ex.bind_ok, keyElts_ok] at h
            obtain ⟨es, ⟨key, as, h5, h6⟩, h⟩ := h
            unfold macroKey at h
            split at h
            · rename_i kn ku kv
              simp only [Ex.bind_ok, strConstant_ok, bytesConstant_ok, Ex.pure_ok] at h
              obtain ⟨s, h7, s', h8, fr, h9, h10⟩ := h
              obtain ⟨rfl, rfl, rfl⟩ : s = n ∧ s' = u ∧ fr = b := by simpa using h10
              exact ⟨key, as, kn, ku, kv, ⟨f, r, ⟨h1, hf, h5⟩, ⟨h2, hr, ha⟩, ht⟩, h6, h7, h8, h9⟩
            · cases h
        · simp [Ex.pure_ok] at h
      · simp [h2, Ex.pure_ok] at h
    · simp [h1, Ex.pure_ok] at h
  · rintro ⟨key, as, kn, ku, kv, ⟨f, r, ⟨h1, h2, h3⟩, ⟨h4, h5, h6⟩, h7⟩, h8, h9, h10, h11⟩
    have e : keyElts x = .ok [kn, ku, kv] := keyElts_ok.2 ⟨key, as, h3, h8⟩
    unfold isCapturedMacro
    simp only [if_pos h1, attrOf_ok.2 h2, bind, Except.bind, if_pos h4, attrOf_ok.2 h6, attrOf_ok.2 h5,
      isQuotesReference_iff.2 h7, if_true, e, macroKey, strConstant_ok.2 h9, strConstant_ok.2 h10, bytesConstant_ok.2 h11]
    rfl

/-- The name of the function that is called. -/
theorem calls_name {x : Obj} {fn : String} {args : List Obj} (h : CallsQuotes x fn args) :
    ∃ f, x.isK .Call = true ∧ x.get? .func = some f ∧ f.isK .Attribute = true ∧ f.get? .attr = some (.str fn) :=
  let ⟨f, _, h1, h2, _⟩ := h
  ⟨f, h1.1, h1.2.1, h2.1, h2.2.2⟩

theorem isCapturedMacro_other {x : Obj} {fn : String} {args : List Obj} (h : CallsQuotes x fn args)
    (hn : fn ≠ "lookup_macro") : isCapturedMacro x = .ok none := by
  obtain ⟨f, h1, h2, h3, h4⟩ := calls_name h
  unfold isCapturedMacro
  have hne : ¬ (Obj.str fn = Obj.str "lookup_macro") := by simpa using hn
  simp only [if_pos h1, attrOf_ok.2 h2, bind, Except.bind, if_pos h3, attrOf_ok.2 h4, if_neg hne]
  rfl

theorem isCapturedValue_other {x : Obj} {fn : String} {args : List Obj} (h : CallsQuotes x fn args)
    (hn : fn ≠ "capture_value") (hn' : fn ≠ "lookup_value") : isCapturedValue x = .ok none := by
  obtain ⟨f, h1, h2, h3, h4⟩ := calls_name h
  unfold isCapturedValue
  have hne : ¬ (Obj.str fn = Obj.str "capture_value" ∨ Obj.str fn = Obj.str "lookup_value") := by
    simpa using ⟨hn, hn'⟩
  simp only [if_pos h1, attrOf_ok.2 h2, bind, Except.bind, if_pos h3, attrOf_ok.2 h4, if_neg hne]
  rfl

/-! ### Locations and contexts -/

theorem bare_isK (x : Obj) (k : K) : (bare x).isK k = x.isK k := by
  cases x with
  | node c l fs => cases c <;> rfl
  | _ => rfl

theorem bareF_lookup (fs : List (F × Obj)) {f : F} (hf : f ≠ .ctx) :
    (bareF fs).lookup f = (fs.lookup f).map bare := by
  induction fs with
  | nil => rfl
  | cons p fs ih =>
    obtain ⟨g, v⟩ := p
    rw [bareF]
    by_cases h : g = .ctx
    · have : (f == g) = false := by simpa using fun e : f = g => hf (e.trans h)
      rw [if_pos h, List.lookup_cons, this]; exact ih
    · rw [if_neg h, List.lookup_cons, List.lookup_cons]
      cases f == g
      · exact ih
      · rfl

theorem bare_get (x : Obj) {f : F} (hf : f ≠ .ctx) : (bare x).get? f = (x.get? f).map bare := by
  cases x <;> simp [bare, Obj.get?, bareF_lookup _ hf]

theorem bare_const {x : Obj} {c : Const} : bare x = .const c ↔ x = .const c := by
  cases x <;> simp [bare]

theorem bareL_eq (xs : List Obj) : bareL xs = xs.map bare := by
  induction xs with
  | nil => rfl
  | cons x xs ih => rw [bareL, ih]; rfl

theorem bare_attrOf (x : Obj) {f : F} (hf : f ≠ .ctx) : attrOf (bare x) f = (attrOf x f).map bare := by
  unfold attrOf; rw [bare_get x hf]; cases x.get? f <;> rfl

theorem bare_itemAt (x : Obj) (i : Nat) : itemAt (bare x) i = (itemAt x i).map bare := by
  cases x <;> simp [bare, itemAt, Except.map]
  rename_i xs
  rw [bareL_eq, List.getElem?_map]
  cases xs[i]? <;> rfl

theorem Ex.map_bind {ε α β γ : Type} (m : Except ε α) (g : α → β) (f : β → Except ε γ) :
    (m.map g >>= f) = (m >>= fun a => f (g a)) := by cases m <;> rfl

theorem bare_str (x : Obj) (s : String) : (bare x = .str s) = (x = .str s) := propext bare_const

theorem bare_isQuotesReference (x : Obj) : isQuotesReference (bare x) = isQuotesReference x := by
  unfold isQuotesReference
  simp (disch := decide) only [bare_isK, bare_attrOf, Ex.map_bind, bare_str, bare_itemAt]

theorem bare_strConstant (x : Obj) : strConstant (bare x) = strConstant x := by
  unfold strConstant
  simp (disch := decide) only [bare_isK, bare_attrOf, Ex.map_bind]
  congr 2
  funext v
  cases v <;> simp [bare]

theorem bare_bytesConstant (x : Obj) : bytesConstant (bare x) = bytesConstant x := by
  unfold bytesConstant
  simp (disch := decide) only [bare_isK, bare_attrOf, Ex.map_bind]
  congr 2
  funext v
  cases v <;> simp [bare]

theorem bare_keyElts (x : Obj) : keyElts (bare x) = (keyElts x).map (·.map bare) := by
  unfold keyElts
  simp (disch := decide) only [bare_attrOf, Ex.map_bind, bare_itemAt]
  cases attrOf x .args with
  | error e => rfl
  | ok a =>
    simp only [bind, Except.bind]
    cases itemAt a 0 with
    | error e => rfl
    | ok k =>
      simp only
      cases attrOf k .elts with
      | error e => rfl
      | ok v => cases v <;> simp [bare, Except.map, pure, Except.pure, bareL_eq]

theorem bare_valueKey (es : List Obj) : valueKey (es.map bare) = valueKey es := by
  match es with
  | [] | [_] | _ :: _ :: _ :: _ => rfl
  | [n, v] => simp only [List.map, valueKey, bare_strConstant, bare_bytesConstant]

theorem bare_macroKey (es : List Obj) : macroKey (es.map bare) = macroKey es := by
  match es with
  | [] | [_] | [_, _] | _ :: _ :: _ :: _ :: _ => rfl
  | [n, u, v] => simp only [List.map, macroKey, bare_strConstant, bare_bytesConstant]

theorem bare_isCapturedValue (x : Obj) : isCapturedValue (bare x) = isCapturedValue x := by
  unfold isCapturedValue
  simp (disch := decide) only [bare_isK, bare_attrOf, Ex.map_bind, bare_str, bare_itemAt, bare_isQuotesReference,
    bare_strConstant, bare_keyElts, bare_valueKey]

theorem bare_isCapturedMacro (x : Obj) : isCapturedMacro (bare x) = isCapturedMacro x := by
  unfold isCapturedMacro
  simp (disch := decide) only [bare_isK, bare_attrOf, Ex.map_bind, bare_str, bare_isQuotesReference, bare_keyElts,
    bare_macroKey]

mutual
theorem like_bare {t u : Val} (h : Expander.Like t u) : bare (Obj.ofVal t) = bare (Obj.ofVal u) := by
  match h with
  | .const c => rfl
  | .list h => simp only [Obj.ofVal, bare, likeL_bare h]
  | .node h _ => simp only [Obj.ofVal, bare, likeF_bare h]
theorem likeF_bare {c : Cls} {fs gs : Fields} (h : Expander.LikeF c fs gs) :
    bareF (Obj.ofFields fs) = bareF (Obj.ofFields gs) := by
  match h with
  | .nil => rfl
  | .extra _ _ => rfl
  | .field h1 h2 => simp only [Obj.ofFields, bareF, like_bare h1, likeF_bare h2]
  | .ctx _ _ h2 => simp only [Obj.ofFields, bareF, if_true, likeF_bare h2]
theorem likeL_bare {xs ys : List Val} (h : Expander.LikeL xs ys) :
    bareL (Obj.ofVals xs) = bareL (Obj.ofVals ys) := by
  match h with
  | .nil => rfl
  | .same h => simp only [Obj.ofVals, bareL, likeL_bare h]
  | .cons h1 h2 => simp only [Obj.ofVals, bareL, like_bare h1, likeL_bare h2]
end

end Mcpyrate.Quotes

namespace Mcpyrate.Quotes
open Py
variable {σ : Type}

/-! ### What the captures build -/

theorem isQuotes_direct : IsQuotes (attributeNode (nameNode "mcpyrate") "quotes") :=
  ⟨_, ⟨rfl, rfl, rfl⟩, .inl ⟨rfl, rfl⟩⟩

theorem callsQuotes_direct (fn : String) (args kws : List Obj) : CallsQuotes (callNode (quotesAttr fn) args kws) fn args :=
  ⟨_, _, ⟨rfl, rfl, rfl⟩, ⟨rfl, rfl, rfl⟩, isQuotes_direct⟩

theorem callsQuotes_import (fn : String) (args kws : List Obj) :
    CallsQuotes (callNode (quotesAttrImport fn) args kws) fn args :=
  ⟨_, _, ⟨rfl, rfl, rfl⟩, ⟨rfl, rfl, rfl⟩, _, ⟨rfl, rfl, rfl⟩, .inr ⟨_, _, _, ⟨rfl, rfl, rfl⟩, ⟨rfl, rfl⟩, ⟨rfl, rfl⟩⟩⟩

/-- The code that `capture_value` returns. -/
def valueCode (name : Const) (frozen : List Nat) : Obj :=
  callNode (quotesAttrImport "lookup_value") [tupleNode [constantNode name, constantNode (.bytes frozen)]] []

/-- The code that `capture_macro` returns. -/
def macroCode (name unique : String) (frozen : List Nat) : Obj :=
  callNode (quotesAttr "lookup_macro")
    [tupleNode [constantNode (.str name), constantNode (.str unique), constantNode (.bytes frozen)]] []

theorem captureValue_ok {H : Host σ} {v code : Obj} {name : Const} (h : captureValue H v name = .ok code) :
    ∃ frozen, H.pickle v = .ok frozen ∧ code = valueCode name frozen := by
  unfold captureValue at h
  rw [Ex.bind_ok] at h
  obtain ⟨b, h1, h2⟩ := h
  exact ⟨b, h1, (Ex.pure_ok.1 h2).symm⟩

theorem frozenValue_valueCode (name : String) (frozen : List Nat) :
    FrozenValue (valueCode (.str name) frozen) name frozen :=
  ⟨_, _, _, _, callsQuotes_import _ _ _, rfl, ⟨rfl, rfl⟩, ⟨rfl, rfl⟩⟩

theorem frozenMacro_macroCode (name unique : String) (frozen : List Nat) :
    FrozenMacro (macroCode name unique frozen) name unique frozen :=
  ⟨_, _, _, _, _, callsQuotes_direct _ _ _, rfl, ⟨rfl, rfl⟩, ⟨rfl, rfl⟩, ⟨rfl, rfl⟩⟩

theorem M.bind_some {ε α β : Type} {m : M ε σ α} {f : α → M ε σ β} {s s' : σ} {b : β}
    (h : (m >>= f) s = some (.ok b, s')) : ∃ a s1, m s = some (.ok a, s1) ∧ f a s1 = some (.ok b, s') := by
  change M.bind m f s = _ at h
  unfold M.bind at h
  cases hm : m s with
  | none => rw [hm] at h; cases h
  | some p =>
    obtain ⟨r, s1⟩ := p
    rw [hm] at h
    cases r with
    | error e => cases h
    | ok a => exact ⟨a, s1, rfl, h⟩

theorem lift_some {α : Type} {x : Except Err α} {s s' : St σ} {a : α} (h : lift x s = some (.ok a, s')) :
    x = .ok a ∧ s' = s := by
  cases x with
  | error e => cases h
  | ok b => cases h; exact ⟨rfl, rfl⟩

theorem captureMacro_ok {H : Host σ} {f code : Obj} {name : String} {s s' : St σ}
    (h : captureMacro H f name s = some (.ok code, s')) :
    ∃ frozen unique, H.callable f = true ∧ H.pickle f = .ok frozen ∧
      gensymQ (scrub H name) s = some (.ok unique, s') ∧ code = macroCode (scrub H name) unique frozen := by
  unfold captureMacro at h
  cases hc : H.callable f with
  | false => rw [hc] at h; cases h
  | true =>
    rw [hc] at h
    obtain ⟨b, s1, h1, h2⟩ := M.bind_some (show (lift (H.pickle f) >>= _) s = _ from h)
    obtain ⟨h3, rfl⟩ := lift_some h1
    obtain ⟨u, s2, h4, h5⟩ := M.bind_some h2
    cases h5
    exact ⟨b, u, rfl, h3, h4, rfl⟩

theorem eval_valueCode {H : Host σ} (hB : Builtins H) (name : Const) (frozen : List Nat) :
    eval H (valueCode name frozen) = lift (H.unpickle frozen) := by
  obtain ⟨h1, g, d, h2, h3, h4⟩ := hB
  have eg : eval H (callNode (nameNode "globals") [] []) = pure d := by
    show eval H (.node (.py .Call) {} [(.func, nameNode "globals"), (.args, .list []), (.keywords, .list [])]) = _
    rw [eval_call]
    show (H.name "globals" >>= _) = _
    rw [h2, M.pure_bind']
    show call H g [] [] = _
    rw [← h4]
    cases g with
    | ref p => exact absurd rfl (h3 p)
    | _ => rfl
  have ei : eval H (callNode (nameNode "__import__") [constantNode (.str "mcpyrate.quotes"),
      callNode (nameNode "globals") [] [], constantNode .none, tupleNode [], constantNode (.int 0)] []) =
      pure (.ref ["mcpyrate"]) := by
    show eval H (.node (.py .Call) {} [(.func, nameNode "__import__"), (.args, .list _), (.keywords, .list [])]) = _
    rw [eval_call]
    show (H.name "__import__" >>= _) = _
    rw [h1, M.pure_bind', evalL_cons (Code.constant _).notStarred, eval_constant, M.pure_bind',
      evalL_cons (x := callNode (nameNode "globals") [] []) rfl, eg, M.pure_bind']
    rfl
  have ea : eval H (quotesAttrImport "lookup_value") = pure (.ref ["mcpyrate", "quotes", "lookup_value"]) := by
    unfold quotesAttrImport
    rw [eval_attribute, eval_attribute, ei]
    rfl
  show eval H (.node (.py .Call) {} [(.func, _), (.args, .list _), (.keywords, .list [])]) = _
  rw [eval_call, ea]
  rfl

end Mcpyrate.Quotes
