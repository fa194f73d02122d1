import Verif.Lemmas.StmtFunction
import Verif.Spec.PatternTree
/-
Patterns that the unparser writes so that the parser reads them back, wherever they occur.
-/
namespace Mcpyrate.PyText
open Py
open Unparse (Host Large Prints PrintsL PrintsO lit interleave dispatch isIntConstant)

variable {P : Reading} {H : Host}

/-- What may follow a pattern, or (`.sym .bar` and `.sym .kAs`) an alternative. -/
def patStop : Tok → Bool
  | .sym .comma | .sym .rpar | .sym .rbrack | .sym .rbrace | .sym .colon | .sym .kIf | .sym .bar | .sym .kAs => true
  | _ => false

def CEnd (rest : List Tok) : Prop := ∀ t r, rest = t :: r → patStop t = true
def PEnd (rest : List Tok) : Prop := ∀ t r, rest = t :: r → patStop t = true ∧ t ≠ .sym .bar ∧ t ≠ .sym .kAs

theorem CEnd.cons {t r} (h : patStop t = true) : CEnd (t :: r) := fun _ _ e => by cases e; exact h
theorem PEnd.cons {t r} (h : patStop t = true) (h1 : t ≠ .sym .bar) (h2 : t ≠ .sym .kAs) : PEnd (t :: r) := fun _ _ e => by
  cases e; exact ⟨h, h1, h2⟩
theorem PEnd.c {r} (h : PEnd r) : CEnd r := fun t r' e => (h t r' e).1
theorem CEnd.ne {t r r'} (h : CEnd r) (ht : patStop t = false) : r ≠ t :: r' := by
  rintro rfl; rw [h _ _ rfl] at ht; exact nomatch ht

/-- The tree is written as this text, which is read as these tokens, which are parsed as the tree. -/
structure GoodPat (P : Reading) (H : Host) (nt : NT) (End : List Tok → Prop) (v : Val) (text : Str) (toks : List Tok) : Prop where
  prints : Prints H v text
  body : Body P text toks
  starts : ∃ c w, text = c :: w ∧ exprStart P c = true
  head : ∃ t r, toks = t :: r ∧ atomStart t = true
  look : ∀ x t r, toks = .name x :: t :: r → t ≠ .sym .eq
  notStar : v.isK .MatchStar = false
  notKeyword : v.isK .keyword = false
  parses : ∀ rest, End rest → full nt (toks ++ rest) = some (v, rest)

abbrev GoodC (P : Reading) (H : Host) := GoodPat P H .closedPat CEnd
abbrev GoodP (P : Reading) (H : Host) := GoodPat P H .pattern PEnd

theorem pattern_closed {ts v rest} (h : full .closedPat ts = some (v, rest)) (hr : PEnd rest) : full .pattern ts = some (v, rest) := by
  have h1 : full .orRest rest = some (.list [], rest) := by
    rw [full_at]; show pOrRest full rest = _
    unfold pOrRest
    split
    · exact absurd rfl (hr _ _ rfl).2.1
    · rfl
  rw [full_at]; show pPattern full ts = _
  unfold pPattern
  rw [h, seq_some, h1, seq_some]
  show patAs v rest = _
  unfold patAs
  split
  · exact absurd rfl (hr _ _ rfl).2.2
  · rfl

theorem GoodPat.pat {v s ts} (g : GoodC P H v s ts) : GoodP P H v s ts :=
  { g with parses := fun rest hr => pattern_closed (g.parses rest hr.c) hr }

theorem patElem_of {ts} (h : ∀ r, ts ≠ .sym .star :: r) : full .patElem ts = full .pattern ts := by
  rw [full_at]; show pPatElem full ts = _
  unfold pPatElem
  split
  · exact absurd rfl (h _)
  · rfl

theorem paren_closed {ts v rest} (h : full .pattern (ts ++ .sym .rpar :: rest) = some (v, .sym .rpar :: rest))
    (hh : ∃ t r, ts = t :: r ∧ t ≠ .sym .star ∧ t ≠ .sym .rpar) (hv : v.isK .MatchStar = false) :
    full .closedPat (.sym .lpar :: (ts ++ .sym .rpar :: rest)) = some (v, rest) := by
  obtain ⟨t, r, rfl, h1, h2⟩ := hh
  rw [full_at]; show full .patParen _ = _
  rw [full_at]; show pPatParen full _ = _
  unfold pPatParen
  split
  · rename_i e; cases e; exact absurd rfl h2
  · rw [patElem_of (by intro q e; cases e; exact h1 rfl), h, seq_some]
    show (if _ then _ else _) = _
    rw [hv]; rfl

/-- A pattern in parentheses. -/
theorem GoodPat.parens {v s ts} (g : GoodP P H v s ts) : Body P ('(' :: (s ++ [')'])) (.sym .lpar :: (ts ++ [.sym .rpar])) ∧
    ∀ rest, full .closedPat (.sym .lpar :: (ts ++ [.sym .rpar]) ++ rest) = some (v, rest) := by
  refine ⟨fun t k rest ht hf => ?_, fun rest => ?_⟩
  · have := Lx.lpar' (g.body _ _ _ (Lx.rpar' ht) (After.cons rfl))
    simpa using this
  · have := paren_closed (g.parses (.sym .rpar :: rest) (PEnd.cons rfl (by decide) (by decide)))
      (by obtain ⟨t, r, e, ht⟩ := g.head; exact ⟨t, r, e, atomStart_ne ht rfl, atomStart_ne ht rfl⟩) g.notStar
    simpa using this

/-! ### Values -/

theorem Prints.matchValue {v s} (h : Prints H v s) : Prints H (matchValue v) s :=
  h.succ fun n h c => by
    show (do dispatch H n c (← Unparse.attr .MatchValue _ .value)) = _
    unparsing [h c]

theorem good_single {v s t} (g : Good P H v s [t]) (hp : ∀ rest, CEnd rest → pClosedPat full (t :: rest) = some (matchValue v, rest)) :
    GoodC P H (matchValue v) s [t] where
  prints := Prints.matchValue g.prints
  body := g.body
  starts := g.starts
  head := g.head
  look := fun _ _ _ e => nomatch e
  notStar := rfl
  notKeyword := rfl
  parses rest hr := by rw [full_at]; exact hp rest hr

theorem complex_stop {a rest} (h : CEnd rest) : complexRest a rest = some (a, rest) := by
  unfold complexRest
  split
  · exact absurd rfl (h.ne rfl)
  · exact absurd rfl (h.ne rfl)
  · rfl

/-- A number: its token. -/
theorem IsNumber.good (hP : P.Lawful) {v} (h : IsNumber P v) : ∃ s t, Good P H v s [t] ∧
    (∀ r, pClosedPat full (t :: r) = seq (pNumber (t :: r)) fun v r => some (matchValue v, r)) ∧ (∀ r, patKey (t :: r) = pNumber (t :: r)) ∧
    (∀ rest, CEnd rest → pNumber (t :: rest) = some (v, rest)) ∧
    ∀ rest, CEnd rest → pNumber (.sym .minus :: t :: rest) = some (unaryOp .USub v, rest) := by
  cases h with
  | real h =>
    cases h with
    | int n => exact ⟨_, _, good_int, fun _ => rfl, fun _ => rfl, fun _ h => complex_stop h, fun _ h => complex_stop h⟩
    | float h =>
      obtain ⟨s, g⟩ := good_float (H := H) hP (r := P.float _) ⟨_, h, rfl⟩
      exact ⟨_, _, g, fun _ => rfl, fun _ => rfl, fun _ h => complex_stop h, fun _ h => complex_stop h⟩
  | imag h =>
    obtain ⟨s, g⟩ := good_imag (H := H) hP (r := P.imag _) ⟨_, h, rfl⟩
    exact ⟨_, _, g, fun _ => rfl, fun _ => rfl, fun _ _ => rfl, fun _ _ => rfl⟩

theorem IsReal.good (hP : P.Lawful) {v} (h : IsReal P v) : ∃ s t, Good P H v s [t] ∧
    (∀ r, pClosedPat full (t :: r) = seq (pNumber (t :: r)) fun v r => some (matchValue v, r)) ∧
    ∀ rest, pNumber (t :: rest) = complexRest v rest := by
  cases h with
  | int n => exact ⟨_, _, good_int, fun _ => rfl, fun _ => rfl⟩
  | float h =>
    obtain ⟨s, g⟩ := good_float (H := H) hP (r := P.float _) ⟨_, h, rfl⟩
    exact ⟨_, _, g, fun _ => rfl, fun _ => rfl⟩

theorem dotted_good (hP : P.Lawful) : ∀ {xs : List String} {v s ts}, Good P H v s ts → isIntConstant v = false → (∀ y ∈ xs, IsName P y) →
    (∀ x t r, ts = .name x :: t :: r → t = .sym .dot) →
    ∃ s' us, Good P H (xs.foldl attrOf v) s' (ts ++ us) ∧ (xs ≠ [] → ∃ y r, us = .sym .dot :: .name y :: r) ∧ (xs = [] → us = []) ∧
      ∀ rest, (∀ r, rest ≠ .sym .dot :: r) → attrs v (us ++ rest) = (xs.foldl attrOf v, rest)
  | [], v, s, ts, g, _, _, _ => ⟨s, [], by simpa using g, by simp, by simp, fun rest hr => by
      show attrs v rest = _
      unfold attrs
      split
      · exact absurd rfl (hr _)
      · rfl⟩
  | y :: ys, v, s, ts, g, hi, h, hl => by
    have hy := h y (by simp)
    obtain ⟨⟨c, w, hcw, hc⟩, -⟩ := id hy
    obtain ⟨hst, w', c', hends, hc'⟩ := name_text hP hy
    have g' : Good P H (attrOf v y) (s ++ '.' :: y.toList) (ts ++ [.sym .dot, .name y]) := by
      refine ⟨prints_cast (Prints.attrOf g.prints) (by simp [lit, hi]), fun rest hf _ => ?_, ?_, ⟨s ++ '.' :: w', c', by simp [hends], hc'⟩, ?_, ?_,
        ⟨.Attribute, _, rfl, rfl, by decide, by decide⟩, fun rest x hx => ?_⟩
      · have h1 : Lx P y.toList [.name y] rest := Lx.name hP hy hf.cont hf.quote
        have h2 : Lx P ('.' :: y.toList) [.sym .dot, .name y] rest := by
          refine Lx.append (t1 := ['.']) (t2 := y.toList) (k1 := [.sym .dot]) ?_ h1
          rw [hcw]; exact Lx.dot hc
        exact Lx.append (g.lexes _ (Follow.cons rfl) (fun _ => hi)) h2
      · obtain ⟨c, x, rfl, h⟩ := g.starts; exact ⟨c, _, rfl, h⟩
      · obtain ⟨t, r, rfl, h⟩ := g.head; exact ⟨t, _, rfl, h⟩
      · intro x t r e
        obtain ⟨t', r', rfl, -⟩ := g.head
        cases r' with
        | nil => simp only [List.cons_append, List.nil_append, List.cons.injEq] at e; obtain ⟨-, rfl, -⟩ := e; decide
        | cons u r'' =>
          simp only [List.cons_append, List.cons.injEq] at e
          obtain ⟨rfl, rfl, -⟩ := e
          exact g.look _ _ _ rfl
      · rw [List.append_assoc]
        exact g.parses _ _ (by rw [full_at]; exact hx)
    obtain ⟨s', us, h1, -, -, h4⟩ := dotted_good hP (xs := ys) g' rfl (fun z hz => h z (by simp [hz])) (by
      intro x t r e
      obtain ⟨t', r', rfl, -⟩ := g.head
      cases r' with
      | nil => simp only [List.cons_append, List.nil_append, List.cons.injEq] at e; exact e.2.1.symm
      | cons u r'' =>
        simp only [List.cons_append, List.cons.injEq] at e
        obtain ⟨rfl, rfl, -⟩ := e
        exact hl _ _ _ rfl)
    exact ⟨s', .sym .dot :: .name y :: us, by simpa using h1, fun _ => ⟨_, _, rfl⟩, by simp, fun rest hr => h4 rest hr⟩

/-- `x.a.b`. -/
theorem dottedExpr_good (hP : P.Lawful) {x : String} {xs : List String} (hx : IsName P x) (h : ∀ y ∈ xs, IsName P y) :
    ∃ s us, Good P H (dottedExpr x xs) s (.name x :: us) ∧ (xs ≠ [] → ∃ y r, us = .sym .dot :: .name y :: r) ∧ (xs = [] → us = []) ∧
      ∀ rest, (∀ r, rest ≠ .sym .dot :: r) → attrs (name x) (us ++ rest) = (dottedExpr x xs, rest) :=
  dotted_good hP (good_name hP hx) rfl h fun _ _ _ e => nomatch e

theorem dotted_isAttr {x : String} {xs : List String} (h : xs ≠ []) : (dottedExpr x xs).isK .Attribute = true := by
  have : ∀ (xs : List String) (v : Val), v.isK .Attribute = true → (xs.foldl attrOf v).isK .Attribute = true := by
    intro xs
    induction xs with
    | nil => exact fun _ h => h
    | cons y ys ih => exact fun v _ => ih _ rfl
  cases xs with
  | nil => exact absurd rfl h
  | cons y ys => exact this ys _ rfl

theorem value_good (hP : P.Lawful) {v} (h : PatValue P v) : ∃ s ts, GoodC P H (matchValue v) s ts := by
  cases h with
  | number h =>
    obtain ⟨s, t, g, h1, -, h2, -⟩ := h.good hP
    exact ⟨s, [t], good_single g fun rest hr => by rw [h1, h2 rest hr]; rfl⟩
  | @neg v h =>
    obtain ⟨s, t, g, -, -, -, h2⟩ := h.good (H := H) hP
    have hlx : ∀ t' k rest, Lx P t' k rest → After (t' ++ rest) → Lx P ('(' :: ('-' :: (s ++ ')' :: t'))) (.sym .lpar :: .sym .minus :: t :: .sym .rpar :: k) rest := by
      intro t' k rest ht hf
      obtain ⟨x, hx, -, hl⟩ := Lx.unSym (s := .minus) rfl
      cases hx
      refine Lx.lpar' (hl (t := s ++ ')' :: t') ?_ ?_ (g.lx (Lx.rpar' ht) (Follow.cons rfl) (by simp)))
      · rw [List.append_assoc]; exact g.next _ (by simp)
      · rw [List.append_assoc]; exact g.next _ (by simp)
    refine ⟨'(' :: '-' :: (s ++ [')']), [.sym .lpar, .sym .minus, t, .sym .rpar],
      Prints.matchValue (prints_cast (Unparse.Prints.unaryOp g.prints (s := "-") rfl (by decide)) (by simp [lit])), fun t' k rest ht hf => ?_,
      ⟨_, _, rfl, by simp [exprStart]⟩, ⟨_, _, rfl, rfl⟩, fun _ _ _ e => (nomatch e), rfl, rfl, fun rest hr => ?_⟩
    · have := hlx t' k rest ht hf
      simpa using this
    · refine paren_closed (ts := [.sym .minus, t]) (pattern_closed ?_ (PEnd.cons rfl (by decide) (by decide))) ⟨_, _, rfl, by decide, by decide⟩ rfl
      rw [full_at]; show seq (pNumber (.sym .minus :: t :: .sym .rpar :: rest)) _ = _
      rw [h2 _ (CEnd.cons rfl)]; rfl
  | @complex k v x hk h hs =>
    obtain ⟨s, t, g, h1, h2⟩ := h.good (H := H) hP
    obtain ⟨s', g'⟩ := good_imag (H := H) hP (r := P.imag x) ⟨_, hs, rfl⟩
    obtain ⟨sy, o, hsy, hc, hop, hlx⟩ : ∃ (sy : Sym) (o : String), Unparse.binop k = some o ∧
        (∀ r, complexRest v (.sym sy :: .imag (P.imag x) :: r) = some (binOp v k (constant (.complex (P.imag x))), r)) ∧
        patStop (.sym sy) = false ∧
        ∀ {P : Reading} {t rest k}, Lx P (' ' :: t) k rest → Lx P (o.toList ++ ' ' :: t) (.sym sy :: k) rest := by
      rcases hk with rfl | rfl
      · obtain ⟨o, h1, h2⟩ := Lx.binSym (l := 4) (s := .plus) rfl
        exact ⟨.plus, o, h1, fun _ => rfl, rfl, h2⟩
      · obtain ⟨o, h1, h2⟩ := Lx.binSym (l := 4) (s := .minus) rfl
        exact ⟨.minus, o, h1, fun _ => rfl, rfl, h2⟩
    refine ⟨'(' :: (s ++ ' ' :: (o.toList ++ ' ' :: (s' ++ [')']))), [.sym .lpar, t, .sym sy, .imag (P.imag x), .sym .rpar],
      Prints.matchValue (prints_cast (Unparse.Prints.binOp g.prints g'.prints hsy) (by simp [lit])), fun t' k rest ht hf => ?_,
      ⟨_, _, rfl, by simp [exprStart]⟩, ⟨_, _, rfl, rfl⟩, fun _ _ _ e => (nomatch e), rfl, rfl, fun rest hr => ?_⟩
    · have := Lx.lpar' (g.lx (Lx.sp (hlx (Lx.sp (g'.lx (Lx.rpar' ht) (Follow.cons rfl) (by simp))))) (Follow.cons rfl) (by simp))
      simpa using this
    · refine paren_closed (ts := [t, .sym sy, .imag (P.imag x)]) (pattern_closed ?_ (PEnd.cons rfl (by decide) (by decide)))
        (by obtain ⟨t', r, e, ht⟩ := g.head; cases e; exact ⟨_, _, rfl, atomStart_ne ht rfl, atomStart_ne ht rfl⟩) rfl
      rw [full_at]; show pClosedPat full (t :: .sym sy :: .imag (P.imag x) :: .sym .rpar :: rest) = _
      rw [h1, h2, hc]; rfl
  | str u x =>
    obtain ⟨s, g⟩ := good_str (P := P) (H := H) (u := u) (x := x)
    exact ⟨s, _, good_single g fun _ _ => rfl⟩
  | bytes h =>
    obtain ⟨s, g⟩ := good_bytes (P := P) (H := H) h
    exact ⟨s, _, good_single g fun _ _ => rfl⟩
  | @dotted x xs hx hn h =>
    obtain ⟨s, us, g, h1, -, h3⟩ := dottedExpr_good (H := H) hP hx h
    refine ⟨s, _, Prints.matchValue g.prints, g.body, g.starts, g.head, fun x t r e => (g.look x t r e).2, rfl, rfl, fun rest hr => ?_⟩
    have h3 := h3 rest fun r => hr.ne rfl
    obtain ⟨y, r, rfl⟩ := h1 hn
    rw [full_at]
    show namePattern full (attrs (name x) (.sym .dot :: .name y :: r ++ rest)).1 (attrs (name x) (.sym .dot :: .name y :: r ++ rest)).2 = _
    rw [h3]
    dsimp only
    unfold namePattern
    split
    · exact absurd rfl (hr.ne rfl)
    · rfl

end Mcpyrate.PyText
