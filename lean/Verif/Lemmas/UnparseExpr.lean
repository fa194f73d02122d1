import Verif.Lemmas.UnparseGood
/-
The expressions in parentheses, and those that go on after another expression.
-/
namespace Mcpyrate.PyText
open Py
open Unparse (Host Prints PrintsL lit interleave isIntConstant)

variable {P : Reading} {H : Host}

/-- Some text is good for the tree. -/
def G (P : Reading) (H : Host) (v : Val) : Prop := ∃ s ts, Good P H v s ts

theorem prints_cast {v : Val} {s s' : Str} (h : Prints H v s) (e : s = s') : Prints H v s' := e ▸ h

/-- In brackets. -/
theorem good_paren {v s ts} (prints : Prints H v ('(' :: (s ++ [')'])))
    (lexes : ∀ rest, Lx P (s ++ [')']) (ts ++ [.sym .rpar]) rest) (cls : IsExprNode v)
    (parses : ∀ rest, full .paren (ts ++ .sym .rpar :: rest) = some (v, rest)) : G P H v :=
  ⟨_, .sym .lpar :: (ts ++ [.sym .rpar]), Good.ofAtom prints (fun rest _ _ => Lx.lpar' (lexes rest))
    ⟨'(', _, rfl, by simp [exprStart]⟩ ⟨'(' :: s, ')', rfl, by decide⟩ ⟨_, _, rfl, rfl⟩ (fun _ _ _ e => nomatch e) cls
    (fun rest => by
      rw [full_at, List.cons_append, List.append_assoc]; exact parses rest)⟩

theorem good_brack {v s ts} (prints : Prints H v ('[' :: (s ++ [']'])))
    (lexes : ∀ rest, Lx P (s ++ [']']) (ts ++ [.sym .rbrack]) rest) (cls : IsExprNode v)
    (parses : ∀ rest, full .brack (ts ++ .sym .rbrack :: rest) = some (v, rest)) : G P H v :=
  ⟨_, .sym .lbrack :: (ts ++ [.sym .rbrack]), Good.ofAtom prints (fun rest _ _ => Lx.lbrack' (lexes rest))
    ⟨'[', _, rfl, by simp [exprStart]⟩ ⟨'[' :: s, ']', rfl, by decide⟩ ⟨_, _, rfl, rfl⟩ (fun _ _ _ e => nomatch e) cls
    (fun rest => by
      rw [full_at, List.cons_append, List.append_assoc]; exact parses rest)⟩

theorem good_brace {v s ts} (prints : Prints H v ('{' :: (s ++ ['}'])))
    (lexes : ∀ rest, Lx P (s ++ ['}']) (ts ++ [.sym .rbrace]) rest) (cls : IsExprNode v)
    (parses : ∀ rest, full .brace (ts ++ .sym .rbrace :: rest) = some (v, rest)) : G P H v :=
  ⟨_, .sym .lbrace :: (ts ++ [.sym .rbrace]), Good.ofAtom prints (fun rest _ _ => Lx.lbrace' (lexes rest))
    ⟨'{', _, rfl, by simp [exprStart]⟩ ⟨'{' :: s, '}', rfl, by decide⟩ ⟨_, _, rfl, rfl⟩ (fun _ _ _ e => nomatch e) cls
    (fun rest => by
      rw [full_at, List.cons_append, List.append_assoc]; exact parses rest)⟩

/-! ### Looking ahead -/

/-- Does not begin with `x :=`. -/
def NotNamed (ts : List Tok) : Prop := ∀ x r, ts ≠ .name x :: .sym .colonEq :: r
/-- Does not begin with `x =`. -/
def NotKeyword (ts : List Tok) : Prop := ∀ x r, ts ≠ .name x :: .sym .eq :: r

theorem Good.notNamed {v s ts} (h : Good P H v s ts) {rest : List Tok} (hr : ∀ r, rest ≠ .sym .colonEq :: r) :
    NotNamed (ts ++ rest) := by
  intro x r e
  obtain ⟨t, ts', rfl, -⟩ := h.head
  cases ts' with
  | nil => simp only [List.cons_append, List.nil_append, List.cons.injEq] at e; exact hr _ e.2
  | cons u ts'' =>
    simp only [List.cons_append, List.cons.injEq] at e
    obtain ⟨rfl, rfl, -⟩ := e
    exact (h.look _ _ _ rfl).1 rfl

theorem Good.notKeywordArg {v s ts} (h : Good P H v s ts) {rest : List Tok} (hr : ∀ r, rest ≠ .sym .eq :: r) :
    NotKeyword (ts ++ rest) := by
  intro x r e
  obtain ⟨t, ts', rfl, -⟩ := h.head
  cases ts' with
  | nil => simp only [List.cons_append, List.nil_append, List.cons.injEq] at e; exact hr _ e.2
  | cons u ts'' =>
    simp only [List.cons_append, List.cons.injEq] at e
    obtain ⟨rfl, rfl, -⟩ := e
    exact (h.look _ _ _ rfl).2 rfl

/-- The tokens that begin an expression. -/
def opener : Tok → Bool
  | .sym .plus | .sym .minus | .sym .tilde | .sym .kNot | .sym .kAwait | .sym .kLambda => true
  | t => atomStart t

theorem opener_atom {t : Tok} (h : atomStart t = true) : opener t = true := by
  unfold atomStart at h
  split at h <;> first | rfl | exact nomatch h

theorem elem_of_expr {ts x} (h : full .expr ts = some x) (hs : ∀ r, ts ≠ .sym .star :: r) : full .elem ts = some x := by
  rw [full_at]; show pElem full ts = _
  unfold pElem
  split
  · exact absurd rfl (hs _)
  · exact h

theorem paren_elem {ts} (h1 : ∀ r, ts ≠ .sym .rpar :: r) (h2 : ∀ r, ts ≠ .sym .kYield :: r) (h3 : NotNamed ts) :
    full .paren ts = seq (full .elem ts) (parenRest full) := by
  rw [full_at]; show pParen full ts = _
  unfold pParen
  split
  · exact absurd rfl (h1 _)
  · exact absurd rfl (h2 _)
  · exact absurd rfl (h2 _)
  · exact absurd rfl (h2 _)
  · exact absurd rfl (h3 _ _)
  · rfl

/-- An expression in parentheses. -/
theorem paren_level {K : Nat} (hK : K ≤ 14) {v ts rest} (h : full (ntAt K) (ts ++ .sym .rpar :: rest) = some (v, .sym .rpar :: rest))
    (hd : ∃ t r, ts = t :: r ∧ opener t = true ∧ K ≤ startLevel t) (hl : NotNamed (ts ++ .sym .rpar :: rest))
    (hs : isStarred v = false) : full .paren (ts ++ .sym .rpar :: rest) = some (v, rest) := by
  obtain ⟨t, r, rfl, ht, hK'⟩ := hd
  have he : full .expr (t :: r ++ .sym .rpar :: rest) = some (v, .sym .rpar :: rest) :=
    lift (L := 0) hK (Nat.zero_le _) h ⟨t, _, rfl, hK'⟩ (NoCont.none rfl)
  rw [paren_elem ?_ ?_ hl, elem_of_expr he ?_, seq_some]
  · show (if _ then _ else _) = _
    rw [hs]; rfl
  all_goals
    rintro r' e
    cases e
    exact nomatch ht

theorem full_bin {l a b k s ts rest} (h1 : full (binNext l) ts = some (a, .sym s :: b)) (hs : binSym l s = some k) {y}
    (h2 : full (binNext l) b = some (y, rest)) (hr : NoCont (5 + l) rest) : full (.bin l) ts = some (binOp a k y, rest) := by
  rw [full_at]; show pBin full l ts = _
  unfold pBin
  rw [h1, seq_some, full_at]
  show pBinRest full l a _ = _
  unfold pBinRest binOp?
  dsimp only
  rw [hs]
  dsimp only [Option.map]
  rw [h2, seq_some, binRest_stop hr]

theorem binNext_at {l : Nat} (hl : l < 6) : binNext l = ntAt (6 + l) := by
  match l with
  | 0 | 1 | 2 | 3 | 4 | 5 => rfl
  | l + 6 => omega

theorem bin_at {l : Nat} (hl : l < 6) : NT.bin l = ntAt (5 + l) := by
  match l with
  | 0 | 1 | 2 | 3 | 4 | 5 => rfl
  | l + 6 => omega

theorem g_binOp {a b : Val} {l : Nat} {s : Sym} {k : K} (hs : binSym l s = some k) (ha : G P H a) (hb : G P H b) :
    G P H (binOp a k b) := by
  obtain ⟨x, xt, ga⟩ := ha
  obtain ⟨y, yt, gb⟩ := hb
  obtain ⟨o, ho, hlx⟩ := Lx.binSym hs
  obtain ⟨hlev, hl⟩ := binSym_level hs
  refine good_paren (s := x ++ ' ' :: (o.toList ++ ' ' :: y)) (ts := xt ++ .sym s :: yt)
    (prints_cast (Prints.binOp ga.prints gb.prints ho) (by simp [lit])) (fun rest => ?_)
    ⟨.BinOp, _, rfl, rfl, by decide, by decide⟩ fun rest => ?_
  · have := ga.lx (Lx.sp (hlx (Lx.sp (gb.lx (Lx.rpar' (Lx.nil (P := P) (rest := rest))) (Follow.cons rfl) (by simp))))) (Follow.cons rfl)
      (by simp)
    simpa using this
  · refine paren_level (K := 5 + l) (by omega) ?_ ?_ ?_ rfl
    · rw [← bin_at hl, List.append_assoc, List.cons_append]
      refine full_bin (b := yt ++ .sym .rpar :: rest) ?_ hs ?_ (NoCont.none rfl)
      · rw [binNext_at hl]; exact ga.at (by omega) (NoCont.lt hlev (by omega))
      · rw [binNext_at hl]; exact gb.at (by omega) (NoCont.none rfl)
    · obtain ⟨t, r, rfl, ht⟩ := ga.head
      exact ⟨t, _, rfl, opener_atom ht, by rw [atomStart_level ht]; omega⟩
    · rw [List.append_assoc]
      refine ga.notNamed ?_
      rintro r e
      cases e
      exact nomatch hlev

theorem g_pow {a b : Val} (ha : G P H a) (hb : G P H b) : G P H (binOp a .Pow b) := by
  obtain ⟨x, xt, ga⟩ := ha
  obtain ⟨y, yt, gb⟩ := hb
  refine good_paren (s := x ++ ' ' :: '*' :: '*' :: ' ' :: y) (ts := xt ++ .sym .starStar :: yt)
    (prints_cast (Prints.binOp ga.prints gb.prints rfl) (by simp [lit])) (fun rest => ?_)
    ⟨.BinOp, _, rfl, rfl, by decide, by decide⟩ fun rest => ?_
  · have := ga.lx (Lx.sp (Lx.pow (Lx.sp (gb.lx (Lx.rpar' (Lx.nil (P := P) (rest := rest))) (Follow.cons rfl) (by simp))))) (Follow.cons rfl)
      (by simp)
    simpa using this
  · refine paren_level (K := 12) (by decide) ?_ ?_ ?_ rfl
    · show full .power _ = _
      rw [full_at]; show pPower full _ = _
      unfold pPower
      rw [List.append_assoc, List.cons_append, show full .await _ = _ from ga.at (L := 13) (by decide) (NoCont.lt (j := 12) rfl (by decide)),
        seq_some]
      show seq (full .factor _) _ = _
      rw [show full .factor _ = _ from gb.at (L := 11) (by decide) (NoCont.none rfl)]; rfl
    · obtain ⟨t, r, rfl, ht⟩ := ga.head
      exact ⟨t, _, rfl, opener_atom ht, by rw [atomStart_level ht]; omega⟩
    · rw [List.append_assoc]
      exact ga.notNamed (by rintro r e; cases e)

theorem g_unaryOp {a : Val} {s : Sym} {k : K} (hs : unSym s = some k) (ha : G P H a) : G P H (unaryOp k a) := by
  obtain ⟨x, xt, ga⟩ := ha
  obtain ⟨o, ho, hn, hlx⟩ := Lx.unSym hs
  refine good_paren (s := o.toList ++ x) (ts := .sym s :: xt)
    (prints_cast (Prints.unaryOp ga.prints ho hn) (by simp [lit])) (fun rest => ?_)
    ⟨.UnaryOp, _, rfl, rfl, by decide, by decide⟩ fun rest => ?_
  · rw [List.append_assoc]
    refine hlx ?_ ?_ (ga.lx (Lx.rpar' Lx.nil) (Follow.cons rfl) (by simp))
    · rw [List.append_assoc]; exact ga.next _ (by simp)
    · rw [List.append_assoc]; exact ga.next _ (by simp)
  · have hst : startLevel (.sym s) = 11 ∧ opener (.sym s) = true := by
      unfold unSym at hs
      split at hs <;> first | exact ⟨rfl, rfl⟩ | exact nomatch hs
    refine paren_level (K := 11) (by decide) ?_ ⟨_, _, rfl, hst.2, by rw [hst.1]; decide⟩ (fun _ _ e => nomatch e) rfl
    show full .factor _ = _
    rw [full_at]; show pFactor full _ = _
    unfold pFactor unOp?
    rw [List.cons_append]
    dsimp only
    rw [hs]
    dsimp only [Option.map]
    rw [show full .factor _ = _ from ga.at (L := 11) (by decide) (NoCont.none rfl)]; rfl

theorem g_not (hP : P.Lawful) {a : Val} (ha : G P H a) : G P H (unaryOp .Not a) := by
  obtain ⟨x, xt, ga⟩ := ha
  refine good_paren (s := 'n' :: 'o' :: 't' :: ' ' :: x) (ts := .sym .kNot :: xt)
    (prints_cast (Prints.not ga.prints) (by simp [lit])) (fun rest => ?_)
    ⟨.UnaryOp, _, rfl, rfl, by decide, by decide⟩ fun rest => ?_
  · exact Lx.kNot hP (Lx.sp (ga.lx (Lx.rpar' Lx.nil) (Follow.cons rfl) (by simp)))
  · refine paren_level (K := 3) (by decide) ?_ ⟨_, _, rfl, rfl, by decide⟩ (fun _ _ e => nomatch e) rfl
    show full .inv _ = _
    rw [full_at, List.cons_append]; show seq (full .inv _) _ = _
    rw [show full .inv _ = _ from ga.at (L := 3) (by decide) (NoCont.none rfl)]; rfl

theorem g_await (hP : P.Lawful) {a : Val} (ha : G P H a) : G P H (mk .Await [(.value, a)]) := by
  obtain ⟨x, xt, ga⟩ := ha
  refine good_paren (s := 'a' :: 'w' :: 'a' :: 'i' :: 't' :: ' ' :: x) (ts := .sym .kAwait :: xt)
    (prints_cast (Prints.await ga.prints ga.truthy) (by simp [lit])) (fun rest => ?_)
    ⟨.Await, _, rfl, rfl, by decide, by decide⟩ fun rest => ?_
  · exact Lx.kAwait hP (Lx.sp (ga.lx (Lx.rpar' Lx.nil) (Follow.cons rfl) (by simp)))
  · refine paren_level (K := 13) (by decide) ?_ ⟨_, _, rfl, rfl, by decide⟩ (fun _ _ e => nomatch e) rfl
    show full .await _ = _
    rw [full_at, List.cons_append]; show seq (full .primary _) _ = _
    rw [ga.primary (NoCont.none rfl)]; rfl

theorem g_yield (hP : P.Lawful) {a : Val} (ha : G P H a) : G P H (mk .Yield [(.value, a)]) := by
  obtain ⟨x, xt, ga⟩ := ha
  refine good_paren (s := 'y' :: 'i' :: 'e' :: 'l' :: 'd' :: ' ' :: x) (ts := .sym .kYield :: xt)
    (prints_cast (Prints.yield ga.prints ga.truthy) (by simp [lit])) (fun rest => ?_)
    ⟨.Yield, _, rfl, rfl, by decide, by decide⟩ fun rest => ?_
  · exact Lx.kYield hP (Lx.sp (ga.lx (Lx.rpar' Lx.nil) (Follow.cons rfl) (by simp))) (Follow.cons rfl)
  · rw [full_at]; show pParen full _ = _
    have he := ga.expr (rest := .sym .rpar :: rest) (NoCont.none rfl)
    obtain ⟨t, r, rfl, ht⟩ := ga.head
    simp only [List.cons_append] at he ⊢
    unfold pParen
    split
    · rename_i e; exact nomatch e
    · rename_i e; cases e; exact nomatch ht
    · rename_i e; cases e; exact nomatch ht
    · rename_i e; cases e; rw [he]; rfl
    · rename_i e; exact nomatch e
    · rename_i h _; exact absurd rfl (h _)

theorem g_yieldNone (hP : P.Lawful) : G P H (mk .Yield [(.value, .none)]) :=
  good_paren (s := ['y', 'i', 'e', 'l', 'd']) (ts := [.sym .kYield]) (prints_cast Prints.yieldNone (by simp [lit]))
    (fun _ => Lx.kYield hP (Lx.rpar' Lx.nil) (Follow.cons rfl)) ⟨.Yield, _, rfl, rfl, by decide, by decide⟩
    fun rest => by rw [full_at]; rfl

theorem g_yieldFrom (hP : P.Lawful) {a : Val} (ha : G P H a) : G P H (mk .YieldFrom [(.value, a)]) := by
  obtain ⟨x, xt, ga⟩ := ha
  refine good_paren (s := 'y' :: 'i' :: 'e' :: 'l' :: 'd' :: ' ' :: 'f' :: 'r' :: 'o' :: 'm' :: ' ' :: x)
    (ts := .sym .kYield :: .sym .kFrom :: xt)
    (prints_cast (Prints.yieldFrom ga.prints ga.truthy) (by simp [lit])) (fun rest => ?_)
    ⟨.YieldFrom, _, rfl, rfl, by decide, by decide⟩ fun rest => ?_
  · exact Lx.kYield hP (Lx.sp (Lx.kFrom hP (Lx.sp (ga.lx (Lx.rpar' Lx.nil) (Follow.cons rfl) (by simp))))) (Follow.cons rfl)
  · rw [full_at, List.cons_append, List.cons_append]; show seq (full .expr _) _ = _
    rw [ga.expr (NoCont.none rfl)]; rfl

theorem Lx.nameThen (hP : P.Lawful) {x : String} (hx : TokOK P (.name x)) {t ts rest} (h : Lx P t ts rest)
    (f : Follow (t ++ rest)) : Lx P (x.toList ++ t) (.name x :: ts) rest :=
  Lx.append (Lx.name hP hx f.cont f.quote) h

theorem g_namedExpr (hP : P.Lawful) {x : String} {a : Val} (hx : TokOK P (.name x)) (ha : G P H a) : G P H (namedExpr x a) := by
  obtain ⟨y, yt, ga⟩ := ha
  refine good_paren (s := x.toList ++ ' ' :: ':' :: '=' :: ' ' :: y) (ts := .name x :: .sym .colonEq :: yt)
    (prints_cast (Prints.namedExpr ga.prints) (by simp [lit])) (fun rest => ?_)
    ⟨.NamedExpr, _, rfl, rfl, by decide, by decide⟩ fun rest => ?_
  · have := Lx.nameThen hP hx (Lx.sp (Lx.colonEq' (Lx.sp (ga.lx (Lx.rpar' (Lx.nil (P := P) (rest := rest)))
      (Follow.cons rfl) (by simp))))) (Follow.cons rfl)
    simpa using this
  · rw [full_at, List.cons_append, List.cons_append]; show seq (full .expr _) _ = _
    rw [ga.expr (NoCont.none rfl)]; rfl

theorem g_ifExp (hP : P.Lawful) {a b c : Val} (ha : G P H a) (hb : G P H b) (hc : G P H c) : G P H (ifExp a b c) := by
  obtain ⟨x, xt, ga⟩ := ha
  obtain ⟨y, yt, gb⟩ := hb
  obtain ⟨z, zt, gc⟩ := hc
  refine good_paren (s := x ++ ' ' :: 'i' :: 'f' :: ' ' :: (y ++ ' ' :: 'e' :: 'l' :: 's' :: 'e' :: ' ' :: z))
    (ts := xt ++ .sym .kIf :: (yt ++ .sym .kElse :: zt))
    (prints_cast (Prints.ifExp ga.prints gb.prints gc.prints) (by simp [lit])) (fun rest => ?_)
    ⟨.IfExp, _, rfl, rfl, by decide, by decide⟩ fun rest => ?_
  · have h1 := gc.lx (Lx.rpar' (Lx.nil (P := P) (rest := rest))) (Follow.cons rfl) (by simp)
    have h2 := gb.lx (Lx.sp (Lx.kElse hP (Lx.sp h1))) (Follow.cons rfl) (by simp)
    have := ga.lx (Lx.sp (Lx.kIf hP (Lx.sp h2))) (Follow.cons rfl) (by simp)
    simpa using this
  · have hd : ∃ t r, xt ++ .sym .kIf :: (yt ++ .sym .kElse :: zt) = t :: r ∧ atomStart t = true := by
      obtain ⟨t, r, e, ht⟩ := ga.head
      exact ⟨t, _, by rw [e]; rfl, ht⟩
    refine paren_level (K := 0) (by decide) ?_ ?_ ?_ rfl
    · show full .expr _ = _
      rw [full_at]; show pExpr full _ = _
      unfold pExpr
      split
      · rename_i e
        obtain ⟨t, r, e', ht⟩ := hd
        rw [e'] at e; cases e; exact nomatch ht
      · rw [List.append_assoc, List.cons_append, ga.disj (NoCont.lt (j := 0) rfl (by decide)), seq_some]
        show seq (full .disj (yt ++ .sym .kElse :: zt ++ _)) _ = _
        rw [List.append_assoc, List.cons_append, gb.disj (NoCont.none rfl), seq_some]
        show seq (full .expr (zt ++ _)) _ = _
        rw [gc.expr (NoCont.none rfl)]; rfl
    · obtain ⟨t, r, e', ht⟩ := hd
      exact ⟨t, r, e', opener_atom ht, Nat.zero_le _⟩
    · rw [List.append_assoc]
      exact ga.notNamed (by rintro r e; cases e)

end Mcpyrate.PyText
