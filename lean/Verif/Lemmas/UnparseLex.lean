import Verif.Lemmas.PyTokens
/-
Lexing what the unparser writes, piece by piece from the left.
-/
namespace Mcpyrate.PyText
open Py

variable {P : Reading} {t rest : Str} {k : List Tok}

/-- One piece in front. -/
theorem Lx.before {w : Str} {k' : List Tok} (h : Lx P w k' (t ++ rest)) (ht : Lx P t k rest) : Lx P (w ++ t) (k' ++ k) rest :=
  Lx.append h ht

theorem Lx.sp (h : Lx P t k rest) : Lx P (' ' :: t) k rest := Lx.append (t1 := [' ']) (k1 := []) Lx.space h

theorem Lx.lpar' (h : Lx P t k rest) : Lx P ('(' :: t) (.sym .lpar :: k) rest := Lx.append Lx.lpar h
theorem Lx.rpar' (h : Lx P t k rest) : Lx P (')' :: t) (.sym .rpar :: k) rest := Lx.append Lx.rpar h
theorem Lx.lbrack' (h : Lx P t k rest) : Lx P ('[' :: t) (.sym .lbrack :: k) rest := Lx.append Lx.lbrack h
theorem Lx.rbrack' (h : Lx P t k rest) : Lx P (']' :: t) (.sym .rbrack :: k) rest := Lx.append Lx.rbrack h
theorem Lx.lbrace' (h : Lx P t k rest) : Lx P ('{' :: t) (.sym .lbrace :: k) rest := Lx.append Lx.lbrace h
theorem Lx.rbrace' (h : Lx P t k rest) : Lx P ('}' :: t) (.sym .rbrace :: k) rest := Lx.append Lx.rbrace h
theorem Lx.comma' (h : Lx P t k rest) : Lx P (',' :: t) (.sym .comma :: k) rest := Lx.append Lx.comma h
theorem Lx.colonEq' (h : Lx P t k rest) : Lx P (':' :: '=' :: t) (.sym .colonEq :: k) rest := Lx.append Lx.colonEq h

/-- The next character is not `=`. -/
theorem Lx.colon' (h : Lx P t k rest) (hn : (t ++ rest).head? ≠ some '=') : Lx P (':' :: t) (.sym .colon :: k) rest :=
  Lx.append (Lx.colon hn) h
theorem Lx.eq' (h : Lx P t k rest) (hn : (t ++ rest).head? ≠ some '=') : Lx P ('=' :: t) (.sym .eq :: k) rest :=
  Lx.append (Lx.eq hn) h
theorem Lx.star' (h : Lx P t k rest) (hn : (t ++ rest).head? ≠ some '=') (hs : (t ++ rest).head? ≠ some '*') :
    Lx P ('*' :: t) (.sym .star :: k) rest := Lx.append (Lx.star hn hs) h
theorem Lx.starStar' (h : Lx P t k rest) (hn : (t ++ rest).head? ≠ some '=') :
    Lx P ('*' :: '*' :: t) (.sym .starStar :: k) rest := Lx.append (Lx.starStar hn) h
theorem Lx.slash' (h : Lx P t k rest) (hn : (t ++ rest).head? ≠ some '=') (hs : (t ++ rest).head? ≠ some '/') :
    Lx P ('/' :: t) (.sym .slash :: k) rest := Lx.append (Lx.slash hn hs) h

/-- A keyword. -/
theorem Lx.kw (hP : P.Lawful) {c : Char} {w : Str} {s} (h : Lx P t k rest) (hk : keyword? (String.ofList (c :: w)) = some s)
    (hc : P.start c = true) (hw : w.all P.cont = true) (hf : Follow (t ++ rest)) : Lx P (c :: w ++ t) (.sym s :: k) rest :=
  Lx.append (Lx.keyword hP hc (fun d hd => List.all_eq_true.1 hw d hd) hk hf.cont hf.quote) h

theorem Lx.kIf (hP : P.Lawful) (h : Lx P (' ' :: t) k rest) : Lx P ('i' :: 'f' :: ' ' :: t) (.sym .kIf :: k) rest :=
  Lx.kw hP (c := 'i') (w := ['f']) h rfl rfl rfl (Follow.cons rfl)
theorem Lx.kElse (hP : P.Lawful) (h : Lx P (' ' :: t) k rest) :
    Lx P ('e' :: 'l' :: 's' :: 'e' :: ' ' :: t) (.sym .kElse :: k) rest :=
  Lx.kw hP (c := 'e') (w := ['l', 's', 'e']) h rfl rfl rfl (Follow.cons rfl)
theorem Lx.kFor (hP : P.Lawful) (h : Lx P (' ' :: t) k rest) : Lx P ('f' :: 'o' :: 'r' :: ' ' :: t) (.sym .kFor :: k) rest :=
  Lx.kw hP (c := 'f') (w := ['o', 'r']) h rfl rfl rfl (Follow.cons rfl)
theorem Lx.kIn (hP : P.Lawful) (h : Lx P (' ' :: t) k rest) : Lx P ('i' :: 'n' :: ' ' :: t) (.sym .kIn :: k) rest :=
  Lx.kw hP (c := 'i') (w := ['n']) h rfl rfl rfl (Follow.cons rfl)
theorem Lx.kAsync (hP : P.Lawful) (h : Lx P (' ' :: t) k rest) :
    Lx P ('a' :: 's' :: 'y' :: 'n' :: 'c' :: ' ' :: t) (.sym .kAsync :: k) rest :=
  Lx.kw hP (c := 'a') (w := ['s', 'y', 'n', 'c']) h rfl rfl rfl (Follow.cons rfl)
theorem Lx.kNot (hP : P.Lawful) (h : Lx P (' ' :: t) k rest) : Lx P ('n' :: 'o' :: 't' :: ' ' :: t) (.sym .kNot :: k) rest :=
  Lx.kw hP (c := 'n') (w := ['o', 't']) h rfl rfl rfl (Follow.cons rfl)
theorem Lx.kAnd (hP : P.Lawful) (h : Lx P (' ' :: t) k rest) : Lx P ('a' :: 'n' :: 'd' :: ' ' :: t) (.sym .kAnd :: k) rest :=
  Lx.kw hP (c := 'a') (w := ['n', 'd']) h rfl rfl rfl (Follow.cons rfl)
theorem Lx.kOr (hP : P.Lawful) (h : Lx P (' ' :: t) k rest) : Lx P ('o' :: 'r' :: ' ' :: t) (.sym .kOr :: k) rest :=
  Lx.kw hP (c := 'o') (w := ['r']) h rfl rfl rfl (Follow.cons rfl)
theorem Lx.kIs (hP : P.Lawful) (h : Lx P (' ' :: t) k rest) : Lx P ('i' :: 's' :: ' ' :: t) (.sym .kIs :: k) rest :=
  Lx.kw hP (c := 'i') (w := ['s']) h rfl rfl rfl (Follow.cons rfl)
theorem Lx.kAwait (hP : P.Lawful) (h : Lx P (' ' :: t) k rest) :
    Lx P ('a' :: 'w' :: 'a' :: 'i' :: 't' :: ' ' :: t) (.sym .kAwait :: k) rest :=
  Lx.kw hP (c := 'a') (w := ['w', 'a', 'i', 't']) h rfl rfl rfl (Follow.cons rfl)
theorem Lx.kFrom (hP : P.Lawful) (h : Lx P (' ' :: t) k rest) :
    Lx P ('f' :: 'r' :: 'o' :: 'm' :: ' ' :: t) (.sym .kFrom :: k) rest :=
  Lx.kw hP (c := 'f') (w := ['r', 'o', 'm']) h rfl rfl rfl (Follow.cons rfl)
theorem Lx.kYield (hP : P.Lawful) (h : Lx P t k rest) (hf : Follow (t ++ rest)) :
    Lx P ('y' :: 'i' :: 'e' :: 'l' :: 'd' :: t) (.sym .kYield :: k) rest :=
  Lx.kw hP (c := 'y') (w := ['i', 'e', 'l', 'd']) h rfl rfl rfl hf
theorem Lx.kLambda (hP : P.Lawful) (h : Lx P t k rest) (hf : Follow (t ++ rest)) :
    Lx P ('l' :: 'a' :: 'm' :: 'b' :: 'd' :: 'a' :: t) (.sym .kLambda :: k) rest :=
  Lx.kw hP (c := 'l') (w := ['a', 'm', 'b', 'd', 'a']) h rfl rfl rfl hf
theorem Lx.kTrue (hP : P.Lawful) (h : Lx P t k rest) (hf : Follow (t ++ rest)) :
    Lx P ('T' :: 'r' :: 'u' :: 'e' :: t) (.sym .kTrue :: k) rest :=
  Lx.kw hP (c := 'T') (w := ['r', 'u', 'e']) h rfl rfl rfl hf
theorem Lx.kFalse (hP : P.Lawful) (h : Lx P t k rest) (hf : Follow (t ++ rest)) :
    Lx P ('F' :: 'a' :: 'l' :: 's' :: 'e' :: t) (.sym .kFalse :: k) rest :=
  Lx.kw hP (c := 'F') (w := ['a', 'l', 's', 'e']) h rfl rfl rfl hf
theorem Lx.kNone (hP : P.Lawful) (h : Lx P t k rest) (hf : Follow (t ++ rest)) :
    Lx P ('N' :: 'o' :: 'n' :: 'e' :: t) (.sym .kNone :: k) rest :=
  Lx.kw hP (c := 'N') (w := ['o', 'n', 'e']) h rfl rfl rfl hf

/-- An operator with a space after it. -/
theorem Lx.op {c : Char} {w : Str} {s} (h : Lx P (' ' :: t) k rest) (hd : isDigit c = false) (hc : P.start c = false)
    (hq : isQuote c = false) (hs : c ≠ ' ') (hn : c ≠ '\n')
    (ho : ∀ r : Str, r.head? = some ' ' → operator? c (w ++ r) = some (s, r)) :
    Lx P (c :: w ++ ' ' :: t) (.sym s :: k) rest :=
  Lx.append (Lx.sym hd hc hq hs hn (ho _ rfl)) h

/-- The binary operators. -/
theorem Lx.binSym {l : Nat} {s : Sym} {o : K} (h : binSym l s = some o) : ∃ x : String, Unparse.binop o = some x ∧
    ∀ {P : Reading} {t rest k}, Lx P (' ' :: t) k rest → Lx P (x.toList ++ ' ' :: t) (.sym s :: k) rest := by
  have one : ∀ c : Char, ∀ s : Sym, (∀ P : Reading, P.start c = false) → isDigit c = false → isQuote c = false → c ≠ ' ' →
      c ≠ '\n' → (∀ r : Str, r.head? = some ' ' → operator? c r = some (s, r)) →
      ∀ {P : Reading} {t rest k}, Lx P (' ' :: t) k rest → Lx P ([c] ++ ' ' :: t) (.sym s :: k) rest :=
    fun c s h1 h2 h3 h4 h5 h6 P t rest k h => Lx.op (w := []) h h2 (h1 P) h3 h4 h5 h6
  have two : ∀ c d : Char, ∀ s : Sym, (∀ P : Reading, P.start c = false) → isDigit c = false → isQuote c = false → c ≠ ' ' →
      c ≠ '\n' → (∀ r : Str, r.head? = some ' ' → operator? c (d :: r) = some (s, r)) →
      ∀ {P : Reading} {t rest k}, Lx P (' ' :: t) k rest → Lx P ([c, d] ++ ' ' :: t) (.sym s :: k) rest :=
    fun c d s h1 h2 h3 h4 h5 h6 P t rest k h => Lx.op (w := [d]) h h2 (h1 P) h3 h4 h5 h6
  unfold PyText.binSym at h
  split at h
  case h_1 => cases h; exact ⟨"|", rfl, one '|' _ (fun _ => rfl) rfl rfl (by decide) (by decide) (by intro r hr; simp [operator?, eqOr, hr])⟩
  case h_2 => cases h; exact ⟨"^", rfl, one '^' _ (fun _ => rfl) rfl rfl (by decide) (by decide) (by intro r hr; simp [operator?, eqOr, hr])⟩
  case h_3 => cases h; exact ⟨"&", rfl, one '&' _ (fun _ => rfl) rfl rfl (by decide) (by decide) (by intro r hr; simp [operator?, eqOr, hr])⟩
  case h_4 => cases h; exact ⟨"<<", rfl, two '<' '<' _ (fun _ => rfl) rfl rfl (by decide) (by decide) (by intro r hr; simp [operator?, eqOr, hr])⟩
  case h_5 => cases h; exact ⟨">>", rfl, two '>' '>' _ (fun _ => rfl) rfl rfl (by decide) (by decide) (by intro r hr; simp [operator?, eqOr, hr])⟩
  case h_6 => cases h; exact ⟨"+", rfl, one '+' _ (fun _ => rfl) rfl rfl (by decide) (by decide) (by intro r hr; simp [operator?, eqOr, hr])⟩
  case h_7 => cases h; exact ⟨"-", rfl, one '-' _ (fun _ => rfl) rfl rfl (by decide) (by decide) (by intro r hr; simp [operator?, eqOr, hr])⟩
  case h_8 => cases h; exact ⟨"*", rfl, one '*' _ (fun _ => rfl) rfl rfl (by decide) (by decide) (by intro r hr; simp [operator?, eqOr, hr])⟩
  case h_9 => cases h; exact ⟨"/", rfl, one '/' _ (fun _ => rfl) rfl rfl (by decide) (by decide) (by intro r hr; simp [operator?, eqOr, hr])⟩
  case h_10 => cases h; exact ⟨"//", rfl, two '/' '/' _ (fun _ => rfl) rfl rfl (by decide) (by decide) (by intro r hr; simp [operator?, eqOr, hr])⟩
  case h_11 => cases h; exact ⟨"%", rfl, one '%' _ (fun _ => rfl) rfl rfl (by decide) (by decide) (by intro r hr; simp [operator?, eqOr, hr])⟩
  case h_12 => cases h; exact ⟨"@", rfl, one '@' _ (fun _ => rfl) rfl rfl (by decide) (by decide) (by intro r hr; simp [operator?, eqOr, hr])⟩
  case h_13 => exact nomatch h

theorem Lx.pow (h : Lx P (' ' :: t) k rest) : Lx P ('*' :: '*' :: ' ' :: t) (.sym .starStar :: k) rest :=
  Lx.op (c := '*') (w := ['*']) h rfl rfl rfl (by decide) (by decide) (by intro r hr; simp [operator?, eqOr, hr])

/-- The tokens of a comparison operator. -/
def cmpToks : K → List Tok
  | .Eq => [.sym .eqEq] | .NotEq => [.sym .ne] | .Lt => [.sym .lt] | .LtE => [.sym .le] | .Gt => [.sym .gt] | .GtE => [.sym .ge]
  | .Is => [.sym .kIs] | .IsNot => [.sym .kIs, .sym .kNot] | .In => [.sym .kIn] | .NotIn => [.sym .kNot, .sym .kIn]
  | _ => []

/-- The comparison operators. -/
theorem Lx.cmpop (hP : P.Lawful) {o : K} {x : String} (h : Unparse.cmpop o = some x) (ht : Lx P (' ' :: t) k rest) :
    Lx P (x.toList ++ ' ' :: t) (cmpToks o ++ k) rest := by
  unfold Unparse.cmpop at h
  split at h
  case h_1 => cases h; exact Lx.op (c := '=') (w := ['=']) ht rfl rfl rfl (by decide) (by decide) (by intro r hr; simp [operator?, eqOr])
  case h_2 => cases h; exact Lx.op (c := '!') (w := ['=']) ht rfl rfl rfl (by decide) (by decide) (by intro r hr; simp [operator?])
  case h_3 => cases h; exact Lx.op (c := '<') (w := []) ht rfl rfl rfl (by decide) (by decide) (by intro r hr; simp [operator?, eqOr, hr])
  case h_4 => cases h; exact Lx.op (c := '<') (w := ['=']) ht rfl rfl rfl (by decide) (by decide) (by intro r hr; simp [operator?, eqOr])
  case h_5 => cases h; exact Lx.op (c := '>') (w := []) ht rfl rfl rfl (by decide) (by decide) (by intro r hr; simp [operator?, eqOr, hr])
  case h_6 => cases h; exact Lx.op (c := '>') (w := ['=']) ht rfl rfl rfl (by decide) (by decide) (by intro r hr; simp [operator?, eqOr])
  case h_7 => cases h; exact Lx.kIs hP ht
  case h_8 => cases h; exact Lx.kIs hP (Lx.sp (Lx.kNot hP ht))
  case h_9 => cases h; exact Lx.kIn hP ht
  case h_10 => cases h; exact Lx.kNot hP (Lx.sp (Lx.kIn hP ht))
  case h_11 => exact nomatch h

/-- The signs, directly followed by an expression. -/
theorem Lx.unSym {s : Sym} {o : K} (h : unSym s = some o) : ∃ x : String, Unparse.unop o = some x ∧ o ≠ .Not ∧
    ∀ {P : Reading} {t rest k}, (t ++ rest).head? ≠ some '=' → (t ++ rest).head? ≠ some '>' →
      Lx P t k rest → Lx P (x.toList ++ t) (.sym s :: k) rest := by
  unfold PyText.unSym at h
  split at h
  · cases h
    refine ⟨"+", rfl, by decide, fun h1 _ h => Lx.append (t1 := ['+']) (k1 := [_]) (Lx.sym rfl rfl rfl (by decide) (by decide) ?_) h⟩
    exact if_neg h1
  · cases h
    refine ⟨"-", rfl, by decide, fun h1 h2 h => Lx.append (t1 := ['-']) (k1 := [_]) (Lx.sym rfl rfl rfl (by decide) (by decide) ?_) h⟩
    simp only [List.nil_append]
    show (if _ then _ else _) = _
    rw [if_neg h2]; exact if_neg h1
  · cases h
    refine ⟨"~", rfl, by decide, fun _ _ h => Lx.append (t1 := ['~']) (k1 := [_]) (Lx.sym rfl rfl rfl (by decide) (by decide) ?_) h⟩
    simp [operator?]
  · exact nomatch h

end Mcpyrate.PyText
