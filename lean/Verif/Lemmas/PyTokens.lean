import Verif.Lemmas.PyLexer
import Verif.Model.Unparse
/-
How the texts that the unparser writes for tokens are read by the reference lexer.
-/
namespace Mcpyrate.PyText
open Py

/-! ### What may follow an expression, and begin one -/

def followChar (c : Char) : Bool :=
  c = ' ' || c = ')' || c = ']' || c = '}' || c = ',' || c = ':' || c = '.' || c = '(' || c = '[' || c = '=' || c = '\n'

/-- What may follow the text of an expression. -/
def Follow (rest : Str) : Prop := ∀ c r, rest = c :: r → followChar c = true

theorem followChar_cases {c : Char} (h : followChar c = true) : c = ' ' ∨ c = ')' ∨ c = ']' ∨ c = '}' ∨ c = ',' ∨ c = ':' ∨
    c = '.' ∨ c = '(' ∨ c = '[' ∨ c = '=' ∨ c = '\n' := by
  simpa [followChar, or_assoc] using h

theorem followChar_cont {P : Reading} {c : Char} (h : followChar c = true) : P.cont c = false := by
  rcases followChar_cases h with rfl | rfl | rfl | rfl | rfl | rfl | rfl | rfl | rfl | rfl | rfl <;> rfl

theorem followChar_quote {c : Char} (h : followChar c = true) : isQuote c = false := by
  rcases followChar_cases h with rfl | rfl | rfl | rfl | rfl | rfl | rfl | rfl | rfl | rfl | rfl <;> rfl

theorem Follow.nil : Follow [] := fun _ _ h => nomatch h
theorem Follow.cons {c r} (h : followChar c = true) : Follow (c :: r) := fun _ _ e => by cases e; exact h

theorem Follow.cont {P : Reading} {rest} (h : Follow rest) : Stops P.cont rest := fun c r e => followChar_cont (h c r e)

theorem digit_cont {P : Reading} {c : Char} (h : P.cont c = false) : isDigit c = false := by
  unfold Reading.cont at h
  simp only [Bool.or_eq_false_iff] at h
  exact h.1.2

theorem Follow.digit {rest} (h : Follow rest) : Stops isDigit rest := fun c r e =>
  digit_cont (P := ⟨fun _ => false, fun _ => false, fun _ => "", fun _ => ""⟩) (h.cont c r e)

theorem Follow.quote {rest} (h : Follow rest) : rest.head?.any isQuote = false := by
  cases rest with
  | nil => rfl
  | cons c r => simpa using followChar_quote (h c r rfl)

/-- What may begin the text of an expression. -/
def exprStart (P : Reading) (c : Char) : Bool :=
  P.start c || isDigit c || c = '\'' || c = '"' || c = '(' || c = '[' || c = '{' || c = '.'

theorem exprStart_start {P : Reading} {c : Char} (h : P.start c = true) : exprStart P c = true := by
  simp [exprStart, h]

/-- The characters that do not begin an expression. -/
theorem exprStart_ne {P : Reading} {c : Char} (h : exprStart P c = true) :
    c ≠ '=' ∧ c ≠ '*' ∧ c ≠ '>' ∧ c ≠ '/' ∧ c ≠ ':' ∧ c ≠ ' ' ∧ c ≠ '\n' := by
  refine ⟨?_, ?_, ?_, ?_, ?_, ?_, ?_⟩ <;>
  · rintro rfl
    exact Bool.false_ne_true (Eq.trans (by rfl) h)

/-! ### Symbols -/

theorem Lx.sym {P : Reading} {c : Char} {w rest : Str} {s} (hd : isDigit c = false) (hc : P.start c = false)
    (hq : isQuote c = false) (hs : c ≠ ' ') (hn : c ≠ '\n') (h : operator? c (w ++ rest) = some (s, rest)) :
    Lx P (c :: w) [.sym s] rest := by
  refine Lx.token hs hn ?_
  have hu : c ≠ 'u' := by rintro rfl; exact Bool.noConfusion (hc.symm.trans (rfl : P.start 'u' = true))
  have hb : c ≠ 'b' := by rintro rfl; exact Bool.noConfusion (hc.symm.trans (rfl : P.start 'b' = true))
  have h1 : c ≠ '\'' := by rintro rfl; exact Bool.noConfusion hq
  have h2 : c ≠ '"' := by rintro rfl; exact Bool.noConfusion hq
  unfold PyText.token
  split <;> first | contradiction | skip
  simp [hd, hc, h]

section
variable {P : Reading} {rest : Str}
local macro "sym!" : term => `(Lx.sym rfl rfl rfl (by decide) (by decide) rfl)
theorem Lx.lpar : Lx P ['('] [.sym .lpar] rest := sym!
theorem Lx.rpar : Lx P [')'] [.sym .rpar] rest := sym!
theorem Lx.lbrack : Lx P ['['] [.sym .lbrack] rest := sym!
theorem Lx.rbrack : Lx P [']'] [.sym .rbrack] rest := sym!
theorem Lx.lbrace : Lx P ['{'] [.sym .lbrace] rest := sym!
theorem Lx.rbrace : Lx P ['}'] [.sym .rbrace] rest := sym!
theorem Lx.comma : Lx P [','] [.sym .comma] rest := sym!
theorem Lx.ellipsis : Lx P ['.', '.', '.'] [.sym .ellipsis] rest := sym!
theorem Lx.colonEq : Lx P [':', '='] [.sym .colonEq] rest := sym!

theorem eqOr_no {yes no : Sym} (h : rest.head? ≠ some '=') : eqOr yes no rest = some (no, rest) := if_neg h

theorem Lx.colon (h : rest.head? ≠ some '=') : Lx P [':'] [.sym .colon] rest :=
  Lx.sym rfl rfl rfl (by decide) (by decide) (eqOr_no h)
theorem Lx.eq (h : rest.head? ≠ some '=') : Lx P ['='] [.sym .eq] rest :=
  Lx.sym rfl rfl rfl (by decide) (by decide) (eqOr_no h)
theorem Lx.star (h : rest.head? ≠ some '=') (h' : rest.head? ≠ some '*') : Lx P ['*'] [.sym .star] rest :=
  Lx.sym rfl rfl rfl (by decide) (by decide) ((if_neg h').trans (eqOr_no h))
theorem Lx.starStar (h : rest.head? ≠ some '=') : Lx P ['*', '*'] [.sym .starStar] rest :=
  Lx.sym rfl rfl rfl (by decide) (by decide) (eqOr_no (yes := .starStarEq) h)
theorem Lx.slash (h : rest.head? ≠ some '=') (h' : rest.head? ≠ some '/') : Lx P ['/'] [.sym .slash] rest :=
  Lx.sym rfl rfl rfl (by decide) (by decide) ((if_neg h').trans (eqOr_no h))
theorem Lx.at (h : rest.head? ≠ some '=') : Lx P ['@'] [.sym .at] rest :=
  Lx.sym rfl rfl rfl (by decide) (by decide) (eqOr_no h)
theorem Lx.dot {c : Char} {r : Str} (h : P.start c = true) : Lx P ['.'] [.sym .dot] (c :: r) := by
  have h2 : c ≠ '.' := by rintro rfl; exact Bool.false_ne_true (Eq.trans (by rfl) h)
  refine Lx.sym rfl rfl rfl (by decide) (by decide) ?_
  have h1 : isDigit c = false := by
    cases hd : isDigit c with
    | false => rfl
    | true =>
      exfalso
      unfold isDigit at hd
      unfold Reading.start isLetter at h
      simp only [Bool.and_eq_true, Bool.or_eq_true, decide_eq_true_eq] at h hd
      rcases h with ((h | h) | h) | h
      · omega
      · omega
      · subst h; revert hd; decide
      · omega
  show dots (c :: r) = _
  simp [dots, h1, h2]
end

/-! ### Words -/

theorem token_word {P : Reading} (hP : P.Lawful) {c : Char} {w rest : Str} (hc : P.start c = true)
    (hw : ∀ d ∈ w, P.cont d = true) (hr : Stops P.cont rest) (hq : rest.head?.any isQuote = false) :
    token P c (w ++ rest) = some (match keyword? (String.ofList (c :: w)) with
      | some s => .sym s
      | none => .name (String.ofList (c :: w)), rest) := by
  have hne : ∀ d r, w ++ rest = d :: r → isQuote d = false := by
    intro d r e
    cases w with
    | nil => rw [List.nil_append] at e; rw [e] at hq; simpa using hq
    | cons d' w =>
      rw [List.cons_append] at e; cases e
      cases h : isQuote d with
      | false => rfl
      | true =>
        have : d = '\'' ∨ d = '"' := by simpa [isQuote] using h
        have h2 := hw d (by simp)
        rcases this with rfl | rfl <;> exact absurd (Eq.trans (by rfl) h2) Bool.false_ne_true
  have h1 : c ≠ '\'' := by rintro rfl; exact Bool.false_ne_true (Eq.trans (by rfl) hc)
  have h2 : c ≠ '"' := by rintro rfl; exact Bool.false_ne_true (Eq.trans (by rfl) hc)
  have hd : isDigit c = false := by
    cases hd : isDigit c with
    | false => rfl
    | true =>
      exfalso
      unfold isDigit at hd
      unfold Reading.start isLetter at hc
      simp only [Bool.and_eq_true, Bool.or_eq_true, decide_eq_true_eq] at hc hd
      rcases hc with ((h | h) | h) | h
      · omega
      · omega
      · subst h; revert hd; decide
      · omega
  unfold token
  split
  all_goals first
    | contradiction
    | (rename_i e; exact absurd (hne _ _ e) (by decide))
    | skip
  rw [if_neg (by simp [hd]), if_pos hc]
  unfold word
  rw [← List.cons_append, takeRun_of (w := _ :: w) ?_ hr]
  · dsimp only
    rw [if_neg (by simp [hq])]
    cases keyword? (String.ofList (_ :: w)) <;> rfl
  · intro d hd
    rcases List.mem_cons.1 hd with rfl | hd
    · exact start_cont hP hc
    · exact hw d hd

theorem start_noSpace {P : Reading} {c : Char} (h : P.start c = true) : c ≠ ' ' ∧ c ≠ '\n' := by
  constructor <;> · rintro rfl; exact Bool.false_ne_true (Eq.trans (by rfl) h)

/-- A keyword. -/
theorem Lx.keyword {P : Reading} (hP : P.Lawful) {c : Char} {w rest : Str} {s} (hc : P.start c = true)
    (hw : ∀ d ∈ w, P.cont d = true) (hk : keyword? (String.ofList (c :: w)) = some s) (hr : Stops P.cont rest)
    (hq : rest.head?.any isQuote = false) : Lx P (c :: w) [.sym s] rest := by
  have h := token_word hP hc hw hr hq
  rw [hk] at h
  exact Lx.token (start_noSpace hc).1 (start_noSpace hc).2 h

/-- An identifier. -/
theorem Lx.name {P : Reading} (hP : P.Lawful) {s : String} {rest : Str} (h : TokOK P (.name s)) (hr : Stops P.cont rest)
    (hq : rest.head?.any isQuote = false) : Lx P s.toList [.name s] rest := by
  obtain ⟨⟨c, w, hs, hc⟩, hw, hk⟩ := h
  have hs' : s = String.ofList (c :: w) := by rw [← hs, String.ofList_toList]
  have h := token_word hP hc (w := w) (rest := rest) (fun d hd => hw d (by rw [hs]; simp [hd])) hr hq
  rw [← hs', hk] at h
  rw [hs]
  exact Lx.token (start_noSpace hc).1 (start_noSpace hc).2 h

/-! ### Numbers -/

theorem fraction_of {fr rest : Str} (h : Fraction fr) (hr : Stops isDigit rest) (hd : fr = [] → rest.head? ≠ some '.') :
    fraction (fr ++ rest) = (fr, rest) := by
  rcases h with rfl | ⟨ds, rfl, hds⟩
  · have := hd rfl
    rw [List.nil_append]
    unfold fraction
    split
    · simp at this
    · rfl
  · simp only [List.cons_append, fraction, takeRun_of hds hr]

theorem exponent_of {ex rest : Str} (h : Exponent ex) (hr : Stops isDigit rest) (he : rest.head? ≠ some 'e') :
    exponent (ex ++ rest) = (ex, rest) := by
  rcases h with rfl | ⟨sign, ds, rfl, hs, hne, hds⟩
  · unfold exponent
    split <;> simp_all
  · cases ds with
    | nil => exact absurd rfl hne
    | cons d ds =>
      have h1 : isDigit d = true := hds d (by simp)
      have h2 : takeRun isDigit (d :: (ds ++ rest)) = (d :: ds, rest) := takeRun_of (w := d :: ds) hds hr
      have h3 : takeRun isDigit (ds ++ rest) = (ds, rest) := takeRun_of (fun c hc => hds c (by simp [hc])) hr
      have hp : d ≠ '+' := by rintro rfl; revert h1; decide
      have hm : d ≠ '-' := by rintro rfl; revert h1; decide
      rcases hs with rfl | rfl | rfl
      · simp only [List.nil_append, List.cons_append]
        unfold exponent
        split
        · rename_i e; simp only [List.cons.injEq, true_and] at e; exact absurd e.1 hp
        · rename_i e; simp only [List.cons.injEq, true_and] at e; exact absurd e.1 hm
        · rename_i e; simp only [List.cons.injEq, true_and] at e
          obtain ⟨rfl, rfl⟩ := e
          simp [h1, h2, h3]
        · rename_i h; exact (h _ _ rfl).elim
      · simp [exponent, h1, h2, h3]
      · simp [exponent, h1, h2, h3]

/-- The parts of a number are recognised. -/
theorem number_parts {P : Reading} {ds fr ex rest : Str} (hd : Digits ds) (hf : Fraction fr) (he : Exponent ex)
    (hr : Stops isDigit rest) (h1 : rest.head? ≠ some 'e') (h2 : fr = [] → ex = [] → rest.head? ≠ some '.') :
    number P (ds ++ fr ++ ex ++ rest) = numeral P ds fr ex rest := by
  have hexr : Stops isDigit (ex ++ rest) := by
    rcases he with rfl | ⟨sign, ds, rfl, -⟩
    · simpa using hr
    · intro c r e; simp only [List.cons_append] at e; cases e; rfl
  have hfr : Stops isDigit (fr ++ (ex ++ rest)) := by
    rcases hf with rfl | ⟨ds, rfl, -⟩
    · simpa using hexr
    · intro c r e; simp only [List.cons_append] at e; cases e; rfl
  have e1 : takeRun isDigit (ds ++ fr ++ ex ++ rest) = (ds, fr ++ (ex ++ rest)) := by
    rw [List.append_assoc, List.append_assoc]; exact takeRun_of hd.2 hfr
  have e2 : fraction (fr ++ (ex ++ rest)) = (fr, ex ++ rest) := by
    refine fraction_of hf hexr ?_
    intro h
    rcases he with he | ⟨sign, ds, he, -⟩
    · rw [he, List.nil_append]; exact h2 h he
    · rw [he]; simp
  have e3 := exponent_of he hr h1
  unfold number
  rw [e1]; dsimp only
  rw [e2]; dsimp only
  rw [e3]

theorem digit_char : ∀ d : Fin 10, isDigit (Char.ofNat (48 + d.val)) = true ∧ digitVal (Char.ofNat (48 + d.val)) = d.val ∧
    (Char.ofNat (48 + d.val) = '0' → d.val = 0) := by decide

theorem natVal_append (ds : Str) (c : Char) : natVal (ds ++ [c]) = 10 * natVal ds + digitVal c := by
  simp [natVal, List.foldl_append]

theorem decimalAux_ok : ∀ (fuel n : Nat) (acc : Str), n < fuel → ∃ ds, Unparse.decimalAux fuel n acc = ds ++ acc ∧
    Digits ds ∧ natVal ds = n ∧ (ds.head? = some '0' → ds = ['0'])
  | 0, _, _, h => by omega
  | fuel + 1, n, acc, h => by
    unfold Unparse.decimalAux
    split
    · rename_i hn
      obtain ⟨h1, h2, -⟩ := digit_char ⟨n, hn⟩
      refine ⟨[Char.ofNat (48 + n)], rfl, ⟨by simp, by simpa using h1⟩, by simpa [natVal] using h2, by simp⟩
    · rename_i hn
      obtain ⟨ds, e, hd, hv, hz⟩ := decimalAux_ok fuel (n / 10) (Char.ofNat (48 + n % 10) :: acc) (by omega)
      obtain ⟨h1, h2, -⟩ := digit_char ⟨n % 10, by omega⟩
      dsimp only at h1 h2
      refine ⟨ds ++ [Char.ofNat (48 + n % 10)], by simp [e], ⟨by simp, ?_⟩, ?_, ?_⟩
      · intro c hc
        rcases List.mem_append.1 hc with hc | hc
        · exact hd.2 c hc
        · simp only [List.mem_singleton] at hc; subst hc; exact h1
      · rw [natVal_append, hv, h2]; omega
      · intro h0
        cases ds with
        | nil => exact absurd rfl hd.1
        | cons c ds =>
          have := hz (by simpa using h0)
          rw [this] at hv
          have h3 : natVal ['0'] = 0 := by decide
          omega

theorem decimal_ok (n : Nat) : Digits (Unparse.decimal n) ∧ natVal (Unparse.decimal n) = n ∧
    ((Unparse.decimal n).head? = some '0' → Unparse.decimal n = ['0']) := by
  obtain ⟨ds, e, h⟩ := decimalAux_ok (n + 1) n [] (by omega)
  rw [List.append_nil] at e
  unfold Unparse.decimal
  rw [e]; exact h

theorem token_digit {P : Reading} {c : Char} {r : Str} (h : isDigit c = true) : token P c r = number P (c :: r) := by
  have h1 : c ≠ '\'' := by rintro rfl; revert h; decide
  have h2 : c ≠ '"' := by rintro rfl; revert h; decide
  have h3 : c ≠ 'u' := by rintro rfl; revert h; decide
  have h4 : c ≠ 'b' := by rintro rfl; revert h; decide
  unfold token
  split <;> first | contradiction | skip
  simp [h]

theorem Lx.number {P : Reading} {s rest : Str} {t} (hs : Digits s ∨ ∃ ds r, s = ds ++ r ∧ Digits ds)
    (h : number P (s ++ rest) = some (t, rest)) : Lx P s [t] rest := by
  have : ∃ c w, s = c :: w ∧ isDigit c = true := by
    rcases hs with hs | ⟨ds, r, rfl, hs⟩
    · cases s with
      | nil => exact absurd rfl hs.1
      | cons c w => exact ⟨c, w, rfl, hs.2 c (by simp)⟩
    · cases ds with
      | nil => exact absurd rfl hs.1
      | cons c w => exact ⟨c, w ++ r, rfl, hs.2 c (by simp)⟩
  obtain ⟨c, w, rfl, hc⟩ := this
  refine Lx.token ?_ ?_ ?_
  · rintro rfl; revert hc; decide
  · rintro rfl; revert hc; decide
  · rw [token_digit hc]; exact h

theorem ended_of {P : Reading} {rest : Str} (h : Stops P.cont rest) : ended P rest = true := by
  cases rest with
  | nil => rfl
  | cons c r => simp [ended, h c r rfl]

theorem Follow.notLetter {rest} (h : Follow rest) : rest.head? ≠ some 'e' ∧ rest.head? ≠ some 'j' := by
  cases rest with
  | nil => simp
  | cons c r =>
    have := h c r rfl
    constructor <;>
    · simp only [List.head?_cons, ne_eq, Option.some.injEq]
      rintro rfl; revert this; decide

theorem Lx.int {P : Reading} {n : Nat} {rest : Str} (h : Follow rest) (hd : rest.head? ≠ some '.') :
    Lx P (Unparse.decimal n) [.int n] rest := by
  obtain ⟨h1, h2, h3⟩ := decimal_ok n
  refine Lx.number (.inl h1) ?_
  have := number_parts (P := P) h1 (.inl rfl) (.inl rfl) h.digit h.notLetter.1 (fun _ _ => hd)
  simp only [List.append_nil] at this
  rw [this]
  have hj := h.notLetter.2
  unfold numeral
  split
  · simp at hj
  · rw [ended_of h.cont, h2]
    simp only [Bool.not_true, Bool.false_eq_true, if_false, List.isEmpty_nil, Bool.and_self]
    rw [if_neg]
    simp only [Bool.and_eq_true, decide_eq_true_eq, not_and, Decidable.not_not]
    exact h3

theorem Lx.float {P : Reading} {s : Str} {rest : Str} (hs : Numeral s) (hi : ¬ Integral s) (h : Follow rest) :
    Lx P s [.float (P.float s)] rest := by
  obtain ⟨ds, fr, ex, rfl, h1, h2, h3⟩ := hs
  have hne : ¬ (fr = [] ∧ ex = []) := by
    rintro ⟨rfl, rfl⟩; rw [List.append_nil, List.append_nil] at hi; exact hi h1.2
  refine Lx.number (.inr ⟨ds, fr ++ ex, by simp, h1⟩) ?_
  rw [number_parts h1 h2 h3 h.digit h.notLetter.1 (fun a b => absurd ⟨a, b⟩ hne)]
  have hj := h.notLetter.2
  unfold numeral
  split
  · simp at hj
  · rw [ended_of h.cont]
    simp only [Bool.not_true, Bool.false_eq_true, if_false]
    rw [if_pos]
    simp only [Bool.not_eq_true', Bool.and_eq_false_iff, List.isEmpty_eq_false_iff]
    exact Decidable.not_and_iff_or_not.1 hne

theorem Lx.imag {P : Reading} {s : Str} {rest : Str} (hs : Numeral s) (h : Follow rest) :
    Lx P (s ++ ['j']) [.imag (P.imag s)] rest := by
  obtain ⟨ds, fr, ex, rfl, h1, h2, h3⟩ := hs
  refine Lx.number (.inr ⟨ds, fr ++ ex ++ ['j'], by simp, h1⟩) ?_
  have := number_parts (P := P) (rest := 'j' :: rest) h1 h2 h3 (fun c r e => by cases e; rfl) (by simp) (by simp)
  rw [List.append_assoc _ ['j'], List.singleton_append, this, numeral, if_pos (ended_of h.cont)]

/-! ### Strings -/

theorem hexDigit_val : ∀ d : Fin 16, hexVal? (Unparse.hexDigit d.val) = some d.val := by decide

theorem hexNum_hex : ∀ (k j m acc : Nat) (r : Str), m < 16 ^ k →
    hexNum (k + j) acc (Unparse.hex k m ++ r) = hexNum j (acc * 16 ^ k + m) r
  | 0, j, m, acc, r, h => by
    have : m = 0 := by simp at h; omega
    subst this
    simp [Unparse.hex]
  | k + 1, j, m, acc, r, h => by
    have hm : m / 16 < 16 ^ k := by
      rw [Nat.pow_succ] at h
      exact Nat.div_lt_of_lt_mul (by rw [Nat.mul_comm]; exact h)
    have ih := hexNum_hex k (j + 1) (m / 16) acc (Unparse.hexDigit (m % 16) :: r) hm
    have hd : hexVal? (Unparse.hexDigit (m % 16)) = some (m % 16) := hexDigit_val ⟨m % 16, Nat.mod_lt _ (by omega)⟩
    rw [show k + 1 + j = k + (j + 1) by omega, Unparse.hex, List.append_assoc, List.singleton_append, ih]
    rw [hexNum, hd]
    dsimp only
    congr 1
    have : acc * 16 ^ (k + 1) = 16 * (acc * 16 ^ k) := by rw [Nat.pow_succ, ← Nat.mul_assoc, Nat.mul_comm]
    omega

theorem hexNum_hex' {k m : Nat} {r : Str} (h : m < 16 ^ k) : hexNum k 0 (Unparse.hex k m ++ r) = some (m, r) := by
  have := hexNum_hex k 0 m 0 r h
  simpa [hexNum] using this

theorem char_lt (c : Char) : c.toNat < 16 ^ 8 := by
  have := c.valid
  have h : c.toNat < 0x110000 := by
    rcases this with h | ⟨-, h⟩
    · have : c.toNat < 0xd800 := h
      omega
    · exact h
  omega

/-- One character of a string literal. -/
theorem strBody_escape {H : Unparse.Host} {q c : Char} (hq : q = '\'' ∨ q = '"') {n : Nat} {tail : Str} {xs rest}
    (h : strBody true q n tail = some (xs, rest)) :
    strBody true q (n + 1) (Unparse.escapeChar H q c ++ tail) = some (c.toNat :: xs, rest) := by
  have hb : '\\' ≠ q := by rcases hq with rfl | rfl <;> decide
  have esc : ∀ {w : Str} {x r}, escape true (w ++ tail) = some (x, tail) → r = '\\' :: w →
      strBody true q (n + 1) (r ++ tail) = some (x :: xs, rest) := by
    rintro w x r he rfl
    rw [List.cons_append, strBody, if_neg hb, if_pos rfl, he]
    dsimp only
    rw [h]
  have raw : c ≠ q → c ≠ '\\' → ¬ (c.toNat < 32 ∨ c.toNat = 127) →
      strBody true q (n + 1) (c :: tail) = some (c.toNat :: xs, rest) := by
    intro h1 h2 h3
    rw [strBody, if_neg h1, if_neg h2, if_neg, h]
    simpa using h3
  unfold Unparse.escapeChar
  split
  · rename_i h1
    refine esc (w := [c]) ?_ rfl
    rcases h1 with rfl | rfl
    · rcases hq with rfl | rfl <;> rfl
    · rfl
  · rename_i h1
    simp only [not_or] at h1
    split
    · rename_i h2; subst h2; exact esc (w := ['t']) rfl rfl
    · split
      · rename_i h2; subst h2; exact esc (w := ['n']) rfl rfl
      · split
        · rename_i h2; subst h2; exact esc (w := ['r']) rfl rfl
        · split
          · rename_i h2
            refine esc (w := 'x' :: Unparse.hex 2 c.toNat) ?_ rfl
            exact hexNum_hex' (by omega)
          · rename_i h2
            split
            · exact raw h1.1 h1.2 h2
            · split
              · exact raw h1.1 h1.2 h2
              · split
                · refine esc (w := 'x' :: Unparse.hex 2 c.toNat) ?_ rfl
                  exact hexNum_hex' (by omega)
                · split
                  · refine esc (w := 'u' :: Unparse.hex 4 c.toNat) ?_ rfl
                    exact hexNum_hex' (by omega)
                  · refine esc (w := 'U' :: Unparse.hex 8 c.toNat) ?_ rfl
                    exact hexNum_hex' (char_lt c)

theorem strBody_str {H : Unparse.Host} {q : Char} (hq : q = '\'' ∨ q = '"') {rest : Str} : ∀ (s : Str) (n : Nat), s.length < n →
    strBody true q n (s.flatMap (Unparse.escapeChar H q) ++ q :: rest) = some (s.map Char.toNat, rest)
  | [], n, h => by
    cases n with
    | zero => simp at h
    | succ n => simp [strBody]
  | c :: s, n, h => by
    cases n with
    | zero => simp at h
    | succ n =>
      simp only [List.flatMap_cons, List.map_cons, List.append_assoc]
      exact strBody_escape hq (strBody_str hq s n (by simpa using h))

theorem escapeChar_length (H : Unparse.Host) (q c : Char) : 1 ≤ (Unparse.escapeChar H q c).length := by
  unfold Unparse.escapeChar
  repeat' split
  all_goals exact Nat.succ_le_succ (Nat.zero_le _)

theorem flatMap_length {α : Type} (f : α → Str) (h : ∀ a, 1 ≤ (f a).length) : ∀ s : List α, s.length ≤ (s.flatMap f).length
  | [] => by simp
  | a :: s => by
    have := flatMap_length f h s
    have := h a
    rw [List.flatMap_cons, List.length_append, List.length_cons]; omega

theorem chars_map : ∀ s : Str, chars? (s.map Char.toNat) = some s
  | [] => rfl
  | c :: s => by
    have h : chr? c.toNat = some c := by
      unfold chr?
      rw [if_pos (by exact c.valid), Char.ofNat_toNat]
    simp [chars?, h, chars_map s]

theorem quoteFor_cases (a b : Bool) : Unparse.quoteFor a b = '\'' ∨ Unparse.quoteFor a b = '"' := by
  unfold Unparse.quoteFor; split <;> simp

theorem strLit_repr {H : Unparse.Host} {u : Bool} {q : Char} (hq : q = '\'' ∨ q = '"') {s rest : Str} (h : Follow rest) :
    strLit u q (s.flatMap (Unparse.escapeChar H q) ++ q :: rest) = some (.str u (String.ofList s), rest) := by
  have h1 := flatMap_length _ (escapeChar_length H q) s
  unfold strLit
  rw [strBody_str hq s _ (by rw [List.length_append]; omega)]
  dsimp only
  rw [if_neg, chars_map]
  · simp only [tripled, Bool.and_eq_true, not_and]
    intro _ e
    have := h.quote
    simp only [decide_eq_true_eq] at e
    rw [e] at this
    rcases hq with rfl | rfl <;> revert this <;> decide

/-- `repr(s)`. -/
theorem Lx.str {P : Reading} {H : Unparse.Host} {s : String} {rest : Str} (h : Follow rest) :
    Lx P (Unparse.reprStr H s.toList) [.str false s] rest := by
  unfold Unparse.reprStr
  have hq := quoteFor_cases (s.toList.contains '\'') (s.toList.contains '"')
  revert hq
  generalize Unparse.quoteFor _ _ = q
  intro hq
  dsimp only
  have := strLit_repr (u := false) (H := H) hq (s := s.toList) h
  rw [String.ofList_toList] at this
  rw [List.cons_append]
  refine Lx.token ?_ ?_ ?_
  · rcases hq with rfl | rfl <;> decide
  · rcases hq with rfl | rfl <;> decide
  · rw [List.append_assoc, List.singleton_append]
    rcases hq with rfl | rfl <;> exact this

/-- `u` and `repr(s)`. -/
theorem Lx.ustr {P : Reading} {H : Unparse.Host} {s : String} {rest : Str} (h : Follow rest) :
    Lx P ('u' :: Unparse.reprStr H s.toList) [.str true s] rest := by
  unfold Unparse.reprStr
  have hq := quoteFor_cases (s.toList.contains '\'') (s.toList.contains '"')
  revert hq
  generalize Unparse.quoteFor _ _ = q
  intro hq
  dsimp only
  have := strLit_repr (u := true) (H := H) hq (s := s.toList) h
  rw [String.ofList_toList] at this
  refine Lx.token (by decide) (by decide) ?_
  rw [List.cons_append, List.cons_append, List.append_assoc, List.singleton_append]
  rcases hq with rfl | rfl <;> exact this

theorem ascii_char : ∀ b : Fin 127, (Char.ofNat b.val).toNat = b.val := by decide

/-- One byte of a bytes literal. -/
theorem strBody_escapeByte {q : Char} (hq : q = '\'' ∨ q = '"') {b n : Nat} (hb : b < 256) {tail : Str} {xs rest}
    (h : strBody false q n tail = some (xs, rest)) :
    strBody false q (n + 1) (Unparse.escapeByte q b ++ tail) = some (b :: xs, rest) := by
  have hs : '\\' ≠ q := by rcases hq with rfl | rfl <;> decide
  have esc : ∀ {w : Str} {x r}, escape false (w ++ tail) = some (x, tail) → r = '\\' :: w →
      strBody false q (n + 1) (r ++ tail) = some (x :: xs, rest) := by
    rintro w x r he rfl
    rw [List.cons_append, strBody, if_neg hs, if_pos rfl, he]
    dsimp only
    rw [h]
  unfold Unparse.escapeByte
  split
  · rename_i h1
    rcases h1 with rfl | rfl
    · rw [Char.ofNat_toNat]
      exact esc (w := [q]) (by rcases hq with rfl | rfl <;> rfl) rfl
    · exact esc (w := ['\\']) rfl rfl
  · rename_i h1
    simp only [not_or] at h1
    split
    · rename_i h2; subst h2; exact esc (w := ['t']) rfl rfl
    · split
      · rename_i h2; subst h2; exact esc (w := ['n']) rfl rfl
      · split
        · rename_i h2; subst h2; exact esc (w := ['r']) rfl rfl
        · split
          · refine esc (w := 'x' :: Unparse.hex 2 b) ?_ rfl
            exact hexNum_hex' (by omega)
          · rename_i h2
            have h3 := ascii_char ⟨b, by omega⟩
            dsimp only at h3
            rw [List.singleton_append, strBody, if_neg, if_neg, if_neg, h, h3]
            · rw [h3]; simp; omega
            · intro e; rw [e] at h3; exact h1.2 (h3.symm.trans (by decide))
            · intro e; rw [e] at h3; exact h1.1 h3.symm

theorem strBody_bytes {q : Char} (hq : q = '\'' ∨ q = '"') {rest : Str} : ∀ (s : List Nat) (n : Nat), (∀ b ∈ s, b < 256) →
    s.length < n → strBody false q n (s.flatMap (Unparse.escapeByte q) ++ q :: rest) = some (s, rest)
  | [], n, _, h => by
    cases n with
    | zero => simp at h
    | succ n => simp [strBody]
  | b :: s, n, hb, h => by
    cases n with
    | zero => simp at h
    | succ n =>
      simp only [List.flatMap_cons, List.append_assoc]
      exact strBody_escapeByte hq (hb b (by simp))
        (strBody_bytes hq s n (fun b h => hb b (by simp [h])) (by simpa using h))

theorem escapeByte_length (q : Char) (b : Nat) : 1 ≤ (Unparse.escapeByte q b).length := by
  unfold Unparse.escapeByte
  repeat' split
  all_goals exact Nat.succ_le_succ (Nat.zero_le _)

/-- `repr(b)` of bytes. -/
theorem Lx.bytes {P : Reading} {b : List Nat} {rest : Str} (hb : ∀ x ∈ b, x < 256) (h : Follow rest) :
    Lx P (Unparse.reprBytes b) [.bytes b] rest := by
  unfold Unparse.reprBytes
  have hq := quoteFor_cases (b.contains 39) (b.contains 34)
  revert hq
  generalize Unparse.quoteFor _ _ = q
  intro hq
  dsimp only
  have h1 := flatMap_length _ (escapeByte_length q) b
  have : bytesLit q (b.flatMap (Unparse.escapeByte q) ++ q :: rest) = some (.bytes b, rest) := by
    unfold bytesLit
    rw [strBody_bytes hq b _ hb (by rw [List.length_append]; omega)]
    dsimp only
    rw [if_neg]
    simp only [tripled, Bool.and_eq_true, not_and]
    intro _ e
    have := h.quote
    simp only [decide_eq_true_eq] at e
    rw [e] at this
    rcases hq with rfl | rfl <;> revert this <;> decide
  rw [List.cons_append, List.cons_append]
  refine Lx.token (by decide) (by decide) ?_
  rw [List.cons_append, List.append_assoc, List.singleton_append]
  rcases hq with rfl | rfl <;> exact this

end Mcpyrate.PyText
