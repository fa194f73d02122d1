import Verif.Spec.Unparse
/-
About the reference lexer: what tokens it returns, and how the text of a token is read back.
-/
namespace Mcpyrate.PyText
open Py

/-! ### Runs -/

theorem takeRun_append (p : Char → Bool) : ∀ s : Str, (takeRun p s).1 ++ (takeRun p s).2 = s
  | [] => rfl
  | c :: r => by
    unfold takeRun
    split
    · simp [takeRun_append p r]
    · rfl

theorem takeRun_all (p : Char → Bool) : ∀ s : Str, ∀ c ∈ (takeRun p s).1, p c = true
  | [], c, h => nomatch h
  | d :: r, c, h => by
    unfold takeRun at h
    split at h
    · rename_i hd
      rcases List.mem_cons.1 h with rfl | h
      · exact hd
      · exact takeRun_all p r c h
    · exact nomatch h

/-- The text does not begin with such a character. -/
def Stops (p : Char → Bool) (s : Str) : Prop := ∀ c r, s = c :: r → p c = false

theorem takeRun_of {p : Char → Bool} : ∀ {w rest : Str}, (∀ c ∈ w, p c = true) → Stops p rest →
    takeRun p (w ++ rest) = (w, rest)
  | [], [], _, _ => rfl
  | [], c :: r, _, h => by simp [takeRun, h c r rfl]
  | c :: w, rest, hw, h => by
    have ih := takeRun_of (w := w) (fun d hd => hw d (by simp [hd])) h
    simp [takeRun, hw c (by simp), ih]

theorem takeRun_stops (p : Char → Bool) : ∀ s : Str, Stops p (takeRun p s).2
  | [] => fun _ _ e => nomatch e
  | c :: r => by
    unfold takeRun
    split
    · exact takeRun_stops p r
    · rename_i hc
      intro d r' e
      cases e; simpa using hc

/-! ### The lexer returns good tokens -/

theorem fraction_ok (s : Str) : Fraction (fraction s).1 ∧ (fraction s).1 ++ (fraction s).2 = s := by
  unfold fraction
  split
  · rename_i r
    exact ⟨.inr ⟨_, rfl, takeRun_all _ _⟩, by simp [takeRun_append]⟩
  · exact ⟨.inl rfl, rfl⟩

theorem takeRun_digits {d : Char} {r : Str} (h : isDigit d = true) : Digits (takeRun isDigit (d :: r)).1 :=
  ⟨by simp [takeRun, h], takeRun_all _ _⟩

theorem exponent_ok (s : Str) : Exponent (exponent s).1 := by
  unfold exponent
  split <;> try split
  all_goals first
    | exact .inl rfl
    | (rename_i h; exact .inr ⟨['+'], _, rfl, by simp, takeRun_digits h⟩)
    | (rename_i h; exact .inr ⟨['-'], _, rfl, by simp, takeRun_digits h⟩)
    | (rename_i h; exact .inr ⟨[], _, rfl, by simp, takeRun_digits h⟩)

theorem number_ok {P : Reading} {c : Char} {r : Str} (hc : isDigit c = true) {t rest} (h : number P (c :: r) = some (t, rest)) :
    TokOK P t := by
  unfold number at h
  have hd := takeRun_digits (r := r) hc
  revert h hd
  generalize takeRun isDigit (c :: r) = a
  obtain ⟨ds, r1⟩ := a
  dsimp only
  intro h hd
  have hf := (fraction_ok r1).1
  revert h hf
  generalize fraction r1 = b
  obtain ⟨fr, r2⟩ := b
  dsimp only
  intro h hf
  have he := exponent_ok r2
  revert h he
  generalize exponent r2 = e
  obtain ⟨ex, r3⟩ := e
  dsimp only
  intro h he
  unfold numeral at h
  split at h
  · split at h
    · simp only [Option.some.injEq, Prod.mk.injEq] at h
      obtain ⟨rfl, -⟩ := h
      exact ⟨_, ⟨ds, fr, ex, rfl, hd, hf, he⟩, rfl⟩
    · exact nomatch h
  · split at h
    · exact nomatch h
    · split at h
      · simp only [Option.some.injEq, Prod.mk.injEq] at h
        obtain ⟨rfl, -⟩ := h
        exact ⟨_, ⟨ds, fr, ex, rfl, hd, hf, he⟩, rfl⟩
      · split at h
        · exact nomatch h
        · simp only [Option.some.injEq, Prod.mk.injEq] at h
          obtain ⟨rfl, -⟩ := h
          exact trivial

theorem hexVal_lt {c : Char} {d : Nat} (h : hexVal? c = some d) : d < 16 := by
  unfold hexVal? at h
  split at h
  · rename_i h1; simp only [Bool.and_eq_true, decide_eq_true_eq] at h1; cases h; omega
  · split at h
    · rename_i h1; simp only [Bool.and_eq_true, decide_eq_true_eq] at h1; cases h; omega
    · split at h
      · rename_i h1; simp only [Bool.and_eq_true, decide_eq_true_eq] at h1; cases h; omega
      · exact nomatch h

theorem hexNum_lt : ∀ {k acc : Nat} {s : Str} {n r}, hexNum k acc s = some (n, r) → n < (acc + 1) * 16 ^ k
  | 0, acc, s, n, r, h => by simp [hexNum] at h; omega
  | k + 1, acc, [], n, r, h => by simp [hexNum] at h
  | k + 1, acc, c :: s, n, r, h => by
    unfold hexNum at h
    split at h
    · rename_i d hd
      have h1 := hexNum_lt h
      have h2 := hexVal_lt hd
      have h3 : (16 * acc + d + 1) * 16 ^ k ≤ ((acc + 1) * 16) * 16 ^ k := Nat.mul_le_mul_right _ (by omega)
      rw [Nat.pow_succ, Nat.mul_comm (16 ^ k) 16, ← Nat.mul_assoc]
      omega
    · exact nomatch h

theorem escape_lt {s : Str} {n r} (h : escape false s = some (n, r)) : n < 256 := by
  unfold escape at h
  split at h
  all_goals first
    | (simp only [Option.some.injEq, Prod.mk.injEq] at h; omega)
    | (have := hexNum_lt h; omega)
    | (simp at h)

theorem strBody_lt {q : Char} : ∀ {n : Nat} {s : Str} {xs r}, strBody false q n s = some (xs, r) → ∀ x ∈ xs, x < 256
  | 0, s, xs, r, h => by simp [strBody] at h
  | n + 1, [], xs, r, h => by simp [strBody] at h
  | n + 1, c :: s, xs, r, h => by
    unfold strBody at h
    split at h
    · simp only [Option.some.injEq, Prod.mk.injEq] at h
      obtain ⟨rfl, -⟩ := h
      exact fun _ hx => nomatch hx
    · split at h
      · split at h
        · exact nomatch h
        · rename_i h1
          split at h
          · exact nomatch h
          · rename_i h2
            simp only [Option.some.injEq, Prod.mk.injEq] at h
            obtain ⟨rfl, -⟩ := h
            intro x hx
            rcases List.mem_cons.1 hx with rfl | hx
            · exact escape_lt h1
            · exact strBody_lt h2 x hx
      · split at h
        · exact nomatch h
        · rename_i hc
          split at h
          · exact nomatch h
          · rename_i h2
            simp only [Option.some.injEq, Prod.mk.injEq] at h
            obtain ⟨rfl, -⟩ := h
            intro x hx
            rcases List.mem_cons.1 hx with rfl | hx
            · simp only [true_and, not_or] at hc; omega
            · exact strBody_lt h2 x hx

theorem strLit_ok {P : Reading} {u q r t rest} (h : strLit u q r = some (t, rest)) : TokOK P t := by
  unfold strLit at h
  split at h
  · exact nomatch h
  · split at h
    · exact nomatch h
    · split at h
      · exact nomatch h
      · simp only [Option.some.injEq, Prod.mk.injEq] at h
        obtain ⟨rfl, -⟩ := h
        exact trivial

theorem bytesLit_ok {P : Reading} {q r t rest} (h : bytesLit q r = some (t, rest)) : TokOK P t := by
  unfold bytesLit at h
  split at h
  · exact nomatch h
  · rename_i h1
    split at h
    · exact nomatch h
    · simp only [Option.some.injEq, Prod.mk.injEq] at h
      obtain ⟨rfl, -⟩ := h
      exact strBody_lt h1

theorem start_cont {P : Reading} (hP : P.Lawful) {c : Char} (h : P.start c = true) : P.cont c = true := by
  unfold Reading.start at h
  unfold Reading.cont
  simp only [Bool.or_eq_true, Bool.and_eq_true, decide_eq_true_eq] at h ⊢
  rcases h with h | ⟨h1, h2⟩
  · exact .inl (.inl h)
  · exact .inr ⟨h1, hP.start_cont c h2⟩

theorem word_ok {P : Reading} (hP : P.Lawful) {c : Char} {r : Str} (hc : P.start c = true) {t rest}
    (h : word P (c :: r) = some (t, rest)) : TokOK P t := by
  unfold word at h
  have h1 := takeRun_all P.cont (c :: r)
  have h2 : (takeRun P.cont (c :: r)).1 = c :: (takeRun P.cont r).1 := by simp [takeRun, start_cont hP hc]
  revert h h1 h2
  generalize takeRun P.cont (c :: r) = a
  obtain ⟨w, r1⟩ := a
  dsimp only
  intro h h1 h2
  split at h
  · exact nomatch h
  · split at h
    · simp only [Option.some.injEq, Prod.mk.injEq] at h
      obtain ⟨rfl, -⟩ := h
      exact trivial
    · rename_i hk
      simp only [Option.some.injEq, Prod.mk.injEq] at h
      obtain ⟨rfl, -⟩ := h
      exact ⟨⟨c, _, by rw [String.toList_ofList, h2], hc⟩, by rw [String.toList_ofList]; exact h1, hk⟩

theorem token_ok {P : Reading} (hP : P.Lawful) {c r t rest} (h : token P c r = some (t, rest)) : TokOK P t := by
  unfold token at h
  split at h
  all_goals first
    | exact strLit_ok h
    | exact bytesLit_ok h
    | skip
  split at h
  · rename_i hd; exact number_ok hd h
  · split at h
    · rename_i hs; exact word_ok hP hs h
    · simp only [Option.map_eq_some_iff] at h
      obtain ⟨⟨s, r'⟩, -, h⟩ := h
      simp only [Prod.mk.injEq] at h
      obtain ⟨rfl, -⟩ := h
      exact trivial

theorem dedents_ok {P : Reading} {n : Nat} : ∀ {ms ts ms'}, indentation.dedents n ms = some (ts, ms') → ∀ t ∈ ts, TokOK P t
  | [], ts, ms', h => by
    unfold indentation.dedents at h
    split at h
    · simp only [Option.some.injEq, Prod.mk.injEq] at h; obtain ⟨rfl, -⟩ := h; exact fun _ h => nomatch h
    · exact nomatch h
  | m :: ms, ts, ms', h => by
    unfold indentation.dedents at h
    split at h
    · simp only [Option.some.injEq, Prod.mk.injEq] at h; obtain ⟨rfl, -⟩ := h; exact fun _ h => nomatch h
    · split at h
      · exact nomatch h
      · split at h
        · exact nomatch h
        · rename_i h1
          simp only [Option.some.injEq, Prod.mk.injEq] at h
          obtain ⟨rfl, -⟩ := h
          intro t ht
          rcases List.mem_cons.1 ht with rfl | ht
          · exact trivial
          · exact dedents_ok h1 t ht

theorem indentation_ok {P : Reading} {n ms ts ms'} (h : indentation n ms = some (ts, ms')) : ∀ t ∈ ts, TokOK P t := by
  unfold indentation at h
  split at h
  · split at h <;>
    · simp only [Option.some.injEq, Prod.mk.injEq] at h; obtain ⟨rfl, -⟩ := h
      intro t ht; simp at ht; try (subst ht; exact trivial)
  · split at h
    · simp only [Option.some.injEq, Prod.mk.injEq] at h; obtain ⟨rfl, -⟩ := h; exact fun _ h => nomatch h
    · split at h
      · simp only [Option.some.injEq, Prod.mk.injEq] at h; obtain ⟨rfl, -⟩ := h
        intro t ht; simp at ht; subst ht; exact trivial
      · exact dedents_ok h

theorem lex_ok {P : Reading} (hP : P.Lawful) : ∀ (text : Str) {pl ms ts}, lex P pl ms text = some ts → ∀ t ∈ ts, TokOK P t
  | [], .start _, ms, ts, h => by
    simp only [lex, Option.some.injEq] at h; subst h
    intro t ht; simp at ht; obtain ⟨_, rfl⟩ := ht; exact trivial
  | [], .line _, ms, ts, h => by
    simp only [lex, Option.some.injEq] at h; subst h
    intro t ht; simp at ht
    rcases ht with rfl | ⟨_, rfl⟩ <;> exact trivial
  | c :: r, .line (k + 1), ms, ts, h => by rw [lex] at h; exact lex_ok hP r h
  | c :: r, .line 0, ms, ts, h => by
    rw [lex] at h
    split at h
    · exact lex_ok hP r h
    · split at h
      · simp only [Option.map_eq_some_iff] at h
        obtain ⟨ts', h1, rfl⟩ := h
        intro t ht
        rcases List.mem_cons.1 ht with rfl | ht
        · exact trivial
        · exact lex_ok hP r h1 t ht
      · split at h
        · exact nomatch h
        · rename_i h1
          simp only [Option.map_eq_some_iff] at h
          obtain ⟨ts', h2, rfl⟩ := h
          intro t ht
          rcases List.mem_cons.1 ht with rfl | ht
          · exact token_ok hP h1
          · exact lex_ok hP r h2 t ht
  | c :: r, .start n, ms, ts, h => by
    rw [lex] at h
    split at h
    · exact lex_ok hP r h
    · split at h
      · exact lex_ok hP r h
      · split at h
        · exact nomatch h
        · rename_i h0
          split at h
          · exact nomatch h
          · rename_i h1
            simp only [Option.map_eq_some_iff] at h
            obtain ⟨ts', h2, rfl⟩ := h
            intro t ht
            rcases List.mem_append.1 ht with ht | ht
            · exact indentation_ok h0 t ht
            · rcases List.mem_cons.1 ht with rfl | ht
              · exact token_ok hP h1
              · exact lex_ok hP r h2 t ht

/-! ### Reading text back -/

/-- Followed by `rest`, the text is read as these tokens. -/
def Lx (P : Reading) (text : Str) (toks : List Tok) (rest : Str) : Prop :=
  ∀ ms ts, lex P (.line 0) ms rest = some ts → lex P (.line 0) ms (text ++ rest) = some (toks ++ ts)

theorem Lx.nil {P : Reading} {rest} : Lx P [] [] rest := fun _ _ h => h

theorem Lx.append {P : Reading} {t1 t2 rest : Str} {k1 k2} (h1 : Lx P t1 k1 (t2 ++ rest)) (h2 : Lx P t2 k2 rest) :
    Lx P (t1 ++ t2) (k1 ++ k2) rest := by
  intro ms ts h
  rw [List.append_assoc, List.append_assoc]
  exact h1 ms _ (h2 ms _ h)

theorem Lx.space {P : Reading} {rest} : Lx P [' '] [] rest := by
  intro ms ts h
  simpa [lex] using h

theorem lex_skip {P : Reading} {ms rest} : ∀ w : Str, lex P (.line w.length) ms (w ++ rest) = lex P (.line 0) ms rest
  | [] => rfl
  | c :: w => by rw [List.cons_append, List.length_cons, lex, lex_skip w]

theorem Lx.token {P : Reading} {c : Char} {w rest : Str} {t} (hs : c ≠ ' ') (hn : c ≠ '\n')
    (h : token P c (w ++ rest) = some (t, rest)) : Lx P (c :: w) [t] rest := by
  intro ms ts hts
  rw [List.cons_append, lex, if_neg hs, if_neg hn, h]
  dsimp only
  rw [show (w ++ rest).length - rest.length = w.length by simp, lex_skip, hts]
  rfl

end Mcpyrate.PyText
