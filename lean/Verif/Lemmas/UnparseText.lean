import Verif.Lemmas.UnparseTree
/-
From the expressions within a text to the text as a whole.
-/
namespace Mcpyrate.PyText
open Py
open Unparse (Host lit unparse)

variable {P : Reading} {H : Host}

theorem exprStart_noSpace (hP : P.Lawful) {c : Char} (h : exprStart P c = true) : Dialects.isSpace c = false := by
  simp only [exprStart, Reading.start, isLetter, isDigit, Bool.or_eq_true, Bool.and_eq_true, decide_eq_true_eq] at h
  rcases h with ((((((h | h) | rfl) | rfl) | rfl) | rfl) | rfl) | rfl <;> try rfl
  · rcases h with ((h | h) | rfl) | h
    · simp only [Dialects.isSpace, Bool.or_eq_false_iff, Bool.and_eq_false_iff, decide_eq_false_iff_not, beq_eq_false_iff_ne]; omega
    · simp only [Dialects.isSpace, Bool.or_eq_false_iff, Bool.and_eq_false_iff, decide_eq_false_iff_not, beq_eq_false_iff_ne]; omega
    · rfl
    · exact hP.noSpace _ (hP.start_cont _ h.2)
  · simp only [Dialects.isSpace, Bool.or_eq_false_iff, Bool.and_eq_false_iff, decide_eq_false_iff_not, beq_eq_false_iff_ne]; omega

theorem dropWhile_cons {c : Char} {r : Str} (h : Dialects.isSpace c = false) : (c :: r).dropWhile Dialects.isSpace = c :: r := by
  simp [List.dropWhile, h]

theorem strip_line {s : Str} (hs : ∃ c w, s = c :: w ∧ Dialects.isSpace c = false) (he : ∃ w c, s = w ++ [c] ∧ Dialects.isSpace c = false) :
    Dialects.strip (s ++ lit "\n") = s := by
  obtain ⟨c, w, rfl, hc⟩ := hs
  obtain ⟨w', c', e, hc'⟩ := he
  have hn : (c :: w ++ lit "\n").reverse = '\n' :: (c :: w).reverse := by
    rw [List.reverse_append]; rfl
  unfold Dialects.strip
  rw [List.cons_append, dropWhile_cons hc, ← List.cons_append, hn]
  rw [show List.dropWhile Dialects.isSpace ('\n' :: (c :: w).reverse) = List.dropWhile Dialects.isSpace (c :: w).reverse from rfl,
    e, List.reverse_append]
  show (List.dropWhile Dialects.isSpace (c' :: w'.reverse)).reverse = _
  rw [dropWhile_cons hc']
  simp

/-- At the left margin, a line is read like the rest of a line. -/
theorem lex_start {c : Char} {r : Str} (h1 : c ≠ ' ') (h2 : c ≠ '\n') : lex P (.start 0) [] (c :: r) = lex P (.line 0) [] (c :: r) := by
  rw [lex, lex, if_neg h1, if_neg h2, if_neg h1, if_neg h2]
  rfl

theorem Good.unparses (hP : P.Lawful) {v s ts} (h : Good P H v s ts) : ∃ N, ∀ limit, N ≤ limit → unparse H limit v = .ok s := by
  obtain ⟨N, hN⟩ := h.prints
  refine ⟨N, fun n hn => ?_⟩
  have hd := hN n hn {}
  obtain ⟨k, fs, rfl, -⟩ := h.cls
  obtain ⟨c, w, e, hc⟩ := h.starts
  unfold unparse
  rw [show Unparse.dispatchAny (Unparse.dispatch H n) {} (mk k fs) = Unparse.dispatch H n {} (mk k fs) from rfl, hd]
  show Except.ok _ = _
  rw [strip_line ⟨c, w, e, exprStart_noSpace hP hc⟩ h.ends]

theorem Good.isExpr {v s ts} (h : Good P H v s ts) : IsExpr P s v := by
  obtain ⟨c, w, rfl, hc⟩ := h.starts
  have hne := exprStart_ne hc
  obtain ⟨n, hn⟩ := full_iff.1 (h.expr (rest := [.newline]) (NoCont.none rfl))
  refine ⟨ts ++ [.newline], n, ?_, hn⟩
  unfold tokens
  rw [lex_start hne.2.2.2.2.2.1 hne.2.2.2.2.2.2]
  have := h.lexes [] Follow.nil (fun e => nomatch e) [] [.newline] rfl
  simpa using this

/-! ### `a[]` is not an expression -/

/-- What is not an expression on the tightest level is none at all, unless it begins with a prefix operator. -/
theorem lift_none {t : Tok} {r : List Tok} (ht : t = .name "a" ∨ t = .sym .rbrack) (h : full .primary (t :: r) = none) : full .expr (t :: r) = none := by
  have step : ∀ {m nt : NT} {f}, full m (t :: r) = none → (parseBody full nt (t :: r) = seq (full m (t :: r)) f ∨ parseBody full nt (t :: r) = full m (t :: r)) →
      full nt (t :: r) = none := by
    intro m nt f h h'
    rw [full_at]
    rcases h' with h' | h' <;> rw [h', h] <;> rfl
  rcases ht with rfl | rfl <;>
  · have h := step (nt := .await) (f := fun _ _ => none) h (.inr rfl)
    have h := step (nt := .power) h (.inl rfl)
    have h := step (nt := .factor) (f := fun _ _ => none) h (.inr rfl)
    have h := step (nt := .bin 5) h (.inl rfl)
    have h := step (nt := .bin 4) h (.inl rfl)
    have h := step (nt := .bin 3) h (.inl rfl)
    have h := step (nt := .bin 2) h (.inl rfl)
    have h := step (nt := .bin 1) h (.inl rfl)
    have h := step (nt := .bin 0) h (.inl rfl)
    have h := step (nt := .cmp) h (.inl rfl)
    have h := step (nt := .inv) (f := fun _ _ => none) h (.inr rfl)
    have h := step (nt := .conj) h (.inl rfl)
    have h := step (nt := .disj) h (.inl rfl)
    exact step (nt := .expr) h (.inl rfl)

theorem full_emptySubscript : full .expr [.name "a", .sym .lbrack, .sym .rbrack, .newline] = none := by
  apply lift_none (.inl rfl)
  rw [full_at]
  show seq (full .atom _) _ = _
  rw [full_at]
  show full (.primRest _) _ = _
  rw [full_at]
  show seq (full .subs _) _ = _
  rw [full_at]
  show seq (seq (full .slice _) _) _ = _
  rw [full_at]
  show seq (seq (seq (full .expr _) _) _) _ = _
  rw [lift_none (.inr rfl)]
  · rfl
  · rw [full_at]
    show seq (full .atom _) _ = _
    rw [full_at]
    rfl
end Mcpyrate.PyText
