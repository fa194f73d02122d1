import Verif.Lemmas.StmtLex
/-
The tokens of a line do not include the end of a line.
-/
namespace Mcpyrate.PyText
open Py

variable {P : Reading}

/-- Not about lines. -/
def inLine : Tok → Bool
  | .newline | .indent | .dedent => false
  | _ => true

theorem strLit_inLine {u q r t r'} (h : strLit u q r = some (t, r')) : inLine t = true := by
  unfold strLit at h
  split at h
  · exact nomatch h
  · split at h
    · exact nomatch h
    · split at h
      · exact nomatch h
      · cases h; rfl

theorem bytesLit_inLine {q r t r'} (h : bytesLit q r = some (t, r')) : inLine t = true := by
  unfold bytesLit at h
  split at h
  · exact nomatch h
  · split at h
    · exact nomatch h
    · cases h; rfl

theorem token_inLine {c r t r'} (h : token P c r = some (t, r')) : inLine t = true := by
  unfold token at h
  split at h
  · exact strLit_inLine h
  · exact strLit_inLine h
  · exact strLit_inLine h
  · exact strLit_inLine h
  · exact bytesLit_inLine h
  · exact bytesLit_inLine h
  · split at h
    · unfold number at h
      dsimp only at h
      unfold numeral at h
      split at h
      · split at h
        · cases h; rfl
        · exact nomatch h
      · repeat' split at h
        all_goals first | (cases h; rfl) | simp at h
    · split at h
      · unfold word at h
        dsimp only at h
        repeat' split at h
        all_goals first | (cases h; rfl) | simp at h
      · cases ho : operator? c r with
        | none => rw [ho] at h; exact nomatch h
        | some x => rw [ho] at h; cases h; rfl

/-- The tokens at the end of the text. -/
def dedentsOf (ms : List Nat) : List Tok := ms.map fun _ => .dedent

/-- Within a line: the text ends; the line ends; or there is an error. -/
theorem lex_in : ∀ (s : Str) (k : Nat),
    (∃ A, Tok.newline ∉ A ∧ ∀ ms, lex P (.line k) ms s = some (A ++ .newline :: dedentsOf ms)) ∨
    (∃ A r, Tok.newline ∉ A ∧ ∀ ms, lex P (.line k) ms s = (lex P (.start 0) ms r).map (A ++ .newline :: ·)) ∨
    ∀ ms, lex P (.line k) ms s = none
  | [], k => .inl ⟨[], by simp, fun ms => by cases k <;> rfl⟩
  | c :: r, k + 1 => lex_in r k
  | c :: r, 0 => by
    by_cases h1 : c = ' '
    · rcases lex_in r 0 with ⟨A, hA, h⟩ | ⟨A, r', hA, h⟩ | h
      · exact .inl ⟨A, hA, fun ms => by rw [lex, if_pos h1, h]⟩
      · exact .inr (.inl ⟨A, r', hA, fun ms => by rw [lex, if_pos h1, h]⟩)
      · exact .inr (.inr fun ms => by rw [lex, if_pos h1, h])
    by_cases h2 : c = '\n'
    · exact .inr (.inl ⟨[], r, by simp, fun ms => by rw [lex, if_neg h1, if_pos h2]; rfl⟩)
    cases ht : token P c r with
    | none => exact .inr (.inr fun ms => by rw [lex, if_neg h1, if_neg h2, ht])
    | some x =>
      obtain ⟨t, r'⟩ := x
      have hn : .newline ≠ t := by rintro rfl; exact nomatch token_inLine ht
      rcases lex_in r (r.length - r'.length) with ⟨A, hA, h⟩ | ⟨A, r'', hA, h⟩ | h
      · exact .inl ⟨t :: A, by simp [hA, hn], fun ms => by rw [lex, if_neg h1, if_neg h2, ht]; dsimp only; rw [h]; rfl⟩
      · exact .inr (.inl ⟨t :: A, r'', by simp [hA, hn], fun ms => by
          rw [lex, if_neg h1, if_neg h2, ht]; dsimp only; rw [h, Option.map_map]; rfl⟩)
      · exact .inr (.inr fun ms => by rw [lex, if_neg h1, if_neg h2, ht]; dsimp only; rw [h]; rfl)

/-- At the beginning of a line: nothing follows, or a line with something. -/
theorem lex_lines : ∀ (r : Str) (n : Nat),
    (∀ ms, lex P (.start n) ms r = some (dedentsOf ms)) ∨
    ∃ m c q, c ≠ ' ' ∧ c ≠ '\n' ∧ ∀ ms, lex P (.start n) ms r = lex P (.start m) ms (c :: q)
  | [], n => .inl fun ms => rfl
  | c :: r, n => by
    by_cases h1 : c = ' '
    · rcases lex_lines r (n + 1) with h | ⟨m, d, q, hd, hd', h⟩
      · exact .inl fun ms => by rw [lex, if_pos h1, h]
      · exact .inr ⟨m, d, q, hd, hd', fun ms => by rw [lex, if_pos h1, h]⟩
    by_cases h2 : c = '\n'
    · rcases lex_lines r 0 with h | ⟨m, d, q, hd, hd', h⟩
      · exact .inl fun ms => by rw [lex, if_neg h1, if_pos h2, h]
      · exact .inr ⟨m, d, q, hd, hd', fun ms => by rw [lex, if_neg h1, if_pos h2, h]⟩
    exact .inr ⟨n, c, r, h1, h2, fun ms => rfl⟩

/-- A line with something begins differently in different blocks. -/
theorem lex_differs {m c q Y X} (h1 : c ≠ ' ') (h2 : c ≠ '\n') (hY : lex P (.start m) [] (c :: q) = some Y)
    (hX : lex P (.start m) [m + 1] (c :: q) = some X) : ∃ t r r', Y = t :: r ∧ t ≠ .newline ∧ X = .dedent :: r' ∧ t ≠ .dedent := by
  rw [lex, if_neg h1, if_neg h2] at hX hY
  have hi : indentation m [m + 1] = if m = 0 then some ([.dedent], []) else none := by
    unfold indentation
    dsimp only
    rw [if_neg (by omega), if_neg (by omega)]
    unfold indentation.dedents
    rw [if_neg (by omega), if_neg (by omega)]
    unfold indentation.dedents
    by_cases hm : m = 0
    · rw [if_pos hm, if_pos hm]
    · rw [if_neg hm, if_neg hm]
  rw [hi] at hX
  by_cases hm : m = 0
  · subst hm
    rw [if_pos rfl] at hX
    rw [show indentation 0 [] = some ([], []) from rfl] at hY
    dsimp only at hX hY
    cases ht : token P c q with
    | none => rw [ht] at hY; exact nomatch hY
    | some x =>
      rw [ht] at hX hY
      obtain ⟨t, r'⟩ := x
      dsimp only at hX hY
      have hl := token_inLine ht
      cases hr : lex P (.line (q.length - r'.length)) [] q with
      | none => rw [hr] at hY; exact nomatch hY
      | some z =>
        rw [hr] at hX hY
        cases hX; cases hY
        exact ⟨t, _, _, rfl, (by rintro rfl; exact nomatch hl), rfl, (by rintro rfl; exact nomatch hl)⟩
  · rw [if_neg hm] at hX; exact nomatch hX

theorem Body.noNewline {s ts} (h : Body P s ts) : Tok.newline ∉ ts := by
  have hl : ∀ ms, PyText.lex P (.line 0) ms s = some (ts ++ .newline :: dedentsOf ms) := by
    intro ms
    have := h.lex (rest := []) (ms := ms) (k := .newline :: dedentsOf ms) (fun _ _ e => nomatch e) rfl
    rwa [List.append_nil] at this
  rcases lex_in (P := P) s 0 with ⟨A, hA, h⟩ | ⟨A, r, hA, h⟩ | h
  · have := h []
    rw [hl] at this
    simp only [Option.some.injEq] at this
    rw [List.append_cancel_right this]; exact hA
  · rcases lex_lines (P := P) r 0 with hr | ⟨m, c, q, h1, h2, hr⟩
    · have := h []
      rw [hl, hr] at this
      simp only [Option.map_some, Option.some.injEq] at this
      rw [List.append_cancel_right this]; exact hA
    · have e1 := h []
      have e2 := h [m + 1]
      rw [hl, hr] at e1 e2
      cases hY : PyText.lex P (.start m) [] (c :: q) with
      | none => rw [hY] at e1; exact nomatch e1
      | some Y =>
        cases hX : PyText.lex P (.start m) [m + 1] (c :: q) with
        | none => rw [hX] at e2; exact nomatch e2
        | some X =>
          obtain ⟨t, r1, r2, rfl, ht, rfl, ht'⟩ := lex_differs h1 h2 hY hX
          rw [hY] at e1
          rw [hX] at e2
          simp only [Option.map_some, Option.some.injEq] at e1 e2
          exfalso
          have e1 : ts ++ [.newline] = (A ++ [.newline]) ++ t :: r1 := by simpa [dedentsOf] using e1
          have e2 : ts ++ [.newline, .dedent] = (A ++ [.newline]) ++ .dedent :: r2 := by simpa [dedentsOf] using e2
          rcases List.append_eq_append_iff.1 e1 with ⟨Z, hZ, hZ'⟩ | ⟨Z, hZ, hZ'⟩
          · cases Z with
            | nil => simp at hZ'; exact ht hZ'.1.symm
            | cons z Z =>
              have := congrArg List.length hZ'
              simp at this
          · cases Z with
            | nil => simp at hZ'; exact ht hZ'.1
            | cons z Z =>
              simp only [List.cons_append, List.cons.injEq] at hZ'
              rw [hZ, List.append_assoc, List.append_cancel_left_eq] at e2
              simp only [List.cons_append, List.cons.injEq] at e2
              exact ht' (hZ'.1.trans e2.1)
  · have := h []
    rw [hl] at this; exact nomatch this

end Mcpyrate.PyText
