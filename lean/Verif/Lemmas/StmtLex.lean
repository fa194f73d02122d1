import Verif.Lemmas.UnparseParams
/-
Lines and indentation: how the text of statements is read by the reference lexer.
-/
namespace Mcpyrate.PyText
open Py
open Unparse (Host lit)

variable {P : Reading}

/-- The indentations in `i` nested blocks. -/
def stack : Nat → List Nat
  | 0 => []
  | i + 1 => 4 * (i + 1) :: stack i

def spaces (i : Nat) : Str := List.replicate (4 * i) ' '

theorem dedents_same (i : Nat) : indentation.dedents (4 * i) (stack i) = some ([], stack i) := by
  cases i with
  | zero => rfl
  | succ i => unfold stack indentation.dedents; rw [if_pos rfl]

theorem dedents_stack (i : Nat) : ∀ d, indentation.dedents (4 * i) (stack (i + d)) = some (List.replicate d .dedent, stack i)
  | 0 => dedents_same i
  | d + 1 => by
    show indentation.dedents (4 * i) (4 * (i + d + 1) :: stack (i + d)) = _
    unfold indentation.dedents
    rw [if_neg (by omega), if_neg (by omega), dedents_stack i d]; rfl

theorem indentation_back (i d : Nat) : indentation (4 * i) (stack (i + d)) = some (List.replicate d .dedent, stack i) := by
  have h := dedents_stack i d
  revert h
  cases e : stack (i + d) with
  | nil =>
    intro h
    have hi : i + d = 0 := by
      cases hn : i + d with
      | zero => rfl
      | succ n => rw [hn] at e; exact nomatch e
    obtain ⟨rfl, rfl⟩ : i = 0 ∧ d = 0 := by omega
    exact h
  | cons m ms =>
    intro h
    cases d with
    | zero =>
      have : m = 4 * i := by
        cases i with
        | zero => exact nomatch e
        | succ i => exact (List.cons.inj e).1.symm
      unfold indentation
      dsimp only
      rw [if_pos this.symm, ← e]; rfl
    | succ d =>
      have : m = 4 * (i + d + 1) := (List.cons.inj e).1.symm
      unfold indentation
      dsimp only
      rw [if_neg (by omega), if_neg (by omega)]; exact h

theorem indentation_in (i : Nat) : indentation (4 * (i + 1)) (stack i) = some ([.indent], stack (i + 1)) := by
  cases i with
  | zero => rfl
  | succ i =>
    unfold stack indentation
    dsimp only
    rw [if_neg (by omega), if_pos (by omega)]; rfl

theorem lex_spaces {ms r} : ∀ n m, lex P (.start m) ms (List.replicate n ' ' ++ r) = lex P (.start (m + n)) ms r
  | 0, m => rfl
  | n + 1, m => by
    rw [List.replicate_succ, List.cons_append, lex, if_pos rfl, lex_spaces n (m + 1), Nat.add_assoc, Nat.add_comm 1 n]

/-- The first line, and every line after its white space. -/
theorem lex_indent {n ms ms' ts c r} (h1 : c ≠ ' ') (h2 : c ≠ '\n') (h : indentation n ms = some (ts, ms')) :
    lex P (.start n) ms (c :: r) = (lex P (.line 0) ms' (c :: r)).map (ts ++ ·) := by
  rw [lex, if_neg h1, if_neg h2, h, lex, if_neg h1, if_neg h2]
  dsimp only
  cases token P c r with
  | none => rfl
  | some x =>
    dsimp only
    rw [Option.map_map]; rfl

/-- A new line. -/
theorem lex_line {n ms ms' ts c r k} (h1 : c ≠ ' ') (h2 : c ≠ '\n') (h : indentation n ms = some (ts, ms'))
    (hk : lex P (.line 0) ms' (c :: r) = some k) :
    lex P (.line 0) ms ('\n' :: (List.replicate n ' ' ++ c :: r)) = some (.newline :: (ts ++ k)) := by
  rw [lex, if_neg (by decide), if_pos rfl, lex_spaces, Nat.zero_add, lex_indent h1 h2 h, hk]; rfl

/-- A blank line. -/
theorem lex_blank {ms r} : lex P (.line 0) ms ('\n' :: '\n' :: r) = lex P (.line 0) ms ('\n' :: r) := by
  rw [lex, if_neg (by decide), if_pos rfl, lex, if_neg (by decide), if_pos rfl, lex, if_neg (by decide), if_pos rfl]

/-- The end of a line. -/
def EndsLine (rest : Str) : Prop := rest = [] ∨ ∃ r, rest = '\n' :: r

theorem EndsLine.after {rest} (h : EndsLine rest) : After rest := by
  rcases h with rfl | ⟨r, rfl⟩
  · exact fun _ _ e => nomatch e
  · exact After.cons rfl

/-- One or more lines that begin with an indentation of `i` and end `d` blocks further in: how they are read, for every `i`.
The white space at the beginning and the end of the last line are not included. -/
def Lines (P : Reading) (s : Nat → Str) (toks : List Tok) (d : Nat) : Prop :=
  ∀ i rest k, EndsLine rest → lex P (.line 0) (stack (i + d)) rest = some k → lex P (.line 0) (stack i) (s i ++ rest) = some (toks ++ k)

/-- Begins with something. -/
def Starts (s : Nat → Str) : Prop := ∀ i, ∃ c r, s i = c :: r ∧ Dialects.isSpace c = false

theorem noSpace_ne {c : Char} (h : Dialects.isSpace c = false) : c ≠ ' ' ∧ c ≠ '\n' := by
  constructor <;> (rintro rfl; revert h; decide)

theorem Body.lex {s ts ms rest k} (h : Body P s ts) (hr : After rest) (hk : lex P (.line 0) ms rest = some k) :
    PyText.lex P (.line 0) ms (s ++ rest) = some (ts ++ k) := by
  have := h [] [] rest Lx.nil (by simpa using hr) ms k hk
  simpa using this

/-- A single line. -/
theorem Body.lines {s ts} (h : Body P s ts) : Lines P (fun _ => s) ts 0 :=
  fun _ _ _ hr hk => h.lex hr.after hk

/-- What follows on the same line. -/
theorem Body.before {s ts s' ts' d} (h : Body P s ts) (h' : Lines P s' ts' d) (ha : ∀ i rest, After (s' i ++ rest)) :
    Lines P (fun i => s ++ s' i) (ts ++ ts') d := by
  intro i rest k hr hk
  rw [List.append_assoc, List.append_assoc]
  exact h.lex (ha i rest) (h' i rest k hr hk)

/-- More lines; there may be a blank line before them. -/
theorem Lines.next {pre : Str} {s ts d s' ts' d'} (hp : pre = [] ∨ pre = ['\n']) (h : Lines P s ts d) (h' : Lines P s' ts' d')
    (hs : Starts s') :
    Lines P (fun i => s i ++ (pre ++ '\n' :: (spaces i ++ s' i))) (ts ++ .newline :: (List.replicate d .dedent ++ ts')) d' := by
  intro i rest k hr hk
  have h1 := h' i rest k hr hk
  obtain ⟨c, r, e, hc⟩ := hs i
  rw [e, List.cons_append] at h1
  have h2 := lex_line (noSpace_ne hc).1 (noSpace_ne hc).2 (indentation_back i d) h1
  have h3 : PyText.lex P (.line 0) (stack (i + d)) (pre ++ '\n' :: (spaces i ++ c :: (r ++ rest))) =
      some (.newline :: (List.replicate d .dedent ++ (ts' ++ k))) := by
    rcases hp with rfl | rfl
    · exact h2
    · exact lex_blank.trans h2
  have h4 := h i (pre ++ '\n' :: (spaces i ++ c :: (r ++ rest))) _ (by rcases hp with rfl | rfl <;> exact .inr ⟨_, rfl⟩) h3
  have e1 : s i ++ (pre ++ '\n' :: (spaces i ++ s' i)) ++ rest = s i ++ (pre ++ '\n' :: (spaces i ++ c :: (r ++ rest))) := by rw [e]; simp
  rw [e1, h4]; simp

/-- A block. -/
theorem Lines.block {pre : Str} {s ts d} (hp : pre = [] ∨ pre = ['\n']) (h : Lines P s ts d) (hs : Starts s) :
    Lines P (fun i => ':' :: (pre ++ '\n' :: (spaces (i + 1) ++ s (i + 1)))) (.sym .colon :: .newline :: .indent :: ts) (d + 1) := by
  intro i rest k hr hk
  have h1 := h (i + 1) rest k hr (by rw [show i + 1 + d = i + (d + 1) by omega]; exact hk)
  obtain ⟨c, r, e, hc⟩ := hs (i + 1)
  rw [e, List.cons_append] at h1
  have h2 := lex_line (noSpace_ne hc).1 (noSpace_ne hc).2 (indentation_in i) h1
  have h3 : PyText.lex P (.line 0) (stack i) (pre ++ '\n' :: (List.replicate (4 * (i + 1)) ' ' ++ c :: (r ++ rest))) =
      some (.newline :: ([.indent] ++ (ts ++ k))) := by
    rcases hp with rfl | rfl
    · exact h2
    · exact lex_blank.trans h2
  have h4 := Lx.colon (P := P) (rest := pre ++ '\n' :: (List.replicate (4 * (i + 1)) ' ' ++ c :: (r ++ rest)))
    (by rcases hp with rfl | rfl <;> simp) _ _ h3
  have e1 : ':' :: (pre ++ '\n' :: (spaces (i + 1) ++ s (i + 1))) ++ rest =
    [':'] ++ (pre ++ '\n' :: (List.replicate (4 * (i + 1)) ' ' ++ c :: (r ++ rest))) := by rw [e]; simp [spaces]
  rw [e1, h4]; simp

end Mcpyrate.PyText
