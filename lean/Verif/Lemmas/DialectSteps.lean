import Verif.Spec.DialectSteps
import Verif.Lemmas.Dialects
namespace Mcpyrate.DialectSteps
open Py GetMacros Paths

variable {σ M O D C : Type}

/-! Texts. -/

def Kind.before : Kind → String
  | .source => "source transformers"
  | .ast => "AST transformers"

def Kind.completed : Kind → String
  | .source => "source transforms"
  | .ast => "AST transforms"

theorem decimalAux_digits : ∀ (fuel n : Nat) (acc : Str), n < fuel →
    Unparse.decimalAux fuel n acc = Nat.toDigits 10 n ++ acc
  | 0, _, _, h => by omega
  | fuel + 1, n, acc, h => by
    rw [Unparse.decimalAux]
    split
    · rename_i hn
      rw [Nat.toDigits_of_lt_base hn]
      have : Char.ofNat (48 + n) = n.digitChar := by
        have : n = 0 ∨ n = 1 ∨ n = 2 ∨ n = 3 ∨ n = 4 ∨ n = 5 ∨ n = 6 ∨ n = 7 ∨ n = 8 ∨ n = 9 := by omega
        rcases this with rfl | rfl | rfl | rfl | rfl | rfl | rfl | rfl | rfl | rfl <;> rfl
      rw [this]; rfl
    · rename_i hn
      rw [decimalAux_digits fuel (n / 10) _ (by omega), Nat.toDigits_of_base_le (n := n) (by omega) (by omega)]
      have : Char.ofNat (48 + n % 10) = (n % 10).digitChar := by
        have : n % 10 = 0 ∨ n % 10 = 1 ∨ n % 10 = 2 ∨ n % 10 = 3 ∨ n % 10 = 4 ∨ n % 10 = 5 ∨ n % 10 = 6 ∨ n % 10 = 7 ∨
          n % 10 = 8 ∨ n % 10 = 9 := by omega
        rcases this with h | h | h | h | h | h | h | h | h | h <;> rw [h] <;> rfl
      rw [this]
      simp

theorem decimal_eq (n : Nat) : Unparse.decimal n = (toString n).toList := by
  rw [Unparse.decimal, decimalAux_digits _ _ _ (by omega), List.append_nil]
  exact Nat.toList_repr.symm

theorem total_eq (n : Nat) : total n = (inTotal n).toList := by
  unfold total
  rw [decimal_eq]
  match n with
  | 0 => rfl
  | 1 => rfl
  | n + 2 =>
    simp only [inTotal, String.toList_append]
    have : (n + 2 != 1) = true := by simp
    rw [if_pos this]
    simp only [lit, List.append_assoc]
    rfl

theorem Colored.append {k : List Str} {t p t' p' : Str} (h : Colored k t p) (h' : Colored k t' p') :
    Colored k (t ++ t') (p ++ p') := by
  induction h with
  | nil => exact h'
  | char _ ih => exact .char ih
  | code hk _ ih => rw [List.append_assoc]; exact .code hk ih

theorem Colored.plain {k : List Str} : ∀ t : Str, Colored k t t
  | [] => .nil
  | _ :: t => .char (Colored.plain t)

theorem Colored.then {k : List Str} {t p : Str} (h : Colored k t p) (s : Str) : Colored k (t ++ s) (p ++ s) := h.append (.plain s)

theorem Colored.codes {k : List Str} {t p : Str} (h : Colored k t p) {c : Str} (hc : c ∈ k) : Colored k (t ++ c) p := by
  have := h.append (.code (t := []) hc .nil)
  simpa using this

theorem Colored.set {P : Palette} {t p c : Str} (h : Colored P.codes t p) (hc : c ∈ P.codes) : Colored P.codes (t ++ P.set c) p := by
  unfold Palette.set
  rw [← List.append_assoc]
  exact (h.codes (by simp [Palette.codes])).codes hc

theorem Colored.clear {P : Palette} {t p : Str} (h : Colored P.codes t p) : Colored P.codes (t ++ P.clear) p :=
  h.codes (by simp [Palette.codes, Palette.clear])

theorem header_colored (P : Palette) : Colored P.codes (header P) (lit "**StepExpansion: ") := by
  have : Colored P.codes ([] ++ P.set P.heading) [] := Colored.nil.set (by simp [Palette.codes])
  exact (this.then _).clear

theorem Written.append {E : Console D C} {es es' : List (Entry C)} {t t' : Str} (h : Written E es t) (h' : Written E es' t') :
    Written E (es ++ es') (t ++ t') := by
  induction h with
  | nil => exact h'
  | cons h1 _ ih => rw [List.append_assoc]; exact .cons h1 ih

theorem Written.one {E : Console D C} {e : Entry C} {t : Str} (h : Colored E.colors.codes t (e.message E.filename)) :
    Written E [e] (t ++ e.content E.display) := by
  have := Written.cons h .nil
  simpa using this

/-- `s'` is `s` with the entries written, and otherwise the same. -/
structure Writes (E : Console D C) (es : List (Entry C)) (s s' : Shown σ) : Prop where
  st : s'.st = s.st
  debug : s'.debug = s.debug
  out : ∃ o, s'.out = s.out ++ o ∧ Written E es o

theorem Writes.none (E : Console D C) (s : Shown σ) : Writes E [] s s := ⟨rfl, rfl, [], by simp, .nil⟩

theorem Writes.trans {E : Console D C} {es es' : List (Entry C)} {s s' s'' : Shown σ} (h : Writes E es s s')
    (h' : Writes E es' s' s'') : Writes E (es ++ es') s s'' := by
  obtain ⟨h1, h2, o, h3, h4⟩ := h
  obtain ⟨g1, g2, o', g3, g4⟩ := h'
  exact ⟨g1.trans h1, g2.trans h2, o ++ o', by rw [g3, h3, List.append_assoc], h4.append g4⟩

theorem print_writes {E : Console D C} {e : Entry C} {t : Str} (s : Shown σ)
    (h : Colored E.colors.codes (t ++ ['\n']) (e.message E.filename)) (he : e.content E.display = []) :
    Writes E [e] s (print t s) :=
  ⟨rfl, rfl, _, rfl, by
    have := Written.one h
    rwa [he, List.append_nil] at this⟩

theorem print2_writes {E : Console D C} {e : Entry C} {t : Str} {c : C} (s : Shown σ)
    (h : Colored E.colors.codes (t ++ ['\n']) (e.message E.filename)) (he : e.content E.display = E.display c ++ ['\n']) :
    Writes E [e] s (print (E.display c) (print t s)) :=
  ⟨rfl, rfl, (t ++ ['\n']) ++ (E.display c ++ ['\n']), by simp only [print, List.append_assoc], by
    have := Written.one h
    rwa [he] at this⟩

/-- The start of every message. -/
theorem start_colored (E : Console D C) : Colored E.colors.codes (header E.colors ++ E.colors.set E.colors.source ++ E.filename ++
    lit " " ++ E.colors.set E.colors.heading) (lit "**StepExpansion: " ++ E.filename ++ lit " ") :=
  ((((header_colored E.colors).set (by simp [Palette.codes])).then E.filename).then (lit " ")).set (by simp [Palette.codes])

theorem enable_writes (E : Console D C) (s : Shown σ) :
    Writes E [.enabled (s.st.step + 1)] { s with debug := true } (enable E s) := by
  unfold enable
  dsimp only
  refine print_writes _ ?_ rfl
  have e : " enabled DialectExpander debug mode while taking step ".toList =
    lit " " ++ (lit "enabled " ++ (lit "DialectExpander debug mode " ++ lit "while taking step ")) := by decide +kernel
  have e' : ".\n".toList = lit "." ++ ['\n'] := by decide +kernel
  have := (((((start_colored E).then (lit "enabled ")).set (c := E.colors.attention) (by simp [Palette.codes])).then
    (lit "DialectExpander debug mode ")).set (c := E.colors.heading) (by simp [Palette.codes]))
  have := ((((this.then (lit "while taking step ")).then (Unparse.decimal (s.st.step + 1))).then (lit ".")).clear).then ['\n']
  dsimp only [Entry.message]
  simp only [e, e', decimal_eq] at this ⊢
  simp only [List.append_assoc] at this ⊢
  exact this

theorem showBefore_writes (E : Console D C) (k : Kind) (c : C) (s : Shown σ) :
    Writes E (if s.debug then [.before k.before s.st.step c] else []) s (showBefore E k c s) := by
  unfold showBefore
  dsimp only
  split
  · refine print2_writes _ ?_ rfl
    have e : " before dialect ".toList = lit " " ++ lit "before dialect " := by decide +kernel
    have e' : ":\n\n".toList = lit ":" ++ (['\n'] ++ ['\n']) := by decide +kernel
    have := (((start_colored E).then (lit "before dialect ")).set (c := E.colors.kind) (by simp [Palette.codes])).then (k.text ++ lit " ")
    have := ((((this.set (c := E.colors.heading) (by simp [Palette.codes])).then (lit "transformers ")).then
      (total s.st.step)).then (lit ":")).clear
    have := (this.then ['\n']).then ['\n']
    dsimp only [Entry.message]
    simp only [e, e', total_eq] at this ⊢
    cases k
    · have e2 : "source transformers".toList ++ " ".toList = Kind.text .source ++ (lit " " ++ lit "transformers ") := by decide +kernel
      dsimp only [Kind.before]
      rw [List.append_assoc _ "source transformers".toList, e2]
      simp only [List.append_assoc] at this ⊢
      exact this
    · have e2 : "AST transformers".toList ++ " ".toList = Kind.text .ast ++ (lit " " ++ lit "transformers ") := by decide +kernel
      dsimp only [Kind.before]
      rw [List.append_assoc _ "AST transformers".toList, e2]
      simp only [List.append_assoc] at this ⊢
      exact this
  · exact Writes.none E s

theorem showAfter_writes (E : Console D C) (who : Str) (c : C) (s : Shown σ) :
    Writes E (if s.debug then [.after who s.st.step c] else []) s (showAfter E who c s) := by
  unfold showAfter
  dsimp only
  split
  · refine print2_writes _ ?_ rfl
    have e : " after ".toList = lit " " ++ lit "after " := by decide +kernel
    have e' : "):\n\n".toList = lit "):" ++ (['\n'] ++ ['\n']) := by decide +kernel
    have := (((start_colored E).then (lit "after ")).set (c := E.colors.name) (by simp [Palette.codes])).then (who ++ lit " ")
    have := ((((this.set (c := E.colors.heading) (by simp [Palette.codes])).then (lit "(step ")).then
      (Unparse.decimal s.st.step)).then (lit "):")).clear
    have := (this.then ['\n']).then ['\n']
    dsimp only [Entry.message]
    simp only [e, e', decimal_eq] at this ⊢
    have e2 : " (step ".toList = lit " " ++ lit "(step " := by decide +kernel
    rw [e2]
    simp only [List.append_assoc] at this ⊢
    exact this
  · exact Writes.none E s

theorem showCompleted_writes (E : Console D C) (k : Kind) (s : Shown σ) :
    Writes E (if s.debug then [.completed k.completed s.st.step] else []) s (showCompleted E k s) := by
  unfold showCompleted
  dsimp only
  split
  · refine print_writes _ ?_ rfl
    have e : " completed all dialect ".toList = lit " " ++ lit "completed all dialect " := by decide +kernel
    have e' : ".\n".toList = lit "." ++ ['\n'] := by decide +kernel
    have := (((start_colored E).then (lit "completed all dialect ")).set (c := E.colors.kind) (by simp [Palette.codes])).then (k.text ++ lit " ")
    have := ((((this.set (c := E.colors.heading) (by simp [Palette.codes])).then (lit "transforms ")).then
      (total s.st.step)).then (lit ".")).clear
    have := this.then ['\n']
    dsimp only [Entry.message]
    simp only [e, e', total_eq] at this ⊢
    cases k
    · have e2 : "source transforms".toList ++ " ".toList = Kind.text .source ++ (lit " " ++ lit "transforms ") := by decide +kernel
      dsimp only [Kind.completed]
      rw [List.append_assoc _ "source transforms".toList, e2]
      simp only [List.append_assoc] at this ⊢
      exact this
    · have e2 : "AST transforms".toList ++ " ".toList = Kind.text .ast ++ (lit " " ++ lit "transforms ") := by decide +kernel
      dsimp only [Kind.completed]
      rw [List.append_assoc _ "AST transforms".toList, e2]
      simp only [List.append_assoc] at this ⊢
      exact this
  · exact Writes.none E s

theorem postBefore_writes (E : Console D C) (c : C) (s : Shown σ) :
    Writes E (if s.debug then [.before "AST postprocessors" s.st.step c] else []) s (postBefore E c s) := by
  unfold postBefore
  dsimp only
  split
  · refine print2_writes _ ?_ rfl
    have e : " before dialect ".toList = lit " " ++ lit "before dialect " := by decide +kernel
    have e' : ":\n\n".toList = lit ":" ++ (['\n'] ++ ['\n']) := by decide +kernel
    have := (((start_colored E).then (lit "before dialect ")).set (c := E.colors.kind) (by simp [Palette.codes])).then
      (lit "AST postprocessors ")
    have := ((((this.set (c := E.colors.heading) (by simp [Palette.codes])).then []).then
      (total s.st.step)).then (lit ":")).clear
    have := (this.then ['\n']).then ['\n']
    dsimp only [Entry.message]
    simp only [e, e', total_eq] at this ⊢
    have e2 : "AST postprocessors".toList ++ " ".toList = lit "AST postprocessors " := by decide +kernel
    rw [List.append_assoc _ "AST postprocessors".toList, e2]
    simp only [List.append_assoc, List.append_nil, List.nil_append] at this ⊢
    exact this
  · exact Writes.none E s

theorem postCompleted_writes (E : Console D C) (s : Shown σ) :
    Writes E (if s.debug then [.completed "AST postprocessors" s.st.step] else []) s (postCompleted E s) := by
  unfold postCompleted
  dsimp only
  split
  · refine print_writes _ ?_ rfl
    have e : " completed all dialect ".toList = lit " " ++ lit "completed all dialect " := by decide +kernel
    have e' : ".\n".toList = lit "." ++ ['\n'] := by decide +kernel
    have := (((start_colored E).then (lit "completed all dialect ")).set (c := E.colors.kind) (by simp [Palette.codes])).then
      (lit "AST postprocessors ")
    have := ((((this.set (c := E.colors.heading) (by simp [Palette.codes])).then []).then
      (total s.st.step)).then (lit ".")).clear
    have := this.then ['\n']
    dsimp only [Entry.message]
    simp only [e, e', total_eq] at this ⊢
    have e2 : "AST postprocessors".toList ++ " ".toList = lit "AST postprocessors " := by decide +kernel
    rw [List.append_assoc _ "AST postprocessors".toList, e2]
    simp only [List.append_assoc, List.append_nil, List.nil_append] at this ⊢
    exact this
  · exact Writes.none E s

end Mcpyrate.DialectSteps
