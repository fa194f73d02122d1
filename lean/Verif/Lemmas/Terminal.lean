import Verif.Spec.Terminal
/-
Lemmas for C72.
-/
namespace Mcpyrate.Colorizer
open Py

/-- `s` is code that makes `f l` of the look `l`. -/
def Code (s : Str) (f : Look → Look) : Prop := ∀ l rest, display .text l (s ++ rest) = display .text (f l) rest

set_option maxRecDepth 2000 in
theorem code_attr {p : Part} {n : String} {f : Look → Look} (h : effect p n = some f) :
    ∃ s, getattr true p n = .ok s ∧ Code s f := by
  cases p with
  | fore =>
    simp only [effect, ink] at h
    split at h <;> cases h <;> exact ⟨_, rfl, fun _ _ => rfl⟩
  | back =>
    simp only [effect, ink] at h
    split at h <;> cases h <;> exact ⟨_, rfl, fun _ _ => rfl⟩
  | style =>
    simp only [effect] at h
    split at h <;> first | contradiction | (cases h; exact ⟨_, rfl, fun _ _ => rfl⟩)

theorem mem_of_lookup {n : String} {d : List (String × Str)} {s : Str} (h : d.lookup n = some s) : n ∈ d.map (·.1) := by
  induction d with
  | nil => cases h
  | cons x d ih =>
    obtain ⟨k, v⟩ := x
    rw [List.lookup_cons] at h
    by_cases hk : n = k
    · exact hk ▸ List.mem_cons_self
    · rw [beq_eq_false_iff_ne.2 hk] at h
      exact List.mem_cons_of_mem _ (ih h)

theorem names_known : ∀ tty p, ∀ n ∈ (attributes tty p).map (·.1), (effect p n).isSome = true := by
  intro tty p
  cases tty <;> cases p <;> decide +kernel

/-- The names, and no others, exist. -/
theorem getattr_none {tty : Bool} {p : Part} {n : String} (h : effect p n = none) : getattr tty p n = .error .attributeError := by
  unfold getattr
  cases hl : (attributes tty p).lookup n with
  | none => rfl
  | some s =>
    have := names_known tty p n (mem_of_lookup hl)
    rw [h] at this
    cases this

theorem reset_code : ∃ s, getattr true .style "RESET_ALL" = .ok s ∧ Code s fun _ => .plain := code_attr rfl

theorem display_clean {text : Str} (h : Clean text) (l : Look) (rest : Str) :
    display .text l (text ++ rest) = (inLook l text ++ (display .text l rest).1, (display .text l rest).2) := by
  induction text with
  | nil => rfl
  | cons c s ih =>
    unfold Clean at h
    have hc : c ≠ '\x1b' := fun e => h (e ▸ List.mem_cons_self)
    have hs : Clean s := fun e => h (List.mem_cons_of_mem _ e)
    simp only [List.cons_append, display, if_neg hc, ih hs, inLook, List.map_cons]

mutual
/-- The string for a setting does what the setting says. -/
theorem setting_code (x : Setting) (l l' : Look) (h : x.apply l = some l') :
    ∃ c s, x.value true = .ok c ∧ setcolor1 c = .ok s ∧ ∀ rest, display .text l (s ++ rest) = display .text l' rest := by
  match x with
  | .attr p n =>
    unfold Setting.apply at h
    cases hf : effect p n with
    | none => rw [hf] at h; cases h
    | some f =>
      rw [hf] at h
      cases h
      obtain ⟨s, h1, h2⟩ := code_attr hf
      refine ⟨.str s, s, ?_, by rw [setcolor1], fun rest => h2 l rest⟩
      rw [Setting.value, h1]
      rfl
  | .tuple xs =>
    unfold Setting.apply at h
    obtain ⟨cs, s, h1, h2, h3⟩ := settings_code xs l l' h
    refine ⟨.group cs, s, ?_, by rw [setcolor1, h2], h3⟩
    rw [Setting.value, h1]
    rfl
theorem settings_code (xs : List Setting) (l l' : Look) (h : applyAll xs l = some l') :
    ∃ cs s, values true xs = .ok cs ∧ setcolors cs = .ok s ∧ ∀ rest, display .text l (s ++ rest) = display .text l' rest := by
  match xs with
  | [] =>
    unfold applyAll at h
    cases h
    exact ⟨[], [], rfl, rfl, fun _ => rfl⟩
  | x :: xs =>
    unfold applyAll at h
    cases hx : x.apply l with
    | none => rw [hx] at h; cases h
    | some l1 =>
      rw [hx] at h
      obtain ⟨c, s, h1, h2, h3⟩ := setting_code x l l1 hx
      obtain ⟨cs, r, h4, h5, h6⟩ := settings_code xs l1 l' h
      refine ⟨c :: cs, s ++ r, ?_, ?_, ?_⟩
      · rw [values, h1, h4]; rfl
      · rw [setcolors, h2, h5]; rfl
      · intro rest
        rw [List.append_assoc, h3, h6]
end

theorem setcolor_reset {tty : Bool} {colors : List Color} {s r : Str} (h : setcolors colors = .ok s)
    (hr : getattr tty .style "RESET_ALL" = .ok r) : setcolor tty colors true = .ok (r ++ s) := by
  unfold setcolor
  simp only [if_true, hr, setcolor1, h, bind, Except.bind, pure, Except.pure]
  simp

theorem setcolor_keep {tty : Bool} {colors : List Color} {s : Str} (h : setcolors colors = .ok s) :
    setcolor tty colors false = .ok s := by
  unfold setcolor
  simp only [setcolor1, h, bind, Except.bind, pure, Except.pure]
  simp

theorem setcolors_group {colors : List Color} {s : Str} (h : setcolors colors = .ok s) :
    setcolors [.group colors] = .ok s := by
  rw [setcolors, setcolor1, h, setcolors]
  simp [bind, Except.bind, pure, Except.pure]

theorem colorize_eq {tty : Bool} {text : Str} {colors : List Color} {s r : Str} (h : setcolors colors = .ok s)
    (hr : getattr tty .style "RESET_ALL" = .ok r) : colorize tty text colors = .ok (r ++ s ++ text ++ r) := by
  unfold colorize
  rw [setcolor_reset (setcolors_group h) hr, setcolor_reset (s := []) rfl hr]
  simp [bind, Except.bind, pure, Except.pure]

/-- `setcolor`. -/
theorem setcolor_shows (xs : List Setting) (reset : Bool) (l l' : Look) (h : applyAll xs (if reset then .plain else l) = some l') :
    ∃ cs s, values true xs = .ok cs ∧ setcolor true cs reset = .ok s ∧ ∀ rest, shows l (s ++ rest) = shows l' rest := by
  obtain ⟨cs, s, h1, h2, h3⟩ := settings_code xs _ _ h
  cases reset with
  | false => exact ⟨cs, s, h1, setcolor_keep h2, h3⟩
  | true =>
    obtain ⟨r, h4, h5⟩ := reset_code
    refine ⟨cs, r ++ s, h1, setcolor_reset h2 h4, fun rest => ?_⟩
    unfold shows
    rw [List.append_assoc, h5]
    exact h3 rest

/-- `colorize`. -/
theorem colorize_shows (xs : List Setting) (text : Str) (l' : Look) (h : applyAll xs .plain = some l') (ht : Clean text) :
    ∃ cs s, values true xs = .ok cs ∧ colorize true text cs = .ok s ∧ ∀ l rest,
      shows l (s ++ rest) = (inLook l' text ++ (shows .plain rest).1, (shows .plain rest).2) := by
  obtain ⟨cs, s, h1, h2, h3⟩ := settings_code xs _ _ h
  obtain ⟨r, h4, h5⟩ := reset_code
  refine ⟨cs, _, h1, colorize_eq h2 h4, fun l rest => ?_⟩
  unfold shows
  simp only [List.append_assoc]
  rw [h5, h3, display_clean ht, h5]

mutual
theorem odd_raises (c : Color) : setcolor1 c = .error .typeError ∨ ∃ s, setcolor1 c = .ok s ∧ ¬ Odd c := by
  match c with
  | .str s => exact .inr ⟨s, by rw [setcolor1], fun h => by cases h⟩
  | .other => exact .inl (by rw [setcolor1])
  | .group xs =>
    rw [setcolor1]
    rcases odds_raise xs with h | ⟨s, h1, h2⟩
    · exact .inl h
    · exact .inr ⟨s, h1, fun h => by cases h with | group hx ho => exact h2 _ hx ho⟩
theorem odds_raise (cs : List Color) : setcolors cs = .error .typeError ∨ ∃ s, setcolors cs = .ok s ∧ ∀ c ∈ cs, ¬ Odd c := by
  match cs with
  | [] => exact .inr ⟨[], by rw [setcolors], fun _ h => by cases h⟩
  | c :: cs =>
    rw [setcolors]
    rcases odd_raises c with h | ⟨s, h1, h2⟩
    · exact .inl (by rw [h]; rfl)
    · rcases odds_raise cs with h | ⟨r, h3, h4⟩
      · exact .inl (by rw [h1, h]; rfl)
      · refine .inr ⟨s ++ r, by rw [h1, h3]; rfl, fun x hx => ?_⟩
        cases hx with
        | head => exact h2
        | tail _ hx => exact h4 x hx
end

mutual
theorem error_odd (c : Color) (h : setcolor1 c = .error .typeError) : Odd c := by
  match c with
  | .str s => rw [setcolor1] at h; cases h
  | .other => exact .other
  | .group xs =>
    rw [setcolor1] at h
    obtain ⟨x, hx, ho⟩ := errors_odd xs h
    exact .group hx ho
theorem errors_odd (cs : List Color) (h : setcolors cs = .error .typeError) : ∃ c ∈ cs, Odd c := by
  match cs with
  | [] => rw [setcolors] at h; cases h
  | c :: cs =>
    rw [setcolors] at h
    cases hc : setcolor1 c with
    | error e =>
      rw [hc] at h
      cases h
      exact ⟨c, List.mem_cons_self, error_odd c hc⟩
    | ok s =>
      rw [hc] at h
      cases hs : setcolors cs with
      | ok r => rw [hs] at h; cases h
      | error e =>
        rw [hs] at h
        cases h
        obtain ⟨x, hx, ho⟩ := errors_odd cs hs
        exact ⟨x, List.mem_cons_of_mem _ hx, ho⟩
end

/-! ### no terminal -/

theorem dumb_attr {p : Part} {n : String} {f : Look → Look} (h : effect p n = some f)
    (ha : (Setting.attr p n).additional = false) : getattr false p n = .ok [] := by
  cases p with
  | fore =>
    simp only [effect, ink] at h
    split at h <;> cases h <;> rfl
  | back =>
    simp only [effect, ink] at h
    split at h <;> cases h <;> rfl
  | style =>
    simp only [effect] at h
    split at h <;> first | rfl | contradiction | (revert ha; simp [Setting.additional])

mutual
theorem dumb_setting (x : Setting) (l : Look) (h : (x.apply l).isSome = true) (ha : x.additional = false) :
    ∃ c, x.value false = .ok c ∧ setcolor1 c = .ok [] := by
  match x with
  | .attr p n =>
    unfold Setting.apply at h
    cases hf : effect p n with
    | none => rw [hf] at h; cases h
    | some f =>
      refine ⟨.str [], ?_, by rw [setcolor1]⟩
      rw [Setting.value, dumb_attr hf ha]
      rfl
  | .tuple xs =>
    unfold Setting.apply at h
    unfold Setting.additional at ha
    obtain ⟨cs, h1, h2⟩ := dumb_settings xs l h ha
    refine ⟨.group cs, ?_, by rw [setcolor1, h2]⟩
    rw [Setting.value, h1]
    rfl
theorem dumb_settings (xs : List Setting) (l : Look) (h : (applyAll xs l).isSome = true) (ha : anyAdditional xs = false) :
    ∃ cs, values false xs = .ok cs ∧ setcolors cs = .ok [] := by
  match xs with
  | [] => exact ⟨[], rfl, rfl⟩
  | x :: xs =>
    unfold applyAll at h
    simp only [anyAdditional, Bool.or_eq_false_iff] at ha
    cases hx : x.apply l with
    | none => rw [hx] at h; cases h
    | some l1 =>
      rw [hx] at h
      obtain ⟨c, h1, h2⟩ := dumb_setting x l (by rw [hx]; rfl) ha.1
      obtain ⟨cs, h4, h5⟩ := dumb_settings xs l1 h ha.2
      refine ⟨c :: cs, ?_, ?_⟩
      · rw [values, h1, h4]; rfl
      · rw [setcolors, h2, h5]; rfl
end

end Mcpyrate.Colorizer
