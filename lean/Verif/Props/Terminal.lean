import Verif.Lemmas.Terminal
/-
C72 colors apply to the given text, and to nothing after it.

Full statement: `colorize(text, *colors)` shows exactly `text` on a terminal, all of it in the given colors and styles, whatever
the terminal did before, and after it the terminal is in its default style.  `setcolor(*colors)` shows nothing, and what
follows is in that style; with `reset=False` the colors are added to what was in effect.  Tuples of colors, nested in any way,
are applied from left to right.  The names in `Fore`, `Back` and `Style` have the effects that they say.  Every setting of the
color scheme can be used.  If there is no terminal, no codes are written.

`C72_colorize`, `C72_setcolor`, `C72_sequence` (one after the other; the caution that it does not nest: `C72_nested`), `C72_names`,
`C72_scheme`, `C72_errors`; for the codes of ansi.py, that is, where Colorama is not installed.  The last part is proved but for
the styles that Colorama does not have (`C72_no_terminal_partial`); these are written, and not switched off
(`C72_no_terminal_violated`).
-/
namespace Mcpyrate
open Py Colorizer

/-- C72: `colorize` shows `text` in the look that the colors make of the default one, and leaves the default look.  (Text with
codes in it is another matter: `C72_nested`.) -/
theorem C72_colorize (xs : List Setting) (text : Colorizer.Str) (look : Look) (h : applyAll xs .plain = some look)
    (ht : Clean text) : ∃ cs s, values true xs = .ok cs ∧ colorize true text cs = .ok s ∧
      ∀ before, shows before s = (inLook look text, .plain) := by
  obtain ⟨cs, s, h1, h2, h3⟩ := colorize_shows xs text look h ht
  refine ⟨cs, s, h1, h2, fun l => ?_⟩
  have := h3 l []
  simpa [shows, display] using this

/-- `colorize("hi", (Style.BRIGHT, (Fore.RED,)), Back.WHITE)`. -/
example : applyAll [.tuple [style "BRIGHT", .tuple [fore "RED"]], .attr .back "WHITE"] .plain =
      some { bold := true, front := some (.red, false), behind := some (.white, false) } ∧ Clean "hi".toList ∧
    colorize true "hi".toList [.group [.str "\x1b[1m".toList, .group [.str "\x1b[31m".toList]], .str "\x1b[47m".toList] =
      .ok "\x1b[0m\x1b[1m\x1b[31m\x1b[47mhi\x1b[0m".toList :=
  ⟨by decide +kernel, by unfold Clean; decide, by decide +kernel⟩

/-- C72: `setcolor` shows nothing.  What follows is in the default look, with the colors applied; with `reset=False`, they are
applied to the look that was in effect. -/
theorem C72_setcolor (xs : List Setting) (reset : Bool) (before look : Look)
    (h : applyAll xs (if reset then .plain else before) = some look) :
    ∃ cs s, values true xs = .ok cs ∧ setcolor true cs reset = .ok s ∧ ∀ rest, shows before (s ++ rest) = shows look rest :=
  setcolor_shows xs reset before look h

/-- `setcolor(Fore.BLUE, reset=False)`, when `Style.BRIGHT` is in effect. -/
example : applyAll [fore "BLUE"] { bold := true } = some { bold := true, front := some (.blue, false) } ∧
    applyAll [fore "BLUE"] (if true then .plain else { bold := true }) = some { front := some (.blue, false) } :=
  ⟨by decide +kernel, by decide +kernel⟩

/-- C72: what comes after a colorized text is not affected by it. -/
theorem C72_sequence (xs : List Setting) (text : Colorizer.Str) (look : Look) (h : applyAll xs .plain = some look)
    (ht : Clean text) : ∃ cs s, values true xs = .ok cs ∧ colorize true text cs = .ok s ∧
      ∀ before rest, shows before (s ++ rest) = (inLook look text ++ (shows .plain rest).1, (shows .plain rest).2) :=
  colorize_shows xs text look h ht

example : applyAll [fore "GREEN"] .plain = some { front := some (.green, false) } ∧
    shows { bold := true } ("\x1b[0m\x1b[32ma\x1b[0m".toList ++ "b".toList) =
      ([('a', { front := some (.green, false) }), ('b', {})], {}) :=
  ⟨by decide +kernel, by decide +kernel⟩

/-- C72, the caution: `colorize` does not nest.  The text after an inner colorized text has the default look. -/
theorem C72_nested (xs ys : List Setting) (a b c : Colorizer.Str) (outer inner : Look) (hx : applyAll xs .plain = some outer)
    (hy : applyAll ys .plain = some inner) (ha : Clean a) (hb : Clean b) (hc : Clean c) :
    ∃ cs ds s t, values true xs = .ok cs ∧ values true ys = .ok ds ∧ colorize true b ds = .ok s ∧
      colorize true (a ++ s ++ c) cs = .ok t ∧
      ∀ before, shows before t = (inLook outer a ++ inLook inner b ++ inLook .plain c, .plain) := by
  obtain ⟨ds, s, h1, h2, h3⟩ := colorize_shows ys b inner hy hb
  obtain ⟨cs, u, h4, h5, h6⟩ := settings_code xs _ _ hx
  obtain ⟨r, h7, h8⟩ := reset_code
  refine ⟨cs, ds, s, _, h4, h1, h2, colorize_eq h5 h7, fun l => ?_⟩
  have h9 := h8 .plain []
  simp only [shows, display, List.append_nil] at h3 h9 ⊢
  simp only [List.append_assoc]
  rw [h8, h6, display_clean ha, h3, display_clean hc, h9]
  simp

example : Clean "a".toList ∧ colorize true ("a".toList ++ "\x1b[0m\x1b[32mb\x1b[0m".toList ++ "c".toList) [.str "\x1b[31m".toList] =
      .ok "\x1b[0m\x1b[31ma\x1b[0m\x1b[32mb\x1b[0mc\x1b[0m".toList :=
  ⟨by unfold Clean; decide, by decide +kernel⟩

/-- C72: the names are those of the specification: each of these has the effect given there, and no others exist. -/
theorem C72_names (p : Part) (n : String) :
    match effect p n with
    | some f => ∃ s, getattr true p n = .ok s ∧ ∀ l rest, shows l (s ++ rest) = shows (f l) rest
    | none => ∀ tty, getattr tty p n = .error .attributeError := by
  cases h : effect p n with
  | none => exact fun tty => getattr_none h
  | some f => exact code_attr h

/-- There are 17 colors for text, one of them the default color, and 8 styles. -/
example : ((attributes true .fore).map fun a => (effect .fore a.1).isSome).count true = 17 ∧
    ((attributes true .style).map fun a => (effect .style a.1).isSome).count true = 8 ∧ (effect .style "RED").isSome = false :=
  ⟨by decide +kernel, by decide +kernel, by decide +kernel⟩

/-- C72: each setting of the color scheme can be used with `colorize`. -/
theorem C72_scheme (name : String) (x : Setting) (h : (name, x) ∈ scheme) (text : Colorizer.Str) (ht : Clean text) :
    ∃ look c s, x.apply .plain = some look ∧ x.value true = .ok c ∧ colorize true text [c] = .ok s ∧
      look ≠ .plain ∧ ∀ before, shows before s = (inLook look text, .plain) := by
  have hall : ∀ p ∈ scheme, ((p.2.apply .plain).all fun l => l != .plain) = true ∧ (p.2.apply .plain).isSome = true := by
    simp only [scheme, List.forall_mem_cons]
    repeat' constructor
    all_goals first | decide +kernel | simp
  obtain ⟨h1, h2⟩ := hall _ h
  cases hl : x.apply .plain with
  | none => rw [hl] at h2; cases h2
  | some look =>
    rw [hl] at h1
    obtain ⟨cs, s, h3, h4, h5⟩ := C72_colorize [x] text look (by simp [applyAll, hl]) ht
    cases hv : x.value true with
    | error e => rw [values, hv] at h3; cases h3
    | ok c =>
      rw [values, hv] at h3
      cases h3
      exact ⟨look, c, s, rfl, rfl, h4, by simpa using h1, h5⟩

example : ("HEADING1", Setting.tuple [style "BRIGHT", fore "LIGHTBLUE_EX"]) ∈ scheme := by simp [scheme]

/-- C72: colors that are neither strings nor lists or tuples raise TypeError, at any depth; nothing else is an error. -/
theorem C72_errors (tty reset : Bool) (colors : List Color) :
    ((∃ c ∈ colors, Odd c) → setcolor tty colors reset = .error .typeError) ∧
    ((∀ c ∈ colors, ¬ Odd c) → ∃ s, setcolor tty colors reset = .ok s) := by
  have hr : ∃ r, getattr tty .style "RESET_ALL" = .ok r := by cases tty <;> exact ⟨_, rfl⟩
  obtain ⟨r, hr⟩ := hr
  constructor
  · intro ⟨c, hc, ho⟩
    rcases odds_raise colors with h | ⟨s, h1, h2⟩
    · unfold setcolor
      cases reset <;> simp [hr, setcolor1, h, bind, Except.bind, pure, Except.pure]
    · exact absurd ho (h2 c hc)
  · intro h
    rcases odds_raise colors with he | ⟨s, h1, -⟩
    · obtain ⟨c, hc, ho⟩ := errors_odd colors he
      exact absurd ho (h c hc)
    · cases reset
      · exact ⟨_, setcolor_keep h1⟩
      · exact ⟨_, setcolor_reset h1 hr⟩

example : Odd (.group [.str [], .group [.other]]) ∧ ¬ Odd (.group []) :=
  ⟨.group (x := .group [.other]) (by simp) (.group (x := .other) (by simp) .other), fun h => by cases h with | group hx => cases hx⟩

/-- C72: no codes are written if there is no terminal, if none of the additional styles is used. -/
theorem C72_no_terminal_partial (xs : List Setting) (text : Colorizer.Str) (h : (applyAll xs .plain).isSome = true)
    (ha : anyAdditional xs = false) : ∃ cs, values false xs = .ok cs ∧ colorize false text cs = .ok text := by
  obtain ⟨cs, h1, h2⟩ := dumb_settings xs .plain h ha
  refine ⟨cs, h1, ?_⟩
  rw [colorize_eq h2 (r := []) rfl]
  simp

example : (applyAll [fore "RED", style "DIM"] .plain).isSome = true ∧ anyAdditional [fore "RED", style "DIM"] = false :=
  ⟨by decide +kernel, by decide⟩

/-- C72 does not hold without that: whether there is a terminal is a question of `sys.stderr`.  If that is redirected,
`print(colorize(text, Style.ITALIC))` still writes a code, and then does not reset it. -/
theorem C72_no_terminal_violated : ∃ cs s, values false [style "ITALIC"] = .ok cs ∧ colorize false "hi".toList cs = .ok s ∧
    s ≠ "hi".toList ∧ shows .plain s = (inLook { italic := true } "hi".toList, { italic := true }) :=
  ⟨[.str "\x1b[3m".toList], "\x1b[3mhi".toList, rfl, by decide +kernel, by decide, by decide +kernel⟩

end Mcpyrate
