import Verif.Model.Colorizer
/-
A terminal, as far as colors and styles go (ECMA-48, 8.3.117, and the usual codes for light colors), and what the names in
`Fore`, `Back` and `Style` stand for (C72).
-/
namespace Mcpyrate.Colorizer

inductive Hue where
  | black | red | green | yellow | blue | magenta | cyan | white
  deriving DecidableEq, Repr

/-- A color; `none` is the default color of the terminal. -/
abbrev Ink := Option (Hue × Bool)

/-- How a character looks. -/
structure Look where
  front : Ink := none
  behind : Ink := none
  bold : Bool := false
  faint : Bool := false
  italic : Bool := false
  underlined : Bool := false
  blinks : Bool := false
  blinksFast : Bool := false
  deriving DecidableEq, Repr

/-- The default look of a terminal. -/
def Look.plain : Look := {}

/-- The hues, in the order of their codes. -/
def hue : Nat → Hue
  | 0 => .black | 1 => .red | 2 => .green | 3 => .yellow | 4 => .blue | 5 => .magenta | 6 => .cyan | _ => .white

/-- What the code `n` does; other codes are ignored. -/
def graphics (n : Nat) (l : Look) : Look :=
  if n = 0 then {}
  else if n = 1 then { l with bold := true }
  else if n = 2 then { l with faint := true }
  else if n = 3 then { l with italic := true }
  else if n = 4 then { l with underlined := true }
  else if n = 5 then { l with blinks := true }
  else if n = 6 then { l with blinksFast := true }
  else if n = 22 then { l with bold := false, faint := false }
  else if 30 ≤ n ∧ n ≤ 37 then { l with front := some (hue (n - 30), false) }
  else if n = 39 then { l with front := none }
  else if 40 ≤ n ∧ n ≤ 47 then { l with behind := some (hue (n - 40), false) }
  else if n = 49 then { l with behind := none }
  else if 90 ≤ n ∧ n ≤ 97 then { l with front := some (hue (n - 90), true) }
  else if 100 ≤ n ∧ n ≤ 107 then { l with behind := some (hue (n - 100), true) }
  else l

/-- What a terminal is doing: showing text, or reading a code. -/
inductive Mode where
  | text
  | escape
  | number (n : Nat)

/-- The characters that a terminal shows, with their looks, and its look afterwards.  A sequence that is not of the form
`ESC [ digits m` ends where that can be seen, and does nothing. -/
def display : Mode → Look → Str → List (Char × Look) × Look
  | _, l, [] => ([], l)
  | .text, l, c :: s =>
    if c = '\x1b' then display .escape l s
    else
      let r := display .text l s
      ((c, l) :: r.1, r.2)
  | .escape, l, c :: s => if c = '[' then display (.number 0) l s else display .text l s
  | .number n, l, c :: s =>
    if '0' ≤ c ∧ c ≤ '9' then display (.number (10 * n + (c.toNat - '0'.toNat))) l s
    else if c = 'm' then display .text (graphics n l) s
    else display .text l s

/-- A terminal that looks like `l` is sent `s`: the characters that it shows, and its look afterwards. -/
def shows (l : Look) (s : Str) : List (Char × Look) × Look := display .text l s

/-- The hue of this name, and whether it is light. -/
def ink : String → Option Ink
  | "BLACK" => some (some (.black, false))
  | "RED" => some (some (.red, false))
  | "GREEN" => some (some (.green, false))
  | "YELLOW" => some (some (.yellow, false))
  | "BLUE" => some (some (.blue, false))
  | "MAGENTA" => some (some (.magenta, false))
  | "CYAN" => some (some (.cyan, false))
  | "WHITE" => some (some (.white, false))
  | "LIGHTBLACK_EX" => some (some (.black, true))
  | "LIGHTRED_EX" => some (some (.red, true))
  | "LIGHTGREEN_EX" => some (some (.green, true))
  | "LIGHTYELLOW_EX" => some (some (.yellow, true))
  | "LIGHTBLUE_EX" => some (some (.blue, true))
  | "LIGHTMAGENTA_EX" => some (some (.magenta, true))
  | "LIGHTCYAN_EX" => some (some (.cyan, true))
  | "LIGHTWHITE_EX" => some (some (.white, true))
  | "RESET" => some none
  | _ => none

/-- What the attribute of this name stands for; `none`, if there should be no such attribute. -/
def effect : Part → String → Option (Look → Look)
  | .fore, n => (ink n).map fun i l => { l with front := i }
  | .back, n => (ink n).map fun i l => { l with behind := i }
  | .style, "BRIGHT" => some fun l => { l with bold := true }
  | .style, "DIM" => some fun l => { l with faint := true }
  | .style, "NORMAL" => some fun l => { l with bold := false, faint := false }
  | .style, "RESET_ALL" => some fun _ => .plain
  | .style, "ITALIC" => some fun l => { l with italic := true }
  | .style, "URL" => some fun l => { l with underlined := true }
  | .style, "BLINK" => some fun l => { l with blinks := true }
  | .style, "BLINK2" => some fun l => { l with blinksFast := true }
  | .style, _ => none

mutual
/-- The look that the setting makes of `l`: its parts are applied in order.  `none`, if a name does not exist. -/
def Setting.apply : Setting → Look → Option Look
  | .attr p n, l => (effect p n).map (· l)
  | .tuple xs, l => applyAll xs l
def applyAll : List Setting → Look → Option Look
  | [], l => some l
  | x :: xs, l => (x.apply l).bind (applyAll xs)
end

/-- The text contains no escape character. -/
def Clean (text : Str) : Prop := '\x1b' ∉ text

/-- All of `text`, in this look. -/
def inLook (l : Look) (text : Str) : List (Char × Look) := text.map (·, l)

mutual
/-- The setting uses one of the styles that Colorama does not have. -/
def Setting.additional : Setting → Bool
  | .attr p n => p == .style && (n == "ITALIC" || n == "URL" || n == "BLINK" || n == "BLINK2")
  | .tuple xs => anyAdditional xs
def anyAdditional : List Setting → Bool
  | [] => false
  | x :: xs => x.additional || anyAdditional xs
end

/-- The color contains an object that is neither a string nor a list or tuple. -/
inductive Odd : Color → Prop
  | other : Odd .other
  | group {x xs} : x ∈ xs → Odd x → Odd (.group xs)

end Mcpyrate.Colorizer
