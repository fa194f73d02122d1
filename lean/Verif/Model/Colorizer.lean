import Verif.Py.Err
/-
Terminal colors: colorizer.py, with the codes of ansi.py (used where Colorama is not installed).
-/
namespace Mcpyrate.Colorizer
open Py

abbrev Str := List Char

/-- `CSI`, ansi.py:9. -/
def csi : Str := ['\x1b', '[']

/-- `code_to_chars(code)`, ansi.py:14-15.  `tty` is `is_a_tty`, ansi.py:12. -/
def codeToChars (tty : Bool) (code : Nat) : Str :=
  if tty then csi ++ (toString code).toList ++ ['m'] else []

/-- The objects `Fore`, `Back` and `Style`, ansi.py:101-103. -/
inductive Part where
  | fore | back | style
  deriving DecidableEq, Repr

/-- The class attributes of `AnsiFore`, `AnsiBack` and `AnsiStyle`, ansi.py:51-99. -/
def codes : Part → List (String × Nat)
  | .fore => [("BLACK", 30), ("RED", 31), ("GREEN", 32), ("YELLOW", 33), ("BLUE", 34), ("MAGENTA", 35), ("CYAN", 36),
      ("WHITE", 37), ("RESET", 39), ("LIGHTBLACK_EX", 90), ("LIGHTRED_EX", 91), ("LIGHTGREEN_EX", 92),
      ("LIGHTYELLOW_EX", 93), ("LIGHTBLUE_EX", 94), ("LIGHTMAGENTA_EX", 95), ("LIGHTCYAN_EX", 96), ("LIGHTWHITE_EX", 97)]
  | .back => [("BLACK", 40), ("RED", 41), ("GREEN", 42), ("YELLOW", 43), ("BLUE", 44), ("MAGENTA", 45), ("CYAN", 46),
      ("WHITE", 47), ("RESET", 49), ("LIGHTBLACK_EX", 100), ("LIGHTRED_EX", 101), ("LIGHTGREEN_EX", 102),
      ("LIGHTYELLOW_EX", 103), ("LIGHTBLUE_EX", 104), ("LIGHTMAGENTA_EX", 105), ("LIGHTCYAN_EX", 106), ("LIGHTWHITE_EX", 107)]
  | .style => [("BRIGHT", 1), ("DIM", 2), ("NORMAL", 22), ("RESET_ALL", 0)]

/-- The instance attributes: `AnsiCodes.__init__`, ansi.py:28-35. -/
def instance_ (tty : Bool) (p : Part) : List (String × Str) := (codes p).map fun (n, c) => (n, codeToChars tty c)

/-- `_additional_styles`, colorizer.py:24-27. -/
def additionalStyles : List (String × Str) :=
  [("ITALIC", csi ++ ['3', 'm']), ("URL", csi ++ ['4', 'm']), ("BLINK", csi ++ ['5', 'm']), ("BLINK2", csi ++ ['6', 'm'])]

/-- `Fore`, `Back`, and `Style` with the additional styles, colorizer.py:20, 28-30. -/
def attributes (tty : Bool) : Part → List (String × Str)
  | .style => additionalStyles.foldl (fun d (n, v) => if (d.lookup n).isSome then d else d ++ [(n, v)]) (instance_ tty .style)
  | p => instance_ tty p

/-- `getattr(p, name)`. -/
def getattr (tty : Bool) (p : Part) (name : String) : Except Err Str :=
  match (attributes tty p).lookup name with
  | some s => .ok s
  | none => .error .attributeError

/-- What can be given as a color: a string, a list or tuple, or any other object. -/
inductive Color where
  | str (s : Str)
  | group (xs : List Color)
  | other

mutual
/-- `_setcolor(color)`, colorizer.py:60-63, in a position where `"".join` requires a string. -/
def setcolor1 : Color → Except Err Str
  | .str s => .ok s
  | .group xs => setcolors xs
  | .other => .error .typeError
/-- `"".join(_setcolor(elt) for elt in color)`, colorizer.py:62. -/
def setcolors : List Color → Except Err Str
  | [] => .ok []
  | x :: xs => do
    let s ← setcolor1 x
    return s ++ (← setcolors xs)
end

/-- `setcolor(*colors, reset=reset)`, colorizer.py:36-66. -/
def setcolor (tty : Bool) (colors : List Color) (reset : Bool) : Except Err Str := do
  let out ← if reset then do pure [← setcolor1 (.str (← getattr tty .style "RESET_ALL"))] else pure []
  let s ← setcolor1 (.group colors)
  return (out ++ [s]).flatten

/-- `colorize(text, *colors)`, colorizer.py:69-95. -/
def colorize (tty : Bool) (text : Str) (colors : List Color) : Except Err Str := do
  let s ← setcolor tty [.group colors] true
  return s ++ text ++ (← setcolor tty [] true)

/-- A setting of the color scheme: attributes of `Fore`, `Back` and `Style`, and tuples of these. -/
inductive Setting where
  | attr (p : Part) (name : String)
  | tuple (xs : List Setting)

mutual
/-- The value of such an expression. -/
def Setting.value (tty : Bool) : Setting → Except Err Color
  | .attr p n => return .str (← getattr tty p n)
  | .tuple xs => return .group (← values tty xs)
def values (tty : Bool) : List Setting → Except Err (List Color)
  | [] => .ok []
  | x :: xs => do
    let c ← x.value tty
    return c :: (← values tty xs)
end

def fore (n : String) : Setting := .attr .fore n
def style (n : String) : Setting := .attr .style n

/-- `ColorScheme`, colorizer.py:118-180: the settings and their values.  (`TESTHEADING` is the value of `HEADING1`.) -/
def scheme : List (String × Setting) :=
  [("LINENUMBER", style "DIM"), ("LANGUAGEKEYWORD", .tuple [style "BRIGHT", fore "YELLOW"]), ("BUILTINEXCEPTION", fore "CYAN"),
    ("BUILTINOTHER", style "BRIGHT"), ("DEFNAME", .tuple [style "BRIGHT", fore "CYAN"]), ("DECORATOR", fore "LIGHTBLUE_EX"),
    ("STRING", fore "GREEN"), ("NUMBER", fore "GREEN"), ("NAMECONSTANT", fore "GREEN"), ("MACRONAME", fore "BLUE"),
    ("INVISIBLENODE", style "DIM"), ("ASTMARKER", style "DIM"), ("ASTMARKERCLASS", fore "YELLOW"),
    ("HEADING1", .tuple [style "BRIGHT", fore "LIGHTBLUE_EX"]), ("HEADING2", fore "LIGHTBLUE_EX"),
    ("SOURCEFILENAME", style "BRIGHT"), ("GREYEDOUT", style "DIM"), ("ATTENTION", .tuple [style "BRIGHT", fore "GREEN"]),
    ("TRANSFORMERKIND", .tuple [style "BRIGHT", fore "GREEN"]),
    ("DIALECTTRANSFORMERNAME", .tuple [style "BRIGHT", fore "YELLOW"]),
    ("NODETYPE", .tuple [style "BRIGHT", fore "LIGHTBLUE_EX"]), ("FIELDNAME", fore "YELLOW"), ("BAREVALUE", fore "GREEN"),
    ("TESTHEADING", .tuple [style "BRIGHT", fore "LIGHTBLUE_EX"]), ("TESTPASS", .tuple [style "BRIGHT", fore "GREEN"]),
    ("TESTFAIL", .tuple [style "BRIGHT", fore "RED"]), ("TESTERROR", .tuple [style "BRIGHT", fore "YELLOW"])]

end Mcpyrate.Colorizer
