import Verif.Model.Expander
/-
The report of macro bindings: `show_bindings` and `format_bindings`, debug.py:146-209, and `format_macrofunction`,
utils.py:255-266.
-/
namespace Mcpyrate.Bindings
open Py Expander

abbrev Str := List Char

def lit (s : String) : Str := s.toList

/-- The strings that set a terminal color: `ColorScheme.HEADING1`, `SOURCEFILENAME`, `GREYEDOUT`, `MACRONAME`, each with its
compound parts joined, and `Style.RESET_ALL`; colorizer.py:36-66. -/
structure Palette where
  heading : Str
  source : Str
  grey : Str
  name : Str
  reset : Str

/-- What a name can be bound to, as far as it is shown: `__module__` (may be `None`) and `__qualname__`, if it has them, and
its `repr`.  (Both attributes are taken to be strings otherwise.) -/
structure Fn where
  module_ : Option (Option Str)
  qualname : Option Str
  repr : Str

/-- `format_macrofunction(function)`, utils.py:255-266. -/
def formatFunction (f : Fn) : Str :=
  match f.module_, f.qualname with
  | some (some (c :: m)), some q => (c :: m) ++ lit "." ++ q
  | some _, some q => q
  | _, _ => f.repr

/-- `a < b` for strings: by the code points. -/
def strLt : Str → Str → Bool
  | [], [] => false
  | [], _ :: _ => true
  | _ :: _, [] => false
  | a :: s, b :: t => if a.toNat < b.toNat then true else if b.toNat < a.toNat then false else strLt s t

def insert (x : Str × Fn) : List (Str × Fn) → List (Str × Fn)
  | [] => [x]
  | y :: ys => if strLt x.1 y.1 then x :: y :: ys else y :: insert x ys

/-- `sorted(bindings.items())`; the names are different, so the functions are not compared. -/
def sortItems : List (Str × Fn) → List (Str × Fn)
  | [] => []
  | x :: xs => insert x (sortItems xs)

/-- `maybe_setcolor(color)`, debug.py:188-191; `[]` for no color. -/
def setColor (P : Option Palette) (which : Palette → Str) : Str :=
  match P with
  | none => []
  | some P => P.reset ++ which P

/-- `maybe_colorize(text, color)`, debug.py:192-195. -/
def colorize (P : Option Palette) (which : Palette → Str) (text : Str) : Str :=
  match P with
  | none => text
  | some P => P.reset ++ which P ++ text ++ P.reset

/-- One line, debug.py:206-208. -/
def line (P : Option Palette) (x : Str × Fn) : Str :=
  lit "    " ++ colorize P Palette.name x.1 ++ lit ": " ++ formatFunction x.2 ++ lit "\n"

/-- The items of the bindings that are reported, debug.py:199: `expander.local_bindings`, or the ChainMap of local and global
bindings. -/
def reported (describe : Nat → Fn) (globalsToo : Bool) (locals globals : Dict String Nat) : List (Str × Fn) :=
  (if globalsToo then globals.update locals else locals).map fun (k, i) => (k.toList, describe i)

/-- `format_bindings(expander, globals_too=…, color=…)`, debug.py:179-209. -/
def format (describe : Nat → Fn) (P : Option Palette) (globalsToo : Bool) (filename : Str) (locals globals : Dict String Nat) :
    Str :=
  let items := reported describe globalsToo locals globals
  setColor P Palette.heading ++ lit "Macro bindings for " ++ setColor P Palette.source ++ filename ++
    setColor P Palette.heading ++ lit ":" ++ setColor P (fun _ => []) ++ lit "\n" ++
    if items.isEmpty then colorize P Palette.grey (lit "    <no bindings>\n")
    else ((sortItems items).map (line P)).flatten

variable {υ : Type}

/-- The macro `show_bindings`, debug.py:146-176.  `say` is printing to `sys.stderr`. -/
def showBindings (describe : Nat → Fn) (P : Palette) (say : Str → υ → υ) (filename : Str) : MacroDef υ where
  isName := true
  isParam := false
  fn := fun a =>
    if a.synt ≠ .name then .raise (.py .syntaxError)
    else .get fun _ w =>
      .put { w with user := say (format describe (some P) false filename w.locals w.globals ++ lit "\n") w.user }
        (.ret (.val .none))

end Mcpyrate.Bindings
