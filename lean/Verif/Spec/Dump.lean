import Verif.Py.Fields
/-
Specification for C62: what of a tree can be seen in its dump.
-/
namespace Mcpyrate.Dump
open Py

/-- An attribute that is missing cannot be told from one that is `None`. -/
def seen : Attr → Attr
  | .missing => .none
  | a => a

/-- The location attributes that are shown: none, or those of the classes that have such attributes. -/
def seenLoc (attributes : Bool) (c : Cls) (l : Loc) : Loc :=
  if attributes = true ∧ c.hasLoc = true then ⟨seen l.lineno, seen l.colOffset, seen l.endLineno, seen l.endColOffset⟩ else {}

mutual
/-- The tree, with the location attributes that are shown. -/
def shown (attributes : Bool) : Val → Val
  | .node c l fs => .node c (seenLoc attributes c l) (shownF attributes fs)
  | .list xs => .list (shownL attributes xs)
  | .const c => .const c
def shownF (attributes : Bool) : Fields → Fields
  | [] => []
  | (f, v) :: fs => (f, shown attributes v) :: shownF attributes fs
def shownL (attributes : Bool) : List Val → List Val
  | [] => []
  | x :: xs => shown attributes x :: shownL attributes xs
end

/-- White space, control characters, and the characters that have a meaning in a dump. -/
def special (c : Char) : Bool :=
  c.toNat ≤ 32 || c ∈ [',', '(', ')', '[', ']', '=', '\'', '"'] ||
    [0x85, 0xa0, 0x1680, 0x2028, 0x2029, 0x202f, 0x205f, 0x3000].contains c.toNat ||
    (0x2000 ≤ c.toNat && c.toNat ≤ 0x200a)

/-- Digits, and the other characters in the `repr` of a `float`: `0.5`, `-1e+16`, `inf`, `nan`. -/
def numeric (c : Char) : Bool := (48 ≤ c.toNat && c.toNat ≤ 57) || c ∈ ['.', 'e', '+', '-', 'i', 'n', 'f', 'a']

/-- The constants: bytes are less than 256; the `repr` of a `float` has a point, an exponent, or is `inf` or `nan`; that
of a complex number ends with `j`, or is in parentheses: `2j`, `(1+2j)`. -/
def RegularConst : Const → Prop
  | .bytes b => ∀ x ∈ b, x < 256
  | .float r => (∀ c ∈ r.toList, numeric c = true) ∧ ∃ c ∈ r.toList, c ∈ ['.', 'e', 'n']
  | .complex r => ∃ s : List Char, (∀ c ∈ s, numeric c = true) ∧
      (r.toList = s ++ ['j'] ∨ r.toList = '(' :: s ++ ['j', ')'])
  | _ => True

/-- The names of marker classes are identifiers, and not names of classes of `ast`. -/
def RegularClass : Cls → Prop
  | .py _ => True
  | .marker n => n ≠ "" ∧ (∀ c ∈ n.toList, special c = false) ∧ ∀ k, K.text k ≠ n

mutual
/-- All constants and class names are as they are in Python. -/
def Regular : Val → Prop
  | .node c _ fs => RegularClass c ∧ RegularF fs
  | .list xs => RegularL xs
  | .const c => RegularConst c
def RegularF : Fields → Prop
  | [] => True
  | (_, v) :: fs => Regular v ∧ RegularF fs
def RegularL : List Val → Prop
  | [] => True
  | x :: xs => Regular x ∧ RegularL xs
end

/-- The text as a terminal shows it: without the escape sequences from ESC to `m`.  The flag says whether one has begun. -/
def visible : Bool → List Char → List Char
  | _, [] => []
  | true, c :: r => visible (c ≠ 'm') r
  | false, c :: r => if c = '\x1b' then visible true r else c :: visible false r

/-- A sequence of such escape sequences. -/
inductive Codes : List Char → Prop
  | nil : Codes []
  | cons {s r : List Char} (hs : ∀ c ∈ s, c ≠ 'm') (hr : Codes r) : Codes ('\x1b' :: s ++ 'm' :: r)

end Mcpyrate.Dump
