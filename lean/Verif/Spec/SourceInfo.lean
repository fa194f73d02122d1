import Verif.Spec.Tree
import Verif.Spec.Dump
import Verif.Model.SourceInfo
/-
Specification for C66: the line numbers in a tree, the texts made from them, and the nodes that lack locations.
-/
namespace Mcpyrate.SourceInfo
open Py

mutual
/-- All `lineno` attributes in a tree, depth first. -/
def linenos : Val → List Attr
  | .node _ l fs => (if l.lineno = .missing then [] else [l.lineno]) ++ linenosF fs
  | .list xs => linenosL xs
  | .const _ => []
def linenosF : Fields → List Attr
  | [] => []
  | (_, v) :: r => linenos v ++ linenosF r
def linenosL : List Val → List Attr
  | [] => []
  | v :: r => linenos v ++ linenosL r
end

/-- The first one. -/
def firstLine (t : Val) : Option Int :=
  match linenos t with
  | .int n :: _ => some n
  | _ => none

/-- A marker with a body has its line numbers in there. -/
def MarkerOk (c : Cls) (fs : Fields) : Prop :=
  match c with
  | .marker _ => (∀ v, (F.body, v) ∉ fs) ∨
      ∃ a v b, fs = a ++ (.body, v) :: b ∧ (∀ w, (F.body, w) ∉ a) ∧ linenosF a = [] ∧ linenosF b = []
  | .py _ => True

mutual
/-- All markers in the tree are such. -/
def Markers : Val → Prop
  | .node c _ fs => MarkerOk c fs ∧ MarkersF fs
  | .list xs => MarkersL xs
  | .const _ => True
def MarkersF : Fields → Prop
  | [] => True
  | (_, v) :: r => Markers v ∧ MarkersF r
def MarkersL : List Val → Prop
  | [] => True
  | v :: r => Markers v ∧ MarkersL r
end

/-- The value of a list of digits. -/
def digitsValue (s : Str) : Nat := s.foldl (fun n c => 10 * n + (c.toNat - 48)) 0

/-- A number as Python writes it. -/
inductive Numeral : Int → Str → Prop
  | zero : Numeral 0 ['0']
  | pos {s : Str} : s ≠ [] → (∀ c ∈ s, 48 ≤ c.toNat ∧ c.toNat ≤ 57) → s.head? ≠ some '0' → Numeral (digitsValue s) s
  | neg {s : Str} : s ≠ [] → (∀ c ∈ s, 48 ≤ c.toNat ∧ c.toNat ≤ 57) → s.head? ≠ some '0' → Numeral (-digitsValue s) ('-' :: s)

/-- How a line number, or none, is written. -/
inductive LineText : Option Int → Str → Prop
  | none : LineText none "None".toList
  | some {n s} : Numeral n s → LineText (some n) s

/-- A location as it is shown: `file:line:`, then the source code, on the same line if it is one line. -/
inductive Located (filename line : Str) : Str → Str → Prop
  | bare : Located filename line [] (filename ++ ':' :: line ++ [':'])
  | oneLine {code} : code ≠ [] → '\n' ∉ code → Located filename line code (filename ++ ':' :: line ++ ':' :: ' ' :: code)
  | block {code} : '\n' ∈ code → Located filename line code (filename ++ ':' :: line ++ ':' :: '\n' :: code)

/-- The lines of a text. -/
inductive Lines : List Str → Str → Prop
  | last {l} : '\n' ∉ l → Lines [l] l
  | cons {l ls t} : '\n' ∉ l → Lines ls t → Lines (l :: ls) (l ++ '\n' :: t)

/-- A text with color codes in its lines, and what is seen of it. -/
inductive Shows : Str → Str → Prop
  | nil : Shows [] []
  | char {c t p} : c ≠ '\x1b' → Shows t p → Shows (c :: t) (c :: p)
  | code {s t p} : (∀ c ∈ s, c ≠ 'm' ∧ c ≠ '\n') → Shows t p → Shows ('\x1b' :: s ++ 'm' :: t) p

/-- The attributes that a node has: its own, and those that its class has with the value `None`. -/
inductive Has : Val → String → Prop
  | lineno {c l fs} : l.lineno ≠ .missing → Has (.node c l fs) "lineno"
  | col {c l fs} : l.colOffset ≠ .missing → Has (.node c l fs) "col_offset"
  | endLineno {c l fs} : l.endLineno ≠ .missing ∨ c.hasLoc = true → Has (.node c l fs) "end_lineno"
  | endCol {c l fs} : l.endColOffset ≠ .missing ∨ c.hasLoc = true → Has (.node c l fs) "end_col_offset"
  | field {c l fs f v} : (f, v) ∈ fs → Has (.node c l fs) f.text
  | optional {k l fs f} : k.isOptional f = true → Has (.node (.py k) l fs) f.text

/-- Which of the attributes are missing, in order. -/
inductive Lacking (t : Val) : List String → List String → Prop
  | nil : Lacking t [] []
  | has {x r m} : Has t x → Lacking t r m → Lacking t (x :: r) m
  | lacks {x r m} : ¬ Has t x → Lacking t r m → Lacking t (x :: r) (x :: m)

/-- What is collected of the nodes with numbers from `i`: each one that lacks something, unless it is to be ignored. -/
inductive Collects (v : Validator) : Nat → List Val → List Item → Prop
  | nil {i} : Collects v i [] []
  | ignored {i t r its} : v.ignore i = true → Collects v (i + 1) r its → Collects v i (t :: r) its
  | fine {i t r its} : Lacking t v.fields [] → Collects v (i + 1) r its → Collects v i (t :: r) its
  | item {i t r its m} : v.ignore i = false → Lacking t v.fields m → m ≠ [] → Collects v (i + 1) r its →
      Collects v i (t :: r) (⟨t, v.code t, m⟩ :: its)

end Mcpyrate.SourceInfo
