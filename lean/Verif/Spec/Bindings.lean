import Verif.Model.Bindings
import Verif.Spec.Dump
/-
Specification of the report of macro bindings.
-/
namespace Mcpyrate.Bindings
open Py

/-- `a` comes before `b` in the order of strings: it is a proper beginning of `b`, or at the first difference it has the
smaller code point. -/
def Before (a b : Str) : Prop :=
  (∃ c s, b = a ++ c :: s) ∨ ∃ p c d s t, a = p ++ c :: s ∧ b = p ++ d :: t ∧ c.toNat < d.toNat

/-- How a function is shown: by its module and its qualified name; without the module, if that is `None` or empty (as for functions defined in the
console); or, if it is not a function at all, by its `repr`. -/
inductive Shown : Fn → Str → Prop
  | full {m q r} : m ≠ [] → Shown ⟨some (some m), some q, r⟩ (m ++ '.' :: q)
  | console {q r} : Shown ⟨some none, some q, r⟩ q
  | console' {q r} : Shown ⟨some (some []), some q, r⟩ q
  | noModule {q r} : Shown ⟨none, q, r⟩ r
  | noName {m r} : Shown ⟨m, none, r⟩ r

/-- The lines of the report: names, in order, and how their functions are shown. -/
inductive Lines : List (Str × Str) → Str → Prop
  | nil : Lines [] []
  | cons {k f l t} : Lines l t → Lines ((k, f) :: l) ("    ".toList ++ k ++ ": ".toList ++ f ++ '\n' :: t)

/-- The bindings: those of the expander, and for other names the global ones, if they are asked for. -/
def Binding (globalsToo : Bool) (locals globals : Dict String Nat) (k : String) (i : Nat) : Prop :=
  locals.get k = some i ∨ globalsToo = true ∧ locals.get k = none ∧ globals.get k = some i

/-- The list has each binding one time, sorted by name. -/
structure Lists (describe : Nat → Fn) (globalsToo : Bool) (locals globals : Dict String Nat) (l : List (Str × Str)) : Prop where
  sorted : l.Pairwise fun x y => Before x.1 y.1
  sound : ∀ k f, (k, f) ∈ l → ∃ n i, k = n.toList ∧ Binding globalsToo locals globals n i ∧ Shown (describe i) f
  complete : ∀ n i, Binding globalsToo locals globals n i → ∃ f, (n.toList, f) ∈ l ∧ Shown (describe i) f

/-- The report of the list, without colors. -/
inductive Report (filename : Str) : List (Str × Str) → Str → Prop
  | empty : Report filename [] ("Macro bindings for ".toList ++ filename ++ ":\n    <no bindings>\n".toList)
  | lines {l t} : l ≠ [] → Lines l t → Report filename l ("Macro bindings for ".toList ++ filename ++ ":\n".toList ++ t)

/-- Names have neither a colon nor a line break; what is shown of functions has no line break. -/
def Fit (l : List (Str × Str)) : Prop := ∀ k f, (k, f) ∈ l → ':' ∉ k ∧ '\n' ∉ k ∧ '\n' ∉ f

/-- No escape character, so that colors can be told from the text. -/
def Plain (l : List (Str × Str)) : Prop := ∀ k f, (k, f) ∈ l → '\x1b' ∉ k ∧ '\x1b' ∉ f

/-- The strings of the palette are escape sequences, which a terminal does not show. -/
structure Palette.Lawful (P : Palette) : Prop where
  heading : Dump.Codes P.heading
  source : Dump.Codes P.source
  grey : Dump.Codes P.grey
  name : Dump.Codes P.name
  reset : Dump.Codes P.reset

end Mcpyrate.Bindings
