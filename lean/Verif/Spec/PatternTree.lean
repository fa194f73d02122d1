import Verif.Spec.ExprTree
import Verif.Spec.PyStatements
/-
The patterns of C47: the ASTs that Python's parser returns for the patterns of `match` statements, as far as they are
covered.  Compare "Abstract Grammar" in the documentation of the module `ast`.

Left out, because the unparser does not write them in a way that is read back (see Props/UnparseMatch.lean): alternatives
and `as` patterns among the alternatives of another pattern (`(a | b) | c`, `(a as x) | b`), an `as` pattern as what is named
(`(a as x) as y`), a negative or complex number as a key of a mapping, and a complex number with a negative real part.
-/
namespace Mcpyrate.PyText
open Py

/-- `x.a.b`. -/
def dottedExpr (x : String) (xs : List String) : Val := xs.foldl attrOf (name x)

variable (P : Reading)

/-- The literal for a real number. -/
inductive IsReal : Val → Prop
  | int (n : Nat) : IsReal (constant (.int n))
  | float {s : Str} (h : Numeral s) : IsReal (constant (.float (P.float s)))

/-- The literal for a number. -/
inductive IsNumber : Val → Prop
  | real {v : Val} (h : IsReal P v) : IsNumber v
  | imag {s : Str} (h : Numeral s) : IsNumber (constant (.complex (P.imag s)))

/-- A name that can be bound. -/
def IsCapture (x : String) : Prop := IsName P x ∧ x ≠ "_"

/-- What a value is compared with. -/
inductive PatValue : Val → Prop
  | number {v : Val} (h : IsNumber P v) : PatValue v
  | neg {v : Val} (h : IsNumber P v) : PatValue (unaryOp .USub v)
  /-- `1 + 2j` -/
  | complex {k : K} {v : Val} {s : Str} (hk : k = .Add ∨ k = .Sub) (h : IsReal P v) (hs : Numeral s) :
      PatValue (binOp v k (constant (.complex (P.imag s))))
  | str (u : Bool) (s : String) : PatValue (constantU u s)
  | bytes {b : List Nat} (h : ∀ x ∈ b, x < 256) : PatValue (constant (.bytes b))
  /-- `x.a` -/
  | dotted {x : String} {xs : List String} (hx : IsName P x) (hn : xs ≠ []) (h : ∀ y ∈ xs, IsName P y) : PatValue (dottedExpr x xs)

/-- A key of a mapping. -/
inductive PatKey : Val → Prop
  | number {v : Val} (h : IsNumber P v) : PatKey v
  | str (u : Bool) (s : String) : PatKey (constantU u s)
  | bytes {b : List Nat} (h : ∀ x ∈ b, x < 256) : PatKey (constant (.bytes b))
  | bool (b : Bool) : PatKey (constant (.bool b))
  | none : PatKey (constant .none)
  | dotted {x : String} {xs : List String} (hx : IsName P x) (hn : xs ≠ []) (h : ∀ y ∈ xs, IsName P y) : PatKey (dottedExpr x xs)

mutual
/-- A pattern without alternatives and without `as`. -/
inductive ClosedPattern : Val → Prop
  | value {v : Val} (h : PatValue P v) : ClosedPattern (matchValue v)
  | bool (b : Bool) : ClosedPattern (matchSingleton (.bool b))
  | none : ClosedPattern (matchSingleton .none)
  | wildcard : ClosedPattern (matchAs .none .none)
  | capture {x : String} (h : IsCapture P x) : ClosedPattern (matchAs .none (.str x))
  | sequence {ps : List Val} (h : ∀ p ∈ ps, SeqItem p) : ClosedPattern (matchSequence ps)
  /-- `{k: p, …, **rest}` -/
  | mapping {kps : List (Val × Val)} {rest : Val} (hk : ∀ kp ∈ kps, PatKey P kp.1) (hp : ∀ kp ∈ kps, Pattern kp.2)
      (hr : rest = .none ∨ ∃ x, IsCapture P x ∧ rest = .str x) :
      ClosedPattern (matchMapping (kps.map (·.1)) (kps.map (·.2)) rest)
  /-- `x.a(p, …, y=q, …)` -/
  | «class» {x : String} {xs : List String} {ps : List Val} {kws : List (String × Val)} (hx : IsName P x) (hxs : ∀ y ∈ xs, IsName P y)
      (hp : ∀ p ∈ ps, Pattern p) (hk : ∀ kw ∈ kws, IsName P kw.1) (hq : ∀ kw ∈ kws, Pattern kw.2) :
      ClosedPattern (matchClass (dottedExpr x xs) ps (kws.map fun kw => .str kw.1) (kws.map (·.2)))
/-- An element of a sequence: `*x`, `*_`, or a pattern. -/
inductive SeqItem : Val → Prop
  | pattern {p : Val} (h : Pattern p) : SeqItem p
  | star {x : String} (h : IsCapture P x) : SeqItem (matchStar (.str x))
  | starAny : SeqItem (matchStar .none)
/-- A pattern. -/
inductive Pattern : Val → Prop
  | closed {p : Val} (h : ClosedPattern p) : Pattern p
  | or {ps : List Val} (hl : 2 ≤ ps.length) (h : ∀ p ∈ ps, ClosedPattern p) : Pattern (matchOr ps)
  | as {p : Val} {x : String} (h : ClosedPattern p) (hx : IsCapture P x) : Pattern (matchAs p (.str x))
  | orAs {ps : List Val} {x : String} (hl : 2 ≤ ps.length) (h : ∀ p ∈ ps, ClosedPattern p) (hx : IsCapture P x) :
      Pattern (matchAs (matchOr ps) (.str x))
end

end Mcpyrate.PyText
