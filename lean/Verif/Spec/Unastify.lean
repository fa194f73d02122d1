import Verif.Spec.Quotes
/-
Specification for the quasiquote uncompiler (C33).
-/
namespace Mcpyrate.Quotes
open Py

/-- A location as `copy_location` leaves it: missing ends read as `None`, and only integers are copied to the line and the
column; classes without location attributes have none. -/
def normLoc (c : Cls) (l : Loc) : Loc := if c.hasLoc then Expander.copyLoc l else {}

mutual
/-- The tree with the locations normalised in this way; the bodies of unquotes are left alone, and markers have no
location. -/
def reloc : Obj → Obj
  | .list xs => .list (relocL xs)
  | .tuple xs => .tuple (relocL xs)
  | .set xs => .set (relocL xs)
  | .dict ks vs => .dict (relocL ks) (relocL vs)
  | .node (.py k) l fs => .node (.py k) (normLoc (.py k) l) (relocF fs)
  | .node (.marker n) _ fs => if n = "Done" then .node (.marker n) {} (relocF fs) else .node (.marker n) {} fs
  | x => x
def relocL : List Obj → List Obj
  | [] => []
  | x :: xs => reloc x :: relocL xs
def relocF : List (F × Obj) → List (F × Obj)
  | [] => []
  | (f, x) :: r => (f, reloc x) :: relocF r
end

/-- A location as the parser makes it. -/
def fullLoc (c : Cls) (l : Loc) : Bool :=
  if c.hasLoc then
    match l with
    | ⟨.int _, .int _, .int _, .int _⟩ => true
    | ⟨.int _, .int _, .none, .none⟩ => true
    | _ => false
  else l == {}

mutual
/-- All nodes have the location that the parser gives them (which can lack the end). -/
def located : Obj → Bool
  | .list xs => locatedL xs
  | .tuple xs => locatedL xs
  | .set xs => locatedL xs
  | .dict ks vs => locatedL ks && locatedL vs
  | .node (.py k) l fs => fullLoc (.py k) l && locatedF fs
  | .node (.marker n) l fs => l == {} && (if n = "Done" then locatedF fs else true)
  | _ => true
def locatedL : List Obj → Bool
  | [] => true
  | x :: xs => located x && locatedL xs
def locatedF : List (F × Obj) → Bool
  | [] => true
  | (_, x) :: r => located x && locatedF r
end

mutual
/-- The sets and dicts in `t` (which do not occur in trees, only in values) are what Python makes of their items. -/
def Rebuilt {σ : Type} (H : Host σ) : Obj → Prop
  | .list xs => RebuiltL H xs
  | .tuple xs => RebuiltL H xs
  | .set xs => RebuiltL H xs ∧ H.mkSet (relocL xs) = .ok (.set (relocL xs))
  | .dict ks vs => RebuiltL H ks ∧ RebuiltL H vs ∧ ks.length = vs.length ∧
      H.mkDict (((relocL ks).map some).zip (relocL vs)) = .ok (.dict (relocL ks) (relocL vs))
  | .node (.py _) _ fs => RebuiltF H fs
  | .node (.marker n) _ fs => n = "Done" → RebuiltF H fs
  | _ => True
def RebuiltL {σ : Type} (H : Host σ) : List Obj → Prop
  | [] => True
  | x :: xs => Rebuilt H x ∧ RebuiltL H xs
def RebuiltF {σ : Type} (H : Host σ) : List (F × Obj) → Prop
  | [] => True
  | (_, x) :: r => Rebuilt H x ∧ RebuiltF H r
end

end Mcpyrate.Quotes
