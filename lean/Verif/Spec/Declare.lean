import Verif.Model.Declare
/-
What it means that an object has been declared as an identifier macro, or as taking macro arguments, in terms of a history.
-/
namespace Mcpyrate.Declare

/-- The definitions of a history, in order. -/
def made : List Op → List Kind
  | [] => []
  | .define k :: ops => k :: made ops
  | _ :: ops => made ops

/-- The object is a class: it was defined as one, from earlier classes. -/
inductive IsClass (ks : List Kind) : Nat → Prop
  | mk {o bs} : ks[o]? = some (.cls bs) → (∀ b ∈ bs, b < o) → (∀ b ∈ bs, IsClass ks b) → IsClass ks o

/-- The object is an instance of the class `c`, defined earlier. -/
def IsInstance (ks : List Kind) (o c : Nat) : Prop := ks[o]? = some (.inst c) ∧ c < o ∧ IsClass ks c

/-- The object has attributes of its own that can be set. -/
def HasOwn (ks : List Kind) (o : Nat) : Prop :=
  ks[o]? = some .function ∨ IsClass ks o ∨ ∃ c, IsInstance ks o c

/-- An attribute of `o` that is set on `p` is seen on `o`: it is the object itself, a base class (of a base class …), the
class of an instance, or the function of a bound method. -/
inductive Sees (ks : List Kind) : Nat → Nat → Prop
  | self {o} : HasOwn ks o → Sees ks o o
  | base {o bs b p} : IsClass ks o → ks[o]? = some (.cls bs) → b ∈ bs → Sees ks b p → Sees ks o p
  | inst {o c p} : IsInstance ks o c → Sees ks c p → Sees ks o p
  | method {o f p} : ks[o]? = some (.method f) → f < o → Sees ks f p → Sees ks o p

/-- `functools.wraps` takes over the attributes of the object itself; of a bound method, those of its function. -/
inductive Gives (ks : List Kind) : Nat → Nat → Prop
  | self {o} : HasOwn ks o → Gives ks o o
  | method {o f p} : ks[o]? = some (.method f) → f < o → Gives ks f p → Gives ks o p

/-- The object exists: its definition did not fail. -/
inductive IsObject (ks : List Kind) : Nat → Prop
  | own {o} : HasOwn ks o → IsObject ks o
  | builtin {o} : ks[o]? = some .builtin → IsObject ks o
  | method {o f} : ks[o]? = some (.method f) → f < o → IsObject ks f → IsObject ks o

/-- The object itself was declared, at a time when it existed; or it has taken over the declaration of another object by
`functools.wraps`, which had been declared by then. -/
inductive Marked : List Op → Mark → Nat → Prop
  | declared {pre m o post} : HasOwn (made pre) o → Marked (pre ++ .declare m o :: post) m o
  | wraps {pre g w p m post} :
      ((made pre)[w]? = some .function ∨ ∃ c, IsInstance (made pre) w c) →
      Gives (made pre) g p → Marked pre m p → Marked (pre ++ .wraps g w :: post) m w

/-- The object counts as declared after the history. -/
def Declared (ops : List Op) (m : Mark) (o : Nat) : Prop := ∃ p, Sees (made ops) o p ∧ Marked ops m p

end Mcpyrate.Declare
