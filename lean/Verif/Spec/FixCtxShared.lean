import Verif.Model.FixCtxShared
import Verif.Spec.FixCtx
/-
Which shared object graphs `fix_ctx` handles (C13).
-/
namespace Mcpyrate.FixCtx
open Py

/-- Field `f` of the node at `p` holds the value `v`.  The `ctx` of a node that has one does not
count: it is replaced anyway, so it may be shared freely (Python does so). -/
def Holds (H : List Obj) (p : Nat) (f : F) (v : HV) : Prop :=
  ∃ c fs, H[p]? = some (.node c fs) ∧ (f, v) ∈ fs ∧ ¬ (c.hasCtx = true ∧ f = .ctx)

def IsNode (H : List Obj) (a : Nat) : Prop := ∃ c fs, H[a]? = some (.node c fs)

/-- The node at `a` is a child of the node at `p`, in field `f` or in the list in field `f`. -/
inductive Edge (H : List Obj) (p : Nat) (f : F) (a : Nat) : Prop
  | field : Holds H p f (.ref a) → IsNode H a → Edge H p f a
  | item {l xs} : Holds H p f (.ref l) → H[l]? = some (.list xs) → .ref a ∈ xs → Edge H p f a

/-- Field `f` of the node at `p` has a context of its own: `fix_ctx` registers it for the children
there. -/
def Registered (H : List Obj) (p : Nat) (f : F) : Prop :=
  ∃ c fs, H[p]? = some (.node c fs) ∧ f ∈ registered c

/-- The node at `o` has a position below `root` that requires the context `d`. -/
inductive Pos (H : List Obj) (root : Nat) : K → Nat → Prop
  | root : Pos H root .Load root
  | child {d p f a c fs} : Pos H root d p → Edge H p f a → H[p]? = some (.node c fs) →
      Pos H root (childCtx c d f) a

/-- An acyclic graph of nodes and lists: no dangling references, no nested lists, every list belongs
to one field of one node. -/
structure Graph (H : List Obj) (rank : Nat → Nat) : Prop where
  names : ∀ (p : Nat) (c : Cls) (fs : List (F × HV)), H[p]? = some (.node c fs) → (fs.map (·.1)).Nodup
  refs : ∀ p f a, Holds H p f (.ref a) → ∃ o, H[a]? = some o
  items : ∀ p f l xs a, Holds H p f (.ref l) → H[l]? = some (.list xs) → .ref a ∈ xs → IsNode H a
  lists : ∀ p f p' f' l xs, Holds H p f (.ref l) → Holds H p' f' (.ref l) →
    H[l]? = some (.list xs) → p' = p ∧ f' = f
  acyclic : ∀ p f a, Edge H p f a → rank a < rank p

/-- The sharing that `fix_ctx` handles: a node in a field with a context of its own is used only
there; a node used in positions with different contexts is a copyable leaf or at least has no list
of children.  (`copySeen`: the argument `copy_seen_nodes`.) -/
structure Sharing (copySeen : Bool) (H : List Obj) (root : Nat) : Prop where
  exclusive : ∀ p f a, Registered H p f → Edge H p f a → ∀ p' f', Edge H p' f' a → p' = p ∧ f' = f
  once : ∀ p f l xs, Registered H p f → Holds H p f (.ref l) → H[l]? = some (.list xs) →
    xs.Pairwise fun x y => ∀ a, x = .ref a → y ≠ .ref a
  contexts : ∀ o d d', Pos H root d o → Pos H root d' o → d = d' ∨
    (copySeen = true ∧ (∃ c fs, H[o]? = some (.node c fs) ∧ c.hasCtx = true) ∧
      ∀ f l xs, Holds H o f (.ref l) → H[l]? ≠ some (.list xs))

end Mcpyrate.FixCtx
