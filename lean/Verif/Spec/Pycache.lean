import Verif.Model.Pycache
/-
Specification of the bytecode cache cleaner.
-/
namespace Mcpyrate.Pycache

mutual
/-- Without the `__pycache__` directories below. -/
def prune : Node → Node
  | .dir es => .dir (pruneAll es)
  | n => n
def pruneAll : Entries → Entries
  | [] => []
  | (x, n) :: es => if x = "__pycache__" ∧ realDir n = true then pruneAll es else (x, prune n) :: pruneAll es
end

/-- A directory at this path below, through directories only. -/
inductive DirAt : Entries → Path → Entries → Prop
  | here {es} : DirAt es [] es
  | step {es x sub p es'} : (x, .dir sub) ∈ es → DirAt sub p es' → DirAt es (x :: p) es'

/-- Names in directories are unique. -/
def WF (es : Entries) : Prop := ∀ p es', DirAt es p es' → (es'.map Prod.fst).Nodup

/-- The path of a `__pycache__` directory below. -/
def IsCache (es : Entries) (p : Path) : Prop := ∃ q es' sub, p = q ++ ["__pycache__"] ∧ DirAt es q es' ∧
  ("__pycache__", .dir sub) ∈ es'

/-- There are no links where they matter: none is called `__pycache__`, and there are none in such
directories. -/
def NoLinks (es : Entries) : Prop :=
  (∀ p es' t, DirAt es p es' → ("__pycache__", .link t) ∉ es') ∧
  ∀ p sub, DirAt es p sub → IsCache es p → ∀ q es' x t, DirAt sub q es' → (x, .link t) ∉ es'

/-- The directories are nested less than `n` deep. -/
def Depth : Nat → Entries → Prop
  | 0, _ => False
  | n + 1, es => ∀ x sub, (x, .dir sub) ∈ es → Depth n sub

end Mcpyrate.Pycache
