import Verif.Model.Utils
/-
Independent specifications for the utilities.
-/
namespace Mcpyrate

namespace Gensym
/-- The names among the outcomes of a history. -/
def names : List Out → List (List Char)
  | [] => []
  | .sym s :: r => s :: names r
  | .typeError :: r => names r
end Gensym

namespace Flatten
/-- The printed form of a nested list: brackets, `None`s and leaves in textual order. -/
inductive Tok (α : Type) where
  | opening | closing | none | leaf (a : α)

mutual
def tokens {α} : Item α → List (Tok α)
  | .leaf a => [.leaf a]
  | .none => [.none]
  | .list xs => .opening :: (tokensL xs ++ [.closing])
def tokensL {α} : List (Item α) → List (Tok α)
  | [] => []
  | x :: xs => tokens x ++ tokensL xs
end

/-- The leaves in textual order. -/
def leavesOf {α} (ts : List (Tok α)) : List α :=
  ts.filterMap fun | .leaf a => some a | _ => Option.none
end Flatten

namespace Tracker
/-- Lexically scoped meaning of the same code: the level is a parameter, there is no stack. -/
def eval : Prog → Int → List Int × Option Exc
  | .skip, _ => ([], none)
  | .read, v => ([v], none)
  | .raise e, _ => ([], some (.user e))
  | .seq p q, v =>
    match eval p v with
    | (l, some e) => (l, some e)
    | (l, none) => (l ++ (eval q v).1, (eval q v).2)
  | .tryExcept p h, v =>
    match eval p v with
    | (l, none) => (l, none)
    | (l, some _) => (l ++ (eval h v).1, (eval h v).2)
  | .setTo (.int n) body, _ => if 0 ≤ n then eval body n else ([], some .valueError)
  | .setTo .other _, _ => ([], some .typeError)
  | .changedBy (.int d) body, v => if 0 ≤ v + d then eval body (v + d) else ([], some .valueError)
  | .changedBy .other _, _ => ([], some .typeError)
end Tracker
end Mcpyrate
