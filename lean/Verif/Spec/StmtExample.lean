import Verif.Spec.StmtTree
import Verif.Spec.UnparseExample
/-
For the examples of C47: some statements.
-/
namespace Mcpyrate.PyText
open Py

/-- See the example of `C47_module_partial` for the source code. -/
def stmtExample : List Val :=
  let x := name "x"
  let a := name "a"
  let store := fun s : String => name s .Store
  [importFromOf .none [aliasOf (.str "a") (.str "b")] 1,
   functionOf .AsyncFunctionDef "f" (argumentsTree [⟨"x", a, .none⟩] [] (argOf "b" .none) [⟨"y", .none, x⟩] .none [])
    [tryOf false
      [forOf .For (mk .Tuple [(.elts, .list [store "x", store "y"]), (.ctx, mk .Store [])]) a [augAssignOf (store "x") .Add a] [mk .Pass []]]
      [handlerOf a (.str "x") [ifOf x [raiseOf .none .none] [ifOf a [returnOf x] [withOf .With [withItemOf a (store "x"), withItemOf x .none] [exprOf x]]]],
       handlerOf .none .none [assertOf x .none]]
      [] [deleteOf [name "x" .Del]]]
    [a] x,
   classOf "C" [a, starred x] [keywordOf (.str "b") x] [annAssignOf (store "x") a .none 1, assignTree [store "x", store "y"] a] []]

/-- A number, as a pattern. -/
def intPattern (n : Nat) : Val := matchValue (constant (.int n))

/-- See the example in Props/UnparseMatch.lean for the source code. -/
def matchExample : List Val :=
  let x := name "x"
  let a := name "a"
  [typeAliasOf "a" [typeVarOf "x" a, typeStarOf .TypeVarTuple "y", typeStarOf .ParamSpec "b"] x,
   matchTree a
    [caseOf (matchOr [intPattern 1, matchSingleton .none]) x [mk .Pass []],
     caseOf (matchAs (matchOr [matchValue (unaryOp .USub (constant (.int 1))), matchValue (attrOf a "b")]) (.str "y")) .none [exprOf x],
     caseOf (matchSequence [matchAs .none (.str "x"), matchStar .none, matchOr [intPattern 1, intPattern 2]]) .none [mk .Pass []],
     caseOf (matchMapping [constantU false "q", constant (.bool true)] [matchAs .none (.str "x"), matchAs .none .none] (.str "y")) .none
      [mk .Pass []],
     caseOf (matchClass (attrOf a "b") [intPattern 1] [.str "x"] [matchAs (intPattern 2) (.str "y")]) a
      [matchTree x [caseOf (matchAs .none .none) .none [mk .Pass []]]]]]

end Mcpyrate.PyText
