import Verif.Lemmas.UnparseColor
/-
Helper lemmas for C69: without colors and debug mode, the unparser is the one of Model/Unparse.lean.
-/
namespace Mcpyrate
open Py Unparse Unparse.Color
set_option linter.unusedSimpArgs false

/-- The context, as in Model/Unparse.lean. -/
def Unparse.Color.Ctx.base (c : Color.Ctx) : Unparse.Ctx := { indent := c.indent, modes := c.modes }

/-- Neither colors nor debug mode. -/
def Off (c : Color.Ctx) : Prop := c.opts.color = none ∧ c.opts.debug = false

theorem Off.enter {c : Color.Ctx} (h : Off c) : Off c.enter := h

variable {c : Color.Ctx}

theorem at_eq {rec : Color.Rec} {b : Unparse.Ctx} : at_ rec c b = rec c := rfl

theorem base_enter : c.enter.base = c.base.enter := rfl

theorem marker_lit : lit "$ASTMarker<" = lit "$ASTMarker" ++ lit "<" := by decide +kernel
theorem lambda_lit : lit "(lambda" = lit "(" ++ lit "lambda" := by decide +kernel
theorem f_lit : lit "f'" = lit "f" ++ lit "'" := by decide +kernel
theorem colon_lit : lit ":" = [':'] := by decide +kernel
theorem raise_lit : lit "raise " = lit "raise" ++ lit " " := by decide +kernel
theorem star_lit : lit "*_" = lit "*" ++ lit "_" := by decide +kernel

section
variable (hc : Off c)
include hc

theorem scheme_off : c.scheme = none := by
  unfold Ctx.scheme
  rw [hc.1, ite_self]

theorem paint_off (p : Paint) (x : Str) : paint c p x = x := by
  unfold paint
  rw [scheme_off hc]

theorem kw_off (x : String) : kw c x = lit x := paint_off hc ..

theorem fill_off (l : Option Loc) (x : Str) : Color.fill c l x = Unparse.fill c.base x := by
  unfold Color.fill Unparse.fill
  rw [hc.2]
  rfl

theorem paintName_off (p : Paint) (v : Val) : paintName c p v = write v := by
  unfold paintName
  rw [scheme_off hc]

theorem constantText_off (H : Host) (fs : Fields) : Color.constantText H c fs = Unparse.constantText H fs := by
  unfold Color.constantText Unparse.constantText
  refine bind_congr fun _ => bind_congr fun v => ?_
  simp only [paint_off hc]
  cases v with
  | const k => cases k <;> rfl
  | list xs => rfl
  | node c l fs => rfl

theorem nameText_off (fs : Fields) : nameText c fs = (do write (← attr .Name fs .id)) := by
  unfold nameText
  simp only [paint_off hc, ite_self]
  refine bind_congr fun v => ?_
  cases write v <;> rfl

theorem conversion_off (v : Val) : Color.conversion c v = Unparse.conversion v := by
  unfold Color.conversion Unparse.conversion
  simp only [paint_off hc]
  rfl

theorem snippet_off (v : Val) : Color.snippet c v = Unparse.snippet v := by
  unfold Color.snippet Unparse.snippet
  simp only [paint_off hc]
  rfl

theorem alias_off (fs : Fields) : Color.alias c fs = Unparse.alias fs := by
  unfold Color.alias Unparse.alias
  simp only [kw_off hc]

theorem nameList_off (l : Loc) (w : String) (xs : List Val) :
    Color.nameList c l w xs = Unparse.nameList c.base w xs := by
  unfold Color.nameList Unparse.nameList
  simp only [kw_off hc, fill_off hc]

theorem matchSingleton_off (H : Host) (fs : Fields) : Color.matchSingleton H c fs = Unparse.matchSingleton H fs := by
  unfold Color.matchSingleton Unparse.matchSingleton
  simp only [paint_off hc]
  rfl

theorem matchStar_off (fs : Fields) : Color.matchStar c fs = Unparse.matchStar fs := by
  unfold Color.matchStar Unparse.matchStar
  simp only [kw_off hc, star_lit]

end

section
variable {rec : Color.Rec} {rec0 : Unparse.Rec} (hr : ∀ (c : Color.Ctx) (t : Val), Off c → rec c t = rec0 c.base t)
  (hc : Off c)
include hr hc

theorem namedExpr_off (fs : Fields) : Unparse.namedExpr (at_ rec c) {} fs = Unparse.namedExpr rec0 c.base fs := by
  have hf : rec c = rec0 c.base := funext fun t => hr c t hc
  unfold Unparse.namedExpr
  simp only [at_eq, hf]

theorem display_off (o cl : String) (es : List Val) : Unparse.display (at_ rec c) {} o cl es = Unparse.display rec0 c.base o cl es := by
  have hf : rec c = rec0 c.base := funext fun t => hr c t hc
  unfold Unparse.display
  simp only [at_eq, hf]

theorem comp_off (k : K) (o cl : String) (fs : Fields) : Unparse.comp (at_ rec c) {} k o cl fs = Unparse.comp rec0 c.base k o cl fs := by
  have hf : rec c = rec0 c.base := funext fun t => hr c t hc
  unfold Unparse.comp
  simp only [at_eq, hf]

theorem dictComp_off (fs : Fields) : Unparse.dictComp (at_ rec c) {} fs = Unparse.dictComp rec0 c.base fs := by
  have hf : rec c = rec0 c.base := funext fun t => hr c t hc
  unfold Unparse.dictComp
  simp only [at_eq, hf]

theorem pair_off (p : Val × Val) : Unparse.pair (at_ rec c) {} p = Unparse.pair rec0 c.base p := by
  have hf : rec c = rec0 c.base := funext fun t => hr c t hc
  unfold Unparse.pair
  simp only [at_eq, hf]

theorem dict_off (fs : Fields) : Unparse.dict (at_ rec c) {} fs = Unparse.dict rec0 c.base fs := by
  have hf : rec c = rec0 c.base := funext fun t => hr c t hc
  unfold Unparse.dict
  simp only [at_eq, hf, funext (pair_off hr hc)]

theorem tupleItems_off (fs : Fields) : Unparse.tupleItems (at_ rec c) {} fs = Unparse.tupleItems rec0 c.base fs := by
  have hf : rec c = rec0 c.base := funext fun t => hr c t hc
  unfold Unparse.tupleItems
  simp only [at_eq, hf]

theorem tuple_off (fs : Fields) : Unparse.tuple (at_ rec c) {} fs = Unparse.tuple rec0 c.base fs := by
  have hf : rec c = rec0 c.base := funext fun t => hr c t hc
  unfold Unparse.tuple
  simp only [at_eq, hf, tupleItems_off hr hc]

theorem binOp_off (fs : Fields) : Unparse.binOp (at_ rec c) {} fs = Unparse.binOp rec0 c.base fs := by
  have hf : rec c = rec0 c.base := funext fun t => hr c t hc
  unfold Unparse.binOp
  simp only [at_eq, hf]

theorem attributeText_off (fs : Fields) : Unparse.attributeText (at_ rec c) {} fs = Unparse.attributeText rec0 c.base fs := by
  have hf : rec c = rec0 c.base := funext fun t => hr c t hc
  unfold Unparse.attributeText
  simp only [at_eq, hf]

theorem callArgs_off (xs ys : List Val) : Unparse.callArgs (at_ rec c) {} xs ys = Unparse.callArgs rec0 c.base xs ys := by
  have hf : rec c = rec0 c.base := funext fun t => hr c t hc
  unfold Unparse.callArgs
  simp only [at_eq, hf]

theorem call_off (fs : Fields) : Unparse.call (at_ rec c) {} fs = Unparse.call rec0 c.base fs := by
  have hf : rec c = rec0 c.base := funext fun t => hr c t hc
  unfold Unparse.call
  simp only [at_eq, hf, callArgs_off hr hc]

theorem subscript_off (fs : Fields) : Unparse.subscript (at_ rec c) {} fs = Unparse.subscript rec0 c.base fs := by
  have hf : rec c = rec0 c.base := funext fun t => hr c t hc
  unfold Unparse.subscript
  simp only [at_eq, hf, tupleItems_off hr hc]

theorem starred_off (fs : Fields) : Unparse.starred (at_ rec c) {} fs = Unparse.starred rec0 c.base fs := by
  have hf : rec c = rec0 c.base := funext fun t => hr c t hc
  unfold Unparse.starred
  simp only [at_eq, hf]

theorem slice_off (fs : Fields) : Unparse.slice (at_ rec c) {} fs = Unparse.slice rec0 c.base fs := by
  have hf : rec c = rec0 c.base := funext fun t => hr c t hc
  unfold Unparse.slice
  simp only [at_eq, hf]

theorem annotation_off (v : Val) : Unparse.annotation (at_ rec c) {} v = Unparse.annotation rec0 c.base v := by
  have hf : rec c = rec0 c.base := funext fun t => hr c t hc
  unfold Unparse.annotation
  simp only [at_eq, hf]

theorem argText_off (fs : Fields) : Unparse.argText (at_ rec c) {} fs = Unparse.argText rec0 c.base fs := by
  have hf : rec c = rec0 c.base := funext fun t => hr c t hc
  unfold Unparse.argText
  simp only [at_eq, hf, annotation_off hr hc]

theorem starArg_off (v : Val) : Unparse.starArg (at_ rec c) {} v = Unparse.starArg rec0 c.base v := by
  have hf : rec c = rec0 c.base := funext fun t => hr c t hc
  unfold Unparse.starArg
  simp only [at_eq, hf, argText_off hr hc]

theorem argDefault_off (p : Val × Val) : Unparse.argDefault (at_ rec c) {} p = Unparse.argDefault rec0 c.base p := by
  have hf : rec c = rec0 c.base := funext fun t => hr c t hc
  unfold Unparse.argDefault
  simp only [at_eq, hf]

theorem starItem_off (v w : Val) : Unparse.starItem (at_ rec c) {} v w = Unparse.starItem rec0 c.base v w := by
  have hf : rec c = rec0 c.base := funext fun t => hr c t hc
  unfold Unparse.starItem
  simp only [at_eq, hf, starArg_off hr hc]

theorem kwonlyItems_off (v : Val) (fs : Fields) : Unparse.kwonlyItems (at_ rec c) {} v fs = Unparse.kwonlyItems rec0 c.base v fs := by
  have hf : rec c = rec0 c.base := funext fun t => hr c t hc
  unfold Unparse.kwonlyItems
  simp only [at_eq, hf, funext (argDefault_off hr hc)]

theorem doubleItem_off (v : Val) : Unparse.doubleItem (at_ rec c) {} v = Unparse.doubleItem rec0 c.base v := by
  have hf : rec c = rec0 c.base := funext fun t => hr c t hc
  unfold Unparse.doubleItem
  simp only [at_eq, hf, starArg_off hr hc]

theorem arguments_off (fs : Fields) : Unparse.arguments (at_ rec c) {} fs = Unparse.arguments rec0 c.base fs := by
  have hf : rec c = rec0 c.base := funext fun t => hr c t hc
  unfold Unparse.arguments
  simp only [at_eq, hf, funext (argDefault_off hr hc), starItem_off hr hc, kwonlyItems_off hr hc, doubleItem_off hr hc]

theorem keyword_off (fs : Fields) : Unparse.keyword (at_ rec c) {} fs = Unparse.keyword rec0 c.base fs := by
  have hf : rec c = rec0 c.base := funext fun t => hr c t hc
  unfold Unparse.keyword
  simp only [at_eq, hf]

theorem matchMapping_off (fs : Fields) : Unparse.matchMapping (at_ rec c) {} fs = Unparse.matchMapping rec0 c.base fs := by
  have hf : rec c = rec0 c.base := funext fun t => hr c t hc
  unfold Unparse.matchMapping
  simp only [at_eq, hf, funext (pair_off hr hc)]

theorem kwdPattern_off (p : Val × Val) : Unparse.kwdPattern (at_ rec c) {} p = Unparse.kwdPattern rec0 c.base p := by
  have hf : rec c = rec0 c.base := funext fun t => hr c t hc
  unfold Unparse.kwdPattern
  simp only [at_eq, hf]

theorem matchClass_off (fs : Fields) : Unparse.matchClass (at_ rec c) {} fs = Unparse.matchClass rec0 c.base fs := by
  have hf : rec c = rec0 c.base := funext fun t => hr c t hc
  unfold Unparse.matchClass
  simp only [at_eq, hf, funext (kwdPattern_off hr hc)]

theorem matchOr_off (fs : Fields) : Unparse.matchOr (at_ rec c) {} fs = Unparse.matchOr rec0 c.base fs := by
  have hf : rec c = rec0 c.base := funext fun t => hr c t hc
  unfold Unparse.matchOr
  simp only [at_eq, hf]

theorem typeVar_off (fs : Fields) : Unparse.typeVar (at_ rec c) {} fs = Unparse.typeVar rec0 c.base fs := by
  have hf : rec c = rec0 c.base := funext fun t => hr c t hc
  unfold Unparse.typeVar
  simp only [at_eq, hf]

theorem dispatchAny_off (v : Val) : Color.dispatchAny rec c v = Unparse.dispatchAny rec0 c.base v := by
  have hf : rec c = rec0 c.base := funext fun t => hr c t hc
  unfold Color.dispatchAny Unparse.dispatchAny
  simp only [at_eq, hf, kw_off hc, fill_off hc, paint_off hc]
  rfl

theorem block_off (v : Val) : Color.block rec c v = Unparse.block rec0 c.base v := by
  have hf : rec c = rec0 c.base := funext fun t => hr c t hc
  unfold Color.block Unparse.block
  simp only [at_eq, hf, kw_off hc, fill_off hc, paint_off hc, dispatchAny_off hr hc.enter, base_enter]

theorem blockIf_off (l : Loc) (w : String) (v : Val) : Color.blockIf rec c l w v = Unparse.blockIf rec0 c.base w v := by
  have hf : rec c = rec0 c.base := funext fun t => hr c t hc
  unfold Color.blockIf Unparse.blockIf
  simp only [at_eq, hf, kw_off hc, fill_off hc, paint_off hc, block_off hr hc]

theorem markerValue_off (H : Host) (v : Val) : Color.markerValue H rec c v = Unparse.markerValue H rec0 c.base v := by
  have hf : rec c = rec0 c.base := funext fun t => hr c t hc
  unfold Color.markerValue Unparse.markerValue
  simp only [at_eq, hf, kw_off hc, fill_off hc, paint_off hc]
  rfl

theorem markerStmtField_off (H : Host) (l : Loc) (p : F × Val) : Color.markerStmtField H rec c l p = Unparse.markerStmtField H rec0 c.base p := by
  have hf : rec c = rec0 c.base := funext fun t => hr c t hc
  unfold Color.markerStmtField Unparse.markerStmtField
  simp only [at_eq, hf, kw_off hc, fill_off hc, paint_off hc, markerValue_off hr hc.enter, base_enter]

theorem markerExprField_off (H : Host) (p : F × Val) : Color.markerExprField H rec c p = Unparse.markerExprField H rec0 c.base p := by
  have hf : rec c = rec0 c.base := funext fun t => hr c t hc
  unfold Color.markerExprField Unparse.markerExprField
  simp only [at_eq, hf, kw_off hc, fill_off hc, paint_off hc, markerValue_off hr hc]

theorem markerFields_off (H : Host) (l : Loc) (b : Bool) (fs : Fields) : Color.markerFields H rec c l b fs = Unparse.markerFields H rec0 c.base b fs := by
  have hf : rec c = rec0 c.base := funext fun t => hr c t hc
  unfold Color.markerFields Unparse.markerFields
  simp only [at_eq, hf, kw_off hc, fill_off hc, paint_off hc, markerValue_off hr hc, funext (markerExprField_off hr hc H), funext (markerStmtField_off hr hc H _)]
  rfl

theorem astmarker_off (H : Host) (l : Loc) (m : String) (fs : Fields) : Color.astmarker H rec c l m fs = Unparse.astmarker H rec0 c.base m fs := by
  have hf : rec c = rec0 c.base := funext fun t => hr c t hc
  unfold Color.astmarker Unparse.astmarker
  simp only [at_eq, hf, kw_off hc, fill_off hc, paint_off hc, markerFields_off hr hc.enter, base_enter, marker_lit, Unparse.fill, List.append_assoc, List.cons_append]
  rfl

theorem wordValue_off (k : K) (w : String) (fs : Fields) : Color.wordValue rec c k w fs = Unparse.wordValue rec0 c.base k w fs := by
  have hf : rec c = rec0 c.base := funext fun t => hr c t hc
  unfold Color.wordValue Unparse.wordValue
  simp only [at_eq, hf, kw_off hc, fill_off hc, paint_off hc]

theorem comprehension_off (fs : Fields) : Color.comprehension rec c fs = Unparse.comprehension rec0 c.base fs := by
  have hf : rec c = rec0 c.base := funext fun t => hr c t hc
  unfold Color.comprehension Unparse.comprehension
  simp only [at_eq, hf, kw_off hc, fill_off hc, paint_off hc]

theorem ifExp_off (fs : Fields) : Color.ifExp rec c fs = Unparse.ifExp rec0 c.base fs := by
  have hf : rec c = rec0 c.base := funext fun t => hr c t hc
  unfold Color.ifExp Unparse.ifExp
  simp only [at_eq, hf, kw_off hc, fill_off hc, paint_off hc]

theorem unaryOp_off (fs : Fields) : Color.unaryOp rec c fs = Unparse.unaryOp rec0 c.base fs := by
  have hf : rec c = rec0 c.base := funext fun t => hr c t hc
  unfold Color.unaryOp Unparse.unaryOp
  simp only [at_eq, hf, kw_off hc, fill_off hc, paint_off hc]
  refine bind_congr fun op => bind_congr fun o => bind_congr fun v => bind_congr fun x => ?_
  cases op.isK .Not <;> simp

theorem comparison_off (p : Val × Val) : Color.comparison rec c p = Unparse.comparison rec0 c.base p := by
  have hf : rec c = rec0 c.base := funext fun t => hr c t hc
  unfold Color.comparison Unparse.comparison
  simp only [at_eq, hf, kw_off hc, fill_off hc, paint_off hc, ite_self]

theorem compare_off (fs : Fields) : Color.compare rec c fs = Unparse.compare rec0 c.base fs := by
  have hf : rec c = rec0 c.base := funext fun t => hr c t hc
  unfold Color.compare Unparse.compare
  simp only [at_eq, hf, kw_off hc, fill_off hc, paint_off hc, funext (comparison_off hr hc)]

theorem boolOp_off (fs : Fields) : Color.boolOp rec c fs = Unparse.boolOp rec0 c.base fs := by
  have hf : rec c = rec0 c.base := funext fun t => hr c t hc
  unfold Color.boolOp Unparse.boolOp
  simp only [at_eq, hf, kw_off hc, fill_off hc, paint_off hc]

theorem lambda_off (fs : Fields) : Color.lambda rec c fs = Unparse.lambda rec0 c.base fs := by
  have hf : rec c = rec0 c.base := funext fun t => hr c t hc
  unfold Color.lambda Unparse.lambda
  simp only [at_eq, hf, kw_off hc, fill_off hc, paint_off hc, lambda_lit, List.append_assoc]

theorem withitem_off (fs : Fields) : Color.withitem rec c fs = Unparse.withitem rec0 c.base fs := by
  have hf : rec c = rec0 c.base := funext fun t => hr c t hc
  unfold Color.withitem Unparse.withitem
  simp only [at_eq, hf, kw_off hc, fill_off hc, paint_off hc]

theorem toplevel_off (l : Loc) (k : K) (n : String) (fs : Fields) : Color.toplevel rec c l k n fs = Unparse.toplevel rec0 c.base k fs := by
  have hf : rec c = rec0 c.base := funext fun t => hr c t hc
  unfold Color.toplevel Unparse.toplevel
  simp only [at_eq, hf, kw_off hc, fill_off hc, paint_off hc, hc.2, Bool.false_eq_true, if_false]

theorem exprStmt_off (l : Loc) (fs : Fields) : Color.exprStmt rec c l fs = Unparse.exprStmt rec0 c.base fs := by
  have hf : rec c = rec0 c.base := funext fun t => hr c t hc
  unfold Color.exprStmt Unparse.exprStmt
  simp only [at_eq, hf, kw_off hc, fill_off hc, paint_off hc, hc.2, Bool.false_eq_true, if_false]

theorem wordList_off (l : Loc) (w : String) (xs : List Val) : Color.wordList rec c l w xs = Unparse.wordList rec0 c.base w xs := by
  have hf : rec c = rec0 c.base := funext fun t => hr c t hc
  unfold Color.wordList Unparse.wordList
  simp only [at_eq, hf, kw_off hc, fill_off hc, paint_off hc]

theorem importFrom_off (l : Loc) (fs : Fields) : Color.importFrom rec c l fs = Unparse.importFrom rec0 c.base fs := by
  have hf : rec c = rec0 c.base := funext fun t => hr c t hc
  unfold Color.importFrom Unparse.importFrom
  simp only [at_eq, hf, kw_off hc, fill_off hc, paint_off hc]

theorem assign_off (l : Loc) (fs : Fields) : Color.assign rec c l fs = Unparse.assign rec0 c.base fs := by
  have hf : rec c = rec0 c.base := funext fun t => hr c t hc
  unfold Color.assign Unparse.assign
  simp only [at_eq, hf, kw_off hc, fill_off hc, paint_off hc]

theorem annAssign_off (l : Loc) (fs : Fields) : Color.annAssign rec c l fs = Unparse.annAssign rec0 c.base fs := by
  have hf : rec c = rec0 c.base := funext fun t => hr c t hc
  unfold Color.annAssign Unparse.annAssign
  simp only [at_eq, hf, kw_off hc, fill_off hc, paint_off hc]

theorem augAssign_off (l : Loc) (fs : Fields) : Color.augAssign rec c l fs = Unparse.augAssign rec0 c.base fs := by
  have hf : rec c = rec0 c.base := funext fun t => hr c t hc
  unfold Color.augAssign Unparse.augAssign
  simp only [at_eq, hf, kw_off hc, fill_off hc, paint_off hc]

theorem returnStmt_off (l : Loc) (fs : Fields) : Color.returnStmt rec c l fs = Unparse.returnStmt rec0 c.base fs := by
  have hf : rec c = rec0 c.base := funext fun t => hr c t hc
  unfold Color.returnStmt Unparse.returnStmt
  simp only [at_eq, hf, kw_off hc, fill_off hc, paint_off hc]

theorem assertStmt_off (l : Loc) (fs : Fields) : Color.assertStmt rec c l fs = Unparse.assertStmt rec0 c.base fs := by
  have hf : rec c = rec0 c.base := funext fun t => hr c t hc
  unfold Color.assertStmt Unparse.assertStmt
  simp only [at_eq, hf, kw_off hc, fill_off hc, paint_off hc]

theorem raiseStmt_off (l : Loc) (fs : Fields) : Color.raiseStmt rec c l fs = Unparse.raiseStmt rec0 c.base fs := by
  have hf : rec c = rec0 c.base := funext fun t => hr c t hc
  unfold Color.raiseStmt Unparse.raiseStmt
  simp only [at_eq, hf, kw_off hc, fill_off hc, paint_off hc, raise_lit, Unparse.fill, List.append_assoc, List.cons_append]

theorem tryStmt_off (l : Loc) (b : Bool) (k : K) (fs : Fields) : Color.tryStmt rec c l b k fs = Unparse.tryStmt rec0 c.base b k fs := by
  have hf : rec c = rec0 c.base := funext fun t => hr c t hc
  unfold Color.tryStmt Unparse.tryStmt
  simp only [at_eq, hf, kw_off hc, fill_off hc, paint_off hc, block_off hr hc, blockIf_off hr hc, show rec { c with modes := b :: c.modes } = _ from funext fun t => hr { c with modes := b :: c.modes } t hc]
  rfl

theorem exceptHandler_off (l : Loc) (fs : Fields) : Color.exceptHandler rec c l fs = Unparse.exceptHandler rec0 c.base fs := by
  have hf : rec c = rec0 c.base := funext fun t => hr c t hc
  unfold Color.exceptHandler Unparse.exceptHandler
  simp only [at_eq, hf, kw_off hc, fill_off hc, paint_off hc, block_off hr hc]
  have e : c.base.modes = c.modes := rfl
  rw [e]
  cases c.modes with
  | nil => rfl
  | cons star r => cases star <;> rfl

theorem decorator_off (d : Val) :
    Color.decorator rec c d = (do return Unparse.fill c.base (lit "@") ++ (← rec0 c.base d)) := by
  unfold Color.decorator
  simp only [hr { c with nocolor := true } _ hc, fill_off hc, paint_off hc, hc.1, List.append_nil]
  rfl

theorem classDef_off (l : Loc) (fs : Fields) : Color.classDef rec c l fs = Unparse.classDef rec0 c.base fs := by
  have hf : rec c = rec0 c.base := funext fun t => hr c t hc
  unfold Color.classDef Unparse.classDef
  simp only [at_eq, hf, kw_off hc, fill_off hc, paint_off hc, funext (decorator_off hr hc), paintName_off hc, callArgs_off hr hc, block_off hr hc, Unparse.decorators, Unparse.fill, List.append_assoc, List.cons_append]

theorem functionDef_off (l : Loc) (w w' : String) (hw : lit w' = lit w ++ lit " ") (k : K) (fs : Fields) : Color.functionDef rec c l w k fs = Unparse.functionDef rec0 c.base w' k fs := by
  have hf : rec c = rec0 c.base := funext fun t => hr c t hc
  unfold Color.functionDef Unparse.functionDef
  simp only [at_eq, hf, kw_off hc, fill_off hc, paint_off hc, funext (decorator_off hr hc), paintName_off hc, callArgs_off hr hc, block_off hr hc, Unparse.decorators, Unparse.fill, List.append_assoc, List.cons_append, hw]

theorem forStmt_off (l : Loc) (w : String) (k : K) (fs : Fields) : Color.forStmt rec c l w k fs = Unparse.forStmt rec0 c.base w k fs := by
  have hf : rec c = rec0 c.base := funext fun t => hr c t hc
  unfold Color.forStmt Unparse.forStmt
  simp only [at_eq, hf, kw_off hc, fill_off hc, paint_off hc, block_off hr hc, blockIf_off hr hc]

theorem whileStmt_off (l : Loc) (fs : Fields) : Color.whileStmt rec c l fs = Unparse.whileStmt rec0 c.base fs := by
  have hf : rec c = rec0 c.base := funext fun t => hr c t hc
  unfold Color.whileStmt Unparse.whileStmt
  simp only [at_eq, hf, kw_off hc, fill_off hc, paint_off hc, block_off hr hc, blockIf_off hr hc]

theorem withStmt_off (l : Loc) (w : String) (k : K) (fs : Fields) : Color.withStmt rec c l w k fs = Unparse.withStmt rec0 c.base w k fs := by
  have hf : rec c = rec0 c.base := funext fun t => hr c t hc
  unfold Color.withStmt Unparse.withStmt
  simp only [at_eq, hf, kw_off hc, fill_off hc, paint_off hc, block_off hr hc, blockIf_off hr hc]

theorem matchStmt_off (l : Loc) (fs : Fields) : Color.matchStmt rec c l fs = Unparse.matchStmt rec0 c.base fs := by
  have hf : rec c = rec0 c.base := funext fun t => hr c t hc
  unfold Color.matchStmt Unparse.matchStmt
  simp only [at_eq, hf, kw_off hc, fill_off hc, paint_off hc, show rec c.enter = _ from funext fun t => hr c.enter t hc, base_enter]

theorem matchCase_off (l : Loc) (fs : Fields) : Color.matchCase rec c l fs = Unparse.matchCase rec0 c.base fs := by
  have hf : rec c = rec0 c.base := funext fun t => hr c t hc
  unfold Color.matchCase Unparse.matchCase
  simp only [at_eq, hf, kw_off hc, fill_off hc, paint_off hc, block_off hr hc, blockIf_off hr hc]

theorem matchAs_off (fs : Fields) : Color.matchAs rec c fs = Unparse.matchAs rec0 c.base fs := by
  have hf : rec c = rec0 c.base := funext fun t => hr c t hc
  unfold Color.matchAs Unparse.matchAs
  simp only [at_eq, hf, kw_off hc, fill_off hc, paint_off hc]

theorem typeAlias_off (l : Loc) (fs : Fields) : Color.typeAlias rec c l fs = Unparse.typeAlias rec0 c.base fs := by
  have hf : rec c = rec0 c.base := funext fun t => hr c t hc
  unfold Color.typeAlias Unparse.typeAlias
  simp only [at_eq, hf, kw_off hc, fill_off hc, paint_off hc, Unparse.fill, List.append_assoc, List.cons_append, List.nil_append]

theorem ifStmt_off (w : String) (n : Nat) (l : Loc) (fs : Fields) :
    Color.ifStmt rec c w n l fs = Unparse.ifStmt rec0 c.base w n fs := by
  induction n generalizing w l fs with
  | zero => rfl
  | succ n ih =>
    unfold Color.ifStmt Unparse.ifStmt
    simp only [hr c _ hc, kw_off hc, fill_off hc, block_off hr hc, blockIf_off hr hc, ih]
    rfl

theorem joined_off (n : Nat) : (∀ v, Color.joined rec c n v = Unparse.joined rec0 c.base n v) ∧
    (∀ fs, Color.joined.formatted rec c n fs = Unparse.joined.formatted rec0 c.base n fs) := by
  have hf : ∀ n, (∀ v, Color.joined rec c n v = Unparse.joined rec0 c.base n v) →
      ∀ fs, Color.joined.formatted rec c n fs = Unparse.joined.formatted rec0 c.base n fs := by
    intro n ih fs
    unfold Color.joined.formatted Unparse.joined.formatted
    simp only [hr c _ hc, paint_off hc, conversion_off hc, ih, colon_lit, List.cons_append, List.nil_append]
  induction n with
  | zero =>
    have h : ∀ v, Color.joined rec c 0 v = Unparse.joined rec0 c.base 0 v := fun v => by
      unfold Color.joined Unparse.joined; rfl
    exact ⟨h, hf 0 h⟩
  | succ n ih =>
    have h : ∀ v, Color.joined rec c (n + 1) v = Unparse.joined rec0 c.base (n + 1) v := by
      intro v
      have hp : ∀ v, Color.joined.piece rec c n v = Unparse.joined.piece rec0 c.base n v := by
        intro v
        unfold Color.joined.piece Unparse.joined.piece
        simp only [snippet_off hc, ih.2]
        rfl
      unfold Color.joined Unparse.joined
      rw [show Color.joined.piece rec c n = _ from funext hp]
    exact ⟨h, hf _ h⟩

theorem joinedStr_off (n : Nat) (t : Val) : Color.joinedStr rec c n t = Unparse.joinedStr rec0 c.base n t := by
  have hf : rec c = rec0 c.base := funext fun t => hr c t hc
  unfold Color.joinedStr Unparse.joinedStr
  simp only [at_eq, hf, kw_off hc, fill_off hc, paint_off hc, (joined_off hr hc n).1, f_lit, List.append_assoc]

theorem formattedValue_off (n : Nat) (fs : Fields) : Color.formattedValue rec c n fs = Unparse.formattedValue rec0 c.base n fs := by
  have hf : rec c = rec0 c.base := funext fun t => hr c t hc
  unfold Color.formattedValue Unparse.formattedValue
  simp only [at_eq, hf, kw_off hc, fill_off hc, paint_off hc, (joined_off hr hc n).2]

theorem method_off (H : Host) (n : Nat) (t : Val) (l : Loc) (fs : Fields) (k : K) :
    Color.method H rec n c t l fs k = Unparse.method H rec0 n c.base t fs k := by
  cases k
  all_goals (unfold Color.method Unparse.method; dsimp only)
  all_goals first
    | rfl
    | rw [toplevel_off hr hc]
    | rw [exprStmt_off hr hc]
    | simp only [wordList_off hr hc]
    | rw [importFrom_off hr hc]
    | rw [assign_off hr hc]
    | rw [annAssign_off hr hc]
    | rw [augAssign_off hr hc]
    | rw [returnStmt_off hr hc]
    | rw [kw_off hc, fill_off hc]
    | rw [assertStmt_off hr hc]
    | simp only [nameList_off hc]
    | rw [wordValue_off hr hc]
    | rw [raiseStmt_off hr hc]
    | rw [tryStmt_off hr hc]
    | rw [exceptHandler_off hr hc]
    | rw [classDef_off hr hc]
    | rw [functionDef_off hr hc l "def" "def " (by decide +kernel)]
    | rw [functionDef_off hr hc l "async def" "async def " (by decide +kernel)]
    | rw [forStmt_off hr hc]
    | rw [ifStmt_off hr hc]
    | rw [whileStmt_off hr hc]
    | rw [withStmt_off hr hc]
    | rw [namedExpr_off hr hc]
    | rw [constantText_off hc]
    | rw [nameText_off hc]
    | simp only [display_off hr hc]
    | rw [comp_off hr hc]
    | rw [dictComp_off hr hc]
    | rw [comprehension_off hr hc]
    | rw [ifExp_off hr hc]
    | rw [dict_off hr hc]
    | rw [tuple_off hr hc]
    | rw [unaryOp_off hr hc]
    | rw [binOp_off hr hc]
    | rw [compare_off hr hc]
    | rw [boolOp_off hr hc]
    | rw [attributeText_off hr hc]
    | rw [call_off hr hc]
    | rw [formattedValue_off hr hc]
    | rw [joinedStr_off hr hc]
    | rw [subscript_off hr hc]
    | rw [starred_off hr hc]
    | rw [slice_off hr hc]
    | rw [argText_off hr hc]
    | rw [arguments_off hr hc]
    | rw [keyword_off hr hc]
    | rw [lambda_off hr hc]
    | rw [alias_off hc]
    | rw [withitem_off hr hc]
    | rw [matchStmt_off hr hc]
    | rw [matchCase_off hr hc]
    | rw [matchSingleton_off hc]
    | rw [matchStar_off hc]
    | rw [matchMapping_off hr hc]
    | rw [matchClass_off hr hc]
    | rw [matchAs_off hr hc]
    | rw [matchOr_off hr hc]
    | rw [typeAlias_off hr hc]
    | rw [typeVar_off hr hc]
    | simp only [hr c _ hc]

end

theorem dispatch_off (H : Host) (n : Nat) : ∀ (c : Color.Ctx) (t : Val), Off c →
    Color.dispatch H n c t = Unparse.dispatch H n c.base t := by
  induction n with
  | zero => exact fun _ _ _ => rfl
  | succ n ih =>
    intro c t hc
    unfold Color.dispatch Unparse.dispatch
    have e : captured c.opts t = .ok none := by
      unfold captured
      rw [hc.2]
      split <;> rfl
    rw [e]
    show Color.dispatchNode H (Color.dispatch H n) n c t = _
    unfold Color.dispatchNode
    split
    · exact method_off ih hc ..
    · exact astmarker_off ih hc ..
    · rw [show Color.dispatch H n c = _ from funext fun t => ih c t hc]
    · rfl

theorem unparse_off (H : Host) (o : Opts) (hc : o.color = none) (hd : o.debug = false) (limit : Nat) (t : Val) :
    Color.unparse H o limit t = Unparse.unparse H limit t := by
  unfold Color.unparse Unparse.unparse
  rw [dispatchAny_off (fun c t hc => dispatch_off H limit c t hc) (c := { opts := o }) ⟨hc, hd⟩]
  rfl

end Mcpyrate
