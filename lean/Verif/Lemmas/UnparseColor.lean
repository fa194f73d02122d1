import Verif.Spec.Painted
/-
Helper lemmas for C69.
-/
namespace Mcpyrate
open Py Unparse Unparse.Color

namespace Painted
variable {S : Scheme}

theorem same : ∀ x : Str, Painted S x x
  | [] => .nil
  | c :: r => .char c (same r)

theorem append {t p t' p' : Str} (h : Painted S t p) (h' : Painted S t' p') : Painted S (t ++ t') (p ++ p') := by
  induction h with
  | nil => exact h'
  | char c _ ih => exact .char c ih
  | run k h1 _ _ ih =>
    have := Painted.run k h1 ih
    simpa [List.append_assoc] using this

theorem ite {c : Prop} [Decidable c] {t p t' p' : Str} (h : Painted S t p) (h' : Painted S t' p') :
    Painted S (if c then t else t') (if c then p else p') := by
  split <;> assumption

end Painted

/-- Without colors. -/
def Unparse.Color.Ctx.plain (c : Color.Ctx) : Color.Ctx := { c with opts := { c.opts with color := none } }

/-- The list of texts, text by text. -/
inductive PaintedL (S : Scheme) : List Str → List Str → Prop
  | nil : PaintedL S [] []
  | cons {t p : Str} {ts ps : List Str} : Painted S t p → PaintedL S ts ps → PaintedL S (t :: ts) (p :: ps)

/-- If the first has a text, so does the second, and it is the same with colors. -/
def Sim (S : Scheme) (a b : R) : Prop := ∀ p, a = .ok p → ∃ t, b = .ok t ∧ Painted S t p

def SimL (S : Scheme) (a b : Except Err (List Str)) : Prop := ∀ p, a = .ok p → ∃ t, b = .ok t ∧ PaintedL S t p

variable {S : Scheme}

theorem PaintedL.append {ts ps ts' ps' : List Str} (h : PaintedL S ts ps) (h' : PaintedL S ts' ps') :
    PaintedL S (ts ++ ts') (ps ++ ps') := by
  induction h with
  | nil => exact h'
  | cons h1 _ ih => exact .cons h1 ih

theorem PaintedL.same : ∀ xs : List Str, PaintedL S xs xs
  | [] => .nil
  | x :: r => .cons (.same x) (same r)

theorem PaintedL.isEmpty {ts ps : List Str} (h : PaintedL S ts ps) : ts.isEmpty = ps.isEmpty := by
  cases h <;> rfl

theorem PaintedL.flatten {ts ps : List Str} (h : PaintedL S ts ps) : Painted S ts.flatten ps.flatten := by
  induction h with
  | nil => exact .nil
  | cons h1 _ ih => exact h1.append ih

theorem PaintedL.interleave {ts ps : List Str} {s s' : Str} (hs : Painted S s s') (h : PaintedL S ts ps) :
    Painted S (Unparse.interleave s ts) (Unparse.interleave s' ps) := by
  induction h with
  | nil => exact .nil
  | cons h1 h2 ih =>
    cases h2 with
    | nil => exact h1
    | cons h3 h4 => exact (h1.append hs).append ih

namespace Sim

theorem pure {t p : Str} (h : Painted S t p) : Sim S (Pure.pure p) (Pure.pure t) := by
  intro p' e
  cases e
  exact ⟨t, rfl, h⟩

theorem ok {t p : Str} (h : Painted S t p) : Sim S (.ok p) (.ok t) := Sim.pure h

theorem error {e : Err} {b : R} : Sim S (.error e) b := by
  intro p h
  cases h

theorem refl (a : R) : Sim S a a := fun p h => ⟨p, h, .same p⟩

theorem same {α : Type} {x : Except Err α} {f g : α → R} (h : ∀ v, Sim S (f v) (g v)) :
    Sim S (x >>= f) (x >>= g) := by
  cases x with
  | error e => exact Sim.error
  | ok v => exact h v

theorem bind {a b : R} {f g : Str → R} (h : Sim S a b) (hf : ∀ p t, Painted S t p → Sim S (f p) (g t)) :
    Sim S (a >>= f) (b >>= g) := by
  cases a with
  | error e => exact Sim.error
  | ok p =>
    obtain ⟨t, rfl, ht⟩ := h p rfl
    exact hf p t ht

theorem bindL {a b : Except Err (List Str)} {f g : List Str → R} (h : SimL S a b)
    (hf : ∀ p t, PaintedL S t p → Sim S (f p) (g t)) : Sim S (a >>= f) (b >>= g) := by
  cases a with
  | error e => exact Sim.error
  | ok p =>
    obtain ⟨t, rfl, ht⟩ := h p rfl
    exact hf p t ht

theorem ite {c : Prop} [Decidable c] {a b a' b' : R} (h : Sim S a b) (h' : Sim S a' b') :
    Sim S (if c then a else a') (if c then b else b') := by
  split <;> assumption

end Sim

theorem SimL.same {α : Type} {x : Except Err α} {f g : α → Except Err (List Str)} (h : ∀ v, SimL S (f v) (g v)) :
    SimL S (x >>= f) (x >>= g) := by
  cases x with
  | error e => intro p h; cases h
  | ok v => exact h v

theorem SimL.bind {a b : R} {f g : Str → Except Err (List Str)} (h : Sim S a b)
    (hf : ∀ p t, Painted S t p → SimL S (f p) (g t)) : SimL S (a >>= f) (b >>= g) := by
  cases a with
  | error e => intro p h; cases h
  | ok p =>
    obtain ⟨t, rfl, ht⟩ := h p rfl
    exact hf p t ht

theorem SimL.pure {t p : List Str} (h : PaintedL S t p) : SimL S (Pure.pure p) (Pure.pure t) := by
  intro p' e
  cases e
  exact ⟨t, rfl, h⟩

theorem SimL.refl (a : Except Err (List Str)) : SimL S a a := fun p h => ⟨p, h, .same p⟩

theorem SimL.ite {c : Prop} [Decidable c] {a b a' b' : Except Err (List Str)} (h : SimL S a b) (h' : SimL S a' b') :
    SimL S (if c then a else a') (if c then b else b') := by
  split <;> assumption

theorem SimL.texts {α : Type} {f g : α → R} (xs : List α) (h : ∀ x, Sim S (f x) (g x)) :
    SimL S (Unparse.texts f xs) (Unparse.texts g xs) := by
  induction xs with
  | nil => exact SimL.pure .nil
  | cons x xs ih =>
    refine SimL.bind (h x) fun p t ht => ?_
    intro ps e
    cases hx : Unparse.texts f xs with
    | error e' => rw [hx] at e; cases e
    | ok qs =>
      rw [hx] at e
      cases e
      obtain ⟨ts, h1, h2⟩ := ih qs hx
      rw [h1]
      exact ⟨t :: ts, rfl, .cons ht h2⟩

theorem Sim.concat {α : Type} {f g : α → R} (xs : List α) (h : ∀ x, Sim S (f x) (g x)) :
    Sim S (Unparse.concat f xs) (Unparse.concat g xs) :=
  Sim.bindL (SimL.texts xs h) fun _ _ h => Sim.pure h.flatten

theorem Sim.opt {f g : Val → R} (v : Val) (h : ∀ v, Sim S (f v) (g v)) : Sim S (Unparse.opt v f) (Unparse.opt v g) :=
  Sim.ite (h v) (Sim.refl _)

/-! ## The pieces -/

variable {c : Color.Ctx}

theorem paint_plain (p : Paint) (x : Str) : paint c.plain p x = x := by
  unfold paint
  cases h : c.plain.scheme with
  | none => rfl
  | some s => cases hn : c.nocolor <;> simp [Ctx.scheme, Ctx.plain, hn] at h

theorem paint_painted (hc : c.opts.color = some S) (p : Paint) (x : Str) : Painted S (paint c p x) (paint c.plain p x) := by
  rw [paint_plain]
  unfold paint
  cases hn : c.nocolor with
  | true =>
    have : c.scheme = none := by simp [Ctx.scheme, hn]
    rw [this]
    exact .same x
  | false =>
    have : c.scheme = some S := by simp [Ctx.scheme, hn, hc]
    rw [this]
    have := Painted.run p (.same x) (Painted.nil (S := S))
    simpa [colorize, Scheme.set, Scheme.clear] using this

theorem kw_painted (hc : c.opts.color = some S) (x : String) : Painted S (kw c x) (kw c.plain x) :=
  paint_painted hc ..

theorem fill_painted (hc : c.opts.color = some S) (l : Option Loc) {x p : Str} (h : Painted S x p) :
    Painted S (fill c l x) (fill c.plain l p) := by
  refine .char _ (.append ?_ (.append (.same _) h))
  refine .ite ?_ (.same _)
  cases l with
  | none => exact .nil
  | some l => exact paint_painted hc ..

/-- A colored text, put together from its pieces. -/
macro "pieces" : tactic => `(tactic| repeat' first
  | assumption
  | exact Painted.nil
  | exact Painted.same _
  | exact paint_painted (by assumption) _ _
  | exact kw_painted (by assumption) _
  | apply fill_painted (by assumption)
  | apply PaintedL.interleave
  | apply PaintedL.append
  | apply Painted.append
  | apply Painted.char
  | apply Painted.ite
  | exact PaintedL.same _)

/-- One method, step by step. -/
macro "steps" : tactic => `(tactic| repeat' first
  | assumption
  | (with_reducible exact Sim.refl _)
  | (with_reducible exact SimL.refl _)
  | exact Sim.error
  | (apply Sim.pure; (try pieces; done))
  | (apply Sim.ok; (try pieces; done))
  | (apply SimL.pure; (try pieces; done))
  | (refine Sim.opt _ fun _ => ?_)
  | (refine Sim.concat _ fun _ => ?_)
  | (refine SimL.texts _ fun _ => ?_)
  | (with_reducible apply Sim.ite)
  | (with_reducible apply SimL.ite)
  | (with_reducible refine Sim.same fun _ => ?_)
  | (with_reducible refine Sim.bindL ?_ fun _ _ _ => ?_)
  | (with_reducible refine Sim.bind ?_ fun _ _ _ => ?_)
  | (with_reducible refine SimL.same fun _ => ?_)
  | (with_reducible refine SimL.bind ?_ fun _ _ _ => ?_))

section
variable (hc : c.opts.color = some S)
include hc

theorem constantText_sim (H : Host) (fs : Fields) :
    Sim S (Color.constantText H c.plain fs) (Color.constantText H c fs) := by
  unfold Color.constantText
  refine Sim.same fun _ => Sim.same fun v => ?_
  dsimp only
  split <;> steps

theorem nameText_sim (fs : Fields) :
    Sim S (Color.nameText c.plain fs) (Color.nameText c fs) := by
  unfold Color.nameText
  refine Sim.same fun _ => Sim.same fun x => ?_
  exact Sim.ite (by steps) (Sim.ite (by steps) (Sim.ite (by steps) (by steps)))

theorem paintName_sim (p : Paint) (v : Val) :
    Sim S (Color.paintName c.plain p v) (Color.paintName c p v) := by
  unfold Color.paintName
  have e : c.plain.scheme = none := by cases h : c.nocolor <;> simp [Ctx.scheme, Ctx.plain, h]
  rw [e]
  cases hn : c.nocolor with
  | true =>
    have : c.scheme = none := by simp [Ctx.scheme, hn]
    rw [this]
    exact Sim.refl _
  | false =>
    have : c.scheme = some S := by simp [Ctx.scheme, hn, hc]
    rw [this]
    intro x hx
    have e' : ∀ x : Str, Painted S (colorize S p x) x := fun x => by
      have := Painted.run p (.same x) (Painted.nil (S := S))
      simpa [colorize, Scheme.set, Scheme.clear] using this
    unfold Unparse.write at hx
    dsimp only at hx
    split at hx
    · cases hx
      exact ⟨_, rfl, e' _⟩
    · cases hx

theorem conversion_sim (v : Val) :
    Sim S (Color.conversion c.plain v) (Color.conversion c v) := by
  unfold Color.conversion
  split <;> steps

theorem snippet_sim (v : Val) :
    Sim S (Color.snippet c.plain v) (Color.snippet c v) := by
  unfold Color.snippet
  split <;> steps

theorem alias_sim (fs : Fields) :
    Sim S (Color.alias c.plain fs) (Color.alias c fs) := by
  unfold Color.alias
  steps

theorem nameList_sim (l : Loc) (w : String) (xs : List Val) :
    Sim S (Color.nameList c.plain l w xs) (Color.nameList c l w xs) := by
  unfold Color.nameList
  steps

theorem matchSingleton_sim (H : Host) (fs : Fields) :
    Sim S (Color.matchSingleton H c.plain fs) (Color.matchSingleton H c fs) := by
  unfold Color.matchSingleton
  refine Sim.same fun v => ?_
  split <;> steps

theorem matchStar_sim (fs : Fields) :
    Sim S (Color.matchStar c.plain fs) (Color.matchStar c fs) := by
  unfold Color.matchStar
  steps

end

section
variable {rec : Color.Rec} (hr : ∀ (c : Color.Ctx) (t : Val), c.opts.color = some S → Sim S (rec c.plain t) (rec c t))
  (hc : c.opts.color = some S)
include hr hc

theorem namedExpr_sim (fs : Fields) :
    Sim S (Unparse.namedExpr (at_ rec c.plain) {} fs) (Unparse.namedExpr (at_ rec c) {} fs) := by
  have hr' := fun t => hr c t hc
  unfold Unparse.namedExpr
  steps
  all_goals apply hr'

theorem display_sim (o cl : String) (es : List Val) :
    Sim S (Unparse.display (at_ rec c.plain) {} o cl es) (Unparse.display (at_ rec c) {} o cl es) := by
  have hr' := fun t => hr c t hc
  unfold Unparse.display
  steps
  all_goals apply hr'

theorem comp_sim (k : K) (o cl : String) (fs : Fields) :
    Sim S (Unparse.comp (at_ rec c.plain) {} k o cl fs) (Unparse.comp (at_ rec c) {} k o cl fs) := by
  have hr' := fun t => hr c t hc
  unfold Unparse.comp
  steps
  all_goals apply hr'

theorem dictComp_sim (fs : Fields) :
    Sim S (Unparse.dictComp (at_ rec c.plain) {} fs) (Unparse.dictComp (at_ rec c) {} fs) := by
  have hr' := fun t => hr c t hc
  unfold Unparse.dictComp
  steps
  all_goals apply hr'

theorem pair_sim (p : Val × Val) :
    Sim S (Unparse.pair (at_ rec c.plain) {} p) (Unparse.pair (at_ rec c) {} p) := by
  have hr' := fun t => hr c t hc
  unfold Unparse.pair
  steps
  all_goals apply hr'

theorem dict_sim (fs : Fields) :
    Sim S (Unparse.dict (at_ rec c.plain) {} fs) (Unparse.dict (at_ rec c) {} fs) := by
  unfold Unparse.dict
  steps
  all_goals apply pair_sim hr hc

theorem tupleItems_sim (fs : Fields) :
    Sim S (Unparse.tupleItems (at_ rec c.plain) {} fs) (Unparse.tupleItems (at_ rec c) {} fs) := by
  have hr' := fun t => hr c t hc
  unfold Unparse.tupleItems
  steps
  split <;> steps
  all_goals apply hr'

theorem tuple_sim (fs : Fields) :
    Sim S (Unparse.tuple (at_ rec c.plain) {} fs) (Unparse.tuple (at_ rec c) {} fs) := by
  unfold Unparse.tuple
  steps
  all_goals apply tupleItems_sim hr hc

theorem binOp_sim (fs : Fields) :
    Sim S (Unparse.binOp (at_ rec c.plain) {} fs) (Unparse.binOp (at_ rec c) {} fs) := by
  have hr' := fun t => hr c t hc
  unfold Unparse.binOp
  steps
  all_goals apply hr'

theorem attributeText_sim (fs : Fields) :
    Sim S (Unparse.attributeText (at_ rec c.plain) {} fs) (Unparse.attributeText (at_ rec c) {} fs) := by
  have hr' := fun t => hr c t hc
  unfold Unparse.attributeText
  steps
  all_goals apply hr'

theorem callArgs_sim (xs ys : List Val) :
    Sim S (Unparse.callArgs (at_ rec c.plain) {} xs ys) (Unparse.callArgs (at_ rec c) {} xs ys) := by
  have hr' := fun t => hr c t hc
  unfold Unparse.callArgs
  steps
  all_goals apply hr'

theorem call_sim (fs : Fields) :
    Sim S (Unparse.call (at_ rec c.plain) {} fs) (Unparse.call (at_ rec c) {} fs) := by
  have hr' := fun t => hr c t hc
  unfold Unparse.call
  steps
  all_goals first | apply hr' | apply callArgs_sim hr hc

theorem subscript_sim (fs : Fields) :
    Sim S (Unparse.subscript (at_ rec c.plain) {} fs) (Unparse.subscript (at_ rec c) {} fs) := by
  have hr' := fun t => hr c t hc
  unfold Unparse.subscript
  steps
  all_goals first | apply hr' | skip
  all_goals (split <;> steps)
  all_goals first | apply hr' | apply tupleItems_sim hr hc

theorem starred_sim (fs : Fields) :
    Sim S (Unparse.starred (at_ rec c.plain) {} fs) (Unparse.starred (at_ rec c) {} fs) := by
  have hr' := fun t => hr c t hc
  unfold Unparse.starred
  steps
  all_goals apply hr'

theorem slice_sim (fs : Fields) :
    Sim S (Unparse.slice (at_ rec c.plain) {} fs) (Unparse.slice (at_ rec c) {} fs) := by
  have hr' := fun t => hr c t hc
  unfold Unparse.slice
  steps
  all_goals apply hr'

theorem annotation_sim (v : Val) :
    Sim S (Unparse.annotation (at_ rec c.plain) {} v) (Unparse.annotation (at_ rec c) {} v) := by
  have hr' := fun t => hr c t hc
  unfold Unparse.annotation
  steps
  all_goals apply hr'

theorem argText_sim (fs : Fields) :
    Sim S (Unparse.argText (at_ rec c.plain) {} fs) (Unparse.argText (at_ rec c) {} fs) := by
  have hr' := fun t => hr c t hc
  unfold Unparse.argText
  steps
  all_goals first | apply hr' | apply annotation_sim hr hc

theorem starArg_sim (v : Val) :
    Sim S (Unparse.starArg (at_ rec c.plain) {} v) (Unparse.starArg (at_ rec c) {} v) := by
  unfold Unparse.starArg
  split <;> steps
  all_goals apply argText_sim hr hc

theorem argDefault_sim (p : Val × Val) :
    Sim S (Unparse.argDefault (at_ rec c.plain) {} p) (Unparse.argDefault (at_ rec c) {} p) := by
  have hr' := fun t => hr c t hc
  unfold Unparse.argDefault
  steps
  all_goals apply hr'

theorem starItem_sim (v w : Val) :
    SimL S (Unparse.starItem (at_ rec c.plain) {} v w) (Unparse.starItem (at_ rec c) {} v w) := by
  unfold Unparse.starItem
  steps
  · exact starArg_sim hr hc _
  · exact .cons (.append (.same _) (by assumption)) .nil

theorem kwonlyItems_sim (v : Val) (fs : Fields) :
    SimL S (Unparse.kwonlyItems (at_ rec c.plain) {} v fs) (Unparse.kwonlyItems (at_ rec c) {} v fs) := by
  unfold Unparse.kwonlyItems
  steps
  all_goals apply argDefault_sim hr hc

theorem doubleItem_sim (v : Val) :
    SimL S (Unparse.doubleItem (at_ rec c.plain) {} v) (Unparse.doubleItem (at_ rec c) {} v) := by
  unfold Unparse.doubleItem
  steps
  · exact starArg_sim hr hc _
  · exact .cons (.append (.same _) (by assumption)) .nil

theorem arguments_sim (fs : Fields) :
    Sim S (Unparse.arguments (at_ rec c.plain) {} fs) (Unparse.arguments (at_ rec c) {} fs) := by
  unfold Unparse.arguments
  refine Sim.same fun args => ?_
  have rest : ∀ posonly : List Val, Sim S
      (do
        let defaults ← attrL .arguments fs .defaults
        let padded := List.replicate (args.length + posonly.length - defaults.length) Val.none ++ defaults
        let xs ← texts (argDefault (at_ rec c.plain) {}) (posonly.zip (padded.take posonly.length))
        let ys ← texts (argDefault (at_ rec c.plain) {}) (args.zip (padded.drop posonly.length))
        let vararg ← attr .arguments fs .vararg
        let kwonly ← attr .arguments fs .kwonlyargs
        let star ← starItem (at_ rec c.plain) {} vararg kwonly
        let zs ← kwonlyItems (at_ rec c.plain) {} kwonly fs
        let ws ← doubleItem (at_ rec c.plain) {} (← attr .arguments fs .kwarg)
        return interleave (lit ", ") (xs ++ (if xs.isEmpty then [] else [lit "/"]) ++ ys ++ star ++ zs ++ ws))
      (do
        let defaults ← attrL .arguments fs .defaults
        let padded := List.replicate (args.length + posonly.length - defaults.length) Val.none ++ defaults
        let xs ← texts (argDefault (at_ rec c) {}) (posonly.zip (padded.take posonly.length))
        let ys ← texts (argDefault (at_ rec c) {}) (args.zip (padded.drop posonly.length))
        let vararg ← attr .arguments fs .vararg
        let kwonly ← attr .arguments fs .kwonlyargs
        let star ← starItem (at_ rec c) {} vararg kwonly
        let zs ← kwonlyItems (at_ rec c) {} kwonly fs
        let ws ← doubleItem (at_ rec c) {} (← attr .arguments fs .kwarg)
        return interleave (lit ", ") (xs ++ (if xs.isEmpty then [] else [lit "/"]) ++ ys ++ star ++ zs ++ ws)) := by
    intro posonly
    refine Sim.same fun defaults => ?_
    refine Sim.bindL (SimL.texts _ fun _ => argDefault_sim hr hc _) fun xs xs' h1 => ?_
    refine Sim.bindL (SimL.texts _ fun _ => argDefault_sim hr hc _) fun ys ys' h2 => ?_
    refine Sim.same fun vararg => Sim.same fun kwonly => ?_
    refine Sim.bindL (starItem_sim hr hc _ _) fun _ _ h3 => ?_
    refine Sim.bindL (kwonlyItems_sim hr hc _ _) fun _ _ h4 => Sim.same fun _ => ?_
    refine Sim.bindL (doubleItem_sim hr hc _) fun _ _ h5 => Sim.pure ?_
    rw [h1.isEmpty]
    exact PaintedL.interleave (.same _) ((((h1.append (.same _)).append h2).append h3).append h4 |>.append h5)
  dsimp only
  split
  · exact Sim.same rest
  · exact rest []

theorem keyword_sim (fs : Fields) :
    Sim S (Unparse.keyword (at_ rec c.plain) {} fs) (Unparse.keyword (at_ rec c) {} fs) := by
  have hr' := fun t => hr c t hc
  unfold Unparse.keyword
  steps
  all_goals apply hr'

theorem matchMapping_sim (fs : Fields) :
    Sim S (Unparse.matchMapping (at_ rec c.plain) {} fs) (Unparse.matchMapping (at_ rec c) {} fs) := by
  unfold Unparse.matchMapping
  steps
  all_goals apply pair_sim hr hc

theorem kwdPattern_sim (p : Val × Val) :
    Sim S (Unparse.kwdPattern (at_ rec c.plain) {} p) (Unparse.kwdPattern (at_ rec c) {} p) := by
  have hr' := fun t => hr c t hc
  unfold Unparse.kwdPattern
  steps
  all_goals apply hr'

theorem matchClass_sim (fs : Fields) :
    Sim S (Unparse.matchClass (at_ rec c.plain) {} fs) (Unparse.matchClass (at_ rec c) {} fs) := by
  have hr' := fun t => hr c t hc
  unfold Unparse.matchClass
  steps
  all_goals first | apply hr' | apply kwdPattern_sim hr hc

theorem matchOr_sim (fs : Fields) :
    Sim S (Unparse.matchOr (at_ rec c.plain) {} fs) (Unparse.matchOr (at_ rec c) {} fs) := by
  have hr' := fun t => hr c t hc
  unfold Unparse.matchOr
  steps
  all_goals apply hr'

theorem typeVar_sim (fs : Fields) :
    Sim S (Unparse.typeVar (at_ rec c.plain) {} fs) (Unparse.typeVar (at_ rec c) {} fs) := by
  have hr' := fun t => hr c t hc
  unfold Unparse.typeVar
  steps
  all_goals apply hr'

theorem dispatchAny_sim (v : Val) :
    Sim S (Color.dispatchAny rec c.plain v) (Color.dispatchAny rec c v) := by
  have hr' := fun t => hr c t hc
  unfold Color.dispatchAny
  split <;> steps
  all_goals apply hr'

theorem block_sim (v : Val) :
    Sim S (Color.block rec c.plain v) (Color.block rec c v) := by
  unfold Color.block
  refine Sim.bind (dispatchAny_sim hr (c := c.enter) hc v) fun _ _ _ => ?_
  steps

theorem blockIf_sim (l : Loc) (w : String) (v : Val) :
    Sim S (Color.blockIf rec c.plain l w v) (Color.blockIf rec c l w v) := by
  unfold Color.blockIf
  steps
  all_goals apply block_sim hr hc

theorem markerValue_sim (H : Host) (v : Val) :
    Sim S (Color.markerValue H rec c.plain v) (Color.markerValue H rec c v) := by
  have hr' := fun t => hr c t hc
  unfold Color.markerValue
  split <;> steps
  all_goals apply hr'

theorem markerStmtField_sim (H : Host) (l : Loc) (p : F × Val) :
    Sim S (Color.markerStmtField H rec c.plain l p) (Color.markerStmtField H rec c l p) := by
  unfold Color.markerStmtField
  refine Sim.bind (markerValue_sim hr (c := c.enter) hc H p.2) fun _ _ _ => ?_
  steps

theorem markerExprField_sim (H : Host) (p : F × Val) :
    Sim S (Color.markerExprField H rec c.plain p) (Color.markerExprField H rec c p) := by
  unfold Color.markerExprField
  steps
  exact markerValue_sim hr hc H _

theorem markerFields_sim (H : Host) (l : Loc) (b : Bool) (fs : Fields) :
    Sim S (Color.markerFields H rec c.plain l b fs) (Color.markerFields H rec c l b fs) := by
  unfold Color.markerFields
  split
  · exact markerValue_sim hr hc H _
  · steps
    · exact markerStmtField_sim hr hc H _ _
    · exact markerExprField_sim hr hc H _

theorem astmarker_sim (H : Host) (l : Loc) (m : String) (fs : Fields) :
    Sim S (Color.astmarker H rec c.plain l m fs) (Color.astmarker H rec c l m fs) := by
  unfold Color.astmarker
  split
  · exact Sim.error
  · dsimp only
    refine Sim.ite ?_ ?_
    · refine Sim.bind (markerFields_sim hr (c := c.enter) hc H _ _ _) fun _ _ _ => ?_
      steps
    · refine Sim.bind (markerFields_sim hr (c := c.enter) hc H _ _ _) fun _ _ _ => ?_
      steps

theorem wordValue_sim (k : K) (w : String) (fs : Fields) :
    Sim S (Color.wordValue rec c.plain k w fs) (Color.wordValue rec c k w fs) := by
  have hr' := fun t => hr c t hc
  unfold Color.wordValue
  steps
  all_goals apply hr'

theorem comprehension_sim (fs : Fields) :
    Sim S (Color.comprehension rec c.plain fs) (Color.comprehension rec c fs) := by
  have hr' := fun t => hr c t hc
  unfold Color.comprehension
  steps
  all_goals apply hr'

theorem ifExp_sim (fs : Fields) :
    Sim S (Color.ifExp rec c.plain fs) (Color.ifExp rec c fs) := by
  have hr' := fun t => hr c t hc
  unfold Color.ifExp
  steps
  all_goals apply hr'

theorem unaryOp_sim (fs : Fields) :
    Sim S (Color.unaryOp rec c.plain fs) (Color.unaryOp rec c fs) := by
  have hr' := fun t => hr c t hc
  unfold Color.unaryOp
  steps
  all_goals apply hr'

theorem comparison_sim (p : Val × Val) :
    Sim S (Color.comparison rec c.plain p) (Color.comparison rec c p) := by
  have hr' := fun t => hr c t hc
  unfold Color.comparison
  steps
  all_goals apply hr'

theorem compare_sim (fs : Fields) :
    Sim S (Color.compare rec c.plain fs) (Color.compare rec c fs) := by
  have hr' := fun t => hr c t hc
  unfold Color.compare
  steps
  all_goals first | apply hr' | apply comparison_sim hr hc

theorem boolOp_sim (fs : Fields) :
    Sim S (Color.boolOp rec c.plain fs) (Color.boolOp rec c fs) := by
  have hr' := fun t => hr c t hc
  unfold Color.boolOp
  steps
  all_goals apply hr'

theorem lambda_sim (fs : Fields) :
    Sim S (Color.lambda rec c.plain fs) (Color.lambda rec c fs) := by
  have hr' := fun t => hr c t hc
  unfold Color.lambda
  steps
  all_goals apply hr'

theorem withitem_sim (fs : Fields) :
    Sim S (Color.withitem rec c.plain fs) (Color.withitem rec c fs) := by
  have hr' := fun t => hr c t hc
  unfold Color.withitem
  steps
  all_goals apply hr'

theorem exprStmt_sim (l : Loc) (fs : Fields) :
    Sim S (Color.exprStmt rec c.plain l fs) (Color.exprStmt rec c l fs) := by
  have hr' := fun t => hr c t hc
  unfold Color.exprStmt
  refine Sim.ite ?_ ?_
  · refine Sim.same fun _ => Sim.bind (hr c.enter _ hc) fun _ _ _ => ?_
    steps
  · refine Sim.same fun _ => Sim.bind (hr' _) fun _ _ _ => ?_
    steps

theorem toplevel_sim (l : Loc) (k : K) (n : String) (fs : Fields) :
    Sim S (Color.toplevel rec c.plain l k n fs) (Color.toplevel rec c l k n fs) := by
  have hr' := fun t => hr c t hc
  unfold Color.toplevel
  refine Sim.ite ?_ ?_
  · refine Sim.same fun _ => Sim.bind (Sim.concat _ fun _ => hr c.enter _ hc) fun _ _ _ => ?_
    steps
  · exact Sim.same fun _ => Sim.concat _ hr'

theorem wordList_sim (l : Loc) (w : String) (xs : List Val) :
    Sim S (Color.wordList rec c.plain l w xs) (Color.wordList rec c l w xs) := by
  have hr' := fun t => hr c t hc
  unfold Color.wordList
  steps
  all_goals apply hr'

theorem importFrom_sim (l : Loc) (fs : Fields) :
    Sim S (Color.importFrom rec c.plain l fs) (Color.importFrom rec c l fs) := by
  have hr' := fun t => hr c t hc
  unfold Color.importFrom
  steps
  all_goals apply hr'

theorem assign_sim (l : Loc) (fs : Fields) :
    Sim S (Color.assign rec c.plain l fs) (Color.assign rec c l fs) := by
  have hr' := fun t => hr c t hc
  unfold Color.assign
  steps
  all_goals apply hr'

theorem annAssign_sim (l : Loc) (fs : Fields) :
    Sim S (Color.annAssign rec c.plain l fs) (Color.annAssign rec c l fs) := by
  have hr' := fun t => hr c t hc
  unfold Color.annAssign
  steps
  all_goals apply hr'

theorem augAssign_sim (l : Loc) (fs : Fields) :
    Sim S (Color.augAssign rec c.plain l fs) (Color.augAssign rec c l fs) := by
  have hr' := fun t => hr c t hc
  unfold Color.augAssign
  steps
  all_goals apply hr'

theorem returnStmt_sim (l : Loc) (fs : Fields) :
    Sim S (Color.returnStmt rec c.plain l fs) (Color.returnStmt rec c l fs) := by
  have hr' := fun t => hr c t hc
  unfold Color.returnStmt
  steps
  all_goals apply hr'

theorem assertStmt_sim (l : Loc) (fs : Fields) :
    Sim S (Color.assertStmt rec c.plain l fs) (Color.assertStmt rec c l fs) := by
  have hr' := fun t => hr c t hc
  unfold Color.assertStmt
  steps
  all_goals apply hr'

theorem raiseStmt_sim (l : Loc) (fs : Fields) :
    Sim S (Color.raiseStmt rec c.plain l fs) (Color.raiseStmt rec c l fs) := by
  have hr' := fun t => hr c t hc
  unfold Color.raiseStmt
  steps
  all_goals apply hr'

theorem tryStmt_sim (l : Loc) (b : Bool) (k : K) (fs : Fields) :
    Sim S (Color.tryStmt rec c.plain l b k fs) (Color.tryStmt rec c l b k fs) := by
  unfold Color.tryStmt
  refine Sim.same fun _ => Sim.bind (block_sim hr hc _) fun _ _ _ => Sim.same fun _ => ?_
  refine Sim.bind (Sim.concat _ fun _ => hr { c with modes := b :: c.modes } _ hc) fun _ _ _ => ?_
  steps
  all_goals first | apply block_sim hr hc | apply blockIf_sim hr hc

theorem exceptHandler_sim (l : Loc) (fs : Fields) :
    Sim S (Color.exceptHandler rec c.plain l fs) (Color.exceptHandler rec c l fs) := by
  have hr' := fun t => hr c t hc
  unfold Color.exceptHandler
  have e : c.plain.modes = c.modes := rfl
  rw [e]
  cases c.modes with
  | nil => exact Sim.error
  | cons star r =>
    dsimp only
    steps
    all_goals first | apply hr' | apply block_sim hr hc

theorem decorator_sim (d : Val) :
    Sim S (Color.decorator rec c.plain d) (Color.decorator rec c d) := by
  unfold Color.decorator
  refine Sim.bind (hr { c with nocolor := true } d hc) fun p t h => Sim.pure ?_
  rw [hc]
  have h1 : Painted S (S.set .decorator ++ t ++ S.clear) p := by
    have := Painted.run .decorator h (Painted.nil (S := S))
    simpa [Scheme.set, Scheme.clear] using this
  have h2 := (fill_painted hc (nodeLoc d) (paint_painted hc .decorator (lit "@"))).append h1
  simpa [Ctx.plain, List.append_assoc] using h2

theorem classDef_sim (l : Loc) (fs : Fields) :
    Sim S (Color.classDef rec c.plain l fs) (Color.classDef rec c l fs) := by
  have hr' := fun t => hr c t hc
  unfold Color.classDef
  refine Sim.same fun _ => Sim.bind (Sim.concat _ fun _ => decorator_sim hr hc _) fun _ _ _ => ?_
  refine Sim.same fun _ => Sim.bind (paintName_sim hc _ _) fun _ _ _ => ?_
  steps
  all_goals first | apply hr' | apply callArgs_sim hr hc | apply block_sim hr hc

theorem functionDef_sim (l : Loc) (w : String) (k : K) (fs : Fields) :
    Sim S (Color.functionDef rec c.plain l w k fs) (Color.functionDef rec c l w k fs) := by
  have hr' := fun t => hr c t hc
  unfold Color.functionDef
  refine Sim.same fun _ => Sim.bind (Sim.concat _ fun _ => decorator_sim hr hc _) fun _ _ _ => ?_
  refine Sim.same fun _ => Sim.bind (paintName_sim hc _ _) fun _ _ _ => ?_
  steps
  all_goals first | apply hr' | apply callArgs_sim hr hc | apply block_sim hr hc

theorem forStmt_sim (l : Loc) (w : String) (k : K) (fs : Fields) :
    Sim S (Color.forStmt rec c.plain l w k fs) (Color.forStmt rec c l w k fs) := by
  have hr' := fun t => hr c t hc
  unfold Color.forStmt
  steps
  all_goals first | apply hr' | apply block_sim hr hc | apply blockIf_sim hr hc

theorem whileStmt_sim (l : Loc) (fs : Fields) :
    Sim S (Color.whileStmt rec c.plain l fs) (Color.whileStmt rec c l fs) := by
  have hr' := fun t => hr c t hc
  unfold Color.whileStmt
  steps
  all_goals first | apply hr' | apply block_sim hr hc | apply blockIf_sim hr hc

theorem withStmt_sim (l : Loc) (w : String) (k : K) (fs : Fields) :
    Sim S (Color.withStmt rec c.plain l w k fs) (Color.withStmt rec c l w k fs) := by
  have hr' := fun t => hr c t hc
  unfold Color.withStmt
  steps
  all_goals first | apply hr' | apply block_sim hr hc | apply blockIf_sim hr hc

theorem matchStmt_sim (l : Loc) (fs : Fields) :
    Sim S (Color.matchStmt rec c.plain l fs) (Color.matchStmt rec c l fs) := by
  have hr' := fun t => hr c t hc
  unfold Color.matchStmt
  refine Sim.same fun _ => Sim.bind (hr' _) fun _ _ _ => Sim.same fun _ => ?_
  refine Sim.bind (Sim.concat _ fun _ => hr c.enter _ hc) fun _ _ _ => ?_
  steps

theorem matchCase_sim (l : Loc) (fs : Fields) :
    Sim S (Color.matchCase rec c.plain l fs) (Color.matchCase rec c l fs) := by
  have hr' := fun t => hr c t hc
  unfold Color.matchCase
  steps
  all_goals first | apply hr' | apply block_sim hr hc | apply blockIf_sim hr hc

theorem matchAs_sim (fs : Fields) :
    Sim S (Color.matchAs rec c.plain fs) (Color.matchAs rec c fs) := by
  have hr' := fun t => hr c t hc
  unfold Color.matchAs
  steps
  all_goals apply hr'

theorem typeAlias_sim (l : Loc) (fs : Fields) :
    Sim S (Color.typeAlias rec c.plain l fs) (Color.typeAlias rec c l fs) := by
  have hr' := fun t => hr c t hc
  unfold Color.typeAlias
  steps
  all_goals apply hr'

theorem ifStmt_sim (w : String) (n : Nat) (l : Loc) (fs : Fields) :
    Sim S (Color.ifStmt rec c.plain w n l fs) (Color.ifStmt rec c w n l fs) := by
  have hr' := fun t => hr c t hc
  induction n generalizing w l fs with
  | zero => exact Sim.error
  | succ n ih =>
    unfold Color.ifStmt
    refine Sim.same fun _ => Sim.bind (hr' _) fun _ _ _ => Sim.same fun _ => ?_
    refine Sim.bind (block_sim hr hc _) fun _ _ _ => Sim.same fun _ => ?_
    split
    · refine Sim.bind (ih _ _ _) fun _ _ _ => ?_
      steps
    · refine Sim.bind (blockIf_sim hr hc _ _ _) fun _ _ _ => ?_
      steps

theorem joined_sim (n : Nat) : (∀ v, Sim S (Color.joined rec c.plain n v) (Color.joined rec c n v)) ∧
    (∀ fs, Sim S (Color.joined.formatted rec c.plain n fs) (Color.joined.formatted rec c n fs)) := by
  have hr' := fun t => hr c t hc
  have hf : ∀ n, (∀ v, Sim S (Color.joined rec c.plain n v) (Color.joined rec c n v)) →
      ∀ fs, Sim S (Color.joined.formatted rec c.plain n fs) (Color.joined.formatted rec c n fs) := by
    intro n ih fs
    unfold Color.joined.formatted
    refine Sim.same fun _ => Sim.bind (hr' _) fun _ _ _ => Sim.same fun _ => ?_
    refine Sim.bind (conversion_sim hc _) fun _ _ _ => Sim.same fun _ => ?_
    steps
    apply ih
  induction n with
  | zero => exact ⟨fun _ => by unfold Color.joined; exact Sim.error, hf 0 fun _ => by unfold Color.joined; exact Sim.error⟩
  | succ n ih =>
    have h : ∀ v, Sim S (Color.joined rec c.plain (n + 1) v) (Color.joined rec c (n + 1) v) := by
      intro v
      unfold Color.joined
      refine Sim.same fun _ => Sim.same fun _ => Sim.concat _ fun v => ?_
      unfold Color.joined.piece
      split
      · exact Sim.same fun _ => snippet_sim hc _
      · exact ih.2 _
      · exact Sim.error
    exact ⟨h, hf _ h⟩

theorem joinedStr_sim (n : Nat) (t : Val) :
    Sim S (Color.joinedStr rec c.plain n t) (Color.joinedStr rec c n t) := by
  unfold Color.joinedStr
  steps
  exact (joined_sim hr hc n).1 _

theorem formattedValue_sim (n : Nat) (fs : Fields) :
    Sim S (Color.formattedValue rec c.plain n fs) (Color.formattedValue rec c n fs) := by
  unfold Color.formattedValue
  steps
  exact (joined_sim hr hc n).2 _

end

/-! ## The dispatcher -/

section
variable {rec : Color.Rec} (hr : ∀ (c : Color.Ctx) (t : Val), c.opts.color = some S → Sim S (rec c.plain t) (rec c t))
  (hc : c.opts.color = some S)
include hr hc

theorem method_sim (H : Host) (n : Nat) (t : Val) (l : Loc) (fs : Fields) (k : K) :
    Sim S (Color.method H rec n c.plain t l fs k) (Color.method H rec n c t l fs k) := by
  unfold Color.method
  split
  all_goals first
    | exact Sim.error
    | apply toplevel_sim hr hc
    | apply exprStmt_sim hr hc
    | (refine Sim.same fun _ => ?_; apply wordList_sim hr hc)
    | apply importFrom_sim hr hc
    | apply assign_sim hr hc
    | apply annAssign_sim hr hc
    | apply augAssign_sim hr hc
    | apply returnStmt_sim hr hc
    | exact Sim.ok (fill_painted hc _ (kw_painted hc _))
    | apply assertStmt_sim hr hc
    | (refine Sim.same fun _ => ?_; apply nameList_sim hc)
    | apply wordValue_sim hr hc
    | apply raiseStmt_sim hr hc
    | apply tryStmt_sim hr hc
    | apply exceptHandler_sim hr hc
    | apply classDef_sim hr hc
    | apply functionDef_sim hr hc
    | apply forStmt_sim hr hc
    | apply ifStmt_sim hr hc
    | apply whileStmt_sim hr hc
    | apply withStmt_sim hr hc
    | apply namedExpr_sim hr hc
    | apply constantText_sim hc
    | apply nameText_sim hc
    | (refine Sim.same fun _ => ?_; apply display_sim hr hc)
    | apply comp_sim hr hc
    | apply dictComp_sim hr hc
    | apply comprehension_sim hr hc
    | apply ifExp_sim hr hc
    | (refine Sim.same fun _ => Sim.ite Sim.error ?_; apply display_sim hr hc)
    | apply dict_sim hr hc
    | apply tuple_sim hr hc
    | apply unaryOp_sim hr hc
    | apply binOp_sim hr hc
    | apply compare_sim hr hc
    | apply boolOp_sim hr hc
    | apply attributeText_sim hr hc
    | apply call_sim hr hc
    | apply formattedValue_sim hr hc
    | apply joinedStr_sim hr hc
    | apply subscript_sim hr hc
    | apply starred_sim hr hc
    | apply slice_sim hr hc
    | apply argText_sim hr hc
    | apply arguments_sim hr hc
    | apply keyword_sim hr hc
    | apply lambda_sim hr hc
    | apply alias_sim hc
    | apply withitem_sim hr hc
    | apply matchStmt_sim hr hc
    | apply matchCase_sim hr hc
    | exact Sim.same fun _ => hr _ _ hc
    | apply matchSingleton_sim hc
    | apply matchStar_sim hc
    | apply matchMapping_sim hr hc
    | apply matchClass_sim hr hc
    | apply matchAs_sim hr hc
    | apply matchOr_sim hr hc
    | apply typeAlias_sim hr hc
    | apply typeVar_sim hr hc
    | exact Sim.refl _

theorem dispatchNode_sim (H : Host) (n : Nat) (t : Val) :
    Sim S (Color.dispatchNode H rec n c.plain t) (Color.dispatchNode H rec n c t) := by
  unfold Color.dispatchNode
  split
  · apply method_sim hr hc
  · apply astmarker_sim hr hc
  · exact Sim.concat _ fun _ => hr _ _ hc
  · exact Sim.error

end

theorem dispatch_sim (H : Host) (n : Nat) : ∀ (c : Color.Ctx) (t : Val), c.opts.color = some S →
    Sim S (Color.dispatch H n c.plain t) (Color.dispatch H n c t) := by
  induction n with
  | zero => exact fun _ _ _ => Sim.error
  | succ n ih =>
    intro c t hc
    unfold Color.dispatch
    have e : captured c.plain.opts t = captured c.opts t := rfl
    rw [e]
    refine Sim.same fun r => ?_
    split
    · exact Sim.pure (by unfold capturedValue; pieces)
    · exact Sim.pure (by unfold capturedMacro; pieces)
    · apply dispatchNode_sim ih hc

/-! ## Stripping -/

theorem dropWhile_split (f : Char → Bool) : ∀ s : Str, ∃ w, s = w ++ s.dropWhile f ∧ (∀ x ∈ w, f x = true) ∧
    (∀ x r, s.dropWhile f = x :: r → f x = false)
  | [] => ⟨[], rfl, by simp, by simp⟩
  | c :: s => by
    cases h : f c with
    | true =>
      obtain ⟨w, h1, h2, h3⟩ := dropWhile_split f s
      have e : (c :: s).dropWhile f = s.dropWhile f := by rw [List.dropWhile_cons, h]; rfl
      rw [e]
      refine ⟨c :: w, by rw [List.cons_append, ← h1], ?_, h3⟩
      intro x hx
      cases hx with
      | head => exact h
      | tail _ hx => exact h2 x hx
    | false =>
      have e : (c :: s).dropWhile f = c :: s := by rw [List.dropWhile_cons, h]; rfl
      rw [e]
      refine ⟨[], rfl, by simp, ?_⟩
      intro x r hx
      cases hx
      exact h

theorem dropWhile_append_all (f : Char → Bool) (w s : Str) (h : ∀ x ∈ w, f x = true) :
    (w ++ s).dropWhile f = s.dropWhile f := by
  induction w with
  | nil => rfl
  | cons c w ih =>
    rw [List.cons_append, List.dropWhile_cons, h c List.mem_cons_self]
    exact ih fun x hx => h x (List.mem_cons_of_mem _ hx)

/-- White space in front. -/
theorem Painted.dropFirst (hS : Solid S) {t p : Str} (h : Painted S t p) (x : Char) (r : Str) (hx : Dialects.isSpace x = true)
    (e : t = x :: r) : ∃ q, p = x :: q ∧ Painted S r q := by
  cases h with
  | nil => cases e
  | char c h => cases e; exact ⟨_, rfl, h⟩
  | run k h1 h2 =>
    exfalso
    cases hr : S.reset with
    | nil => exact hS.ne hr
    | cons y z =>
      have := hS.first _ _ hr
      rw [hr] at e
      simp only [List.cons_append, List.cons.injEq] at e
      rw [e.1, hx] at this
      cases this

theorem Painted.dropSpace (hS : Solid S) (w : Str) (hw : ∀ x ∈ w, Dialects.isSpace x = true) : ∀ {t p : Str},
    Painted S (w ++ t) p → ∃ q, p = w ++ q ∧ Painted S t q := by
  induction w with
  | nil => exact fun h => ⟨_, rfl, h⟩
  | cons x w ih =>
    intro t p h
    obtain ⟨q, rfl, h'⟩ := h.dropFirst hS x _ (hw x List.mem_cons_self) rfl
    obtain ⟨q', rfl, h''⟩ := ih (fun x hx => hw x (List.mem_cons_of_mem _ hx)) h'
    exact ⟨q', rfl, h''⟩

/-- White space at the end. -/
theorem Painted.dropLast (hS : Solid S) {t p : Str} (h : Painted S t p) : ∀ (x : Char) (r : Str),
    Dialects.isSpace x = true → t = r ++ [x] → ∃ q, p = q ++ [x] ∧ Painted S r q := by
  induction h with
  | nil => intro x r _ e; simp at e
  | @char c t p h ih =>
    intro x r hx e
    cases r with
    | nil =>
      simp only [List.nil_append, List.cons.injEq] at e
      obtain ⟨rfl, rfl⟩ := e
      cases p with
      | nil => exact ⟨[], rfl, .nil⟩
      | cons d p =>
        exfalso
        generalize ht : ([] : Str) = t at h
        generalize hp : d :: p = q at h
        cases h with
        | nil => cases hp
        | char => cases ht
        | run k h1 h2 =>
          have := congrArg List.length ht
          have hne := hS.ne
          cases hr : S.reset with
          | nil => exact hne hr
          | cons y z => rw [hr] at this; simp at this
    | cons c' r =>
      simp only [List.cons_append, List.cons.injEq] at e
      obtain ⟨rfl, e⟩ := e
      obtain ⟨q, rfl, h'⟩ := ih x r hx e
      exact ⟨_, rfl, .char _ h'⟩
  | @run k y p t q h1 h2 _ ih =>
    intro x r hx e
    rcases List.eq_nil_or_concat t with rfl | ⟨t', z, rfl⟩
    · exfalso
      rcases List.eq_nil_or_concat S.reset with h | ⟨r', z, h⟩
      · exact hS.ne h
      · rw [List.concat_eq_append] at h
        have hz := hS.last z r' h
        rw [List.append_nil, h, ← List.append_assoc] at e
        have := (List.append_inj' e rfl).2
        cases this
        rw [hx] at hz
        cases hz
    · rw [List.concat_eq_append] at e ih h2
      rw [← List.append_assoc] at e
      obtain ⟨e1, e2⟩ := List.append_inj' e rfl
      cases e2
      obtain ⟨q', rfl, h'⟩ := ih _ t' hx rfl
      refine ⟨p ++ q', by simp, ?_⟩
      rw [← e1]
      exact .run k h1 h'

theorem Painted.dropSpaceEnd (hS : Solid S) (n : Nat) : ∀ (w : Str), w.length = n →
    (∀ x ∈ w, Dialects.isSpace x = true) → ∀ {t p : Str},
    Painted S (t ++ w) p → ∃ q, p = q ++ w ∧ Painted S t q := by
  induction n with
  | zero =>
    intro w e _ t p h
    cases w with
    | nil => exact ⟨p, by simp, by simpa using h⟩
    | cons => cases e
  | succ n ih =>
    intro w e hw t p h
    rcases List.eq_nil_or_concat w with rfl | ⟨w', x, rfl⟩
    · cases e
    · rw [List.concat_eq_append] at *
      rw [← List.append_assoc] at h
      obtain ⟨q, rfl, h'⟩ := h.dropLast hS x _ (hw x (by simp)) rfl
      obtain ⟨q', rfl, h''⟩ := ih w' (by simpa using e) (fun x hx => hw x (by simp [hx])) h'
      exact ⟨q', by simp, h''⟩

theorem strip_all (w s w' : Str) (h : ∀ x ∈ w, Dialects.isSpace x = true) (h' : ∀ x ∈ w', Dialects.isSpace x = true) :
    Dialects.strip (w ++ s ++ w') = Dialects.strip s := by
  have e1 : ∀ s : Str, Dialects.strip (w ++ s) = Dialects.strip s := fun s => by
    unfold Dialects.strip
    rw [dropWhile_append_all _ _ _ h]
  have e2 : Dialects.strip (s ++ w') = Dialects.strip s := by
    unfold Dialects.strip
    obtain ⟨v, h1, h2, h3⟩ := dropWhile_split Dialects.isSpace s
    cases hd : s.dropWhile Dialects.isSpace with
    | nil =>
      rw [hd, List.append_nil] at h1
      have : (s ++ w').dropWhile Dialects.isSpace = [] := by
        rw [h1]
        have := dropWhile_append_all Dialects.isSpace (v ++ w') [] (by
          intro x hx
          rcases List.mem_append.1 hx with hx | hx
          · exact h2 x hx
          · exact h' x hx)
        simpa using this
      rw [this]
    | cons y z =>
      have : (s ++ w').dropWhile Dialects.isSpace = (y :: z) ++ w' := by
        rw [h1, hd, List.append_assoc, dropWhile_append_all _ _ _ h2, List.cons_append, List.dropWhile_cons, h3 y z hd]
        rfl
      rw [this, List.reverse_append, dropWhile_append_all]
      intro x hx
      exact h' x (List.mem_reverse.1 hx)
  rw [List.append_assoc, e1, e2]

theorem Painted.strip (hS : Solid S) {t p : Str} (h : Painted S t p) :
    ∃ q, Painted S (Dialects.strip t) q ∧ Dialects.strip q = Dialects.strip p := by
  obtain ⟨w, h1, h2, _⟩ := dropWhile_split Dialects.isSpace t
  obtain ⟨w', h3, h4, _⟩ := dropWhile_split Dialects.isSpace (t.dropWhile Dialects.isSpace).reverse
  have e : t.dropWhile Dialects.isSpace = Dialects.strip t ++ w'.reverse := by
    have := congrArg List.reverse h3
    rw [List.reverse_reverse, List.reverse_append] at this
    exact this
  rw [h1] at h
  obtain ⟨q, hq, h5⟩ := h.dropSpace hS w h2
  rw [e] at h5
  have hw' : ∀ x ∈ w'.reverse, Dialects.isSpace x = true := fun x hx => h4 x (List.mem_reverse.1 hx)
  obtain ⟨q', rfl, h6⟩ := h5.dropSpaceEnd hS _ w'.reverse rfl hw'
  refine ⟨q', h6, ?_⟩
  rw [hq, ← List.append_assoc, strip_all _ _ _ h2 hw']

theorem unparse_sim (hS : Solid S) (H : Host) (o : Opts) (ho : o.color = some S) (limit : Nat) (t : Val) {p : Str}
    (h : Color.unparse H { o with color := none } limit t = .ok p) :
    ∃ s q, Color.unparse H o limit t = .ok s ∧ Painted S s q ∧ Dialects.strip q = p := by
  unfold Color.unparse at h ⊢
  have hs : Sim S (Color.dispatchAny (Color.dispatch H limit) { opts := { o with color := none } } t)
      (Color.dispatchAny (Color.dispatch H limit) { opts := o } t) :=
    dispatchAny_sim (c := { opts := o }) (fun c t hc => dispatch_sim H limit c t hc) ho t
  cases hp : Color.dispatchAny (Color.dispatch H limit) { opts := { o with color := none } } t with
  | error e => rw [hp] at h; cases h
  | ok x =>
    rw [hp] at h
    cases h
    obtain ⟨s, h1, h2⟩ := hs x hp
    rw [h1]
    obtain ⟨q, h3, h4⟩ := (h2.append (.same (lit "\n"))).strip hS
    exact ⟨_, q, rfl, h3, h4⟩

end Mcpyrate
