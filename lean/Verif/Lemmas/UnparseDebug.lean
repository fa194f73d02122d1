import Verif.Spec.UnparseDebug
import Verif.Lemmas.UnparseColorOff
/-
Helper lemmas for C69: the debug mode.
-/
namespace Mcpyrate
open Py Unparse Unparse.Color

namespace Annotated
variable {cap : Str → Str → Prop}

theorem same : ∀ x : Str, Annotated cap x x
  | [] => .nil
  | c :: r => .char c (same r)

theorem append {t p t' p' : Str} (h : Annotated cap t p) (h' : Annotated cap t' p') :
    Annotated cap (t ++ t') (p ++ p') := by
  induction h with
  | nil => exact h'
  | char c _ ih => exact .char c ih
  | line l i j _ ih => simpa [List.append_assoc] using Annotated.line l i j ih
  | indent i j _ ih => simpa [List.append_assoc] using Annotated.indent i j ih
  | expr l i j _ ih => simpa [List.append_assoc] using Annotated.expr l i j ih
  | top l i hn _ ih => simpa [List.append_assoc] using Annotated.top l i hn ih
  | @captured x q d p hx _ ih => simpa [List.append_assoc] using Annotated.captured (q := q) hx ih

theorem ite {c : Prop} [Decidable c] {t p t' p' : Str} (h : Annotated cap t p) (h' : Annotated cap t' p') :
    Annotated cap (if c then t else t') (if c then p else p') := by
  split <;> assumption

end Annotated

/-- The list of texts, text by text. -/
inductive AnnotatedL (cap : Str → Str → Prop) : List Str → List Str → Prop
  | nil : AnnotatedL cap [] []
  | cons {t p : Str} {ts ps : List Str} : Annotated cap t p → AnnotatedL cap ts ps → AnnotatedL cap (t :: ts) (p :: ps)

/-- If the first has a text, so does the second, and it is the same with annotations. -/
def Dbg (cap : Str → Str → Prop) (a b : R) : Prop := ∀ p, a = .ok p → ∃ t, b = .ok t ∧ Annotated cap t p

def DbgL (cap : Str → Str → Prop) (a b : Except Err (List Str)) : Prop := ∀ p, a = .ok p → ∃ t, b = .ok t ∧ AnnotatedL cap t p

variable {cap : Str → Str → Prop}

theorem AnnotatedL.append {ts ps ts' ps' : List Str} (h : AnnotatedL cap ts ps) (h' : AnnotatedL cap ts' ps') :
    AnnotatedL cap (ts ++ ts') (ps ++ ps') := by
  induction h with
  | nil => exact h'
  | cons h1 _ ih => exact .cons h1 ih

theorem AnnotatedL.same : ∀ xs : List Str, AnnotatedL cap xs xs
  | [] => .nil
  | x :: r => .cons (.same x) (same r)

theorem AnnotatedL.isEmpty {ts ps : List Str} (h : AnnotatedL cap ts ps) : ts.isEmpty = ps.isEmpty := by
  cases h <;> rfl

theorem AnnotatedL.flatten {ts ps : List Str} (h : AnnotatedL cap ts ps) : Annotated cap ts.flatten ps.flatten := by
  induction h with
  | nil => exact .nil
  | cons h1 _ ih => exact h1.append ih

theorem AnnotatedL.interleave {ts ps : List Str} {s s' : Str} (hs : Annotated cap s s') (h : AnnotatedL cap ts ps) :
    Annotated cap (Unparse.interleave s ts) (Unparse.interleave s' ps) := by
  induction h with
  | nil => exact .nil
  | cons h1 h2 ih =>
    cases h2 with
    | nil => exact h1
    | cons h3 h4 => exact (h1.append hs).append ih

namespace Dbg

theorem pure {t p : Str} (h : Annotated cap t p) : Dbg cap (Pure.pure p) (Pure.pure t) := by
  intro p' e
  cases e
  exact ⟨t, rfl, h⟩

theorem ok {t p : Str} (h : Annotated cap t p) : Dbg cap (.ok p) (.ok t) := Dbg.pure h

theorem error {e : Err} {b : R} : Dbg cap (.error e) b := by
  intro p h
  cases h

theorem refl (a : R) : Dbg cap a a := fun p h => ⟨p, h, .same p⟩

theorem same {α : Type} {x : Except Err α} {f g : α → R} (h : ∀ v, Dbg cap (f v) (g v)) :
    Dbg cap (x >>= f) (x >>= g) := by
  cases x with
  | error e => exact Dbg.error
  | ok v => exact h v

theorem bind {a b : R} {f g : Str → R} (h : Dbg cap a b) (hf : ∀ p t, Annotated cap t p → Dbg cap (f p) (g t)) :
    Dbg cap (a >>= f) (b >>= g) := by
  cases a with
  | error e => exact Dbg.error
  | ok p =>
    obtain ⟨t, rfl, ht⟩ := h p rfl
    exact hf p t ht

theorem bindL {a b : Except Err (List Str)} {f g : List Str → R} (h : DbgL cap a b)
    (hf : ∀ p t, AnnotatedL cap t p → Dbg cap (f p) (g t)) : Dbg cap (a >>= f) (b >>= g) := by
  cases a with
  | error e => exact Dbg.error
  | ok p =>
    obtain ⟨t, rfl, ht⟩ := h p rfl
    exact hf p t ht

theorem ite {c : Prop} [Decidable c] {a b a' b' : R} (h : Dbg cap a b) (h' : Dbg cap a' b') :
    Dbg cap (if c then a else a') (if c then b else b') := by
  split <;> assumption

end Dbg

theorem DbgL.same {α : Type} {x : Except Err α} {f g : α → Except Err (List Str)} (h : ∀ v, DbgL cap (f v) (g v)) :
    DbgL cap (x >>= f) (x >>= g) := by
  cases x with
  | error e => intro p h; cases h
  | ok v => exact h v

theorem DbgL.bind {a b : R} {f g : Str → Except Err (List Str)} (h : Dbg cap a b)
    (hf : ∀ p t, Annotated cap t p → DbgL cap (f p) (g t)) : DbgL cap (a >>= f) (b >>= g) := by
  cases a with
  | error e => intro p h; cases h
  | ok p =>
    obtain ⟨t, rfl, ht⟩ := h p rfl
    exact hf p t ht

theorem DbgL.pure {t p : List Str} (h : AnnotatedL cap t p) : DbgL cap (Pure.pure p) (Pure.pure t) := by
  intro p' e
  cases e
  exact ⟨t, rfl, h⟩

theorem DbgL.refl (a : Except Err (List Str)) : DbgL cap a a := fun p h => ⟨p, h, .same p⟩

theorem DbgL.ite {c : Prop} [Decidable c] {a b a' b' : Except Err (List Str)} (h : DbgL cap a b) (h' : DbgL cap a' b') :
    DbgL cap (if c then a else a') (if c then b else b') := by
  split <;> assumption

theorem DbgL.texts {α : Type} {f g : α → R} (xs : List α) (h : ∀ x, Dbg cap (f x) (g x)) :
    DbgL cap (Unparse.texts f xs) (Unparse.texts g xs) := by
  induction xs with
  | nil => exact DbgL.pure .nil
  | cons x xs ih =>
    refine DbgL.bind (h x) fun p t ht => ?_
    intro ps e
    cases hx : Unparse.texts f xs with
    | error e' => rw [hx] at e; cases e
    | ok qs =>
      rw [hx] at e
      cases e
      obtain ⟨ts, h1, h2⟩ := ih qs hx
      rw [h1]
      exact ⟨t :: ts, rfl, .cons ht h2⟩

theorem Dbg.concat {α : Type} {f g : α → R} (xs : List α) (h : ∀ x, Dbg cap (f x) (g x)) :
    Dbg cap (Unparse.concat f xs) (Unparse.concat g xs) :=
  Dbg.bindL (DbgL.texts xs h) fun _ _ h => Dbg.pure h.flatten

theorem Dbg.opt {f g : Val → R} (v : Val) (h : ∀ v, Dbg cap (f v) (g v)) : Dbg cap (Unparse.opt v f) (Unparse.opt v g) :=
  Dbg.ite (h v) (Dbg.refl _)

/-! ## The pieces -/

/-- The same context, without debug mode, and with any indentation. -/
structure Without (H₀ : Host) (cap : Str → Str → Prop) (c c' : Color.Ctx) : Prop where
  color : c.opts.color = none
  opts : c'.opts = { c.opts with debug := false }
  debug : c.opts.debug = true
  modes : c'.modes = c.modes
  value : ∀ t, ∃ r, c.opts.capturedValue t = .ok r ∧ ∀ x, r = some x → ∀ n d q, Unparse.dispatch H₀ n d t = .ok q → cap x q
  mac : ∀ t, ∃ r, c.opts.capturedMacro t = .ok r ∧ ∀ x, r = some x → ∀ n d q, Unparse.dispatch H₀ n d t = .ok q → cap x q

variable {c c' : Color.Ctx} {H₀ : Host}

theorem Without.enter (h : Without H₀ cap c c') : Without H₀ cap c.enter c'.enter := ⟨h.1, h.2, h.3, h.4, h.5, h.6⟩

theorem Without.off (h : Without H₀ cap c c') : c'.opts.color = none := by rw [h.opts]; exact h.color

theorem paint_none (h : c.opts.color = none) (p : Paint) (x : Str) : paint c p x = x := by
  have : c.scheme = none := by unfold Ctx.scheme; rw [h, ite_self]
  unfold paint
  rw [this]

theorem paint_annotated (hc : Without H₀ cap c c') (p : Paint) (x : Str) : Annotated cap (paint c p x) (paint c' p x) := by
  rw [paint_none hc.color, paint_none hc.off]
  exact .same x

theorem kw_annotated (hc : Without H₀ cap c c') (x : String) : Annotated cap (kw c x) (kw c' x) := paint_annotated hc ..

theorem label_eq (hc : c.opts.color = none) (l : Loc) : label c l = lineLabel (lineOf l) := by
  unfold label lineOf lineLabel
  rw [paint_none hc]
  cases l.lineno with
  | int n =>
    dsimp only
    by_cases h : n = 0
    · rw [if_pos h, if_pos h]
    · rw [if_neg h, if_neg h]
      rfl
  | _ => rfl

theorem fill_debug (hc : Without H₀ cap c c') (l : Loc) (x : Str) :
    Color.fill c (some l) x = '\n' :: (lineLabel (lineOf l) ++ List.replicate (4 * c.indent) ' ' ++ x) := by
  unfold Color.fill
  rw [hc.debug, if_pos rfl]
  dsimp only
  rw [label_eq hc.color]
  simp [List.append_assoc]

theorem fill_without (hc : Without H₀ cap c c') (l : Option Loc) (x : Str) :
    Color.fill c' l x = '\n' :: (List.replicate (4 * c'.indent) ' ' ++ x) := by
  unfold Color.fill
  rw [hc.opts]
  rfl

theorem fill_annotated (hc : Without H₀ cap c c') (l : Option Loc) {x p : Str} (h : Annotated cap x p) :
    Annotated cap (Color.fill c l x) (Color.fill c' l p) := by
  cases l with
  | none =>
    rw [fill_without hc]
    have : Color.fill c none x = '\n' :: (List.replicate (4 * c.indent) ' ' ++ x) := by
      unfold Color.fill
      rw [ite_self]
      rfl
    rw [this]
    exact .indent _ _ h
  | some l =>
    rw [fill_debug hc, fill_without hc]
    exact .line _ _ _ h

theorem Without.deeper (h : Without H₀ cap c c') : Without H₀ cap c.enter c' := ⟨h.1, h.2, h.3, h.4, h.5, h.6⟩

theorem Without.nocolor (h : Without H₀ cap c c') : Without H₀ cap { c with nocolor := true } { c' with nocolor := true } :=
  ⟨h.1, h.2, h.3, h.4, h.5, h.6⟩

theorem Without.push (h : Without H₀ cap c c') {b : Bool} :
    Without H₀ cap { c with modes := b :: c.modes } { c' with modes := b :: c'.modes } :=
  ⟨h.1, h.2, h.3, congrArg (b :: ·) h.4, h.5, h.6⟩

theorem expr_lit : lit "$Expr: " = lit "$Expr" ++ lit ": " := by decide +kernel
theorem h_lit : lit "$h[" = lit "$h" ++ lit "[" := by decide +kernel

/-- An annotated text, put together from its parts. -/
macro "parts" : tactic => `(tactic| repeat' first
  | assumption
  | exact Annotated.nil
  | exact Annotated.same _
  | exact paint_annotated (by assumption) _ _
  | exact kw_annotated (by assumption) _
  | apply fill_annotated (by assumption)
  | apply AnnotatedL.interleave
  | apply AnnotatedL.append
  | apply Annotated.append
  | apply Annotated.char
  | apply Annotated.ite
  | exact AnnotatedL.same _)

/-- One method, step by step. -/
macro "moves" : tactic => `(tactic| repeat' first
  | assumption
  | (with_reducible exact Dbg.refl _)
  | (with_reducible exact DbgL.refl _)
  | exact Dbg.error
  | (apply Dbg.pure; (try parts; done))
  | (apply Dbg.ok; (try parts; done))
  | (apply DbgL.pure; (try parts; done))
  | (refine Dbg.opt _ fun _ => ?_)
  | (refine Dbg.concat _ fun _ => ?_)
  | (refine DbgL.texts _ fun _ => ?_)
  | (with_reducible apply Dbg.ite)
  | (with_reducible apply DbgL.ite)
  | (with_reducible refine Dbg.same fun _ => ?_)
  | (with_reducible refine Dbg.bindL ?_ fun _ _ _ => ?_)
  | (with_reducible refine Dbg.bind ?_ fun _ _ _ => ?_)
  | (with_reducible refine DbgL.same fun _ => ?_)
  | (with_reducible refine DbgL.bind ?_ fun _ _ _ => ?_))

section
variable (hc : Without H₀ cap c c')
include hc

theorem constantText_dbg (H : Host) (fs : Fields) :
    Dbg cap (Color.constantText H c' fs) (Color.constantText H c fs) := by
  unfold Color.constantText
  refine Dbg.same fun _ => Dbg.same fun v => ?_
  dsimp only
  split <;> moves

theorem nameText_dbg (fs : Fields) :
    Dbg cap (Color.nameText c' fs) (Color.nameText c fs) := by
  unfold Color.nameText
  rw [hc.opts]
  refine Dbg.same fun _ => Dbg.same fun x => ?_
  exact Dbg.ite (by moves) (Dbg.ite (by moves) (Dbg.ite (by moves) (by moves)))

theorem paintName_dbg (p : Paint) (v : Val) :
    Dbg cap (Color.paintName c' p v) (Color.paintName c p v) := by
  unfold Color.paintName
  have e : ∀ c : Color.Ctx, c.opts.color = none → c.scheme = none := fun c h => by unfold Ctx.scheme; rw [h, ite_self]
  rw [e c hc.color, e c' hc.off]
  exact Dbg.refl _

theorem conversion_dbg (v : Val) :
    Dbg cap (Color.conversion c' v) (Color.conversion c v) := by
  unfold Color.conversion
  split <;> moves

theorem snippet_dbg (v : Val) :
    Dbg cap (Color.snippet c' v) (Color.snippet c v) := by
  unfold Color.snippet
  split <;> moves

theorem alias_dbg (fs : Fields) :
    Dbg cap (Color.alias c' fs) (Color.alias c fs) := by
  unfold Color.alias
  moves

theorem nameList_dbg (l : Loc) (w : String) (xs : List Val) :
    Dbg cap (Color.nameList c' l w xs) (Color.nameList c l w xs) := by
  unfold Color.nameList
  moves

theorem matchSingleton_dbg (H : Host) (fs : Fields) :
    Dbg cap (Color.matchSingleton H c' fs) (Color.matchSingleton H c fs) := by
  unfold Color.matchSingleton
  refine Dbg.same fun v => ?_
  split <;> moves

theorem matchStar_dbg (fs : Fields) :
    Dbg cap (Color.matchStar c' fs) (Color.matchStar c fs) := by
  unfold Color.matchStar
  moves

end

section
variable {rec : Color.Rec} (hr : ∀ (c c' : Color.Ctx) (t : Val), Without H₀ cap c c' → Dbg cap (rec c' t) (rec c t))
  (hc : Without H₀ cap c c')
include hr hc

theorem namedExpr_dbg (fs : Fields) :
    Dbg cap (Unparse.namedExpr (at_ rec c') {} fs) (Unparse.namedExpr (at_ rec c) {} fs) := by
  have hr' := fun t => hr c c' t hc
  unfold Unparse.namedExpr
  moves
  all_goals apply hr'

theorem display_dbg (o cl : String) (es : List Val) :
    Dbg cap (Unparse.display (at_ rec c') {} o cl es) (Unparse.display (at_ rec c) {} o cl es) := by
  have hr' := fun t => hr c c' t hc
  unfold Unparse.display
  moves
  all_goals apply hr'

theorem comp_dbg (k : K) (o cl : String) (fs : Fields) :
    Dbg cap (Unparse.comp (at_ rec c') {} k o cl fs) (Unparse.comp (at_ rec c) {} k o cl fs) := by
  have hr' := fun t => hr c c' t hc
  unfold Unparse.comp
  moves
  all_goals apply hr'

theorem dictComp_dbg (fs : Fields) :
    Dbg cap (Unparse.dictComp (at_ rec c') {} fs) (Unparse.dictComp (at_ rec c) {} fs) := by
  have hr' := fun t => hr c c' t hc
  unfold Unparse.dictComp
  moves
  all_goals apply hr'

theorem pair_dbg (p : Val × Val) :
    Dbg cap (Unparse.pair (at_ rec c') {} p) (Unparse.pair (at_ rec c) {} p) := by
  have hr' := fun t => hr c c' t hc
  unfold Unparse.pair
  moves
  all_goals apply hr'

theorem dict_dbg (fs : Fields) :
    Dbg cap (Unparse.dict (at_ rec c') {} fs) (Unparse.dict (at_ rec c) {} fs) := by
  unfold Unparse.dict
  moves
  all_goals apply pair_dbg hr hc

theorem tupleItems_dbg (fs : Fields) :
    Dbg cap (Unparse.tupleItems (at_ rec c') {} fs) (Unparse.tupleItems (at_ rec c) {} fs) := by
  have hr' := fun t => hr c c' t hc
  unfold Unparse.tupleItems
  moves
  split <;> moves
  all_goals apply hr'

theorem tuple_dbg (fs : Fields) :
    Dbg cap (Unparse.tuple (at_ rec c') {} fs) (Unparse.tuple (at_ rec c) {} fs) := by
  unfold Unparse.tuple
  moves
  all_goals apply tupleItems_dbg hr hc

theorem binOp_dbg (fs : Fields) :
    Dbg cap (Unparse.binOp (at_ rec c') {} fs) (Unparse.binOp (at_ rec c) {} fs) := by
  have hr' := fun t => hr c c' t hc
  unfold Unparse.binOp
  moves
  all_goals apply hr'

theorem attributeText_dbg (fs : Fields) :
    Dbg cap (Unparse.attributeText (at_ rec c') {} fs) (Unparse.attributeText (at_ rec c) {} fs) := by
  have hr' := fun t => hr c c' t hc
  unfold Unparse.attributeText
  moves
  all_goals apply hr'

theorem callArgs_dbg (xs ys : List Val) :
    Dbg cap (Unparse.callArgs (at_ rec c') {} xs ys) (Unparse.callArgs (at_ rec c) {} xs ys) := by
  have hr' := fun t => hr c c' t hc
  unfold Unparse.callArgs
  moves
  all_goals apply hr'

theorem call_dbg (fs : Fields) :
    Dbg cap (Unparse.call (at_ rec c') {} fs) (Unparse.call (at_ rec c) {} fs) := by
  have hr' := fun t => hr c c' t hc
  unfold Unparse.call
  moves
  all_goals first | apply hr' | apply callArgs_dbg hr hc

theorem subscript_dbg (fs : Fields) :
    Dbg cap (Unparse.subscript (at_ rec c') {} fs) (Unparse.subscript (at_ rec c) {} fs) := by
  have hr' := fun t => hr c c' t hc
  unfold Unparse.subscript
  moves
  all_goals first | apply hr' | skip
  all_goals (split <;> moves)
  all_goals first | apply hr' | apply tupleItems_dbg hr hc

theorem starred_dbg (fs : Fields) :
    Dbg cap (Unparse.starred (at_ rec c') {} fs) (Unparse.starred (at_ rec c) {} fs) := by
  have hr' := fun t => hr c c' t hc
  unfold Unparse.starred
  moves
  all_goals apply hr'

theorem slice_dbg (fs : Fields) :
    Dbg cap (Unparse.slice (at_ rec c') {} fs) (Unparse.slice (at_ rec c) {} fs) := by
  have hr' := fun t => hr c c' t hc
  unfold Unparse.slice
  moves
  all_goals apply hr'

theorem annotation_dbg (v : Val) :
    Dbg cap (Unparse.annotation (at_ rec c') {} v) (Unparse.annotation (at_ rec c) {} v) := by
  have hr' := fun t => hr c c' t hc
  unfold Unparse.annotation
  moves
  all_goals apply hr'

theorem argText_dbg (fs : Fields) :
    Dbg cap (Unparse.argText (at_ rec c') {} fs) (Unparse.argText (at_ rec c) {} fs) := by
  have hr' := fun t => hr c c' t hc
  unfold Unparse.argText
  moves
  all_goals first | apply hr' | apply annotation_dbg hr hc

theorem starArg_dbg (v : Val) :
    Dbg cap (Unparse.starArg (at_ rec c') {} v) (Unparse.starArg (at_ rec c) {} v) := by
  unfold Unparse.starArg
  split <;> moves
  all_goals apply argText_dbg hr hc

theorem argDefault_dbg (p : Val × Val) :
    Dbg cap (Unparse.argDefault (at_ rec c') {} p) (Unparse.argDefault (at_ rec c) {} p) := by
  have hr' := fun t => hr c c' t hc
  unfold Unparse.argDefault
  moves
  all_goals apply hr'

theorem starItem_dbg (v w : Val) :
    DbgL cap (Unparse.starItem (at_ rec c') {} v w) (Unparse.starItem (at_ rec c) {} v w) := by
  unfold Unparse.starItem
  moves
  · exact starArg_dbg hr hc _
  · exact .cons (.append (.same _) (by assumption)) .nil

theorem kwonlyItems_dbg (v : Val) (fs : Fields) :
    DbgL cap (Unparse.kwonlyItems (at_ rec c') {} v fs) (Unparse.kwonlyItems (at_ rec c) {} v fs) := by
  unfold Unparse.kwonlyItems
  moves
  all_goals apply argDefault_dbg hr hc

theorem doubleItem_dbg (v : Val) :
    DbgL cap (Unparse.doubleItem (at_ rec c') {} v) (Unparse.doubleItem (at_ rec c) {} v) := by
  unfold Unparse.doubleItem
  moves
  · exact starArg_dbg hr hc _
  · exact .cons (.append (.same _) (by assumption)) .nil

theorem arguments_dbg (fs : Fields) :
    Dbg cap (Unparse.arguments (at_ rec c') {} fs) (Unparse.arguments (at_ rec c) {} fs) := by
  unfold Unparse.arguments
  refine Dbg.same fun args => ?_
  have rest : ∀ posonly : List Val, Dbg cap
      (do
        let defaults ← attrL .arguments fs .defaults
        let padded := List.replicate (args.length + posonly.length - defaults.length) Val.none ++ defaults
        let xs ← texts (argDefault (at_ rec c') {}) (posonly.zip (padded.take posonly.length))
        let ys ← texts (argDefault (at_ rec c') {}) (args.zip (padded.drop posonly.length))
        let vararg ← attr .arguments fs .vararg
        let kwonly ← attr .arguments fs .kwonlyargs
        let star ← starItem (at_ rec c') {} vararg kwonly
        let zs ← kwonlyItems (at_ rec c') {} kwonly fs
        let ws ← doubleItem (at_ rec c') {} (← attr .arguments fs .kwarg)
        return interleave (lit ", ") (xs ++ (if xs.isEmpty then [] else [lit "/"]) ++ ys ++ star ++ zs ++ ws))
      (do
        let defaults ← attrL .arguments fs .defaults
        let padded := List.replicate (args.length + posonly.length - defaults.length) Val.none ++ defaults
        let xs ← texts (argDefault (at_ rec c) {}) (posonly.zip (padded.take posonly.length))
        let ys ← texts (argDefault (at_ rec c) {}) (args.zip (padded.drop posonly.length))
        let vararg ← attr .arguments fs .vararg
        let kwonly ← attr .arguments fs .kwonlyargs
        let star ← starItem (at_ rec c) {} vararg kwonly
        let zs ← kwonlyItems (at_ rec c) {} kwonly fs
        let ws ← doubleItem (at_ rec c) {} (← attr .arguments fs .kwarg)
        return interleave (lit ", ") (xs ++ (if xs.isEmpty then [] else [lit "/"]) ++ ys ++ star ++ zs ++ ws)) := by
    intro posonly
    refine Dbg.same fun defaults => ?_
    refine Dbg.bindL (DbgL.texts _ fun _ => argDefault_dbg hr hc _) fun xs xs' h1 => ?_
    refine Dbg.bindL (DbgL.texts _ fun _ => argDefault_dbg hr hc _) fun ys ys' h2 => ?_
    refine Dbg.same fun vararg => Dbg.same fun kwonly => ?_
    refine Dbg.bindL (starItem_dbg hr hc _ _) fun _ _ h3 => ?_
    refine Dbg.bindL (kwonlyItems_dbg hr hc _ _) fun _ _ h4 => Dbg.same fun _ => ?_
    refine Dbg.bindL (doubleItem_dbg hr hc _) fun _ _ h5 => Dbg.pure ?_
    rw [h1.isEmpty]
    exact AnnotatedL.interleave (.same _) ((((h1.append (.same _)).append h2).append h3).append h4 |>.append h5)
  dsimp only
  split
  · exact Dbg.same rest
  · exact rest []

theorem keyword_dbg (fs : Fields) :
    Dbg cap (Unparse.keyword (at_ rec c') {} fs) (Unparse.keyword (at_ rec c) {} fs) := by
  have hr' := fun t => hr c c' t hc
  unfold Unparse.keyword
  moves
  all_goals apply hr'

theorem matchMapping_dbg (fs : Fields) :
    Dbg cap (Unparse.matchMapping (at_ rec c') {} fs) (Unparse.matchMapping (at_ rec c) {} fs) := by
  unfold Unparse.matchMapping
  moves
  all_goals apply pair_dbg hr hc

theorem kwdPattern_dbg (p : Val × Val) :
    Dbg cap (Unparse.kwdPattern (at_ rec c') {} p) (Unparse.kwdPattern (at_ rec c) {} p) := by
  have hr' := fun t => hr c c' t hc
  unfold Unparse.kwdPattern
  moves
  all_goals apply hr'

theorem matchClass_dbg (fs : Fields) :
    Dbg cap (Unparse.matchClass (at_ rec c') {} fs) (Unparse.matchClass (at_ rec c) {} fs) := by
  have hr' := fun t => hr c c' t hc
  unfold Unparse.matchClass
  moves
  all_goals first | apply hr' | apply kwdPattern_dbg hr hc

theorem matchOr_dbg (fs : Fields) :
    Dbg cap (Unparse.matchOr (at_ rec c') {} fs) (Unparse.matchOr (at_ rec c) {} fs) := by
  have hr' := fun t => hr c c' t hc
  unfold Unparse.matchOr
  moves
  all_goals apply hr'

theorem typeVar_dbg (fs : Fields) :
    Dbg cap (Unparse.typeVar (at_ rec c') {} fs) (Unparse.typeVar (at_ rec c) {} fs) := by
  have hr' := fun t => hr c c' t hc
  unfold Unparse.typeVar
  moves
  all_goals apply hr'

theorem dispatchAny_dbg (v : Val) :
    Dbg cap (Color.dispatchAny rec c' v) (Color.dispatchAny rec c v) := by
  have hr' := fun t => hr c c' t hc
  unfold Color.dispatchAny
  split <;> moves
  all_goals apply hr'

theorem block_dbg (v : Val) :
    Dbg cap (Color.block rec c' v) (Color.block rec c v) := by
  unfold Color.block
  refine Dbg.bind (dispatchAny_dbg hr (c := c.enter) (c' := c'.enter) hc.enter v) fun _ _ _ => ?_
  moves

theorem blockIf_dbg (l : Loc) (w : String) (v : Val) :
    Dbg cap (Color.blockIf rec c' l w v) (Color.blockIf rec c l w v) := by
  unfold Color.blockIf
  moves
  all_goals apply block_dbg hr hc

theorem markerValue_dbg (H : Host) (v : Val) :
    Dbg cap (Color.markerValue H rec c' v) (Color.markerValue H rec c v) := by
  have hr' := fun t => hr c c' t hc
  unfold Color.markerValue
  split <;> moves
  all_goals apply hr'

theorem markerStmtField_dbg (H : Host) (l : Loc) (p : F × Val) :
    Dbg cap (Color.markerStmtField H rec c' l p) (Color.markerStmtField H rec c l p) := by
  unfold Color.markerStmtField
  refine Dbg.bind (markerValue_dbg hr (c := c.enter) (c' := c'.enter) hc.enter H p.2) fun _ _ _ => ?_
  moves

theorem markerExprField_dbg (H : Host) (p : F × Val) :
    Dbg cap (Color.markerExprField H rec c' p) (Color.markerExprField H rec c p) := by
  unfold Color.markerExprField
  moves
  exact markerValue_dbg hr hc H _

theorem markerFields_dbg (H : Host) (l : Loc) (b : Bool) (fs : Fields) :
    Dbg cap (Color.markerFields H rec c' l b fs) (Color.markerFields H rec c l b fs) := by
  unfold Color.markerFields
  split
  · exact markerValue_dbg hr hc H _
  · moves
    · exact markerStmtField_dbg hr hc H _ _
    · exact markerExprField_dbg hr hc H _

theorem astmarker_dbg (H : Host) (l : Loc) (m : String) (fs : Fields) :
    Dbg cap (Color.astmarker H rec c' l m fs) (Color.astmarker H rec c l m fs) := by
  unfold Color.astmarker
  split
  · exact Dbg.error
  · dsimp only
    refine Dbg.ite ?_ ?_
    · refine Dbg.bind (markerFields_dbg hr (c := c.enter) (c' := c'.enter) hc.enter H _ _ _) fun _ _ _ => ?_
      moves
    · refine Dbg.bind (markerFields_dbg hr (c := c.enter) (c' := c'.enter) hc.enter H _ _ _) fun _ _ _ => ?_
      moves

theorem wordValue_dbg (k : K) (w : String) (fs : Fields) :
    Dbg cap (Color.wordValue rec c' k w fs) (Color.wordValue rec c k w fs) := by
  have hr' := fun t => hr c c' t hc
  unfold Color.wordValue
  moves
  all_goals apply hr'

theorem comprehension_dbg (fs : Fields) :
    Dbg cap (Color.comprehension rec c' fs) (Color.comprehension rec c fs) := by
  have hr' := fun t => hr c c' t hc
  unfold Color.comprehension
  moves
  all_goals apply hr'

theorem ifExp_dbg (fs : Fields) :
    Dbg cap (Color.ifExp rec c' fs) (Color.ifExp rec c fs) := by
  have hr' := fun t => hr c c' t hc
  unfold Color.ifExp
  moves
  all_goals apply hr'

theorem unaryOp_dbg (fs : Fields) :
    Dbg cap (Color.unaryOp rec c' fs) (Color.unaryOp rec c fs) := by
  have hr' := fun t => hr c c' t hc
  unfold Color.unaryOp
  moves
  all_goals apply hr'

theorem comparison_dbg (p : Val × Val) :
    Dbg cap (Color.comparison rec c' p) (Color.comparison rec c p) := by
  have hr' := fun t => hr c c' t hc
  unfold Color.comparison
  moves
  all_goals apply hr'

theorem compare_dbg (fs : Fields) :
    Dbg cap (Color.compare rec c' fs) (Color.compare rec c fs) := by
  have hr' := fun t => hr c c' t hc
  unfold Color.compare
  moves
  all_goals first | apply hr' | apply comparison_dbg hr hc

theorem boolOp_dbg (fs : Fields) :
    Dbg cap (Color.boolOp rec c' fs) (Color.boolOp rec c fs) := by
  have hr' := fun t => hr c c' t hc
  unfold Color.boolOp
  moves
  all_goals apply hr'

theorem lambda_dbg (fs : Fields) :
    Dbg cap (Color.lambda rec c' fs) (Color.lambda rec c fs) := by
  have hr' := fun t => hr c c' t hc
  unfold Color.lambda
  moves
  all_goals apply hr'

theorem withitem_dbg (fs : Fields) :
    Dbg cap (Color.withitem rec c' fs) (Color.withitem rec c fs) := by
  have hr' := fun t => hr c c' t hc
  unfold Color.withitem
  moves
  all_goals apply hr'

theorem exprStmt_dbg (l : Loc) (fs : Fields) :
    Dbg cap (Color.exprStmt rec c' l fs) (Color.exprStmt rec c l fs) := by
  unfold Color.exprStmt
  have e : c'.opts.debug = false := by rw [hc.opts]
  rw [hc.debug, e]
  refine Dbg.same fun _ => Dbg.bind (hr c.enter c' _ hc.deeper) fun p d h => Dbg.pure ?_
  rw [fill_debug hc, fill_without hc, paint_none hc.color]
  have := Annotated.expr (lineOf l) c.indent c'.indent h
  rw [expr_lit] at this
  simpa [List.append_assoc] using this

theorem toplevel_dbg (l : Loc) (k : K) (n : String) (hn : lit n ∈ [lit "Module", lit "Interactive", lit "Expression"]) (fs : Fields) :
    Dbg cap (Color.toplevel rec c' l k n fs) (Color.toplevel rec c l k n fs) := by
  unfold Color.toplevel
  have e : c'.opts.debug = false := by rw [hc.opts]
  rw [hc.debug, e]
  refine Dbg.same fun xs => ?_
  intro p hp
  obtain ⟨d, h1, h2⟩ := Dbg.concat (cap := cap) (f := rec c') (g := rec c.enter) xs (fun t => hr c.enter c' t hc.deeper) p hp
  rw [h1]
  refine ⟨_, rfl, ?_⟩
  rw [fill_debug hc, paint_none hc.color]
  have := Annotated.top (lineOf l) c.indent hn h2
  simpa [List.append_assoc] using this

theorem wordList_dbg (l : Loc) (w : String) (xs : List Val) :
    Dbg cap (Color.wordList rec c' l w xs) (Color.wordList rec c l w xs) := by
  have hr' := fun t => hr c c' t hc
  unfold Color.wordList
  moves
  all_goals apply hr'

theorem importFrom_dbg (l : Loc) (fs : Fields) :
    Dbg cap (Color.importFrom rec c' l fs) (Color.importFrom rec c l fs) := by
  have hr' := fun t => hr c c' t hc
  unfold Color.importFrom
  moves
  all_goals apply hr'

theorem assign_dbg (l : Loc) (fs : Fields) :
    Dbg cap (Color.assign rec c' l fs) (Color.assign rec c l fs) := by
  have hr' := fun t => hr c c' t hc
  unfold Color.assign
  moves
  all_goals apply hr'

theorem annAssign_dbg (l : Loc) (fs : Fields) :
    Dbg cap (Color.annAssign rec c' l fs) (Color.annAssign rec c l fs) := by
  have hr' := fun t => hr c c' t hc
  unfold Color.annAssign
  moves
  all_goals apply hr'

theorem augAssign_dbg (l : Loc) (fs : Fields) :
    Dbg cap (Color.augAssign rec c' l fs) (Color.augAssign rec c l fs) := by
  have hr' := fun t => hr c c' t hc
  unfold Color.augAssign
  moves
  all_goals apply hr'

theorem returnStmt_dbg (l : Loc) (fs : Fields) :
    Dbg cap (Color.returnStmt rec c' l fs) (Color.returnStmt rec c l fs) := by
  have hr' := fun t => hr c c' t hc
  unfold Color.returnStmt
  moves
  all_goals apply hr'

theorem assertStmt_dbg (l : Loc) (fs : Fields) :
    Dbg cap (Color.assertStmt rec c' l fs) (Color.assertStmt rec c l fs) := by
  have hr' := fun t => hr c c' t hc
  unfold Color.assertStmt
  moves
  all_goals apply hr'

theorem raiseStmt_dbg (l : Loc) (fs : Fields) :
    Dbg cap (Color.raiseStmt rec c' l fs) (Color.raiseStmt rec c l fs) := by
  have hr' := fun t => hr c c' t hc
  unfold Color.raiseStmt
  moves
  all_goals apply hr'

theorem tryStmt_dbg (l : Loc) (b : Bool) (k : K) (fs : Fields) :
    Dbg cap (Color.tryStmt rec c' l b k fs) (Color.tryStmt rec c l b k fs) := by
  unfold Color.tryStmt
  refine Dbg.same fun _ => Dbg.bind (block_dbg hr hc _) fun _ _ _ => Dbg.same fun _ => ?_
  refine Dbg.bind (Dbg.concat _ fun _ => hr { c with modes := b :: c.modes } { c' with modes := b :: c'.modes } _ hc.push) fun _ _ _ => ?_
  moves
  all_goals first | apply block_dbg hr hc | apply blockIf_dbg hr hc

theorem exceptHandler_dbg (l : Loc) (fs : Fields) :
    Dbg cap (Color.exceptHandler rec c' l fs) (Color.exceptHandler rec c l fs) := by
  have hr' := fun t => hr c c' t hc
  unfold Color.exceptHandler
  have e : c'.modes = c.modes := hc.modes
  rw [e]
  cases c.modes with
  | nil => exact Dbg.error
  | cons star r =>
    dsimp only
    moves
    all_goals first | apply hr' | apply block_dbg hr hc

theorem decorator_dbg (d : Val) :
    Dbg cap (Color.decorator rec c' d) (Color.decorator rec c d) := by
  unfold Color.decorator
  refine Dbg.bind (hr { c with nocolor := true } { c' with nocolor := true } d hc.nocolor) fun p t h => Dbg.pure ?_
  rw [hc.color, hc.off]
  simp only [List.append_nil]
  parts

theorem classDef_dbg (l : Loc) (fs : Fields) :
    Dbg cap (Color.classDef rec c' l fs) (Color.classDef rec c l fs) := by
  have hr' := fun t => hr c c' t hc
  unfold Color.classDef
  refine Dbg.same fun _ => Dbg.bind (Dbg.concat _ fun _ => decorator_dbg hr hc _) fun _ _ _ => ?_
  refine Dbg.same fun _ => Dbg.bind (paintName_dbg hc _ _) fun _ _ _ => ?_
  moves
  all_goals first | apply hr' | apply callArgs_dbg hr hc | apply block_dbg hr hc

theorem functionDef_dbg (l : Loc) (w : String) (k : K) (fs : Fields) :
    Dbg cap (Color.functionDef rec c' l w k fs) (Color.functionDef rec c l w k fs) := by
  have hr' := fun t => hr c c' t hc
  unfold Color.functionDef
  refine Dbg.same fun _ => Dbg.bind (Dbg.concat _ fun _ => decorator_dbg hr hc _) fun _ _ _ => ?_
  refine Dbg.same fun _ => Dbg.bind (paintName_dbg hc _ _) fun _ _ _ => ?_
  moves
  all_goals first | apply hr' | apply callArgs_dbg hr hc | apply block_dbg hr hc

theorem forStmt_dbg (l : Loc) (w : String) (k : K) (fs : Fields) :
    Dbg cap (Color.forStmt rec c' l w k fs) (Color.forStmt rec c l w k fs) := by
  have hr' := fun t => hr c c' t hc
  unfold Color.forStmt
  moves
  all_goals first | apply hr' | apply block_dbg hr hc | apply blockIf_dbg hr hc

theorem whileStmt_dbg (l : Loc) (fs : Fields) :
    Dbg cap (Color.whileStmt rec c' l fs) (Color.whileStmt rec c l fs) := by
  have hr' := fun t => hr c c' t hc
  unfold Color.whileStmt
  moves
  all_goals first | apply hr' | apply block_dbg hr hc | apply blockIf_dbg hr hc

theorem withStmt_dbg (l : Loc) (w : String) (k : K) (fs : Fields) :
    Dbg cap (Color.withStmt rec c' l w k fs) (Color.withStmt rec c l w k fs) := by
  have hr' := fun t => hr c c' t hc
  unfold Color.withStmt
  moves
  all_goals first | apply hr' | apply block_dbg hr hc | apply blockIf_dbg hr hc

theorem matchStmt_dbg (l : Loc) (fs : Fields) :
    Dbg cap (Color.matchStmt rec c' l fs) (Color.matchStmt rec c l fs) := by
  have hr' := fun t => hr c c' t hc
  unfold Color.matchStmt
  refine Dbg.same fun _ => Dbg.bind (hr' _) fun _ _ _ => Dbg.same fun _ => ?_
  refine Dbg.bind (Dbg.concat _ fun _ => hr c.enter c'.enter _ hc.enter) fun _ _ _ => ?_
  moves

theorem matchCase_dbg (l : Loc) (fs : Fields) :
    Dbg cap (Color.matchCase rec c' l fs) (Color.matchCase rec c l fs) := by
  have hr' := fun t => hr c c' t hc
  unfold Color.matchCase
  moves
  all_goals first | apply hr' | apply block_dbg hr hc | apply blockIf_dbg hr hc

theorem matchAs_dbg (fs : Fields) :
    Dbg cap (Color.matchAs rec c' fs) (Color.matchAs rec c fs) := by
  have hr' := fun t => hr c c' t hc
  unfold Color.matchAs
  moves
  all_goals apply hr'

theorem typeAlias_dbg (l : Loc) (fs : Fields) :
    Dbg cap (Color.typeAlias rec c' l fs) (Color.typeAlias rec c l fs) := by
  have hr' := fun t => hr c c' t hc
  unfold Color.typeAlias
  moves
  all_goals apply hr'

theorem ifStmt_dbg (w : String) (n : Nat) (l : Loc) (fs : Fields) :
    Dbg cap (Color.ifStmt rec c' w n l fs) (Color.ifStmt rec c w n l fs) := by
  have hr' := fun t => hr c c' t hc
  induction n generalizing w l fs with
  | zero => exact Dbg.error
  | succ n ih =>
    unfold Color.ifStmt
    refine Dbg.same fun _ => Dbg.bind (hr' _) fun _ _ _ => Dbg.same fun _ => ?_
    refine Dbg.bind (block_dbg hr hc _) fun _ _ _ => Dbg.same fun _ => ?_
    split
    · refine Dbg.bind (ih _ _ _) fun _ _ _ => ?_
      moves
    · refine Dbg.bind (blockIf_dbg hr hc _ _ _) fun _ _ _ => ?_
      moves

theorem joined_dbg (n : Nat) : (∀ v, Dbg cap (Color.joined rec c' n v) (Color.joined rec c n v)) ∧
    (∀ fs, Dbg cap (Color.joined.formatted rec c' n fs) (Color.joined.formatted rec c n fs)) := by
  have hr' := fun t => hr c c' t hc
  have hf : ∀ n, (∀ v, Dbg cap (Color.joined rec c' n v) (Color.joined rec c n v)) →
      ∀ fs, Dbg cap (Color.joined.formatted rec c' n fs) (Color.joined.formatted rec c n fs) := by
    intro n ih fs
    unfold Color.joined.formatted
    refine Dbg.same fun _ => Dbg.bind (hr' _) fun _ _ _ => Dbg.same fun _ => ?_
    refine Dbg.bind (conversion_dbg hc _) fun _ _ _ => Dbg.same fun _ => ?_
    moves
    apply ih
  induction n with
  | zero => exact ⟨fun _ => by unfold Color.joined; exact Dbg.error, hf 0 fun _ => by unfold Color.joined; exact Dbg.error⟩
  | succ n ih =>
    have h : ∀ v, Dbg cap (Color.joined rec c' (n + 1) v) (Color.joined rec c (n + 1) v) := by
      intro v
      unfold Color.joined
      refine Dbg.same fun _ => Dbg.same fun _ => Dbg.concat _ fun v => ?_
      unfold Color.joined.piece
      split
      · exact Dbg.same fun _ => snippet_dbg hc _
      · exact ih.2 _
      · exact Dbg.error
    exact ⟨h, hf _ h⟩

theorem joinedStr_dbg (n : Nat) (t : Val) :
    Dbg cap (Color.joinedStr rec c' n t) (Color.joinedStr rec c n t) := by
  unfold Color.joinedStr
  moves
  exact (joined_dbg hr hc n).1 _

theorem formattedValue_dbg (n : Nat) (fs : Fields) :
    Dbg cap (Color.formattedValue rec c' n fs) (Color.formattedValue rec c n fs) := by
  unfold Color.formattedValue
  moves
  exact (joined_dbg hr hc n).2 _

end

/-! ## The dispatcher -/

section
variable {rec : Color.Rec} (hr : ∀ (c c' : Color.Ctx) (t : Val), Without H₀ cap c c' → Dbg cap (rec c' t) (rec c t))
  (hc : Without H₀ cap c c')
include hr hc

theorem method_dbg (H : Host) (n : Nat) (t : Val) (l : Loc) (fs : Fields) (k : K) :
    Dbg cap (Color.method H rec n c' t l fs k) (Color.method H rec n c t l fs k) := by
  unfold Color.method
  split
  all_goals first
    | exact Dbg.error
    | exact toplevel_dbg hr hc _ _ _ (by decide +kernel) _
    | apply exprStmt_dbg hr hc
    | (refine Dbg.same fun _ => ?_; apply wordList_dbg hr hc)
    | apply importFrom_dbg hr hc
    | apply assign_dbg hr hc
    | apply annAssign_dbg hr hc
    | apply augAssign_dbg hr hc
    | apply returnStmt_dbg hr hc
    | exact Dbg.ok (fill_annotated hc _ (kw_annotated hc _))
    | apply assertStmt_dbg hr hc
    | (refine Dbg.same fun _ => ?_; apply nameList_dbg hc)
    | apply wordValue_dbg hr hc
    | apply raiseStmt_dbg hr hc
    | apply tryStmt_dbg hr hc
    | apply exceptHandler_dbg hr hc
    | apply classDef_dbg hr hc
    | apply functionDef_dbg hr hc
    | apply forStmt_dbg hr hc
    | apply ifStmt_dbg hr hc
    | apply whileStmt_dbg hr hc
    | apply withStmt_dbg hr hc
    | apply namedExpr_dbg hr hc
    | apply constantText_dbg hc
    | apply nameText_dbg hc
    | (refine Dbg.same fun _ => ?_; apply display_dbg hr hc)
    | apply comp_dbg hr hc
    | apply dictComp_dbg hr hc
    | apply comprehension_dbg hr hc
    | apply ifExp_dbg hr hc
    | (refine Dbg.same fun _ => Dbg.ite Dbg.error ?_; apply display_dbg hr hc)
    | apply dict_dbg hr hc
    | apply tuple_dbg hr hc
    | apply unaryOp_dbg hr hc
    | apply binOp_dbg hr hc
    | apply compare_dbg hr hc
    | apply boolOp_dbg hr hc
    | apply attributeText_dbg hr hc
    | apply call_dbg hr hc
    | apply formattedValue_dbg hr hc
    | apply joinedStr_dbg hr hc
    | apply subscript_dbg hr hc
    | apply starred_dbg hr hc
    | apply slice_dbg hr hc
    | apply argText_dbg hr hc
    | apply arguments_dbg hr hc
    | apply keyword_dbg hr hc
    | apply lambda_dbg hr hc
    | apply alias_dbg hc
    | apply withitem_dbg hr hc
    | apply matchStmt_dbg hr hc
    | apply matchCase_dbg hr hc
    | exact Dbg.same fun _ => hr _ _ _ hc
    | apply matchSingleton_dbg hc
    | apply matchStar_dbg hc
    | apply matchMapping_dbg hr hc
    | apply matchClass_dbg hr hc
    | apply matchAs_dbg hr hc
    | apply matchOr_dbg hr hc
    | apply typeAlias_dbg hr hc
    | apply typeVar_dbg hr hc
    | exact Dbg.refl _

theorem dispatchNode_dbg (H : Host) (n : Nat) (t : Val) :
    Dbg cap (Color.dispatchNode H rec n c' t) (Color.dispatchNode H rec n c t) := by
  unfold Color.dispatchNode
  split
  · apply method_dbg hr hc
  · apply astmarker_dbg hr hc
  · exact Dbg.concat _ fun _ => hr _ _ _ hc
  · exact Dbg.error

end


theorem dispatch_dbg (H : Host) (n : Nat) : ∀ (c c' : Color.Ctx) (t : Val), Without H cap c c' →
    Dbg cap (Color.dispatch H n c' t) (Color.dispatch H n c t) := by
  induction n with
  | zero => exact fun _ _ _ _ => Dbg.error
  | succ n ih =>
    intro c c' t hc
    have ho : ∀ p, Color.dispatch H (n + 1) c' t = .ok p → Unparse.dispatch H (n + 1) c'.base t = .ok p := fun p h => by
      rw [← dispatch_off H (n + 1) c' t ⟨hc.off, by rw [hc.opts]⟩]; exact h
    intro p hp
    have hq := ho p hp
    revert hp
    unfold Color.dispatch
    have e' : captured c'.opts t = .ok none := by
      unfold captured
      rw [hc.opts]
      split <;> rfl
    have e : ∃ r, captured c.opts t = .ok r ∧ ∀ x b, r = some (x, b) → cap x p := by
      unfold captured
      rw [hc.debug]
      obtain ⟨r, h1, h2⟩ := hc.value t
      obtain ⟨r', h3, h4⟩ := hc.mac t
      split
      · exact ⟨none, rfl, fun _ _ h => nomatch h⟩
      · rw [h1, if_pos rfl]
        cases r with
        | some x => exact ⟨_, rfl, fun y b h => by cases h; exact h2 _ rfl _ _ _ hq⟩
        | none =>
          show ∃ r, (c.opts.capturedMacro t >>= _) = _ ∧ _
          rw [h3]
          cases r' with
          | some x => exact ⟨_, rfl, fun y b h => by cases h; exact h4 _ rfl _ _ _ hq⟩
          | none => exact ⟨_, rfl, fun _ _ h => nomatch h⟩
    obtain ⟨r, h1, h2⟩ := e
    rw [e', h1]
    have key : ∀ x : Str, cap x p → Annotated cap (lit "$h" ++ lit "[" ++ x ++ lit "]") p := fun x hx => by
      have := Annotated.captured (q := p) hx (Annotated.nil (cap := cap))
      rw [h_lit] at this
      simpa using this
    cases r with
    | none => exact dispatchNode_dbg ih hc H n t p
    | some y =>
      obtain ⟨x, b⟩ := y
      have hx := h2 x b rfl
      intro _
      cases b with
      | false =>
        refine ⟨_, rfl, ?_⟩
        simp only [capturedValue, paint_none hc.color]
        exact key x hx
      | true =>
        refine ⟨_, rfl, ?_⟩
        simp only [capturedMacro, paint_none hc.color]
        exact key x hx

theorem unparse_dbg (H : Host) (o : Opts) (ho : o.color = none) (hd : o.debug = true)
    (hv : ∀ t, ∃ r, o.capturedValue t = .ok r) (hm : ∀ t, ∃ r, o.capturedMacro t = .ok r) (limit : Nat) (t : Val) {p : Str}
    (h : Color.unparse H { o with debug := false } limit t = .ok p) :
    ∃ d q, Color.unparse H o limit t = .ok (Dialects.strip d) ∧ Annotated (CapturedAs H o) d q ∧ p = Dialects.strip q := by
  unfold Color.unparse at h ⊢
  have hw : Without H (CapturedAs H o) { opts := o } { opts := { o with debug := false } } := by
    refine ⟨ho, rfl, hd, rfl, fun t => ?_, fun t => ?_⟩
    · obtain ⟨r, hr⟩ := hv t
      exact ⟨r, hr, fun x e n d q hq => ⟨t, .inl (e ▸ hr), n, d, hq⟩⟩
    · obtain ⟨r, hr⟩ := hm t
      exact ⟨r, hr, fun x e n d q hq => ⟨t, .inr (e ▸ hr), n, d, hq⟩⟩
  have hs := dispatchAny_dbg (fun c c' t hc => dispatch_dbg H limit c c' t hc) hw t
  cases hp : Color.dispatchAny (Color.dispatch H limit) { opts := { o with debug := false } } t with
  | error e => rw [hp] at h; cases h
  | ok x =>
    rw [hp] at h
    cases h
    obtain ⟨s, h1, h2⟩ := hs x hp
    rw [h1]
    exact ⟨_, _, rfl, h2.append (.same (lit "\n")), rfl⟩

end Mcpyrate
