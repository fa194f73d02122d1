import Verif.Lemmas.FillLocation
import Verif.Props.ExpandStatic
/-
C55 fill_location.

`fill_location[tree]` evaluates, at run time, to the value of `tree` with all missing source locations filled in: with the
line and the column where the invocation of `fill_location` starts.  An invocation that has no location itself is a
SyntaxError, and so are other kinds of macros.

The argument is not a `*x` (Python's grammar has none in this place).
-/
namespace Mcpyrate
open Py Expander QuoteOps FillLocation

variable {σ υ : Type}

/-- C55: the macro makes code; where this runs, it evaluates `tree` and fills in the locations. -/
theorem C55_fill (E : Env υ) (a : MArgs) (s : Expander.St υ) (ha : a.synt = .expr) (c : Cls) (l : Loc) (fs : Fields)
    (hi : a.invocation = .node c l fs) (hl : FixLocations.Located l) (ht : a.tree.isK .Starred = false) :
    ∃ code, ExpandStatic.Does E (fillLocation a) s (.ok (.val code)) s ∧
      ∀ (τ : Type) (H : Quotes.Host τ), FillLocation.RunTime H → ∀ s0 s1,
        (∀ t, Quotes.eval H (.ofVal a.tree) s0 = some (.ok (.ofVal t), s1) → t.isTree = true →
          ∃ t', Quotes.eval H (.ofVal code) s0 = some (.ok (.ofVal t'), s1) ∧ FilledIn (start l) t t') ∧
        (∀ e, Quotes.eval H (.ofVal a.tree) s0 = some (.error e, s1) → Quotes.eval H (.ofVal code) s0 = some (.error e, s1)) := by
  refine ⟨_, does_fill ha hi hl, fun τ H hR s0 s1 => ⟨fun t h1 h2 => ?_, fun e h1 => ?_⟩⟩
  · obtain ⟨t', h3, h4⟩ := filledIn h2 hl
    refine ⟨t', ?_, h4⟩
    rw [ofVal_fillTree, eval_fill hR hl ht]
    change M.bind _ _ s0 = _
    simp only [M.bind]
    rw [h1]
    dsimp only
    rw [hR.fixLocations, h3]
    rfl
  · rw [ofVal_fillTree, eval_fill hR hl ht]
    change M.bind _ _ s0 = _
    simp only [M.bind]
    rw [h1]

/-- C55: every node that can carry a location has one afterwards. -/
theorem C55_located (l : Loc) (hl : FixLocations.Located l) (t t' : Val) (h : FilledIn (start l) t t') (c : Cls) (m : Loc)
    (fs : Fields) (hr : Reach t' (.node c m fs)) (hc : c.hasLoc = true) : FixLocations.Located m := by
  have hm : (c, m) ∈ FixLocations.locs t' := by
    unfold FixLocations.locs
    exact List.mem_map.2 ⟨_, mem_preorder.2 ⟨hr, rfl⟩, rfl⟩
  rw [h.locations] at hm
  obtain ⟨⟨c0, m0⟩, -, h1⟩ := List.mem_map.1 hm
  unfold FixLocations.onLocated at h1
  split at h1
  · cases h1
    obtain ⟨ln, co, eln, eco⟩ := m0
    cases ln <;> cases co <;> simp [FixLocations.fill, start, FixLocations.Located, hl.1, hl.2]
  · rename_i hn
    cases h1
    exact absurd hc hn

/-- C55, for quoted code without unquotes, which carries no locations of its own: `fill_location[q[x]]` gives `x`, and
all its nodes are where the invocation of `fill_location` is.  (The argument is expanded after `fill_location`, so `a.tree`
is to be replaced by the code for `q[x]`.) -/
theorem C55_quoted (L : Lib σ) (hR : FillLocation.RunTime L.H) (E : Env υ) (a : MArgs) (s : Expander.St υ) (ha : a.synt = .expr)
    (c : Cls) (l : Loc) (fs : Fields) (hi : a.invocation = .node c l fs) (hl : FixLocations.Located l) (x : Val)
    (hx : x.isAST = true) (hq : ExpandStatic.EvaluatesTo L a.tree x) (ht : a.tree.isK .Starred = false) :
    ∃ code x' t', ExpandStatic.Does E (fillLocation a) s (.ok (.val code)) s ∧
      Quotes.eval L.H (.ofVal code) = pure (.ofVal t') ∧ Obj.ofVal x' = Quotes.noLoc (.ofVal x) ∧
      FixLocations.eraseLoc t' = FixLocations.eraseLoc x' ∧
      FixLocations.locs t' = (FixLocations.locs x).map fun p => (p.1, if p.1.hasLoc then start l else {}) := by
  have htree : (strip x).isTree = true := by
    cases x with
    | node => simp [strip, Val.isTree]
    | const => cases hx
    | list => cases hx
  obtain ⟨t', h3, h4⟩ := filledIn htree hl
  refine ⟨_, strip x, t', does_fill ha hi hl, ?_, ofVal_strip x, h4.same, ?_⟩
  · rw [ofVal_fillTree, eval_fill hR hl ht, hq, M.pure_bind', ← ofVal_strip, hR.fixLocations, h3]
    rfl
  · rw [h4.locations, locs_strip, List.map_map]
    apply List.map_congr_left
    intro p _
    simp only [Function.comp, FixLocations.onLocated]
    split
    · rfl
    · rfl

/-- C55: wrong use. -/
theorem C55_errors (E : Env υ) (a : MArgs) (s : Expander.St υ)
    (h : a.synt ≠ .expr ∨ ∀ c l fs, a.invocation = .node c l fs → ¬ FixLocations.Located l) :
    ExpandStatic.Does E (fillLocation a) s (.error (.py .syntaxError)) s := by
  refine ⟨0, ?_⟩
  unfold fillLocation
  by_cases hs : a.synt ≠ .expr
  · rw [if_pos hs]; rfl
  · rw [if_neg hs]
    have h := h.resolve_left hs
    rw [if_neg]
    · rfl
    · intro hh
      rw [Bool.and_eq_true, has_iff, has_iff] at hh
      cases hi : a.invocation with
      | node c l fs => rw [hi] at hh; exact h c l fs hi hh
      | const => rw [hi] at hh; exact hh.1 rfl
      | list => rw [hi] at hh; exact hh.1 rfl

/-! Concrete cases. -/
section

/-- A host with `mcpyrate.metatools.fix_locations`, and a variable `t` with the value `x + y`, located in part. -/
private def sum : Val := .node (.py .BinOp) ⟨.int 7, .int 0, .int 7, .int 5⟩
  [(.left, name "x"), (.op, mk .Add []), (.right, name "y")]

private def toAttr : Obj → Attr
  | .const (.int n) => .int n
  | _ => .none

private def host : Quotes.Host Unit :=
  { Quotes.Ex.host with
    name := fun s => if s = "mcpyrate" then pure (.ref ["mcpyrate"]) else if s = "t" then pure (.ofVal sum) else M.throw .nameError
    attr := fun x a => match x with
      | .ref p => pure (.ref (p ++ [a]))
      | _ => M.throw .attributeError
    call := fun f args kws => match f, args, kws with
      | .ref ["mcpyrate", "quotes", "ast", "Constant"], [], [(_, v), (_, k), (_, x), (_, y)] =>
        pure (.node (.py .Constant) { lineno := toAttr x, colOffset := toAttr y } [(.value, v), (.kind, k)])
      | .ref ["mcpyrate", "metatools", "fix_locations"], [x, .node _ l _], _ =>
        match x.toVal with
        | some t => Quotes.lift ((FixLocations.fixLocations t l .reference).map Obj.ofVal)
        | none => M.throw .attributeError
      | _, _, _ => M.throw .typeError }

private theorem toAttr_obj {a : Attr} (h : a ≠ .missing) : toAttr (attrObj a) = a := by
  cases a <;> first | rfl | exact absurd rfl h

private theorem hostRunTime : FillLocation.RunTime host where
  imported := rfl
  metatools := rfl
  function := rfl
  constant v k line col h1 h2 := by
    show pure (Obj.node (.py .Constant) { lineno := toAttr (attrObj line), colOffset := toAttr (attrObj col) } _) = _
    rw [toAttr_obj h1, toAttr_obj h2]
  fixLocations t c l fs := by
    show (match (Obj.ofVal t).toVal with
      | some t => Quotes.lift ((FixLocations.fixLocations t l .reference).map Obj.ofVal)
      | none => M.throw .attributeError) = _
    rw [toVal_of]

/-- `fill_location[e]` in line 3, column 8. -/
private def fillArgs (e : Val) : MArgs :=
  ⟨.expr, e, some [], none, .node (.py .Subscript) ⟨.int 3, .int 8, .int 3, .int 24⟩
    [(.value, name "fill_location"), (.slice, e), (.ctx, mk .Load [])]⟩

/-- `fill_location[t]`: the names get the location of the invocation, the sum keeps its own. -/
example : ∃ code t', ExpandStatic.Does Expander.Ex.env (fillLocation (fillArgs (name "t"))) (init Expander.Ex.world) (.ok (.val code))
      (init Expander.Ex.world) ∧ Quotes.eval host (.ofVal code) Quotes.Ex.start = some (.ok (.ofVal t'), Quotes.Ex.start) ∧
    FixLocations.locs t' = [(.py .BinOp, ⟨.int 7, .int 0, .int 7, .int 5⟩), (.py .Name, ⟨.int 3, .int 8, .none, .none⟩), (.py .Load, {}),
      (.py .Add, {}), (.py .Name, ⟨.int 3, .int 8, .none, .none⟩), (.py .Load, {})] ∧
    ∀ c m fs, Reach t' (.node c m fs) → c.hasLoc = true → FixLocations.Located m := by
  obtain ⟨code, h1, h2⟩ := C55_fill Expander.Ex.env (fillArgs (name "t")) (init Expander.Ex.world) rfl _ _ _ rfl (by decide) rfl
  obtain ⟨t', k1, k2⟩ := (h2 _ host hostRunTime Quotes.Ex.start Quotes.Ex.start).1 sum rfl rfl
  exact ⟨code, t', h1, k1, by rw [k2.locations]; decide, C55_located _ (by decide) _ _ k2⟩

/-- `fill_location[u]`: the exception is passed on; `u` is not defined. -/
example : ∃ code, ExpandStatic.Does Expander.Ex.env (fillLocation (fillArgs (name "u"))) (init Expander.Ex.world) (.ok (.val code))
      (init Expander.Ex.world) ∧ Quotes.eval host (.ofVal code) Quotes.Ex.start = some (.error .nameError, Quotes.Ex.start) := by
  obtain ⟨code, h1, h2⟩ := C55_fill Expander.Ex.env (fillArgs (name "u")) (init Expander.Ex.world) rfl _ _ _ rfl (by decide) rfl
  exact ⟨code, h1, (h2 _ host hostRunTime Quotes.Ex.start Quotes.Ex.start).2 _ rfl⟩

/-- The code for `q[x]`: `mcpyrate.quotes.ast.Name(id="x", ctx=mcpyrate.quotes.ast.Load())` -/
private def quotedX : Val :=
  let cls (k : String) := mk .Attribute [(.value, mk .Attribute [(.value, mk .Attribute [(.value, mk .Name [(.id, .str "mcpyrate")]),
    (.attr, .str "quotes")]), (.attr, .str "ast")]), (.attr, .str k)]
  mk .Call [(.func, cls "Name"), (.args, .list []),
    (.keywords, .list [mk .keyword [(.arg, .str "id"), (.value, mk .Constant [(.value, .str "x"), (.kind, .none)])],
      mk .keyword [(.arg, .str "ctx"), (.value, mk .Call [(.func, cls "Load"), (.args, .list []), (.keywords, .list [])])]])]

/-- `fill_location[q[x]]` -/
example : ∃ code t', ExpandStatic.Does Expander.Ex.env (fillLocation (fillArgs quotedX)) (init Expander.Ex.world) (.ok (.val code))
      (init Expander.Ex.world) ∧ Quotes.eval host (.ofVal code) = pure (.ofVal t') ∧
    FixLocations.locs t' = [(.py .Name, ⟨.int 3, .int 8, .none, .none⟩), (.py .Load, {})] := by
  obtain ⟨code, _, t', h1, h2, -, -, h3⟩ := C55_quoted { QuoteOps.Ex.lib with H := host } hostRunTime Expander.Ex.env
    (fillArgs quotedX) (init Expander.Ex.world) rfl _ _ _ rfl (by decide)
    (.node (.py .Name) ⟨.int 1, .int 2, .int 1, .int 3⟩ [(.id, .str "x"), (.ctx, mk .Load [])]) rfl rfl rfl
  exact ⟨code, t', h1, h2, by rw [h3]; decide⟩

/-- `fill_location` as a block macro; an invocation without a location. -/
example : ExpandStatic.Does Expander.Ex.env (fillLocation { fillArgs (name "t") with synt := .block }) (init Expander.Ex.world)
      (.error (.py .syntaxError)) (init Expander.Ex.world) ∧
    ExpandStatic.Does Expander.Ex.env (fillLocation { fillArgs (name "t") with invocation := name "t" }) (init Expander.Ex.world)
      (.error (.py .syntaxError)) (init Expander.Ex.world) :=
  ⟨C55_errors _ _ _ (.inl (by decide)), C55_errors _ _ _ (.inr (by rintro _ _ _ ⟨⟩; decide))⟩

end
end Mcpyrate
