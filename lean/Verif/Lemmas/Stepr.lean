import Verif.Spec.Stepr
import Verif.Lemmas.ExpandRuntime
import Verif.Props.Quotes
import Verif.Lemmas.FillLocation
import Verif.Model.StepExpansion
/-
Lemmas about `stepr`.
-/
namespace Mcpyrate.Stepr
open Py Expander QuoteOps ExpandRuntime

variable {σ τ υ : Type}

/-- The code of `stepr`, as a tree. -/
def stepTree (L : Lib σ) (filename : String) (b : Dict String Nat) (args tree : Val) : Val :=
  let tool (a : String) := mk .Attribute [(.value, mk .Attribute [(.value, mk .Name [(.id, .str "mcpyrate")]),
      (.attr, .str "metatools")]), (.attr, .str a)]
  mk .Call [(.func, tool "step_expansion"), (.args, .list [tree]),
    (.keywords, .list [mk .keyword [(.arg, .str "args"), (.value, args)],
      mk .keyword [(.arg, .str "syntax"), (.value, mk .Constant [(.value, .str "expr"), (.kind, .none)])],
      mk .keyword [(.arg, .str "expander"), (.value, mk .Call [(.func, tool "MacroExpander"), (.args, .list []),
        (.keywords, .list [mk .keyword [(.arg, .str "bindings"), (.value, bindingsTree L b)],
          mk .keyword [(.arg, .str "filename"), (.value, mk .Constant [(.value, .str filename), (.kind, .none)])]])])]])]

theorem ofVal_stepTree (L : Lib σ) (filename : String) (b : Dict String Nat) (args tree : Val) :
    Obj.ofVal (stepTree L filename b args tree) = stepCode filename (.ofVal (bindingsTree L b)) (.ofVal args) tree := rfl

theorem does_stepR {L : Lib σ} {E : Env (User σ)} {filename : String} {a : MArgs} {s : Expander.St (User σ)} (ha : a.synt = .expr)
    {args : List Val} (hargs : a.args = some args) {c : Val} (hc : Quotes.astify L.H none (.ofVal (.list args)) = pure (.ofVal c))
    (hl : Dict.WF s.world.locals) (hg : Dict.WF s.world.globals) (hP : Picklable L s.world) :
    ExpandStatic.Does E (stepR L filename a) s
      (.ok (.val (stepTree L filename (ExpandFirst.allBindings s.world) c a.tree))) s := by
  refine ⟨0, ?_⟩
  unfold stepR
  rw [hargs]
  dsimp only
  rw [if_neg (by simp [ha])]
  show run _ (match macroBindings L s.world with
    | .error e => .raise (.py e)
    | .ok b =>
      match Quotes.astify L.H none (.ofVal (.list args)) s.world.user.st with
      | none => .hang
      | some (.error e, st) => .put (withSt s.world st) (.raise (.py e))
      | some (.ok x, st) => .put (withSt s.world st) (ExpandFirst.give (asCode (stepCode filename b x a.tree)))) s = _
  rw [macroBindings_ok hl hg hP, hc]
  show run _ (ExpandFirst.give (asCode (stepCode filename _ (.ofVal c) a.tree))) s = _
  rw [← ofVal_stepTree, asCode_of]
  rfl

open Quotes in
theorem eval_metatools {L : Lib σ} {w : World υ} {H : Host τ} (hR : RunTime L w H) {x : String}
    (h : H.attr (.ref ["mcpyrate", "metatools"]) x = pure (.ref ["mcpyrate", "metatools", x])) :
    eval H (metatoolsAttr x) = pure (.ref ["mcpyrate", "metatools", x]) := by
  unfold metatoolsAttr
  rw [eval_attribute, eval_attribute]
  have : eval H (nameNode "mcpyrate") = H.name "mcpyrate" := rfl
  rw [this, hR.imported, M.pure_bind']
  show (H.attr (.ref ["mcpyrate"]) "metatools" >>= fun y => getAttr H y x) = _
  rw [hR.metatools, M.pure_bind']
  exact h

open Quotes in
theorem eval_expander {L : Lib σ} {w : World υ} {H : Host τ} (hR : RunTime L w H) (hP : Picklable L w)
    {b : Dict String Nat} (hs : Snapshot w b) (filename : String) :
    eval H (callNode (metatoolsAttr "MacroExpander") []
        [keyword "bindings" (.ofVal (bindingsTree L b)), keyword "filename" (constantNode (.str filename))]) =
      H.call (.ref ["mcpyrate", "metatools", "MacroExpander"]) [] [("bindings", dictOf L b), ("filename", .str filename)] := by
  unfold callNode mkNode
  rw [eval_call, eval_metatools hR hR.expander, M.pure_bind']
  show (do
    let ks ← (do
      let x ← eval H (.ofVal (bindingsTree L b))
      return ("bindings", x) :: (← (pure [("filename", .str filename)] : Q τ (List (String × Obj)))) : Q τ (List (String × Obj)))
    call H (.ref ["mcpyrate", "metatools", "MacroExpander"]) [] ks) = _
  rw [eval_bindings hR.toRunTime hP hs]
  rfl

open Quotes in
theorem eval_stepR {L : Lib σ} {w : World υ} {H : Host τ} (hR : RunTime L w H) (hP : Picklable L w)
    {b : Dict String Nat} (hs : Snapshot w b) (filename : String) (args : List Val) {c : Val}
    (hc : eval H (.ofVal c) = pure (noLoc (.ofVal (.list args)))) {tree : Val} (ht : tree.isK .Starred = false) :
    eval H (.ofVal (stepTree L filename b c tree)) = (do
      let v ← eval H (.ofVal tree)
      callsStepper L H filename b args v) := by
  have hst : (Obj.ofVal tree).isK .Starred = false := by
    cases tree with
    | node c l fs => cases c with
      | py k => exact ht
      | marker n => rfl
    | _ => rfl
  rw [ofVal_stepTree]
  unfold stepCode
  show eval H (.node (.py .Call) {} [(.func, _), (.args, .list _), (.keywords, .list _)]) = _
  rw [eval_call, eval_metatools hR hR.stepper, M.pure_bind', evalL_cons hst]
  have hk : evalKws H [keyword "args" (.ofVal c), keyword "syntax" (constantNode (.str "expr")),
      keyword "expander" (callNode (metatoolsAttr "MacroExpander") []
        [keyword "bindings" (.ofVal (bindingsTree L b)), keyword "filename" (constantNode (.str filename))])] = (do
      let e ← H.call (.ref ["mcpyrate", "metatools", "MacroExpander"]) [] [("bindings", dictOf L b), ("filename", .str filename)]
      return [("args", noLoc (.ofVal (.list args))), ("syntax", .str "expr"), ("expander", e)]) := by
    show (do
      let x ← eval H (.ofVal c)
      return ("args", x) :: (← (do
        let y ← (pure (.str "expr") : Q τ Obj)
        return ("syntax", y) :: (← (do
          let e ← eval H (callNode (metatoolsAttr "MacroExpander") []
            [keyword "bindings" (.ofVal (bindingsTree L b)), keyword "filename" (constantNode (.str filename))])
          return ("expander", e) :: (← (pure [] : Q τ (List (String × Obj)))) : Q τ (List (String × Obj)))) : Q τ (List (String × Obj)))) : Q τ (List (String × Obj))) = _
    rw [hc, eval_expander hR hP hs]
    funext s
    rw [M.pure_bind', M.pure_bind']
    change M.bind _ _ s = M.bind _ _ s
    simp only [M.bind]
    cases h : H.call (.ref ["mcpyrate", "metatools", "MacroExpander"]) [] [("bindings", dictOf L b), ("filename", .str filename)] s with
    | none => simp [bind, M.bind, h]
    | some p =>
      obtain ⟨r, s1⟩ := p
      cases r <;> simp [bind, M.bind, pure, M.pure, h]
  rw [hk]
  funext s
  change M.bind _ _ s = M.bind _ _ s
  simp only [M.bind]
  cases h : eval H (.ofVal tree) s with
  | none => simp [bind, M.bind, h]
  | some p =>
    obtain ⟨r, s1⟩ := p
    cases r with
    | error e => simp [bind, M.bind, h]
    | ok v =>
      unfold callsStepper
      simp only [bind, M.bind, h, pure, M.pure, evalL]
      cases h2 : H.call (.ref ["mcpyrate", "metatools", "MacroExpander"]) [] [("bindings", dictOf L b), ("filename", .str filename)] s1 with
      | none => rfl
      | some p =>
        obtain ⟨r, s2⟩ := p
        cases r <;> rfl

open FillLocation (strip stripL stripF)

theorem lookup_strip (f : F) : (fs : List (F × Val)) → (stripF fs).lookup f = (fs.lookup f).map strip
  | [] => rfl
  | (g, x) :: r => by
    simp only [stripF, List.lookup]
    split
    · rfl
    · exact lookup_strip f r

theorem strip_const {x : Val} {c : Const} : strip x = .const c ↔ x = .const c := by
  cases x <;> simp [strip]

theorem parseArg_strip (x : Val) (o : Bool × Bool) : StepExpansion.parseArg (strip x) o = StepExpansion.parseArg x o := by
  cases x with
  | const c => rfl
  | list xs => rfl
  | node c l fs =>
    unfold StepExpansion.parseArg
    have h1 : (strip (.node c l fs)).isK .Constant = Val.isK .Constant (.node c l fs) := by cases c <;> rfl
    rw [h1]
    split
    · have h2 : attr (strip (.node c l fs)) .value = (attr (.node c l fs) .value).map strip := by
        simp only [attr, strip, Val.get?, lookup_strip]
        cases fs.lookup F.value <;> rfl
      rw [h2]
      cases attr (.node c l fs) .value with
      | error e => rfl
      | ok v =>
        show (if strip v = .const (.str "dump") then _ else if strip v = .const (.str "detailed") then _
          else if strip v = .const (.str "unparse") ∨ strip v = .const (.str "summary") then _ else _ :
            Except Exc (Bool × Bool)) = _
        simp only [strip_const]
        rfl
    · rfl

theorem parseArgs_strip : (xs : List Val) → (o : Bool × Bool) →
    StepExpansion.parseArgs (stripL xs) o = StepExpansion.parseArgs xs o
  | [], _ => rfl
  | x :: xs, o => by
    simp only [stripL, StepExpansion.parseArgs, parseArg_strip]
    cases StepExpansion.parseArg x o with
    | error e => rfl
    | ok o => exact parseArgs_strip xs o

end Mcpyrate.Stepr
