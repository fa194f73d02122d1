import Verif.Lemmas.QuasiquoteTemplate
/-
`with a:` (C58).
-/
namespace Mcpyrate.QuoteOps
open Py Expander

variable {σ : Type}

theorem attr_ok {x v : Val} {f : F} (h : attr x f = .ok v) : x.get? f = some v := by
  unfold attr at h
  split at h
  · rename_i y hy; cases h; exact hy
  · cases h

theorem stripExprs_ok : ∀ {xs es : List Val}, stripExprs xs = .ok es → ExprStmts xs es
  | [], es, h => by rw [stripExprs] at h; cases h; exact .nil
  | x :: xs, es, h => by
    rw [stripExprs] at h
    split at h
    · rename_i hx
      cases hv : attr x .value with
      | error e => rw [hv] at h; cases h
      | ok v =>
        cases hs : stripExprs xs with
        | error e => rw [hv, hs] at h; cases h
        | ok vs =>
          rw [hv, hs] at h
          cases h
          exact .cons hx (attr_ok hv) (stripExprs_ok hs)
    · cases h

theorem stripExprs_refused : ∀ {xs : List Val}, (∀ x ∈ xs, x.isK .Expr = true → (x.get? .value).isSome = true) →
    (∃ x ∈ xs, x.isK .Expr = false) → stripExprs xs = .error (.py .syntaxError)
  | [], _, ⟨_, h, _⟩ => by cases h
  | x :: xs, hv, hn => by
    rw [stripExprs]
    cases hx : x.isK .Expr with
    | false => simp
    | true =>
      rw [if_pos rfl]
      have h1 := hv x (by simp) hx
      have h2 : stripExprs xs = .error (.py .syntaxError) := by
        refine stripExprs_refused (fun y hy => hv y (by simp [hy])) ?_
        obtain ⟨y, hy, hyn⟩ := hn
        rcases List.mem_cons.mp hy with rfl | hy
        · rw [hx] at hyn; cases hyn
        · exact ⟨y, hy, hyn⟩
      cases hg : x.get? .value with
      | none => rw [hg] at h1; cases h1
      | some v =>
        have : attr x .value = .ok v := by unfold attr; rw [hg]
        rw [this, h2]; rfl

theorem list_clean {E : Env (User σ)} {w : W σ} {xs : List Val}
    (h : ∀ x ∈ xs, ∀ u, Open x u → fieldsOk u = true ∧ ¬ Invocation E w u) :
    ∀ u, Open (.list xs) u → fieldsOk u = true ∧ ¬ Invocation E w u := by
  intro u hu
  cases hu with
  | refl _ hd =>
    refine ⟨rfl, fun hi => ?_⟩
    cases hi with
    | expr h => cases h
    | block h => cases h
    | decorator h => rcases h with h | h <;> cases h
    | name h => cases h
  | step hd hm ho => exact h _ (List.mem_filter.mp hm).1 u ho

/-- An unquote from level 1 of code without invocations. -/
theorem unquote_inert {E : Env (User σ)} {m : Nat} {a : MArgs} {emit : Val → Except Exc Val} {s s' : Expander.St (User σ)}
    {r : Except Exc Ret} (h1 : value s.world = 1) (ht : a.tree.isTree = true) (hne : a.tree ≠ .list [])
    (hi : ∀ u, Open a.tree u → fieldsOk u = true ∧ ¬ Invocation E s.world u) (h : run (visit E m) (unquote a emit) s = some (r, s')) :
    r = (emit a.tree).map Ret.val := by
  have h0 : run (visit E m) (if value s.world < 1 then Prog.raise (.py .syntaxError)
    else .put (push (value s.world - 1) s.world) (.visit .recursively a.tree (after (finishUnquote a emit)))) s = some (r, s') := h
  rw [h1, if_neg (by decide)] at h0
  have h2 : run (visit E m) (.visit .recursively a.tree (after (finishUnquote a emit)))
        { s with world := push 0 s.world } = some (r, s') := h0
  obtain ⟨o, s2, h3, h4⟩ := run_visitRec h2
  have h3' := visit_mono E (Nat.le_max_left m a.tree.size) a.tree _ _ h3
  rw [visit_clean E { s with recursive := true, world := push 0 s.world } _ a.tree ht hne
    (fun u hu => ⟨(hi u hu).1, fun h => (hi u hu).2 ((invocation_isbound (w' := push 0 s.world) (w := s.world) (fun k => rfl)).mp h)⟩)
    (Nat.le_max_right m a.tree.size)] at h3'
  obtain ⟨rfl, rfl⟩ := Prod.mk.inj (Option.some.inj h3')
  have h5 : run (visit E m) (conclude (settle (finishUnquote a emit) (.ok a.tree) (push 0 s.world)))
      { s with world := push 0 s.world } = some (r, s') := h4
  have h6 : settle (finishUnquote a emit) (.ok a.tree) (push 0 s.world) =
      some (emit a.tree, push 0 s.world) := by
    show (if value (push 0 s.world) > 0 then M.ofExcept (replaceTree a.invocation a.tree) else M.ofExcept (emit a.tree))
      (push 0 s.world) = _
    rw [if_neg (by show ¬ 0 > 0; decide)]
    cases emit a.tree <;> rfl
  rw [h6] at h5
  cases he : emit a.tree with
  | error e => rw [he] at h5; cases h5; rfl
  | ok v => rw [he] at h5; cases h5; rfl

theorem evalAt_lookup {H : Quotes.Host σ} {f : F} : ∀ {fs : Fields},
    Quotes.evalAt H f (Obj.ofFields fs) = match fs.lookup f with
      | some e => Quotes.eval H (.ofVal e)
      | none => M.throw .typeError
  | [] => by rw [Obj.ofFields, Quotes.evalAt]; rfl
  | (g, x) :: fs => by
    rw [Obj.ofFields, Quotes.evalAt, List.lookup_cons]
    by_cases hg : g = f
    · rw [if_pos hg]
      subst hg
      rw [beq_self_eq_true]
    · rw [if_neg hg, beq_eq_false_iff_ne.2 (Ne.symm hg)]
      exact evalAt_lookup

theorem evalL_all {H : Quotes.Host σ} : ∀ {xs : List Val} {vs : List Obj} {st st' : Quotes.St σ},
    Quotes.evalL H (Obj.ofVals xs) st = some (.ok vs, st') → EvaluatesAll H xs st vs st'
  | [], vs, st, st', h => by rw [Obj.ofVals, Quotes.evalL] at h; cases h; exact .nil
  | x :: xs, vs, st, st', h => by
    rw [Obj.ofVals] at h
    cases hx : x.isK .Starred with
    | false =>
      rw [Quotes.evalL_cons (by rw [Quotes.ofVal_isK]; exact hx)] at h
      obtain ⟨v, s1, h1, h2⟩ := Quotes.M.bind_some h
      obtain ⟨ws, s2, h3, h4⟩ := Quotes.M.bind_some h2
      cases h4
      exact .cons hx h1 (evalL_all h3)
    | true =>
      obtain ⟨l, fs, rfl⟩ := isK_eq hx
      rw [Obj.ofVal, Quotes.evalL] at h
      obtain ⟨v, s1, h1, h2⟩ := Quotes.M.bind_some h
      obtain ⟨ys, s2, h3, h4⟩ := Quotes.M.bind_some h2
      obtain ⟨ws, s3, h5, h6⟩ := Quotes.M.bind_some h4
      cases h6
      obtain ⟨h7, rfl⟩ := Quotes.lift_some h3
      rw [evalAt_lookup] at h1
      cases he : fs.lookup .value with
      | none => rw [he] at h1; cases h1
      | some e => rw [he] at h1; exact .star hx he h1 h7 (evalL_all h5)

theorem runQ {α β : Type} {m : Quotes.Q σ α} {f : α → Quotes.Q σ β} {s s1 : Quotes.St σ} {a : α}
    (h : m s = some (.ok a, s1)) : (m >>= f) s = f a s1 := by
  show M.bind m f s = _
  simp only [M.bind, h]

theorem all_evalL {H : Quotes.Host σ} {xs : List Val} {vs : List Obj} {st st' : Quotes.St σ}
    (h : EvaluatesAll H xs st vs st') : Quotes.evalL H (Obj.ofVals xs) st = some (.ok vs, st') := by
  induction h with
  | nil => rw [Obj.ofVals, Quotes.evalL]; rfl
  | cons hx he _ ih =>
    rw [Obj.ofVals, Quotes.evalL_cons (by rw [Quotes.ofVal_isK]; exact hx), runQ he, runQ ih]; rfl
  | star hx hg he ht _ ih =>
    obtain ⟨l, fs, rfl⟩ := isK_eq hx
    have hg' : fs.lookup .value = some _ := hg
    rw [Obj.ofVals, Obj.ofVal, Quotes.evalL, evalAt_lookup, hg']
    dsimp only
    rw [runQ he, ht, runQ (a := _) (s1 := _) (m := Quotes.lift (.ok _)) rfl, runQ ih]; rfl

/-- The value of the list display. -/
theorem eval_display {H : Quotes.Host σ} {es : List Val} {v : Obj} {st st' : Quotes.St σ} :
    Quotes.Evaluates H (.ofVal (mk .List [(.elts, .list es)])) st v st' ↔
    ∃ vs, v = .list vs ∧ EvaluatesAll H es st vs st' := by
  have e : Quotes.eval H (.ofVal (mk .List [(.elts, .list es)])) =
      (do return .list (← Quotes.evalL H (Obj.ofVals es))) := by
    unfold mk
    rw [Obj.ofVal, Quotes.eval]
    simp [Obj.ofFields, Obj.ofVal, Quotes.evalListAt]
  unfold Quotes.Evaluates
  rw [e]
  constructor
  · intro h
    obtain ⟨vs, s1, h1, h2⟩ := Quotes.M.bind_some h
    cases h2
    exact ⟨vs, rfl, evalL_all h1⟩
  · rintro ⟨vs, rfl, h⟩
    rw [runQ (all_evalL h)]; rfl

theorem means_block {H : Quotes.Host σ} {x e m : Obj} {l : Loc} {st st' : Quotes.St σ} (h : Quotes.Means H x st m st')
    (hx : x = .node (.marker "ASTLiteral") l [(.body, e), (.syntax_, .str "block")]) :
    ∃ v items, Quotes.Evaluates H e st v st' ∧ Quotes.Items H K.isStmt v items ∧ m = Quotes.spliceNodes {} items := by
  cases h with
  | block he hit =>
    simp at hx
    obtain ⟨-, rfl⟩ := hx
    exact ⟨_, _, he, hit, rfl⟩
  | _ => simp at hx

end Mcpyrate.QuoteOps
