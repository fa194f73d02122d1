import Verif.Spec.ExpandStatic
import Verif.Lemmas.QuoteCode
import Verif.Lemmas.ExpandFirst
import Verif.Lemmas.ExpanderMono
import Verif.Props.Unastify
import Verif.Props.Quotes
namespace Mcpyrate.ExpandStatic
open Py Expander QuoteOps

variable {υ σ : Type}

theorem run_followed {vis : Val → X υ Val} (k : Ret → Prog υ) (p : Prog υ) :
    run vis (followed k p) = (run vis p >>= fun r => run vis (k r)) := by
  have assoc : ∀ {α β : Type} (m : X υ α) (f : α → X υ β) (g : β → X υ Ret),
      ((m >>= f) >>= g) = (m >>= fun x => f x >>= g) := by
    intro α β m f g
    funext s
    change M.bind (M.bind m f) g s = M.bind m (fun x => M.bind (f x) g) s
    simp only [M.bind]
    cases m s with
    | none => rfl
    | some p => obtain ⟨r, s1⟩ := p; cases r <;> rfl
  induction p with
  | ret r => rfl
  | raise e => rfl
  | visit mode t f ih => 
    change (M.attempt _ >>= fun r => run vis (followed k (f r))) = ((M.attempt _ >>= fun r => run vis (f r)) >>= _)
    rw [assoc]; simp only [ih]
  | withHook h body f _ ih =>
    change (M.attempt _ >>= fun r => run vis (followed k (f r))) = ((M.attempt _ >>= fun r => run vis (f r)) >>= _)
    rw [assoc]; simp only [ih]
  | get f ih =>
    change (M.get >>= fun s => run vis (followed k (f s.recursive s.world))) = ((M.get >>= fun s => run vis (f s.recursive s.world)) >>= _)
    rw [assoc]; simp only [ih]
  | put w p ih =>
    change (M.modify _ >>= fun _ => run vis (followed k p)) = ((M.modify _ >>= fun _ => run vis p) >>= _)
    rw [assoc]; simp only [ih]
  | visitNew b t f ih =>
    change (M.attempt _ >>= fun r => run vis (followed k (f r))) = ((M.attempt _ >>= fun r => run vis (f r)) >>= _)
    rw [assoc]; simp only [ih]
  | hang => rfl

theorem run_mono (E : Env υ) {n m : Nat} (h : n ≤ m) (p : Prog υ) {s s' : St υ} {r : Except Exc Ret}
    (hr : run (visit E n) p s = some (r, s')) : run (visit E m) p s = some (r, s') :=
  run_le (visit_mono E h) p s _ hr

theorem Does.det {E : Env υ} {p : Prog υ} {s s1 s2 : St υ} {r1 r2 : Except Exc Ret} (h1 : Does E p s r1 s1)
    (h2 : Does E p s r2 s2) : r1 = r2 ∧ s1 = s2 := by
  obtain ⟨n, h1⟩ := h1
  obtain ⟨m, h2⟩ := h2
  have a := run_mono E (Nat.le_max_left n m) p h1
  rw [run_mono E (Nat.le_max_right n m) p h2] at a
  cases a; exact ⟨rfl, rfl⟩

/-- The code for a plain tree. -/
def codeOf (filename : String) (c : Val) : Val :=
  mk .Call [(.func, attrCode "splice_ast_literals"),
    (.args, .list [c, mk .Constant [(.value, .str filename), (.kind, .none)]]), (.keywords, .list [])]

theorem ofVal_codeOf (filename : String) (c : Val) : Obj.ofVal (codeOf filename c) =
    Quotes.callNode (Quotes.quotesAttr "splice_ast_literals") [.ofVal c, Quotes.constantNode (.str filename)] [] := rfl

theorem codey_codeOf {filename : String} {c : Val} (h : codey c = true) : codey (codeOf filename c) = true := by
  have := codey_attrCode "splice_ast_literals"
  simp [codeOf, codey, codeyF, codeyL, mk, codeClasses, h, this, fieldsOk]
  exact ⟨⟨rfl, rfl⟩, rfl⟩

/-- The compiler, on a plain tree. -/
theorem compile_static (L : Lib σ) (filename : String) (a : MArgs) (ha : a.synt = .expr) (x : Val) (hx : x.isAST = true)
    (hp : Quotes.parsed (.ofVal x) = true) (hc : Quotes.hasComplex (.ofVal x) = false) :
    ∃ c, (∀ B, Quotes.astify L.H B (.ofVal x) = pure (.ofVal c)) ∧ codey c = true ∧
      ∀ w, compile L filename a x w = some (.ok (codeOf filename c), w) := by
  obtain ⟨c, h1, h2, h3⟩ := astify_code L.H x hp hc
  refine ⟨c, h1, h2, fun w => ?_⟩
  have hck : checkCode c = .ok () := by
    unfold checkCode
    rw [(C10_check_no_markers isQuasi c (by cases c <;> first | rfl | cases h3)).2 (codey_noMarkers h2)]
  have hd : Markers.deleteMarkers isSearchDone x = .ok x := (parsed_Unmarked hp).del hx
  have has : astifyW L x w = some (.ok (.ofVal c), w) := by
    unfold astifyW; rw [h1]; rfl
  have hcode : ∀ v, asCode (.ofVal v) = .ok v := by
    intro v; unfold asCode; rw [toVal_of]
  unfold compile
  rw [hd]
  show (astifyW L x >>= _) w = _
  change M.bind (astifyW L x) _ w = _
  simp only [M.bind, has]
  rw [← ofVal_codeOf, hcode, hcode]
  change (M.ofExcept (checkCode c) >>= fun _ => (if a.synt = Syn.block then M.ofExcept (assign a.optionalVars (codeOf filename c))
    else pure (codeOf filename c) : M Exc (W σ) Val)) w = _
  rw [hck, if_neg (by rw [ha]; decide)]
  rfl

theorem plain_clean {L : Lib σ} {E : Env (User σ)} {w : W σ} (hl : Dict.WF w.locals) (hg : Dict.WF w.globals) {x : Val}
    (h : Plain L E w x) : Clean E { w with locals := quoteBindings L w } x := by
  intro u hu
  exact ⟨h.wellFormed u hu.reach, h.noOps _ (ExpandFirst.second hl hg (ops L)) u hu.reach⟩

theorem clean_bound {E : Env υ} {w w' : World υ} (h : ∀ k, isbound w' k = isbound w k) {x : Val} (hc : Clean E w x) :
    Clean E w' x := fun u hu => ⟨(hc u hu).1, fun hi => (hc u hu).2 (invocation_bound h hi)⟩

/-- A quote of a plain tree. -/
theorem quote_static (L : Lib σ) (E : Env (User σ)) (filename : String) (a : MArgs) (ha : a.synt = .expr)
    (s : Expander.St (User σ)) (h0 : value s.world = 0) (hl : Dict.WF s.world.locals) (hg : Dict.WF s.world.globals)
    (h : Plain L E s.world a.tree) :
    ∃ c, (∀ B, Quotes.astify L.H B (.ofVal a.tree) = pure (.ofVal c)) ∧ codey c = true ∧
      ∀ n, a.tree.size ≤ n → run (visit E n) (quote L filename a) s = some (.ok (.val (codeOf filename c)), s) := by
  obtain ⟨c, h1, h2, h3⟩ := compile_static L filename a ha a.tree h.isAST h.parsed h.noComplex
  refine ⟨c, h1, h2, fun n hn => ?_⟩
  unfold quote
  rw [if_pos (.inl ha)]
  change run (visit E n) (.visitNew (quoteBindings L s.world) a.tree (after (finishQuote L filename a)))
    { s with world := push (value s.world + 1) s.world } = _
  have hcl := plain_clean hl hg h
  rw [run_visitNew_of (s := { s with world := push (value s.world + 1) s.world }) (visit_clean E _ n a.tree (by have := h.isAST; cases hx : a.tree <;> first | rfl | (rw [hx] at this; cases this))
    (by intro e; have := h.isAST; rw [e] at this; cases this) (clean_bound (by intro _; rfl) hcl) hn)]
  change run (visit E n) (conclude (finishQuote L filename a a.tree _)) _ = _
  unfold finishQuote
  change run (visit E n) (conclude ((if _ then _ else compile L filename a a.tree : M Exc (W σ) Val) _)) _ = _
  rw [if_neg (by show ¬ (value s.world + 1 > 1); omega), h3]
  rfl

/-- Generated code is visited without effect. -/
theorem visitOnce_code {E : Env υ} {s : Expander.St υ} {c : Val} (hc : codey c = true) (ha : c.isAST = true)
    (hm : NotAMacro E s.world "mcpyrate") {n : Nat} (hn : c.size ≤ n) :
    visitMode (visit E n) .once c s = some (.ok (done c), s) := by
  have h := visit_clean E { s with recursive := false } n c (by cases c <;> first | rfl | cases ha)
    (by rintro rfl; cases ha) (codey_clean hc hm) hn
  unfold visitMode withMode
  simp only [M.bracket]
  rw [run_bind h]
  rfl

theorem unastifyW_code (L : Lib σ) (filename : String) {x c : Val} {w : W σ}
    (hp : Quotes.parsed (.ofVal x) = true) (hc : Quotes.hasComplex (.ofVal x) = false)
    (hl : Quotes.located (.ofVal x) = true) (h1 : Quotes.astify L.H none (.ofVal x) = pure (.ofVal c)) :
    unastifyW L (codeOf filename c) w = some (.ok x, w) := by
  obtain ⟨code, h2, h3⟩ := C33_parsed_partial L.H none (.ofVal x) hp hc hl
  rw [h1] at h2
  have : Obj.ofVal c = code := by
    have := congrFun h2 w.user.st
    change some (Except.ok (Obj.ofVal c), _) = some (Except.ok code, _) at this
    cases this; rfl
  subst this
  unfold unastifyW
  rw [ofVal_codeOf, Quotes.unastify_splice, h3]
  change (match (Obj.ofVal x).toVal with | some v => _ | none => _) = _
  rw [toVal_of]

/-- From quoted code to the expansion. -/
theorem run_expandS (L : Lib σ) (E : Env (User σ)) (filename : String) (layers : Layers) (a : MArgs)
    (ha : a.synt = .expr) (s : Expander.St (User σ)) (x c : Val) (hm : NotAMacro E s.world "mcpyrate")
    (hp : Quotes.parsed (.ofVal x) = true) (hc : Quotes.hasComplex (.ofVal x) = false)
    (hl : Quotes.located (.ofVal x) = true) (h1 : Quotes.astify L.H none (.ofVal x) = pure (.ofVal c))
    (hcc : codey c = true) (hat : a.tree = codeOf filename c) (n : Nat) (hn : (codeOf filename c).size ≤ n) :
    run (visit E n) (expandS L filename layers a) s = run (visit E n) (requote L filename layers a x) s := by
  unfold expandS
  rw [if_pos (.inl ha), if_neg (by rw [ha]; rintro ⟨h, -⟩; cases h), if_neg (by rw [ha]; rintro ⟨h, -⟩; cases h), hat]
  change (M.attempt (visitMode (visit E n) .once (codeOf filename c)) >>= _) s = _
  rw [run_bind (a := Except.ok (done (codeOf filename c))) (s' := s) (by
    simp only [M.attempt]; rw [visitOnce_code (codey_codeOf hcc) rfl hm hn])]
  change run (visit E n) (proceed (requote L filename layers a) (unastifyW L (codeOf filename c) s.world)) s = _
  rw [unastifyW_code L filename hp hc hl h1]
  rfl

theorem run_expandSq (L : Lib σ) (E : Env (User σ)) (filename : String) (layers : Layers) (a : MArgs)
    (ha : a.synt = .expr) (hv : a.optionalVars = none) (s : Expander.St (User σ)) (h0 : value s.world = 0)
    (hl : Dict.WF s.world.locals) (hg : Dict.WF s.world.globals)
    (hm : NotAMacro E s.world "mcpyrate") (h : Plain L E s.world a.tree) (hlo : Quotes.located (.ofVal a.tree) = true) :
    ∃ N, ∀ n, N ≤ n →
      run (visit E n) (expandSq L filename layers a) s = run (visit E n) (requote L filename layers a a.tree) s := by
  obtain ⟨c, h1, h2, h3⟩ := quote_static L E filename a ha s h0 hl hg h
  refine ⟨max a.tree.size (codeOf filename c).size, fun n hn => ?_⟩
  unfold expandSq
  rw [if_pos (.inl ha), run_followed, run_bind (h3 n (by omega))]
  have hno : noAsname { a with tree := codeOf filename c } = { a with tree := codeOf filename c } := by
    unfold noAsname; rw [hv]; cases a; simp_all
  dsimp only
  rw [hno, run_expandS L E filename layers { a with tree := codeOf filename c } ha s a.tree c hm h.parsed h.noComplex hlo (h1 none) h2 rfl
    n (by omega)]
  unfold requote; rfl

/-- The expansion and the second quote. -/
theorem does_requote (L : Lib σ) (E : Env (User σ)) (filename : String) (layers : Layers) (a : MArgs) (x : Val)
    (s s' : Expander.St (User σ)) (r : Except Exc Ret) :
    Does E (requote L filename layers a x) s r s' ↔
      (∃ e, Runs E layers.mode x s (.error e) s' ∧ r = .error e) ∨
      ∃ x' s1, Runs E layers.mode x s (.ok (layers.result x')) s1 ∧ Does E (quote L filename { a with tree := x' }) s1 r s' := by
  have key : ∀ n, run (visit E n) (requote L filename layers a x) s =
      match visitAs E n layers.mode x s with
      | none => none
      | some (.error e, s1) => some (.error e, s1)
      | some (.ok t, s1) => match layers with
        | .one => match attr t .body with
          | .error e => some (.error e, s1)
          | .ok b => run (visit E n) (quote L filename { a with tree := b }) s1
        | .all => run (visit E n) (quote L filename { a with tree := t }) s1 := by
    intro n
    cases layers with
    | one =>
      change M.bind (M.attempt (visitAs E n .once x)) _ s = _
      simp only [M.bind, M.attempt, Layers.mode]
      cases visitAs E n .once x s with
      | none => rfl
      | some p =>
        obtain ⟨r, s1⟩ := p
        cases r with
        | error e => rfl
        | ok t =>
          change run (visit E n) (match attr t .body with | .error e => _ | .ok b => _) s1 = _
          dsimp only
          cases attr t .body <;> rfl
    | all =>
      change M.bind (M.attempt (visitAs E n .recursively x)) _ s = _
      simp only [M.bind, M.attempt, Layers.mode]
      cases visitAs E n .recursively x s with
      | none => rfl
      | some p => obtain ⟨r, s1⟩ := p; cases r <;> rfl
  have hdone : ∀ n t s1, layers = .one → visitAs E n layers.mode x s = some (.ok t, s1) → ∃ x', t = done x' := by
    rintro n t s1 rfl h
    unfold visitAs visitMode withMode at h
    obtain ⟨s0, h, -⟩ := bracket_some (m := (visit E n x >>= fun r => pure (done r) : X (User σ) Val)) h
    obtain ⟨x', s2, -, h2⟩ := bind_ok (m := visit E n x) h
    have h3 : (some (.ok (done x'), s2) : Option (Except Exc Val × Expander.St (User σ))) = _ := h2
    cases h3; exact ⟨x', rfl⟩
  constructor
  · rintro ⟨n, h⟩
    rw [key] at h
    cases hv : visitAs E n layers.mode x s with
    | none => rw [hv] at h; cases h
    | some p =>
      obtain ⟨o, s1⟩ := p
      rw [hv] at h
      cases o with
      | error e => cases h; exact .inl ⟨e, ⟨n, hv⟩, rfl⟩
      | ok t =>
        cases layers with
        | one =>
          obtain ⟨x', rfl⟩ := hdone n t s1 rfl hv
          exact .inr ⟨x', s1, ⟨n, hv⟩, n, h⟩
        | all => exact .inr ⟨t, s1, ⟨n, hv⟩, n, h⟩
  · rintro (⟨e, ⟨n, hv⟩, rfl⟩ | ⟨x', s1, ⟨n, hv⟩, m, h⟩)
    · exact ⟨n, by rw [key, hv]⟩
    · refine ⟨max n m, ?_⟩
      have hv' := visitAs_mono E (Nat.le_max_left n m) layers.mode x s _ hv
      rw [key, hv']
      have := run_mono E (Nat.le_max_right n m) _ h
      cases layers <;> exact this

theorem does_eventually {E : Env υ} {p q : Prog υ} {s : St υ} {N : Nat}
    (h : ∀ n, N ≤ n → run (visit E n) p s = run (visit E n) q s) (r : Except Exc Ret) (s' : St υ) :
    Does E p s r s' ↔ Does E q s r s' := by
  constructor
  · rintro ⟨n, hn⟩
    exact ⟨max n N, by rw [← h _ (Nat.le_max_right _ _)]; exact run_mono E (Nat.le_max_left _ _) p hn⟩
  · rintro ⟨n, hn⟩
    exact ⟨max n N, by rw [h _ (Nat.le_max_right _ _)]; exact run_mono E (Nat.le_max_left _ _) q hn⟩

end Mcpyrate.ExpandStatic
namespace Mcpyrate.ExpandStatic
open Py Expander QuoteOps

variable {υ σ : Type}

/-! ### block mode -/

/-- The nodes that a quote makes in block mode. -/
def blockCls : Cls → Bool
  | .py .Assign => true
  | .marker "QuasiquoteSearchDone" => true
  | _ => false

theorem replaceTree_cls {t x v : Val} (h : replaceTree t x = .ok v) : v.hasCls blockCls = true := by
  unfold replaceTree at h
  split at h <;> cases h <;> rfl

theorem finishQuote_cls {L : Lib σ} {filename : String} {a : MArgs} (ha : a.synt = .block) {t v : Val} {w w' : W σ}
    (h : finishQuote L filename a t w = some (.ok v, w')) : v.hasCls blockCls = true := by
  change (if value w > 1 then M.ofExcept (replaceTree a.invocation t) else compile L filename a t : M Exc (W σ) Val) w = _ at h
  split at h
  · exact replaceTree_cls (ofExceptW_ok h).1
  · unfold compile at h
    obtain ⟨d, w1, -, k1⟩ := bindW_ok h
    obtain ⟨y, w2, -, k2⟩ := bindW_ok k1
    obtain ⟨code, w3, -, k3⟩ := bindW_ok k2
    obtain ⟨-, w4, -, k4⟩ := bindW_ok k3
    obtain ⟨tree, w5, -, k5⟩ := bindW_ok k4
    rw [if_pos ha] at k5
    have := (ofExceptW_ok k5).1
    unfold assign at this
    split at this
    · cases this
    · split at this
      · cases this
      · split at this
        · cases this; rfl
        · cases this

theorem quote_cls {L : Lib σ} {filename : String} {a : MArgs} (ha : a.synt = .block) {vis : Val → X (User σ) Val}
    {s s' : Expander.St (User σ)} {ret : Ret} (h : run vis (quote L filename a) s = some (.ok ret, s')) :
    ∃ v, ret = .val v ∧ v.hasCls blockCls = true := by
  unfold quote at h
  rw [if_pos (.inr ha)] at h
  obtain ⟨r, s1, -, h2⟩ := run_visitNew (s := { s with world := push (value s.world + 1) s.world }) h
  obtain ⟨x, v, w, -, h3, rfl⟩ := run_after h2
  exact ⟨v, rfl, finishQuote_cls ha h3⟩

theorem visit_cls {E : Env υ} {n : Nat} {t r : Val} {s s' : St υ} (ht : t.hasCls blockCls = true)
    (h : visit E n t s = some (.ok r, s')) : r.hasCls blockCls = true := by
  cases n with
  | zero => cases h
  | succ n =>
    cases t with
    | const => cases ht
    | list => cases ht
    | node c l fs =>
      change (if noBindings s.world || isDone (.node c l fs) then (pure (.node c l fs) : X υ Val) else visitNode E (visit E n) (.node c l fs)) s = _ at h
      split at h
      · cases h; exact ht
      · have h' : genericVisit (visit E n) (.node c l fs) s = some (.ok r, s') := by
          revert h
          cases c with
          | marker m => exact id
          | py k => cases k <;> first | exact id | cases ht
        obtain ⟨fs', s1, -, h2⟩ := bind_ok (m := genericFields (visit E n) fs) h'
        have h3 : (some (.ok (.node c l fs'), s1) : Option (Except Exc Val × St υ)) = _ := h2
        cases h3; exact ht

theorem unastifyW_cls (L : Lib σ) {t : Val} (ht : t.hasCls blockCls = true) (w : W σ) :
    ∃ w', unastifyW L t w = some (.error (.py .typeError), w') := by
  have : Quotes.unastify L.H (.ofVal t) = M.throw .typeError := by
    cases t with
    | const => cases ht
    | list => cases ht
    | node c l fs =>
      cases c with
      | marker m => rfl
      | py k => cases k <;> first | rfl | cases ht
  unfold unastifyW
  rw [this]
  exact ⟨_, rfl⟩

/-- `expandS` on such a node does not return. -/
theorem expandS_cls {L : Lib σ} {E : Env (User σ)} {filename : String} {layers : Layers} {a : MArgs} {n : Nat}
    {s s' : Expander.St (User σ)} {r : Except Exc Ret} (ht : a.tree.hasCls blockCls = true)
    (h : run (visit E n) (expandS L filename layers a) s = some (r, s')) : ∃ e, r = .error e := by
  unfold expandS at h
  split at h
  · split at h
    · cases h; exact ⟨_, rfl⟩
    · split at h
      · cases h; exact ⟨_, rfl⟩
      · change M.bind (M.attempt (visitMode (visit E n) .once a.tree)) _ s = _ at h
        simp only [M.bind, M.attempt] at h
        cases hv : visitMode (visit E n) .once a.tree s with
        | none => rw [hv] at h; cases h
        | some p =>
          obtain ⟨o, s1⟩ := p
          rw [hv] at h
          cases o with
          | error e => cases h; exact ⟨_, rfl⟩
          | ok t =>
            unfold visitMode withMode at hv
            obtain ⟨s0, h1, -⟩ := bracket_some (m := (visit E n a.tree >>= fun r => pure (done r) : X (User σ) Val)) hv
            obtain ⟨x', s2, h2, h3⟩ := bind_ok (m := visit E n a.tree) h1
            have h4 : (some (.ok (done x'), s2) : Option (Except Exc Val × Expander.St (User σ))) = _ := h3
            cases h4
            have hx := visit_cls ht h2
            obtain ⟨w', hw⟩ := unastifyW_cls L hx s1.world
            change run (visit E n) (proceed (requote L filename layers a) (unastifyW L x' s1.world)) s1 = _ at h
            rw [hw] at h
            cases h; exact ⟨_, rfl⟩
  · cases h; exact ⟨_, rfl⟩

theorem expandSq_block {L : Lib σ} {E : Env (User σ)} {filename : String} {layers : Layers} {a : MArgs} {n : Nat}
    {s s' : Expander.St (User σ)} {r : Except Exc Ret} (ha : a.synt = .block)
    (h : run (visit E n) (expandSq L filename layers a) s = some (r, s')) : ∃ e, r = .error e := by
  unfold expandSq at h
  rw [if_pos (.inr ha), run_followed] at h
  change M.bind _ _ s = _ at h
  simp only [M.bind] at h
  cases hq : run (visit E n) (quote L filename a) s with
  | none => rw [hq] at h; cases h
  | some p =>
    obtain ⟨o, s1⟩ := p
    rw [hq] at h
    cases o with
    | error e => cases h; exact ⟨_, rfl⟩
    | ok ret =>
      obtain ⟨v, rfl, hv⟩ := quote_cls ha hq
      exact expandS_cls (a := noAsname { a with tree := v }) hv h

/-- An argument that is not quoted code. -/
theorem expandS_rejects {L : Lib σ} {E : Env (User σ)} {filename : String} {layers : Layers} {a : MArgs} {x : Val}
    {e : Err} {s s1 : Expander.St (User σ)} (ha : a.synt = .expr) (hv : Runs E .once a.tree s (.ok (done x)) s1)
    (hx : Quotes.unastify L.H (.ofVal x) = M.throw e) :
    Does E (expandS L filename layers a) s (.error (.py e)) s1 := by
  obtain ⟨n, hv⟩ := hv
  refine ⟨n, ?_⟩
  unfold expandS
  rw [if_pos (.inl ha), if_neg (by rw [ha]; rintro ⟨h, -⟩; cases h), if_neg (by rw [ha]; rintro ⟨h, -⟩; cases h)]
  change (M.attempt (visitAs E n .once a.tree) >>= _) s = _
  rw [run_bind (a := Except.ok (done x)) (s' := s1) (by simp only [M.attempt]; rw [hv])]
  change run (visit E n) (proceed (requote L filename layers a) (unastifyW L x s1.world)) s1 = _
  have : unastifyW L x s1.world = some (.error (.py e), s1.world) := by
    unfold unastifyW; rw [hx]; rfl
  rw [this]
  rfl

/-- A block mode quote without an as-part does not return, outside of quotes. -/
theorem quote_noName {L : Lib σ} {E : Env (User σ)} {filename : String} {a : MArgs} {n : Nat} (hk : E.Keeps levels)
    {s s' : Expander.St (User σ)} {r : Except Exc Ret} (ha : a.synt = .block) (hv : a.optionalVars = some .none)
    (h0 : value s.world = 0) (h : run (visit E n) (quote L filename a) s = some (r, s')) : ∃ e, r = .error e := by
  cases r with
  | error e => exact ⟨e, rfl⟩
  | ok ret =>
    exfalso
    unfold quote at h
    rw [if_pos (.inr ha)] at h
    obtain ⟨r, s1, h1, h2⟩ := run_visitNew (s := { s with world := push (value s.world + 1) s.world }) h
    obtain ⟨x, v, w, -, h3, rfl⟩ := run_after h2
    have hl : levels s1.world = _ := visit_keeps levels_local hk n _ _ _ _ h1
    have hval : value ({ s1.world with locals := s.world.locals } : W σ) = 1 := by
      have : value s1.world = value s.world + 1 := by rw [value_levels, hl]; rfl
      rw [h0] at this; exact this
    change (if value _ > 1 then M.ofExcept (replaceTree a.invocation x) else compile L filename a x) _ = _ at h3
    have h5 := h3
    rw [if_neg (by show ¬ value ({ s1.world with locals := s.world.locals } : W σ) > 1; rw [hval]; omega)] at h5
    unfold compile at h5
    obtain ⟨d, w1, -, k1⟩ := bindW_ok h5
    obtain ⟨y, w2, -, k2⟩ := bindW_ok k1
    obtain ⟨code, w3, -, k3⟩ := bindW_ok k2
    obtain ⟨-, w4, -, k4⟩ := bindW_ok k3
    obtain ⟨tree, w5, -, k5⟩ := bindW_ok k4
    rw [if_pos ha, hv] at k5
    have := (ofExceptW_ok k5).1
    cases this

theorem unastifyW_levels {L : Lib σ} {t : Val} {w w' : W σ} {r : Except Exc Val} (h : unastifyW L t w = some (r, w')) :
    levels w' = levels w := by
  unfold unastifyW at h
  split at h
  · cases h
  · cases h; rfl
  · split at h <;> cases h <;> rfl

/-- `expandS` as a block macro does not return, outside of quotes. -/
theorem expandS_block {L : Lib σ} {E : Env (User σ)} {filename : String} {layers : Layers} {a : MArgs} {n : Nat}
    (hk : E.Keeps levels) {s s' : Expander.St (User σ)} {r : Except Exc Ret} (ha : a.synt = .block) (h0 : value s.world = 0)
    (h : run (visit E n) (expandS L filename layers a) s = some (r, s')) : ∃ e, r = .error e := by
  unfold expandS at h
  rw [if_pos (.inr ha)] at h
  split at h
  · cases h; exact ⟨_, rfl⟩
  · split at h
    · cases h; exact ⟨_, rfl⟩
    · rename_i hne hsome
      have hv : a.optionalVars = some .none := Classical.byContradiction fun hc => hsome ⟨ha, hc⟩
      have hlev : ∀ mode t (s s' : Expander.St (User σ)) o, visitMode (visit E n) mode t s = some (o, s') →
          levels s'.world = levels s.world := fun mode t s s' o h' =>
        visitMode_pres (keeps_rel levels_local).toStep (visit_keeps levels_local hk n) mode t s _ _ h'
      change M.bind (M.attempt (visitMode (visit E n) .once a.tree)) _ s = _ at h
      simp only [M.bind, M.attempt] at h
      cases hv1 : visitMode (visit E n) .once a.tree s with
      | none => rw [hv1] at h; cases h
      | some p =>
        obtain ⟨o, s1⟩ := p
        have l1 := hlev _ _ _ _ _ hv1
        rw [hv1] at h
        cases o with
        | error e => cases h; exact ⟨_, rfl⟩
        | ok t =>
          change run (visit E n) (uncompiled L (requote L filename layers a) t) s1 = _ at h
          unfold uncompiled at h
          cases hb : attr t .body with
          | error e => rw [hb] at h; cases h; exact ⟨_, rfl⟩
          | ok b =>
            rw [hb] at h
            change run (visit E n) (proceed (requote L filename layers a) (unastifyW L b s1.world)) s1 = _ at h
            cases hu : unastifyW L b s1.world with
            | none => rw [hu] at h; cases h
            | some q =>
              obtain ⟨o, w⟩ := q
              have l2 := unastifyW_levels hu
              rw [hu] at h
              cases o with
              | error e => cases h; exact ⟨_, rfl⟩
              | ok x =>
                have h' : Does E (requote L filename layers a x) { s1 with world := w } r s' := ⟨n, h⟩
                rw [does_requote] at h'
                rcases h' with ⟨e, -, rfl⟩ | ⟨x', s2, ⟨m, h3⟩, m', h4⟩
                · exact ⟨_, rfl⟩
                · have l3 : levels s2.world = levels w :=
                    visitMode_pres (keeps_rel levels_local).toStep (visit_keeps levels_local hk m) layers.mode x _ _ _ h3
                  refine quote_noName (a := { a with tree := x' }) hk ha hv ?_ h4
                  rw [value_levels, l3, l2, l1, ← value_levels, h0]

end Mcpyrate.ExpandStatic
