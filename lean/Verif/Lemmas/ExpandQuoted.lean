import Verif.Lemmas.QuoteCodes
import Verif.Lemmas.ExpandStatic
import Verif.Lemmas.ExpanderSyntax
import Verif.Props.FixLocations
/-
`expands[q[x]]`: the quote inside is expanded first.
-/
namespace Mcpyrate.ExpandStatic
open Py Expander QuoteOps

variable {υ σ : Type}

/-! ### `fix_ctx` succeeds on generated code -/

mutual
/-- Every node has the fields that `fix_ctx` looks at. -/
def ready : Val → Bool
  | .const _ => true
  | .list xs => readyL xs
  | .node c _ fs => (FixCtx.required c).all (fun f => (fs.lookup f).isSome) && readyF fs
def readyF : List (F × Val) → Bool
  | [] => true
  | (_, x) :: r => ready x && readyF r
def readyL : List Val → Bool
  | [] => true
  | .node c l fs :: r => ready (.node c l fs) && readyL r
  | .const _ :: r => readyL r
  | .list _ :: r => readyL r
end

theorem lookup_eraseLoc (fs : List (F × Val)) (f : F) :
    ((FixLocations.eraseLocF fs).lookup f).isSome = (fs.lookup f).isSome := by
  induction fs with
  | nil => rfl
  | cons p r ih =>
    obtain ⟨g, v⟩ := p
    cases v <;> simp only [FixLocations.eraseLocF, List.lookup_cons] <;> split <;> first | rfl | exact ih

mutual
theorem ready_eraseLoc (t : Val) : ready (FixLocations.eraseLoc t) = ready t := by
  match t with
  | .const _ => rfl
  | .list xs => simp only [FixLocations.eraseLoc, ready]; exact readyL_eraseLoc xs
  | .node c l fs =>
    simp only [FixLocations.eraseLoc, ready, lookup_eraseLoc]
    rw [readyF_eraseLoc fs]
theorem readyF_eraseLoc (fs : List (F × Val)) : readyF (FixLocations.eraseLocF fs) = readyF fs := by
  match fs with
  | [] => rfl
  | (f, .const c) :: r => simp only [FixLocations.eraseLocF, readyF, readyF_eraseLoc r]
  | (f, .list xs) :: r => simp only [FixLocations.eraseLocF, readyF, readyF_eraseLoc r, ready, readyL_eraseLoc xs]
  | (f, .node c l gs) :: r => simp only [FixLocations.eraseLocF, readyF, readyF_eraseLoc r, ready_eraseLoc (.node c l gs)]
theorem readyL_eraseLoc (xs : List Val) : readyL (FixLocations.eraseLocL xs) = readyL xs := by
  match xs with
  | [] => rfl
  | .const c :: r => simp only [FixLocations.eraseLocL, readyL, readyL_eraseLoc r]
  | .list ys :: r => simp only [FixLocations.eraseLocL, readyL, readyL_eraseLoc r]
  | .node c l gs :: r =>
    have := ready_eraseLoc (.node c l gs)
    simp only [FixLocations.eraseLoc] at this
    simp only [FixLocations.eraseLocL, FixLocations.eraseLoc, readyL, readyL_eraseLoc r, this]
end

theorem readyF_mem {fs : List (F × Val)} (h : readyF fs = true) {f : F} {x : Val} (hx : (f, x) ∈ fs) : ready x = true := by
  induction fs with
  | nil => cases hx
  | cons p r ih =>
    obtain ⟨g, y⟩ := p
    simp only [readyF, Bool.and_eq_true] at h
    rcases List.mem_cons.mp hx with e | hx
    · cases e; exact h.1
    · exact ih h.2 hx

theorem readyL_mem {xs : List Val} (h : readyL xs = true) {x : Val} (hx : x ∈ xs) (ha : x.isAST = true) : ready x = true := by
  induction xs with
  | nil => cases hx
  | cons y r ih =>
    cases y with
    | const =>
      rcases List.mem_cons.mp hx with rfl | hx
      · cases ha
      · exact ih h hx
    | list =>
      rcases List.mem_cons.mp hx with rfl | hx
      · cases ha
      · exact ih h hx
    | node c l fs =>
      simp only [readyL, Bool.and_eq_true] at h
      rcases List.mem_cons.mp hx with rfl | hx
      · exact h.1
      · exact ih h.2 hx

theorem ready_reach {t u : Val} (ht : ready t = true) (h : Reach t u) : ready u = true := by
  induction h with
  | refl => exact ht
  | step hc _ ih =>
    apply ih
    cases hc with
    | @field c l fs f _ hm _ =>
      simp only [ready, Bool.and_eq_true] at ht
      exact readyF_mem ht.2 hm
    | @item c l fs f xs _ hm hx ha =>
      simp only [ready, Bool.and_eq_true] at ht
      have := readyF_mem ht.2 hm
      exact readyL_mem (by simpa only [ready] using this) hx ha
    | elt hx ha => exact readyL_mem (by simpa only [ready] using ht) hx ha

theorem fixCtx_ready {t : Val} (ha : t.isAST = true) (h : ready t = true) :
    FixCtx.fixCtx t = .ok (tmap FixCtx.out .Load t) := by
  have ht : t.isTree = true := by cases t <;> first | rfl | cases ha
  obtain ⟨t', h1⟩ := walk_ok (step := FixCtx.step) K.Load t ht (fun s c l fs hr => by
    have := ready_reach h hr
    simp only [ready, Bool.and_eq_true] at this
    exact ⟨_, by unfold FixCtx.step; rw [if_pos this.1]⟩)
  rw [← walk_tmap FixCtx.total .Load t t' h1 ht]
  exact h1

mutual
theorem codey_ready (t : Val) (h : codey t = true) : ready t = true := by
  match t with
  | .const _ => rfl
  | .list xs => simp only [codey] at h; simp only [ready]; exact codeyL_ready xs h
  | .node (.marker _) l fs => cases h
  | .node (.py k) l fs =>
    simp only [codey, Bool.and_eq_true] at h
    simp only [ready, Bool.and_eq_true]
    refine ⟨?_, codeyF_ready fs h.2⟩
    have h1 := h.1.1.1
    cases k <;> first | rfl | (exact absurd h1.1 (by decide)) | simpa [FixCtx.required] using h1.2
theorem codeyF_ready (fs : List (F × Val)) (h : codeyF fs = true) : readyF fs = true := by
  match fs with
  | [] => rfl
  | (f, x) :: r =>
    simp only [codeyF, Bool.and_eq_true] at h
    simp only [readyF, codey_ready x h.1, codeyF_ready r h.2, Bool.and_self]
theorem codeyL_ready (xs : List Val) (h : codeyL xs = true) : readyL xs = true := by
  match xs with
  | [] => rfl
  | .const c :: r =>
    simp only [codeyL, Bool.and_eq_true] at h
    simp only [readyL]; exact codeyL_ready r h.2
  | .list ys :: r =>
    simp only [codeyL, Bool.and_eq_true] at h
    simp only [readyL]; exact codeyL_ready r h.2
  | .node c l gs :: r =>
    simp only [codeyL, Bool.and_eq_true] at h
    simp only [readyL, codey_ready (.node c l gs) h.1, codeyL_ready r h.2, Bool.and_self]
end

/-! ### the expansion of the quote is still quoted code -/

/-- `c` is a call of `splice_ast_literals` on code for `x`. -/
def Spliced (x c : Val) : Prop :=
  ∃ l f y r ks, c = .node (.py .Call) l [(.func, f), (.args, .list (y :: r)), (.keywords, ks)] ∧
    Refers ["mcpyrate", "quotes", "splice_ast_literals"] f ∧ Codes x y ∧ ∃ ys, ks = .list ys

theorem Spliced.tmap {τ : Type} {out : τ → Cls → Loc → Fields → Out τ} (ho : Slight out) {x c : Val} (h : Spliced x c)
    (hl : Quotes.located (.ofVal x) = true) (s : τ) : Spliced x (tmap out s c) := by
  obtain ⟨l, f, y, r, _, rfl, hf, hy, ys, rfl⟩ := h
  rw [Py.tmap, tmapF_node _ _ hf.isAST (ho.leaf _ _ _ _ _ _ (by decide)), tmapF_list _ _ (ho.leaf _ _ _ _ _ _ (by decide)),
    tmapF_list _ _ (ho.leaf _ _ _ _ _ _ (by decide)), ho.noExtra _ _ _ _ rfl, tmapL_node _ _ hy.isAST]
  exact ⟨_, _, _, _, _, rfl, hf.tmap ho _, Codes.tmap ho x y hy hl _, _, rfl⟩

theorem Spliced.unastify (H : Quotes.Host σ) {x c : Val} (h : Spliced x c) (hp : Quotes.parsed (.ofVal x) = true)
    (hl : Quotes.located (.ofVal x) = true) : Quotes.unastify H (.ofVal c) = pure (.ofVal x) := by
  obtain ⟨l, f, y, r, _, rfl, hf, hy, ys, rfl⟩ := h
  have e : Quotes.unastify H (.ofVal (.node (.py .Call) l [(.func, f), (.args, .list (y :: r)), (.keywords, .list ys)])) =
      if Quotes.dotted (.ofVal f) [] = some ["mcpyrate", "quotes", "splice_ast_literals"] then Quotes.unastify H (.ofVal y)
      else _ := rfl
  rw [e, if_pos (show Quotes.dotted (.ofVal f) [] = some ["mcpyrate", "quotes", "splice_ast_literals"] from hf.dotted [])]
  exact Codes.unastify H x y hy hp hl

theorem spliced_codeOf {filename : String} {x c : Val} (h : Codes x c) : Spliced x (codeOf filename c) :=
  ⟨_, _, _, _, _, rfl, .attr (p := ["mcpyrate", "quotes"]) (.attr (p := ["mcpyrate"]) (.name .nil) .nil) .nil, h, _, rfl⟩

/-- What the expander makes of the return value of the quote. -/
theorem visitExpansion_code {vis : Val → X υ Val} {filename : String} {x c target : Val} {s : St υ}
    (hs : s.recursive = false) (hc : codey c = true) (h : Codes x c) (hl : Quotes.located (.ofVal x) = true) :
    ∃ c', visitExpansion vis (codeOf filename c) target s = some (.ok c', s) ∧ Spliced x c' ∧ c'.isAST = true := by
  have hr := codey_ready _ (codey_codeOf (filename := filename) hc)
  have key : ∀ e1, FixLocations.fixLocations (codeOf filename c) (locOf target) .reference = .ok e1 → ready e1 = true →
      e1.isAST = true → Spliced x e1 →
      ∃ c', visitExpansion vis (codeOf filename c) target s = some (.ok c', s) ∧ Spliced x c' ∧ c'.isAST = true := by
    intro e1 h1 h2 h3 h4
    refine ⟨_, ?_, h4.tmap slight_ctx hl .Load, by cases e1 <;> first | rfl | cases h3⟩
    unfold visitExpansion
    rw [if_neg (by show ¬ (false = true); decide), run_ofExcept (a := e1) (by rw [h1]; rfl),
      run_ofExcept (a := Py.tmap FixCtx.out .Load e1) (by rw [fixCtx_ready h3 h2]; rfl), run_get, hs]
    rfl
  by_cases hloc : FixLocations.Located (locOf target)
  · have h1 := FixLocations.fixLocations_eq (codeOf filename c) (locOf target) .reference rfl hloc
    refine key _ h1 ?_ rfl ((spliced_codeOf h).tmap slight_loc hl _)
    rw [← ready_eraseLoc, FixLocations.erase_tmap, ready_eraseLoc]; exact hr
  · exact key _ (C14_no_reference _ _ _ hloc) hr rfl (spliced_codeOf h)

/-- The code for a plain, located tree. -/
theorem quote_codes (L : Lib σ) (E : Env (User σ)) (filename : String) (a : MArgs) (ha : a.synt = .expr)
    (s : Expander.St (User σ)) (h0 : value s.world = 0) (hl : Dict.WF s.world.locals) (hg : Dict.WF s.world.globals)
    (h : Plain L E s.world a.tree) (hlo : Quotes.located (.ofVal a.tree) = true) :
    ∃ c, Codes a.tree c ∧ codey c = true ∧
      ∀ n, a.tree.size ≤ n → run (visit E n) (quote L filename a) s = some (.ok (.val (codeOf filename c)), s) := by
  obtain ⟨c, h1, h2, h3⟩ := quote_static L E filename a ha s h0 hl hg h
  obtain ⟨c2, h4, h5⟩ := astify_codes L.H a.tree h.parsed h.noComplex hlo
  have : c = c2 := by
    have := h1 none
    rw [h4] at this
    have := congrFun this s.world.user.st
    change some (Except.ok (Obj.ofVal c2), _) = some (Except.ok (Obj.ofVal c), _) at this
    injection this with this
    injection this with this
    injection this with this
    exact (ofVal_inj this).symm
  subst this
  exact ⟨c, h5, h2, h3⟩

theorem runs_quote (L : Lib σ) (E : Env (User σ)) (hE : HasOps L E) (s : Expander.St (User σ)) (hh : s.hook = none)
    (h0 : value s.world = 0) (hl : Dict.WF s.world.locals) (hg : Dict.WF s.world.globals) (t c0 : Val) (k : String) (a : MArgs)
    (hw : WellFormed t) (hi : Invokes E s.world t k (L.id .q) a c0) (hb : ¬ BadCall c0) (ha : a.synt = .expr)
    (h : Plain L E s.world a.tree) (hlo : Quotes.located (.ofVal a.tree) = true) :
    ∃ c', Spliced a.tree c' ∧ c'.isAST = true ∧ Runs E .once t s (.ok (done c')) (logged s false k (L.id .q) a) := by
  obtain ⟨h1, h2, h3⟩ := invokes_node hi
  let s0 : Expander.St (User σ) := { s with recursive := false }
  have happ := ((visitNode_invokes (E := E) (s := s0) (vis := visit E a.tree.size) hw hi).2.1 hb)
  obtain ⟨c, k1, k2, k3⟩ := quote_codes L E E.filename a ha { logged s0 false k (L.id .q) a with depth := s.depth + 1 } h0 hl hg h hlo
  obtain ⟨c', k4, k5, k6⟩ := visitExpansion_code (vis := visit E a.tree.size) (filename := E.filename) (target := a.invocation)
    (s := logged s0 false k (L.id .q) a) rfl k2 k1 hlo
  refine ⟨c', k5, k6, a.tree.size + 1, ?_⟩
  have hrun := k3 a.tree.size (Nat.le_refl _)
  have htry : expandTry E (visit E a.tree.size) k a s0 = some (.ok (codeOf E.filename c), logged s0 false k (L.id .q) a) := by
    have hfn : (E.macros (L.id .q)).fn a = quote L E.filename a := by rw [hE .q]; rfl
    have happl : applyMacro E (visit E a.tree.size) (L.id .q) k a s0 =
        some (.ok (.val (codeOf E.filename c)), logged s0 false k (L.id .q) a) := by
      unfold applyMacro
      rw [run_get]
      change (runNested (visit E a.tree.size) ((E.macros (L.id .q)).fn a) >>= _) { s0 with log := s0.log ++ [⟨k, L.id .q, a, s0.depth, s0.recursive, isbound s0.world k⟩] } = _
      have hb0 : isbound s0.world k = some (L.id .q) := h3
      rw [hb0, hfn]
      rw [run_bind (a := Ret.val (codeOf E.filename c)) (s' := logged s0 false k (L.id .q) a) (by
        unfold runNested M.bracket
        have hrun' : run (visit E a.tree.size) (quote L E.filename a) { s0 with log := s0.log ++ [⟨k, L.id .q, a, s0.depth, s0.recursive, some (L.id .q)⟩], depth := s0.depth + 1 } = _ := hrun
        dsimp only at hrun' ⊢
        rw [hrun']
        rfl)]
      rw [run_get]
      change (match s.hook, s.hook with | none, _ => _ | some _, none => _ | some h, some _ => _ : X (User σ) Ret) _ = _
      rw [hh]
      rfl
    unfold expandTry
    rw [run_get]
    change (match isbound s0.world k with | none => _ | some id => _ : X (User σ) Val) s0 = _
    have hb0 : isbound s0.world k = some (L.id .q) := h3
    rw [hb0]
    change (applyMacro E (visit E a.tree.size) (L.id .q) k a >>= _) s0 = _
    rw [run_bind happl]
    rfl
  have hexp : expand E (visit E a.tree.size) k a s0 = some (.ok c', logged s0 false k (L.id .q) a) := by
    unfold expand
    rw [run_bind (a := Except.ok (codeOf E.filename c)) (s' := logged s0 false k (L.id .q) a) (by
      simp only [M.attempt]; rw [htry])]
    exact k4
  have hv : visit E (a.tree.size + 1) t s0 = some (.ok c', logged s0 false k (L.id .q) a) := by
    rw [visit_node (s := s0) h1 h2 (bound_noBindings h3), happ]
    unfold expandIn
    rw [if_neg (by rw [ha]; decide), run_bind hexp]
    unfold afterExpand
    rw [ha]
    change some (Except.ok (if c'.isNone = true then _ else c'), _) = _
    rw [if_neg (by cases c' with | node => simp [Val.isNone] | const => cases k6 | list => cases k6)]
  unfold visitAs visitMode withMode
  simp only [M.bracket]
  rw [run_bind hv]
  rfl

/-- `expands[t]`, where `t` is expanded once to quoted code. -/
theorem run_expandS_once (L : Lib σ) (E : Env (User σ)) (filename : String) (layers : Layers) (a : MArgs)
    (ha : a.synt = .expr) (s s1 : Expander.St (User σ)) (x c : Val) (hv : Runs E .once a.tree s (.ok (done c)) s1)
    (hc : Spliced x c) (hp : Quotes.parsed (.ofVal x) = true) (hl : Quotes.located (.ofVal x) = true) :
    ∃ N, ∀ n, N ≤ n → run (visit E n) (expandS L filename layers a) s = run (visit E n) (requote L filename layers a x) s1 := by
  obtain ⟨N, hv⟩ := hv
  refine ⟨N, fun n hn => ?_⟩
  have hv := visitAs_mono E hn .once a.tree s _ hv
  unfold expandS
  rw [if_pos (.inl ha), if_neg (by rw [ha]; rintro ⟨h, -⟩; cases h), if_neg (by rw [ha]; rintro ⟨h, -⟩; cases h)]
  change (M.attempt (visitAs E n .once a.tree) >>= _) s = _
  rw [run_bind (a := Except.ok (done c)) (s' := s1) (by simp only [M.attempt]; rw [hv])]
  change run (visit E n) (proceed (requote L filename layers a) (unastifyW L c s1.world)) s1 = _
  have : unastifyW L c s1.world = some (.ok x, s1.world) := by
    unfold unastifyW
    rw [hc.unastify L.H hp hl]
    change (match (Obj.ofVal x).toVal with | some v => _ | none => _) = _
    rw [toVal_of]
  rw [this]
  rfl

/-- The same for other programs that differ in the state they start in. -/
theorem does_eventually' {E : Env υ} {p q : Prog υ} {s s1 : St υ} {N : Nat}
    (h : ∀ n, N ≤ n → run (visit E n) p s = run (visit E n) q s1) (r : Except Exc Ret) (s' : St υ) :
    Does E p s r s' ↔ Does E q s1 r s' := by
  constructor
  · rintro ⟨n, hn⟩
    exact ⟨max n N, by rw [← h _ (Nat.le_max_right _ _)]; exact run_mono E (Nat.le_max_left _ _) p hn⟩
  · rintro ⟨n, hn⟩
    exact ⟨max n N, by rw [h _ (Nat.le_max_right _ _)]; exact run_mono E (Nat.le_max_left _ _) q hn⟩

end Mcpyrate.ExpandStatic
