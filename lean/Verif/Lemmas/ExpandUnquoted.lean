import Verif.Lemmas.ExpandStatic
import Verif.Lemmas.QuasiquoteTemplate
import Verif.Props.QuoteOps
/-
Static expansion of quoted code that has unquotes (C53).
-/
namespace Mcpyrate.ExpandStatic
open Py Expander QuoteOps

variable {υ σ : Type}

mutual
theorem reloc_like (v : Val) : ∃ v', Obj.ofVal v' = Quotes.reloc (.ofVal v) ∧ Like v v' := by
  match v with
  | .const c => exact ⟨.const c, rfl, .const c⟩
  | .list xs =>
    obtain ⟨ys, h1, h2⟩ := relocL_like xs
    exact ⟨.list ys, by simp only [Obj.ofVal, Quotes.reloc, h1], .list h2⟩
  | .node (.py k) l fs =>
    obtain ⟨gs, h1, h2, h3⟩ := relocF_like (.py k) fs
    exact ⟨.node (.py k) (Quotes.normLoc (.py k) l) gs, by simp only [Obj.ofVal, Quotes.reloc, h1], .node h2 fun _ => h3⟩
  | .node (.marker n) l fs =>
    by_cases hn : n = "Done"
    · obtain ⟨gs, h1, h2, h3⟩ := relocF_like (.marker n) fs
      exact ⟨.node (.marker n) {} gs, by simp only [Obj.ofVal, Quotes.reloc, h1, if_pos hn], .node h2 fun _ => h3⟩
    · exact ⟨.node (.marker n) {} fs, by simp only [Obj.ofVal, Quotes.reloc, if_neg hn], .node (.refl _ _) fun _ => rfl⟩
theorem relocL_like (xs : List Val) : ∃ ys, Obj.ofVals ys = Quotes.relocL (Obj.ofVals xs) ∧ LikeL xs ys := by
  match xs with
  | [] => exact ⟨[], rfl, .nil⟩
  | x :: xs =>
    obtain ⟨y, h1, h2⟩ := reloc_like x
    obtain ⟨ys, h3, h4⟩ := relocL_like xs
    exact ⟨y :: ys, by simp only [Obj.ofVals, Quotes.relocL, h1, h3], .cons h2 h4⟩
theorem relocF_like (c : Cls) (fs : List (F × Val)) :
    ∃ gs, Obj.ofFields gs = Quotes.relocF (Obj.ofFields fs) ∧ LikeF c fs gs ∧ gs.length = fs.length := by
  match fs with
  | [] => exact ⟨[], rfl, .nil, rfl⟩
  | (f, x) :: fs =>
    obtain ⟨y, h1, h2⟩ := reloc_like x
    obtain ⟨gs, h3, h4, h5⟩ := relocF_like c fs
    exact ⟨(f, y) :: gs, by simp only [Obj.ofFields, Quotes.relocF, h1, h3], .field h2 h4, by simp [h5]⟩
end

mutual
theorem rebuilt_ofVal {τ : Type} (H : Quotes.Host τ) (v : Val) : Quotes.Rebuilt H (.ofVal v) := by
  match v with
  | .const _ => exact trivial
  | .list xs => exact rebuiltL_ofVals H xs
  | .node (.py k) l fs => exact rebuiltF_ofFields H fs
  | .node (.marker n) l fs => exact fun _ => rebuiltF_ofFields H fs
theorem rebuiltL_ofVals {τ : Type} (H : Quotes.Host τ) (xs : List Val) : Quotes.RebuiltL H (Obj.ofVals xs) := by
  match xs with
  | [] => exact trivial
  | x :: xs => exact ⟨rebuilt_ofVal H x, rebuiltL_ofVals H xs⟩
theorem rebuiltF_ofFields {τ : Type} (H : Quotes.Host τ) (fs : List (F × Val)) : Quotes.RebuiltF H (Obj.ofFields fs) := by
  match fs with
  | [] => exact trivial
  | (f, x) :: fs => exact ⟨rebuilt_ofVal H x, rebuiltF_ofFields H fs⟩
end

/-- Compiled code is turned back into what it was compiled from. -/
theorem unastify_compiled {L : Lib σ} {fn : String} {w0 : W σ} {d c : Val} (h : Compiled L fn w0 d c)
    (ht : Quotes.template (bound L w0) (.ofVal d) = true) (w : W σ) :
    ∃ d', Like d d' ∧ unastifyW L c w = some (.ok d', w) := by
  obtain ⟨d', h1, h2⟩ := reloc_like d
  refine ⟨d', h2, ?_⟩
  obtain ⟨code, h3, h4⟩ := C33_locations L.H (bound L w0) (.ofVal d) ht (rebuilt_ofVal L.H d)
  obtain ⟨s1, s2, hq⟩ := h
  unfold Quotes.quote at hq
  rw [show (some fun k => (isbound w0 k).map L.function) = bound L w0 from rfl, h3, M.pure_bind'] at hq
  have hq' : (some (.ok (Quotes.callNode (Quotes.quotesAttr "splice_ast_literals") [code, Quotes.constantNode (.str fn)] []), s1) :
    Option (Except Err Obj × Quotes.St σ)) = some (.ok (Obj.ofVal c), s2) := hq
  injection hq' with hq'
  injection hq' with hq' _
  injection hq' with hq'
  unfold unastifyW
  rw [← hq', Quotes.unastify_splice, h4, ← h1]
  change (match (Obj.ofVal d').toVal with | some v => _ | none => _) = _
  rw [toVal_of]

/-- `expandS` on code that is visited without effect. -/
theorem run_expandS_quiet {L : Lib σ} {E : Env (User σ)} {filename : String} {layers : Layers} {a : MArgs}
    (ha : a.synt = .expr) {s : Expander.St (User σ)} {d : Val} (hast : a.tree.isAST = true)
    (hc : Clean E s.world a.tree) (hu : unastifyW L a.tree s.world = some (.ok d, s.world)) (n : Nat) (hn : a.tree.size ≤ n) :
    run (visit E n) (expandS L filename layers a) s = run (visit E n) (requote L filename layers a d) s := by
  have hvis : visitMode (visit E n) .once a.tree s = some (.ok (done a.tree), s) := by
    have h := visit_clean E { s with recursive := false } n a.tree (by cases h : a.tree <;> first | rfl | (rw [h] at hast; cases hast))
      (by intro e; rw [e] at hast; cases hast) hc hn
    unfold visitMode withMode
    simp only [M.bracket]
    rw [run_bind h]
    rfl
  unfold expandS
  rw [if_pos (.inl ha), if_neg (by rw [ha]; rintro ⟨h, -⟩; cases h), if_neg (by rw [ha]; rintro ⟨h, -⟩; cases h)]
  change (M.attempt (visitMode (visit E n) .once a.tree) >>= _) s = _
  rw [run_bind (a := Except.ok (done a.tree)) (s' := s) (by simp only [M.attempt]; rw [hvis])]
  change run (visit E n) (proceed (requote L filename layers a) (unastifyW L a.tree s.world)) s = _
  rw [hu]
  rfl

theorem does_expandSq_error {L : Lib σ} {E : Env (User σ)} {filename : String} {layers : Layers} {a : MArgs}
    (ha : a.synt = .expr) {s s' : Expander.St (User σ)} {e : Exc} (h : Does E (quote L filename a) s (.error e) s') :
    Does E (expandSq L filename layers a) s (.error e) s' := by
  obtain ⟨n, h⟩ := h
  refine ⟨n, ?_⟩
  unfold expandSq
  rw [if_pos (.inl ha), run_followed]
  change M.bind _ _ s = _
  simp only [M.bind, h]

theorem does_expandSq_quiet {L : Lib σ} {E : Env (User σ)} {filename : String} {layers : Layers} {a : MArgs}
    (ha : a.synt = .expr) (hv : a.optionalVars = none) {s s0 : Expander.St (User σ)} {c d : Val}
    (h : Does E (quote L filename a) s (.ok (.val c)) s0) (hast : c.isAST = true) (hc : Clean E s0.world c)
    (hu : unastifyW L c s0.world = some (.ok d, s0.world)) (r : Except Exc Ret) (s' : Expander.St (User σ)) :
    Does E (expandSq L filename layers a) s r s' ↔ Does E (requote L filename layers a d) s0 r s' := by
  obtain ⟨m, h⟩ := h
  have hno : noAsname { a with tree := c } = { a with tree := c } := by
    unfold noAsname; rw [hv]; cases a; simp_all
  have key : ∀ n, max m c.size ≤ n →
      run (visit E n) (expandSq L filename layers a) s = run (visit E n) (requote L filename layers a d) s0 := by
    intro n hn
    unfold expandSq
    rw [if_pos (.inl ha), run_followed, run_bind (run_mono E (show m ≤ n by omega) _ h)]
    dsimp only
    rw [hno, run_expandS_quiet (a := { a with tree := c }) ha hast hc hu n (by show c.size ≤ n; omega)]
    unfold requote; rfl
  constructor
  · rintro ⟨n, hn⟩
    exact ⟨max n (max m c.size), by rw [← key _ (Nat.le_max_right _ _)]; exact run_mono E (Nat.le_max_left _ _) _ hn⟩
  · rintro ⟨n, hn⟩
    exact ⟨max n (max m c.size), by rw [key _ (Nat.le_max_right _ _)]; exact run_mono E (Nat.le_max_left _ _) _ hn⟩

/-- The second quote. -/
theorem quote_quiet {L : Lib σ} {E : Env (User σ)} (hk : E.Keeps both) {filename : String} {a : MArgs} (ha : a.synt = .expr)
    {s s' : Expander.St (User σ)} {ret : Ret} (h0 : value s.world = 0) (hast : a.tree.isAST = true)
    (hc : Clean E { s.world with locals := quoteBindings L s.world } a.tree)
    (hd : ∀ m, Reach a.tree m → m.hasCls isSearchDone = false)
    (h : Does E (quote L filename a) s (.ok ret) s') : ∃ c, ret = .val c ∧ Compiled L filename s.world a.tree c := by
  obtain ⟨n, h⟩ := h
  have htree : a.tree.isTree = true := by cases h : a.tree <;> first | rfl | (rw [h] at hast; cases hast)
  obtain ⟨x', v, s2, hv, rfl, hc'⟩ := quote_step hk (.inl ha) (run_mono E (Nat.le_max_left n a.tree.size) _ h)
  have hc2 : Clean E (raised L s).world a.tree := clean_bound (w := { s.world with locals := quoteBindings L s.world })
    (w' := (raised L s).world) (by intro _; rfl) hc
  rw [visit_clean E (raised L s) _ a.tree htree (by intro e; rw [e] at hast; cases hast) hc2
    (Nat.le_max_right n a.tree.size)] at hv
  cases hv
  rcases hc' with ⟨hpos, -⟩ | ⟨-, w, w', hb, hc'⟩
  · omega
  · obtain ⟨d', hd', hcomp⟩ := compile_compiled ha (bindings_isbound hb) hc'
    have := C11_identity isSearchDone a.tree htree hd
    unfold Markers.deleteMarkers at this
    rw [this] at hd'
    cases hd'
    exact ⟨v, rfl, hcomp⟩

end Mcpyrate.ExpandStatic
