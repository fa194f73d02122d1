import Verif.Spec.ExpandRuntime
import Verif.Lemmas.ExpandStatic
import Verif.Lemmas.Captures
/-
Lemmas about run-time expansion.
-/
namespace Mcpyrate.ExpandRuntime
open Py Expander QuoteOps ExpandStatic

variable {σ τ υ : Type}

theorem snapshot {w : World υ} (hl : Dict.WF w.locals) (hg : Dict.WF w.globals) : Snapshot w (ExpandFirst.allBindings w) :=
  ⟨Dict.WF_update _ _ hg, fun k => Dict.get_update _ _ hl k⟩

/-- The pickled macro. -/
def frozen (L : Lib σ) (i : Nat) : List Nat :=
  match L.H.pickle (L.function i) with
  | .ok f => f
  | .error _ => []

theorem frozen_ok {L : Lib σ} {i : Nat} (h : ∃ f, L.H.pickle (L.function i) = .ok f) :
    L.H.pickle (L.function i) = .ok (frozen L i) := by
  obtain ⟨f, h⟩ := h
  unfold frozen
  rw [h]

/-- The code of a captured value, as a tree. -/
def valueTree (k : String) (f : List Nat) : Val :=
  mk .Call [(.func, mk .Attribute [(.value, mk .Attribute [(.value, mk .Call [(.func, mk .Name [(.id, .str "__import__")]),
      (.args, .list [mk .Constant [(.value, .str "mcpyrate.quotes"), (.kind, .none)],
        mk .Call [(.func, mk .Name [(.id, .str "globals")]), (.args, .list []), (.keywords, .list [])],
        mk .Constant [(.value, .none), (.kind, .none)], mk .Tuple [(.elts, .list [])],
        mk .Constant [(.value, .const (.int 0)), (.kind, .none)]]), (.keywords, .list [])]), (.attr, .str "quotes")]),
      (.attr, .str "lookup_value")]),
    (.args, .list [mk .Tuple [(.elts, .list [mk .Constant [(.value, .str k), (.kind, .none)],
      mk .Constant [(.value, .const (.bytes f)), (.kind, .none)]])]]), (.keywords, .list [])]

theorem ofVal_valueTree (k : String) (f : List Nat) : Obj.ofVal (valueTree k f) = Quotes.valueCode (.str k) f := rfl

theorem captureAll_ok {L : Lib σ} {b : Dict String Nat} (h : ∀ k i, (k, i) ∈ b → ∃ f, L.H.pickle (L.function i) = .ok f) :
    captureAll L b = .ok (b.map fun p => Quotes.valueCode (.str p.1) (frozen L p.2)) := by
  induction b with
  | nil => rfl
  | cons p b ih =>
    obtain ⟨k, i⟩ := p
    have hf := frozen_ok (h k i (by simp))
    have ih := ih fun k i hm => h k i (by simp [hm])
    unfold captureAll Quotes.captureValue
    rw [hf, ih]
    rfl

theorem captureAll_error {L : Lib σ} {b : Dict String Nat} {k : String} {i : Nat} {e : Err} (hm : (k, i) ∈ b)
    (h : L.H.pickle (L.function i) = .error e) :
    ∃ k' i' e', (k', i') ∈ b ∧ L.H.pickle (L.function i') = .error e' ∧ captureAll L b = .error e' := by
  induction b with
  | nil => cases hm
  | cons p b ih =>
    obtain ⟨k1, i1⟩ := p
    cases hp : L.H.pickle (L.function i1) with
    | error e1 =>
      refine ⟨k1, i1, e1, by simp, hp, ?_⟩
      unfold captureAll Quotes.captureValue
      rw [hp]; rfl
    | ok f =>
      have : (k, i) ∈ b := by
        rcases List.mem_cons.1 hm with h1 | h1
        · cases h1; rw [h] at hp; cases hp
        · exact h1
      obtain ⟨k', i', e', h1, h2, h3⟩ := ih this
      refine ⟨k', i', e', by simp [h1], h2, ?_⟩
      unfold captureAll Quotes.captureValue
      rw [hp, h3]; rfl

/-- The code of the bindings, as a tree. -/
def bindingsTree (L : Lib σ) (b : Dict String Nat) : Val :=
  mk .Dict [(.keys, .list (b.map fun p => mk .Constant [(.value, .str p.1), (.kind, .none)])),
    (.values, .list (b.map fun p => valueTree p.1 (frozen L p.2)))]

theorem ofVals_map {α : Type} (f : α → Val) (xs : List α) : Obj.ofVals (xs.map f) = xs.map fun x => .ofVal (f x) := by
  induction xs with
  | nil => rfl
  | cons x xs ih => simp [Obj.ofVals, ih]

theorem ofVal_bindingsTree (L : Lib σ) (b : Dict String Nat) : Obj.ofVal (bindingsTree L b) =
    Quotes.dictNode (b.map fun p => Quotes.constantNode (.str p.1))
      (b.map fun p => Quotes.valueCode (.str p.1) (frozen L p.2)) := by
  unfold bindingsTree
  simp only [mk, Obj.ofVal, Obj.ofFields, ofVals_map, ofVal_valueTree]
  rfl

theorem macroBindings_ok {L : Lib σ} {w : World υ} (hl : Dict.WF w.locals) (hg : Dict.WF w.globals) (h : Picklable L w) :
    macroBindings L w = .ok (.ofVal (bindingsTree L (ExpandFirst.allBindings w))) := by
  have hs := snapshot hl hg
  unfold macroBindings
  dsimp only
  rw [captureAll_ok (b := ExpandFirst.allBindings w) fun k i hm => h k i (by rw [← hs.bound]; exact Dict.mem_get _ hs.wf _ _ hm), ofVal_bindingsTree]
  rfl

theorem macroBindings_error {L : Lib σ} {w : World υ} (hl : Dict.WF w.locals) (hg : Dict.WF w.globals) {k : String} {i : Nat}
    {e : Err} (hb : isbound w k = some i) (h : L.H.pickle (L.function i) = .error e) :
    ∃ k' i' e', isbound w k' = some i' ∧ L.H.pickle (L.function i') = .error e' ∧ macroBindings L w = .error e' := by
  have hs := snapshot hl hg
  obtain ⟨k', i', e', h1, h2, h3⟩ := captureAll_error (Dict.get_mem _ _ _ (by rw [hs.bound]; exact hb)) h
  refine ⟨k', i', e', by rw [← hs.bound]; exact Dict.mem_get _ hs.wf _ _ h1, h2, ?_⟩
  unfold macroBindings
  dsimp only
  rw [h3]; rfl

/-! ### Running the code -/

open Quotes in
theorem acts_code {H : Host τ} (xs : List Obj) (h : ∀ x ∈ xs, ∃ c l fs, x = .node c l fs) :
    acts H xs = xs.map fun x => some (eval H x) := by
  induction xs with
  | nil => rfl
  | cons x xs ih =>
    obtain ⟨c, l, fs, rfl⟩ := h x (by simp)
    rw [List.map_cons, ← ih fun x hx => h x (by simp [hx])]
    rfl

theorem runDict_pure (items : List (Obj × Obj)) :
    Quotes.runDict (σ := τ) (items.map fun p => some (pure p.1)) (items.map fun p => some (pure p.2)) =
      pure (items.map fun p => (some p.1, p.2)) := by
  induction items with
  | nil => rfl
  | cons p items ih =>
    show (do
      let x ← (pure p.1 : Quotes.Q τ Obj)
      let y ← (pure p.2 : Quotes.Q τ Obj)
      return (some x, y) :: (← Quotes.runDict (items.map fun p : Obj × Obj => some (pure p.1))
        (items.map fun p : Obj × Obj => some (pure p.2)))) = _
    rw [M.pure_bind', M.pure_bind', ih]
    rfl

theorem eval_bindings {L : Lib σ} {w : World υ} {H : Quotes.Host τ} (hR : RunTime L w H) (hP : Picklable L w)
    {b : Dict String Nat} (hs : Snapshot w b) : Quotes.eval H (.ofVal (bindingsTree L b)) = pure (dictOf L b) := by
  rw [ofVal_bindingsTree]
  show (do Quotes.lift (H.mkDict (← Quotes.runDict (Quotes.acts H (b.map fun p : String × Nat => Quotes.constantNode (.str p.1)))
    (Quotes.acts H (b.map fun p : String × Nat => Quotes.valueCode (.str p.1) (frozen L p.2)))))) = _
  rw [acts_code _ (by intro x hx; obtain ⟨p, -, rfl⟩ := List.mem_map.1 hx; exact ⟨_, _, _, rfl⟩),
    acts_code _ (by intro x hx; obtain ⟨p, -, rfl⟩ := List.mem_map.1 hx; exact ⟨_, _, _, rfl⟩), List.map_map, List.map_map]
  have e1 : (b.map ((fun x => some (Quotes.eval H x)) ∘ fun p : String × Nat => Quotes.constantNode (.str p.1))) =
      (b.map fun p : String × Nat => (Obj.str p.1, L.function p.2)).map fun p => some (pure p.1) := by
    rw [List.map_map]; rfl
  have e2 : (b.map ((fun x => some (Quotes.eval H x)) ∘ fun p : String × Nat => Quotes.valueCode (.str p.1) (frozen L p.2))) =
      (b.map fun p : String × Nat => (Obj.str p.1, L.function p.2)).map fun p => some (pure p.2) := by
    rw [List.map_map]
    apply List.map_congr_left
    rintro ⟨k, i⟩ hm
    have hb : isbound w k = some i := by rw [← hs.bound]; exact Dict.mem_get _ hs.wf _ _ hm
    show some (Quotes.eval H (Quotes.valueCode (.str k) (frozen L i))) = some (pure (L.function i))
    rw [Quotes.eval_valueCode hR.builtins, hR.unpickle k i _ hb (frozen_ok (hP k i hb))]
    rfl
  rw [e1, e2, runDict_pure, M.pure_bind', List.map_map]
  have e3 := hR.dicts (b.map fun p : String × Nat => (p.1, L.function p.2)) (by rw [List.map_map]; exact hs.wf)
  rw [List.map_map, List.map_map, List.map_map] at e3
  show Quotes.lift (H.mkDict (b.map ((fun p : Obj × Obj => (some p.1, p.2)) ∘ fun p : String × Nat => (Obj.str p.1, L.function p.2)))) = _
  rw [show (b.map ((fun p : Obj × Obj => (some p.1, p.2)) ∘ fun p : String × Nat => (Obj.str p.1, L.function p.2))) =
    b.map ((fun p : String × Obj => (some (Obj.str p.1), p.2)) ∘ fun p : String × Nat => (p.1, L.function p.2)) from rfl, e3]
  rfl

/-- The code of `expandr`, as a tree. -/
def expandRTree (L : Lib σ) (filename : String) (layers : Layers) (b : Dict String Nat) (tree : Val) : Val :=
  mk .Call [(.func, mk .Attribute [(.value, mk .Attribute [(.value, mk .Name [(.id, .str "mcpyrate")]),
      (.attr, .str "metatools")]), (.attr, .str (operator layers))]), (.args, .list []),
    (.keywords, .list [mk .keyword [(.arg, .str "bindings"), (.value, bindingsTree L b)],
      mk .keyword [(.arg, .str "filename"), (.value, mk .Constant [(.value, .str filename), (.kind, .none)])],
      mk .keyword [(.arg, .str "tree"), (.value, tree)]])]

theorem ofVal_expandRTree (L : Lib σ) (filename : String) (layers : Layers) (b : Dict String Nat) (tree : Val) :
    Obj.ofVal (expandRTree L filename layers b tree) = expandRCode filename layers (.ofVal (bindingsTree L b)) tree := rfl

theorem eval_operator {L : Lib σ} {w : World υ} {H : Quotes.Host τ} (hR : RunTime L w H) (layers : Layers) :
    Quotes.eval H (metatoolsAttr (operator layers)) = pure (.ref ["mcpyrate", "metatools", functionFor layers]) := by
  have : operator layers = functionFor layers := by cases layers <;> rfl
  rw [this]
  unfold metatoolsAttr
  rw [Quotes.eval_attribute, Quotes.eval_attribute]
  have : Quotes.eval H (Quotes.nameNode "mcpyrate") = H.name "mcpyrate" := rfl
  rw [this, hR.imported, M.pure_bind']
  show (H.attr (.ref ["mcpyrate"]) "metatools" >>= fun x => Quotes.getAttr H x (functionFor layers)) = _
  rw [hR.metatools, M.pure_bind']
  exact hR.function layers

theorem eval_expandR {L : Lib σ} {w : World υ} {H : Quotes.Host τ} (hR : RunTime L w H) (hP : Picklable L w)
    {b : Dict String Nat} (hs : Snapshot w b) (filename : String) (layers : Layers) (tree : Val) :
    Quotes.eval H (.ofVal (expandRTree L filename layers b tree)) = (do
      let v ← Quotes.eval H (.ofVal tree)
      callsExpander L H filename layers b v) := by
  rw [ofVal_expandRTree]
  show Quotes.eval H (.node (.py .Call) {} [(.func, metatoolsAttr (operator layers)), (.args, .list []), (.keywords, .list _)]) = _
  rw [Quotes.eval_call, eval_operator hR, M.pure_bind']
  show (do
    let ks ← (do
      let x ← Quotes.eval H (.ofVal (bindingsTree L b))
      return ("bindings", x) :: (← (do
        let y ← (pure (.str filename) : Quotes.Q τ Obj)
        return ("filename", y) :: (← (do
          let v ← Quotes.eval H (.ofVal tree)
          return ("tree", v) :: (← (pure [] : Quotes.Q τ (List (String × Obj)))) : Quotes.Q τ (List (String × Obj)))) : Quotes.Q τ (List (String × Obj)))) : Quotes.Q τ (List (String × Obj)))
    Quotes.call H (.ref ["mcpyrate", "metatools", functionFor layers]) [] ks) = _
  rw [eval_bindings hR hP hs]
  funext s
  have key : ∀ ks, Quotes.call H (.ref ["mcpyrate", "metatools", functionFor layers]) [] ks =
      H.call (.ref ["mcpyrate", "metatools", functionFor layers]) [] ks := fun ks => by cases layers <;> rfl
  simp only [key]
  change M.bind _ _ s = M.bind _ _ s
  simp only [M.bind]
  cases h : Quotes.eval H (.ofVal tree) s with
  | none => simp [bind, M.bind, pure, M.pure, h]
  | some p =>
    obtain ⟨r, s1⟩ := p
    cases r <;> simp [bind, M.bind, pure, M.pure, h, callsExpander]

/-! ### The macros -/

theorem does_followed {E : Env υ} {p : Prog υ} {k : Ret → Prog υ} {s s1 s' : Expander.St υ} {ret : Ret} {r : Except Exc Ret}
    (h1 : Does E p s (.ok ret) s1) (h2 : Does E (k ret) s1 r s') : Does E (followed k p) s r s' := by
  obtain ⟨n, h1⟩ := h1
  obtain ⟨m, h2⟩ := h2
  refine ⟨max n m, ?_⟩
  rw [run_followed, run_bind (run_mono E (Nat.le_max_left n m) p h1)]
  exact run_mono E (Nat.le_max_right n m) _ h2

theorem does_followed_error {E : Env υ} {p : Prog υ} {k : Ret → Prog υ} {s s1 : Expander.St υ} {e : Exc}
    (h1 : Does E p s (.error e) s1) : Does E (followed k p) s (.error e) s1 := by
  obtain ⟨n, h1⟩ := h1
  refine ⟨n, ?_⟩
  rw [run_followed]
  change M.bind _ _ s = _
  simp only [M.bind]
  rw [h1]

theorem asCode_of (v : Val) : asCode (.ofVal v) = .ok v := by
  unfold asCode
  rw [toVal_of]

theorem does_expandR {L : Lib σ} {E : Env υ} {filename : String} {layers : Layers} {a : MArgs} {s : Expander.St υ}
    (ha : a.synt = .expr ∨ (a.synt = .block ∧ a.optionalVars = some .none)) (hl : Dict.WF s.world.locals)
    (hg : Dict.WF s.world.globals) (hP : Picklable L s.world) :
    Does E (expandR L filename layers a) s
      (.ok (.val (expandRTree L filename layers (ExpandFirst.allBindings s.world) a.tree))) s := by
  refine ⟨0, ?_⟩
  unfold expandR
  rw [if_neg (by rcases ha with h | ⟨h, h'⟩ <;> simp [*]), if_neg (by rcases ha with h | ⟨h, h'⟩ <;> simp [*]),
    if_pos (by rcases ha with h | ⟨h, h'⟩ <;> simp [*])]
  show run _ (match macroBindings L s.world with
    | .error e => .raise (.py e)
    | .ok b => ExpandFirst.give (asCode (expandRCode filename layers b a.tree))) s = _
  rw [macroBindings_ok hl hg hP]
  dsimp only
  rw [← ofVal_expandRTree, asCode_of]
  rfl

theorem does_expandR_error {L : Lib σ} {E : Env υ} {filename : String} {layers : Layers} {a : MArgs} {s : Expander.St υ}
    (ha : a.synt = .expr ∨ (a.synt = .block ∧ a.optionalVars = some .none)) {e : Err} (h : macroBindings L s.world = .error e) :
    Does E (expandR L filename layers a) s (.error (.py e)) s := by
  refine ⟨0, ?_⟩
  unfold expandR
  rw [if_neg (by rcases ha with h | ⟨h, h'⟩ <;> simp [*]), if_neg (by rcases ha with h | ⟨h, h'⟩ <;> simp [*]),
    if_pos (by rcases ha with h | ⟨h, h'⟩ <;> simp [*])]
  show run _ (match macroBindings L s.world with
    | .error e => .raise (.py e)
    | .ok b => ExpandFirst.give (asCode (expandRCode filename layers b a.tree))) s = _
  rw [h]
  rfl

theorem delays {L : Lib σ} {w : World υ} (filename : String) (layers : Layers) (tree : Val) (hl : Dict.WF w.locals)
    (hg : Dict.WF w.globals) (hP : Picklable L w) :
    Delays L filename layers w tree (expandRTree L filename layers (ExpandFirst.allBindings w) tree) :=
  ⟨_, snapshot hl hg, fun _ _ hR => eval_expandR hR hP (snapshot hl hg) filename layers tree⟩

/-- `visit_once` marks its result. -/
theorem once_done {E : Env υ} {n : Nat} {t r : Val} {s s' : Expander.St υ} (h : visitAs E n .once t s = some (.ok r, s')) :
    ∃ x, r = done x := by
  unfold visitAs visitMode withMode at h
  obtain ⟨s0, h0, rfl⟩ := bracket_some h
  obtain ⟨v, s1, -, k2⟩ := bind_ok (m := visit E n t) h0
  have h3 : (some (.ok (done v), s1) : Option (Except Exc Val × Expander.St υ)) = some (.ok r, s0) := k2
  cases h3
  exact ⟨v, rfl⟩

end Mcpyrate.ExpandRuntime
