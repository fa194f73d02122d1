import Verif.Lemmas.ExpandCommands
import Verif.Lemmas.ExpandUnquoted
/-
The first expansion of the code that a quote generates: macros in the unquoted expressions (C53).
-/
namespace Mcpyrate.ExpandStatic
open Py Expander QuoteOps
open Quotes (copyLocation shaped)

variable {σ : Type} {E : Env (User σ)} {w : W σ}

/-- In the state `s` of the expander one layer is expanded, with the bindings of `w`. -/
structure Calm (w : W σ) (s : Expander.St (User σ)) : Prop where
  recursive : s.recursive = false
  bound : ∀ k, isbound s.world k = isbound w k

theorem Calm.visit (hk : E.Keeps both) {m : Nat} {t : Val} {s s' : Expander.St (User σ)} {r : Except Exc Val} (hf : Calm w s)
    (h : visit E m t s = some (r, s')) : Calm w s' := by
  have fr : Frame s s' := visit_pres frame_rel E.all_true m t s r s' h
  exact ⟨fr.recursive.trans hf.recursive, fun k => (bindings_isbound (visit_levels hk h).2 k).trans (hf.bound k)⟩

theorem Calm.some (hw : ∃ k i, isbound w k = some i) {s : Expander.St (User σ)} (hf : Calm w s) : noBindings s.world = false := by
  obtain ⟨k, i, hi⟩ := hw
  exact bound_noBindings (k := k) (id := i) ((hf.bound k).trans hi)

/-! ### what the generated code refers to -/

theorem Ref.isAST {p : List String} {v : Val} (h : Ref p v) : v.isAST = true := by cases h <;> rfl

theorem Ref.head {p : List String} {v : Val} (h : Ref p v) : ∃ q, p.head? = some q := by
  cases h with
  | name => exact ⟨_, rfl⟩
  | @attr l p v a h => cases p with
    | nil => exact ⟨_, rfl⟩
    | cons => exact ⟨_, rfl⟩

theorem Ref.open {p : List String} {v u : Val} (h : Ref p v) (hu : Open v u) : ∃ p', p'.head? = p.head? ∧ Ref p' u := by
  induction h with
  | name =>
    cases hu with
    | refl => exact ⟨_, rfl, .name⟩
    | step _ hc => simp [childNodes] at hc
  | @attr l p v a hv ih =>
    cases hu with
    | refl => exact ⟨_, rfl, .attr hv⟩
    | step _ hc ho =>
      obtain ⟨c, l', fs, rfl⟩ : ∃ c l' fs, v = .node c l' fs := by
        have := hv.isAST
        cases v with
        | node => exact ⟨_, _, _, rfl⟩
        | _ => cases this
      simp [childNodes] at hc
      subst hc
      obtain ⟨p', h1, h2⟩ := ih ho
      obtain ⟨q, hq⟩ := hv.head
      refine ⟨p', ?_, h2⟩
      rw [h1, List.head?_append, hq]
      rfl

theorem Ref.clean {p : List String} {v : Val} (h : Ref p v) (hp : p.head? = some "mcpyrate") (hm : NotAMacro E w "mcpyrate") :
    Clean E w v := by
  intro u hu
  obtain ⟨p', h1, h2⟩ := h.open hu
  cases h2 with
  | name =>
    refine ⟨rfl, fun hi => ?_⟩
    rw [hp] at h1
    cases h1
    cases hi with
    | expr hk => cases hk
    | block hk => cases hk
    | decorator hk => rcases hk with hk | hk <;> cases hk
    | name _ hid _ hb hn =>
      cases hid
      rw [hm _ hb] at hn
      cases hn
  | attr =>
    refine ⟨rfl, fun hi => ?_⟩
    cases hi with
    | expr hk => cases hk
    | block hk => cases hk
    | decorator hk => rcases hk with hk | hk <;> cases hk
    | name hk => cases hk

theorem constOf_clean (l : Loc) (k : Const) : Clean E w (constOf l k) := by
  intro u hu
  cases hu with
  | refl =>
    refine ⟨rfl, fun hi => ?_⟩
    cases hi with
    | expr hk => cases hk
    | block hk => cases hk
    | decorator hk => rcases hk with hk | hk <;> cases hk
    | name hk => cases hk
  | step _ hc => simp [constOf, childNodes] at hc

theorem visit_quiet {m : Nat} {t r : Val} {s s' : Expander.St (User σ)} (ha : t.isAST = true) (hc : Clean E w t) (hf : Calm w s)
    (h : visit E m t s = some (.ok r, s')) : r = t ∧ s' = s := by
  have h1 := visit_clean E s (max m t.size) t (by cases t <;> first | rfl | cases ha) (by intro e; rw [e] at ha; cases ha)
    (clean_bound (w := w) (w' := s.world) hf.bound hc) (Nat.le_max_right _ _)
  have h2 := visit_mono E (Nat.le_max_left m t.size) t s _ h
  rw [h1] at h2
  cases h2
  exact ⟨rfl, rfl⟩

/-! ### one visit -/

theorem visit_generic (hw : ∃ k i, isbound w k = some i) {m : Nat} {c : Cls} {l : Loc} {fs : Fields} {r : Val}
    {s s' : Expander.St (User σ)} (hf : Calm w s) (hd : isDone (.node c l fs) = false)
    (hn : ∀ vis : Val → X (User σ) Val, visitNode E vis (.node c l fs) = genericVisit vis (.node c l fs))
    (h : visit E m (.node c l fs) s = some (.ok r, s')) :
    ∃ n gs, m = n + 1 ∧ genericFields (visit E n) fs s = some (.ok gs, s') ∧ r = .node c l gs := by
  cases m with
  | zero => cases h
  | succ n =>
    rw [visit_node rfl hd (hf.some hw), hn] at h
    obtain ⟨gs, s1, h1, h2⟩ := bind_ok h
    cases h2
    exact ⟨n, gs, rfl, h1, rfl⟩

theorem fields_const {vis : Val → X (User σ) Val} {f : F} {k : Const} {fs gs : Fields} {s s' : Expander.St (User σ)}
    (h : genericFields vis ((f, .const k) :: fs) s = some (.ok gs, s')) :
    ∃ gs', genericFields vis fs s = some (.ok gs', s') ∧ gs = (f, .const k) :: gs' := by
  obtain ⟨gs', s1, h1, h2⟩ := bind_ok h
  cases h2
  exact ⟨gs', h1, rfl⟩

theorem fields_list {vis : Val → X (User σ) Val} {f : F} {xs : List Val} {fs gs : Fields} {s s' : Expander.St (User σ)}
    (h : genericFields vis ((f, .list xs) :: fs) s = some (.ok gs, s')) :
    ∃ ys s1 gs', genericItems vis xs s = some (.ok ys, s1) ∧ genericFields vis fs s1 = some (.ok gs', s') ∧
      gs = (f, .list ys) :: gs' := by
  obtain ⟨ys, s1, h1, h⟩ := bind_ok h
  obtain ⟨gs', s2, h2, h3⟩ := bind_ok h
  cases h3
  exact ⟨ys, s1, gs', h1, h2, rfl⟩

theorem fields_node {vis : Val → X (User σ) Val} {f : F} {v : Val} {fs gs : Fields} {s s' : Expander.St (User σ)}
    (hv : v.isAST = true) (h : genericFields vis ((f, v) :: fs) s = some (.ok gs, s')) :
    ∃ v' s1 gs', vis v s = some (.ok v', s1) ∧ genericFields vis fs s1 = some (.ok gs', s') ∧
      (v'.isAST = true → gs = (f, v') :: gs') := by
  cases v with
  | node c l ns =>
    obtain ⟨v', s1, h1, h⟩ := bind_ok h
    obtain ⟨gs', s2, h2, h3⟩ := bind_ok h
    refine ⟨v', s1, gs', h1, ?_, fun ha => ?_⟩
    · cases h3; exact h2
    · have : v'.isNone = false := by cases v' <;> first | rfl | cases ha
      rw [this] at h3
      cases h3
      rfl
  | _ => cases hv

theorem fields_nil {vis : Val → X (User σ) Val} {gs : Fields} {s s' : Expander.St (User σ)}
    (h : genericFields vis [] s = some (.ok gs, s')) : gs = [] ∧ s' = s := by cases h; exact ⟨rfl, rfl⟩

theorem items_nil {vis : Val → X (User σ) Val} {ys : List Val} {s s' : Expander.St (User σ)}
    (h : genericItems vis [] s = some (.ok ys, s')) : ys = [] ∧ s' = s := by cases h; exact ⟨rfl, rfl⟩

theorem items_cons {vis : Val → X (User σ) Val} {x : Val} {xs ys : List Val} {s s' : Expander.St (User σ)} (hx : x.isAST = true)
    (h : genericItems vis (x :: xs) s = some (.ok ys, s')) :
    ∃ v s1 zs, vis x s = some (.ok v, s1) ∧ genericItems vis xs s1 = some (.ok zs, s') ∧ (v.isAST = true → ys = v :: zs) := by
  rw [genericItems, if_pos hx] at h
  obtain ⟨v, s1, h1, h⟩ := bind_ok h
  obtain ⟨zs, s2, h2, h3⟩ := bind_ok h
  cases h3
  exact ⟨v, s1, zs, h1, h2, fun ha => by cases v <;> first | rfl | cases ha⟩

theorem items_skip {vis : Val → X (User σ) Val} {x : Val} {xs ys : List Val} {s s' : Expander.St (User σ)} (hx : x.isAST = false)
    (h : genericItems vis (x :: xs) s = some (.ok ys, s')) :
    ∃ zs, genericItems vis xs s = some (.ok zs, s') ∧ ys = x :: zs := by
  rw [genericItems, if_neg (by rw [hx]; decide)] at h
  obtain ⟨zs, s2, h2, h3⟩ := bind_ok h
  cases h3
  exact ⟨zs, h2, rfl⟩

theorem visit_callOf (hw : ∃ k i, isbound w k = some i) (hm : NotAMacro E w "mcpyrate") {m : Nat} {l : Loc} {f r : Val}
    {as ks : List Val} {p : List String} {s s' : Expander.St (User σ)} (hf : Calm w s) (hr : Ref ("mcpyrate" :: p) f)
    (h : visit E m (callOf l f as ks) s = some (.ok r, s')) :
    ∃ n as' s1 ks', genericItems (visit E n) as s = some (.ok as', s1) ∧ genericItems (visit E n) ks s1 = some (.ok ks', s') ∧
      r = callOf l f as' ks' := by
  obtain ⟨n, gs, -, h1, rfl⟩ := visit_generic hw hf rfl (fun _ => rfl) h
  obtain ⟨f', s1, g1, h2, h3, h4⟩ := fields_node hr.isAST h1
  obtain ⟨rfl, rfl⟩ := visit_quiet hr.isAST (hr.clean rfl hm) hf h2
  cases h4 hr.isAST
  obtain ⟨as', s2, g2, h5, h6, rfl⟩ := fields_list h3
  obtain ⟨ks', s3, g3, h7, h8, rfl⟩ := fields_list h6
  obtain ⟨rfl, rfl⟩ := fields_nil h8
  exact ⟨n, as', s2, ks', h5, h7, rfl⟩

/-- An expression in a command. -/
theorem visit_once_runs {n : Nat} {b v : Val} {s s' : Expander.St (User σ)} (hr : s.recursive = false)
    (h : visit E n b s = some (.ok v, s')) (m : Bool) :
    Runs E .once b { s with recursive := m } (.ok (done v)) { s' with recursive := m } := by
  refine ⟨n, ?_⟩
  have h' : visit E n b { { s with recursive := m } with recursive := false } = some (.ok v, s') := by
    rw [← h]; congr 1; cases s; cases hr; rfl
  unfold visitAs visitMode withMode
  simp only [M.bracket]
  rw [run_bind h']
  rfl

theorem Raw.isAST {c x : Val} (h : Raw c x) : c.isAST = true := by cases h <;> rfl

theorem plain_commands {n fn : String} (h : (n, fn) ∈ plainCommands) : n ∈ commands := by
  simp only [plainCommands, List.mem_cons, Prod.mk.injEq, List.not_mem_nil, or_false] at h
  rcases h with ⟨rfl, -⟩ | ⟨rfl, -⟩ | ⟨rfl, -⟩ <;> decide

theorem other_commands {n fn : String} {g : F} (h : (n, g, fn) ∈ otherCommands) : n ∈ commands := by
  simp only [otherCommands, List.mem_cons, Prod.mk.injEq, List.not_mem_nil, or_false] at h
  rcases h with ⟨rfl, -⟩ | ⟨rfl, -⟩ | ⟨rfl, -⟩ <;> decide

/-- The arguments of a command. -/
theorem items_body (hk : E.Keeps both) {n : Nat} {b : Val} {xs ys : List Val} {s s' : Expander.St (User σ)} (hf : Calm w s)
    (hs : b.isAST = true → ∀ s r s', (∀ k, isbound s.world k = isbound w k) →
      Runs E .once b s (.ok (done r)) s' → r.isAST = true)
    (h : genericItems (visit E n) (b :: xs) s = some (.ok ys, s')) :
    ∃ b' s1 zs, genericItems (visit E n) xs s1 = some (.ok zs, s') ∧ ys = b' :: zs ∧ Calm w s1 ∧
      ((b.isAST = false ∧ b' = b ∧ s1 = s) ∨
        ∀ m, Runs E .once b { s with recursive := m } (.ok (done b')) { s1 with recursive := m }) := by
  cases hb : b.isAST with
  | false =>
    obtain ⟨zs, h1, rfl⟩ := items_skip hb h
    exact ⟨b, s, zs, h1, rfl, hf, .inl ⟨rfl, rfl, rfl⟩⟩
  | true =>
    obtain ⟨v, s1, zs, h1, h2, h3⟩ := items_cons hb h
    have hr := visit_once_runs hf.recursive h1
    exact ⟨v, s1, zs, h2, h3 (hs hb { s with recursive := true } _ _ hf.bound (hr true)), hf.visit hk h1, .inr hr⟩

mutual
theorem Raw.visit (hk : E.Keeps both) (hw : ∃ k i, isbound w k = some i) (hm : NotAMacro E w "mcpyrate") {c x : Val} (h : Raw c x)
    (hs : SingleNodes E w x) {m : Nat} {r : Val} {s s' : Expander.St (User σ)} (hf : Calm w s)
    (hv : visit E m c s = some (.ok r, s')) :
    ∃ y, Raw r y ∧ ∀ b, Forwards E { s with recursive := b } x y { s' with recursive := b } := by
  match h with
  | .const =>
    obtain ⟨rfl, rfl⟩ := visit_quiet rfl (constOf_clean _ _) hf hv
    exact ⟨_, .const, fun b => .const⟩
  | .list h1 =>
    obtain ⟨n, gs, -, h2, rfl⟩ := visit_generic hw hf rfl (fun _ => rfl) hv
    obtain ⟨ys, s1, g2, h5, h6, rfl⟩ := fields_list h2
    obtain ⟨rfl, rfl⟩ := fields_nil h6
    obtain ⟨zs, h7, h8⟩ := RawL.visit hk hw hm h1 (fun x hx b hb => hs b (.item hx hb)) hf h5
    exact ⟨_, .list h7, fun b => .list (h8 b)⟩
  | .node hr hsh h1 =>
    obtain ⟨n, as', s1, ks', h2, h3, rfl⟩ := visit_callOf hw hm hf hr hv
    obtain ⟨rfl, rfl⟩ := items_nil h2
    obtain ⟨gs, h4, h5, h6⟩ := RawF.visit hk hw hm h1 (fun f x hx b hb => hs b (.field hx hb)) hf h3
    refine ⟨_, .node hr ?_ h4, fun b => .node (fun n _ h => by cases h) (h6 b)⟩
    exact (Quotes.shaped_congr (by rw [Quotes.ofFields_names, Quotes.ofFields_names, h5])).trans hsh
  | .done hr h1 =>
    obtain ⟨n, as', s1, ks', h2, h3, rfl⟩ := visit_callOf hw hm hf hr hv
    obtain ⟨rfl, rfl⟩ := items_nil h2
    obtain ⟨gs, h4, h5, h6⟩ := RawF.visit hk hw hm h1 (fun f x hx b hb => hs b (.field hx hb)) hf h3
    match gs, h5, h4, h6 with
    | [(g, y)], h5, h4, h6 =>
      simp only [List.map_cons, List.map_nil, List.cons.injEq, and_true] at h5
      subst h5
      refine ⟨_, .done hr h4, fun b => .node (fun n hn h => ?_) (h6 b)⟩
      cases h
      exact absurd hn (by decide)
  | .plain hc hr =>
    obtain ⟨n, as', s1, ks', h2, h3, rfl⟩ := visit_callOf hw hm hf hr hv
    obtain ⟨b', s2, zs, h4, rfl, h5, h6⟩ := items_body hk hf (hs _ (.here (plain_commands hc))) h2
    obtain ⟨rfl, rfl⟩ := items_nil h4
    obtain ⟨rfl, rfl⟩ := items_nil h3
    refine ⟨_, .plain hc hr, fun b => ?_⟩
    rcases h6 with ⟨h7, rfl, rfl⟩ | h7
    · exact .inert (plain_commands hc) h7
    · exact .command (plain_commands hc) (h7 b)
  | .other hc hr =>
    obtain ⟨n, as', s1, ks', h2, h3, rfl⟩ := visit_callOf hw hm hf hr hv
    obtain ⟨b', s2, zs, h4, rfl, h5, h6⟩ := items_body hk hf (hs _ (.here (other_commands hc))) h2
    obtain ⟨v, s3, us, h8, h9, h10⟩ := items_cons rfl h4
    obtain ⟨rfl, rfl⟩ := visit_quiet rfl (constOf_clean _ _) h5 h8
    cases h10 rfl
    obtain ⟨rfl, rfl⟩ := items_nil h9
    obtain ⟨rfl, rfl⟩ := items_nil h3
    refine ⟨_, .other hc hr, fun b => ?_⟩
    rcases h6 with ⟨h7, rfl, rfl⟩ | h7
    · exact .inert (other_commands hc) h7
    · exact .command (other_commands hc) (h7 b)
theorem RawL.visit (hk : E.Keeps both) (hw : ∃ k i, isbound w k = some i) (hm : NotAMacro E w "mcpyrate") {cs xs : List Val}
    (h : RawL cs xs) (hs : ∀ x ∈ xs, SingleNodes E w x) {m : Nat} {rs : List Val} {s s' : Expander.St (User σ)} (hf : Calm w s)
    (hv : genericItems (visit E m) cs s = some (.ok rs, s')) :
    ∃ ys, RawL rs ys ∧ ∀ b, ForwardsL E { s with recursive := b } xs ys { s' with recursive := b } := by
  match h with
  | .nil =>
    obtain ⟨rfl, rfl⟩ := items_nil hv
    exact ⟨[], .nil, fun b => .nil⟩
  | .cons h1 h2 =>
    obtain ⟨v, s1, zs, h3, h4, h5⟩ := items_cons h1.isAST hv
    obtain ⟨y, h6, h7⟩ := Raw.visit hk hw hm h1 (hs _ List.mem_cons_self) hf h3
    cases h5 h6.isAST
    obtain ⟨ys, h8, h9⟩ := RawL.visit hk hw hm h2 (fun x hx => hs x (List.mem_cons_of_mem _ hx)) (hf.visit hk h3) h4
    exact ⟨y :: ys, .cons h6 h8, fun b => .cons (h7 b) (h9 b)⟩
theorem RawF.visit (hk : E.Keeps both) (hw : ∃ k i, isbound w k = some i) (hm : NotAMacro E w "mcpyrate") {cs : List Val} {fs : Fields}
    (h : RawF cs fs) (hs : ∀ f x, (f, x) ∈ fs → SingleNodes E w x) {m : Nat} {rs : List Val} {s s' : Expander.St (User σ)} (hf : Calm w s)
    (hv : genericItems (visit E m) cs s = some (.ok rs, s')) :
    ∃ gs, RawF rs gs ∧ gs.map (·.1) = fs.map (·.1) ∧
      ∀ b, ForwardsF E { s with recursive := b } fs gs { s' with recursive := b } := by
  match h with
  | .nil =>
    obtain ⟨rfl, rfl⟩ := items_nil hv
    exact ⟨[], .nil, rfl, fun b => .nil⟩
  | .cons h1 h2 =>
    obtain ⟨v, s1, zs, h3, h4, h5⟩ := items_cons rfl hv
    have hf1 := hf.visit hk h3
    obtain ⟨n, gs, -, j1, rfl⟩ := visit_generic hw hf rfl (fun _ => rfl) h3
    cases h5 rfl
    obtain ⟨g1, j2, rfl⟩ := fields_const j1
    obtain ⟨c', s2, g2, j3, j4, j5⟩ := fields_node h1.isAST j2
    obtain ⟨y, h6, h7⟩ := Raw.visit hk hw hm h1 (hs _ _ List.mem_cons_self) hf j3
    cases j5 h6.isAST
    obtain ⟨rfl, rfl⟩ := fields_nil j4
    obtain ⟨ys, h8, h9, h10⟩ := RawF.visit hk hw hm h2 (fun f x hx => hs f x (List.mem_cons_of_mem _ hx)) hf1 h4
    exact ⟨_, .cons h6 h8, by simp [h9], fun b => .cons (h7 b) (h10 b)⟩
end

/-- The first expansion of the code that a quote generates. -/
theorem RawQ.runs (hk : E.Keeps both) {s s' : Expander.St (User σ)} (hw : ∃ k i, isbound s.world k = some i)
    (hm : NotAMacro E s.world "mcpyrate") {c x t : Val} (h : RawQ c x) (hs : SingleNodes E s.world x)
    (hr : Runs E .once c s (.ok t) s') : ∃ c' y, t = done c' ∧ RawQ c' y ∧ Forwards E s x y s' := by
  obtain ⟨n, b, r0, s0, hv, rfl, -, hw', hb⟩ := hr.toVisit
  obtain ⟨v0, rfl, rfl⟩ := hw' t rfl
  dsimp only at hb
  subst hb
  obtain ⟨l, f, c, l2, k, rfl, href, hu⟩ := h
  have hf : Calm s.world { s with recursive := false } := ⟨rfl, fun _ => rfl⟩
  obtain ⟨n, as', s1, ks', h2, h3, rfl⟩ := visit_callOf hw hm hf href hv
  obtain ⟨v, s2, zs, h4, h5, h6⟩ := items_cons hu.isAST h2
  obtain ⟨y, h7, h8⟩ := hu.visit hk hw hm hs hf h4
  cases h6 h7.isAST
  obtain ⟨v', s3, us, h9, h10, h11⟩ := items_cons rfl h5
  obtain ⟨rfl, rfl⟩ := visit_quiet rfl (constOf_clean _ _) (hf.visit hk h4) h9
  cases h11 rfl
  obtain ⟨rfl, rfl⟩ := items_nil h10
  obtain ⟨rfl, rfl⟩ := items_nil h3
  exact ⟨_, y, rfl, ⟨l, f, v, l2, k, rfl, href, h7⟩, h8 s.recursive⟩

/-! ### `expandsq` -/

theorem does_expandSq_once {L : Lib σ} {filename : String} {layers : Layers} {a : MArgs}
    (ha : a.synt = .expr) (hv : a.optionalVars = none) {s s0 s1 : Expander.St (User σ)} {c c' d : Val}
    (h : Does E (quote L filename a) s (.ok (.val c)) s0) (hr : Runs E .once c s0 (.ok (done c')) s1)
    (hu : UnQ c' d) (r : Except Exc Ret) (s' : Expander.St (User σ)) :
    Does E (expandSq L filename layers a) s r s' ↔ Does E (requote L filename layers a d) s1 r s' := by
  obtain ⟨m, h⟩ := h
  have hno : noAsname { a with tree := c } = { a with tree := c } := by
    unfold noAsname; rw [hv]; cases a; simp_all
  obtain ⟨N, hN⟩ := run_expandS_un L E filename layers { a with tree := c } ha s0 s1 d c' hr hu
  have key : ∀ n, max m N ≤ n →
      run (visit E n) (expandSq L filename layers a) s = run (visit E n) (requote L filename layers a d) s1 := by
    intro n hn
    unfold expandSq
    rw [if_pos (.inl ha), run_followed, run_bind (run_mono E (show m ≤ n by omega) _ h)]
    dsimp only
    rw [hno, hN n (by omega)]
    unfold requote; rfl
  constructor
  · rintro ⟨n, hn⟩
    exact ⟨max n (max m N), by rw [← key _ (Nat.le_max_right _ _)]; exact run_mono E (Nat.le_max_left _ _) _ hn⟩
  · rintro ⟨n, hn⟩
    exact ⟨max n (max m N), by rw [key _ (Nat.le_max_right _ _)]; exact run_mono E (Nat.le_max_left _ _) _ hn⟩

theorem does_expandSq_failed {L : Lib σ} {filename : String} {layers : Layers} {a : MArgs}
    (ha : a.synt = .expr) (hv : a.optionalVars = none) {s s0 s' : Expander.St (User σ)} {c : Val} {e : Exc}
    (h : Does E (quote L filename a) s (.ok (.val c)) s0) (hr : Runs E .once c s0 (.error e) s') :
    Does E (expandSq L filename layers a) s (.error e) s' := by
  obtain ⟨m, h⟩ := h
  have hno : noAsname { a with tree := c } = { a with tree := c } := by
    unfold noAsname; rw [hv]; cases a; simp_all
  obtain ⟨N, hN⟩ := does_expandS_error (L := L) (filename := filename) (layers := layers) (a := { a with tree := c }) ha hr
  refine ⟨max m N, ?_⟩
  unfold expandSq
  rw [if_pos (.inl ha), run_followed, run_bind (run_mono E (Nat.le_max_left m N) _ h)]
  dsimp only
  rw [hno]
  exact run_mono E (Nat.le_max_right m N) _ hN

/-! ### the unquoted expressions, as a list -/

def bodyOf : Cls → Fields → List Val
  | .marker _, (.body, b) :: _ => [b]
  | _, _ => []

mutual
def bodies : Val → List Val
  | .const _ => []
  | .list xs => bodiesL xs
  | .node c _ fs => bodyOf c fs ++ bodiesF fs
def bodiesF : List (F × Val) → List Val
  | [] => []
  | (_, x) :: fs => bodies x ++ bodiesF fs
def bodiesL : List Val → List Val
  | [] => []
  | x :: xs => bodies x ++ bodiesL xs
end

theorem bodiesF_mem {fs : Fields} {f : F} {x b : Val} (h : (f, x) ∈ fs) (hb : b ∈ bodies x) : b ∈ bodiesF fs := by
  induction fs with
  | nil => cases h
  | cons p fs ih =>
    obtain ⟨g, y⟩ := p
    rw [bodiesF, List.mem_append]
    rcases List.mem_cons.mp h with e | h
    · cases e; exact .inl hb
    · exact .inr (ih h)

theorem bodiesL_mem {xs : List Val} {x b : Val} (h : x ∈ xs) (hb : b ∈ bodies x) : b ∈ bodiesL xs := by
  induction xs with
  | nil => cases h
  | cons y xs ih =>
    rw [bodiesL, List.mem_append]
    rcases List.mem_cons.mp h with rfl | h
    · exact .inl hb
    · exact .inr (ih h)

theorem unquotes_bodies {t b : Val} (h : Unquotes t b) : b ∈ bodies t := by
  induction h with
  | here => rw [bodies]; simp [bodyOf]
  | field hm _ ih => rw [bodies, List.mem_append]; exact .inr (bodiesF_mem hm ih)
  | item hm _ ih => rw [bodies]; exact bodiesL_mem hm ih

end Mcpyrate.ExpandStatic
