import Verif.Spec.Console
import Verif.Lemmas.RunCode
import Verif.Lemmas.ExpanderKeeps
import Verif.Props.FindMacros
import Verif.Props.Postprocess
namespace Mcpyrate.Console
open Py Expander GetMacros Compiler Modules RunCode Postprocess

variable {υ μ Code : Type} {K : Tools υ μ Code}

/-! More fuel does not change the outcome. -/

theorem translate_mono {n m : Nat} (h : n ≤ m) (source : Str) :
    Compiler.Le (translate K n source) (translate K m source) := by
  unfold translate
  refine Compiler.Le.bind (Compiler.Le.refl _) fun t => Compiler.Le.bind (Compiler.Le.refl _) fun _ =>
    Compiler.Le.bind (Compiler.Le.refl _) fun (t, b) => Compiler.Le.bind (Compiler.Le.refl _) fun _ =>
    Compiler.Le.bind ?_ fun t => Compiler.Le.bind ?_ fun t => Compiler.Le.refl _
  · exact fun s => map_mono fun r hr => visitAs_mono K.env h _ _ _ _ hr
  · refine fun s => map_mono fun r hr => ?_
    unfold globalPostprocess at hr ⊢
    exact Compiler.Le.bind (Compiler.Le.refl _)
      (fun t1 => Compiler.Le.bind (Compiler.Le.refl _) fun t2 => runHooks_mono K.post h 0 t2) _ _ hr

theorem attempt_mono {ε σ α : Type} {m m' : Py.M ε σ α} (h : Compiler.Le m m') :
    Compiler.Le (M.attempt m) (M.attempt m') := by
  intro s r hr
  unfold M.attempt at hr ⊢
  cases hs : m s with
  | none => rw [hs] at hr; cases hr
  | some x => rw [hs] at hr; rw [h s _ hs]; exact hr

theorem runsource_mono {n m : Nat} (h : n ≤ m) (source : Str) :
    Compiler.Le (runsource K n source) (runsource K m source) := by
  unfold runsource
  split
  · exact Compiler.Le.refl _
  split
  · exact Compiler.Le.refl _
  split
  · exact Compiler.Le.refl _
  split
  · exact Compiler.Le.refl _
  exact Compiler.Le.bind (attempt_mono (translate_mono h source)) fun r => Compiler.Le.refl _

theorem Answers.det {source : Str} {s s1 s2 : Session υ} {r1 r2 : Except Exc Bool} (h1 : Answers K source s r1 s1)
    (h2 : Answers K source s r2 s2) : r1 = r2 ∧ s1 = s2 := by
  obtain ⟨n, h1⟩ := h1
  obtain ⟨m, h2⟩ := h2
  have a := runsource_mono (Nat.le_max_left n m) source _ _ h1
  rw [runsource_mono (Nat.le_max_right n m) source _ _ h2] at a
  cases a
  exact ⟨rfl, rfl⟩

/-! The kinds of input. -/

theorem endsWith_iff {s t : Str} : endsWith s t = true ↔ ∃ a, s = a ++ t := by
  unfold endsWith
  rw [List.isPrefixOf_iff_prefix]
  constructor
  · rintro ⟨a, ha⟩
    refine ⟨a.reverse, ?_⟩
    have := congrArg List.reverse ha
    simpa using this.symm
  · rintro ⟨a, rfl⟩
    exact ⟨a.reverse, by simp⟩

/-- An input that does not end with a question mark. -/
theorem runsource_plain {n : Nat} {source : Str} (h : ∀ a, source ≠ a ++ ['?']) :
    runsource K n source = (if K.verdict source = .incomplete then return true else do
      let r ← M.attempt (translate K n source)
      match r with
      | .ok c => do
        run K c
        refresh K
        return false
      | .error e =>
        match caught e with
        | some w => do
          M.modify fun s => { s with output := s.output ++ [w] }
          return false
        | none => M.throw e) := by
  have h1 : source ≠ "macros?".toList := h "macros".toList
  have h2 : ¬ endsWith source "??".toList = true := by
    rw [endsWith_iff]
    rintro ⟨a, ha⟩
    exact h (a ++ ['?']) (by rw [ha]; simp)
  have h3 : ¬ endsWith source "?".toList = true := by
    rw [endsWith_iff]
    rintro ⟨a, ha⟩
    exact h a ha
  rw [runsource, if_neg h1, if_neg h2, if_neg h3]
  rfl

theorem caught_iff {e : Exc} {w : Shown} : caught e = some w ↔ Shows e w := by
  constructor
  · intro h
    unfold caught at h
    split at h <;> first | (cases h; done) | (cases h; constructor)
  · intro h
    cases h <;> rfl

theorem caught_none {e : Exc} : caught e = none ↔ ∀ w, ¬ Shows e w := by
  constructor
  · intro h w hw
    rw [caught_iff.2 hw] at h
    cases h
  · intro h
    cases hc : caught e with
    | none => rfl
    | some w => exact absurd (caught_iff.1 hc) (h w)

/-! Running code. -/

theorem run_cases {c : Code} {s s' : Session υ} {r : Except Exc Unit} (h : run K c s = some (r, s')) :
    ∃ l p, K.runcode c (s.bindings, s.state) = some (r, (l, p)) ∧ s' = ⟨l, s.changed, p, s.output⟩ := by
  obtain ⟨⟨r', l, p⟩, hx, hy⟩ := Option.map_eq_some_iff.1 h
  cases hy
  exact ⟨l, p, hx, rfl⟩

theorem run_of {c : Code} {s : Session υ} {r : Except Exc Unit} {l : Dict String Nat} {p : State υ}
    (h : K.runcode c (s.bindings, s.state) = some (r, (l, p))) : run K c s = some (r, ⟨l, s.changed, p, s.output⟩) := by
  unfold run
  rw [h]
  rfl

theorem internal_iff (hP : ParserOk K) {source : Str} {s s' : Session υ} {r : Except Exc Unit} :
    internal K source s = some (r, s') ↔ Executes K source s r s' := by
  cases hp : K.parse (K.dedent source) with
  | error e =>
    have : internal K source s = some (.error (.py e), s) := by
      unfold internal
      refine bind_err ?_
      rw [hp]
      rfl
    rw [this]
    constructor
    · intro h; cases h; exact .unparsable hp
    · intro h
      cases h with
      | unparsable h => rw [hp] at h; cases h; rfl
      | uncompiled h _ _ => rw [hp] at h; cases h
      | ran h _ _ _ => rw [hp] at h; cases h
  | ok t =>
    obtain ⟨body, hb, -⟩ := hP _ _ hp
    have hbody : bodyOf t = .ok body := by unfold bodyOf; rw [hb]
    cases hc : K.compile body with
    | error e =>
      have : internal K source s = some (.error (.py e), s) := by
        unfold internal
        refine (bind_val (a := t) (s1 := s) (by rw [hp]; rfl)).trans ?_
        refine (bind_val (a := body) (s1 := s) (by rw [hbody]; rfl)).trans ?_
        refine bind_err ?_
        rw [hc]
        rfl
      rw [this]
      constructor
      · intro h; cases h; exact .uncompiled hp hb hc
      · intro h
        cases h with
        | unparsable h => rw [hp] at h; cases h
        | uncompiled h h1 h2 =>
          rw [hp] at h; cases h
          rw [hb] at h1; cases h1
          rw [hc] at h2; cases h2
          rfl
        | ran h h1 h2 _ =>
          rw [hp] at h; cases h
          rw [hb] at h1; cases h1
          rw [hc] at h2; cases h2
    | ok c =>
      have : internal K source s = run K c s := by
        unfold internal
        refine (bind_val (a := t) (s1 := s) (by rw [hp]; rfl)).trans ?_
        refine (bind_val (a := body) (s1 := s) (by rw [hbody]; rfl)).trans ?_
        exact bind_val (a := c) (s1 := s) (by rw [hc]; rfl)
      rw [this]
      constructor
      · intro h
        obtain ⟨l, p, h1, rfl⟩ := run_cases h
        exact .ran hp hb hc h1
      · intro h
        cases h with
        | unparsable h => rw [hp] at h; cases h
        | uncompiled h h1 h2 =>
          rw [hp] at h; cases h
          rw [hb] at h1; cases h1
          rw [hc] at h2; cases h2
        | ran h h1 h2 h3 =>
          rw [hp] at h; cases h
          rw [hb] at h1; cases h1
          rw [hc] at h2; cases h2
          exact run_of h3

/-- A command that executes something, and then is done. -/
theorem then_false {m : C υ Unit} {s s' : Session υ} {r : Except Exc Bool} :
    (m >>= fun _ => (pure false : C υ Bool)) s = some (r, s') ↔ ∃ r0, m s = some (r0, s') ∧ r = r0.map fun _ => false := by
  constructor
  · intro h
    rcases bind_cases h with ⟨e, h1, rfl⟩ | ⟨a, s1, h1, h2⟩
    · exact ⟨_, h1, rfl⟩
    · cases h2
      exact ⟨_, h1, rfl⟩
  · rintro ⟨r0, h1, rfl⟩
    cases r0 with
    | error e => exact bind_err h1
    | ok u => exact (bind_val h1).trans rfl

/-! Macro-imports. -/

theorem sync_cases {s s' : Session υ} {r : Except Exc Unit} (hM : K.metadata.WF) (h : sync K s = some (r, s')) :
    (∃ e, r = .error (.py e) ∧ s' = s ∧ (e = .keyError ∨ e = .attributeError) ∧
      ∀ m, s.state.user.1.modules.get "__mcpyrate_repl_self__".toList ≠ some (.obj m)) ∨
    ∃ p, r = .ok () ∧ s' = ⟨s.bindings, s.changed, p, s.output⟩ ∧ Synced K s.state p := by
  unfold sync at h
  cases hm : s.state.sys.modules.get magicName.toList with
  | none =>
    rw [hm] at h
    cases h
    refine .inl ⟨_, rfl, rfl, .inl rfl, fun m hc => ?_⟩
    rw [show s.state.user.1.modules.get "__mcpyrate_repl_self__".toList = _ from hm] at hc
    cases hc
  | some x =>
    rw [hm] at h
    cases x with
    | obj m =>
      cases h
      refine .inr ⟨_, rfl, rfl, m, hm, ⟨rfl, rfl, rfl⟩, rfl, rfl, fun i hi => if_neg hi, fun a => ?_⟩
      show Dict.get (if m = m then _ else _) a = _
      rw [if_pos rfl, Dict.get_update _ _ hM]
      split <;> rfl
    | none =>
      cases h
      refine .inl ⟨_, rfl, rfl, .inr rfl, fun m hc => ?_⟩
      rw [show s.state.user.1.modules.get "__mcpyrate_repl_self__".toList = _ from hm] at hc
      cases hc
    | str v =>
      cases h
      refine .inl ⟨_, rfl, rfl, .inr rfl, fun m hc => ?_⟩
      rw [show s.state.user.1.modules.get "__mcpyrate_repl_self__".toList = _ from hm] at hc
      cases hc

theorem runs_or_fails {σ M O : Type} (I : Interp σ M O) (o : Opts) : ∀ (l : List Val) (p : σ),
    (∃ rs p', FindMacros.Runs I o p l rs p') ∨
    ∃ pre t post rs p1 e p2, l = pre ++ t :: post ∧ FindMacros.Runs I o p pre rs p1 ∧ getMacros I o t p1 = (.error e, p2)
  | [], p => .inl ⟨[], p, .nil⟩
  | t :: l, p => by
    cases hg : getMacros I o t p with
    | mk r p1 =>
      cases r with
      | error e => exact .inr ⟨[], t, l, [], p, e, p1, rfl, .nil, hg⟩
      | ok x =>
        obtain ⟨a, b⟩ := x
        rcases runs_or_fails I o l p1 with ⟨rs, p', h⟩ | ⟨pre, t', post, rs, p2, e, p3, rfl, h1, h2⟩
        · exact .inl ⟨_, p', .cons hg h⟩
        · exact .inr ⟨t :: pre, t', post, _, p2, e, p3, rfl, .cons hg h1, h2⟩

theorem findMacrosIn_cases {t : Val} {body : List Val} (hb : t.get? .body = some (.list body))
    (hp : FindMacros.Parsed body) {s s' : Session υ} {r : Except Exc (Val × Dict String Nat)}
    (h : findMacrosIn K t s = some (r, s')) :
    (∃ pre i post rs p2 e p3, r = .error (.py e) ∧ s' = ⟨s.bindings, s.changed, p3, s.output⟩ ∧
      FindMacros.macroImports body = pre ++ i :: post ∧ FindMacros.Runs K.interp (options K) s.state pre rs p2 ∧
      getMacros K.interp (options K) i p2 = (.error e, p3)) ∨
    ∃ rs p2 b out, r = .ok (withField t .body (.list out), b) ∧ s' = ⟨s.bindings, s.changed, p2, s.output⟩ ∧
      FindMacros.Runs K.interp (options K) s.state (FindMacros.macroImports body) rs p2 ∧
      FindMacros.Union (rs.map (·.2)) b ∧ FindMacros.Rewritten true body (rs.map (·.1)) out := by
  unfold findMacrosIn at h
  have hbody : bodyOf t = .ok body := by unfold bodyOf; rw [hb]
  rcases bind_cases h with ⟨e, h1, rfl⟩ | ⟨a, s1, h1, h2⟩
  · rw [hbody] at h1; cases h1
  rw [hbody] at h1
  cases h1
  dsimp only at h2
  rcases runs_or_fails K.interp (options K) (FindMacros.macroImports body) s.state with
    ⟨rs, p', hr⟩ | ⟨pre, i, post, rs, p2, e, p3, hl, h3, h4⟩
  · obtain ⟨out, b, hf⟩ := C25_complete K.interp (options K) rfl true body hp s.state p' rs hr
    have hf' := hf
    unfold options at hf'
    rw [show (some magicName) = some "__mcpyrate_repl_self__" from rfl, hf'] at h2
    cases h2
    obtain ⟨rs', h5, h6, h7⟩ := C25_transform K.interp (options K) rfl (by show some "__mcpyrate_repl_self__" ≠ some ""; decide) body out hp _ _ _ hf
    refine .inr ⟨rs', p', b, out, ?_, rfl, h5, h7, h6⟩
    rw [← setBody_eq]
    rfl
  · have hf := C25_fails K.interp (options K) rfl true body pre post i hp hl _ _ _ rs e h3 h4
    unfold options at hf
    rw [show (some magicName) = some "__mcpyrate_repl_self__" from rfl, hf] at h2
    cases h2
    exact .inl ⟨pre, i, post, rs, p2, e, p3, rfl, rfl, hl, h3, h4⟩

theorem nonempty_iff {b : Dict String Nat} : b.isEmpty = false ↔ ∃ k f, b.get k = some f := by
  cases b with
  | nil => simp [Dict.get_nil]
  | cons x b =>
    obtain ⟨k, f⟩ := x
    simp only [List.isEmpty_cons, true_iff]
    exact ⟨k, f, by rw [Dict.get_cons, if_pos rfl]⟩

/-- The session after the macro-imports. -/
theorem bind_spec {b : Dict String Nat} (hb : b.WF) (s : Session υ) :
    ∃ l ch, Console.bind b s = some (.ok (), ⟨l, ch, s.state, s.output⟩) ∧ Added s.bindings b l ∧
      (ch = true ↔ s.changed = true ∨ ∃ k f, b.get k = some f) := by
  unfold Console.bind M.modify
  cases he : b.isEmpty with
  | true =>
    have hn : b = [] := by cases b with | nil => rfl | cons _ _ => cases he
    subst hn
    refine ⟨s.bindings, s.changed, rfl, fun k => by simp [Dict.get_nil], ?_⟩
    simp [Dict.get_nil]
  | false =>
    refine ⟨s.bindings.update b, true, rfl, fun k => Dict.get_update _ _ hb k, ?_⟩
    simp only [true_iff]
    exact .inr (nonempty_iff.1 he)

/-! Expansion. -/

theorem visit_cases {n : Nat} {t : Val} {s s' : Session υ} {r : Except Exc Val} (h : visit K n t s = some (r, s')) :
    ∃ s1, Expander.Runs K.env .current t (init ⟨s.bindings, s.state.globals, (s.state.registry, s.state.user)⟩) r s1 ∧
      s' = ⟨s1.world.locals, s.changed, ⟨s1.world.globals, s1.world.user.1, s1.world.user.2⟩, s.output⟩ := by
  obtain ⟨⟨r', s1⟩, hx, hy⟩ := Option.map_eq_some_iff.1 h
  cases hy
  exact ⟨s1, ⟨n, hx⟩, rfl⟩

/-- The two stages of the expansion. -/
theorem ran_spec (hk : KeepRegistry K.post) {n : Nat} {t : Val} {s s' : Session υ} {r : Except Exc Val}
    (h : (visit K n t >>= fun t => postprocess K n t) s = some (r, s')) :
    ∃ l p, s' = ⟨l, s.changed, p, s.output⟩ ∧ Ran K s.bindings t s.state r l p := by
  rcases bind_cases h with ⟨e, h1, rfl⟩ | ⟨t1, s1, h1, h2⟩
  · obtain ⟨s1, hv, rfl⟩ := visit_cases h1
    exact ⟨_, _, rfl, .raised hv⟩
  · obtain ⟨sx, hv, rfl⟩ := visit_cases h1
    obtain ⟨⟨r', sp⟩, hx, hy⟩ := Option.map_eq_some_iff.1 h2
    cases hy
    refine ⟨_, _, rfl, ?_⟩
    have hbind : ∀ x, (Except.ok x >>= FixCtx.fixCtx : Except Err Val) = FixCtx.fixCtx x := fun _ => rfl
    rcases C27_applied K.isOwn K.post hk n _ _ _ _ hx with ⟨e, h3, rfl, rfl⟩ | ⟨t1', h3, h4⟩
    · obtain ⟨y, rfl, hd⟩ := liftErr_error h3
      exact .unfit hv (by rw [hd]; rfl)
    · rcases h4 with ⟨e, h4, rfl, rfl⟩ | ⟨t2, h4, h5⟩
      · obtain ⟨y, rfl, hd⟩ := liftErr_error h4
        exact .unfit hv (by rw [h3, hbind, hd])
      · exact .posted hv (by rw [h3, hbind, h4]) h5

theorem translate_spec (hP : ParserOk K) (hM : K.metadata.WF) (hk : KeepRegistry K.post) {n : Nat} {source : Str}
    {s s' : Session υ} {r : Except Exc Code} (h : translate K n source s = some (r, s')) :
    ∃ b, Translated K source s b r s' := by
  unfold translate at h
  rcases bind_cases h with ⟨e, h1, rfl⟩ | ⟨t, s1, h1, h0⟩
  · cases hp : K.parse source with
    | ok t => rw [hp] at h1; cases h1
    | error y => rw [hp] at h1; cases h1; exact ⟨[], .notImported (.unparsable hp)⟩
  clear h
  have hp : K.parse source = .ok t ∧ s1 = s := by
    cases hp : K.parse source with
    | ok t => rw [hp] at h1; cases h1; exact ⟨rfl, rfl⟩
    | error y => rw [hp] at h1; cases h1
  obtain ⟨hp, rfl⟩ := hp
  obtain ⟨body, hb, hparsed⟩ := hP _ _ hp
  have hst : Dialects.stmts t = body := by unfold Dialects.stmts; rw [hb]
  rcases bind_cases h0 with ⟨e, h2, rfl⟩ | ⟨_, s2, h2, h⟩
  · rcases sync_cases hM h2 with ⟨x, hx, rfl, hy, hm⟩ | ⟨_, hx, _⟩
    · cases hx; exact ⟨[], .notImported (.gone hp hm hy)⟩
    · cases hx
  rcases sync_cases hM h2 with ⟨x, hx, _⟩ | ⟨p1, _, rfl, hsync⟩
  · cases hx
  rcases bind_cases h with ⟨e, h3, rfl⟩ | ⟨⟨t2, b⟩, s3, h3, h⟩
  · rcases findMacrosIn_cases hb hparsed h3 with ⟨pre, i, post, rs, p2, x, p3, hx, rfl, h4, h5, h6⟩ | ⟨_, _, _, _, hx, _⟩
    · cases hx; exact ⟨[], .notImported (.failed hp hsync (by rw [hst]; exact h4) h5 h6)⟩
    · cases hx
  rcases findMacrosIn_cases hb hparsed h3 with ⟨_, _, _, _, _, _, _, hx, _⟩ | ⟨rs, p2, b', out, hx, rfl, h4, h5, h6⟩
  · cases hx
  cases hx
  have himp : Imported K source s1.state (withField t .body (.list out)) b p2 :=
    .intro hp hsync (by rw [hst]; exact h4) h5 (by rw [hst]; exact h6)
  obtain ⟨l, ch, hbind, hadd, hch⟩ := bind_spec h5.1 (⟨s1.bindings, s1.changed, p2, s1.output⟩ : Session υ)
  rcases bind_cases h with ⟨e, h7, rfl⟩ | ⟨_, s4, h7, h⟩
  · rw [hbind] at h7; cases h7
  rw [hbind] at h7
  cases h7
  refine ⟨b, ?_⟩
  have split : ∃ r1 sx, (visit K n (withField t .body (.list out)) >>= fun t => postprocess K n t)
      (⟨l, ch, p2, s1.output⟩ : Session υ) = some (r1, sx) ∧
      ((∃ e, r1 = .error e ∧ r = .error e ∧ s' = sx) ∨
       ∃ t', r1 = .ok t' ∧ (M.ofExcept (liftErr (bodyOf t')) >>= fun body => M.ofExcept (liftErr (K.compile body))) sx =
        some (r, s')) := by
    rcases bind_cases h with ⟨e, h8, rfl⟩ | ⟨t3, s5, h8, h⟩
    · exact ⟨_, _, bind_err h8, .inl ⟨e, rfl, rfl, rfl⟩⟩
    · rcases bind_cases h with ⟨e, h9, rfl⟩ | ⟨t4, s6, h9, h⟩
      · exact ⟨_, _, (bind_val h8).trans h9, .inl ⟨e, rfl, rfl, rfl⟩⟩
      · exact ⟨_, _, (bind_val h8).trans h9, .inr ⟨t4, rfl, h⟩⟩
  obtain ⟨r1, sx, h8, h9⟩ := split
  obtain ⟨l', p', rfl, hran⟩ := ran_spec hk h8
  rcases h9 with ⟨e, rfl, rfl, rfl⟩ | ⟨t', rfl, h9⟩
  · exact .raised himp hadd hch hran
  · rcases bind_cases h9 with ⟨e, h10, rfl⟩ | ⟨body', s7, h10, h11⟩
    · unfold bodyOf at h10
      cases hg : t'.get? .body with
      | none =>
        rw [hg] at h10; cases h10
        exact .nobody himp hadd hch hran (by rw [hg]; intro _ hc; cases hc) (.inl rfl)
      | some v =>
        rw [hg] at h10
        cases v with
        | list xs => cases h10
        | _ =>
          cases h10
          exact .nobody himp hadd hch hran (by rw [hg]; intro _ hc; cases hc) (.inr rfl)
    · have hb' : t'.get? .body = some (.list body') ∧ s7 = ⟨l', ch, p', s1.output⟩ := by
        unfold bodyOf at h10
        cases hg : t'.get? .body with
        | none => rw [hg] at h10; cases h10
        | some v =>
          rw [hg] at h10
          cases v with
          | list xs => cases h10; exact ⟨rfl, rfl⟩
          | _ => cases h10
      obtain ⟨hb', rfl⟩ := hb'
      have : r = liftErr (K.compile body') ∧ s' = ⟨l', ch, p', s1.output⟩ := by
        cases hc : K.compile body' with
        | ok c => rw [hc] at h11; cases h11; exact ⟨rfl, rfl⟩
        | error y => rw [hc] at h11; cases h11; exact ⟨rfl, rfl⟩
      obtain ⟨rfl, rfl⟩ := this
      exact .compiled himp hadd hch hran hb'

/-! Importing the functions of macros. -/

theorem lookup_iff {s : Session υ} {k : String} {f : Nat} : lookup s k = some f ↔ Bound s k f := by
  unfold lookup Bound
  cases s.bindings.get k <;> simp

theorem reimport_cases (hP : ParserOk K) {m q : Str} {k : String} {s s' : Session υ} {r : Except Exc Unit}
    (h : reimport K m q k s = some (r, s')) :
    (r = .ok () ∧ ∃ r1, Executes K (importText m q k) s r1 s' ∧
      (r1 = .ok () ∨ r1 = .error (.py .importError) ∨ r1 = .error (.py .moduleNotFoundError))) ∨
    ∃ e, r = .error e ∧ Executes K (importText m q k) s (.error e) s' ∧ e ≠ .py .importError ∧
      e ≠ .py .moduleNotFoundError := by
  unfold reimport at h
  rcases bind_cases h with ⟨e, h1, rfl⟩ | ⟨r1, s1, h1, h2⟩
  · unfold M.attempt at h1
    split at h1 <;> cases h1
  · have h1 : internal K (importText m q k) s = some (r1, s1) := by
      unfold M.attempt at h1
      split at h1
      · cases h1
      · rename_i hi; cases h1; exact hi
    have h1 := (internal_iff hP).1 h1
    split at h2
    · cases h2; exact .inl ⟨rfl, _, h1, .inl rfl⟩
    · cases h2; exact .inl ⟨rfl, _, h1, .inr (.inl rfl)⟩
    · cases h2; exact .inl ⟨rfl, _, h1, .inr (.inr rfl)⟩
    · rename_i e hn1 hn2 _ _
      cases h2
      exact .inr ⟨e, rfl, h1, hn1, hn2⟩

theorem refreshNames_spec (hP : ParserOk K) : ∀ (ks : List String) {s s' : Session υ} {r : Except Exc Unit},
    refreshNames K ks s = some (r, s') → Reimports K ks s r s'
  | [], s, s', r, h => by cases h; exact .nil
  | k :: ks, s, s', r, h => by
    rw [refreshNames] at h
    rcases bind_cases h with ⟨e, h1, rfl⟩ | ⟨s0, s1, h1, h⟩
    · cases h1
    cases h1
    cases hl : lookup s k with
    | none =>
      simp only [hl] at h
      cases h
      exact .gone fun f hf => by rw [lookup_iff.2 hf] at hl; cases hl
    | some f =>
      simp only [hl] at h
      cases ho : K.origin f with
      | none =>
        simp only [ho] at h
        exact .skip (lookup_iff.1 hl) ho (refreshNames_spec hP ks h)
      | some x =>
        obtain ⟨m, q⟩ := x
        simp only [ho] at h
        rcases bind_cases h with ⟨e, h1, rfl⟩ | ⟨_, s1, h1, h2⟩
        · rcases reimport_cases hP h1 with ⟨hx, _⟩ | ⟨e', hx, h3, h4, h5⟩
          · cases hx
          · cases hx
            exact .failed (lookup_iff.1 hl) ho h3 h4 h5
        · rcases reimport_cases hP h1 with ⟨_, r1, h3, h4⟩ | ⟨e', hx, _⟩
          · exact .imported (lookup_iff.1 hl) ho h3 h4 (refreshNames_spec hP ks h2)
          · cases hx

theorem mem_names {s : Session υ} {k : String} : k ∈ names s ↔ ∃ f, Bound s k f := by
  unfold names
  rw [List.mem_append, List.mem_filter, Dict.mem_keys, Dict.mem_keys]
  unfold Bound
  cases h1 : s.bindings.get k with
  | none =>
    cases h2 : s.state.globals.get k with
    | none => simp
    | some g => simp
  | some f =>
    cases h2 : s.state.globals.get k with
    | none =>
      have := (Dict.get_eq_none _ _).1 h2
      simp [this]
    | some g => simp

theorem names_nodup {s : Session υ} (h1 : s.bindings.WF) (h2 : s.state.globals.WF) : (names s).Nodup := by
  unfold names
  rw [List.nodup_append]
  refine ⟨h2, List.Nodup.sublist List.filter_sublist h1, fun a ha b hb => ?_⟩
  rintro rfl
  have := (List.mem_filter.1 hb).2
  simp [ha] at this

theorem refresh_spec (hP : ParserOk K) {s s' : Session υ} {r : Except Exc Unit} (h : refresh K s = some (r, s')) :
    Refreshed K s r s' := by
  unfold refresh at h
  rcases bind_cases h with ⟨e, h1, rfl⟩ | ⟨s0, s1, h1, h⟩
  · cases h1
  cases h1
  cases hc : s.changed with
  | false =>
    rw [if_neg (by rw [hc]; decide)] at h
    cases h
    exact .same hc
  | true =>
    rw [if_pos hc] at h
    rcases bind_cases h with ⟨e, h1, rfl⟩ | ⟨_, s1, h1, h⟩
    · cases h1
    cases h1
    exact .names hc (fun k => mem_names) names_nodup (refreshNames_spec hP _ h)

/-! An ordinary input. -/

theorem answer_spec (hP : ParserOk K) (hM : K.metadata.WF) (hk : KeepRegistry K.post) {source : Str}
    (ho : Ordinary K source) {s s' : Session υ} {r : Except Exc Bool} (h : Answers K source s r s') :
    ∃ b, Answer K source s b r s' := by
  obtain ⟨n, h⟩ := h
  rw [runsource_plain ho.1, if_neg ho.2] at h
  rcases bind_cases h with ⟨e, h1, rfl⟩ | ⟨r1, s1, h1, h2⟩
  · unfold M.attempt at h1
    split at h1 <;> cases h1
  have h1 : translate K n source s = some (r1, s1) := by
    unfold M.attempt at h1
    split at h1
    · cases h1
    · rename_i hi; cases h1; exact hi
  obtain ⟨b, ht⟩ := translate_spec hP hM hk h1
  refine ⟨b, ?_⟩
  cases r1 with
  | error e =>
    dsimp only at h2
    cases hc : caught e with
    | some w =>
      rw [hc] at h2
      cases h2
      exact .shown ht (caught_iff.1 hc)
    | none =>
      rw [hc] at h2
      cases h2
      exact .raised ht (caught_none.1 hc)
  | ok c =>
    rcases bind_cases h2 with ⟨e, h3, rfl⟩ | ⟨_, s2, h3, h4⟩
    · obtain ⟨l, p, h5, rfl⟩ := run_cases h3
      exact .exits ht h5
    · obtain ⟨l, p, h5, rfl⟩ := run_cases h3
      rcases bind_cases h4 with ⟨e, h6, rfl⟩ | ⟨_, s3, h6, h7⟩
      · exact .unrefreshed ht h5 (refresh_spec hP h6)
      · cases h7
        exact .ran ht h5 (refresh_spec hP h6)

/-! The bindings. -/

theorem locals_local : Local (fun w : World υ => w.locals) := fun _ _ _ _ => rfl

theorem Ran.locals (hS : Stable K) {l l' : Dict String Nat} {t : Val} {p p' : State υ} {r : Except Exc Val}
    (h : Ran K l t p r l' p') : l' = l := by
  have key : ∀ {r s1}, Expander.Runs K.env .current t (init ⟨l, p.globals, (p.registry, p.user)⟩) r s1 →
      s1.world.locals = l := by
    rintro r s1 ⟨n, h⟩
    exact visit_keeps locals_local hS.macros n t _ _ _ h
  cases h with
  | raised h => exact key h
  | unfit h _ => exact key h
  | posted h _ _ => exact key h

theorem Translated.bindings (hS : Stable K) {source : Str} {s s' : Session υ} {b : Dict String Nat} {r : Except Exc Code}
    (h : Translated K source s b r s') : Added s.bindings b s'.bindings := by
  cases h with
  | notImported _ => exact fun k => by simp [Dict.get_nil]
  | raised _ ha _ hr => rw [hr.locals hS]; exact ha
  | nobody _ ha _ hr _ _ => rw [hr.locals hS]; exact ha
  | compiled _ ha _ hr _ => rw [hr.locals hS]; exact ha

theorem Executes.bindings (hS : Stable K) {source : Str} {s s' : Session υ} {r : Except Exc Unit}
    (h : Executes K source s r s') : s'.bindings = s.bindings := by
  cases h with
  | unparsable _ => rfl
  | uncompiled _ _ _ => rfl
  | ran _ _ _ h => exact hS.code _ _ _ _ _ _ h

theorem Reimports.bindings (hS : Stable K) {ks : List String} {s s' : Session υ} {r : Except Exc Unit}
    (h : Reimports K ks s r s') : s'.bindings = s.bindings := by
  induction h with
  | nil => rfl
  | gone _ => rfl
  | skip _ _ _ ih => exact ih
  | imported _ _ he _ _ ih => rw [ih, he.bindings hS]
  | failed _ _ he _ _ => exact he.bindings hS

theorem Refreshed.bindings (hS : Stable K) {s s' : Session υ} {r : Except Exc Unit} (h : Refreshed K s r s') :
    s'.bindings = s.bindings := by
  cases h with
  | same _ => rfl
  | names _ _ _ h => exact h.bindings hS

theorem Answer.bindings (hS : Stable K) {source : Str} {s s' : Session υ} {b : Dict String Nat} {r : Except Exc Bool}
    (h : Answer K source s b r s') : Added s.bindings b s'.bindings := by
  cases h with
  | shown ht _ => exact ht.bindings hS
  | raised ht _ => exact ht.bindings hS
  | exits ht hr => rw [show _ = _ from hS.code _ _ _ _ _ _ hr]; exact ht.bindings hS
  | ran ht hr hf =>
    rw [hf.bindings hS, show _ = _ from hS.code _ _ _ _ _ _ hr]; exact ht.bindings hS
  | unrefreshed ht hr hf =>
    rw [hf.bindings hS, show _ = _ from hS.code _ _ _ _ _ _ hr]; exact ht.bindings hS

/-! Special commands. -/

theorem runsource_macros {n : Nat} (s : Session υ) : runsource K n "macros?".toList s =
    some (.ok false, ⟨s.bindings, s.changed, s.state, s.output ++ [.bindings s.bindings]⟩) := by
  have : runsource K n "macros?".toList = (do
      M.modify fun s => { s with output := s.output ++ [.bindings s.bindings] }
      return false) := by
    rw [runsource, if_pos rfl]
  rw [this]
  rfl

theorem runsource_sourcecode {n : Nat} (a : Str) :
    runsource K n (a ++ ['?', '?']) = (internal K ("mcpyrate.repl.utils.sourcecode(".toList ++ a ++ [')']) >>= fun _ =>
      (pure false : C υ Bool)) := by
  have h1 : a ++ ['?', '?'] ≠ "macros?".toList := by
    intro h
    have := congrArg (fun x => x.reverse.drop 1 |>.head?) h
    simp at this
  rw [runsource, if_neg h1, if_pos (show endsWith (a ++ ['?', '?']) "??".toList = true from endsWith_iff.2 ⟨a, rfl⟩)]
  have : (a ++ ['?', '?']).take ((a ++ ['?', '?']).length - 2) = a := by simp
  rw [this]
  rfl

theorem runsource_doc {n : Nat} {a : Str} (h1 : a ≠ "macros".toList) (h2 : ∀ c, a ≠ c ++ ['?']) :
    runsource K n (a ++ ['?']) = (internal K ("mcpyrate.repl.utils.doc(".toList ++ a ++ [')']) >>= fun _ =>
      (pure false : C υ Bool)) := by
  have h3 : a ++ ['?'] ≠ "macros?".toList := by
    intro h
    exact h1 (List.append_cancel_right (bs := ['?']) (h.trans rfl))
  have h4 : ¬ endsWith (a ++ ['?']) "??".toList = true := by
    rw [endsWith_iff]
    rintro ⟨c, hc⟩
    refine h2 c (List.append_cancel_right (bs := ['?']) (hc.trans ?_))
    simp
  rw [runsource, if_neg h3, if_neg h4, if_pos (show endsWith (a ++ ['?']) "?".toList = true from endsWith_iff.2 ⟨a, rfl⟩)]
  have : (a ++ ['?']).take ((a ++ ['?']).length - 1) = a := by simp
  rw [this]
  rfl

/-- An input that is not ordinary does not change the bindings. -/
theorem other_bindings (hP : ParserOk K) (hS : Stable K) {source : Str} (ho : ¬ Ordinary K source) {s s' : Session υ}
    {r : Except Exc Bool} (h : Answers K source s r s') : s'.bindings = s.bindings := by
  obtain ⟨n, h⟩ := h
  by_cases hq : ∀ a, source ≠ a ++ ['?']
  · have hi : K.verdict source = .incomplete := Decidable.byContradiction fun hc => ho ⟨hq, hc⟩
    rw [runsource_plain hq, if_pos hi] at h
    cases h
    rfl
  · rw [Classical.not_forall] at hq
    obtain ⟨a, ha⟩ := hq
    have ha := Classical.not_not.1 ha
    subst ha
    by_cases h1 : a = "macros".toList
    · subst h1
      rw [show "macros".toList ++ ['?'] = "macros?".toList from rfl, runsource_macros] at h
      cases h
      rfl
    · by_cases h2 : ∀ c, a ≠ c ++ ['?']
      · rw [runsource_doc h1 h2] at h
        obtain ⟨r0, h, _⟩ := then_false.1 h
        exact ((internal_iff hP).1 h).bindings hS
      · rw [Classical.not_forall] at h2
        obtain ⟨c, hc⟩ := h2
        have hc := Classical.not_not.1 hc
        subst hc
        rw [show c ++ ['?'] ++ ['?'] = c ++ ['?', '?'] by simp, runsource_sourcecode] at h
        obtain ⟨r0, h, _⟩ := then_false.1 h
        exact ((internal_iff hP).1 h).bindings hS

end Mcpyrate.Console
