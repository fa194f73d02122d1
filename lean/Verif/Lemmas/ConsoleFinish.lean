import Verif.Lemmas.Console
namespace Mcpyrate.Console
open Py Expander GetMacros Compiler Modules RunCode Postprocess

variable {υ μ Code : Type} {K : Tools υ μ Code}

/-! The converse of the stages: what finishes by the specification finishes in the model. -/

theorem runHooks_of_chain {σ : Type} (H : Hooks σ) (hk : KeepRegistry H) {fs : List Nat} {t : Val} {s s' : PSt σ}
    {r : Except Exc Val} (h : Chain H fs t s r s') :
    ∀ i, fs = s.registry.drop i → ∃ n, runHooks H n i t s = some (r, s') := by
  induction h with
  | nil t s =>
    intro i hi
    refine ⟨1, ?_⟩
    have hn : s.registry[i]? = none := by
      rw [List.getElem?_eq_none_iff]
      exact List.drop_eq_nil_iff.1 hi.symm
    unfold runHooks
    change M.bind M.get _ s = _
    simp only [M.bind, M.get, hn]
    rfl
  | @error f fs t s e s1 hf =>
    intro i hi
    have hs : s.registry[i]? = some f := by
      have := congrArg List.head? hi
      rw [List.head?_drop] at this
      exact this.symm
    refine ⟨1, ?_⟩
    unfold runHooks
    change M.bind M.get _ s = _
    simp only [M.bind, M.get, hs]
    exact bind_err hf
  | @cons f fs t s t1 s1 r s2 hf _ ih =>
    intro i hi
    have hs : s.registry[i]? = some f := by
      have := congrArg List.head? hi
      rw [List.head?_drop] at this
      exact this.symm
    have ht : fs = s.registry.drop (i + 1) := by
      have := congrArg List.tail hi
      rw [List.tail_drop] at this
      exact this
    obtain ⟨n, hn⟩ := ih (i + 1) (by rw [hk _ _ _ _ _ hf]; exact ht)
    refine ⟨n + 1, ?_⟩
    unfold runHooks
    change M.bind M.get _ s = _
    simp only [M.bind, M.get, hs]
    exact (bind_val hf).trans hn

theorem ran_finishes (hk : KeepRegistry K.post) {l l' : Dict String Nat} {t : Val} {p p' : State υ} {r : Except Exc Val}
    (h : Ran K l t p r l' p') (ch : Bool) (o : List Shown) :
    ∃ n, (visit K n t >>= fun t => postprocess K n t) ⟨l, ch, p, o⟩ = some (r, ⟨l', ch, p', o⟩) := by
  have hv : ∀ {n m : Nat} (_ : n ≤ m) {r : Except Exc Val} {s1}, visitAs K.env n .current t
      { recursive := true, hook := none, world := ⟨l, p.globals, (p.registry, p.user)⟩, depth := 0, log := [] } =
        some (r, s1) → visit K m t ⟨l, ch, p, o⟩ =
        some (r, ⟨s1.world.locals, ch, ⟨s1.world.globals, s1.world.user.1, s1.world.user.2⟩, o⟩) := by
    intro n m hnm r s1 h
    have := visitAs_mono K.env hnm _ _ _ _ h
    unfold visit
    exact Option.map_eq_some_iff.2 ⟨_, this, rfl⟩
  cases h with
  | raised h =>
    obtain ⟨n, h⟩ := h
    exact ⟨n, bind_err (hv (Nat.le_refl n) h)⟩
  | @unfit t1 s1 e h hd =>
    obtain ⟨n, h⟩ := h
    refine ⟨n, (bind_val (hv (Nat.le_refl n) h)).trans ?_⟩
    unfold postprocess
    refine Option.map_eq_some_iff.2 ⟨(.error (.py e), ⟨s1.world.user.1, (s1.world.globals, s1.world.user.2)⟩), ?_, rfl⟩
    unfold globalPostprocess
    cases hm : Markers.deleteMarkers K.isOwn t1 with
    | error e' =>
      rw [hm] at hd
      cases hd
      rfl
    | ok t2 =>
      rw [hm] at hd
      have hd : FixCtx.fixCtx t2 = .error e := hd
      refine (bind_val (a := t2) rfl).trans ?_
      rw [hd]
      rfl
  | @posted t1 s1 t2 r s2 h hd hc =>
    obtain ⟨n, h⟩ := h
    obtain ⟨m, hm⟩ := runHooks_of_chain K.post hk hc 0 rfl
    refine ⟨max n m, (bind_val (hv (Nat.le_max_left n m) h)).trans ?_⟩
    unfold postprocess
    refine Option.map_eq_some_iff.2 ⟨(r, s2), ?_, rfl⟩
    have hm := runHooks_mono K.post (Nat.le_max_right n m) 0 t2 _ _ hm
    unfold globalPostprocess
    cases hx : Markers.deleteMarkers K.isOwn t1 with
    | error e' => rw [hx] at hd; cases hd
    | ok t3 =>
      rw [hx] at hd
      have hd : FixCtx.fixCtx t3 = .ok t2 := hd
      refine (bind_val (a := t3) rfl).trans ?_
      rw [hd]
      exact (bind_val (a := t2) rfl).trans hm

theorem some_of_pair {α β : Type} : ∀ {x : Option (α × β)}, x ≠ none → ∃ r s, x = some (r, s)
  | none, h => absurd rfl h
  | some (r, s), _ => ⟨r, s, rfl⟩

theorem translate_finishes (hP : ParserOk K) (hM : K.metadata.WF) (hk : KeepRegistry K.post) {source : Str}
    {s : Session υ}
    (hR : ∀ t b p l, Imported K source s.state t b p → Added s.bindings b l → ∃ r l' p', Ran K l t p r l' p') :
    ∃ n r s', translate K n source s = some (r, s') := by
  unfold translate
  cases hp : K.parse source with
  | error e => exact ⟨0, _, _, bind_err (s1 := s) rfl⟩
  | ok t =>
  have h1 : (M.ofExcept (liftErr (Except.ok t : Except Err Val)) : C υ Val) s = some (.ok t, s) := rfl
  simp only [bind_val h1]
  obtain ⟨body, hb, hparsed⟩ := hP _ _ hp
  have hst : Dialects.stmts t = body := by unfold Dialects.stmts; rw [hb]
  have hsy : ∃ r s', sync K s = some (r, s') := by
    unfold sync
    split <;> exact ⟨_, _, rfl⟩
  obtain ⟨r2, s2, h2⟩ := hsy
  rcases sync_cases hM h2 with ⟨x, rfl, rfl, _⟩ | ⟨p1, rfl, rfl, hsync⟩
  · exact ⟨0, _, _, bind_err h2⟩
  simp only [bind_val h2]
  have hfi : ∃ r s', findMacrosIn K t ⟨s.bindings, s.changed, p1, s.output⟩ = some (r, s') := by
    unfold findMacrosIn bodyOf
    rw [hb]
    exact ⟨_, _, rfl⟩
  obtain ⟨r3, s3, h3⟩ := hfi
  rcases findMacrosIn_cases hb hparsed h3 with ⟨pre, i, post, rs, p2, x, p3, rfl, rfl, h4, h5, h6⟩ |
    ⟨rs, p2, b, out, rfl, rfl, h4, h5, h6⟩
  · exact ⟨0, _, _, bind_err h3⟩
  simp only [bind_val h3]
  have himp : Imported K source s.state (withField t .body (.list out)) b p2 :=
    .intro hp hsync (by rw [hst]; exact h4) h5 (by rw [hst]; exact h6)
  obtain ⟨l, ch, hbind, hadd, hch⟩ := bind_spec h5.1 (⟨s.bindings, s.changed, p2, s.output⟩ : Session υ)
  simp only [bind_val hbind]
  obtain ⟨r4, l', p', hran⟩ := hR _ _ _ _ himp hadd
  obtain ⟨n, hn⟩ := ran_finishes hk hran ch s.output
  refine ⟨n, ?_⟩
  have rest : ∀ (t' : Val) (s5 : Session υ), ∃ r s', (M.ofExcept (liftErr (bodyOf t')) >>= fun body =>
      M.ofExcept (liftErr (K.compile body))) s5 = some (r, s') := by
    intro t' s5
    cases bodyOf t' with
    | error e => exact ⟨_, _, bind_err (s1 := s5) rfl⟩
    | ok body =>
      refine ⟨liftErr (K.compile body), s5, (bind_val (a := body) (s1 := s5) rfl).trans ?_⟩
      cases K.compile body <;> rfl
  rcases bind_cases hn with ⟨e, h8, rfl⟩ | ⟨t3, s5, h8, h9⟩
  · exact ⟨_, _, bind_err h8⟩
  · rw [bind_val h8]
    cases r4 with
    | error e => exact ⟨_, _, bind_err h9⟩
    | ok t' =>
      rw [bind_val h9]
      exact rest t' _

theorem internal_finishes (hP : ParserOk K) (hC : ∀ c x, K.runcode c x ≠ none) (source : Str) (s : Session υ) :
    ∃ r s', internal K source s = some (r, s') := by
  cases hp : K.parse (K.dedent source) with
  | error e => exact ⟨_, _, (internal_iff hP).2 (.unparsable hp)⟩
  | ok t =>
    obtain ⟨body, hb, -⟩ := hP _ _ hp
    cases hc : K.compile body with
    | error e => exact ⟨_, _, (internal_iff hP).2 (.uncompiled hp hb hc)⟩
    | ok c =>
      obtain ⟨r, ⟨b, p⟩, hx⟩ := some_of_pair (hC c (s.bindings, s.state))
      exact ⟨_, _, (internal_iff hP).2 (.ran hp hb hc hx)⟩

theorem attempt_some {ε σ α : Type} {m : Py.M ε σ α} {s s' : σ} {r : Except ε α} (h : m s = some (r, s')) :
    M.attempt m s = some (.ok r, s') := by
  unfold M.attempt
  rw [h]

theorem refreshNames_finishes (hP : ParserOk K) (hC : ∀ c x, K.runcode c x ≠ none) :
    ∀ (ks : List String) (s : Session υ), ∃ r s', refreshNames K ks s = some (r, s')
  | [], s => ⟨_, _, rfl⟩
  | k :: ks, s => by
    rw [refreshNames]
    have hg : (M.get : C υ (Session υ)) s = some (.ok s, s) := rfl
    rw [bind_val hg]
    cases hl : lookup s k with
    | none => exact ⟨_, _, rfl⟩
    | some f =>
      dsimp only
      cases ho : K.origin f with
      | none => exact refreshNames_finishes hP hC ks s
      | some x =>
        obtain ⟨m, q⟩ := x
        dsimp only
        have hre : ∃ r s', reimport K m q k s = some (r, s') := by
          unfold reimport
          obtain ⟨r, s1, h1⟩ := internal_finishes hP hC
            ("from ".toList ++ m ++ " import ".toList ++ q ++ " as ".toList ++ k.toList) s
          rw [bind_val (attempt_some h1)]
          split <;> exact ⟨_, _, rfl⟩
        obtain ⟨r, s1, h1⟩ := hre
        cases r with
        | error e => exact ⟨_, _, bind_err h1⟩
        | ok u =>
          rw [bind_val h1]
          exact refreshNames_finishes hP hC ks s1

theorem answers_finishes (hP : ParserOk K) (hM : K.metadata.WF) (hk : KeepRegistry K.post) {source : Str}
    (ho : Ordinary K source) {s : Session υ}
    (hR : ∀ t b p l, Imported K source s.state t b p → Added s.bindings b l → ∃ r l' p', Ran K l t p r l' p')
    (hC : ∀ c x, K.runcode c x ≠ none) : ∃ r s', Answers K source s r s' := by
  obtain ⟨n, r1, s1, h1⟩ := translate_finishes hP hM hk hR
  suffices h : ∃ r s', runsource K n source s = some (r, s') by
    obtain ⟨r, s', h⟩ := h
    exact ⟨r, s', n, h⟩
  rw [runsource_plain ho.1, if_neg ho.2, bind_val (attempt_some h1)]
  cases r1 with
  | error e =>
    dsimp only
    cases caught e <;> exact ⟨_, _, rfl⟩
  | ok c =>
    dsimp only
    obtain ⟨r2, ⟨b, p⟩, hx⟩ := some_of_pair (hC c (s1.bindings, s1.state))
    have h2 := run_of hx
    cases r2 with
    | error e => exact ⟨_, _, bind_err h2⟩
    | ok u =>
      rw [bind_val h2]
      have h3 : ∃ r s', refresh K (⟨b, s1.changed, p, s1.output⟩ : Session υ) = some (r, s') := by
        unfold refresh
        have hg : (M.get : C υ (Session υ)) ⟨b, s1.changed, p, s1.output⟩ = some (.ok _, _) := rfl
        rw [bind_val hg]
        split
        · obtain ⟨r, s', h⟩ := refreshNames_finishes hP hC (names ⟨b, s1.changed, p, s1.output⟩)
            (⟨b, false, p, s1.output⟩ : Session υ)
          refine ⟨r, s', (bind_val (a := ()) (s1 := (⟨b, false, p, s1.output⟩ : Session υ)) rfl).trans h⟩
        · exact ⟨_, _, rfl⟩
      obtain ⟨r3, s3, h3⟩ := h3
      cases r3 with
      | error e => exact ⟨_, _, bind_err h3⟩
      | ok u => rw [bind_val h3]; exact ⟨_, _, rfl⟩

end Mcpyrate.Console
