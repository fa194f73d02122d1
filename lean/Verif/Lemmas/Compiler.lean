import Verif.Spec.Compiler
import Verif.Lemmas.ExpanderMono
import Verif.Lemmas.Postprocess
import Verif.Props.FindMacros
import Verif.Props.DialectSource
import Verif.Props.Postprocess
import Verif.Props.Markers
import Verif.Props.FixCtx
import Verif.Props.Expander
namespace Mcpyrate.Compiler
open Py Expander GetMacros Paths Dialects Postprocess

variable {υ μ D σ ε α β : Type}

/-! More fuel does not change the outcome. -/

/-- `m'` finishes, with the same outcome, whenever `m` does. -/
def Le (m m' : Py.M ε σ α) : Prop := ∀ s r, m s = some r → m' s = some r

theorem Le.refl (m : Py.M ε σ α) : Le m m := fun _ _ h => h

theorem Le.bind {m m' : Py.M ε σ α} {f f' : α → Py.M ε σ β} (hm : Le m m') (hf : ∀ a, Le (f a) (f' a)) :
    Le (m >>= f) (m' >>= f') := by
  intro s r h
  change Py.M.bind m f s = some r at h
  change Py.M.bind m' f' s = some r
  simp only [Py.M.bind] at h ⊢
  cases hs : m s with
  | none => rw [hs] at h; cases h
  | some p =>
    obtain ⟨x, s1⟩ := p
    rw [hs] at h
    rw [hm s _ hs]
    cases x with
    | error e => exact h
    | ok a => exact hf a s1 r h

theorem transform_mono {σ O D C : Type} (K : Classes σ O D C)
    (find : C → Dialects.St σ → Except Err (Option (Found O) × C) × Dialects.St σ) {n m : Nat} (h : n ≤ m) :
    ∀ c ds s r, transform K find n c ds s = some r → transform K find m c ds s = some r := by
  induction n generalizing m with
  | zero => intro c ds s r h; cases h
  | succ n ih =>
    intro c ds s r hr
    obtain ⟨m, rfl⟩ : ∃ k, m = k + 1 := ⟨m - 1, by omega⟩
    rw [transform] at hr ⊢
    split at hr
    · exact hr
    · exact hr
    · split at hr
      · exact hr
      · exact ih (by omega) _ _ _ _ hr

theorem runHooks_mono (H : Hooks υ) {n m : Nat} (h : n ≤ m) (i : Nat) (t : Val) :
    Le (runHooks H n i t) (runHooks H m i t) := by
  induction n generalizing m i t with
  | zero => intro s r h; cases h
  | succ n ih =>
    obtain ⟨m, rfl⟩ : ∃ k, m = k + 1 := ⟨m - 1, by omega⟩
    rw [runHooks, runHooks]
    refine Le.bind (Le.refl _) fun s => ?_
    split
    · exact Le.refl _
    · exact Le.bind (Le.refl _) fun t' => ih (by omega) _ _

theorem ofDialects_mono {f g : Dialects.St (Proc υ) → Option (Except Err α × Dialects.St (Proc υ))}
    (h : ∀ s r, f s = some r → g s = some r) : Le (ofDialects f) (ofDialects g) := by
  intro s r hr
  obtain ⟨x, hx, rfl⟩ := Option.map_eq_some_iff.1 hr
  exact Option.map_eq_some_iff.2 ⟨x, h _ _ hx, rfl⟩

theorem ofProc_mono {f g : Proc υ → Option (Except Exc α × Proc υ)}
    (h : ∀ s r, f s = some r → g s = some r) : Le (ofProc f) (ofProc g) := by
  intro s r hr
  obtain ⟨x, hx, rfl⟩ := Option.map_eq_some_iff.1 hr
  exact Option.map_eq_some_iff.2 ⟨x, h _ _ hx, rfl⟩

theorem map_mono {γ δ : Type} {f g : Option γ} {k : γ → δ} (h : ∀ r, f = some r → g = some r) :
    ∀ r, f.map k = some r → g.map k = some r := by
  intro r hr
  obtain ⟨x, hx, rfl⟩ := Option.map_eq_some_iff.1 hr
  exact Option.map_eq_some_iff.2 ⟨x, h _ hx, rfl⟩

theorem singlephase_mono (T : Tools υ μ D) (filename : Str) (self : Option String) {n m : Nat} (h : n ≤ m) (t : Val) :
    Le (singlephaseExpand T filename self n t) (singlephaseExpand T filename self m t) := by
  unfold singlephaseExpand expandMacros
  refine Le.bind (ofDialects_mono fun s r hr => transform_mono _ _ h _ _ _ _ hr) fun (t, ds) => ?_
  refine Le.bind (Le.refl _) fun (t, b) => ?_
  refine Le.bind (Le.bind ?_ fun t => ?_) fun t => Le.refl _
  · exact ofProc_mono fun p => map_mono fun r hr => visitAs_mono T.env h _ _ _ _ hr
  · refine ofProc_mono fun p => map_mono fun r hr => ?_
    unfold globalPostprocess at hr ⊢
    exact Le.bind (Le.refl _) (fun t1 => Le.bind (Le.refl _) fun t2 => runHooks_mono T.post h 0 t2) _ _ hr

theorem expandTree_mono (T : Tools υ μ D) (filename : Str) (self : Option String) {n m : Nat} (h : n ≤ m) (t : Val) :
    Le (expandTree T filename self n t) (expandTree T filename self m t) := by
  unfold expandTree
  split
  · split
    · exact Le.refl _
    · exact singlephase_mono T filename self h t
    · exact Le.refl _
  · exact Le.refl _
  · exact Le.refl _

theorem expandText_mono (T : Tools υ μ D) (filename : Str) (self : Option String) {n m : Nat} (h : n ≤ m) (c : Str) :
    Le (expandText T filename self n c) (expandText T filename self m c) := by
  unfold expandText
  refine Le.bind (ofDialects_mono fun s => map_mono fun r hr => transform_mono _ _ h _ _ _ _ hr) fun c => ?_
  split
  · exact Le.refl _
  · exact expandTree_mono T filename self h _

theorem expand_mono (T : Tools υ μ D) (filename : Str) (self : Option String) {n m : Nat} (h : n ≤ m) (src : Source)
    (p : Proc υ) : ∀ r, expand T filename self n src p = some r → expand T filename self m src p = some r := by
  unfold expand
  refine map_mono fun r hr => ?_
  suffices Le (expandWith T filename self n src) (expandWith T filename self m src) from this _ _ hr
  cases src with
  | str c => exact expandText_mono T filename self h c
  | bytes b => exact Le.bind (Le.refl _) fun c => expandText_mono T filename self h c
  | tree t =>
    rw [expandWith, expandWith]
    by_cases hk : t.isK .Module = true
    · rw [if_pos hk, if_pos hk]
      exact Le.bind (Le.refl _) fun _ => expandTree_mono T filename self h t
    · rw [if_neg hk, if_neg hk]
      exact Le.refl _
  | list xs => exact Le.bind (Le.refl _) fun _ => expandTree_mono T filename self h _
  | other => exact Le.refl _

theorem Expands.det {T : Tools υ μ D} {filename : Str} {self : Option String} {src : Source} {p p1 p2 : Proc υ}
    {r1 r2 : Except Exc Val} (h1 : Expands T filename self src p r1 p1) (h2 : Expands T filename self src p r2 p2) :
    r1 = r2 ∧ p1 = p2 := by
  obtain ⟨n, h1⟩ := h1
  obtain ⟨m, h2⟩ := h2
  have a := expand_mono T filename self (Nat.le_max_left n m) src p _ h1
  have b := expand_mono T filename self (Nat.le_max_right n m) src p _ h2
  rw [a] at b
  cases b
  exact ⟨rfl, rfl⟩

/-! `ismultiphase`. -/

theorem importsPhase_eq {as : List Val} (h : ∀ a ∈ as, (a.get? .name).isSome = true) :
    (importsPhase as = .ok true ∧ ∃ b ∈ as, b.get? .name = some (.str "phase")) ∨
    (importsPhase as = .ok false ∧ ¬ ∃ b ∈ as, b.get? .name = some (.str "phase")) := by
  induction as with
  | nil => exact .inr ⟨rfl, by simp⟩
  | cons a as ih =>
    have ha := h a (by simp)
    rw [importsPhase]
    cases hn : a.get? .name with
    | none => rw [hn] at ha; cases ha
    | some n =>
      dsimp only
      by_cases hp : n = .str "phase"
      · subst hp
        exact .inl ⟨by simp, a, by simp, hn⟩
      · rw [if_neg (by simpa using hp)]
        rcases ih (fun x hx => h x (by simp [hx])) with ⟨h1, b, hb, h2⟩ | ⟨h1, h2⟩
        · exact .inl ⟨h1, b, by simp [hb], h2⟩
        · refine .inr ⟨h1, ?_⟩
          rintro ⟨b, hb, h3⟩
          rcases List.mem_cons.1 hb with rfl | hb
          · rw [hn] at h3; cases h3; exact hp rfl
          · exact h2 ⟨b, hb, h3⟩

theorem ismultiphase_eq {body : List Val} (hp : FindMacros.Parsed body)
    (hn : ∀ s ∈ body, ∀ as, s.get? .names = some (.list as) → s.isK .ImportFrom = true →
      ∀ a ∈ as, (a.get? .name).isSome = true) :
    (ismultiphase body = .ok true ∧ ∃ s ∈ body, IsPhaseImport s) ∨
    (ismultiphase body = .ok false ∧ ¬ ∃ s ∈ body, IsPhaseImport s) := by
  induction body with
  | nil => exact .inr ⟨rfl, by simp⟩
  | cons s rest ih =>
    have ih := ih (fun x hx => hp x (by simp [hx])) (fun x hx => hn x (by simp [hx]))
    have key : ¬ IsPhaseImport s →
        ((ismultiphase rest = .ok true ∧ ∃ x ∈ s :: rest, IsPhaseImport x) ∨
        (ismultiphase rest = .ok false ∧ ¬ ∃ x ∈ s :: rest, IsPhaseImport x)) := by
      intro hs
      rcases ih with ⟨h1, x, hx, h2⟩ | ⟨h1, h2⟩
      · exact .inl ⟨h1, x, by simp [hx], h2⟩
      · refine .inr ⟨h1, ?_⟩
        rintro ⟨x, hx, h3⟩
        rcases List.mem_cons.1 hx with rfl | hx
        · exact hs h3
        · exact h2 ⟨x, hx, h3⟩
    rw [ismultiphase, Splicing.ismacroimport_eq (hp s (by simp)).1]
    cases hm : Splicing.isImport "macros" s with
    | false => exact key (fun h => by rw [h.1] at hm; cases hm)
    | true =>
      dsimp only
      split
      · rename_i hc
        obtain ⟨a, as, n, h1, h2⟩ := (hp s (by simp)).1 (Splicing.isImport_isK hm)
        rw [h1]
        dsimp only
        simp only [Bool.and_eq_true, beq_iff_eq] at hc
        rcases importsPhase_eq (as := as) (fun x hx => hn s (by simp) _ h1 (Splicing.isImport_isK hm) x (by simp [hx])) with
          ⟨h3, b, hb, h4⟩ | ⟨h3, h4⟩
        · rw [h3]
          refine .inl ⟨rfl, s, by simp, hm, ?_, ?_, a, as, b, h1, hb, h4⟩
          · cases hx : s.get? .module_ with
            | none => rw [hx] at hc; exact absurd hc.1 (by simp [Val.str, Val.none])
            | some v => rw [hx] at hc; simpa using hc.1
          · cases hx : s.get? .level with
            | none => rw [hx] at hc; exact absurd hc.2 (by simp [Val.int, Val.none])
            | some v => rw [hx] at hc; simpa using hc.2
        · rw [h3]
          refine key ?_
          rintro ⟨-, -, -, a', as', b, h5, hb, h6⟩
          rw [h1] at h5
          cases h5
          exact h4 ⟨b, hb, h6⟩
      · rename_i hc
        refine key fun h => hc ?_
        rw [h.2.1, h.2.2.1]
        simp

theorem multiphase_iff {t : Val} {body : List Val} (hb : t.get? .body = some (.list body)) :
    Multiphase t ↔ ∃ s ∈ body, IsPhaseImport s := by
  unfold Multiphase Dialects.stmts
  rw [hb]

/-! Dialects keep modules parsed. -/

/-- There is a list of parsed statements. -/
def BodyOk (t : Val) : Prop := ∃ body, t.get? .body = some (.list body) ∧ FindMacros.Parsed body

theorem applied_parsed {K : Classes (Proc υ) Nat D Val} (hK : ReturnsParsed K) {l k : Attr} {bs : List (String × Nat)}
    {c c' : Val} {s s' : Proc υ} {calls : List (Call D Val)} (h : Applied K l k bs c s calls c' s') (hc : BodyOk c) :
    BodyOk c' := by
  induction h with
  | nil => exact hc
  | cons _ _ hm hr ho _ ih =>
    cases ho with
    | same => exact ih hc
    | new _ => exact ih (hK _ _ _ _ _ _ hm hc hr)

theorem steps_parsed {K : Classes (Proc υ) Nat D Val} (hK : ReturnsParsed K) {I : Interp (Proc υ) μ Nat} {fn : Str}
    {t t' : Val} {p p' : Proc υ} {recs : List (Val × List (Call D Val))} (h : Steps K I fn t p recs t' p')
    (hc : BodyOk t) : BodyOk t' := by
  induction h with
  | nil => exact hc
  | cons hi ha _ ih =>
    refine ih (applied_parsed hK ha ?_)
    obtain ⟨pre, post, a, v, hf, _, hv, rfl⟩ := hi
    obtain ⟨body, hb, hp⟩ := hc
    rw [hf.1] at hb
    cases hb
    refine ⟨_, Expander.withField_get hf.1, fun u hu => ?_⟩
    rcases List.mem_append.1 hu with hu | hu
    · exact hp u (by simp [hu])
    · rcases List.mem_cons.1 hu with rfl | hu
      · obtain ⟨l, l', rfl, _⟩ := hv
        exact ⟨fun h => (by cases h), fun h => (by cases h)⟩
      · exact hp u (by simp [hu])

/-! The stages. -/

theorem visitWith_ran {T : Tools υ μ D} (hk : KeepRegistry T.post) {n : Nat} {b : Dict String Nat} {t : Val}
    {s s' : Dialects.St (Proc υ)} {r : Except Exc Val} (h : expandMacros T n b t s = some (r, s')) :
    Ran T b t s.world r s'.world := by
  unfold expandMacros at h
  have h' : Py.M.bind _ _ s = _ := h
  unfold Py.M.bind at h'
  split at h'
  · cases h'
  · rename_i e s1 hv
    cases h'
    unfold visitWith ofProc at hv
    obtain ⟨x, hx, hy⟩ := Option.map_eq_some_iff.1 hv
    obtain ⟨y, hz, rfl⟩ := Option.map_eq_some_iff.1 hx
    obtain ⟨ry, sy⟩ := y
    cases hy
    exact .raised ⟨n, hz⟩
  · rename_i t1 s1 hv
    unfold visitWith ofProc at hv
    obtain ⟨x, hx, hy⟩ := Option.map_eq_some_iff.1 hv
    obtain ⟨y, hz, rfl⟩ := Option.map_eq_some_iff.1 hx
    obtain ⟨ry, sy⟩ := y
    cases hy
    unfold postprocessed ofProc at h'
    obtain ⟨x, hx, hy⟩ := Option.map_eq_some_iff.1 h'
    obtain ⟨y, hw, rfl⟩ := Option.map_eq_some_iff.1 hx
    obtain ⟨ry, sy'⟩ := y
    cases hy
    have hbind : ∀ x, (Except.ok x >>= FixCtx.fixCtx : Except Err Val) = FixCtx.fixCtx x := fun _ => rfl
    rcases C27_applied T.isOwn T.post hk n _ _ _ _ hw with ⟨e, h1, rfl, rfl⟩ | ⟨t1', h1, h2⟩
    · cases hd : Markers.deleteMarkers T.isOwn t1 with
      | ok x => rw [hd] at h1; cases h1
      | error e' =>
        rw [hd] at h1
        cases h1
        exact .unfit ⟨n, hz⟩ (by rw [hd]; rfl)
    · rcases h2 with ⟨e, h2, rfl, rfl⟩ | ⟨t2, h2, h3⟩
      · cases hd : FixCtx.fixCtx t1' with
        | ok x => rw [hd] at h2; cases h2
        | error e' =>
          rw [hd] at h2
          cases h2
          exact .unfit ⟨n, hz⟩ (by rw [h1, hbind, hd])
      · exact .posted ⟨n, hz⟩ (by rw [h1, hbind, h2]) h3

theorem bind_cases {m : Py.M ε σ α} {f : α → Py.M ε σ β} {s s' : σ} {r : Except ε β} (h : (m >>= f) s = some (r, s')) :
    (∃ e, m s = some (.error e, s') ∧ r = .error e) ∨ ∃ a s1, m s = some (.ok a, s1) ∧ f a s1 = some (r, s') := by
  have h' : Py.M.bind m f s = _ := h
  unfold Py.M.bind at h'
  split at h'
  · cases h'
  · rename_i e s1 hm
    cases h'
    exact .inl ⟨e, hm, rfl⟩
  · rename_i a s1 hm
    exact .inr ⟨a, s1, hm, h'⟩

theorem liftErr_error {x : Except Err α} {e : Exc} (h : liftErr x = .error e) : ∃ y, e = .py y ∧ x = .error y := by
  cases x with
  | ok a => cases h
  | error y => cases h; exact ⟨y, rfl, rfl⟩

theorem liftErr_ok {x : Except Err α} {a : α} (h : liftErr x = .ok a) : x = .ok a := by
  cases x with
  | ok b => cases h; rfl
  | error y => cases h

theorem ofDialects_cases {f : Dialects.St (Proc υ) → Option (Except Err α × Dialects.St (Proc υ))}
    {s s' : Dialects.St (Proc υ)} {r : Except Exc α} (h : ofDialects f s = some (r, s')) :
    (∃ e, r = .error (.py e) ∧ f s = some (.error e, s')) ∨ ∃ a, r = .ok a ∧ f s = some (.ok a, s') := by
  obtain ⟨x, hx, hy⟩ := Option.map_eq_some_iff.1 h
  obtain ⟨rx, sx⟩ := x
  cases hy
  cases rx with
  | error e => exact .inl ⟨e, rfl, hx⟩
  | ok a => exact .inr ⟨a, rfl, hx⟩

theorem setBody_eq (t : Val) (out : List Val) : Dialects.setBody t out = withField t .body (.list out) := by
  cases t <;> rfl

theorem singlephase_spec {T : Tools υ μ D} {fn : Str} {self : Option String} {n : Nat} {t : Val}
    {s s' : Dialects.St (Proc υ)} {r : Except Exc Val} (hK : ReturnsParsed T.dialects) (hk : KeepRegistry T.post)
    (hself : self ≠ some "") (hb : BodyOk t) (h : singlephaseExpand T fn self n t s = some (r, s')) :
    (∀ t', r = .ok t' → ∃ ds t1 p1 calls, Stages T fn self t s.world ds (.ok t1) p1 ∧
      Posted T.dialects ds t1 p1 calls t' s'.world ∧ Markers.checkNoMarkersRemaining T.isMarker t' = .ok ()) ∧
    (∀ e, r = .error e → (∃ x, e = .py x) ∨ ∃ ds, Stages T fn self t s.world ds (.error e) s'.world) := by
  have lib : ∀ x : Err, r = .error (.py x) →
      (∀ t', r = .ok t' → ∃ ds t1 p1 calls, Stages T fn self t s.world ds (.ok t1) p1 ∧
        Posted T.dialects ds t1 p1 calls t' s'.world ∧ Markers.checkNoMarkersRemaining T.isMarker t' = .ok ()) ∧
      (∀ e, r = .error e → (∃ x, e = .py x) ∨ ∃ ds, Stages T fn self t s.world ds (.error e) s'.world) := by
    rintro x rfl
    exact ⟨fun _ h => (by cases h), fun e h => by cases h; exact .inl ⟨x, rfl⟩⟩
  unfold singlephaseExpand at h
  rcases bind_cases h with ⟨e, h1, rfl⟩ | ⟨⟨t1, ds⟩, s1, h1, h⟩
  · rcases ofDialects_cases h1 with ⟨x, hx, _⟩ | ⟨x, hx, _⟩
    · cases hx; exact lib x rfl
    · cases hx
  rcases ofDialects_cases h1 with ⟨x, hx, _⟩ | ⟨x, hx, h1⟩
  · cases hx
  cases hx
  obtain ⟨recs, hst, hds, hno⟩ := C41_runs T.dialects T.interp fn n t t1 ds s s1 h1
  obtain ⟨body, hbody, hparsed⟩ := steps_parsed hK hst hb
  have hstm : Dialects.stmts t1 = body := by unfold Dialects.stmts; rw [hbody]
  rcases bind_cases h with ⟨e, h2, rfl⟩ | ⟨⟨t2, b⟩, s2, h2, h⟩
  · unfold findMacrosIn at h2
    rw [hbody] at h2
    cases hf : FindMacros.findMacros T.interp { filename := fn, selfModule := self } true body s1.world with
    | mk rf pf =>
      simp only [ofProc, hf, Option.map_some, Option.some.injEq, Prod.mk.injEq] at h2
      obtain ⟨y, rfl, _⟩ := liftErr_error h2.1
      exact lib y rfl
  unfold findMacrosIn at h2
  rw [hbody] at h2
  cases hf : FindMacros.findMacros T.interp { filename := fn, selfModule := self } true body s1.world with
  | mk rf pf =>
    simp only [ofProc, hf, Option.map_some, Option.some.injEq, Prod.mk.injEq] at h2
    obtain ⟨h2, rfl⟩ := h2
    have h2 := liftErr_ok h2
    cases rf with
    | error e => cases h2
    | ok q =>
      obtain ⟨out, b'⟩ := q
      simp only [Except.map, Except.ok.injEq, Prod.mk.injEq] at h2
      obtain ⟨rfl, rfl⟩ := h2
      obtain ⟨rs, hr1, hr2, hr3⟩ := C25_transform T.interp { filename := fn, selfModule := self } rfl hself body out hparsed
        s1.world pf b' hf
      have stage : ∀ r' p', Ran T b' (withField t1 .body (.list out)) pf r' p' → Stages T fn self t s.world ds r' p' := by
        intro r' p' hr'
        exact ⟨recs, t1, s1.world, rs, out, b', pf, hst, hno, hds, by rw [hstm]; exact hr1, hr3, by rw [hstm]; exact hr2, hr'⟩
      rcases bind_cases h with ⟨e, h3, rfl⟩ | ⟨t3, s3, h3, h⟩
      · refine ⟨fun _ h => (by cases h), fun e' he => ?_⟩
        cases he
        have := visitWith_ran hk h3
        rw [setBody_eq] at this
        exact .inr ⟨ds, stage _ _ this⟩
      · have h3 := visitWith_ran hk h3
        rw [setBody_eq] at h3
        rcases bind_cases h with ⟨e, h4, rfl⟩ | ⟨t4, s4, h4, h⟩
        · rcases ofDialects_cases h4 with ⟨x, hx, _⟩ | ⟨x, hx, _⟩
          · exact lib x hx
          · cases hx
        · rcases ofDialects_cases h4 with ⟨x, hx, _⟩ | ⟨x, hx, h4⟩
          · cases hx
          cases hx
          rcases bind_cases h with ⟨e, h5, rfl⟩ | ⟨u, s5, h5, h⟩
          · cases hc : Markers.checkNoMarkersRemaining T.isMarker t4 with
            | ok u => rw [hc] at h5; cases h5
            | error y => rw [hc] at h5; cases h5; exact lib y rfl
          · cases hc : Markers.checkNoMarkersRemaining T.isMarker t4 with
            | error y => rw [hc] at h5; cases h5
            | ok u =>
              rw [hc] at h5
              cases h5
              cases h
              refine ⟨fun t' ht => ?_, fun e he => (by cases he)⟩
              cases ht
              obtain ⟨calls, hp⟩ := (C41_postprocess T.dialects ds t3 t4 s3 s'.world).1 ⟨s', by simpa using h4, rfl⟩
              exact ⟨ds, t3, s3.world, calls, stage _ _ h3, hp, hc⟩

/-! The initial tree. -/

theorem checkBody_ok {t : Val} (h : checkBody t = .ok ()) : ∃ body, t.get? .body = some (.list body) ∧
    ∀ x ∈ body, ∃ k l fs, x = .node (.py k) l fs ∧ k.isStmt = true := by
  unfold checkBody at h
  split at h
  · rename_i body hb
    refine ⟨body, hb, fun x hx => ?_⟩
    split at h
    · rename_i ha
      have := List.all_eq_true.1 ha x hx
      cases x with
      | const c => cases this
      | list xs => cases this
      | node c l fs =>
        cases c with
        | marker m => cases this
        | py k => exact ⟨k, l, fs, rfl, this⟩
    · cases h
  · cases h
  · cases h

theorem checkBody_of {t : Val} {body : List Val} (hb : t.get? .body = some (.list body))
    (h : ∀ x ∈ body, ∃ k l fs, x = .node (.py k) l fs ∧ k.isStmt = true) : checkBody t = .ok () := by
  unfold checkBody
  rw [hb]
  dsimp only
  rw [if_pos]
  refine List.all_eq_true.2 fun x hx => ?_
  obtain ⟨k, l, fs, rfl, hk⟩ := h x hx
  exact hk

/-- A run goes through an initial tree, or fails before. -/
theorem expandWith_initial {T : Tools υ μ D} {fn : Str} {self : Option String} {n : Nat} {src : Source} {p : Proc υ}
    {s' : Dialects.St (Proc υ)} {r : Except Exc Val} (h : expandWith T fn self n src { world := p } = some (r, s')) :
    (∃ x, r = .error (.py x)) ∨
      ∃ t s1, Initial T fn p src t s1.world ∧ expandTree T fn self n t s1 = some (r, s') := by
  have text : ∀ c, expandText T fn self n c { world := p } = some (r, s') → (∃ x, r = .error (.py x)) ∨
      ∃ t s1, Initial T fn p (.str c) t s1.world ∧ expandTree T fn self n t s1 = some (r, s') := by
    intro c h
    unfold expandText at h
    rcases bind_cases h with ⟨e, h1, rfl⟩ | ⟨c1, s1, h1, h⟩
    · rcases ofDialects_cases h1 with ⟨x, hx, _⟩ | ⟨x, hx, _⟩
      · cases hx; exact .inl ⟨x, rfl⟩
      · cases hx
    · rcases ofDialects_cases h1 with ⟨x, hx, _⟩ | ⟨x, hx, h1⟩
      · cases hx
      cases hx
      obtain ⟨recs, h2, _⟩ := C42_once T.sources T.interp T.parseStmt fn n c c1 _ _ rfl h1
      cases ht : T.parse c1 with
      | none => rw [ht] at h; cases h; exact .inl ⟨_, rfl⟩
      | some t =>
        rw [ht] at h
        exact .inr ⟨t, s1, .str h2 ht, h⟩
  cases src with
  | str c => exact text c h
  | bytes b =>
    rw [expandWith] at h
    cases hd : T.decode b with
    | error e => rw [hd] at h; cases h; exact .inl ⟨e, rfl⟩
    | ok c =>
      rw [hd] at h
      rcases text c h with h | ⟨t, s1, h1, h2⟩
      · exact .inl h
      · exact .inr ⟨t, s1, .bytes hd h1, h2⟩
  | tree t =>
    rw [expandWith] at h
    split at h
    · rename_i hk
      cases hc : checkBody t with
      | error e => rw [hc] at h; cases h; exact .inl ⟨e, rfl⟩
      | ok u =>
        rw [hc] at h
        obtain ⟨body, h1, h2⟩ := checkBody_ok hc
        exact .inr ⟨t, { world := p }, .tree hk h1 h2, h⟩
    · cases h; exact .inl ⟨_, rfl⟩
  | list xs =>
    rw [expandWith] at h
    cases hc : checkBody (mk .Module [(.body, .list xs), (.type_ignores, .list [])]) with
    | error e => rw [hc] at h; cases h; exact .inl ⟨e, rfl⟩
    | ok u =>
      rw [hc] at h
      obtain ⟨body, h1, h2⟩ := checkBody_ok hc
      cases h1
      exact .inr ⟨_, { world := p }, .list h2, h⟩
  | other => cases h; exact .inl ⟨_, rfl⟩

theorem singlephase_checked {T : Tools υ μ D} {fn : Str} {self : Option String} {n : Nat} {t t' : Val}
    {s s' : Dialects.St (Proc υ)} (h : singlephaseExpand T fn self n t s = some (.ok t', s')) :
    Markers.checkNoMarkersRemaining T.isMarker t' = .ok () := by
  unfold singlephaseExpand at h
  rcases bind_cases h with ⟨e, _, h1⟩ | ⟨⟨t1, ds⟩, s1, _, h⟩
  · cases h1
  rcases bind_cases h with ⟨e, _, h1⟩ | ⟨⟨t2, b⟩, s2, _, h⟩
  · cases h1
  rcases bind_cases h with ⟨e, _, h1⟩ | ⟨t3, s3, _, h⟩
  · cases h1
  rcases bind_cases h with ⟨e, _, h1⟩ | ⟨t4, s4, _, h⟩
  · cases h1
  rcases bind_cases h with ⟨e, _, h1⟩ | ⟨u, s5, h5, h⟩
  · cases h1
  cases h
  cases hc : Markers.checkNoMarkersRemaining T.isMarker t' with
  | error y => rw [hc] at h5; cases h5
  | ok u => rfl

theorem expandText_none {T : Tools υ μ D} {fn : Str} {self : Option String} {n : Nat} {c : Str}
    {s : Dialects.St (Proc υ)} (h : HasImports [] c) : expandText T fn self (n + 1) c s =
      (match T.parse c with
        | none => Py.M.throw (.py .importError)
        | some t => expandTree T fn self (n + 1) t : Comp υ Val) s := by
  unfold expandText
  change Py.M.bind _ _ s = _
  unfold Py.M.bind ofDialects
  rw [C42_none_partial T.sources T.interp T.parseStmt fn n c s h]
  rfl

/-- With enough fuel, any source that gives `t` is as good as `t`. -/
theorem given_run {T : Tools υ μ D} {fn : Str} {self : Option String} {src : Source} {p : Proc υ} {t : Val}
    (hg : Given T src t) (hk : t.isK .Module = true) (hb : ∃ body, t.get? .body = some (.list body)) (n : Nat) :
    expand T fn self (n + 1) src p = (expandTree T fn self (n + 1) t { world := p }).map fun x => (x.1, x.2.world) := by
  obtain ⟨body, hb⟩ := hb
  have hst : Dialects.stmts t = body := by unfold Dialects.stmts; rw [hb]
  unfold expand
  congr 1
  have text : ∀ c, HasImports [] c → T.parse c = some t →
      expandText T fn self (n + 1) c { world := p } = expandTree T fn self (n + 1) t { world := p } := by
    intro c h1 h2
    rw [expandText_none h1, h2]
  cases hg with
  | str h1 h2 => exact text _ h1 h2
  | bytes h1 h2 =>
    cases h2 with
    | str h2 h3 =>
      rw [expandWith, h1]
      exact text _ h2 h3
  | tree h1 =>
    rw [expandWith, if_pos hk, checkBody_of hb (hst ▸ h1)]
    rfl
  | list h1 =>
    rw [expandWith, checkBody_of rfl h1]
    rfl

theorem expandTree_single {T : Tools υ μ D} {fn : Str} {self : Option String} {n : Nat} {t : Val} {body : List Val}
    (hb : t.get? .body = some (.list body)) (h : ismultiphase body = .ok false) :
    expandTree T fn self n t = singlephaseExpand T fn self n t := by
  unfold expandTree
  rw [hb]
  dsimp only
  rw [h]

theorem expandTree_multi {T : Tools υ μ D} {fn : Str} {self : Option String} {n : Nat} {t : Val} {body : List Val}
    (hb : t.get? .body = some (.list body)) (h : ismultiphase body = .ok true) :
    expandTree T fn self n t = match selfName self with
      | none => Py.M.throw (.py .valueError)
      | some a => T.multiphase t a := by
  unfold expandTree
  rw [hb]
  dsimp only
  rw [h]
  rfl

theorem bind_val {m : Py.M ε σ α} {f : α → Py.M ε σ β} {s s1 : σ} {a : α} (h : m s = some (.ok a, s1)) :
    (m >>= f) s = f a s1 := by
  change Py.M.bind m f s = _
  unfold Py.M.bind
  rw [h]

theorem setF_same {fs : Fields} {f : F} {v : Val} (hn : (fs.map (·.1)).Nodup) (h : fs.lookup f = some v) :
    setF fs f v = fs := by
  have key : ∀ gs : Fields, (gs.map (·.1)).Nodup → gs.lookup f = some v →
      gs.map (fun (g, w) => if g = f then (g, v) else (g, w)) = gs := by
    intro gs
    induction gs with
    | nil => intro _ h; rfl
    | cons q r ih =>
      obtain ⟨g, w⟩ := q
      intro hn h
      simp only [List.map_cons, List.nodup_cons] at hn
      simp only [List.map_cons]
      by_cases hg : g = f
      · subst hg
        simp only [List.lookup_cons, beq_self_eq_true] at h
        cases h
        rw [if_pos rfl]
        congr 1
        refine (List.map_congr_left fun q hq => ?_).trans (List.map_id r)
        obtain ⟨g', w'⟩ := q
        have : g' ≠ g := by
          rintro rfl
          exact hn.1 (List.mem_map.2 ⟨_, hq, rfl⟩)
        simp [this]
      · rw [if_neg hg]
        have : (f == g) = false := by simpa using fun e => hg e.symm
        simp only [List.lookup_cons, this] at h
        rw [ih hn.2 h]
  exact key fs hn h

theorem plain_expands {T : Tools υ μ D} {fn : Str} {self : Option String} {src : Source} {p : Proc υ} {t : Val}
    (how : ∀ c, T.isOwn c = true → T.isMarker c = true) (hg : Given T src t) (ht : Plain T p t) (hr : p.registry = []) :
    Expands T fn self src p (.ok t) p := by
  obtain ⟨hmod, ⟨hast, body, hb, hp, hn⟩, htree, honce, hd, hm, hinv, hmark, hf, htar, hctx⟩ := ht
  have hst : Dialects.stmts t = body := by unfold Dialects.stmts; rw [hb]
  -- the module is not a multi-phase module
  have hmp : ismultiphase body = .ok false := by
    rcases ismultiphase_eq hp hn with ⟨_, s, hs, h2⟩ | ⟨h1, _⟩
    · rw [hst] at hm
      exact absurd h2.1 (by simpa using List.filter_eq_nil_iff.1 hm s hs)
    · exact h1
  -- the macro expander
  have hvis := (C15_no_invocation_partial T.env .current t (init (p.world [])) htree
    (by rintro rfl; cases hast) hinv (.ok t) (init (p.world []))).2 ⟨rfl, rfl⟩
  obtain ⟨k, hvis⟩ := hvis
  have hdel : Markers.deleteMarkers T.isOwn t = .ok t := C11_identity T.isOwn t htree (fun m hm' => by
    cases hc : m.hasCls T.isOwn with
    | false => rfl
    | true =>
      have h1 := hmark m hm'
      cases m with
      | const c => cases hc
      | list xs => cases hc
      | node c l fs => rw [show Val.hasCls T.isMarker (.node c l fs) = T.isMarker c from rfl, how c hc] at h1; cases h1)
  have hfix : FixCtx.fixCtx t = .ok t := by
    obtain ⟨t', h'⟩ := C12_succeeds t htree hf
    rw [C12_identity t t' htree htar hctx h'] at h'
    exact h'
  have hpost : ∀ n, globalPostprocess T.isOwn T.post (n + 1) t p.pst = some (.ok t, p.pst) := by
    intro n
    unfold globalPostprocess
    rw [hdel]
    change (M.ofExcept (liftErr (FixCtx.fixCtx t)) >>= _) p.pst = _
    rw [hfix]
    change runHooks T.post (n + 1) 0 t p.pst = _
    rw [runHooks]
    change (match p.registry[0]? with
      | none => (pure t : M Exc (PSt (Dict String Nat × υ)) Val)
      | some f => T.post f t >>= fun t' => runHooks T.post n (0 + 1) t') p.pst = _
    rw [hr]
    rfl
  -- the stages
  have hsingle : singlephaseExpand T fn self (k + 1) t { world := p } = some (.ok t, { world := p }) := by
    unfold singlephaseExpand
    rw [bind_val (a := (t, [])) (s1 := { world := p }) (by
      unfold ofDialects
      rw [C41_no_dialects T.dialects T.interp fn k t { world := p } ⟨body, hb, fun u hu => (hp u hu).1⟩ hd]
      rfl)]
    refine (bind_val (a := (t, [])) (s1 := { world := p }) (by
      unfold findMacrosIn
      rw [hb]
      dsimp only
      unfold ofProc
      have hrun : FindMacros.Runs T.interp { filename := fn, selfModule := self } p (FindMacros.macroImports body) [] p := by
        rw [← hst, hm]; exact .nil
      have := FindMacros.loop_none (tr := true) (I := T.interp) (o := { filename := fn, selfModule := self }) (body := body) (s := p)
        hp (by rw [← hst]; exact hm) []
      have h2 : FindMacros.findMacros T.interp { filename := fn, selfModule := self } true body p = (.ok (body, []), p) := this
      simp only [h2]
      rw [show Except.map (fun x : List Val × Dict String Nat => (Dialects.setBody t x.1, x.2)) (.ok (body, []) : Except Err _) =
        .ok (Dialects.setBody t body, []) from rfl]
      have h3 : Dialects.setBody t body = t := by
        cases t with
        | const c => rfl
        | list xs => rfl
        | node c l fs => exact congrArg (Val.node c l) (setF_same (honce c l fs rfl) hb)
      rw [h3]
      rfl)).trans ?_
    refine (bind_val (a := t) (s1 := { world := p }) (by
      unfold expandMacros
      rw [bind_val (a := t) (s1 := { world := p }) (by
        unfold visitWith ofProc
        have h4 := visitAs_mono T.env (Nat.le_succ k) _ _ _ _ hvis
        refine (congrArg (fun z => Option.map _ (Option.map _ z)) h4).trans ?_
        rfl)]
      unfold postprocessed ofProc
      refine (congrArg (fun z => Option.map _ (Option.map _ z)) (hpost k)).trans ?_
      rfl)).trans ?_
    refine (bind_val (a := t) (s1 := { world := p }) rfl).trans ?_
    rw [(C10_check_no_markers T.isMarker t htree).2 hmark]
    rfl
  have htr : expandTree T fn self (k + 1) t { world := p } = some (.ok t, { world := p }) := by
    unfold expandTree
    rw [hb]
    dsimp only
    rw [hmp]
    exact hsingle
  refine ⟨k + 1, ?_⟩
  rw [given_run hg hmod ⟨body, hb⟩, htr]
  rfl

end Mcpyrate.Compiler
