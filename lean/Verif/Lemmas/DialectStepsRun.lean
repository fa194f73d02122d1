import Verif.Lemmas.DialectSteps
namespace Mcpyrate.DialectSteps
open Py GetMacros Paths

variable {σ M O D C : Type}

def Wrote (E : Console D C) (es : List (Entry C)) (s s' : Shown σ) : Prop := ∃ o, s'.out = s.out ++ o ∧ Written E es o

theorem Wrote.trans {E : Console D C} {es es' : List (Entry C)} {s s' s'' : Shown σ} (h : Wrote E es s s')
    (h' : Wrote E es' s' s'') : Wrote E (es ++ es') s s'' := by
  obtain ⟨o, h3, h4⟩ := h
  obtain ⟨o', g3, g4⟩ := h'
  exact ⟨o ++ o', by rw [g3, h3, List.append_assoc], h4.append g4⟩

theorem Wrote.none {E : Console D C} {s s' : Shown σ} (h : s'.out = s.out) : Wrote E [] s s' := ⟨[], by simp [h], .nil⟩

def Kind.isAst : Kind → Bool
  | .source => false
  | .ast => true

def named (f : Dialects.Found O) (calls : List (Dialects.Call D C)) : List (Str × Dialects.Call D C) :=
  calls.map fun x => (f.absname.toList ++ '.' :: x.name.toList, x)

theorem named_cons (f : Dialects.Found O) (x : Dialects.Call D C) (calls : List (Dialects.Call D C)) :
    named f (x :: calls) = (f.absname.toList ++ '.' :: x.name.toList, x) :: named f calls := rfl

/-- The text of the transformer. -/
theorem who_eq (f : Dialects.Found O) (x : String) (k : Kind) : lit f.absname ++ lit "." ++ lit x ++ lit "." ++ k.method =
    (f.absname.toList ++ '.' :: x.toList) ++ (if k.isAst then ".transform_ast" else ".transform_source").toList := by
  have e1 : lit "." ++ Kind.method .source = ".transform_source".toList := by decide +kernel
  have e2 : lit "." ++ Kind.method .ast = ".transform_ast".toList := by decide +kernel
  have e3 : lit "." = ['.'] := by decide +kernel
  cases k
  · rw [List.append_assoc _ (lit "."), e1, e3]
    simp [lit, Kind.isAst]
  · rw [List.append_assoc _ (lit "."), e2, e3]
    simp [lit, Kind.isAst]

structure Like (s : Shown σ) (t : Dialects.St σ) : Prop where
  world : s.st.world = t.world
  seen : s.st.seen = t.seen

/-- The step of `StepExpansion`. -/
theorem enable_after (E : Console D C) (who : Str) (c : C) (s : Shown σ) :
    (showAfter E who c (count (enable E s))).st = { s.st with step := s.st.step + 1 } ∧
    (showAfter E who c (count (enable E s))).debug = true ∧
    Wrote E [.enabled (s.st.step + 1), .after who (s.st.step + 1) c] s (showAfter E who c (count (enable E s))) := by
  obtain ⟨h1, h2, o, h3, h4⟩ := enable_writes E s
  obtain ⟨g1, g2, o', g3, g4⟩ := showAfter_writes E who c (count (enable E s))
  have hd : (count (enable E s)).debug = true := by show (enable E s).debug = true; rw [h2]
  have hs : (count (enable E s)).st = { s.st with step := s.st.step + 1 } := by
    show { (enable E s).st with step := (enable E s).st.step + 1 } = _
    rw [h1]
  have ho : (count (enable E s)).out = s.out ++ o := h3
  refine ⟨g1.trans hs, g2.trans hd, ?_⟩
  rw [hd, if_pos rfl, hs] at g4
  exact ⟨o ++ o', by rw [g3, ho, List.append_assoc], h4.append g4⟩

theorem debugAfter_cons (b : Bool) (w : Str) (x : Dialects.Call (Option D) C) (r : List (Str × Dialects.Call (Option D) C)) :
    debugAfter b ((w, x) :: r) = debugAfter (b || x.dialect.isNone) r := by
  simp [debugAfter, Bool.or_assoc]

theorem stepsAfter_append (a : Bool) : ∀ (b : Bool) (n : Nat) (x y : List (Str × Dialects.Call (Option D) C)),
    stepsAfter a b n (x ++ y) = stepsAfter a (debugAfter b x) (stepsAfter a b n x) y
  | b, n, [], y => by simp [stepsAfter, debugAfter]
  | b, n, (w, x) :: r, y => by
    rw [List.cons_append, stepsAfter, stepsAfter, debugAfter_cons]
    obtain ⟨nm, d, i, q⟩ := x
    cases d with
    | none =>
      dsimp only
      by_cases hb : (a && b) = true
      · simp only [hb, if_true]
        rw [stepsAfter_append]
        have : b = true := by cases b <;> simp_all
        subst this; rfl
      · rw [if_neg hb, if_neg hb, stepsAfter_append]
        simp
    | some d =>
      have e : (b || (Option.isNone (some d))) = b := by simp
      rw [e]
      cases q <;> dsimp only <;> rw [stepsAfter_append]

theorem report_append (a : Bool) : ∀ (b : Bool) (n : Nat) (x y : List (Str × Dialects.Call (Option D) C)),
    report a b n (x ++ y) = report a b n x ++ report a (debugAfter b x) (stepsAfter a b n x) y
  | b, n, [], y => by simp [stepsAfter, debugAfter, report]
  | b, n, (w, x) :: r, y => by
    rw [List.cons_append, report, report, stepsAfter, debugAfter_cons]
    obtain ⟨nm, d, i, q⟩ := x
    cases d with
    | none =>
      dsimp only
      by_cases hb : (a && b) = true
      · simp only [hb, if_true]
        rw [report_append]
        have : b = true := by cases b <;> simp_all
        subst this; rfl
      · rw [if_neg hb, if_neg hb, if_neg hb, report_append]
        simp
    | some d =>
      have e : (b || (Option.isNone (some d))) = b := by simp
      rw [e]
      cases q with
      | value c =>
        dsimp only
        cases b with
        | true => rw [if_pos rfl, if_pos rfl, report_append]; rfl
        | false => simp only [Bool.false_eq_true, if_false]; rw [report_append]
      | notImplemented => dsimp only; rw [report_append]
      | raised => dsimp only; rw [report_append]

/-- What a run of the loop over the bindings does. -/
structure Sim (E : Console D C) (k : Kind) (K : Dialects.Classes σ O D C) (f : Dialects.Found (Option O))
    (bs : List (String × Option O)) (c : C) (ds : List (Option D)) (s : Shown σ) (t : Dialects.St σ)
    (r : Except Err (C × List (Option D))) (s' : Shown σ) (calls : List (Dialects.Call (Option D) C)) : Prop where
  run : ∃ t', Dialects.applyAll (quiet K) f bs c ds t = (r, t') ∧ Like s' t'
  seen : s'.st.seen = s.st.seen
  debug : s'.debug = debugAfter s.debug (named f calls)
  step : s'.st.step = stepsAfter k.isAst s.debug s.st.step (named f calls)
  wrote : Wrote E (report k.isAst s.debug s.st.step (named f calls)) s s'
  ok : ∀ c' ds', r = .ok (c', ds') →
    Dialects.Applied (quiet K) f.lineno f.colOffset bs c s.st.world calls c' s'.st.world ∧ K.truthy c' = true
  error : ∀ e, r = .error e → ∃ pre x cls post c2 w, bs = pre ++ (x, cls) :: post ∧
    Dialects.Applied (quiet K) f.lineno f.colOffset pre c s.st.world calls c2 w ∧
    Dialects.Bad (quiet K) f.lineno f.colOffset cls c2 w e s'.st.world

theorem Sim.bad {E : Console D C} {k : Kind} {K : Dialects.Classes σ O D C} {f : Dialects.Found (Option O)}
    {x : String} {cls : Option O} {bs : List (String × Option O)} {c : C} {ds : List (Option D)} {s : Shown σ} {t : Dialects.St σ}
    {e : Err} {w : σ} (h : Dialects.Bad (quiet K) f.lineno f.colOffset cls c s.st.world e w) {t' : Dialects.St σ}
    (hr : Dialects.applyAll (quiet K) f ((x, cls) :: bs) c ds t = (.error e, t')) (hl : Like (setWorld w s) t') :
    Sim E k K f ((x, cls) :: bs) c ds s t (.error e) (setWorld w s) [] where
  run := ⟨t', hr, hl⟩
  seen := rfl
  debug := by simp [debugAfter, named, setWorld]
  step := by simp [stepsAfter, named, setWorld]
  wrote := by rw [named, List.map_nil, report]; exact .none rfl
  ok := fun _ _ h => nomatch h
  error := by
    intro e' he
    cases he
    exact ⟨[], x, cls, bs, c, s.st.world, rfl, .nil, h⟩

theorem applyAll_sim {E : Console D C} {k : Kind} {K : Dialects.Classes σ O D C} {f : Dialects.Found (Option O)}
    {bs : List (String × Option O)} {c : C} {ds : List (Option D)} {s s' : Shown σ} {t : Dialects.St σ}
    {r : Except Err (C × List (Option D))} (h : applyAll E k K f bs c ds s = (r, s')) (hc : K.truthy c = true)
    (ht : Like s t) : ∃ calls, Sim E k K f bs c ds s t r s' calls := by
  induction bs generalizing c ds s t with
  | nil =>
    cases h
    refine ⟨[], ⟨_, rfl, ht⟩, rfl, by simp [debugAfter, named], rfl, Wrote.none rfl, ?_, fun _ h => nomatch h⟩
    intro c' ds' h
    cases h
    exact ⟨.nil, hc⟩
  | cons b bs ih =>
    obtain ⟨x, cls⟩ := b
    -- the quiet dialect
    cases cls with
    | none =>
      have hq : ∀ t : Dialects.St σ, Dialects.applyAll (quiet K) f ((x, none) :: bs) c ds t =
          Dialects.applyAll (quiet K) f bs c (ds ++ [none]) t := fun t => by
        rw [Dialects.applyAll]; rfl
      have step : ∀ (w : Str), w = lit f.absname ++ lit "." ++ lit x ++ lit "." ++ k.method →
          (k.isAst && s.debug) = false →
          applyAll E k K f bs c (ds ++ [none]) (showAfter E w c (count (enable E s))) = (r, s') →
          ∃ calls, Sim E k K f ((x, none) :: bs) c ds s t r s' calls := by
        intro w hw hk h
        obtain ⟨e1, e2, e3⟩ := enable_after E w c s
        have hl : Like (showAfter E w c (count (enable E s))) t := ⟨by rw [e1]; exact ht.world, by rw [e1]; exact ht.seen⟩
        obtain ⟨calls, g1, g2, g3, g4, g5, g6, g7⟩ := ih h hc hl
        have hw' := hw.trans (who_eq f x k)
        rw [show (Entry.after w (s.st.step + 1) c : Entry C) = .after (f.absname.toList ++ '.' :: x.toList ++ (if k.isAst = true then ".transform_ast" else ".transform_source").toList) (s.st.step + 1) c from by rw [hw']] at e3
        refine ⟨⟨x, none, c, .notImplemented⟩ :: calls, ?_, ?_, ?_, ?_, ?_, ?_, ?_⟩
        · rw [hq]; exact g1
        · rw [g2, e1]
        · rw [g3, e2, named_cons, debugAfter_cons]; simp
        · rw [g4, e1, e2, named_cons, stepsAfter]; simp [hk]
        · rw [named_cons, report]
          simp only [hk, Bool.false_eq_true, if_false]
          rw [e1, e2] at g5
          exact e3.trans g5
        · intro c' ds' hr
          obtain ⟨a1, a2⟩ := g6 c' ds' hr
          rw [e1] at a1
          exact ⟨.cons rfl rfl rfl rfl .same a1, a2⟩
        · intro e he
          obtain ⟨pre, y, cls, post, c2, w2, b1, b2, b3⟩ := g7 e he
          rw [e1] at b2
          exact ⟨(x, none) :: pre, y, cls, post, c2, w2, by rw [b1]; rfl, .cons rfl rfl rfl rfl .same b2, b3⟩
      rw [applyAll] at h
      simp only [call, stepExpansion] at h
      cases k with
      | source =>
        simp only [hc, Bool.not_true, Bool.false_eq_true, if_false] at h
        exact step _ rfl rfl h
      | ast =>
        by_cases hd : s.debug = true
        · simp only [hd, if_true] at h
          obtain ⟨calls, g1, g2, g3, g4, g5, g6, g7⟩ := ih h hc ht
          refine ⟨⟨x, none, c, .notImplemented⟩ :: calls, ?_, g2, ?_, ?_, ?_, ?_, ?_⟩
          · rw [hq]; exact g1
          · rw [g3, named_cons, debugAfter_cons, hd]; rfl
          · rw [g4, named_cons, stepsAfter]; simp [hd, Kind.isAst]
          · rw [named_cons, report]
            simp only [hd, Kind.isAst, Bool.true_and, if_true]
            rw [hd] at g5
            exact g5
          · intro c' ds' hr
            obtain ⟨a1, a2⟩ := g6 c' ds' hr
            exact ⟨.cons rfl rfl rfl rfl .same a1, a2⟩
          · intro e he
            obtain ⟨pre, y, cls, post, c2, w2, b1, b2, b3⟩ := g7 e he
            exact ⟨(x, none) :: pre, y, cls, post, c2, w2, by rw [b1]; rfl, .cons rfl rfl rfl rfl .same b2, b3⟩
        · have hd : s.debug = false := by simpa using hd
          simp only [hd, Bool.false_eq_true, if_false, hc, Bool.not_true] at h
          exact step _ rfl (by simp [hd]) h
    | some o =>
      rw [applyAll] at h
      simp only [call] at h
      obtain ⟨hw, hsn⟩ := ht
      by_cases hd : K.isDialect o = true
      · have hd' : (quiet K).isDialect (some o) = true := hd
        simp only [hd, Bool.not_true, Bool.false_eq_true, if_false] at h
        cases hn : K.new o f.lineno f.colOffset s.st.world with
        | mk d w =>
        have hn0 : (quiet K).new (some o) f.lineno f.colOffset s.st.world = (d.map some, w) := by
          show ((K.new o f.lineno f.colOffset s.st.world).1.map some, (K.new o f.lineno f.colOffset s.st.world).2) = _
          rw [hn]
        rw [hn] at h
        cases d with
        | none =>
          cases h
          refine ⟨[], Sim.bad (.init hd' hn0) (t' := { t with world := w }) ?_ ⟨rfl, hsn⟩⟩
          rw [Dialects.applyAll]
          rw [hw] at hn0
          simp [hd', hn0]
        | some d =>
        dsimp only at h
        cases hm : K.method d with
        | none =>
          rw [hm] at h
          cases h
          have hm' : (quiet K).method (some d) = none := hm
          refine ⟨[], Sim.bad (.noMethod hd' hn0 hm') (t' := { t with world := w }) ?_ ⟨rfl, hsn⟩⟩
          rw [Dialects.applyAll]
          rw [hw] at hn0
          simp [hd', hn0, hm']
        | some m =>
        have hm' : (quiet K).method (some d) = some m := hm
        rw [hm] at h
        dsimp only at h
        cases hr : m c w with
        | mk q w' =>
        rw [hr] at h
        cases q with
        | raised =>
          cases h
          refine ⟨[], Sim.bad (.raises hd' hn0 hm' hr) (t' := { t with world := w' }) ?_ ⟨rfl, hsn⟩⟩
          rw [Dialects.applyAll]
          rw [hw] at hn0
          simp [hd', hn0, hm', hr]
        | notImplemented =>
          dsimp only at h
          obtain ⟨calls, g1, g2, g3, g4, g5, g6, g7⟩ := ih (t := { t with world := w' }) h hc ⟨rfl, hsn⟩
          refine ⟨⟨x, some d, c, .notImplemented⟩ :: calls, ?_, g2, ?_, ?_, ?_, ?_, ?_⟩
          · obtain ⟨t', g1⟩ := g1
            refine ⟨t', ?_, g1.2⟩
            rw [Dialects.applyAll]
            rw [hw] at hn0
            simp [hd', hn0, hm', hr, g1.1]
          · rw [g3, named_cons, debugAfter_cons]; simp [setWorld]
          · rw [g4, named_cons, stepsAfter]; rfl
          · rw [named_cons, report]
            exact g5
          · intro c' ds' hr'
            obtain ⟨a1, a2⟩ := g6 c' ds' hr'
            exact ⟨.cons hd' hn0 hm' hr .same a1, a2⟩
          · intro e he
            obtain ⟨pre, y, cls, post, c2, w2, b1, b2, b3⟩ := g7 e he
            exact ⟨(x, some o) :: pre, y, cls, post, c2, w2, by rw [b1]; rfl, .cons hd' hn0 hm' hr .same b2, b3⟩
        | value c1 =>
          dsimp only at h
          by_cases hv : K.truthy c1 = true
          · simp only [hv, Bool.not_true, Bool.false_eq_true, if_false] at h
            obtain ⟨e1, e2, o', e3, e4⟩ := showAfter_writes E (lit f.absname ++ lit "." ++ lit x ++ lit "." ++ k.method) c1
              (count (setWorld w' s))
            have e1' : (showAfter E (lit f.absname ++ lit "." ++ lit x ++ lit "." ++ k.method) c1
              (count (setWorld w' s))).st = { s.st with world := w', step := s.st.step + 1 } := e1
            have e2' : (showAfter E (lit f.absname ++ lit "." ++ lit x ++ lit "." ++ k.method) c1
              (count (setWorld w' s))).debug = s.debug := e2
            obtain ⟨calls, g1, g2, g3, g4, g5, g6, g7⟩ := ih (t := { t with world := w', step := t.step + 1 }) h hv
              ⟨by rw [e1'], by rw [e1']; exact hsn⟩
            refine ⟨⟨x, some d, c, .value c1⟩ :: calls, ?_, ?_, ?_, ?_, ?_, ?_, ?_⟩
            · obtain ⟨t', g1⟩ := g1
              refine ⟨t', ?_, g1.2⟩
              rw [Dialects.applyAll]
              rw [hw] at hn0
              have hv' : (quiet K).truthy c1 = true := hv
              simp [hd', hn0, hm', hr, hv', g1.1]
            · rw [g2, e1']
            · rw [g3, e2', named_cons, debugAfter_cons]; simp
            · rw [g4, e1', e2', named_cons, stepsAfter]
            · rw [named_cons, report]
              rw [e1', e2'] at g5
              have e5 : Wrote E (if s.debug = true then
                  [.after ((f.absname.toList ++ '.' :: x.toList) ++
                    (if k.isAst then ".transform_ast" else ".transform_source").toList) (s.st.step + 1) c1] else []) s
                  (showAfter E (lit f.absname ++ lit "." ++ lit x ++ lit "." ++ k.method) c1 (count (setWorld w' s))) := by
                rw [← who_eq]
                exact ⟨o', e3, e4⟩
              have := e5.trans g5
              dsimp only
              cases hb : s.debug with
              | true => rw [hb] at this; exact this
              | false => rw [hb] at this; exact this
            · intro c' ds' hr'
              obtain ⟨a1, a2⟩ := g6 c' ds' hr'
              rw [e1'] at a1
              exact ⟨.cons hd' hn0 hm' hr (.new hv) a1, a2⟩
            · intro e he
              obtain ⟨pre, y, cls, post, c2, w2, b1, b2, b3⟩ := g7 e he
              rw [e1'] at b2
              exact ⟨(x, some o) :: pre, y, cls, post, c2, w2, by rw [b1]; rfl, .cons hd' hn0 hm' hr (.new hv) b2, b3⟩
          · have hv : K.truthy c1 = false := by simpa using hv
            simp only [hv, Bool.not_false, if_true] at h
            cases h
            refine ⟨[], Sim.bad (.empty hd' hn0 hm' hr hv) (t' := { t with world := w' }) ?_ ⟨rfl, hsn⟩⟩
            rw [Dialects.applyAll]
            rw [hw] at hn0
            have hv' : (quiet K).truthy c1 = false := hv
            simp [hd', hn0, hm', hr, hv']
      · have hd : K.isDialect o = false := by simpa using hd
        have hd' : (quiet K).isDialect (some o) = false := hd
        simp only [hd, Bool.not_false, if_true] at h
        cases h
        exact ⟨[], Sim.bad (w := s'.st.world) (.notDialect hd') (t' := t) (by rw [Dialects.applyAll]; simp [hd']) ⟨hw, hsn⟩⟩

/-- The search for dialect-imports does not depend on the number of steps, and leaves the content non-empty. -/
structure Search (K : Dialects.Classes σ O D C)
    (find : C → Dialects.St σ → Except Err (Option (Dialects.Found (Option O)) × C) × Dialects.St σ) : Prop where
  same : ∀ c (s t : Dialects.St σ), s.world = t.world → s.seen = t.seen → (find c s).1 = (find c t).1 ∧
    (find c s).2.world = (find c t).2.world ∧ (find c s).2.seen = (find c t).2.seen
  step : ∀ c s, (find c s).2.step = s.step
  truthy : ∀ c s f c' s', find c s = (.ok (some f, c'), s') → K.truthy c' = true

theorem loop_sim {E : Console D C} {k : Kind} {K : Dialects.Classes σ O D C}
    {find : C → Dialects.St σ → Except Err (Option (Dialects.Found (Option O)) × C) × Dialects.St σ} (hf : Search K find)
    {n : Nat} {c : C} {ds : List (Option D)} {s s' : Shown σ} {t u : Dialects.St σ} {r : Except Err (C × List (Option D))}
    (h : loop E k K find n c ds s = some (r, s')) (ht : Like s t) (hu : Like s u) :
    (∃ t', Dialects.transform (quiet K) find n c ds t = some (r, t') ∧ Like s' t') ∧
    ∃ calls, Performed (quiet K) find c u calls (r.map Prod.fst) ∧
      s'.debug = debugAfter s.debug calls ∧ s'.st.step = stepsAfter k.isAst s.debug s.st.step calls ∧
      Wrote E (report k.isAst s.debug s.st.step calls) s s' := by
  induction n generalizing c ds s t u with
  | zero => cases h
  | succ n ih =>
    rw [loop] at h
    obtain ⟨a1, a2, a3⟩ := hf.same c s.st t ht.world ht.seen
    obtain ⟨b1, b2, b3⟩ := hf.same c s.st u hu.world hu.seen
    have hst := hf.step c s.st
    have htr := hf.truthy c s.st
    rw [Dialects.transform]
    cases hs : find c s.st with
    | mk x s1 =>
    cases htt : find c t with
    | mk y t1 =>
    cases huu : find c u with
    | mk z u1 =>
    rw [hs, htt] at a1 a2 a3
    rw [hs, huu] at b1 b2 b3
    rw [hs] at hst h
    dsimp only at a1 a2 a3 b1 b2 b3 hst
    subst a1 b1
    cases x with
    | error e =>
      cases h
      exact ⟨⟨t1, rfl, a2, a3⟩, [], .stuck huu, by simp [debugAfter], by simpa [stepsAfter] using hst, .none rfl⟩
    | ok p =>
    obtain ⟨f, c1⟩ := p
    cases f with
    | none =>
      cases h
      exact ⟨⟨t1, rfl, a2, a3⟩, [], .done huu, by simp [debugAfter], by simpa [stepsAfter] using hst, .none rfl⟩
    | some f =>
    dsimp only at h ⊢
    cases ha : applyAll E k K f f.bindings c1 ds { s with st := s1 } with
    | mk q s2 =>
    rw [ha] at h
    obtain ⟨calls, ⟨t', g1, g1'⟩, g2, g3, g4, g5, g6, g7⟩ := applyAll_sim (t := t1) ha (htr f c1 s1 hs) ⟨a2, a3⟩
    rw [g1]
    cases q with
    | error e =>
      cases h
      obtain ⟨pre, x, cls, post, c2, w, e1, e2, e3⟩ := g7 e rfl
      refine ⟨⟨t', rfl, g1'⟩, named f calls, ?_, g3, ?_, ?_⟩
      · dsimp only at e2
        rw [b2] at e2
        exact .failed huu e1 e2 e3
      · rw [g4]; dsimp only; rw [hst]
      · dsimp only at g5; rw [hst] at g5; exact g5
    | ok p =>
    obtain ⟨c2, ds2⟩ := p
    dsimp only at h ⊢
    obtain ⟨e1, e2⟩ := g6 c2 ds2 rfl
    dsimp only at e1
    rw [b2] at e1
    obtain ⟨h1, more, h2, h3, h4, h5⟩ := ih (u := { u1 with world := s2.st.world }) h g1' ⟨rfl, g2.trans b3⟩
    refine ⟨h1, named f calls ++ more, .round huu e1 h2, ?_, ?_, ?_⟩
    · rw [h3, g3]
      simp [debugAfter, Bool.or_assoc]
    · rw [h4, g3, g4]
      dsimp only
      rw [hst, stepsAfter_append]
    · dsimp only at g5 g4 g3
      rw [hst] at g5 g4
      rw [g3, g4] at h5
      rw [report_append]
      exact Wrote.trans g5 h5

theorem loop_none {E : Console D C} {k : Kind} {K : Dialects.Classes σ O D C}
    {find : C → Dialects.St σ → Except Err (Option (Dialects.Found (Option O)) × C) × Dialects.St σ} (hf : Search K find)
    {n : Nat} {c : C} {ds : List (Option D)} {s : Shown σ} {t : Dialects.St σ}
    (h : loop E k K find n c ds s = none) (ht : Like s t) : Dialects.transform (quiet K) find n c ds t = none := by
  induction n generalizing c ds s t with
  | zero => rfl
  | succ n ih =>
    rw [loop] at h
    obtain ⟨a1, a2, a3⟩ := hf.same c s.st t ht.world ht.seen
    have htr := hf.truthy c s.st
    rw [Dialects.transform]
    cases hs : find c s.st with
    | mk x s1 =>
    cases htt : find c t with
    | mk y t1 =>
    rw [hs, htt] at a1 a2 a3
    rw [hs] at h
    dsimp only at a1 a2 a3
    subst a1
    cases x with
    | error e => cases h
    | ok p =>
    obtain ⟨f, c1⟩ := p
    cases f with
    | none => cases h
    | some f =>
    dsimp only at h ⊢
    cases ha : applyAll E k K f f.bindings c1 ds { s with st := s1 } with
    | mk q s2 =>
    rw [ha] at h
    obtain ⟨calls, ⟨t', g1, g1'⟩, _⟩ := applyAll_sim (t := t1) ha (htr f c1 s1 hs) ⟨a2, a3⟩
    rw [g1]
    cases q with
    | error e => cases h
    | ok p => exact ih h g1'

theorem transform_sim {E : Console D C} {k : Kind} {K : Dialects.Classes σ O D C}
    {find : C → Dialects.St σ → Except Err (Option (Dialects.Found (Option O)) × C) × Dialects.St σ} (hf : Search K find)
    (n : Nat) (c : C) (s : Shown σ) :
    (transform E k K find n c s).map (fun x => (x.1, x.2.st.world, x.2.st.seen)) =
      (Dialects.transform (quiet K) find n c [] s.st).map fun x => (x.1, x.2.world, x.2.seen) := by
  have hb := showBefore_writes E k c s
  have hl : Like (showBefore E k c s) s.st := ⟨by rw [hb.st], by rw [hb.st]⟩
  unfold transform
  cases h : loop E k K find n c [] (showBefore E k c s) with
  | none => rw [loop_none hf h hl]; rfl
  | some x =>
    obtain ⟨r, s1⟩ := x
    obtain ⟨⟨t', h1, h2⟩, _⟩ := loop_sim hf h hl hl
    rw [h1]
    cases r with
    | error e => simp [h2.world, h2.seen]
    | ok p =>
      have hc := showCompleted_writes E k s1
      simp [hc.st, h2.world, h2.seen]

/-- The whole report. -/
theorem transform_report {E : Console D C} {k : Kind} {K : Dialects.Classes σ O D C}
    {find : C → Dialects.St σ → Except Err (Option (Dialects.Found (Option O)) × C) × Dialects.St σ} (hf : Search K find)
    {n : Nat} {c : C} {s s' : Shown σ} {r : Except Err (C × List (Option D))}
    (h : transform E k K find n c s = some (r, s')) :
    ∃ calls, Performed (quiet K) find c s.st calls (r.map Prod.fst) ∧
      s'.debug = debugAfter s.debug calls ∧ s'.st.step = stepsAfter k.isAst s.debug s.st.step calls ∧
      Wrote E ((if s.debug then [.before k.before s.st.step c] else []) ++ report k.isAst s.debug s.st.step calls ++
        (if s'.debug && ended r then
          [.completed k.completed s'.st.step] else [])) s s' := by
  obtain ⟨b1, b2, b3⟩ := showBefore_writes E k c s
  have hl : Like (showBefore E k c s) s.st := ⟨by rw [b1], by rw [b1]⟩
  unfold transform at h
  cases hlp : loop E k K find n c [] (showBefore E k c s) with
  | none => rw [hlp] at h; cases h
  | some x =>
    obtain ⟨q, s1⟩ := x
    obtain ⟨_, calls, g1, g2, g3, g4⟩ := loop_sim hf hlp hl hl
    rw [b2] at g2 g3 g4
    rw [b1] at g3 g4
    rw [hlp] at h
    have hw := Wrote.trans b3 g4
    cases q with
    | error e =>
      cases h
      refine ⟨calls, g1, g2, g3, ?_⟩
      have : (s'.debug && ended (Except.error e : Except Err (C × List (Option D)))) = false := by simp [ended]
      rw [this]
      simp only [Bool.false_eq_true, if_false, List.append_nil]
      exact hw
    | ok p =>
      obtain ⟨c1, c2, c3⟩ := showCompleted_writes E k s1
      cases h
      refine ⟨calls, g1, by rw [c2, g2], by rw [c1, g3], ?_⟩
      have h3 : Wrote E _ s1 (showCompleted E k s1) := c3
      have := hw.trans h3
      rw [← c1, ← c2] at this
      by_cases hd : (showCompleted E k s1).debug = true
      · rw [if_pos hd] at this
        rw [show ((showCompleted E k s1).debug && ended (Except.ok p : Except Err (C × List (Option D)))) = true from by rw [hd]; rfl, if_pos rfl]
        exact this
      · rw [if_neg hd] at this
        rw [show ((showCompleted E k s1).debug && ended (Except.ok p : Except Err (C × List (Option D)))) = false from by simpa [ended] using hd]
        simp only [Bool.false_eq_true, if_false]
        exact this

/-! The searches. -/

theorem search_ast {K : Dialects.Classes σ O D Val} (hK : ∀ k l fs, K.truthy (.node k l fs) = true)
    (I : Interp σ M (Option O)) (filename : Str) : Search K (Dialects.findAst I filename) where
  same := by
    intro c s t hw hs
    unfold Dialects.findAst
    rw [hw]
    split
    · split
      · exact ⟨rfl, hw, hs⟩
      · exact ⟨rfl, hw, hs⟩
      · split
        · exact ⟨rfl, rfl, hs⟩
        · exact ⟨rfl, rfl, hs⟩
    · exact ⟨rfl, hw, hs⟩
    · exact ⟨rfl, hw, hs⟩
  step := by
    intro c s
    unfold Dialects.findAst
    split
    · split
      · rfl
      · rfl
      · split <;> rfl
    · rfl
    · rfl
  truthy := by
    intro c s f c' s' h
    unfold Dialects.findAst at h
    split at h
    · rename_i body hb
      split at h
      · cases h
      · cases h
      · split at h
        · cases h
        · cases h
          cases c with
          | node k l fs => exact hK _ _ _
          | list xs => cases hb
          | const x => cases hb
    · cases h
    · cases h

theorem found_nil : Dialects.found [] = [] := rfl

theorem search_source {K : Dialects.Classes σ O D Str} (hK : ∀ x r, K.truthy (x :: r) = true)
    (I : Interp σ M (Option O)) (parse : Str → Except Err Val) (filename : Str) :
    Search K (Dialects.findSource I parse filename) where
  same := by
    intro c s t hw hs
    unfold Dialects.findSource
    rw [hw, hs]
    dsimp only
    split
    · exact ⟨rfl, hw, hs⟩
    · split
      · exact ⟨rfl, rfl, rfl⟩
      · split
        · exact ⟨rfl, rfl, rfl⟩
        · exact ⟨rfl, rfl, rfl⟩
  step := by
    intro c s
    unfold Dialects.findSource
    dsimp only
    split
    · rfl
    · split
      · rfl
      · split <;> rfl
  truthy := by
    intro c s f c' s' h
    cases c with
    | nil =>
      unfold Dialects.findSource at h
      rw [found_nil] at h
      cases h
    | cons x r =>
      unfold Dialects.findSource at h
      dsimp only at h
      split at h
      · cases h
      · split at h
        · cases h
        · split at h
          · cases h
          · cases h
            exact hK _ _

/-! The postprocessors. -/

theorem postLoop_sim {E : Console D C} {K : Dialects.Classes σ O D C} {ds : List (Option D)} {c : C} {s s' : Shown σ}
    {t : Dialects.St σ} {r : Except Err C} (h : postLoop E K ds c s = (r, s')) (ht : Like s t) :
    (∃ t', Dialects.postprocess (quiet K) ds c t = (r, t') ∧ Like s' t') ∧
    ∃ calls, PostPerformed (quiet K) ds c s.st.world calls r ∧ s'.debug = s.debug ∧
      s'.st.step = s.st.step + postSteps calls ∧
      Wrote E (if s.debug then postReport E.repr s.st.step calls else []) s s' := by
  induction ds generalizing c s t with
  | nil =>
    cases h
    refine ⟨⟨t, rfl, ht⟩, [], .done .nil, rfl, rfl, ?_⟩
    cases s'.debug <;> exact .none rfl
  | cons d ds ih =>
    have grow : ∀ {d : Option D} {c : C} {w : σ} {m} {q} {w'} {c1} {calls} {r}, (quiet K).post d = some m → m c w = (q, w') →
        Dialects.Output K.truthy c q c1 →
        PostPerformed (quiet K) ds c1 w' calls r → PostPerformed (quiet K) (d :: ds) c w (⟨"postprocess_ast", d, c, q⟩ :: calls) r := by
      intro d c w m q w' c1 calls r h1 h2 h3 h4
      cases h4 with
      | done h => exact .done (.cons h1 h2 h3 h)
      | missing h g => exact .missing (pre := d :: _) (.cons h1 h2 h3 h) g
      | raises h g g' => exact .raises (pre := d :: _) (.cons h1 h2 h3 h) g g'
      | empty h g g' g'' => exact .empty (pre := d :: _) (.cons h1 h2 h3 h) g g' g''
    cases d with
    | none =>
      rw [postLoop] at h
      obtain ⟨⟨t', h1, h1'⟩, calls, h2, h3, h4, h5⟩ := ih h ht
      refine ⟨⟨t', ?_, h1'⟩, ⟨"postprocess_ast", none, c, .notImplemented⟩ :: calls, grow rfl rfl .same h2, h3, ?_, ?_⟩
      · rw [Dialects.postprocess]; exact h1
      · rw [h4]; simp [postSteps]
      · rw [postReport]; exact h5
    | some d =>
      rw [postLoop] at h
      rw [Dialects.postprocess]
      have hq : (quiet K).post (some d) = K.post d := rfl
      rw [hq]
      obtain ⟨hw, hsn⟩ := ht
      have hnone : ∀ {s1 : Shown σ}, s1.out = s.out →
          Wrote E (if s.debug then postReport E.repr s.st.step ([] : List (Dialects.Call (Option D) C)) else []) s s1 := by
        intro s1 hs
        cases s.debug <;> exact .none hs
      cases hp : K.post d with
      | none =>
        rw [hp] at h
        cases h
        exact ⟨⟨t, rfl, hw, hsn⟩, [], .missing (pre := []) .nil (hq.trans hp), rfl, rfl, hnone rfl⟩
      | some m =>
      rw [hp] at h
      dsimp only at h ⊢
      cases hr : m c s.st.world with
      | mk q w =>
      have hr' := hr
      rw [hw] at hr'
      rw [hr] at h
      rw [hr']
      cases q with
      | raised =>
        cases h
        exact ⟨⟨_, rfl, rfl, hsn⟩, [], .raises (pre := []) .nil (hq.trans hp) hr, rfl, rfl, hnone rfl⟩
      | notImplemented =>
        dsimp only at h ⊢
        obtain ⟨⟨t', h1, h1'⟩, calls, h2, h3, h4, h5⟩ := ih (t := { t with world := w }) h ⟨rfl, hsn⟩
        refine ⟨⟨t', h1, h1'⟩, ⟨"postprocess_ast", some d, c, .notImplemented⟩ :: calls,
          grow (hq.trans hp) hr .same h2, h3, ?_, ?_⟩
        · rw [h4]; simp [postSteps, setWorld]
        · rw [postReport]; exact h5
      | value c1 =>
        dsimp only at h ⊢
        have hqt : (quiet K).truthy c1 = K.truthy c1 := rfl
        rw [hqt]
        by_cases hv : K.truthy c1 = true
        · simp only [hv, Bool.not_true, Bool.false_eq_true, if_false] at h ⊢
          obtain ⟨e1, e2, e3⟩ := showAfter_writes E (E.repr (some d) ++ lit "." ++ lit "postprocess_ast") c1
            (count (setWorld w s))
          have e1' : (showAfter E (E.repr (some d) ++ lit "." ++ lit "postprocess_ast") c1
            (count (setWorld w s))).st = { s.st with world := w, step := s.st.step + 1 } := e1
          have e2' : (showAfter E (E.repr (some d) ++ lit "." ++ lit "postprocess_ast") c1
            (count (setWorld w s))).debug = s.debug := e2
          have e3' : Wrote E (if s.debug then [.after (E.repr (some d) ++ lit "." ++ lit "postprocess_ast") (s.st.step + 1) c1]
            else []) s (showAfter E (E.repr (some d) ++ lit "." ++ lit "postprocess_ast") c1
              (count (setWorld w s))) := e3
          obtain ⟨⟨t', h1, h1'⟩, calls, h2, h3, h4, h5⟩ := ih (t := { t with world := w, step := t.step + 1 }) h
            ⟨by rw [e1'], by rw [e1']; exact hsn⟩
          rw [e1'] at h2 h4 h5
          rw [e2'] at h3 h5
          refine ⟨⟨t', h1, h1'⟩, ⟨"postprocess_ast", some d, c, .value c1⟩ :: calls,
            grow (hq.trans hp) hr (.new hv) h2, h3, ?_, ?_⟩
          · rw [h4]; simp [postSteps]; omega
          · rw [postReport]
            dsimp only
            have e4 : E.repr (some d) ++ lit "." ++ lit "postprocess_ast" = E.repr (some d) ++ ".postprocess_ast".toList := by
              rw [List.append_assoc, show lit "." ++ lit "postprocess_ast" = ".postprocess_ast".toList from by decide +kernel]
            have := e3'.trans h5
            rw [← e4]
            cases hb : s.debug with
            | true => rw [hb] at this; exact this
            | false => rw [hb] at this; exact this
        · have hv : K.truthy c1 = false := by simpa using hv
          simp only [hv, Bool.not_false, if_true] at h ⊢
          cases h
          exact ⟨⟨_, rfl, rfl, hsn⟩, [], .empty (pre := []) .nil (hq.trans hp) hr hv, rfl, rfl, hnone rfl⟩

theorem postprocess_sim {E : Console D C} {K : Dialects.Classes σ O D C} (ds : List (Option D)) (c : C) (s : Shown σ) :
    ((postprocess E K ds c s).1, (postprocess E K ds c s).2.st.world, (postprocess E K ds c s).2.st.seen) =
      ((Dialects.postprocess (quiet K) ds c s.st).1, (Dialects.postprocess (quiet K) ds c s.st).2.world,
        (Dialects.postprocess (quiet K) ds c s.st).2.seen) := by
  have hb := postBefore_writes E c s
  have hl : Like (postBefore E c s) s.st := ⟨by rw [hb.st], by rw [hb.st]⟩
  unfold postprocess
  cases h : postLoop E K ds c (postBefore E c s) with
  | mk r s1 =>
    obtain ⟨⟨t', h1, h2⟩, _⟩ := postLoop_sim h hl
    rw [h1]
    cases r with
    | error e => simp [h2.world, h2.seen]
    | ok p =>
      have hc := postCompleted_writes E s1
      simp [hc.st, h2.world, h2.seen]

theorem postprocess_report {E : Console D C} {K : Dialects.Classes σ O D C} {ds : List (Option D)} {c : C} {s s' : Shown σ}
    {r : Except Err C} (h : postprocess E K ds c s = (r, s')) :
    ∃ calls, PostPerformed (quiet K) ds c s.st.world calls r ∧ s'.debug = s.debug ∧
      s'.st.step = s.st.step + postSteps calls ∧
      Wrote E (if s.debug then .before "AST postprocessors" s.st.step c :: postReport E.repr s.st.step calls ++
        (if ended r then [.completed "AST postprocessors" s'.st.step] else []) else []) s s' := by
  obtain ⟨b1, b2, b3⟩ := postBefore_writes E c s
  have hl : Like (postBefore E c s) s.st := ⟨by rw [b1], by rw [b1]⟩
  unfold postprocess at h
  cases hlp : postLoop E K ds c (postBefore E c s) with
  | mk q s1 =>
    obtain ⟨_, calls, g1, g2, g3, g4⟩ := postLoop_sim hlp hl
    rw [b2] at g2 g4
    rw [b1] at g1 g3 g4
    rw [hlp] at h
    have hw := Wrote.trans b3 g4
    cases q with
    | error e =>
      cases h
      refine ⟨calls, g1, g2, g3, ?_⟩
      rw [show ended (Except.error e : Except Err C) = false from rfl]
      simp only [Bool.false_eq_true, if_false, List.append_nil]
      cases hb : s.debug <;> rw [hb] at hw <;> exact hw
    | ok p =>
      obtain ⟨c1, c2, c3⟩ := postCompleted_writes E s1
      cases h
      refine ⟨calls, g1, by rw [c2, g2], by rw [c1, g3], ?_⟩
      have h3 : Wrote E _ s1 (postCompleted E s1) := c3
      have := hw.trans h3
      rw [g2] at this
      rw [show ended (Except.ok p : Except Err C) = true from rfl, if_pos rfl, c1]
      cases hb : s.debug <;> rw [hb] at this <;> exact this

end Mcpyrate.DialectSteps
