import Verif.Lemmas.ExpanderClean
import Verif.Lemmas.ExpanderEffect
import Verif.Spec.ExpanderErrors
/-
What exceptions come out of the expander.
-/
namespace Mcpyrate.Expander
open Py

variable {υ : Type}

theorem header_eq : hint = reportHeader := rfl

theorem site_eq : @site υ = @useSite υ := by
  funext E a name
  unfold site useSite
  cases a.synt <;> rfl

theorem interrupt_iff {e : Exc} : e.isException = false ↔ Interrupt e := by
  unfold Interrupt
  cases e with
  | user i b => cases b <;> simp [Exc.isException]
  | py | app0 | app => simp [Exc.isException]

/-- The exception of an outcome. -/
def errOf {α : Type} : Except Exc α → Option Exc
  | .ok _ => none
  | .error e => some e

/-- A relation between states before and after that depends on the exception raised. -/
structure RelQ (Q : Option Exc → St υ → St υ → Prop) : Prop where
  refl : ∀ s, Q none s s
  py : ∀ s x, Q (some (.py x)) s s
  trans : ∀ {o a b c}, Q none a b → Q o b c → Q o a c
  mode : ∀ {o s s' b}, Q o { s with recursive := b } s' → Q o s { s' with recursive := s.recursive }

/-- All finished runs of `m` from `s`. -/
def PQ {α : Type} (Q : Option Exc → St υ → St υ → Prop) (m : X υ α) (s : St υ) : Prop :=
  M.Post m s fun r s' => Q (errOf r) s s'

/-- The computation only raises errors of Python. -/
def PyErr {α : Type} (x : Except Exc α) : Prop := ∀ e, x = .error e → ∃ p, e = .py p

theorem PyErr.ok {α : Type} (a : α) : PyErr (.ok a) := by intro e h; cases h
theorem PyErr.py {α : Type} (p : Err) : PyErr (.error (.py p) : Except Exc α) := by
  rintro e ⟨⟩; exact ⟨p, rfl⟩
theorem PyErr.bind {α β : Type} {x : Except Exc α} {f : α → Except Exc β} (hx : PyErr x)
    (hf : ∀ a, x = .ok a → PyErr (f a)) : PyErr (x >>= f) := by
  cases x with
  | error e => intro e' h; cases h; exact hx e rfl
  | ok a => exact hf a rfl

theorem attr_pyErr (t : Val) (f : F) : PyErr (attr t f) := by
  unfold attr; split
  · exact .ok _
  · exact .py _
theorem asList_pyErr (t : Val) : PyErr (asList t) := by
  unfold asList; split
  · exact .ok _
  · exact .py _
theorem liftErr_pyErr {α : Type} (x : Except Err α) : PyErr (liftErr x) := by
  cases x
  · exact .py _
  · exact .ok _
theorem PyErr.ite {α : Type} {c : Prop} [Decidable c] {x y : Except Exc α} (hx : PyErr x)
    (hy : PyErr y) : PyErr (if c then x else y) := by split <;> assumption

theorem destructure_pyErr (b : Bool) (t : Val) : PyErr (destructure b t) := by
  unfold destructure
  refine .ite (.bind (attr_pyErr _ _) fun _ _ => .ok _) (.ite ?_ (.ite ?_ (.ok _)))
  · refine .bind (attr_pyErr _ _) fun v _ => .ite ?_ (.ok _)
    refine .bind (attr_pyErr _ _) fun sl _ => .ite ?_ ?_
    · exact .bind (attr_pyErr _ _) fun _ _ => .bind (asList_pyErr _) fun _ _ =>
        .bind (attr_pyErr _ _) fun _ _ => .ok _
    · exact .bind (.ok _) fun _ _ => .bind (attr_pyErr _ _) fun _ _ => .ok _
  · refine .bind (attr_pyErr _ _) fun v _ => .ite ?_ (.ok _)
    refine .bind (attr_pyErr _ _) fun kws _ => .ite (.ok _) ?_
    refine .bind (attr_pyErr _ _) fun _ _ => .bind (asList_pyErr _) fun _ _ => ?_
    exact .ite (.py _) (.ite (.py _) (.bind (attr_pyErr _ _) fun _ _ => .ok _))

theorem destructureCall_pyErr (t : Val) : PyErr (destructureCall t) := by
  unfold destructureCall
  refine .bind (destructure_pyErr _ _) fun d _ => ?_
  split
  · exact .ok _
  · exact .py _

theorem detect_pyErr (E : Env υ) (w : World υ) (synt : Syn) (items : List Val) :
    PyErr (detect E w synt items) := by
  induction items with
  | nil => exact .ok _
  | cons i items ih =>
    unfold detect
    refine .bind ?_ fun _ _ => .bind (destructure_pyErr _ _) fun _ _ => .bind ih fun _ _ => .ok _
    unfold candidateOf
    exact .ite (attr_pyErr _ _) (.ok _)

theorem insertCoverage_pyErr (f m : String) (t : Val) (l : Loc) : PyErr (insertCoverage f m t l) := by
  unfold insertCoverage
  refine .ite (.ok _) (.ite (.py _) ?_)
  split
  · exact .ok _
  · exact .ok _
  · exact .ok _
  · exact .py _

section
variable {α β : Type} {Q : Option Exc → St υ → St υ → Prop} (hQ : RelQ Q)
include hQ

theorem PQ.pure (a : α) (s : St υ) : PQ Q (Pure.pure a : X υ α) s := M.post_pure.mpr (hQ.refl s)
theorem PQ.throw (x : Err) (s : St υ) : PQ Q (M.throw (.py x) : X υ α) s :=
  M.post_throw.mpr (hQ.py s x)
theorem PQ.bind {m : X υ α} {f : α → X υ β} {s : St υ} (hm : PQ Q m s)
    (hf : ∀ a s', m s = some (.ok a, s') → PQ Q (f a) s') : PQ Q (m >>= f) s := by
  unfold PQ
  rw [M.post_bind]
  intro r s' h
  have h1 := hm r s' h
  cases r with
  | error e => exact h1
  | ok a => exact (hf a s' h).mono fun _ _ h2 => hQ.trans h1 h2
omit hQ in
theorem PQ.get {f : St υ → X υ β} {s : St υ} (hf : PQ Q (f s) s) : PQ Q (M.get >>= f) s := by
  unfold PQ
  rw [M.post_bind, M.post_get]; exact hf
theorem PQ.ofExcept {x : Except Exc α} {f : α → X υ β} {s : St υ} (hx : PyErr x)
    (hf : ∀ a, x = .ok a → PQ Q (f a) s) : PQ Q (M.ofExcept x >>= f) s := by
  unfold PQ
  rw [M.post_bind, M.post_ofExcept]
  cases x with
  | error e => obtain ⟨p, rfl⟩ := hx e rfl; exact hQ.py s p
  | ok a => exact hf a rfl
theorem PQ.ofExcept' {x : Except Exc α} {s : St υ} (hx : PyErr x) :
    PQ Q (M.ofExcept x : X υ α) s := by
  unfold PQ
  rw [M.post_ofExcept]
  cases x with
  | error e => obtain ⟨p, rfl⟩ := hx e rfl; exact hQ.py s p
  | ok a => exact hQ.refl s
theorem PQ.withMode {m : X υ α} {b : Bool} {s : St υ} (hm : PQ Q m { s with recursive := b }) :
    PQ Q (withMode b m) s := by
  unfold PQ Expander.withMode
  rw [M.post_bracket]
  exact hm.mono fun _ _ h => hQ.mode h

variable {E : Env υ} {vis : Val → X υ Val} (hv : ∀ t s, PQ Q (vis t) s)
include hv

theorem visitMode_pq (mode : Mode) (t : Val) (s : St υ) : PQ Q (visitMode vis mode t) s := by
  cases mode with
  | current => exact hv t s
  | recursively => exact PQ.withMode hQ (hv t _)
  | once => exact PQ.withMode hQ (PQ.bind hQ (hv t _) fun _ _ _ => PQ.pure hQ _ _)

theorem visitExpansion_pq (e t : Val) (s : St υ) : PQ Q (visitExpansion vis e t) s := by
  unfold visitExpansion
  split
  · exact PQ.pure hQ _ _
  · refine PQ.ofExcept hQ (liftErr_pyErr _) fun _ _ => PQ.ofExcept hQ (liftErr_pyErr _) fun _ _ => PQ.get ?_
    split
    · exact hv _ _
    · exact PQ.pure hQ _ _

theorem genericItems_pq (xs : List Val) (s : St υ) : PQ Q (genericItems vis xs) s := by
  induction xs generalizing s with
  | nil => exact PQ.pure hQ _ _
  | cons x xs ih =>
    unfold genericItems
    split
    · exact PQ.bind hQ (hv x s) fun _ _ _ => PQ.bind hQ (ih _) fun _ _ _ => PQ.pure hQ _ _
    · exact PQ.bind hQ (ih _) fun _ _ _ => PQ.pure hQ _ _

theorem genericFields_pq (fs : Fields) (s : St υ) : PQ Q (genericFields vis fs) s := by
  induction fs generalizing s with
  | nil => exact PQ.pure hQ _ _
  | cons p fs ih =>
    obtain ⟨f, v⟩ := p
    cases v with
    | const c => exact PQ.bind hQ (ih _) fun _ _ _ => PQ.pure hQ _ _
    | list xs =>
      exact PQ.bind hQ (genericItems_pq hQ hv xs _) fun _ _ _ =>
        PQ.bind hQ (ih _) fun _ _ _ => PQ.pure hQ _ _
    | node c l gs =>
      exact PQ.bind hQ (hv _ _) fun _ _ _ => PQ.bind hQ (ih _) fun _ _ _ => PQ.pure hQ _ _

theorem genericVisit_pq (t : Val) (s : St υ) : PQ Q (genericVisit vis t) s := by
  cases t with
  | const c => exact PQ.throw hQ _ _
  | list xs => exact PQ.throw hQ _ _
  | node c l fs => exact PQ.bind hQ (genericFields_pq hQ hv fs _) fun _ _ _ => PQ.pure hQ _ _

variable (hx : ∀ name a s, isbound s.world name ≠ none → PQ Q (expand E vis name a) s)
include hx

omit hv hx hQ in
/-- The checked call names the same, bound, macro. -/
theorem destructureCall_bound {E : Env υ} {w : World υ} {c : Val} {p : String × List Val}
    (hn : Names E w c) (hp : destructureCall c = .ok p) : Candidate c p.1 p.2 ∧ isbound w p.1 ≠ none := by
  obtain ⟨k, as, id, hc, ha⟩ := hn
  obtain ⟨v1, v2⟩ := destructure_validate hc
  unfold destructureCall at hp
  by_cases hb : BadCall c
  · rw [v1 hb] at hp; cases hp
  · rw [v2 hb] at hp; cases hp
    exact ⟨hc, by rw [ha.2.1]; simp⟩

theorem visitSubscript_pq (t : Val) (s : St υ) : PQ Q (visitSubscript E vis t) s := by
  unfold visitSubscript
  refine PQ.ofExcept hQ (attr_pyErr _ _) fun c _ => PQ.ofExcept hQ (destructure_pyErr _ _) fun d hd =>
    PQ.get ?_
  split
  · rename_i hm
    have hn := (names_iff (by decide) hd).mp hm
    refine PQ.ofExcept hQ (destructureCall_pyErr _) fun p hp =>
      PQ.ofExcept hQ (attr_pyErr _ _) fun tr _ => ?_
    exact PQ.bind hQ (hx _ _ _ (destructureCall_bound hn hp).2) fun _ _ _ => PQ.pure hQ _ _
  · exact genericVisit_pq hQ hv t s

theorem visitWith_pq (t : Val) (s : St υ) : PQ Q (visitWith E vis t) s := by
  unfold visitWith
  refine PQ.ofExcept hQ (.bind (attr_pyErr _ _) fun _ _ => asList_pyErr _) fun items _ => PQ.get ?_
  refine PQ.ofExcept hQ (detect_pyErr _ _ _ _) fun ds hd => ?_
  split
  · exact genericVisit_pq hQ hv t s
  · rename_i before item b after hs
    obtain ⟨h1, h2, -⟩ := splitFirst_some hs
    obtain ⟨c, hc, hn⟩ := (detect_sound (by decide) hd).2 (item, b) (by rw [h1]; simp)
    refine PQ.ofExcept hQ (attr_pyErr _ _) fun c' hc' => ?_
    have : c' = c := by
      have : attr item .context_expr = .ok c := hc
      rw [hc'] at this; cases this; rfl
    subst this
    refine PQ.ofExcept hQ (destructureCall_pyErr _) fun p hp =>
      PQ.ofExcept hQ (attr_pyErr _ _) fun body _ => ?_
    exact PQ.bind hQ (hx _ _ _ (destructureCall_bound (hn.mp h2) hp).2) fun _ _ _ =>
      PQ.ofExcept' hQ (insertCoverage_pyErr _ _ _ _)

theorem visitDecorated_pq (t : Val) (s : St υ) : PQ Q (visitDecorated E vis t) s := by
  unfold visitDecorated
  refine PQ.ofExcept hQ (.bind (attr_pyErr _ _) fun _ _ => asList_pyErr _) fun items _ => PQ.get ?_
  refine PQ.ofExcept hQ (detect_pyErr _ _ _ _) fun ds hd => ?_
  split
  · exact genericVisit_pq hQ hv t s
  · rename_i before item b after hs
    obtain ⟨h1, h2, -⟩ := splitLast_some hs
    obtain ⟨c, hc, hn⟩ := (detect_sound (by decide) hd).2 (item, b) (by rw [h1]; simp)
    have : c = item := by
      have : (Except.ok item : Except Exc Val) = .ok c := hc
      cases this; rfl
    subst this
    refine PQ.ofExcept hQ (destructureCall_pyErr _) fun p hp => ?_
    exact PQ.bind hQ (hx _ _ _ (destructureCall_bound (hn.mp h2) hp).2) fun _ _ _ =>
      PQ.ofExcept' hQ (insertCoverage_pyErr _ _ _ _)

theorem visitName_pq (t : Val) (s : St υ) : PQ Q (visitName E vis t) s := by
  unfold visitName
  refine PQ.ofExcept hQ (attr_pyErr _ _) fun i _ => PQ.get ?_
  dsimp only
  split
  · rename_i hm
    split
    · exact PQ.pure hQ _ _
    · rename_i name hi
      rw [hi] at hm
      obtain ⟨-, id, hb, -⟩ := ismacrocall_name.mp hm
      refine PQ.bind hQ (PQ.withMode hQ (hx _ _ _ (by dsimp only; rw [hb]; simp))) fun r s' _ => ?_
      split
      · exact PQ.pure hQ _ _
      · split
        · exact PQ.pure hQ _ _
        · refine PQ.get ?_
          split
          · exact hv _ _
          · exact PQ.pure hQ _ _
  · exact PQ.pure hQ _ _

theorem visitNode_pq (t : Val) (s : St υ) : PQ Q (visitNode E vis t) s := by
  unfold visitNode
  split
  · exact visitSubscript_pq hQ hv hx _ _
  · exact visitWith_pq hQ hv hx _ _
  · exact visitDecorated_pq hQ hv hx _ _
  · exact visitDecorated_pq hQ hv hx _ _
  · exact visitName_pq hQ hv hx _ _
  · exact genericVisit_pq hQ hv _ _

omit hx in
theorem visitElts_pq (xs : List Val) (s : St υ) : PQ Q (visitElts vis xs) s := by
  induction xs generalizing s with
  | nil => exact PQ.pure hQ _ _
  | cons x xs ih => exact PQ.bind hQ (hv x _) fun _ _ _ => PQ.bind hQ (ih _) fun _ _ _ => PQ.pure hQ _ _

theorem visitBody_pq (t : Val) (s : St υ) : PQ Q (visitBody E vis t) s := by
  unfold visitBody
  refine PQ.get ?_
  split
  · exact PQ.pure hQ _ _
  · split
    · exact PQ.pure hQ _ _
    · exact PQ.bind hQ (visitElts_pq hQ hv _ _) fun _ _ _ => PQ.pure hQ _ _
    · exact visitNode_pq hQ hv hx _ _

end

/-- To show a property of all runs of `visit`, show it for `expand`. -/
theorem visit_pq {Q : Option Exc → St υ → St υ → Prop} (hQ : RelQ Q) {E : Env υ}
    (hx : ∀ n, (∀ t s, PQ Q (visit E n t) s) → ∀ name a s, isbound s.world name ≠ none →
      PQ Q (expand E (visit E n) name a) s) (n : Nat) (t : Val) (s : St υ) : PQ Q (visit E n t) s := by
  induction n generalizing t s with
  | zero => exact M.post_diverge
  | succ n ih => exact visitBody_pq hQ ih (hx n ih) t s

/-! ### Which exceptions come out -/

/-- Not a bare user exception. -/
def Surfaces : Option Exc → Prop
  | none => True
  | some e => e.isException = false ∨ (∃ x, e = .py x) ∨ ∃ msg c, e = .app msg c

theorem surfaces_rel : RelQ (fun o (_ _ : St υ) => Surfaces o) where
  refl _ := trivial
  py _ x := .inr (.inl ⟨x, rfl⟩)
  trans _ h := h
  mode h := h

theorem report_app (E : Env υ) (a : MArgs) (name : String) (err : Exc) :
    ∃ msg c, report E a name err = .app msg c := by
  unfold report
  split
  · exact ⟨_, _, rfl⟩
  · exact ⟨_, _, rfl⟩

theorem visit_surfaces (E : Env υ) (n : Nat) (t : Val) (s : St υ) :
    PQ (fun o _ _ => Surfaces o) (visit E n t) s := by
  refine visit_pq surfaces_rel (fun n ih name a s _ => ?_) n t s
  unfold expand PQ
  rw [M.post_bind, M.post_attempt]
  intro r s' _
  cases r with
  | ok v => exact visitExpansion_pq surfaces_rel ih _ _ _
  | error e =>
    dsimp only
    rw [M.post_throw]
    cases hb : e.isException with
    | false => exact .inl (by simp [hb])
    | true => exact .inr (.inr (by simpa using report_app E a name e))

/-! ### Telescoping -/

theorem telescope_app (sites : List (List String)) (c : Exc) :
    ∃ msg, telescope sites c = .app msg c := by
  unfold telescope; split <;> exact ⟨_, rfl⟩

theorem site_head (E : Env υ) (hE : ∀ t, (E.loc t).head? ≠ hint.head?) (a : MArgs) (name : String) :
    (site E a name).head? ≠ hint.head? := by
  have := hE a.invocation
  unfold site
  cases hl : E.loc a.invocation with
  | cons x xs => rw [hl] at this; simpa using this
  | nil =>
    simp only [List.nil_append, List.head?_cons, hint]
    intro h
    have h := congrArg (fun o => o.map fun s : String => s.toList.head?) h
    simp [String.toList_append] at h

/-- One more level of nesting adds its use site in front. -/
theorem report_telescope (E : Env υ) (hE : ∀ t, (E.loc t).head? ≠ hint.head?) (a b : MArgs)
    (name nameb : String) (sites : List (List String)) (c : Exc) :
    report E a name (telescope (site E b nameb :: sites) c) =
      telescope (site E a name :: site E b nameb :: sites) c := by
  have hs := site_head E hE b nameb
  cases sites with
  | nil =>
    simp only [telescope, report]
    rw [if_neg hs]
    simp [header_eq]
  | cons x xs =>
    simp only [telescope, report]
    rw [← header_eq]
    have : (hint ++ (site E b nameb :: x :: xs).flatten).head? = hint.head? := by simp [hint]
    rw [if_pos this, List.drop_left]
    simp

/-- Error of a visit by user code that does not handle exceptions. -/
def Fails (E : Env υ) (s s' : St υ) (e : Exc) : Prop :=
  e.isException = false ∨ (∃ x, e = .py x) ∨
  ∃ chain a cause, Unwound s.depth (fresh s s') chain ∧ chain.getLast? = some a ∧ Origin E a cause ∧
    e = telescope (chain.map fun x => site E x.margs x.name) cause

theorem Unwound.append {d : Nat} {L chain pre : List App} (h : Unwound d L chain) :
    Unwound d (pre ++ L) chain := by
  cases h with
  | last d p e post h1 h2 => rw [← List.append_assoc]; exact .last _ _ _ _ h1 h2
  | more d p e post chain h1 h2 h3 => rw [← List.append_assoc]; exact .more _ _ _ _ _ h1 h2 h3

theorem Unwound.ne_nil {d : Nat} {L chain : List App} (h : Unwound d L chain) :
    ∃ e c, chain = e :: c := by
  cases h <;> exact ⟨_, _, rfl⟩

def QF (E : Env υ) (o : Option Exc) (s s' : St υ) : Prop :=
  Deep s s' ∧ ∀ e, o = some e → Fails E s s' e

theorem Fails.right {E : Env υ} {a b c : St υ} {e : Exc} (h1 : Frame a b) (h2 : Frame b c)
    (h : Fails E b c e) : Fails E a c e := by
  rcases h with h | h | ⟨chain, x, cause, hu, hl, ho, he⟩
  · exact .inl h
  · exact .inr (.inl h)
  · refine .inr (.inr ⟨chain, x, cause, ?_, hl, ho, he⟩)
    rw [fresh_trans h1 h2, ← h1.depth]
    exact hu.append

theorem qf_rel (E : Env υ) : RelQ (QF E) where
  refl s := ⟨deep_rel.refl s, by simp⟩
  py s x := ⟨deep_rel.refl s, by rintro e ⟨⟩; exact .inr (.inl ⟨x, rfl⟩)⟩
  trans := by
    rintro o a b c ⟨h1, -⟩ ⟨h2, h3⟩
    exact ⟨deep_rel.trans h1 h2, fun e he => (h3 e he).right h1.1 h2.1⟩
  mode := by
    rintro o s s' b ⟨h1, h2⟩
    exact ⟨deep_rel.mode s s' b h1, fun e he => h2 e he⟩

/-- Error of a program: its own, or of a visit it makes. -/
theorem run_fails {E : Env υ} {vis : Val → X υ Val} (hv : ∀ t s, PQ (QF E) (vis t) s) (p : Prog υ)
    (hp : p.Plain) (s : St υ) :
    M.Post (run vis p) s fun r s' => Deep s s' ∧
      ∀ e, r = .error e → p.Own e ∨ Fails E s s' e := by
  induction p generalizing s with
  | ret r =>
    unfold run
    rw [M.post_pure]; exact ⟨deep_rel.refl s, by simp⟩
  | raise e =>
    unfold run
    rw [M.post_throw]; exact ⟨deep_rel.refl s, by rintro _ ⟨⟩; exact .inl (.raise e)⟩
  | visit mode t k ih =>
    unfold run
    rw [M.post_bind, M.post_attempt]
    refine (visitMode_pq (qf_rel E) hv mode t s).mono fun r s1 h1 => ?_
    obtain ⟨d1, f1⟩ := h1
    cases r with
    | error e =>
      dsimp only
      rw [hp.1 e]
      unfold run
      rw [M.post_throw]
      exact ⟨d1, by rintro _ ⟨⟩; exact .inr (f1 e rfl)⟩
    | ok v =>
      dsimp only
      refine (ih (.ok v) (hp.2 v) s1).mono fun r2 s2 h2 => ?_
      obtain ⟨d2, f2⟩ := h2
      refine ⟨deep_rel.trans d1 d2, fun e he => ?_⟩
      rcases f2 e he with h | h
      · exact .inl (.visit h)
      · exact .inr (h.right d1.1 d2.1)
  | withHook h body k ihb ih =>
    unfold run
    rw [M.post_bind, M.post_attempt]
    unfold withHook
    rw [M.post_bracket]
    refine (ihb hp.1 { s with hook := some h }).mono fun r s1 h1 => ?_
    obtain ⟨d1, f1⟩ := h1
    have d1' := deep_rel.hook s s1 h d1
    cases r with
    | error e =>
      dsimp only
      rw [hp.2.1 e]
      unfold run
      rw [M.post_throw]
      refine ⟨d1', ?_⟩
      rintro _ ⟨⟩
      rcases f1 e rfl with h | h
      · exact .inl (.body h)
      · exact .inr h
    | ok v =>
      dsimp only
      refine (ih (.ok v) (hp.2.2 v) _).mono fun r2 s2 h2 => ?_
      obtain ⟨d2, f2⟩ := h2
      refine ⟨deep_rel.trans d1' d2, fun e he => ?_⟩
      rcases f2 e he with h | h
      · exact .inl (.withHook h)
      · exact .inr (h.right d1'.1 d2.1)
  | get k ih =>
    unfold run
    rw [M.post_bind, M.post_get]; dsimp only
    refine (ih _ _ (hp _ _) s).mono fun r2 s2 h2 => ⟨h2.1, fun e he => ?_⟩
    rcases h2.2 e he with h | h
    · exact .inl (.get h)
    · exact .inr h
  | put w k ih =>
    unfold run
    rw [M.post_bind, M.post_modify]; dsimp only
    refine (ih hp { s with world := w }).mono fun r2 s2 h2 => ?_
    refine ⟨deep_rel.trans (deep_rel.put s w trivial) h2.1, fun e he => ?_⟩
    rcases h2.2 e he with h | h
    · exact .inl (.put h)
    · exact .inr h
  | visitNew b t k ih =>
    unfold run
    rw [M.post_bind, M.post_attempt]
    unfold withNew
    rw [M.post_bracket]
    refine (hv t _).mono fun r s1 h1 => ?_
    obtain ⟨d1, f1⟩ := h1
    have d1' := deep_rel.new s s1 b d1
    cases r with
    | error e =>
      dsimp only
      rw [hp.1 e]
      unfold run
      rw [M.post_throw]
      exact ⟨d1', by rintro _ ⟨⟩; exact .inr (f1 e rfl)⟩
    | ok v =>
      dsimp only
      refine (ih (.ok v) (hp.2 v) _).mono fun r2 s2 h2 => ?_
      obtain ⟨d2, f2⟩ := h2
      refine ⟨deep_rel.trans d1' d2, fun e he => ?_⟩
      rcases f2 e he with h | h
      · exact .inl (.visitNew h)
      · exact .inr (h.right d1'.1 d2.1)
  | hang => exact M.post_diverge

/-- The exception raised by user code itself is not a telescoped report. -/
theorem Prog.Plain.own {p : Prog υ} (hp : p.Plain) {e : Exc} (h : p.Own e) : ∀ msg c, e ≠ .app msg c := by
  induction h with
  | raise e => exact hp
  | visit _ ih => exact ih (hp.2 _)
  | body _ ih => exact ih hp.1
  | withHook _ ih => exact ih (hp.2.2 _)
  | get _ ih => exact ih (hp _ _)
  | put _ ih => exact ih hp
  | visitNew _ ih => exact ih (hp.2 _)

/-- What can go wrong while the macro application `x` (already logged in `s0`) is running. -/
def Inner (E : Env υ) (x : App) (d : Nat) (L : List App) (e : Exc) : Prop :=
  e.isException = false ∨ (Origin E x e ∧ ∀ msg c, e ≠ .app msg c) ∨
  ∃ chain a cause, Unwound (d + 1) L chain ∧ chain.getLast? = some a ∧ Origin E a cause ∧
    e = telescope (chain.map fun x => site E x.margs x.name) cause

theorem runNested_fails {E : Env υ} {vis : Val → X υ Val} (hv : ∀ t s, PQ (QF E) (vis t) s) (p : Prog υ)
    (hp : p.Plain) (s : St υ) :
    M.Post (runNested vis p) s fun r s' => Frame s s' ∧ (∀ e ∈ fresh s s', s.depth < e.depth) ∧
      ∀ e, r = .error e → p.Own e ∨ Fails E { s with depth := s.depth + 1 } s' e := by
  unfold runNested
  rw [M.post_bracket]
  refine (run_fails hv p hp _).mono ?_
  rintro r s' ⟨⟨h1, h2⟩, h3⟩
  exact ⟨frame_rel.depth s s' h1, h2, h3⟩

theorem inner_of_fails {E : Env υ} {x : App} {s s' s0 : St υ} {e : Exc} {p : Prog υ} (hp : p.Plain)
    (ho : ∀ e, p.Own e → Origin E x e) (f0 : Frame s0 s) (f1 : Frame s s')
    (h : p.Own e ∨ Fails E { s with depth := s.depth + 1 } s' e) :
    Inner E x s0.depth (fresh s0 s') e := by
  rcases h with h | h | h | ⟨chain, a, cause, hu, hl, hc, he⟩
  · exact .inr (.inl ⟨ho e h, hp.own h⟩)
  · exact .inl h
  · obtain ⟨y, rfl⟩ := h
    exact .inr (.inl ⟨.inr (.inr (.inr ⟨y, rfl⟩)), by simp⟩)
  · refine .inr (.inr ⟨chain, a, cause, ?_, hl, hc, he⟩)
    rw [fresh_trans f0 f1, ← f0.depth]
    exact hu.append

theorem applyMacro_fails {E : Env υ} (hE : E.Plain) {vis : Val → X υ Val}
    (hv : ∀ t s, PQ (QF E) (vis t) s) (id : Nat) (name : String) (a : MArgs) (s : St υ)
    (hb : isbound s.world name = some id) :
    M.Post (applyMacro E vis id name a) s fun r s' => ∃ x l, Frame s s' ∧
      x.name = name ∧ x.fn = id ∧ x.margs = a ∧ x.depth = s.depth ∧ fresh s s' = x :: l ∧
      (∀ y ∈ l, s.depth < y.depth) ∧ ∀ e, r = .error e → Inner E x s.depth l e := by
  unfold applyMacro
  rw [M.post_bind, M.post_get]; dsimp only
  rw [M.post_bind, M.post_modify]; dsimp only
  generalize hx : (⟨name, id, a, s.depth, s.recursive, isbound s.world name⟩ : App) = x
  have x1 : x.name = name := by rw [← hx]
  have x2 : x.fn = id := by rw [← hx]
  have x3 : x.margs = a := by rw [← hx]
  have x4 : x.depth = s.depth := by rw [← hx]
  generalize hs1 : ({ s with log := s.log ++ [x] } : St υ) = s1
  have f1 : Frame s s1 := by
    subst hs1; exact frame_rel.log s _ (by rw [← hx]) (by rw [← hx]) (by rw [← hx]; exact hb) (by rw [← hx]; exact hb)
  have e1 : fresh s s1 = [x] := by subst hs1; simp [fresh]
  have om : ∀ e, ((E.macros id).fn a).Own e → Origin E x e := fun e h => .inl (by rw [x2, x3]; exact h)
  rw [M.post_bind]
  refine (runNested_fails hv _ (hE.macros id a) s1).mono fun r s2 h2 => ?_
  obtain ⟨f2, d2, g2⟩ := h2
  have l2 : fresh s s2 = x :: fresh s1 s2 := by rw [fresh_trans f1 f2, e1]; rfl
  cases r with
  | error e =>
    refine ⟨x, _, f1.trans f2, x1, x2, x3, x4, l2, by rw [← f1.depth]; exact d2, ?_⟩
    rintro _ ⟨⟩
    rw [← f1.depth]
    exact inner_of_fails (hE.macros id a) om (frame_refl s1) f2 (g2 e rfl)
  | ok newtree =>
    dsimp only
    rw [M.post_bind, M.post_get]; dsimp only
    have done : ∃ x l, Frame s s2 ∧ x.name = name ∧ x.fn = id ∧ x.margs = a ∧ x.depth = s.depth ∧
        fresh s s2 = x :: l ∧ (∀ y ∈ l, s.depth < y.depth) :=
      ⟨x, _, f1.trans f2, x1, x2, x3, x4, l2, by rw [← f1.depth]; exact d2⟩
    split
    · rw [M.post_pure]
      obtain ⟨x, l, h1, h2, h3, h4, h5, h6, h7⟩ := done
      exact ⟨x, l, h1, h2, h3, h4, h5, h6, h7, by simp⟩
    · rename_i h1 h0
      exfalso
      have := (f1.trans f2).hook
      rw [h0] at this
      simp_all
    · rename_i h _ _ _
      rw [M.post_bind]
      refine (runNested_fails hv _ (hE.hooks h _ _ _) s2).mono fun r s3 h3 => ?_
      obtain ⟨f3, d3, g3⟩ := h3
      have l3 : fresh s s3 = x :: (fresh s1 s2 ++ fresh s2 s3) := by
        rw [fresh_trans (f1.trans f2) f3, l2]; rfl
      have dd : ∀ y ∈ fresh s1 s2 ++ fresh s2 s3, s.depth < y.depth := by
        intro y hy
        rcases List.mem_append.mp hy with hy | hy
        · rw [← f1.depth]; exact d2 y hy
        · rw [← (f1.trans f2).depth]; exact d3 y hy
      have key : ∀ e, r = .error e → Inner E x s.depth (fresh s1 s2 ++ fresh s2 s3) e := by
        rintro e rfl
        rw [← fresh_trans f2 f3, ← f1.depth]
        exact inner_of_fails (hE.hooks h _ _ _)
          (fun e ho => .inr (.inl ⟨h, newtree, by rw [x3, x1]; exact ho⟩)) f2 f3 (g3 e rfl)
      cases r with
      | error e => exact ⟨x, _, (f1.trans f2).trans f3, x1, x2, x3, x4, l3, dd, key⟩
      | ok w =>
        dsimp only
        rw [M.post_pure]
        exact ⟨x, _, (f1.trans f2).trans f3, x1, x2, x3, x4, l3, dd, by simp⟩

/-- `expand`: the report names the use sites of the running applications. -/
theorem expand_fails {E : Env υ} (hE : E.Plain) (hloc : ∀ t, (E.loc t).head? ≠ hint.head?)
    {vis : Val → X υ Val} (hv : ∀ t s, PQ (QF E) (vis t) s) (name : String) (a : MArgs) (s : St υ)
    (hb : isbound s.world name ≠ none) : PQ (QF E) (expand E vis name a) s := by
  unfold expand PQ
  rw [M.post_bind, M.post_attempt]
  unfold expandTry
  rw [M.post_bind, M.post_get]; dsimp only
  split
  · contradiction
  · rename_i id hid
    rw [M.post_bind]
    refine (applyMacro_fails hE hv id name a s hid).mono fun r s1 h1 => ?_
    obtain ⟨x, l, f1, x1, x2, x3, x4, hl, hd, hi⟩ := h1
    have deep1 : Deep s s1 := ⟨f1, by
      rw [hl]; intro e he
      rcases List.mem_cons.mp he with h | h
      · rw [h, x4]; exact Nat.le_refl _
      · exact Nat.le_of_lt (hd e h)⟩
    have fails : ∀ e, Inner E x s.depth l e →
        Fails E s s1 (if e.isException then report E a name e else e) := by
      intro e he
      rcases he with h | ⟨ho, hna⟩ | ⟨chain, y, cause, hu, hlast, ho, rfl⟩
      · rw [if_neg (by simp [h])]; exact .inl h
      · cases hex : e.isException with
        | false => exact .inl (by simpa using hex)
        | true =>
          refine .inr (.inr ⟨[x], x, e, ?_, rfl, ho, ?_⟩)
          · rw [hl]; exact .last _ [] x l x4 hd
          · simp only [if_true, List.map_cons, List.map_nil, telescope, x1, x3]
            unfold report
            split
            · exact absurd rfl (hna _ _)
            · rfl
      · obtain ⟨b, c', rfl⟩ := hu.ne_nil
        refine .inr (.inr ⟨x :: b :: c', y, cause, ?_, ?_, ho, ?_⟩)
        · rw [hl]; exact .more _ [] x l _ x4 hd hu
        · rw [List.getLast?_cons_cons]; exact hlast
        · obtain ⟨msg, hm⟩ := telescope_app ((b :: c').map fun x => site E x.margs x.name) cause
          rw [if_pos (by rw [hm]; rfl)]
          simp only [List.map_cons]
          rw [report_telescope E hloc, x1, x3]
    cases r with
    | error e =>
      dsimp only
      rw [M.post_throw]
      exact ⟨deep1, by rintro _ ⟨⟩; exact fails e (hi e rfl)⟩
    | ok ret =>
      dsimp only
      split
      · rename_i v _
        rw [M.post_pure]
        dsimp only
        exact (visitExpansion_pq (qf_rel E) hv v a.invocation s1).mono fun r2 s2 h2 =>
          (qf_rel E).trans ⟨deep1, by simp⟩ h2
      · rw [M.post_throw]
        dsimp only
        rw [M.post_throw]
        refine ⟨deep1, ?_⟩
        rintro _ ⟨⟩
        exact fails _ (.inr (.inl ⟨.inr (.inr (.inl (by rw [x3]))), by simp⟩))

/-- Every error of a visit by user code that does not handle exceptions. -/
theorem visit_fails {E : Env υ} (hE : E.Plain) (hloc : ∀ t, (E.loc t).head? ≠ hint.head?) (n : Nat)
    (t : Val) (s : St υ) : PQ (QF E) (visit E n t) s :=
  visit_pq (qf_rel E) (fun _ ih name a s hb => expand_fails hE hloc ih name a s hb) n t s

end Mcpyrate.Expander
