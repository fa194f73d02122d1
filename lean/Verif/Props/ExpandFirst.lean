import Verif.Lemmas.ExpandFirst
import Verif.Spec.ExpanderExample
import Verif.Spec.QuoteOpsExample
/-
C52 `with expand_first[a, b]: body` expands the given macros in the body, before any others.

Full statement: for every list of names of macros, the result is the body with the invocations of these macros (under
any of their names) expanded recursively, and all else as it was; other arguments are rejected with SyntaxError.

That does not hold in general: global bindings (of hygienically captured macros) are seen by every expander, so these
macros are expanded too (`C52_global_violated`).  The arguments are expanded first, so that identifier macros cannot be
given (`C52_identifier_violated`).  The docstring allows `q[h[m]]` as an argument, but that expands to a call, which is
rejected (`C52_quoted_violated`).

`C52_expanded` is for names of macros that are not identifier macros, and says what happens in terms of a visit by an
expander with fewer bindings.  `C52_listed_partial` and `C52_complete_partial` draw conclusions from that for macros that
leave the bindings alone.  `C52_args_first`, `C52_args_expanded`, `C52_args_listed_partial` and `C52_args_error` are about
arguments in general, which are expanded first.
-/
namespace Mcpyrate
open Py Expander ExpandFirst

variable {υ : Type}

/-- C52: for names of macros that are not identifier macros, the call is exactly a recursive visit of the body by
another expander, which knows these macros under all their names, and the global bindings; whether it returns, raises
or does not terminate. -/
theorem C52_expanded (E : Env υ) (args : List Val) (fs : List Nat) (body inv : Val) (s : Expander.St υ)
    (hl : Dict.WF s.world.locals) (hg : Dict.WF s.world.globals) (hne : args ≠ [])
    (hargs : args.map (macroOf s.world) = fs.map some) (hname : ∀ f ∈ fs, (E.macros f).isName = false) :
    ∃ w2, Second s.world w2 fs ∧ ∀ r s', Calls E (blockArgs args body inv) s r s' ↔
      ∃ v s1, Runs E .current body (other s w2) v s1 ∧ r = v.map Ret.val ∧ s' = back s s1 := by
  refine ⟨_, second hl hg fs, fun r s' => ?_⟩
  obtain ⟨x, xs, rfl⟩ := List.exists_cons_of_ne_nil hne
  have hall : ∀ t ∈ x :: xs, ∃ f ∈ fs, macroOf s.world t = some f := by
    intro t ht
    have : macroOf s.world t ∈ fs.map some := hargs ▸ List.mem_map_of_mem ht
    obtain ⟨f, hf, e⟩ := List.mem_map.mp this
    exact ⟨f, hf, e.symm⟩
  have hnames : ∀ n, 2 ≤ n → visit E n (.list (x :: xs)) (other s { s.world with locals := allBindings s.world }) =
      some (.ok (.list (x :: xs)), other s { s.world with locals := allBindings s.world }) := by
    intro n hn
    refine visit_names hne hn ?_ fun t ht => ?_
    · obtain ⟨f, -, hf⟩ := hall x (by simp)
      obtain ⟨k, -, hk⟩ := macroOf_some hf
      exact bound_noBindings (k := k) ((isbound_all hl k).trans hk)
    · obtain ⟨f, hf, hm⟩ := hall t ht
      refine ⟨macroOf_isK hm, ?_, ?_⟩
      · obtain ⟨k, hk, -⟩ := macroOf_some hm
        rw [hk]; rfl
      · exact macroOf_notInvocation (isbound_all hl) hm (hname f hf)
  have hfun := functions_ok hargs
  have key : ∀ n, 2 ≤ n → run (visit E n) (expandFirst (blockArgs (x :: xs) body inv)) s =
      run (visit E n) (.visitNew (ExtractBindings.extractBindings (allBindings s.world) fs) body give) s := by
    intro n hn
    have h1 : run (visit E n) (expandFirst (blockArgs (x :: xs) body inv)) s =
        run (visit E n) (expandBody (blockArgs (x :: xs) body inv) (.list (x :: xs))) s := by
      show run (visit E n) (.visitNew (allBindings s.world) (.list (x :: xs)) _) s = _
      rw [run_visitNew_of (hnames n hn)]
      rfl
    rw [h1]
    show run (visit E n) (match functions s.world (x :: xs) with | .error e => _ | .ok fs => _) s = _
    rw [hfun]
    rfl
  have fin : ∀ n, run (visit E n) (.visitNew (ExtractBindings.extractBindings (allBindings s.world) fs) body give) s =
      some (r, s') ↔ ∃ v s1, visit E n body (other s { s.world with
        locals := ExtractBindings.extractBindings (allBindings s.world) fs }) = some (v, s1) ∧
        r = v.map Ret.val ∧ s' = back s s1 := by
    intro n
    rw [run_visitNew_iff]
    constructor
    · rintro ⟨v, s1, h1, h2⟩
      refine ⟨v, s1, h1, ?_⟩
      cases v <;> · cases h2; exact ⟨rfl, rfl⟩
    · rintro ⟨v, s1, h1, rfl, rfl⟩
      exact ⟨v, s1, h1, by cases v <;> rfl⟩
  constructor
  · rintro ⟨n, h⟩
    obtain ⟨m, hm, h⟩ : ∃ m, 2 ≤ m ∧ run (visit E m) (expandFirst (blockArgs (x :: xs) body inv)) s = some (r, s') :=
      ⟨n + 2, by omega, run_le (fun t => visit_mono E (by omega) t) _ _ _ h⟩
    rw [key m hm, fin] at h
    obtain ⟨v, s1, h1, h2, h3⟩ := h
    exact ⟨v, s1, ⟨m, h1⟩, h2, h3⟩
  · rintro ⟨v, s1, ⟨n, h1⟩, h2, h3⟩
    refine ⟨n + 2, ?_⟩
    rw [key _ (by omega), fin]
    exact ⟨v, s1, visit_mono E (by omega) _ _ _ h1, h2, h3⟩

/-- C52: what is replaced are invocations of the given macros, and all else is as it was; if user code leaves the
bindings alone, and there are no other global bindings. -/
theorem C52_listed_partial (E : Env υ) (args : List Val) (fs : List Nat) (body inv v : Val) (s s' : Expander.St υ)
    (hl : Dict.WF s.world.locals) (hg : Dict.WF s.world.globals) (hne : args ≠ [])
    (hargs : args.map (macroOf s.world) = fs.map some) (hname : ∀ f ∈ fs, (E.macros f).isName = false)
    (hE : E.Keeps bindings) (hglob : ∀ k f, Dict.get s.world.globals k = some f → f ∈ fs) (hb : body.isTree = true)
    (h : Calls E (blockArgs args body inv) s (.ok (.val v)) s') :
    AgreeTop (ExpandedBy fs s s') body v ∧ bindings s'.world = bindings s.world := by
  obtain ⟨w2, h2, hc⟩ := C52_expanded E args fs body inv s hl hg hne hargs hname
  obtain ⟨r, s1, ⟨n, h1⟩, hr, rfl⟩ := (hc _ _).mp h
  cases r with
  | error => cases hr
  | ok r =>
    cases hr
    obtain ⟨-, b2, b3⟩ := visit_boundNow hE n body _ _ _ h1
    constructor
    · refine AgreeTop.mono ?_ ((visit_eff E n body _ _ _ h1).2 hb v rfl)
      rintro u ⟨e, he, hd, hi⟩
      refine ⟨e, he, hd, hi, ?_⟩
      rcases (h2.bound _ _).mp (b3 e he hd) with ⟨-, h⟩ | ⟨-, h⟩
      · exact h
      · exact hglob _ _ h
    · have : s1.world.globals = s.world.globals := (Prod.mk.inj b2).2.trans h2.globals
      exact Prod.ext rfl this

/-- C52: afterwards there are no invocations of the given macros left, under the conditions of
`C18_recursive_partial`. -/
theorem C52_complete_partial (E : Env υ) (args : List Val) (fs : List Nat) (body inv v : Val) (s s' : Expander.St υ)
    (hl : Dict.WF s.world.locals) (hg : Dict.WF s.world.globals) (hne : args ≠ [])
    (hargs : args.map (macroOf s.world) = fs.map some) (hname : ∀ f ∈ fs, (E.macros f).isName = false)
    (hE : E.Keeps bindings) (hb : body.isTree = true) (hbg : Grammatical body)
    (h : Calls E (blockArgs args body inv) s (.ok (.val v)) s')
    (hout : ∀ w2, Second s.world w2 fs → ∀ e ∈ s'.log, e.depth = s.depth → ∀ v, Returns E w2 e v → GoodExpansion E w2 e v) :
    ∀ w2, Second s.world w2 fs → NoInvocations E w2 v := by
  obtain ⟨w2, h2, hc⟩ := C52_expanded E args fs body inv s hl hg hne hargs hname
  obtain ⟨r, s1, ⟨n, h1⟩, hr, rfl⟩ := (hc _ _).mp h
  intro w3 h3
  suffices hs : NoInvocations E w2 v from fun u hu hi => hs u hu (invocation_bound (h2.same h3) hi)
  cases r with
  | error => cases hr
  | ok r =>
    cases hr
    obtain ⟨k1, k2, -⟩ := visit_fine (w := w2) hE n body _ _ _ hb hbg rfl rfl h1 (hout w2 h2)
    cases v with
    | const => intro u hu; cases hu with
      | refl => intro hi; exact Bool.noConfusion hi.isAST
      | step _ hm => simp [childNodes] at hm
    | list xs =>
      refine noInvocations_of (fun _ hi => Bool.noConfusion hi.isAST) fun u hu => ?_
      obtain ⟨x, -, hx⟩ := k1 u (List.mem_filter.mp hu).1
      exact hx.clean
    | node c l fs =>
      obtain ⟨x, -, hx⟩ := k1 _ (List.mem_singleton.mpr rfl)
      exact hx.clean

/-- C52: a body without invocations of the given macros is returned as it is, and no macro is called. -/
theorem C52_untouched (E : Env υ) (args : List Val) (fs : List Nat) (body inv : Val) (s : Expander.St υ)
    (hl : Dict.WF s.world.locals) (hg : Dict.WF s.world.globals) (hne : args ≠ [])
    (hargs : args.map (macroOf s.world) = fs.map some) (hname : ∀ f ∈ fs, (E.macros f).isName = false)
    (hb : body.isTree = true) (hbe : body ≠ .list [])
    (hc : ∀ u, Open body u → fieldsOk u = true ∧ ∀ w2, Second s.world w2 fs → ¬ Invocation E w2 u)
    (r : Except Exc Ret) (s' : Expander.St υ) :
    Calls E (blockArgs args body inv) s r s' ↔ r = .ok (.val body) ∧ s' = s := by
  obtain ⟨w2, h2, hcall⟩ := C52_expanded E args fs body inv s hl hg hne hargs hname
  have hv := visit_clean E (other s w2) body.size body hb hbe (fun u hu => ⟨(hc u hu).1, (hc u hu).2 w2 h2⟩)
    (Nat.le_refl _)
  have hback : back s (other s w2) = s := by
    show { s with world := { w2 with locals := s.world.locals } } = s
    have : ({ w2 with locals := s.world.locals } : World υ) = s.world := by
      show World.mk _ _ _ = _
      rw [h2.globals, h2.user]
    rw [this]
  rw [hcall]
  constructor
  · rintro ⟨v, s1, ⟨n, h1⟩, rfl, rfl⟩
    have := visitAs_det (E := E) (mode := .current) h1 hv
    cases this
    exact ⟨rfl, hback⟩
  · rintro ⟨rfl, rfl⟩
    exact ⟨_, _, ⟨_, hv⟩, rfl, hback.symm⟩

/-- C52: used as another kind of macro, with an as-part, or without arguments: SyntaxError. -/
theorem C52_syntax_error (E : Env υ) (a : MArgs) (s : Expander.St υ)
    (h : a.synt ≠ .block ∨ (∃ v, a.optionalVars = some v ∧ v.isNone = false) ∨
      (a.optionalVars = some .none ∧ (a.args = none ∨ a.args = some [])))
    (r : Except Exc Ret) (s' : Expander.St υ) : Calls E a s r s' ↔ r = .error (.py .syntaxError) ∧ s' = s := by
  have key : expandFirst (υ := υ) a = .raise (.py .syntaxError) := by
    unfold expandFirst
    by_cases hs : a.synt = .block
    · rcases h with h | ⟨v, h, hv⟩ | ⟨h, h' | h'⟩
      · exact absurd hs h
      · simp [hs, h, hv]
      · simp [hs, h, h', Val.isNone, Val.none]
      · simp [hs, h, h', Val.isNone, Val.none]
    · simp [hs]
  unfold Calls
  rw [key]
  constructor
  · rintro ⟨n, h⟩; cases h; exact ⟨rfl, rfl⟩
  · rintro ⟨rfl, rfl⟩; exact ⟨0, rfl⟩

/-- C52: if after expansion the arguments are not all names of macros: SyntaxError. -/
theorem C52_args_error (E : Env υ) (x : Val) (xs ys : List Val) (body inv : Val) (s s1 : Expander.St υ)
    (hrun : Runs E .current (.list (x :: xs)) (other s { s.world with locals := allBindings s.world }) (.ok (.list ys)) s1)
    (hid : ∀ t ∈ ys, t.isK .Name = true → hasField t .id = true)
    (hno : ∃ t ∈ ys, macroOf (back s s1).world t = none) (r : Except Exc Ret) (s' : Expander.St υ) :
    Calls E (blockArgs (x :: xs) body inv) s r s' ↔ r = .error (.py .syntaxError) ∧ s' = back s s1 := by
  have key : ∀ n, visit E n (.list (x :: xs)) (other s { s.world with locals := allBindings s.world }) =
      some (.ok (.list ys), s1) → run (visit E n) (expandFirst (blockArgs (x :: xs) body inv)) s =
      some (.error (.py .syntaxError), back s s1) := by
    intro n h1
    show run (visit E n) (.visitNew (allBindings s.world) (.list (x :: xs)) _) s = _
    rw [run_visitNew_of h1]
    show run (visit E n) (match functions (back s s1).world ys with | .error e => _ | .ok fs => _) (back s s1) = _
    rw [functions_error hid hno]
    rfl
  obtain ⟨n, h1⟩ := hrun
  constructor
  · rintro ⟨m, h⟩
    have h2 := run_le (fun t => visit_mono E (Nat.le_max_right n m) t) _ _ _ h
    rw [key _ (visit_mono E (Nat.le_max_left n m) _ _ _ h1)] at h2
    cases h2
    exact ⟨rfl, rfl⟩
  · rintro ⟨rfl, rfl⟩
    exact ⟨n, key n h1⟩

/-- C52: for arguments that are expanded first: if that gives names of macros, as they are bound then, the call goes on
with exactly a recursive visit of the body by another expander, which knows these macros under all their names, and the
global bindings. -/
theorem C52_args_expanded (E : Env υ) (args ys : List Val) (fs : List Nat) (body inv : Val) (s s1 : Expander.St υ)
    (hne : args ≠ [])
    (hrun : Runs E .current (.list args) (other s { s.world with locals := allBindings s.world }) (.ok (.list ys)) s1)
    (hl : Dict.WF s.world.locals) (hg : Dict.WF s1.world.globals)
    (hargs : ys.map (macroOf (back s s1).world) = fs.map some) :
    ∃ w2, Second (back s s1).world w2 fs ∧ ∀ r s', Calls E (blockArgs args body inv) s r s' ↔
      ∃ v s2, Runs E .current body (other (back s s1) w2) v s2 ∧ r = v.map Ret.val ∧ s' = back (back s s1) s2 := by
  refine ⟨_, second (w := (back s s1).world) hl hg fs, fun r s' => ?_⟩
  obtain ⟨x, xs, rfl⟩ := List.exists_cons_of_ne_nil hne
  obtain ⟨n0, h0⟩ := hrun
  have key : ∀ n, n0 ≤ n → run (visit E n) (expandFirst (blockArgs (x :: xs) body inv)) s =
      run (visit E n) (.visitNew (ExtractBindings.extractBindings (allBindings (back s s1).world) fs) body give)
        (back s s1) := by
    intro n hn
    show run (visit E n) (.visitNew (allBindings s.world) (.list (x :: xs)) _) s = _
    rw [run_visitNew_of (visit_mono E hn _ _ _ h0)]
    show run (visit E n) (match functions (back s s1).world ys with | .error e => _ | .ok fs => _) (back s s1) = _
    rw [functions_ok hargs]
    rfl
  have fin : ∀ n, run (visit E n) (.visitNew (ExtractBindings.extractBindings (allBindings (back s s1).world) fs) body
      give) (back s s1) = some (r, s') ↔ ∃ v s2, visit E n body (other (back s s1) { (back s s1).world with
        locals := ExtractBindings.extractBindings (allBindings (back s s1).world) fs }) = some (v, s2) ∧
        r = v.map Ret.val ∧ s' = back (back s s1) s2 := by
    intro n
    rw [run_visitNew_iff]
    constructor
    · rintro ⟨v, s1, h1, h2⟩
      refine ⟨v, s1, h1, ?_⟩
      cases v <;> · cases h2; exact ⟨rfl, rfl⟩
    · rintro ⟨v, s1, h1, rfl, rfl⟩
      exact ⟨v, s1, h1, by cases v <;> rfl⟩
  constructor
  · rintro ⟨n, h⟩
    have h := run_le (fun t => visit_mono E (Nat.le_max_right n0 n) t) _ _ _ h
    rw [key _ (Nat.le_max_left n0 n), fin] at h
    obtain ⟨v, s1, h1, h2, h3⟩ := h
    exact ⟨v, s1, ⟨_, h1⟩, h2, h3⟩
  · rintro ⟨v, s1, ⟨n, h1⟩, h2, h3⟩
    refine ⟨max n0 n, ?_⟩
    rw [key _ (Nat.le_max_left n0 n), fin]
    exact ⟨v, s1, visit_mono E (Nat.le_max_right n0 n) _ _ _ h1, h2, h3⟩

/-- C52: what is replaced in the body are invocations of the macros that the arguments expand to, and all else is as it
was; if user code leaves the bindings alone, and there are no other global bindings. -/
theorem C52_args_listed_partial (E : Env υ) (args ys : List Val) (fs : List Nat) (body inv v : Val)
    (s s1 s' : Expander.St υ) (hne : args ≠ [])
    (hrun : Runs E .current (.list args) (other s { s.world with locals := allBindings s.world }) (.ok (.list ys)) s1)
    (hl : Dict.WF s.world.locals) (hg : Dict.WF s.world.globals) (hargs : ys.map (macroOf s.world) = fs.map some)
    (hE : E.Keeps bindings) (hglob : ∀ k f, Dict.get s.world.globals k = some f → f ∈ fs) (hb : body.isTree = true)
    (h : Calls E (blockArgs args body inv) s (.ok (.val v)) s') :
    AgreeTop (ExpandedBy fs (back s s1) s') body v ∧ bindings s'.world = bindings s.world := by
  have hgl : s1.world.globals = s.world.globals := by
    obtain ⟨n0, h0⟩ := hrun
    obtain ⟨-, b2, -⟩ := visit_boundNow hE n0 _ _ _ _ h0
    exact (Prod.mk.inj b2).2
  have hw : ∀ k, isbound (back s s1).world k = isbound s.world k := by
    intro k
    show isbound { s1.world with locals := s.world.locals } k = _
    unfold isbound
    simp only [hgl]
  have hm : ∀ t, macroOf (back s s1).world t = macroOf s.world t := by
    intro t
    unfold macroOf
    simp only [hw]
  obtain ⟨w2, h2, hc⟩ := C52_args_expanded E args ys fs body inv s s1 hne hrun hl (hgl ▸ hg)
    (by rw [← hargs]; exact List.map_congr_left fun t _ => hm t)
  obtain ⟨r, s2, ⟨n, h1⟩, hr, rfl⟩ := (hc _ _).mp h
  cases r with
  | error => cases hr
  | ok r =>
    cases hr
    obtain ⟨-, b2, b3⟩ := visit_boundNow hE n body _ _ _ h1
    constructor
    · refine AgreeTop.mono ?_ ((visit_eff E n body _ _ _ h1).2 hb v rfl)
      rintro u ⟨e, he, hd, hi⟩
      refine ⟨e, he, hd, hi, ?_⟩
      rcases (h2.bound _ _).mp (b3 e he hd) with ⟨-, h⟩ | ⟨-, h⟩
      · exact h
      · exact hglob _ _ (hgl ▸ h)
    · have : s2.world.globals = s.world.globals := ((Prod.mk.inj b2).2.trans h2.globals).trans hgl
      exact Prod.ext rfl this

/-- C52: the arguments are expanded in any case; an exception there is passed on, and if nothing is left of them it is a
TypeError. -/
theorem C52_args_first (E : Env υ) (args : List Val) (body inv : Val) (s : Expander.St υ) (hne : args ≠ []) :
    (∀ r s', Calls E (blockArgs args body inv) s r s' →
      ∃ v s1, Runs E .current (.list args) (other s { s.world with locals := allBindings s.world }) v s1) ∧
    ∀ v s1, Runs E .current (.list args) (other s { s.world with locals := allBindings s.world }) v s1 →
      (∀ e, v = .error e → ∀ r s', Calls E (blockArgs args body inv) s r s' ↔ r = .error e ∧ s' = back s s1) ∧
      (∀ y, v = .ok y → (∀ ys, y ≠ .list ys) →
        ∀ r s', Calls E (blockArgs args body inv) s r s' ↔ r = .error (.py .typeError) ∧ s' = back s s1) := by
  obtain ⟨x, xs, rfl⟩ := List.exists_cons_of_ne_nil hne
  constructor
  · rintro r s' ⟨n, h⟩
    change run (visit E n) (.visitNew (allBindings s.world) (.list (x :: xs)) _) s = _ at h
    rw [run_visitNew_iff] at h
    obtain ⟨v, s1, h1, -⟩ := h
    exact ⟨v, s1, n, h1⟩
  · rintro v s1 ⟨n0, h0⟩
    have fin : ∀ e, (∀ n, n0 ≤ n → run (visit E n) (expandFirst (blockArgs (x :: xs) body inv)) s =
        some (.error e, back s s1)) →
        ∀ r s', Calls E (blockArgs (x :: xs) body inv) s r s' ↔ r = .error e ∧ s' = back s s1 := by
      intro e key r s'
      constructor
      · rintro ⟨n, h⟩
        have h := run_le (fun t => visit_mono E (Nat.le_max_right n0 n) t) _ _ _ h
        rw [key _ (Nat.le_max_left n0 n)] at h
        cases h
        exact ⟨rfl, rfl⟩
      · rintro ⟨rfl, rfl⟩
        exact ⟨n0, key n0 (Nat.le_refl _)⟩
    constructor
    · rintro e rfl
      refine fin e fun n hn => ?_
      show run (visit E n) (.visitNew (allBindings s.world) (.list (x :: xs)) _) s = _
      rw [run_visitNew_of (visit_mono E hn _ _ _ h0)]
      rfl
    · rintro y rfl hy
      refine fin _ fun n hn => ?_
      show run (visit E n) (.visitNew (allBindings s.world) (.list (x :: xs)) _) s = _
      rw [run_visitNew_of (visit_mono E hn _ _ _ h0)]
      cases y with
      | list ys => exact absurd rfl (hy ys)
      | _ => rfl

/-- C52: in particular, for arguments without macro invocations that are not all names of macros. -/
theorem C52_unbound_error (E : Env υ) (args : List Val) (body inv : Val) (s : Expander.St υ)
    (hl : Dict.WF s.world.locals) (ht : (Val.list args).isTree = true)
    (hc : ∀ u, Open (.list args) u → fieldsOk u = true ∧ ¬ Invocation E s.world u)
    (hno : ∃ t ∈ args, macroOf s.world t = none) (r : Except Exc Ret) (s' : Expander.St υ) :
    Calls E (blockArgs args body inv) s r s' ↔ r = .error (.py .syntaxError) ∧ s' = s := by
  cases args with
  | nil => obtain ⟨t, ht, -⟩ := hno; cases ht
  | cons x xs =>
    have hv := visit_clean E (other s { s.world with locals := allBindings s.world }) _ (.list (x :: xs)) ht (by simp)
      (fun u hu => ⟨(hc u hu).1, fun hi => (hc u hu).2 (invocation_bound (isbound_all hl) hi)⟩) (Nat.le_refl _)
    refine C52_args_error E x xs (x :: xs) body inv s _ ⟨_, hv⟩ (fun t ht' hk => ?_) hno r s'
    have hd : isDone t = false := name_notDone hk
    have hm : t ∈ childNodes (.list (x :: xs)) := List.mem_filter.mpr ⟨ht', isK_isAST hk⟩
    exact name_fieldsOk hk (hc t (.step rfl hm (.refl _ hd))).1

namespace ExpandFirst
open Expander.Ex

/-- The macros of the examples, without global bindings. -/
def exWorld : World Unit := { Ex.world with globals := [] }
/-- `with f[r]: r[x]; o[y]; r[m[z]]`; `r[e]` expands to `m[e]`. -/
def exBody : Val := .list [mk .Expr [(.value, sub (name "r") (name "x"))], mk .Expr [(.value, sub (name "o") (name "y"))]]
def exBody' : Val :=
  .list [mk .Expr [(.value, sub (name "m") (name "x"))], mk .Expr [(.value, sub (name "o") (name "y"))]]

/-- The outcome and the functions that were called. -/
def outcome {υ : Type} (x : Option (Except Exc Ret × Expander.St υ)) : Option (Except Exc Val) × List Nat :=
  match x with
  | some (.ok (.val v), s) => (some (.ok v), s.log.map (·.fn))
  | some (.error e, s) => (some (.error e), s.log.map (·.fn))
  | _ => (none, [])

/-- The classes of the elements of the result of a visit. -/
def kinds {υ : Type} (x : Option (Except Exc Val × Expander.St υ)) : Option (List Bool) :=
  match x with
  | some (.ok (.list vs), _) => some (vs.map (·.isK .Call))
  | _ => none

theorem keeps : Ex.env.Keeps bindings := by
  refine ⟨?_, fun _ _ _ _ _ => rfl⟩
  intro i a x
  rcases i with _ | _ | _ | _ | _ | _ | _ | _ | i <;> first | rfl | (rintro (_ | _) <;> rfl)

end ExpandFirst
open Expander.Ex

/-- C52: a macro that is not given is expanded, if it is globally bound.  With `g` bound globally to the identity,
`with expand_first[r]: g[x]` gives `x`. -/
theorem C52_global_violated : ∃ (E : Env Unit) (s s' : Expander.St Unit) (args : List Val) (fs : List Nat) (body v : Val),
    E.Keeps bindings ∧ args.map (macroOf s.world) = fs.map some ∧ (∀ f ∈ fs, (E.macros f).isName = false) ∧
    Calls E (blockArgs args body .none) s (.ok (.val v)) s' ∧ v ≠ body ∧
    ∀ e ∈ fresh s s', e.depth = s.depth ∧ e.fn ∉ fs := by
  refine ⟨Ex.env, start, _, [name "r"], [1], .list [sub (name "g") (name "x")], .list [name "x"], ExpandFirst.keeps, rfl,
    ?_, ⟨10, rfl⟩, ?_, ?_⟩
  · intro f hf; cases List.mem_singleton.mp hf; rfl
  · decide
  · intro e he
    cases List.mem_singleton.mp he
    exact ⟨rfl, by decide⟩

/-- C52: an identifier macro cannot be given; also if it is the only macro, and leaves its name as it is. -/
theorem C52_identifier_violated : ∃ (E : Env Unit) (s s' : Expander.St Unit) (args : List Val) (fs : List Nat) (body : Val),
    args.map (macroOf s.world) = fs.map some ∧ args ≠ [] ∧
    Calls E (blockArgs args body .none) s (.error (.py .syntaxError)) s' :=
  ⟨Ex.env, start, _, [name "n"], [2], .list [pass], rfl, by simp, ⟨10, rfl⟩⟩

/-- C52: `with expand_first[q[h[m]]]: …` is a SyntaxError, since the argument expands to a call. -/
theorem C52_quoted_violated : ∃ (s s' : Expander.St (QuoteOps.User Unit)) (args : List Val) (body : Val),
    args = [QuoteOps.Ex.op "q" (QuoteOps.Ex.op "h" (name "m"))] ∧ macroOf s.world (name "m") = some 7 ∧
    Calls QuoteOps.Ex.env (blockArgs args body .none) s (.error (.py .syntaxError)) s' := by
  have h : outcome (run (visit QuoteOps.Ex.env 40) (expandFirst (blockArgs
      [QuoteOps.Ex.op "q" (QuoteOps.Ex.op "h" (name "m"))] (.list [pass]) .none)) (init (QuoteOps.Ex.world 0))) =
      (some (.error (.py .syntaxError)), [0, 6]) := by decide +kernel
  refine ⟨init (QuoteOps.Ex.world 0), ?_⟩
  unfold outcome at h
  split at h
  · cases h
  · rename_i e s heq
    have he : e = .py .syntaxError := by
      have := congrArg Prod.fst h
      simpa using this
    subst he
    exact ⟨s, _, _, rfl, rfl, 40, heq⟩
  · cases h

/-- The argument does expand, to one call. -/
example : kinds (visit QuoteOps.Ex.env 40 (.list [QuoteOps.Ex.op "q" (QuoteOps.Ex.op "h" (name "m"))])
    (other (init (QuoteOps.Ex.world 0)) { QuoteOps.Ex.world 0 with locals := allBindings (QuoteOps.Ex.world 0) })) =
    some [true] := by decide +kernel

/-- `with expand_first[r]: r[x]; o[y]` gives `m[x]; o[y]`: the conditions of `C52_expanded` and `C52_listed_partial`. -/
example : ∃ s', Dict.WF exWorld.locals ∧ Dict.WF exWorld.globals ∧ [name "r"].map (macroOf exWorld) = [1].map some ∧
    (∀ f ∈ [1], (Ex.env.macros f).isName = false) ∧ Ex.env.Keeps bindings ∧
    (∀ k f, Dict.get exWorld.globals k = some f → f ∈ [1]) ∧ exBody.isTree = true ∧
    Calls Ex.env (blockArgs [name "r"] exBody .none) (init exWorld) (.ok (.val exBody')) s' ∧ s'.log.length = 1 := by
  refine ⟨_, by unfold Dict.WF; decide, by unfold Dict.WF; decide, rfl, ?_, ExpandFirst.keeps, ?_, by decide +kernel, ⟨20, rfl⟩, rfl⟩
  · intro f hf; cases List.mem_singleton.mp hf; rfl
  · intro k f h; cases h

/-- `with expand_first[m[r]]: r[x]; o[y]`, where `m[r]` expands to `r`: the conditions of `C52_args_expanded` and
`C52_args_listed_partial`. -/
example : ∃ s1 s', Runs Ex.env .current (.list [sub (name "m") (name "r")])
      (other (init exWorld) { exWorld with locals := allBindings exWorld }) (.ok (.list [name "r"])) s1 ∧
    s1.log.length = 1 ∧ [name "r"].map (macroOf (back (init exWorld) s1).world) = [1].map some ∧
    Calls Ex.env (blockArgs [sub (name "m") (name "r")] exBody .none) (init exWorld) (.ok (.val exBody')) s' ∧
    s'.log.length = 2 :=
  ⟨_, _, ⟨20, rfl⟩, rfl, rfl, ⟨20, rfl⟩, rfl⟩

/-- `with expand_first[e[r]]`, where the macro `e` raises: `C52_args_first`. -/
example : (outcome (run (visit Ex.env 20) (expandFirst (blockArgs [sub (name "e") (name "r")] exBody .none))
    (init exWorld))).2 = [3] := by decide +kernel

/-- Two macros: `with expand_first[m, r]: r[x]; o[y]` gives `x; o[y]`. -/
example : outcome (run (visit Ex.env 20) (expandFirst (blockArgs [name "m", name "r"] exBody .none)) (init exWorld)) =
    (some (.ok (.list [mk .Expr [(.value, name "x")], mk .Expr [(.value, sub (name "o") (name "y"))]])), [1, 0]) := by
  decide +kernel

/-- Errors are passed on. -/
example : outcome (run (visit Ex.env 20) (expandFirst (blockArgs [name "e"] (.list [sub (name "e") (name "x")]) .none))
    (init exWorld)) ≠ (none, []) := by decide +kernel

/-- A name that is not bound, something else than a name, no arguments, an as-part, an expression. -/
example : [outcome (run (visit Ex.env 20) (expandFirst (blockArgs [name "m", name "z"] exBody .none)) (init exWorld)),
    outcome (run (visit Ex.env 20) (expandFirst (blockArgs [call (name "z") []] exBody .none)) (init exWorld)),
    outcome (run (visit Ex.env 20) (expandFirst (blockArgs [] exBody .none)) (init exWorld)),
    outcome (run (visit Ex.env 20) (expandFirst ⟨.block, exBody, some [name "m"], some (name "y"), .none⟩) (init exWorld)),
    outcome (run (visit Ex.env 20) (expandFirst ⟨.expr, name "x", some [name "m"], none, .none⟩) (init exWorld))] =
    List.replicate 5 (some (.error (.py .syntaxError)), []) := by decide +kernel

/-- `with expand_first[m]: m[x]` gives `x`: the conditions of `C52_complete_partial`. -/
example : ∃ s', Grammatical (.list [sub (name "m") (name "x")]) ∧
    Calls Ex.env (blockArgs [name "m"] (.list [sub (name "m") (name "x")]) .none) (init exWorld)
      (.ok (.val (.list [name "x"]))) s' ∧ s'.log.length = 1 ∧
    ∀ w2, Second exWorld w2 [0] → ∀ e ∈ s'.log, e.depth = 0 → ∀ v, Returns Ex.env w2 e v → GoodExpansion Ex.env w2 e v := by
  refine ⟨_, grammatical_of (by decide +kernel), ⟨10, rfl⟩, rfl, ?_⟩
  rintro w2 h2 e he - v ⟨n, s, s1, ret, _, hr, hc⟩
  cases List.mem_singleton.mp he
  cases hr; cases hc
  refine ⟨grammatical_of (by decide +kernel), ?_, by intro h; cases h⟩
  intro x hx
  cases List.mem_singleton.mp hx
  rintro ⟨⟨k, as, id, hk, -, hb, -⟩, -⟩
  cases hk with
  | plain _ h =>
    cases h
    rcases (h2.bound _ _).mp hb with ⟨h, -⟩ | ⟨-, h⟩ <;> cases h
  | bracket h => cases h
  | brackets h => cases h
  | parens h => cases h

/-- `with expand_first[r]: o[m[y]]` leaves the body as it is: the conditions of `C52_untouched`. -/
example : ∀ u, Open (.list [sub (name "o") (sub (name "m") (name "y"))]) u →
    fieldsOk u = true ∧ ∀ w2, Second exWorld w2 [1] → ¬ Invocation Ex.env w2 u := by
  intro u hu
  have hr := hu.reach
  constructor
  · cases hua : u.isAST with
    | true =>
      have h : (preorder (.list [sub (name "o") (sub (name "m") (name "y"))])).all fieldsOk = true := by decide +kernel
      exact List.all_eq_true.mp h u (reach_mem_preorder hr hua)
    | false => cases u with
      | node => cases hua
      | _ => rfl
  · intro w2 h2
    refine noInvocation_names (fun k hk => ?_) u hr
    have hk : k ∈ ["o", "m", "y"] := hk
    cases hb : isbound w2 k with
    | none => rfl
    | some f =>
      simp only [List.mem_cons, List.not_mem_nil, or_false] at hk
      rcases (h2.bound _ _).mp hb with ⟨h, hf⟩ | ⟨-, h⟩
      · cases List.mem_singleton.mp hf
        rcases hk with rfl | rfl | rfl <;> cases h
      · cases h

/-- `with expand_first[m, z]`: the conditions of `C52_unbound_error`. -/
example : (∀ u, Open (.list [name "m", name "z"]) u → fieldsOk u = true ∧ ¬ Invocation Ex.env exWorld u) ∧
    macroOf exWorld (name "z") = none := by
  refine ⟨fun u hu => ?_, rfl⟩
  cases hu with
  | refl =>
    refine ⟨rfl, fun h => ?_⟩
    cases h.isAST
  | step _ hm hu =>
    have hm : _ ∈ [name "m", name "z"] := hm
    simp only [List.mem_cons, List.not_mem_nil, or_false] at hm
    have load : ∀ w : World Unit, ¬ Invocation Ex.env w (mk .Load []) := by
      intro w h
      obtain ⟨x, k, h1, h2, -⟩ := h.name_in
      cases h1 with
      | refl => cases h2
      | step hc => cases hc with
        | field h => cases h
        | item h => cases h
    rcases hm with rfl | rfl
    all_goals cases hu with
      | refl =>
        refine ⟨rfl, fun h => ?_⟩
        cases h with
        | expr h => cases h
        | block h => cases h
        | decorator h => rcases h with h | h <;> cases h
        | name _ h1 _ h2 h3 => cases h1; cases h2; try cases h3
      | step _ hm hu =>
        have hm : _ ∈ [mk .Load []] := hm
        cases List.mem_singleton.mp hm
        cases hu with
        | refl => exact ⟨rfl, load _⟩
        | step _ hm => cases hm

end Mcpyrate
