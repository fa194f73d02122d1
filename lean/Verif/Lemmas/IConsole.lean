import Verif.Spec.IConsole
import Verif.Lemmas.Console
namespace Mcpyrate.IConsole
open Py Expander GetMacros Compiler Modules RunCode Postprocess

variable {υ μ : Type} {K : Tools υ μ}

/-! More fuel does not change the outcome. -/

theorem expandCell_mono {n m : Nat} (h : n ≤ m) (t : Val) : Compiler.Le (expandCell K n t) (expandCell K m t) := by
  unfold expandCell
  refine Compiler.Le.bind (Compiler.Le.refl _) fun _ =>
    Compiler.Le.bind (Compiler.Le.refl _) fun (t, b) => Compiler.Le.bind (Compiler.Le.refl _) fun _ =>
    Compiler.Le.bind ?_ fun t => ?_
  · exact fun s => map_mono fun r hr => visitAs_mono K.con.env h _ _ _ _ hr
  · refine fun s => map_mono fun r hr => ?_
    unfold globalPostprocess at hr ⊢
    exact Compiler.Le.bind (Compiler.Le.refl _)
      (fun t1 => Compiler.Le.bind (Compiler.Le.refl _) fun t2 => runHooks_mono K.con.post h 0 t2) _ _ hr

theorem transform_mono {n m : Nat} (h : n ≤ m) (i : Nat) (t : Val) :
    Compiler.Le (transform K n i t) (transform K m i t) :=
  fun _ => map_mono fun r hr => expandCell_mono h t _ r hr

theorem transformAll_mono {n m : Nat} (h : n ≤ m) : ∀ (is : List Nat) (t : Val),
    Compiler.Le (transformAll K n is t) (transformAll K m is t)
  | [], _ => Compiler.Le.refl _
  | i :: is, t => Compiler.Le.bind (transform_mono h i t) fun t => transformAll_mono h is t

theorem cell_mono {n m : Nat} (h : n ≤ m) (t : Val) : Compiler.Le (cell K n t) (cell K m t) := by
  unfold cell
  exact Compiler.Le.bind (Compiler.Le.refl _) fun sh =>
    Compiler.Le.bind (Console.attempt_mono (transformAll_mono h _ t)) fun r => Compiler.Le.refl _

theorem Deals.det {t : Val} {sh s1 s2 : Shell υ} {r1 r2 : Except Raised Unit} (h1 : Deals K t sh r1 s1)
    (h2 : Deals K t sh r2 s2) : r1 = r2 ∧ s1 = s2 := by
  obtain ⟨n, h1⟩ := h1
  obtain ⟨m, h2⟩ := h2
  have a := cell_mono (Nat.le_max_left n m) t _ _ h1
  have b := cell_mono (Nat.le_max_right n m) t _ _ h2
  rw [a] at b
  cases b
  exact ⟨rfl, rfl⟩

theorem Transforms.det {i : Nat} {t : Val} {sh s1 s2 : Shell υ} {r1 r2 : Except Raised Val}
    (h1 : Transforms K i t sh r1 s1) (h2 : Transforms K i t sh r2 s2) : r1 = r2 ∧ s1 = s2 := by
  obtain ⟨n, h1⟩ := h1
  obtain ⟨m, h2⟩ := h2
  have a := transform_mono (Nat.le_max_left n m) i t _ _ h1
  have b := transform_mono (Nat.le_max_right n m) i t _ _ h2
  rw [a] at b
  cases b
  exact ⟨rfl, rfl⟩

/-! The transformer. -/

theorem becomes (sh : Shell υ) (i : Nat) (s : Console.Session υ) :
    Becomes sh i s.bindings s.changed s.state (sh.setSession i s) :=
  ⟨if_pos rfl, fun _ hj => if_neg hj, rfl, rfl, rfl, rfl, rfl, rfl, rfl⟩

theorem ends : ∀ r0 : Except Exc Val, Ends r0 (match r0 with | .ok v => .ok v | .error e => .error (reject e))
  | .ok _ => .ok
  | .error e => by
    dsimp only
    unfold reject
    split
    · rename_i h
      refine .rejected ?_
      rintro ⟨i, rfl⟩
      cases h
    · rename_i h
      refine .interrupted ?_
      cases e with
      | user i b => cases b with | false => exact ⟨i, rfl⟩ | true => exact absurd rfl h
      | _ => exact absurd rfl h

theorem transform_spec (hM : K.con.metadata.WF) (hk : KeepRegistry K.con.post) {n i : Nat} {t : Val} (ht : IsCell t)
    {sh sh' : Shell υ} {r : Except Raised Val} (h : transform K n i t sh = some (r, sh')) :
    ∃ b, Transformed K i t sh b r sh' := by
  obtain ⟨body, hb, hparsed⟩ := ht
  have hst : Dialects.stmts t = body := by unfold Dialects.stmts; rw [hb]
  obtain ⟨⟨r0, s'⟩, h1, hx⟩ := Option.map_eq_some_iff.1 h
  clear h
  cases hx
  dsimp only
  unfold expandCell at h1
  rcases bind_cases h1 with ⟨e, h2, rfl⟩ | ⟨_, s2, h2, h0⟩
  · rcases Console.sync_cases hM h2 with ⟨x, hx, rfl, hy, hm⟩ | ⟨_, hx, _⟩
    · cases hx
      exact ⟨[], .notImported (.gone hm hy) (ends (.error _)) (becomes sh i _)⟩
    · cases hx
  clear h1
  rcases Console.sync_cases hM h2 with ⟨x, hx, _⟩ | ⟨p1, _, rfl, hsync⟩
  · cases hx
  rcases bind_cases h0 with ⟨e, h3, rfl⟩ | ⟨⟨t2, b⟩, s3, h3, h⟩
  · rcases Console.findMacrosIn_cases hb hparsed h3 with ⟨pre, j, post, rs, p2, x, p3, hx, rfl, h4, h5, h6⟩ | ⟨_, _, _, _, hx, _⟩
    · cases hx
      exact ⟨[], .notImported (.failed hsync (by rw [hst]; exact h4) h5 h6) (ends (.error _)) (becomes sh i _)⟩
    · cases hx
  clear h0
  rcases Console.findMacrosIn_cases hb hparsed h3 with ⟨_, _, _, _, _, _, _, hx, _⟩ | ⟨rs, p2, b', out, hx, rfl, h4, h5, h6⟩
  · cases hx
  cases hx
  have himp : Imported K t sh.state (withField t .body (.list out)) b p2 :=
    .intro hsync (by rw [hst]; exact h4) h5 (by rw [hst]; exact h6)
  obtain ⟨l, ch, hbind, hadd, hch⟩ := Console.bind_spec h5.1
    (⟨(sh.session i).bindings, (sh.session i).changed, p2, (sh.session i).output⟩ : Console.Session υ)
  rcases bind_cases h with ⟨e, h7, rfl⟩ | ⟨_, s4, h7, h0⟩
  · rw [hbind] at h7; cases h7
  rw [hbind] at h7
  cases h7
  obtain ⟨l', p', rfl, hran⟩ := Console.ran_spec hk h0
  exact ⟨b, .expanded himp hadd hch hran (ends _) (becomes sh i _)⟩

/-! Importing the functions of macros. -/

theorem bound_iff {sh : Shell υ} {i : Nat} {k : String} {f : Nat} :
    Console.Bound (sh.session i) k f ↔ Bound sh i k f := Iff.rfl

theorem silent_cases {c : Str} {sh sh' : Shell υ} {r : Except Raised Unit}
    (h : (fun sh => (K.silent c sh).map fun sh' => (.ok (), sh') : I υ Unit) sh = some (r, sh')) :
    r = .ok () ∧ K.silent c sh = some sh' := by
  obtain ⟨y, hy, hx⟩ := Option.map_eq_some_iff.1 h
  cases hx
  exact ⟨rfl, hy⟩

theorem refreshNames_spec {i : Nat} : ∀ (ks : List String) {sh sh' : Shell υ} {r : Except Raised Unit},
    refreshNames K i ks sh = some (r, sh') → Reimports K i ks sh sh'
  | [], _, _, _, h => by cases h; exact .nil
  | k :: ks, sh, sh', r, h => by
    unfold refreshNames at h
    rcases bind_cases h with ⟨e, h1, rfl⟩ | ⟨s0, s1, h1, h⟩
    · cases h1
    cases h1
    cases hl : Console.lookup (sh.session i) k with
    | none =>
      rw [hl] at h
      cases h
      refine .gone fun f hf => ?_
      rw [Console.lookup_iff.2 (bound_iff.2 hf)] at hl
      cases hl
    | some f =>
      rw [hl] at h
      dsimp only at h
      have hb := bound_iff.1 (Console.lookup_iff.1 hl)
      cases ho : K.con.origin f with
      | none =>
        rw [ho] at h
        exact .skip hb ho (refreshNames_spec ks h)
      | some x =>
        obtain ⟨m, q⟩ := x
        rw [ho] at h
        dsimp only at h
        rcases bind_cases h with ⟨e, h1, rfl⟩ | ⟨_, s1, h1, h⟩
        · cases (silent_cases h1).1
        · exact .imported hb ho (silent_cases h1).2 (refreshNames_spec ks h)

theorem refresh_spec {i : Nat} {sh sh' : Shell υ} {r : Except Raised Unit} (h : refresh K i sh = some (r, sh')) :
    Refreshed K i sh sh' := by
  unfold refresh at h
  rcases bind_cases h with ⟨e, h1, rfl⟩ | ⟨s0, s1, h1, h⟩
  · cases h1
  cases h1
  cases hc : (sh.exts i).changed with
  | false =>
    rw [if_neg (by rw [hc]; decide)] at h
    cases h
    exact .same hc
  | true =>
    rw [if_pos hc] at h
    rcases bind_cases h with ⟨e, h1, rfl⟩ | ⟨_, s1, h1, h⟩
    · cases h1
    cases h1
    exact .names hc (fun k => Console.mem_names (s := sh.session i)) (Console.names_nodup (s := sh.session i))
      (becomes sh i ⟨(sh.exts i).bindings, false, sh.state, []⟩) (refreshNames_spec _ h)

/-! A cell. -/

theorem attempt_some {ε σ α : Type} {m : Py.M ε σ α} {s s' : σ} {r : Except ε (Except ε α)}
    (h : M.attempt m s = some (r, s')) : ∃ r0, r = .ok r0 ∧ m s = some (r0, s') := by
  unfold M.attempt at h
  cases hm : m s with
  | none => rw [hm] at h; cases h
  | some x => rw [hm] at h; cases h; exact ⟨_, rfl, rfl⟩

theorem trigger_cases {i : Nat} {is : List Nat} {sh sh' : Shell υ} {r : Except Raised Unit}
    (h : trigger K (i :: is) sh = some (r, sh')) :
    ∃ r0 sh1, refresh K i sh = some (r0, sh1) ∧ trigger K is sh1 = some (r, sh') := by
  unfold trigger at h
  rcases bind_cases h with ⟨e, h1, rfl⟩ | ⟨r0, s1, h1, h⟩
  · obtain ⟨_, hx, _⟩ := attempt_some h1
    cases hx
  · obtain ⟨r1, _, hx⟩ := attempt_some h1
    exact ⟨r1, s1, hx, h⟩

theorem trigger_ok : ∀ {is : List Nat} {sh sh' : Shell υ} {r : Except Raised Unit},
    trigger K is sh = some (r, sh') → r = .ok ()
  | [], _, _, _, h => by cases h; rfl
  | _ :: _, _, _, _, h => by
    obtain ⟨_, _, _, h⟩ := trigger_cases h
    exact trigger_ok h

/-- The parts of a cell. -/
theorem cell_parts {n : Nat} {t : Val} {sh sh' : Shell υ} {r : Except Raised Unit} (h : cell K n t sh = some (r, sh')) :
    ∃ r0 sh1 sh2, transformAll K n sh.transformers t sh = some (r0, sh1) ∧
      ((∃ t', r0 = .ok t' ∧ K.exec t' sh1 = some sh2 ∧ r = .ok ()) ∨ (∃ e, r0 = .error e ∧ sh2 = sh1 ∧ r = .error e)) ∧
      trigger K sh2.events sh2 = some (.ok (), sh') := by
  unfold cell at h
  rcases bind_cases h with ⟨e, h1, rfl⟩ | ⟨s0, s1, h1, h⟩
  · cases h1
  cases h1
  rcases bind_cases h with ⟨e, h1, rfl⟩ | ⟨r0, s1, h1, h⟩
  · obtain ⟨_, hx, _⟩ := attempt_some h1
    cases hx
  obtain ⟨r1, hr1, h2⟩ := attempt_some h1
  cases hr1
  cases r0 with
  | error e =>
    dsimp only at h
    rcases bind_cases h with ⟨e', h3, rfl⟩ | ⟨_, s2, h3, h⟩
    · cases h3
    cases h3
    rcases bind_cases h with ⟨e', h3, rfl⟩ | ⟨_, s2, h3, h⟩
    · cases trigger_ok h3
    cases h
    exact ⟨_, s1, s1, h2, .inr ⟨e, rfl, rfl, rfl⟩, h3⟩
  | ok t' =>
    dsimp only at h
    rcases bind_cases h with ⟨e', h3, rfl⟩ | ⟨_, s2, h3, h⟩
    · obtain ⟨y, hy, hx⟩ := Option.map_eq_some_iff.1 h3
      cases hx
    obtain ⟨y, hy, hx⟩ := Option.map_eq_some_iff.1 h3
    cases hx
    rcases bind_cases h with ⟨e', h3, rfl⟩ | ⟨_, s2, h3, h⟩
    · cases h3
    cases h3
    rcases bind_cases h with ⟨e', h3, rfl⟩ | ⟨_, s2, h3, h⟩
    · cases trigger_ok h3
    cases h
    exact ⟨_, s1, _, h2, .inl ⟨t', rfl, hy, rfl⟩, h3⟩

/-! What is registered. -/

/-- The same is registered. -/
def Same (a b : Shell υ) : Prop :=
  b.current = a.current ∧ b.inputs = a.inputs ∧ b.transformers = a.transformers ∧ b.events = a.events ∧ b.next = a.next

theorem Same.refl (a : Shell υ) : Same a a := ⟨rfl, rfl, rfl, rfl, rfl⟩

theorem Same.trans {a b c : Shell υ} (h1 : Same a b) (h2 : Same b c) : Same a c :=
  ⟨h2.1.trans h1.1, h2.2.1.trans h1.2.1, h2.2.2.1.trans h1.2.2.1, h2.2.2.2.1.trans h1.2.2.2.1,
    h2.2.2.2.2.trans h1.2.2.2.2⟩

theorem transform_same {n i : Nat} {t : Val} {sh sh' : Shell υ} {r : Except Raised Val}
    (h : transform K n i t sh = some (r, sh')) : Same sh sh' := by
  obtain ⟨x, _, hx⟩ := Option.map_eq_some_iff.1 h
  cases hx
  exact ⟨rfl, rfl, rfl, rfl, rfl⟩

theorem transformAll_same {n : Nat} : ∀ {is : List Nat} {t : Val} {sh sh' : Shell υ} {r : Except Raised Val},
    transformAll K n is t sh = some (r, sh') → Same sh sh'
  | [], _, _, _, _, h => by cases h; exact .refl _
  | _ :: _, _, _, _, _, h => by
    unfold transformAll at h
    rcases bind_cases h with ⟨e, h1, rfl⟩ | ⟨_, s1, h1, h2⟩
    · exact transform_same h1
    · exact (transform_same h1).trans (transformAll_same h2)

theorem Reimports.same (hC : Calm K) {i : Nat} {ks : List String} {sh sh' : Shell υ} (h : Reimports K i ks sh sh') :
    Same sh sh' := by
  induction h with
  | nil => exact .refl _
  | gone _ => exact .refl _
  | skip _ _ _ ih => exact ih
  | imported _ _ he _ ih => exact Same.trans (hC.silent _ _ _ he) ih

theorem Becomes.same {sh sh' : Shell υ} {i : Nat} {l : Dict String Nat} {ch : Bool} {p : State υ}
    (h : Becomes sh i l ch p sh') : Same sh sh' :=
  ⟨h.2.2.2.2.2.2.1, h.2.2.2.1, h.2.2.2.2.1, h.2.2.2.2.2.1, h.2.2.1⟩

theorem Refreshed.keeps (hC : Calm K) {i : Nat} {sh sh' : Shell υ} (h : Refreshed K i sh sh') : Same sh sh' := by
  cases h with
  | same _ => exact .refl _
  | names _ _ _ h1 h2 => exact h1.same.trans (h2.same hC)

theorem trigger_same (hC : Calm K) : ∀ {is : List Nat} {sh sh' : Shell υ} {r : Except Raised Unit},
    trigger K is sh = some (r, sh') → Same sh sh'
  | [], _, _, _, h => by cases h; exact .refl _
  | _ :: _, _, _, _, h => by
    obtain ⟨_, _, h1, h2⟩ := trigger_cases h
    exact ((refresh_spec h1).keeps hC).trans (trigger_same hC h2)

theorem cell_same (hC : Calm K) {n : Nat} {t : Val} {sh sh' : Shell υ} {r : Except Raised Unit}
    (h : cell K n t sh = some (r, sh')) : Same sh sh' := by
  obtain ⟨r0, sh1, sh2, h1, h2, h3⟩ := cell_parts h
  have h4 : Same sh1 sh2 := by
    rcases h2 with ⟨t', _, h2, _⟩ | ⟨_, _, rfl, _⟩
    · exact hC.exec _ _ _ h2
    · exact .refl _
  exact ((transformAll_same h1).trans h4).trans (trigger_same hC h3)

/-- All instances are registered, one time each. -/
def Registered (sh : Shell υ) : Prop :=
  sh.inputs = List.range sh.next ∧ sh.transformers = List.range sh.next ∧ sh.events = List.range sh.next ∧
    ∀ i, sh.current = some i → i < sh.next

theorem Registered.of {a b : Shell υ} (h : Same a b) (ha : Registered a) : Registered b := by
  obtain ⟨h1, h2, h3, h4, h5⟩ := h
  exact ⟨by rw [h2, h5, ha.1], by rw [h3, h5, ha.2.1], by rw [h4, h5, ha.2.2.1], by rw [h1, h5]; exact ha.2.2.2⟩

theorem unload_eq {sh : Shell υ} (h : Registered sh) : unload sh = { sh with current := none } := by
  unfold unload
  cases hc : sh.current with
  | none => dsimp only; rw [← hc]
  | some i =>
    dsimp only
    rw [if_pos (.inl (by rw [h.1]; exact List.mem_range.2 (h.2.2.2 i hc)))]

theorem Session.registered (hC : Calm K) {setup : State υ → State υ} {e : Nat → Ext} {p : State υ} {sh : Shell υ}
    (h : Session K setup e p sh) : Registered sh := by
  induction h with
  | start => exact ⟨rfl, rfl, rfl, fun _ h => by cases h⟩
  | @load sh _ ih =>
    unfold IConsole.load
    cases hc : sh.current with
    | some _ => exact ih
    | none =>
      refine ⟨?_, ?_, ?_, ?_⟩
      · show sh.inputs ++ [sh.next] = List.range (sh.next + 1)
        rw [ih.1, List.range_succ]
      · show sh.transformers ++ [sh.next] = List.range (sh.next + 1)
        rw [ih.2.1, List.range_succ]
      · show sh.events ++ [sh.next] = List.range (sh.next + 1)
        rw [ih.2.2.1, List.range_succ]
      · intro i hi
        cases hi
        exact Nat.lt_succ_self _
  | @unload sh _ ih =>
    rw [unload_eq ih]
    exact ⟨ih.1, ih.2.1, ih.2.2.1, fun _ h => by cases h⟩
  | cell _ h ih =>
    obtain ⟨n, h⟩ := h
    exact .of (cell_same hC h) ih

/-! One extension. -/

theorem cell_spec (hM : K.con.metadata.WF) (hk : KeepRegistry K.con.post) (hC : Calm K) {i : Nat} {t : Val} (ht : IsCell t)
    {sh sh' : Shell υ} (h1 : sh.transformers = [i]) (h2 : sh.events = [i]) {r : Except Raised Unit}
    (h : Deals K t sh r sh') : ∃ b, Dealt K i t sh b r sh' := by
  obtain ⟨n, h⟩ := h
  obtain ⟨r0, sh1, sh2, h3, h4, h5⟩ := cell_parts h
  rw [h1] at h3
  have h6 : transform K n i t sh = some (r0, sh1) := by
    unfold transformAll at h3
    rcases bind_cases h3 with ⟨e, h7, rfl⟩ | ⟨_, s1, h7, h8⟩
    · exact h7
    · cases h8; exact h7
  obtain ⟨b, hb⟩ := transform_spec hM hk ht h6
  have h7 : Same sh1 sh2 := by
    rcases h4 with ⟨t', _, h2, _⟩ | ⟨_, _, rfl, _⟩
    · exact hC.exec _ _ _ h2
    · exact .refl _
  rw [h7.2.2.2.1, (transform_same h6).2.2.2.1, h2] at h5
  obtain ⟨r1, sh3, h8, h9⟩ := trigger_cases h5
  cases h9
  rcases h4 with ⟨t', rfl, h4, rfl⟩ | ⟨_, rfl, rfl, rfl⟩
  · exact ⟨b, .ran hb h4 (refresh_spec h8)⟩
  · exact ⟨b, .notRun hb (refresh_spec h8)⟩

theorem ran_locals (hS : K.con.env.Keeps fun w => w.locals) {l l' : Dict String Nat} {t : Val} {p p' : State υ}
    {r : Except Exc Val} (h : Console.Ran K.con l t p r l' p') : l' = l := by
  have key : ∀ {r s1}, Expander.Runs K.con.env .current t (init ⟨l, p.globals, (p.registry, p.user)⟩) r s1 →
      s1.world.locals = l := by
    rintro r s1 ⟨n, h⟩
    exact visit_keeps Console.locals_local hS n t _ _ _ h
  cases h with
  | raised h => exact key h
  | unfit h _ => exact key h
  | posted h _ _ => exact key h

theorem Transformed.bindings (hS : Stable K) {i : Nat} {t : Val} {sh sh' : Shell υ} {b : Dict String Nat}
    {r : Except Raised Val} (h : Transformed K i t sh b r sh') :
    Console.Added (sh.exts i).bindings b (sh'.exts i).bindings := by
  cases h with
  | notImported _ _ hb => rw [hb.1]; exact fun k => by simp [Dict.get_nil]
  | expanded _ ha _ hr _ hb => rw [hb.1, ran_locals hS.macros hr]; exact ha

theorem Reimports.exts (hS : Stable K) {i : Nat} {ks : List String} {sh sh' : Shell υ} (h : Reimports K i ks sh sh') :
    sh'.exts = sh.exts := by
  induction h with
  | nil => rfl
  | gone _ => rfl
  | skip _ _ _ ih => exact ih
  | imported _ _ he _ ih => rw [ih, hS.silent _ _ _ he]

theorem Refreshed.bindings (hS : Stable K) {i : Nat} {sh sh' : Shell υ} (h : Refreshed K i sh sh') :
    (sh'.exts i).bindings = (sh.exts i).bindings := by
  cases h with
  | same _ => rfl
  | names _ _ _ h1 h2 => rw [h2.exts hS, h1.1]

theorem Dealt.bindings (hS : Stable K) {i : Nat} {t : Val} {sh sh' : Shell υ} {b : Dict String Nat}
    {r : Except Raised Unit} (h : Dealt K i t sh b r sh') :
    Console.Added (sh.exts i).bindings b (sh'.exts i).bindings := by
  cases h with
  | ran h1 h2 h3 => rw [h3.bindings hS, hS.exec _ _ _ h2]; exact h1.bindings hS
  | notRun h1 h2 => rw [h2.bindings hS]; exact h1.bindings hS

end Mcpyrate.IConsole
