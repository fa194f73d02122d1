import Verif.Lemmas.ExpanderKept
import Verif.Lemmas.ExpanderRuns
/-
Detection of macro invocations agrees with the documented syntax.
-/
namespace Mcpyrate.Expander
open Py

variable {υ : Type} {E : Env υ} {s : St υ} {vis : Val → X υ Val}

theorem WellFormed.self {t : Val} (h : WellFormed t) : fieldsOk t = true := h t (.refl _)
theorem WellFormed.child {t u : Val} (h : WellFormed t) (hc : u ∈ childNodes t) : WellFormed u :=
  fun v hv => h v (.step (childNodes_child hc) hv)
theorem WellFormed.const (c : Const) : WellFormed (.const c) := by
  intro u h
  cases h with
  | refl => rfl
  | step h => cases h

theorem WellFormed.destructure {t : Val} (h : WellFormed t) : ∃ d, destructure false t = .ok d :=
  destructure_total h.self fun _ hu => (h.child hu).self

theorem WellFormed.field {t v : Val} {f : F} (h : WellFormed t) (hv : t.get? f = some v)
    (hi : v.isAST = true) : WellFormed v := h.child (get?_child hv hi)

theorem WellFormed.fieldDestructure {t v : Val} {f : F} (h : WellFormed t) (hv : t.get? f = some v) :
    ∃ d, Expander.destructure false v = .ok d := by
  cases hva : v.isAST with
  | true => exact (h.field hv hva).destructure
  | false => cases v <;> simp_all [Val.isAST] <;> exact ⟨none, rfl⟩

theorem WellFormed.itemDestructure {t v : Val} {f : F} {items : List Val} (h : WellFormed t)
    (hv : t.get? f = some (.list items)) (hm : v ∈ items) :
    ∃ d, Expander.destructure false v = .ok d := by
  cases hva : v.isAST with
  | true => exact (h.child (get?_list_child hv hm hva)).destructure
  | false => cases v <;> simp_all [Val.isAST] <;> exact ⟨none, rfl⟩

/-- The items of a well-formed `with`. -/
theorem WellFormed.withItems {t : Val} (h : WellFormed t) (hk : t.isK .With = true) :
    ∃ items, t.get? .items = some (.list items) ∧
      ∀ i ∈ items, i.isK .withitem = true ∧ ∃ c d, i.get? .context_expr = some c ∧
        Expander.destructure false c = .ok d := by
  obtain ⟨l, fs, rfl⟩ := isK_eq hk
  have hf := h.self
  simp only [fieldsOk] at hf
  split at hf
  · rename_i items hi
    refine ⟨items, hi, fun i him => ?_⟩
    have := List.all_eq_true.mp hf i him
    rw [Bool.and_eq_true] at this
    obtain ⟨c, hc⟩ := Option.isSome_iff_exists.mp this.2
    have hiw := h.child (get?_list_child hi him (isK_isAST this.1))
    obtain ⟨d, hd⟩ := hiw.fieldDestructure hc
    exact ⟨this.1, c, d, hc, hd⟩
  · cases hf

theorem WellFormed.decorators {t : Val} (h : WellFormed t)
    (hk : t.isK .FunctionDef = true ∨ t.isK .ClassDef = true) :
    ∃ items, t.get? .decorator_list = some (.list items) := by
  have hf := h.self
  rcases hk with hk | hk <;>
  · obtain ⟨l, fs, rfl⟩ := isK_eq hk
    simp only [fieldsOk, hasList] at hf
    split at hf
    · exact ⟨_, by assumption⟩
    · cases hf

/-- In a list whose items are tested, the first that is found. -/
theorem splitFirst_eq {α : Type} {p : α → Bool} {a b : List α} {y : α} (ha : ∀ x ∈ a, p x = false)
    (hy : p y = true) : splitFirst p (a ++ y :: b) = some (a, y, b) := by
  induction a with
  | nil => simp [splitFirst, hy]
  | cons x a ih =>
    simp only [List.cons_append, splitFirst]
    rw [if_neg (by simp [ha x (by simp)]), ih fun z hz => ha z (by simp [hz])]

theorem splitLast_eq {α : Type} {p : α → Bool} {a b : List α} {y : α} (hb : ∀ x ∈ b, p x = false)
    (hy : p y = true) : splitLast p (a ++ y :: b) = some (a, y, b) := by
  induction a with
  | nil =>
    simp only [List.nil_append, splitLast]
    rw [splitLast_none.mpr hb]
    simp [hy]
  | cons x a ih => simp only [List.cons_append, splitLast, ih]

theorem map_fst_split {ds : List (Val × Bool)} {a b : List Val} {y : Val}
    (h : ds.map (·.1) = a ++ y :: b) :
    ∃ da q db, ds = da ++ q :: db ∧ da.map (·.1) = a ∧ q.1 = y ∧ db.map (·.1) = b := by
  obtain ⟨da, r, rfl, h1, h2⟩ := List.map_eq_append_iff.mp h
  obtain ⟨q, db, rfl, h3, h4⟩ := List.map_eq_cons_iff.mp h2
  exact ⟨da, q, db, rfl, h1, h3, h4⟩

theorem destructureCall_eq {c : Val} {k : String} {as : List Val} (hc : Candidate c k as) :
    (BadCall c → destructureCall c = .error (.py .syntaxError)) ∧
    (¬ BadCall c → destructureCall c = .ok (k, as)) := by
  obtain ⟨h1, h2⟩ := destructure_validate hc
  unfold destructureCall
  constructor
  · intro h; rw [h1 h]; rfl
  · intro h; rw [h2 h]; rfl

/-- What the visit methods do with the expansion. -/
def afterExpand (E : Env υ) (vis : Val → X υ Val) (t : Val) (k : String) (synt : Syn) (c : Val) :
    Val → X υ Val := fun r =>
  match synt with
  | .expr => pure (if r.isNone then coverageExpr (locOf t) else r)
  | .block => M.ofExcept (insertCoverage E.filename k r (locOf t))
  | .decorator => M.ofExcept (insertCoverage E.filename k r (locOf c))
  | .name =>
    if r.isNone then pure (coverageExpr (locOf t))
    else if isSameName k r then pure (done r)
    else do
      let s ← M.get
      if s.recursive then vis r else pure r

/-- Identifier macros are expanded in non-recursive mode. -/
def expandIn (E : Env υ) (vis : Val → X υ Val) (k : String) (a : MArgs) : X υ Val :=
  if a.synt = .name then withMode false (expand E vis k a) else expand E vis k a

/-- The macro is applied. -/
def Applies (E : Env υ) (vis : Val → X υ Val) (t : Val) (s : St υ) (k : String) (a : MArgs) (c : Val) :
    Prop :=
  visitNode E vis t s = (expandIn E vis k a >>= afterExpand E vis t k a.synt c) s

theorem bind_error {α β : Type} {x : Except Exc α} {f : α → X υ β} {e : Exc} (h : x = .error e) :
    (M.ofExcept x >>= f) s = some (.error e, s) := by
  rw [h]; rfl

theorem visitNode_invokes {t c : Val} {k : String} {id : Nat} {a : MArgs} (hw : WellFormed t)
    (h : Invokes E s.world t k id a c) :
    isbound s.world k = some id ∧
    (¬ BadCall c → Applies E vis t s k a c) ∧
    (BadCall c → visitNode E vis t s = some (.error (.py .syntaxError), s)) := by
  cases h with
  | expr hk hv hc ha hs =>
    rename_i as tree
    refine ⟨ha.2.1, ?_⟩
    obtain ⟨l, fs, rfl⟩ := isK_eq hk
    have hd := destructure_complete hc
    have hm : ismacrocall E s.world (some (k, as)) .expr = true :=
      (names_iff (by decide) hd).mpr ⟨k, as, id, hc, ha⟩
    have hstep : visitNode E vis (.node (.py .Subscript) l fs) s = (do
        let (name, args) ← M.ofExcept (destructureCall c)
        let tree ← M.ofExcept (attr (.node (.py .Subscript) l fs) .slice)
        let r ← expand E vis name ⟨.expr, tree, some args, none, .node (.py .Subscript) l fs⟩
        return if r.isNone then coverageExpr (locOf (.node (.py .Subscript) l fs)) else r : X υ Val) s := by
      show visitSubscript E vis _ s = _
      unfold visitSubscript
      rw [run_ofExcept (attr_eq hv), run_ofExcept hd, run_get, if_pos hm]
    constructor
    · intro hb
      unfold Applies
      rw [hstep, run_ofExcept ((destructureCall_eq hc).2 hb)]
      exact Eq.trans (run_ofExcept (attr_eq hs)) rfl
    · intro hb
      rw [hstep, bind_error ((destructureCall_eq hc).1 hb)]
  | block hk hi hbefore hic hc ha hbody =>
    rename_i before item after as body
    refine ⟨ha.2.1, ?_⟩
    obtain ⟨items, hi', hit⟩ := hw.withItems hk
    rw [hi] at hi'; cases hi'
    obtain ⟨l, fs, rfl⟩ := isK_eq hk
    obtain ⟨ds, hds⟩ := detect_total (E := E) (w := s.world) (synt := .block)
      (items := before ++ item :: after) (fun i him => by
        obtain ⟨-, c, d, h1, h2⟩ := hit i him
        exact ⟨c, d, attr_eq h1, h2⟩)
    obtain ⟨h1, h2⟩ := detect_sound (by decide) hds
    obtain ⟨da, q, db, rfl, rfl, rfl, rfl⟩ := map_fst_split h1
    have hq : q.2 = true := by
      obtain ⟨c', hc', hn⟩ := h2 q (by simp)
      have : attr q.1 .context_expr = .ok c' := hc'
      rw [attr_eq hic] at this; cases this
      exact hn.mpr ⟨k, as, id, hc, ha⟩
    have hda : ∀ x ∈ da, x.2 = false := by
      intro x hx
      obtain ⟨c', hc', hn⟩ := h2 x (by simp [hx])
      have : attr x.1 .context_expr = .ok c' := hc'
      cases hx2 : x.2 with
      | false => rfl
      | true => exact absurd (hn.mp hx2) (hbefore x.1 (List.mem_map_of_mem hx) c' (attr_ok.mp this))
    have hsp := splitFirst_eq (p := (·.2)) (b := db) hda hq
    have hstep : visitNode E vis (.node (.py .With) l fs) s = (do
        let cand ← M.ofExcept (attr q.1 .context_expr)
        let (name, args) ← M.ofExcept (destructureCall cand)
        let body ← M.ofExcept (attr (.node (.py .With) l fs) .body)
        let rest := (da ++ db).map (·.1)
        let tree := if rest.isEmpty then body else .list [.node (.py .With) l (setF fs .items (.list rest))]
        let r ← expand E vis name ⟨.block, tree, some args,
          some ((q.1.get? .optional_vars).getD .none), .node (.py .With) l fs⟩
        M.ofExcept (insertCoverage E.filename name r (locOf (.node (.py .With) l fs))) : X υ Val) s := by
      show visitWith E vis _ s = _
      unfold visitWith
      rw [run_ofExcept (a := _) (by rw [attr_eq hi]; rfl), run_get, run_ofExcept hds, hsp]
    have hb' : ∀ (x y : Val), (if ((da ++ db).map (·.1)).isEmpty = true then x else y) =
        if da.map (·.1) ++ db.map (·.1) = [] then x else y := by
      intro x y
      rw [List.map_append]
      simp only [List.isEmpty_iff]
    constructor
    · intro hb
      unfold Applies
      rw [hstep, run_ofExcept (attr_eq hic), run_ofExcept ((destructureCall_eq hc).2 hb), ← hb']
      simp only [withField, ← List.map_append]
      exact Eq.trans (run_ofExcept (attr_eq hbody)) rfl
    · intro hb
      rw [hstep, run_ofExcept (attr_eq hic), bind_error ((destructureCall_eq hc).1 hb)]
  | decorator hk hi hafter hc ha =>
    rename_i before after as
    refine ⟨ha.2.1, ?_⟩
    have hvd : ∃ cls l fs, t = .node cls l fs ∧ visitNode E vis t s = visitDecorated E vis t s := by
      rcases hk with hk | hk <;> obtain ⟨l, fs, rfl⟩ := isK_eq hk <;> exact ⟨_, _, _, rfl, rfl⟩
    obtain ⟨cls, l, fs, rfl, hvd⟩ := hvd
    obtain ⟨ds, hds⟩ := detect_total (E := E) (w := s.world) (synt := .decorator)
      (items := before ++ c :: after) (fun i him => by
        obtain ⟨d, hd⟩ := hw.itemDestructure hi him
        exact ⟨i, d, rfl, hd⟩)
    obtain ⟨h1, h2⟩ := detect_sound (by decide) hds
    obtain ⟨da, q, db, rfl, rfl, rfl, rfl⟩ := map_fst_split h1
    have hq : q.2 = true := by
      obtain ⟨c', hc', hn⟩ := h2 q (by simp)
      cases hc'
      exact hn.mpr ⟨k, as, id, hc, ha⟩
    have hdb : ∀ x ∈ db, x.2 = false := by
      intro x hx
      obtain ⟨c', hc', hn⟩ := h2 x (by simp [hx])
      cases hc'
      cases hx2 : x.2 with
      | false => rfl
      | true => exact absurd (hn.mp hx2) (hafter x.1 (List.mem_map_of_mem hx))
    have hsp := splitLast_eq (p := (·.2)) (a := da) hdb hq
    have hstep : visitNode E vis (.node cls l fs) s = (do
        let (name, args) ← M.ofExcept (destructureCall q.1)
        let rest := (da ++ db).map (·.1)
        let r ← expand E vis name ⟨.decorator, .node cls l (setF fs .decorator_list (.list rest)),
          some args, none, .node cls l fs⟩
        M.ofExcept (insertCoverage E.filename name r (locOf q.1)) : X υ Val) s := by
      rw [hvd]
      unfold visitDecorated
      rw [run_ofExcept (a := _) (by rw [attr_eq hi]; rfl), run_get, run_ofExcept hds, hsp]
    constructor
    · intro hb
      unfold Applies
      rw [hstep, run_ofExcept ((destructureCall_eq hc).2 hb)]
      simp only [withField, List.map_append]
      rfl
    · intro hb
      rw [hstep, bind_error ((destructureCall_eq hc).1 hb)]
  | name hk hi hk0 hid hn =>
    refine ⟨hid, ?_⟩
    obtain ⟨l, fs, rfl⟩ := isK_eq hk
    constructor
    · intro _
      have hm : ismacrocall E s.world (some (k, ([] : List Val))) .name = true :=
        ismacrocall_name.mpr ⟨hk0, id, hid, hn⟩
      show visitName E vis _ s = _
      unfold visitName
      rw [run_ofExcept (attr_eq hi), run_get]
      have hm' : ismacrocall E s.world ((asName (.str k)).map (·, [])) .name = true := hm
      simp only [hm', if_true]
      rfl
    · intro hb; exact absurd hb.1 (by simp [Val.isK])

/-- Without an invocation, only the child nodes are visited. -/
theorem visitNode_other {t : Val} (hw : WellFormed t) (hn : ¬ Invocation E s.world t) :
    visitNode E vis t s = if t.isK .Name then some (.ok t, s) else genericVisit vis t s := by
  have hdec : (t.isK .FunctionDef = true ∨ t.isK .ClassDef = true) →
      visitDecorated E vis t s = genericVisit vis t s := by
    intro hk
    obtain ⟨items, hi⟩ := hw.decorators hk
    unfold visitDecorated
    rw [run_ofExcept (a := items) (by rw [attr_eq hi]; rfl), run_get]
    obtain ⟨ds, hds⟩ := detect_total (E := E) (w := s.world) (synt := .decorator) (items := items)
      (fun i him => by
        obtain ⟨d, hd⟩ := hw.itemDestructure hi him
        exact ⟨i, d, rfl, hd⟩)
    rw [run_ofExcept hds]
    obtain ⟨h1, h2⟩ := detect_sound (by decide) hds
    rw [splitLast_none.mpr]
    intro q hq
    obtain ⟨c, hqc, hqn⟩ := h2 q hq
    cases hq2 : q.2 with
    | false => rfl
    | true =>
      cases hqc
      exact absurd (.decorator hk hi (by rw [← h1]; exact List.mem_map_of_mem hq) (hqn.mp hq2)) hn
  unfold visitNode
  split
  · rename_i l fs
    have hf := hw.self
    simp only [fieldsOk, Bool.and_eq_true] at hf
    obtain ⟨v, hv⟩ := Option.isSome_iff_exists.mp hf.1
    unfold visitSubscript
    obtain ⟨d, hdd⟩ := hw.fieldDestructure hv
    rw [run_ofExcept (attr_eq hv), run_ofExcept hdd, run_get]
    split
    · rename_i hm
      exact absurd (.expr rfl hv ((names_iff (by decide) hdd).mp hm)) hn
    · simp [Val.isK]
  · rename_i l fs
    obtain ⟨items, hi, hit⟩ := hw.withItems rfl
    unfold visitWith
    rw [run_ofExcept (a := items) (by rw [attr_eq hi]; rfl), run_get]
    obtain ⟨ds, hds⟩ := detect_total (E := E) (w := s.world) (synt := .block) (items := items)
      (fun i him => by
        obtain ⟨-, c, d, h1, h2⟩ := hit i him
        exact ⟨c, d, attr_eq h1, h2⟩)
    rw [run_ofExcept hds]
    obtain ⟨h1, h2⟩ := detect_sound (by decide) hds
    rw [splitFirst_none.mpr]
    · simp [Val.isK]
    intro q hq
    obtain ⟨c, hqc, hqn⟩ := h2 q hq
    cases hq2 : q.2 with
    | false => rfl
    | true =>
      exact absurd (.block rfl hi (by rw [← h1]; exact List.mem_map_of_mem hq)
        (attr_ok.mp hqc) (hqn.mp hq2)) hn
  · rename_i l fs; rw [hdec (.inr rfl)]; simp [Val.isK]
  · rename_i l fs; rw [hdec (.inl rfl)]; simp [Val.isK]
  · rename_i l fs
    obtain ⟨i, hi⟩ := Option.isSome_iff_exists.mp hw.self
    unfold visitName
    rw [run_ofExcept (attr_eq hi), run_get]
    have : ismacrocall E s.world ((asName i).map (·, [])) .name = false := by
      cases ha : asName i with
      | none => rfl
      | some k =>
        have hik := asName_some.mp ha
        subst hik
        cases hm : ismacrocall E s.world (some (k, [])) .name with
        | false => exact hm
        | true =>
          obtain ⟨h1, id, h2, h3⟩ := ismacrocall_name.mp hm
          exact absurd (.name rfl hi h1 h2 h3) hn
    simp only [this]
    simp [Val.isK]; rfl
  · rename_i h1 h2 h3 h4 h5
    cases t with
    | const => simp [Val.isK]
    | list => simp [Val.isK]
    | node c l fs =>
      cases c with
      | marker => simp [Val.isK]
      | py k =>
        by_cases hk : k = .Name
        · subst hk; exact absurd rfl (h5 l fs)
        · have : ¬ K.Name = k := fun h => hk h.symm
          simp [Val.isK, this]

/-- An application by `expand` is logged first. -/
theorem expand_first {n : Nat} (k : String) (id : Nat) (a : MArgs) (s : St υ)
    (hb : isbound s.world k = some id) :
    M.Post (expand E (visit E n) k a) s fun _ s' => Frame s s' ∧ ∃ e l, fresh s s' = e :: l ∧
      e.name = k ∧ e.fn = id ∧ e.margs = a ∧ e.depth = s.depth := by
  have hv := visit_pres frame_rel E.all_true n
  unfold expand
  rw [M.post_bind, M.post_attempt]
  unfold expandTry
  rw [M.post_bind, M.post_get]
  simp only [hb]
  rw [M.post_bind]
  have key : M.Post (applyMacro E (visit E n) id k a) s fun _ s' => Frame s s' ∧
      ∃ e l, fresh s s' = e :: l ∧ e.name = k ∧ e.fn = id ∧ e.margs = a ∧ e.depth = s.depth := by
    unfold applyMacro
    rw [M.post_bind, M.post_get]; dsimp only
    rw [M.post_bind, M.post_modify]; dsimp only
    generalize hx : (⟨k, id, a, s.depth, s.recursive, isbound s.world k⟩ : App) = x
    have f1 : Frame s { s with log := s.log ++ [x] } := by
      exact frame_rel.log s _ (by rw [← hx]) (by rw [← hx]) (by rw [← hx]; exact hb)
        (by rw [← hx]; exact hb)
    suffices h : Pres Frame (do
        let newtree ← runNested (visit E n) ((E.macros id).fn a)
        let s' ← M.get
        match s'.hook, s.hook with
        | none, _ => return newtree
        | some _, none => M.throw (.py .nameError)
        | some h, some _ => do
          let _ ← runNested (visit E n) (E.hooks h a.invocation newtree k)
          return newtree : X υ Ret) by
      refine (h _).mono fun _ s' f2 => ⟨f1.trans f2, x, fresh { s with log := s.log ++ [x] } s', ?_, ?_⟩
      · rw [fresh_trans f1 f2]; simp [fresh]
      · rw [← hx]; exact ⟨rfl, rfl, rfl, rfl⟩
    have hR := frame_rel (υ := υ)
    refine Pres.bind hR.toStep (runNested_pres hR hv _ (Prog.all_true _)) fun r =>
      Pres.bind hR.toStep (Pres.get hR.toStep) fun s' => ?_
    split
    · exact Pres.pure hR.toStep _
    · exact Pres.throw hR.toStep _
    · exact Pres.bind hR.toStep (runNested_pres hR hv _ (Prog.all_true _)) fun _ => Pres.pure hR.toStep _
  refine key.mono fun r s1 h1 => ?_
  obtain ⟨f1, e, l, hl, he⟩ := h1
  have next : ∀ (s2 : St υ), Frame s1 s2 → Frame s s2 ∧ ∃ e l, fresh s s2 = e :: l ∧ e.name = k ∧
      e.fn = id ∧ e.margs = a ∧ e.depth = s.depth := fun s2 f2 =>
    ⟨f1.trans f2, e, l ++ fresh s1 s2, by rw [fresh_trans f1 f2, hl]; rfl, he⟩
  cases r with
  | error err => dsimp only; rw [M.post_throw]; exact next s1 (frame_refl _)
  | ok ret =>
    dsimp only
    split
    · rw [M.post_pure]
      exact (visitExpansion_pres frame_rel.toStep hv _ _ s1).mono fun _ s2 f2 => next s2 f2
    · rw [M.post_throw]; dsimp only; rw [M.post_throw]; exact next s1 (frame_refl _)

/-- So is an application by a visit of an invocation. -/
theorem applies_first {n : Nat} {t c : Val} {k : String} {id : Nat} {a : MArgs}
    (h : Applies E (visit E n) t s k a c) (hb : isbound s.world k = some id) {r : Except Exc Val}
    {s' : St υ} (hr : visitNode E (visit E n) t s = some (r, s')) :
    ∃ e l, fresh s s' = e :: l ∧ e.name = k ∧ e.fn = id ∧ e.margs = a ∧ e.depth = s.depth := by
  rw [h] at hr
  have hv := visit_pres frame_rel E.all_true n
  have hx : M.Post (expandIn E (visit E n) k a) s fun _ s' => Frame s s' ∧ ∃ e l, fresh s s' = e :: l ∧
      e.name = k ∧ e.fn = id ∧ e.margs = a ∧ e.depth = s.depth := by
    unfold expandIn
    split
    · unfold withMode
      rw [M.post_bracket]
      refine (expand_first (E := E) (n := n) k id a { s with recursive := false } hb).mono fun _ s1 h1 => ?_
      exact ⟨frame_rel.mode s s1 false h1.1, h1.2⟩
    · exact expand_first k id a s hb
  have ha : ∀ r, Pres Frame (afterExpand E (visit E n) t k a.synt c r) := by
    intro r
    unfold afterExpand
    have hR := frame_rel (υ := υ)
    split
    · exact Pres.pure hR.toStep _
    · exact Pres.ofExcept hR.toStep _
    · exact Pres.ofExcept hR.toStep _
    · split
      · exact Pres.pure hR.toStep _
      · split
        · exact Pres.pure hR.toStep _
        · refine Pres.bind hR.toStep (Pres.get hR.toStep) fun s => ?_
          split
          · exact hv _
          · exact Pres.pure hR.toStep _
  have := M.post_bind (Q := fun _ s' => ∃ e l, fresh s s' = e :: l ∧ e.name = k ∧ e.fn = id ∧
    e.margs = a ∧ e.depth = s.depth) (m := expandIn E (visit E n) k a)
    (f := afterExpand E (visit E n) t k a.synt c) (s := s)
  refine this.mpr (hx.mono fun r1 s1 h1 => ?_) r s' hr
  obtain ⟨f1, e, l, hl, he⟩ := h1
  cases r1 with
  | error err => exact ⟨e, l, hl, he⟩
  | ok v => exact (ha v s1).mono fun _ s2 f2 => ⟨e, l ++ fresh s1 s2, by rw [fresh_trans f1 f2, hl]; rfl, he⟩

theorem visit_node {E : Env υ} {n : Nat} {t : Val} {s : St υ} (ht : t.isAST = true)
    (hd : isDone t = false) (hb : noBindings s.world = false) :
    visit E (n + 1) t s = visitNode E (visit E n) t s := by
  show visitBody E (visit E n) t s = _
  unfold visitBody
  rw [run_get]
  simp only [hb, hd, Bool.or_self, Bool.false_eq_true, if_false]
  cases t with
  | node => rfl
  | const => cases ht
  | list => cases ht

theorem bound_noBindings {w : World υ} {k : String} {id : Nat} (h : isbound w k = some id) :
    noBindings w = false := by
  unfold isbound at h
  unfold noBindings
  cases hl : w.locals with
  | cons => rfl
  | nil =>
    cases hg : w.globals with
    | cons => rfl
    | nil => rw [hl, hg] at h; simp [Dict.get] at h

theorem invokes_node {E : Env υ} {w : World υ} {t c : Val} {k : String} {id : Nat} {a : MArgs}
    (h : Invokes E w t k id a c) : t.isAST = true ∧ isDone t = false ∧ isbound w k = some id := by
  cases h with
  | expr hk _ _ ha _ => exact ⟨isK_isAST hk, isK_isDone hk, ha.2.1⟩
  | block hk _ _ _ _ ha _ => exact ⟨isK_isAST hk, isK_isDone hk, ha.2.1⟩
  | decorator hk _ _ _ ha =>
    rcases hk with hk | hk <;> exact ⟨isK_isAST hk, isK_isDone hk, ha.2.1⟩
  | name hk _ _ hb _ => exact ⟨isK_isAST hk, isK_isDone hk, hb⟩

theorem first_names (p : Val → Prop) (items : List Val) (i : Val)
    (hi : i ∈ items) (hp : p i) :
    ∃ before j after, items = before ++ j :: after ∧ p j ∧ ∀ x ∈ before, ¬ p x := by
  induction items with
  | nil => cases hi
  | cons x xs ih =>
    by_cases hx : p x
    · exact ⟨[], x, xs, rfl, hx, by simp⟩
    · rcases List.mem_cons.mp hi with e | hi
      · subst e; exact absurd hp hx
      · obtain ⟨b, j, a, h1, h2, h3⟩ := ih hi
        refine ⟨x :: b, j, a, by rw [h1]; rfl, h2, ?_⟩
        intro y hy
        rcases List.mem_cons.mp hy with e | hy
        · subst e; exact hx
        · exact h3 y hy

theorem last_names (p : Val → Prop) (items : List Val) (h : ∃ i ∈ items, p i) :
    ∃ before j after, items = before ++ j :: after ∧ p j ∧ ∀ x ∈ after, ¬ p x := by
  induction items with
  | nil => obtain ⟨y, hy, -⟩ := h; cases hy
  | cons z zs ih =>
    by_cases hz : ∃ y ∈ zs, p y
    · obtain ⟨b, j, a, h1, h2, h3⟩ := ih hz
      exact ⟨z :: b, j, a, by rw [h1]; rfl, h2, h3⟩
    · obtain ⟨y, hy, hpy⟩ := h
      rcases List.mem_cons.mp hy with e | hy
      · subst e
        exact ⟨[], y, zs, rfl, hpy, fun x hx hpx => hz ⟨x, hx, hpx⟩⟩
      · exact absurd ⟨y, hy, hpy⟩ hz

/-- An invocation invokes some macro. -/
theorem invocation_invokes {E : Env υ} {w : World υ} {t : Val} (hw : WellFormed t)
    (hbody : t.isK .With = true → hasField t .body = true) :
    Invocation E w t → ∃ k id a c, Invokes E w t k id a c := by
  intro h
  cases h with
  | expr hk hv hn =>
    obtain ⟨k, as, id, hc, ha⟩ := hn
    obtain ⟨l, fs, rfl⟩ := isK_eq hk
    have hf := hw.self
    simp only [fieldsOk, Bool.and_eq_true] at hf
    obtain ⟨sl, hs⟩ := Option.isSome_iff_exists.mp hf.2
    exact ⟨_, _, _, _, .expr hk hv hc ha hs⟩
  | block hk hi him hic hn =>
    obtain ⟨body, hb⟩ := Option.isSome_iff_exists.mp (hbody hk)
    obtain ⟨before, j, after, rfl, ⟨c, hjc, k, as, id, hc, ha⟩, hlt⟩ :=
      first_names (fun i => ∃ c, i.get? .context_expr = some c ∧ Names E w c) _ _ him ⟨_, hic, hn⟩
    exact ⟨_, _, _, _, .block hk hi (fun i hi c hc hn => hlt i hi ⟨c, hc, hn⟩) hjc hc ha hb⟩
  | decorator hk hi him hn =>
    obtain ⟨before, j, after, rfl, ⟨k, as, id, hc, ha⟩, hlt⟩ :=
      last_names (Names E w) _ ⟨_, him, hn⟩
    exact ⟨_, _, _, _, .decorator hk hi hlt hc ha⟩
  | name h1 h2 h3 h4 h5 => exact ⟨_, _, _, _, .name h1 h2 h3 h4 h5⟩

end Mcpyrate.Expander
