import Verif.Lemmas.LayersOnce
/-
Expanding the rest after one layer.
-/
namespace Mcpyrate.Expander.Layers
open Py

variable {υ : Type} {E : Env υ} {w : World υ}

/-! ### inversion -/
section
variable {A : Val → Val → Prop} {t r : Val}

theorem fx_same (h : noBindings w = true ∨ isDone t = true ∨ t = .none) : Fx E w A t r ↔ r = t := by
  rw [fx_iff]
  constructor
  · intro hs
    cases hs with
    | same => rfl
    | list hb => rcases h with h | h | h
                 · rw [hb] at h; cases h
                 · cases h
                 · cases h
    | name => rfl
    | generic hb hd => rcases h with h | h | h
                       · rw [hb] at h; cases h
                       · rw [hd] at h; cases h
                       · cases h
    | call hb hd hp =>
      rcases h with h | h | h
      · rw [hb] at h; cases h
      · rw [hd] at h; cases h
      · have := (invokes_invocation (invOf_spec hp)).isAST
        rw [h] at this; cases this
  · rintro rfl; exact .same h

theorem fx_list {xs : List Val} (hb : noBindings w = false) :
    Fx E w A (.list xs) r ↔ ∃ rs, All2 (Fx E w A) xs rs ∧ r = ofList (Markers.flattenV rs) := by
  rw [fx_iff]
  constructor
  · intro h
    cases h with
    | same h => rcases h with h | h | h
                · rw [hb] at h; cases h
                · cases h
                · cases h
    | list _ hl => exact ⟨_, hl, rfl⟩
    | name _ hk => cases hk
    | call _ _ hp => have := (invokes_invocation (invOf_spec hp)).isAST; cases this
  · rintro ⟨rs, h, rfl⟩; exact .list hb h

theorem fx_generic {c : Cls} {l : Loc} {fs : Fields} (hb : noBindings w = false) (hd : isDone (.node c l fs) = false)
    (hk : c ≠ .py .Name) (hi : ¬ Invocation E w (.node c l fs)) :
    Fx E w A (.node c l fs) r ↔ ∃ fs', GenF (Fx E w A) fs fs' ∧ r = .node c l fs' := by
  rw [fx_iff]
  constructor
  · intro h
    cases h with
    | same h => rcases h with h | h | h
                · rw [hb] at h; cases h
                · rw [hd] at h; cases h
                · cases h
    | name _ hk' => obtain ⟨_, _, he⟩ := isK_eq hk'; cases he; exact absurd rfl hk
    | generic _ _ _ _ hg => exact ⟨_, hg, rfl⟩
    | call _ _ hp => exact absurd (invokes_invocation (invOf_spec hp)) hi
  · rintro ⟨fs', h, rfl⟩; exact .generic hb hd hk hi h

theorem fx_name (hk : t.isK .Name = true) (hi : ¬ Invocation E w t) : Fx E w A t r ↔ r = t := by
  rw [fx_iff]
  constructor
  · intro h
    cases h with
    | same | name => rfl
    | list => cases hk
    | generic _ _ hk' => obtain ⟨_, _, he⟩ := isK_eq hk; cases he; exact absurd rfl hk'
    | call _ _ hp => exact absurd (invokes_invocation (invOf_spec hp)) hi
  · rintro rfl
    cases hb : noBindings w with
    | true => exact .same (.inl hb)
    | false => exact .name hb hk hi

theorem fx_call {k : String} {i : Nat} {a : MArgs} {c e : Val} (hb : noBindings w = false) (hd : isDone t = false)
    (hp : invOf E w t = some (k, i, a, c)) (hbc : ¬ BadCall c) (he : Exp E i a e) :
    Fx E w A t r ↔ Finish E A t k a.synt c e r := by
  have hi := invokes_invocation (invOf_spec hp)
  rw [fx_iff]
  constructor
  · intro h
    cases h with
    | same h =>
      rcases h with h | h | h
      · rw [hb] at h; cases h
      · rw [hd] at h; cases h
      · rw [h] at hi; have := hi.isAST; cases this
    | list => have := hi.isAST; cases this
    | name _ _ hn => exact absurd hi hn
    | generic _ _ _ hn => exact absurd hi hn
    | call _ _ hp' _ he' hf =>
      rw [hp] at hp'; cases hp'
      rw [exp_det he he']; exact hf
  · intro h; exact .call hb hd hp hbc he h
end

/-! ### lists -/

/-- The results for the items, put together. -/
def Cat (R : Val → Val → Prop) (zs out : List Val) : Prop := ∃ rs, All2 R zs rs ∧ out = rs.flatMap Markers.spliceResult

section
variable {R : Val → Val → Prop}

theorem cat_nil {out : List Val} : Cat R [] out ↔ out = [] := by
  constructor
  · rintro ⟨rs, h, rfl⟩; cases h; rfl
  · rintro rfl; exact ⟨[], .nil, rfl⟩

theorem cat_cons {z : Val} {zs out : List Val} :
    Cat R (z :: zs) out ↔ ∃ r o, R z r ∧ Cat R zs o ∧ out = Markers.spliceResult r ++ o := by
  constructor
  · rintro ⟨rs, h, rfl⟩
    cases h with
    | cons h1 h2 => exact ⟨_, _, h1, ⟨_, h2, rfl⟩, by simp⟩
  · rintro ⟨r, o, h1, ⟨rs, h2, rfl⟩, rfl⟩
    exact ⟨r :: rs, .cons h1 h2, by simp⟩

theorem cat_append {a b out : List Val} : Cat R (a ++ b) out ↔ ∃ o1 o2, Cat R a o1 ∧ Cat R b o2 ∧ out = o1 ++ o2 := by
  induction a generalizing out with
  | nil =>
    constructor
    · intro h; exact ⟨[], out, cat_nil.mpr rfl, h, rfl⟩
    · rintro ⟨o1, o2, h1, h2, rfl⟩; rw [cat_nil.mp h1]; exact h2
  | cons x a ih =>
    rw [List.cons_append, cat_cons]
    constructor
    · rintro ⟨r, o, h1, h2, rfl⟩
      obtain ⟨o1, o2, h3, h4, rfl⟩ := ih.mp h2
      exact ⟨_, o2, cat_cons.mpr ⟨r, o1, h1, h3, rfl⟩, h4, by simp⟩
    · rintro ⟨o1, o2, h1, h2, rfl⟩
      obtain ⟨r, o, h3, h4, rfl⟩ := cat_cons.mp h1
      exact ⟨r, o ++ o2, h3, ih.mpr ⟨o, o2, h4, h2, rfl⟩, by simp⟩

theorem genL_append {a b out : List Val} : GenL R (a ++ b) out ↔ ∃ o1 o2, GenL R a o1 ∧ GenL R b o2 ∧ out = o1 ++ o2 := by
  induction a generalizing out with
  | nil =>
    constructor
    · intro h; exact ⟨[], out, .nil, h, rfl⟩
    · rintro ⟨o1, o2, h1, h2, rfl⟩; cases h1; exact h2
  | cons x a ih =>
    rw [List.cons_append]
    constructor
    · intro h
      cases h with
      | other hx h => obtain ⟨o1, o2, h3, h4, rfl⟩ := ih.mp h; exact ⟨_, o2, .other hx h3, h4, rfl⟩
      | item hx hr h => obtain ⟨o1, o2, h3, h4, rfl⟩ := ih.mp h; exact ⟨_, o2, .item hx hr h3, h4, by simp⟩
    · rintro ⟨o1, o2, h1, h2, rfl⟩
      cases h1 with
      | other hx h => exact .other hx (ih.mpr ⟨_, _, h, h2, rfl⟩)
      | item hx hr h => rw [List.append_assoc]; exact .item hx hr (ih.mpr ⟨_, _, h, h2, rfl⟩)

theorem genL_cat {a out : List Val} (ha : ∀ x ∈ a, x.isAST = true) : GenL R a out ↔ Cat R a out := by
  induction a generalizing out with
  | nil =>
    rw [cat_nil]
    constructor
    · intro h; cases h; rfl
    · rintro rfl; exact .nil
  | cons x a ih =>
    rw [cat_cons]
    have ih := fun {out} => ih (out := out) fun y hy => ha y (by simp [hy])
    constructor
    · intro h
      cases h with
      | other hx => rw [ha x (by simp)] at hx; cases hx
      | item hx hr h => exact ⟨_, _, hr, ih.mp h, rfl⟩
    · rintro ⟨r, o, h1, h2, rfl⟩; exact .item (ha x (by simp)) h1 (ih.mpr h2)
end

/-- What is made of expansions, in `RD D`. -/
def Below (E : Env υ) (w : World υ) : Nat → Val → Val → Prop
  | 0 => fun _ _ => False
  | D + 1 => RD E w D

theorem rd_fx (D : Nat) : RD E w D = Fx E w (Below E w D) := by cases D <;> rfl

variable {D : Nat}

/-- The results of the parts are the parts of the result. -/
theorem cat_splice (hb : noBindings w = false) {t : Val} (ht : ∀ u ∈ Markers.spliceResult t, u.isAST = true) {out : List Val} :
    Cat (RD E w D) (Markers.spliceResult t) out ↔ ∃ r, RD E w D t r ∧ out = Markers.spliceResult r := by
  have hsingle : ∀ {x}, Cat (RD E w D) [x] out ↔ ∃ r, RD E w D x r ∧ out = Markers.spliceResult r := by
    intro x
    rw [cat_cons]
    constructor
    · rintro ⟨r, o, h1, h2, rfl⟩; rw [cat_nil.mp h2]; exact ⟨r, h1, by simp⟩
    · rintro ⟨r, h1, rfl⟩; exact ⟨r, [], h1, cat_nil.mpr rfl, by simp⟩
  cases t with
  | node c l fs => exact hsingle
  | const c =>
    have hc : c = .none := by
      cases c <;> first | rfl | exact absurd (ht _ List.mem_cons_self) (by simp [Val.isAST])
    subst hc
    rw [show Markers.spliceResult (.const .none) = [] from rfl, cat_nil]
    constructor
    · rintro rfl; exact ⟨.none, by rw [rd_fx]; exact (fx_same (.inr (.inr rfl))).mpr rfl, rfl⟩
    · rintro ⟨r, h1, rfl⟩
      rw [rd_fx] at h1
      rw [(fx_same (.inr (.inr rfl))).mp h1]; rfl
  | list ys =>
    have hys : ∀ y ∈ ys, T y := fun y hy => .inr (isAST_isTree (ht y hy))
    have hfl : ∀ {rs}, All2 (RD E w D) ys rs → Markers.flattenV rs = rs.flatMap Markers.spliceResult := by
      intro rs h
      refine flattenV_flatMap fun y hy => ?_
      have : ∃ x ∈ ys, RD E w D x y := by
        clear ht hys
        induction h with
        | nil => cases hy
        | cons hr _ ih =>
          rcases List.mem_cons.mp hy with rfl | hy
          · exact ⟨_, by simp, hr⟩
          · obtain ⟨x, h1, h2⟩ := ih hy; exact ⟨x, by simp [h1], h2⟩
      obtain ⟨x, h1, h2⟩ := this
      exact (rd_shape D x y (hys x h1) h2).nodes
    show Cat (RD E w D) ys out ↔ _
    constructor
    · rintro ⟨rs, h, rfl⟩
      refine ⟨ofList (Markers.flattenV rs), ?_, by rw [splice_ofList, hfl h]⟩
      rw [rd_fx] at h ⊢
      exact (fx_list hb).mpr ⟨rs, h, rfl⟩
    · rintro ⟨r, h, rfl⟩
      rw [rd_fx] at h
      obtain ⟨rs, h1, rfl⟩ := (fx_list hb).mp h
      rw [← rd_fx] at h1
      exact ⟨rs, h1, by rw [splice_ofList, hfl h1]⟩

/-- The result for a list is determined by the results for its items. -/
theorem rd_ofList (hb : noBindings w = false) {zs : List Val} (hz : ∀ z ∈ zs, z.isAST = true) {r : Val} :
    RD E w D (ofList zs) r ↔ ∃ out, Cat (RD E w D) zs out ∧ r = ofList out := by
  constructor
  · intro h
    refine ⟨Markers.spliceResult r, ?_, ?_⟩
    · have := (cat_splice (t := ofList zs) (D := D) hb (by rw [splice_ofList]; exact hz)).mpr ⟨r, h, rfl⟩
      rw [splice_ofList] at this; exact this
    · cases zs with
      | nil =>
        rw [rd_fx] at h
        rw [(fx_same (.inr (.inr rfl))).mp h]; rfl
      | cons z zs =>
        rw [rd_fx] at h
        obtain ⟨rs, _, rfl⟩ := (fx_list (xs := z :: zs) hb).mp h
        rw [splice_ofList]
  · rintro ⟨out, h, rfl⟩
    have := (cat_splice (t := ofList zs) (D := D) hb (by rw [splice_ofList]; exact hz) (out := out)).mp (by rw [splice_ofList]; exact h)
    obtain ⟨r, h1, rfl⟩ := this
    have : r = ofList (Markers.spliceResult r) := by
      cases zs with
      | nil =>
        rw [rd_fx] at h1
        rw [(fx_same (.inr (.inr rfl))).mp h1]; rfl
      | cons z zs =>
        rw [rd_fx] at h1
        obtain ⟨rs, _, rfl⟩ := (fx_list (xs := z :: zs) hb).mp h1
        rw [splice_ofList]
    rw [← this]; exact h1

theorem ofList_eq {xs : List Val} (h : xs ≠ []) : ofList xs = .list xs := by
  cases xs with
  | nil => exact absurd rfl h
  | cons => rfl

theorem insertCoverage_cov {f k : String} {l : Loc} :
    (∀ v, insertCoverage f k v l = .ok v) ∨ (∀ v, ∃ e, insertCoverage f k v l = .error e) ∨
    ∀ v, (∀ u ∈ Markers.spliceResult v, u.isAST = true) →
      insertCoverage f k v l = .ok (.list (coverageStmt f k l :: Markers.spliceResult v)) := by
  unfold insertCoverage
  split
  · exact .inl fun _ => rfl
  · split
    · exact .inr (.inl fun _ => ⟨_, rfl⟩)
    · refine .inr (.inr fun v hv => ?_)
      cases v with
      | node => rfl
      | list => rfl
      | const c => cases c <;> first | rfl | exact absurd (hv _ List.mem_cons_self) (by simp [Val.isAST])

/-- Applying the rest to what one layer makes of an invocation. -/
theorem finish_layer (hb : noBindings w = false) {t c e t1 r : Val} {k : String} {y : Syn} (hge : GoodExp y e)
    (h : Finish E Same t k y c e t1) : RD E w D t1 r ↔ Finish E (RD E w D) t k y c e r := by
  have hdone : ∀ {u}, isDone u = true → (RD E w D u r ↔ r = u) := by
    intro u hu; rw [rd_fx]; exact fx_same (.inr (.inl hu))
  have hTe := goodExp_T hge
  have hee := (shape_self hTe).nodes
  -- adding the coverage dummy and visiting
  have hstmt : ∀ {l}, insertCoverage E.filename k e l = .ok t1 →
      (RD E w D t1 r ↔ ∃ r', RD E w D e r' ∧ insertCoverage E.filename k r' l = .ok r) := by
    intro l hic
    rcases insertCoverage_cov (f := E.filename) (k := k) (l := l) with hc | hc | hc
    · rw [hc] at hic; cases hic
      constructor
      · intro h; exact ⟨r, h, hc r⟩
      · rintro ⟨r', h1, h2⟩; rw [hc] at h2; cases h2; exact h1
    · obtain ⟨x, hx⟩ := hc e
      rw [hx] at hic; cases hic
    · rw [hc e hee] at hic; cases hic
      have hcd : isDone (coverageStmt E.filename k l) = true := rfl
      have hcs : RD E w D (coverageStmt E.filename k l) (coverageStmt E.filename k l) := by
        rw [rd_fx]; exact (fx_same (.inr (.inl hcd))).mpr rfl
      rw [← ofList_eq (by simp), rd_ofList hb (by
        intro z hz
        rcases List.mem_cons.mp hz with rfl | hz
        · rfl
        · exact hee z hz)]
      constructor
      · rintro ⟨out, h, rfl⟩
        obtain ⟨r1, o, h1, h2, rfl⟩ := cat_cons.mp h
        rw [rd_fx, fx_same (.inr (.inl hcd))] at h1
        subst h1
        obtain ⟨r', h3, rfl⟩ := (cat_splice hb hee).mp h2
        refine ⟨r', h3, ?_⟩
        rw [hc r' (rd_shape D e r' hTe h3).nodes]
        rfl
      · rintro ⟨r', h3, h4⟩
        rw [hc r' (rd_shape D e r' hTe h3).nodes] at h4; cases h4
        exact ⟨_, cat_cons.mpr ⟨_, _, hcs, (cat_splice hb hee).mpr ⟨r', h3, rfl⟩, rfl⟩, rfl⟩
  cases h with
  | nameNone hy hn =>
    rw [hdone rfl]
    constructor
    · rintro rfl; exact .nameNone hy hn
    · intro h
      cases h with
      | nameNone => rfl
      | nameSame _ hn' => rw [hn] at hn'; cases hn'
      | name _ hn' => rw [hn] at hn'; cases hn'
      | exprNone => rfl
      | expr _ hn' => rw [hn] at hn'; cases hn'
      | stmtNone hy' => rw [hy] at hy'; rcases hy' with h | h <;> cases h
      | stmt hy' => rw [hy] at hy'; rcases hy' with h | h <;> cases h
  | nameSame hy hn hs =>
    rw [hdone rfl]
    constructor
    · rintro rfl; exact .nameSame hy hn hs
    · intro h
      cases h with
      | nameNone _ hn' => rw [hn] at hn'; cases hn'
      | nameSame _ hn' => rfl
      | name _ hn' hs' => rw [hs] at hs'; cases hs'
      | exprNone hy' => rw [hy] at hy'; cases hy'
      | expr hy' => rw [hy] at hy'; cases hy'
      | stmtNone hy' => rw [hy] at hy'; rcases hy' with h | h <;> cases h
      | stmt hy' => rw [hy] at hy'; rcases hy' with h | h <;> cases h
  | name hy hn hs har =>
    cases har
    constructor
    · intro h; exact .name hy hn hs h
    · intro h
      cases h with
      | nameNone _ hn' => rw [hn] at hn'; cases hn'
      | nameSame _ _ hs' => rw [hs] at hs'; cases hs'
      | name _ _ _ h => exact h
      | exprNone hy' => rw [hy] at hy'; cases hy'
      | expr hy' => rw [hy] at hy'; cases hy'
      | stmtNone hy' => rw [hy] at hy'; rcases hy' with h | h <;> cases h
      | stmt hy' => rw [hy] at hy'; rcases hy' with h | h <;> cases h
  | exprNone hy hn =>
    rw [hdone rfl]
    constructor
    · rintro rfl; exact .exprNone hy hn
    · intro h
      cases h with
      | nameNone hy' => rfl
      | nameSame _ hn' => rw [hn] at hn'; cases hn'
      | name _ hn' => rw [hn] at hn'; cases hn'
      | exprNone => rfl
      | expr _ hn' => rw [hn] at hn'; cases hn'
      | stmtNone hy' => rw [hy] at hy'; rcases hy' with h | h <;> cases h
      | stmt hy' => rw [hy] at hy'; rcases hy' with h | h <;> cases h
  | expr hy hn har =>
    cases har
    rw [if_neg (by simp [hn])]
    have hres : ∀ {r'}, RD E w D e r' → (if r'.isNone then coverageExpr (locOf t) else r') = r' := by
      intro r' h
      rcases hge.expr (.inl hy) with h1 | ⟨h1, h2⟩
      · rw [hn] at h1; cases h1
      · have := isTree_isNone (isAST_isTree ((rd_shape D e r' hTe h).expr h1 h2).1)
        rw [if_neg (by simp [this])]
    constructor
    · intro h
      have := Finish.expr (E := E) (t := t) (k := k) (c := c) hy hn h
      rw [hres h] at this; exact this
    · intro h
      cases h with
      | nameNone hy' => rw [hy] at hy'; cases hy'
      | nameSame hy' => rw [hy] at hy'; cases hy'
      | name hy' => rw [hy] at hy'; cases hy'
      | exprNone _ hn' => rw [hn] at hn'; cases hn'
      | expr _ _ h => rw [hres h]; exact h
      | stmtNone hy' => rw [hy] at hy'; rcases hy' with h | h <;> cases h
      | stmt hy' => rw [hy] at hy'; rcases hy' with h | h <;> cases h
  | stmtNone hy hn hic =>
    have hen : e = .none := by
      rcases hTe with h | h
      · exact h
      · rw [isTree_isNone h] at hn; cases hn
    rw [hstmt hic]
    constructor
    · rintro ⟨r', h1, h2⟩
      rw [hen, rd_fx, fx_same (.inr (.inr rfl))] at h1
      subst h1
      exact .stmtNone hy hn (by rw [hen]; exact h2)
    · intro h
      cases h with
      | nameNone hy' => rw [hy'] at hy; rcases hy with h | h <;> cases h
      | nameSame hy' => rw [hy'] at hy; rcases hy with h | h <;> cases h
      | name hy' => rw [hy'] at hy; rcases hy with h | h <;> cases h
      | exprNone hy' => rw [hy'] at hy; rcases hy with h | h <;> cases h
      | expr hy' => rw [hy'] at hy; rcases hy with h | h <;> cases h
      | stmtNone _ _ h => exact ⟨e, by rw [hen, rd_fx, fx_same (.inr (.inr rfl))], h⟩
      | stmt _ hn' => rw [hn] at hn'; cases hn'
  | stmt hy hn har hic =>
    cases har
    rw [hstmt hic]
    constructor
    · rintro ⟨r', h1, h2⟩; exact .stmt hy hn h1 h2
    · intro h
      cases h with
      | nameNone hy' => rw [hy'] at hy; rcases hy with h | h <;> cases h
      | nameSame hy' => rw [hy'] at hy; rcases hy with h | h <;> cases h
      | name hy' => rw [hy'] at hy; rcases hy with h | h <;> cases h
      | exprNone hy' => rw [hy'] at hy; rcases hy with h | h <;> cases h
      | expr hy' => rw [hy'] at hy; rcases hy with h | h <;> cases h
      | stmtNone _ hn' => rw [hn] at hn'; cases hn'
      | stmt _ _ h1 h2 => exact ⟨_, h1, h2⟩

/-- The hypothesis about children. -/
structure Lay (E : Env υ) (w : World υ) (D : Nat) (x y : Val) : Prop where
  once : Once E w x y
  layer : ∀ r, RD E w D y r ↔ RD E w (D + 1) x r

theorem cat_layer (hb : noBindings w = false) {xs ys : List Val} (h : All2 (Lay E w D) xs ys) {out : List Val} :
    Cat (RD E w D) (ys.flatMap Markers.spliceResult) out ↔ Cat (RD E w (D + 1)) xs out := by
  induction h generalizing out with
  | nil => rw [List.flatMap_nil, cat_nil, cat_nil]
  | cons hr _ ih =>
    rw [List.flatMap_cons, cat_append, cat_cons]
    constructor
    · rintro ⟨o1, o2, h1, h2, rfl⟩
      obtain ⟨r, h3, rfl⟩ := (cat_splice hb hr.once.shape.nodes).mp h1
      exact ⟨r, o2, (hr.layer r).mp h3, ih.mp h2, rfl⟩
    · rintro ⟨r, o, h1, h2, rfl⟩
      exact ⟨_, o, (cat_splice hb hr.once.shape.nodes).mpr ⟨r, (hr.layer r).mpr h1, rfl⟩, ih.mpr h2, rfl⟩

theorem genL_layer (hb : noBindings w = false) {xs ys : List Val} (h : GenL (Lay E w D) xs ys) {zs : List Val} :
    GenL (RD E w D) ys zs ↔ GenL (RD E w (D + 1)) xs zs := by
  induction h generalizing zs with
  | nil =>
    constructor
    · intro h; cases h; exact .nil
    · intro h; cases h; exact .nil
  | other hx _ ih =>
    constructor
    · intro h
      cases h with
      | other _ h => exact .other hx (ih.mp h)
      | item hx' => rw [hx] at hx'; cases hx'
    · intro h
      cases h with
      | other _ h => exact .other hx (ih.mpr h)
      | item hx' => rw [hx] at hx'; cases hx'
  | item hx hr _ ih =>
    have hn := hr.once.shape.nodes
    rw [genL_append]
    constructor
    · rintro ⟨o1, o2, h1, h2, rfl⟩
      obtain ⟨r, h3, rfl⟩ := (cat_splice hb hn).mp ((genL_cat hn).mp h1)
      exact .item hx ((hr.layer r).mp h3) (ih.mp h2)
    · intro h
      cases h with
      | other hx' => rw [hx] at hx'; cases hx'
      | item _ hr' h => exact ⟨_, _, (genL_cat hn).mpr ((cat_splice hb hn).mpr ⟨_, (hr.layer _).mpr hr', rfl⟩), ih.mpr h, rfl⟩

theorem genF_layer (hb : noBindings w = false) {fs fs1 : Fields} (h : GenF (Lay E w D) fs fs1)
    (hst : ∀ f v, (f, v) ∈ fs → isMacroStmt v = false) {fs2 : Fields} :
    GenF (RD E w D) fs1 fs2 ↔ GenF (RD E w (D + 1)) fs fs2 := by
  induction h generalizing fs2 with
  | nil =>
    constructor
    · intro h; cases h; exact .nil
    · intro h; cases h; exact .nil
  | const _ ih =>
    have ih := fun {fs2} => ih (fs2 := fs2) fun f v hm => hst f v (by simp [hm])
    constructor
    · intro h
      cases h with
      | const h => exact .const (ih.mp h)
      | node hv => cases hv
      | deleted hv => cases hv
    · intro h
      cases h with
      | const h => exact .const (ih.mpr h)
      | node hv => cases hv
      | deleted hv => cases hv
  | list hl _ ih =>
    have ih := fun {fs2} => ih (fs2 := fs2) fun f v hm => hst f v (by simp [hm])
    constructor
    · intro h
      cases h with
      | list h1 h => exact .list ((genL_layer hb hl).mp h1) (ih.mp h)
      | node hv => cases hv
      | deleted hv => cases hv
    · intro h
      cases h with
      | list h1 h => exact .list ((genL_layer hb hl).mpr h1) (ih.mpr h)
      | node hv => cases hv
      | deleted hv => cases hv
  | @node f v v' _ _ hv hr hn _ ih =>
    have ih := fun {fs2} => ih (fs2 := fs2) fun f v hm => hst f v (by simp [hm])
    have hv' := (hr.once.shape.expr hv (hst f v List.mem_cons_self)).1
    constructor
    · intro h
      cases h with
      | const => cases hv'
      | list => cases hv'
      | node _ h1 h2 h3 => exact .node hv ((hr.layer _).mp h1) h2 (ih.mp h3)
      | deleted _ h1 h2 h3 => exact .deleted hv ((hr.layer _).mp h1) h2 (ih.mp h3)
    · intro h
      cases h with
      | const => cases hv
      | list => cases hv
      | node _ h1 h2 h3 => exact .node hv' ((hr.layer _).mpr h1) h2 (ih.mpr h3)
      | deleted _ h1 h2 h3 => exact .deleted hv' ((hr.layer _).mpr h1) h2 (ih.mpr h3)
  | @deleted f v v' _ _ hv hr hn _ ih =>
    have hv' := (hr.once.shape.expr hv (hst f v List.mem_cons_self)).1
    rw [isTree_isNone (isAST_isTree hv')] at hn; cases hn

theorem genL_imp {R S : Val → Val → Prop} {xs ys : List Val} (h : GenL R xs ys)
    (hi : ∀ x y, x ∈ xs → x.isAST = true → R x y → S x y) : GenL S xs ys := by
  induction h with
  | nil => exact .nil
  | other hx _ ih => exact .other hx (ih fun x y hx => hi x y (by simp [hx]))
  | item hx hr _ ih => exact .item hx (hi _ _ List.mem_cons_self hx hr) (ih fun x y hx => hi x y (by simp [hx]))

theorem genF_imp {R S : Val → Val → Prop} {c : Cls} {l : Loc} {fs fs' : Fields} (h : GenF R fs fs')
    (hi : ∀ x y, x ∈ childNodes (.node c l fs) → R x y → S x y) : GenF S fs fs' := by
  have hrest : ∀ {p : F × Val} {fs : Fields} {x}, x ∈ childNodes (.node c l fs) → x ∈ childNodes (.node c l (p :: fs)) := by
    intro p fs x hx
    simp only [childNodes, List.mem_flatMap] at hx ⊢
    obtain ⟨q, hq, hx⟩ := hx
    exact ⟨q, List.mem_cons_of_mem _ hq, hx⟩
  have hfst : ∀ {f v} {fs : Fields}, v.isAST = true → v ∈ childNodes (.node c l ((f, v) :: fs)) := by
    intro f v fs hv
    rw [childNodes, List.flatMap_cons]
    cases v with
    | const | list => cases hv
    | node => simp
  induction h with
  | nil => exact .nil
  | const _ ih => exact .const (ih fun x y hx => hi x y (hrest hx))
  | list hl _ ih =>
    exact .list (genL_imp hl fun x y hx hxa => hi x y (by simp [childNodes, hx, hxa])) (ih fun x y hx => hi x y (hrest hx))
  | node hv hr hn _ ih => exact .node hv (hi _ _ (hfst hv) hr) hn (ih fun x y hx => hi x y (hrest hx))
  | deleted hv hr hn _ ih => exact .deleted hv (hi _ _ (hfst hv) hr) hn (ih fun x y hx => hi x y (hrest hx))

theorem all2_imp {R S : Val → Val → Prop} {xs ys : List Val} (h : All2 R xs ys)
    (hi : ∀ x y, x ∈ xs → R x y → S x y) : All2 S xs ys := by
  induction h with
  | nil => exact .nil
  | cons hr _ ih => exact .cons (hi _ _ List.mem_cons_self hr) (ih fun x y hx => hi x y (by simp [hx]))

/-- After one layer, the rest gives what expanding everything gives. -/
theorem layer (D : Nat) : ∀ n t t1, T t → Tidy t → Settled E w t → It E w Same n t t1 → ∀ r, RD E w D t1 r ↔ RD E w (D + 1) t r := by
  intro n
  induction n with
  | zero => intro t t1 _ _ _ h; exact h.elim
  | succ n ih =>
    intro t t1 hT ht hset h r
    have hlay : ∀ x y, T x → Tidy x → Settled E w x → It E w Same n x y → Lay E w D x y :=
      fun x y h1 h2 h3 h4 => ⟨once_once n x y h1 h2 h3 h4, ih x y h1 h2 h3 h4⟩
    show RD E w D t1 r ↔ Fx E w (RD E w D) t r
    cases h with
    | same h => rw [rd_fx, fx_same h, fx_same h]
    | @list xs ys hb hl =>
      have hT' : (Val.list xs).isTree = true := by rcases hT with h | h; cases h; exact h
      have hl' : All2 (Lay E w D) xs ys := all2_imp hl fun x y hx hr => by
        have hxa := List.all_eq_true.mp hT' x hx
        exact hlay x y (.inr (isAST_isTree hxa)) (tidy_item ht hT' hx)
          (settled_child hset rfl (List.mem_filter.mpr ⟨hx, hxa⟩)) hr
      have hys : ∀ y ∈ ys, ∀ u ∈ Markers.spliceResult y, u.isAST = true := by
        intro y hy
        have : ∃ x ∈ xs, Lay E w D x y := by
          clear hT hT' ht hset hl
          induction hl' with
          | nil => cases hy
          | cons hr _ ih =>
            rcases List.mem_cons.mp hy with rfl | hy
            · exact ⟨_, by simp, hr⟩
            · obtain ⟨x, h1, h2⟩ := ih hy; exact ⟨x, by simp [h1], h2⟩
        obtain ⟨x, _, h⟩ := this
        exact h.once.shape.nodes
      have hfl : ∀ {rs}, All2 (RD E w (D + 1)) xs rs → Markers.flattenV rs = rs.flatMap Markers.spliceResult := by
        intro rs h
        refine flattenV_flatMap fun y hy => ?_
        have : ∃ x ∈ xs, RD E w (D + 1) x y := by
          clear hT hT' ht hset hl hl'
          induction h with
          | nil => cases hy
          | cons hr _ ih =>
            rcases List.mem_cons.mp hy with rfl | hy
            · exact ⟨_, by simp, hr⟩
            · obtain ⟨x, h1, h2⟩ := ih hy; exact ⟨x, by simp [h1], h2⟩
        obtain ⟨x, h1, h2⟩ := this
        exact (rd_shape (D + 1) x y (.inr (isAST_isTree (List.all_eq_true.mp hT' x h1))) h2).nodes
      rw [flattenV_flatMap hys, rd_ofList hb (by
        intro z hz
        obtain ⟨y, h1, h2⟩ := List.mem_flatMap.mp hz
        exact hys y h1 z h2), fx_list hb]
      constructor
      · rintro ⟨out, h, rfl⟩
        obtain ⟨rs, h1, rfl⟩ := (cat_layer hb hl').mp h
        exact ⟨rs, h1, by rw [hfl h1]⟩
      · rintro ⟨rs, h, rfl⟩
        exact ⟨_, (cat_layer hb hl').mpr ⟨rs, h, rfl⟩, by rw [hfl h]⟩
    | name hb hk hi => rw [rd_fx, fx_name hk hi, fx_name hk hi]
    | @generic c l fs fs1 hb hd hk hi hg =>
      have hg' : GenF (Lay E w D) fs fs1 := genF_imp (c := c) (l := l) hg fun x y hx hr =>
        hlay x y (.inr (isAST_isTree (childNodes_isAST hx))) (tidy_child ht hx) (settled_child hset hd hx) hr
      have hi1 := (reassemble ht hset hd hi hk (genF_mono (fun _ _ h => h.once) hg')).2
      have hd1 : isDone (.node c l fs1) = false := by
        cases c with
        | py => rfl
        | marker s =>
          unfold isDone at hd ⊢
          split at hd
          · cases hd
          · cases hd
          · rename_i h1 h2
            split
            · rename_i heq; cases heq; exact absurd rfl (h1 _ _)
            · rename_i heq; cases heq; exact absurd rfl (h2 _ _)
            · rfl
      have hst := stmtsInBlocks_iff.mp (ht.2 _ (.refl _))
      rw [fx_generic hb hd hk hi, rd_fx, fx_generic hb hd1 hk hi1]
      simp only [← rd_fx]
      constructor
      · rintro ⟨fs2, h, rfl⟩; exact ⟨fs2, (genF_layer hb hg' fun f v hm => (hst f v hm).1).mp h, rfl⟩
      · rintro ⟨fs2, h, rfl⟩; exact ⟨fs2, (genF_layer hb hg' fun f v hm => (hst f v hm).1).mpr h, rfl⟩
    | call hb hd hp hbc he hf =>
      rw [fx_call hb hd hp hbc he]
      exact finish_layer hb (exp_good he) hf

end Mcpyrate.Expander.Layers
