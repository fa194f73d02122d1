import Verif.Spec.Fixpoint
import Verif.Lemmas.ExpanderKeeps
import Verif.Lemmas.ExpanderOrder
/-
Recursive expansion leaves no invocations, if no macro returns just the name of a macro.
-/
namespace Mcpyrate.Expander
open Py

variable {υ : Type} {E : Env υ} {w : World υ}

/-! ### invocations depend on the bindings only -/

theorem bindings_isbound {w w' : World υ} (h : bindings w' = bindings w) (k : String) : isbound w' k = isbound w k := by
  simp only [bindings, Prod.mk.injEq] at h
  simp only [isbound, h.1, h.2]

theorem names_world {w w' : World υ} (h : bindings w' = bindings w) {t : Val} : Names E w' t ↔ Names E w t := by
  unfold Names Accepts
  simp only [bindings_isbound h]

theorem invocation_world {w w' : World υ} (h : bindings w' = bindings w) {t : Val} :
    Invocation E w' t ↔ Invocation E w t := by
  constructor
  · intro hi
    cases hi with
    | expr h1 h2 h3 => exact .expr h1 h2 ((names_world h).mp h3)
    | block h1 h2 h3 h4 h5 => exact .block h1 h2 h3 h4 ((names_world h).mp h5)
    | decorator h1 h2 h3 h4 => exact .decorator h1 h2 h3 ((names_world h).mp h4)
    | name h1 h2 h3 h4 h5 => exact .name h1 h2 h3 (by rw [← bindings_isbound h]; exact h4) h5
  · intro hi
    cases hi with
    | expr h1 h2 h3 => exact .expr h1 h2 ((names_world h).mpr h3)
    | block h1 h2 h3 h4 h5 => exact .block h1 h2 h3 h4 ((names_world h).mpr h5)
    | decorator h1 h2 h3 h4 => exact .decorator h1 h2 h3 ((names_world h).mpr h4)
    | name h1 h2 h3 h4 h5 => exact .name h1 h2 h3 (by rw [bindings_isbound h]; exact h4) h5

theorem Candidate.isAST {t : Val} {k : String} {as : List Val} (h : Candidate t k as) : t.isAST = true := by
  cases h with
  | plain hk => exact isK_isAST hk
  | bracket hk => exact isK_isAST hk
  | brackets hk => exact isK_isAST hk
  | parens hk => exact isK_isAST hk

theorem Candidate.isDone {t : Val} {k : String} {as : List Val} (h : Candidate t k as) : isDone t = false := by
  cases h with
  | plain hk => exact isK_isDone hk
  | bracket hk => exact isK_isDone hk
  | brackets hk => exact isK_isDone hk
  | parens hk => exact isK_isDone hk

theorem Names.isAST {t : Val} (h : Names E w t) : t.isAST = true := by
  obtain ⟨_, _, _, hc, _⟩ := h; exact hc.isAST
theorem Names.isDone {t : Val} (h : Names E w t) : isDone t = false := by
  obtain ⟨_, _, _, hc, _⟩ := h; exact hc.isDone

theorem Invocation.isAST {t : Val} (h : Invocation E w t) : t.isAST = true := by
  cases h with
  | expr hk => exact isK_isAST hk
  | block hk => exact isK_isAST hk
  | decorator hk => rcases hk with hk | hk <;> exact isK_isAST hk
  | name hk => exact isK_isAST hk

/-- A check of all nodes. -/
theorem grammatical_of {t : Val} (h : (preorder t).all (fun u => fieldsOk u && nestingOk u) = true) :
    Grammatical t := by
  have key : ∀ u, Reach t u → fieldsOk u = true ∧ nestingOk u = true := by
    intro u hu
    cases hua : u.isAST with
    | true =>
      have := List.all_eq_true.mp h u (reach_mem_preorder hu hua)
      simpa using this
    | false => cases u with
      | const => exact ⟨rfl, rfl⟩
      | list => exact ⟨rfl, rfl⟩
      | node => cases hua
  exact ⟨fun u hu => (key u hu).1, fun u hu => (key u hu).2⟩

theorem NoInvocations.child {t u : Val} (h : NoInvocations E w t) (hd : isDone t = false)
    (hu : u ∈ childNodes t) : NoInvocations E w u := fun s hs => h s (.step hd hu hs)

theorem noInvocations_of {t : Val} (h : isDone t = false → ¬ Invocation E w t)
    (hc : ∀ u ∈ childNodes t, NoInvocations E w u) : NoInvocations E w t := by
  intro u hu
  cases hu with
  | refl _ hd => exact h hd
  | step hd hm ho => exact hc _ hm u ho

theorem noInvocations_done {t : Val} (h : isDone t = true) : NoInvocations E w t := by
  intro u hu
  cases hu with
  | refl _ hd => rw [h] at hd; cases hd
  | step hd => rw [h] at hd; cases hd

theorem noInvocations_unbound {t : Val} (h : noBindings w = true) : NoInvocations E w t := by
  have hn : ∀ k id, isbound w k ≠ some id := by
    intro k id hb
    rw [bound_noBindings hb] at h; cases h
  intro u _ hi
  cases hi with
  | expr _ _ h => obtain ⟨_, _, _, _, _, h, _⟩ := h; exact hn _ _ h
  | block _ _ _ _ h => obtain ⟨_, _, _, _, _, h, _⟩ := h; exact hn _ _ h
  | decorator _ _ _ h => obtain ⟨_, _, _, _, _, h, _⟩ := h; exact hn _ _ h
  | name _ _ _ h => exact hn _ _ h

/-- A name inside an expression that names a macro with arguments. -/
theorem names_cases {t : Val} (h : Names E w t) :
    t.isK .Name = true ∨ Invocation E w t ∨ t.isK .Call = true := by
  obtain ⟨k, as, id, hc, ha⟩ := h
  cases hc with
  | plain hk => exact .inl hk
  | bracket hk hv hvk hi => exact .inr (.inl (.expr hk hv ⟨k, [], id, .plain hvk hi, ha.1, ha.2.1, .inl rfl⟩))
  | brackets hk hv hvk hi => exact .inr (.inl (.expr hk hv ⟨k, [], id, .plain hvk hi, ha.1, ha.2.1, .inl rfl⟩))
  | parens hk => exact .inr (.inr hk)

/-! ### generic_visit -/

/-- The items of a list after `generic_visit`, where `R` relates what is visited to what is returned. -/
inductive GenL (R : Val → Val → Prop) : List Val → List Val → Prop
  | nil : GenL R [] []
  | other {x xs ys} : x.isAST = false → GenL R xs ys → GenL R (x :: xs) (x :: ys)
  | item {x y xs ys} : x.isAST = true → R x y → GenL R xs ys → GenL R (x :: xs) (Markers.spliceResult y ++ ys)
/-- The fields. -/
inductive GenF (R : Val → Val → Prop) : Fields → Fields → Prop
  | nil : GenF R [] []
  | const {f c fs fs'} : GenF R fs fs' → GenF R ((f, .const c) :: fs) ((f, .const c) :: fs')
  | list {f xs ys fs fs'} : GenL R xs ys → GenF R fs fs' → GenF R ((f, .list xs) :: fs) ((f, .list ys) :: fs')
  | node {f v v' fs fs'} : v.isAST = true → R v v' → v'.isNone = false → GenF R fs fs' →
      GenF R ((f, v) :: fs) ((f, v') :: fs')
  | deleted {f v v' fs fs'} : v.isAST = true → R v v' → v'.isNone = true → GenF R fs fs' → GenF R ((f, v) :: fs) fs'

section
variable {R : Val → Val → Prop} {vis : Val → X υ Val} {W G : St υ → Prop}

theorem genericItems_gen (hW : ∀ x s1 r s2, W s1 → vis x s1 = some (r, s2) → W s2 ∧ (G s2 → G s1)) :
    ∀ (xs : List Val) (s s' : St υ) (ys : List Val)
      (_ : ∀ x ∈ xs, x.isAST = true → ∀ s1 y s2, W s1 → vis x s1 = some (.ok y, s2) → G s2 → R x y),
      W s → genericItems vis xs s = some (.ok ys, s') → W s' ∧ (G s' → G s) ∧ (G s' → GenL R xs ys) := by
  intro xs
  induction xs with
  | nil =>
    intro s s' ys hv hs h
    have h' : (some (.ok [], s) : Option (Except Exc (List Val) × St υ)) = some (.ok ys, s') := h
    cases h'
    exact ⟨hs, fun h => h, fun _ => .nil⟩
  | cons x xs ih =>
    intro s s' ys hv hs h
    have hvr := fun y (hy : y ∈ xs) => hv y (List.mem_cons_of_mem _ hy)
    unfold genericItems at h
    cases hx : x.isAST with
    | true =>
      rw [hx, if_pos rfl] at h
      obtain ⟨y, s1, h1, h⟩ := bind_ok h
      obtain ⟨zs, s2, h2, h⟩ := bind_ok h
      have h' : (some (.ok (Markers.spliceResult y ++ zs), s2) : Option (Except Exc (List Val) × St υ)) = some (.ok ys, s') := h
      cases h'
      obtain ⟨w1, g1⟩ := hW _ _ _ _ hs h1
      obtain ⟨w2, g2, r2⟩ := ih s1 _ zs hvr w1 h2
      exact ⟨w2, fun g => g1 (g2 g), fun g => .item hx (hv x (by simp) hx _ _ _ hs h1 (g2 g)) (r2 g)⟩
    | false =>
      rw [hx, if_neg (by simp)] at h
      obtain ⟨zs, s2, h2, h⟩ := bind_ok h
      have h' : (some (.ok (x :: zs), s2) : Option (Except Exc (List Val) × St υ)) = some (.ok ys, s') := h
      cases h'
      obtain ⟨w2, g2, r2⟩ := ih s _ zs hvr hs h2
      exact ⟨w2, g2, fun g => .other hx (r2 g)⟩

theorem genericFields_gen (hW : ∀ x s1 r s2, W s1 → vis x s1 = some (r, s2) → W s2 ∧ (G s2 → G s1)) (c : Cls) (l : Loc) :
    ∀ (fs : Fields) (s s' : St υ) (fs' : Fields)
      (_ : ∀ x ∈ childNodes (.node c l fs), ∀ s1 y s2, W s1 → vis x s1 = some (.ok y, s2) → G s2 → R x y),
      W s → genericFields vis fs s = some (.ok fs', s') → W s' ∧ (G s' → G s) ∧ (G s' → GenF R fs fs') := by
  intro fs
  induction fs with
  | nil =>
    intro s s' ys hv hs h
    have h' : (some (.ok [], s) : Option (Except Exc Fields × St υ)) = some (.ok ys, s') := h
    cases h'
    exact ⟨hs, fun h => h, fun _ => .nil⟩
  | cons p fs ih =>
    intro s s' fs' hv hs h
    obtain ⟨f, v⟩ := p
    have hvr : ∀ x ∈ childNodes (.node c l fs), ∀ s1 y s2, W s1 → vis x s1 = some (.ok y, s2) → G s2 → R x y := by
      intro x hx
      refine hv x ?_
      simp only [childNodes, List.mem_flatMap] at hx ⊢
      obtain ⟨q, hq, hx⟩ := hx
      exact ⟨q, List.mem_cons_of_mem _ hq, hx⟩
    cases v with
    | const k =>
      obtain ⟨zs, s2, h2, h⟩ := bind_ok (m := genericFields vis fs) h
      have h' : (some (.ok ((f, Val.const k) :: zs), s2) : Option (Except Exc Fields × St υ)) = some (.ok fs', s') := h
      cases h'
      obtain ⟨w2, g2, r2⟩ := ih s _ zs hvr hs h2
      exact ⟨w2, g2, fun g => .const (r2 g)⟩
    | list xs =>
      obtain ⟨ys, s1, h1, h⟩ := bind_ok (m := genericItems vis xs) h
      obtain ⟨zs, s2, h2, h⟩ := bind_ok h
      have h' : (some (.ok ((f, Val.list ys) :: zs), s2) : Option (Except Exc Fields × St υ)) = some (.ok fs', s') := h
      cases h'
      obtain ⟨w1, g1, r1⟩ := genericItems_gen hW xs s s1 ys
        (fun x hx hxa => hv x (by simp [childNodes, hx, hxa])) hs h1
      obtain ⟨w2, g2, r2⟩ := ih s1 _ zs hvr w1 h2
      exact ⟨w2, fun g => g1 (g2 g), fun g => .list (r1 (g2 g)) (r2 g)⟩
    | node c' l' gs =>
      obtain ⟨y, s1, h1, h⟩ := bind_ok (m := vis (.node c' l' gs)) h
      obtain ⟨zs, s2, h2, h⟩ := bind_ok h
      have h' : (some (.ok (if y.isNone then zs else (f, y) :: zs), s2) : Option (Except Exc Fields × St υ)) = some (.ok fs', s') := h
      cases h'
      obtain ⟨w1, g1⟩ := hW _ _ _ _ hs h1
      obtain ⟨w2, g2, r2⟩ := ih s1 _ zs hvr w1 h2
      refine ⟨w2, fun g => g1 (g2 g), fun g => ?_⟩
      have hr := hv (.node c' l' gs) (by simp [childNodes]) _ _ _ hs h1 (g2 g)
      cases hy : y.isNone with
      | true => exact .deleted rfl hr hy (r2 g)
      | false => exact .node rfl hr hy (r2 g)

end

theorem visitElts_gen {R : Val → Val → Prop} {vis : Val → X υ Val} {W G : St υ → Prop}
    (hW : ∀ x s1 r s2, W s1 → vis x s1 = some (r, s2) → W s2 ∧ (G s2 → G s1)) :
    ∀ (xs : List Val) (s s' : St υ) (ys : List Val)
      (_ : ∀ x ∈ xs, ∀ s1 y s2, W s1 → vis x s1 = some (.ok y, s2) → G s2 → R x y),
      W s → visitElts vis xs s = some (.ok ys, s') → W s' ∧ (G s' → G s) ∧ (G s' → ∀ y ∈ ys, ∃ x ∈ xs, R x y) := by
  intro xs
  induction xs with
  | nil =>
    intro s s' ys hv hs h
    have h' : (some (.ok [], s) : Option (Except Exc (List Val) × St υ)) = some (.ok ys, s') := h
    cases h'
    exact ⟨hs, fun h => h, fun _ y hy => by cases hy⟩
  | cons x xs ih =>
    intro s s' ys hv hs h
    obtain ⟨y, s1, h1, h⟩ := bind_ok (m := vis x) h
    obtain ⟨zs, s2, h2, h⟩ := bind_ok h
    have h' : (some (.ok (y :: zs), s2) : Option (Except Exc (List Val) × St υ)) = some (.ok ys, s') := h
    cases h'
    obtain ⟨w1, g1⟩ := hW _ _ _ _ hs h1
    obtain ⟨w2, g2, r2⟩ := ih s1 _ zs (fun y hy => hv y (by simp [hy])) w1 h2
    refine ⟨w2, fun g => g1 (g2 g), fun g z hz => ?_⟩
    rcases List.mem_cons.mp hz with rfl | hz
    · exact ⟨x, by simp, hv x (by simp) _ _ _ hs h1 (g2 g)⟩
    · obtain ⟨x', h3, h4⟩ := r2 g z hz
      exact ⟨x', by simp [h3], h4⟩

theorem GenL.mem {R : Val → Val → Prop} {xs ys : List Val} {u : Val} (h : GenL R xs ys) (hu : u ∈ ys) :
    (u ∈ xs ∧ u.isAST = false) ∨ ∃ x ∈ xs, ∃ y, x.isAST = true ∧ R x y ∧ u ∈ Markers.spliceResult y := by
  induction h with
  | nil => cases hu
  | other hx _ ih =>
    rcases List.mem_cons.mp hu with rfl | hu
    · exact .inl ⟨by simp, hx⟩
    · rcases ih hu with ⟨h1, h2⟩ | ⟨x, h1, h2⟩
      · exact .inl ⟨by simp [h1], h2⟩
      · exact .inr ⟨x, by simp [h1], h2⟩
  | item hx hr _ ih =>
    rcases List.mem_append.mp hu with hu | hu
    · exact .inr ⟨_, by simp, _, hx, hr, hu⟩
    · rcases ih hu with ⟨h1, h2⟩ | ⟨x, h1, h2⟩
      · exact .inl ⟨by simp [h1], h2⟩
      · exact .inr ⟨x, by simp [h1], h2⟩

theorem GenL.nil_iff {R : Val → Val → Prop} {xs ys : List Val} (h : GenL R xs ys)
    (hne : ∀ x ∈ xs, x.isAST = true → ∀ y, R x y → Markers.spliceResult y ≠ []) : ys = [] ↔ xs = [] := by
  cases h with
  | nil => simp
  | other => simp
  | item hx hr _ =>
    have := hne _ (by simp) hx _ hr
    simp [this]

theorem GenF.child {R : Val → Val → Prop} {fs fs' : Fields} {u : Val} {c : Cls} {l l' : Loc} (h : GenF R fs fs')
    (hu : u ∈ childNodes (.node c l' fs')) :
    ∃ x ∈ childNodes (.node c l fs), ∃ y, R x y ∧ u ∈ Markers.spliceResult y := by
  induction h with
  | nil => cases hu
  | const _ ih =>
    simp only [childNodes, List.flatMap_cons, List.nil_append] at hu ih ⊢
    exact ih hu
  | list hl _ ih =>
    simp only [childNodes, List.flatMap_cons, List.mem_append] at hu ih ⊢
    rcases hu with hu | hu
    · rw [List.mem_filter] at hu
      rcases hl.mem hu.1 with ⟨_, h2⟩ | ⟨x, h1, y, h2, h3, h4⟩
      · rw [hu.2] at h2; cases h2
      · exact ⟨x, .inl (List.mem_filter.mpr ⟨h1, h2⟩), y, h3, h4⟩
    · obtain ⟨x, h1, h2⟩ := ih hu
      exact ⟨x, .inr h1, h2⟩
  | node hv hr hn _ ih =>
    rename_i f v v' fs fs' _
    simp only [childNodes, List.flatMap_cons, List.mem_append] at hu ih ⊢
    rcases hu with hu | hu
    · refine ⟨v, .inl ?_, v', hr, ?_⟩
      · cases v <;> simp_all [Val.isAST]
      · cases v' with
        | const k => cases hu
        | list ys => exact (List.mem_filter.mp hu).1
        | node c l gs => simpa [Markers.spliceResult] using hu
    · obtain ⟨x, h1, h2⟩ := ih hu
      exact ⟨x, .inr h1, h2⟩
  | deleted hv hr hn _ ih =>
    simp only [childNodes, List.flatMap_cons, List.mem_append] at hu ih ⊢
    obtain ⟨x, h1, h2⟩ := ih hu
    exact ⟨x, .inr h1, h2⟩

/-- A list-valued field stays one. -/
theorem GenF.lookupList {R : Val → Val → Prop} {fs fs' : Fields} {f : F} {xs : List Val} (h : GenF R fs fs')
    (hf : fs.lookup f = some (.list xs)) : ∃ ys, fs'.lookup f = some (.list ys) ∧ GenL R xs ys := by
  induction h with
  | nil => cases hf
  | const _ ih =>
    rename_i g c _ _ _
    by_cases hg : f = g
    · subst hg; simp at hf
    · have hb : (f == g) = false := by simpa using hg
      simp only [List.lookup, hb] at hf ⊢
      exact ih hf
  | list hl _ ih =>
    rename_i g zs ys _ _ _
    by_cases hg : f = g
    · subst hg
      simp only [List.lookup, beq_self_eq_true, Option.some.injEq, Val.list.injEq] at hf ⊢
      subst hf; exact ⟨ys, rfl, hl⟩
    · have hb : (f == g) = false := by simpa using hg
      simp only [List.lookup, hb] at hf ⊢
      exact ih hf
  | node hv hr hn _ ih =>
    rename_i g v v' _ _ _
    by_cases hg : f = g
    · subst hg
      simp only [List.lookup, beq_self_eq_true, Option.some.injEq] at hf
      subst hf; cases hv
    · have hb : (f == g) = false := by simpa using hg
      simp only [List.lookup, hb] at hf ⊢
      exact ih hf
  | deleted hv hr hn _ ih =>
    rename_i g v v' _ _ _
    by_cases hg : f = g
    · subst hg
      simp only [List.lookup, beq_self_eq_true, Option.some.injEq] at hf
      subst hf; cases hv
    · have hb : (f == g) = false := by simpa using hg
      simp only [List.lookup, hb] at hf
      exact ih hf

/-- What became of the value of a field. -/
inductive Image (R : Val → Val → Prop) : Val → Val → Prop
  | const {c} : Image R (.const c) (.const c)
  | list {xs ys} : GenL R xs ys → Image R (.list xs) (.list ys)
  | node {v v'} : v.isAST = true → R v v' → Image R v v'

/-- If nothing is deleted, fields correspond. -/
theorem GenF.lookup {R : Val → Val → Prop} {fs fs' : Fields} {f : F} {v' : Val} {c : Cls} {l : Loc} (h : GenF R fs fs')
    (hd : ∀ x ∈ childNodes (.node c l fs), ∀ y, R x y → y.isNone = false) (hf : fs'.lookup f = some v') :
    ∃ v, fs.lookup f = some v ∧ Image R v v' := by
  induction h with
  | nil => cases hf
  | const _ ih =>
    rename_i g k _ _ _
    have ih := ih fun x hx => hd x (by
      simp only [childNodes, List.flatMap_cons, List.nil_append] at hx ⊢; exact hx)
    by_cases hg : f = g
    · subst hg
      simp only [List.lookup, beq_self_eq_true, Option.some.injEq] at hf ⊢
      subst hf; exact ⟨_, rfl, .const⟩
    · have hb : (f == g) = false := by simpa using hg
      simp only [List.lookup, hb] at hf ⊢
      exact ih hf
  | list hl _ ih =>
    rename_i g zs ys _ _ _
    have ih := ih fun x hx => hd x (by
      simp only [childNodes, List.flatMap_cons, List.mem_append] at hx ⊢; exact .inr hx)
    by_cases hg : f = g
    · subst hg
      simp only [List.lookup, beq_self_eq_true, Option.some.injEq] at hf ⊢
      subst hf; exact ⟨_, rfl, .list hl⟩
    · have hb : (f == g) = false := by simpa using hg
      simp only [List.lookup, hb] at hf ⊢
      exact ih hf
  | node hv hr hn _ ih =>
    rename_i g v v' _ _ _
    have ih := ih fun x hx => hd x (by
      simp only [childNodes, List.flatMap_cons, List.mem_append] at hx ⊢; exact .inr hx)
    by_cases hg : f = g
    · subst hg
      simp only [List.lookup, beq_self_eq_true, Option.some.injEq] at hf ⊢
      subst hf; exact ⟨_, rfl, .node hv hr⟩
    · have hb : (f == g) = false := by simpa using hg
      simp only [List.lookup, hb] at hf ⊢
      exact ih hf
  | deleted hv hr hn _ ih =>
    rename_i g v v' _ _ _
    refine absurd (hd v ?_ v' hr) (by rw [hn]; simp)
    simp only [childNodes, List.flatMap_cons, List.mem_append]
    left
    cases v <;> simp_all [Val.isAST]

/-! ### what a visit returns -/

/-- `u` has no invocations; and if it is the name of a macro, that comes from `x`. -/
structure FineAt (E : Env υ) (w : World υ) (x u : Val) : Prop where
  isAST : u.isAST = true
  clean : NoInvocations E w u
  name : u.isK .Name = true → Names E w u → u = x
  names : Names E w u → BareName E w x

/-- Visiting the node `x` may give `y`. -/
structure Fine (E : Env υ) (w : World υ) (x y : Val) : Prop where
  all : ∀ u ∈ Markers.spliceResult y, FineAt E w x u
  nonempty : isMacroStmt x = false → Markers.spliceResult y ≠ []
  item : x.isK .withitem = true → y.isK .withitem = true ∧ ∀ c', y.get? .context_expr = some c' → Names E w c' →
    ∃ c, x.get? .context_expr = some c ∧ Names E w c

theorem spliceResult_node {y : Val} (h : y.isAST = true) : Markers.spliceResult y = [y] := by
  cases y <;> first | rfl | cases h

theorem spliceResult_some {y : Val} (h : Markers.spliceResult y ≠ []) : y.isNone = false := by
  cases y with
  | const c => cases c <;> first | rfl | exact absurd rfl h
  | list | node => rfl

theorem Fine.self {x : Val} (h : FineAt E w x x) : Fine E w x x := by
  refine ⟨fun u hu => ?_, fun _ => ?_, fun hk => ⟨hk, fun c' h1 h2 => ⟨c', h1, h2⟩⟩⟩
  · rw [spliceResult_node h.isAST] at hu
    rcases List.mem_singleton.mp hu with rfl
    exact h
  · rw [spliceResult_node h.isAST]; simp

/-- A node is put together again from the results for its children. -/
theorem reassemble {c : Cls} {l : Loc} {fs fs' : Fields} (hg : Grammatical (.node c l fs))
    (hn : ¬ Invocation E w (.node c l fs)) (hname : c ≠ .py .Name) (h : GenF (Fine E w) fs fs') :
    Fine E w (.node c l fs) (.node c l fs') := by
  have hwf := hg.1
  have hnest := hg.2 _ (.refl _)
  have hisK : ∀ k, (Val.node c l fs').isK k = (Val.node c l fs).isK k := fun k => by cases c <;> rfl
  have hdel : ((Val.node c l fs).isK .Subscript || (Val.node c l fs).isK .Call || (Val.node c l fs).isK .withitem) = true →
      ∀ x ∈ childNodes (.node c l fs), isMacroStmt x = false := by
    intro hk x hx
    simp only [nestingOk, hk, Bool.not_true, Bool.false_or, Bool.and_eq_true] at hnest
    have := List.all_eq_true.mp hnest.1.1 x hx
    simpa using this
  have hfield : ((Val.node c l fs).isK .Subscript || (Val.node c l fs).isK .Call || (Val.node c l fs).isK .withitem) = true →
      ∀ {f v'}, (Val.node c l fs').get? f = some v' → ∃ v, (Val.node c l fs).get? f = some v ∧ Image (Fine E w) v v' := by
    intro hk f v' hv
    exact h.lookup (c := c) (l := l) (fun x hx y hy => spliceResult_some (hy.nonempty (hdel hk x hx))) hv
  have himg : ∀ {v v'}, Image (Fine E w) v v' → Names E w v' → FineAt E w v v' := by
    intro v v' hi hv
    cases hi with
    | const => cases hv.isAST
    | list => cases hv.isAST
    | node _ hr => exact hr.all v' (by rw [spliceResult_node hv.isAST]; simp)
  -- not an invocation
  have hinv : ¬ Invocation E w (.node c l fs') := by
    intro hi
    cases hi with
    | expr hk hv hcn =>
      rw [hisK] at hk
      obtain ⟨v, h1, h2⟩ := hfield (by simp [hk]) hv
      exact hn (.expr hk h1 ((himg h2 hcn).names hcn).1)
    | block hk hi him hic hcn =>
      rw [hisK] at hk
      obtain ⟨items, h1, h2⟩ := hwf.withItems hk
      obtain ⟨ys, h3, h4⟩ := h.lookupList h1
      have : (Val.node c l fs').get? .items = some (.list ys) := h3
      rw [hi] at this; cases this
      rcases h4.mem him with ⟨h5, h6⟩ | ⟨x, h5, y, h6, h7, h8⟩
      · rw [isK_isAST (h2 _ h5).1] at h6; cases h6
      · obtain ⟨h9, h10⟩ := h7.item (h2 x h5).1
        rw [spliceResult_node (isK_isAST h9)] at h8
        rcases List.mem_singleton.mp h8 with rfl
        obtain ⟨c0, h11, h12⟩ := h10 _ hic hcn
        exact hn (.block hk h1 h5 h11 h12)
    | decorator hk hi him hcn =>
      rw [hisK, hisK] at hk
      obtain ⟨items, h1⟩ := hwf.decorators hk
      obtain ⟨ys, h3, h4⟩ := h.lookupList h1
      have : (Val.node c l fs').get? .decorator_list = some (.list ys) := h3
      rw [hi] at this; cases this
      rcases h4.mem him with ⟨h5, h6⟩ | ⟨x, h5, y, h6, h7, h8⟩
      · rw [hcn.isAST] at h6; cases h6
      · exact hn (.decorator hk h1 h5 ((h7.all _ h8).names hcn).1)
    | name hk =>
      rw [hisK] at hk
      obtain ⟨l', fs0, he⟩ := isK_eq hk
      cases he; exact hname rfl
  have hclean : NoInvocations E w (.node c l fs') := by
    refine noInvocations_of (fun _ => hinv) fun u hu => ?_
    obtain ⟨x, _, y, h2, h3⟩ := h.child (l := l) hu
    exact (h2.all u h3).clean
  refine ⟨fun u hu => ?_, fun _ => by simp [Markers.spliceResult], fun hk => ⟨by rw [hisK]; exact hk, fun c' h1 h2 => ?_⟩⟩
  · rcases List.mem_singleton.mp (show u ∈ [Val.node c l fs'] from hu) with rfl
    refine ⟨rfl, hclean, fun hk => ?_, fun hnm => ?_⟩
    · rw [hisK] at hk
      obtain ⟨l', fs0, he⟩ := isK_eq hk
      cases he; exact absurd rfl hname
    · refine ⟨?_, hn⟩
      rcases names_cases hnm with hk | hi | hk
      · rw [hisK] at hk
        obtain ⟨l', fs0, he⟩ := isK_eq hk
        cases he; exact absurd rfl hname
      · exact absurd hi hinv
      · obtain ⟨k, as, id, hc, ha⟩ := hnm
        cases hc with
        | plain hk' => exact absurd (isK_inj hk hk') (by decide)
        | bracket hk' => exact absurd (isK_inj hk hk') (by decide)
        | brackets hk' => exact absurd (isK_inj hk hk') (by decide)
        | parens _ hv hvk hi hkws hne he =>
          rw [hisK] at hk
          have hk' := hk
          have hch := hdel (by simp [hk])
          obtain ⟨v0, h1, h2⟩ := hfield (by simp [hk]) hv
          have hnv := himg h2 ⟨k, [], id, .plain hvk hi, ha.1, ha.2.1, .inl rfl⟩
          have := hnv.name hvk ⟨k, [], id, .plain hvk hi, ha.1, ha.2.1, .inl rfl⟩
          subst this
          have hnil : ∀ {f xs ys}, (Val.node c l fs).get? f = some (.list xs) → GenL (Fine E w) xs ys → (ys = [] ↔ xs = []) := by
            intro f xs ys hf hl
            exact hl.nil_iff fun x hx hxa y hy => hy.nonempty (hch x (get?_list_child hf hx hxa))
          obtain ⟨kws0, h3, h4⟩ := hfield (by simp [hk]) hkws
          have hk0 : kws0 = .list [] ∨ kws0 = .none := by
            cases h4 with
            | const => exact hne
            | list hl =>
              rcases hne with hne | hne
              · cases hne
                exact .inl (by rw [(hnil h3 hl).mp rfl])
              · cases hne
            | node hva hr =>
              have h5 := hr.nonempty (hch _ (get?_child h3 hva))
              rcases hne with rfl | rfl
              · exact absurd rfl h5
              · exact absurd rfl h5
          obtain ⟨as0, h5, h6⟩ := hfield (by simp [hk]) he
          obtain ⟨l0, fs0, he0⟩ := isK_eq hk
          have hf := hwf.self
          rw [he0] at hf
          simp only [fieldsOk, Bool.and_eq_true, hasList] at hf
          rw [← he0, h5] at hf
          cases h6 with
          | node hva _ => cases as0 <;> simp_all [Val.isAST]
          | list hl =>
            refine ⟨k, _, id, .parens hk h1 hvk hi h3 hk0 h5, ha.1, ha.2.1, ?_⟩
            rcases ha.2.2 with rfl | hp
            · exact .inl ((hnil h5 hl).mp rfl)
            · exact .inr hp
  · obtain ⟨v, h3, h4⟩ := hfield (by simp [hk]) h1
    exact ⟨v, h3, ((himg h4 h2).names h2).1⟩

/-! ### changes of locations and contexts -/

theorem Like.invocation {t u : Val} (h : Like t u) (hi : Invocation E w t) : Invocation E w u := by
  cases hi with
  | expr hk hv hn =>
    obtain ⟨v', h1, h2⟩ := h.get (by decide) hv
    exact .expr (by rw [h.isK]; exact hk) h1 (h2.names.mpr hn)
  | block hk hi him hic hn =>
    obtain ⟨v', h1, h2⟩ := h.get (by decide) hi
    obtain ⟨ys, rfl, h3⟩ := h2.list_inv
    obtain ⟨y, h4, h5⟩ := h3.mem' him
    obtain ⟨c', h6, h7⟩ := h5.get (by decide) hic
    exact .block (by rw [h.isK]; exact hk) h1 h4 h6 (h7.names.mpr hn)
  | decorator hk hi him hn =>
    obtain ⟨v', h1, h2⟩ := h.get (by decide) hi
    obtain ⟨ys, rfl, h3⟩ := h2.list_inv
    obtain ⟨y, h4, h5⟩ := h3.mem' him
    exact .decorator (by rw [h.isK, h.isK]; exact hk) h1 h4 (h5.names.mpr hn)
  | name h1 h2 h3 h4 h5 => exact .name (by rw [h.isK]; exact h1) (h.strField (by decide) h2) h3 h4 h5

theorem Like.bareName {t u : Val} (h : Like t u) (hb : BareName E w u) : BareName E w t :=
  ⟨h.names.mp hb.1, fun hi => hb.2 (h.invocation hi)⟩

theorem Like.roots {t u y : Val} (h : Like t u) (hy : y ∈ roots u) : ∃ x ∈ roots t, Like x y := by
  cases h with
  | const c => exact ⟨_, List.mem_singleton.mpr rfl, by rw [List.mem_singleton.mp hy]; exact .const c⟩
  | list hl => exact hl.mem hy
  | node hF hc => exact ⟨_, List.mem_singleton.mpr rfl, by rw [List.mem_singleton.mp hy]; exact .node hF hc⟩

theorem Like.isMacroStmt {t u : Val} (h : Like t u) : isMacroStmt u = isMacroStmt t := by
  simp only [Expander.isMacroStmt, h.isK]

theorem Like.isCtxNode {t u : Val} (h : Like t u) (ht : isCtxNode t = true) : isCtxNode u = true := by
  cases h with
  | const | list => cases ht
  | node hF =>
    unfold Expander.isCtxNode at ht
    split at ht
    all_goals first | cases ht | skip
    all_goals
      rename_i he
      cases he
      cases hF with
      | nil => rfl
      | extra hc => cases hc

theorem Like.nestingOk {t u : Val} (h : Like t u) (ht : nestingOk t = true) : nestingOk u = true := by
  simp only [Expander.nestingOk, Bool.and_eq_true, Bool.or_eq_true, Bool.not_eq_true', h.isK] at ht ⊢
  refine ⟨⟨ht.1.1.imp id fun ha => ?_, ht.1.2.imp id fun hb => h.hasField (by decide) hb⟩, ht.2.imp id fun ha => ?_⟩
  all_goals
    rw [List.all_eq_true] at ha ⊢
    intro y hy
    rcases h.child hy with ⟨x, hx, hxy⟩ | ⟨s, hs, rfl⟩
  · rw [hxy.isMacroStmt]; exact ha x hx
  · rcases hs with rfl | rfl | rfl <;> rfl
  · exact hxy.isCtxNode (ha x hx)
  · rcases hs with rfl | rfl | rfl <;> rfl

theorem noInvocations_ctx {t : Val} (h : isCtxNode t = true) : NoInvocations E w t := by
  unfold isCtxNode at h
  split at h
  all_goals first | cases h | skip
  all_goals
    refine noInvocations_of (fun _ hi => ?_) (by simp [childNodes])
    cases hi with
    | expr hk => cases hk
    | block hk => cases hk
    | decorator hk => rcases hk with hk | hk <;> cases hk
    | name hk => cases hk

theorem Grammatical.like {t u : Val} (ht : Grammatical t) (h : Like t u) : Grammatical u := by
  refine ⟨ht.1.like h, fun v hv => ?_⟩
  have ht2 := ht.2
  clear ht
  induction hv generalizing t with
  | refl u => exact h.nestingOk (ht2 _ (.refl _))
  | step hc hr ih =>
    rcases h.child (child_mem hc) with ⟨x, hx, hxy⟩ | ⟨s, hs, rfl⟩
    · exact ih hxy fun v hv => ht2 v (.step (childNodes_child hx) hv)
    · cases hr with
      | refl => rcases hs with rfl | rfl | rfl <;> rfl
      | step hc' _ =>
        have := child_mem hc'
        simp [childNodes] at this

theorem Grammatical.child {t u : Val} (h : Grammatical t) (hu : u ∈ childNodes t) : Grammatical u :=
  ⟨h.1.child hu, fun v hv => h.2 v (.step (childNodes_child hu) hv)⟩

/-! ### the run -/

/-- Log entries of `s` are in the log of `s'`. -/
theorem Frame.logMem {s s' : St υ} (h : Frame s s') {e : App} (he : e ∈ s.log) : e ∈ s'.log := by
  obtain ⟨l, hl⟩ := h.log
  rw [hl]; exact List.mem_append_left _ he

/-- `applyMacro` returned: the application was logged and the macro function returned this. -/
theorem applyMacro_out {n : Nat} {id : Nat} {k : String} {a : MArgs} {s s1 : St υ} {ret : Ret}
    (h : applyMacro E (visit E n) id k a s = some (.ok ret, s1)) :
    entry k id a s ∈ s1.log ∧
      ∃ s0, run (visit E n) ((E.macros id).fn a) (enterMacro k id a s) = some (.ok ret, s0) := by
  have hv := visit_pres (frame_rel (υ := υ)) E.all_true n
  unfold applyMacro at h
  rw [run_get] at h
  obtain ⟨_, s2, h2, h⟩ := bind_ok h
  cases h2
  obtain ⟨ret', s3, h3, h⟩ := bind_ok h
  have f3 := runNested_pres frame_rel hv _ (Prog.all_true _) _ _ _ h3
  obtain ⟨s0, hr, hs3⟩ := bracket_some h3
  have hm : entry k id a s ∈ s3.log := f3.logMem (by simp [entry])
  rw [run_get] at h
  cases hh3 : s3.hook with
  | none =>
    rw [hh3] at h
    have h' : (some (.ok ret', s3) : Option (Except Exc Ret × St υ)) = some (.ok ret, s1) := h
    cases h'; exact ⟨hm, s0, hr⟩
  | some hk =>
    cases hh : s.hook with
    | none => rw [hh3, hh] at h; cases h
    | some hk' =>
    rw [hh3, hh] at h
    obtain ⟨_, s4, h4, h⟩ := bind_ok (m := runNested (visit E n) (E.hooks hk a.invocation ret' k)) h
    have f4 := runNested_pres frame_rel hv _ (Prog.all_true _) _ _ _ h4
    have h' : (some (.ok ret', s4) : Option (Except Exc Ret × St υ)) = some (.ok ret, s1) := h
    cases h'; exact ⟨f4.logMem hm, s0, hr⟩

/-- `expand` returned. -/
theorem expand_out {n : Nat} {id : Nat} {k : String} {a : MArgs} {s s' : St υ} {r : Val}
    (hE : E.Keeps bindings) (hb : isbound s.world k = some id)
    (h : expand E (visit E n) k a s = some (.ok r, s')) :
    ∃ v s1, entry k id a s ∈ s1.log ∧ Returns E s.world (entry k id a s) v ∧ Frame s s1 ∧ Frame s1 s' ∧
      bindings s1.world = bindings s.world ∧ (v = .none ∨ v.isTree = true) ∧
      ((v = .none ∧ r = .none ∧ s' = s1) ∨
        ∃ m e2, v.isTree = true ∧ Like v m ∧ Like m e2 ∧
          if s.recursive then visit E n e2 s1 = some (.ok r, s') else r = e2 ∧ s' = s1) := by
  have hR := keeps_rel (υ := υ) bindings_local
  have hv := visit_keeps bindings_local hE n
  unfold expand at h
  obtain ⟨r1, s1, h1, h⟩ := bind_ok h
  cases r1 with
  | error e => cases h
  | ok v =>
    have h1' : expandTry E (visit E n) k a s = some (.ok v, s1) := by
      simp only [M.attempt] at h1
      cases ht : expandTry E (visit E n) k a s with
      | none => rw [ht] at h1; cases h1
      | some p => rw [ht] at h1; obtain ⟨x, y⟩ := p; cases h1; rfl
    have f1 : Frame s s1 := expandTry_pres frame_rel.toStep
      (user_pres frame_rel (visit_pres frame_rel E.all_true n) E.all_true) _ _ _ _ _ h1'
    have b1 := expandTry_pres hR.toStep (keeps_user bindings_local hE _ hv) _ _ _ _ _ h1'
    unfold expandTry at h1'
    rw [run_get, hb] at h1'
    obtain ⟨ret, s2, h2, h3⟩ := bind_ok h1'
    cases hc : checkRet ret with
    | none => rw [hc] at h3; cases h3
    | some v' =>
      rw [hc] at h3; cases h3
      obtain ⟨hm, s0, hr⟩ := applyMacro_out h2
      have fr : Frame s1 s' := visitExpansion_pres frame_rel.toStep (visit_pres frame_rel E.all_true n) _ _ _ _ _ h
      refine ⟨v, s1, hm, ⟨n, enterMacro k id a s, s0, ret, rfl, hr, hc⟩, f1, fr, b1, checkRet_shape hc, ?_⟩
      dsimp only at h
      unfold visitExpansion at h
      cases hvn : v.isNone with
      | true =>
        rw [hvn] at h
        have h' : (some (.ok v, s1) : Option (Except Exc Val × St υ)) = some (.ok r, s') := h
        cases h'
        have : r = Val.none := by
          cases r with
          | const c => cases c <;> first | rfl | (simp [Val.isNone] at hvn)
          | list | node => cases hvn
        subst this
        exact .inl ⟨rfl, rfl, rfl⟩
      | false =>
        rw [hvn] at h
        simp only [Bool.false_eq_true, if_false] at h
        obtain ⟨e1, s3, h4, h6⟩ := bind_ok h
        obtain ⟨h4', hs3⟩ := ofExcept_ok h4
        obtain ⟨e2, s4, h5, h7⟩ := bind_ok h6
        obtain ⟨h5', hs4⟩ := ofExcept_ok h5
        rw [hs4, hs3] at h7
        have ht : v.isTree = true := by
          rcases checkRet_shape hc with rfl | ht
          · cases hvn
          · exact ht
        have l1 := like_fixLocations ht (liftErr_ok h4')
        have l2 := like_fixCtx (l1.isTree ht) (liftErr_ok h5')
        refine .inr ⟨e1, e2, ht, l1, l2, ?_⟩
        rw [run_get, f1.recursive] at h7
        cases hrec : s.recursive with
        | true => rw [hrec] at h7; exact h7
        | false =>
          rw [hrec] at h7
          have h' : (some (.ok e2, s1) : Option (Except Exc Val × St υ)) = some (.ok r, s') := h7
          cases h'; exact ⟨rfl, rfl⟩

theorem flattenV_splice {ys : List Val} {u : Val} (hy : ∀ y ∈ ys, ∀ v ∈ Markers.spliceResult y, v.isAST = true)
    (hu : u ∈ Markers.flattenV ys) : ∃ y ∈ ys, u ∈ Markers.spliceResult y := by
  induction ys with
  | nil => cases hu
  | cons y ys ih =>
    simp only [Markers.flattenV, List.mem_append] at hu
    rcases hu with hu | hu
    · refine ⟨y, by simp, ?_⟩
      cases y with
      | list zs =>
        have : Markers.flattenItem (.list zs) = zs := flattenV_nodes (List.all_eq_true.mpr (hy (.list zs) (by simp)))
        rw [this] at hu; exact hu
      | const c => cases c <;> exact hu
      | node c l fs => exact hu
    · obtain ⟨z, h1, h2⟩ := ih (fun z hz => hy z (by simp [hz])) hu
      exact ⟨z, by simp [h1], h2⟩

theorem fineAt_done {x u : Val} (h : isDone u = true) : FineAt E w x u := by
  refine ⟨?_, noInvocations_done h, fun _ hn => ?_, fun hn => ?_⟩
  · unfold isDone at h; split at h <;> first | rfl | cases h
  · rw [hn.isDone] at h; cases h
  · rw [hn.isDone] at h; cases h

/-- All applications made at this level have good outcomes. -/
def AllGood (E : Env υ) (w : World υ) (d : Nat) (s : St υ) : Prop :=
  ∀ e ∈ s.log, e.depth = d → ∀ v, Returns E w e v → GoodExpansion E w e v

theorem AllGood.before {d : Nat} {s s' : St υ} (h : AllGood E w d s') (hf : Frame s s') : AllGood E w d s :=
  fun e he => h e (hf.logMem he)

/-- The expansion of an invocation, visited: it has no invocations, and is not the name of a macro. -/
structure Final (E : Env υ) (w : World υ) (u : Val) : Prop where
  isAST : u.isAST = true
  clean : NoInvocations E w u
  names : ¬ Names E w u

theorem Final.fineAt {x u : Val} (h : Final E w u) : FineAt E w x u :=
  ⟨h.isAST, h.clean, fun _ hn => absurd hn h.names, fun hn => absurd hn h.names⟩

theorem final_done {u : Val} (h : isDone u = true) : Final E w u := by
  refine ⟨?_, noInvocations_done h, fun hn => ?_⟩
  · unfold isDone at h; split at h <;> first | rfl | cases h
  · rw [hn.isDone] at h; cases h

/-- The induction hypothesis for `visit E n`. -/
def VisitFine (E : Env υ) (w : World υ) (n : Nat) : Prop :=
  ∀ t s r s', t.isTree = true → Grammatical t → s.recursive = true → bindings s.world = bindings w →
    visit E n t s = some (.ok r, s') → AllGood E w s.depth s' →
    (∀ u ∈ Markers.spliceResult r, ∃ x ∈ roots t, FineAt E w x u) ∧ (t.isAST = true → Fine E w t r) ∧
      (noBindings w = false → r ≠ .list [])

theorem fineAt_of_notBare {t v u : Val} (hl : ∀ y ∈ roots t, ∃ x ∈ roots v, (BareName E w y → BareName E w x))
    (hnb : ∀ x ∈ roots v, ¬ BareName E w x) (hu : ∃ x ∈ roots t, FineAt E w x u) : Final E w u := by
  obtain ⟨y, hy, hf⟩ := hu
  obtain ⟨x, hx, hxy⟩ := hl y hy
  exact ⟨hf.isAST, hf.clean, fun hn => hnb x hx (hxy (hf.names hn))⟩

/-- The visited expansion. -/
theorem expansion_final {n : Nat} (ih : VisitFine E w n) {v m e2 r : Val} {s1 s' : St υ} (hvt : v.isTree = true)
    (l1 : Like v m) (l2 : Like m e2) (hg : Grammatical v) (hnb : ∀ x ∈ roots v, ¬ BareName E w x)
    (hrec : s1.recursive = true) (hb : bindings s1.world = bindings w) (h : visit E n e2 s1 = some (.ok r, s'))
    (ha : AllGood E w s1.depth s') :
    (∀ u ∈ Markers.spliceResult r, Final E w u) ∧ (e2.isAST = true → Fine E w e2 r) ∧
      (noBindings w = false → r ≠ .list []) := by
  obtain ⟨h1, h2⟩ := ih e2 s1 r s' (l2.isTree (l1.isTree hvt)) ((hg.like l1).like l2) hrec hb h ha
  refine ⟨fun u hu => fineAt_of_notBare (v := v) (fun y hy => ?_) hnb (h1 u hu), h2⟩
  obtain ⟨z, hz, hzy⟩ := l2.roots hy
  obtain ⟨x, hx, hxz⟩ := l1.roots hz
  exact ⟨x, hx, fun hb => hxz.bareName (hzy.bareName hb)⟩

theorem insertCoverage_final {f k : String} {v r : Val} {l : Loc} (h : insertCoverage f k v l = .ok r)
    (hv : ∀ u ∈ Markers.spliceResult v, Final E w u) : ∀ u ∈ Markers.spliceResult r, Final E w u := by
  unfold insertCoverage at h
  split at h
  · cases h; exact hv
  · split at h
    · cases h
    · split at h
      · cases h
        intro u hu
        rcases List.mem_singleton.mp hu with rfl
        exact final_done rfl
      · cases h
        intro u hu
        rcases List.mem_cons.mp hu with rfl | hu
        · exact final_done rfl
        · exact hv u hu
      · cases h
        intro u hu
        rcases List.mem_cons.mp hu with rfl | hu
        · exact final_done rfl
        · exact hv u hu
      · cases h

theorem spliceResult_ne {r : Val} (h1 : r.isNone = false) (h2 : r ≠ .list []) : Markers.spliceResult r ≠ [] := by
  cases r with
  | const c => cases c <;> first | (cases h1; done) | simp [Markers.spliceResult]
  | node c l fs => simp [Markers.spliceResult]
  | list xs =>
    intro h
    have : xs = [] := h
    exact h2 (by rw [this])

/-- The visit of a node that is an invocation. -/
theorem invoked_fine {n : Nat} (hE : E.Keeps bindings) (ih : VisitFine E w n) {t r : Val} {s s' : St υ}
    (hg : Grammatical t) (hrec : s.recursive = true) (hb : bindings s.world = bindings w)
    (hi : Invocation E w t) (h : visitNode E (visit E n) t s = some (.ok r, s')) (ha : AllGood E w s.depth s') :
    Fine E w t r ∧ r ≠ .list [] := by
  have hbody : t.isK .With = true → hasField t .body = true := by
    intro hk
    have := hg.2 _ (.refl _)
    simp only [nestingOk, hk, Bool.not_true, Bool.false_or, Bool.and_eq_true] at this
    exact this.1.2
  obtain ⟨k, id, a, c, hinv⟩ := invocation_invokes hg.1 hbody ((invocation_world hb).mpr hi)
  obtain ⟨hbound, happ, hbad⟩ := visitNode_invokes (vis := visit E n) hg.1 hinv
  have hne : noBindings w = false := by
    rw [bindings_isbound hb] at hbound; exact bound_noBindings hbound
  have hbc : ¬ BadCall c := by
    intro hbc
    rw [hbad hbc] at h; cases h
  have happ := happ hbc
  unfold Applies at happ
  rw [happ] at h
  obtain ⟨v0, s0, h0, h1⟩ := bind_ok h
  have hret : ∀ {v e}, Returns E s.world e v → Returns E w e v := by
    rintro v e ⟨n, s2, s3, ret, h1, h2⟩
    exact ⟨n, s2, s3, ret, h1.trans hb, h2⟩
  have hsyn : (a.synt = .expr ∧ t.isK .Subscript = true) ∨ (a.synt = .name ∧ t.isK .Name = true) ∨
      ((a.synt = .block ∨ a.synt = .decorator) ∧ (isMacroStmt t = true ∧ t.isK .withitem = false)) := by
    cases hinv with
    | expr hk => exact .inl ⟨rfl, hk⟩
    | block hk => exact .inr (.inr ⟨.inl rfl, by simp [isMacroStmt, hk], isK_false hk (by decide)⟩)
    | decorator hk =>
      refine .inr (.inr ⟨.inr rfl, ?_, ?_⟩)
      · rcases hk with hk | hk <;> simp [isMacroStmt, hk]
      · rcases hk with hk | hk <;> exact isK_false hk (by decide)
    | name hk => exact .inr (.inl ⟨rfl, hk⟩)
  have hroot : ∀ y : Val, (∀ u ∈ Markers.spliceResult y, Final E w u) →
      (isMacroStmt t = false → Markers.spliceResult y ≠ []) → t.isK .withitem = false → Fine E w t y := by
    intro y hy hs hwi
    exact ⟨fun u hu => (hy u hu).fineAt, hs, fun hk => by rw [hwi] at hk; cases hk⟩
  -- in recursive mode
  have hmain : a.synt ≠ .name → AllGood E w s.depth s0 →
      (∀ u ∈ Markers.spliceResult v0, Final E w u) ∧ v0 ≠ .list [] := by
    intro hs hag
    unfold expandIn at h0
    rw [if_neg hs] at h0
    obtain ⟨v, s1, hm, hr, f1, f2, b1, hsh, hcase⟩ := expand_out hE hbound h0
    have hgood := hag _ (f2.logMem hm) rfl v (hret hr)
    rcases hcase with ⟨rfl, rfl, rfl⟩ | ⟨m, e2, hvt, l1, l2, hrun⟩
    · exact ⟨fun u hu => (by cases hu), (by simp [Val.none])⟩
    · rw [hrec, if_pos rfl] at hrun
      obtain ⟨h2, -, h3⟩ := expansion_final ih hvt l1 l2 hgood.grammatical hgood.notBare (f1.recursive.trans hrec)
        (b1.trans hb) hrun (by rw [f1.depth]; exact hag)
      exact ⟨h2, h3 hne⟩
  rcases hsyn with ⟨hs, hk⟩ | ⟨hs, hk⟩ | ⟨hs, hst, hwi⟩
  · unfold afterExpand at h1
    rw [hs] at h1
    have h1' : (some (.ok (if v0.isNone then coverageExpr (locOf t) else v0), s0) : Option (Except Exc Val × St υ)) =
        some (.ok r, s') := h1
    cases h1'
    obtain ⟨h2, h3⟩ := hmain (by rw [hs]; decide) ha
    cases hvn : v0.isNone with
    | true =>
      refine ⟨hroot _ (fun u hu => ?_) (fun _ => by simp [coverageExpr, done, Markers.spliceResult])
        (isK_false hk (by decide)), by simp [coverageExpr, done]⟩
      have : u = coverageExpr (locOf t) := by simpa [Markers.spliceResult, coverageExpr, done] using hu
      rw [this]; exact final_done rfl
    | false =>
      exact ⟨hroot _ h2 (fun _ => spliceResult_ne hvn h3) (isK_false hk (by decide)), h3⟩
  · unfold afterExpand at h1
    rw [hs] at h1
    unfold expandIn at h0
    rw [if_pos hs] at h0
    obtain ⟨s0', h0', hs0⟩ := bracket_some h0
    obtain ⟨v, s1, hm, hr, f1, f2, b1, hsh, hcase⟩ := expand_out (s := { s with recursive := false }) hE hbound h0'
    have hdone : ∀ y, isDone y = true → Fine E w t y ∧ y ≠ .list [] := by
      intro y hy
      refine ⟨hroot _ (fun u hu => ?_) (fun _ => ?_) (isK_false hk (by decide)), by rintro rfl; cases hy⟩
      · have hya : y.isAST = true := (final_done (E := E) (w := w) hy).isAST
        rw [spliceResult_node hya] at hu
        rw [List.mem_singleton.mp hu]; exact final_done hy
      · rw [spliceResult_node (final_done (E := E) (w := w) hy).isAST]; simp
    rcases hcase with ⟨rfl, rfl, rfl⟩ | ⟨m, e2, hvt, l1, l2, hrun⟩
    · have h1' : (some (.ok (coverageExpr (locOf t)), s0) : Option (Except Exc Val × St υ)) = some (.ok r, s') := h1
      cases h1'
      exact hdone _ rfl
    · simp only [Bool.false_eq_true, if_false] at hrun
      obtain ⟨rfl, rfl⟩ := hrun
      have hvn : v0.isNone = false := by
        rw [l2.isNone, l1.isNone]
        cases v <;> first | rfl | cases hvt
      rw [hvn] at h1
      simp only [Bool.false_eq_true, if_false] at h1
      by_cases hsame : isSameName k v0 = true
      · rw [if_pos hsame] at h1
        have h1' : (some (.ok (done v0), s0) : Option (Except Exc Val × St υ)) = some (.ok r, s') := h1
        cases h1'
        exact hdone _ rfl
      · rw [if_neg hsame, run_get] at h1
        have hs0r : s0.recursive = true := by rw [hs0]; exact hrec
        rw [hs0r, if_pos rfl] at h1
        have f3 : Frame s0 s' := visit_frame E n _ _ _ _ h1
        have hlog : s0.log = s0'.log := by rw [hs0]
        have hgood := ha _ (f3.logMem (by rw [hlog]; exact hm)) rfl v (hret hr)
        have hva : v0.isAST = true ∧ isMacroStmt v0 = false := by
          rcases hgood.name hs with h | ⟨h2, h3⟩
          · rw [← l1.isNone, ← l2.isNone, hvn] at h; cases h
          · exact ⟨by rw [l2.isAST, l1.isAST]; exact h2, by rw [l2.isMacroStmt, l1.isMacroStmt]; exact h3⟩
        have hd0 : s0.depth = s.depth := by rw [hs0]; exact f1.depth
        obtain ⟨h2, h3, h4⟩ := expansion_final ih hvt l1 l2 hgood.grammatical hgood.notBare hs0r
          (by rw [hs0]; exact b1.trans hb) h1 (by rw [hd0]; exact ha)
        exact ⟨hroot _ h2 (fun _ => (h3 hva.1).nonempty hva.2) (isK_false hk (by decide)), h4 hne⟩
  · have hne' : a.synt ≠ .name := by rcases hs with hs | hs <;> rw [hs] <;> decide
    have hins : ∃ l, insertCoverage E.filename k v0 l = .ok r ∧ s' = s0 := by
      unfold afterExpand at h1
      rcases hs with hs | hs <;> rw [hs] at h1 <;> obtain ⟨h2, h3⟩ := ofExcept_ok h1 <;> exact ⟨_, h2, h3⟩
    obtain ⟨l, hins, rfl⟩ := hins
    obtain ⟨h2, h3⟩ := hmain hne' ha
    refine ⟨hroot _ (insertCoverage_final hins h2) (fun h => by rw [hst] at h; cases h) hwi, ?_⟩
    unfold insertCoverage at hins
    split at hins
    · cases hins; exact h3
    · split at hins
      · cases hins
      · split at hins <;> cases hins <;> simp

/-- Every visit. -/
theorem visit_fine (hE : E.Keeps bindings) (n : Nat) : VisitFine E w n := by
  induction n with
  | zero => intro t s r s' _ _ _ _ h; cases h
  | succ n ih =>
    intro t s r s' ht hg hrec hb h ha
    change visitBody E (visit E n) t s = _ at h
    unfold visitBody at h
    rw [run_get] at h
    have hnbw : noBindings s.world = noBindings w := by
      simp only [bindings, Prod.mk.injEq] at hb
      simp only [noBindings, hb.1, hb.2]
    have hself : (isDone t = true ∨ noBindings w = true) → ∀ x ∈ roots t, x.isAST = true → FineAt E w x x := by
      intro hd x hx hxa
      rcases hd with hd | hd
      · have : x = t := by
          cases t with
          | list => cases hd
          | const => cases hd
          | node => exact List.mem_singleton.mp hx
        rw [this]; exact fineAt_done hd
      · refine ⟨hxa, noInvocations_unbound hd, fun _ _ => rfl, fun hn => ?_⟩
        obtain ⟨_, _, _, _, _, hbo, _⟩ := hn
        rw [bound_noBindings hbo] at hd; cases hd
    cases hcond : (noBindings s.world || isDone t) with
    | true =>
      rw [hcond, if_pos rfl] at h
      have h' : (some (.ok t, s) : Option (Except Exc Val × St υ)) = some (.ok r, s') := h
      cases h'
      rw [hnbw, Bool.or_eq_true, or_comm] at hcond
      refine ⟨fun u hu => ⟨u, ?_, ?_⟩, fun hta => .self (hself hcond t ?_ hta), fun hn => ?_⟩
      · cases t with
        | const => cases ht
        | list | node => exact hu
      · cases t with
        | const => cases ht
        | list xs => exact hself hcond u hu (List.all_eq_true.mp ht u hu)
        | node => rcases List.mem_singleton.mp hu with rfl; exact hself hcond _ (List.mem_singleton.mpr rfl) rfl
      · cases t with
        | const | list => cases hta
        | node => exact List.mem_singleton.mpr rfl
      · rintro rfl
        rcases hcond with hd | hd
        · cases hd
        · rw [hn] at hd; cases hd
    | false =>
      rw [hcond, if_neg (by simp)] at h
      simp only [Bool.or_eq_false_iff] at hcond
      have hW : ∀ x s1 r s2, (s1.recursive = true ∧ bindings s1.world = bindings w ∧ s1.depth = s.depth) →
          visit E n x s1 = some (r, s2) → (s2.recursive = true ∧ bindings s2.world = bindings w ∧ s2.depth = s.depth) ∧
            (AllGood E w s.depth s2 → AllGood E w s.depth s1) := by
        intro x s1 r s2 ⟨h1, h2, h3⟩ hv
        have f := visit_frame E n x s1 r s2 hv
        have b := visit_keeps bindings_local hE n x s1 r s2 hv
        exact ⟨⟨f.recursive.trans h1, b.trans h2, f.depth.trans h3⟩, fun hg => hg.before f⟩
      cases t with
      | const => cases ht
      | list xs =>
        have hxs : ∀ x ∈ xs, x.isAST = true := List.all_eq_true.mp ht
        obtain ⟨ys, s1, h1, h2⟩ := bind_ok (m := visitElts (visit E n) xs) h
        have h2' : (some (.ok (if (Markers.flattenV ys).isEmpty then .none else .list (Markers.flattenV ys)), s1) :
            Option (Except Exc Val × St υ)) = some (.ok r, s') := h2
        cases h2'
        have hall := (visitElts_gen (R := Fine E w) (G := AllGood E w s.depth) hW xs s s' ys (fun x hx s1 y s2 hs1 hv hg1 =>
          (ih x s1 y s2 (by have := hxs x hx; cases x <;> simp_all [Val.isAST, Val.isTree])
            (hg.child (List.mem_filter.mpr ⟨hx, hxs x hx⟩)) hs1.1 hs1.2.1 hv (by rw [hs1.2.2]; exact hg1)).2.1 (hxs x hx))
          ⟨hrec, hb, rfl⟩ h1).2.2 ha
        refine ⟨fun u hu => ?_, fun h => (by cases h), fun _ => ?_⟩
        · have hu' : u ∈ Markers.flattenV ys := by
            split at hu
            · cases hu
            · exact hu
          obtain ⟨y, hy, huy⟩ := flattenV_splice (fun y hy v hv => by
            obtain ⟨x, _, hr⟩ := hall y hy
            exact (hr.all v hv).isAST) hu'
          obtain ⟨x, hx, hr⟩ := hall y hy
          exact ⟨x, hx, hr.all u huy⟩
        · split
          · simp [Val.none]
          · rename_i he
            simpa using he
      | node c l fs =>
        have h2 : visitNode E (visit E n) (.node c l fs) s = some (.ok r, s') := h
        have hfine : Fine E w (.node c l fs) r ∧ r ≠ .list [] := by
          by_cases hi : Invocation E w (.node c l fs)
          · exact invoked_fine hE ih hg hrec hb hi h2 ha
          · rw [visitNode_other hg.1 (fun h => hi ((invocation_world hb).mp h))] at h2
            cases hk : (Val.node c l fs).isK .Name with
            | true =>
              rw [hk, if_pos rfl] at h2
              cases h2
              refine ⟨.self ⟨rfl, ?_, fun _ _ => rfl, fun hn => ⟨hn, hi⟩⟩, by simp⟩
              refine noInvocations_of (fun _ => hi) fun u hu => noInvocations_ctx ?_
              have hnest := hg.2 _ (.refl _)
              simp only [nestingOk, hk, Bool.not_true, Bool.false_or, Bool.and_eq_true] at hnest
              exact List.all_eq_true.mp hnest.2 u hu
            | false =>
              rw [hk, if_neg (by simp)] at h2
              obtain ⟨fs', s1, h3, h4⟩ := bind_ok (m := genericFields (visit E n) fs) h2
              have h4' : (some (.ok (.node c l fs'), s1) : Option (Except Exc Val × St υ)) = some (.ok r, s') := h4
              cases h4'
              have hgen := genericFields_gen (R := Fine E w) (G := AllGood E w s.depth) hW c l fs s s' fs' (fun x hx s1 y s2 hs1 hv hg1 =>
                (ih x s1 y s2 (by have := childNodes_isAST hx; cases x <;> simp_all [Val.isAST, Val.isTree])
                  (hg.child hx) hs1.1 hs1.2.1 hv (by rw [hs1.2.2]; exact hg1)).2.1 (childNodes_isAST hx))
                ⟨hrec, hb, rfl⟩ h3
              refine ⟨reassemble hg hi ?_ (hgen.2.2 ha), by simp⟩
              rintro rfl; cases hk
        exact ⟨fun u hu => ⟨_, List.mem_singleton.mpr rfl, hfine.1.all u hu⟩, fun _ => hfine.1, fun _ => hfine.2⟩

end Mcpyrate.Expander
