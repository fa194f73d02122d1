import Verif.Lemmas.Splicing
import Verif.Lemmas.FutureImports
namespace Mcpyrate.Splicing
open Py FutureImports

/-! ### Locations -/

theorem relocate_eq (ref : Loc) (T : List Val) (hT : ∀ x ∈ T, x.isAST = true)
    (hr : FixLocations.Located ref) :
    relocate ref T = .ok (T.map (tmap (FixLocations.out .overwrite) (FixLocations.source ref))) := by
  induction T with
  | nil => rfl
  | cons x T ih =>
    rw [relocate, FixLocations.fixLocations_eq x ref _ (isTree_of_isAST (hT x (by simp))) hr,
      ih fun y hy => hT y (by simp [hy])]
    rfl

theorem relocate_same (ref : Loc) (T : List Val) (hr : ¬ FixLocations.Located ref) :
    relocate ref T = .ok T := by
  induction T with
  | nil => rfl
  | cons x T ih =>
    have hn : ¬ (FixLocations.Attr.has ref.lineno = true ∧ FixLocations.Attr.has ref.colOffset = true) :=
      fun hh => hr ⟨(FixLocations.has_iff _).1 hh.1, (FixLocations.has_iff _).1 hh.2⟩
    rw [relocate, FixLocations.fixLocations, if_pos hn, ih]
    rfl

theorem relocate_spec (ref : Loc) (T : List Val) (hT : ∀ x ∈ T, x.isAST = true) :
    ∃ T', relocate ref T = .ok T' ∧ Relocated ref T T' := by
  by_cases hr : FixLocations.Located ref
  · refine ⟨_, relocate_eq ref T hT hr, ?_⟩
    rw [Relocated, if_pos hr]
    refine ⟨by simp, ?_, ?_⟩
    · rw [List.map_map]
      exact List.map_congr_left fun t _ => FixLocations.erase_tmap _ _ _
    · rw [List.map_map]
      refine List.map_congr_left fun t _ => ?_
      rw [Function.comp_apply, FixLocations.locs_eq, FixLocations.locs_eq,
        FixLocations.locs_tmap _ _ _ (FixLocations.uniform_overwrite _)]
  · exact ⟨T, relocate_same ref T hr, by rw [Relocated, if_neg hr]⟩

/-! ### `__all__` -/

theorem isMagicAll_eq {u : Val} (h : u.isK .Assign = true → ∃ ts, u.get? .targets = some (.list ts) ∧
    ∀ x ∈ ts, x.isK .Name = true → ∃ v, x.get? .id = some v) :
    isMagicAll u = .ok (isAll u) := by
  unfold isMagicAll isAll
  cases hk : u.isK .Assign with
  | false => simp
  | true =>
    obtain ⟨ts, hts, hx⟩ := h hk
    simp only [hts, if_true, Bool.true_and]
    match ts with
    | [] => rfl
    | [x] => exact isPasteExpr_eq (tag := "__all__") (hx x (by simp))
    | _ :: _ :: _ => rfl

theorem extract_all (xs : List Val) (hx : ∀ x ∈ xs, x.isAST = true)
    (h : ∀ u ∈ xs, u.isK .Assign = true → ∃ ts, u.get? .targets = some (.list ts) ∧
      ∀ x ∈ ts, x.isK .Name = true → ∃ v, x.get? .id = some v) :
    extract magicAllRule xs = .ok (xs.filter fun x => !isAll x, xs.filter isAll) := by
  have key : ∀ (xs : List Val) (s : List Val), (∀ x ∈ xs, x.isAST = true) →
      (∀ u ∈ xs, u.isK .Assign = true → ∃ ts, u.get? .targets = some (.list ts) ∧
        ∀ x ∈ ts, x.isK .Name = true → ∃ v, x.get? .id = some v) →
      ∃ rs, rewElts magicAllRule xs s = .ok (rs, s ++ xs.filter isAll) ∧
        Markers.flattenV rs = xs.filter fun x => !isAll x := by
    intro xs
    induction xs with
    | nil => intro s _ _; exact ⟨[], by simp [rewElts], by simp [Markers.flattenV]⟩
    | cons x xs ih =>
      intro s hx h
      obtain ⟨c, l, fs, rfl⟩ := Markers.isAST_eq (hx x (by simp))
      have hm := isMagicAll_eq (h _ (List.mem_cons_self ..))
      cases ha : isAll (.node c l fs) with
      | true =>
        rw [ha] at hm
        obtain ⟨rs, h1, h2⟩ := ih (s ++ [.node c l fs]) (fun y hy => hx y (by simp [hy]))
          fun u hu => h u (by simp [hu])
        refine ⟨.none :: rs, ?_, ?_⟩
        · simp [rewElts, rew, magicAllRule, hm, h1, ha]
        · simp [Markers.flattenV, Markers.flattenItem, h2, ha]
      | false =>
        rw [ha] at hm
        obtain ⟨rs, h1, h2⟩ := ih s (fun y hy => hx y (by simp [hy])) fun u hu => h u (by simp [hu])
        refine ⟨.node c l fs :: rs, ?_, ?_⟩
        · simp [rewElts, rew, magicAllRule, hm, h1, ha]
        · simp [Markers.flattenV, Markers.flattenItem, h2, ha]
  obtain ⟨rs, h1, h2⟩ := key xs [] hx h
  simp [extract, rew, h1, h2]

/-! ### Imports -/

theorem ismacroimport_eq {m : String} {u : Val} (h : u.isK .ImportFrom = true →
    ∃ a as n, u.get? .names = some (.list (a :: as)) ∧ a.get? .name = some n) :
    ismacroimport m u = .ok (isImport m u) := by
  unfold ismacroimport isImport
  cases hk : u.isK .ImportFrom with
  | false => simp
  | true =>
    obtain ⟨a, as, n, h1, h2⟩ := h hk
    simp [h1, h2]

theorem isImport_isK {m : String} {u : Val} (h : isImport m u = true) : u.isK .ImportFrom = true := by
  simp only [isImport, Bool.and_eq_true] at h; exact h.1

/-- No import within an import. -/
def Leaf (us : List Val) : Prop :=
  ∀ c l fs, .node c l fs ∈ us → Val.isK .ImportFrom (.node c l fs) = true →
    ∀ u ∈ preorderF fs, u.isK .ImportFrom = false

theorem Leaf.mono {us vs : List Val} (h : Leaf us) (hs : ∀ v ∈ vs, v ∈ us) : Leaf vs :=
  fun c l fs hm => h c l fs (hs _ hm)

/-- `p` holds of imports only. -/
def OfImports (p : Val → Bool) : Prop := ∀ u, p u = true → u.isK .ImportFrom = true

theorem replaceF_import {p : Val → Bool} {r : Val} (hp : OfImports p) {fs : List (F × Val)}
    (h : ∀ u ∈ preorderF fs, u.isK .ImportFrom = false) : replaceF p r fs = fs := by
  refine replaceF_none p r fs fun u hu => ?_
  cases hpu : p u with
  | false => rfl
  | true => have := hp u hpu; rw [h u hu] at this; cases this

/-- A predicate on imports does not see the replacement of other imports. -/
theorem q_replaceF {p q : Val → Bool} {r : Val} (hp : OfImports p) (hq : OfImports q) {c l fs}
    (h : Val.isK .ImportFrom (.node c l fs) = true → ∀ u ∈ preorderF fs, u.isK .ImportFrom = false) :
    q (.node c l (replaceF p r fs)) = q (.node c l fs) := by
  cases hk : Val.isK .ImportFrom (.node c l fs) with
  | true => rw [replaceF_import hp (h hk)]
  | false =>
    have h1 : q (.node c l fs) = false := by
      cases hx : q (.node c l fs) with
      | false => rfl
      | true => have := hq _ hx; rw [hk] at this; cases this
    have h2 : q (.node c l (replaceF p r fs)) = false := by
      cases hx : q (.node c l (replaceF p r fs)) with
      | false => rfl
      | true =>
        have := hq _ hx
        cases c with
        | marker n => simp [Val.isK] at this
        | py k => rw [show Val.isK .ImportFrom (.node (.py k) l (replaceF p r fs)) =
            Val.isK .ImportFrom (.node (.py k) l fs) from rfl, hk] at this; cases this
    rw [h1, h2]

theorem okNone : okRepl .none := .inr rfl

mutual
theorem filter_replace (p q : Val → Bool) (hp : OfImports p) (hq : OfImports q)
    (hd : ∀ u, p u = true → q u = false) (t : Val) (hl : Leaf (preorder t)) :
    (preorder (replace p .none t)).filter q = (preorder t).filter q := by
  match t with
  | .const _ => rfl
  | .list xs =>
    rw [replace, preorder, preorder, filter_replaceL p q hp hq hd xs (by simpa [preorder] using hl)]
  | .node c l fs =>
    have hlf := hl c l fs (by simp [preorder])
    have hsub : Leaf (preorderF fs) := hl.mono fun v hv => by simp [preorder, hv]
    rw [replace]
    by_cases hpx : p (.node c l fs) = true
    · rw [if_pos hpx]
      have h1 : (preorderF fs).filter q = [] := by
        rw [List.filter_eq_nil_iff]
        intro u hu hqu
        have := hq u hqu
        rw [hlf (hp _ hpx) u hu] at this; cases this
      rw [preorder, preorder, List.filter_cons, hd _ hpx, h1]
      rfl
    · rw [if_neg hpx, preorder, preorder, List.filter_cons, List.filter_cons,
        q_replaceF hp hq hlf, filter_replaceF p q hp hq hd fs hsub]
      split
      · rename_i hqx
        rw [replaceF_import hp (hlf (hq _ hqx))]
      · rfl
theorem filter_replaceF (p q : Val → Bool) (hp : OfImports p) (hq : OfImports q)
    (hd : ∀ u, p u = true → q u = false) (fs : List (F × Val)) (hl : Leaf (preorderF fs)) :
    (preorderF (replaceF p .none fs)).filter q = (preorderF fs).filter q := by
  match fs with
  | [] => rfl
  | (k, .const c) :: rest =>
    simp only [replaceF, preorderF, preorder, List.nil_append]
    exact filter_replaceF p q hp hq hd rest (hl.mono fun v hv => by simp [preorderF, hv])
  | (k, .list xs) :: rest =>
    simp only [replaceF, preorderF, preorder, List.filter_append]
    rw [filter_replaceF p q hp hq hd rest (hl.mono fun v hv => by simp [preorderF, hv]),
      filter_replaceL p q hp hq hd xs (hl.mono fun v hv => by simp [preorderF, preorder, hv])]
  | (k, .node c l gs) :: rest =>
    have h1 := filter_replaceF p q hp hq hd rest (hl.mono fun v hv => by simp [preorderF, hv])
    have h2 := filter_replace p q hp hq hd (.node c l gs) (hl.mono fun v hv => by simp [preorderF, hv])
    rw [replaceF, preorderF, List.filter_append, ← h1, ← h2]
    split
    · rename_i hn
      have : preorder (replace p .none (.node c l gs)) = [] := by
        cases hx : replace p .none (.node c l gs) with
        | const d => rfl
        | list _ => rw [hx] at hn; cases hn
        | node _ _ _ => rw [hx] at hn; cases hn
      rw [this]; rfl
    · rw [preorderF, List.filter_append]
theorem filter_replaceL (p q : Val → Bool) (hp : OfImports p) (hq : OfImports q)
    (hd : ∀ u, p u = true → q u = false) (xs : List Val) (hl : Leaf (preorderL xs)) :
    (preorderL (replaceL p .none xs)).filter q = (preorderL xs).filter q := by
  match xs with
  | [] => rfl
  | .const c :: rest =>
    simp only [replaceL, preorderL]
    exact filter_replaceL p q hp hq hd rest (hl.mono fun v hv => by simp [preorderL, hv])
  | .list _ :: rest =>
    simp only [replaceL, preorderL]
    exact filter_replaceL p q hp hq hd rest (hl.mono fun v hv => by simp [preorderL, hv])
  | .node c l gs :: rest =>
    have h1 := filter_replaceL p q hp hq hd rest (hl.mono fun v hv => by simp [preorderL, hv])
    have h2 := filter_replace p q hp hq hd (.node c l gs) (hl.mono fun v hv => by simp [preorderL, hv])
    rw [replaceL, Markers.preorderL_append, preorderL_inList (replace_okRepl okNone _ rfl),
      preorderL, List.filter_append, List.filter_append, h1, h2]
end

mutual
theorem replace_replace (p q : Val → Bool) (hp : OfImports p) (hq : OfImports q)
    (t : Val) (hl : Leaf (preorder t)) :
    replace q .none (replace p .none t) = replace (fun u => p u || q u) .none t := by
  match t with
  | .const _ => rfl
  | .list xs =>
    rw [replace, replace, replace, replaceL_replaceL p q hp hq xs (by simpa [preorder] using hl)]
  | .node c l fs =>
    have hlf := hl c l fs (by simp [preorder])
    have hsub : Leaf (preorderF fs) := hl.mono fun v hv => by simp [preorder, hv]
    by_cases hpx : p (.node c l fs) = true
    · rw [replace, if_pos hpx, replace, replace]
      simp [hpx]
    · rw [replace, if_neg hpx, replace, q_replaceF hp hq hlf, replaceF_replaceF p q hp hq fs hsub,
        replace]
      simp only [Bool.not_eq_true] at hpx
      simp [hpx]
theorem replaceF_replaceF (p q : Val → Bool) (hp : OfImports p) (hq : OfImports q)
    (fs : List (F × Val)) (hl : Leaf (preorderF fs)) :
    replaceF q .none (replaceF p .none fs) = replaceF (fun u => p u || q u) .none fs := by
  match fs with
  | [] => rfl
  | (k, .const c) :: rest =>
    rw [replaceF, replaceF, replaceF,
      replaceF_replaceF p q hp hq rest (hl.mono fun v hv => by simp [preorderF, hv])]
  | (k, .list xs) :: rest =>
    rw [replaceF, replaceF, replaceF,
      replaceF_replaceF p q hp hq rest (hl.mono fun v hv => by simp [preorderF, hv]),
      replaceL_replaceL p q hp hq xs (hl.mono fun v hv => by simp [preorderF, preorder, hv])]
  | (k, .node c l gs) :: rest =>
    have h1 := replaceF_replaceF p q hp hq rest (hl.mono fun v hv => by simp [preorderF, hv])
    have h2 := replace_replace p q hp hq (.node c l gs) (hl.mono fun v hv => by simp [preorderF, hv])
    rw [replaceF, replaceF, ← h2, ← h1]
    cases hx : replace p .none (.node c l gs) with
    | const d =>
      have hd : d = .none := by
        rw [replace] at hx
        split at hx
        · cases hx; rfl
        · cases hx
      subst hd
      simp [Val.isNone, replace]
    | list ys =>
      rw [replace] at hx
      split at hx <;> cases hx
    | node c' l' gs' =>
      simp only [Val.isNone, Bool.false_eq_true, if_false]
      rw [replaceF]
      simp only [Val.isNone, replace]
theorem replaceL_replaceL (p q : Val → Bool) (hp : OfImports p) (hq : OfImports q)
    (xs : List Val) (hl : Leaf (preorderL xs)) :
    replaceL q .none (replaceL p .none xs) = replaceL (fun u => p u || q u) .none xs := by
  match xs with
  | [] => rfl
  | .const c :: rest =>
    rw [replaceL, replaceL, replaceL,
      replaceL_replaceL p q hp hq rest (hl.mono fun v hv => by simp [preorderL, hv])]
  | .list _ :: rest =>
    rw [replaceL, replaceL, replaceL,
      replaceL_replaceL p q hp hq rest (hl.mono fun v hv => by simp [preorderL, hv])]
  | .node c l gs :: rest =>
    have h1 := replaceL_replaceL p q hp hq rest (hl.mono fun v hv => by simp [preorderL, hv])
    have h2 := replace_replace p q hp hq (.node c l gs) (hl.mono fun v hv => by simp [preorderL, hv])
    rw [replaceL, replaceL, ← h1, ← h2]
    cases hx : replace p .none (.node c l gs) with
    | const d =>
      have hd : d = .none := by
        rw [replace] at hx
        split at hx
        · cases hx; rfl
        · cases hx
      subst hd
      simp [inList, replace]
    | list ys =>
      rw [replace] at hx
      split at hx <;> cases hx
    | node c' l' gs' => simp [inList, replaceL]
end

theorem replaceL_isAST {p : Val → Bool} {r : Val} (hr : okRepl r) {xs : List Val}
    (h : ∀ x ∈ xs, x.isAST = true) : ∀ x ∈ replaceL p r xs, x.isAST = true := by
  induction xs with
  | nil => simp [replaceL]
  | cons y xs ih =>
    obtain ⟨c, l, fs, rfl⟩ := Markers.isAST_eq (h y (by simp))
    intro x hx
    rw [replaceL, List.mem_append] at hx
    rcases hx with hx | hx
    · rcases replace_okRepl (p := p) hr (.node c l fs) rfl with h | h
      · rw [← spliceResult_inList] at hx
        exact Markers.spliceResult_nodes h x hx
      · rw [h] at hx; simp [inList] at hx
    · exact ih (fun z hz => h z (by simp [hz])) x hx

theorem collect_foldl (us s : List Val) : us.foldl (fun s u => s ++ [u]) s = s ++ us := by
  induction us generalizing s with
  | nil => simp
  | cons u us ih => simp [ih]

theorem extract_imports (m : String) (xs : List Val) (hx : ∀ x ∈ xs, x.isAST = true)
    (hl : Leaf (preorderL xs))
    (hn : ∀ u ∈ preorderL xs, u.isK .ImportFrom = true →
      ∃ a as n, u.get? .names = some (.list (a :: as)) ∧ a.get? .name = some n) :
    extract (macroImportRule m) xs =
      .ok (replaceL (isImport m) .none xs, (preorderL xs).filter (isImport m)) := by
  have hd : Decides (macroImportRule m) (isImport m) .none (fun s u => s ++ [u])
      (preorder (.list xs)) := by
    intro u hu s
    rw [preorder] at hu
    simp only [macroImportRule, ismacroimport_eq (hn u hu)]
    cases isImport m u <;> simp
  have h := rew_eq _ _ _ _ okNone (.list xs) (Markers.isTree_list.2 hx) [] hd
  rw [extract, h, replace]
  simp only [collect_foldl, List.nil_append, outermost]
  rw [outermostL_eq]
  intro c l gs hm hp u hu
  cases hq : isImport m u with
  | false => rfl
  | true =>
    have := isImport_isK hq
    rw [hl c l gs hm (isImport_isK hp) u hu] at this; cases this

/-- What the two extractions of imports do. -/
theorem extract_both (xs : List Val) (hx : ∀ x ∈ xs, x.isAST = true) (hl : Leaf (preorderL xs))
    (hn : ∀ u ∈ preorderL xs, u.isK .ImportFrom = true →
      ∃ a as n, u.get? .names = some (.list (a :: as)) ∧ a.get? .name = some n) :
    ∃ ys, extract (macroImportRule "dialects") xs = .ok (ys, imports "dialects" xs) ∧
      extract (macroImportRule "macros") ys = .ok (strip xs, imports "macros" xs) := by
  have hp : ∀ m, OfImports (isImport m) := fun m u h => isImport_isK h
  refine ⟨_, extract_imports _ xs hx hl hn, ?_⟩
  have hmem : ∀ c l fs, .node c l fs ∈ preorderL (replaceL (isImport "dialects") .none xs) →
      Val.isK .ImportFrom (.node c l fs) = true → .node c l fs ∈ preorderL xs := by
    intro c l fs hm hk
    rcases mem_replaceL _ _ okNone xs _ hm with h | ⟨c', l', gs, hm', _, he⟩
    · simp [preorder] at h
    · cases he
      have hk' : Val.isK .ImportFrom (.node c l gs) = true := by cases c <;> exact hk
      rw [replaceF_import (hp _) (hl c l gs hm' hk')]
      exact hm'
  have h2 := extract_imports "macros" (replaceL (isImport "dialects") .none xs)
    (replaceL_isAST okNone hx) (fun c l fs hm hk => hl c l fs (hmem c l fs hm hk) hk)
    (fun u hu hk => by
      obtain ⟨c, l, fs, rfl⟩ := Markers.isAST_eq (isK_isAST hk)
      exact hn _ (hmem c l fs hu hk) hk)
  rw [h2, filter_replaceL _ _ (hp _) (hp _) _ xs hl, replaceL_replaceL _ _ (hp _) (hp _) xs hl]
  · rfl
  · intro u h
    cases hq : isImport "macros" u with
    | false => rfl
    | true =>
      simp only [isImport, Bool.and_eq_true] at h hq
      have h1 := h.2
      have h2 := hq.2
      split at h1
      · rename_i heq
        simp only [heq, Bool.and_eq_true, beq_iff_eq] at h1 h2
        rw [h1.1] at h2
        simp at h2
      · cases h1

/-! ### The template is still in shape -/

theorem lookup_replaceF_none {p : Val → Bool} (hp : OfImports p) (f : F)
    (fs : List (F × Val)) (h : ∀ x ∈ fs, x.2.isK .ImportFrom = false) :
    (replaceF p .none fs).lookup f = (fs.lookup f).map (replace p .none) := by
  induction fs with
  | nil => rfl
  | cons x fs ih =>
    obtain ⟨k, v⟩ := x
    have ih := ih fun y hy => h y (by simp [hy])
    cases v with
    | const c =>
      rw [replaceF, List.lookup_cons, List.lookup_cons, ih]
      split <;> simp [replace]
    | list xs =>
      rw [replaceF, List.lookup_cons, List.lookup_cons, ih]
      split <;> simp [replace]
    | node c l gs =>
      have hk := h (k, .node c l gs) (by simp)
      have hpf : p (.node c l gs) = false := by
        cases hx : p (.node c l gs) with
        | false => rfl
        | true => have := hp _ hx; simp only [hk] at this; cases this
      have hn : (replace p .none (.node c l gs)).isNone = false := by
        rw [replace, hpf]; rfl
      rw [replaceF, hn]
      simp only [Bool.false_eq_true, if_false]
      rw [List.lookup_cons, List.lookup_cons, ih]
      split <;> simp

theorem ofImports_magic : OfImports isMagicImport := by
  intro u h
  simp only [isMagicImport, Bool.or_eq_true] at h
  rcases h with h | h <;> exact isImport_isK h

theorem strip_shaped {xs : List Val} (hs : Shaped (.list xs))
    (hsuite : ∀ c l fs, Reach (.list xs) (.node c l fs) → ∀ p ∈ fs, p.2.isK .ImportFrom = false) :
    Shaped (.list (strip xs)) := by
  have key : ∀ u, Reach (.list (strip xs)) u → u.isAST = true → ∃ c l fs,
      Reach (.list xs) (.node c l fs) ∧ u = .node c l (replaceF isMagicImport .none fs) := by
    intro u hu ha
    have := mem_preorder.2 ⟨hu, ha⟩
    rw [preorder, strip] at this
    rcases mem_replaceL _ _ okNone xs u this with h | ⟨c, l, fs, hm, _, rfl⟩
    · simp [preorder] at h
    · exact ⟨c, l, fs, (mem_preorder.1 (by rw [preorder]; exact hm)).1, rfl⟩
  constructor
  · intro u hu hk
    obtain ⟨c, l, fs, hr, rfl⟩ := key u hu (isK_isAST hk)
    obtain ⟨v, hv⟩ := hs.name _ hr (by cases c <;> exact hk)
    simp only [Val.get?] at hv ⊢
    rw [lookup_replaceF_none ofImports_magic _ _ (hsuite c l fs hr), hv]
    exact ⟨_, rfl⟩
  · intro u hu hk
    obtain ⟨c, l, fs, hr, rfl⟩ := key u hu (isK_isAST hk)
    obtain ⟨v, hv⟩ := hs.expr _ hr (by cases c <;> exact hk)
    simp only [Val.get?] at hv ⊢
    rw [lookup_replaceF_none ofImports_magic _ _ (hsuite c l fs hr), hv]
    exact ⟨_, rfl⟩

theorem reach_sub {xs ys : List Val} (h : ∀ x ∈ ys, x ∈ xs) {u : Val} (hu : Reach (.list ys) u)
    (ha : u.isAST = true) : Reach (.list xs) u := by
  have := mem_preorder.2 ⟨hu, ha⟩
  rw [preorder] at this
  obtain ⟨x, hx, hxa, hm⟩ := mem_preorderL.1 this
  exact (mem_preorder.1 (by rw [preorder]; exact mem_preorderL.2 ⟨x, h x hx, hxa, hm⟩)).1

theorem Parsed.sub {xs ys : List Val} (hp : Parsed xs) (h : ∀ x ∈ ys, x ∈ xs) : Parsed ys where
  stmts x hx := hp.stmts x (h x hx)
  shaped := ⟨fun u hu hk => hp.shaped.name u (reach_sub h hu (isK_isAST hk)) hk,
    fun u hu hk => hp.shaped.expr u (reach_sub h hu (isK_isAST hk)) hk⟩
  names u hu hk := hp.names u (reach_sub h hu (isK_isAST hk)) hk
  leaf c l fs hr hk := hp.leaf c l fs (reach_sub h hr rfl) hk
  suite c l fs hr := hp.suite c l fs (reach_sub h hr rfl)
  targets u hu := hp.targets u (h u hu)

theorem Parsed.mem {xs : List Val} {u : Val} (hu : u ∈ preorderL xs) : Reach (.list xs) u :=
  (mem_preorder.1 (by rw [preorder]; exact hu)).1

/-- The steps of `splice_dialect` on one of the two bodies after the split. -/
theorem parsed_extract {xs : List Val} (hp : Parsed xs) :
    ∃ ys, extract magicAllRule xs = .ok (xs.filter (fun x => !isAll x), xs.filter isAll) ∧
      extract (macroImportRule "dialects") (xs.filter fun x => !isAll x) =
        .ok (ys, imports "dialects" (xs.filter fun x => !isAll x)) ∧
      extract (macroImportRule "macros") ys =
        .ok (strip (xs.filter fun x => !isAll x), imports "macros" (xs.filter fun x => !isAll x)) := by
  have hq : Parsed (xs.filter fun x => !isAll x) := hp.sub fun x hx => (List.mem_filter.1 hx).1
  obtain ⟨ys, h1, h2⟩ := extract_both _ hq.stmts
    (fun c l fs hm hk => hq.leaf c l fs (Parsed.mem hm) hk)
    (fun u hu hk => hq.names u (Parsed.mem hu) hk)
  exact ⟨ys, extract_all xs hp.stmts hp.targets, h1, h2⟩

/-! ### Docstring and reference location -/

theorem dummyLoc_eq (a b : Option Int) (body : List Val) : dummyLoc a b body = reference a b body := by
  unfold dummyLoc reference
  cases a <;> cases b <;> cases body <;> simp <;> rename_i x xs <;> cases x <;> rfl

theorem mergeDocs_spec {U T ud uf ur td tf tr : List Val} (hu : IsSplit U ud uf ur)
    (ht : IsSplit T td tf tr) : ∃ doc, mergeDocs ud td = .ok doc ∧ Doc ud td doc := by
  rcases hu.docstring with ⟨u, rfl, hdu⟩ | ⟨rfl, _⟩
  · rcases ht.docstring with ⟨t, rfl, hdt⟩ | ⟨rfl, _⟩
    · obtain ⟨hku, e, a, h1, h2, h3⟩ := hdu
      obtain ⟨hkt, e', b, h1', h2', h3'⟩ := hdt
      refine ⟨[.node (.py .Constant) (copiedLoc (refLoc u))
          [(.value, .str (a ++ "\n" ++ String.ofList (List.replicate 79 '-') ++ "\n" ++ b)), (.kind, .none)]],
        ?_, .both (a := a) (b := b) ⟨e, h1, h2, h3⟩ ⟨e', h1', h2', h3'⟩ ?_ ?_⟩
      · simp only [mergeDocs, getdocstring, hku, hkt, h1, h1', h2, h2', h3, h3', if_true]
        rfl
      · rfl
      · rfl
    · exact ⟨[u], rfl, .user _⟩
  · refine ⟨td, ?_, .template _⟩
    cases td <;> rfl

end Mcpyrate.Splicing
