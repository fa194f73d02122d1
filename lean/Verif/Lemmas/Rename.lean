import Verif.Model.Rename
import Verif.Spec.Rename
import Verif.Lemmas.Walk
import Verif.Lemmas.Tree
namespace Mcpyrate.Rename
open Py

def outFields (old new : String) (l : Loc) (fields : List F) : Out Unit :=
  { loc := l, child := fun _ => (),
    leaf := fun f v => if f ∈ fields ∧ v = .str old then some (.str new) else none }

def outNames (old new : String) (l : Loc) : Out Unit :=
  { loc := l, child := fun _ => (),
    leaf := fun f v =>
      match f, v with
      | .names, .list xs => some (.list (xs.map fun x => if x = .str old then .str new else x))
      | _, _ => none }

def fieldsOf : Cls → List F
  | .py .Name => [.id]
  | .py .Attribute => [.attr]
  | .py .FunctionDef | .py .AsyncFunctionDef | .py .ClassDef => [.name]
  | .py .arg => [.arg]
  | .py .keyword => [.arg]
  | .py .ImportFrom => [.module_]
  | .py .alias => [.name, .asname]
  | .py .ExceptHandler => [.name]
  | .py .MatchAs | .py .MatchStar => [.name]
  | _ => []

def isGlobal : Cls → Bool
  | .py .Global | .py .Nonlocal => true
  | _ => false

def out (old new : String) (_ : Unit) (c : Cls) (l : Loc) (_ : Fields) : Out Unit :=
  if isGlobal c then outNames old new l else outFields old new l (fieldsOf c)

theorem edit_ok {old new : String} {l : Loc} {fs : Fields} {req fields : List F} {o : Out Unit}
    (h : edit old new l fs req fields = .ok o) : o = outFields old new l fields := by
  simp only [edit] at h
  split at h
  · simp only [Except.ok.injEq] at h; exact h.symm
  · simp at h

theorem editNames_ok {old new : String} {l : Loc} {fs : Fields} {o : Out Unit}
    (h : editNames old new l fs = .ok o) : o = outNames old new l := by
  simp only [editNames] at h
  split at h
  · simp at h
  · simp only [Except.ok.injEq] at h; exact h.symm
  · simp at h

theorem step_total (old new : String) : Total (step old new) (out old new) := by
  intro s c l fs o h
  cases c with
  | marker n => exact edit_ok h
  | py k =>
    cases k <;> first | exact edit_ok h | exact editNames_ok h

/-- `substV` on one value. -/
theorem mapStr_subst (old new : String) (v : Val) :
    mapStr (subst old new) v = if v = .str old then .str new else v := by
  cases v with
  | const k =>
    cases k <;> simp [mapStr, subst]
    split <;> rfl
  | list => simp [mapStr]
  | node => simp [mapStr]

theorem fieldsOf_ident (c : Cls) (f : F) (h : unsupported c = false) :
    (fieldsOf c).contains f = asdlIdent c f := by
  cases c with
  | marker n => rfl
  | py k =>
    cases k <;> first | rfl | (cases f <;> rfl) | (exact absurd h (by decide))

theorem global_idents (c : Cls) (f : F) (h : unsupported c = false) :
    asdlIdents c f = (isGlobal c && f == .names) := by
  cases c with
  | marker n => rfl
  | py k =>
    cases k <;> first | rfl | (cases f <;> rfl) | (exact absurd h (by decide))

theorem global_ident (c : Cls) (f : F) (h : isGlobal c = true) : asdlIdent c f = false := by
  cases c with
  | marker n => rfl
  | py k => cases k <;> first | rfl | (exact absurd h (by decide))

/-- What `out` does with a constant in a field. -/
theorem leaf_const (old new : String) (c : Cls) (l : Loc) (fs : Fields) (f : F) (k : Const)
    (h : unsupported c = false) :
    ((out old new () c l fs).leaf f (.const k)).getD (.const k) =
      if asdlIdent c f then mapStr (subst old new) (.const k) else .const k := by
  cases hg : isGlobal c with
  | true =>
    simp only [out, hg, outNames, global_ident c f hg]
    cases f <;> rfl
  | false =>
    rw [mapStr_subst]
    have hf := fieldsOf_ident c f h
    simp only [out, hg, outFields, ← hf, List.contains_iff_mem]
    by_cases h1 : f ∈ fieldsOf c <;> by_cases h2 : k = .str old <;> simp [h1, h2]

theorem leaf_list (old new : String) (c : Cls) (l : Loc) (fs : Fields) (f : F) (xs : List Val)
    (h : unsupported c = false) :
    (out old new () c l fs).leaf f (.list xs) =
      if asdlIdents c f then some (.list (xs.map (mapStr (subst old new)))) else none := by
  rw [global_idents c f h]
  have hm : mapStr (subst old new) = fun x => if x = .str old then .str new else x :=
    funext (mapStr_subst old new)
  cases hg : isGlobal c with
  | true =>
    by_cases hf : f = .names
    · subst hf; simp [out, hg, outNames, hm]
    · have : (f == F.names) = false := by simpa using hf
      simp only [out, hg, outNames, this]
      cases f <;> first | rfl | exact absurd rfl hf
  | false => simp [out, hg, outFields]

theorem leaf_node (old new : String) (c : Cls) (l : Loc) (fs : Fields) (f : F) (d : Cls) (m : Loc)
    (gs : Fields) : (out old new () c l fs).leaf f (.node d m gs) = none := by
  cases hg : isGlobal c with
  | true => simp only [out, hg, outNames]; cases f <;> rfl
  | false => simp [out, hg, outFields]

theorem out_loc (old new : String) (c : Cls) (l : Loc) (fs : Fields) :
    (out old new () c l fs).loc = l ∧ (out old new () c l fs).extra = [] := by
  simp only [out]; split <;> exact ⟨rfl, rfl⟩

theorem Supported.child {t u : Val} (h : Supported t) (hc : Child t u) : Supported u :=
  fun m hr => h m (.step hc hr)

mutual
theorem tmap_eq (old new : String) (t : Val) (h : Supported t) (hn : t.isTree = true) :
    tmap (out old new) () t = mapIdents (subst old new) t := by
  match t with
  | .const _ => rfl
  | .list xs =>
    simp only [Val.isTree, List.all_eq_true] at hn
    rw [tmap, mapIdents, tmapL_eq old new xs (fun x hx ha => h.child (.elt hx ha))]
  | .node c l fs =>
    have hc : unsupported c = false := h _ (.refl _)
    rw [tmap, mapIdents, (out_loc old new c l fs).1, (out_loc old new c l fs).2, List.append_nil,
      tmapF_eq old new c l fs fs hc (fun _ h => h) h]
termination_by structural t
theorem tmapF_eq (old new : String) (c : Cls) (l : Loc) (all fs : List (F × Val))
    (hc : unsupported c = false) (hsub : ∀ q ∈ fs, q ∈ all) (h : Supported (.node c l all)) :
    tmapF (out old new) (out old new () c l all) fs = mapIdentsF (subst old new) c fs := by
  match fs with
  | [] => rfl
  | (f, .const k) :: r =>
    rw [tmapF, mapIdentsF, leaf_const _ _ _ _ _ _ _ hc,
      tmapF_eq old new c l all r hc (fun q hq => hsub q (by simp [hq])) h]
  | (f, .list xs) :: r =>
    rw [tmapF, mapIdentsF, leaf_list _ _ _ _ _ _ _ hc,
      tmapF_eq old new c l all r hc (fun q hq => hsub q (by simp [hq])) h,
      tmapL_eq old new xs (fun x hx ha => h.child (.item (hsub _ List.mem_cons_self) hx ha))]
    cases asdlIdents c f <;> rfl
  | (f, .node d m gs) :: r =>
    rw [tmapF, mapIdentsF, leaf_node,
      tmapF_eq old new c l all r hc (fun q hq => hsub q (by simp [hq])) h,
      tmap_eq old new (.node d m gs) (h.child (.field (hsub _ List.mem_cons_self) rfl)) rfl]
    rfl
termination_by structural fs
theorem tmapL_eq (old new : String) (xs : List Val)
    (h : ∀ x ∈ xs, x.isAST = true → Supported x) :
    tmapL (out old new) () xs = mapIdentsL (subst old new) xs := by
  match xs with
  | [] => rfl
  | .const _ :: r => rw [tmapL, mapIdentsL, tmapL_eq old new r (fun x hx => h x (by simp [hx]))]
  | .list _ :: r => rw [tmapL, mapIdentsL, tmapL_eq old new r (fun x hx => h x (by simp [hx]))]
  | .node d m gs :: r =>
    rw [tmapL, mapIdentsL, tmapL_eq old new r (fun x hx => h x (by simp [hx])),
      tmap_eq old new (.node d m gs) (h _ List.mem_cons_self rfl) rfl]
termination_by structural xs
end

/-! ### laws of `mapIdents` -/

theorem mapStr_mapStr (g h : String → String) (v : Val) : mapStr g (mapStr h v) = mapStr (g ∘ h) v := by
  cases v with
  | const k => cases k <;> rfl
  | list => rfl
  | node => rfl

theorem mapStr_const (g : String → String) (k : Const) : ∃ k', mapStr g (.const k) = .const k' := by
  cases k <;> exact ⟨_, rfl⟩

mutual
theorem mapIdents_comp (g h : String → String) (t : Val) :
    mapIdents g (mapIdents h t) = mapIdents (g ∘ h) t := by
  match t with
  | .const _ => rfl
  | .list xs => simp only [mapIdents]; rw [mapIdentsL_comp]
  | .node c l fs => simp only [mapIdents]; rw [mapIdentsF_comp]
theorem mapIdentsF_comp (g h : String → String) (c : Cls) (fs : List (F × Val)) :
    mapIdentsF g c (mapIdentsF h c fs) = mapIdentsF (g ∘ h) c fs := by
  match fs with
  | [] => rfl
  | (f, .const k) :: r =>
    simp only [mapIdentsF]
    cases hi : asdlIdent c f with
    | false => simp only [if_false, mapIdentsF, hi, mapIdentsF_comp g h c r, Bool.false_eq_true]
    | true =>
      obtain ⟨k', hk⟩ := mapStr_const h k
      simp only [if_true, hk, mapIdentsF, hi, mapIdentsF_comp g h c r]
      rw [← hk, mapStr_mapStr]
  | (f, .list xs) :: r =>
    simp only [mapIdentsF, mapIdentsF_comp g h c r]
    cases hi : asdlIdents c f with
    | false => simp only [if_false, mapIdentsL_comp g h xs, Bool.false_eq_true]
    | true => simp [mapStr_mapStr, Function.comp_def]
  | (f, .node d m gs) :: r =>
    have h1 := mapIdents_comp g h (.node d m gs)
    simp only [mapIdents, Val.node.injEq, true_and] at h1
    simp only [mapIdentsF, mapIdents, mapIdentsF_comp g h c r, h1]
theorem mapIdentsL_comp (g h : String → String) (xs : List Val) :
    mapIdentsL g (mapIdentsL h xs) = mapIdentsL (g ∘ h) xs := by
  match xs with
  | [] => rfl
  | .const _ :: r => simp only [mapIdentsL]; rw [mapIdentsL_comp g h r]
  | .list _ :: r => simp only [mapIdentsL]; rw [mapIdentsL_comp g h r]
  | .node d m gs :: r =>
    have h1 := mapIdents_comp g h (.node d m gs)
    simp only [mapIdents, Val.node.injEq, true_and] at h1
    simp only [mapIdentsL, mapIdents, mapIdentsL_comp g h r, h1]
end

theorem mapStr_congr {g h : String → String} {v : Val} (hg : ∀ s ∈ strOf v, g s = h s) :
    mapStr g v = mapStr h v := by
  cases v with
  | const k => cases k <;> simp_all [mapStr, strOf]
  | list => rfl
  | node => rfl

mutual
theorem mapIdents_congr (g h : String → String) (t : Val) (hg : ∀ s ∈ idents t, g s = h s) :
    mapIdents g t = mapIdents h t := by
  match t with
  | .const _ => rfl
  | .list xs => simp only [mapIdents]; rw [mapIdentsL_congr g h xs (by simpa only [idents] using hg)]
  | .node c l fs =>
    simp only [mapIdents]; rw [mapIdentsF_congr g h c fs (by simpa only [idents] using hg)]
theorem mapIdentsF_congr (g h : String → String) (c : Cls) (fs : List (F × Val))
    (hg : ∀ s ∈ identsF c fs, g s = h s) : mapIdentsF g c fs = mapIdentsF h c fs := by
  match fs with
  | [] => rfl
  | (f, .const k) :: r =>
    simp only [identsF, List.mem_append] at hg
    simp only [mapIdentsF, mapIdentsF_congr g h c r (fun s hs => hg s (.inr hs))]
    cases hi : asdlIdent c f with
    | false => rfl
    | true => rw [mapStr_congr (fun s hs => hg s (.inl (by simpa [hi] using hs)))]
  | (f, .list xs) :: r =>
    simp only [identsF, List.mem_append] at hg
    simp only [mapIdentsF, mapIdentsF_congr g h c r (fun s hs => hg s (.inr hs))]
    cases hi : asdlIdents c f with
    | false =>
      simp only [Bool.false_eq_true, if_false]
      rw [mapIdentsL_congr g h xs (fun s hs => hg s (.inl (by simpa [hi] using hs)))]
    | true =>
      simp only [if_true, List.cons.injEq, Prod.mk.injEq, Val.list.injEq, true_and, and_true]
      apply List.map_congr_left
      intro x hx
      exact mapStr_congr (fun s hs => hg s (.inl (by
        simp only [hi, if_true, List.mem_flatMap]; exact ⟨x, hx, hs⟩)))
  | (f, .node d m gs) :: r =>
    simp only [identsF, List.mem_append] at hg
    simp only [mapIdentsF, mapIdentsF_congr g h c r (fun s hs => hg s (.inr hs))]
    rw [mapIdents_congr g h (.node d m gs) (fun s hs => hg s (.inl hs))]
theorem mapIdentsL_congr (g h : String → String) (xs : List Val)
    (hg : ∀ s ∈ identsL xs, g s = h s) : mapIdentsL g xs = mapIdentsL h xs := by
  match xs with
  | [] => rfl
  | .const _ :: r =>
    simp only [identsL] at hg; simp only [mapIdentsL]; rw [mapIdentsL_congr g h r hg]
  | .list _ :: r =>
    simp only [identsL] at hg; simp only [mapIdentsL]; rw [mapIdentsL_congr g h r hg]
  | .node d m gs :: r =>
    simp only [identsL, List.mem_append] at hg
    simp only [mapIdentsL]
    rw [mapIdentsL_congr g h r (fun s hs => hg s (.inr hs)),
      mapIdents_congr g h (.node d m gs) (fun s hs => hg s (.inl hs))]
end

theorem mapStr_id (v : Val) : mapStr id v = v := by
  cases v with
  | const k => cases k <;> rfl
  | list => rfl
  | node => rfl

mutual
theorem mapIdents_id (t : Val) : mapIdents id t = t := by
  match t with
  | .const _ => rfl
  | .list xs => simp only [mapIdents]; rw [mapIdentsL_id]
  | .node c l fs => simp only [mapIdents]; rw [mapIdentsF_id]
theorem mapIdentsF_id (c : Cls) (fs : List (F × Val)) : mapIdentsF id c fs = fs := by
  match fs with
  | [] => rfl
  | (f, .const k) :: r => simp only [mapIdentsF, mapIdentsF_id c r, mapStr_id, ite_self]
  | (f, .list xs) :: r =>
    have : xs.map (mapStr id) = xs := by
      rw [show mapStr id = id from funext mapStr_id, List.map_id]
    simp only [mapIdentsF, mapIdentsF_id c r, mapIdentsL_id xs, this, ite_self]
  | (f, .node d m gs) :: r =>
    simp only [mapIdentsF, mapIdentsF_id c r]; rw [mapIdents_id (.node d m gs)]
theorem mapIdentsL_id (xs : List Val) : mapIdentsL id xs = xs := by
  match xs with
  | [] => rfl
  | .const _ :: r => simp only [mapIdentsL]; rw [mapIdentsL_id]
  | .list _ :: r => simp only [mapIdentsL]; rw [mapIdentsL_id]
  | .node d m gs :: r => simp only [mapIdentsL]; rw [mapIdentsL_id, mapIdents_id (.node d m gs)]
end

theorem strOf_mapStr (g : String → String) (v : Val) : strOf (mapStr g v) = (strOf v).map g := by
  cases v with
  | const k => cases k <;> rfl
  | list => rfl
  | node => rfl

mutual
theorem idents_map (g : String → String) (t : Val) : idents (mapIdents g t) = (idents t).map g := by
  match t with
  | .const _ => rfl
  | .list xs => simp only [mapIdents, idents]; rw [identsL_map]
  | .node c l fs => simp only [mapIdents, idents]; rw [identsF_map]
theorem identsF_map (g : String → String) (c : Cls) (fs : List (F × Val)) :
    identsF c (mapIdentsF g c fs) = (identsF c fs).map g := by
  match fs with
  | [] => rfl
  | (f, .const k) :: r =>
    simp only [mapIdentsF]
    cases hi : asdlIdent c f with
    | false => simp [identsF, hi, identsF_map g c r]
    | true =>
      obtain ⟨k', hk⟩ := mapStr_const g k
      simp only [if_true, hk, identsF, hi, identsF_map g c r, List.map_append]
      rw [← hk, strOf_mapStr]
  | (f, .list xs) :: r =>
    simp only [mapIdentsF, identsF, identsF_map g c r, List.map_append]
    cases hi : asdlIdents c f with
    | false => simp only [if_false, identsL_map g xs, Bool.false_eq_true]
    | true => simp [List.flatMap_map, List.map_flatMap, strOf_mapStr]
  | (f, .node d m gs) :: r =>
    have h1 := idents_map g (.node d m gs)
    simp only [mapIdents, idents] at h1
    simp only [mapIdentsF, mapIdents, identsF, idents, identsF_map g c r, List.map_append, h1]
theorem identsL_map (g : String → String) (xs : List Val) :
    identsL (mapIdentsL g xs) = (identsL xs).map g := by
  match xs with
  | [] => rfl
  | .const _ :: r => simp only [mapIdentsL, identsL]; rw [identsL_map g r]
  | .list _ :: r => simp only [mapIdentsL, identsL]; rw [identsL_map g r]
  | .node d m gs :: r =>
    have h1 := idents_map g (.node d m gs)
    simp only [mapIdents, idents] at h1
    simp only [mapIdentsL, mapIdents, identsL, idents, List.map_append, identsL_map g r, h1]
end

/-! ### classes -/
theorem preorderL_mapStr (g : String → String) (xs : List Val) :
    preorderL (xs.map (mapStr g)) = preorderL xs := by
  induction xs with
  | nil => rfl
  | cons x xs ih =>
    cases x with
    | const k => obtain ⟨k', hk⟩ := mapStr_const g k; simp [hk, preorderL, ih]
    | list => simp [mapStr, preorderL, ih]
    | node => simp [mapStr, preorderL, ih]

mutual
theorem cls_map (p : Cls → Bool) (g : String → String) (t : Val) :
    (preorder (mapIdents g t)).map (Val.hasCls p) = (preorder t).map (Val.hasCls p) := by
  match t with
  | .const _ => rfl
  | .list xs => simp only [mapIdents, preorder]; rw [clsL_map p g xs]
  | .node c l fs =>
    simp only [mapIdents, preorder, List.map_cons]; rw [clsF_map p g c fs]; rfl
theorem clsF_map (p : Cls → Bool) (g : String → String) (c : Cls) (fs : List (F × Val)) :
    (preorderF (mapIdentsF g c fs)).map (Val.hasCls p) = (preorderF fs).map (Val.hasCls p) := by
  match fs with
  | [] => rfl
  | (f, .const k) :: r =>
    have : ∃ k', (if asdlIdent c f = true then mapStr g (Val.const k) else .const k) = .const k' := by
      split
      · exact mapStr_const g k
      · exact ⟨k, rfl⟩
    obtain ⟨k', hk⟩ := this
    simp only [mapIdentsF, hk, preorderF, preorder, List.nil_append, clsF_map p g c r]
  | (f, .list xs) :: r =>
    simp only [mapIdentsF, preorderF, preorder, List.map_append, clsF_map p g c r]
    cases hi : asdlIdents c f with
    | false => simp only [if_false, clsL_map p g xs, Bool.false_eq_true]
    | true => simp only [if_true, preorderL_mapStr]
  | (f, .node d m gs) :: r =>
    simp only [mapIdentsF, preorderF, List.map_append, clsF_map p g c r,
      cls_map p g (.node d m gs)]
theorem clsL_map (p : Cls → Bool) (g : String → String) (xs : List Val) :
    (preorderL (mapIdentsL g xs)).map (Val.hasCls p) = (preorderL xs).map (Val.hasCls p) := by
  match xs with
  | [] => rfl
  | .const _ :: r => simp only [mapIdentsL, preorderL]; rw [clsL_map p g r]
  | .list _ :: r => simp only [mapIdentsL, preorderL]; rw [clsL_map p g r]
  | .node d m gs :: r =>
    have h1 := cls_map p g (.node d m gs)
    simp only [mapIdents] at h1
    simp only [mapIdentsL, mapIdents, preorderL, List.map_append, clsL_map p g r, h1]
end

theorem isTree_map (g : String → String) (t : Val) (h : t.isTree = true) :
    (mapIdents g t).isTree = true := by
  cases t with
  | const c => simp [Val.isTree] at h
  | node c l fs => rfl
  | list xs =>
    simp only [Val.isTree, mapIdents] at *
    induction xs with
    | nil => rfl
    | cons x xs ih =>
      simp only [List.all_cons, Bool.and_eq_true] at h
      cases x with
      | const c => simp [Val.isAST] at h
      | list c => simp [Val.isAST] at h
      | node c l fs =>
        simp only [mapIdentsL, List.all_cons, ih h.2, mapIdents, Val.isAST, Bool.and_self]

/-! ### success, and the result -/
/-- A decidable form of `Supported`. -/
theorem Supported.of_all {t : Val} 
    (h : (preorder t).all (fun m => !m.hasCls unsupported) = true) : Supported t := by
  intro m hr
  cases ha : m.isAST with
  | true => simpa using List.all_eq_true.1 h m (mem_preorder.2 ⟨hr, ha⟩)
  | false => cases m <;> simp_all [Val.isAST, Val.hasCls]


theorem Supported.map {t : Val} (g : String → String) (h : Supported t) :
    Supported (mapIdents g t) := by
  refine .of_all ?_
  have h0 : (preorder t).map (Val.hasCls unsupported) = List.replicate (preorder t).length false := by
    rw [List.eq_replicate_iff]
    refine ⟨by simp, fun b hb => ?_⟩
    obtain ⟨m, hm, rfl⟩ := List.mem_map.1 hb
    exact h m (mem_preorder.1 hm).1
  rw [← cls_map unsupported g t] at h0
  rw [List.all_eq_true]
  intro m hm
  have hmem : m.hasCls unsupported ∈ (preorder (mapIdents g t)).map (Val.hasCls unsupported) :=
    List.mem_map_of_mem hm
  rw [h0, List.mem_replicate] at hmem
  simp [hmem.2]

theorem step_ok (old new : String) (t : Val) (h : IdentFieldsOk t) (s : Unit) (c : Cls) (l : Loc)
    (fs : Fields) (hr : Reach t (.node c l fs)) : ∃ o, step old new s c l fs = .ok o := by
  obtain ⟨h1, h2, h3, h4, h5⟩ := h c l fs hr
  cases c with
  | marker n => exact ⟨_, rfl⟩
  | py k =>
    cases k <;> first
      | exact ⟨_, rfl⟩
      | (obtain ⟨xs, hx⟩ := h5 (by simp); simp [step, editNames, hx]; done)
      | (simp only [step, edit, List.all_cons, List.all_nil, h1]; exact ⟨_, rfl⟩)
      | (simp only [step, edit, List.all_cons, List.all_nil, h2]; exact ⟨_, rfl⟩)
      | (simp only [step, edit, List.all_cons, List.all_nil, h4]; exact ⟨_, rfl⟩)
      | (simp [step, edit, h3]; done)

theorem rename_eq {old new : String} {t t' : Val} (ht : t.isTree = true) (hs : Supported t)
    (h : rename old new t = .ok t') : t' = mapIdents (subst old new) t := by
  rw [walk_tmap (step_total old new) () t t' h ht, tmap_eq old new t hs ht]

end Mcpyrate.Rename
