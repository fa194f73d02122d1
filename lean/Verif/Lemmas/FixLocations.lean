import Verif.Model.FixLocations
import Verif.Spec.FixLocations
import Verif.Lemmas.Walk
import Verif.Lemmas.Tree
namespace Mcpyrate.FixLocations
open Py

/-- The result of `step`, as a total function. -/
def out (mode : Mode) (s : Loc) (c : Cls) (l : Loc) (fs : Fields) : Out Loc :=
  match step mode s c l fs with
  | .ok o => o
  | .error _ => { loc := l, child := fun _ => s }

theorem step_eq (mode : Mode) (s : Loc) (c : Cls) (l : Loc) (fs : Fields) :
    step mode s c l fs = .ok (out mode s c l fs) := by
  simp only [out]
  cases h : step mode s c l fs with
  | ok o => rfl
  | error e => simp only [step] at h; split at h <;> simp at h

theorem total (mode : Mode) : Total (step mode) (out mode) := by
  intro s c l fs o h
  rw [step_eq] at h
  exact (Except.ok.inj h).symm

theorem out_leaf (mode : Mode) (s : Loc) (c : Cls) (l : Loc) (fs : Fields) :
    (out mode s c l fs).leaf = (fun _ _ => none) ∧ (out mode s c l fs).extra = [] := by
  simp only [out, step]
  split <;> rename_i h <;> split at h <;> simp at h <;> simp [← h]

/-- The state passed to the children does not depend on the field. -/
theorem out_child (mode : Mode) (s : Loc) (c : Cls) (l : Loc) (fs : Fields) (f g : F) :
    (out mode s c l fs).child f = (out mode s c l fs).child g := by
  simp only [out, step]
  split <;> rename_i h <;> split at h <;> simp at h <;> simp [← h]

theorem has_iff (a : Attr) : Attr.has a = true ↔ a ≠ .missing := by cases a <;> simp [Attr.has]
theorem orNone_eq (a : Attr) : orNone a = if a = .missing then .none else a := by
  cases a <;> rfl

/-- Walking with a step that always succeeds and overwrites no fields. -/
theorem fixTop_eq (mode : Mode) (s : Loc) (t : Val) (ht : t.isTree = true) :
    fixTop mode s t = .ok (tmap (out mode) s t) := by
  have hnode : ∀ c l fs, walk (step mode) s (.node c l fs) = .ok (tmap (out mode) s (.node c l fs)) := by
    intro c l fs
    obtain ⟨t', h⟩ := walk_ok (step := step mode) s (.node c l fs) rfl
      (fun s c l fs _ => ⟨_, step_eq mode s c l fs⟩)
    rw [h, walk_tmap (total mode) s _ t' h rfl]
  cases t with
  | const c => simp [Val.isTree] at ht
  | node c l fs => rw [fixTop, hnode]
  | list xs =>
    simp only [Val.isTree] at ht
    suffices fixTopL mode s xs = .ok (tmapL (out mode) s xs) by simp [fixTop, this, Except.map, tmap]
    induction xs with
    | nil => rfl
    | cons x xs ih =>
      simp only [List.all_cons, Bool.and_eq_true] at ht
      cases x with
      | const c => simp [Val.isAST] at ht
      | list c => simp [Val.isAST] at ht
      | node c l fs => simp only [fixTopL, fixTop, hnode, ih ht.2, tmapL]

/-! ### nothing but locations changes -/
mutual
theorem erase_tmap (mode : Mode) (s : Loc) (t : Val) : eraseLoc (tmap (out mode) s t) = eraseLoc t := by
  match t with
  | .const _ => rfl
  | .list xs => simp only [tmap, eraseLoc]; rw [eraseL_tmap mode s xs]
  | .node c l fs =>
    simp only [tmap, eraseLoc, (out_leaf mode s c l fs).2, List.append_nil]
    rw [eraseF_tmap mode _ fs (out_leaf mode s c l fs).1]
theorem eraseF_tmap (mode : Mode) (o : Out Loc) (fs : List (F × Val)) (h : o.leaf = fun _ _ => none) :
    eraseLocF (tmapF (out mode) o fs) = eraseLocF fs := by
  match fs with
  | [] => rfl
  | (f, .const c) :: r => simp only [tmapF, h, Option.getD_none, eraseLocF, eraseF_tmap mode o r h]
  | (f, .list xs) :: r =>
    simp only [tmapF, h, Option.getD_none, eraseLocF, eraseF_tmap mode o r h, eraseL_tmap mode _ xs]
  | (f, .node c l gs) :: r =>
    have h1 := erase_tmap mode (o.child f) (.node c l gs)
    simp only [tmap] at h1
    simp only [tmapF, h, Option.getD_none, tmap, eraseLocF, eraseF_tmap mode o r h, h1]
theorem eraseL_tmap (mode : Mode) (s : Loc) (xs : List Val) :
    eraseLocL (tmapL (out mode) s xs) = eraseLocL xs := by
  match xs with
  | [] => rfl
  | .const _ :: r => simp only [tmapL, eraseLocL, eraseL_tmap mode s r]
  | .list _ :: r => simp only [tmapL, eraseLocL, eraseL_tmap mode s r]
  | .node c l gs :: r =>
    have h1 := erase_tmap mode s (.node c l gs)
    simp only [tmap] at h1
    simp only [tmapL, tmap, eraseLocL, eraseL_tmap mode s r, h1]
end

/-! ### modes in which every node is treated alike -/
/-- The state is not changed and each located node is mapped by `g`. -/
def Uniform (mode : Mode) (s : Loc) (g : Loc → Loc) : Prop :=
  ∀ c l fs, (∀ f, (out mode s c l fs).child f = s) ∧
    (out mode s c l fs).loc = if c.hasLoc then g l else l

def clsLoc : Val → Cls × Loc
  | .node c l _ => (c, l)
  | _ => (.py .Module, {})

theorem locs_eq (t : Val) : locs t = (preorder t).map clsLoc := by
  simp only [locs]; congr 1

mutual
theorem locs_tmap (mode : Mode) (s : Loc) (g : Loc → Loc) (hu : Uniform mode s g) (t : Val) :
    (preorder (tmap (out mode) s t)).map clsLoc = ((preorder t).map clsLoc).map (onLocated g) := by
  match t with
  | .const _ => rfl
  | .list xs => simp only [tmap, preorder]; rw [locsL_tmap mode s g hu xs]
  | .node c l fs =>
    simp only [tmap, preorder, (out_leaf mode s c l fs).2, List.append_nil, List.map_cons]
    rw [locsF_tmap mode s g hu _ fs (out_leaf mode s c l fs).1 (hu c l fs).1]
    simp only [clsLoc, onLocated, (hu c l fs).2]
    by_cases hh : c.hasLoc = true <;> simp [hh]
theorem locsF_tmap (mode : Mode) (s : Loc) (g : Loc → Loc) (hu : Uniform mode s g) (o : Out Loc)
    (fs : List (F × Val)) (h : o.leaf = fun _ _ => none) (hc : ∀ f, o.child f = s) :
    (preorderF (tmapF (out mode) o fs)).map clsLoc =
      ((preorderF fs).map clsLoc).map (onLocated g) := by
  match fs with
  | [] => rfl
  | (f, .const c) :: r =>
    simp only [tmapF, h, Option.getD_none, preorderF, preorder, List.nil_append]
    exact locsF_tmap mode s g hu o r h hc
  | (f, .list xs) :: r =>
    simp only [tmapF, h, Option.getD_none, preorderF, preorder, List.map_append,
      locsF_tmap mode s g hu o r h hc, hc f, locsL_tmap mode s g hu xs]
  | (f, .node c l gs) :: r =>
    simp only [tmapF, h, Option.getD_none, preorderF, List.map_append,
      locsF_tmap mode s g hu o r h hc, hc f, locs_tmap mode s g hu (.node c l gs)]
theorem locsL_tmap (mode : Mode) (s : Loc) (g : Loc → Loc) (hu : Uniform mode s g) (xs : List Val) :
    (preorderL (tmapL (out mode) s xs)).map clsLoc =
      ((preorderL xs).map clsLoc).map (onLocated g) := by
  match xs with
  | [] => rfl
  | .const _ :: r => simp only [tmapL, preorderL]; exact locsL_tmap mode s g hu r
  | .list _ :: r => simp only [tmapL, preorderL]; exact locsL_tmap mode s g hu r
  | .node c l gs :: r =>
    have h1 := locs_tmap mode s g hu (.node c l gs)
    simp only [tmap] at h1
    simp only [tmapL, tmap, preorderL, List.map_append, locsL_tmap mode s g hu r, h1]
end

theorem uniform_overwrite (s : Loc) : Uniform .overwrite s (fun _ => s) := by
  intro c l fs
  simp only [out, step]
  cases c.hasLoc <;> simp

theorem uniform_reference (mode : Mode) (h1 : mode ≠ .overwrite) (h2 : mode ≠ .update) (s : Loc) :
    Uniform mode s (fill s) := by
  intro c l fs
  simp only [out, step, h1, h2, fill]
  cases c.hasLoc
  · simp
  · simp only [if_true, if_false]
    obtain ⟨ln, co, eln, eco⟩ := l
    cases ln <;> cases co <;> simp [Attr.has]

/-! ### update mode -/
theorem update_one (s : Loc) (c : Cls) (l : Loc) (fs : Fields) (hc : c.hasLoc = true)
    (h : Consistent l) :
    (out .update s c l fs).loc = (stdOne s l).1 ∧ ∀ f, (out .update s c l fs).child f = (stdOne s l).2 := by
  obtain ⟨ln, co, eln, eco⟩ := l
  obtain ⟨h1, h2⟩ := h
  cases ln <;> cases eln <;> simp at h1 <;> cases co <;> cases eco <;> simp at h2 <;>
    simp [out, step, stdOne, hc, Attr.has, orNone]

theorem update_skip (s : Loc) (c : Cls) (l : Loc) (fs : Fields) (hc : c.hasLoc = false) :
    (out .update s c l fs).loc = l ∧ ∀ f, (out .update s c l fs).child f = s := by
  simp [out, step, hc]

/-- All located classes in the list of nodes have consistent locations. -/
def AllConsistent (ms : List Val) : Prop :=
  ∀ c l fs, Val.node c l fs ∈ ms → c.hasLoc = true → Consistent l

mutual
theorem std_tmap (s : Loc) (t : Val) (h : AllConsistent (preorder t)) :
    tmap (out .update) s t = stdFix s t := by
  match t with
  | .const _ => rfl
  | .list xs => simp only [tmap, stdFix]; rw [stdL_tmap s xs (by simpa only [preorder] using h)]
  | .node c l fs =>
    have h' : AllConsistent (preorderF fs) := fun d m gs hm => h d m gs (by simp [preorder, hm])
    simp only [tmap, stdFix, (out_leaf .update s c l fs).2, List.append_nil]
    cases hc : c.hasLoc with
    | true =>
      have hu := update_one s c l fs hc (h c l fs (by simp [preorder]) hc)
      rw [hu.1, stdF_tmap _ _ fs (out_leaf .update s c l fs).1 hu.2 h']
      rfl
    | false =>
      have hu := update_skip s c l fs hc
      rw [hu.1, stdF_tmap _ _ fs (out_leaf .update s c l fs).1 hu.2 h']
      rfl
theorem stdF_tmap (s : Loc) (o : Out Loc) (fs : List (F × Val)) (h : o.leaf = fun _ _ => none)
    (hc : ∀ f, o.child f = s) (hcon : AllConsistent (preorderF fs)) :
    tmapF (out .update) o fs = stdFixF s fs := by
  match fs with
  | [] => rfl
  | (f, .const c) :: r =>
    simp only [tmapF, h, Option.getD_none, stdFixF]
    rw [stdF_tmap s o r h hc (by simpa [preorderF, preorder] using hcon)]
  | (f, .list xs) :: r =>
    have h1 : AllConsistent (preorderL xs) := fun d m gs hm => hcon d m gs (by
      simp [preorderF, preorder, hm])
    have h2 : AllConsistent (preorderF r) := fun d m gs hm => hcon d m gs (by simp [preorderF, hm])
    simp only [tmapF, h, Option.getD_none, stdFixF, hc f]
    rw [stdF_tmap s o r h hc h2, stdL_tmap s xs h1]
  | (f, .node c l gs) :: r =>
    have h1 : AllConsistent (preorder (.node c l gs)) := fun d m gs' hm => hcon d m gs' (by
      simp only [preorderF, List.mem_append]; exact .inl hm)
    have h2 : AllConsistent (preorderF r) := fun d m gs' hm => hcon d m gs' (by simp [preorderF, hm])
    simp only [tmapF, h, Option.getD_none, stdFixF, hc f]
    rw [stdF_tmap s o r h hc h2, std_tmap s (.node c l gs) h1]
theorem stdL_tmap (s : Loc) (xs : List Val) (hcon : AllConsistent (preorderL xs)) :
    tmapL (out .update) s xs = stdFixL s xs := by
  match xs with
  | [] => rfl
  | .const _ :: r =>
    simp only [tmapL, stdFixL]; rw [stdL_tmap s r (by simpa only [preorderL] using hcon)]
  | .list _ :: r =>
    simp only [tmapL, stdFixL]; rw [stdL_tmap s r (by simpa only [preorderL] using hcon)]
  | .node c l gs :: r =>
    have h1 : AllConsistent (preorder (.node c l gs)) := fun d m gs' hm => hcon d m gs' (by
      simp only [preorderL, List.mem_append]; exact .inl hm)
    have h2 : AllConsistent (preorderL r) := fun d m gs' hm => hcon d m gs' (by simp [preorderL, hm])
    simp only [tmapL, stdFixL]
    rw [stdL_tmap s r h2, std_tmap s (.node c l gs) h1]
end

/-! ### everything is located afterwards -/
theorem located_one (mode : Mode) (s : Loc) (hs : Located s) (c : Cls) (l : Loc) (fs : Fields) :
    (c.hasLoc = true → Located (out mode s c l fs).loc) ∧
    ∀ f, Located ((out mode s c l fs).child f) := by
  obtain ⟨ln, co, eln, eco⟩ := l
  obtain ⟨h1, h2⟩ := hs
  cases hc : c.hasLoc <;> cases mode <;> cases ln <;> cases co <;>
    simp [out, step, hc, Located, Attr.has, h1, h2]

/-- Every node in the list that can carry a location has one. -/
def AllLocated (ms : List Val) : Prop :=
  ∀ c l fs, Val.node c l fs ∈ ms → c.hasLoc = true → Located l

theorem AllLocated.append {a b : List Val} (h1 : AllLocated a) (h2 : AllLocated b) :
    AllLocated (a ++ b) := fun c l fs hm hc =>
  (List.mem_append.1 hm).elim (fun h => h1 c l fs h hc) (fun h => h2 c l fs h hc)

mutual
theorem located_tmap (mode : Mode) (s : Loc) (hs : Located s) (t : Val) :
    AllLocated (preorder (tmap (out mode) s t)) := by
  match t with
  | .const _ => intro c l fs hm; simp [tmap, preorder] at hm
  | .list xs => simp only [tmap, preorder]; exact locatedL_tmap mode s hs xs
  | .node c l fs =>
    have h1 := located_one mode s hs c l fs
    simp only [tmap, preorder, (out_leaf mode s c l fs).2, List.append_nil]
    intro d m gs hm hd
    rcases List.mem_cons.1 hm with he | hm
    · cases he; exact h1.1 hd
    · exact locatedF_tmap mode _ fs (out_leaf mode s c l fs).1 h1.2 d m gs hm hd
theorem locatedF_tmap (mode : Mode) (o : Out Loc)
    (fs : List (F × Val)) (h : o.leaf = fun _ _ => none) (hc : ∀ f, Located (o.child f)) :
    AllLocated (preorderF (tmapF (out mode) o fs)) := by
  match fs with
  | [] => intro c l fs hm; simp [tmapF, preorderF] at hm
  | (f, .const c) :: r =>
    simp only [tmapF, h, Option.getD_none, preorderF, preorder, List.nil_append]
    exact locatedF_tmap mode o r h hc
  | (f, .list xs) :: r =>
    simp only [tmapF, h, Option.getD_none, preorderF, preorder]
    exact (locatedL_tmap mode _ (hc f) xs).append (locatedF_tmap mode o r h hc)
  | (f, .node c l gs) :: r =>
    simp only [tmapF, h, Option.getD_none, preorderF]
    exact (located_tmap mode _ (hc f) (.node c l gs)).append (locatedF_tmap mode o r h hc)
theorem locatedL_tmap (mode : Mode) (s : Loc) (hs : Located s) (xs : List Val) :
    AllLocated (preorderL (tmapL (out mode) s xs)) := by
  match xs with
  | [] => intro c l fs hm; simp [tmapL, preorderL] at hm
  | .const _ :: r => simp only [tmapL, preorderL]; exact locatedL_tmap mode s hs r
  | .list _ :: r => simp only [tmapL, preorderL]; exact locatedL_tmap mode s hs r
  | .node c l gs :: r =>
    have h1 := located_tmap mode s hs (.node c l gs)
    simp only [tmap] at h1
    simp only [tmapL, tmap, preorderL]
    exact h1.append (locatedL_tmap mode s hs r)
end

theorem fixLocations_eq (t : Val) (ref : Loc) (mode : Mode) (ht : t.isTree = true) (hr : Located ref) :
    fixLocations t ref mode = .ok (tmap (out mode) (source ref) t) := by
  have h : Attr.has ref.lineno = true ∧ Attr.has ref.colOffset = true :=
    ⟨(has_iff _).2 hr.1, (has_iff _).2 hr.2⟩
  rw [fixLocations, if_neg (by simpa using h), fixTop_eq _ _ _ ht]
  simp only [source, orNone_eq]

end Mcpyrate.FixLocations
