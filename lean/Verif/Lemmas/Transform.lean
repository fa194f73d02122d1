import Verif.Py.Transform
import Verif.Spec.Replace
import Verif.Lemmas.Tree
import Verif.Lemmas.Markers
namespace Mcpyrate.Py
open Markers (flattenV spliceResult)

theorem spliceResult_inList (v : Val) : spliceResult v = inList v := by
  cases v with
  | const c => cases c <;> rfl
  | list => rfl
  | node => rfl

variable {σ : Type}

/-- The rule replaces the nodes in `us` that satisfy `p` by `r`, updating the state by `g`, and
leaves the other ones to `generic_visit`. -/
def Decides (f : Rule σ) (p : Val → Bool) (r : Val) (g : σ → Val → σ) (us : List Val) : Prop :=
  ∀ u ∈ us, ∀ s, f u s = .ok (if p u then (some r, g s u) else (none, s))

theorem Decides.mono {f : Rule σ} {p r g} {us vs : List Val} (h : Decides f p r g us)
    (hs : ∀ v ∈ vs, v ∈ us) : Decides f p r g vs := fun v hv => h v (hs v hv)

mutual
theorem rew_node (f : Rule σ) (p : Val → Bool) (r : Val) (g : σ → Val → σ) (c : Cls) (l : Loc)
    (fs : List (F × Val)) (s : σ) (h : Decides f p r g (preorder (.node c l fs))) :
    rew f (.node c l fs) s =
      .ok (replace p r (.node c l fs), (outermost p (.node c l fs)).foldl g s) := by
  simp only [preorder] at h
  have h0 := h (.node c l fs) (by simp) s
  simp only [rew, replace, outermost, h0]
  by_cases hp : p (.node c l fs) = true
  · simp [hp]
  · simp only [Bool.not_eq_true] at hp
    simp only [hp]
    have := rewF_eq f p r g fs s (h.mono fun v hv => by simp [hv])
    simp [this]
theorem rewF_eq (f : Rule σ) (p : Val → Bool) (r : Val) (g : σ → Val → σ)
    (fs : List (F × Val)) (s : σ) (h : Decides f p r g (preorderF fs)) :
    rewF f fs s = .ok (replaceF p r fs, (outermostF p fs).foldl g s) := by
  match fs with
  | [] => simp [rewF, replaceF, outermostF]
  | (k, .const c) :: rest =>
    have := rewF_eq f p r g rest s (h.mono fun v hv => by simp [preorderF, hv])
    simp [rewF, replaceF, outermostF, this, outermost]
  | (k, .list xs) :: rest =>
    have h1 := rewL_eq f p r g xs s (h.mono fun v hv => by simp [preorderF, preorder, hv])
    have h2 := rewF_eq f p r g rest ((outermostL p xs).foldl g s)
      (h.mono fun v hv => by simp [preorderF, hv])
    simp [rewF, replaceF, outermostF, outermost, h1, h2]
  | (k, .node c l gs) :: rest =>
    have h1 := rew_node f p r g c l gs s (h.mono fun v hv => by simp [preorderF, hv])
    have h2 := rewF_eq f p r g rest ((outermost p (.node c l gs)).foldl g s)
      (h.mono fun v hv => by simp [preorderF, hv])
    simp only [rewF, replaceF, outermostF, h1, h2, List.foldl_append]
theorem rewL_eq (f : Rule σ) (p : Val → Bool) (r : Val) (g : σ → Val → σ)
    (xs : List Val) (s : σ) (h : Decides f p r g (preorderL xs)) :
    rewL f xs s = .ok (replaceL p r xs, (outermostL p xs).foldl g s) := by
  match xs with
  | [] => simp [rewL, replaceL, outermostL]
  | .const c :: rest =>
    have := rewL_eq f p r g rest s (h.mono fun v hv => by simp [preorderL, hv])
    simp [rewL, replaceL, outermostL, this]
  | .list ys :: rest =>
    have := rewL_eq f p r g rest s (h.mono fun v hv => by simp [preorderL, hv])
    simp [rewL, replaceL, outermostL, this]
  | .node c l fs :: rest =>
    have h1 := rew_node f p r g c l fs s (h.mono fun v hv => by simp [preorderL, hv])
    have h2 := rewL_eq f p r g rest ((outermost p (.node c l fs)).foldl g s)
      (h.mono fun v hv => by simp [preorderL, hv])
    simp only [rewL, replaceL, outermostL, h1, h2, List.foldl_append, spliceResult_inList]
end

/-- A replacement that a transformer may return: a tree or suite, or `None`. -/
def okRepl (r : Val) : Prop := r.isTree = true ∨ r = .none

theorem replace_okRepl {p r} (hr : okRepl r) (x : Val) (hx : x.isAST = true) :
    okRepl (replace p r x) := by
  obtain ⟨c, l, fs, rfl⟩ := Markers.isAST_eq hx
  simp only [replace]
  split
  · exact hr
  · exact .inl rfl

theorem flattenItem_okRepl {r : Val} (hr : okRepl r) : Markers.flattenItem r = inList r := by
  rcases hr with h | rfl
  · rw [Markers.flattenItem_tree h, spliceResult_inList]
  · rfl

theorem rewElts_eq (f : Rule σ) (p : Val → Bool) (r : Val) (g : σ → Val → σ) (hr : okRepl r)
    (xs : List Val) (s : σ) (hx : ∀ x ∈ xs, x.isAST = true) (h : Decides f p r g (preorderL xs)) :
    ∃ rs, rewElts f xs s = .ok (rs, (outermostL p xs).foldl g s) ∧
      flattenV rs = replaceL p r xs := by
  induction xs generalizing s with
  | nil => exact ⟨[], by simp [rewElts, outermostL], by simp [flattenV, replaceL]⟩
  | cons x xs ih =>
    obtain ⟨c, l, fs, rfl⟩ := Markers.isAST_eq (hx x (by simp))
    have h1 := rew_node f p r g c l fs s (h.mono fun v hv => by simp [preorderL, hv])
    obtain ⟨rs, h2, h3⟩ := ih ((outermost p (.node c l fs)).foldl g s)
      (fun y hy => hx y (by simp [hy])) (h.mono fun v hv => by simp [preorderL, hv])
    refine ⟨replace p r (.node c l fs) :: rs, ?_, ?_⟩
    · simp only [rewElts, h1, h2, outermostL, List.foldl_append]
    · rw [flattenV, h3, replaceL, flattenItem_okRepl (replace_okRepl hr _ rfl)]

/-- What a transformer of this kind computes. -/
theorem rew_eq (f : Rule σ) (p : Val → Bool) (r : Val) (g : σ → Val → σ) (hr : okRepl r)
    (t : Val) (ht : t.isTree = true) (s : σ) (h : Decides f p r g (preorder t)) :
    rew f t s = .ok (replace p r t, (outermost p t).foldl g s) := by
  cases t with
  | const c => simp [Val.isTree] at ht
  | node c l fs => exact rew_node f p r g c l fs s h
  | list xs =>
    obtain ⟨rs, h1, h2⟩ := rewElts_eq f p r g hr xs s (Markers.isTree_list.1 ht)
      (by simpa [preorder] using h)
    simp [rew, h1, h2, replace, outermost]

/-! ### Properties of `replace` -/

mutual
theorem replace_none (p : Val → Bool) (r : Val) (t : Val) (h : ∀ u ∈ preorder t, p u = false) :
    replace p r t = t := by
  match t with
  | .const _ => rfl
  | .list xs => rw [replace, replaceL_none p r xs (by simpa [preorder] using h)]
  | .node c l fs =>
    simp only [preorder] at h
    rw [replace, h _ (by simp), replaceF_none p r fs fun u hu => h u (by simp [hu])]
    simp
theorem replaceF_none (p : Val → Bool) (r : Val) (fs : List (F × Val))
    (h : ∀ u ∈ preorderF fs, p u = false) : replaceF p r fs = fs := by
  match fs with
  | [] => rfl
  | (k, .const c) :: rest =>
    rw [replaceF, replaceF_none p r rest fun u hu => h u (by simp [preorderF, hu])]
  | (k, .list xs) :: rest =>
    rw [replaceF, replaceF_none p r rest fun u hu => h u (by simp [preorderF, hu]),
      replaceL_none p r xs fun u hu => h u (by simp [preorderF, preorder, hu])]
  | (k, .node c l gs) :: rest =>
    rw [replaceF, replaceF_none p r rest fun u hu => h u (by simp [preorderF, hu]),
      replace_none p r (.node c l gs) fun u hu => h u (by simp [preorderF, hu])]
    simp [Val.isNone]
theorem replaceL_none (p : Val → Bool) (r : Val) (xs : List Val)
    (h : ∀ u ∈ preorderL xs, p u = false) : replaceL p r xs = xs := by
  match xs with
  | [] => rfl
  | .const c :: rest =>
    rw [replaceL, replaceL_none p r rest fun u hu => h u (by simp [preorderL, hu])]
  | .list ys :: rest =>
    rw [replaceL, replaceL_none p r rest fun u hu => h u (by simp [preorderL, hu])]
  | .node c l gs :: rest =>
    rw [replaceL, replaceL_none p r rest fun u hu => h u (by simp [preorderL, hu]),
      replace_none p r (.node c l gs) fun u hu => h u (by simp [preorderL, hu])]
    rfl
end

theorem preorderL_inList {v : Val} (h : okRepl v) : preorderL (inList v) = preorder v := by
  rcases h with h | rfl
  · rw [← spliceResult_inList, Markers.preorderL_splice h]
  · rfl

mutual
/-- Where the nodes of the new tree come from: a node of `r`, or a node of the old tree whose fields
have been worked on. -/
theorem mem_replace (p : Val → Bool) (r : Val) (hr : okRepl r) (t u : Val)
    (h : u ∈ preorder (replace p r t)) :
    u ∈ preorder r ∨ ∃ c l fs, .node c l fs ∈ preorder t ∧ p (.node c l fs) = false ∧
      u = .node c l (replaceF p r fs) := by
  match t with
  | .const _ => simp [replace, preorder] at h
  | .list xs =>
    rw [replace, preorder] at h
    rw [preorder]
    exact mem_replaceL p r hr xs u h
  | .node c l fs =>
    rw [replace] at h
    split at h
    · exact .inl h
    · rename_i hp
      simp only [preorder, List.mem_cons] at h
      rcases h with rfl | h
      · exact .inr ⟨c, l, fs, by simp [preorder], by simpa using hp, rfl⟩
      · rcases mem_replaceF p r hr fs u h with h | ⟨c', l', fs', hm, hp', he⟩
        · exact .inl h
        · exact .inr ⟨c', l', fs', by simp [preorder, hm], hp', he⟩
theorem mem_replaceF (p : Val → Bool) (r : Val) (hr : okRepl r) (fs : List (F × Val)) (u : Val)
    (h : u ∈ preorderF (replaceF p r fs)) :
    u ∈ preorder r ∨ ∃ c l gs, .node c l gs ∈ preorderF fs ∧ p (.node c l gs) = false ∧
      u = .node c l (replaceF p r gs) := by
  match fs with
  | [] => simp [replaceF, preorderF] at h
  | (k, .const c) :: rest =>
    simp only [replaceF, preorderF, preorder, List.nil_append] at h ⊢
    exact mem_replaceF p r hr rest u h
  | (k, .list xs) :: rest =>
    simp only [replaceF, preorderF, preorder, List.mem_append] at h ⊢
    rcases h with h | h
    · rcases mem_replaceL p r hr xs u h with h | ⟨c', l', fs', hm, hp', he⟩
      · exact .inl h
      · exact .inr ⟨c', l', fs', .inl hm, hp', he⟩
    · rcases mem_replaceF p r hr rest u h with h | ⟨c', l', fs', hm, hp', he⟩
      · exact .inl h
      · exact .inr ⟨c', l', fs', .inr hm, hp', he⟩
  | (k, .node c l gs) :: rest =>
    simp only [replaceF, preorderF, List.mem_append] at h ⊢
    have h : u ∈ preorder (replace p r (.node c l gs)) ∨ u ∈ preorderF (replaceF p r rest) := by
      split at h
      · exact .inr h
      · simpa [preorderF] using h
    rcases h with h | h
    · rcases mem_replace p r hr (.node c l gs) u h with h | ⟨c', l', fs', hm, hp', he⟩
      · exact .inl h
      · exact .inr ⟨c', l', fs', .inl hm, hp', he⟩
    · rcases mem_replaceF p r hr rest u h with h | ⟨c', l', fs', hm, hp', he⟩
      · exact .inl h
      · exact .inr ⟨c', l', fs', .inr hm, hp', he⟩
theorem mem_replaceL (p : Val → Bool) (r : Val) (hr : okRepl r) (xs : List Val) (u : Val)
    (h : u ∈ preorderL (replaceL p r xs)) :
    u ∈ preorder r ∨ ∃ c l gs, .node c l gs ∈ preorderL xs ∧ p (.node c l gs) = false ∧
      u = .node c l (replaceF p r gs) := by
  match xs with
  | [] => simp [replaceL, preorderL] at h
  | .const c :: rest =>
    simp only [replaceL, preorderL] at h ⊢
    exact mem_replaceL p r hr rest u h
  | .list ys :: rest =>
    simp only [replaceL, preorderL] at h ⊢
    exact mem_replaceL p r hr rest u h
  | .node c l gs :: rest =>
    simp only [replaceL, preorderL, Markers.preorderL_append, List.mem_append,
      preorderL_inList (replace_okRepl hr (.node c l gs) rfl)] at h ⊢
    rcases h with h | h
    · rcases mem_replace p r hr (.node c l gs) u h with h | ⟨c', l', fs', hm, hp', he⟩
      · exact .inl h
      · exact .inr ⟨c', l', fs', .inl hm, hp', he⟩
    · rcases mem_replaceL p r hr rest u h with h | ⟨c', l', fs', hm, hp', he⟩
      · exact .inl h
      · exact .inr ⟨c', l', fs', .inr hm, hp', he⟩
end

theorem mem_outermost_of_none (p : Val → Bool) (t : Val) (h : ∀ u ∈ preorder t, p u = false) :
    (preorder t).filter p = [] := by
  rw [List.filter_eq_nil_iff]; intro u hu; simp [h u hu]

mutual
/-- If the nodes with `p` are not nested, the outermost ones are all of them. -/
theorem outermost_eq (p : Val → Bool) (t : Val)
    (h : ∀ c l fs, .node c l fs ∈ preorder t → p (.node c l fs) = true →
      ∀ u ∈ preorderF fs, p u = false) :
    outermost p t = (preorder t).filter p := by
  match t with
  | .const _ => simp [outermost, preorder]
  | .list xs => rw [outermost, preorder, outermostL_eq p xs (by simpa [preorder] using h)]
  | .node c l fs =>
    rw [outermost, preorder, List.filter_cons]
    by_cases hp : p (.node c l fs) = true
    · have := h c l fs (by simp [preorder]) hp
      have hf : (preorderF fs).filter p = [] := by
        rw [List.filter_eq_nil_iff]; intro u hu; simp [this u hu]
      simp [hp, hf]
    · simp only [hp]
      exact outermostF_eq p fs fun c' l' fs' hm => h c' l' fs' (by simp [preorder, hm])
theorem outermostF_eq (p : Val → Bool) (fs : List (F × Val))
    (h : ∀ c l gs, .node c l gs ∈ preorderF fs → p (.node c l gs) = true →
      ∀ u ∈ preorderF gs, p u = false) :
    outermostF p fs = (preorderF fs).filter p := by
  match fs with
  | [] => rfl
  | (k, v) :: rest =>
    rw [outermostF, preorderF, List.filter_append,
      outermostF_eq p rest fun c' l' fs' hm => h c' l' fs' (by simp [preorderF, hm]),
      outermost_eq p v fun c' l' fs' hm => h c' l' fs' (by simp [preorderF, hm])]
theorem outermostL_eq (p : Val → Bool) (xs : List Val)
    (h : ∀ c l gs, .node c l gs ∈ preorderL xs → p (.node c l gs) = true →
      ∀ u ∈ preorderF gs, p u = false) :
    outermostL p xs = (preorderL xs).filter p := by
  match xs with
  | [] => rfl
  | .const _ :: rest =>
    rw [outermostL, preorderL, outermostL_eq p rest fun c' l' fs' hm => h c' l' fs' (by simp [preorderL, hm])]
  | .list _ :: rest =>
    rw [outermostL, preorderL, outermostL_eq p rest fun c' l' fs' hm => h c' l' fs' (by simp [preorderL, hm])]
  | .node c l gs :: rest =>
    rw [outermostL, preorderL, List.filter_append,
      outermostL_eq p rest fun c' l' fs' hm => h c' l' fs' (by simp [preorderL, hm]),
      outermost_eq p (.node c l gs) fun c' l' fs' hm => h c' l' fs' (by simp [preorderL, hm])]
end

end Mcpyrate.Py
