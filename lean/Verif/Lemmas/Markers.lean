import Verif.Spec.Markers
import Verif.Model.Markers
import Verif.Lemmas.Tree
namespace Mcpyrate.Markers
open Py

@[simp] theorem hasCls_node (p : Cls → Bool) (c : Cls) (l : Loc) (fs : Fields) :
    Val.hasCls p (.node c l fs) = p c := rfl

mutual
theorem collect_filter (p : Cls → Bool) (t : Val) (ht : t.isAST = true) :
    collect p t = (preorder t).filter (Val.hasCls p) := by
  match t with
  | .const _ => simp [Val.isAST] at ht
  | .list _ => simp [Val.isAST] at ht
  | .node c l fs =>
    rw [collect, preorder, collectF_filter p fs]
    by_cases hc : p c = true <;> simp [hc]
theorem collectF_filter (p : Cls → Bool) (fs : List (F × Val)) :
    collectF p fs = (preorderF fs).filter (Val.hasCls p) := by
  match fs with
  | [] => simp [collectF, preorderF]
  | (_, .node c l gs) :: r =>
    simp only [collectF, preorderF, List.filter_append]
    rw [collect_filter p (.node c l gs) rfl, collectF_filter p r]
  | (_, .list xs) :: r =>
    simp only [collectF, preorderF, List.filter_append, preorder]
    rw [collectL_filter p xs, collectF_filter p r]
  | (_, .const _) :: r =>
    simp only [collectF, preorderF, preorder, List.nil_append]
    rw [collectF_filter p r]
theorem collectL_filter (p : Cls → Bool) (xs : List Val) :
    collectL p xs = (preorderL xs).filter (Val.hasCls p) := by
  match xs with
  | [] => simp [collectL, preorderL]
  | .node c l gs :: r =>
    simp only [collectL, preorderL, List.filter_append]
    rw [collect_filter p (.node c l gs) rfl, collectL_filter p r]
  | .list _ :: r => simp only [collectL, preorderL]; rw [collectL_filter p r]
  | .const _ :: r => simp only [collectL, preorderL]; rw [collectL_filter p r]
end

theorem go_ok (p : Cls → Bool) (xs : List Val) (h : ∀ x ∈ xs, x.isAST = true) :
    getMarkers.go p xs = .ok (collectL p xs) := by
  induction xs with
  | nil => simp [getMarkers.go, collectL]
  | cons x xs ih =>
    have hx := h x (by simp)
    cases x with
    | const c => simp [Val.isAST] at hx
    | list ys => simp [Val.isAST] at hx
    | node c l fs => simp [getMarkers.go, getMarkers, collectL, ih (fun y hy => h y (by simp [hy]))]

theorem getMarkers_tree (p : Cls → Bool) (t : Val) (ht : t.isTree = true) :
    getMarkers p t = .ok ((preorder t).filter (Val.hasCls p)) := by
  cases t with
  | const c => simp [Val.isTree] at ht
  | node c l fs => rw [getMarkers, collect_filter _ _ rfl]
  | list xs =>
    simp only [Val.isTree, List.all_eq_true] at ht
    rw [getMarkers, go_ok p xs ht, collectL_filter, preorder]

/-! ### delete_markers -/

/-- A result of the deleter: a node, or a list of nodes. -/
theorem isTree_list {ys : List Val} : (Val.list ys).isTree = true ↔ ∀ y ∈ ys, y.isAST = true := by
  simp [Val.isTree, List.all_eq_true]

theorem isAST_eq {v : Val} (h : v.isAST = true) : ∃ c l fs, v = .node c l fs := by
  cases v with
  | const => simp [Val.isAST] at h
  | list => simp [Val.isAST] at h
  | node c l fs => exact ⟨c, l, fs, rfl⟩

theorem flattenV_append (xs ys : List Val) : flattenV (xs ++ ys) = flattenV xs ++ flattenV ys := by
  induction xs with
  | nil => simp [flattenV]
  | cons x xs ih => simp [flattenV, ih]

theorem flattenV_nodes {xs : List Val} (h : ∀ x ∈ xs, x.isAST = true) : flattenV xs = xs := by
  induction xs with
  | nil => simp [flattenV]
  | cons x xs ih =>
    obtain ⟨c, l, fs, rfl⟩ := isAST_eq (h x (by simp))
    simp [flattenV, flattenItem, ih (fun y hy => h y (by simp [hy]))]

/-- Flattening trees: the items of the lists, and the nodes. -/
theorem flattenItem_tree {v : Val} (h : v.isTree = true) : flattenItem v = spliceResult v := by
  cases v with
  | const c => simp [Val.isTree] at h
  | node c l fs => simp [flattenItem, spliceResult]
  | list ys => simp [flattenItem, spliceResult, flattenV_nodes (isTree_list.1 h)]

theorem spliceResult_nodes {v : Val} (h : v.isTree = true) : ∀ y ∈ spliceResult v, y.isAST = true := by
  cases v with
  | const c => simp [Val.isTree] at h
  | node c l fs => simp [spliceResult, Val.isAST]
  | list ys => simpa [spliceResult] using isTree_list.1 h

theorem isTree_not_none {v : Val} (h : v.isTree = true) : v.isNone = false := by
  cases v with
  | const c => simp [Val.isTree] at h
  | node c l fs => rfl
  | list ys => rfl

theorem flattenV_trees {rs : List Val} (h : ∀ r ∈ rs, r.isTree = true) :
    flattenV rs = rs.flatMap spliceResult := by
  induction rs with
  | nil => simp [flattenV]
  | cons r rs ih =>
    simp [flattenV, flattenItem_tree (h r (by simp)), ih (fun y hy => h y (by simp [hy]))]

/-- All markers below a value (any value). -/
abbrev below (p : Cls → Bool) (v : Val) : List Val := (preorder v).filter (Val.hasCls p)

theorem preorderL_append (xs ys : List Val) : preorderL (xs ++ ys) = preorderL xs ++ preorderL ys := by
  induction xs with
  | nil => simp [preorderL]
  | cons x xs ih => cases x <;> simp [preorderL, ih]

theorem preorderL_splice {v : Val} (h : v.isTree = true) : preorderL (spliceResult v) = preorder v := by
  cases v with
  | const c => simp [Val.isTree] at h
  | node c l fs => simp [spliceResult, preorderL]
  | list ys => simp [spliceResult, preorder]

theorem preorderL_flatMap {rs : List Val} (h : ∀ r ∈ rs, r.isTree = true) :
    preorderL (rs.flatMap spliceResult) = rs.flatMap preorder := by
  induction rs with
  | nil => simp [preorderL]
  | cons r rs ih =>
    simp [preorderL_append, preorderL_splice (h r (by simp)), ih (fun y hy => h y (by simp [hy]))]

mutual
theorem del_clean (p : Cls → Bool) (t t' : Val) (h : del p t = .ok t') :
    t'.isTree = true ∧ below p t' = [] := by
  match t with
  | .const _ => simp [del] at h
  | .list xs =>
    simp only [del] at h
    split at h
    · simp at h
    · rename_i rs hrs
      simp only [Except.ok.injEq] at h
      subst h
      have hc := delElts_clean p xs rs hrs
      have ht : ∀ r ∈ rs, r.isTree = true := fun r hr => (hc r hr).1
      rw [flattenV_trees ht]
      constructor
      · rw [isTree_list]
        intro y hy
        obtain ⟨r, hr, hy⟩ := List.mem_flatMap.1 hy
        exact spliceResult_nodes (ht r hr) y hy
      · simp only [below, preorder, preorderL_flatMap ht, List.filter_flatMap]
        rw [List.flatMap_eq_nil_iff]
        exact fun r hr => (hc r hr).2
  | .node c l fs =>
    simp only [del] at h
    split at h
    · exact delBody_clean p fs t' h
    · rename_i hc
      split at h
      · simp at h
      · rename_i fs' hfs
        simp only [Except.ok.injEq] at h
        subst h
        have := delFields_clean p fs fs' hfs
        refine ⟨rfl, ?_⟩
        simp only [below, preorder, List.filter_cons, hasCls_node, hc]
        exact this
theorem delBody_clean (p : Cls → Bool) (fs : List (F × Val)) (t' : Val)
    (h : delBody p fs = .ok t') : t'.isTree = true ∧ below p t' = [] := by
  match fs with
  | [] => simp [delBody] at h
  | (f, v) :: r =>
    simp only [delBody] at h
    split at h
    · exact del_clean p v t' h
    · exact delBody_clean p r t' h
theorem delElts_clean (p : Cls → Bool) (xs rs : List Val) (h : delElts p xs = .ok rs) :
    ∀ r ∈ rs, r.isTree = true ∧ below p r = [] := by
  match xs with
  | [] => simp only [delElts, Except.ok.injEq] at h; subst h; simp
  | x :: xs =>
    simp only [delElts] at h
    split at h
    · simp at h
    · rename_i r hr
      split at h
      · simp at h
      · rename_i rs' hrs
        simp only [Except.ok.injEq] at h
        subst h
        have h1 := del_clean p x r hr
        have h2 := delElts_clean p xs rs' hrs
        intro y hy
        rcases List.mem_cons.1 hy with rfl | hy
        · exact h1
        · exact h2 y hy
theorem delFields_clean (p : Cls → Bool) (fs fs' : List (F × Val)) (h : delFields p fs = .ok fs') :
    (preorderF fs').filter (Val.hasCls p) = [] := by
  match fs with
  | [] => simp only [delFields, Except.ok.injEq] at h; subst h; simp [preorderF]
  | (f, .const c) :: r =>
    simp only [delFields] at h
    split at h
    · simp at h
    · rename_i r' hr
      simp only [Except.ok.injEq] at h
      subst h
      simpa [preorderF, preorder] using delFields_clean p r r' hr
  | (f, .list xs) :: r =>
    simp only [delFields] at h
    split at h
    · simp at h
    · rename_i ys hys
      split at h
      · simp at h
      · rename_i r' hr
        simp only [Except.ok.injEq] at h
        subst h
        have h1 := delItems_clean p xs ys hys
        have h2 := delFields_clean p r r' hr
        simp [preorderF, preorder, h1, h2]
  | (f, .node c l gs) :: r =>
    simp only [delFields] at h
    split at h
    · simp at h
    · rename_i v hv
      split at h
      · simp at h
      · rename_i r' hr
        have h1 := del_clean p (.node c l gs) v hv
        have h2 := delFields_clean p r r' hr
        rw [isTree_not_none h1.1] at h
        simp only [Except.ok.injEq, Bool.false_eq_true, if_false] at h
        subst h
        have h3 := h1.2
        simp only [below] at h3
        simp [preorderF, h3, h2]
theorem delItems_clean (p : Cls → Bool) (xs ys : List Val) (h : delItems p xs = .ok ys) :
    (preorderL ys).filter (Val.hasCls p) = [] := by
  match xs with
  | [] => simp only [delItems, Except.ok.injEq] at h; subst h; simp [preorderL]
  | .node c l fs :: r =>
    simp only [delItems] at h
    split at h
    · simp at h
    · rename_i v hv
      split at h
      · simp at h
      · rename_i r' hr
        simp only [Except.ok.injEq] at h
        subst h
        have h1 := del_clean p (.node c l fs) v hv
        have h2 := delItems_clean p r r' hr
        have h3 := h1.2
        simp only [below] at h3
        simp [preorderL_append, preorderL_splice h1.1, h3, h2]
  | .list zs :: r =>
    simp only [delItems] at h
    split at h
    · simp at h
    · rename_i r' hr
      simp only [Except.ok.injEq] at h
      subst h
      simpa [preorderL] using delItems_clean p r r' hr
  | .const _ :: r =>
    simp only [delItems] at h
    split at h
    · simp at h
    · rename_i r' hr
      simp only [Except.ok.injEq] at h
      subst h
      simpa [preorderL] using delItems_clean p r r' hr
end

mutual
theorem del_id (p : Cls → Bool) (t : Val) (ht : t.isTree = true) (h : below p t = []) :
    del p t = .ok t := by
  match t with
  | .const _ => simp [Val.isTree] at ht
  | .list xs =>
    have hn := isTree_list.1 ht
    simp only [below, preorder] at h
    simp only [del]
    rw [delElts_id p xs hn h]
    simp [flattenV_nodes hn]
  | .node c l fs =>
    simp only [below, preorder] at h
    simp only [del]
    by_cases hc : p c = true
    · simp [hc] at h
    · rw [List.filter_cons_of_neg (by simpa using hc)] at h
      rw [if_neg hc, delFields_id p fs h]
theorem delElts_id (p : Cls → Bool) (xs : List Val) (hn : ∀ x ∈ xs, x.isAST = true)
    (h : (preorderL xs).filter (Val.hasCls p) = []) : delElts p xs = .ok xs := by
  match xs with
  | [] => simp [delElts]
  | .const _ :: r => have := hn _ (List.mem_cons_self); simp [Val.isAST] at this
  | .list _ :: r => have := hn _ (List.mem_cons_self); simp [Val.isAST] at this
  | .node c l fs :: r =>
    simp only [preorderL, List.filter_append, List.append_eq_nil_iff] at h
    simp only [delElts]
    rw [del_id p (.node c l fs) rfl h.1, delElts_id p r (fun x hx => hn x (by simp [hx])) h.2]
theorem delFields_id (p : Cls → Bool) (fs : List (F × Val))
    (h : (preorderF fs).filter (Val.hasCls p) = []) : delFields p fs = .ok fs := by
  match fs with
  | [] => simp [delFields]
  | (f, .const c) :: r =>
    simp only [preorderF, preorder, List.nil_append] at h
    simp only [delFields]
    rw [delFields_id p r h]
  | (f, .list xs) :: r =>
    simp only [preorderF, preorder, List.filter_append, List.append_eq_nil_iff] at h
    simp only [delFields]
    rw [delItems_id p xs h.1, delFields_id p r h.2]
  | (f, .node c l gs) :: r =>
    simp only [preorderF, List.filter_append, List.append_eq_nil_iff] at h
    simp only [delFields]
    rw [del_id p (.node c l gs) rfl h.1, delFields_id p r h.2]
    simp [Val.isNone]
theorem delItems_id (p : Cls → Bool) (xs : List Val)
    (h : (preorderL xs).filter (Val.hasCls p) = []) : delItems p xs = .ok xs := by
  match xs with
  | [] => simp [delItems]
  | .node c l fs :: r =>
    simp only [preorderL, List.filter_append, List.append_eq_nil_iff] at h
    simp only [delItems]
    rw [del_id p (.node c l fs) rfl h.1, delItems_id p r h.2]
    simp [spliceResult]
  | .list zs :: r =>
    simp only [preorderL] at h
    simp only [delItems]
    rw [delItems_id p r h]
  | .const _ :: r =>
    simp only [preorderL] at h
    simp only [delItems]
    rw [delItems_id p r h]
end

/-! ### headers -/
theorem headsE_append (p : Cls → Bool) (d : Nat) (o : Option F) (xs ys : List Val) :
    headsE p d o (xs ++ ys) = headsE p d o xs ++ headsE p d o ys := by
  induction xs with
  | nil => simp [headsE]
  | cons x xs ih => simp [headsE, ih]

theorem headsL_append (p : Cls → Bool) (d : Nat) (o : Option F) (xs ys : List Val) :
    headsL p d o (xs ++ ys) = headsL p d o xs ++ headsL p d o ys := by
  induction xs with
  | nil => simp [headsL]
  | cons x xs ih => cases x <;> simp [headsL, ih]

theorem headsE_nodes (p : Cls → Bool) (d : Nat) (o : Option F) {xs : List Val} (h : ∀ x ∈ xs, x.isAST = true) :
    headsE p d o xs = headsL p d o xs := by
  induction xs with
  | nil => simp [headsE, headsL]
  | cons x xs ih =>
    obtain ⟨c, l, fs, rfl⟩ := isAST_eq (h x (by simp))
    simp [headsE, headsL, ih (fun y hy => h y (by simp [hy]))]

theorem headsE_splice (p : Cls → Bool) (d : Nat) (o : Option F) {v : Val} (h : v.isTree = true) :
    headsE p d o (spliceResult v) = heads p d o v := by
  cases v with
  | const c => simp [Val.isTree] at h
  | node c l fs => simp [spliceResult, headsE]
  | list ys => simp [spliceResult, heads]

theorem headsL_splice (p : Cls → Bool) (d : Nat) (o : Option F) {v : Val} (h : v.isTree = true) :
    headsL p d o (spliceResult v) = heads p d o v := by
  rw [← headsE_nodes p d o (spliceResult_nodes h), headsE_splice p d o h]

theorem headsF_tree (p : Cls → Bool) (d : Nat) (f : F) {v : Val} (h : v.isTree = true) (r : List (F × Val)) :
    headsF p d ((f, v) :: r) = heads p d (some f) v ++ headsF p d r := by
  cases v with
  | const c => simp [Val.isTree] at h
  | node c l fs => simp [headsF]
  | list ys => simp [headsF, heads, headsE_nodes p d (some f) (isTree_list.1 h)]

/-- Constants written directly in a field. -/
def constsOf : Val → List Const
  | .const k => [k]
  | .list xs => xs.filterMap fun | .const k => some k | _ => none
  | .node .. => []

theorem header_eq (c : Cls) (l : Loc) (fs : Fields) :
    header c l fs = (c, l, fs.map fun p => (p.1, constsOf p.2)) := by
  rfl

theorem constsOf_tree {v : Val} (h : v.isTree = true) : constsOf v = [] := by
  cases v with
  | const c => simp [Val.isTree] at h
  | node c l fs => rfl
  | list ys =>
    have := isTree_list.1 h
    simp only [constsOf, List.filterMap_eq_nil_iff]
    intro a ha
    obtain ⟨c, l, fs, rfl⟩ := isAST_eq (this a ha)
    rfl

theorem consts_splice {v : Val} (h : v.isTree = true) (r : List Val) :
    constsOf (.list (spliceResult v ++ r)) = constsOf (.list r) := by
  have : constsOf (.list (spliceResult v)) = [] :=
    constsOf_tree (isTree_list.2 (spliceResult_nodes h))
  simp only [constsOf, List.filterMap_append] at *
  simp [this]

mutual
theorem del_heads (p : Cls → Bool) (d : Nat) (o : Option F) (t t' : Val) (h : del p t = .ok t') : heads p d o t' = heads p d o t := by
  match t with
  | .const _ => simp [del] at h
  | .list xs =>
    simp only [del] at h
    split at h
    · simp at h
    · rename_i rs hrs
      simp only [Except.ok.injEq] at h
      subst h
      have ht : ∀ r ∈ rs, r.isTree = true := fun r hr => (delElts_clean p xs rs hrs r hr).1
      have he := delElts_heads p d o xs rs hrs
      rw [flattenV_trees ht]
      simp only [heads]
      rw [← he]
      clear he hrs
      induction rs with
      | nil => simp [headsE]
      | cons r rs ih =>
        simp [headsE_append, headsE, headsE_splice p d o (ht r (by simp)),
          ih (fun y hy => ht y (by simp [hy]))]
  | .node c l fs =>
    simp only [del] at h
    split at h
    · rename_i hc
      rw [heads, if_pos hc]
      exact delBody_heads p d o fs t' h
    · rename_i hc
      split at h
      · simp at h
      · rename_i fs' hfs
        simp only [Except.ok.injEq] at h
        subst h
        have := delFields_heads p (d + 1) fs fs' hfs
        simp only [heads, if_neg hc, header_eq, this.1, this.2]
termination_by structural t
theorem delBody_heads (p : Cls → Bool) (d : Nat) (o : Option F) (fs : List (F × Val)) (t' : Val)
    (h : delBody p fs = .ok t') : heads p d o t' = headsBody p d o fs := by
  match fs with
  | [] => simp [delBody] at h
  | (f, v) :: r =>
    simp only [delBody] at h
    simp only [headsBody]
    split at h
    · rename_i hf; rw [if_pos hf]; exact del_heads p d o v t' h
    · rename_i hf; rw [if_neg hf]; exact delBody_heads p d o r t' h
termination_by structural fs
theorem delElts_heads (p : Cls → Bool) (d : Nat) (o : Option F) (xs rs : List Val) (h : delElts p xs = .ok rs) :
    headsE p d o rs = headsE p d o xs := by
  match xs with
  | [] => simp only [delElts, Except.ok.injEq] at h; subst h; rfl
  | x :: xs =>
    simp only [delElts] at h
    split at h
    · simp at h
    · rename_i r hr
      split at h
      · simp at h
      · rename_i rs' hrs
        simp only [Except.ok.injEq] at h
        subst h
        simp only [headsE]
        rw [del_heads p d o x r hr, delElts_heads p d o xs rs' hrs]
termination_by structural xs
theorem delFields_heads (p : Cls → Bool) (d : Nat) (fs fs' : List (F × Val)) (h : delFields p fs = .ok fs') :
    headsF p d fs' = headsF p d fs ∧
    (fs'.map fun p => (p.1, constsOf p.2)) = fs.map fun p => (p.1, constsOf p.2) := by
  match fs with
  | [] => simp only [delFields, Except.ok.injEq] at h; subst h; simp
  | (f, .const c) :: r =>
    simp only [delFields] at h
    split at h
    · simp at h
    · rename_i r' hr
      simp only [Except.ok.injEq] at h
      subst h
      have := delFields_heads p d r r' hr
      simp [headsF, this.1, this.2]
  | (f, .list xs) :: r =>
    simp only [delFields] at h
    split at h
    · simp at h
    · rename_i ys hys
      split at h
      · simp at h
      · rename_i r' hr
        simp only [Except.ok.injEq] at h
        subst h
        have h1 := delItems_heads p d (some f) xs ys hys
        have h2 := delFields_heads p d r r' hr
        simp [headsF, h1.1, h1.2, h2.1, h2.2]
  | (f, .node c l gs) :: r =>
    simp only [delFields] at h
    split at h
    · simp at h
    · rename_i v hv
      split at h
      · simp at h
      · rename_i r' hr
        have h0 := (del_clean p (.node c l gs) v hv).1
        have h1 := del_heads p d (some f) (.node c l gs) v hv
        have h2 := delFields_heads p d r r' hr
        rw [isTree_not_none h0] at h
        simp only [Except.ok.injEq, Bool.false_eq_true, if_false] at h
        subst h
        rw [headsF_tree p d f h0, h1]
        simp only [headsF, h2.1, List.map_cons, h2.2, constsOf_tree h0]
        exact ⟨trivial, rfl⟩
termination_by structural fs
theorem delItems_heads (p : Cls → Bool) (d : Nat) (o : Option F) (xs ys : List Val) (h : delItems p xs = .ok ys) :
    headsL p d o ys = headsL p d o xs ∧ constsOf (.list ys) = constsOf (.list xs) := by
  match xs with
  | [] => simp only [delItems, Except.ok.injEq] at h; subst h; simp
  | .node c l fs :: r =>
    simp only [delItems] at h
    split at h
    · simp at h
    · rename_i v hv
      split at h
      · simp at h
      · rename_i r' hr
        simp only [Except.ok.injEq] at h
        subst h
        have h0 := (del_clean p (.node c l fs) v hv).1
        have h1 := del_heads p d o (.node c l fs) v hv
        have h2 := delItems_heads p d o r r' hr
        refine ⟨?_, ?_⟩
        · rw [headsL_append, headsL_splice p d o h0, h1, h2.1]; simp [headsL]
        · rw [consts_splice h0, h2.2]; simp [constsOf]
  | .list zs :: r =>
    simp only [delItems] at h
    split at h
    · simp at h
    · rename_i r' hr
      simp only [Except.ok.injEq] at h
      subst h
      have := delItems_heads p d o r r' hr
      simp only [headsL, this.1, true_and]
      have h2 := this.2
      simp only [constsOf] at *
      simp [h2]
  | .const _ :: r =>
    simp only [delItems] at h
    split at h
    · simp at h
    · rename_i r' hr
      simp only [Except.ok.injEq] at h
      subst h
      have := delItems_heads p d o r r' hr
      simp only [headsL, this.1, true_and]
      have h2 := this.2
      simp only [constsOf] at *
      simp [h2]
termination_by structural xs
end

/-! ### success -/
/-- A decidable form of `BodiesOk`, for concrete cases. -/
theorem BodiesOk.of_all {p : Cls → Bool} {t : Val}
    (h : (preorder t).all (fun m => !m.hasCls p || (m.get? .body).any Val.isTree) = true) :
    BodiesOk p t := by
  intro m hr hm
  have ha : m.isAST = true := by cases m <;> simp_all [Val.hasCls, Val.isAST]
  have := List.all_eq_true.1 h m (mem_preorder.2 ⟨hr, ha⟩)
  simp only [hm, Bool.not_true, Bool.false_or, Option.any_eq_true] at this
  exact this

theorem BodiesOk.child {p : Cls → Bool} {t u : Val} (h : BodiesOk p t) (hc : Child t u) :
    BodiesOk p u := fun m hr hm => h m (.step hc hr) hm

mutual
theorem del_total (p : Cls → Bool) (t : Val) (ht : t.isTree = true) (h : BodiesOk p t) :
    ∃ t', del p t = .ok t' := by
  match t with
  | .const _ => simp [Val.isTree] at ht
  | .list xs =>
    have hn := isTree_list.1 ht
    obtain ⟨rs, hrs⟩ := delElts_total p xs hn (fun x hx => h.child (.elt hx (hn x hx)))
    exact ⟨_, by simp only [del, hrs]; rfl⟩
  | .node c l fs =>
    simp only [del]
    by_cases hc : p c = true
    · obtain ⟨v, hv, hvt⟩ := h _ (.refl _) hc
      simp only [if_pos hc]
      exact delBody_total p c l fs fs (fun _ h => h) h v hv hvt
    · obtain ⟨fs', hfs⟩ := delFields_total p c l fs fs (fun _ h => h) h
      exact ⟨_, by rw [if_neg hc, hfs]⟩
theorem delBody_total (p : Cls → Bool) (c : Cls) (l : Loc) (all fs : List (F × Val))
    (hsub : ∀ q ∈ fs, q ∈ all) (h : BodiesOk p (.node c l all)) (v : Val)
    (hv : (Val.node c l fs).get? .body = some v) (hvt : v.isTree = true) :
    ∃ t', delBody p fs = .ok t' := by
  match fs with
  | [] => simp [Val.get?] at hv
  | (f, w) :: r =>
    simp only [delBody]
    by_cases hf : f = .body
    · subst hf
      simp only [Val.get?, List.lookup_cons, BEq.rfl] at hv
      obtain rfl : w = v := Option.some.inj hv
      simp only [if_true]
      refine del_total p w hvt ?_
      match w with
      | .const _ => simp [Val.isTree] at hvt
      | .node d m gs => exact h.child (.field (hsub _ List.mem_cons_self) rfl)
      | .list ys =>
        intro m hr hm
        cases hr with
        | refl => simp [Val.hasCls] at hm
        | step hc hr =>
          cases hc with
          | elt hx ha => exact h m (.step (.item (hsub _ List.mem_cons_self) hx ha) hr) hm
    · simp only [if_neg hf]
      have : (F.body == f) = false := by simpa using fun e => hf e.symm
      simp only [Val.get?, List.lookup_cons, this] at hv
      exact delBody_total p c l all r (fun q hq => hsub q (by simp [hq])) h v hv hvt
theorem delElts_total (p : Cls → Bool) (xs : List Val) (hn : ∀ x ∈ xs, x.isAST = true)
    (h : ∀ x ∈ xs, BodiesOk p x) : ∃ rs, delElts p xs = .ok rs := by
  match xs with
  | [] => exact ⟨[], by simp [delElts]⟩
  | x :: xs =>
    have hx : x.isTree = true := by
      obtain ⟨c, l, fs, rfl⟩ := isAST_eq (hn x (by simp))
      rfl
    obtain ⟨r, hr⟩ := del_total p x hx (h x (by simp))
    obtain ⟨rs, hrs⟩ := delElts_total p xs (fun y hy => hn y (by simp [hy])) (fun y hy => h y (by simp [hy]))
    exact ⟨r :: rs, by simp only [delElts, hr, hrs]⟩
theorem delFields_total (p : Cls → Bool) (c : Cls) (l : Loc) (all fs : List (F × Val))
    (hsub : ∀ q ∈ fs, q ∈ all) (h : BodiesOk p (.node c l all)) :
    ∃ fs', delFields p fs = .ok fs' := by
  match fs with
  | [] => exact ⟨[], by simp [delFields]⟩
  | (f, .const k) :: r =>
    obtain ⟨r', hr⟩ := delFields_total p c l all r (fun q hq => hsub q (by simp [hq])) h
    exact ⟨_, by simp only [delFields, hr]; rfl⟩
  | (f, .list xs) :: r =>
    obtain ⟨r', hr⟩ := delFields_total p c l all r (fun q hq => hsub q (by simp [hq])) h
    obtain ⟨ys, hys⟩ := delItems_total p xs
      (fun x hx ha => h.child (.item (hsub _ List.mem_cons_self) hx ha))
    exact ⟨_, by simp only [delFields, hr, hys]; rfl⟩
  | (f, .node d m gs) :: r =>
    obtain ⟨r', hr⟩ := delFields_total p c l all r (fun q hq => hsub q (by simp [hq])) h
    obtain ⟨v, hv⟩ := del_total p (.node d m gs) rfl
      (h.child (.field (hsub _ List.mem_cons_self) rfl))
    exact ⟨_, by simp only [delFields, hr, hv]; rfl⟩
theorem delItems_total (p : Cls → Bool) (xs : List Val)
    (h : ∀ x ∈ xs, x.isAST = true → BodiesOk p x) : ∃ ys, delItems p xs = .ok ys := by
  match xs with
  | [] => exact ⟨[], by simp [delItems]⟩
  | .node c l fs :: r =>
    obtain ⟨v, hv⟩ := del_total p (.node c l fs) rfl (h _ List.mem_cons_self rfl)
    obtain ⟨r', hr⟩ := delItems_total p r (fun x hx => h x (by simp [hx]))
    exact ⟨_, by simp only [delItems, hr, hv]; rfl⟩
  | .list zs :: r =>
    obtain ⟨r', hr⟩ := delItems_total p r (fun x hx => h x (by simp [hx]))
    exact ⟨_, by simp only [delItems, hr]; rfl⟩
  | .const _ :: r =>
    obtain ⟨r', hr⟩ := delItems_total p r (fun x hx => h x (by simp [hx]))
    exact ⟨_, by simp only [delItems, hr]; rfl⟩
end

end Mcpyrate.Markers
