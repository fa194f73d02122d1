import Verif.Lemmas.Markers
/-
C10 get_markers / check_no_markers_remaining and C11 delete_markers.
`p` says which node classes are instances of the marker class asked for.
-/
namespace Mcpyrate
open Py Markers

/-- C10: `get_markers` returns the markers of the tree (or suite) in preorder, once per occurrence. -/
theorem C10_get_markers_preorder (p : Cls → Bool) (t : Val) (ht : t.isTree = true) :
    getMarkers p t = .ok ((preorder t).filter (Val.hasCls p)) :=
  getMarkers_tree p t ht

/-- C10: a node is returned exactly when it occurs in the tree and is a marker. -/
theorem C10_get_markers_complete (p : Cls → Bool) (t m : Val) (ht : t.isTree = true) :
    (∃ ms, getMarkers p t = .ok ms ∧ m ∈ ms) ↔ (Reach t m ∧ m.hasCls p = true) := by
  rw [getMarkers_tree p t ht]
  constructor
  · rintro ⟨ms, h, hm⟩
    cases h
    obtain ⟨h1, h2⟩ := List.mem_filter.1 hm
    exact ⟨(mem_preorder.1 h1).1, h2⟩
  · rintro ⟨h1, h2⟩
    refine ⟨_, rfl, List.mem_filter.2 ⟨?_, h2⟩⟩
    refine mem_preorder.2 ⟨h1, ?_⟩
    cases m <;> simp_all [Val.hasCls, Val.isAST]

/-- C10: `check_no_markers_remaining` raises `MacroExpansionError` exactly when a marker occurs, and
otherwise returns normally. -/
theorem C10_check_no_markers (p : Cls → Bool) (t : Val) (ht : t.isTree = true) :
    ((∃ m, Reach t m ∧ m.hasCls p = true) →
      checkNoMarkersRemaining p t = .error .macroExpansionError) ∧
    ((∀ m, Reach t m → m.hasCls p = false) → checkNoMarkersRemaining p t = .ok ()) := by
  have hg := getMarkers_tree p t ht
  constructor
  · rintro ⟨m, hm⟩
    obtain ⟨ms, h, hmem⟩ := (C10_get_markers_complete p t m ht).2 hm
    rw [checkNoMarkersRemaining, h]
    cases ms with
    | nil => simp at hmem
    | cons => rfl
  · intro hn
    have : (preorder t).filter (Val.hasCls p) = [] := by
      rw [List.filter_eq_nil_iff]
      intro m hm
      simp [hn m (mem_preorder.1 hm).1]
    rw [checkNoMarkersRemaining, hg, this]

/-- C11: whatever `delete_markers` returns is a node or a list of nodes in which no marker occurs. -/
theorem C11_no_markers_left (p : Cls → Bool) (t t' : Val) (h : deleteMarkers p t = .ok t') :
    t'.isTree = true ∧ ∀ m, Reach t' m → m.hasCls p = false := by
  have hc := del_clean p t t' h
  refine ⟨hc.1, fun m hm => ?_⟩
  have := hc.2
  simp only [below, List.filter_eq_nil_iff] at this
  cases hcl : m.hasCls p with
  | false => rfl
  | true =>
    refine absurd hcl (this m ?_)
    refine mem_preorder.2 ⟨hm, ?_⟩
    cases m <;> simp_all [Val.hasCls, Val.isAST]

/-- C11: nothing else changes: the non-marker nodes are the same ones, with the same contents, in
the same order, at the same place (nesting depth and field) among the non-marker nodes. -/
theorem C11_nothing_else (p : Cls → Bool) (t t' : Val) (h : deleteMarkers p t = .ok t') :
    heads p 0 none t' = heads p 0 none t :=
  del_heads p 0 none t t' h

/-- C11: a marker is replaced by its processed body. -/
theorem C11_marker_is_body (p : Cls → Bool) (c : Cls) (l : Loc) (v : Val) (h : p c = true) :
    deleteMarkers p (.node c l [(.body, v)]) = deleteMarkers p v := by
  simp [deleteMarkers, del, delBody, h]

/-- C11: `delete_markers` succeeds on every tree or suite whose markers have a node or a list of
nodes as their body. -/
theorem C11_succeeds (p : Cls → Bool) (t : Val) (ht : t.isTree = true) (h : BodiesOk p t) :
    ∃ t', deleteMarkers p t = .ok t' :=
  del_total p t ht h

/-- C11: a tree or suite without markers is returned unchanged. -/
theorem C11_identity (p : Cls → Bool) (t : Val) (ht : t.isTree = true)
    (h : ∀ m, Reach t m → m.hasCls p = false) : deleteMarkers p t = .ok t := by
  refine del_id p t ht ?_
  simp only [below, List.filter_eq_nil_iff]
  intro m hm
  simp [h m (mem_preorder.1 hm).1]

/-- C11: deleting again changes nothing. -/
theorem C11_idempotent (p : Cls → Bool) (t t' : Val) (h : deleteMarkers p t = .ok t') :
    deleteMarkers p t' = .ok t' :=
  C11_identity p t' (C11_no_markers_left p t t' h).1 (C11_no_markers_left p t t' h).2

/-- Outside the quantifier of C11: a marker whose body is `None` makes the call raise
AttributeError, since `self.visit(None)` ends up in `generic_visit`. -/
theorem C11_none_body (p : Cls → Bool) (c : Cls) (l : Loc) (h : p c = true) :
    deleteMarkers p (.node c l [(.body, .none)]) = .error .attributeError := by
  simp [deleteMarkers, del, delBody, h]

/-! Concrete cases: `[x; Done([Done(y)]); z]` with a marker nested in a marker, and an expression
statement whose value is marked. -/
section
private def isM : Cls → Bool
  | .marker _ => true
  | _ => false
private def M (v : Val) : Val := .node (.marker "Done") {} [(.body, v)]
private def t0 : Val := .list [exprStmt (name "x"), M (.list [M (exprStmt (M (name "y")))]),
  exprStmt (name "z")]
private def t0' : Val := .list [exprStmt (name "x"), exprStmt (name "y"), exprStmt (name "z")]
example : t0.isTree = true ∧ t0'.isTree = true := by decide
example : (getMarkers isM t0).map List.length = .ok 3 := by decide
example : checkNoMarkersRemaining isM t0 = .error .macroExpansionError := by decide
example : checkNoMarkersRemaining isM t0' = .ok () := by decide
example : deleteMarkers isM t0 = .ok t0' := by decide
example : (heads isM 0 none t0).length = 9 := by decide
example : BodiesOk isM t0 := .of_all (by decide)
end

end Mcpyrate
