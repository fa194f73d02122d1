import Verif.Lemmas.Transform
import Verif.Spec.Splicing
import Verif.Lemmas.FixLocations
namespace Mcpyrate.Splicing
open Py

theorem beq_val {a b : Val} : (a == b) = true ↔ a = b := by simp

/-- How the state of a splicer changes. -/
def paste (s : PSt) (_ : Val) : PSt :=
  if s.first then { first := false, pastes := s.pastes ++ [.original] }
  else { s with pastes := s.pastes ++ [.copy] }

theorem paste_foldl (us : List Val) :
    (us.foldl paste {}).pastes = pastes us.length := by
  have h : ∀ (us : List Val) (s : PSt), s.first = false →
      (us.foldl paste s).pastes = s.pastes ++ List.replicate us.length .copy := by
    intro us
    induction us with
    | nil => intro s _; simp
    | cons u us ih =>
      intro s hs
      have hf : (paste s u).first = false := by simp [paste, hs]
      rw [List.foldl_cons, ih _ hf]
      simp [paste, hs, List.replicate_succ]
  cases us with
  | nil => rfl
  | cons u us =>
    rw [List.foldl_cons, h us _ (by simp [paste])]
    simp [paste, pastes]

theorem splicer_decides {P : Val → Except Err Bool} {p : Val → Bool} {r : Val} {us : List Val}
    (h : ∀ u ∈ us, P u = .ok (p u)) : Decides (splicer P r) p r paste us := by
  intro u hu s
  simp only [splicer, h u hu]
  cases hp : p u with
  | false => simp
  | true =>
    cases hs : s.first <;> simp [paste, hs]

theorem isPasteExpr_eq {tag : String} {u : Val}
    (h : u.isK .Name = true → ∃ v, u.get? .id = some v) : isPasteExpr tag u = .ok (isTag tag u) := by
  unfold isPasteExpr isTag
  cases hk : u.isK .Name with
  | false => simp
  | true =>
    obtain ⟨v, hv⟩ := h hk
    simp [hv]

theorem isPasteStmt_eq {tag : String} {u : Val}
    (h : u.isK .Expr = true → ∃ v, u.get? .value = some v ∧
      (v.isK .Name = true → ∃ w, v.get? .id = some w)) :
    isPasteStmt tag u = .ok (isTagStmt tag u) := by
  unfold isPasteStmt isTagStmt
  cases hk : u.isK .Expr with
  | false => simp
  | true =>
    obtain ⟨v, hv, hw⟩ := h hk
    simp only [hv, if_true, Bool.true_and]
    have := isPasteExpr_eq (tag := tag) hw
    unfold isPasteExpr at this
    exact this

theorem okExpr_of {e : Val} (h : IsExpression e) : okExpr e = .ok true := by
  rcases h with h | ⟨n, l, fs, b, rfl, hb, he⟩
  · cases e with
    | const c => simp [isExprV] at h
    | list xs => simp [isExprV] at h
    | node c l fs =>
      cases c with
      | marker n => simp [isExprV] at h
      | py k => simp only [okExpr, h]
  · simp only [Val.get?] at hb
    simp only [okExpr, hb, he]

theorem isExprV_isAST {e : Val} (h : isExprV e = true) : e.isAST = true := by
  cases e <;> simp_all [isExprV, Val.isAST]

theorem IsExpression.isAST {e : Val} (h : IsExpression e) : e.isAST = true := by
  rcases h with h | ⟨n, l, fs, b, rfl, _, _⟩
  · exact isExprV_isAST h
  · rfl

theorem isTree_of_isAST {e : Val} (h : e.isAST = true) : e.isTree = true := by
  cases e <;> simp_all [Val.isTree, Val.isAST]

theorem reach_value {u v : Val} {f : F} (h : u.get? f = some v) (hv : v.isAST = true) :
    Reach u v := by
  cases u with
  | const c => simp [Val.get?] at h
  | list xs => simp [Val.get?] at h
  | node c l fs =>
    simp only [Val.get?] at h
    refine .step (.field (f := f) ?_ hv) (.refl _)
    clear hv
    induction fs with
    | nil => simp at h
    | cons x fs ih =>
      obtain ⟨k, w⟩ := x
      rw [List.lookup_cons] at h
      split at h
      · rename_i hk
        have : f = k := by simpa using hk
        subst this
        cases h; simp
      · exact List.mem_cons_of_mem _ (ih h)

theorem isK_isAST {u : Val} {k : K} (h : u.isK k = true) : u.isAST = true := by
  cases u <;> simp_all [Val.isK, Val.isAST]

theorem lookup_replaceF {p : Val → Bool} {r : Val} (hr : r.isNone = false) (f : F)
    (fs : List (F × Val)) : (replaceF p r fs).lookup f = (fs.lookup f).map (replace p r) := by
  induction fs with
  | nil => rfl
  | cons x fs ih =>
    obtain ⟨k, v⟩ := x
    cases v with
    | const c =>
      rw [replaceF, List.lookup_cons, List.lookup_cons, ih]
      split <;> simp [replace]
    | list xs =>
      rw [replaceF, List.lookup_cons, List.lookup_cons, ih]
      split <;> simp [replace]
    | node c l gs =>
      have hn : (replace p r (.node c l gs)).isNone = false := by
        rw [replace]; split
        · exact hr
        · rfl
      rw [replaceF, hn]
      simp only [Bool.false_eq_true, if_false]
      rw [List.lookup_cons, List.lookup_cons, ih]
      split <;> simp

theorem replace_const {p : Val → Bool} {r v : Val} {c : Const} (hr : r.isTree = true)
    (h : replace p r v = .const c) : v = .const c := by
  cases v with
  | const d => simpa [replace] using h
  | list xs => simp [replace] at h
  | node d l fs =>
    rw [replace] at h
    split at h
    · subst h; simp [Val.isTree] at hr
    · cases h

theorem isTag_replaceF {p : Val → Bool} {r : Val} (hr : r.isTree = true) {tag : String} {c l fs}
    (h : isTag tag (.node c l (replaceF p r fs)) = true) : isTag tag (.node c l fs) = true := by
  simp only [isTag, Bool.and_eq_true, beq_iff_eq, Val.get?] at h ⊢
  refine ⟨by cases c <;> exact h.1, ?_⟩
  have h2 := h.2
  rw [lookup_replaceF (Markers.isTree_not_none hr)] at h2
  cases hl : fs.lookup F.id with
  | none => rw [hl] at h2; cases h2
  | some v =>
    rw [hl] at h2
    simp only [Option.map_some, Option.some.injEq] at h2
    rw [replace_const hr h2]

theorem isTagStmt_replaceF {tag : String} {ys : List Val} (hr : (Val.list ys).isTree = true) {c l fs}
    (h : isTagStmt tag (.node c l (replaceF (isTagStmt tag) (.list ys) fs)) = true) :
    isTagStmt tag (.node c l fs) = true := by
  simp only [isTagStmt, Bool.and_eq_true, Val.get?] at h ⊢
  refine ⟨by cases c <;> exact h.1, ?_⟩
  have h2 := h.2
  rw [lookup_replaceF rfl] at h2
  cases hl : fs.lookup F.value with
  | none => rw [hl] at h2; cases h2
  | some v =>
    rw [hl] at h2
    simp only [Option.map_some] at h2
    cases v with
    | const d => simpa [replace] using h2
    | list xs => simp [replace, isTag, Val.isK] at h2
    | node d m gs =>
      rw [replace] at h2
      split at h2
      · simp [isTag, Val.isK] at h2
      · exact isTag_replaceF hr h2

end Mcpyrate.Splicing
