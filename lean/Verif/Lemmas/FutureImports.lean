import Verif.Model.FutureImports
import Verif.Spec.FutureImports
namespace Mcpyrate.FutureImports
open Py

theorem isfutureimport_iff (s : Val) : isfutureimport s = true ↔ IsFuture s := by
  unfold isfutureimport IsFuture
  cases h : s.get? .module_ <;> simp

/-- The value of `k`: the length of the run of future-imports, or one less if it is the whole list. -/
theorem loop_eq (body : List Val) : ∀ (k : Int) (i : Nat), loop k i body =
    if body = [] then k
    else if body.all isfutureimport then (i + body.length - 1 : Int)
    else i + (body.takeWhile isfutureimport).length := by
  induction body with
  | nil => intro k i; simp [loop]
  | cons s rest ih =>
    intro k i
    by_cases h : isfutureimport s = true
    · simp only [loop, h, Bool.not_true, Bool.false_eq_true, if_false, ih, List.all_cons,
        List.takeWhile_cons, if_true, Bool.true_and]
      by_cases hr : rest = []
      · subst hr; simp
      · simp only [hr, if_false, List.cons_ne_nil]
        split <;> simp <;> omega
    · simp [loop, h]

theorem take_takeWhile (p : Val → Bool) (l : List Val) :
    l.take (l.takeWhile p).length = l.takeWhile p ∧ l.drop (l.takeWhile p).length = l.dropWhile p := by
  induction l with
  | nil => simp
  | cons x xs ih => by_cases h : p x = true <;> simp [h, ih]

/-- The two halves, given the body after the docstring. -/
def halves (body : List Val) : List Val × List Val :=
  if body.all isfutureimport ∧ body ≠ [] then (body.dropLast, body.drop (body.length - 1))
  else (body.takeWhile isfutureimport, body.dropWhile isfutureimport)

theorem halves_eq (body : List Val) :
    (if loop (-1) 0 body ≥ 0 then (body.take (loop (-1) 0 body).toNat, body.drop (loop (-1) 0 body).toNat)
      else ([], body)) = halves body := by
  rw [loop_eq, halves]
  by_cases h0 : body = []
  · subst h0; simp
  · have hl : 0 < body.length := List.length_pos_iff.mpr h0
    simp only [h0, if_false]
    by_cases h1 : body.all isfutureimport = true
    · have e : (((0 : Nat) : Int) + body.length - 1).toNat = body.length - 1 := by omega
      have e2 : ((0 : Nat) : Int) + body.length - 1 ≥ 0 := by omega
      rw [if_pos h1, if_pos e2, e, if_pos ⟨h1, h0⟩, List.dropLast_eq_take]
    · have e : (((0 : Nat) : Int) + (body.takeWhile isfutureimport).length).toNat
          = (body.takeWhile isfutureimport).length := by omega
      have e2 : ((0 : Nat) : Int) + (body.takeWhile isfutureimport).length ≥ 0 := by omega
      rw [if_neg h1, if_pos e2, e, if_neg (fun h => h1 h.1), (take_takeWhile _ _).1,
        (take_takeWhile _ _).2]

theorem split_eq (body : List Val) : split body = (getdocstring body).map fun d =>
    if docTruthy d then (body.take 1, halves (body.drop 1)) else ([], halves body) := by
  unfold split
  cases getdocstring body with
  | error e => rfl
  | ok d =>
    change Except.ok _ = Except.ok _
    congr 1
    cases hd : docTruthy d
    · simp only [hd, ← halves_eq body, Bool.false_eq_true, if_false]
      split <;> rfl
    · simp only [hd, if_true, ← halves_eq (body.drop 1)]
      split <;> rfl

theorem halves_concat (body : List Val) : (halves body).1 ++ (halves body).2 = body := by
  unfold halves
  split
  · rw [List.dropLast_eq_take]; exact List.take_append_drop _ _
  · exact List.takeWhile_append_dropWhile

theorem halves_future (body : List Val) : ∀ s ∈ (halves body).1, isfutureimport s = true := by
  intro s hs
  unfold halves at hs
  split at hs
  · rename_i h; exact List.all_eq_true.mp h.1 s (List.dropLast_subset _ hs)
  · exact List.all_eq_true.mp (List.all_takeWhile) s hs

theorem halves_maximal (body : List Val) (h : ¬ (body.all isfutureimport = true ∧ body ≠ [])) :
    ∀ s, (halves body).2.head? = some s → ¬ isfutureimport s = true := by
  intro s hs
  rw [halves, if_neg h] at hs
  have := List.head?_dropWhile_not isfutureimport body
  simp only at hs
  rw [hs] at this
  simpa using this

theorem getdocstring_cons (s : Val) (rest : List Val) : getdocstring (s :: rest) =
    if s.isK .Expr then
      match s.get? .value with
      | none => .error .attributeError
      | some v =>
        if v.isK .Constant then
          match v.get? .value with
          | some (.const c) => .ok (some c)
          | some _ => .ok none
          | none => .error .attributeError
        else .ok none
    else .ok none := rfl

theorem isDocstring_of_getdocstring {s : Val} {rest : List Val} {v : String}
    (h : getdocstring (s :: rest) = .ok (some (.str v))) : IsDocstring s := by
  rw [getdocstring_cons] at h
  split at h
  case isFalse => simp at h
  rename_i he
  cases hv : s.get? .value with
  | none => simp [hv] at h
  | some e =>
    simp only [hv] at h
    split at h
    case isFalse => simp at h
    rename_i hc
    cases hw : e.get? .value with
    | none => simp [hw] at h
    | some w =>
      rw [hw] at h
      cases w with
      | const c =>
        simp only [Except.ok.injEq, Option.some.injEq] at h
        subst h
        exact ⟨he, e, v, hv, hc, hw⟩
      | list xs => simp at h
      | node c l fs => simp at h

theorem getdocstring_of_isDocstring {s : Val} {rest : List Val} (h : IsDocstring s) :
    ∃ v, getdocstring (s :: rest) = .ok (some (.str v)) := by
  obtain ⟨he, e, v, hv, hc, hw⟩ := h
  exact ⟨v, by simp [getdocstring, he, hv, hc, hw]⟩

theorem getdocstring_ok {body : List Val} (h : WellFormed body) : ∃ d, getdocstring body = .ok d := by
  cases body with
  | nil => exact ⟨_, rfl⟩
  | cons s rest =>
    rw [getdocstring_cons]
    split
    case isFalse => exact ⟨_, rfl⟩
    rename_i he
    obtain ⟨e, h1, h2⟩ := h s rfl he
    simp only [h1]
    split
    case isFalse => exact ⟨_, rfl⟩
    rename_i hc
    obtain ⟨c, h3⟩ := h2 hc
    exact ⟨some c, by simp [h3]⟩

end Mcpyrate.FutureImports
