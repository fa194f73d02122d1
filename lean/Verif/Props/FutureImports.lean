import Verif.Lemmas.FutureImports
/-
C06 future-imports.

Full property: for every body, `split_futureimports` returns the docstring, the maximal run of
future-imports after it, and the rest (`IsSplit`), and `inject_after_futureimports` puts the new
statements between the last two.  False of the code in three cases:
* the body, apart from the docstring, consists of future-imports only (`C06_only_future_violated`);
* the docstring is the empty string (`C06_empty_docstring_violated`);
* the body begins with a constant that is not a string (`C06_number_violated`).
The `_partial` theorems exclude exactly these.
-/
namespace Mcpyrate
open Py FutureImports

/-- C06: the three parts always concatenate to the body. -/
theorem C06_split_concat (body d f r : List Val) (h : split body = .ok (d, f, r)) :
    d ++ f ++ r = body := by
  rw [split_eq] at h
  cases hg : getdocstring body with
  | error e => rw [hg] at h; cases h
  | ok g =>
    rw [hg] at h
    simp only [Except.map, Except.ok.injEq] at h
    split at h
    · simp only [Prod.mk.injEq] at h
      obtain ⟨h1, h2⟩ := h
      rw [← h1, List.append_assoc]
      have : f ++ r = body.drop 1 := by
        rw [← halves_concat (body.drop 1), h2]
      rw [this, List.take_append_drop]
    · simp only [Prod.mk.injEq] at h
      obtain ⟨h1, h2⟩ := h
      rw [← h1, List.nil_append]
      rw [← halves_concat body, h2]

/-- C06: the middle part always consists of future-imports. -/
theorem C06_split_future (body d f r : List Val) (h : split body = .ok (d, f, r)) :
    ∀ s ∈ f, IsFuture s := by
  rw [split_eq] at h
  cases hg : getdocstring body with
  | error e => rw [hg] at h; cases h
  | ok g =>
    rw [hg] at h
    simp only [Except.map, Except.ok.injEq] at h
    intro s hs
    split at h
    · simp only [Prod.mk.injEq] at h
      refine (isfutureimport_iff s).mp (halves_future (body.drop 1) s ?_)
      rw [h.2]; exact hs
    · simp only [Prod.mk.injEq] at h
      refine (isfutureimport_iff s).mp (halves_future body s ?_)
      rw [h.2]; exact hs

/-- The body is not one of the three cases in which the code goes wrong. -/
structure Usual (body : List Val) : Prop where
  /-- a leading constant is a non-empty string -/
  doc : ∀ s, body.head? = some s → s.isK .Expr = true → ∀ e c, s.get? .value = some e →
    e.isK .Constant = true → e.get? .value = some (.const c) → ∃ v, c = .str v ∧ v ≠ ""
  /-- there is a statement other than the docstring and future-imports, or there are no
  future-imports after the docstring -/
  other : (∃ s ∈ body, ¬ IsDocstring s ∧ ¬ IsFuture s) ∨ (∀ s ∈ body, ¬ IsFuture s)

/-- C06: outside these cases, `split_futureimports` gives the three parts. -/
theorem C06_split_partial (body : List Val) (hw : WellFormed body) (hu : Usual body) :
    ∃ d f r, split body = .ok (d, f, r) ∧ IsSplit body d f r := by
  obtain ⟨g, hg⟩ := getdocstring_ok hw
  have hs := split_eq body
  rw [hg] at hs
  simp only [Except.map] at hs
  -- what the code takes for a docstring is one
  have hdoc : docTruthy g = true ↔ ∃ s rest, body = s :: rest ∧ IsDocstring s := by
    constructor
    · intro ht
      cases g with
      | none => simp [docTruthy] at ht
      | some c =>
        cases body with
        | nil => simp [getdocstring] at hg
        | cons s rest =>
          refine ⟨s, rest, rfl, ?_⟩
          have : ∃ v, c = .str v := by
            rw [getdocstring_cons] at hg
            split at hg
            case isFalse => simp at hg
            rename_i he
            obtain ⟨e, h1, h2⟩ := hw s rfl he
            simp only [h1] at hg
            split at hg
            case isFalse => simp at hg
            rename_i hc
            obtain ⟨c', h3⟩ := h2 hc
            simp only [h3, Except.ok.injEq, Option.some.injEq] at hg
            subst hg
            obtain ⟨v, hv, _⟩ := hu.doc s rfl he e _ h1 hc h3
            exact ⟨v, hv⟩
          obtain ⟨v, rfl⟩ := this
          exact isDocstring_of_getdocstring hg
    · rintro ⟨s, rest, rfl, he, e, v, hv, hc, hval⟩
      have hgv : getdocstring (s :: rest) = .ok (some (.str v)) := by
        simp [getdocstring, he, hv, hc, hval]
      rw [hg] at hgv
      simp only [Except.ok.injEq] at hgv
      obtain ⟨v', h1, h2⟩ := hu.doc s rfl he e _ hv hc hval
      cases h1
      rw [hgv]; simp [docTruthy, truthy, h2]
  have key : ∀ b : List Val, ¬ (b.all isfutureimport = true ∧ b ≠ []) →
      ∀ x, (halves b).2.head? = some x → ¬ IsFuture x := by
    intro b hb x hx hfx
    exact halves_maximal b hb x hx ((isfutureimport_iff x).mpr hfx)
  by_cases ht : docTruthy g = true
  · obtain ⟨s, rest, rfl, hds⟩ := hdoc.mp ht
    rw [if_pos ht] at hs
    refine ⟨_, _, _, hs, C06_split_concat _ _ _ _ hs, .inl ⟨s, rfl, hds⟩, C06_split_future _ _ _ _ hs,
      key _ ?_⟩
    rintro ⟨hall, hne⟩
    simp only [List.drop_succ_cons, List.drop_zero] at hall hne
    rcases hu.other with ⟨x, hx, hx1, hx2⟩ | hno
    · rcases List.mem_cons.mp hx with rfl | hx
      · exact hx1 hds
      · exact hx2 ((isfutureimport_iff x).mp (List.all_eq_true.mp hall x hx))
    · obtain ⟨y, ys, rfl⟩ := List.exists_cons_of_ne_nil hne
      have : isfutureimport y = true := List.all_eq_true.mp hall y (by simp)
      exact hno y (by simp) ((isfutureimport_iff y).mp this)
  · rw [if_neg ht] at hs
    refine ⟨_, _, _, hs, C06_split_concat _ _ _ _ hs, .inr ⟨rfl, ?_⟩, C06_split_future _ _ _ _ hs,
      key _ ?_⟩
    · intro s hs hd
      cases body with
      | nil => simp at hs
      | cons x rest => simp at hs; subst hs; exact ht (hdoc.mpr ⟨_, _, rfl, hd⟩)
    · rintro ⟨hall, hne⟩
      obtain ⟨s, rest, rfl⟩ := List.exists_cons_of_ne_nil hne
      have h1 : isfutureimport s = true := List.all_eq_true.mp hall s (by simp)
      rcases hu.other with ⟨x, hx, _, hx2⟩ | hno
      · exact hx2 ((isfutureimport_iff x).mp (List.all_eq_true.mp hall x hx))
      · exact hno s (by simp) ((isfutureimport_iff s).mp h1)

/-- C06: outside these cases, the new statements go after the future-imports and before the rest;
a single statement is treated like a list of one. -/
theorem C06_inject_partial (body stmts : List Val) (hw : WellFormed body) (hu : Usual body) :
    ∃ d f r, IsSplit body d f r ∧
      inject (.list stmts) (.list body) = .ok (d ++ f ++ stmts ++ r) ∧
      ∀ s, isStmt s = true → inject s (.list body) = .ok (d ++ f ++ [s] ++ r) := by
  obtain ⟨d, f, r, h, hs⟩ := C06_split_partial body hw hu
  refine ⟨d, f, r, hs, by simp [inject, h, bind, Except.bind, pure, Except.pure], ?_⟩
  intro s hst
  cases s with
  | node c l fs => simp [inject, h, hst, bind, Except.bind, pure, Except.pure]
  | const c => simp [isStmt] at hst
  | list xs => simp [isStmt] at hst

/-- C06: whatever the body, a successful injection keeps the old statements in order, and the new
ones stand together. -/
theorem C06_inject_keeps (body stmts res : List Val)
    (h : inject (.list stmts) (.list body) = .ok res) :
    ∃ before after, before ++ after = body ∧ res = before ++ stmts ++ after := by
  simp only [inject, bind, Except.bind, pure, Except.pure] at h
  cases hs : split body with
  | error e => rw [hs] at h; cases h
  | ok p =>
    obtain ⟨d, f, r⟩ := p
    rw [hs] at h
    simp only [Except.ok.injEq] at h
    exact ⟨d ++ f, r, C06_split_concat body d f r hs, h.symm⟩

/-- C06: wrong argument types raise TypeError. -/
theorem C06_inject_typeError (stmts body : Val) :
    (body.isList = false → inject stmts body = .error .typeError) ∧
    (body.isList = true → stmts.isList = false → isStmt stmts = false →
      inject stmts body = .error .typeError) := by
  constructor
  · intro h; cases body <;> simp_all [inject, Val.isList]
  · intro h1 h2 h3; cases body <;> cases stmts <;> simp_all [inject, Val.isList]

section
private def fut (n : String) : Val :=
  mk .ImportFrom [(.module_, .str "__future__"), (.names, .list [mk .alias [(.name, .str n)]]),
    (.level, .int 0)]
private def doc (c : Const) : Val := exprStmt (constant c)
private def pass_ : Val := mk .Pass []

/-- C06 fails if there are only future-imports: the last one counts as "the rest", and the new
statement goes before it. -/
theorem C06_only_future_violated :
    let body := [doc (.str "d"), fut "annotations", fut "division"]
    split body = .ok ([doc (.str "d")], [fut "annotations"], [fut "division"]) ∧
    inject pass_ (.list body) =
      .ok [doc (.str "d"), fut "annotations", pass_, fut "division"] := by decide +kernel

/-- C06 fails for an empty docstring: the new statement goes before it and before the
future-imports. -/
theorem C06_empty_docstring_violated :
    let body := [doc (.str ""), fut "annotations", pass_]
    IsDocstring (doc (.str "")) ∧ split body = .ok ([], [], body) := by
  refine ⟨⟨by decide, _, "", rfl, by decide, rfl⟩, by decide +kernel⟩

/-- C06 fails for a leading number: it is taken for a docstring. -/
theorem C06_number_violated :
    let body := [doc (.int 42), pass_]
    ¬ IsDocstring (doc (.int 42)) ∧ split body = .ok ([doc (.int 42)], [], [pass_]) := by
  refine ⟨?_, by decide +kernel⟩
  rintro ⟨_, e, v, h1, _, h3⟩
  cases h1
  simp [Val.get?, List.lookup] at h3

/-- An ordinary module body meets the hypotheses. -/
example : WellFormed [doc (.str "d"), fut "annotations", pass_] ∧
    Usual [doc (.str "d"), fut "annotations", pass_] := by
  refine ⟨?_, ?_, ?_⟩
  · intro s hs _; cases hs; exact ⟨_, rfl, fun _ => ⟨.str "d", rfl⟩⟩
  · intro s hs _ e c h1 _ h3
    cases hs; cases h1
    simp [Val.get?, List.lookup] at h3
    exact ⟨"d", h3.symm, by decide⟩
  · left
    refine ⟨pass_, by simp, ?_, ?_⟩
    · rintro ⟨h, _⟩; exact absurd h (by decide)
    · rintro ⟨h, _⟩; exact absurd h (by decide)

example : split [doc (.str "d"), fut "annotations", pass_] =
    .ok ([doc (.str "d")], [fut "annotations"], [pass_]) := by decide +kernel
end

end Mcpyrate
