import Verif.Lemmas.SpliceDialect
import Verif.Props.Splicing
import Verif.Props.FutureImports
/-
C31 splice_dialect.

Full property: for every user module and template, the result has the documented layout.  False of
the code where
* both have a docstring: the combined docstring is not a statement (`C31_docstring_violated`);
* nothing but a docstring, future-imports, `__all__` and macro-imports or dialect-imports is in the
  user module: ValueError (`C31_only_imports_violated`);
* taking out imports leaves a suite empty (`C31_empty_suite_violated`);
* `split_futureimports` goes wrong (C06): excluded by `Usual`.
The template's own `__all__` is dropped, as documented.
-/
namespace Mcpyrate
open Py Splicing FutureImports

/-- C31: the result has the documented layout (docstring, future-imports of the template and of the
user, the user's `__all__`, dialect-imports of the template and of the user, macro-imports of the
template and of the user, the template with the user code in place of the tag), provided some user
code is left; if none is left, there is an error.  `T'` is the template with the locations set. -/
theorem C31_layout_partial (U T : List Val) (tag : String) (lineno colOffset : Option Int)
    (hU : Parsed U) (hUne : U ≠ []) (hUw : WellFormed U) (hUu : Usual U)
    (hT : ∀ t ∈ T, t.isAST = true) (hTne : T ≠ []) :
    ∃ T', Relocated (reference lineno colOffset U) T T' ∧
      (Parsed T' → WellFormed T' → Usual T' →
        ∃ ud uf ur td tf tr, IsSplit U ud uf ur ∧ IsSplit T' td tf tr ∧
          (strip (ur.filter (!isAll ·)) ≠ [] → ∃ result,
            spliceDialect (.list U) (.list T) tag lineno colOffset = .ok result ∧
            Layout tag ud uf ur td tf tr result) ∧
          (strip (ur.filter (!isAll ·)) = [] →
            spliceDialect (.list U) (.list T) tag lineno colOffset = .error .valueError)) := by
  obtain ⟨T', hrel, hR⟩ := relocate_spec (reference lineno colOffset U) T hT
  refine ⟨T', hR, fun hP hW hUs => ?_⟩
  obtain ⟨ud, uf, ur, hsu, hiu⟩ := C06_split_partial U hUw hUu
  obtain ⟨td, tf, tr, hst, hit⟩ := C06_split_partial T' hW hUs
  have hur : Parsed ur := hU.sub fun x hx => by rw [← hiu.concat]; simp [hx]
  have htr : Parsed tr := hP.sub fun x hx => by rw [← hit.concat]; simp [hx]
  obtain ⟨uy, u1, u2, u3⟩ := parsed_extract hur
  obtain ⟨ty, t1, t2, t3⟩ := parsed_extract htr
  obtain ⟨doc, hdoc, hD⟩ := mergeDocs_spec hiu hit
  have heq : spliceDialect (.list U) (.list T) tag lineno colOffset =
      spliceDialectL U T tag lineno colOffset := by
    cases U with
    | nil => exact absurd rfl hUne
    | cons b bs =>
      cases T with
      | nil => exact absurd rfl hTne
      | cons t ts => rfl
  have hL : spliceDialectL U T tag lineno colOffset =
      (match spliceStatements (.list (strip (ur.filter (!isAll ·)))) (.list (strip (tr.filter (!isAll ·)))) tag with
      | .error e => .error e
      | .ok (.list final, _) => .ok (doc ++ (tf ++ uf) ++ ur.filter isAll ++
          (imports "dialects" (tr.filter (!isAll ·)) ++ imports "dialects" (ur.filter (!isAll ·))) ++
          (imports "macros" (tr.filter (!isAll ·)) ++ imports "macros" (ur.filter (!isAll ·))) ++ final)
      | .ok _ => .error .typeError) := by
    unfold spliceDialectL
    rw [dummyLoc_eq, hrel]
    simp only [bind, Except.bind, hsu, hst, hdoc, u1, u2, u3, t1, t2, t3]
    cases hq : spliceStatements (.list (strip (ur.filter (!isAll ·)))) (.list (strip (tr.filter (!isAll ·)))) tag with
    | error e => rfl
    | ok x =>
      obtain ⟨v, st⟩ := x
      cases v <;> rfl
  refine ⟨ud, uf, ur, td, tf, tr, hiu, hit, ?_, ?_⟩
  · intro hne
    have hbt : (Val.list (strip (ur.filter (!isAll ·)))).isTree = true :=
      Markers.isTree_list.2 (replaceL_isAST okNone fun x hx => hur.stmts x (List.mem_filter.1 hx).1)
    by_cases hte : strip (tr.filter (!isAll ·)) = []
    · refine ⟨doc ++ (tf ++ uf) ++ ur.filter isAll ++
          (imports "dialects" (tr.filter (!isAll ·)) ++ imports "dialects" (ur.filter (!isAll ·))) ++
          (imports "macros" (tr.filter (!isAll ·)) ++ imports "macros" (ur.filter (!isAll ·))) ++
          strip (ur.filter (!isAll ·)), ?_, ⟨doc, hD, _, ?_, fun h => absurd hte h, fun _ => rfl⟩⟩
      · rw [heq, hL, hte, (C30_edge (.list (strip (ur.filter (!isAll ·)))) (.list []) tag hbt
          (by simpa using hne) rfl).2]
        rfl
      · simp [List.append_assoc]
    · have htt : (Val.list (strip (tr.filter (!isAll ·)))).isTree = true :=
        Markers.isTree_list.2 (replaceL_isAST okNone fun x hx => htr.stmts x (List.mem_filter.1 hx).1)
      have htf : Parsed (tr.filter (!isAll ·)) := htr.sub fun x hx => (List.mem_filter.1 hx).1
      obtain ⟨st, hs, _⟩ := C30_replaces_partial (.list (strip (ur.filter (!isAll ·))))
        (strip (tr.filter (!isAll ·))) tag hbt (by simpa using hne) htt hte
        (strip_shaped htf.shaped htf.suite)
      refine ⟨doc ++ (tf ++ uf) ++ ur.filter isAll ++
          (imports "dialects" (tr.filter (!isAll ·)) ++ imports "dialects" (ur.filter (!isAll ·))) ++
          (imports "macros" (tr.filter (!isAll ·)) ++ imports "macros" (ur.filter (!isAll ·))) ++
          replaceL (isTagStmt tag) (.list (strip (ur.filter (!isAll ·)))) (strip (tr.filter (!isAll ·))),
        ?_, ⟨doc, hD, _, ?_, fun _ => rfl, fun h => absurd h hte⟩⟩
      · rw [heq, hL, hs]
        rfl
      · simp [List.append_assoc]
  · intro he
    rw [heq, hL, he, (C30_edge (.list [mk .Pass []]) (.list (strip (tr.filter (!isAll ·)))) tag rfl
      (by simp) rfl).1]

/-- C31: a single statement counts as a list of one, for both arguments. -/
theorem C31_single (U T : Val) (tag : String) (lineno colOffset : Option Int) :
    spliceDialect U T tag lineno colOffset =
      spliceDialect (asList U) (asList T) tag lineno colOffset := by
  cases U <;> cases T <;> rfl

/-- C31: an empty user module is rejected; an empty template means the user module alone. -/
theorem C31_edge (U : List Val) (T : Val) (tag : String) (lineno colOffset : Option Int) :
    spliceDialect (.list []) T tag lineno colOffset = .error .valueError ∧
    (U ≠ [] → spliceDialect (.list U) (.list []) tag lineno colOffset = .ok U) := by
  constructor
  · cases T <;> rfl
  · intro h
    cases U with
    | nil => exact absurd rfl h
    | cons u us => rfl

/-! ### Failures, and concrete cases -/
section
private def doc (s : String) : Val := exprStmt (constant (.str s))
private def imp (m n : String) : Val := mk .ImportFrom [(.module_, .str m),
  (.names, .list [mk .alias [(.name, .str n), (.asname, .none)], mk .alias [(.name, .str "x"), (.asname, .none)]]),
  (.level, .int 0)]
private def all_ : Val := mk .Assign [(.targets, .list [name "__all__" .Store]),
  (.value, mk .List [(.elts, .list []), (.ctx, mk .Load [])]), (.type_comment, .none)]
private def tag : Val := exprStmt (name "__paste_here__")
private def block (xs : List Val) : Val := mk .With
  [(.items, .list [mk .withitem [(.context_expr, name "lazify"), (.optional_vars, .none)]]), (.body, .list xs)]

/-- C31 fails: with two docstrings, the first item of the result is not a statement, let alone a
docstring. -/
theorem C31_docstring_violated :
    ∃ U T : List Val, ∃ c rest, (∀ u ∈ U, isStmt u = true) ∧ (∀ t ∈ T, isStmt t = true) ∧
      spliceDialect (.list U) (.list T) "__paste_here__" none none = .ok (c :: rest) ∧
      isStmt c = false ∧ getdocstring (c :: rest) = .ok none :=
  ⟨[doc "user", mk .Pass []], [doc "template", tag],
    constant (.str ("user\n" ++ String.ofList (List.replicate 79 '-') ++ "\ntemplate")), [mk .Pass []],
    by decide, by decide, by decide +kernel, by decide, by decide⟩

/-- C31 fails: a user module with nothing but imports (and a docstring) cannot be spliced. -/
theorem C31_only_imports_violated :
    ∃ U T : List Val, U ≠ [] ∧ (∀ u ∈ U, isStmt u = true) ∧ (∀ t ∈ T, isStmt t = true) ∧
      spliceDialect (.list U) (.list T) "__paste_here__" none none = .error .valueError :=
  ⟨[doc "user", imp "m" "macros"], [mk .Pass [], tag], by decide, by decide, by decide, by decide +kernel⟩

/-- C31 fails: taking a macro-import out of a function body leaves the function without a body. -/
theorem C31_empty_suite_violated :
    ∃ U T : List Val, ∃ r, (∀ u ∈ U, isStmt u = true) ∧ (∀ t ∈ T, isStmt t = true) ∧
      spliceDialect (.list U) (.list T) "__paste_here__" none none = .ok r ∧
      block [] ∈ r ∧ block [] ∉ preorderL U ∧ block [] ∉ preorderL T :=
  ⟨[block [imp "m" "macros"]], [tag], [imp "m" "macros", block []], by decide, by decide, by decide +kernel,
    by decide, by decide, by decide⟩

private def U0 : List Val := [doc "user", imp "__future__" "annotations", imp "m" "macros", all_,
  mk .Pass [], block [imp "n" "macros", mk .Break []], imp "d" "dialects"]
private def T0 : List Val := [imp "__future__" "division", imp "k" "macros", mk .Continue [], block [tag]]

example : spliceDialect (.list U0) (.list T0) "__paste_here__" none none = .ok
    [doc "user", imp "__future__" "division", imp "__future__" "annotations", all_, imp "d" "dialects",
     imp "k" "macros", imp "m" "macros", imp "n" "macros", mk .Continue [],
     block [mk .Pass [], block [mk .Break []]]] := by decide +kernel

private theorem dec_all {xs : List Val} {P : Val → Prop} (h : ∀ u ∈ preorderL xs, P u) (u : Val)
    (hu : Reach (.list xs) u) (ha : u.isAST = true) : P u :=
  h u (by have := mem_preorder.2 ⟨hu, ha⟩; rwa [preorder] at this)

private def namesOk (u : Val) : Bool := !u.isK .ImportFrom || (match u.get? .names with
  | some (.list (a :: _)) => (a.get? .name).isSome | _ => false)
private theorem namesOk_iff {u : Val} (h : namesOk u = true) (hk : u.isK .ImportFrom = true) :
    ∃ a as n, u.get? .names = some (.list (a :: as)) ∧ a.get? .name = some n := by
  simp only [namesOk, hk, Bool.not_true, Bool.false_or] at h
  split at h
  · rename_i a as he
    obtain ⟨n, hn⟩ := Option.isSome_iff_exists.1 h
    exact ⟨a, as, n, he, hn⟩
  · cases h
private def targetsOk (u : Val) : Bool := !u.isK .Assign || (match u.get? .targets with
  | some (.list ts) => ts.all fun x => (x.get? .id).isSome | _ => false)
private theorem targetsOk_iff {u : Val} (h : targetsOk u = true) (hk : u.isK .Assign = true) :
    ∃ ts, u.get? .targets = some (.list ts) ∧ ∀ x ∈ ts, x.isK .Name = true → ∃ v, x.get? .id = some v := by
  simp only [targetsOk, hk, Bool.not_true, Bool.false_or] at h
  split at h
  · rename_i ts he
    refine ⟨ts, he, fun x hx _ => ?_⟩
    rw [List.all_eq_true] at h
    exact Option.isSome_iff_exists.1 (h x hx)
  · cases h
private def nodeOk : Val → Bool
  | .node c l fs => (!Val.isK .ImportFrom (.node c l fs) || (preorderF fs).all fun u => !u.isK .ImportFrom)
      && fs.all fun p => !p.2.isK .ImportFrom
  | _ => true

private theorem parsed_of {xs : List Val} (h0 : ∀ x ∈ xs, x.isAST = true)
    (h1 : ∀ u ∈ preorderL xs, u.isK .Name = true → (u.get? .id).isSome = true)
    (h2 : ∀ u ∈ preorderL xs, u.isK .Expr = true → (u.get? .value).isSome = true)
    (h3 : ∀ u ∈ preorderL xs, namesOk u = true) (h4 : ∀ u ∈ preorderL xs, nodeOk u = true)
    (h5 : ∀ u ∈ xs, targetsOk u = true) : Parsed xs where
  stmts := h0
  shaped := ⟨fun u hu hk => Option.isSome_iff_exists.1 (dec_all h1 u hu (isK_isAST hk) hk),
    fun u hu hk => Option.isSome_iff_exists.1 (dec_all h2 u hu (isK_isAST hk) hk)⟩
  names u hu hk := namesOk_iff (dec_all h3 u hu (isK_isAST hk)) hk
  leaf c l fs hr hk u hu := by
    have := dec_all h4 _ hr rfl
    simp only [nodeOk, hk, Bool.not_true, Bool.false_or, Bool.and_eq_true, List.all_eq_true] at this
    simpa using this.1 u hu
  suite c l fs hr p hp := by
    have := dec_all h4 _ hr rfl
    simp only [nodeOk, Bool.and_eq_true, List.all_eq_true] at this
    simpa using this.2 p hp
  targets u hu hk := targetsOk_iff (h5 u hu) hk

private theorem U0_parsed : Parsed U0 := by
  apply parsed_of <;> decide +kernel
private theorem T0_parsed : Parsed T0 := by
  apply parsed_of <;> decide +kernel
private theorem U0_wf : WellFormed U0 ∧ Usual U0 := by
  refine ⟨?_, ?_, .inl ⟨mk .Pass [], by decide, ?_, ?_⟩⟩
  · intro s hs _
    cases hs
    exact ⟨constant (.str "user"), rfl, fun _ => ⟨_, rfl⟩⟩
  · intro s hs _ e c he _ hc
    cases hs
    cases he
    cases hc
    exact ⟨"user", rfl, by decide⟩
  · rintro ⟨h, _⟩; cases h
  · rintro ⟨h, _⟩; cases h
private theorem T0_wf : WellFormed T0 ∧ Usual T0 := by
  refine ⟨?_, ?_, .inl ⟨mk .Continue [], by decide, ?_, ?_⟩⟩
  · intro s hs hk; cases hs; cases hk
  · intro s hs hk; cases hs; cases hk
  · rintro ⟨h, _⟩; cases h
  · rintro ⟨h, _⟩; cases h

/-- The hypotheses of `C31_layout_partial` hold of `U0`, `T0`; there the template is not relocated,
because the user module has no locations. -/
example : ∃ ud uf ur td tf tr, IsSplit U0 ud uf ur ∧ IsSplit T0 td tf tr ∧
    (strip (ur.filter (!isAll ·)) ≠ [] → ∃ result,
      spliceDialect (.list U0) (.list T0) "__paste_here__" none none = .ok result ∧
      Layout "__paste_here__" ud uf ur td tf tr result) := by
  obtain ⟨T', hR, h⟩ := C31_layout_partial U0 T0 "__paste_here__" none none U0_parsed (by decide)
    U0_wf.1 U0_wf.2 (by decide) (by decide)
  have : T' = T0 := by
    have hl : ¬ FixLocations.Located (reference none none U0) := by decide
    rw [Relocated, if_neg hl] at hR
    exact hR
  subst this
  obtain ⟨ud, uf, ur, td, tf, tr, h1, h2, h3, _⟩ := h T0_parsed T0_wf.1 T0_wf.2
  exact ⟨ud, uf, ur, td, tf, tr, h1, h2, h3⟩
end

end Mcpyrate
