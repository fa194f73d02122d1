import Verif.Spec.FindMacros
import Verif.Lemmas.GetMacros
import Verif.Lemmas.SpliceDialect
import Verif.Props.Coverage
namespace Mcpyrate.FindMacros
open Py GetMacros Splicing

variable {σ M O : Type}

theorem bindNames_wf {I : Interp σ M O} {o : Opts} {s : σ} {m : M} {vs : List Val}
    {b0 b : Dict String O} (hw : b0.WF) (h : bindNames I o s m vs b0 = .ok b) : b.WF := by
  induction vs generalizing b0 with
  | nil => cases h; exact hw
  | cons v vs ih =>
    rw [bindNames] at h
    split at h
    · cases h
    · split at h
      · cases h
      · split at h
        · cases h
        · split at h
          · cases h
          · exact ih (Dict.WF_set _ _ _ hw) h

theorem getMacros_wf {I : Interp σ M O} {o : Opts} {t : Val} {s s' : σ} {a : String}
    {b : Dict String O} (h : getMacros I o t s = (.ok (a, b), s')) : b.WF := by
  unfold getMacros at h
  split at h
  · cases h
  · split at h
    · cases h
    · unfold bindAll at h
      split at h
      · split at h
        · cases h
        · rename_i hb
          cases h
          exact bindNames_wf (by simp [Dict.WF, Dict.keys]) hb
      · cases h
      · cases h

/-- All bindings of a chain, starting with `b0`. -/
theorem update_foldl {bs : List (Dict String O)} (hw : ∀ d ∈ bs, Dict.WF d) (b0 : Dict String O) (k : String)
    (f : O) : (bs.foldl Dict.update b0).get k = some f ↔
      (∃ before d after, bs = before ++ d :: after ∧ d.get k = some f ∧ ∀ e ∈ after, Dict.get e k = none) ∨
      (b0.get k = some f ∧ ∀ e ∈ bs, Dict.get e k = none) := by
  induction bs generalizing b0 with
  | nil => simp
  | cons d bs ih =>
    rw [List.foldl_cons, ih fun e he => hw e (by simp [he]), Dict.get_update _ _ (hw d (by simp))]
    constructor
    · rintro (⟨be, e, af, rfl, h1, h2⟩ | ⟨h1, h2⟩)
      · exact .inl ⟨d :: be, e, af, rfl, h1, h2⟩
      · cases hd : Dict.get d k with
        | none =>
          rw [hd] at h1
          refine .inr ⟨by simpa using h1, fun e he => ?_⟩
          rcases List.mem_cons.1 he with rfl | he
          · exact hd
          · exact h2 e he
        | some g =>
          rw [hd] at h1
          have : g = f := by simpa using h1
          subst this
          exact .inl ⟨[], d, bs, rfl, hd, h2⟩
    · rintro (⟨be, e, af, he, h1, h2⟩ | ⟨h1, h2⟩)
      · cases be with
        | nil =>
          simp only [List.nil_append, List.cons.injEq] at he
          obtain ⟨rfl, rfl⟩ := he
          exact .inr ⟨by simp [h1], h2⟩
        | cons z be =>
          simp only [List.cons_append, List.cons.injEq] at he
          exact .inl ⟨be, e, af, he.2, h1, h2⟩
      · refine .inr ⟨?_, fun e he => h2 e (by simp [he])⟩
        simp [h2 d (by simp), h1]

theorem foldl_wf (bs : List (Dict String O)) (b0 : Dict String O) (h : b0.WF) :
    (bs.foldl Dict.update b0).WF := by
  induction bs generalizing b0 with
  | nil => exact h
  | cons d bs ih => exact ih _ (Dict.WF_update _ _ h)

theorem runs_wf {I : Interp σ M O} {o : Opts} {s s' : σ} {ts : List Val}
    {rs : List (String × Dict String O)} (h : Runs I o s ts rs s') : ∀ d ∈ rs.map (·.2), Dict.WF d := by
  induction h with
  | nil => simp
  | cons hg _ ih =>
    intro d hd
    simp only [List.map_cons, List.mem_cons] at hd
    rcases hd with rfl | hd
    · exact getMacros_wf hg
    · exact ih d hd

theorem union_of_runs {I : Interp σ M O} {o : Opts} {s s' : σ} {ts : List Val}
    {rs : List (String × Dict String O)} (h : Runs I o s ts rs s') :
    Union (rs.map (·.2)) ((rs.map (·.2)).foldl Dict.update []) := by
  refine ⟨foldl_wf _ _ (by simp [Dict.WF, Dict.keys]), fun k f => ?_⟩
  rw [update_foldl (runs_wf h)]
  constructor
  · rintro (h | ⟨h, _⟩)
    · exact h
    · simp [Dict.get] at h
  · exact .inl

theorem transformed_true {o : Opts} {t : Val} {a : String}
    (hl : (Expander.locOf t).lineno = .missing → (Expander.locOf t).colOffset = .missing) :
    ∃ new, transformed o true t a = .ok new ∧
      (((selfTruthy o.selfModule && isSelf t) = false ∧
          ∃ v, new = [v] ∧ IsImportOf a (Expander.locOf t) v) ∨
        ((selfTruthy o.selfModule && isSelf t) = true ∧ (Expander.locOf t).lineno ≠ .missing ∧
          ∃ v, new = [v] ∧ Expander.CoverageDummy (Expander.locOf t) v) ∨
        ((selfTruthy o.selfModule && isSelf t) = true ∧ (Expander.locOf t).lineno = .missing ∧
          new = [])) := by
  unfold transformed
  rw [if_pos rfl]
  have he : (selfTruthy o.selfModule && (t.get? .module_).getD .none == .str "__self__") =
      (selfTruthy o.selfModule && isSelf t) := rfl
  rw [he]
  by_cases hs : (selfTruthy o.selfModule && isSelf t) = true
  · rw [if_pos hs]
    unfold dummyFor Expander.insertCoverage
    by_cases hm : (Expander.locOf t).lineno = .missing
    · rw [if_pos ⟨hm, hl hm⟩]
      exact ⟨[], rfl, .inr (.inr ⟨hs, hm, rfl⟩)⟩
    · rw [if_neg (fun h => hm h.1), if_neg hm]
      exact ⟨_, rfl, .inr (.inl ⟨hs, hm, _, rfl, coverageDummy_stmt _ _ _⟩)⟩
  · rw [if_neg hs]
    exact ⟨_, rfl, .inl ⟨by simpa using hs, _, rfl, _, _, rfl, locatedAt_copy _, locatedAt_copy _⟩⟩

/-- What the loop computes, with `transform`. -/
theorem loop_spec {I : Interp σ M O} {o : Opts} {body : List Val} (hp : Parsed body) {s s' : σ}
    {b0 b : Dict String O} {out : List Val} (h : loop I o true body b0 s = (.ok (out, b), s')) :
    ∃ rs, Runs I o s (macroImports body) rs s' ∧
      Rewritten (selfTruthy o.selfModule) body (rs.map (·.1)) out ∧
      b = (rs.map (·.2)).foldl Dict.update b0 := by
  induction body generalizing s b0 out with
  | nil => cases h; exact ⟨[], .nil, .nil, rfl⟩
  | cons t ts ih =>
    have hp' : Parsed ts := fun x hx => hp x (by simp [hx])
    rw [loop, ismacroimport_eq (hp t (by simp)).1] at h
    cases hm : isImport "macros" t with
    | false =>
      rw [hm] at h
      dsimp only at h
      split at h
      · cases h
      · rename_i ts' b' s1 hl
        cases h
        obtain ⟨rs, h1, h2, h3⟩ := ih hp' hl
        exact ⟨rs, by simpa [macroImports, hm] using h1, .keep hm h2, h3⟩
    | true =>
      rw [hm] at h
      dsimp only at h
      split at h
      · cases h
      · rename_i a more s1 hg
        obtain ⟨new, hn, hcase⟩ := transformed_true (o := o) (a := a) ((hp t (by simp)).2 (isImport_isK hm))
        rw [hn] at h
        dsimp only at h
        split at h
        · cases h
        · rename_i ts' b' s2 hl
          cases h
          obtain ⟨rs, h1, h2, h3⟩ := ih hp' hl
          refine ⟨(a, more) :: rs, ?_, ?_, h3⟩
          · have : macroImports (t :: ts) = t :: macroImports ts := by simp [macroImports, hm]
            rw [this]; exact .cons hg h1
          · rcases hcase with ⟨hs, v, rfl, hv⟩ | ⟨hs, hloc, v, rfl, hv⟩ | ⟨hs, hloc, rfl⟩
            · exact .import hm hs hv h2
            · exact .dummy hm hs hloc hv h2
            · exact .delete hm hs hloc h2

/-- The loop succeeds if all imports do. -/
theorem loop_succeeds {I : Interp σ M O} {o : Opts} {tr : Bool} {body : List Val} (hp : Parsed body)
    {s s' : σ} {rs : List (String × Dict String O)} (h : Runs I o s (macroImports body) rs s')
    (b0 : Dict String O) : ∃ out b, loop I o tr body b0 s = (.ok (out, b), s') := by
  induction body generalizing s rs b0 with
  | nil => cases h; exact ⟨_, _, rfl⟩
  | cons t ts ih =>
    have hp' : Parsed ts := fun x hx => hp x (by simp [hx])
    rw [loop, ismacroimport_eq (hp t (by simp)).1]
    cases hm : isImport "macros" t with
    | false =>
      have : macroImports (t :: ts) = macroImports ts := by simp [macroImports, hm]
      rw [this] at h
      obtain ⟨out, b, hl⟩ := ih hp' h b0
      exact ⟨t :: out, b, by simp only [hl]⟩
    | true =>
      have : macroImports (t :: ts) = t :: macroImports ts := by simp [macroImports, hm]
      rw [this] at h
      cases h with
      | @cons _ s1 _ _ _ a bb rs hg hr =>
        obtain ⟨new, hn⟩ : ∃ new, transformed o tr t a = .ok new := by
          cases tr with
          | false => exact ⟨[t], rfl⟩
          | true =>
            obtain ⟨new, hn, _⟩ := transformed_true (o := o) (a := a) ((hp t (by simp)).2 (isImport_isK hm))
            exact ⟨new, hn⟩
        obtain ⟨out, b, hl⟩ := ih hp' hr (b0.update bb)
        exact ⟨new ++ out, b, by simp only [hg, hn, hl]⟩

theorem loop_notransform {I : Interp σ M O} {o : Opts} {body : List Val} {s s' : σ}
    {b0 b : Dict String O} {out : List Val} (h : loop I o false body b0 s = (.ok (out, b), s')) :
    out = body ∧ ∃ rs, Runs I o s (body.filter fun t => ismacroimport "macros" t = .ok true) rs s' ∧
      b = (rs.map (·.2)).foldl Dict.update b0 := by
  induction body generalizing s b0 out with
  | nil => cases h; exact ⟨rfl, [], .nil, rfl⟩
  | cons t ts ih =>
    rw [loop] at h
    split at h
    · cases h
    · rename_i hm
      split at h
      · cases h
      · rename_i ts' b' s1 hl
        cases h
        obtain ⟨rfl, rs, h1, h2⟩ := ih hl
        exact ⟨rfl, rs, by simpa [hm] using h1, h2⟩
    · rename_i hm
      split at h
      · cases h
      · rename_i a more s1 hg
        have ht : transformed o false t a = .ok [t] := rfl
        rw [ht] at h
        dsimp only at h
        split at h
        · cases h
        · rename_i ts' b' s2 hl
          cases h
          obtain ⟨rfl, rs, h1, h2⟩ := ih hl
          refine ⟨rfl, (a, more) :: rs, ?_, h2⟩
          rw [List.filter_cons, if_pos (by simp [hm])]
          exact .cons hg h1

theorem runs_fail {I : Interp σ M O} {o : Opts} {tr : Bool} {body pre post : List Val} {t : Val}
    (hp : Parsed body) (hb : macroImports body = pre ++ t :: post) {s s1 s' : σ}
    {rs : List (String × Dict String O)} {e : Err} (h1 : Runs I o s pre rs s1)
    (h2 : getMacros I o t s1 = (.error e, s')) (b0 : Dict String O) :
    loop I o tr body b0 s = (.error e, s') := by
  induction body generalizing pre s rs b0 with
  | nil => simp [macroImports] at hb
  | cons x ts ih =>
    have hp' : Parsed ts := fun x hx => hp x (by simp [hx])
    rw [loop, ismacroimport_eq (hp x (by simp)).1]
    cases hm : isImport "macros" x with
    | false =>
      have : macroImports (x :: ts) = macroImports ts := by simp [macroImports, hm]
      rw [this] at hb
      simp only [ih hp' hb h1 b0]
    | true =>
      have : macroImports (x :: ts) = x :: macroImports ts := by simp [macroImports, hm]
      rw [this] at hb
      cases h1 with
      | nil =>
        simp only [List.nil_append, List.cons.injEq] at hb
        rw [hb.1]
        simp only [h2]
      | @cons _ s2 _ y ys a bb rs hg hr =>
        simp only [List.cons_append, List.cons.injEq] at hb
        obtain ⟨rfl, hb⟩ := hb
        obtain ⟨new, hn⟩ : ∃ new, transformed o tr x a = .ok new := by
          cases tr with
          | false => exact ⟨[x], rfl⟩
          | true =>
            obtain ⟨new, hn, _⟩ := transformed_true (o := o) (a := a) ((hp x (by simp)).2 (isImport_isK hm))
            exact ⟨new, hn⟩
        simp only [hg, hn, ih hp' hb hr _]

theorem rewritten_none {self : Bool} {body out : List Val} {as : List String}
    (h : Rewritten self body as out) : ∀ t ∈ out, isImport "macros" t = false := by
  induction h with
  | nil => simp
  | keep hm _ ih =>
    intro t ht
    rcases List.mem_cons.1 ht with rfl | ht
    · exact hm
    · exact ih t ht
  | «import» _ _ hv _ ih =>
    intro t ht
    rcases List.mem_cons.1 ht with rfl | ht
    · obtain ⟨l, l', rfl, _⟩ := hv
      rfl
    · exact ih t ht
  | dummy _ _ _ hv _ ih =>
    intro t ht
    rcases List.mem_cons.1 ht with rfl | ht
    · obtain ⟨l, l1, l2, s, kind, rest, _, _, _, rfl⟩ := hv
      rfl
    · exact ih t ht
  | delete _ _ _ _ ih => exact ih

theorem rewritten_kept {self : Bool} {body out : List Val} {as : List String}
    (h : Rewritten self body as out) :
    (body.filter fun t => !isImport "macros" t).Sublist out := by
  induction h with
  | nil => exact .slnil
  | keep hm _ ih => rw [List.filter_cons, hm]; exact ih.cons_cons _
  | «import» hm _ _ _ ih => rw [List.filter_cons, hm]; exact ih.cons _
  | dummy hm _ _ _ _ ih => rw [List.filter_cons, hm]; exact ih.cons _
  | delete hm _ _ _ ih => rw [List.filter_cons, hm]; exact ih

theorem loop_none {I : Interp σ M O} {o : Opts} {tr : Bool} {body : List Val} {s : σ} (hp : Parsed body)
    (h : macroImports body = []) (b0 : Dict String O) : loop I o tr body b0 s = (.ok (body, b0), s) := by
  induction body with
  | nil => rfl
  | cons t ts ih =>
    have ht : isImport "macros" t = false := by simpa using List.filter_eq_nil_iff.1 h t (by simp)
    have hts : macroImports ts = [] := by
      unfold macroImports at h ⊢
      rw [List.filter_cons, ht] at h
      exact h
    rw [loop, ismacroimport_eq (hp t (by simp)).1, ht]
    dsimp only
    rw [ih (fun x hx => hp x (by simp [hx])) hts]

end Mcpyrate.FindMacros
