import Verif.Spec.Dialects
import Verif.Lemmas.FindMacros
import Verif.Lemmas.ExpanderOrder
namespace Mcpyrate.Dialects
open Py GetMacros Paths Splicing

variable {σ M O D C : Type}

theorem attrOrNone_seen (a : Attr) : attrOrNone a = seen a := by cases a <;> rfl

theorem applyAll_ok {K : Classes σ O D C} {f : Found O} {bs : List (String × O)} {c c' : C} {ds ds' : List D}
    {s s' : St σ} (h : applyAll K f bs c ds s = (.ok (c', ds'), s')) :
    ∃ calls, Applied K f.lineno f.colOffset bs c s.world calls c' s'.world ∧
      ds' = ds ++ calls.map (·.dialect) ∧ s'.seen = s.seen := by
  induction bs generalizing c ds s with
  | nil => cases h; exact ⟨[], .nil, by simp, rfl⟩
  | cons e bs ih =>
    obtain ⟨x, cls⟩ := e
    rw [applyAll] at h
    split at h
    · cases h
    · rename_i hd
      split at h
      · cases h
      · rename_i d w hn
        split at h
        · cases h
        · rename_i m hm
          split at h
          · cases h
          · rename_i w' hr
            obtain ⟨calls, h1, h2, h3⟩ := ih h
            exact ⟨_, .cons (by simpa using hd) hn hm hr .same h1, by simp [h2], h3⟩
          · rename_i c1 w' hr
            split at h
            · cases h
            · rename_i ht
              obtain ⟨calls, h1, h2, h3⟩ := ih h
              exact ⟨_, .cons (by simpa using hd) hn hm hr (.new (by simpa using ht)) h1, by simp [h2], h3⟩

theorem applyAll_of {K : Classes σ O D C} {f : Found O} {bs : List (String × O)} {c c' : C} {s s' : σ}
    {calls : List (Call D C)} (h : Applied K f.lineno f.colOffset bs c s calls c' s') (ds : List D) (st : St σ)
    (hs : st.world = s) :
    ∃ st', applyAll K f bs c ds st = (.ok (c', ds ++ calls.map (·.dialect)), st') ∧ st'.world = s' := by
  induction h generalizing ds st with
  | nil => exact ⟨st, by simp [applyAll], hs⟩
  | @cons x cls rest c s d s1 m r s2 c1 calls c' s' hd hn hm hr ho _ ih =>
    subst hs
    rw [applyAll]
    simp only [hd, Bool.not_true, Bool.false_eq_true, if_false, hn, hm, hr]
    cases ho with
    | same =>
      obtain ⟨st', h1, h2⟩ := ih (ds ++ [d]) { st with world := s2 } rfl
      exact ⟨st', by simp [h1], h2⟩
    | new ht =>
      obtain ⟨st', h1, h2⟩ := ih (ds ++ [d]) { st with world := s2, step := st.step + 1 } rfl
      exact ⟨st', by simp [h1, ht], h2⟩

theorem applyAll_bad {K : Classes σ O D C} {f : Found O} {bs post : List (String × O)} {x : String} {o : O}
    {c c1 : C} {s s1 s2 : σ} {e : Err} {calls : List (Call D C)}
    (h : Applied K f.lineno f.colOffset bs c s calls c1 s1) (hb : Bad K f.lineno f.colOffset o c1 s1 e s2)
    (ds : List D) (st : St σ) (hs : st.world = s) :
    ∃ st', applyAll K f (bs ++ (x, o) :: post) c ds st = (.error e, st') ∧ st'.world = s2 := by
  induction h generalizing ds st with
  | nil =>
    subst hs
    rw [List.nil_append, applyAll]
    cases hb with
    | notDialect h => exact ⟨st, by simp [h], rfl⟩
    | init h h1 => exact ⟨_, by simp [h, h1]; rfl, rfl⟩
    | noMethod h h1 h2 => exact ⟨_, by simp [h, h1, h2]; rfl, rfl⟩
    | raises h h1 h2 h3 => exact ⟨_, by simp [h, h1, h2, h3]; rfl, rfl⟩
    | empty h h1 h2 h3 h4 => exact ⟨_, by simp [h, h1, h2, h3, h4]; rfl, rfl⟩
  | @cons x cls rest c s d s1 m r s2 c1 calls c' s' hd hn hm hr ho _ ih =>
    subst hs
    rw [List.cons_append, applyAll]
    simp only [hd, Bool.not_true, Bool.false_eq_true, if_false, hn, hm, hr]
    cases ho with
    | same => exact ih hb (ds ++ [d]) { st with world := s2 } rfl
    | new ht =>
      obtain ⟨st', h1, h2⟩ := ih hb (ds ++ [d]) { st with world := s2, step := st.step + 1 } rfl
      exact ⟨st', by simp [h1, ht], h2⟩

theorem ismacroimport_true {m : String} {t : Val} (h : ismacroimport m t = .ok true) : isImport m t = true := by
  unfold ismacroimport at h
  unfold isImport
  split at h
  · rename_i hk
    rw [hk]
    split at h
    · cases h
    · rename_i first rest hn
      rw [hn]
      split at h
      · cases h
      · rename_i n hx
        simp only [Except.ok.injEq, Bool.and_eq_true] at h
        simp only [hx, Bool.true_and, Bool.and_eq_true]
        exact ⟨by simpa using h.1, h.2⟩
    · cases h
  · cases h

theorem ismacroimport_false {m : String} {t : Val} (h : ismacroimport m t = .ok false) : isImport m t = false := by
  unfold ismacroimport at h
  unfold isImport
  split at h
  · rename_i hk
    rw [hk]
    split at h
    · cases h
    · rename_i first rest hn
      rw [hn]
      split at h
      · cases h
      · rename_i n hx
        simp only [Except.ok.injEq] at h
        simp only [hx, Bool.true_and]
        rw [← h]
        congr 1
    · cases h
  · rename_i hk
    simp [hk]

theorem firstImport_some {body pre post : List Val} {t : Val} (h : firstImport body = .ok (some (pre, t, post))) :
    body = pre ++ t :: post ∧ isImport "dialects" t = true ∧ ∀ x ∈ pre, isImport "dialects" x = false := by
  induction body generalizing pre with
  | nil => cases h
  | cons u body ih =>
    rw [firstImport] at h
    split at h
    · cases h
    · rename_i hi
      cases h
      exact ⟨rfl, ismacroimport_true hi, by simp⟩
    · rename_i hi
      split at h
      · cases h
      · cases h
      · rename_i pre' x' post' hf
        cases h
        obtain ⟨rfl, h2, h3⟩ := ih hf
        refine ⟨rfl, h2, fun x hx => ?_⟩
        rcases List.mem_cons.1 hx with rfl | hx
        · exact ismacroimport_false hi
        · exact h3 x hx

theorem firstImport_none {body : List Val} (h : firstImport body = .ok none) :
    ∀ x ∈ body, isImport "dialects" x = false := by
  induction body with
  | nil => simp
  | cons u body ih =>
    rw [firstImport] at h
    split at h
    · cases h
    · cases h
    · rename_i hi
      split at h
      · cases h
      · rename_i hf
        intro x hx
        rcases List.mem_cons.1 hx with rfl | hx
        · exact ismacroimport_false hi
        · exact ih hf x hx
      · cases h

/-- The statements have the shape that `ismacroimport` needs. -/
def StmtsOk (body : List Val) : Prop := ∀ u ∈ body, u.isK .ImportFrom = true →
    ∃ a as n, u.get? .names = some (.list (a :: as)) ∧ a.get? .name = some n

theorem firstImport_of_none {body : List Val} (hb : StmtsOk body) (h : ∀ x ∈ body, isImport "dialects" x = false) :
    firstImport body = .ok none := by
  induction body with
  | nil => rfl
  | cons u body ih =>
    rw [firstImport, ismacroimport_eq (hb u (by simp)), h u (by simp)]
    simp only
    rw [ih (fun x hx => hb x (by simp [hx])) (fun x hx => h x (by simp [hx]))]

theorem firstImport_of {pre post : List Val} {t : Val} (hb : StmtsOk (pre ++ t :: post))
    (ht : isImport "dialects" t = true) (h : ∀ x ∈ pre, isImport "dialects" x = false) :
    firstImport (pre ++ t :: post) = .ok (some (pre, t, post)) := by
  induction pre with
  | nil =>
    rw [List.nil_append, firstImport, ismacroimport_eq (hb t (by simp)), ht]
  | cons u pre ih =>
    rw [List.cons_append, firstImport, ismacroimport_eq (hb u (by simp)), h u (by simp)]
    simp only
    rw [ih (fun x hx => hb x (by simp [hx])) (fun x hx => h x (by simp [hx]))]

theorem absImport_is (a : String) (old : Loc) : FindMacros.IsImportOf a old (FindMacros.absImport a old) := by
  refine ⟨_, _, rfl, ?_, ?_⟩ <;>
  · refine ⟨?_, ?_, ?_, ?_⟩ <;> intro n h <;> simp [Expander.copyLoc, h, FixLocations.orNone]

theorem findAst_some {I : Interp σ M O} {fn : Str} {t t1 : Val} {s s1 : St σ} {f : Found O}
    (h : findAst I fn t s = (.ok (some f, t1), s1)) :
    ∃ d, Imported I fn t s.world d f.bindings t1 s1.world ∧ f.lineno = seen (Expander.locOf d).lineno ∧
      f.colOffset = seen (Expander.locOf d).colOffset := by
  unfold findAst at h
  split at h
  · rename_i body hb
    split at h
    · cases h
    · cases h
    · rename_i pre d post hf
      obtain ⟨rfl, h2, h3⟩ := firstImport_some hf
      split at h
      · cases h
      · rename_i a b w hg
        cases h
        exact ⟨d, ⟨pre, post, a, _, ⟨hb, h2, h3⟩, hg, absImport_is a _, rfl⟩, attrOrNone_seen _, attrOrNone_seen _⟩
  · cases h
  · cases h

theorem findAst_none {I : Interp σ M O} {fn : Str} {t t1 : Val} {s s1 : St σ}
    (h : findAst I fn t s = (.ok (none, t1), s1)) :
    t1 = t ∧ s1 = s ∧ ∃ body, t.get? .body = some (.list body) ∧ ∀ x ∈ body, isImport "dialects" x = false := by
  unfold findAst at h
  split at h
  · rename_i body hb
    split at h
    · cases h
    · rename_i hf
      cases h
      exact ⟨rfl, rfl, body, hb, firstImport_none hf⟩
    · split at h <;> cases h
  · cases h
  · cases h

theorem transform_ok {K : Classes σ O D Val} {I : Interp σ M O} {fn : Str} {n : Nat} {t t' : Val} {ds ds' : List D}
    {s s' : St σ} (h : transform K (findAst I fn) n t ds s = some (.ok (t', ds'), s')) :
    ∃ recs, Steps K I fn t s.world recs t' s'.world ∧
      ds' = ds ++ (recs.flatMap (·.2)).map (·.dialect) ∧
      ∃ body, t'.get? .body = some (.list body) ∧ ∀ x ∈ body, isImport "dialects" x = false := by
  induction n generalizing t ds s with
  | zero => cases h
  | succ n ih =>
    rw [transform] at h
    split at h
    · cases h
    · rename_i c1 s1 hf
      cases h
      obtain ⟨rfl, rfl, hb⟩ := findAst_none hf
      exact ⟨[], .nil, by simp, hb⟩
    · rename_i f c1 s1 hf
      obtain ⟨d, h1, h2, h3⟩ := findAst_some hf
      split at h
      · cases h
      · rename_i c2 ds2 s2 ha
        obtain ⟨calls, h4, h5, _⟩ := applyAll_ok ha
        rw [h2, h3] at h4
        obtain ⟨recs, h6, h7, h8⟩ := ih h
        exact ⟨(d, calls) :: recs, .cons h1 h4 h6, by simp [h7, h5], h8⟩

/-- One round. -/
theorem findAst_of {I : Interp σ M O} {fn : Str} {t : Val} {s : St σ} {pre post : List Val} {d : Val} {a : String}
    {b : Dict String O} {s1 : σ} (hok : ModuleOk t) (hf : First t pre d post)
    (hg : getMacros I { filename := fn, allowAsname := false } d s.world = (.ok (a, b), s1)) :
    findAst I fn t s = (.ok (some ⟨a, b, seen (Expander.locOf d).lineno, seen (Expander.locOf d).colOffset⟩,
          Expander.withField t .body (.list (pre ++ FindMacros.absImport a (Expander.locOf d) :: post))),
        { s with world := s1 }) := by
  obtain ⟨body, hb, hs⟩ := hok
  rw [hf.1] at hb
  cases hb
  unfold findAst
  rw [hf.1]
  simp only
  rw [firstImport_of hs hf.2.1 hf.2.2]
  simp only
  rw [show opts fn = { filename := fn, allowAsname := false } from rfl, hg]
  simp only [attrOrNone_seen]
  rfl

theorem getMacros_names_ok {t t1 : Val} {pre post : List Val} {d v : Val} {a : String} {old : Loc}
    (hok : ModuleOk t) (hf : First t pre d post) (hv : FindMacros.IsImportOf a old v)
    (h1 : t1 = Expander.withField t .body (.list (pre ++ v :: post))) : ModuleOk t1 := by
  obtain ⟨body, hb, hs⟩ := hok
  rw [hf.1] at hb
  cases hb
  subst h1
  refine ⟨_, Expander.withField_get hf.1, fun u hu hk => ?_⟩
  rcases List.mem_append.1 hu with hu | hu
  · exact hs u (by simp [hu]) hk
  · rcases List.mem_cons.1 hu with rfl | hu
    · obtain ⟨l, l', rfl, _⟩ := hv
      cases hk
    · exact hs u (by simp [hu]) hk

theorem dialectImports_step {t t1 : Val} {pre post : List Val} {d v : Val} {a : String} {old : Loc}
    (hf : First t pre d post) (hv : FindMacros.IsImportOf a old v)
    (h1 : t1 = Expander.withField t .body (.list (pre ++ v :: post))) :
    dialectImports t = d :: dialectImports t1 := by
  have hp : pre.filter (isImport "dialects") = [] := List.filter_eq_nil_iff.2 (fun x hx => by simp [hf.2.2 x hx])
  have hvf : isImport "dialects" v = false := by obtain ⟨l, l', rfl, _⟩ := hv; rfl
  subst h1
  unfold dialectImports stmts
  rw [hf.1, Expander.withField_get hf.1]
  simp only [List.filter_append, hp, List.nil_append, List.filter_cons, hf.2.1, hvf, if_true]
  rfl

end Mcpyrate.Dialects
