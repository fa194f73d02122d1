import Verif.Lemmas.FindMacros
import Verif.Spec.GetMacrosExample
/-
C25 find_macros binds and removes all macro-imports.
-/
namespace Mcpyrate
open Py GetMacros FindMacros Splicing

variable {σ M O : Type}

/-- C25, with `transform`: the macro-imports are run in order, the result is the union of their
bindings with later ones overriding earlier ones, and the body is rewritten as specified. -/
theorem C25_transform (I : Interp σ M O) (o : Opts) (ha : o.allowAsname = true)
    (hself : o.selfModule ≠ some "") (body out : List Val) (hp : FindMacros.Parsed body) (s s' : σ)
    (b : Dict String O) (h : findMacros I o true body s = (.ok (out, b), s')) :
    ∃ rs, Runs I o s (macroImports body) rs s' ∧
      Rewritten o.selfModule.isSome body (rs.map (·.1)) out ∧ Union (rs.map (·.2)) b := by
  have ho : ({ o with allowAsname := true } : Opts) = o := by cases o; simp_all
  rw [findMacros, ho] at h
  obtain ⟨rs, h1, h2, h3⟩ := loop_spec hp h
  have hs : selfTruthy o.selfModule = o.selfModule.isSome := by
    cases hm : o.selfModule with
    | none => rfl
    | some a =>
      have : a ≠ "" := by rintro rfl; exact hself hm
      simp [selfTruthy, this]
  rw [hs] at h2
  exact ⟨rs, h1, h2, by rw [h3]; exact union_of_runs h1⟩

/-- C25, without `transform`: the same bindings; the body is not changed. -/
theorem C25_no_transform (I : Interp σ M O) (o : Opts) (ha : o.allowAsname = true)
    (body out : List Val) (hp : FindMacros.Parsed body) (s s' : σ) (b : Dict String O)
    (h : findMacros I o false body s = (.ok (out, b), s')) :
    out = body ∧ ∃ rs, Runs I o s (macroImports body) rs s' ∧ Union (rs.map (·.2)) b := by
  have ho : ({ o with allowAsname := true } : Opts) = o := by cases o; simp_all
  rw [findMacros, ho] at h
  obtain ⟨h1, rs, h2, h3⟩ := loop_notransform h
  have : body.filter (fun t => ismacroimport "macros" t = .ok true) = macroImports body := by
    unfold macroImports
    refine List.filter_congr fun t ht => ?_
    rw [ismacroimport_eq (hp t ht).1]
    simp
  rw [this] at h2
  exact ⟨h1, rs, h2, by rw [h3]; exact union_of_runs h2⟩

/-- C25: if every macro-import succeeds, so does `find_macros`. -/
theorem C25_complete (I : Interp σ M O) (o : Opts) (ha : o.allowAsname = true) (transform : Bool)
    (body : List Val) (hp : FindMacros.Parsed body) (s s' : σ) (rs : List (String × Dict String O))
    (h : Runs I o s (macroImports body) rs s') :
    ∃ out b, findMacros I o transform body s = (.ok (out, b), s') := by
  have ho : ({ o with allowAsname := true } : Opts) = o := by cases o; simp_all
  rw [findMacros, ho]
  exact loop_succeeds hp h []

/-- C25: the first macro-import that fails makes `find_macros` fail with the same exception; the ones
before it have been run, the ones after it have not. -/
theorem C25_fails (I : Interp σ M O) (o : Opts) (ha : o.allowAsname = true) (transform : Bool)
    (body pre post : List Val) (t : Val) (hp : FindMacros.Parsed body)
    (hb : macroImports body = pre ++ t :: post) (s s1 s' : σ) (rs : List (String × Dict String O))
    (e : Err) (h1 : Runs I o s pre rs s1) (h2 : getMacros I o t s1 = (.error e, s')) :
    findMacros I o transform body s = (.error e, s') := by
  have ho : ({ o with allowAsname := true } : Opts) = o := by cases o; simp_all
  rw [findMacros, ho]
  exact runs_fail hp hb h1 h2 []

/-- C25: no macro-import remains at the top level. -/
theorem C25_none_left (I : Interp σ M O) (o : Opts) (ha : o.allowAsname = true)
    (hself : o.selfModule ≠ some "") (body out : List Val) (hp : FindMacros.Parsed body) (s s' : σ)
    (b : Dict String O) (h : findMacros I o true body s = (.ok (out, b), s')) :
    ∀ t ∈ out, isImport "macros" t = false := by
  obtain ⟨rs, _, h, _⟩ := C25_transform I o ha hself body out hp s s' b h
  exact rewritten_none h

/-- C25: the other statements are all there, unchanged and in order. -/
theorem C25_others_kept (I : Interp σ M O) (o : Opts) (ha : o.allowAsname = true)
    (hself : o.selfModule ≠ some "") (body out : List Val) (hp : FindMacros.Parsed body) (s s' : σ)
    (b : Dict String O) (h : findMacros I o true body s = (.ok (out, b), s')) :
    (body.filter fun t => !isImport "macros" t).Sublist out := by
  obtain ⟨rs, _, h, _⟩ := C25_transform I o ha hself body out hp s s' b h
  exact rewritten_kept h

/-- A module body: a macro-import, an assignment-like statement, another macro-import that overrides
`f`, a self-macro-import. -/
def findBody : List Val :=
  [GetMacros.Ex.absolute "lib" [("f", none), ("g", none)], exprStmt (name "x"),
   GetMacros.Ex.absolute "p.lib" [("g", some "f")], GetMacros.Ex.absolute "__self__" [("g", some "k")]]

example : FindMacros.Parsed findBody := by
  intro t ht
  simp only [findBody, List.mem_cons, List.not_mem_nil, or_false] at ht
  rcases ht with rfl | rfl | rfl | rfl
  · exact ⟨fun _ => ⟨_, _, _, rfl, rfl⟩, fun _ => by decide⟩
  · exact ⟨fun h => absurd h (by decide), fun _ _ => rfl⟩
  · exact ⟨fun _ => ⟨_, _, _, rfl, rfl⟩, fun _ => by decide⟩
  · exact ⟨fun _ => ⟨_, _, _, rfl, rfl⟩, fun _ => by decide⟩

/-- It is expanded, when the module itself is in `sys.modules`. -/
example : (findMacros GetMacros.Ex.interp GetMacros.Ex.opts true findBody ["p.q.m"]).1.map
      (fun r => (r.1.map fun t => t.isK .Import, r.2)) =
    .ok ([true, false, true, false], [("f", 2), ("g", 2), ("k", 2)]) ∧
    (findMacros GetMacros.Ex.interp GetMacros.Ex.opts true findBody ["p.q.m"]).2 =
      ["p.q.m", "lib", "p.lib"] := by decide +kernel
/-- Otherwise the third macro-import fails; the first two have been run. -/
example : (findMacros GetMacros.Ex.interp GetMacros.Ex.opts true findBody []) =
    (.error .moduleNotFoundError, ["lib", "p.lib"]) := by decide +kernel

end Mcpyrate
