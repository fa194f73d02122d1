import Verif.Lemmas.Paths
/-
C28 package resolution finds the right sys.path entry.

Full property: match_syspath returns a sys.path entry the file really lies under, the deepest such
entry, and fails when there is none; relativize returns the path below that entry; resolve_package is
the dotted form of the directory path and rejects files at the root of an entry.

The code compares strings, so that "/a/lib" is taken to contain "/a/lib2/x.py"
(`C28_sibling_violated`, `C28_relative_violated`), and it measures depth by counting separators in the
entries as they are written, so that an unnormalised entry wins over a deeper one, and the root
directory over a directory in it (`C28_depth_violated`, `C28_root_violated`).  The `_partial` theorems
exclude just these.
-/
namespace Mcpyrate
open Py Paths

/-- C28: the result is the resolved form of an entry, and the file lies under it, unless the name of an
entry is the beginning of the name of a sibling. -/
theorem C28_match_partial (fs : FS) (syspath : List Str) (file : Str) (r : Path)
    (hn : NoConfusion fs syspath (fs.resolve file)) (h : matchSyspath fs syspath file = .ok r) :
    (∃ e ∈ syspath, fs.resolve e = r) ∧ Under r (fs.resolve file) := by
  obtain ⟨b, e, a, h1, h2, h3, -⟩ := matchLoop_ok h
  have he : e ∈ syspath := mem_sort.mp (by rw [h1]; simp)
  exact ⟨⟨e, he, h2⟩, by subst h2; exact hn e he h3⟩

/-- C28: if the file lies under some entry, there is a result. -/
theorem C28_match_succeeds (fs : FS) (syspath : List Str) (file : Str)
    (h : ∃ e ∈ syspath, Under (fs.resolve e) (fs.resolve file)) :
    ∃ r, matchSyspath fs syspath file = .ok r := by
  obtain ⟨e, he, hu⟩ := h
  cases hm : matchSyspath fs syspath file with
  | ok r => exact ⟨r, rfl⟩
  | error x => exact absurd (under_text hu) ((matchLoop_error.mp hm).2 e (mem_sort.mpr he))

/-- C28: if the file does not lie under any entry, `match_syspath` raises ValueError. -/
theorem C28_match_fails_partial (fs : FS) (syspath : List Str) (file : Str)
    (hn : NoConfusion fs syspath (fs.resolve file))
    (h : ¬ ∃ e ∈ syspath, Under (fs.resolve e) (fs.resolve file)) :
    matchSyspath fs syspath file = .error .valueError :=
  matchLoop_error.mpr ⟨rfl, fun e he hp => h ⟨e, mem_sort.mp he, hn e (mem_sort.mp he) hp⟩⟩

/-- C28: the result is the deepest entry that the file lies under, if the entries are written in
resolved form and the root directory is not one of them. -/
theorem C28_deepest_partial (fs : FS) (syspath : List Str) (file : Str) (r : Path)
    (hw : Written fs syspath) (h : matchSyspath fs syspath file = .ok r) :
    ∀ e ∈ syspath, Under (fs.resolve e) (fs.resolve file) → (fs.resolve e).length ≤ r.length := by
  intro e he hu
  obtain ⟨b, e', a, h1, h2, h3, h4⟩ := matchLoop_ok h
  have hs := sorted_sort syspath
  rw [h1] at hs
  have he2 : e ∈ sort syspath := mem_sort.mpr he
  have he' : e' ∈ syspath := mem_sort.mp (by rw [h1]; simp)
  have hle : leKey e' e = true := by
    rw [h1] at he2
    rcases List.mem_append.mp he2 with hb | hb
    · exact absurd (under_text hu) (h4 e hb)
    · rcases List.mem_cons.mp hb with rfl | hb
      · rcases leKey_total e e with h | h <;> exact h
      · exact (List.pairwise_cons.mp (List.pairwise_append.mp hs).2.1).1 e hb
  have hc : e.count '/' ≤ e'.count '/' := by
    simp only [leKey, Bool.or_eq_true, Bool.and_eq_true, decide_eq_true_eq] at hle
    omega
  obtain ⟨w1, w2⟩ := hw e he
  obtain ⟨w3, w4⟩ := hw e' he'
  have c1 := count_text (fs.comps e) w2
  have c2 := count_text (fs.comps e') w4
  rw [w1] at c1
  rw [w3] at c2
  rw [← h2]
  omega

theorem match_resolved (fs : FS) (syspath : List Str) (file : Str) :
    matchSyspath fs syspath (text (fs.resolve file)) = matchSyspath fs syspath file := by
  unfold matchSyspath
  rw [fs.idem file _ (List.prefix_refl _)]

/-- C28: `relativize` returns the path below the entry. -/
theorem C28_relative_partial (fs : FS) (syspath : List Str) (file : Str) (r : Path) (rel : Str)
    (hn : NoConfusion fs syspath (fs.resolve file)) (h : relativize fs syspath file = .ok (r, rel)) :
    matchSyspath fs syspath file = .ok r ∧ ∃ p, fs.resolve file = r ++ p ∧ rel = join '/' p := by
  unfold relativize at h
  dsimp only at h
  rw [match_resolved] at h
  cases hm : matchSyspath fs syspath file with
  | error x => rw [hm] at h; cases h
  | ok r' =>
    rw [hm] at h
    simp only [Except.ok.injEq, Prod.mk.injEq] at h
    obtain ⟨rfl, rfl⟩ := h
    obtain ⟨-, p, hp⟩ := C28_match_partial fs syspath file _ hn hm
    refine ⟨rfl, p, hp.symm, ?_⟩
    rw [← hp]
    exact drop_text (fun c hc => fs.comps file c (by rw [← hp]; simp [hc]))

/-- C28: `resolve_package` is the path of the directory of the file below the entry, with dots; it
raises ImportError exactly when this is empty, ValueError exactly when there is no entry. -/
theorem C28_package_partial (fs : FS) (syspath : List Str) (file : Str)
    (hn : NoConfusion fs syspath (fs.resolve file).dropLast) :
    (∃ r p, matchSyspath fs syspath (text (fs.resolve file).dropLast) = .ok r ∧
      (fs.resolve file).dropLast = r ++ p ∧
      resolvePackage fs syspath file = if p = [] then .error .importError else .ok (join '.' p)) ∨
    (matchSyspath fs syspath (text (fs.resolve file).dropLast) = .error .valueError ∧
      resolvePackage fs syspath file = .error .valueError) := by
  have hd := fs.idem file (fs.resolve file).dropLast (List.dropLast_prefix _)
  have hn' : NoConfusion fs syspath (fs.resolve (text (fs.resolve file).dropLast)) := by rw [hd]; exact hn
  cases hm : matchSyspath fs syspath (text (fs.resolve file).dropLast) with
  | error x =>
    obtain ⟨rfl, -⟩ := matchLoop_error.mp hm
    refine .inr ⟨rfl, ?_⟩
    unfold resolvePackage relativize
    simp only [hd, hm]
  | ok r =>
    left
    cases hr : relativize fs syspath (text (fs.resolve file).dropLast) with
    | error x =>
      unfold relativize at hr
      simp only [hd, hm] at hr
      cases hr
    | ok q =>
      obtain ⟨r', rel⟩ := q
      obtain ⟨h1, p, h2, h3⟩ := C28_relative_partial fs syspath _ _ _ hn' hr
      rw [hm] at h1
      cases h1
      rw [hd] at h2
      refine ⟨r, p, rfl, h2, ?_⟩
      have hc : ∀ c ∈ p, compOk c := fun c hc =>
        fs.comps file c ((List.dropLast_subset _) (by rw [h2]; simp [hc]))
      unfold resolvePackage
      simp only [hr, h3, join_nil hc, dotted_join hc]

/-- The property is violated: "/a/lib" is returned for "/a/lib2/x.py". -/
theorem C28_sibling_violated :
    ∃ fs syspath file r, matchSyspath fs syspath file = .ok r ∧ ¬ Under r (fs.resolve file) ∧
      ¬ ∃ e ∈ syspath, Under (fs.resolve e) (fs.resolve file) := by
  refine ⟨plainFS, ["/a/lib".toList], "/a/lib2/x.py".toList, ["a".toList, "lib".toList], ?_, ?_, ?_⟩
  · decide +kernel
  · exact fun h => absurd (List.isPrefixOf_iff_prefix.mpr h) (by decide +kernel)
  · rintro ⟨e, he, h⟩
    simp only [List.mem_singleton] at he
    subst he
    exact absurd (List.isPrefixOf_iff_prefix.mpr h) (by decide +kernel)

/-- … and the path below it is "2/x.py". -/
theorem C28_relative_violated :
    relativize plainFS ["/a/lib".toList] "/a/lib2/x.py".toList =
      .ok (["a".toList, "lib".toList], "2/x.py".toList) := by decide +kernel

/-- The property is violated: with "/a/b" and "/a/b/c/../..", that is "/a", the latter is returned for
"/a/b/x.py". -/
theorem C28_depth_violated :
    matchSyspath plainFS ["/a/b".toList, "/a/b/c/../..".toList] "/a/b/x.py".toList = .ok ["a".toList] ∧
      Under (plainFS.resolve "/a/b".toList) (plainFS.resolve "/a/b/x.py".toList) :=
  ⟨by decide +kernel, List.isPrefixOf_iff_prefix.mp (by decide +kernel)⟩

/-- The property is violated: the root directory wins over a directory in it. -/
theorem C28_root_violated :
    matchSyspath plainFS ["/a".toList, "/".toList] "/a/x.py".toList = .ok [] ∧
      Under (plainFS.resolve "/a".toList) (plainFS.resolve "/a/x.py".toList) :=
  ⟨by decide +kernel, List.isPrefixOf_iff_prefix.mp (by decide +kernel)⟩

/-! ### Concrete cases -/

/-- Two nested entries. -/
def nested : List Str := ["/home/u".toList, "/home/u/lib/site".toList, "/opt".toList]

example : matchSyspath plainFS nested "/home/u/lib/site/p/q/m.py".toList =
    .ok ["home".toList, "u".toList, "lib".toList, "site".toList] := by decide +kernel
example : relativize plainFS nested "/home/u/p/m.py".toList =
    .ok (["home".toList, "u".toList], "p/m.py".toList) := by decide +kernel
example : resolvePackage plainFS nested "/home/u/lib/site/p/q/m.py".toList = .ok "p.q".toList := by
  decide +kernel
example : resolvePackage plainFS nested "/home/u/m.py".toList = .error .importError := by decide +kernel
example : resolvePackage plainFS nested "/usr/m.py".toList = .error .valueError := by decide +kernel

theorem noConfusion_nested : NoConfusion plainFS nested (plainFS.resolve "/home/u/lib/site/p/q/m.py".toList) := by
  intro e he hp
  have : ∀ e ∈ nested, (text (plainFS.resolve e)).isPrefixOf (text (plainFS.resolve "/home/u/lib/site/p/q/m.py".toList)) = true →
    (plainFS.resolve e).isPrefixOf (plainFS.resolve "/home/u/lib/site/p/q/m.py".toList) = true := by decide +kernel
  exact List.isPrefixOf_iff_prefix.mp (this e he (List.isPrefixOf_iff_prefix.mpr hp))

example : Written plainFS nested := by
  have : ∀ e ∈ nested, text (plainFS.resolve e) = e ∧ plainFS.resolve e ≠ [] := by decide +kernel
  exact this

end Mcpyrate
