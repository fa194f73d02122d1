import Verif.Lemmas.Pycache
/-
C49 Bytecode cache cleaning removes caches only.

Full property: `deletepycachedirs(path)` removes every `__pycache__` directory below `path` with everything in
it, and nothing else; `getpycachedirs` lists exactly those directories.

It holds if there are no symbolic links called `__pycache__`, and none in the caches.  Otherwise it does not:
a link called `__pycache__` is listed, the files in the directory it points to (which may be anywhere) are
deleted, and then an exception is raised (`C49_link_violated`); a link to a directory in a cache makes
the deletion fail (`C49_inner_link_violated`).
-/
namespace Mcpyrate
open Pycache

private theorem get_dirAt {top es : Entries} {p : Path} (h : (Node.dir top).get p = some (.dir es)) :
    DirAt top p es := by
  induction p generalizing top with
  | nil => simp only [Node.get, Option.some.injEq, Node.dir.injEq] at h; subst h; exact .here
  | cons x p ih =>
    rw [Node.get] at h
    cases hx : top.lookup x with
    | none => rw [hx] at h; cases h
    | some n =>
      rw [hx] at h
      cases n with
      | dir sub => exact .step (lookup_some hx) (ih h)
      | file _ => cases p <;> cases h
      | link _ => cases p <;> cases h

private theorem dirAt_append {a b c : Entries} {p q : Path} (h : DirAt a p b) (h2 : DirAt b q c) :
    DirAt a (p ++ q) c := by
  induction h with
  | here => exact h2
  | step hm _ ih => exact .step hm (ih h2)

/-- Every directory tree has some depth. -/
theorem C49_depth (es : Entries) : ∃ n, ∀ m, n ≤ m → Depth m es := by
  have hlt : ∀ (es : Entries) x sub, (x, Node.dir sub) ∈ es → sizeOf sub < sizeOf es := by
    intro es x sub h
    have := List.sizeOf_lt_of_mem h
    simp only [Prod.mk.sizeOf_spec, Node.dir.sizeOf_spec] at this
    omega
  have key : ∀ k (es : Entries), sizeOf es < k → Depth k es := by
    intro k
    induction k with
    | zero => exact fun _ h => by omega
    | succ k ih => exact fun es h x sub hx => ih sub (by have := hlt es x sub hx; omega)
  exact ⟨sizeOf es + 1, fun m hm => (key _ es (Nat.lt_succ_self _)).mono hm⟩

/-- `getpycachedirs` lists exactly the `__pycache__` directories below, each once, and each entry starts with
`path`. -/
theorem C49_list_partial {top es : Entries} (hw : WF top) {p : Path}
    (hp : (Node.dir top).get p = some (.dir es)) {limit : Nat} (hd : Depth limit es)
    (hl : ∀ q es' t, DirAt es q es' → ("__pycache__", Node.link t) ∉ es') :
    ∃ ps, getpycachedirs (.dir top) limit p = .ok ps ∧ ps.Nodup ∧
      ∀ q, q ∈ ps ↔ ∃ r, q = p ++ r ∧ IsCache es r := by
  have hwe : WF es := fun q es' hq => hw _ _ (dirAt_append (get_dirAt hp) hq)
  refine ⟨caches limit p es, ?_, caches_nodup limit hd hwe, fun q => caches_mem limit hd⟩
  have : isDir (.dir top) p = true := by
    rw [isDir, resolved_real hp (by simp)]
  rw [getpycachedirs, this]
  exact walk_ok limit hp hd hwe hl

/-- `deletepycachedirs` succeeds, and what is left of the directory is everything except the `__pycache__`
directories; the rest of the file system is not changed. -/
theorem C49_delete_partial {top es : Entries} (hw : WF top) {p : Path}
    (hp : (Node.dir top).get p = some (.dir es)) {limit : Nat} (hd : Depth limit es) (hl : NoLinks es) :
    deletepycachedirs limit p (.dir top) = (.ok (), (Node.dir top).update p pruneAll) := by
  have hwe : WF es := fun q es' hq => hw _ _ (dirAt_append (get_dirAt hp) hq)
  have hdir : isDir (.dir top) p = true := by
    rw [isDir, resolved_real hp (by simp)]
  have hroot : ∀ q es', (Node.dir top).get q = some (.dir es') → (es'.map Prod.fst).Nodup :=
    fun q es' hq => hw q es' (get_dirAt hq)
  have hg : getpycachedirs (.dir top) limit p = .ok (caches limit p es) := by
    rw [getpycachedirs, hdir]
    exact walk_ok limit hp hd hwe hl.1
  rw [deletepycachedirs, hg]
  have := deleteAll_ok limit limit (Nat.le_refl _) (View.mk' hp) hd hwe hl
  dsimp only at this ⊢
  rw [update_self hp hroot] at this
  rw [this]
  exact congrArg (Prod.mk _) (update_congr hp hroot rfl)

/-- `pruneAll` is what the property says: the files and links that are left are those not in a cache, and
so are the directories. -/
theorem C49_left (es : Entries) (p : Path) (x : String) (n : Node) :
    (∃ es', DirAt (pruneAll es) p es' ∧ (x, n) ∈ es') ↔
      "__pycache__" ∉ p ∧ ∃ es' m, DirAt es p es' ∧ (x, m) ∈ es' ∧ n = prune m ∧
        ¬ (x = "__pycache__" ∧ realDir m = true) := by
  have hmem : ∀ (es : Entries) y k, (y, k) ∈ pruneAll es ↔
      ∃ m, (y, m) ∈ es ∧ k = prune m ∧ ¬ (y = "__pycache__" ∧ realDir m = true) := by
    intro es y k
    rw [pruneAll_eq, List.mem_map]
    constructor
    · rintro ⟨⟨z, m⟩, he, h⟩
      cases h
      obtain ⟨he, hk⟩ := List.mem_filter.1 he
      refine ⟨m, he, rfl, fun ⟨h1, h2⟩ => ?_⟩
      dsimp only at h1
      simp [keep, h1, h2] at hk
    · rintro ⟨m, he, rfl, hk⟩
      refine ⟨(y, m), List.mem_filter.2 ⟨he, ?_⟩, rfl⟩
      simp only [keep, Bool.not_eq_true', Bool.and_eq_false_iff, beq_eq_false_iff_ne]
      by_cases hx : y = "__pycache__"
      · exact .inr (by simpa [hx] using hk)
      · exact .inl hx
  have hprune : ∀ m sub, Node.dir sub = prune m → ∃ s, m = .dir s ∧ sub = pruneAll s := by
    intro m sub h
    cases m with
    | dir s => rw [prune] at h; cases h; exact ⟨s, rfl, rfl⟩
    | file _ => rw [prune] at h <;> first | (cases h; done) | exact fun _ h => by cases h
    | link _ => rw [prune] at h <;> first | (cases h; done) | exact fun _ h => by cases h
  induction p generalizing es with
  | nil =>
    constructor
    · rintro ⟨es', h, hm⟩
      cases h
      obtain ⟨m, h1, h2, h3⟩ := (hmem es x n).1 hm
      exact ⟨by simp, es, m, .here, h1, h2, h3⟩
    · rintro ⟨_, es', m, h, h1, h2, h3⟩
      cases h
      exact ⟨_, .here, (hmem es x n).2 ⟨m, h1, h2, h3⟩⟩
  | cons y p ih =>
    constructor
    · rintro ⟨es', h, hm⟩
      cases h with
      | step hy h =>
        obtain ⟨m, h1, h2, h3⟩ := (hmem es y _).1 hy
        obtain ⟨s, rfl, rfl⟩ := hprune m _ h2
        obtain ⟨h4, es'', k, h5, h6⟩ := (ih s).1 ⟨es', h, hm⟩
        have : y ≠ "__pycache__" := fun hy => h3 ⟨hy, rfl⟩
        exact ⟨by simp [h4, Ne.symm this], es'', k, .step h1 h5, h6⟩
    · rintro ⟨h, es', m, h1, h2⟩
      rw [List.mem_cons, not_or] at h
      cases h1 with
      | @step _ _ sub _ _ hy h1 =>
        obtain ⟨es'', h3, h4⟩ := (ih sub).2 ⟨h.2, es', m, h1, h2⟩
        refine ⟨es'', .step ((hmem es y (.dir (pruneAll sub))).2 ⟨.dir sub, hy, by rw [prune], ?_⟩) h3, h4⟩
        exact fun ⟨h5, _⟩ => h.1 h5.symm

/-- If there is no such directory, then an error is raised, and nothing is changed. -/
theorem C49_not_a_directory {root : Node} {p : Path} (h : isDir root p = false) (limit : Nat) :
    getpycachedirs root limit p = .error .notFound ∧
    deletepycachedirs limit p root = (.error .notFound, root) := by
  have : getpycachedirs root limit p = .error .notFound := by rw [getpycachedirs, h]; rfl
  exact ⟨this, by rw [deletepycachedirs, this]⟩

/-- If the directories are nested more deeply than Python can follow, then an error is raised, and nothing is changed: it
does not happen that some caches are missed. -/
theorem C49_too_deep {top es : Entries} (hw : WF top) {p : Path} (hp : (Node.dir top).get p = some (.dir es)) {limit : Nat}
    (hd : ¬ Depth limit es) :
    getpycachedirs (.dir top) limit p = .error .recursion ∧
    deletepycachedirs limit p (.dir top) = (.error .recursion, .dir top) := by
  have hes : WF es := fun q es' hq => hw _ es' (dirAt_append (get_dirAt hp) hq)
  have hi : isDir (.dir top) p = true := by
    rw [isDir, resolved_real hp (fun t => nofun)]
  have : getpycachedirs (.dir top) limit p = .error .recursion := by
    rw [getpycachedirs, hi]
    exact walk_deep limit hp hd hes
  exact ⟨this, by rw [deletepycachedirs, this]⟩

/-! A project with caches, and a file called `__pycache__`. -/

namespace Pycache.Ex

def src : Entries :=
  [("a.py", .file 1),
   ("__pycache__", .dir [("a.pyc", .file 2), ("old", .dir [("__pycache__", .dir [("b.pyc", .file 3)])])]),
   ("sub", .dir [("__pycache__", .file 4), ("c.py", .file 5)]),
   ("pkg", .dir [("__pycache__", .dir []), ("link", .link ["etc"])])]

def root : Entries := [("etc", .dir [("__pycache__", .dir [("x", .file 6)])]), ("src", .dir src)]

def pruned : Entries :=
  [("a.py", .file 1), ("sub", .dir [("__pycache__", .file 4), ("c.py", .file 5)]),
   ("pkg", .dir [("link", .link ["etc"])])]

end Pycache.Ex
open Pycache.Ex

example : ¬ Depth 2 src := fun h => h "__pycache__" _ (.tail _ (.head _)) "old" _ (.tail _ (.head _))

example : deletepycachedirs 2 ["src"] (.dir root) = (.error .recursion, .dir root) := rfl

private def wf : Nat → Entries → Bool
  | 0, _ => false
  | n + 1, es => decide (es.map Prod.fst).Nodup && es.all fun e =>
    match e.2 with
    | .dir sub => wf n sub
    | _ => true

private theorem wf_WF {n : Nat} {es : Entries} (h : wf n es = true) : WF es := by
  intro p es' hp
  induction hp generalizing n with
  | here =>
    cases n with
    | zero => cases h
    | succ n => rw [wf, Bool.and_eq_true] at h; exact of_decide_eq_true h.1
  | step hm _ ih =>
    cases n with
    | zero => cases h
    | succ n =>
      rw [wf, Bool.and_eq_true, List.all_eq_true] at h
      exact ih (h.2 _ hm)

private def depth : Nat → Entries → Bool
  | 0, _ => false
  | n + 1, es => es.all fun e =>
    match e.2 with
    | .dir sub => depth n sub
    | _ => true

private theorem depth_Depth {n : Nat} {es : Entries} (h : depth n es = true) : Depth n es := by
  induction n generalizing es with
  | zero => cases h
  | succ n ih =>
    rw [depth, List.all_eq_true] at h
    exact fun x sub hx => ih (h _ hx)

/-- Links only outside caches, and not called so. -/
private def nolinks : Nat → Bool → Entries → Bool
  | 0, _, _ => false
  | n + 1, inside, es => es.all fun e =>
    match e.2 with
    | .dir sub => nolinks n (inside || e.1 == "__pycache__") sub
    | .link _ => !inside && e.1 != "__pycache__"
    | .file _ => true

private theorem nolinks_inside {n : Nat} {es : Entries} (h : nolinks n true es = true) :
    ∀ q es' x t, DirAt es q es' → (x, Node.link t) ∉ es' := by
  intro q es' x t hq
  induction hq generalizing n with
  | here =>
    cases n with
    | zero => cases h
    | succ n =>
      rw [nolinks, List.all_eq_true] at h
      exact fun hm => by simpa using h _ hm
  | step hm _ ih =>
    cases n with
    | zero => cases h
    | succ n =>
      rw [nolinks, List.all_eq_true] at h
      exact ih (h _ hm)

private theorem nolinks_NoLinks {n : Nat} {es : Entries} {b : Bool} (h : nolinks n b es = true) : NoLinks es := by
  constructor
  · intro p es' t hp
    induction hp generalizing n b with
    | here =>
      cases n with
      | zero => cases h
      | succ n =>
        rw [nolinks, List.all_eq_true] at h
        exact fun hm => by simpa using h _ hm
    | step hm _ ih =>
      cases n with
      | zero => cases h
      | succ n =>
        rw [nolinks, List.all_eq_true] at h
        exact ih (h _ hm)
  · intro p sub hp hc
    obtain ⟨q, es', s, rfl, h1, h2⟩ := hc
    clear h1 h2
    induction q generalizing n b es with
    | nil =>
      cases hp with
      | step hm hp =>
        cases hp
        cases n with
        | zero => cases h
        | succ n =>
          rw [nolinks, List.all_eq_true] at h
          have := h _ hm
          simp only [beq_self_eq_true, Bool.or_true] at this
          exact nolinks_inside this
    | cons y q ih =>
      cases hp with
      | step hm hp =>
        cases n with
        | zero => cases h
        | succ n =>
          rw [nolinks, List.all_eq_true] at h
          exact ih (h _ hm) hp

example : deletepycachedirs 5 ["src"] (.dir root) =
    (.ok (), .dir [("etc", .dir [("__pycache__", .dir [("x", .file 6)])]), ("src", .dir pruned)]) :=
  C49_delete_partial (top := root) (es := src) (wf_WF (n := 9) (by decide +kernel)) rfl
    (depth_Depth (by decide +kernel)) (nolinks_NoLinks (n := 9) (b := false) (by decide +kernel))

example : getpycachedirs (.dir root) 5 ["src"] = .ok [["src", "__pycache__"],
    ["src", "__pycache__", "old", "__pycache__"], ["src", "pkg", "__pycache__"]] := rfl

example : deletepycachedirs 5 ["src", "a.py"] (.dir root) = (.error .notFound, .dir root) :=
  (C49_not_a_directory (by decide +kernel) 5).2

/-! Links. -/

/-- `__pycache__` is a link to a directory elsewhere: the files there are deleted, and then an exception is
raised, because a link is not a directory. -/
theorem C49_link_violated :
    deletepycachedirs 5 ["src"]
      (.dir [("home", .dir [("thesis", .file 1)]), ("src", .dir [("__pycache__", .link ["home"])])]) =
    (.error .notADirectory, .dir [("home", .dir []), ("src", .dir [("__pycache__", .link ["home"])])]) := rfl

/-- A cache with a link to a directory in it cannot be deleted. -/
theorem C49_inner_link_violated :
    deletepycachedirs 5 ["src"]
      (.dir [("home", .dir [("thesis", .file 1)]),
        ("src", .dir [("__pycache__", .dir [("a.pyc", .file 2), ("l", .link ["home"])])])]) =
    (.error .notADirectory, .dir [("home", .dir [("thesis", .file 1)]),
      ("src", .dir [("__pycache__", .dir [("l", .link ["home"])])])]) := rfl

end Mcpyrate
