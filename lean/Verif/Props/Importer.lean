import Verif.Lemmas.Importer
import Verif.Props.Multiphase
import Verif.Spec.GetMacrosExample
/-
C45 A macro change invalidates the bytecode of every dependent module.  The full statement fails: on a
cycle of dependencies there is no result (`C45_cycle_violated`), and an edit of a dependency that does
not get the latest modification time (a file restored from a backup, say) leaves the result as it was
(`C45_older_violated`).
C46 Import-statement caching is transparent.
-/
namespace Mcpyrate
open Py Paths Importer

variable {T : Type}

/-- C46: after any history, a call gives the same result (or the same error) as without caches; where
`cacheFile` gives two paths the same cache file, they are the same file. -/
theorem C46_transparent (I : Interp T) (V : Str → Int → T) (fs : Files T) (disk : Str → CacheFile)
    (hcf : ∀ p q, I.cacheFile p = I.cacheFile q → V p = V q)
    (h : History I.parse I.cacheFile V fs disk) (limit : Nat) (path : Str) (r : Except Err Int)
    (hr : r ≠ .error .recursionError) (hu : uncached I fs limit path = r) :
    (lookup I fs limit path disk).1 = r := by
  obtain ⟨hv, hd⟩ := history_disk hcf h
  exact (pathStats_ok hv hcf limit (path := path) (s := { memory := [], disk := disk })
    ⟨hd, fun p m h => by cases h⟩).2.2 r hu hr

/-- C46: conversely, every result with caches is that without (where the recursion may have to be deeper,
as there are no caches to stop it). -/
theorem C46_sound (I : Interp T) (V : Str → Int → T) (fs : Files T) (disk : Str → CacheFile)
    (hcf : ∀ p q, I.cacheFile p = I.cacheFile q → V p = V q)
    (h : History I.parse I.cacheFile V fs disk) (limit : Nat) (path : Str) (r : Except Err Int)
    (hr : r ≠ .error .recursionError) (hl : (lookup I fs limit path disk).1 = r) :
    ∃ L, ∀ limit', L ≤ limit' → uncached I fs limit' path = r := by
  obtain ⟨hv, hd⟩ := history_disk hcf h
  obtain ⟨L, hL⟩ := (pathStats_ok hv hcf limit (path := path) (s := { memory := [], disk := disk })
    ⟨hd, fun p m h => by cases h⟩).2.1 (by
      change (lookup I fs limit path disk).1 ≠ _
      rw [hl]; exact hr)
  change uncached I fs L path = (lookup I fs limit path disk).1 at hL
  rw [hl] at hL
  exact ⟨L, fun limit' hle => uncached_mono hle hL hr⟩

/-- C45: the time reported is the latest of the file and all it depends on. -/
theorem C45_newest_partial (I : Interp T) (V : Str → Int → T) (fs : Files T) (disk : Str → CacheFile)
    (hcf : ∀ p q, I.cacheFile p = I.cacheFile q → V p = V q)
    (h : History I.parse I.cacheFile V fs disk) (hc : CleanFiles I fs) (limit : Nat) (path : Str) (m : Int)
    (hl : (lookup I fs limit path disk).1 = .ok m) : Newest I fs path m := by
  obtain ⟨L, hL⟩ := C46_sound I V fs disk hcf h limit path _ (by simp) hl
  exact uncached_newest hc L (hL L (Nat.le_refl _))

/-- C45: if a file it depends on (or the file itself) is edited, and gets a later time than the one
reported before, then the time reported is later. -/
theorem C45_edit_partial (I : Interp T) (V : Str → Int → T) (fs fs' : Files T) (disk disk' : Str → CacheFile)
    (hcf : ∀ p q, I.cacheFile p = I.cacheFile q → V p = V q)
    (h' : History I.parse I.cacheFile V fs' disk')
    (hc' : CleanFiles I fs') (limit : Nat) (path q : Str) (m m' : Int) (file : File T)
    (hsame : ∀ p, p ≠ q → fs' p = fs p) (hq : fs' q = some file) (hspec : I.findSpec fs' = I.findSpec fs)
    (hreach : Reach I fs path q) (hlater : m < I.seconds file.mtime)
    (_hl : (lookup I fs limit path disk).1 = .ok m) (hl' : (lookup I fs' limit path disk').1 = .ok m') :
    m < m' := by
  have hr' : Reach I fs' path q := by
    clear hl' _hl
    induction hreach with
    | refl => exact .refl
    | @step p r q hd _ ih =>
      by_cases hp : p = q
      · rw [hp]; exact .refl
      · obtain ⟨f, body, t, a, h1, h2, h3, h4, h5⟩ := hd
        exact .step ⟨f, body, t, a, by rw [hsame p hp]; exact h1, h2, h3, h4, by rw [hspec]; exact h5⟩
          (ih hsame hq)
  obtain ⟨f, hf, hle⟩ := (C45_newest_partial I V fs' disk' hcf h' hc' limit path m' hl').2 q hr'
  rw [hq] at hf
  cases hf
  omega

/-- C45: there is a result if all imports can be found and there are no cycles (the rank is the depth of
the dependencies). -/
theorem C45_succeeds_partial (I : Interp T) (V : Str → Int → T) (fs : Files T) (disk : Str → CacheFile)
    (hcf : ∀ p q, I.cacheFile p = I.cacheFile q → V p = V q)
    (h : History I.parse I.cacheFile V fs disk) (hc : CleanFiles I fs) (limit : Nat) (path : Str)
    (rank : Str → Nat) (hrank : ∀ p q, Depends I fs p q → rank q < rank p) (hlim : rank path < limit)
    (hall : ∀ p, Reach I fs path p → ∃ file body, fs p = some file ∧ I.parse file.text = .ok body ∧
      ∀ t, ImportIn body t → ∃ a, Target I p t a ∧
        (I.findSpec fs a = .ok none ∨ ∃ q, I.findSpec fs a = .ok (some (some q)))) :
    ∃ m, (lookup I fs limit path disk).1 = .ok m := by
  suffices key : ∀ limit path, rank path < limit → (∀ p, Reach I fs path p → ∃ file body, fs p = some file ∧
      I.parse file.text = .ok body ∧ ∀ t, ImportIn body t → ∃ a, Target I p t a ∧
        (I.findSpec fs a = .ok none ∨ ∃ q, I.findSpec fs a = .ok (some (some q)))) →
      ∃ m, uncached I fs limit path = .ok m by
    obtain ⟨m, hm⟩ := key limit path hlim hall
    exact ⟨m, C46_transparent I V fs disk hcf h limit path _ (by simp) hm⟩
  intro limit
  induction limit with
  | zero => intro path h; omega
  | succ n ih =>
    intro path hlim hall
    obtain ⟨file, body, hf, hb, himp⟩ := hall path .refl
    obtain ⟨ms, ds, h1, h2⟩ := scan_spec (hc path file body hf hb)
    have hfi : freshImports I file = .ok (ms ++ ds, (ms ++ ds).any GetMacros.levelTruthy) := by
      simp [freshImports, hb, h1]
    have hpkg : ∃ pkg, package I path ((ms ++ ds).any GetMacros.levelTruthy) = .ok pkg := by
      cases hr : (ms ++ ds).any GetMacros.levelTruthy with
      | false => exact ⟨none, rfl⟩
      | true =>
        obtain ⟨t, ht, hlt⟩ := List.any_eq_true.1 hr
        obtain ⟨a, ha, _⟩ := himp t ((h2 t).1 ht)
        cases ha with
        | absolute h => rw [levelTruthy_eq (n := 0) h.level] at hlt; cases hlt
        | @relative _ _ k _ _ hk _ => exact ⟨some k, by simp only [package, hk, if_true]⟩
    obtain ⟨pkg, hp⟩ := hpkg
    have hdep := depends_iff hc hf hfi hp
    have hms : ∀ ts : List Val, (∀ t ∈ ts, t ∈ ms ++ ds) →
        ∃ xs, freshMtimes I fs pkg (uncached I fs n) ts = .ok xs := by
      intro ts
      induction ts with
      | nil => exact fun _ => ⟨[], rfl⟩
      | cons t ts iht =>
        intro hts
        obtain ⟨xs, hxs⟩ := iht (fun x hx => hts x (by simp [hx]))
        have htm := hts t (by simp)
        obtain ⟨a, ha, hspec⟩ := himp t ((h2 t).1 htm)
        have hpar := (importIn_parsed (hc path file body hf hb) ((h2 t).1 htm)).1
        have hlt : GetMacros.levelTruthy t = true → (ms ++ ds).any GetMacros.levelTruthy = true :=
          fun hl => List.any_eq_true.2 ⟨t, htm, hl⟩
        rw [freshMtimes]
        rcases hspec with hs | ⟨q, hs⟩
        · have ho : origin I fs pkg t = .ok none := origin_none hpar hlt hp ha hs
          rw [ho]
          exact ⟨xs, hxs⟩
        · have ho := (origin_iff hpar hlt hp q).2 ⟨a, ha, hs⟩
          have hd := (hdep q).2 ⟨t, htm, ho⟩
          have := hrank _ _ hd
          obtain ⟨m, hm⟩ := ih q (by omega) (fun p hr => hall p (.step hd hr))
          rw [ho]
          exact ⟨m :: xs, by simp [hm, hxs]⟩
    obtain ⟨xs, hxs⟩ := hms (ms ++ ds) (fun _ h => h)
    refine ⟨maximum xs (I.seconds file.mtime), ?_⟩
    simp only [uncached_eq, hf, hfi, hp, hxs]

/-- C45: the import hook reports that time for every `.py` file outside the standard library, and leaves
all others to the standard method. -/
theorem C45_hook (I : Interp T) (fs : Files T) (limit : Nat) (isStdlib : Str → Bool)
    (standard : Str → Except Err Int) (path : Str) (disk : Str → CacheFile) :
    ((∃ stem, path = stem ++ ".py".toList) → isStdlib path = false →
      pathXstats I fs limit isStdlib standard path disk = lookup I fs limit path disk) ∧
    ((¬ ∃ stem, path = stem ++ ".py".toList) ∨ isStdlib path = true →
      pathXstats I fs limit isStdlib standard path disk = (standard path, disk)) := by
  rw [← GetMacros.suffix_iff]
  unfold pathXstats
  constructor
  · intro h1 h2
    rw [h1, h2]; rfl
  · rintro (h | h)
    · simp only [Bool.not_eq_true] at h
      rw [h]; simp
    · rw [h]; rfl

/-! Examples: files of a package `p` in `/opt`; a text is its list of statements. -/

def file_ (n : String) : Str := ("/opt/p/" ++ n ++ ".py").toList

/-- The module `p.n` is found if its file is there. -/
def importer0 : Interp (List Val) where
  parse := fun b => .ok b
  write := fun _ => .written
  cacheFile := fun p => p
  findSpec := fun fs n =>
    if n = "p.a" then .ok ((fs (file_ "a")).map fun _ => some (file_ "a"))
    else if n = "p.b" then .ok ((fs (file_ "b")).map fun _ => some (file_ "b"))
    else if n = "p.c" then .ok ((fs (file_ "c")).map fun _ => some (file_ "c"))
    else .ok none
  fs := plainFS
  syspath := ["/opt".toList]
  seconds := fun n => n / 1000000000

/-- `p.a` imports macros from `p.b`, at time `x`; that from `.c`, in phase 1, at time `y`; the text of `p.c` is
`code`, at time `z`. -/
def files0 (code : List Val) (x y z : Int) : Files (List Val) := fun p =>
  if p = file_ "a" then some { mtime := x, text := [GetMacros.Ex.absolute "p.b" [("f", none)]] }
  else if p = file_ "b" then some { mtime := y, text :=
    [withPhase (constant (.int 1)) [GetMacros.Ex.from_ 1 (some "c") [("g", none)]], line "x"] }
  else if p = file_ "c" then some { mtime := z, text := code }
  else none

def disk0 : Str → CacheFile := fun _ => .absent

example : (lookup importer0 (files0 [] 1000000000 2000000000 7000000000) 9 (file_ "a") disk0).1 = .ok 7 := by
  decide +kernel
/-- With the caches from that, and an edit of `p.b`. -/
example : (lookup importer0 (files0 [] 1000000000 9000000000 7000000000) 9 (file_ "a")
    (lookup importer0 (files0 [] 1000000000 2000000000 7000000000) 9 (file_ "a") disk0).2).1 = .ok 9 := by
  decide +kernel
/-- The imports of the file come from the cache: with a text that does not even parse, the result is the same. -/
example : (lookup { importer0 with parse := fun _ => .error .syntaxError }
    (files0 [] 1000000000 2000000000 8000000000) 9 (file_ "b")
    (lookup importer0 (files0 [] 1000000000 2000000000 8000000000) 9 (file_ "b") disk0).2).1 = .ok 8 := by
  decide +kernel

/-- The example files are as the parser makes them, and make a history. -/
theorem files0_clean (x y z : Int) : CleanFiles importer0 (files0 [] x y z) := by
  intro p file body hf hb
  cases hb
  have himp : ∀ n m f, m ≠ "" → m.toList.head? ≠ some '.' →
      GetMacros.Parsed (GetMacros.Ex.from_ (n : Nat) (some m) [(f, none)]) := fun n m f h1 h2 =>
    ⟨.inl ⟨n, m, ⟨rfl, rfl⟩, h1, h2⟩, ("macros", none), [(f, none)], ⟨_, rfl, rfl⟩, by simp⟩
  have hnot : ∀ (t : Val) n b, t.isK .With = false → ¬ Multiphase.IsPhase t n b := by
    intro t n b h hp
    rw [hp.1] at h; cases h
  unfold files0 at hf
  split at hf
  · cases hf
    refine .mk (fun t ht h => ?_) (fun t ht _ => ?_) (fun t ht n b hp => ?_) <;>
      (simp only [List.mem_singleton] at ht; subst ht)
    · cases h
    · exact himp 0 "p.b" "f" (by decide) (by decide +kernel)
    · exact absurd hp (hnot _ _ _ rfl)
  · split at hf
    · cases hf
      have hph : Multiphase.IsPhase (withPhase (constant (.int 1)) [GetMacros.Ex.from_ 1 (some "c") [("g", none)]]) 1
          [GetMacros.Ex.from_ 1 (some "c") [("g", none)]] :=
        ⟨rfl, rfl, Nat.le_refl _, _, _, _, _, rfl, rfl, rfl, rfl, rfl, rfl, rfl, rfl, rfl, .inl rfl⟩
      refine .mk (fun t ht h => ?_) (fun t ht h => ?_) (fun t ht n b hp => ?_) <;>
        (simp only [List.mem_cons, List.not_mem_nil, or_false] at ht; rcases ht with rfl | rfl)
      · exact hph.parsed _ (by simp) h
      · cases h
      · cases h
      · cases h
      · rw [← (hph.unique hp).2]
        refine .mk (fun t ht h => ?_) (fun t ht _ => ?_) (fun t ht n b hp => ?_) <;>
          (simp only [List.mem_singleton] at ht; subst ht)
        · cases h
        · exact himp 1 "c" "g" (by decide) (by decide +kernel)
        · exact absurd hp (hnot _ _ _ rfl)
      · exact absurd hp (hnot _ _ _ rfl)
    · split at hf
      · cases hf
        exact .mk (fun t ht => by cases ht) (fun t ht => by cases ht) (fun t ht => by cases ht)
      · cases hf

example (x y z y' : Int) (hz : y' ≠ y) :
    let V : Str → Int → List Val := fun p _ => ((files0 [] x y z p).map File.text).getD []
    (∀ p q, importer0.cacheFile p = importer0.cacheFile q → V p = V q) ∧
    History importer0.parse importer0.cacheFile V (files0 [] x y' z)
      (lookup importer0 (files0 [] x y z) 9 (file_ "a") disk0).2 := by
  intro V
  have hv : ∀ y', Versions V (files0 [] x y' z) := by
    intro y' p file hf
    dsimp only [V]
    unfold files0 at hf ⊢
    split at hf
    · cases hf; rename_i h; simp [h]
    · split at hf
      · cases hf; rename_i h1 h2; simp only [h1, h2, if_false, if_true]; rfl
      · split at hf
        · cases hf; rename_i h1 h2 h3; simp only [h1, h2, h3, if_false, if_true]; rfl
        · cases hf
  exact ⟨fun p q h => by cases h; rfl,
    .edit (.lookup importer0 9 (file_ "a") (.start (hv y) (fun _ => rfl)) rfl rfl) (hv y')⟩

/-- A dict in a cache file that lacks a key, but has the right time, is not recomputed: KeyError. -/
example : (lookup importer0 (files0 [] 1 2 3) 9 (file_ "c")
    (fun _ => .data { mtime := 3, imports := none })).1 = .error .keyError := by decide +kernel

/-- C45 fails if files depend on each other: there is no result, whatever the recursion limit. -/
theorem C45_cycle_violated (limit : Nat) :
    (lookup importer0 (files0 [GetMacros.Ex.absolute "p.a" [("h", none)]] 1 2 3) limit (file_ "a") disk0).1
      = .error .recursionError := by
  let code := [GetMacros.Ex.absolute "p.a" [("h", none)]]
  let fs := files0 code 1 2 3
  have hfile : ∀ n (p q : Str) (f : File (List Val)) (t : Val) (rel : Bool) (pkg : Option Str), fs p = some f →
      freshImports importer0 f = .ok ([t], rel) → package importer0 p rel = .ok pkg →
      origin importer0 fs pkg t = .ok (some q) → uncached importer0 fs n q = .error .recursionError →
      uncached importer0 fs (n + 1) p = .error .recursionError := by
    intro n p q f t rel pkg h1 h2 h3 h4 h5
    simp only [uncached_eq, h1, h2, h3, freshMtimes, h4, h5]
  have hall : ∀ n, uncached importer0 fs n (file_ "a") = .error .recursionError ∧
      uncached importer0 fs n (file_ "b") = .error .recursionError ∧
      uncached importer0 fs n (file_ "c") = .error .recursionError := by
    intro n
    induction n with
    | zero => exact ⟨rfl, rfl, rfl⟩
    | succ n ih =>
      refine ⟨hfile n _ (file_ "b") { mtime := 1, text := [GetMacros.Ex.absolute "p.b" [("f", none)]] }
          (GetMacros.Ex.absolute "p.b" [("f", none)]) false none ?_ ?_ ?_ ?_ ih.2.1,
        hfile n _ (file_ "c") { mtime := 2, text :=
          [withPhase (constant (.int 1)) [GetMacros.Ex.from_ 1 (some "c") [("g", none)]], line "x"] }
          (GetMacros.Ex.from_ 1 (some "c") [("g", none)]) true (some "p".toList) ?_ ?_ ?_ ?_ ih.2.2,
        hfile n _ (file_ "a") { mtime := 3, text := code } (GetMacros.Ex.absolute "p.a" [("h", none)])
          false none ?_ ?_ ?_ ?_ ih.1⟩ <;> decide +kernel
  apply Classical.byContradiction
  intro hne
  obtain ⟨L, hL⟩ := C46_sound importer0 (fun p _ => ((fs p).map File.text).getD []) fs disk0
    (fun p q h => by cases h; rfl) (.start (fun p f hf => by simp [hf]) (fun _ => rfl)) limit _ _ hne rfl
  have := hL L (Nat.le_refl _)
  rw [(hall L).1] at this
  exact hne this.symm

/-- C45 fails if the edited file gets a time that is not the latest: the text of `p.c` is another, and
its time has changed; the result has not. -/
theorem C45_older_violated :
    (lookup importer0 (files0 [] 9000000000 2000000000 3000000000) 9 (file_ "a") disk0).1 = .ok 9 ∧
    (lookup importer0 (files0 [line "edited"] 9000000000 2000000000 4000000000) 9 (file_ "a") disk0).1 = .ok 9 := by
  constructor <;> decide +kernel

end Mcpyrate
