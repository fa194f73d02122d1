import Verif.Lemmas.ImportCode
/-
C71 Imported code is up to date.

Full statement: with the import hooks in place, importing a module runs the code that its source, as it is now, is compiled to, with
its macros and dialects as they are now; whether the code comes from the bytecode cache or is compiled anew, and whatever files have
been written and modules imported before.  Code that is up to date is not compiled again.

This is shown (`C71_fresh_partial`) for histories in which each file that is written gets a time that is at least a second later than
those of all other files, no files are deleted, and the code that a module is compiled to depends on nothing else than its source
and the sources of its macros and dialects, as C45 finds them.

It does not hold when files are written within the same second: even a change of the module itself is not noticed
(`C71_second_violated`), as the length of the source file is not recorded.  It does not hold when a file is deleted
(`C71_deleted_violated`), nor for changes of modules that a macro definition uses through an ordinary import
(`C71_helper_violated`).
-/
namespace Mcpyrate
open Py Paths Importer ImportCode

variable {T Code : Type}

/-- C71: the code that an import gives is what the module, as it is now, is compiled to. -/
theorem C71_fresh_partial (L : Loader T Code) (V : Str → Int → T) (hL : Determined L)
    (hw : ∀ a b, a ≤ b → L.whole a ≤ L.whole b) (hcf : ∀ p q, L.I.cacheFile p = L.I.cacheFile q → V p = V q)
    (fs : Files T) (disk : Str → CacheFile) (pyc : Str → Pyc Code) (h : Imports L V fs disk pyc) (writes : Bool) (path : Str)
    (ht : Tracked L path) (code : Code) (hc : (getCode L fs writes path disk pyc).1 = .ok code) :
    Expands L fs path (.ok code) := by
  obtain ⟨hr, hh, hi⟩ := imports_inv hL hcf h
  rcases (getCode_cases (fs := fs) writes ht disk pyc).2 with ⟨e, -, -, h1, -⟩ | ⟨m, st, code', hm, hp, hst, h1, -⟩ | ⟨c, -, -, h1, -⟩
  · rw [h1] at hc; cases hc
  · rw [h1] at hc
    cases hc
    have hn := C45_newest_partial L.I V fs disk hcf hh hr.1 L.limit path m hm
    rcases hi.current path st code ht hp with h2 | ⟨q, f, h2, h3, h4⟩
    · exact h2
    · obtain ⟨g, hg, hle⟩ := hn.2 q h2
      rw [h3] at hg
      cases hg
      obtain ⟨q', f', -, hf', hs'⟩ := clock_stamp hr hn
      have h5 : clock L f ≤ L.whole m := hw _ _ hle
      have h6 : stamp L m = L.whole m := by
        obtain ⟨q2, f2, -, hf2, hs2⟩ := hn.1
        have := hr.2 q2 f2 hf2
        unfold clock at this
        rw [hs2] at this
        unfold stamp
        omega
      omega
  · rw [h1] at hc
    exact fromSource_ok hc

/-- C71: an import raises an exception only if looking up the times of the files does, or opening or compiling the source. -/
theorem C71_errors (L : Loader T Code) (fs : Files T) (disk : Str → CacheFile) (pyc : Str → Pyc Code) (writes : Bool) (path : Str)
    (ht : Tracked L path) (e : Err) (he : (getCode L fs writes path disk pyc).1 = .error e) :
    (lookup L.I fs L.limit path disk).1 = .error e ∨ (fs path = none ∧ e = .osError) ∨ Expands L fs path (.error e) := by
  rcases (getCode_cases (fs := fs) writes ht disk pyc).2 with ⟨e', h1, -, h2, -⟩ | ⟨m, st, code', -, -, -, h1, -⟩ | ⟨c, -, -, h1, -⟩
  · rw [h2] at he; cases he; exact .inl h1
  · rw [h1] at he; cases he
  · rw [h1] at he
    unfold fromSource at he
    cases hf : fs path with
    | none => rw [hf] at he; cases he; exact .inr (.inl ⟨rfl, rfl⟩)
    | some file =>
      rw [hf] at he
      dsimp only at he
      cases hs : sourceToXcode L fs file.text path with
      | error e' => rw [hs] at he; cases he; exact .inr (.inr ⟨file, hf, hs⟩)
      | ok code => rw [hs] at he; cases c <;> cases he

/-- C71: code that is up to date is not compiled again.  If an import has given `code` and stored it, and later on the bytecode file is
still the same, and the files depended on have the same latest time, then an import gives `code` whatever the compiler
would do. -/
theorem C71_reused (L : Loader T Code) (V : Str → Int → T) (hcf : ∀ p q, L.I.cacheFile p = L.I.cacheFile q → V p = V q)
    (fs fs' : Files T) (disk disk' : Str → CacheFile) (pyc pyc' : Str → Pyc Code) (path : Str) (ht : Tracked L path)
    (h : History L.I.parse L.I.cacheFile V fs disk) (h' : History L.I.parse L.I.cacheFile V fs' disk') (m : Int)
    (hm : uncached L.I fs L.limit path = .ok m) (hm' : uncached L.I fs' L.limit path = .ok m) (code : Code)
    (hc : (getCode L fs true path disk pyc).1 = .ok code) (hp : pyc' path = (getCode L fs true path disk pyc).2.2 path)
    (compile : Files T → T → Str → String → Except Err Code) (writes : Bool) :
    (getCode { L with compile := compile } fs' writes path disk' pyc').1 = .ok code := by
  have hl := C46_transparent L.I V fs disk hcf h L.limit path _ (by simp) hm
  have hl' := C46_transparent L.I V fs' disk' hcf h' L.limit path _ (by simp) hm'
  have hst : pyc' path = .data (stamp L m) code := by
    rw [hp]
    rcases (getCode_cases (fs := fs) true ht disk pyc).2 with ⟨e', h1, -⟩ | ⟨m', st, code', h1, h2, h3, h4, h5⟩ | ⟨c, -, h2, h3, h4⟩
    · rw [hl] at h1; cases h1
    · rw [hl] at h1
      cases h1
      rw [h4] at hc
      cases hc
      rw [h5, h2, h3]
    · rw [h2 m hl rfl] at h3 h4
      rw [h3] at hc
      rcases fromSource_pyc (L := L) (fs := fs) (path := path) (c := some (stamp L m)) (pyc := pyc) with h | ⟨st, code', hs, hok, h⟩
      · unfold fromSource at hc h4
        cases hf : fs path with
        | none => rw [hf] at hc; cases hc
        | some file =>
          rw [hf] at hc h4
          dsimp only at hc h4
          cases hs : sourceToXcode L fs file.text path with
          | error e => rw [hs] at hc; cases hc
          | ok code' => rw [hs] at hc h4; cases hc; rw [h4]; exact if_pos rfl
      · rw [hok] at hc
        cases hc
        cases hs
        rw [h4, h]
        exact if_pos rfl
  have ht' : Tracked { L with compile := compile } path := ht
  rcases (getCode_cases (fs := fs') writes ht' disk' pyc').2 with ⟨e', h1, -⟩ | ⟨m', st, code', h1, h2, h3, h4, h5⟩ | ⟨c, -, h2, h3, h4⟩
  · exact absurd (h1.symm.trans hl') (by simp)
  · rw [hst] at h2
    cases h2
    exact h4
  · clear h2 h3 h4
    unfold getCode
    rw [xstats_tracked ht']
    cases hx : lookup L.I fs' L.limit path disk' with
    | mk r d =>
      rw [hx] at hl'
      dsimp only at hl'
      subst hl'
      dsimp only
      rw [hst]
      exact congrArg Prod.fst (if_pos (show stamp L m = stamp { L with compile := compile } m from rfl))

/-! Examples: files of a package `p` in `/opt`; a text is its list of statements. -/
namespace ImportCode.Case

/-- `from p.b import macros, f` -/
def useB : Val := GetMacros.Ex.absolute "p.b" [("f", none)]

/-- `p.a` with this text, at time `x`, and `p.b`, at time `y`, if it is there. -/
def modules (a : List Val) (x : Int) (b : Option (List Val)) (y : Int) : Files (List Val) := fun p =>
  if p = file_ "a" then some { mtime := x, text := a }
  else if p = file_ "b" then b.map fun t => { mtime := y, text := t }
  else none

/-- The code of a module is its text, and, if that begins with `from p.b import macros, f`, the text of `p.b`, which must be there. -/
def loader : Loader (List Val) (List Val × Option (List Val)) where
  I := importer0
  limit := 9
  isStdlib := fun _ => false
  standard := fun _ => .error .osError
  whole := fun n => n
  compile := fun fs text _ _ =>
    match text with
    | t :: _ =>
      if t = useB then
        match fs (file_ "b") with
        | some f => .ok (text, some f.text)
        | none => .error .moduleNotFoundError
      else .ok (text, none)
    | [] => .ok (text, none)
  name := fun _ => "p.a"

def nothing : Str → Pyc (List Val × Option (List Val)) := fun _ => .absent

/-- The code of `p.a`, when `p.b` has this text. -/
def codeA (b : List Val) : List Val × Option (List Val) := ([useB], some b)

theorem tracked : Tracked loader (file_ "a") := ⟨⟨"/opt/p/a".toList, by decide +kernel⟩, rfl⟩

/-- Nothing else matters for the code. -/
theorem determined : Determined loader := by
  rintro fs fs' p r hs ⟨file, hf, rfl⟩
  have h0 := (hs p .refl).1
  rw [hf] at h0
  cases hf' : fs' p with
  | none => rw [hf'] at h0; cases h0
  | some file' =>
    rw [hf'] at h0
    injection h0 with h0
    refine ⟨file', hf', ?_⟩
    rw [h0]
    dsimp only [loader]
    cases ht : file.text with
    | nil => rfl
    | cons t ts =>
      dsimp only
      by_cases hu : t = useB
      · rw [if_pos hu, if_pos hu]
        have hi : ImportIn (t :: ts) t := .here List.mem_cons_self (by
          subst hu; exact ⟨rfl, _, _, rfl, .inl rfl, rfl⟩)
        have hta : Target importer0 p t "p.b" := .absolute (by subst hu; exact ⟨rfl, rfl⟩)
        have hfind := (hs p .refl).2 "p.b" ⟨file, t :: ts, t, hf, by rw [← ht]; rfl, hi, hta⟩
        have hspec : ∀ fs : Files (List Val), importer0.findSpec fs "p.b" = .ok ((fs (file_ "b")).map fun _ => some (file_ "b")) :=
          fun fs => rfl
        change importer0.findSpec fs' "p.b" = importer0.findSpec fs "p.b" at hfind
        rw [hspec, hspec] at hfind
        cases hb : fs (file_ "b") with
        | none =>
          rw [hb] at hfind
          cases hb' : fs' (file_ "b") with
          | none => rfl
          | some g => rw [hb'] at hfind; cases hfind
        | some g =>
          have hd : Depends importer0 fs p (file_ "b") :=
            ⟨file, t :: ts, t, "p.b", hf, by rw [← ht]; rfl, hi, hta, by rw [hspec, hb]; rfl⟩
          have hg := (hs (file_ "b") (.step hd .refl)).1
          rw [hb] at hg
          cases hb' : fs' (file_ "b") with
          | none => rw [hb'] at hg; cases hg
          | some g' => rw [hb'] at hg; injection hg with hg; dsimp only; rw [hg]
      · rw [if_neg hu, if_neg hu]

theorem clean (x y : Int) (b : List Val) (hb : b = [] ∨ b = [line "x"]) : CleanFiles importer0 (modules [useB] x (some b) y) := by
  intro p file body hf h
  cases h
  have hnot : ∀ (t : Val) n b, t.isK .With = false → ¬ Multiphase.IsPhase t n b := by
    intro t n b h hp
    rw [hp.1] at h; cases h
  have hclean : ∀ ts : List Val, (∀ t ∈ ts, t.isK .With = false) → (∀ t ∈ ts, t.isK .ImportFrom = true → GetMacros.Parsed t) →
      Clean ts := fun ts h1 h2 =>
    .mk (fun t ht h => by rw [h1 t ht] at h; cases h) h2 (fun t ht n b hp => absurd hp (hnot _ _ _ (h1 t ht)))
  unfold modules at hf
  split at hf
  · cases hf
    refine hclean _ (fun t ht => ?_) (fun t ht _ => ?_) <;> (simp only [List.mem_singleton] at ht; subst ht)
    · rfl
    · exact ⟨.inl ⟨0, "p.b", ⟨rfl, rfl⟩, by decide, by decide +kernel⟩, ("macros", none), [("f", none)], ⟨_, rfl, rfl⟩, by simp⟩
  · split at hf
    · cases hf
      rcases hb with rfl | rfl
      · exact hclean _ (fun t ht => by cases ht) (fun t ht => by cases ht)
      · refine hclean _ (fun t ht => ?_) (fun t ht h => ?_) <;> (simp only [List.mem_singleton] at ht; subst ht)
        · rfl
        · cases h
    · cases hf

/-- The text of `p.b` is empty at first, and `x` from the ninth second on. -/
def versions : Str → Int → List Val := fun p m =>
  if p = file_ "a" then [useB] else if m = 9000000000 then [line "x"] else []

theorem regular (x y : Int) (hx : 0 ≤ x ∧ x < 10000000000) (hy : 0 ≤ y ∧ y < 10000000000) (b : List Val)
    (hb : b = [] ∨ b = [line "x"]) : Regular loader (modules [useB] x (some b) y) := by
  refine ⟨clean x y b hb, fun p f hf => ?_⟩
  unfold modules at hf
  change 0 ≤ f.mtime / 1000000000 ∧ f.mtime / 1000000000 < 2 ^ 32
  split at hf
  · cases hf; dsimp only; omega
  · split at hf
    · cases hf; dsimp only; omega
    · cases hf

/-- `p.a` is imported; then `p.b` is written, at the ninth second. -/
theorem history : Imports loader versions (modules [useB] 1000000000 (some [line "x"]) 9000000000)
    (getCode loader (modules [useB] 1000000000 (some []) 2000000000) true (file_ "a") disk0 nothing).2.1
    (getCode loader (modules [useB] 1000000000 (some []) 2000000000) true (file_ "a") disk0 nothing).2.2 := by
  refine .edit (file_ "b") (.load true (file_ "a") (.start ?_ (regular _ _ (by decide) (by decide) _ (.inl rfl)) (fun _ => rfl) fun _ => rfl))
    ?_ (regular _ _ (by decide) (by decide) _ (.inr rfl)) ⟨fun p hp => ?_, ?_, fun a => ?_⟩
  · intro p f hf
    unfold modules at hf
    unfold versions
    split at hf
    · rename_i h; rw [if_pos h]; cases hf; rfl
    · rename_i h
      split at hf
      · rw [if_neg h]; cases hf; rfl
      · cases hf
  · intro p f hf
    unfold modules at hf
    unfold versions
    split at hf
    · rename_i h; rw [if_pos h]; cases hf; rfl
    · rename_i h
      split at hf
      · rw [if_neg h]; cases hf; rfl
      · cases hf
  · unfold modules
    rw [if_neg hp, if_neg hp]
  · refine ⟨⟨9000000000, [line "x"]⟩, by decide +kernel, fun p g hg => ?_⟩
    unfold modules at hg
    change g.mtime / 1000000000 < 9000000000 / 1000000000
    split at hg
    · cases hg; decide
    · split at hg
      · cases hg; decide
      · cases hg
  · left
    have hsome : ∀ n, (modules [useB] 1000000000 (some [line "x"]) 9000000000 (file_ n)).map (fun _ => some (file_ n)) =
        (modules [useB] 1000000000 (some []) 2000000000 (file_ n)).map fun _ => some (file_ n) := fun n => by
      unfold modules
      split
      · rfl
      · split <;> rfl
    change importer0.findSpec _ a = importer0.findSpec _ a
    unfold importer0
    dsimp only
    rw [hsome, hsome, hsome]

end ImportCode.Case

open ImportCode.Case

/-- The bytecode from the first import is there, but it is not used after the change of the macros. -/
example : (getCode loader (modules [useB] 1000000000 (some []) 2000000000) true (file_ "a") disk0 nothing).1 = .ok (codeA []) ∧
    Expands loader (modules [useB] 1000000000 (some [line "x"]) 9000000000) (file_ "a") (.ok (codeA [line "x"])) ∧
    ∀ code, (getCode loader (modules [useB] 1000000000 (some [line "x"]) 9000000000) true (file_ "a")
      (getCode loader (modules [useB] 1000000000 (some []) 2000000000) true (file_ "a") disk0 nothing).2.1
      (getCode loader (modules [useB] 1000000000 (some []) 2000000000) true (file_ "a") disk0 nothing).2.2).1 = .ok code →
      Expands loader (modules [useB] 1000000000 (some [line "x"]) 9000000000) (file_ "a") (.ok code) :=
  ⟨by decide +kernel, ⟨⟨1000000000, [useB]⟩, by decide +kernel, by decide +kernel⟩, fun code h =>
    C71_fresh_partial loader versions determined (fun _ _ h => h) (fun p q h => by cases h; rfl) _ _ _ history true _ tracked code h⟩

/-- The bytecode from the first import is used by the second one. -/
example : uncached loader.I (modules [useB] 1000000000 (some []) 2000000000) loader.limit (file_ "a") = .ok 2 ∧
    (getCode { loader with compile := fun _ _ _ _ => .error .runtimeError } (modules [useB] 1000000000 (some []) 2000000000) true
      (file_ "a") disk0
      (getCode loader (modules [useB] 1000000000 (some []) 2000000000) true (file_ "a") disk0 nothing).2.2).1 = .ok (codeA []) := by
  constructor <;> decide +kernel

/-- If `p.b` cannot be found, compiling `p.a` fails, and so does the import. -/
example : (getCode loader (modules [useB] 1000000000 none 0) true (file_ "a") disk0 nothing).1 = .error .moduleNotFoundError := by
  decide +kernel

/-- C71 does not hold for changes within a second: here `p.a` itself is changed, from one statement to two. -/
theorem C71_second_violated :
    let first := getCode loader (modules [useB] 1000000000 (some []) 500000000) true (file_ "a") disk0 nothing
    let changed := modules [useB, line "x"] 1500000000 (some []) 500000000
    first.1 = .ok (codeA []) ∧ (getCode loader changed true (file_ "a") first.2.1 first.2.2).1 = .ok (codeA []) ∧
    Expands loader changed (file_ "a") (.ok ([useB, line "x"], some [])) :=
  ⟨by decide +kernel, by decide +kernel, ⟨⟨1500000000, [useB, line "x"]⟩, by decide +kernel, by decide +kernel⟩⟩

/-- C71 does not hold when a file is deleted: the macros that `p.a` uses are no longer there, but it is still imported. -/
theorem C71_deleted_violated :
    let first := getCode loader (modules [useB] 3000000000 (some []) 2000000000) true (file_ "a") disk0 nothing
    let changed := modules [useB] 3000000000 none 0
    first.1 = .ok (codeA []) ∧ (getCode loader changed true (file_ "a") first.2.1 first.2.2).1 = .ok (codeA []) ∧
    Expands loader changed (file_ "a") (.error .moduleNotFoundError) :=
  ⟨by decide +kernel, by decide +kernel, ⟨⟨3000000000, [useB]⟩, by decide +kernel, by decide +kernel⟩⟩

/-- The macros of `p.b` use `p.c`, which is not imported for its macros. -/
def ImportCode.Case.helping : Loader (List Val) (List Val × Option (List Val)) :=
  { loader with compile := fun fs text _ _ => .ok (text, (fs (file_ "c")).map File.text) }

/-- C71 does not hold for modules that macro definitions use through ordinary imports: `p.c` is changed, with a later time than
everything else. -/
theorem C71_helper_violated :
    let files : List Val → Int → Files (List Val) := fun c z p =>
      if p = file_ "c" then some { mtime := z, text := c } else modules [useB] 1000000000 (some []) 2000000000 p
    let first := getCode helping (files [] 3000000000) true (file_ "a") disk0 nothing
    let changed := files [line "x"] 9000000000
    first.1 = .ok ([useB], some []) ∧ (getCode helping changed true (file_ "a") first.2.1 first.2.2).1 = .ok ([useB], some []) ∧
    Expands helping changed (file_ "a") (.ok ([useB], some [line "x"])) :=
  ⟨by decide +kernel, by decide +kernel, ⟨⟨1000000000, [useB]⟩, by decide +kernel, by decide +kernel⟩⟩

end Mcpyrate
