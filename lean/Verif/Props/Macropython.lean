import Verif.Lemmas.Macropython
import Verif.Spec.MacropythonExample
/-
C63: `macropython -m name` imports the package that contains the module, finds the module as an import does, and runs its
code once, as `__main__`: `__name__` is `"__main__"`, `__package__` is the name of the package or empty, and
`sys.modules["__main__"]` is the module while it runs and afterwards.  If it raises an exception, that is passed on, and
`sys.modules["__main__"]` is again what it was at first.  If the name is that of a package, the package is imported, and
then its submodule `__main__` is run in this way; if there is no such submodule, ImportError is raised.  If the module is
not found, ModuleNotFoundError is raised.  `macropython file` runs the file in this way, with an empty `__package__`.  The
first item of `sys.path` is the directory of the file, or for `-m` the current directory; the other items stay.

This does not hold for packages in several ways, for the installed command, and for some file names: see the theorems whose
names end with `violated`.  Proved: the statement for modules that are not packages, provided that `macropython` was not
started by the installed command; what happens for packages that are not in a package; for files with names `name.py`,
where `name` has no dot, unless `sys.path` confuses `relativize` (C28).
-/
namespace Mcpyrate
open Py Macropython

variable {υ L : Type}

/-- C63: a module that is not a package is run as `__main__`. -/
theorem C63_module_partial (H : Host υ L) (hs : H.stash = .bootstrap) {name parent o : Str} {w w0 w1 w2 : World υ}
    {path : Option (List Str)} {spec : ModSpec L} {l : L} (hp : Prepared H name parent w path w0)
    (hf : Searched name path (H.finders w0) w0 spec w1) (hm : H.moduleFromSpec spec w1 = some (.ok (some l), w2))
    (ho : spec.origin = some o) (hi : ¬ "__init__.py".toList <:+ o) (hl : spec.locations = none) (r : Except Exc Unit)
    (w' : World υ) : importAsMain H name false w = some (r, w') ↔ AsMain H l parent none w2 r w' := by
  have hi' : (lit "__init__.py").isSuffixOf o = false := by
    cases h : (lit "__init__.py").isSuffixOf o with
    | false => rfl
    | true => exact absurd (List.isSuffixOf_iff_suffix.1 h) hi
  rw [import_prepared hp, (search_found hf hm).1, spec_module hp hm ho hi' hl, exec_iff hs]

/-- C63: if no finder finds the module, ModuleNotFoundError is raised, and nothing is run. -/
theorem C63_notFound (H : Host υ L) {name parent : Str} {w w0 w1 : World υ} {path : Option (List Str)}
    (hp : Prepared H name parent w path w0) (hf : NotFound name path (H.finders w0) w0 w1) :
    importAsMain H name false w = some (.error (.importError true (some ("No module named ".toList ++ name))), w1) := by
  rw [import_prepared hp]
  exact (bind_ok rfl).trans (bind_err (findSpec_none hf))

/-- C63: an exception raised when the package that contains the module is imported is passed on, and nothing is run. -/
theorem C63_parent_raises (H : Host υ L) {parent child : Str} (hp : parent ≠ []) (h0 : parent.head? ≠ some '.')
    (hc : '.' ∉ child) {w w1 : World υ} {e : Exc} (h : H.importModule parent w = some (.error e, w1)) :
    importAsMain H (parent ++ '.' :: child) false w = some (.error e, w1) := by
  rw [import_dotted hp h0 hc]
  exact bind_err h

/-- C63: relative names are refused. -/
theorem C63_relative (H : Host υ L) (name : Str) (script : Bool) (w : World υ) :
    ∃ msg, importAsMain H ('.' :: name) script w = some (.error (.importError false msg), w) := ⟨_, rfl⟩

/-- C63: a package, not in another one, is imported, and then its submodule `__main__`.  (It is imported, not run as
`__main__`: see `C63_package_violated`.)  Exceptions are passed on, other than ImportError; an error saying that the
submodule is not found becomes an ImportError. -/
theorem C63_package_partial (H : Host υ L) {name o : Str} {w w1 w2 : World υ} {spec : ModSpec L} {l : Option L}
    (hn : '.' ∉ name) (hf : Searched name none (H.finders w) w spec w1) (hm : H.moduleFromSpec spec w1 = some (.ok l, w2))
    (ho : spec.origin = some o) (hi : "__init__.py".toList <:+ o) :
    (∀ e w3, H.importModule name w2 = some (.error e, w3) → importAsMain H name false w = some (.error e, w3)) ∧
    ∀ w3, H.importModule name w2 = some (.ok (), w3) →
      (∀ w4, H.importModule (name ++ ".__main__".toList) w3 = some (.ok (), w4) →
        importAsMain H name false w = some (.ok (), w4)) ∧
      (∀ e w4, H.importModule (name ++ ".__main__".toList) w3 = some (.error e, w4) → (∀ b m, e ≠ .importError b m) →
        importAsMain H name false w = some (.error e, w4)) ∧
      (∀ w4, H.importModule (name ++ ".__main__".toList) w3 =
          some (.error (.importError true (some ("No module named '".toList ++ name ++ ".__main__'".toList))), w4) →
        ∃ m, importAsMain H name false w = some (.error (.importError false m), w4)) := by
  have e0 : importAsMain H name false w = (do H.importModule name; runMainpy H name) w2 := by
    rw [import_top hn, (search_found hf hm).1, spec_package hm ho (List.isSuffixOf_iff_suffix.2 hi)]
  rw [e0]
  refine ⟨fun e w3 h => bind_err h, fun w3 h => ?_⟩
  rw [bind_ok h]
  have e1 : ∀ {r w4}, H.importModule (name ++ ".__main__".toList) w3 = some (r, w4) →
      runMainpy H name w3 = (match r with
        | .ok () => (pure () : R υ Unit)
        | .error (.importError _ (some msg)) =>
          if isInfix (lit "No module named") msg then
            M.throw (.importError false (some (lit "No module named " ++ name ++ lit ".__main__; '" ++ name ++
              lit "' is a package and cannot be directly executed")))
          else M.throw (.importError false (some msg))
        | .error (.importError _ none) => M.throw (.py .typeError)
        | .error e => M.throw e) w4 := fun h => bind_ok (attempt_some h)
  refine ⟨fun w4 h1 => ?_, fun e w4 h1 he => ?_, fun w4 h1 => ?_⟩
  · rw [e1 h1]; rfl
  · rw [e1 h1]
    cases e with
    | importError b m => exact absurd rfl (he b m)
    | py => rfl
    | other => rfl
    | exit => rfl
    | interrupt => rfl
  · rw [e1 h1]
    exact ⟨_, rfl⟩

/-- C63: `macropython -m name`: the current directory is put in front of `sys.path`, and the module is run. -/
theorem C63_modulePath (H : Host υ L) (o : Opts) {name : Str} (ho : o = { module := some name }) (hn : name ≠ [])
    (w : World υ) (hw : w.syspath ≠ []) :
    ∃ w', Pushed H (H.fs.resolve H.cwd) w w' ∧ main H o w = importAsMain H name false w' := by
  obtain ⟨w', h1, h2⟩ := pushed (β := Unit) (H := H) (dir := H.fs.resolve H.cwd) hw
  refine ⟨w', h1, ?_⟩
  subst ho
  have : main H { module := some name } w = runModule H name w := by
    cases name with
    | nil => exact absurd rfl hn
    | cons => rfl
  rw [this]
  exact h2 fun _ => importAsMain H name false

/-- C63: `macropython file`: the directory of the file is put in front of `sys.path`, and the file is run as `__main__`. -/
theorem C63_file_partial (H : Host υ L) (hs : H.stash = .bootstrap) {filename stem : Str} {dir : Paths.Path}
    {w w' w1 w2 : World υ} {spec : ModSpec L} {l : L} (hn : filename ≠ [])
    (hr : H.fs.resolve filename = dir ++ [stem ++ ".py".toList]) (hd : '.' ∉ stem) (hfile : H.isFile (H.fs.resolve filename) w = true)
    (hp : Pushed H dir w w') (hc : Paths.NoConfusion H.fs w'.syspath (H.fs.resolve filename))
    (hw : Paths.Written H.fs w'.syspath) (he : ∀ e ∈ w'.syspath, H.fs.resolve e ≠ H.fs.resolve filename)
    (hf : Searched stem none (H.finders w') w' spec w1) (hm : H.moduleFromSpec spec w1 = some (.ok (some l), w2))
    (r : Except Exc Unit) (w3 : World υ) :
    main H { filename := some filename } w = some (r, w3) ↔ AsMain H l [] spec.locations w2 r w3 := by
  have hwne : w.syspath ≠ [] := by
    obtain ⟨rest, h | h, -⟩ := hp
    · rw [h]; simp
    · exact h.1
  have hslash : '/' ∉ stem := by
    have := (H.fs.comps filename (stem ++ ".py".toList) (by rw [hr]; simp)).2
    exact fun h => this (by simp [h])
  have e0 : main H { filename := some filename } w = runFile H filename w := by
    cases filename with
    | nil => exact absurd rfl hn
    | cons => rfl
  rw [e0]
  unfold runFile
  rw [bind_ok (a := w) (w1 := w) rfl, if_pos hfile]
  have hdl : (H.fs.resolve filename).dropLast = dir := by rw [hr]; simp
  rw [hdl]
  obtain ⟨w'', h1, h2⟩ := pushed (β := Unit) (H := H) (dir := dir) hwne
  cases Pushed.unique h1 hp
  rw [h2 fun _ => importFile H filename]
  unfold importFile
  rw [bind_ok (a := w') (w1 := w') rfl, relative_file hr hp.mem hc hw he]
  dsimp only
  rw [show moduleName (stem ++ ".py".toList) = stem from moduleName_py hd hslash, import_top hd, (search_found hf hm).1, spec_script hm, exec_iff hs]

/-- C63: a file that is not there is an error, and nothing else happens. -/
theorem C63_noFile (H : Host υ L) {filename : Str} (hn : filename ≠ []) {w : World υ}
    (h : H.isFile (H.fs.resolve filename) w = false) :
    main H { filename := some filename } w = some (.error (.py .osError), w) := by
  have e0 : main H { filename := some filename } w = runFile H filename w := by
    cases filename with
    | nil => exact absurd rfl hn
    | cons => rfl
  rw [e0]
  unfold runFile
  rw [bind_ok (a := w) (w1 := w) rfl, if_neg (by rw [h]; simp)]
  rfl

/-- C63: `-c` comes before everything else, and exits with success unless there is an exception; then `-i`; with neither a
file nor a module, help is shown; with both, ValueError is raised. -/
theorem C63_choices (H : Host υ L) (o : Opts) (w : World υ) :
    (∀ d, o.pathToClean = some d → d ≠ [] → main H o w = (do
      if o.dryRun then H.listCaches d else H.clean d
      M.throw (.exit 0)) w) ∧
    (o.pathToClean = none → o.interactive = true → main H o w = (do H.prepare o.pylab; pushPath []; H.interact) w) ∧
    (o.pathToClean = none → o.interactive = false → o.filename = none → o.module = none →
      main H o w = (do H.help; M.throw (.exit 0)) w) ∧
    (∀ f m, o.pathToClean = none → o.interactive = false → o.filename = some f → o.module = some m → f ≠ [] → m ≠ [] →
      main H o w = some (.error (.py .valueError), w)) := by
  obtain ⟨f, m, i, p, c, d⟩ := o
  refine ⟨?_, ?_, ?_, ?_⟩
  · rintro dir rfl hd
    cases dir with
    | nil => exact absurd rfl hd
    | cons => rfl
  · rintro rfl rfl; rfl
  · rintro rfl rfl rfl rfl; rfl
  · rintro f' m' rfl rfl rfl rfl hf hm
    cases f' with
    | nil => exact absurd rfl hf
    | cons =>
      cases m' with
      | nil => exact absurd rfl hm
      | cons => rfl

/-! ### Where the property does not hold -/

open Macropython.Ex

/-- C63 is violated: `macropython -m pkg` imports `pkg.__main__` as an ordinary module.  Nothing is run as `__main__`. -/
theorem C63_package_violated : outcome (importAsMain fine "pkg".toList false) =
    some (.ok (), .bootstrap, ["/opt".toList], [.imported "pkg", .imported "pkg.__main__"]) := by decide +kernel

/-- C63 is violated: for a package in a package, `__init__.py` is run as `__main__`, and `__main__.py` is not run. -/
theorem C63_subpackage_violated : outcome (importAsMain fine "pkg.sub".toList false) =
    some (.ok (), .program, ["/opt".toList], [.imported "pkg",
      .ran 4 ⟨"__main__".toList, "pkg".toList, some ["/lib/pkg/sub".toList]⟩ .program]) := by decide +kernel

/-- C63 is violated: a namespace package, which has no `origin`, raises AttributeError. -/
theorem C63_namespace_violated : outcome (importAsMain fine "space".toList false) =
    some (.error (.py .attributeError), .bootstrap, ["/opt".toList], []) := by decide +kernel

/-- C63 is violated: if `pkg/__main__.py` is there, but a module that it imports is not found, or if it raises an
ImportError without a message, the exception is replaced by another one. -/
theorem C63_error_violated :
    (∃ msg, outcome (importAsMain (host known (fun n => if n = "pkg.__main__" then
        .error (.importError true (some "No module named 'numpy'".toList)) else .ok ()) (fun _ => .ok ()) .bootstrap) "pkg".toList false) =
      some (.error (.importError false (some ("No module named pkg.__main__; ".toList ++ msg))), .bootstrap, ["/opt".toList],
        [.imported "pkg", .imported "pkg.__main__"])) ∧
    outcome (importAsMain (host known (fun n => if n = "pkg.__main__" then .error (.importError false none) else .ok ())
        (fun _ => .ok ()) .bootstrap) "pkg".toList false) =
      some (.error (.py .typeError), .bootstrap, ["/opt".toList], [.imported "pkg", .imported "pkg.__main__"]) :=
  ⟨⟨"'pkg' is a package and cannot be directly executed".toList, by decide +kernel⟩, by decide +kernel⟩

/-- C63 is violated: with the installed command, `sys.modules["__main__"]` is `None` after an exception. -/
theorem C63_installed_violated :
    outcome (importAsMain (host known (fun _ => .ok ()) (fun _ => .error (.other 1)) .null) "prog".toList false) =
      some (.error (.other 1), .null, ["/opt".toList], [.ran 1 ⟨"__main__".toList, [], none⟩ .program]) := by decide +kernel

/-- C63 is violated: a file with another dot in its name is refused, after changing `sys.path`. -/
theorem C63_dottedFile_violated : outcome (main fine { filename := some "/lib/a.b.py".toList }) =
    some (.error (.py .valueError), .bootstrap, ["/lib".toList, "/opt".toList], []) := by decide +kernel

/-- C63 is violated: for a package without source code (`__init__.pyc`), `__init__` is run as `__main__`, with
`__package__` set to `"__main__"`. -/
theorem C63_sourceless_violated :
    outcome (importAsMain (host (fun _ => some ⟨some 6, some "/lib/bin/__init__.pyc".toList, some ["/lib/bin".toList]⟩)
      (fun _ => .ok ()) (fun _ => .ok ()) .bootstrap) "bin".toList false) =
    some (.ok (), .program, ["/opt".toList], [.ran 6 ⟨"__main__".toList, "__main__".toList, some ["/lib/bin".toList]⟩ .program]) := by
  decide +kernel

/-- C63 is violated: if `sys.path` is empty, IndexError is raised. -/
theorem C63_emptyPath_violated (H : Host υ L) (name : Str) (hn : name ≠ []) (w : World υ) (hw : w.syspath = []) :
    main H { module := some name } w = some (.error (.py .indexError), w) := by
  have : main H { module := some name } w = runModule H name w := by
    cases name with
    | nil => exact absurd rfl hn
    | cons => rfl
  rw [this]
  unfold runModule
  exact bind_err (by unfold pushPath; rw [hw])

/-- `macropython -m prog`. -/
example : main fine { module := some "prog".toList } ⟨.bootstrap, [], []⟩ = some (.error (.py .indexError), ⟨.bootstrap, [], []⟩) :=
  C63_emptyPath_violated fine _ (by decide) _ rfl

/-! ### Concrete cases -/

example : outcome (main fine { module := some "pkg.prog".toList }) =
    some (.ok (), .program, ["/home/u".toList, "/home/u/__pypackages__".toList, "/opt".toList],
      [.imported "pkg", .ran 3 ⟨"__main__".toList, "pkg".toList, none⟩ .program]) := by decide +kernel
example : outcome (main fine { filename := some "/lib/prog.py".toList }) =
    some (.ok (), .program, ["/lib".toList, "/opt".toList], [.ran 1 ⟨"__main__".toList, [], none⟩ .program]) := by decide +kernel
example : outcome (importAsMain (host known (fun _ => .ok ()) (fun _ => .error (.other 1)) .bootstrap) "prog".toList false) =
    some (.error (.other 1), .bootstrap, ["/opt".toList], [.ran 1 ⟨"__main__".toList, [], none⟩ .program]) := by decide +kernel
example : outcome (main fine { module := some "nothing".toList }) =
    some (.error (.importError true (some "No module named nothing".toList)), .bootstrap,
      ["/home/u".toList, "/home/u/__pypackages__".toList, "/opt".toList], []) := by decide +kernel

/-- The hypotheses of `C63_module_partial`. -/
example : ∃ w0 spec w1, Prepared fine "pkg.prog".toList "pkg".toList start (some ["/lib/pkg".toList]) w0 ∧
    Searched "pkg.prog".toList (some ["/lib/pkg".toList]) (fine.finders w0) w0 spec w1 ∧
    fine.moduleFromSpec spec w1 = some (.ok (some 3), w1) ∧ spec.origin = some "/lib/pkg/prog.py".toList ∧
    ¬ "__init__.py".toList <:+ "/lib/pkg/prog.py".toList ∧ spec.locations = none := by
  refine ⟨_, ⟨some 3, some "/lib/pkg/prog.py".toList, none⟩, _,
    .sub (parent := "pkg".toList) (child := "prog".toList) (by decide) (by decide) (by decide) rfl rfl (by decide),
    .skip (.pass rfl (.found (w' := ⟨.bootstrap, ["/opt".toList], [.imported "pkg"]⟩) rfl)), rfl, rfl, ?_, rfl⟩
  rw [← List.isSuffixOf_iff_suffix]
  decide

/-- The hypotheses of `C63_file_partial`. -/
example : ∃ w' spec, fine.fs.resolve "/lib/prog.py".toList = ["lib".toList] ++ ["prog".toList ++ ".py".toList] ∧
    Pushed fine ["lib".toList] start w' ∧ Paths.NoConfusion fine.fs w'.syspath (fine.fs.resolve "/lib/prog.py".toList) ∧
    Paths.Written fine.fs w'.syspath ∧ (∀ e ∈ w'.syspath, fine.fs.resolve e ≠ fine.fs.resolve "/lib/prog.py".toList) ∧
    Searched "prog".toList none (fine.finders w') w' spec w' ∧ fine.moduleFromSpec spec w' = some (.ok (some 1), w') := by
  refine ⟨⟨.bootstrap, ["/lib".toList, "/opt".toList], []⟩, ⟨some 1, some "/lib/prog.py".toList, none⟩, by decide +kernel,
    ⟨_, .inr ⟨by decide, by decide, rfl⟩, _, rfl, .inr ⟨by decide, rfl⟩⟩, ?_, ?_, ?_,
    .skip (.pass rfl (.found rfl)), rfl⟩
  · intro e he
    simp only [List.mem_cons, List.not_mem_nil, or_false] at he
    rcases he with rfl | rfl
    · exact fun _ => List.isPrefixOf_iff_prefix.mp (by decide +kernel)
    · exact fun h => absurd (List.isPrefixOf_iff_prefix.mpr h) (by decide +kernel)
  · intro e he
    simp only [List.mem_cons, List.not_mem_nil, or_false] at he
    rcases he with rfl | rfl <;> decide +kernel
  · intro e he
    simp only [List.mem_cons, List.not_mem_nil, or_false] at he
    rcases he with rfl | rfl <;> decide +kernel

end Mcpyrate
