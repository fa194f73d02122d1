import Verif.Py.Run
import Verif.Model.Paths
/-
`macropython`, the command that runs programs: repl/macropython.py:31-287.
-/
namespace Mcpyrate.Macropython
open Py
open Paths (FS Path)

abbrev Str := List Char

def lit (s : String) : Str := s.toList

/-- Exceptions, as far as they are told apart: ImportError (with its message, and whether it is a ModuleNotFoundError),
other subclasses of Exception raised by the code itself or by others, SystemExit, and others that are not an Exception. -/
inductive Exc where
  | importError (notFound : Bool) (msg : Option Str)
  | py (e : Err)
  | other (n : Nat)
  | exit (code : Nat)
  | interrupt (n : Nat)
  deriving DecidableEq

/-- `isinstance(err, Exception)`. -/
def Exc.isException : Exc → Bool
  | .exit _ => false
  | .interrupt _ => false
  | _ => true

/-- What can be in `sys.modules`: the module that runs at first (`macropython` itself, or the script that calls its
function `main`), the module that `import_module_as_main` makes, any other, and `None`. -/
inductive Module where
  | bootstrap
  | null
  | program
  | other (n : Nat)
  deriving DecidableEq

/-- The state: `sys.modules["__main__"]`, `sys.path`, and everything else. -/
structure World (υ : Type) where
  main : Module
  syspath : List Str
  user : υ

/-- A module spec, as far as it matters: `spec.loader`, `spec.origin`, `spec.submodule_search_locations`. -/
structure ModSpec (L : Type) where
  loader : Option L
  origin : Option Str
  locations : Option (List Str)

/-- The attributes of the new module: `__name__`, `__package__`, `__path__`. -/
structure Attrs where
  name : Str
  package : Str
  path : Option (List Str)
  deriving DecidableEq

abbrev R (υ α : Type) := M Exc (World υ) α

/-- The import system and the operating system.  All of this may change the state, raise exceptions, or not finish. -/
structure Host (υ L : Type) where
  /-- `importlib.import_module(name)` -/
  importModule : Str → R υ Unit
  /-- `module.__spec__.submodule_search_locations`, for a module that has just been imported -/
  locations : Str → R υ (Option (List Str))
  /-- `sys.meta_path`: for each finder its method `find_spec`, if it has one -/
  finders : World υ → List (Option (Str → Option (List Str) → R υ (Option (ModSpec L))))
  /-- `module_from_spec(spec)`; for a namespace package, it may set `spec.loader`: the loader after the call -/
  moduleFromSpec : ModSpec L → R υ (Option L)
  /-- `loader.exec_module(module)`, for the new module with these attributes -/
  exec : L → Attrs → R υ Unit
  /-- `_macropython_module`, macropython.py:27, 286: the module that runs at first, if that is `macropython` itself; `None`,
  if it is the script made from the entry point in pyproject.toml:52, which imports `macropython` -/
  stash : Module
  /-- `pathlib.Path(…).expanduser().resolve()` -/
  fs : FS
  /-- `str(pathlib.Path.cwd())` -/
  cwd : Str
  isFile : Path → World υ → Bool
  isDir : Path → World υ → Bool
  /-- `deletepycachedirs(path)` -/
  clean : Str → R υ Unit
  /-- printing `getpycachedirs(path)` -/
  listCaches : Str → R υ Unit
  /-- setting up `readline`, the history, and with `True` `numpy` and `matplotlib`; macropython.py:184-208 -/
  prepare : Bool → R υ Unit
  /-- `MacroConsole(…).interact()` -/
  interact : R υ Unit
  help : R υ Unit

variable {υ L : Type}

def setMain (m : Module) : R υ Unit := M.modify fun w => { w with main := m }

/-- `absolute_name.rpartition('.')`, for a name with a dot: the part before the last dot. -/
def parentName (name : Str) : Str := ((name.reverse.dropWhile (· ≠ '.')).drop 1).reverse

/-- The first spec that is not `None`, macropython.py:71-80.  (The list of finders is not changed while it is read.) -/
def findSpec (name : Str) (path : Option (List Str)) :
    List (Option (Str → Option (List Str) → R υ (Option (ModSpec L)))) → R υ (ModSpec L)
  | [] => M.throw (.importError true (some (lit "No module named " ++ name)))
  | none :: fs => findSpec name path fs
  | some f :: fs => do
    match ← f name path with
    | some s => return s
    | none => findSpec name path fs

/-- `__package__` as set by `module_from_spec` for a spec with the name `__main__`: `spec.parent`. -/
def defaultPackage (spec : ModSpec L) : Str := if spec.locations = none then [] else lit "__main__"

/-- `p in s`, for strings. -/
def isInfix (p : Str) : Str → Bool
  | [] => p.isEmpty
  | c :: s => p.isPrefixOf (c :: s) || isInfix p s

/-- Running `__main__.py` of a package, macropython.py:128-140. -/
def runMainpy (H : Host υ L) (name : Str) : R υ Unit := do
  match ← M.attempt (H.importModule (name ++ lit ".__main__")) with
  | .ok () => return ()
  | .error (.importError _ (some msg)) =>
    if isInfix (lit "No module named") msg then
      M.throw (.importError false (some (lit "No module named " ++ name ++ lit ".__main__; '" ++ name ++
        lit "' is a package and cannot be directly executed")))
    else M.throw (.importError false (some msg))
  | .error (.importError _ none) => M.throw (.py .typeError)     -- `"…" in None`
  | .error e => M.throw e

/-- Running the code of the module, macropython.py:104-121.  Cutting the traceback of a MacroApplicationError is left
out. -/
def execMain (H : Host υ L) (loader : L) (a : Attrs) : R υ Unit := do
  setMain .program
  match ← M.attempt (H.exec loader a) with
  | .ok () => return ()
  | .error e =>
    if e.isException then do
      setMain H.stash
      M.throw e
    else M.throw e

/-- What is done with the spec, macropython.py:82-142.  `module.__path__` is `spec.submodule_search_locations`
in any case. -/
def runSpec (H : Host υ L) (name : Str) (scriptMode : Bool) (path : Option (List Str)) (spec : ModSpec L) : R υ Unit := do
  let loader ← H.moduleFromSpec spec
  let (package, tryMainpy) ←
    if scriptMode then pure (lit "", false)
    else if (path.getD []).isEmpty = false then pure (parentName name, false)
    else match spec.origin with
      | none => M.throw (.py .attributeError)                    -- `None.endswith`
      | some o =>
        if (lit "__init__.py").isSuffixOf o then pure (name, true) else pure (defaultPackage spec, false)
  let a : Attrs := ⟨lit "__main__", package, spec.locations⟩
  if tryMainpy then do
    H.importModule name
    runMainpy H name
  else match loader with
    | some l => execMain H l a
    | none => runMainpy H name

/-- `import_module_as_main(name, script_mode)`, macropython.py:31-142.  `resolve_name` with no package refuses relative
names.  It returns the module, which `main` does not use. -/
def importAsMain (H : Host υ L) (name : Str) (scriptMode : Bool) : R υ Unit := do
  if name.head? = some '.' then
    M.throw (.importError false (some (lit "no package specified for " ++ name)))
  let path ←
    if '.' ∈ name then
      if scriptMode then M.throw (.py .valueError)
      else do
        H.importModule (parentName name)
        H.locations (parentName name)
    else pure none
  let w ← M.get
  let spec ← findSpec name path (H.finders w)
  runSpec H name scriptMode path spec

/-- The command line, after parsing. -/
structure Opts where
  filename : Option Str := none
  module : Option Str := none
  interactive : Bool := false
  pylab : Bool := false
  pathToClean : Option Str := none
  dryRun : Bool := false

/-- A string option is used if it is there and not empty. -/
def given : Option Str → Option Str
  | some [] => none
  | x => x

/-- `if sys.path[0] != d: sys.path.insert(0, d)`, macropython.py:211-212, 239-240, 256-257. -/
def pushPath (d : Str) : R υ Unit := fun w =>
  match w.syspath with
  | [] => some (.error (.py .indexError), w)
  | p :: ps => if p = d then some (.ok (), w) else some (.ok (), { w with syspath := d :: p :: ps })

/-- `sys.path.insert(1, str(dir / "__pypackages__"))`, if that is a directory, macropython.py:243-246, 260-263.  The
directory `dir` is `sys.path[0]`. -/
def pushPypackages (H : Host υ L) (dir : Path) : R υ Unit := fun w =>
  let p := dir ++ [lit "__pypackages__"]
  if H.isDir p w then
    some (.ok (), { w with syspath := w.syspath.take 1 ++ Paths.text p :: w.syspath.drop 1 })
  else some (.ok (), w)

/-- The module name for a file, macropython.py:277-281. -/
def moduleName (relative : Str) : Str :=
  let n := Paths.dotted relative
  if (lit ".__init__.py").isSuffixOf n then n.take (n.length - 12)
  else if (lit ".py").isSuffixOf n then n.take (n.length - 3)
  else n

/-- `macropython -m name`, macropython.py:238-248. -/
def runModule (H : Host υ L) (name : Str) : R υ Unit := do
  let dir := H.fs.resolve H.cwd
  pushPath (Paths.text dir)
  pushPypackages H dir
  importAsMain H name false

/-- The end of `main`, macropython.py:276-283. -/
def importFile (H : Host υ L) (filename : Str) : R υ Unit := do
  let w ← M.get
  match Paths.relativize H.fs w.syspath filename with
  | .error e => M.throw (.py e)
  | .ok (_, relative) => importAsMain H (moduleName relative) true

/-- `macropython filename`, macropython.py:251-283. -/
def runFile (H : Host υ L) (filename : Str) : R υ Unit := do
  let full := H.fs.resolve filename
  let w ← M.get
  if H.isFile full w then do
    pushPath (Paths.text full.dropLast)
    pushPypackages H full.dropLast
    importFile H filename
  else M.throw (.py .osError)                                    -- FileNotFoundError

/-- `main()`, macropython.py:144-283, after parsing the command line. -/
def main (H : Host υ L) (o : Opts) : R υ Unit :=
  match given o.pathToClean with
  | some dir => do
    if o.dryRun then H.listCaches dir else H.clean dir
    M.throw (.exit 0)
  | none =>
    if o.interactive then do
      H.prepare o.pylab
      pushPath []
      H.interact
    else match given o.filename, given o.module with
      | none, none => do
        H.help
        M.throw (.exit 0)
      | some _, some _ => M.throw (.py .valueError)
      | none, some m => runModule H m
      | some f, none => runFile H f

end Mcpyrate.Macropython
