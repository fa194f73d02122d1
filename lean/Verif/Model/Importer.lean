import Verif.Py.Dict
import Verif.Model.GetMacros
import Verif.Model.Multiphase
/-
Model of `path_stats`, importer.py:97-224, and `path_xstats`, importer.py:59-81.

Files are looked up by path.  Simplified: a file has one path.  Nothing else changes files while
`path_stats` runs.
-/
namespace Mcpyrate.Importer
open Py Paths

/-- A source file: its `st_mtime_ns`, and its text (of abstract type `T`). -/
structure File (T : Type) where
  mtime : Int
  text : T
  deriving DecidableEq

/-- The source files. -/
abbrev Files (T : Type) := Str → Option (File T)

/-- The contents of a macro-import statement cache, importer.py:177-180.  `imports` is None if the
pickled dict lacks one of the keys. -/
structure Cached where
  mtime : Int
  imports : Option (List Val × List Val × Bool)
  deriving DecidableEq

/-- A macro-import statement cache file: absent, not readable (or not such a dict), or readable. -/
inductive CacheFile where
  | absent
  | garbage
  | data (c : Cached)
  deriving DecidableEq

/-- What becomes of an attempt to write a cache file: it is written; it is not written
(`sys.dont_write_bytecode`, or it cannot be opened); writing it fails on the way. -/
inductive Write where
  | written
  | skipped
  | broken
  deriving DecidableEq

/-- What `path_stats` uses of the interpreter. -/
structure Interp (T : Type) where
  /-- `ast.parse(text).body` (with decoding errors included) -/
  parse : T → Except Err (List Val)
  /-- the attempt to write the cache file of the path -/
  write : Str → Write
  /-- the cache file that goes with the path, importer.py:133-136 -/
  cacheFile : Str → Str
  /-- `importlib.util.find_spec(name)`: None, or a spec with its origin (which may be None).  Simplified:
  `find_spec` has the side effect of importing the parent packages; this is left out. -/
  findSpec : Files T → String → Except Err (Option (Option Str))
  /-- `pathlib.Path(…).expanduser().resolve()` -/
  fs : FS
  /-- `sys.path` -/
  syspath : List Str
  /-- `st_mtime_ns * 1e-9`, as a double; doubles are represented by their position in the order of
  doubles -/
  seconds : Int → Int

/-- The caches: `_stats_cache`, and the cache files. -/
structure St where
  memory : Dict Str Int
  disk : Str → CacheFile

mutual
/-- `scan`, importer.py:162-169: the macro-imports and the dialect-imports. -/
def scan : List Val → Except Err (List Val × List Val)
  | [] => .ok ([], [])
  | t :: ts => do
    let (a, b) ← scanStmt t
    let (c, d) ← scan ts
    return (a ++ c, b ++ d)

def scanStmt : Val → Except Err (List Val × List Val)
  | .node c l fs => do
    if ← ismacroimport "macros" (.node c l fs) then return ([.node c l fs], [])
    else if ← ismacroimport "dialects" (.node c l fs) then return ([], [.node c l fs])
    else if (← Multiphase.iswithphase (.node c l fs)).isSome then scanBody fs
    else return ([], [])
  | _ => .ok ([], [])

/-- `scan(stmt)` for a `with phase`: its `body`. -/
def scanBody : List (F × Val) → Except Err (List Val × List Val)
  | [] => .error .attributeError
  | (.body, .list b) :: _ => scan b
  | (.body, _) :: _ => .error .typeError
  | (_, _) :: fs => scanBody fs
end

variable {T : Type}

/-- Writing the cache file, importer.py:176-185. -/
def store (I : Interp T) (path : Str) (c : Cached) (s : St) : St :=
  match I.write path with
  | .skipped => s
  | .broken => { s with disk := fun p => if p = I.cacheFile path then .garbage else s.disk p }
  | .written => { s with disk := fun p => if p = I.cacheFile path then .data c else s.disk p }

/-- The imports of the file: all of them, and whether any is relative, from the cache file or else from
the source, importer.py:133-185. -/
def loadImports (I : Interp T) (path : Str) (file : File T) (s : St) : Except Err (List Val × Bool) × St :=
  let parse : Except Err (List Val × Bool) × St :=
    match I.parse file.text with
    | .error e => (.error e, s)
    | .ok body =>
      match scan body with
      | .error e => (.error e, s)
      | .ok (ms, ds) =>
        let rel := (ms ++ ds).any GetMacros.levelTruthy
        (.ok (ms ++ ds, rel), store I path { mtime := file.mtime, imports := some (ms, ds, rel) } s)
  match s.disk (I.cacheFile path) with
  | .data c =>
    if c.mtime = file.mtime then
      match c.imports with
      | some (ms, ds, rel) => (.ok (ms ++ ds, rel), s)
      | none => (.error .keyError, s)
    else parse
  | _ => parse

/-- importer.py:191-196. -/
def package (I : Interp T) (path : Str) (relative : Bool) : Except Err (Option Str) :=
  if relative then
    match resolvePackage I.fs I.syspath path with
    | .ok p => .ok (some p)
    | .error _ => .error .importError
  else .ok none

/-- The path of the file an import refers to, if any, importer.py:200-208.  A spec without an origin is
a TypeError in `os.stat`. -/
def origin (I : Interp T) (fs : Files T) (pkg : Option Str) (t : Val) : Except Err (Option Str) :=
  match (t.get? .module_).getD .none with
  | .const .none => .error .syntaxError
  | .const (.str name) =>
    match GetMacros.dots t with
    | .error e => .error e
    | .ok d =>
      match GetMacros.resolveName d name pkg with
      | .error e => .error e
      | .ok a =>
        match I.findSpec fs a with
        | .error e => .error e
        | .ok none => .ok none
        | .ok (some none) => .error .typeError
        | .ok (some (some p)) => .ok (some p)
  | _ => .error .typeError

/-- The loop of importer.py:198-210; `rec` is `path_stats`. -/
def mtimes (I : Interp T) (fs : Files T) (pkg : Option Str) (rec : Str → St → Except Err Int × St) :
    List Val → St → Except Err (List Int) × St
  | [], s => (.ok [], s)
  | t :: ts, s =>
    match origin I fs pkg t with
    | .error e => (.error e, s)
    | .ok none => mtimes I fs pkg rec ts s
    | .ok (some p) =>
      match rec p s with
      | (.error e, s) => (.error e, s)
      | (.ok m, s) =>
        match mtimes I fs pkg rec ts s with
        | (.error e, s) => (.error e, s)
        | (.ok ms, s) => (.ok (m :: ms), s)

/-- `max(mtimes)` where `mtimes` ends in `m`. -/
def maximum (ms : List Int) (m : Int) : Int := ms.foldr max m

/-- `path_stats(path, _stats_cache)["mtime"]`, importer.py:97-224.  The number is the recursion limit. -/
def pathStats (I : Interp T) (fs : Files T) : Nat → Str → St → Except Err Int × St
  | 0, _, s => (.error .recursionError, s)
  | n + 1, path, s =>
    match s.memory.get path with
    | some m => (.ok m, s)
    | none =>
      match fs path with
      | none => (.error .osError, s)                            -- `os.stat`
      | some file =>
        match loadImports I path file s with
        | (.error e, s) => (.error e, s)
        | (.ok (imports, relative), s) =>
          match package I path relative with
          | .error e => (.error e, s)
          | .ok pkg =>
            match mtimes I fs pkg (pathStats I fs n) imports s with
            | (.error e, s) => (.error e, s)
            | (.ok ms, s) =>
              let m := maximum ms (I.seconds file.mtime)
              (.ok m, { s with memory := s.memory.set path m })

/-- A call `path_stats(path)` by the user: `_stats_cache` is new. -/
def lookup (I : Interp T) (fs : Files T) (limit : Nat) (path : Str) (disk : Str → CacheFile) :
    Except Err Int × (Str → CacheFile) :=
  match pathStats I fs limit path { memory := [], disk := disk } with
  | (r, s) => (r, s.disk)

/-- `path_xstats(self, path)["mtime"]`, importer.py:59-81; `standard` is the method of the standard
library, `isStdlib` is membership in `_stdlib_sourcefile_paths`. -/
def pathXstats (I : Interp T) (fs : Files T) (limit : Nat) (isStdlib : Str → Bool)
    (standard : Str → Except Err Int) (path : Str) (disk : Str → CacheFile) :
    Except Err Int × (Str → CacheFile) :=
  if isStdlib path || !".py".toList.isSuffixOf path then (standard path, disk)
  else lookup I fs limit path disk

end Mcpyrate.Importer
