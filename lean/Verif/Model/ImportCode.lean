import Verif.Model.Importer
/-
Model of an import with the hooks of `mcpyrate.activate` in place: `source_to_xcode`, importer.py:21-27, and `path_xstats`,
importer.py:59-81, as Python's own `SourceLoader.get_code` (importlib/_bootstrap_external.py, see importer.py:33-56 and
216-223) calls them.

Simplifications: there is one file with bytecode for each source file, and it is for the running Python (with timestamps, not
hashes).  A file is either complete or, when damaged, rejected.  Nothing else changes files while a module is imported.  What the
compiler does is a function of the text, the path, the name and the files; this leaves out the state of the process, as if each
import were the first one of a new process.
-/
namespace Mcpyrate.ImportCode
open Py Paths Importer

/-- A file with bytecode: absent, not valid, or with a timestamp (32 bits) and the code. -/
inductive Pyc (Code : Type) where
  | absent
  | garbage
  | data (stamp : Int) (code : Code)

/-- What an import uses of the interpreter. -/
structure Loader (T Code : Type) where
  I : Interp T
  /-- the recursion limit -/
  limit : Nat
  /-- membership in `_stdlib_sourcefile_paths` -/
  isStdlib : Str → Bool
  /-- `_stdlib_path_stats(self, path)["mtime"]` -/
  standard : Str → Except Err Int
  /-- `int(mtime)` -/
  whole : Int → Int
  /-- `compiler.compile(data, filename=…, self_module=…)`, where these are the files (C59) -/
  compile : Files T → T → Str → String → Except Err Code
  /-- `self.name`, of the module in this file -/
  name : Str → String

variable {T Code : Type}

/-- `source_to_xcode(self, data, path)`, importer.py:21-27. -/
def sourceToXcode (L : Loader T Code) (fs : Files T) (data : T) (path : Str) : Except Err Code :=
  L.compile fs data path (L.name path)

/-- `source_mtime & 0xFFFFFFFF`, in `_validate_timestamp_pyc` and `_code_to_timestamp_pyc`. -/
def stamp (L : Loader T Code) (mtime : Int) : Int := L.whole mtime % 4294967296

/-- The second half of `get_code`: from the source.  `cached` is the timestamp for the bytecode file, if it is to be
written. -/
def fromSource (L : Loader T Code) (fs : Files T) (path : Str) (cached : Option Int) (pyc : Str → Pyc Code) :
    Except Err Code × (Str → Pyc Code) :=
  match fs path with
  | none => (.error .osError, pyc)
  | some file =>
    match sourceToXcode L fs file.text path with
    | .error e => (.error e, pyc)
    | .ok code =>
      match cached with
      | none => (.ok code, pyc)
      | some st => (.ok code, fun p => if p = path then .data st code else pyc p)

/-- `SourceLoader.get_code(fullname)`, for the module in the file `path`.  `writes` is false if the bytecode cannot be written
(`sys.dont_write_bytecode`, or an OSError).  The source size is None (importer.py:222), so it is not compared. -/
def getCode (L : Loader T Code) (fs : Files T) (writes : Bool) (path : Str) (disk : Str → CacheFile) (pyc : Str → Pyc Code) :
    Except Err Code × (Str → CacheFile) × (Str → Pyc Code) :=
  match pathXstats L.I fs L.limit L.isStdlib L.standard path disk with
  | (.error .osError, disk) => ((fromSource L fs path none pyc).1, disk, (fromSource L fs path none pyc).2)
  | (.error e, disk) => (.error e, disk, pyc)
  | (.ok m, disk) =>
    let compiled := fromSource L fs path (if writes then some (stamp L m) else none) pyc
    match pyc path with
    | .data st code => if st = stamp L m then (.ok code, disk, pyc) else (compiled.1, disk, compiled.2)
    | _ => (compiled.1, disk, compiled.2)

end Mcpyrate.ImportCode
