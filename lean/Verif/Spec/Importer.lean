import Verif.Model.Importer
import Verif.Spec.Multiphase
import Verif.Spec.GetMacros
/-
Specification of `path_stats`.
-/
namespace Mcpyrate.Importer
open Py Paths

variable {T : Type}

/-- `from … import macros, …` or `from … import dialects, …`. -/
def IsImport (t : Val) : Prop :=
  t.isK .ImportFrom = true ∧ ∃ first rest, t.get? .names = some (.list (first :: rest)) ∧
    (first.get? .name = some (.str "macros") ∨ first.get? .name = some (.str "dialects")) ∧
    (first.get? .asname).getD .none = .none

/-- The macro-imports and dialect-imports of a module: at the top level, and inside `with phase`. -/
inductive ImportIn : List Val → Val → Prop
  | here {body t} : t ∈ body → IsImport t → ImportIn body t
  | phase {body t n b i} : t ∈ body → Multiphase.IsPhase t n b → ImportIn b i → ImportIn body i

/-- The absolute name of the module an import statement in the file refers to. -/
inductive Target (I : Interp T) (path : Str) (t : Val) : String → Prop
  | absolute {a} : GetMacros.IsFrom t 0 a → Target I path t a
  | relative {n name pkg base} : GetMacros.IsFrom t (n + 1) name →
      resolvePackage I.fs I.syspath path = .ok pkg → GetMacros.DotsOf pkg (n + 1) base →
      Target I path t (String.ofList (base ++ '.' :: name.toList))

/-- The file `p` imports macros or dialects from the file `q`. -/
def Depends (I : Interp T) (fs : Files T) (p q : Str) : Prop :=
  ∃ file body t a, fs p = some file ∧ I.parse file.text = .ok body ∧ ImportIn body t ∧
    Target I p t a ∧ I.findSpec fs a = .ok (some (some q))

/-- The file `q` is `p` or one of its dependencies, direct or indirect. -/
inductive Reach (I : Interp T) (fs : Files T) : Str → Str → Prop
  | refl {p} : Reach I fs p p
  | step {p q r} : Depends I fs p q → Reach I fs q r → Reach I fs p r

/-- `m` is the latest time of `p` and its dependencies. -/
def Newest (I : Interp T) (fs : Files T) (p : Str) (m : Int) : Prop :=
  (∃ q file, Reach I fs p q ∧ fs q = some file ∧ I.seconds file.mtime = m) ∧
  ∀ q, Reach I fs p q → ∃ file, fs q = some file ∧ I.seconds file.mtime ≤ m

/-- Module bodies as the parser makes them (see `Multiphase.Parsed`). -/
inductive Clean : List Val → Prop
  | mk {body} : Multiphase.Parsed body → (∀ t ∈ body, t.isK .ImportFrom = true → GetMacros.Parsed t) →
      (∀ t ∈ body, ∀ n b, Multiphase.IsPhase t n b → Clean b) → Clean body

/-- All files are. -/
def CleanFiles (I : Interp T) (fs : Files T) : Prop :=
  ∀ p file body, fs p = some file → I.parse file.text = .ok body → Clean body

/-! `path_stats` without any cache. -/

def freshImports (I : Interp T) (file : File T) : Except Err (List Val × Bool) :=
  match I.parse file.text with
  | .error e => .error e
  | .ok body =>
    match scan body with
    | .error e => .error e
    | .ok (ms, ds) => .ok (ms ++ ds, (ms ++ ds).any GetMacros.levelTruthy)

def freshMtimes (I : Interp T) (fs : Files T) (pkg : Option Str) (rec : Str → Except Err Int) :
    List Val → Except Err (List Int)
  | [] => .ok []
  | t :: ts =>
    match origin I fs pkg t with
    | .error e => .error e
    | .ok none => freshMtimes I fs pkg rec ts
    | .ok (some p) =>
      match rec p with
      | .error e => .error e
      | .ok m =>
        match freshMtimes I fs pkg rec ts with
        | .error e => .error e
        | .ok ms => .ok (m :: ms)

def uncached (I : Interp T) (fs : Files T) : Nat → Str → Except Err Int
  | 0, _ => .error .recursionError
  | n + 1, path =>
    match fs path with
    | none => .error .osError
    | some file =>
      match freshImports I file with
      | .error e => .error e
      | .ok (imports, relative) =>
        match package I path relative with
        | .error e => .error e
        | .ok pkg =>
          match freshMtimes I fs pkg (uncached I fs n) imports with
          | .error e => .error e
          | .ok ms => .ok (maximum ms (I.seconds file.mtime))

/-! Histories. -/

/-- The text of a file is determined by its modification time: a changed file has a changed one. -/
def Versions (V : Str → Int → T) (fs : Files T) : Prop :=
  ∀ p file, fs p = some file → file.text = V p file.mtime

/-- The states of the files and of the cache files that come about: files change, caches are deleted or
damaged, and `path_stats` is called, in a Python that may find modules in different ways. -/
inductive History (parse : T → Except Err (List Val)) (cacheFile : Str → Str) (V : Str → Int → T) :
    Files T → (Str → CacheFile) → Prop
  | start {fs disk} : Versions V fs → (∀ p, disk p = .absent) → History parse cacheFile V fs disk
  | edit {fs fs' disk} : History parse cacheFile V fs disk → Versions V fs' →
      History parse cacheFile V fs' disk
  | damage {fs disk disk'} : History parse cacheFile V fs disk →
      (∀ p, disk' p = disk p ∨ disk' p = .absent ∨ disk' p = .garbage) → History parse cacheFile V fs disk'
  | lookup {fs disk} (I : Interp T) (limit : Nat) (path : Str) : History parse cacheFile V fs disk →
      I.parse = parse → I.cacheFile = cacheFile →
      History parse cacheFile V fs (Importer.lookup I fs limit path disk).2

end Mcpyrate.Importer
