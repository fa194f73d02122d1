/-
Model of mcpyrate/pycachecleaner.py, on a file system with directories, files and symbolic links.
Simplified: all operations are permitted, and nothing else changes the file system meanwhile.
-/
namespace Mcpyrate.Pycache

/-- Files (with their content), links (to an absolute path), and directories. -/
inductive Node where
  | file (content : Nat)
  | link (target : List String)
  | dir (entries : List (String × Node))

abbrev Entries := List (String × Node)
abbrev Path := List String

/-- The OSErrors, and RecursionError. -/
inductive OsErr where
  | notFound | notADirectory | isADirectory | notEmpty | tooManyLinks | recursion
  deriving DecidableEq, Repr

/-- What is at a path, without following links. -/
def Node.get : Node → Path → Option Node
  | n, [] => some n
  | .dir es, x :: xs =>
    match es.lookup x with
    | some n => n.get xs
    | none => none
  | _, _ :: _ => none

/-- Change the entries of the directory at the path. -/
def Node.update : Node → Path → (Entries → Entries) → Node
  | .dir es, [], f => .dir (f es)
  | .dir es, x :: xs, f => .dir (es.map fun e => if e.1 = x then (e.1, e.2.update xs f) else e)
  | n, _, _ => n

/-- The kernel's path resolution: `done` has been resolved; `rec` starts over after a link. -/
def resolveWith (root : Node) (rec : Path → Except OsErr Path) (done : Path) : Path → Except OsErr Path
  | [] => .ok done
  | x :: xs =>
    match root.get done with
    | some (.dir es) =>
      match es.lookup x with
      | none => .error .notFound
      | some (.link target) => rec (target ++ xs)
      | some _ => resolveWith root rec (done ++ [x]) xs
    | _ => .error .notADirectory

/-- Following at most so many links. -/
def resolve (root : Node) : Nat → Path → Except OsErr Path
  | 0, p => resolveWith root (fun _ => .error .tooManyLinks) [] p
  | n + 1, p => resolveWith root (resolve root n) [] p

/-- Linux follows at most 40. -/
def maxLinks : Nat := 40

def resolved (root : Node) (p : Path) : Except OsErr Node :=
  match resolve root maxLinks p with
  | .error e => .error e
  | .ok c =>
    match root.get c with
    | some n => .ok n
    | none => .error .notFound

/-- `os.path.isdir(path)`, or `entry.is_dir()`: follows links. -/
def isDir (root : Node) (p : Path) : Bool :=
  match resolved root p with
  | .ok (.dir _) => true
  | _ => false

/-- `os.scandir(path)`; `none` if it raises. -/
def scandir (root : Node) (p : Path) : Option Entries :=
  match resolved root p with
  | .ok (.dir es) => some es
  | _ => none

/-- An entry that is a directory, and not a link to one. -/
def realDir : Node → Bool
  | .dir _ => true
  | _ => false

def remove (x : String) (es : Entries) : Entries := es.filter fun e => e.1 != x

/-- `os.unlink(path)` for a path `p/x`. -/
def unlink (root : Node) (p : Path) (x : String) : Except OsErr Node :=
  match resolve root maxLinks p with
  | .error e => .error e
  | .ok c =>
    match root.get c with
    | some (.dir es) =>
      match es.lookup x with
      | none => .error .notFound
      | some (.dir _) => .error .isADirectory
      | some _ => .ok (root.update c (remove x))
    | some _ => .error .notADirectory
    | none => .error .notFound

/-- `os.rmdir(path)` for a path `p/x`. -/
def rmdir (root : Node) (p : Path) (x : String) : Except OsErr Node :=
  match resolve root maxLinks p with
  | .error e => .error e
  | .ok c =>
    match root.get c with
    | some (.dir es) =>
      match es.lookup x with
      | none => .error .notFound
      | some (.dir []) => .ok (root.update c (remove x))
      | some (.dir _) => .error .notEmpty
      | some _ => .error .notADirectory
    | some _ => .error .notADirectory
    | none => .error .notFound

/-- `try: … except FileNotFoundError: pass`. -/
def ignoring (root : Node) (r : Except OsErr Node) : Except OsErr Unit × Node :=
  match r with
  | .ok root' => (.ok (), root')
  | .error .notFound => (.ok (), root)
  | .error e => (.error e, root)

/-- `for x in xs: f(x)`, with the file system as state. -/
def forEach {α : Type} (f : α → Node → Except OsErr Unit × Node) : List α → Node → Except OsErr Unit × Node
  | [], root => (.ok (), root)
  | x :: xs, root =>
    match f x root with
    | (.error e, root) => (.error e, root)
    | (.ok (), root) => forEach f xs root

def concat {α ε : Type} : List (Except ε (List α)) → Except ε (List α)
  | [] => .ok []
  | .error e :: _ => .error e
  | .ok x :: xs =>
    match concat xs with
    | .error e => .error e
    | .ok ys => .ok (x ++ ys)

/-- The loop of `getpycachedirs`, pycachecleaner.py:18-21, over `os.walk(path)`: top-down, errors are ignored,
links to directories are listed but not entered.  The number is the recursion limit. -/
def walk (root : Node) : Nat → Path → Except OsErr (List Path)
  | 0, _ => .error .recursion
  | n + 1, p =>
    match scandir root p with
    | none => .ok []
    | some es =>
      match concat ((es.filter fun e => realDir e.2).map fun e => walk root n (p ++ [e.1])) with
      | .error e => .error e
      | .ok below =>
        .ok ((if es.any (fun e => e.1 == "__pycache__" && isDir root (p ++ [e.1])) then [p ++ ["__pycache__"]] else [])
          ++ below)

/-- `getpycachedirs(path)`, pycachecleaner.py:9-22. -/
def getpycachedirs (root : Node) (limit : Nat) (p : Path) : Except OsErr (List Path) :=
  if !isDir root p then .error .notFound else walk root limit p

/-- The loop of `_delete_directory_recursively`, pycachecleaner.py:41-53, over `os.walk(path, topdown=False)`:
a directory is listed before, and comes after, those below it. -/
def empty : Nat → Path → Node → Except OsErr Unit × Node
  | 0, _, root => (.error .recursion, root)
  | n + 1, p, root =>
    match scandir root p with
    | none => (.ok (), root)
    | some es =>
      let dirs := (es.map Prod.fst).filter fun x => isDir root (p ++ [x])
      let files := (es.map Prod.fst).filter fun x => !isDir root (p ++ [x])
      match forEach (fun x root => empty n (p ++ [x]) root) ((es.filter fun e => realDir e.2).map Prod.fst) root with
      | (.error e, root) => (.error e, root)
      | (.ok (), root) =>
        match forEach (fun x root => ignoring root (unlink root p x)) files root with
        | (.error e, root) => (.error e, root)
        | (.ok (), root) => forEach (fun x root => ignoring root (rmdir root p x)) dirs root

/-- `_delete_directory_recursively(path)`, pycachecleaner.py:35-58. -/
def delete (limit : Nat) (p : Path) (root : Node) : Except OsErr Unit × Node :=
  match empty limit p root with
  | (.error e, root) => (.error e, root)
  | (.ok (), root) =>
    match p.getLast? with
    | some x => ignoring root (rmdir root p.dropLast x)
    | none => (.error .notEmpty, root)                       -- `/` cannot be removed

/-- `deletepycachedirs(path)`, pycachecleaner.py:25-32. -/
def deletepycachedirs (limit : Nat) (p : Path) (root : Node) : Except OsErr Unit × Node :=
  match getpycachedirs root limit p with
  | .error e => (.error e, root)
  | .ok ps => forEach (delete limit) ps root

end Mcpyrate.Pycache
