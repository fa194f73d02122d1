import Verif.Model.Dialects
/-
Model of the source scanner of the dialect expander, dialects.py:167-168 and 334-392, with a backtracking matcher for
the constructs of regular expressions that it uses.
-/
namespace Mcpyrate.Dialects
open Py GetMacros Paths

/-- `str.isspace`, which is also `\s` for regular expressions on strings. -/
def isSpace (c : Char) : Bool :=
  let n := c.toNat
  (0x09 ≤ n && n ≤ 0x0d) || (0x1c ≤ n && n ≤ 0x20) || n == 0x85 || n == 0xa0 || n == 0x1680 ||
    (0x2000 ≤ n && n ≤ 0x200a) || n == 0x2028 || n == 0x2029 || n == 0x202f || n == 0x205f || n == 0x3000

/-- `^` and `$` (with MULTILINE), one character of a class, and a greedy `*`. -/
inductive Item where
  | bol
  | eol
  | one (p : Char → Bool)
  | many (p : Char → Bool)

/-- Greedy repetition: as many as possible first. -/
def rep {R : Type} (p : Char → Bool) (k : Str → Str → Option R) : Str → Str → Option R
  | b, [] => k b []
  | b, c :: r => if p c then (rep p k (c :: b) r).orElse fun _ => k b (c :: r) else k b (c :: r)

/-- Match at a position of the text: `b` are the characters before it, in reverse; `r` are those after it.  The result
is the position at the end of the match. -/
def run : List Item → Str → Str → Option (Str × Str)
  | [], b, r => some (b, r)
  | .bol :: is, b, r => if b.head? = none ∨ b.head? = some '\n' then run is b r else none
  | .eol :: is, b, r => if r.head? = none ∨ r.head? = some '\n' then run is b r else none
  | .one p :: is, b, r =>
    match r with
    | [] => none
    | c :: r => if p c then run is (c :: b) r else none
  | .many p :: is, b, r => rep p (run is) b r

def lit (s : String) : List Item := s.toList.map fun c => .one (· == c)
def plus (p : Char → Bool) : List Item := [.one p, .many p]

/-- `[.0-9a-zA-z_]`: note that the range is `A-z`. -/
def isModChar (c : Char) : Bool :=
  c == '.' || ('0' ≤ c && c ≤ '9') || ('a' ≤ c && c ≤ 'z') || ('A' ≤ c && c ≤ 'z') || c == '_'

/-- `[^(\\]`. -/
def isNameChar (c : Char) : Bool := c != '(' && c != '\\'

/-- `^from\s+([.0-9a-zA-z_]+)\s+import dialects,\s+([^(\\]+)\s*$`, dialects.py:167-168. -/
def dialectimport : List Item :=
  .bol :: (lit "from" ++ plus isSpace ++ plus isModChar ++ plus isSpace ++ lit "import dialects," ++ plus isSpace ++
    plus isNameChar ++ [.many isSpace, .eol])

/-- `s.strip()`. -/
def strip (s : Str) : Str := ((s.dropWhile isSpace).reverse.dropWhile isSpace).reverse

/-- `1 + text[0:start].count("\n")`. -/
def lineno (b : Str) : Nat := 1 + b.countP (· == '\n')

/-- `_dialectimport.finditer(text)`: the line number (dialects.py:382) and the statement (dialects.py:379) of each match.
The search goes on at the end of a match: the number is how many characters are left of it. -/
def scan : Nat → Str → Str → List (Nat × Str)
  | _, _, [] => []
  | k + 1, b, c :: r => scan k (c :: b) r
  | 0, b, c :: r =>
    match run dialectimport b (c :: r) with
    | none => scan 0 (c :: b) r
    | some (_, r') =>
      (lineno b, strip ((c :: r).take ((c :: r).length - r'.length))) :: scan (r.length - r'.length) (c :: b) r

/-- All matches in a text. -/
def found (text : Str) : List (Nat × Str) := scan 0 [] text

variable {σ M O D : Type}

/-- `find_dialectimport_source(text)`, dialects.py:334-392.  `parse` is `ast.parse(statement).body[0]`. -/
def findSource (I : Interp σ M O) (parse : Str → Except Err Val) (filename : Str) (text : Str) (s : St σ) :
    Except Err (Option (Found O) × Str) × St σ :=
  match (found text).find? fun x => x.2 ∉ s.seen with
  | none => (.ok (none, text), s)
  | some (line, statement) =>
    let s := { s with seen := statement :: s.seen }
    match parse statement with
    | .error e => (.error e, s)
    | .ok t =>
      match getMacros I (opts filename) t s.world with
      | (.error e, w) => (.error e, { s with world := w })
      | (.ok (a, b), w) =>
        (.ok (some ⟨a, b, .int line, .int 0⟩, text), { s with world := w })

/-- `transform_source(text)`, dialects.py:192-201. -/
def transformSource (K : Classes σ O D Str) (I : Interp σ M O) (parse : Str → Except Err Val) (filename : Str) (n : Nat)
    (text : Str) (s : St σ) : Option (Except Err Str × St σ) :=
  (transform K (findSource I parse filename) n text [] s).map fun r => (r.1.map Prod.fst, r.2)

end Mcpyrate.Dialects
