import Verif.Py.Ast
/-
Reference lexer for C47: a sub-language of the lexical structure of Python 3.12 ("Lexical analysis" in the Python language
reference; `Lib/tokenize.py`, `Parser/tokenizer.c`).

The lexer is deliberately partial.  A text that it accepts has, in Python, the tokens that it returns; it need not accept
every text that Python accepts.  Left out are: comments, line continuation, several lines within brackets, tabs and form
feeds as white space, semicolons, triple-quoted strings, raw strings, f-strings, the escapes `\a`, `\b`, `\f`, `\v`, `\0`,
`\N{...}`, hexadecimal, octal and binary numbers, underscores in numbers.  All of them are only other ways of writing the
same trees, except for f-strings, which are not covered.

Also left out: identifiers are not normalised (NFKC).
-/
namespace Mcpyrate.PyText
open Py

abbrev Str := List Char

/-- Operators, delimiters and keywords. -/
inductive Sym where
  | plus | minus | star | starStar | slash | slashSlash | percent | at | ltLt | gtGt | amp | bar | caret | tilde
  | colonEq | lt | gt | le | ge | eqEq | ne
  | lpar | rpar | lbrack | rbrack | lbrace | rbrace | comma | colon | dot | eq | arrow | ellipsis
  | plusEq | minusEq | starEq | slashEq | slashSlashEq | percentEq | atEq | ampEq | barEq | caretEq | gtGtEq | ltLtEq
  | starStarEq
  | kFalse | kNone | kTrue | kAnd | kAs | kAssert | kAsync | kAwait | kBreak | kClass | kContinue | kDef | kDel | kElif
  | kElse | kExcept | kFinally | kFor | kFrom | kGlobal | kIf | kImport | kIn | kIs | kLambda | kNonlocal | kNot | kOr
  | kPass | kRaise | kReturn | kTry | kWhile | kWith | kYield
  deriving DecidableEq, Repr

inductive Tok where
  | sym (s : Sym)
  | name (s : String)
  | int (n : Nat)
  /-- a floating point number, as its `repr` -/
  | float (r : String)
  /-- an imaginary number, as its `repr` -/
  | imag (r : String)
  /-- a string; the flag says whether it has the prefix `u` -/
  | str (u : Bool) (s : String)
  | bytes (b : List Nat)
  | newline
  | indent
  | dedent
  deriving DecidableEq, Repr

/-- What the lexer needs to know of Python: which characters outside of ASCII may begin or continue an identifier, and the
value (as `repr` shows it) of a floating point literal, and of an imaginary literal without the `j`. -/
structure Reading where
  identStart : Char → Bool
  identCont : Char → Bool
  float : Str → String
  imag : Str → String

def isDigit (c : Char) : Bool := 48 ≤ c.toNat && c.toNat ≤ 57
def isLetter (c : Char) : Bool := (97 ≤ c.toNat && c.toNat ≤ 122) || (65 ≤ c.toNat && c.toNat ≤ 90) || c = '_'

/-- May begin an identifier. -/
def Reading.start (P : Reading) (c : Char) : Bool := isLetter c || (128 ≤ c.toNat && P.identStart c)
/-- May continue an identifier. -/
def Reading.cont (P : Reading) (c : Char) : Bool :=
  isLetter c || isDigit c || (128 ≤ c.toNat && P.identCont c)

/-- The longest prefix of characters that satisfy `p`, and the rest. -/
def takeRun (p : Char → Bool) : Str → Str × Str
  | [] => ([], [])
  | c :: r => if p c then (c :: (takeRun p r).1, (takeRun p r).2) else ([], c :: r)

/-- The keywords. -/
def keyword? : String → Option Sym
  | "False" => some .kFalse | "None" => some .kNone | "True" => some .kTrue | "and" => some .kAnd | "as" => some .kAs
  | "assert" => some .kAssert | "async" => some .kAsync | "await" => some .kAwait | "break" => some .kBreak
  | "class" => some .kClass | "continue" => some .kContinue | "def" => some .kDef | "del" => some .kDel
  | "elif" => some .kElif | "else" => some .kElse | "except" => some .kExcept | "finally" => some .kFinally
  | "for" => some .kFor | "from" => some .kFrom | "global" => some .kGlobal | "if" => some .kIf
  | "import" => some .kImport | "in" => some .kIn | "is" => some .kIs | "lambda" => some .kLambda
  | "nonlocal" => some .kNonlocal | "not" => some .kNot | "or" => some .kOr | "pass" => some .kPass
  | "raise" => some .kRaise | "return" => some .kReturn | "try" => some .kTry | "while" => some .kWhile
  | "with" => some .kWith | "yield" => some .kYield
  | _ => none

/-! ### Numbers -/

def digitVal (c : Char) : Nat := c.toNat - 48

/-- The value of a sequence of decimal digits. -/
def natVal (ds : Str) : Nat := ds.foldl (fun n c => 10 * n + digitVal c) 0

/-- An optional fraction: `.` and digits. -/
def fraction : Str → Str × Str
  | '.' :: r => ('.' :: (takeRun isDigit r).1, (takeRun isDigit r).2)
  | r => ([], r)

/-- An optional exponent: `e`, an optional sign, and digits. -/
def exponent : Str → Str × Str
  | 'e' :: '+' :: d :: r => if isDigit d then ('e' :: '+' :: (takeRun isDigit (d :: r)).1, (takeRun isDigit r).2) else
    ([], 'e' :: '+' :: d :: r)
  | 'e' :: '-' :: d :: r => if isDigit d then ('e' :: '-' :: (takeRun isDigit (d :: r)).1, (takeRun isDigit r).2) else
    ([], 'e' :: '-' :: d :: r)
  | 'e' :: d :: r => if isDigit d then ('e' :: (takeRun isDigit (d :: r)).1, (takeRun isDigit r).2) else
    ([], 'e' :: d :: r)
  | r => ([], r)

/-- A character may not follow a number directly: Python reports an error, or a deprecation. -/
def ended (P : Reading) : Str → Bool
  | [] => true
  | c :: _ => !P.cont c

/-- The token for a number with the given digits, fraction and exponent, and what follows. -/
def numeral (P : Reading) (ds fr ex : Str) : Str → Option (Tok × Str)
  | 'j' :: r => if ended P r then some (.imag (P.imag (ds ++ fr ++ ex)), r) else none
  | r =>
    if !ended P r then none
    else if !(fr.isEmpty && ex.isEmpty) then some (.float (P.float (ds ++ fr ++ ex)), r)
    else if ds.head? = some '0' && ds ≠ ['0'] then none
    else some (.int (natVal ds), r)

/-- A number; the text begins with a digit. -/
def number (P : Reading) (text : Str) : Option (Tok × Str) :=
  let (ds, r1) := takeRun isDigit text
  let (fr, r2) := fraction r1
  let (ex, r3) := exponent r2
  numeral P ds fr ex r3

/-! ### Strings -/

def hexVal? (c : Char) : Option Nat :=
  if 48 ≤ c.toNat && c.toNat ≤ 57 then some (c.toNat - 48)
  else if 97 ≤ c.toNat && c.toNat ≤ 102 then some (c.toNat - 87)
  else if 65 ≤ c.toNat && c.toNat ≤ 70 then some (c.toNat - 55)
  else none

/-- `k` hexadecimal digits, after `acc`. -/
def hexNum : Nat → Nat → Str → Option (Nat × Str)
  | 0, acc, r => some (acc, r)
  | _ + 1, _, [] => none
  | k + 1, acc, c :: r =>
    match hexVal? c with
    | some d => hexNum k (16 * acc + d) r
    | none => none

/-- An escape sequence, without the backslash: the character code, and the rest.  `wide`: in a `str`. -/
def escape (wide : Bool) : Str → Option (Nat × Str)
  | '\\' :: r => some (92, r)
  | '\'' :: r => some (39, r)
  | '"' :: r => some (34, r)
  | 't' :: r => some (9, r)
  | 'n' :: r => some (10, r)
  | 'r' :: r => some (13, r)
  | 'x' :: r => hexNum 2 0 r
  | 'u' :: r => if wide then hexNum 4 0 r else none
  | 'U' :: r => if wide then hexNum 8 0 r else none
  | _ => none

/-- The rest of a literal, up to and including the closing quote; `n` bounds the number of characters. -/
def strBody (wide : Bool) (q : Char) : Nat → Str → Option (List Nat × Str)
  | 0, _ => none
  | _ + 1, [] => none
  | n + 1, c :: r =>
    if c = q then some ([], r)
    else if c = '\\' then
      match escape wide r with
      | none => none
      | some (x, r') =>
        match strBody wide q n r' with
        | none => none
        | some (xs, r'') => some (x :: xs, r'')
    else if c.toNat < 32 ∨ c.toNat = 127 ∨ (wide = false ∧ 127 < c.toNat) then none
    else
      match strBody wide q n r with
      | none => none
      | some (xs, r') => some (c.toNat :: xs, r')

/-- `chr(n)`: surrogates are not represented. -/
def chr? (n : Nat) : Option Char := if n.isValidChar then some (Char.ofNat n) else none

def chars? : List Nat → Option (List Char)
  | [] => some []
  | n :: ns =>
    match chr? n, chars? ns with
    | some c, some cs => some (c :: cs)
    | _, _ => none

/-- Two quotes after each other followed by a third one begin a triple-quoted string. -/
def tripled (q : Char) (xs : List Nat) (rest : Str) : Bool := xs.isEmpty && rest.head? = some q

/-- A string literal after the opening quote. -/
def strLit (u : Bool) (q : Char) (r : Str) : Option (Tok × Str) :=
  match strBody true q (r.length + 1) r with
  | none => none
  | some (xs, rest) =>
    if tripled q xs rest then none
    else
      match chars? xs with
      | none => none
      | some cs => some (.str u (String.ofList cs), rest)

/-- A bytes literal after the opening quote. -/
def bytesLit (q : Char) (r : Str) : Option (Tok × Str) :=
  match strBody false q (r.length + 1) r with
  | none => none
  | some (xs, rest) => if tripled q xs rest then none else some (.bytes xs, rest)

/-! ### Tokens -/

/-- `yes` if the text goes on with `=`, otherwise `no`. -/
def eqOr (yes no : Sym) (r : Str) : Option (Sym × Str) :=
  if r.head? = some '=' then some (yes, r.tail) else some (no, r)

/-- The dot, or `...`; numbers that begin with a dot are left out. -/
def dots (r : Str) : Option (Sym × Str) :=
  if r.head? = some '.' && r.tail.head? = some '.' then some (.ellipsis, r.tail.tail)
  else if r.head?.any isDigit then none
  else some (.dot, r)

/-- The operator or delimiter at the beginning of the text, which begins with `c`: the longest one. -/
def operator? (c : Char) (r : Str) : Option (Sym × Str) :=
  match c with
  | '+' => eqOr .plusEq .plus r
  | '-' => if r.head? = some '>' then some (.arrow, r.tail) else eqOr .minusEq .minus r
  | '*' => if r.head? = some '*' then eqOr .starStarEq .starStar r.tail else eqOr .starEq .star r
  | '/' => if r.head? = some '/' then eqOr .slashSlashEq .slashSlash r.tail else eqOr .slashEq .slash r
  | '%' => eqOr .percentEq .percent r
  | '@' => eqOr .atEq .at r
  | '&' => eqOr .ampEq .amp r
  | '|' => eqOr .barEq .bar r
  | '^' => eqOr .caretEq .caret r
  | '~' => some (.tilde, r)
  | '<' => if r.head? = some '<' then eqOr .ltLtEq .ltLt r.tail else eqOr .le .lt r
  | '>' => if r.head? = some '>' then eqOr .gtGtEq .gtGt r.tail else eqOr .ge .gt r
  | '=' => eqOr .eqEq .eq r
  | '!' => if r.head? = some '=' then some (.ne, r.tail) else none
  | ':' => eqOr .colonEq .colon r
  | '(' => some (.lpar, r)
  | ')' => some (.rpar, r)
  | '[' => some (.lbrack, r)
  | ']' => some (.rbrack, r)
  | '{' => some (.lbrace, r)
  | '}' => some (.rbrace, r)
  | ',' => some (.comma, r)
  | '.' => dots r
  | _ => none

def isQuote (c : Char) : Bool := c = '\'' || c = '"'

/-- An identifier or keyword; the text begins with a character that may begin one.  Directly followed by a quote, it would
be a prefix of a string. -/
def word (P : Reading) (text : Str) : Option (Tok × Str) :=
  let (w, r) := takeRun P.cont text
  if r.head?.any isQuote then none
  else
    match keyword? (String.ofList w) with
    | some s => some (.sym s, r)
    | none => some (.name (String.ofList w), r)

/-- The token at the beginning of the text, which does not begin with white space. -/
def token (P : Reading) (c : Char) (r : Str) : Option (Tok × Str) :=
  match c, r with
  | '\'', r => strLit false '\'' r
  | '"', r => strLit false '"' r
  | 'u', '\'' :: r => strLit true '\'' r
  | 'u', '"' :: r => strLit true '"' r
  | 'b', '\'' :: r => bytesLit '\'' r
  | 'b', '"' :: r => bytesLit '"' r
  | c, r =>
    if isDigit c then number P (c :: r)
    else if P.start c then word P (c :: r)
    else (operator? c r).map fun (s, r) => (.sym s, r)

/-! ### Lines -/

/-- What the indentation of a line means, given the indentations of the enclosing blocks (innermost first; 0 is left out):
the tokens, and the new indentations. -/
def indentation (n : Nat) : List Nat → Option (List Tok × List Nat)
  | [] => if n = 0 then some ([], []) else some ([.indent], [n])
  | m :: ms =>
    if n = m then some ([], m :: ms)
    else if m < n then some ([.indent], n :: m :: ms)
    else dedents n (m :: ms)
where
  /-- Leave blocks until the indentation is `n`. -/
  dedents (n : Nat) : List Nat → Option (List Tok × List Nat)
    | [] => if n = 0 then some ([], []) else none
    | m :: ms =>
      if n = m then some ([], m :: ms)
      else if m < n then none
      else
        match dedents n ms with
        | none => none
        | some (ts, ms') => some (.dedent :: ts, ms')

/-- Where the lexer is. -/
inductive Place where
  /-- in the white space at the beginning of a line, after this many spaces -/
  | start (n : Nat)
  /-- within a line, with this many characters of the current token ahead -/
  | line (skip : Nat)

/-- The tokens of a text.  Blank lines are ignored; the last line is ended by the end of the text, if not before. -/
def lex (P : Reading) : Place → List Nat → Str → Option (List Tok)
  | .start _, ms, [] => some (ms.map fun _ => .dedent)
  | .line _, ms, [] => some (.newline :: ms.map fun _ => .dedent)
  | .start n, ms, c :: r =>
    if c = ' ' then lex P (.start (n + 1)) ms r
    else if c = '\n' then lex P (.start 0) ms r
    else
      match indentation n ms with
      | none => none
      | some (ts, ms') =>
        match token P c r with
        | none => none
        | some (t, r') => (lex P (.line (r.length - r'.length)) ms' r).map (ts ++ t :: ·)
  | .line (k + 1), ms, _ :: r => lex P (.line k) ms r
  | .line 0, ms, c :: r =>
    if c = ' ' then lex P (.line 0) ms r
    else if c = '\n' then (lex P (.start 0) ms r).map (.newline :: ·)
    else
      match token P c r with
      | none => none
      | some (t, r') => (lex P (.line (r.length - r'.length)) ms r).map (t :: ·)

/-- The tokens of a source text. -/
def tokens (P : Reading) (text : Str) : Option (List Tok) := lex P (.start 0) [] text

end Mcpyrate.PyText
