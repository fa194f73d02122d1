/-
Model of the self-contained utilities of `mcpyrate/utils.py`:
`gensym`, `scrub_uuid`, `flatten`, `extract_bindings`, `NestingLevelTracker`.
-/
namespace Mcpyrate

/-! ## gensym -/
namespace Gensym

/-- The argument `basename` of `gensym` (utils.py:20).  `other` stands for any object that is
neither `None` nor a `str`: its truth value, its `len` (`none` if `len` raises TypeError) and its
formatting in an f-string are all `gensym` looks at. -/
inductive Basename where
  | none
  | str (s : List Char)
  | other (truthy : Bool) (len : Option Nat) (fmt : List Char)
  deriving DecidableEq, Repr

/-- Result of the argument checks: the prefix, or TypeError.  utils.py:34-41.
For a falsy non-`str` (e.g. `0`, `[]`) line 39 calls `len`, which may raise TypeError;
a falsy object with `len == 0` is later formatted by the f-string of line 45.
(A falsy object with a positive `len` would be added to `"_"`; that raises TypeError too, since
`str` is not on the left.  Simplification: objects with exotic `__add__` are not covered.) -/
def prefixOf : Basename → Option (List Char)
  | .none => some "gensym_".toList
  | .str s => some (if s.length = 0 then s else s ++ ['_'])
  | .other true _ _ => Option.none
  | .other false Option.none _ => Option.none
  | .other false (some 0) fmt => some fmt
  | .other false (some (_ + 1)) _ => Option.none

/-- Process state: the set `_previous_gensyms` (utils.py:19) and the UUIDs that the generator is
going to deliver.  `uuid.uuid4()` is an oracle: any sequence of strings, repeats included. -/
structure State where
  previous : List (List Char)
  uuids : List (List Char)
  deriving DecidableEq, Repr

/-- The loop of utils.py:43-49: generate until the name is new.  `Option.none` means that the given
UUIDs are used up before a new name was found (the call has not returned yet). -/
def search (pre : List Char) (previous : List (List Char)) :
    List (List Char) → Option (List Char × List (List Char))
  | [] => Option.none
  | u :: us => if pre ++ u ∈ previous then search pre previous us else some (pre ++ u, us)

/-- Outcome of one call. -/
inductive Out where
  | sym (s : List Char)
  | typeError
  deriving DecidableEq, Repr

/-- `gensym(basename)`, utils.py:20-51. -/
def gensym (b : Basename) (st : State) : Option (Out × State) :=
  match prefixOf b with
  | Option.none => some (.typeError, st)
  | some pre =>
    match search pre st.previous st.uuids with
    | Option.none => Option.none
    | some (sym, us) => some (.sym sym, { previous := sym :: st.previous, uuids := us })

/-- A history of calls, in order. -/
def run : List Basename → State → Option (List Out × State)
  | [], st => some ([], st)
  | b :: bs, st =>
    match gensym b st with
    | Option.none => Option.none
    | some (o, st') =>
      match run bs st' with
      | Option.none => Option.none
      | some (os, st'') => some (o :: os, st'')

end Gensym

/-! ## scrub_uuid -/
namespace Scrub

/-- The Unicode tables used by Python's `int(s, base=16)`: which characters count as white space
(stripped at both ends) and which as digits in base 16 (ASCII hex digits and all Unicode decimal
digits).  Only the ASCII part is fixed. -/
structure Tables where
  isSpace : Char → Bool
  isHex : Char → Bool
  hex_ascii : ∀ c ∈ "0123456789abcdefABCDEF".toList, isHex c = true
  space_not_hex : ∀ c, isHex c = true → isSpace c = false
  hex_no_sign : isHex '+' = false ∧ isHex '-' = false

/-- Remove trailing spaces. -/
def stripRight (T : Tables) (s : List Char) : List Char := (s.reverse.dropWhile T.isSpace).reverse

/-- Drop one optional sign. -/
def dropSign : List Char → List Char
  | '+' :: r => r
  | '-' :: r => r
  | r => r

/-- Drop one optional `0x`/`0X` prefix. -/
def dropPrefix : List Char → List Char
  | '0' :: 'x' :: r => r
  | '0' :: 'X' :: r => r
  | r => r

/-- Whether `int(s, base=16)` succeeds, for `s` without underscores (utils.py:58-61: the string
after the last underscore).  CPython `PyLong_FromUnicodeObject`: white space at both ends, optional
sign, optional `0x`, at least one digit, nothing else.  (Digit separators `_` cannot occur here.) -/
def intBase16Ok (T : Tables) (s : List Char) : Bool :=
  let digits := dropPrefix (dropSign (stripRight T (s.dropWhile T.isSpace)))
  !digits.isEmpty && digits.all T.isHex

/-- `string.rfind("_")` together with the split `string[:idx]`, `string[idx+1:]`
(utils.py:56-58, 65): `none` when there is no underscore. -/
def splitLast : List Char → Option (List Char × List Char)
  | [] => none
  | c :: cs =>
    match splitLast cs with
    | some (a, b) => some (c :: a, b)
    | none => if c = '_' then some ([], cs) else none

/-- `scrub_uuid(string)`, utils.py:54-66. -/
def scrubUuid (T : Tables) (s : List Char) : List Char :=
  match splitLast s with
  | none => s
  | some (base, maybeUuid) =>
    if maybeUuid.length = 32 then
      if intBase16Ok T maybeUuid then base else s
    else s

/-- The ASCII tables, enough for concrete examples. -/
def asciiTables : Tables where
  isSpace c := c ∈ [' ', '\t', '\n', '\r', '\x0b', '\x0c']
  isHex c := c ∈ "0123456789abcdefABCDEF".toList
  hex_ascii := by intro c h; simpa using h
  space_not_hex := by
    intro c h
    simp only [decide_eq_true_eq] at h
    have : ∀ d ∈ "0123456789abcdefABCDEF".toList,
        decide (d ∈ [' ', '\t', '\n', '\r', '\x0b', '\x0c']) = false := by decide
    exact this c h
  hex_no_sign := by decide

end Scrub

/-! ## flatten -/
namespace Flatten

/-- A Python list item as `flatten` sees it: a list, `None`, or anything else. -/
inductive Item (α : Type) where
  | leaf (a : α)
  | none
  | list (xs : List (Item α))

mutual
/-- `flatten(lst)` with `recursive=True`, utils.py:69-81.  The loop is the recursion on the list;
`out.extend(sublst)` is `++`. -/
def flatten {α} : List (Item α) → List (Item α)
  | [] => []
  | x :: xs => flattenElt x ++ flatten xs
/-- One iteration of the loop, utils.py:76-80. -/
def flattenElt {α} : Item α → List (Item α)
  | .list ys => flatten ys
  | .none => []
  | .leaf a => [.leaf a]
end

/-- `flatten(lst, recursive=False)`, utils.py:69-81: `sublst = elt` at line 77. -/
def flatten1 {α} : List (Item α) → List (Item α)
  | [] => []
  | .list ys :: xs => ys ++ flatten1 xs
  | .none :: xs => flatten1 xs
  | .leaf a :: xs => .leaf a :: flatten1 xs

end Flatten

/-! ## extract_bindings -/
namespace ExtractBindings

/-- `extract_bindings(bindings, *functions, global_only)`, utils.py:150-172.  A dictionary is the
list of its items in insertion order.  `global_only` is a parameter the body never uses. -/
def extractBindings {φ : Type} [DecidableEq φ] (bindings : List (String × φ)) (functions : List φ)
    (_global_only : Bool := false) : List (String × φ) :=
  bindings.filter (fun b => decide (b.2 ∈ functions))

end ExtractBindings

/-! ## NestingLevelTracker -/
namespace Tracker

/-- An argument for `set_to`/`changed_by`: an integer or an object of another type. -/
inductive Arg where
  | int (n : Int)
  | other
  deriving DecidableEq, Repr

inductive Exc where
  | typeError
  | valueError
  | user (n : Nat)
  deriving DecidableEq, Repr

/-- Code that uses one tracker: statements, the two context managers (utils.py:304-345), reading
`value` (recorded), and arbitrary raising and catching of exceptions. -/
inductive Prog where
  | skip
  | read
  | raise (e : Nat)
  | seq (p q : Prog)
  | tryExcept (p handler : Prog)
  | setTo (v : Arg) (body : Prog)
  | changedBy (d : Arg) (body : Prog)

/-- Result of running code: final stack, values read, and the exception if one was raised.  -/
structure Res where
  stack : List Int
  log : List Int
  exc : Option Exc
  deriving DecidableEq, Repr

/-- `self.stack[-1]`, utils.py:300-302; the head of our list is the end of the Python list.
`none` models the IndexError on an empty stack. -/
def value : List Int → Option Int
  | [] => none
  | v :: _ => some v

/-- The checks at the start of `set_to`, utils.py:316-319. -/
def check : Arg → Except Exc Int
  | .other => .error .typeError
  | .int n => if n < 0 then .error .valueError else .ok n

/-- `with t.set_to(v): body`, utils.py:304-328: checks, then push; run the body; pop in the
`finally` clause, whatever happened (utils.py:322-326).  An `IndexError` of `pop` on an empty stack
would be a bug of the class; it is modelled by `none`. -/
def withSetTo (v : Arg) (body : List Int → Option Res) (stack : List Int) : Option Res :=
  match check v with
  | .error e => some ⟨stack, [], some e⟩
  | .ok n =>
    match body (n :: stack) with
    | none => none
    | some r =>
      match r.stack with
      | [] => none
      | _ :: rest => some ⟨rest, r.log, r.exc⟩

/-- Run code against the tracker's stack. -/
def exec : Prog → List Int → Option Res
  | .skip, st => some ⟨st, [], none⟩
  | .read, st =>
    match value st with
    | none => none
    | some v => some ⟨st, [v], none⟩
  | .raise e, st => some ⟨st, [], some (.user e)⟩
  | .seq p q, st =>
    match exec p st with
    | none => none
    | some r =>
      match r.exc with
      | some _ => some r
      | none =>
        match exec q r.stack with
        | none => none
        | some r' => some ⟨r'.stack, r.log ++ r'.log, r'.exc⟩
  | .tryExcept p h, st =>
    match exec p st with
    | none => none
    | some r =>
      match r.exc with
      | none => some r
      | some _ =>
        match exec h r.stack with
        | none => none
        | some r' => some ⟨r'.stack, r.log ++ r'.log, r'.exc⟩
  | .setTo v body, st => withSetTo v (exec body) st
  | .changedBy d body, st =>
    -- utils.py:345: `self.set_to(self.value + delta)`; adding a non-number raises TypeError
    match value st with
    | none => none
    | some v =>
      match d with
      | .other => some ⟨st, [], some .typeError⟩
      | .int n => withSetTo (.int (v + n)) (exec body) st

end Tracker
end Mcpyrate
