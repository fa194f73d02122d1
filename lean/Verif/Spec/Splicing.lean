import Verif.Spec.Replace
import Verif.Spec.FutureImports
import Verif.Spec.FixLocations
import Verif.Model.Splicing
/-
Specification for `mcpyrate/splicing.py`.
-/
namespace Mcpyrate.Splicing
open Py

/-- The paste-here indicator in an expression position: a bare name. -/
def isTag (tag : String) (t : Val) : Bool := t.isK .Name && t.get? .id == some (.str tag)

/-- The paste-here indicator in a statement position. -/
def isTagStmt (tag : String) (t : Val) : Bool :=
  t.isK .Expr && (match t.get? .value with | some v => isTag tag v | none => false)

/-- An expression, or an AST marker around an expression. -/
def IsExpression (e : Val) : Prop :=
  isExprV e = true ∨ ∃ n l fs b, e = .node (.marker n) l fs ∧ e.get? .body = some b ∧ isExprV b = true

/-- The fields the splicers look at are there, as in all trees made by the parser: a name has an
identifier, an expression statement has an expression. -/
structure Shaped (t : Val) : Prop where
  name : ∀ u, Reach t u → u.isK .Name = true → ∃ v, u.get? .id = some v
  expr : ∀ u, Reach t u → u.isK .Expr = true → ∃ v, u.get? .value = some v

/-- Paste `n` times: the object itself comes first, all others are copies. -/
def pastes : Nat → List Paste
  | 0 => []
  | n + 1 => .original :: List.replicate n .copy

/-- The statements of a `body` argument: a list, or a single statement. -/
def bodyStmts : Val → List Val
  | .list xs => xs
  | x => [x]

/-- `from … import <magicname>, …`: a macro-import or dialect-import. -/
def isImport (magicname : String) (t : Val) : Bool :=
  t.isK .ImportFrom && (match t.get? .names with
    | some (.list (a :: _)) =>
      a.get? .name == some (.str magicname) && ((a.get? .asname).getD .none).isNone
    | _ => false)

/-- A macro-import or a dialect-import. -/
def isMagicImport (t : Val) : Bool := isImport "dialects" t || isImport "macros" t

/-- `__all__ = …`. -/
def isAll (t : Val) : Bool :=
  t.isK .Assign && (match t.get? .targets with
    | some (.list [x]) => isTag "__all__" x
    | _ => false)

/-- The statements with all macro-imports and dialect-imports taken out, at any depth. -/
def strip (xs : List Val) : List Val := replaceL isMagicImport .none xs

/-- The macro-imports (dialect-imports) in the statements, at any depth, in the order of the source. -/
def imports (magicname : String) (xs : List Val) : List Val := (preorderL xs).filter (isImport magicname)

/-- The parser's output, as far as it matters here. -/
structure Parsed (xs : List Val) : Prop where
  stmts : ∀ x ∈ xs, x.isAST = true
  shaped : Shaped (.list xs)
  /-- an import has a non-empty list of names -/
  names : ∀ u, Reach (.list xs) u → u.isK .ImportFrom = true →
    ∃ a as n, u.get? .names = some (.list (a :: as)) ∧ a.get? .name = some n
  /-- there is no import within an import -/
  leaf : ∀ c l fs, Reach (.list xs) (.node c l fs) → Val.isK .ImportFrom (.node c l fs) = true →
    ∀ u ∈ preorderF fs, u.isK .ImportFrom = false
  /-- imports are statements, hence items of lists -/
  suite : ∀ c l fs, Reach (.list xs) (.node c l fs) → ∀ p ∈ fs, p.2.isK .ImportFrom = false
  /-- the left-hand sides of a top-level assignment -/
  targets : ∀ u ∈ xs, u.isK .Assign = true → ∃ ts, u.get? .targets = some (.list ts) ∧
    ∀ x ∈ ts, x.isK .Name = true → ∃ v, x.get? .id = some v

/-- `T'` is `T` with every location replaced by that of `ref`, if `ref` has one. -/
def Relocated (ref : Loc) (T T' : List Val) : Prop :=
  if FixLocations.Located ref then
    T'.length = T.length ∧ T'.map FixLocations.eraseLoc = T.map FixLocations.eraseLoc ∧
    T'.map FixLocations.locs =
      T.map fun t => (FixLocations.locs t).map (FixLocations.onLocated fun _ => FixLocations.source ref)
  else T' = T

/-- The text of a docstring statement. -/
def DocText (s : Val) (v : String) : Prop :=
  ∃ e, s.get? .value = some e ∧ e.isK .Constant = true ∧ e.get? .value = some (.str v)

/-- What the result has for the docstring, given those of the user module and of the template: the
only one; or, if there are two, a `Constant` with both texts (which is not a statement). -/
inductive Doc : List Val → List Val → List Val → Prop
  | user (u) : Doc u [] u
  | template (t) : Doc [] t t
  | both {u t c a b} : DocText u a → DocText t b → c.isK .Constant = true →
      c.get? .value = some (.str (a ++ "\n" ++ String.ofList (List.replicate 79 '-') ++ "\n" ++ b)) →
      Doc [u] [t] [c]

/-- The location given to the template: the one passed in, or that of the first user statement. -/
def reference (lineno colOffset : Option Int) (body : List Val) : Loc :=
  match lineno, colOffset with
  | some l, some c => { lineno := .int l, colOffset := .int c }
  | _, _ => match body with | .node _ l _ :: _ => l | _ => {}

/-- The layout of the spliced module: `ud`, `uf`, `ur` are the docstring, the future-imports and the
rest of the user module, `td`, `tf`, `tr` those of the template. -/
structure Layout (tag : String) (ud uf ur td tf tr result : List Val) : Prop where
  parts : ∃ doc, Doc ud td doc ∧ ∃ final,
    result = doc ++ tf ++ uf ++ ur.filter isAll
      ++ imports "dialects" (tr.filter (!isAll ·)) ++ imports "dialects" (ur.filter (!isAll ·))
      ++ imports "macros" (tr.filter (!isAll ·)) ++ imports "macros" (ur.filter (!isAll ·)) ++ final ∧
    -- the template with the user code in place of the tag
    (strip (tr.filter (!isAll ·)) ≠ [] →
      final = replaceL (isTagStmt tag) (.list (strip (ur.filter (!isAll ·)))) (strip (tr.filter (!isAll ·)))) ∧
    -- nothing left of the template: the user code
    (strip (tr.filter (!isAll ·)) = [] → final = strip (ur.filter (!isAll ·)))

end Mcpyrate.Splicing
