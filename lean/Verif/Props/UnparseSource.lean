import Verif.Lemmas.ParsedText
import Verif.Lemmas.PlainCheck
import Verif.Props.UnparseMatch
/-
C47, continued: from source text.  "For every AST that Python can parse, `unparse` returns source text that parses back to the
same AST."

`Props/Unparse.lean` and `Props/UnparseStmts.lean` describe the trees; here the trees are those that the reference parser
returns for some text, without the constructs of `Spec/Plain.lean`, which the unparser does not write in a way that is read
back.  What is missing to the full statement, besides these: the texts that the reference lexer and parser do not accept,
which are f-strings, type parameters of functions and classes, and other ways of writing the same trees (see
`Spec/PyLexer.lean`, `Spec/PyGrammar.lean`, `Spec/PyPatterns.lean` and `Spec/PyStatements.lean`); and type comments, since
the parser does not look at comments.  The recursion limit has to be large enough.
-/
namespace Mcpyrate
open Py PyText
open Unparse (Host unparse)

/-- The tree of an expression in source text is written as a text with the same tree. -/
theorem C47_sourceExpr_partial {P : Reading} (hP : P.Lawful) (H : Host) {text : Str} {t : Val} (h : IsExpr P text t) (hp : Plain t) :
    ∃ text', Unparse.Writes H t text' ∧ IsExpr P text' t :=
  C47_expr_partial hP H (expr_of_text hP h hp)

/-- The tree of a source file is written as a text with the same tree. -/
theorem C47_source_partial {P : Reading} (hP : P.Lawful) (H : Host) {text : Str} {body : List Val} (h : IsModule P text body)
    (hp : ∀ s ∈ body, Plain s) : ∃ text', Unparse.Writes H (moduleOf body) text' ∧ IsModule P text' body :=
  C47_module_partial hP H (module_of_text hP h hp)

/-- So it is for each of the statements, and for the list of them. -/
theorem C47_sourceStatements_partial {P : Reading} (hP : P.Lawful) (H : Host) {text : Str} {body : List Val}
    (h : IsModule P text body) (hp : ∀ s ∈ body, Plain s) :
    (∃ text', Unparse.Writes H (.list body) text' ∧ IsModule P text' body) ∧
      ∀ s ∈ body, ∃ text', Unparse.Writes H s text' ∧ IsModule P text' [s] :=
  ⟨C47_statements_partial hP H (module_of_text hP h hp), fun s m => C47_statement_partial hP H (module_of_text hP h hp s m)⟩

/-- Two source files with the same text after unparsing have the same tree. -/
theorem C47_sourceInjective_partial {P : Reading} (hP : P.Lawful) (H : Host) {s t : Str} {b c : List Val} (hs : IsModule P s b)
    (ht : IsModule P t c) (hb : ∀ x ∈ b, Plain x) (hc : ∀ x ∈ c, Plain x) {text : Str} (wb : Unparse.Writes H (moduleOf b) text)
    (wc : Unparse.Writes H (moduleOf c) text) : b = c :=
  C47_moduleInjective_partial hP H (module_of_text hP hs hb) (module_of_text hP ht hc) wb wc

/-- The example: source text that is not written the way the unparser writes it. -/
def sourceExample : Str :=
"def f(x, *args: *t, **kw: a.b) :
  for (y) in (x+(1)*2, *args,):
      with (a, b) as c, d:
        del kw['q'], (y)
  return lambda z=-1 : {z: [u for u in args if u<z<=y], 'k': not(a) or b}[a:b , ...]
match (a) :
  case (1) | None if x:
      y = 3.5
  case {'p' : [x , *_], **rest} :
      raise
".toList

/-- The tree of the example. -/
def sourceTree : List Val := parsed asciiReading 60 sourceExample

example : IsModule asciiReading sourceExample sourceTree := isModule_of (by decide +kernel)

example : ∀ s ∈ sourceTree, Plain s := plains_of (by decide +kernel)

example : unparse ⟨fun _ => true⟩ 40 (moduleOf sourceTree) = .ok (
"def f(x, *args: *t, **kw: a.b):
    for y in ((x + (1 * 2)), *args):
        with (a, b) as c, d:
            del kw['q'], y
    return (lambda z=(-1): {z: [u for u in args if (u < z <= y)], 'k': ((not a) or b)}[a:b, ...])
match a:
    case (1 | None) if x:
        y = 3.5
    case {'p': [x, *_], **rest}:
        raise".toList) := by decide +kernel

end Mcpyrate
