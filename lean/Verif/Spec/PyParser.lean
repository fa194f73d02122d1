import Verif.Spec.PyStatements
/-
Reference parser for C47: the parser as a whole.
-/
namespace Mcpyrate.PyText
open Py

variable (p : Parser)

def parseBody (nt : NT) (ts : List Tok) : Res :=
  match nt with
  | .expr => pExpr p ts
  | .disj => pDisj p ts
  | .conj => pConj p ts
  | .inv => pInv p ts
  | .cmp => pCmp p ts
  | .bin l => pBin p l ts
  | .factor => pFactor p ts
  | .power => pPower p ts
  | .await => pAwait p ts
  | .primary => pPrimary p ts
  | .atom => pAtom p ts
  | .disjRest => pDisjRest p ts
  | .conjRest => pConjRest p ts
  | .cmpRest => pCmpRest p ts
  | .binRest l a => pBinRest p l a ts
  | .primRest a => pPrimRest p a ts
  | .elem => pElem p ts
  | .items item s => pItems p item s ts
  | .paren => pParen p ts
  | .brack => pBrack p ts
  | .brace => pBrace p ts
  | .pairs => pPairs p ts
  | .comps => pComps p ts
  | .ifs => pIfs p ts
  | .target => pTarget p ts
  | .subs => pSubs p ts
  | .slice => pSlice p ts
  | .arg => pArg p ts
  | .param ann => pParam p ann ts
  | .params ann s => pParams p ann s ts
  | .ident => pIdent ts
  | .sep item => pSep p item ts
  | .dotted => pDotted p ts
  | .dots => pDots p ts
  | .importAs => pImportAs p ts
  | .fromAs => pFromAs p ts
  | .delTarget => pDelTarget p ts
  | .assigns => pAssigns p ts
  | .simple => pSimple p ts
  | .block => pBlock p ts
  | .stmts => pStmts p ts
  | .stmt => pStmt p ts
  | .file => pFile p ts
  | .ifRest => pIfRest p ts
  | .elifs => pElifs p ts
  | .orelse => pOrelse p ts
  | .finals => pFinals p ts
  | .withItem => pWithItem p ts
  | .handlers star => pHandlers p star ts
  | .decos => pDecos p ts
  | .pattern => pPattern p ts
  | .closedPat => pClosedPat p ts
  | .orRest => pOrRest p ts
  | .patParen => pPatParen p ts
  | .patElem => pPatElem p ts
  | .patPair => pPatPair p ts
  | .patArg => pPatArg p ts
  | .cases => pCases p ts
  | .typeParam => pTypeParam p ts

/-- The parser; the number bounds the depth of the recursion. -/
def parse : Nat → Parser
  | 0, _, _ => none
  | n + 1, nt, ts => parseBody (parse n) nt ts

/-- The text is an expression with this tree: `ast.parse(text, mode="eval").body`. -/
def IsExpr (P : Reading) (text : Str) (t : Val) : Prop :=
  ∃ toks n, tokens P text = some toks ∧ parse n .expr toks = some (t, [.newline])

/-- The text is a module with these statements: `ast.parse(text).body`. -/
def IsModule (P : Reading) (text : Str) (body : List Val) : Prop :=
  ∃ toks n, tokens P text = some toks ∧ parse n .file toks = some (.list body, [])

end Mcpyrate.PyText
