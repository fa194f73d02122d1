import Verif.Spec.PyParser
/-
The reference parser without the bound on the depth of the recursion: `full`.
-/
namespace Mcpyrate.PyText
open Py

/-- Whatever `a` is, `b` is eventually. -/
structure Ev {α : Type} (a : Option α) (b : Nat → Option α) : Prop where
  ev : ∀ x, a = some x → ∃ n, ∀ m, n ≤ m → b m = some x

theorem Ev.const {α} (x : Option α) : Ev x (fun _ => x) := ⟨fun _ h => ⟨0, fun _ _ => h⟩⟩
theorem Ev.none {α} (x : Nat → Option α) : Ev Option.none x := ⟨fun _ h => nomatch h⟩

theorem Ev.seq {β} {x : Res} {y : Nat → Res} {f : Val → List Tok → Option β} {g : Nat → Val → List Tok → Option β}
    (h : Ev x y) (hf : ∀ v r, Ev (f v r) (fun n => g n v r)) : Ev (seq x f) (fun n => PyText.seq (y n) (g n)) := by
  refine ⟨fun r hr => ?_⟩
  cases x with
  | none => exact nomatch hr
  | some a =>
    obtain ⟨n1, h1⟩ := h.ev a rfl
    obtain ⟨n2, h2⟩ := (hf a.1 a.2).ev r hr
    exact ⟨n1 + n2, fun m hm => by rw [h1 m (by omega)]; exact h2 m (by omega)⟩

def Evs (p : Parser) (q : Nat → Parser) : Prop := ∀ nt ts, Ev (p nt ts) (fun n => q n nt ts)

syntax "evt" : tactic
macro_rules
  | `(tactic| evt) => `(tactic| repeat' first
      | exact Ev.const _
      | exact Ev.none _
      | apply ‹Evs _ _›
      | (refine Ev.seq ?_ (fun _ _ => ?_))
      | split)

variable {p : Parser} {q : Nat → Parser} (h : Evs p q)
include h

theorem ternaryElse_ev (a b ts) : Ev (ternaryElse p a b ts) (fun n => ternaryElse (q n) a b ts) := by
  unfold ternaryElse; evt

theorem ternary_ev (a ts) : Ev (ternary p a ts) (fun n => ternary (q n) a ts) := by
  unfold ternary; evt
  all_goals first | apply ternaryElse_ev h

theorem pExpr_ev (ts) : Ev (pExpr p ts) (fun n => pExpr (q n) ts) := by
  unfold pExpr; evt
  all_goals first | apply ternary_ev h

theorem pDisj_ev (ts) : Ev (pDisj p ts) (fun n => pDisj (q n) ts) := by
  unfold pDisj; evt

theorem pDisjRest_ev (ts) : Ev (pDisjRest p ts) (fun n => pDisjRest (q n) ts) := by
  unfold pDisjRest; evt

theorem pConj_ev (ts) : Ev (pConj p ts) (fun n => pConj (q n) ts) := by
  unfold pConj; evt

theorem pConjRest_ev (ts) : Ev (pConjRest p ts) (fun n => pConjRest (q n) ts) := by
  unfold pConjRest; evt

theorem pInv_ev (ts) : Ev (pInv p ts) (fun n => pInv (q n) ts) := by
  unfold pInv; evt

theorem pCmp_ev (ts) : Ev (pCmp p ts) (fun n => pCmp (q n) ts) := by
  unfold pCmp; evt

theorem pCmpRest_ev (ts) : Ev (pCmpRest p ts) (fun n => pCmpRest (q n) ts) := by
  unfold pCmpRest; evt

theorem pBin_ev (l ts) : Ev (pBin p l ts) (fun n => pBin (q n) l ts) := by
  unfold pBin; evt

theorem pBinRest_ev (l a ts) : Ev (pBinRest p l a ts) (fun n => pBinRest (q n) l a ts) := by
  unfold pBinRest; evt

theorem pFactor_ev (ts) : Ev (pFactor p ts) (fun n => pFactor (q n) ts) := by
  unfold pFactor; evt

theorem powerRest_ev (a ts) : Ev (powerRest p a ts) (fun n => powerRest (q n) a ts) := by
  unfold powerRest; evt

theorem pPower_ev (ts) : Ev (pPower p ts) (fun n => pPower (q n) ts) := by
  unfold pPower; evt
  all_goals first | apply powerRest_ev h

theorem pAwait_ev (ts) : Ev (pAwait p ts) (fun n => pAwait (q n) ts) := by
  unfold pAwait; evt

theorem pPrimary_ev (ts) : Ev (pPrimary p ts) (fun n => pPrimary (q n) ts) := by
  unfold pPrimary; evt

theorem callRest_ev (a l ts) : Ev (callRest p a l ts) (fun n => callRest (q n) a l ts) := by
  unfold callRest; evt

theorem pPrimRest_ev (a ts) : Ev (pPrimRest p a ts) (fun n => pPrimRest (q n) a ts) := by
  unfold pPrimRest; evt
  all_goals first | apply callRest_ev h

theorem pAtom_ev (ts) : Ev (pAtom p ts) (fun n => pAtom (q n) ts) := by
  unfold pAtom; evt

theorem pElem_ev (ts) : Ev (pElem p ts) (fun n => pElem (q n) ts) := by
  unfold pElem; evt

theorem itemsRest_ev (i s x ts) : Ev (itemsRest p i s x ts) (fun n => itemsRest (q n) i s x ts) := by
  unfold itemsRest; evt

theorem pItems_ev (i s ts) : Ev (pItems p i s ts) (fun n => pItems (q n) i s ts) := by
  unfold pItems; evt
  all_goals first | apply itemsRest_ev h

theorem compRest_ev (s e ts) : Ev (compRest p s e ts) (fun n => compRest (q n) s e ts) := by
  unfold compRest; evt

theorem parenRest_ev (a ts) : Ev (parenRest p a ts) (fun n => parenRest (q n) a ts) := by
  unfold parenRest; evt
  all_goals first | apply compRest_ev h

theorem pParen_ev (ts) : Ev (pParen p ts) (fun n => pParen (q n) ts) := by
  unfold pParen; evt
  all_goals first | apply parenRest_ev h

theorem brackRest_ev (a ts) : Ev (brackRest p a ts) (fun n => brackRest (q n) a ts) := by
  unfold brackRest; evt
  all_goals first | apply compRest_ev h

theorem pBrack_ev (ts) : Ev (pBrack p ts) (fun n => pBrack (q n) ts) := by
  unfold pBrack; evt
  all_goals first | apply brackRest_ev h

theorem pairsRest_ev (kv ts) : Ev (pairsRest p kv ts) (fun n => pairsRest (q n) kv ts) := by
  unfold pairsRest; evt

theorem pairValue_ev (k ts) : Ev (pairValue p k ts) (fun n => pairValue (q n) k ts) := by
  unfold pairValue; evt
  all_goals first | apply pairsRest_ev h

theorem pPairs_ev (ts) : Ev (pPairs p ts) (fun n => pPairs (q n) ts) := by
  unfold pPairs; evt
  all_goals first | apply pairsRest_ev h | apply pairValue_ev h

theorem dictRest_ev (k v ts) : Ev (dictRest p k v ts) (fun n => dictRest (q n) k v ts) := by
  unfold dictRest; evt
  all_goals first | apply compRest_ev h | apply pairsRest_ev h

theorem braceRest_ev (a ts) : Ev (braceRest p a ts) (fun n => braceRest (q n) a ts) := by
  unfold braceRest; evt
  all_goals first | apply compRest_ev h | apply dictRest_ev h

theorem pBrace_ev (ts) : Ev (pBrace p ts) (fun n => pBrace (q n) ts) := by
  unfold pBrace; evt
  all_goals first | apply braceRest_ev h

theorem compIn_ev (i t ts) : Ev (compIn p i t ts) (fun n => compIn (q n) i t ts) := by
  unfold compIn; evt

theorem pComps_ev (ts) : Ev (pComps p ts) (fun n => pComps (q n) ts) := by
  unfold pComps; evt
  all_goals first | apply compIn_ev h

theorem pIfs_ev (ts) : Ev (pIfs p ts) (fun n => pIfs (q n) ts) := by
  unfold pIfs; evt

theorem pTarget_ev (ts) : Ev (pTarget p ts) (fun n => pTarget (q n) ts) := by
  unfold pTarget; evt

theorem sliceStep_ev (a b ts) : Ev (sliceStep p a b ts) (fun n => sliceStep (q n) a b ts) := by
  unfold sliceStep; evt

theorem sliceColon_ev (a b ts) : Ev (sliceColon p a b ts) (fun n => sliceColon (q n) a b ts) := by
  unfold sliceColon; evt
  all_goals first | apply sliceStep_ev h

theorem sliceUpper_ev (a ts) : Ev (sliceUpper p a ts) (fun n => sliceUpper (q n) a ts) := by
  unfold sliceUpper; evt
  all_goals first | apply sliceColon_ev h

theorem sliceRest_ev (a ts) : Ev (sliceRest p a ts) (fun n => sliceRest (q n) a ts) := by
  unfold sliceRest; evt
  all_goals first | apply sliceUpper_ev h

theorem pSlice_ev (ts) : Ev (pSlice p ts) (fun n => pSlice (q n) ts) := by
  unfold pSlice; evt
  all_goals first | apply sliceRest_ev h | apply sliceUpper_ev h

theorem subsRest_ev (a ts) : Ev (subsRest p a ts) (fun n => subsRest (q n) a ts) := by
  unfold subsRest; evt

theorem pSubs_ev (ts) : Ev (pSubs p ts) (fun n => pSubs (q n) ts) := by
  unfold pSubs; evt
  all_goals first | apply subsRest_ev h

theorem pArg_ev (ts) : Ev (pArg p ts) (fun n => pArg (q n) ts) := by
  unfold pArg; evt

theorem annotation_ev (b nt ts) : Ev (annotation p b nt ts) (fun n => annotation (q n) b nt ts) := by
  unfold annotation; evt

theorem defaultValue_ev (ts) : Ev (defaultValue p ts) (fun n => defaultValue (q n) ts) := by
  unfold defaultValue; evt

theorem pParam_ev (b ts) : Ev (pParam p b ts) (fun n => pParam (q n) b ts) := by
  unfold pParam; evt
  all_goals first | apply annotation_ev h | apply defaultValue_ev h

theorem pParams_ev (b s ts) : Ev (pParams p b s ts) (fun n => pParams (q n) b s ts) := by
  unfold pParams; evt

theorem sepRest_ev (item x ts) : Ev (sepRest p item x ts) (fun n => sepRest (q n) item x ts) := by
  unfold sepRest; evt

theorem pSep_ev (item ts) : Ev (pSep p item ts) (fun n => pSep (q n) item ts) := by
  unfold pSep; evt
  all_goals first | apply sepRest_ev h

theorem pDotted_ev (ts) : Ev (pDotted p ts) (fun n => pDotted (q n) ts) := by
  unfold pDotted; evt

theorem pImportAs_ev (ts) : Ev (pImportAs p ts) (fun n => pImportAs (q n) ts) := by
  unfold pImportAs; evt

theorem pFromAs_ev (ts) : Ev (pFromAs p ts) (fun n => pFromAs (q n) ts) := by
  unfold pFromAs; evt

theorem pDots_ev (ts) : Ev (pDots p ts) (fun n => pDots (q n) ts) := by
  unfold pDots; evt

theorem fromNames_ev (ts) : Ev (fromNames p ts) (fun n => fromNames (q n) ts) := by
  unfold fromNames; evt

theorem fromImport_ev (l m ts) : Ev (fromImport p l m ts) (fun n => fromImport (q n) l m ts) := by
  unfold fromImport; evt
  all_goals first | apply fromNames_ev h

theorem fromModule_ev (l ts) : Ev (fromModule p l ts) (fun n => fromModule (q n) l ts) := by
  unfold fromModule; evt
  all_goals first | apply fromImport_ev h

theorem pDelTarget_ev (ts) : Ev (pDelTarget p ts) (fun n => pDelTarget (q n) ts) := by
  unfold pDelTarget; evt

theorem raiseFrom_ev (a ts) : Ev (raiseFrom p a ts) (fun n => raiseFrom (q n) a ts) := by
  unfold raiseFrom; evt

theorem assertMsg_ev (a ts) : Ev (assertMsg p a ts) (fun n => assertMsg (q n) a ts) := by
  unfold assertMsg; evt

theorem assignsRest_ev (v ts) : Ev (assignsRest p v ts) (fun n => assignsRest (q n) v ts) := by
  unfold assignsRest; evt

theorem pAssigns_ev (ts) : Ev (pAssigns p ts) (fun n => pAssigns (q n) ts) := by
  unfold pAssigns; evt
  all_goals first | apply assignsRest_ev h

theorem annValue_ev (t a s ts) : Ev (annValue p t a s ts) (fun n => annValue (q n) t a s ts) := by
  unfold annValue; evt

theorem simpleRest_ev (us v ts) : Ev (simpleRest p us v ts) (fun n => simpleRest (q n) us v ts) := by
  unfold simpleRest; evt
  all_goals first | apply annValue_ev h

theorem pSimple_ev (ts) : Ev (pSimple p ts) (fun n => pSimple (q n) ts) := by
  unfold pSimple; evt
  all_goals first | apply simpleRest_ev h | apply raiseFrom_ev h | apply assertMsg_ev h | apply fromModule_ev h

theorem pBlock_ev (ts) : Ev (pBlock p ts) (fun n => pBlock (q n) ts) := by
  unfold pBlock; evt

theorem pStmts_ev (ts) : Ev (pStmts p ts) (fun n => pStmts (q n) ts) := by
  unfold pStmts; evt

theorem pFile_ev (ts) : Ev (pFile p ts) (fun n => pFile (q n) ts) := by
  unfold pFile; evt

theorem pOrelse_ev (ts) : Ev (pOrelse p ts) (fun n => pOrelse (q n) ts) := by
  unfold pOrelse; evt

theorem pFinals_ev (ts) : Ev (pFinals p ts) (fun n => pFinals (q n) ts) := by
  unfold pFinals; evt

theorem pIfRest_ev (ts) : Ev (pIfRest p ts) (fun n => pIfRest (q n) ts) := by
  unfold pIfRest; evt

theorem pElifs_ev (ts) : Ev (pElifs p ts) (fun n => pElifs (q n) ts) := by
  unfold pElifs; evt

theorem whileRest_ev (ts) : Ev (whileRest p ts) (fun n => whileRest (q n) ts) := by
  unfold whileRest; evt

theorem forIn_ev (k t ts) : Ev (forIn p k t ts) (fun n => forIn (q n) k t ts) := by
  unfold forIn; evt

theorem withAs_ev (v ts) : Ev (withAs p v ts) (fun n => withAs (q n) v ts) := by
  unfold withAs; evt

theorem pWithItem_ev (ts) : Ev (pWithItem p ts) (fun n => pWithItem (q n) ts) := by
  unfold pWithItem; evt
  all_goals first | apply withAs_ev h

theorem withBody_ev (k us l ts) : Ev (withBody p k us l ts) (fun n => withBody (q n) k us l ts) := by
  unfold withBody; evt

theorem withRest_ev (k ts) : Ev (withRest p k ts) (fun n => withRest (q n) k ts) := by
  unfold withRest; evt
  all_goals first | apply withBody_ev h

theorem handlerAs_ev (t ts) : Ev (handlerAs p t ts) (fun n => handlerAs (q n) t ts) := by
  unfold handlerAs; evt

theorem handler_ev (s ts) : Ev (handler p s ts) (fun n => handler (q n) s ts) := by
  unfold handler; evt
  all_goals first | apply handlerAs_ev h

theorem pHandlers_ev (s ts) : Ev (pHandlers p s ts) (fun n => pHandlers (q n) s ts) := by
  unfold pHandlers; evt
  all_goals first | apply handler_ev h

theorem tryEnd_ev (s b hs ts) : Ev (tryEnd p s b hs ts) (fun n => tryEnd (q n) s b hs ts) := by
  unfold tryEnd; evt

theorem tryRest_ev (ts) : Ev (tryRest p ts) (fun n => tryRest (q n) ts) := by
  unfold tryRest; evt
  all_goals first | apply tryEnd_ev h

theorem decoRest_ev (d ts) : Ev (decoRest p d ts) (fun n => decoRest (q n) d ts) := by
  unfold decoRest; evt

theorem pDecos_ev (ts) : Ev (pDecos p ts) (fun n => pDecos (q n) ts) := by
  unfold pDecos; evt
  all_goals first | apply decoRest_ev h

theorem returns_ev (ts) : Ev (returns p ts) (fun n => returns (q n) ts) := by
  unfold returns; evt

theorem functionRest_ev (k ds ts) : Ev (functionRest p k ds ts) (fun n => functionRest (q n) k ds ts) := by
  unfold functionRest; evt
  all_goals first | apply returns_ev h

theorem classBody_ev (x ds l ts) : Ev (classBody p x ds l ts) (fun n => classBody (q n) x ds l ts) := by
  unfold classBody; evt

theorem classRest_ev (ds ts) : Ev (classRest p ds ts) (fun n => classRest (q n) ds ts) := by
  unfold classRest; evt
  all_goals first | apply classBody_ev h

theorem definition_ev (ds ts) : Ev (definition p ds ts) (fun n => definition (q n) ds ts) := by
  unfold definition; evt
  all_goals first | apply functionRest_ev h | apply classRest_ev h

theorem pPatElem_ev (ts) : Ev (pPatElem p ts) (fun n => pPatElem (q n) ts) := by
  unfold pPatElem; evt

theorem patParenRest_ev (a ts) : Ev (patParenRest p a ts) (fun n => patParenRest (q n) a ts) := by
  unfold patParenRest; evt

theorem pPatParen_ev (ts) : Ev (pPatParen p ts) (fun n => pPatParen (q n) ts) := by
  unfold pPatParen; evt
  all_goals first | apply patParenRest_ev h

theorem pPatPair_ev (ts) : Ev (pPatPair p ts) (fun n => pPatPair (q n) ts) := by
  unfold pPatPair; evt

theorem pPatArg_ev (ts) : Ev (pPatArg p ts) (fun n => pPatArg (q n) ts) := by
  unfold pPatArg; evt

theorem namePattern_ev (v ts) : Ev (namePattern p v ts) (fun n => namePattern (q n) v ts) := by
  unfold namePattern; evt

theorem nameStart_ev (x ts) : Ev (nameStart p x ts) (fun n => nameStart (q n) x ts) := by
  unfold nameStart; evt
  all_goals first | apply namePattern_ev h

theorem pClosedPat_ev (ts) : Ev (pClosedPat p ts) (fun n => pClosedPat (q n) ts) := by
  unfold pClosedPat; evt
  all_goals first | apply nameStart_ev h

theorem pOrRest_ev (ts) : Ev (pOrRest p ts) (fun n => pOrRest (q n) ts) := by
  unfold pOrRest; evt

theorem pPattern_ev (ts) : Ev (pPattern p ts) (fun n => pPattern (q n) ts) := by
  unfold pPattern; evt

theorem guard_ev (ts) : Ev (guard p ts) (fun n => guard (q n) ts) := by
  unfold guard; evt

theorem caseRest_ev (ts) : Ev (caseRest p ts) (fun n => caseRest (q n) ts) := by
  unfold caseRest; evt
  all_goals first | apply guard_ev h

theorem pCases_ev (ts) : Ev (pCases p ts) (fun n => pCases (q n) ts) := by
  unfold pCases; evt
  all_goals first | apply guard_ev h

theorem matchCases_ev (s ts) : Ev (matchCases p s ts) (fun n => matchCases (q n) s ts) := by
  unfold matchCases; evt

theorem matchRest_ev (ts) : Ev (matchRest p ts) (fun n => matchRest (q n) ts) := by
  unfold matchRest; evt
  all_goals first | apply matchCases_ev h

theorem pTypeParam_ev (ts) : Ev (pTypeParam p ts) (fun n => pTypeParam (q n) ts) := by
  unfold pTypeParam; evt

theorem typeValue_ev (x us ts) : Ev (typeValue p x us ts) (fun n => typeValue (q n) x us ts) := by
  unfold typeValue; evt

theorem typeRest_ev (x ts) : Ev (typeRest p x ts) (fun n => typeRest (q n) x ts) := by
  unfold typeRest; evt
  all_goals first | apply typeValue_ev h

theorem nameLine_ev (x ts) : Ev (nameLine p x ts) (fun n => nameLine (q n) x ts) := by
  unfold nameLine; evt
  all_goals first | apply matchCases_ev h | apply typeRest_ev h

theorem pStmt_ev (ts) : Ev (pStmt p ts) (fun n => pStmt (q n) ts) := by
  unfold pStmt; evt
  all_goals first | apply whileRest_ev h | apply forIn_ev h | apply withBody_ev h | apply tryEnd_ev h | apply definition_ev h | apply nameLine_ev h

theorem parseBody_ev (nt ts) : Ev (parseBody p nt ts) (fun n => parseBody (q n) nt ts) := by
  cases nt with
  | expr => exact pExpr_ev h ..
  | disj => exact pDisj_ev h ..
  | conj => exact pConj_ev h ..
  | inv => exact pInv_ev h ..
  | cmp => exact pCmp_ev h ..
  | bin l => exact pBin_ev h ..
  | factor => exact pFactor_ev h ..
  | power => exact pPower_ev h ..
  | await => exact pAwait_ev h ..
  | primary => exact pPrimary_ev h ..
  | atom => exact pAtom_ev h ..
  | disjRest => exact pDisjRest_ev h ..
  | conjRest => exact pConjRest_ev h ..
  | cmpRest => exact pCmpRest_ev h ..
  | binRest l a => exact pBinRest_ev h ..
  | primRest a => exact pPrimRest_ev h ..
  | elem => exact pElem_ev h ..
  | items i s => exact pItems_ev h ..
  | paren => exact pParen_ev h ..
  | brack => exact pBrack_ev h ..
  | brace => exact pBrace_ev h ..
  | pairs => exact pPairs_ev h ..
  | comps => exact pComps_ev h ..
  | ifs => exact pIfs_ev h ..
  | target => exact pTarget_ev h ..
  | subs => exact pSubs_ev h ..
  | slice => exact pSlice_ev h ..
  | arg => exact pArg_ev h ..
  | param b => exact pParam_ev h ..
  | params b s => exact pParams_ev h ..
  | ident => exact Ev.const _
  | sep i => exact pSep_ev h ..
  | dotted => exact pDotted_ev h ..
  | dots => exact pDots_ev h ..
  | importAs => exact pImportAs_ev h ..
  | fromAs => exact pFromAs_ev h ..
  | delTarget => exact pDelTarget_ev h ..
  | assigns => exact pAssigns_ev h ..
  | simple => exact pSimple_ev h ..
  | block => exact pBlock_ev h ..
  | stmts => exact pStmts_ev h ..
  | stmt => exact pStmt_ev h ..
  | file => exact pFile_ev h ..
  | ifRest => exact pIfRest_ev h ..
  | elifs => exact pElifs_ev h ..
  | orelse => exact pOrelse_ev h ..
  | finals => exact pFinals_ev h ..
  | withItem => exact pWithItem_ev h ..
  | handlers b => exact pHandlers_ev h ..
  | decos => exact pDecos_ev h ..
  | pattern => exact pPattern_ev h ..
  | closedPat => exact pClosedPat_ev h ..
  | orRest => exact pOrRest_ev h ..
  | patParen => exact pPatParen_ev h ..
  | patElem => exact pPatElem_ev h ..
  | patPair => exact pPatPair_ev h ..
  | patArg => exact pPatArg_ev h ..
  | cases => exact pCases_ev h ..
  | typeParam => exact pTypeParam_ev h ..

omit h in
theorem parse_succ : ∀ n nt ts x, parse n nt ts = some x → parse (n + 1) nt ts = some x
  | 0, _, _, _ => fun h => nomatch h
  | n + 1, nt, ts, x => fun h => by
    have ih : Evs (parse n) (fun _ => parse (n + 1)) := fun nt ts => ⟨fun x h => ⟨0, fun _ _ => parse_succ n nt ts x h⟩⟩
    obtain ⟨k, hk⟩ := (parseBody_ev ih nt ts).ev x h
    exact hk k (Nat.le_refl _)

omit h in
theorem parse_le {m n : Nat} (hmn : m ≤ n) {nt ts x} (h : parse m nt ts = some x) : parse n nt ts = some x := by
  induction hmn with
  | refl => exact h
  | step _ ih => exact parse_succ _ _ _ _ ih

omit h in
/-- The result does not depend on the bound. -/
theorem parse_unique {m n : Nat} {nt ts x y} (hx : parse m nt ts = some x) (hy : parse n nt ts = some y) : x = y := by
  have h1 := parse_le (Nat.le_max_left m n) hx
  have h2 := parse_le (Nat.le_max_right m n) hy
  rw [h1] at h2; exact Option.some.inj h2

open Classical in
/-- The parser, without a bound. -/
noncomputable def full : Parser := fun nt ts =>
  if h : ∃ x n, parse n nt ts = some x then some (choose h) else none

omit h in
theorem full_iff {nt ts x} : full nt ts = some x ↔ ∃ n, parse n nt ts = some x := by
  unfold full
  split
  · rename_i h
    obtain ⟨n, hn⟩ := Classical.choose_spec h
    constructor
    · intro e; exact ⟨n, by rw [hn]; exact e⟩
    · rintro ⟨m, hm⟩; rw [parse_unique hn hm]
  · rename_i h
    constructor
    · exact fun e => nomatch e
    · rintro ⟨m, hm⟩; exact absurd ⟨x, m, hm⟩ h

omit h in
theorem full_eq (nt ts) : full nt ts = parseBody full nt ts := by
  apply Option.ext
  intro x
  rw [full_iff]
  constructor
  · rintro ⟨n, hn⟩
    cases n with
    | zero => exact nomatch hn
    | succ n =>
      have ih : Evs (parse n) (fun _ => full) := fun nt ts => ⟨fun x h => ⟨0, fun _ _ => full_iff.2 ⟨n, h⟩⟩⟩
      obtain ⟨k, hk⟩ := (parseBody_ev ih nt ts).ev x hn
      exact hk k (Nat.le_refl _)
  · intro hx
    have ih : Evs full parse := fun nt ts => ⟨fun x h => by
      obtain ⟨n, hn⟩ := full_iff.1 h
      exact ⟨n, fun m hm => parse_le hm hn⟩⟩
    obtain ⟨k, hk⟩ := (parseBody_ev ih nt ts).ev x hx
    exact ⟨k + 1, hk k (Nat.le_refl _)⟩

end Mcpyrate.PyText
