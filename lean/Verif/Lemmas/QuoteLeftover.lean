import Verif.Lemmas.QuoteReady
import Verif.Lemmas.QuasiquoteMacro
import Verif.Props.Markers
/-
The code that a quote is compiled to contains no commands of the quasiquote system (C58).
-/
namespace Mcpyrate.QuoteOps
open Py Expander

variable {σ : Type}

def wrapped (code : Val) (fn : String) : Val :=
  mk .Call [(.func, mk .Attribute [(.value, mk .Attribute [(.value, mk .Name [(.id, .str "mcpyrate")]), (.attr, .str "quotes")]),
      (.attr, .str "splice_ast_literals")]),
    (.args, .list [code, mk .Constant [(.value, .str fn), (.kind, .none)]]), (.keywords, .list [])]

theorem asCode_call {x : Obj} {code tree : Val} {fn : String} (hx : asCode x = .ok code)
    (h : asCode (Quotes.callNode (Quotes.quotesAttr "splice_ast_literals") [x, Quotes.constantNode (.str fn)] []) = .ok tree) :
    tree = wrapped code fn := by
  refine ofVal_inj ?_
  rw [← asCode_ok h, asCode_ok hx]
  rfl

theorem wrapped_reach {code m : Val} {fn : String} (hc : code.isAST = true) (hm : m.isAST = true)
    (h : Reach (wrapped code fn) m) :
    Reach code m ∨ ∃ k l fs, m = .node (.py k) l fs := by
  have h1 := reach_mem_preorder h hm
  cases code with
  | node c l fs =>
    simp only [wrapped, mk, preorder, preorderF, preorderL, List.append_nil, List.nil_append, List.cons_append,
      List.mem_cons, List.mem_append, List.not_mem_nil, or_false] at h1
    rcases h1 with rfl | rfl | rfl | rfl | rfl | h1 | rfl
    · exact .inr ⟨_, _, _, rfl⟩
    · exact .inr ⟨_, _, _, rfl⟩
    · exact .inr ⟨_, _, _, rfl⟩
    · exact .inr ⟨_, _, _, rfl⟩
    · exact .inl (.refl _)
    · exact .inl (mem_preorder.1 (List.mem_cons_of_mem _ h1)).1
    · exact .inr ⟨_, _, _, rfl⟩
  | _ => cases hc

theorem compile_clean {L : Lib σ} {filename : String} {a : MArgs} {x v : Val} {w w' : W σ}
    (h : compile L filename a x w = some (.ok v, w')) :
    ∃ code, code.isAST = true ∧ (∀ m, Reach code m → m.hasCls isQuasi = false) ∧
      ((a.synt ≠ .block ∧ v = wrapped code filename) ∨
        (a.synt = .block ∧ assign a.optionalVars (wrapped code filename) = .ok v)) := by
  unfold compile at h
  obtain ⟨d, w1, g1, k1⟩ := bindW_ok h
  obtain ⟨y, w2, h2, k2⟩ := bindW_ok k1
  obtain ⟨code, w3, h3, k3⟩ := bindW_ok k2
  obtain ⟨_, w4, h4, k4⟩ := bindW_ok k3
  obtain ⟨tree, w5, g5, k5⟩ := bindW_ok k4
  have e := asCode_call (ofExceptW_ok h3).1 (ofExceptW_ok g5).1
  subst e
  have hast : code.isAST = true := by
    have he := asCode_ok (ofExceptW_ok h3).1
    unfold astifyW at h2
    split at h2
    · cases h2
    · rename_i z st hz
      cases h2
      obtain ⟨k, l, fs, hk, -⟩ := Quotes.astify_code _ hz
      rw [hk] at he
      cases code <;> first | rfl | cases he
    · cases h2
  refine ⟨code, hast, ?_, ?_⟩
  · have hc := (ofExceptW_ok h4).1
    intro m hm
    cases hq : m.hasCls isQuasi with
    | false => rfl
    | true =>
      have ht : code.isTree = true := by
        cases code <;> first | rfl | cases hast
      unfold checkCode at hc
      rw [(C10_check_no_markers isQuasi code ht).1 ⟨m, hm, hq⟩] at hc
      cases hc
  · by_cases hs : a.synt = .block
    · rw [if_pos hs] at k5
      exact .inr ⟨hs, (ofExceptW_ok k5).1⟩
    · rw [if_neg hs] at k5
      have h' : (some (.ok (wrapped code filename), w5) : Option (Except Exc Val × W σ)) = some (.ok v, w') := k5
      cases h'
      exact .inl ⟨hs, rfl⟩

end Mcpyrate.QuoteOps
