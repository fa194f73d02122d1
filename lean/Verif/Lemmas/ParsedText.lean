import Verif.Lemmas.ParsedStmts
import Verif.Lemmas.StmtAssign
/-
C47: what the reference parser returns, as a whole.
-/
namespace Mcpyrate.PyText
open Py

variable {P : Reading}

theorem name_colon {n : Nat} {x : String} {r r' : List Tok} {v : Val} (h : parse n .elem (.name x :: .sym .colon :: r) = some (v, r')) :
    v = name x := by
  have h1 : full .primary (.name x :: .sym .colon :: r) = some (name x, .sym .colon :: r) := by
    rw [full_at]
    show seq (full .atom _) _ = _
    rw [full_at]
    show full (.primRest (name x)) (.sym .colon :: r) = _
    rw [full_at]
    rfl
  have h2 : full .expr (.name x :: .sym .colon :: r) = some (name x, .sym .colon :: r) :=
    lift (K := 14) (L := 0) (by decide) (by decide) h1 ⟨_, _, rfl, Nat.le_refl 14⟩ (NoCont.none rfl)
  have h3 : full .elem (.name x :: .sym .colon :: r) = some (name x, .sym .colon :: r) := by
    rw [full_at]
    exact h2
  obtain ⟨m, hm⟩ := full_iff.1 h3
  have := parse_unique h hm
  cases this
  rfl

theorem sound : ∀ n, Sound P (parse n)
  | 0 => fun nt ts _ _ v r h => by cases h
  | n + 1 => by
    have hp := sound n
    intro nt ts hn ht v r h
    have h : parseBody (parse n) nt ts = some (v, r) := h
    have fin : ∀ {Q : Val → Prop} {x : Res}, Yields P x Q → x = some (v, r) → Q v ∧ Toks P r ∧ True :=
      fun hy e => ⟨(hy v r e).1, (hy v r e).2, trivial⟩
    cases nt with
    | expr => exact fin (y_expr hp ht) h
    | disj => exact fin (y_disj hp ht) h
    | conj => exact fin (y_conj hp ht) h
    | inv => exact fin (y_inv hp ht) h
    | cmp => exact fin (y_cmp hp ht) h
    | bin l => exact fin (y_bin hp ht l) h
    | factor => exact fin (y_factor hp ht) h
    | power => exact fin (y_power hp ht) h
    | await => exact fin (y_await hp ht) h
    | primary => exact fin (y_primary hp ht) h
    | atom => exact fin (y_atom hp ht) h
    | disjRest => exact fin (y_disjRest hp ht) h
    | conjRest => exact fin (y_conjRest hp ht) h
    | cmpRest => exact fin (y_cmpRest hp ht) h
    | binRest l a => exact fin (y_binRest hp ht l hn) h
    | primRest a => exact fin (y_primRest hp ht hn) h
    | elem => exact fin (y_elem hp ht) h
    | items item s => exact fin (y_items hp ht item hn s) h
    | paren => exact fin (y_paren hp ht) h
    | brack => exact fin (y_brack hp ht) h
    | brace => exact fin (y_brace hp ht) h
    | pairs => exact fin (y_pairs hp ht) h
    | comps => exact ⟨(y_comps hp ht v r h).1, (y_comps hp ht v r h).2, x_comps hp ht h⟩
    | ifs => exact fin (y_ifs hp ht) h
    | target => exact fin (y_target hp ht) h
    | subs => exact fin (y_subs hp ht) h
    | slice => exact fin (y_slice hp ht) h
    | arg => exact fin (y_arg hp ht) h
    | param ann => exact fin (y_param hp ht ann) h
    | params ann s => exact fin (y_params hp ht ann s) h
    | ident => exact fin (y_ident ht) h
    | sep item => exact fin (y_sep hp ht item hn) h
    | dotted => exact fin (y_dotted hp ht) h
    | dots => exact fin (y_dots hp ht) h
    | importAs => exact fin (y_importAs hp ht) h
    | fromAs => exact fin (y_fromAs hp ht) h
    | delTarget => exact fin (y_delTarget hp ht) h
    | assigns => exact fin (y_assigns hp ht) h
    | simple => exact fin (y_simple hp ht fun _ _ _ _ e => name_colon e) h
    | block => exact fin (y_block hp ht) h
    | stmts => exact fin (y_stmts hp ht) h
    | stmt => exact fin (y_stmt hp ht) h
    | file => exact fin (y_file hp ht) h
    | ifRest => exact fin (y_ifRest hp ht) h
    | elifs => exact fin (y_elifs hp ht) h
    | orelse => exact fin (y_orelse hp ht) h
    | finals => exact fin (y_finals hp ht) h
    | withItem => exact fin (y_withItem hp ht) h
    | handlers star => exact ⟨(y_handlers hp ht star v r h).1, (y_handlers hp ht star v r h).2, x_handlers hp ht h⟩
    | decos => exact fin (y_decos hp ht) h
    | pattern => exact fin (y_pattern hp ht) h
    | closedPat => exact fin (y_closedPat hp ht) h
    | orRest => exact fin (y_orRest hp ht) h
    | patParen => exact fin (y_patParen hp ht) h
    | patElem => exact fin (y_patElem hp ht) h
    | patPair => exact fin (y_patPair hp ht) h
    | patArg => exact fin (y_patArg hp ht) h
    | cases => exact ⟨(y_cases hp ht v r h).1, (y_cases hp ht v r h).2, x_cases hp ht h⟩
    | typeParam => exact fin (y_typeParam hp ht) h

theorem expr_of_text (hP : P.Lawful) {text : Str} {t : Val} (h : IsExpr P text t) (hp : Plain t) : Expr P t := by
  obtain ⟨ts, n, h1, h2⟩ := h
  exact (sound n .expr ts trivial (lex_ok hP text h1) t _ h2).1 hp

theorem module_of_text (hP : P.Lawful) {text : Str} {body : List Val} (h : IsModule P text body) (hp : ∀ s ∈ body, Plain s) :
    ∀ s ∈ body, Stmt P s := by
  obtain ⟨ts, n, h1, h2⟩ := h
  obtain ⟨xs, e, hx⟩ := (sound n .file ts trivial (lex_ok hP text h1) _ _ h2).1
  cases e
  exact fun s m => hx s m (hp s m)

end Mcpyrate.PyText
