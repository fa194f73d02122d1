import Verif.Lemmas.ParsedParts
/-
C47: what the reference parser returns for patterns.
-/
namespace Mcpyrate.PyText
open Py

variable {P : Reading} {p : Parser}

/-! Values. -/

/-- What the parser returns for a number. -/
def NumOut (P : Reading) (v : Val) : Prop := (Plain (matchValue v) → PatValue P v) ∧ PatKeyOut P v

theorem y_complexRest {a : Val} {ts : List Tok} (ht : Toks P ts) (ha : NumOut P a)
    (hk : IsReal P a ∨ a.isK .UnaryOp = true) : Yields P (complexRest a ts) (NumOut P) := by
  have key : ∀ {k : K} {x : String} {r : List Tok}, k = .Add ∨ k = .Sub → TokOK P (.imag x) → Toks P r →
      Yields P (some (binOp a k (constant (.complex x)), r)) (NumOut P) := by
    intro k x r hk' hx hr
    obtain ⟨s, hs, rfl⟩ := hx
    refine .ret ⟨fun h => ?_, .inr (.inr rfl)⟩ hr
    rcases hk with hk | hk
    · exact .complex hk' hk hs
    · exact absurd ⟨{}, a, [(.op, mk k []), (.right, constant (.complex (P.imag s)))], by simp [binOp, mk], hk⟩ h.odd
  unfold complexRest
  split
  · exact key (.inl rfl) ht.tail.head (by toks!)
  · exact key (.inr rfl) ht.tail.head (by toks!)
  · exact .ret ha ht

theorem numOut_number {v : Val} (h : IsNumber P v) : NumOut P v := ⟨fun _ => .number h, .inl (.number h)⟩
theorem numOut_neg {v : Val} (h : IsNumber P v) : NumOut P (unaryOp .USub v) := ⟨fun _ => .neg h, .inr (.inl rfl)⟩

theorem y_number {ts : List Tok} (ht : Toks P ts) : Yields P (pNumber ts) (NumOut P) := by
  unfold pNumber
  split
  · exact y_complexRest (by toks!) (numOut_number (.real (.int _))) (.inl (.int _))
  · obtain ⟨s, hs, rfl⟩ := ht.head
    exact y_complexRest (by toks!) (numOut_number (.real (.float hs))) (.inl (.float hs))
  · obtain ⟨s, hs, rfl⟩ := ht.head
    exact .ret (numOut_number (.imag hs)) (by toks!)
  · exact y_complexRest (by toks!) (numOut_neg (.real (.int _))) (.inr rfl)
  · obtain ⟨s, hs, rfl⟩ := ht.tail.head
    exact y_complexRest (by toks!) (numOut_neg (.real (.float hs))) (.inr rfl)
  · obtain ⟨s, hs, rfl⟩ := ht.tail.head
    exact .ret (numOut_neg (.imag hs)) (by toks!)
  · exact .none

/-- `x.a.b`, with names. -/
def IsDotted (P : Reading) (v : Val) : Prop := ∃ x xs, v = dottedExpr x xs ∧ IsName P x ∧ ∀ y ∈ xs, IsName P y

theorem IsDotted.attr {v : Val} (h : IsDotted P v) {y : String} (hy : IsName P y) : IsDotted P (attrOf v y) := by
  obtain ⟨x, xs, rfl, hx, hxs⟩ := h
  refine ⟨x, xs ++ [y], by simp [dottedExpr], hx, fun z hz => ?_⟩
  rcases List.mem_append.1 hz with hz | hz
  · exact hxs z hz
  · rw [List.mem_singleton.1 hz]; exact hy

theorem attrs_out (v : Val) (ts : List Tok) (hv : IsDotted P v) (ht : Toks P ts) :
    IsDotted P (attrs v ts).1 ∧ Toks P (attrs v ts).2 ∧ (v.isK .Attribute = true → (attrs v ts).1.isK .Attribute = true) := by
  fun_induction attrs v ts with
  | case1 v x r ih =>
    obtain ⟨h1, h2, h3⟩ := ih (hv.attr ht.tail.head) (by toks!)
    exact ⟨h1, h2, fun _ => h3 rfl⟩
  | case2 v r h => exact ⟨hv, ht, id⟩

theorem dotted_attr {x : String} {xs : List String} (h : (dottedExpr x xs).isK .Attribute = true) : xs ≠ [] := by
  rintro rfl
  cases h

theorem y_key {ts : List Tok} (ht : Toks P ts) : Yields P (patKey ts) (PatKeyOut P) := by
  unfold patKey
  split
  · exact .ret (.inl (.str _ _)) (by toks!)
  · exact .ret (.inl (.bytes ht.head)) (by toks!)
  · exact .ret (.inl (.bool _)) (by toks!)
  · exact .ret (.inl (.bool _)) (by toks!)
  · exact .ret (.inl .none) (by toks!)
  · rename_i x r
    split
    · rename_i hk
      obtain ⟨⟨y, ys, e, h1, h2⟩, h3, -⟩ := attrs_out (name x) r ⟨x, [], rfl, ht.head, by simp⟩ (by toks!)
      refine .ret (.inl ?_) h3
      rw [e] at hk ⊢
      exact .dotted h1 (dotted_attr hk) h2
    · exact .none
  · exact (y_number ht).mono fun _ h => h.2

/-! Patterns. -/

theorem gp_closed {v : Val} (hk : v.isK .keyword = false) (h : Plain v → ClosedPattern P v) : GP P v := ⟨hk, fun hv => .closed (h hv)⟩

theorem capture_or {x : String} (hx : IsName P x) : (if x = "_" then Val.none else Val.str x) = .none ∨
    IsCapture P x ∧ (if x = "_" then Val.none else Val.str x) = .str x := by
  split
  · exact .inl rfl
  · rename_i h
    exact .inr ⟨⟨hx, h⟩, rfl⟩

section
variable (hp : Sound P p) {ts : List Tok} (ht : Toks P ts)
include hp ht

theorem y_patElem : Yields P (pPatElem p ts) (Out P .patElem) := by
  unfold pPatElem
  split
  · refine .ret ⟨rfl, fun _ => ?_⟩ (by toks!)
    rcases capture_or ht.tail.head with h | ⟨h1, h⟩
    · rw [h]; exact .starAny
    · rw [h]; exact .star h1
  · exact (hp.y (nt := .pattern) trivial ht).mono fun v h => ⟨h.1, fun hv => .pattern (h.2 hv)⟩

theorem y_patParen : Yields P (pPatParen p ts) (GP P) := by
  unfold pPatParen
  split
  · exact .ret (gp_closed rfl fun _ => .sequence (by simp)) (by toks!)
  · refine (hp.y (nt := .patElem) trivial ht).seq fun a r ha hr => ?_
    unfold patParenRest
    split
    · refine (hp.y (nt := .items .patElem .rpar) trivial (by toks!)).seq fun l r hl hr => .ret (gp_closed rfl fun h => .sequence fun x m => ?_) hr
      have hm := (parts% h, .patterns) x m
      rcases List.mem_cons.1 m with rfl | m
      · exact ha.2 hm
      · exact (LL.elts hl x m).2 hm
    · split
      · exact .none
      · rename_i hs
        refine .ret ⟨ha.1, fun h => ?_⟩ (by toks!)
        cases ha.2 h with
        | pattern h => exact h
        | star h => exact absurd rfl hs
        | starAny => exact absurd rfl hs
    · exact .none

theorem y_patPair : Yields P (pPatPair p ts) (Out P .patPair) := by
  unfold pPatPair
  split
  · split
    · exact .none
    · rename_i h
      exact .ret (.inl ⟨_, ⟨ht.tail.head, h⟩, rfl⟩) (by toks!)
  · refine (y_key ht).seq fun k r hk hr => ?_
    split
    · exact (hp.y (nt := .pattern) trivial (by toks!)).seq fun v r hv hr => .ret (.inr ⟨_, _, rfl, hk, hv⟩) hr
    · exact .none

theorem y_patArg : Yields P (pPatArg p ts) (Out P .patArg) := by
  unfold pPatArg
  split
  · exact (hp.y (nt := .pattern) trivial (by toks!)).seq fun v r hv hr => .ret (.inr ⟨_, _, ht.head, hv, rfl⟩) hr
  · exact (hp.y (nt := .pattern) trivial ht).mono fun v hv => .inl hv

omit hp ht in
theorem mapping_out : ∀ {xs ks ps : List Val} {rest : Val}, (∀ x ∈ xs, Out P .patPair x) → mappingParts xs = some (ks, ps, rest) →
    (∃ kps : List (Val × Val), ks = kps.map (·.1) ∧ ps = kps.map (·.2) ∧ ∀ kp ∈ kps, PatKeyOut P kp.1 ∧ GP P kp.2) ∧
      (rest = .none ∨ ∃ x, IsCapture P x ∧ rest = .str x) := by
  intro xs
  induction xs with
  | nil => intro ks ps rest _ h; cases h; exact ⟨⟨[], rfl, rfl, by simp⟩, .inl rfl⟩
  | cons x xs ih =>
    intro ks ps rest h e
    unfold mappingParts at e
    split at e
    · rename_i e'; cases e'
    · rename_i y e'
      cases e'
      cases e
      refine ⟨⟨[], rfl, rfl, by simp⟩, .inr ?_⟩
      rcases h _ List.mem_cons_self with ⟨z, hz, e⟩ | ⟨k, q, e, _⟩
      · cases e; exact ⟨_, hz, rfl⟩
      · cases e
    · rename_i k v r e'
      cases e'
      cases hm : mappingParts xs with
      | none => rw [hm] at e; cases e
      | some q =>
        obtain ⟨ks', ps', rest'⟩ := q
        rw [hm] at e
        cases e
        obtain ⟨⟨kps, rfl, rfl, h1⟩, h2⟩ := ih (fun x m => h x (by simp [m])) hm
        refine ⟨⟨(k, v) :: kps, rfl, rfl, fun kp m => ?_⟩, h2⟩
        rcases List.mem_cons.1 m with rfl | m
        · rcases h _ List.mem_cons_self with ⟨z, hz, e⟩ | ⟨k', q, e, h3, h4⟩
          · cases e
          · cases e; exact ⟨h3, h4⟩
        · exact h1 kp m
    · cases e

omit hp ht in
theorem gp_mapping {xs ks ps : List Val} {rest : Val} (hx : ∀ x ∈ xs, Out P .patPair x) (e : mappingParts xs = some (ks, ps, rest)) :
    GP P (matchMapping ks ps rest) := by
  obtain ⟨⟨kps, rfl, rfl, h1⟩, h2⟩ := mapping_out hx e
  refine gp_closed rfl fun h => .mapping (fun kp m => ?_) (fun kp m => ?_) h2
  · rcases (h1 kp m).1 with h3 | h3
    · exact h3
    · exact absurd ⟨_, kp.1, by simp, List.mem_map.2 ⟨kp, m, rfl⟩, h3⟩ h.odd
  · have hq : ∀ x ∈ kps.map (·.2), Plain x := parts% h, .patterns
    exact (h1 kp m).2.2 (hq _ (List.mem_map.2 ⟨kp, m, rfl⟩))

theorem y_namePattern {v : Val} (hv : IsDotted P v) (hk : v.isK .Attribute = true ∨ ∃ r, ts = .sym .lpar :: r) :
    Yields P (namePattern p v ts) (GP P) := by
  obtain ⟨x, xs, rfl, hx, hxs⟩ := hv
  unfold namePattern
  split
  · refine (hp.y (nt := .items .patArg .rpar) trivial (by toks!)).seq fun l r hl hr => ?_
    unfold classPattern
    cases e : callParts (Val.elts l) with
    | none => exact .none
    | some q =>
      obtain ⟨ps, ks⟩ := q
      obtain ⟨h1, h2⟩ := callParts_out e
      have h3 : ∀ q ∈ ps, GP P q := by
        intro q m
        rcases LL.elts hl q (h1 q m).1 with h | ⟨y, q', _, _, rfl⟩
        · exact h
        · have := (h1 _ m).2; cases this
      have h4 : ∃ kws : List (String × Val), ks = kws.map (fun kw => keywordOf (.str kw.1) kw.2) ∧ ∀ kw ∈ kws, IsName P kw.1 ∧ GP P kw.2 := by
        have h5 : ∀ k ∈ ks, ∃ y q, IsName P y ∧ GP P q ∧ k = keywordOf (.str y) q := by
          intro k m
          rcases LL.elts hl k (h2 k m).1 with h | h
          · have := h.1; rw [(h2 k m).2] at this; cases this
          · exact h
        clear h2 e
        induction ks with
        | nil => exact ⟨[], rfl, by simp⟩
        | cons k ks ih =>
          obtain ⟨kws, rfl, h6⟩ := ih fun k m => h5 k (by simp [m])
          obtain ⟨y, q, hy, hq, rfl⟩ := h5 k (by simp)
          refine ⟨(y, q) :: kws, rfl, fun kw m => ?_⟩
          rcases List.mem_cons.1 m with rfl | m
          · exact ⟨hy, hq⟩
          · exact h6 kw m
      obtain ⟨kws, rfl, h6⟩ := h4
      refine .ret (gp_closed rfl fun h => ?_) hr
      have e1 : (kws.map fun kw => keywordOf (.str kw.1) kw.2).map keywordName = kws.map fun kw => .str kw.1 := by
        simp [keywordName, keywordOf, mk, Function.comp_def]
      have e2 : (kws.map fun kw => keywordOf (.str kw.1) kw.2).map keywordValue = kws.map (·.2) := by
        simp [keywordValue, keywordOf, mk, Function.comp_def]
      rw [e1, e2] at h ⊢
      have hq : ∀ x ∈ kws.map (·.2), Plain x := parts% h, .kwd_patterns
      exact .class hx hxs (fun q m => (h3 q m).2 ((parts% h, .patterns) q m)) (fun kw m => (h6 kw m).1)
        fun kw m => (h6 kw m).2.2 (hq _ (List.mem_map.2 ⟨kw, m, rfl⟩))
  · rename_i hne
    rcases hk with hk | ⟨r, rfl⟩
    · exact .ret (gp_closed rfl fun _ => .value (.dotted hx (dotted_attr hk) hxs)) ht
    · exact absurd rfl (hne _)

theorem y_nameStart {x : String} (hx : IsName P x) : Yields P (nameStart p x ts) (GP P) := by
  unfold nameStart
  split
  · rename_i y r
    obtain ⟨h1, h2, h3⟩ := attrs_out (attrOf (name x) y) r (IsDotted.attr ⟨x, [], rfl, hx, by simp⟩ ht.tail.head) (by toks!)
    exact y_namePattern hp h2 h1 (.inl (h3 rfl))
  · exact y_namePattern hp ht ⟨x, [], rfl, hx, by simp⟩ (.inr ⟨_, rfl⟩)
  · refine .ret (gp_closed rfl fun _ => ?_) ht
    rcases capture_or hx with h | ⟨h1, h⟩
    · rw [h]; exact .wildcard
    · rw [h]; exact .capture h1

theorem y_closedPat : Yields P (pClosedPat p ts) (GP P) := by
  unfold pClosedPat
  split
  · exact .ret (gp_closed rfl fun _ => .value (.str _ _)) (by toks!)
  · exact .ret (gp_closed rfl fun _ => .value (.bytes ht.head)) (by toks!)
  · exact .ret (gp_closed rfl fun _ => .bool _) (by toks!)
  · exact .ret (gp_closed rfl fun _ => .bool _) (by toks!)
  · exact .ret (gp_closed rfl fun _ => .none) (by toks!)
  · exact hp.y (nt := .patParen) trivial (by toks!)
  · refine (hp.y (nt := .items .patElem .rbrack) trivial (by toks!)).seq fun l r hl hr => .ret (gp_closed rfl fun h => .sequence fun x m => ?_) hr
    exact (LL.elts hl x m).2 ((parts% h, .patterns) x m)
  · refine (hp.y (nt := .items .patPair .rbrace) trivial (by toks!)).seq fun l r hl hr => ?_
    cases e : mappingParts (Val.elts l) with
    | none => exact .none
    | some q => exact .ret (gp_mapping (LL.elts hl) e) hr
  · exact y_nameStart hp (by toks!) ht.head
  · exact (y_number ht).seq fun v r hv hr => .ret (gp_closed rfl fun h => .value (hv.1 h)) hr

theorem y_orRest : Yields P (pOrRest p ts) (LL (GP P)) := by
  unfold pOrRest
  split
  · exact (hp.y (nt := .closedPat) trivial (by toks!)).seq fun a r ha hr => (hp.y (nt := .orRest) trivial hr).seq fun l r hl hr =>
      .ret (LL.cons ha hl).ll hr
  · exact .ret .nil ht

omit hp ht in
theorem ClosedPattern.ne_none {q : Val} (h : ClosedPattern P q) : q ≠ .none := by
  cases h <;> exact fun e => by cases e

omit hp ht in
theorem Pattern.cases' {q : Val} (h : Pattern P q) (hn : ¬ IsAs q) :
    ClosedPattern P q ∨ ∃ ps : List Val, 2 ≤ ps.length ∧ (∀ p ∈ ps, ClosedPattern P p) ∧ q = matchOr ps := by
  cases h with
  | closed h => exact .inl h
  | or hl h => exact .inr ⟨_, hl, h, rfl⟩
  | as h hx => exact absurd ⟨_, _, _, rfl, h.ne_none⟩ hn
  | orAs hl h hx => exact absurd ⟨_, _, _, rfl, fun e => by cases e⟩ hn

omit hp ht in
theorem gp_or {a l : Val} (ha : GP P a) (hl : LL (GP P) l) : GP P (orOf a (Val.elts l)) := by
  obtain ⟨xs, rfl, hx⟩ := hl
  cases xs with
  | nil => exact ha
  | cons b bs =>
    refine ⟨rfl, fun h => .or (ps := a :: b :: bs) (by simp) fun q m => ?_⟩
    have hm := (parts% h, .patterns) q m
    have hq : GP P q := by
      rcases List.mem_cons.1 m with rfl | m
      · exact ha
      · exact hx q m
    have ho : ∀ h' : q.isK .MatchOr = true ∨ IsAs q, False := fun h' => h.odd ⟨_, q, by simp, m, h'⟩
    rcases (hq.2 hm).cases' fun h' => ho (.inr h') with h | ⟨ps, _, _, rfl⟩
    · exact h
    · exact (ho (.inl rfl)).elim

theorem y_pattern : Yields P (pPattern p ts) (GP P) := by
  refine (hp.y (nt := .closedPat) trivial ht).seq fun a r ha hr => (hp.y (nt := .orRest) trivial hr).seq fun l r hl hr => ?_
  have hg := gp_or ha hl
  unfold patAs
  split
  · split
    · exact .none
    · rename_i hx
      refine .ret ⟨rfl, fun h => ?_⟩ (by toks!)
      have hm := hg.2 (part% h, .pattern)
      have hc : IsCapture P _ := ⟨hr.tail.head, hx⟩
      rcases hm.cases' fun h' => h.odd ⟨_, by simp, h'⟩ with h | ⟨ps, h1, h2, e⟩
      · exact .as h hc
      · rw [e]; exact .orAs h1 h2 hc
  · exact .ret hg hr

end

end Mcpyrate.PyText
