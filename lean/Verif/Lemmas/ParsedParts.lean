import Verif.Lemmas.Parsed
/-
C47: what the reference parser returns for comprehensions, subscripts, arguments and parameters.
-/
namespace Mcpyrate.PyText
open Py

/-! Contexts. -/

mutual
theorem plain_toCtx (c : K) : ∀ (w t : Val), toCtx c w = some t → Plain t → Plain w := by
  intro w t h ht
  unfold toCtx at h
  split at h
  · cases h
    exact ⟨id, .inr (ht.2.1.resolve_left (by decide)), .inl rfl, trivial⟩
  · cases h
    exact ⟨id, .inr (ht.2.1.resolve_left (by decide)), .inr (ht.2.2.1.resolve_left (by decide)), .inl rfl, trivial⟩
  · cases h
    refine ⟨fun ho => ht.1 ?_, .inr (ht.2.1.resolve_left (by decide)), .inr (ht.2.2.1.resolve_left (by decide)), .inl rfl, trivial⟩
    obtain ⟨l, c, h⟩ := ho
    refine ⟨l, c, ?_⟩
    simpa using h
  · split at h
    · rename_i v _ _ v' e
      split at h
      · cases h
      · cases h
        exact ⟨id, .inr (plain_toCtx c v v' e (ht.2.1.resolve_left (by decide))), .inl rfl, trivial⟩
    · cases h
  · split at h
    · rename_i xs _ _ ys e
      cases h
      exact ⟨id, .inr (plain_toCtxL c xs ys e (ht.2.1.resolve_left (by decide))), .inl rfl, trivial⟩
    · cases h
  · split at h
    · rename_i xs _ _ ys e
      cases h
      exact ⟨id, .inr (plain_toCtxL c xs ys e (ht.2.1.resolve_left (by decide))), .inl rfl, trivial⟩
    · cases h
  · cases h
termination_by w => sizeOf w
theorem plain_toCtxL (c : K) : ∀ (ws ts : List Val), toCtxL c ws = some ts → PlainL ts → PlainL ws
  | [], _, _, _ => trivial
  | w :: ws, ts, h, ht => by
    unfold toCtxL at h
    split at h
    · rename_i y ys e1 e2
      cases h
      exact ⟨plain_toCtx c w y e1 ht.1, plain_toCtxL c ws ys e2 ht.2⟩
    · cases h
termination_by ws => sizeOf ws
end

variable {P : Reading} {p : Parser}

section
variable (hp : Sound P p) {ts : List Tok} (ht : Toks P ts)
include hp ht

theorem y_target : Yields P (pTarget p ts) (fun t => Plain t → IsTarget P t) := by
  unfold pTarget
  split
  · refine (hp.y (nt := .primary) trivial (by toks!)).seq fun v r hv hr => .map (fun t e h => ?_) hr
    have h' := plain_toCtx _ _ _ e h
    exact ⟨_, .starred (hv (part% h', .value)), e⟩
  · refine (hp.y (nt := .primary) trivial ht).seq fun v r hv hr => .map (fun t e h => ?_) hr
    exact ⟨_, .expr (hv (plain_toCtx _ _ _ e h)), e⟩

theorem y_delTarget : Yields P (pDelTarget p ts) (fun t => Plain t → IsDelTarget P t) := by
  refine (hp.y (nt := .primary) trivial ht).seq fun v r hv hr => .map (fun t e h => ?_) hr
  exact ⟨_, hv (plain_toCtx _ _ _ e h), e⟩

theorem y_ifs : Yields P (pIfs p ts) (LL (Ge P)) := by
  unfold pIfs
  split
  · exact (hp.y (nt := .disj) trivial (by toks!)).seq fun a r ha hr => (hp.y (nt := .ifs) trivial hr).seq fun l r hl hr =>
      .ret (LL.cons ha hl).ll hr
  · exact .ret .nil ht

theorem y_compIn {k : Int} (hk : k = 0 ∨ k = 1) {t : Val} (hg : Plain t → IsTarget P t) :
    Yields P (compIn p k t ts) (LN fun c => Plain c → Clause P c) := by
  unfold compIn
  split
  · refine (hp.y (nt := .disj) trivial (by toks!)).seq fun i r hi hr => (hp.y (nt := .ifs) trivial hr).seq fun l r hl hr =>
      (hp.y (nt := .comps) trivial hr).seq fun gs r hgs hr => .ret (LL.cons (fun h => ?_) hgs) hr
    obtain ⟨ls, rfl, hl⟩ := hl
    obtain ⟨w, hw, e⟩ := hg (part% h, .target)
    exact .clause hk hw e (hi (part% h, .iter)) fun x m => hl x m ((parts% h, .ifs) x m)
  · exact .none

theorem y_comps : Yields P (pComps p ts) (LL fun c => Plain c → Clause P c) := by
  unfold pComps
  split
  · exact (hp.y (nt := .target) trivial (by toks!)).seq fun t r h hr => (y_compIn hp hr (.inr rfl) h).mono fun _ => LN.ll
  · exact (hp.y (nt := .target) trivial (by toks!)).seq fun t r h hr => (y_compIn hp hr (.inl rfl) h).mono fun _ => LN.ll
  · exact .ret .nil ht

theorem x_comps {v : Val} {r : List Tok} (h : pComps p ts = some (v, r)) : v = .list [] → r = ts := by
  have key : ∀ k (hk : k = 0 ∨ k = 1) (ts : List Tok), Toks P ts → seq (p .target ts) (compIn p k) = some (v, r) → v ≠ .list [] := by
    intro k hk ts ht h
    obtain ⟨⟨xs, rfl, hx, _⟩, _⟩ := ((hp.y (nt := .target) trivial ht).seq fun t r h hr => y_compIn hp hr hk h) v r h
    intro e
    cases e
    exact hx rfl
  intro hv
  unfold pComps at h
  split at h
  · exact absurd hv (key 1 (.inr rfl) _ (by toks!) h)
  · exact absurd hv (key 0 (.inl rfl) _ (by toks!) h)
  · cases h
    rfl

/-! Subscripts. -/

theorem y_sliceStep {a b : Val} (ha : GO P a) (hb : GO P b) : Yields P (sliceStep p a b ts) (fun s => Plain s → Index P s) := by
  unfold sliceStep
  split
  · exact .ret (fun h => .slice (ha (part% h, .lower)) (hb (part% h, .upper)) .none) ht
  · exact (hp.y (nt := .expr) trivial ht).seq fun c r hc hr =>
      .ret (fun h => .slice (ha (part% h, .lower)) (hb (part% h, .upper)) (.some (hc (part% h, .step)))) hr

theorem y_sliceColon {a b : Val} (ha : GO P a) (hb : GO P b) : Yields P (sliceColon p a b ts) (fun s => Plain s → Index P s) := by
  unfold sliceColon
  split
  · exact y_sliceStep hp (by toks!) ha hb
  · exact .ret (fun h => .slice (ha (part% h, .lower)) (hb (part% h, .upper)) .none) ht

theorem y_sliceUpper {a : Val} (ha : GO P a) : Yields P (sliceUpper p a ts) (fun s => Plain s → Index P s) := by
  unfold sliceUpper
  split
  · exact y_sliceColon hp ht ha fun _ => .none
  · exact (hp.y (nt := .expr) trivial ht).seq fun b r hb hr => y_sliceColon hp hr ha fun h => .some (hb h)

theorem y_slice : Yields P (pSlice p ts) (fun s => Plain s → Index P s) := by
  unfold pSlice
  split
  · exact (hp.y (nt := .bin 0) trivial (by toks!)).seq fun a r ha hr => .ret (fun h => .item (.starred (ha (part% h, .value)))) hr
  · exact y_sliceUpper hp (by toks!) fun _ => .none
  · refine (hp.y (nt := .expr) trivial ht).seq fun a r ha hr => ?_
    unfold sliceRest
    split
    · exact y_sliceUpper hp (by toks!) fun h => .some (ha h)
    · exact .ret (fun h => .item (.expr (ha h))) hr

omit hp ht in
theorem Expr.tupleInv {v : Val} (h : Expr P v) (hk : v.isK .Tuple = true) : ∃ xs, v = PyText.tuple xs ∧ ∀ x ∈ xs, Item P x := by
  cases h
  case tuple xs h => exact ⟨xs, rfl, h⟩
  case comprehension k _ _ hk' _ _ _ =>
    simp at hk'
    rcases hk' with rfl | rfl | rfl <;> cases hk
  all_goals cases hk

theorem y_subs : Yields P (pSubs p ts) (Out P .subs) := by
  refine (hp.y (nt := .slice) trivial ht).seq fun s r hs hr => ?_
  unfold subsRest
  split
  · refine (hp.y (nt := .items .slice .rbrack) trivial (by toks!)).seq fun l r hl hr => .ret (fun h a ha _ => ?_) hr
    refine .subscriptTuple ha (by simp) fun x m => ?_
    have hm := (parts% h, .elts) x m
    rcases List.mem_cons.1 m with rfl | m
    · exact hs hm
    · exact LL.elts hl x m hm
  · refine .ret (fun h a ha hne => ?_) (by toks!)
    split at h
    · rename_i hst
      rw [if_pos hst]
      refine .subscriptTuple ha (by simp) fun x m => ?_
      cases List.mem_singleton.1 m
      exact hs ((parts% h, .elts) _ m)
    · rename_i hst
      rw [if_neg hst] at hne ⊢
      cases hs h with
      | item hi =>
        have he := hi.unstarred (by simpa using hst)
        by_cases hk : s.isK .Tuple = true
        · obtain ⟨xs, rfl, hx⟩ := he.tupleInv hk
          exact .subscriptTuple ha (fun e => hne (by rw [e])) fun x m => .item (hx x m)
        · exact .subscript ha he (by simpa using hk)
      | slice h1 h2 h3 => exact .subscriptSlice ha h1 h2 h3
  · exact .none

/-! Arguments and parameters. -/

theorem y_arg : Yields P (pArg p ts) (Out P .arg) := by
  unfold pArg
  split
  · exact (hp.y (nt := .expr) trivial (by toks!)).seq fun a r ha hr => .ret (fun h => .inl (.starred (ha (part% h, .value)))) hr
  · exact (hp.y (nt := .expr) trivial (by toks!)).seq fun a r ha hr => .ret (fun h => .inr (.doubleStar (ha (part% h, .value)))) hr
  · exact (hp.y (nt := .expr) trivial (by toks!)).seq fun a r ha hr =>
      .ret (fun h => .inr (.named ht.head (ha (part% h, .value)))) hr
  · exact (hp.y (nt := .expr) trivial ht).mono fun v hv h => .inl (.expr (hv h))

theorem y_annotation (ann : Bool) : Yields P (annotation p ann .expr ts) (AnnOut P ann) := by
  unfold annotation
  split
  · exact (hp.y (nt := .expr) trivial (by toks!)).mono fun v hv => ⟨by simp, fun h => .some (hv h)⟩
  · exact .ret ⟨fun _ => rfl, fun _ => .none⟩ ht

theorem y_annArgs (ann : Bool) : Yields P (annotation p ann .elem ts) (AnnArgs P ann) := by
  unfold annotation
  split
  · exact (hp.y (nt := .elem) trivial (by toks!)).mono fun v hv => ⟨by simp, fun h => .inr (hv h)⟩
  · exact .ret ⟨fun _ => rfl, fun _ => .inl rfl⟩ ht

theorem y_default : Yields P (defaultValue p ts) (GO P) := by
  unfold defaultValue
  split
  · exact (hp.y (nt := .expr) trivial (by toks!)).mono fun v hv h => .some (hv h)
  · exact .ret (fun _ => .none) ht

theorem y_param (ann : Bool) : Yields P (pParam p ann ts) (ParamOut P ann) := by
  unfold pParam
  split
  · exact .ret .slash (by toks!)
  · exact (y_annArgs hp (by toks!) ann).seq fun a r ha hr => .ret (.star ht.tail.head ha) hr
  · exact .ret .bare (by toks!)
  · exact (y_annotation hp (by toks!) ann).seq fun a r ha hr => .ret (.double ht.tail.head ha) hr
  · exact (y_annotation hp (by toks!) ann).seq fun a r ha hr => (y_default hp hr).seq fun d r hd hr =>
      .ret (.plain ht.head ha hd) hr
  · exact .none

end

/-- A parameter as the parser represents it. -/
def pairOf (q : Param) : Val := .list [argOf q.name q.ann, q.default]

def PGood (P : Reading) (ann : Bool) (q : Param) : Prop := IsName P q.name ∧ AnnOut P ann q.ann ∧ GO P q.default

def Pairs (P : Reading) (ann : Bool) (xs : List Val) : Prop := ∃ ps : List Param, xs = ps.map pairOf ∧ ∀ q ∈ ps, PGood P ann q

def ArgsOut (P : Reading) (ann : Bool) (a : Val) : Prop := a = .none ∨ ∃ x b, IsName P x ∧ AnnArgs P ann b ∧ a = argOf x b

def StarOut (P : Reading) (ann : Bool) (a : Val) : Prop := a = .none ∨ ∃ x b, IsName P x ∧ AnnOut P ann b ∧ a = argOf x b

theorem takePlain_ok {ann : Bool} : ∀ {xs : List Val}, (∀ x ∈ xs, ParamOut P ann x) →
    Pairs P ann (takePlain xs).1 ∧ ∀ x ∈ (takePlain xs).2, ParamOut P ann x
  | [], _ => ⟨⟨[], rfl, by simp⟩, by simp [takePlain]⟩
  | x :: xs, h => by
    have hx := h x (by simp)
    cases hx with
    | slash => exact ⟨⟨[], rfl, by simp⟩, h⟩
    | bare => exact ⟨⟨[], rfl, by simp⟩, h⟩
    | star h1 h2 => exact ⟨⟨[], rfl, by simp⟩, h⟩
    | double h1 h2 => exact ⟨⟨[], rfl, by simp⟩, h⟩
    | plain h1 h2 h3 =>
      rename_i x a d
      obtain ⟨⟨ps, e, hps⟩, h4⟩ := takePlain_ok (xs := xs) fun y hy => h y (by simp [hy])
      have e' : takePlain (.list [argOf x a, d] :: xs) = (.list [argOf x a, d] :: (takePlain xs).1, (takePlain xs).2) := rfl
      rw [e']
      refine ⟨⟨⟨x, a, d⟩ :: ps, by simp [e, pairOf], fun q m => ?_⟩, h4⟩
      rcases List.mem_cons.1 m with rfl | m
      · exact ⟨h1, h2, h3⟩
      · exact hps q m

theorem takePosonly_ok {ann : Bool} {xs ys r : List Val} (h : ∀ x ∈ xs, ParamOut P ann x) (e : takePosonly xs = some (ys, r)) :
    Pairs P ann ys ∧ ∀ x ∈ r, ParamOut P ann x := by
  obtain ⟨h1, h2⟩ := takePlain_ok h
  unfold takePosonly at e
  split at e
  · rename_i e'
    split at e
    · cases e
    · cases e
      rw [e'] at h1 h2
      exact ⟨h1, fun x m => h2 x (by simp [m])⟩
  · cases e
    exact ⟨⟨[], rfl, by simp⟩, h⟩

theorem argsOut_of {ann : Bool} {a : Val} (h : ParamOut P ann (.list [.str "*", a])) : ArgsOut P ann a := by
  generalize e : Val.list [.str "*", a] = v at h
  cases h with
  | slash => cases e
  | bare => cases e
  | star h1 h2 => cases e; exact .inr ⟨_, _, h1, h2, rfl⟩
  | double h1 h2 => simp [Val.str] at e
  | plain h1 h2 h3 => simp [argOf, mk, Val.str] at e

theorem starOut_of {ann : Bool} {a : Val} (h : ParamOut P ann (.list [.str "**", a])) : StarOut P ann a := by
  generalize e : Val.list [.str "**", a] = v at h
  cases h with
  | slash => cases e
  | bare => cases e
  | star h1 h2 => simp [Val.str] at e
  | double h1 h2 => cases e; exact .inr ⟨_, _, h1, h2, rfl⟩
  | plain h1 h2 h3 => simp [argOf, mk, Val.str] at e

theorem takeStar_out {ann : Bool} {xs ks r : List Val} {a : Val} (h : ∀ x ∈ xs, ParamOut P ann x) (e : takeStar xs = some (a, ks, r)) :
    ArgsOut P ann a ∧ Pairs P ann ks ∧ ∀ x ∈ r, ParamOut P ann x := by
  unfold takeStar at e
  split at e
  · obtain ⟨h1, h2⟩ := takePlain_ok (fun x m => h x (List.mem_cons_of_mem _ m))
    split at e
    · cases e
    · obtain ⟨rfl, e'⟩ := Prod.mk.inj (Option.some.inj e)
      rw [e'] at h1 h2
      exact ⟨.inl rfl, h1, h2⟩
  · obtain ⟨h1, h2⟩ := takePlain_ok (fun x m => h x (List.mem_cons_of_mem _ m))
    obtain ⟨rfl, e'⟩ := Prod.mk.inj (Option.some.inj e)
    rw [e'] at h1 h2
    exact ⟨argsOut_of (h _ List.mem_cons_self), h1, h2⟩
  · cases e
    exact ⟨.inl rfl, ⟨[], rfl, by simp⟩, h⟩

theorem takeDouble_out {ann : Bool} {xs : List Val} {a : Val} (h : ∀ x ∈ xs, ParamOut P ann x) (e : takeDouble xs = some a) :
    StarOut P ann a := by
  unfold takeDouble at e
  split at e
  · cases e; exact .inl rfl
  · cases e; exact starOut_of (h _ List.mem_cons_self)
  · cases e

theorem isNone_eq {v : Val} (h : v.isNone = true) : v = .none := by
  unfold Val.isNone at h
  split at h
  · rfl
  · cases h

theorem mem_dropNone {d : Val} : ∀ {ds : List Val}, d ∈ ds → d = .none ∨ d ∈ ds.dropWhile Val.isNone
  | x :: xs, h => by
    rw [List.dropWhile_cons]
    split
    · rename_i hx
      rcases List.mem_cons.1 h with rfl | h
      · exact .inl (isNone_eq hx)
      · exact mem_dropNone h
    · exact .inr h

theorem AnnOut.opt {ann : Bool} {x : String} {a : Val} (h : AnnOut P ann a) (hp : Plain (argOf x a)) : Opt P a :=
  h.2 (part% hp, .annotation)

theorem ArgsOut.arg {ann : Bool} {a : Val} (h : ArgsOut P ann a) (hp : Plain a) : ArgsArg P a ∧ (ann = false → Star P a) := by
  rcases h with rfl | ⟨x, b, hx, hb, rfl⟩
  · exact ⟨.inl rfl, fun _ => .none⟩
  · refine ⟨.inr ⟨x, b, hx, hb.2 (part% hp, .annotation), rfl⟩, fun ha => ?_⟩
    rw [hb.1 ha]
    exact .arg hx

theorem StarOut.arg {ann : Bool} {a : Val} (h : StarOut P ann a) (hp : Plain a) : StarArg P a ∧ (ann = false → Star P a) := by
  rcases h with rfl | ⟨x, b, hx, hb, rfl⟩
  · exact ⟨.inl rfl, fun _ => .none⟩
  · refine ⟨.inr ⟨x, b, hx, hb.opt hp, rfl⟩, fun ha => ?_⟩
    rw [hb.1 ha]
    exact .arg hx

theorem assemble_out {ann : Bool} {xs : List Val} {v : Val} (h : ∀ x ∈ xs, ParamOut P ann x) (e : assemble xs = some v) (hv : Plain v) :
    IsArguments P v ∧ (ann = false → LamArgs P v) := by
  unfold assemble at e
  split at e
  · cases e
  · rename_i ys r e1
    obtain ⟨⟨ps, rfl, hps⟩, hr⟩ := takePosonly_ok h e1
    obtain ⟨⟨as, e2, has⟩, hr2⟩ := takePlain_ok hr
    rw [e2] at e
    split at e
    · cases e
    · rename_i a ks' r' e3
      obtain ⟨ha, ⟨ks, rfl, hks⟩, hr3⟩ := takeStar_out hr2 e3
      split at e
      · rename_i b ds e4 e5
        have hb := takeDouble_out hr3 e4
        have f1 : ∀ qs : List Param, (qs.map pairOf).map fst = qs.map fun q => argOf q.name q.ann := by
          intro qs; simp [pairOf, fst, Function.comp_def]
        have f2 : ∀ qs : List Param, (qs.map pairOf).map snd = qs.map (·.default) := by
          intro qs; simp [pairOf, snd, Function.comp_def]
        rw [← List.map_append, f2] at e5
        rw [f1, f1, f1, f2] at e
        have e : v = argumentsTree ps as a ks b ds := (Option.some.inj e).symm
        subst e
        have hd : ds = ((ps ++ as).map (·.default)).dropWhile Val.isNone := by
          unfold defaultsOf at e5
          dsimp only at e5
          split at e5
          · cases e5
          · exact (Option.some.inj e5).symm
        have q1 : ∀ x ∈ ps.map fun q => argOf q.name q.ann, Plain x := parts% hv, .posonlyargs
        have q2 : ∀ x ∈ as.map fun q => argOf q.name q.ann, Plain x := parts% hv, .args
        have q3 : ∀ x ∈ ks.map fun q => argOf q.name q.ann, Plain x := parts% hv, .kwonlyargs
        have q4 : ∀ x ∈ ks.map (·.default), Plain x := parts% hv, .kw_defaults
        have q5 : ∀ x ∈ ds, Plain x := parts% hv, .defaults
        have key : ∀ q ∈ ps ++ as ++ ks, IsName P q.name ∧ Opt P q.ann ∧ Opt P q.default ∧ (ann = false → q.ann = .none) := by
          intro q m
          rcases List.mem_append.1 m with m | m
          · have hg : PGood P ann q ∧ Plain (argOf q.name q.ann) := by
              rcases List.mem_append.1 m with m | m
              · exact ⟨hps q m, q1 _ (List.mem_map.2 ⟨q, m, rfl⟩)⟩
              · exact ⟨has q m, q2 _ (List.mem_map.2 ⟨q, m, rfl⟩)⟩
            refine ⟨hg.1.1, hg.1.2.1.opt hg.2, ?_, hg.1.2.1.1⟩
            rcases mem_dropNone (List.mem_map_of_mem (f := Param.default) m) with h0 | h0
            · rw [h0]; exact .none
            · exact hg.1.2.2 (q5 _ (by rw [hd]; exact h0))
          · have hg := hks q m
            exact ⟨hg.1, hg.2.1.opt (x := q.name) (q3 _ (List.mem_map.2 ⟨q, m, rfl⟩)),
              hg.2.2 (q4 _ (List.mem_map.2 ⟨q, m, rfl⟩)), hg.2.1.1⟩
        have ha' := ha.arg (part% hv, .vararg)
        have hb' := hb.arg (part% hv, .kwarg)
        refine ⟨⟨ps, as, ks, a, b, ds, fun q m => ⟨(key q m).1, (key q m).2.1, (key q m).2.2.1⟩, ha'.1, hb'.1, e5, rfl⟩, fun hf => ?_⟩
        exact ⟨ps, as, ks, a, b, ds, fun q m => (key q m).1, fun q m => (key q m).2.2.2 hf, ha'.2 hf, hb'.2 hf,
          fun q m => (key q m).2.2.1, e5, rfl⟩
      · cases e

theorem y_params (hp : Sound P p) {ts : List Tok} (ht : Toks P ts) (ann : Bool) (s : Sym) :
    Yields P (pParams p ann s ts) (Out P (.params ann s)) :=
  (hp.y (nt := .items (.param ann) s) trivial ht).seq fun _ _ hl hr => .map (fun _ hv h => assemble_out (LL.elts hl) hv h) hr

end Mcpyrate.PyText
