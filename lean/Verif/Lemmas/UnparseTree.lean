import Verif.Lemmas.UnparseParams
/-
Every expression is written so that it is read back.
-/
namespace Mcpyrate.PyText
open Py
open Unparse (Host)

variable {P : Reading} {H : Host}

theorem binaryOps_sym {k : K} (h : k ∈ binaryOps) : (∃ l s, binSym l s = some k) ∨ k = .Pow := by
  simp only [binaryOps, List.mem_cons, List.not_mem_nil, or_false] at h
  rcases h with rfl | rfl | rfl | rfl | rfl | rfl | rfl | rfl | rfl | rfl | rfl | rfl | rfl
  · exact .inl ⟨4, .plus, rfl⟩
  · exact .inl ⟨4, .minus, rfl⟩
  · exact .inl ⟨5, .star, rfl⟩
  · exact .inl ⟨5, .slash, rfl⟩
  · exact .inl ⟨5, .slashSlash, rfl⟩
  · exact .inl ⟨5, .percent, rfl⟩
  · exact .inl ⟨5, .at, rfl⟩
  · exact .inr rfl
  · exact .inl ⟨3, .ltLt, rfl⟩
  · exact .inl ⟨3, .gtGt, rfl⟩
  · exact .inl ⟨0, .bar, rfl⟩
  · exact .inl ⟨1, .caret, rfl⟩
  · exact .inl ⟨2, .amp, rfl⟩

theorem comparisons_op {k : K} (h : k ∈ comparisons) : ∃ w, Unparse.cmpop k = some w := by
  simp only [comparisons, List.mem_cons, List.not_mem_nil, or_false] at h
  rcases h with rfl | rfl | rfl | rfl | rfl | rfl | rfl | rfl | rfl | rfl <;> exact ⟨_, rfl⟩

theorem compareTree_eq {a : Val} {p : K × Val} {ps : List (K × Val)} : compareTree a (p :: ps) = compare a ((p :: ps).map cmpPair) := by
  simp only [compareTree, compare, List.map_cons, List.map_map]; rfl

theorem dictTree_eq {ps : List (Val × Val)} : dictTree ps = dict (ps.map dictPair) := by
  simp only [dictTree, dict, List.map_map]; rfl

theorem argumentsTree_eq {ps as ks : List Param} {v w : Val} {ds : List Val} :
    argumentsTree ps as v ks w ds = argumentsOf (ps.map Param.val) (as.map Param.val) v (ks.map Param.val) w ds := by
  simp only [argumentsTree, argumentsOf, List.map_map]; rfl

theorem Star.ok {v : Val} (h : Star P v) {ann : Bool} : StarOK P H ann v := by
  cases h with
  | none => exact .inl rfl
  | arg hx => exact .inr ⟨_, _, rfl, hx, .inl rfl⟩

mutual
theorem Expr.good (hP : P.Lawful) : ∀ {v : Val}, Expr P v → G P H v
  | _, .name h => ⟨_, _, good_name hP h⟩
  | _, .int _ => ⟨_, _, good_int⟩
  | _, .float h => have ⟨_, h⟩ := good_float (H := H) hP (r := P.float _) ⟨_, h, rfl⟩; ⟨_, _, h⟩
  | _, .imag h => have ⟨_, h⟩ := good_imag (H := H) hP (r := P.imag _) ⟨_, h, rfl⟩; ⟨_, _, h⟩
  | _, .str _ _ => have ⟨_, h⟩ := good_str (H := H); ⟨_, _, h⟩
  | _, .bytes h => have ⟨_, h⟩ := good_bytes (P := P) (H := H) h; ⟨_, _, h⟩
  | _, .bool true => ⟨_, _, good_true hP⟩
  | _, .bool false => ⟨_, _, good_false hP⟩
  | _, .none => ⟨_, _, good_none hP⟩
  | _, .ellipsis => ⟨_, _, good_ellipsis⟩
  | _, .binOp hk ha hb => by
    have ha : G P H _ := Expr.good hP ha
    have hb := Expr.good hP hb
    rcases binaryOps_sym hk with ⟨l, s, hs⟩ | rfl
    · exact g_binOp hs ha hb
    · exact g_pow ha hb
  | _, .unaryOp hk ha => by
    have ha : G P H _ := Expr.good hP ha
    simp only [List.mem_cons, List.not_mem_nil, or_false] at hk
    rcases hk with rfl | rfl | rfl | rfl
    · exact g_unaryOp (s := .plus) rfl ha
    · exact g_unaryOp (s := .minus) rfl ha
    · exact g_unaryOp (s := .tilde) rfl ha
    · exact g_not hP ha
  | _, .boolOp (xs := xs) hk hl h => by
    have h : ∀ x ∈ xs, G P H x := fun x hx => Expr.good hP (h x hx)
    match xs, hl, h with
    | a :: b :: bs, _, h =>
      rcases hk with rfl | rfl
      · exact g_and hP h
      · exact g_or hP h
  | _, .compare (ps := ps) ha hp hk h => by
    have ha : G P H _ := Expr.good hP ha
    have h : ∀ p ∈ ps, G P H p.2 := fun p hp => Expr.good hP (h p hp)
    cases ps with
    | nil => exact absurd rfl hp
    | cons p ps => rw [compareTree_eq]; exact g_compare hP ha fun q hq => ⟨comparisons_op (hk q hq), h q hq⟩
  | _, .ifExp ha hb hc => g_ifExp hP (Expr.good hP ha) (Expr.good hP hb) (Expr.good hP hc)
  | _, .namedExpr hx ha => g_namedExpr hP hx (Expr.good hP ha)
  | _, .await h => g_await hP (Expr.good hP h)
  | _, .yield h => g_yield hP (Expr.good hP h)
  | _, .yieldNone => g_yieldNone hP
  | _, .yieldFrom h => g_yieldFrom hP (Expr.good hP h)
  | _, .tuple h => g_tuple fun x hx => Item.elem hP (h x hx)
  | _, .list h => g_list fun x hx => Item.elem hP (h x hx)
  | _, .set (xs := xs) hx h => by
    have h : ∀ x ∈ xs, Elem P H x := fun x hx => Item.elem hP (h x hx)
    cases xs with
    | nil => exact absurd rfl hx
    | cons => exact g_set h
  | _, .dict hk hv => by
    rw [dictTree_eq]; exact g_dict fun p hp => ⟨Expr.good hP (hk p hp), Expr.good hP (hv p hp)⟩
  | _, .comprehension (gs := gs) hk ha hg h => by
    have ha : G P H _ := Expr.good hP ha
    have h : ∀ g ∈ gs, IsClause P H g := fun g hg => Clause.ok hP (h g hg)
    simp only [List.mem_cons, List.not_mem_nil, or_false] at hk
    rcases hk with rfl | rfl | rfl
    · exact g_listComp hP ha h hg
    · exact g_setComp hP ha h hg
    · exact g_generatorExp hP ha h hg
  | _, .dictComp ha hb hg h => g_dictComp hP (Expr.good hP ha) (Expr.good hP hb) (fun g hg => Clause.ok hP (h g hg)) hg
  | _, .attribute ha hx => g_attr hP (Expr.good hP ha) hx
  | _, .subscript ha hs ht => by
    have ⟨s, ts, g⟩ : G P H _ := Expr.good hP hs
    exact g_subscript (Expr.good hP ha) (.inl (.inl ⟨s, ts, g⟩)) ht g.notStarred
  | _, .subscriptSlice ha hx hy hz => g_subscript (Expr.good hP ha) (.inr ⟨_, _, _, rfl, Opt.ok hP hx, Opt.ok hP hy, Opt.ok hP hz⟩) rfl rfl
  | _, .subscriptTuple (xs := xs) ha hx h => by
    have ha : G P H _ := Expr.good hP ha
    have h : ∀ x ∈ xs, SliceItem P H x := fun x hx => Index.ok hP (h x hx)
    cases xs with
    | nil => exact absurd rfl hx
    | cons => exact g_subscriptTuple ha h
  | _, .call hf ha hk => g_call hP (Expr.good hP hf) (fun a h => Item.elem hP (ha a h)) (fun k h => Keyword.ok hP (hk k h))
  | _, .lambda (ps := ps) (as := as) (ks := ks) hn ha hv hw ho hd hb => by
    have hp : ∀ p ∈ ps ++ as ++ ks, p.OK P H false := fun p hp => ⟨hn p hp, .inl (ha p hp), Opt.ok hP (ho p hp)⟩
    rw [argumentsTree_eq]
    exact g_lambda hP (fun p h => hp p (by simp [h])) (fun p h => hp p (by simp [h])) (fun p h => hp p (by simp [h]))
      hv.ok hw.ok hd (Expr.good hP hb)
theorem Item.elem (hP : P.Lawful) : ∀ {v : Val}, Item P v → Elem P H v
  | _, .expr h => .inl (Expr.good hP h)
  | _, .starred h => .inr ⟨_, rfl, Expr.good hP h⟩
theorem Index.ok (hP : P.Lawful) : ∀ {v : Val}, Index P v → SliceItem P H v
  | _, .item h => .inl (Item.elem hP h)
  | _, .slice ha hb hc => .inr ⟨_, _, _, rfl, Opt.ok hP ha, Opt.ok hP hb, Opt.ok hP hc⟩
theorem Opt.ok (hP : P.Lawful) : ∀ {v : Val}, Opt P v → OptG P H v
  | _, .none => .inl rfl
  | _, .some h => .inr (Expr.good hP h)
theorem Keyword.ok (hP : P.Lawful) : ∀ {v : Val}, Keyword P v → Kw P H v
  | _, .doubleStar h => .inl ⟨_, rfl, Expr.good hP h⟩
  | _, .named hx h => .inr ⟨_, _, rfl, hx, Expr.good hP h⟩
theorem Clause.ok (hP : P.Lawful) : ∀ {v : Val}, Clause P v → IsClause P H v
  | _, .clause hk hw ht hi hl => ⟨_, _, _, _, rfl, hk, ⟨_, ht, Item.elem hP hw⟩, Expr.good hP hi, fun l h => Expr.good hP (hl l h)⟩
end

end Mcpyrate.PyText
