import Verif.Spec.QuasiquoteMacro
import Verif.Lemmas.QuasiquoteBlock
import Verif.Lemmas.CaptureHistory
/-
Quoted code that captures macros (C58).
-/
namespace Mcpyrate.Quotes
open Py

variable {σ : Type} {H : Host σ}

theorem gensymQ_shape {b u : String} {s s' : St σ} (h : gensymQ b s = some (.ok u, s')) :
    b.toList.isPrefixOf u.toList = true ∧ u.toList ∉ s.gensym.previous ∧
      s'.gensym.previous = u.toList :: s.gensym.previous := by
  have h0 := (gensymQ_ok h).1
  unfold gensymQ Gensym.gensym at h
  cases hp : Gensym.prefixOf (.str b.toList) with
  | none => rw [hp] at h; cases h
  | some pre =>
    rw [hp] at h
    dsimp only at h
    cases hs : Gensym.search pre s.gensym.previous s.gensym.uuids with
    | none => rw [hs] at h; cases h
    | some q =>
      obtain ⟨x, us⟩ := q
      rw [hs] at h
      cases h
      refine ⟨?_, h0, by simp⟩
      have hpre : ∃ z, pre = b.toList ++ z := by
        simp only [Gensym.prefixOf] at hp
        split at hp <;> cases hp <;> first | exact ⟨_, rfl⟩ | exact ⟨[], (List.append_nil _).symm⟩
      obtain ⟨z, rfl⟩ := hpre
      obtain ⟨v, hv⟩ : ∃ v, x = b.toList ++ z ++ v := by
        clear h0 hp
        generalize s.gensym.uuids = us0 at hs
        induction us0 with
        | nil => cases hs
        | cons v us0 ih =>
          unfold Gensym.search at hs
          split at hs
          · exact ih hs
          · cases hs; exact ⟨v, rfl⟩
      rw [hv, List.isPrefixOf_iff_prefix]
      simp only [String.toList_ofList, List.append_assoc]
      exact List.prefix_append ..

theorem astify_code {E : Option (String → Option Obj)} (t : Obj) {c : Obj} {s s' : St σ}
    (h : astify H E t s = some (.ok c, s')) : Code c := by
  cases t with
  | const k => cases k <;> first | (cases h; exact Code.constant _) | cases h
  | list xs =>
    rw [astify] at h
    obtain ⟨_, _, _, h2⟩ := M.bind_some h
    cases h2; exact ⟨_, _, _, rfl, by decide⟩
  | tuple xs =>
    rw [astify] at h
    obtain ⟨_, _, _, h2⟩ := M.bind_some h
    cases h2; exact ⟨_, _, _, rfl, by decide⟩
  | set xs =>
    rw [astify] at h
    obtain ⟨_, _, _, h2⟩ := M.bind_some h
    cases h2; exact ⟨_, _, _, rfl, by decide⟩
  | dict ks vs =>
    rw [astify] at h
    obtain ⟨_, _, _, h2⟩ := M.bind_some h
    obtain ⟨_, _, _, h2⟩ := M.bind_some h2
    cases h2; exact ⟨_, _, _, rfl, by decide⟩
  | ref => cases h
  | ext => cases h
  | node cl l fs =>
    cases cl with
    | py k =>
      rw [astify] at h
      obtain ⟨_, _, _, h2⟩ := M.bind_some h
      cases h2; exact Code.call _ _
    | marker n =>
      rw [astify] at h
      split at h
      · obtain ⟨_, _, _, h2⟩ := M.bind_some h
        cases h2; exact Code.call _ _
      split at h
      · obtain ⟨_, _, _, h2⟩ := M.bind_some h
        obtain ⟨_, _, _, h2⟩ := M.bind_some h2
        split at h2 <;> cases h2
        exact Code.call _ _
      split at h
      · obtain ⟨_, _, _, h2⟩ := M.bind_some h
        obtain ⟨_, _, _, h2⟩ := M.bind_some h2
        split at h2 <;> cases h2
        exact Code.call _ _
      split at h
      · obtain ⟨_, _, _, h2⟩ := M.bind_some h
        cases h2; exact Code.call _ _
      split at h
      · obtain ⟨_, _, _, h2⟩ := M.bind_some h
        cases h2; exact Code.call _ _
      split at h
      · obtain ⟨_, _, _, h2⟩ := M.bind_some h
        rename_i b _ _
        cases hcap : captured E b with
        | some x =>
          rw [hcap] at h2
          obtain ⟨_, _, _, _, _, rfl⟩ := captureMacro_ok h2
          exact Code.call _ _
        | none =>
          rw [hcap] at h2
          obtain ⟨_, _, _, h2⟩ := M.bind_some h2
          split at h2 <;> cases h2
          exact Code.call _ _
      split at h
      · obtain ⟨_, _, _, h2⟩ := M.bind_some h
        cases h2; exact Code.call _ _
      · cases h

/-- No macros. -/
abbrev noMacros : Option (String → Option Obj) := some fun _ => none

theorem captured_some {g : String → Option Obj} {e f : Obj} {k : String} (h : captured (some g) e = some (f, k)) :
    IsName e k ∧ g k = some f := by
  unfold captured at h
  dsimp only at h
  split at h
  · rename_i hk
    split at h
    · rename_i n hn
      obtain ⟨x, hx, hy⟩ := Option.map_eq_some_iff.1 h
      cases hy
      exact ⟨⟨hk, hn⟩, hx⟩
    · cases h
  · cases h

theorem captured_of {g : String → Option Obj} {e f : Obj} {k : String} (h : IsName e k) (hg : g k = some f) :
    captured (some g) e = some (f, k) := by
  unfold captured
  dsimp only
  rw [if_pos h.1, h.2]
  dsimp only
  rw [hg]
  rfl

/-- The commands: one that captures a macro, or one for which it does not matter what the macros are. -/
theorem builds_marker (hH : Imported H) {g : String → Option Obj} {n : String} {l : Loc} {fs : List (F × Obj)}
    {code r : Obj} {s s' st st' : St σ} (hn : n ≠ "Done") (ht : template noMacros (.node (.marker n) l fs) = true)
    (ha : astify H (some g) (.node (.marker n) l fs) s = some (.ok code, s')) (he : eval H code st = some (.ok r, st')) :
    Builds H g s.gensym.previous (.node (.marker n) l fs) st r st' s'.gensym.previous := by
  by_cases hc : ∃ k f, CapturesMacro g n fs k f
  · obtain ⟨k, f, hcm⟩ := hc
    obtain ⟨rfl, e, hl, hk, hf⟩ := hcm
    have hfs : ∃ c, fs = [(.body, e), (.name, .const c)] := by
      rw [template.eq_def] at ht
      dsimp only at ht
      rw [if_neg hn] at ht
      split at ht
      · simp at ht
      · simp at ht
      · simp at ht
      · rename_i c; cases hl; exact ⟨_, rfl⟩
      · cases ht
    obtain ⟨c, rfl⟩ := hfs
    have ha' : captureMacro H f k s = some (.ok code, s') := by
      rw [astify] at ha
      obtain ⟨b, s1, h1, h2⟩ := M.bind_some ha
      cases h1
      rw [captured_of hk hf] at h2
      exact h2
    obtain ⟨b, u, -, hp, hg, rfl⟩ := captureMacro_ok ha'
    obtain ⟨h1, h2, h3⟩ := gensymQ_shape hg
    rw [h3]
    have he : lookupMacro H u (.bytes b) st = some (.ok r, st') := by
      rw [← eval_macroCode hH ⟨scrub H k, u, b⟩]
      exact he
    have hs : (Scrub.scrubUuid H.tables k.toList).isPrefixOf u.toList = true := by
      have : (scrub H k).toList = Scrub.scrubUuid H.tables k.toList := by unfold scrub; simp
      rw [← this]; exact h1
    rcases lookupMacro_spec he with ⟨_, hx, _⟩ | ⟨hr, rfl, hm⟩ | ⟨hr, hno, m, hu, rfl⟩
    · cases hx
    · cases hr
      exact .macro_ ⟨rfl, e, rfl, hk, hf⟩ hp h2 hs (.inl ⟨hm, rfl⟩) ⟨rfl, rfl⟩
    · cases hr
      exact .macro_ ⟨rfl, e, rfl, hk, hf⟩ hp h2 hs
        (.inr ⟨hno, m, hu, rfl, rfl, fun k' => by
          show (st.globals.set u m).get k' = _
          rw [Dict.get_set]
          by_cases hk' : k' = u
          · rw [if_pos hk', if_pos hk'.symm]
          · rw [if_neg hk', if_neg (Ne.symm hk')]⟩) ⟨rfl, rfl⟩
  · have hnot : ∀ k f, ¬ CapturesMacro g n fs k f := fun k f h => hc ⟨k, f, h⟩
    have ht' : template (some g) (.node (.marker n) l fs) = true := by
      rw [template.eq_def] at ht ⊢
      dsimp only at ht ⊢
      rw [if_neg hn] at ht ⊢
      split at ht
      · exact ht
      · exact ht
      · exact ht
      · rename_i e c
        simp only [Bool.and_eq_true, decide_eq_true_eq] at ht ⊢
        refine ⟨ht.1, ?_⟩
        cases hcap : captured (some g) e with
        | none => rfl
        | some x =>
          obtain ⟨f, k⟩ := x
          obtain ⟨h1, h2⟩ := captured_some hcap
          exact absurd ⟨ht.1.1, e, rfl, h1, h2⟩ (hnot k f)
      · cases ht
    obtain ⟨code', h1, -, h3⟩ := compile hH (some g) _ ht'
    rw [h1] at ha
    cases ha
    rw [h3] at he
    exact .command hn hnot (means_marker hH hn ht' he)

mutual
theorem buildsF_names {g : String → Option Obj} {prev prev' : List (List Char)} {fs gs : List (F × Obj)} {st st' : St σ}
    (h : BuildsF H g prev fs st gs st' prev') : gs.map (·.1) = fs.map (·.1) := by
  match h with
  | .nil => rfl
  | .cons _ hr => simp [buildsF_names hr]
end

mutual
theorem builds_of (hH : Imported H) {g : String → Option Obj} (t : Val) {code r : Obj} {s s' st st' : St σ}
    (ht : template noMacros (.ofVal t) = true) (ha : astify H (some g) (.ofVal t) s = some (.ok code, s'))
    (he : eval H code st = some (.ok r, st')) :
    Builds H g s.gensym.previous (.ofVal t) st r st' s'.gensym.previous := by
  match t with
  | .const c =>
    rw [Obj.ofVal] at ha
    cases c <;> cases ha <;> cases he <;> exact .const
  | .list xs =>
    rw [Obj.ofVal, astify] at ha
    obtain ⟨cs, s1, h1, h2⟩ := M.bind_some ha
    cases h2
    change (do return Obj.list (← evalL H cs) : Q σ Obj) st = _ at he
    obtain ⟨ys, st1, h3, h4⟩ := M.bind_some he
    cases h4
    exact .list (builds_ofL hH xs (by simpa [Obj.ofVal, template] using ht) h1 h3)
  | .node (.py k) l fs =>
    rw [Obj.ofVal, astify] at ha
    obtain ⟨kws, s1, h1, h2⟩ := M.bind_some ha
    cases h2
    simp only [Obj.ofVal, template, Bool.and_eq_true] at ht
    rw [eval_call, eval_astClass hH, M.pure_bind'] at he
    obtain ⟨as, st1, h3, h4⟩ := M.bind_some he
    cases h3
    obtain ⟨ks, st2, h5, h6⟩ := M.bind_some h4
    obtain ⟨gs, rfl, hb⟩ := builds_ofF hH fs ht.2 h1 h5
    rw [call_class H (by rw [shaped_congr (buildsF_names hb)]; exact ht.1)] at h6
    cases h6
    exact .node hb
  | .node (.marker n) l fs =>
    by_cases hn : n = "Done"
    · subst hn
      rw [Obj.ofVal, astify] at ha
      simp only [String.reduceEq, if_false, if_true] at ha
      obtain ⟨kws, s1, h1, h2⟩ := M.bind_some ha
      cases h2
      simp only [Obj.ofVal, template, if_true, Bool.and_eq_true, beq_iff_eq] at ht
      change eval H (.node (.py .Call) {} [(.func, quotesAttr "Done"), (.args, .list []), (.keywords, .list kws)]) st = _ at he
      rw [eval_call, eval_quotesAttr hH (by decide), M.pure_bind'] at he
      obtain ⟨as, st1, h3, h4⟩ := M.bind_some he
      cases h3
      obtain ⟨ks, st2, h5, h6⟩ := M.bind_some h4
      obtain ⟨gs, rfl, hb⟩ := builds_ofF hH fs ht.2 h1 h5
      have hnm := buildsF_names hb
      rw [ht.1] at hnm
      match gs, hnm, hb, h6 with
      | [(f, x)], hnm, hb, h6 =>
        simp only [List.map_cons, List.map_nil, List.cons.injEq, and_true] at hnm
        subst hnm
        have h7 : (pure (.node (.marker "Done") {} [(.body, x)]) : Q σ Obj) st2 = some (.ok r, st') := by
          rw [← call_done H x]; exact h6
        cases h7
        exact .done hb
    · exact builds_marker hH hn ht ha he
termination_by structural t
theorem builds_ofL (hH : Imported H) {g : String → Option Obj} (ts : List Val) {cs rs : List Obj} {s s' st st' : St σ}
    (ht : templateL noMacros (Obj.ofVals ts) = true) (ha : astifyL H (some g) (Obj.ofVals ts) s = some (.ok cs, s'))
    (he : evalL H cs st = some (.ok rs, st')) :
    BuildsL H g s.gensym.previous (Obj.ofVals ts) st rs st' s'.gensym.previous := by
  match ts with
  | [] => cases ha; cases he; exact .nil
  | t :: ts =>
    simp only [Obj.ofVals, templateL, Bool.and_eq_true] at ht
    rw [Obj.ofVals, astifyL] at ha
    obtain ⟨c, s1, h1, h2⟩ := M.bind_some ha
    obtain ⟨cs, s2, h3, h4⟩ := M.bind_some h2
    cases h4
    rw [evalL_cons (astify_code _ h1).notStarred] at he
    obtain ⟨y, st1, h5, h6⟩ := M.bind_some he
    obtain ⟨ys, st2, h7, h8⟩ := M.bind_some h6
    cases h8
    exact .cons (builds_of hH t ht.1 h1 h5) (builds_ofL hH ts ht.2 h3 h7)
termination_by structural ts
theorem builds_ofF (hH : Imported H) {g : String → Option Obj} (fs : List (F × Val)) {cs : List Obj}
    {ks : List (String × Obj)} {s s' st st' : St σ} (ht : templateF noMacros (Obj.ofFields fs) = true)
    (ha : astifyF H (some g) (Obj.ofFields fs) s = some (.ok cs, s')) (he : evalKws H cs st = some (.ok ks, st')) :
    ∃ gs, ks = gs.map (fun p => (p.1.text, p.2)) ∧
      BuildsF H g s.gensym.previous (Obj.ofFields fs) st gs st' s'.gensym.previous := by
  match fs with
  | [] => cases ha; cases he; exact ⟨[], rfl, .nil⟩
  | (f, t) :: fs =>
    simp only [Obj.ofFields, templateF, Bool.and_eq_true] at ht
    rw [Obj.ofFields, astifyF] at ha
    obtain ⟨c, s1, h1, h2⟩ := M.bind_some ha
    obtain ⟨cs, s2, h3, h4⟩ := M.bind_some h2
    cases h4
    rw [evalKws_cons] at he
    obtain ⟨y, st1, h5, h6⟩ := M.bind_some he
    obtain ⟨ys, st2, h7, h8⟩ := M.bind_some h6
    cases h8
    obtain ⟨gs, rfl, hb⟩ := builds_ofF hH fs ht.2 h3 h7
    exact ⟨(f, y) :: gs, rfl, .cons (builds_of hH t ht.1 h1 h5) hb⟩
termination_by structural fs
end

end Mcpyrate.Quotes

namespace Mcpyrate.QuoteOps
open Py Expander Quotes

variable {σ : Type} {L : Lib σ} {E : Env (User σ)} {w w0 : W σ}

/-- What quoted code stands for is a template, apart from the macros. -/
theorem res_noMacros {n : Nat} {t d : Val} (h : Res L E w n t d) (hn : 0 < n) (hs : Source t) (hu : Unstarred L E w t) :
    template noMacros (.ofVal d) = true := by
  let w1 : W σ := { w with locals := [], globals := [] }
  have hb : ∀ k, isbound w1 k = none := fun k => rfl
  have : bound L w1 = noMacros := by
    unfold bound noMacros
    congr 1
  rw [← this]
  exact res_template h hn hs fun u op x hr hx => ⟨hu u op x hr hx, fun _ k _ _ => hb k⟩

/-- What the compiled code builds. -/
theorem compiled_builds (hH : Imported L.H) {fn : String} {d c : Val}
    (hc : Compiled L fn w0 d c) (ht : template noMacros (.ofVal d) = true) :
    ∃ prev prev', ∀ r st st', Evaluates L.H (.ofVal c) st r st' →
      ∃ m, Builds L.H (macros L w0) prev (.ofVal d) st m st' prev' ∧ (flat m = true → filled m = some r) := by
  obtain ⟨s1, s2, hq⟩ := hc
  refine ⟨s1.gensym.previous, s2.gensym.previous, fun r st st' he => ?_⟩
  unfold Quotes.quote at hq
  obtain ⟨code, s3, h1, h2⟩ := M.bind_some hq
  generalize Obj.ofVal c = c0 at *
  cases h2
  have h5 : (do lift (spliceAstLiterals (← eval L.H code))) st = some (.ok r, st') :=
    (congrFun (eval_unquote hH {} (by decide) (Quotes.astify_code (Obj.ofVal d) h1).notStarred [.str fn]) st).symm.trans he
  obtain ⟨m, h3, h4⟩ := lift_bind_some h5
  exact ⟨m, builds_of hH d ht h1 h3, fun hf => ((spliceAstLiterals_iff hf).1 h4).2⟩

/-- What `with q as name:` returns. -/
theorem quote_block (L : Lib σ) (E : Env (User σ)) (hL : HasOps L E)
    (hm : ∀ i, (∀ op, i ≠ L.id op) → ∀ a x, ((E.macros i).fn a).Ends both x x)
    (hh : ∀ i t r n x, (E.hooks i t r n).Ends both x x)
    (a : MArgs) (body : List Val) (ret : Ret) (s s' : Expander.St (User σ)) (n : Nat) (w : W σ)
    (hw : w = { s.world with locals := quoteBindings L s.world }) (hg : Dict.WF s.world.globals)
    (ho : OnlyOps L E w a.tree) (ha : a.synt = .block) (h0 : value s.world = 0) (hb : a.tree = .list body) (hne : body ≠ [])
    (hq : ∀ x ∈ body, Quotable E w x)
    (h : run (visit E n) ((E.macros (L.id .q)).fn a) s = some (.ok ret, s')) :
    ∃ v target c ds, ret = .val v ∧ a.optionalVars = some target ∧ target.isK .Name = true ∧ v.isK .Assign = true ∧
      v.get? .targets = some (.list [target]) ∧ v.get? .value = some c ∧
      ResL L E w 1 body ds ∧ Compiled L E.filename s.world (.list ds) c := by
  subst hw
  have hk := keeps_both hL hm hh
  rw [hL .q] at h
  obtain ⟨x', v, s2, hv, rfl, hcs⟩ := quote_step hk (.inr ha) h
  rcases hcs with ⟨hpos, -⟩ | ⟨-, w, w', hbb, hcomp⟩
  · omega
  · rw [hb] at hv
    obtain ⟨ds, hd, hres⟩ := visit_block_stands (s := raised L s) (n := 1) hk hL hne (hb ▸ ho) hq
      ⟨rfl, rfl, by show value s.world + 1 = 1; rw [h0], fun k => rfl, quoteBindings_WF L hg, hg, quoteBindings_ops L hg⟩ hv
    obtain ⟨d', c, hd', hc', he⟩ := compile_inv (bindings_isbound hbb) hcomp
    rw [hd] at hd'
    cases hd'
    rcases he with ⟨h1, -⟩ | ⟨-, h1⟩
    · exact absurd ha h1
    · unfold assign at h1
      split at h1
      · cases h1
      · rename_i target ht
        split at h1
        · cases h1
        · split at h1
          · rename_i hk'
            cases h1
            exact ⟨_, target, c, ds, rfl, ht, hk', rfl, rfl, rfl, hres, hc'⟩
          · cases h1

end Mcpyrate.QuoteOps
