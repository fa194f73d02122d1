import Verif.Spec.GetMacros
namespace Mcpyrate.GetMacros
open Py Paths

theorem splitDots_ne (s : Str) : splitDots s ≠ [] := by
  cases s with
  | nil => simp [splitDots]
  | cons c cs =>
    rw [splitDots]
    split
    · simp
    · split <;> simp

theorem splitDots_nodot (s : Str) : ∀ c ∈ splitDots s, '.' ∉ c := by
  induction s with
  | nil => simp [splitDots]
  | cons c cs ih =>
    rw [splitDots]
    split
    · intro x hx
      rcases List.mem_cons.1 hx with rfl | hx
      · simp
      · exact ih x hx
    · rename_i hc
      split
      · rename_i h; exact absurd h (splitDots_ne cs)
      · rename_i x xs h
        rw [h] at ih
        intro y hy
        rcases List.mem_cons.1 hy with rfl | hy
        · rw [List.mem_cons]
          rintro (h | h)
          · exact hc h.symm
          · exact ih x (by simp) h
        · exact ih y (by simp [hy])

theorem joinDots_cons (x : Str) (xs : List Str) (h : xs ≠ []) :
    joinDots (x :: xs) = x ++ '.' :: joinDots xs := by
  cases xs with
  | nil => exact absurd rfl h
  | cons y ys => rfl

theorem join_split (s : Str) : joinDots (splitDots s) = s := by
  induction s with
  | nil => simp [splitDots, joinDots]
  | cons c cs ih =>
    rw [splitDots]
    split
    · rename_i hc
      rw [joinDots_cons _ _ (splitDots_ne cs), ih, hc]; rfl
    · split
      · rename_i h; exact absurd h (splitDots_ne cs)
      · rename_i x xs h
        rw [h] at ih
        cases xs with
        | nil => simp only [joinDots] at ih ⊢; rw [ih]
        | cons y ys =>
          rw [joinDots_cons _ _ (by simp)] at ih ⊢
          rw [← ih]; rfl

theorem split_nodot (x : Str) (h : '.' ∉ x) : splitDots x = [x] := by
  induction x with
  | nil => rfl
  | cons c cs ih =>
    rw [List.mem_cons, not_or] at h
    rw [splitDots, if_neg (Ne.symm h.1), ih h.2]

theorem split_append (x rest : Str) (h : '.' ∉ x) :
    splitDots (x ++ '.' :: rest) = x :: splitDots rest := by
  induction x with
  | nil => simp [splitDots]
  | cons c cs ih =>
    rw [List.mem_cons, not_or] at h
    rw [List.cons_append, splitDots, if_neg (Ne.symm h.1), ih h.2]

theorem split_join (xs : List Str) (hne : xs ≠ []) (h : ∀ c ∈ xs, '.' ∉ c) :
    splitDots (joinDots xs) = xs := by
  induction xs with
  | nil => exact absurd rfl hne
  | cons x xs ih =>
    by_cases hx : xs = []
    · subst hx; exact split_nodot x (h x (by simp))
    · rw [joinDots_cons _ _ hx, split_append _ _ (h x (by simp)), ih hx fun c hc => h c (by simp [hc])]

theorem dotsOf_iff {pkg base : Str} {n : Nat} :
    DotsOf pkg (n + 1) base ↔ n + 1 ≤ (splitDots pkg).length ∧
      base = joinDots ((splitDots pkg).take ((splitDots pkg).length - n)) := by
  constructor
  · rintro ⟨front, back, h1, h2, h3, rfl, rfl⟩
    rw [split_join _ (by simp [h2]) h1]
    have hf : 0 < front.length := List.length_pos_iff.2 h2
    simp only [Nat.add_sub_cancel] at h3
    have e : front.length + n - n = front.length := by omega
    refine ⟨by simp; omega, ?_⟩
    rw [List.length_append, h3, e]
    simp
  · rintro ⟨h1, rfl⟩
    refine ⟨(splitDots pkg).take ((splitDots pkg).length - n),
      (splitDots pkg).drop ((splitDots pkg).length - n), ?_, ?_, ?_, ?_, rfl⟩
    · rw [List.take_append_drop]; exact splitDots_nodot pkg
    · intro h
      have := congrArg List.length h
      simp at this; omega
    · simp; omega
    · rw [List.take_append_drop, join_split]

theorem resolvePackage_ne {fs : FS} {sp : List Str} {f : Str} {p : Str}
    (h : resolvePackage fs sp f = .ok p) : p ≠ [] := by
  unfold resolvePackage at h
  dsimp only at h
  split at h
  · cases h
  · split at h
    · cases h
    · rename_i hne
      cases h
      simpa [dotted] using hne

theorem resolveName_ok {n : Nat} {name a : String} {pkg : Str} (hp : pkg ≠ []) (hn : name ≠ "") :
    resolveName (n + 1) name (some pkg) = .ok a ↔
      ∃ base, DotsOf pkg (n + 1) base ∧ a = String.ofList (base ++ '.' :: name.toList) := by
  cases pkg with
  | nil => exact absurd rfl hp
  | cons c cs =>
    simp only [resolveName, Nat.add_eq_zero_iff, Nat.succ_ne_self, and_false, if_false, hn,
      Nat.add_sub_cancel]
    constructor
    · intro h
      split at h
      · cases h
      · cases h
        exact ⟨_, dotsOf_iff.2 ⟨by omega, rfl⟩, rfl⟩
    · rintro ⟨base, hb, rfl⟩
      obtain ⟨h1, rfl⟩ := dotsOf_iff.1 hb
      rw [if_neg (by omega)]

variable {σ M O : Type}

/-- The importing part of `findModule`. -/
theorem imports_iff {I : Interp σ M O} {o : Opts} {a : String} {s s' : σ} {b : String} {m : M} :
    ((match I.importModule a s with
      | (.error e, s) => (.error e, s)
      | (.ok m, s) =>
        if o.reload then
          match I.reload m s with
          | (.error e, s) => (.error e, s)
          | (.ok m, s) => (.ok (a, m), s)
        else (.ok (a, m), s) : Except Err (String × M) × σ) = (.ok (b, m), s')) ↔
    b = a ∧ Imports I o.reload a s m s' := by
  unfold Imports
  cases hi : I.importModule a s with
  | mk r s1 =>
    cases r with
    | error e => simp
    | ok m1 =>
      cases hr : o.reload with
      | false =>
        simp only [Bool.false_eq_true, if_false, Prod.mk.injEq, Except.ok.injEq]
        constructor
        · rintro ⟨⟨rfl, rfl⟩, rfl⟩; exact ⟨rfl, _, _, ⟨rfl, rfl⟩, rfl, rfl⟩
        · rintro ⟨rfl, _, _, ⟨rfl, rfl⟩, rfl, rfl⟩; exact ⟨⟨rfl, rfl⟩, rfl⟩
      | true =>
        simp only [if_true, Prod.mk.injEq, Except.ok.injEq]
        cases hr2 : I.reload m1 s1 with
        | mk r2 s2 =>
          cases r2 with
          | error e =>
            simp only [Prod.mk.injEq, reduceCtorEq, false_and, false_iff, not_and, not_exists]
            rintro rfl m2 s3 ⟨rfl, rfl⟩ h
            rw [hr2] at h; cases h
          | ok m2 =>
            simp only [Prod.mk.injEq, Except.ok.injEq]
            constructor
            · rintro ⟨⟨rfl, rfl⟩, rfl⟩; exact ⟨rfl, _, _, ⟨rfl, rfl⟩, hr2⟩
            · rintro ⟨rfl, _, _, ⟨rfl, rfl⟩, h⟩
              rw [hr2] at h; cases h; exact ⟨⟨rfl, rfl⟩, rfl⟩

/-- The bindings after the loop. -/
theorem bindNames_ok {I : Interp σ M O} {o : Opts} {s : σ} {m : M} {vs : List Val}
    {ns : List (String × Option String)} (hv : vs.map aliasOf = ns.map .ok)
    {b0 b : Dict String O} (h : bindNames I o s m vs b0 = .ok b) :
    Importable I o s m ns ∧ (b0.WF → b.WF) ∧
    ∀ k f, b.get k = some f ↔ (∃ before x after, ns = before ++ x :: after ∧ key x.1 x.2 = k ∧
        I.attr s m x.1 = some f ∧ ∀ y ∈ after, key y.1 y.2 ≠ k) ∨
      (b0.get k = some f ∧ ∀ y ∈ ns, key y.1 y.2 ≠ k) := by
  induction vs generalizing ns b0 with
  | nil =>
    cases ns with
    | cons x xs => simp at hv
    | nil =>
      cases h
      refine ⟨fun x hx => (by simp at hx), id, fun k f => ?_⟩
      simp
  | cons v vs ih =>
    cases ns with
    | nil => simp at hv
    | cons x ns =>
      simp only [List.map_cons, List.cons.injEq] at hv
      obtain ⟨n, as⟩ := x
      rw [bindNames, hv.1] at h
      dsimp only at h
      split at h
      · cases h
      · rename_i hal
        split at h
        · cases h
        · rename_i g hg
          split at h
          · cases h
          · rename_i hcall
            obtain ⟨h1, h2, h3⟩ := ih hv.2 h
            refine ⟨?_, fun hw => h2 (Dict.WF_set _ _ _ hw), fun k f => ?_⟩
            · intro y hy
              rcases List.mem_cons.1 hy with rfl | hy
              · refine ⟨⟨g, hg, by simpa using hcall⟩, fun hs => ?_⟩
                dsimp only at hs
                simp only [hs, Bool.and_true, Bool.not_eq_true', Bool.not_eq_false] at hal
                simpa using hal
              · exact h1 y hy
            · rw [h3, Dict.get_set]
              constructor
              · rintro (⟨be, x, af, rfl, hk, hf, hn⟩ | ⟨hf, hn⟩)
                · exact .inl ⟨(n, as) :: be, x, af, rfl, hk, hf, hn⟩
                · split at hf
                  · rename_i hk
                    cases hf
                    exact .inl ⟨[], (n, as), ns, rfl, hk, hg, hn⟩
                  · rename_i hk
                    exact .inr ⟨hf, fun y hy => by
                      rcases List.mem_cons.1 hy with rfl | hy
                      · exact hk
                      · exact hn y hy⟩
              · rintro (⟨be, x, af, he, hk, hf, hn⟩ | ⟨hf, hn⟩)
                · cases be with
                  | nil =>
                    simp only [List.nil_append, List.cons.injEq] at he
                    obtain ⟨rfl, rfl⟩ := he
                    dsimp only at hk hf
                    refine .inr ⟨?_, hn⟩
                    rw [if_pos hk, ← hf, hg]
                  | cons z be =>
                    simp only [List.cons_append, List.cons.injEq] at he
                    exact .inl ⟨be, x, af, he.2, hk, hf, hn⟩
                · refine .inr ⟨?_, fun y hy => hn y (by simp [hy])⟩
                  rw [if_neg (hn (n, as) (by simp)), hf]

theorem bindNames_succeeds {I : Interp σ M O} {o : Opts} {s : σ} {m : M} {vs : List Val}
    {ns : List (String × Option String)} (hv : vs.map aliasOf = ns.map .ok)
    (h : Importable I o s m ns) (b0 : Dict String O) : ∃ b, bindNames I o s m vs b0 = .ok b := by
  induction vs generalizing ns b0 with
  | nil => exact ⟨b0, rfl⟩
  | cons v vs ih =>
    cases ns with
    | nil => simp at hv
    | cons x ns =>
      simp only [List.map_cons, List.cons.injEq] at hv
      obtain ⟨n, as⟩ := x
      obtain ⟨⟨f, hf, hc⟩, ha⟩ := h (n, as) (by simp)
      rw [bindNames, hv.1]
      dsimp only at hf ha ⊢
      rw [if_neg, hf]
      · simp only [hc]
        exact ih hv.2 (fun y hy => h y (by simp [hy])) _
      · cases as with
        | none => simp
        | some z => simp [ha rfl]

theorem key_boundName {x : String × Option String} (h : x.2 ≠ some "") : key x.1 x.2 = boundName x := by
  obtain ⟨n, as⟩ := x
  cases as with
  | none => rfl
  | some z =>
    have : z ≠ "" := by simpa using h
    simp [key, boundName, this]

theorem suffix_iff {f : Str} : ".py".toList.isSuffixOf f = true ↔ ∃ stem, f = stem ++ ".py".toList := by
  rw [List.isSuffixOf_iff_suffix]
  constructor
  · rintro ⟨t, h⟩; exact ⟨t, h.symm⟩
  · rintro ⟨t, h⟩; exact ⟨t, h.symm⟩

/-- The result of finding the module. -/
theorem find_iff {I : Interp σ M O} {o : Opts} {t : Val} {s s' : σ} {a : String} {m : M}
    (ht : (∃ n m, IsFrom t n m ∧ m ≠ "" ∧ m.toList.head? ≠ some '.') ∨
      (∃ n : Nat, t.get? .level = some (.int (n + 1)) ∧ t.get? .module_ = some .none)) :
    (∃ p, packageOf I o t = .ok p ∧ findModule I o t p s = (.ok (a, m), s')) ↔ Refers I o t s a m s' := by
  rcases ht with ⟨n, name, hf, hne, _⟩ | ⟨n, hl, hm⟩
  · have hfm : ∀ p, findModule I o t p s =
        if name = "__self__" then
          if levelTruthy t then (.error .syntaxError, s)
          else
            match o.selfModule with
            | none => (.error .moduleNotFoundError, s)
            | some a =>
              match I.sysModules s a with
              | some m => (.ok (a, m), s)
              | none => (.error .moduleNotFoundError, s)
        else
          match resolveName n name p with
          | .error e => (.error e, s)
          | .ok a =>
            match I.importModule a s with
            | (.error e, s) => (.error e, s)
            | (.ok m, s) =>
              if o.reload then
                match I.reload m s with
                | (.error e, s) => (.error e, s)
                | (.ok m, s) => (.ok (a, m), s)
              else (.ok (a, m), s) := by
      intro p
      unfold findModule dots
      rw [hf.module, hf.level]
      rfl
    have hlev : levelTruthy t = decide (n ≠ 0) := by
      unfold levelTruthy; rw [hf.level]
      cases n with
      | zero => rfl
      | succ k => simp; omega
    cases n with
    | zero =>
      have hp : packageOf I o t = .ok none := by simp [packageOf, hlev]
      rw [hp]
      have : (∃ p, (Except.ok none : Except Err (Option Str)) = .ok p ∧
          findModule I o t p s = (.ok (a, m), s')) ↔ findModule I o t none s = (.ok (a, m), s') := by
        constructor
        · rintro ⟨p, h, h'⟩; cases h; exact h'
        · intro h; exact ⟨_, rfl, h⟩
      rw [this, hfm]
      by_cases hself : name = "__self__"
      · subst hself
        simp only [if_true, hlev]
        constructor
        · intro h
          simp at h
          cases hs : o.selfModule with
          | none => rw [hs] at h; cases h
          | some b =>
            rw [hs] at h
            dsimp only at h
            cases hm : I.sysModules s b with
            | none => rw [hm] at h; cases h
            | some m' =>
              rw [hm] at h
              cases h
              exact .self hf hs hm
        · intro h
          cases h with
          | self _ hs hm => simp [hs, hm]
          | absolute h hn _ =>
            have := hf.module.symm.trans h.module
            simp at this; exact absurd this.symm hn
          | relative h _ _ _ _ _ _ =>
            have := hf.level.symm.trans h.level
            simp at this; omega
      · rw [if_neg hself]
        simp only [resolveName, if_true]
        rw [imports_iff]
        constructor
        · rintro ⟨rfl, h⟩; exact .absolute hf hself h
        · intro h
          cases h with
          | self h _ _ =>
            have := hf.module.symm.trans h.module
            simp at this; exact absurd this hself
          | absolute h _ hi =>
            have := hf.module.symm.trans h.module
            simp at this; subst this
            exact ⟨rfl, hi⟩
          | relative h _ _ _ _ _ _ =>
            have := hf.level.symm.trans h.level
            simp at this; omega
    | succ k =>
      constructor
      · rintro ⟨p, hp, h⟩
        rw [hfm] at h
        by_cases hself : name = "__self__"
        · rw [if_pos hself, hlev] at h
          simp at h
        · rw [if_neg hself] at h
          cases p with
          | none => simp [resolveName] at h
          | some pkg =>
            unfold packageOf at hp
            rw [hlev] at hp
            simp only [ne_eq, Nat.add_eq_zero_iff, Nat.succ_ne_self, and_false, not_false_eq_true,
              decide_true, Bool.true_and] at hp
            split at hp
            · rename_i hpy
              split at hp
              · rename_i q hq
                simp only [Except.ok.injEq, Option.some.injEq] at hp
                subst hp
                cases hr : resolveName (k + 1) name (some q) with
                | error e => rw [hr] at h; cases h
                | ok b =>
                  rw [hr] at h
                  obtain ⟨rfl, hi⟩ := imports_iff.1 h
                  obtain ⟨base, hb, rfl⟩ := (resolveName_ok (resolvePackage_ne hq) hne).1 hr
                  exact .relative hf hself hne (suffix_iff.1 hpy) hq hb hi
              · cases hp
            · cases hp
      · intro h
        cases h with
        | self h _ _ =>
          have := hf.level.symm.trans h.level
          simp at this; omega
        | absolute h _ _ =>
          have := hf.level.symm.trans h.level
          simp at this; omega
        | @relative n' name' pkg base m s' h hns _ hpy hq hb hi =>
          have h1 := hf.level.symm.trans h.level
          have h2 := hf.module.symm.trans h.module
          have h1 : k = n' := by
            simp only [Option.some.injEq, Val.const.injEq, Const.int.injEq] at h1
            omega
          simp only [Option.some.injEq, Val.const.injEq, Const.str.injEq] at h2
          subst h1; subst h2
          refine ⟨some pkg, ?_, ?_⟩
          · unfold packageOf
            rw [hlev, suffix_iff.2 hpy, hq]
            simp
          · rw [hfm, if_neg hns, (resolveName_ok (resolvePackage_ne hq) hne).2 ⟨base, hb, rfl⟩]
            exact imports_iff.2 ⟨rfl, hi⟩
  · constructor
    · rintro ⟨p, _, h⟩
      unfold findModule at h
      rw [hm] at h
      cases h
    · intro h
      cases h with
      | self h _ _ => rw [h.module] at hm; cases hm
      | absolute h _ _ => rw [h.module] at hm; cases hm
      | relative h _ _ _ _ _ _ => rw [h.module] at hm; cases hm

end Mcpyrate.GetMacros
