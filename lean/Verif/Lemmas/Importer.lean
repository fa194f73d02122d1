import Verif.Spec.Importer
import Verif.Lemmas.Multiphase
import Verif.Lemmas.GetMacros
namespace Mcpyrate.Importer
open Py Paths

variable {T : Type}

theorem scanBody_eq {fs : List (F × Val)} {c : Cls} {l : Loc} {b : List Val}
    (h : (Val.node c l fs).get? .body = some (.list b)) : scanBody fs = scan b := by
  change List.lookup F.body fs = _ at h
  induction fs with
  | nil => cases h
  | cons x fs ih =>
    obtain ⟨f, v⟩ := x
    by_cases hf : f = .body
    · subst hf
      rw [List.lookup_cons_self] at h
      cases h
      rw [scanBody]
    · have hb : (F.body == f) = false := by simpa using Ne.symm hf
      rw [List.lookup_cons, hb] at h
      have : scanBody ((f, v) :: fs) = scanBody fs := by
        rw [scanBody]
        · exact fun _ h _ => hf h
        · exact fun h => hf h
      rw [this]
      exact ih h

theorem isImport_iff {t : Val} (h : t.isK .ImportFrom = true → GetMacros.Parsed t) :
    ∃ a b, ismacroimport "macros" t = .ok a ∧ ismacroimport "dialects" t = .ok b ∧
      ((a = true ∨ b = true) ↔ IsImport t) := by
  by_cases hk : t.isK .ImportFrom = true
  · obtain ⟨x, ns, ⟨vs, hv, hm⟩, _⟩ := (h hk).names
    cases vs with
    | nil => simp at hm
    | cons first rest =>
      simp only [List.map_cons, List.cons.injEq] at hm
      have hx := hm.1
      unfold GetMacros.aliasOf at hx
      cases hn : first.get? .name with
      | none => rw [hn] at hx; cases hx
      | some n =>
        have hnone : ∀ v : Val, v.isNone = true ↔ v = Val.none := by
          intro v
          cases v with
          | const c => cases c <;> simp [Val.isNone, Val.none]
          | _ => simp [Val.isNone, Val.none]
        refine ⟨n == .str "macros" && ((first.get? .asname).getD .none).isNone,
          n == .str "dialects" && ((first.get? .asname).getD .none).isNone, ?_, ?_, ?_⟩
        · simp [ismacroimport, hk, hv, hn]
        · simp [ismacroimport, hk, hv, hn]
        · unfold IsImport
          simp only [hk, hv, Bool.and_eq_true, beq_iff_eq, hnone, true_and, Option.some.injEq,
            Val.list.injEq]
          constructor
          · rintro (⟨h1, h2⟩ | ⟨h1, h2⟩)
            · exact ⟨first, rest, rfl, .inl (by rw [hn, h1]), h2⟩
            · exact ⟨first, rest, rfl, .inr (by rw [hn, h1]), h2⟩
          · rintro ⟨f, r, h0, h1, h2⟩
            cases h0
            rw [hn] at h1
            rcases h1 with h1 | h1
            · exact .inl ⟨by simpa using h1, h2⟩
            · exact .inr ⟨by simpa using h1, h2⟩
  · refine ⟨false, false, by simp [ismacroimport, hk], by simp [ismacroimport, hk], ?_⟩
    simp [IsImport, hk]

theorem scan_spec {body : List Val} (h : Clean body) :
    ∃ ms ds, scan body = .ok (ms, ds) ∧ ∀ t, t ∈ ms ++ ds ↔ ImportIn body t := by
  induction h with
  | @mk body hp hi _ ih =>
    induction body with
    | nil =>
      refine ⟨[], [], rfl, fun t => ⟨fun h => by simp at h, fun h => ?_⟩⟩
      cases h with
      | here h => simp at h
      | phase h => simp at h
    | cons t ts iht =>
      obtain ⟨c, d, h1, h2⟩ := iht (fun x hx => hp x (by simp [hx])) (fun x hx => hi x (by simp [hx]))
        (fun x hx => by rename_i h; exact h x (by simp [hx])) (fun x hx => ih x (by simp [hx]))
      have hpt : Multiphase.Parsed [t] := fun x hx => hp x (by simp at hx; simp [hx])
      have hstmt : ∃ a b, scanStmt t = .ok (a, b) ∧ ∀ i, i ∈ a ++ b ↔
          (i = t ∧ IsImport t ∨ ∃ n b, Multiphase.IsPhase t n b ∧ ImportIn b i) := by
        obtain ⟨a, b, ha, hb, hab⟩ := isImport_iff (hi t (by simp))
        obtain ⟨p, hq, hspec⟩ := Multiphase.iswithphase_spec hpt
        have hnot : IsImport t → ∀ n b, ¬ Multiphase.IsPhase t n b := by
          rintro ⟨hk, _⟩ n b hb
          obtain ⟨l, fs, rfl⟩ := Expander.isK_eq hk
          cases hb.1
        cases t with
        | node cl l fs =>
          have hs : scanStmt (.node cl l fs) = (if a then .ok ([.node cl l fs], []) else
              if b then .ok ([], [.node cl l fs]) else if p.isSome then scanBody fs else .ok ([], [])) := by
            simp only [scanStmt, bind, Except.bind, ha, hb, hq, pure, Except.pure]
          by_cases hat : a = true
          · refine ⟨_, _, by rw [hs, if_pos hat], fun i => ?_⟩
            have him := hab.1 (.inl hat)
            simp only [List.append_nil, List.mem_singleton]
            exact ⟨fun h => .inl ⟨h, him⟩, fun h => h.elim (fun h => h.1) (fun ⟨n, b, h, _⟩ => absurd h (hnot him n b))⟩
          · by_cases hbt : b = true
            · refine ⟨_, _, by rw [hs, if_neg hat, if_pos hbt], fun i => ?_⟩
              have him := hab.1 (.inr hbt)
              simp only [List.nil_append, List.mem_singleton]
              exact ⟨fun h => .inl ⟨h, him⟩, fun h => h.elim (fun h => h.1) (fun ⟨n, b, h, _⟩ => absurd h (hnot him n b))⟩
            · have hni : ¬ IsImport (.node cl l fs) := fun h => (hab.2 h).elim hat hbt
              cases p with
              | none =>
                refine ⟨[], [], by rw [hs, if_neg hat, if_neg hbt]; rfl, fun i => ?_⟩
                constructor
                · intro h; simp at h
                · rintro (⟨_, h⟩ | ⟨n, b, h, _⟩)
                  · exact absurd h hni
                  · have := (hspec n).2 ⟨b, h⟩; cases this
              | some n =>
                obtain ⟨b, hb⟩ := (hspec n).1 rfl
                obtain ⟨ms, ds, h3, h4⟩ := ih (.node cl l fs) (by simp) n b hb
                refine ⟨ms, ds, by rw [hs, if_neg hat, if_neg hbt, if_pos (by rfl), scanBody_eq hb.2.1, h3], fun i => ?_⟩
                rw [h4]
                constructor
                · exact fun h => .inr ⟨n, b, hb, h⟩
                · rintro (⟨_, h⟩ | ⟨n', b', h, h'⟩)
                  · exact absurd h hni
                  · rw [(hb.unique h).2]; exact h'
        | const _ =>
          refine ⟨[], [], rfl, fun i => ⟨fun h => by simp at h, ?_⟩⟩
          rintro (⟨_, h⟩ | ⟨n, b, h, _⟩)
          · cases h.1
          · cases h.1
        | list _ =>
          refine ⟨[], [], rfl, fun i => ⟨fun h => by simp at h, ?_⟩⟩
          rintro (⟨_, h⟩ | ⟨n, b, h, _⟩)
          · cases h.1
          · cases h.1
      obtain ⟨a, b, h3, h4⟩ := hstmt
      refine ⟨a ++ c, b ++ d, by simp only [scan, bind, Except.bind, h3, h1, pure, Except.pure], fun i => ?_⟩
      have : i ∈ a ++ c ++ (b ++ d) ↔ i ∈ a ++ b ∨ i ∈ c ++ d := by
        simp only [List.mem_append]
        constructor
        · rintro ((h | h) | (h | h)) <;> simp [h]
        · rintro ((h | h) | (h | h)) <;> simp [h]
      rw [this, h4, h2]
      constructor
      · rintro ((⟨rfl, h⟩ | ⟨n, b, h, h'⟩) | h)
        · exact .here (by simp) h
        · exact .phase (by simp) h h'
        · cases h with
          | here hm h => exact .here (by simp [hm]) h
          | phase hm h h' => exact .phase (by simp [hm]) h h'
      · intro h
        cases h with
        | here hm h =>
          rcases List.mem_cons.1 hm with rfl | hm
          · exact .inl (.inl ⟨rfl, h⟩)
          · exact .inr (.here hm h)
        | phase hm h h' =>
          rcases List.mem_cons.1 hm with rfl | hm
          · exact .inl (.inr ⟨_, _, h, h'⟩)
          · exact .inr (.phase hm h h')

/-- The imports of a module as the parser makes them. -/
theorem importIn_parsed {body : List Val} (h : Clean body) {t : Val} (ht : ImportIn body t) :
    GetMacros.Parsed t ∧ IsImport t := by
  induction h with
  | mk _ hi _ ih =>
    cases ht with
    | here hm h => exact ⟨hi t hm h.1, h⟩
    | phase hm h h' => exact ih _ hm _ _ h h'

theorem levelTruthy_eq {t : Val} {n : Nat} (h : t.get? .level = some (.int n)) :
    GetMacros.levelTruthy t = decide (n ≠ 0) := by
  unfold GetMacros.levelTruthy
  rw [h]
  cases n with
  | zero => rfl
  | succ k => simp; omega

/-- `origin` finds the file of the target. -/
theorem origin_iff {I : Interp T} {fs : Files T} {path : Str} {t : Val} {rel : Bool} {pkg : Option Str}
    (ht : GetMacros.Parsed t) (hr : GetMacros.levelTruthy t = true → rel = true)
    (hp : package I path rel = .ok pkg) (q : Str) :
    origin I fs pkg t = .ok (some q) ↔ ∃ a, Target I path t a ∧ I.findSpec fs a = .ok (some (some q)) := by
  rcases ht.from_ with ⟨n, name, hf, hne, _⟩ | ⟨n, hl, hm⟩
  · have ho : origin I fs pkg t = (match GetMacros.resolveName n name pkg with
        | .error e => .error e
        | .ok a =>
          match I.findSpec fs a with
          | .error e => .error e
          | .ok none => .ok none
          | .ok (some none) => .error .typeError
          | .ok (some (some p)) => .ok (some p)) := by
      unfold origin GetMacros.dots
      rw [hf.module, hf.level]
      rfl
    have hspec : ∀ a, (match I.findSpec fs a with
          | .error e => (.error e : Except Err (Option Str))
          | .ok none => .ok none
          | .ok (some none) => .error .typeError
          | .ok (some (some p)) => .ok (some p)) = .ok (some q) ↔ I.findSpec fs a = .ok (some (some q)) := by
      intro a
      cases I.findSpec fs a with
      | error e => simp
      | ok o =>
        cases o with
        | none => simp
        | some o => cases o <;> simp
    have htar : ∀ a, GetMacros.resolveName n name pkg = .ok a ↔ Target I path t a := by
      intro a
      cases n with
      | zero =>
        simp only [GetMacros.resolveName, if_true, Except.ok.injEq]
        constructor
        · rintro rfl; exact .absolute hf
        · intro h
          cases h with
          | absolute h => have := h.module; rw [hf.module] at this; simpa using this
          | relative h => have := h.level; rw [hf.level] at this; simp at this; omega
      | succ n =>
        have hlt := hr (by rw [levelTruthy_eq hf.level]; simp)
        subst hlt
        unfold package at hp
        simp only [if_true] at hp
        cases hk : resolvePackage I.fs I.syspath path with
        | error e => rw [hk] at hp; cases hp
        | ok k =>
          rw [hk] at hp
          cases hp
          rw [GetMacros.resolveName_ok (GetMacros.resolvePackage_ne hk) hne]
          constructor
          · rintro ⟨base, hb, rfl⟩; exact .relative hf hk hb
          · intro h
            cases h with
            | absolute h => have := h.level; rw [hf.level] at this; simp at this; omega
            | @relative n' _ _ _ h hk' hb =>
              have h1 := h.level; rw [hf.level] at h1
              have h2 := h.module; rw [hf.module] at h2
              simp only [Option.some.injEq, Val.const.injEq, Const.int.injEq, Const.str.injEq] at h1 h2
              rw [hk] at hk'; cases hk'
              subst h2
              have : n = n' := by omega
              subst this
              exact ⟨_, hb, rfl⟩
    rw [ho]
    constructor
    · intro h
      split at h
      · cases h
      · rename_i a ha
        exact ⟨a, (htar a).1 ha, (hspec a).1 h⟩
    · rintro ⟨a, ha, hs⟩
      rw [(htar a).2 ha]
      exact (hspec a).2 hs
  · have ho : origin I fs pkg t = .error .syntaxError := by
      unfold origin; rw [hm]; rfl
    rw [ho]
    constructor
    · intro h; cases h
    · rintro ⟨a, h, _⟩
      cases h with
      | absolute h => have := h.module; rw [hm] at this; cases this
      | relative h => have := h.module; rw [hm] at this; cases this

theorem origin_none {I : Interp T} {fs : Files T} {path : Str} {t : Val} {rel : Bool} {pkg : Option Str}
    (ht : GetMacros.Parsed t) (hr : GetMacros.levelTruthy t = true → rel = true)
    (hp : package I path rel = .ok pkg) {a : String} (ha : Target I path t a)
    (hs : I.findSpec fs a = .ok none) : origin I fs pkg t = .ok none := by
  have hname : ∀ {n : Nat} {name : String}, GetMacros.IsFrom t n name →
      GetMacros.resolveName n name pkg = .ok a → origin I fs pkg t = .ok none := by
    intro n name hf hn
    unfold origin GetMacros.dots
    rw [hf.module, hf.level]
    simp only [Option.getD_some, Int.toNat_natCast, hn, hs]
  cases ha with
  | absolute h => exact hname h rfl
  | @relative _ nm _ _ h hk hb =>
    refine hname h ?_
    have hlt := hr (by rw [levelTruthy_eq h.level]; simp)
    subst hlt
    simp only [package, if_true, hk, Except.ok.injEq] at hp
    subst hp
    have hne : nm ≠ "" := by
      rcases ht.from_ with ⟨n, m, hf, hne, _⟩ | ⟨n, hl, hm⟩
      · have h2 := h.module; rw [hf.module] at h2
        simp only [Option.some.injEq, Val.const.injEq, Const.str.injEq] at h2
        rw [h2] at hne; exact hne
      · have h2 := h.module; rw [hm] at h2; cases h2
    exact (GetMacros.resolveName_ok (GetMacros.resolvePackage_ne hk) hne).2 ⟨_, hb, rfl⟩

theorem maximum_le {ms : List Int} {m x : Int} : maximum ms m ≤ x ↔ m ≤ x ∧ ∀ y ∈ ms, y ≤ x := by
  induction ms with
  | nil => simp [maximum]
  | cons a ms ih =>
    change max a (maximum ms m) ≤ x ↔ _
    rw [show max a (maximum ms m) ≤ x ↔ a ≤ x ∧ maximum ms m ≤ x from by omega, ih]
    simp only [List.mem_cons, forall_eq_or_imp]
    constructor
    · rintro ⟨h1, h2, h3⟩; exact ⟨h2, h1, h3⟩
    · rintro ⟨h1, h2, h3⟩; exact ⟨h2, h1, h3⟩

theorem maximum_mem {ms : List Int} {m : Int} : maximum ms m = m ∨ maximum ms m ∈ ms := by
  induction ms with
  | nil => left; rfl
  | cons a ms ih =>
    change max a (maximum ms m) = m ∨ max a (maximum ms m) ∈ _
    by_cases h : maximum ms m ≤ a
    · right; rw [show max a (maximum ms m) = a from by omega]; simp
    · rw [show max a (maximum ms m) = maximum ms m from by omega]
      rcases ih with ih | ih
      · exact .inl ih
      · exact .inr (by simp [ih])

/-- The times collected. -/
theorem freshMtimes_ok {I : Interp T} {fs : Files T} {pkg : Option Str} {rec : Str → Except Err Int}
    {ts : List Val} {ms : List Int} (h : freshMtimes I fs pkg rec ts = .ok ms) :
    (∀ m ∈ ms, ∃ t ∈ ts, ∃ q, origin I fs pkg t = .ok (some q) ∧ rec q = .ok m) ∧
    ∀ t ∈ ts, ∀ q, origin I fs pkg t = .ok (some q) → ∃ m ∈ ms, rec q = .ok m := by
  induction ts generalizing ms with
  | nil => cases h; simp
  | cons t ts ih =>
    rw [freshMtimes] at h
    split at h
    · cases h
    · rename_i ho
      obtain ⟨h1, h2⟩ := ih h
      refine ⟨fun m hm => ?_, fun x hx q hq => ?_⟩
      · obtain ⟨x, hx, h⟩ := h1 m hm
        exact ⟨x, by simp [hx], h⟩
      · rcases List.mem_cons.1 hx with rfl | hx
        · rw [ho] at hq; cases hq
        · exact h2 x hx q hq
    · rename_i p ho
      split at h
      · cases h
      · rename_i m hm
        split at h
        · cases h
        · rename_i ms' hms
          cases h
          obtain ⟨h1, h2⟩ := ih hms
          refine ⟨fun m' hm' => ?_, fun x hx q hq => ?_⟩
          · rcases List.mem_cons.1 hm' with rfl | hm'
            · exact ⟨t, by simp, p, ho, hm⟩
            · obtain ⟨x, hx, h⟩ := h1 m' hm'
              exact ⟨x, by simp [hx], h⟩
          · rcases List.mem_cons.1 hx with rfl | hx
            · rw [ho] at hq; cases hq
              exact ⟨m, by simp, hm⟩
            · obtain ⟨y, hy, h⟩ := h2 x hx q hq
              exact ⟨y, by simp [hy], h⟩

/-- The dependencies of a file, from its imports. -/
theorem depends_iff {I : Interp T} {fs : Files T} {p : Str} {file : File T} {imports : List Val} {rel : Bool}
    {pkg : Option Str} (hc : CleanFiles I fs) (hf : fs p = some file)
    (hi : freshImports I file = .ok (imports, rel)) (hp : package I p rel = .ok pkg) (q : Str) :
    Depends I fs p q ↔ ∃ t ∈ imports, origin I fs pkg t = .ok (some q) := by
  unfold freshImports at hi
  split at hi
  · cases hi
  · rename_i body hb
    have hcl := hc p file body hf hb
    obtain ⟨ms, ds, h1, h2⟩ := scan_spec hcl
    rw [h1] at hi
    cases hi
    have key : ∀ t ∈ ms ++ ds, ∀ q, origin I fs pkg t = .ok (some q) ↔
        ∃ a, Target I p t a ∧ I.findSpec fs a = .ok (some (some q)) := fun t ht q =>
      origin_iff (importIn_parsed hcl ((h2 t).1 ht)).1 (fun hl => List.any_eq_true.2 ⟨t, ht, hl⟩) hp q
    constructor
    · rintro ⟨file', body', t, a, hf', hb', ht, ha, hs⟩
      rw [hf] at hf'; cases hf'
      rw [hb] at hb'; cases hb'
      have hm := (h2 t).2 ht
      exact ⟨t, hm, (key t hm q).2 ⟨a, ha, hs⟩⟩
    · rintro ⟨t, hm, ho⟩
      obtain ⟨a, ha, hs⟩ := (key t hm q).1 ho
      exact ⟨file, body, t, a, hf, hb, (h2 t).1 hm, ha, hs⟩

/-- Without caches, the result is the latest time. -/
theorem uncached_newest {I : Interp T} {fs : Files T} (hc : CleanFiles I fs) (n : Nat) {p : Str} {m : Int}
    (h : uncached I fs n p = .ok m) : Newest I fs p m := by
  induction n generalizing p m with
  | zero => cases h
  | succ n ih =>
    rw [uncached] at h
    split at h
    · cases h
    · rename_i file hf
      split at h
      · cases h
      · rename_i imports rel hi
        split at h
        · cases h
        · rename_i pkg hp
          split at h
          · cases h
          · rename_i ms hms
            cases h
            obtain ⟨h1, h2⟩ := freshMtimes_ok hms
            have hdep := depends_iff hc hf hi hp
            have hle := (maximum_le (ms := ms) (m := I.seconds file.mtime)).1 (Int.le_refl _)
            constructor
            · rcases maximum_mem (ms := ms) (m := I.seconds file.mtime) with h | h
              · exact ⟨p, file, .refl, hf, h.symm⟩
              · obtain ⟨t, ht, q, ho, hq⟩ := h1 _ h
                obtain ⟨q', file', hr, hf', he⟩ := (ih hq).1
                exact ⟨q', file', .step ((hdep q).2 ⟨t, ht, ho⟩) hr, hf', he⟩
            · intro q hr
              cases hr with
              | refl => exact ⟨file, hf, hle.1⟩
              | step hd hr =>
                obtain ⟨t, ht, ho⟩ := (hdep _).1 hd
                obtain ⟨m', hm', hq⟩ := h2 t ht _ ho
                obtain ⟨file', hf', hle'⟩ := (ih hq).2 q hr
                exact ⟨file', hf', Int.le_trans hle' (hle.2 m' hm')⟩

/-! Caches. -/

/-- A larger recursion limit gives the same result. -/
theorem freshMtimes_mono {I : Interp T} {fs : Files T} {pkg : Option Str} {f g : Str → Except Err Int}
    (hfg : ∀ p r, f p = r → r ≠ .error .recursionError → g p = r) {ts : List Val}
    {r : Except Err (List Int)} (h : freshMtimes I fs pkg f ts = r) (hr : r ≠ .error .recursionError) :
    freshMtimes I fs pkg g ts = r := by
  induction ts generalizing r with
  | nil => exact h
  | cons t ts ih =>
    rw [freshMtimes] at h ⊢
    cases ho : origin I fs pkg t with
    | error e => rw [ho] at h; exact h
    | ok o =>
      rw [ho] at h
      cases o with
      | none => exact ih h hr
      | some p =>
        dsimp only at h ⊢
        cases hf : f p with
        | error e =>
          rw [hf] at h
          dsimp only at h
          have : e ≠ .recursionError := by rintro rfl; exact hr h.symm
          rw [hfg p _ hf (by simpa using this)]
          exact h
        | ok m =>
          rw [hf] at h
          rw [hfg p _ hf (by simp)]
          dsimp only at h ⊢
          cases hm : freshMtimes I fs pkg f ts with
          | error e =>
            rw [hm] at h
            dsimp only at h
            have : e ≠ .recursionError := by rintro rfl; exact hr h.symm
            rw [ih hm (by simpa using this)]
            exact h
          | ok ms =>
            rw [hm] at h
            rw [ih hm (by simp)]
            exact h

theorem uncached_eq {I : Interp T} {fs : Files T} (n : Nat) (p : Str) : uncached I fs (n + 1) p =
    (match fs p with
    | none => .error .osError
    | some file =>
      match freshImports I file with
      | .error e => .error e
      | .ok (imports, relative) =>
        match package I p relative with
        | .error e => .error e
        | .ok pkg =>
          match freshMtimes I fs pkg (uncached I fs n) imports with
          | .error e => .error e
          | .ok ms => .ok (maximum ms (I.seconds file.mtime))) := rfl

theorem uncached_succ {I : Interp T} {fs : Files T} (n : Nat) {p : Str} {r : Except Err Int}
    (h : uncached I fs n p = r) (hr : r ≠ .error .recursionError) : uncached I fs (n + 1) p = r := by
  induction n generalizing p r with
  | zero => exact absurd h.symm hr
  | succ n ih =>
    rw [uncached_eq] at h ⊢
    cases hf : fs p with
    | none => rw [hf] at h; exact h
    | some file =>
      rw [hf] at h
      dsimp only at h ⊢
      cases hi : freshImports I file with
      | error e => rw [hi] at h; exact h
      | ok q =>
        obtain ⟨imports, rel⟩ := q
        rw [hi] at h
        dsimp only at h ⊢
        cases hp : package I p rel with
        | error e => rw [hp] at h; exact h
        | ok pkg =>
          rw [hp] at h
          dsimp only at h ⊢
          cases hms : freshMtimes I fs pkg (uncached I fs n) imports with
          | error e =>
            rw [hms] at h
            dsimp only at h
            have : e ≠ .recursionError := by rintro rfl; exact hr h.symm
            rw [freshMtimes_mono (fun p r => ih) hms (by simpa using this)]
            exact h
          | ok ms =>
            rw [hms] at h
            rw [freshMtimes_mono (fun p r => ih) hms (by simp)]
            exact h

theorem uncached_mono {I : Interp T} {fs : Files T} {n k : Nat} (hnk : n ≤ k) {p : Str} {r : Except Err Int}
    (h : uncached I fs n p = r) (hr : r ≠ .error .recursionError) : uncached I fs k p = r := by
  induction hnk with
  | refl => exact h
  | step _ ih => exact uncached_succ _ ih hr

theorem uncached_det {I : Interp T} {fs : Files T} {n k : Nat} {p : Str} {r r' : Except Err Int}
    (h : uncached I fs n p = r) (hr : r ≠ .error .recursionError) (h' : uncached I fs k p = r')
    (hr' : r' ≠ .error .recursionError) : r = r' := by
  have h1 := uncached_mono (Nat.le_max_left n k) h hr
  have h2 := uncached_mono (Nat.le_max_right n k) h' hr'
  rw [h1] at h2
  exact h2

/-- The cache files hold what the files contain, or contained at the time. -/
def DiskOk (parse : T → Except Err (List Val)) (cacheFile : Str → Str) (V : Str → Int → T)
    (disk : Str → CacheFile) : Prop :=
  ∀ p c, disk (cacheFile p) = .data c → ∃ body ms ds, parse (V p c.mtime) = .ok body ∧
    scan body = .ok (ms, ds) ∧ c.imports = some (ms, ds, (ms ++ ds).any GetMacros.levelTruthy)

/-- And `_stats_cache` holds results. -/
def Inv (I : Interp T) (fs : Files T) (V : Str → Int → T) (s : St) : Prop :=
  DiskOk I.parse I.cacheFile V s.disk ∧ ∀ p m, s.memory.get p = some m → ∃ L, uncached I fs L p = .ok m

theorem store_ok {I : Interp T} {fs : Files T} {V : Str → Int → T}
    (hcf : ∀ p q, I.cacheFile p = I.cacheFile q → V p = V q) {path : Str} {file : File T}
    (hv : file.text = V path file.mtime) {body ms ds : List Val} (hb : I.parse file.text = .ok body)
    (hs : scan body = .ok (ms, ds)) {s : St} (hi : Inv I fs V s) :
    Inv I fs V (store I path
      { mtime := file.mtime, imports := some (ms, ds, (ms ++ ds).any GetMacros.levelTruthy) } s) := by
  unfold store
  split
  · exact hi
  · refine ⟨fun p c h => ?_, hi.2⟩
    dsimp only at h
    split at h
    · cases h
    · exact hi.1 p c h
  · refine ⟨fun p c h => ?_, hi.2⟩
    dsimp only at h
    split at h
    · rename_i he
      cases h
      rw [hcf _ _ he]
      exact ⟨body, ms, ds, by rw [← hv]; exact hb, hs, rfl⟩
    · exact hi.1 p c h

theorem loadImports_ok {I : Interp T} {fs : Files T} {V : Str → Int → T}
    (hcf : ∀ p q, I.cacheFile p = I.cacheFile q → V p = V q) {path : Str} {file : File T}
    (hv : file.text = V path file.mtime) {s : St} (hi : Inv I fs V s) :
    (loadImports I path file s).1 = freshImports I file ∧ Inv I fs V (loadImports I path file s).2 := by
  have hparse : ∀ x : Except Err (List Val × Bool) × St,
      (match I.parse file.text with
        | .error e => (.error e, s)
        | .ok body =>
          match scan body with
          | .error e => (.error e, s)
          | .ok (ms, ds) =>
            (.ok (ms ++ ds, (ms ++ ds).any GetMacros.levelTruthy), store I path
              { mtime := file.mtime, imports := some (ms, ds, (ms ++ ds).any GetMacros.levelTruthy) } s)) = x →
      x.1 = freshImports I file ∧ Inv I fs V x.2 := by
    rintro x rfl
    unfold freshImports
    cases hb : I.parse file.text with
    | error e => exact ⟨rfl, hi⟩
    | ok body =>
      dsimp only
      cases hs : scan body with
      | error e => exact ⟨rfl, hi⟩
      | ok q => exact ⟨rfl, store_ok hcf hv hb hs hi⟩
  unfold loadImports
  dsimp only
  cases hd : s.disk (I.cacheFile path) with
  | absent => exact hparse _ rfl
  | garbage => exact hparse _ rfl
  | data c =>
    dsimp only
    by_cases hm : c.mtime = file.mtime
    · rw [if_pos hm]
      obtain ⟨body, ms, ds, h1, h2, h3⟩ := hi.1 path c hd
      rw [hm, ← hv] at h1
      rw [h3]
      dsimp only
      refine ⟨?_, hi⟩
      unfold freshImports
      simp only [h1, h2]
    · rw [if_neg hm]
      exact hparse _ rfl

/-- With caches, the result is the same. -/
theorem pathStats_ok {I : Interp T} {fs : Files T} {V : Str → Int → T} (hv : Versions V fs)
    (hcf : ∀ p q, I.cacheFile p = I.cacheFile q → V p = V q) (n : Nat) {path : Str} {s : St}
    (hi : Inv I fs V s) :
    Inv I fs V (pathStats I fs n path s).2 ∧
    ((pathStats I fs n path s).1 ≠ .error .recursionError →
      ∃ L, uncached I fs L path = (pathStats I fs n path s).1) ∧
    (∀ r, uncached I fs n path = r → r ≠ .error .recursionError → (pathStats I fs n path s).1 = r) := by
  induction n generalizing path s with
  | zero => exact ⟨hi, fun h => absurd rfl h, fun r h hr => absurd h.symm hr⟩
  | succ n ih =>
    rw [pathStats]
    cases hmem : s.memory.get path with
    | some m =>
      obtain ⟨L, hL⟩ := hi.2 path m hmem
      refine ⟨hi, fun _ => ⟨L, hL⟩, fun r h hr => ?_⟩
      exact uncached_det hL (by simp) h hr
    | none =>
      dsimp only
      cases hf : fs path with
      | none =>
        refine ⟨hi, fun _ => ⟨1, by simp [uncached, hf]⟩, fun r h hr => ?_⟩
        rw [uncached, hf] at h
        exact h
      | some file =>
        dsimp only
        obtain ⟨h1, h2⟩ := loadImports_ok hcf (hv path file hf) (path := path) hi
        cases hl : loadImports I path file s with
        | mk r s1 =>
        rw [hl] at h1 h2
        dsimp only at h1 h2
        cases r with
        | error e =>
          refine ⟨h2, fun _ => ⟨1, by simp [uncached, hf, ← h1]⟩, fun r h hr => ?_⟩
          simpa [uncached, hf, ← h1] using h
        | ok q =>
          obtain ⟨imports, rel⟩ := q
          dsimp only
          cases hp : package I path rel with
          | error e =>
            refine ⟨h2, fun _ => ⟨1, by simp [uncached, hf, ← h1, hp]⟩, fun r h hr => ?_⟩
            simpa [uncached, hf, ← h1, hp] using h
          | ok pkg =>
            dsimp only
            have hms : ∀ (ts : List Val) (s : St), Inv I fs V s →
                Inv I fs V (mtimes I fs pkg (pathStats I fs n) ts s).2 ∧
                ((mtimes I fs pkg (pathStats I fs n) ts s).1 ≠ .error .recursionError →
                  ∃ L, freshMtimes I fs pkg (uncached I fs L) ts = (mtimes I fs pkg (pathStats I fs n) ts s).1) ∧
                (∀ r, freshMtimes I fs pkg (uncached I fs n) ts = r → r ≠ .error .recursionError →
                  (mtimes I fs pkg (pathStats I fs n) ts s).1 = r) := by
              intro ts
              induction ts with
              | nil => exact fun s hi => ⟨hi, fun _ => ⟨0, rfl⟩, fun r h _ => h⟩
              | cons t ts iht =>
                intro s hi
                rw [mtimes]
                simp only [freshMtimes]
                cases ho : origin I fs pkg t with
                | error e => exact ⟨hi, fun _ => ⟨0, rfl⟩, fun r h _ => h⟩
                | ok o =>
                  cases o with
                  | none => exact iht s hi
                  | some q =>
                    dsimp only
                    obtain ⟨g1, g2, g3⟩ := ih (path := q) hi
                    cases hq : pathStats I fs n q s with
                    | mk r s2 =>
                    rw [hq] at g1 g2 g3
                    dsimp only at g1 g2 g3
                    cases r with
                    | error e =>
                      dsimp only
                      refine ⟨g1, fun he => ?_, fun r h hr => ?_⟩
                      · obtain ⟨L, hL⟩ := g2 (by simpa using he)
                        exact ⟨L, by rw [hL]⟩
                      · cases hu : uncached I fs n q with
                        | error e' =>
                          rw [hu] at h
                          dsimp only at h
                          have := g3 _ hu (by rintro h'; cases h'; exact hr h.symm)
                          cases this
                          exact h
                        | ok m' => have := g3 _ hu (by simp); cases this
                    | ok m =>
                      dsimp only
                      obtain ⟨L, hL⟩ := g2 (by simp)
                      obtain ⟨k1, k2, k3⟩ := iht s2 g1
                      cases ht : mtimes I fs pkg (pathStats I fs n) ts s2 with
                      | mk r' s3 =>
                      rw [ht] at k1 k2 k3
                      dsimp only at k1 k2 k3
                      have hgen : r' ≠ .error .recursionError → ∃ L',
                          uncached I fs L' q = .ok m ∧ freshMtimes I fs pkg (uncached I fs L') ts = r' := by
                        intro hr'
                        obtain ⟨L2, hL2⟩ := k2 hr'
                        exact ⟨max L L2, uncached_mono (Nat.le_max_left _ _) hL (by simp),
                          freshMtimes_mono (fun p r h hr => uncached_mono (Nat.le_max_right _ _) h hr) hL2 hr'⟩
                      have hun : ∀ r, (match uncached I fs n q with
                          | .error e => (.error e : Except Err (List Int))
                          | .ok m =>
                            match freshMtimes I fs pkg (uncached I fs n) ts with
                            | .error e => .error e
                            | .ok ms => .ok (m :: ms)) = r → r ≠ .error .recursionError →
                          uncached I fs n q = .ok m ∧ freshMtimes I fs pkg (uncached I fs n) ts = r' := by
                        intro r h hr
                        cases hu : uncached I fs n q with
                        | error e' =>
                          rw [hu] at h
                          dsimp only at h
                          have := g3 _ hu (by rintro h'; cases h'; exact hr h.symm)
                          cases this
                        | ok m' =>
                          have := g3 _ hu (by simp)
                          cases this
                          refine ⟨rfl, ?_⟩
                          rw [hu] at h
                          dsimp only at h
                          cases hx : freshMtimes I fs pkg (uncached I fs n) ts with
                          | error e' =>
                            rw [hx] at h
                            dsimp only at h
                            exact (k3 _ hx (by rintro h'; cases h'; exact hr h.symm)).symm
                          | ok ms' => exact (k3 _ hx (by simp)).symm
                      cases r' with
                      | error e =>
                        dsimp only
                        refine ⟨k1, fun he => ?_, fun r h hr => ?_⟩
                        · obtain ⟨L', h1, h2⟩ := hgen (by simpa using he)
                          exact ⟨L', by simp only [h1, h2]⟩
                        · obtain ⟨h1, h2⟩ := hun r h hr
                          simpa only [h1, h2] using h
                      | ok ms =>
                        dsimp only
                        refine ⟨k1, fun he => ?_, fun r h hr => ?_⟩
                        · obtain ⟨L', h1, h2⟩ := hgen (by simp)
                          exact ⟨L', by simp only [h1, h2]⟩
                        · obtain ⟨h1, h2⟩ := hun r h hr
                          simpa only [h1, h2] using h
            obtain ⟨k1, k2, k3⟩ := hms imports s1 h2
            cases hm : mtimes I fs pkg (pathStats I fs n) imports s1 with
            | mk r' s3 =>
            rw [hm] at k1 k2 k3
            dsimp only at k1 k2 k3
            have hun : ∀ L, uncached I fs (L + 1) path =
                (match freshMtimes I fs pkg (uncached I fs L) imports with
                | .error e => .error e
                | .ok ms => .ok (maximum ms (I.seconds file.mtime))) := by
              intro L
              rw [uncached_eq, hf]
              dsimp only
              rw [← h1]
              dsimp only
              rw [hp]
            cases r' with
            | error e =>
              dsimp only
              refine ⟨k1, fun he => ?_, fun r h hr => ?_⟩
              · obtain ⟨L, hL⟩ := k2 (by simpa using he)
                exact ⟨L + 1, by rw [hun, hL]⟩
              · rw [hun] at h
                cases hx : freshMtimes I fs pkg (uncached I fs n) imports with
                | error e' =>
                  rw [hx] at h
                  dsimp only at h
                  have := k3 _ hx (by rintro h'; cases h'; exact hr h.symm)
                  cases this
                  exact h
                | ok ms => have := k3 _ hx (by simp); cases this
            | ok ms =>
              dsimp only
              obtain ⟨L, hL⟩ := k2 (by simp)
              have hok : uncached I fs (L + 1) path = .ok (maximum ms (I.seconds file.mtime)) := by
                rw [hun, hL]
              refine ⟨⟨k1.1, fun p m' hp' => ?_⟩, fun _ => ⟨L + 1, hok⟩, fun r h hr => uncached_det hok (by simp) h hr⟩
              rw [Dict.get_set] at hp'
              split at hp'
              · rename_i hpp
                cases hp'
                exact ⟨L + 1, by rw [← hpp]; exact hok⟩
              · exact k1.2 p m' hp'

theorem history_disk {parse : T → Except Err (List Val)} {cacheFile : Str → Str} {V : Str → Int → T}
    (hcf : ∀ p q, cacheFile p = cacheFile q → V p = V q) {fs : Files T} {disk : Str → CacheFile}
    (h : History parse cacheFile V fs disk) : Versions V fs ∧ DiskOk parse cacheFile V disk := by
  induction h with
  | start hv hd => exact ⟨hv, fun p c h => by rw [hd] at h; cases h⟩
  | edit _ hv ih => exact ⟨hv, ih.2⟩
  | damage _ hd ih =>
    refine ⟨ih.1, fun p c h => ?_⟩
    rcases hd (cacheFile p) with h' | h' | h'
    · exact ih.2 p c (h' ▸ h)
    · rw [h'] at h; cases h
    · rw [h'] at h; cases h
  | lookup I limit path _ h1 h2 ih =>
    subst h1 h2
    refine ⟨ih.1, ?_⟩
    exact (pathStats_ok ih.1 hcf limit (path := path) ⟨ih.2, fun p m h => by cases h⟩).1.1

end Mcpyrate.Importer
