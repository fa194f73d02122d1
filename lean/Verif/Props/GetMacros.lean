import Verif.Lemmas.GetMacros
import Verif.Spec.GetMacrosExample
/-
C26 macro-imports resolve to the right objects or fail loudly.
`x` is the magic first name ("macros"), `ns` are the names after it.
-/
namespace Mcpyrate
open Py GetMacros Paths

variable {σ M O : Type}

/-- C26: a successful macro-import has imported the module the statement refers to; every name is a
callable attribute of it; and the bindings are those of the names (or aliases) to these attributes. -/
theorem C26_sound (I : Interp σ M O) (o : Opts) (t : Val) (s s' : σ) (a : String) (b : Dict String O)
    (x : String × Option String) (ns : List (String × Option String))
    (ht : Parsed t) (hn : Names t (x :: ns)) (h : getMacros I o t s = (.ok (a, b), s')) :
    ∃ m, Refers I o t s a m s' ∧ Importable I o s' m ns ∧ Bindings I s' m ns b := by
  obtain ⟨vs, hv1, hv2⟩ := hn
  obtain ⟨x', ns', ⟨vs', hv1', hv2'⟩, has⟩ := ht.names
  rw [hv1] at hv1'
  simp only [Option.some.injEq, Val.list.injEq] at hv1'
  subst hv1'
  have hnn : ns = ns' := by
    rw [hv2] at hv2'
    have := List.map_inj_right (f := (Except.ok : _ → Except Err (String × Option String)))
      (fun a b h => by cases h; rfl) |>.1 hv2'
    simp at this; exact this.2
  subst hnn
  unfold getMacros at h
  split at h
  · cases h
  · rename_i p hp
    split at h
    · cases h
    · rename_i a' m s1 hf
      have hr := (find_iff ht.from_).1 ⟨p, hp, hf⟩
      unfold bindAll at h
      rw [hv1] at h
      dsimp only at h
      split at h
      · cases h
      · rename_i b' hb
        simp only [Prod.mk.injEq, Except.ok.injEq] at h
        obtain ⟨⟨rfl, rfl⟩, rfl⟩ := h
        have hd : (vs.drop 1).map aliasOf = ns.map .ok := by
          rw [List.map_drop, hv2]; simp
        obtain ⟨h1, h2, h3⟩ := bindNames_ok hd hb
        have hkey : ∀ y ∈ ns, key y.1 y.2 = boundName y := fun y hy => key_boundName (has y (by simp [hy]))
        refine ⟨m, hr, h1, h2 (by simp [Dict.WF, Dict.keys]), fun k f => ?_⟩
        rw [h3]
        constructor
        · rintro (⟨be, y, af, rfl, hk, hf, hn⟩ | ⟨hf, _⟩)
          · exact ⟨be, y, af, rfl, by rw [← hkey y (by simp)]; exact hk, hf,
              fun z hz => by rw [← hkey z (by simp [hz])]; exact hn z hz⟩
          · simp [Dict.get] at hf
        · rintro ⟨be, y, af, rfl, hk, hf, hn⟩
          exact .inl ⟨be, y, af, rfl, by rw [hkey y (by simp)]; exact hk, hf,
            fun z hz => by rw [hkey z (by simp [hz])]; exact hn z hz⟩

/-- C26: a macro-import succeeds when the statement refers to a module, every name is a callable
attribute of it, and aliases are used only where allowed.  With `C26_sound`: it raises exactly when
one of these conditions fails. -/
theorem C26_complete (I : Interp σ M O) (o : Opts) (t : Val) (s s' : σ) (a : String) (m : M)
    (x : String × Option String) (ns : List (String × Option String))
    (ht : Parsed t) (hn : Names t (x :: ns)) (hr : Refers I o t s a m s') (hi : Importable I o s' m ns) :
    ∃ b, getMacros I o t s = (.ok (a, b), s') := by
  obtain ⟨vs, hv1, hv2⟩ := hn
  obtain ⟨p, hp, hf⟩ := (find_iff ht.from_).2 hr
  have hd : (vs.drop 1).map aliasOf = ns.map .ok := by
    rw [List.map_drop, hv2]; simp
  obtain ⟨b, hb⟩ := bindNames_succeeds hd hi []
  refine ⟨b, ?_⟩
  unfold getMacros
  rw [hp]
  dsimp only
  rw [hf]
  dsimp only
  unfold bindAll
  rw [hv1]
  dsimp only
  rw [hb]

/-- C26: if the module is found but a name is missing, is not callable, or has a forbidden alias, then
ImportError is raised (and the module stays imported). -/
theorem C26_bad_name (I : Interp σ M O) (o : Opts) (t : Val) (s s' : σ) (a : String) (m : M)
    (x : String × Option String) (ns : List (String × Option String))
    (ht : Parsed t) (hn : Names t (x :: ns)) (hr : Refers I o t s a m s')
    (hi : ¬ Importable I o s' m ns) : getMacros I o t s = (.error .importError, s') := by
  obtain ⟨vs, hv1, hv2⟩ := hn
  obtain ⟨p, hp, hf⟩ := (find_iff ht.from_).2 hr
  have hd : (vs.drop 1).map aliasOf = ns.map .ok := by
    rw [List.map_drop, hv2]; simp
  have key : ∀ (vs : List Val) (ns : List (String × Option String)) (b0 : Dict String O),
      vs.map aliasOf = ns.map .ok → ¬ Importable I o s' m ns →
      bindNames I o s' m vs b0 = .error .importError := by
    intro vs
    induction vs with
    | nil =>
      intro ns b0 hv hn
      cases ns with
      | nil => exact absurd (fun y hy => by simp at hy) hn
      | cons => simp at hv
    | cons v vs ih =>
      intro ns b0 hv hn
      cases ns with
      | nil => simp at hv
      | cons y ns =>
        simp only [List.map_cons, List.cons.injEq] at hv
        obtain ⟨n, as⟩ := y
        rw [bindNames, hv.1]
        dsimp only
        split
        · rfl
        · rename_i hal
          split
          · rfl
          · rename_i f hf
            split
            · rfl
            · rename_i hc
              refine ih ns _ hv.2 fun hrest => hn fun y hy => ?_
              rcases List.mem_cons.1 hy with rfl | hy
              · refine ⟨⟨f, hf, by simpa using hc⟩, fun hs => ?_⟩
                dsimp only at hs
                simp only [hs, Bool.and_true] at hal
                simpa using hal
              · exact hrest y hy
  unfold getMacros
  rw [hp]
  dsimp only
  rw [hf]
  dsimp only
  unfold bindAll
  rw [hv1]
  dsimp only
  rw [key _ _ _ hd hi]

/-- C26: `from . import macros, …` is a SyntaxError or, outside of a package, an ImportError; nothing
is imported. -/
theorem C26_no_module (I : Interp σ M O) (o : Opts) (t : Val) (s : σ) (n : Nat)
    (h1 : t.get? .level = some (.int (n + 1))) (h2 : t.get? .module_ = some .none) :
    getMacros I o t s = (.error .syntaxError, s) ∨
      (getMacros I o t s = (.error .importError, s) ∧ (∃ stem, o.filename = stem ++ ".py".toList) ∧
        ∃ e, resolvePackage I.fs I.syspath o.filename = .error e) := by
  have hf : ∀ p, findModule I o t p s = (.error .syntaxError, s) := by
    intro p; unfold findModule; rw [h2]; rfl
  have hlev : levelTruthy t = true := by
    unfold levelTruthy; rw [h1]; simp; omega
  unfold getMacros packageOf
  rw [hlev, Bool.true_and]
  by_cases hpy : ".py".toList.isSuffixOf o.filename = true
  · rw [if_pos hpy]
    cases hq : resolvePackage I.fs I.syspath o.filename with
    | ok q => left; simp only [hf]
    | error e => exact .inr ⟨rfl, suffix_iff.1 hpy, e, rfl⟩
  · rw [if_neg hpy]
    left; simp only [hf]

/-- C26: a relative self-macro-import is a SyntaxError (if the package can be determined at all); an
absolute one without the module in `sys.modules` is a ModuleNotFoundError.  Nothing is imported. -/
theorem C26_self_errors (I : Interp σ M O) (o : Opts) (t : Val) (s : σ) (n : Nat)
    (h : IsFrom t n "__self__") :
    (n ≠ 0 → (∃ p, packageOf I o t = .ok p) → getMacros I o t s = (.error .syntaxError, s)) ∧
    (n = 0 → (∀ a, o.selfModule = some a → I.sysModules s a = none) →
      getMacros I o t s = (.error .moduleNotFoundError, s)) := by
  have hlev : levelTruthy t = decide (n ≠ 0) := by
    unfold levelTruthy; rw [h.level]
    cases n with
    | zero => rfl
    | succ k => simp; omega
  constructor
  · rintro hn ⟨p, hp⟩
    unfold getMacros
    rw [hp]
    have : findModule I o t p s = (.error .syntaxError, s) := by
      unfold findModule; rw [h.module]; simp [hlev, hn]
    simp only [this]
  · rintro rfl hs
    have hp : packageOf I o t = .ok none := by simp [packageOf, hlev]
    unfold getMacros
    rw [hp]
    have : findModule I o t none s = (.error .moduleNotFoundError, s) := by
      unfold findModule; rw [h.module]
      cases ho : o.selfModule with
      | none => simp [hlev]
      | some a => simp [hlev, hs a ho]
    simp only [this]

/-- C26: a failing import of the module is passed on with its exception class. -/
theorem C26_import_fails (I : Interp σ M O) (o : Opts) (t : Val) (s s' : σ) (a : String) (e : Err)
    (h : IsFrom t 0 a) (hns : a ≠ "__self__") (hi : I.importModule a s = (.error e, s')) :
    getMacros I o t s = (.error e, s') := by
  have hlev : levelTruthy t = false := by
    unfold levelTruthy; rw [h.level]; rfl
  have hp : packageOf I o t = .ok none := by simp [packageOf, hlev]
  have : findModule I o t none s = (.error e, s') := by
    unfold findModule dots; rw [h.module, h.level]
    simp [hns, resolveName, hi]
  unfold getMacros
  rw [hp]
  simp only [this]

/-- C26: a relative import outside of a package, or one with too many dots, is an ImportError, and
nothing is imported. -/
theorem C26_relative_fails (I : Interp σ M O) (o : Opts) (t : Val) (s : σ) (n : Nat) (name : String)
    (h : IsFrom t (n + 1) name) (hns : name ≠ "__self__")
    (hbad : (¬ ∃ stem, o.filename = stem ++ ".py".toList) ∨
      (∀ pkg, resolvePackage I.fs I.syspath o.filename = .ok pkg → ¬ ∃ base, DotsOf pkg (n + 1) base)) :
    getMacros I o t s = (.error .importError, s) := by
  have hlev : levelTruthy t = true := by
    unfold levelTruthy; rw [h.level]; simp; omega
  have hfm : ∀ p, resolveName (n + 1) name p = .error .importError →
      findModule I o t p s = (.error .importError, s) := by
    intro p hp
    unfold findModule dots; rw [h.module, h.level]
    have : (((n + 1 : Nat) : Int)).toNat = n + 1 := by omega
    simp only [Option.getD_some, hns, if_false, this, hp]
  unfold getMacros packageOf
  rw [hlev, Bool.true_and]
  by_cases hpy : ".py".toList.isSuffixOf o.filename = true
  · rw [if_pos hpy]
    cases hq : resolvePackage I.fs I.syspath o.filename with
    | error e => rfl
    | ok pkg =>
      rcases hbad with hbad | hbad
      · exact absurd (suffix_iff.1 hpy) hbad
      · have hr : resolveName (n + 1) name (some pkg) = .error .importError := by
          have hno := hbad pkg hq
          cases pkg with
          | nil => exact absurd rfl (resolvePackage_ne hq)
          | cons c cs =>
            have : (splitDots (c :: cs)).length < n + 1 := by
              rcases Nat.lt_or_ge (splitDots (c :: cs)).length (n + 1) with h | h
              · exact h
              · exact absurd ⟨_, dotsOf_iff.2 ⟨h, rfl⟩⟩ hno
            simp [resolveName, this]
        simp only [hfm _ hr]
  · rw [if_neg hpy]
    have : findModule I o t none s = (.error .importError, s) := hfm none (by simp [resolveName])
    simp only [this]

/-- The import statement of the example refers to a module, and all names can be imported. -/
example : Parsed GetMacros.Ex.relative ∧
    Names GetMacros.Ex.relative [("macros", none), ("f", none), ("g", some "h"), ("f", some "h")] ∧
    Refers GetMacros.Ex.interp GetMacros.Ex.opts GetMacros.Ex.relative [] "p.lib" "p.lib" ["p.lib"] ∧
    Importable GetMacros.Ex.interp GetMacros.Ex.opts ["p.lib"] "p.lib"
      [("f", none), ("g", some "h"), ("f", some "h")] := by
  refine ⟨⟨.inl ⟨2, "lib", ⟨rfl, rfl⟩, by decide, by decide +kernel⟩, ("macros", none),
      [("f", none), ("g", some "h"), ("f", some "h")], ⟨_, rfl, rfl⟩, by simp⟩,
    ⟨_, rfl, rfl⟩, ?_, ?_⟩
  · have : ("p.lib" : String) = String.ofList ("p".toList ++ '.' :: "lib".toList) := by decide +kernel
    rw [this]
    refine .relative (pkg := "p.q".toList) (n := 1) ⟨rfl, rfl⟩ (by decide) (by decide)
      ⟨"/home/u/lib/site/p/q/m".toList, by decide +kernel⟩ (by decide +kernel)
      ⟨["p".toList], ["q".toList], by decide, by decide, by decide, by decide, by decide⟩
      ⟨"p.lib", ["p.lib"], by decide +kernel, rfl, rfl⟩
  · intro x hx
    simp only [List.mem_cons, List.not_mem_nil, or_false] at hx
    rcases hx with rfl | rfl | rfl <;>
      exact ⟨by first | exact ⟨1, rfl, rfl⟩ | exact ⟨2, rfl, rfl⟩, fun _ => rfl⟩

/-- The later of two names bound as `h` wins; `p.lib` has been imported. -/
example : getMacros GetMacros.Ex.interp GetMacros.Ex.opts GetMacros.Ex.relative [] =
    (.ok ("p.lib", [("f", 1), ("h", 1)]), ["p.lib"]) := by decide +kernel

/-- A name that is missing, one that is not callable, one with a forbidden alias. -/
example : (getMacros GetMacros.Ex.interp GetMacros.Ex.opts (GetMacros.Ex.absolute "lib" [("nope", none)]) []) =
    (.error .importError, ["lib"]) := by decide +kernel
example : (getMacros GetMacros.Ex.interp GetMacros.Ex.opts (GetMacros.Ex.absolute "lib" [("data", none)]) []) =
    (.error .importError, ["lib"]) := by decide +kernel
example : (getMacros GetMacros.Ex.interp { GetMacros.Ex.opts with allowAsname := false }
    (GetMacros.Ex.absolute "lib" [("f", some "h")]) []) = (.error .importError, ["lib"]) := by decide +kernel

/-- Modules that cannot be found. -/
example : getMacros GetMacros.Ex.interp GetMacros.Ex.opts (GetMacros.Ex.from_ 1 none [("f", none)]) [] =
    (.error .syntaxError, []) := by decide +kernel
example : getMacros GetMacros.Ex.interp GetMacros.Ex.opts (GetMacros.Ex.absolute "__self__" [("f", none)]) [] =
    (.error .moduleNotFoundError, []) := by decide +kernel
example : getMacros GetMacros.Ex.interp GetMacros.Ex.opts (GetMacros.Ex.from_ 1 (some "__self__") [("f", none)]) [] =
    (.error .syntaxError, []) := by decide +kernel
example : getMacros GetMacros.Ex.interp GetMacros.Ex.opts (GetMacros.Ex.absolute "nolib" [("f", none)]) [] =
    (.error .moduleNotFoundError, []) := by decide +kernel
example : getMacros GetMacros.Ex.interp GetMacros.Ex.opts (GetMacros.Ex.from_ 3 (some "lib") [("f", none)]) [] =
    (.error .importError, []) := by decide +kernel
example : getMacros GetMacros.Ex.interp { GetMacros.Ex.opts with filename := "<stdin>".toList }
    (GetMacros.Ex.from_ 1 (some "lib") [("f", none)]) [] = (.error .importError, []) := by decide +kernel

end Mcpyrate
