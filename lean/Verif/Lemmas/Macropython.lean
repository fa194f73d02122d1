import Verif.Spec.Macropython
import Verif.Props.Paths
/-
Lemmas for C63.
-/
namespace Mcpyrate.Macropython
open Py

variable {υ L α β : Type}

theorem bind_ok {m : R υ α} {f : α → R υ β} {w w1 : World υ} {a : α} (h : m w = some (.ok a, w1)) : (m >>= f) w = f a w1 := by
  show M.bind m f w = _
  unfold M.bind; rw [h]

theorem bind_err {m : R υ α} {f : α → R υ β} {w w1 : World υ} {e : Exc} (h : m w = some (.error e, w1)) :
    (m >>= f) w = some (.error e, w1) := by
  show M.bind m f w = _
  unfold M.bind; rw [h]

theorem bind_none {m : R υ α} {f : α → R υ β} {w : World υ} (h : m w = none) : (m >>= f) w = none := by
  show M.bind m f w = _
  unfold M.bind; rw [h]

theorem attempt_some {m : R υ α} {w w1 : World υ} {r : Except Exc α} (h : m w = some (r, w1)) :
    M.attempt m w = some (.ok r, w1) := by
  unfold M.attempt; rw [h]

theorem attempt_none {m : R υ α} {w : World υ} (h : m w = none) : M.attempt m w = none := by
  unfold M.attempt; rw [h]

theorem dropWhile_dot {c : Str} (h : '.' ∉ c) (r : Str) : (c ++ '.' :: r).dropWhile (fun x : Char => decide (x ≠ '.')) = '.' :: r := by
  induction c with
  | nil => simp
  | cons x c ih =>
    have hx : x ≠ '.' := fun e => h (by simp [e])
    rw [List.cons_append, List.dropWhile_cons, if_pos (by simp [hx])]
    exact ih fun hm => h (by simp [hm])

theorem parentName_eq {p c : Str} (h : '.' ∉ c) : parentName (p ++ '.' :: c) = p := by
  unfold parentName
  rw [List.reverse_append, List.reverse_cons, List.append_assoc, List.singleton_append,
    dropWhile_dot (by simpa using h)]
  simp

theorem findSpec_found {name : Str} {path : Option (List Str)}
    {fs : List (Option (Str → Option (List Str) → R υ (Option (ModSpec L))))} {w w' : World υ} {s : ModSpec L}
    (h : Searched name path fs w s w') : findSpec name path fs w = some (.ok s, w') := by
  induction h with
  | skip _ ih => exact ih
  | pass h _ ih => exact (bind_ok h).trans ih
  | found h => exact bind_ok h

theorem findSpec_none {name : Str} {path : Option (List Str)}
    {fs : List (Option (Str → Option (List Str) → R υ (Option (ModSpec L))))} {w w' : World υ}
    (h : NotFound name path fs w w') :
    findSpec name path fs w = some (.error (.importError true (some ("No module named ".toList ++ name))), w') := by
  induction h with
  | nil => rfl
  | skip _ ih => exact ih
  | pass h _ ih => exact (bind_ok h).trans ih

/-- The part after the search, and the search. -/
def search (H : Host υ L) (name : Str) (scriptMode : Bool) (path : Option (List Str)) : R υ Unit := do
  let w ← M.get
  let spec ← findSpec name path (H.finders w)
  runSpec H name scriptMode path spec

theorem import_top {H : Host υ L} {name : Str} {b : Bool} (h : '.' ∉ name) (w : World υ) :
    importAsMain H name b w = search H name b none w := by
  unfold importAsMain
  have h0 : name.head? ≠ some '.' := by
    intro e
    cases name with
    | nil => cases e
    | cons x r => simp at e; exact h (by simp [e])
  rw [if_neg h0, if_neg h]
  rfl

theorem import_dotted {H : Host υ L} {parent child : Str} (hp : parent ≠ []) (h0 : parent.head? ≠ some '.')
    (hc : '.' ∉ child) (w : World υ) : importAsMain H (parent ++ '.' :: child) false w =
      (do
        H.importModule parent
        let path ← H.locations parent
        search H (parent ++ '.' :: child) false path) w := by
  unfold importAsMain
  have h0' : (parent ++ '.' :: child).head? ≠ some '.' := by
    cases parent with
    | nil => exact absurd rfl hp
    | cons x r => exact h0
  rw [if_neg h0', if_pos (by simp), parentName_eq hc]
  rfl

theorem import_prepared {H : Host υ L} {name parent : Str} {w w1 : World υ} {path : Option (List Str)}
    (h : Prepared H name parent w path w1) : importAsMain H name false w = search H name false path w1 := by
  cases h with
  | top h => exact import_top h w
  | sub hp h0 hc hi hl hn =>
    rw [import_dotted hp h0 hc]
    exact (bind_ok hi).trans (bind_ok hl)

theorem search_found {H : Host υ L} {name : Str} {b : Bool} {path : Option (List Str)} {w w1 w2 : World υ} {s : ModSpec L}
    {l : Option L} (h : Searched name path (H.finders w) w s w1) (hm : H.moduleFromSpec s w1 = some (.ok l, w2)) :
    search H name b path w = runSpec H name b path s w1 ∧ H.moduleFromSpec s w1 = some (.ok l, w2) :=
  ⟨(bind_ok rfl).trans (bind_ok (findSpec_found h)), hm⟩

theorem bare_iff {e : Exc} : e.isException = false ↔ Bare e := by
  cases e <;> simp [Exc.isException, Bare]

theorem exec_iff {H : Host υ L} (hs : H.stash = .bootstrap) {l : L} {pk : Str} {path : Option (List Str)} {w : World υ}
    {r : Except Exc Unit} {w' : World υ} :
    execMain H l ⟨lit "__main__", pk, path⟩ w = some (r, w') ↔ AsMain H l pk path w r w' := by
  unfold AsMain
  have e0 : execMain H l ⟨lit "__main__", pk, path⟩ w = (M.attempt (H.exec l ⟨lit "__main__", pk, path⟩) >>= fun x =>
      match x with
      | .ok () => (pure () : R υ Unit)
      | .error e => if e.isException then do setMain H.stash; M.throw e else M.throw e) { w with main := .program } := rfl
  rw [e0]
  cases he : H.exec l ⟨lit "__main__", pk, path⟩ { w with main := .program } with
  | none =>
    rw [bind_none (attempt_none he)]
    constructor
    · exact fun h => nomatch h
    · rintro ⟨w3, h, -⟩
      have := he.symm.trans h
      cases this
  | some p =>
    obtain ⟨r0, w3⟩ := p
    rw [bind_ok (attempt_some he)]
    have hx : ∀ {r : Except Exc Unit} {w4}, H.exec l ⟨"__main__".toList, pk, path⟩ { w with main := .program } = some (r, w4) →
        r = r0 ∧ w4 = w3 := by
      intro r w4 h
      have := he.symm.trans h
      cases this; exact ⟨rfl, rfl⟩
    cases r0 with
    | ok u =>
      constructor
      · intro h
        cases h
        exact ⟨_, he, .inl ⟨rfl, rfl⟩⟩
      · rintro ⟨w4, h, h1⟩
        obtain ⟨rfl, rfl⟩ := hx h
        rcases h1 with ⟨-, rfl⟩ | ⟨e, h, -⟩ | ⟨e, h, -⟩
        · rfl
        · cases h
        · cases h
    | error e =>
      dsimp only
      cases hb : e.isException with
      | true =>
        rw [if_pos rfl, hs]
        constructor
        · intro h
          cases h
          exact ⟨_, he, .inr (.inl ⟨e, rfl, (fun hn => by rw [bare_iff.2 hn] at hb; exact nomatch hb), rfl⟩)⟩
        · rintro ⟨w4, h, h1⟩
          obtain ⟨rfl, rfl⟩ := hx h
          rcases h1 with ⟨h, -⟩ | ⟨e', h, -, rfl⟩ | ⟨e', h, h2, -⟩
          · cases h
          · rfl
          · cases h; rw [bare_iff.2 h2] at hb; cases hb
      | false =>
        rw [if_neg (by simp)]
        constructor
        · intro h
          cases h
          exact ⟨_, he, .inr (.inr ⟨e, rfl, bare_iff.1 hb, rfl⟩)⟩
        · rintro ⟨w4, h, h1⟩
          obtain ⟨rfl, rfl⟩ := hx h
          rcases h1 with ⟨h, -⟩ | ⟨e', h, h2, -⟩ | ⟨e', h, h2, rfl⟩
          · cases h
          · cases h; exact absurd (bare_iff.1 hb) h2
          · rfl

theorem spec_module {H : Host υ L} {name parent : Str} {path : Option (List Str)} {w w1 w2 : World υ} {s : ModSpec L} {l : L}
    {o : Str} {w0 : World υ} (hp : Prepared H name parent w0 path w) (hm : H.moduleFromSpec s w1 = some (.ok (some l), w2))
    (ho : s.origin = some o) (hi : (lit "__init__.py").isSuffixOf o = false) (hl : s.locations = none) :
    runSpec H name false path s w1 = execMain H l ⟨lit "__main__", parent, none⟩ w2 := by
  unfold runSpec
  rw [bind_ok hm, if_neg (by simp)]
  cases hp with
  | top h =>
    rw [if_neg (by simp), ho]
    dsimp only
    rw [if_neg (by rw [hi]; simp)]
    refine (bind_ok rfl).trans ?_
    dsimp only
    rw [if_neg (by simp), hl]
    unfold defaultPackage
    rw [hl, if_pos rfl]
  | @sub p c _ w1 _ path hp h0 hc hi hl' hn =>
    have hp' : ((some path).getD []).isEmpty = false := by
      cases path with
      | nil => exact absurd rfl hn
      | cons => rfl
    rw [if_pos hp']
    refine (bind_ok rfl).trans ?_
    dsimp only
    rw [if_neg (by simp), hl, parentName_eq hc]

theorem spec_script {H : Host υ L} {name : Str} {path : Option (List Str)} {w1 w2 : World υ} {s : ModSpec L} {l : L}
    (hm : H.moduleFromSpec s w1 = some (.ok (some l), w2)) :
    runSpec H name true path s w1 = execMain H l ⟨lit "__main__", [], s.locations⟩ w2 := by
  unfold runSpec
  rw [bind_ok hm, if_pos rfl]
  rfl

theorem spec_package {H : Host υ L} {name : Str} {w1 w2 : World υ} {s : ModSpec L} {l : Option L} {o : Str}
    (hm : H.moduleFromSpec s w1 = some (.ok l, w2)) (ho : s.origin = some o)
    (hi : (lit "__init__.py").isSuffixOf o = true) :
    runSpec H name false none s w1 = (do H.importModule name; runMainpy H name) w2 := by
  unfold runSpec
  rw [bind_ok hm, if_neg (by simp), if_neg (by simp), ho]
  dsimp only
  rw [if_pos hi]
  rfl

/-! ### `sys.path` -/

theorem pushed {H : Host υ L} {dir : Paths.Path} {w : World υ} (hw : w.syspath ≠ []) :
    ∃ w', Pushed H dir w w' ∧ ∀ f : Unit → R υ β,
      (do pushPath (Paths.text dir); pushPypackages H dir; f ()) w = f () w' := by
  have step : ∃ rest, (w.syspath = Paths.text dir :: rest ∨ (w.syspath ≠ [] ∧ w.syspath.head? ≠ some (Paths.text dir) ∧ rest = w.syspath)) ∧
      pushPath (Paths.text dir) w = some (.ok (), { w with syspath := Paths.text dir :: rest }) := by
    cases hp : w.syspath with
    | nil => exact absurd hp hw
    | cons p ps =>
      unfold pushPath
      rw [hp]
      dsimp only
      by_cases e : p = Paths.text dir
      · rw [if_pos e]
        refine ⟨ps, .inl (by rw [e]), ?_⟩
        have : { w with syspath := Paths.text dir :: ps } = w := by rw [← e, ← hp]
        rw [this]
      · rw [if_neg e]
        exact ⟨p :: ps, .inr ⟨by simp, by simpa using e, rfl⟩, rfl⟩
  obtain ⟨rest, h1, h2⟩ := step
  cases hd : H.isDir (dir ++ [lit "__pypackages__"]) { w with syspath := Paths.text dir :: rest } with
  | true =>
    refine ⟨_, ⟨rest, h1, _, rfl, .inl ⟨hd, rfl⟩⟩, fun f => ?_⟩
    refine (bind_ok h2).trans (bind_ok (a := ()) ?_)
    unfold pushPypackages
    dsimp only
    rw [if_pos hd]
    rfl
  | false =>
    refine ⟨_, ⟨rest, h1, _, rfl, .inr ⟨hd, rfl⟩⟩, fun f => ?_⟩
    refine (bind_ok h2).trans (bind_ok (a := ()) ?_)
    unfold pushPypackages
    dsimp only
    rw [if_neg (by rw [hd]; simp)]

theorem Pushed.unique {H : Host υ L} {dir : Paths.Path} {w w1 w2 : World υ} (h1 : Pushed H dir w w1) (h2 : Pushed H dir w w2) :
    w1 = w2 := by
  obtain ⟨r1, a1, _, rfl, b1⟩ := h1
  obtain ⟨r2, a2, _, rfl, b2⟩ := h2
  have hr : r1 = r2 := by
    rcases a1 with a1 | ⟨-, n1, e1⟩
    · rcases a2 with a2 | ⟨-, n2, -⟩
      · rw [a1] at a2; cases a2; rfl
      · rw [a1] at n2; exact absurd rfl n2
    · rcases a2 with a2 | ⟨-, -, e2⟩
      · rw [a2] at n1; exact absurd rfl n1
      · rw [e1, e2]
  subst hr
  rcases b1 with ⟨c1, rfl⟩ | ⟨c1, rfl⟩
  · rcases b2 with ⟨-, rfl⟩ | ⟨c2, -⟩
    · rfl
    · rw [c1] at c2; cases c2
  · rcases b2 with ⟨c2, -⟩ | ⟨-, rfl⟩
    · rw [c1] at c2; cases c2
    · rfl

theorem Pushed.mem {H : Host υ L} {dir : Paths.Path} {w w' : World υ} (h : Pushed H dir w w') : Paths.text dir ∈ w'.syspath := by
  obtain ⟨r, -, _, rfl, ⟨-, rfl⟩ | ⟨-, rfl⟩⟩ := h <;> simp

theorem moduleName_py {s : Str} (h : '.' ∉ s) (h' : '/' ∉ s) : moduleName (s ++ lit ".py") = s := by
  have hd : Paths.dotted (s ++ lit ".py") = s ++ lit ".py" := by
    unfold Paths.dotted
    rw [List.map_append]
    have : s.map (fun c => if c = '/' then '.' else c) = s := by
      rw [List.map_congr_left (g := id)]
      · simp
      · intro c hc
        rw [if_neg (fun e : c = '/' => h' (e ▸ hc))]; rfl
    rw [this]; rfl
  unfold moduleName
  rw [hd]
  dsimp only
  have h1 : ¬ (lit ".__init__.py").isSuffixOf (s ++ lit ".py") = true := by
    intro hs
    obtain ⟨t, e⟩ := List.isSuffixOf_iff_suffix.1 hs
    have e' : (t ++ lit ".__init__") ++ lit ".py" = s ++ lit ".py" := by rw [List.append_assoc]; exact e
    have := List.append_cancel_right e'
    apply h
    rw [← this]
    simp [lit]
  rw [if_neg h1, if_pos (List.isSuffixOf_iff_suffix.2 ⟨s, rfl⟩)]
  have : (s ++ lit ".py").length - 3 = s.length := by simp [lit]
  rw [this, List.take_left']
  rfl

theorem relative_file {fs : Paths.FS} {syspath : List Str} {filename : Str} {dir : Paths.Path} {f : Str}
    (hr : fs.resolve filename = dir ++ [f]) (hm : Paths.text dir ∈ syspath)
    (hn : Paths.NoConfusion fs syspath (fs.resolve filename)) (hw : Paths.Written fs syspath)
    (hf : ∀ e ∈ syspath, fs.resolve e ≠ fs.resolve filename) : Paths.relativize fs syspath filename = .ok (dir, f) := by
  have hdir : fs.resolve (Paths.text dir) = dir := fs.idem filename dir (by rw [hr]; exact List.prefix_append _ _)
  have hu : Paths.Under (fs.resolve (Paths.text dir)) (fs.resolve filename) := by
    rw [hdir, hr]; exact List.prefix_append _ _
  obtain ⟨r, h1⟩ := C28_match_succeeds fs syspath filename ⟨_, hm, hu⟩
  have h2 := C28_deepest_partial fs syspath filename r hw h1 _ hm hu
  obtain ⟨⟨e, he, her⟩, h3⟩ := C28_match_partial fs syspath filename r hn h1
  rw [hdir] at h2
  have hrd : r = dir := by
    obtain ⟨t, ht⟩ := h3
    rw [hr] at ht
    have hlen : r.length + t.length = dir.length + 1 := by
      have := congrArg List.length ht; simpa using this
    have ht0 : t.length = 1 := by
      have : t ≠ [] := by
        rintro rfl
        rw [List.append_nil] at ht
        exact hf e he (by rw [her, ht, hr])
      have := List.length_pos_iff.2 this
      omega
    exact (List.append_inj ht (by omega)).1
  subst hrd
  cases hx : Paths.relativize fs syspath filename with
  | error x =>
    unfold Paths.relativize at hx
    dsimp only at hx
    rw [match_resolved, h1] at hx
    cases hx
  | ok q =>
    obtain ⟨r', rel⟩ := q
    obtain ⟨h4, p, h5, h6⟩ := C28_relative_partial fs syspath filename r' rel hn hx
    rw [h1] at h4
    cases h4
    rw [hr] at h5
    have := List.append_cancel_left h5
    subst this
    rw [h6]
    rfl

end Mcpyrate.Macropython
