import Verif.Props.Dialects
import Verif.Lemmas.DialectSource
/-
C42 Dialect source scanning sees each single-line dialect-import.

Full statement: in the source transformation step, each dialect-import line (at column one, on one line) is found as
exactly that line, in order of appearance, whatever text surrounds it.

This does not hold: the regular expression goes on across line breaks, until the last line break before a parenthesis
or a backslash.  What follows up to there, including other dialect-imports, is taken as part of the statement.  It holds
when the first non-blank line after each dialect-import has a parenthesis or a backslash.
-/
namespace Mcpyrate
open Py GetMacros Paths Dialects

variable {σ M O D : Type}

/-- C42: the dialect-imports are found, as they are written, with their line numbers, in order. -/
theorem C42_found_partial (ls : List Str) (out : List (Nat × Str)) (h : Imports 1 ls out) (hg : Guarded ls) :
    found (unlines ls) = out :=
  scan_text h hg (.inl rfl) rfl

/-- The transformers keep the dialect-imports. -/
def KeepsLines (K : Classes σ O D Str) (out : List (Nat × Str)) : Prop :=
  ∀ d m c s c' s', K.method d = some m → HasImports out c → m c s = (.value c', s') → HasImports out c'

private theorem found_of {out : List (Nat × Str)} {c : Str} (h : HasImports out c) : found c = out := by
  obtain ⟨ls, rfl, h1, h2⟩ := h
  exact C42_found_partial ls out h1 h2

private theorem applied_keeps {K : Classes σ O D Str} {out : List (Nat × Str)} (hK : KeepsLines K out) {l k : Attr}
    {bs : List (String × O)} {c c' : Str} {s s' : σ} {calls : List (Call D Str)}
    (h : Applied K l k bs c s calls c' s') (hc : HasImports out c) : HasImports out c' := by
  induction h with
  | nil => exact hc
  | cons _ _ hm hr ho _ ih =>
    cases ho with
    | same => exact ih hc
    | new _ => exact ih (hK _ _ _ _ _ _ hm hc hr)

private theorem distinct_skip {done : List Str} {pre post : List (Nat × Str)} (h : ∀ x ∈ pre, x.2 ∈ done) :
    distinct done (pre ++ post) = distinct done post := by
  induction pre with
  | nil => rfl
  | cons x pre ih =>
    rw [List.cons_append, distinct, if_pos (h x (by simp)), ih (fun y hy => h y (by simp [hy]))]

private theorem findSource_some {I : Interp σ M O} {parse : Str → Except Err Val} {fn txt c : Str} {s s1 : St σ}
    {f : Found O} (h : findSource I parse fn txt s = (.ok (some f, c), s1)) :
    ∃ (pre : List (Nat × Str)) (n : Nat) (st : Str) (post : List (Nat × Str)) (t : Val), found txt = pre ++ (n, st) :: post ∧ (∀ x : Nat × Str, x ∈ pre → x.2 ∈ s.seen) ∧ st ∉ s.seen ∧
      parse st = .ok t ∧ getMacros I { filename := fn, allowAsname := false } t s.world = (.ok (f.absname, f.bindings), s1.world) ∧
      f.lineno = .int n ∧ f.colOffset = .int 0 ∧ c = txt ∧ s1.seen = st :: s.seen := by
  unfold findSource at h
  split at h
  · cases h
  · rename_i n st hf
    obtain ⟨h1, pre, post, h2, h3⟩ := List.find?_eq_some_iff_append.1 hf
    dsimp only at h
    split at h
    · cases h
    · rename_i t ht
      split at h
      · cases h
      · rename_i a b w hg
        cases h
        exact ⟨pre, n, st, post, t, h2, fun x hx => by simpa using h3 x hx, by simpa using h1, ht, hg, rfl, rfl, rfl, rfl⟩

private theorem findSource_none {I : Interp σ M O} {parse : Str → Except Err Val} {fn txt c : Str} {s s1 : St σ}
    (h : findSource I parse fn txt s = (.ok (none, c), s1)) :
    c = txt ∧ s1 = s ∧ ∀ x ∈ found txt, x.2 ∈ s.seen := by
  unfold findSource at h
  split at h
  · rename_i hf
    cases h
    refine ⟨rfl, rfl, fun x hx => ?_⟩
    simpa using List.find?_eq_none.1 hf x hx
  · dsimp only at h
    split at h
    · cases h
    · split at h <;> cases h

private theorem transform_source {K : Classes σ O D Str} {I : Interp σ M O} {parse : Str → Except Err Val}
    {fn : Str} {n : Nat} {c c' : Str} {ds ds' : List D} {s s' : St σ}
    (h : transform K (findSource I parse fn) n c ds s = some (.ok (c', ds'), s')) :
    ∃ recs, SourceSteps K I parse fn c s.world recs c' s'.world ∧ (recs.map (·.statement)).Nodup ∧
      (∀ r ∈ recs, r.statement ∉ s.seen) ∧
      (∀ x ∈ found c', x.2 ∈ s.seen ∨ x.2 ∈ recs.map (·.statement)) ∧
      ∀ out, KeepsLines K out → HasImports out c →
        recs.map (fun r => (r.line, r.statement)) = distinct s.seen out := by
  induction n generalizing c ds s with
  | zero => cases h
  | succ n ih =>
    rw [transform] at h
    split at h
    · cases h
    · rename_i c1 s1 hf
      cases h
      obtain ⟨rfl, rfl, hb⟩ := findSource_none hf
      refine ⟨[], .nil, by simp, by simp, fun x hx => .inl (hb x hx), fun out _ ho => ?_⟩
      rw [found_of ho] at hb
      have := distinct_skip (post := []) hb
      rw [List.append_nil] at this
      rw [this]
      rfl
    · rename_i f c1 s1 hf
      obtain ⟨pre, l, st, post, t, h1, h2, h3, h4, h5, h6, h7, rfl, h9⟩ := findSource_some hf
      split at h
      · cases h
      · rename_i c2 ds2 s2 ha
        obtain ⟨calls, h10, _, h11⟩ := applyAll_ok ha
        rw [h6, h7] at h10
        obtain ⟨recs, h12, h13, h14, h15, h16⟩ := ih h
        rw [h11, h9] at h14 h15 h16
        refine ⟨⟨l, st, calls⟩ :: recs, .cons h4 h5 h10 h12, ?_, ?_, ?_, ?_⟩
        · rw [List.map_cons, List.nodup_cons]
          refine ⟨fun hm => ?_, h13⟩
          obtain ⟨r, hr, he⟩ := List.mem_map.1 hm
          exact h14 r hr (by rw [he]; simp)
        · intro r hr
          rcases List.mem_cons.1 hr with rfl | hr
          · exact h3
          · exact fun hm => h14 r hr (by simp [hm])
        · intro x hx
          rcases h15 x hx with h | h
          · rcases List.mem_cons.1 h with h | h
            · exact .inr (by simp [h])
            · exact .inl h
          · exact .inr (by rw [List.map_cons]; exact List.mem_cons_of_mem _ h)
        · intro out hK ho
          have hfo := found_of ho
          rw [List.map_cons, h16 out hK (applied_keeps hK h10 ho), ← hfo, h1, distinct_skip h2, distinct, if_neg h3]
          congr 1
          rw [distinct_skip (fun x hx => List.mem_cons_of_mem _ (h2 x hx)), distinct, if_pos (by simp)]

/-- C42: when `transform_source` returns, then it has processed a sequence of statements, no statement twice, and all
those found in the resulting text. -/
theorem C42_once (K : Classes σ O D Str) (I : Interp σ M O) (parse : Str → Except Err Val) (filename : Str) (n : Nat)
    (c c' : Str) (s s' : St σ) (hs : s.seen = [])
    (h : transformSource K I parse filename n c s = some (.ok c', s')) :
    ∃ recs, SourceSteps K I parse filename c s.world recs c' s'.world ∧ (recs.map (·.statement)).Nodup ∧
      ∀ x ∈ found c', x.2 ∈ recs.map (·.statement) := by
  unfold transformSource at h
  obtain ⟨⟨r, s1⟩, h1, h2⟩ := Option.map_eq_some_iff.1 h
  cases r with
  | error e => cases h2
  | ok p =>
    cases h2
    obtain ⟨recs, h3, h4, h5, h6, _⟩ := transform_source h1
    rw [hs] at h6
    exact ⟨recs, h3, h4, fun x hx => (h6 x hx).resolve_left (by simp)⟩

/-- C42: if the text has these dialect-imports, and the transformers keep them, then these are processed, in order, each
on its line, without the repetitions. -/
theorem C42_order_partial (K : Classes σ O D Str) (I : Interp σ M O) (parse : Str → Except Err Val) (filename : Str)
    (n : Nat) (c c' : Str) (s s' : St σ) (out : List (Nat × Str)) (hs : s.seen = []) (hc : HasImports out c)
    (hK : KeepsLines K out) (h : transformSource K I parse filename n c s = some (.ok c', s')) :
    ∃ recs, SourceSteps K I parse filename c s.world recs c' s'.world ∧
      recs.map (fun r => (r.line, r.statement)) = distinct [] out := by
  unfold transformSource at h
  obtain ⟨⟨r, s1⟩, h1, h2⟩ := Option.map_eq_some_iff.1 h
  cases r with
  | error e => cases h2
  | ok p =>
    cases h2
    obtain ⟨recs, h3, _, _, _, h7⟩ := transform_source h1
    rw [hs] at h7
    exact ⟨recs, h3, h7 out hK hc⟩

/-- C42: an error in the statement is passed on: it is a syntax error, or the import fails. -/
theorem C42_fails_partial (K : Classes σ O D Str) (I : Interp σ M O) (parse : Str → Except Err Val) (filename : Str)
    (n : Nat) (c : Str) (s : St σ) (line : Nat) (st : Str) (out : List (Nat × Str)) (e : Err) (w : σ) (hs : s.seen = [])
    (hc : HasImports ((line, st) :: out) c)
    (h : parse st = .error e ∧ w = s.world ∨
      ∃ t, parse st = .ok t ∧ getMacros I { filename, allowAsname := false } t s.world = (.error e, w)) :
    ∃ s', transformSource K I parse filename (n + 1) c s = some (.error e, s') ∧ s'.world = w := by
  unfold transformSource
  rw [transform]
  unfold findSource
  rw [found_of hc, List.find?_cons_of_pos (by simp [hs])]
  dsimp only
  rcases h with ⟨h, rfl⟩ | ⟨t, h, hg⟩
  · rw [h]
    exact ⟨_, rfl, rfl⟩
  · rw [h]
    dsimp only
    rw [show opts filename = { filename, allowAsname := false } from rfl, hg]
    exact ⟨_, rfl, rfl⟩

/-- C42: without dialect-imports nothing happens. -/
theorem C42_none_partial (K : Classes σ O D Str) (I : Interp σ M O) (parse : Str → Except Err Val) (filename : Str)
    (n : Nat) (c : Str) (s : St σ) (hc : HasImports [] c) :
    transformSource K I parse filename (n + 1) c s = some (.ok c, s) := by
  unfold transformSource
  rw [transform]
  unfold findSource
  rw [found_of hc]
  rfl

private theorem applied_inherited_source {K : Classes σ O D Str} (hK : ∀ d, K.method d = some inherited) {l k : Attr}
    {b : List (String × O)} {c c' : Str} {s s' : σ} {calls : List (Call D Str)} (h : Applied K l k b c s calls c' s') :
    c' = c := by
  induction h with
  | nil => rfl
  | cons _ _ hm hr ho _ ih =>
    rw [hK] at hm
    cases hm
    cases hr
    cases ho
    exact ih

/-- C42: dialects that do not override `transform_source` do not change the text. -/
theorem C42_inherited (K : Classes σ O D Str) (hK : ∀ d, K.method d = some inherited) (I : Interp σ M O)
    (parse : Str → Except Err Val) (filename : Str) (n : Nat) (c c' : Str) (s s' : St σ) (hs : s.seen = [])
    (h : transformSource K I parse filename n c s = some (.ok c', s')) : c' = c := by
  obtain ⟨recs, h1, -⟩ := C42_once K I parse filename n c c' s s' hs h
  clear h
  generalize s.world = w, s'.world = w' at h1
  induction h1 with
  | nil => rfl
  | cons _ _ ha _ ih => exact ih.trans (applied_inherited_source hK ha)

/-! Where it does not hold. -/

private theorem stmt_a : DialectStmt "from a import dialects, A".toList :=
  ⟨[' '], ['a'], [' '], [' '], ['A'], by decide, by simp [Blank, isSpace], by simp, by simp [Blank, isSpace], by simp,
    by simp [Blank, isSpace], by simp, by simp, by intro c hc; simp at hc; subst hc; exact .inr (.inl (by decide)),
    by simp, by simp, by intro h; rfl⟩

private theorem stmt_b : DialectStmt "from b import dialects, B".toList :=
  ⟨[' '], ['b'], [' '], [' '], ['B'], by decide, by simp [Blank, isSpace], by simp, by simp [Blank, isSpace], by simp,
    by simp [Blank, isSpace], by simp, by simp, by intro c hc; simp at hc; subst hc; exact .inr (.inl (by decide)),
    by simp, by simp, by intro h; rfl⟩

private theorem blank_nil : Blank [] := by simp [Blank]

/-- C42 is violated: of two dialect-imports on consecutive lines, only the first is found, and the second is part of its
statement.  (The first statement is then taken from the parsed text, so that the dialects of the second are never
applied to the source.) -/
theorem C42_consecutive_violated :
    let ls := ["from a import dialects, A".toList, "from b import dialects, B".toList]
    Imports 1 ls [(1, "from a import dialects, A".toList), (2, "from b import dialects, B".toList)] ∧
      found (unlines ls) = [(1, "from a import dialects, A\nfrom b import dialects, B".toList)] := by
  refine ⟨?_, by decide +kernel⟩
  have h1 := Imports.dialect (n := 1) stmt_a blank_nil (Imports.dialect (n := 2) stmt_b blank_nil Imports.nil)
  simpa using h1

/-- C42 is violated: text after a dialect-import becomes part of the statement, whether or not it is Python. -/
theorem C42_following_violated :
    let ls := ["from a import dialects, A".toList, [], "++++[>++<-]".toList, "print(1)".toList]
    Imports 1 ls [(1, "from a import dialects, A".toList)] ∧
      found (unlines ls) = [(1, "from a import dialects, A\n\n++++[>++<-]".toList)] := by
  refine ⟨?_, by decide +kernel⟩
  have h1 := Imports.dialect (n := 1) stmt_a blank_nil (Imports.ordinary (n := 2) (l := []) (by simp) (.inl (by decide))
    (Imports.ordinary (n := 3) (l := "++++[>++<-]".toList) (by decide) (.inl (by decide))
      (Imports.ordinary (n := 4) (l := "print(1)".toList) (by decide) (.inl (by decide)) Imports.nil)))
  simpa using h1

/-- Then there is a syntax error, for any parser that does not accept this text. -/
theorem C42_following_raises_violated (K : Classes σ O D Str) (I : Interp σ M O) (parse : Str → Except Err Val)
    (filename : Str) (n : Nat) (s : St σ) (hs : s.seen = [])
    (hp : parse "from a import dialects, A\n\n++++[>++<-]".toList = .error .syntaxError) :
    ∃ s', transformSource K I parse filename (n + 1)
      (unlines ["from a import dialects, A".toList, [], "++++[>++<-]".toList, "print(1)".toList]) s =
        some (.error .syntaxError, s') := by
  unfold transformSource
  rw [transform]
  unfold findSource
  rw [C42_following_violated.2, List.find?_cons_of_pos (by simp [hs])]
  dsimp only
  rw [hp]
  exact ⟨_, rfl⟩

/-- C42 is violated: a module name with other letters than the ASCII ones is not seen. -/
theorem C42_unicode_violated : found "from é import dialects, A".toList = [] := by decide +kernel

/-! An example: two dialect-imports and other text, where the hypotheses hold. -/

namespace Dialects.Ex

def lines : List Str :=
  ["# text".toList, "from a import dialects, A".toList, [], "(x)".toList, "from b import dialects, B".toList ++ "  ".toList,
    [], "from c import (d)".toList]

def lineImports : List (Nat × Str) := [(2, "from a import dialects, A".toList), (5, "from b import dialects, B".toList)]

end Dialects.Ex
open Dialects.Ex

private theorem line_c : Ordinary "from c import (d)".toList :=
  .inr (.inr ⟨[' '], ['c'], [' '], "import (d)".toList, by decide, by simp [Blank, isSpace], by simp,
    by simp [Blank, isSpace], by simp, by simp, by simp [isSpace], by decide, by decide, by decide⟩)

private theorem imports_ex : Imports 1 lines lineImports := by
  have h : Imports 1 _ _ := Imports.ordinary (l := "# text".toList) (by decide) (.inl (by decide))
    (Imports.dialect stmt_a blank_nil (Imports.ordinary (l := []) (by simp) (.inl (by decide))
    (Imports.ordinary (l := "(x)".toList) (by decide) (.inl (by decide))
    (Imports.dialect (trail := "  ".toList) stmt_b (by unfold Blank; decide) (Imports.ordinary (l := []) (by simp) (.inl (by decide))
    (Imports.ordinary (l := "from c import (d)".toList) (by decide) line_c Imports.nil))))))
  exact h

private theorem guarded_cons {l : Str} {ls : List Str}
    (h : ∀ s trail, l = s ++ trail → DialectStmt s → Blank trail → Stops ls) (hg : Guarded ls) : Guarded (l :: ls) := by
  intro pre s trail post he hs ht
  cases pre with
  | nil => cases he; exact h s trail rfl hs ht
  | cons p pre => exact hg pre s trail post (List.cons.inj he).2 hs ht

private theorem stops_blank {l : Str} {ls : List Str} (hb : Blank l) (h : Stops ls) : Stops (l :: ls) := by
  intro pre x post he hpre hn
  cases pre with
  | nil => cases he; exact absurd hb hn
  | cons p pre => exact h pre x post (List.cons.inj he).2 (fun b hm => hpre b (by simp [hm])) hn

private theorem stops_paren {l : Str} {ls : List Str} (hb : ¬ Blank l) (h : '(' ∈ l) : Stops (l :: ls) := by
  intro pre x post he hpre hn
  cases pre with
  | nil => cases he; exact .inl h
  | cons p pre => cases he; exact absurd (hpre l (by simp)) hb

private theorem not_from {l s trail : Str} (h : l.head? ≠ some 'f') (he : l = s ++ trail) (hs : DialectStmt s) : False := by
  obtain ⟨w1, m, w2, w3, ns, rfl, _⟩ := hs
  subst he
  exact h rfl

private theorem guarded_ex : Guarded lines := by
  have hp : ∀ {l : Str}, '(' ∈ l → ¬ Blank l := fun h hb => absurd (hb _ h).1 (by decide)
  refine guarded_cons (fun s t he hs _ => (not_from (by decide) he hs).elim) ?_
  refine guarded_cons (fun s t he hs _ => stops_blank blank_nil (stops_paren (hp (by decide)) (by decide))) ?_
  refine guarded_cons (fun s t he hs _ => (not_from (by decide) he hs).elim) ?_
  refine guarded_cons (fun s t he hs _ => (not_from (by decide) he hs).elim) ?_
  refine guarded_cons (fun s t he hs _ => stops_blank blank_nil (stops_paren (hp (by decide)) (by decide))) ?_
  refine guarded_cons (fun s t he hs _ => (not_from (by decide) he hs).elim) ?_
  refine guarded_cons (fun s t he hs _ => fun pre x post hx => ?_) (fun pre s t post hx => ?_)
  · cases pre <;> cases hx
  · cases pre <;> cases hx

/-- The hypotheses hold. -/
example : HasImports lineImports (unlines lines) := ⟨lines, rfl, imports_ex, guarded_ex⟩

namespace Dialects.Ex

/-- The dialects `f` (1) and `g` (2): `f` appends a comment. -/
def sourceClasses : Classes (List String) Nat Nat Str where
  isDialect := fun o => o != 0
  new := fun o _ _ s => (some o, s)
  method := fun d => some fun t s => if d = 1 then (.value (t ++ "\n# f".toList), s) else (.notImplemented, s)
  post := fun _ => none
  truthy := fun t => t ≠ []

def parse (s : Str) : Except Err Val :=
  if s = "from lib import dialects, f, g".toList then .ok (dialectImport "lib" ["f", "g"])
  else if s = "from p.lib import dialects, g".toList then .ok (dialectImport "p.lib" ["g"])
  else .error .syntaxError

end Dialects.Ex

/-- If no method is overridden, the text stays. -/
example : (transformSource { sourceClasses with method := fun _ => some inherited } GetMacros.Ex.interp parse
      "/proj/main.py".toList 5 (unlines ["from lib import dialects, f, g".toList, "(0)".toList]) ⟨[], [], 0⟩).map
      (fun r => r.1.toOption) = some (some (unlines ["from lib import dialects, f, g".toList, "(0)".toList])) := by
  decide +kernel

/-- Both dialect-imports are found, and the one that is repeated runs once. -/
example : (transformSource sourceClasses GetMacros.Ex.interp parse "/proj/main.py".toList 5
      (unlines ["from lib import dialects, f, g".toList, "(0)".toList, "from p.lib import dialects, g".toList, "(1)".toList,
        "from lib import dialects, f, g".toList, "(2)".toList]) ⟨[], [], 0⟩).map
        (fun r => (r.1.map String.ofList, r.2.seen.map String.ofList, r.2.step)) =
    some (.ok "from lib import dialects, f, g\n(0)\nfrom p.lib import dialects, g\n(1)\nfrom lib import dialects, f, g\n(2)\n# f",
      ["from p.lib import dialects, g", "from lib import dialects, f, g"], 1) := by
  decide +kernel

end Mcpyrate
