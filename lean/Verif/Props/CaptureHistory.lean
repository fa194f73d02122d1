import Verif.Lemmas.CaptureHistory
import Verif.Lemmas.Unastify
import Verif.Props.Utils
import Verif.Spec.QuotesExample
/-
C37.  Full statement: once a hygienic macro capture has been looked up, its unique name is bound globally to the captured
macro function in every expander, is never rebound by later lookups, and different captures never share a unique name.

Inside one process this is proved for all histories.  Captures made by other processes come in through bytecode caches;
that their unique names differ from those of this process depends on the UUID generator alone, so it is a hypothesis
(`C37_clash_violated` shows that nothing else prevents a clash).  That the function is *the captured one* further needs that
pickling and unpickling gives the function back.
-/
namespace Mcpyrate
open Py Quotes
variable {σ : Type}

/-- A process that has just started. -/
def Quotes.Fresh (p : Process σ) : Prop := p.st.globals = [] ∧ p.captures = [] ∧ p.looked = []

theorem Quotes.inv_fresh (H : Host σ) (L : List MacroKey) {p : Process σ} (h : Fresh p) : Inv H L p := by
  obtain ⟨h1, h2, h3⟩ := h
  have e : own L p = [] := by unfold own; rw [h2]; rfl
  refine ⟨by rw [e]; simp, by rw [e]; simp, ?_, ?_⟩
  · intro u m hm; rw [h1] at hm; cases hm
  · intro k hk; rw [h3] at hk; cases hk

/-- Each capture that has been looked up is bound, in every expander whose own bindings do not contain that name, to what
its frozen data stands for, at any later point of any history.  Captures from other processes are assumed not to share a
unique name with a different capture. -/
theorem C37_bound_partial (H : Host σ) (hH : Imported H) (p p' : Process σ) (hp : Fresh p) (es : List Event)
    (h : history H p es = some p')
    (hL : ∀ k ∈ loaded es, ∀ k' ∈ p'.captures, k'.unique = k.unique → k'.frozen = k.frozen)
    (k : MacroKey) (hk : k ∈ p'.looked) (locals_ : Dict String Obj) (hl : locals_.get k.unique = none) :
    ∃ m, H.unpickle k.frozen = .ok m ∧ isboundIn locals_ p'.st k.unique = some m := by
  obtain ⟨hi, -, -⟩ := inv_history hH es (inv_fresh H (loaded es) hp) (fun _ h => h) h
  obtain ⟨hc, m, hm⟩ := hi.looked k hk
  obtain ⟨k', hk', hu, hf⟩ := hi.bound _ _ hm
  have hc' := (hi.looked k' hk').1
  have e : k'.frozen = k.frozen := by
    by_cases h1 : k ∈ loaded es
    · exact hL k h1 k' hc' hu
    · by_cases h2 : k' ∈ loaded es
      · exact (hL k' h2 k hc hu.symm).symm
      · rw [inv_same hi hc' hc h2 h1 hu]
  refine ⟨m, by rw [← e]; exact hf, ?_⟩
  unfold isboundIn
  rw [hl, hm]
  rfl

/-- Inside one process there is nothing to assume. -/
theorem C37_bound_in_process (H : Host σ) (hH : Imported H) (p p' : Process σ) (hp : Fresh p) (es : List Event)
    (h : history H p es = some p') (hL : loaded es = [])
    (k : MacroKey) (hk : k ∈ p'.looked) (locals_ : Dict String Obj) (hl : locals_.get k.unique = none) :
    ∃ m, H.unpickle k.frozen = .ok m ∧ isboundIn locals_ p'.st k.unique = some m :=
  C37_bound_partial H hH p p' hp es h (by rw [hL]; intro k hk; cases hk) k hk locals_ hl

def Quotes.exProcess : Process Unit := ⟨Ex.start, [], []⟩

/-- Two captures of the same macro, one from elsewhere, and lookups. -/
def Quotes.exEvents : List Event :=
  [.capture (.ext 7) "m", .lookup 0, .capture (.ext 7) "m", .load ⟨"m", "m_9", [8]⟩, .lookup 2, .lookup 1, .lookup 0]

example : Fresh exProcess := ⟨rfl, rfl, rfl⟩
example : (history Ex.host exProcess exEvents).map (fun p => p.looked.map (·.unique)) =
    some ["m_00000000000000000000000000000001", "m_9", "m_00000000000000000000000000000002",
      "m_00000000000000000000000000000001"] := by decide +kernel
example : (history Ex.host exProcess exEvents).map (fun p => p.captures) =
    some [⟨"m", "m_00000000000000000000000000000001", [7]⟩, ⟨"m", "m_00000000000000000000000000000002", [7]⟩,
      ⟨"m", "m_9", [8]⟩] := by decide +kernel

/-- After capturing `f` and running the code of the capture, at any time, the unique name is bound to `f`, if pickling
works for it: `capture_macro`, then whatever, then the lookup. -/
theorem C37_captured (H : Host σ) (hH : Imported H) (f code : Obj) (name : String) (s s1 s2 s3 : St σ) (r : Except Err Obj)
    (hpick : ∀ b, H.pickle f = .ok b → H.unpickle b = .ok f)
    (h1 : captureMacro H f name s = some (.ok code, s1))
    (hfree : ∀ n u b, isCapturedMacro code = .ok (some (n, u, b)) → s2.globals.get u = none)
    (h3 : eval H code s2 = some (r, s3)) :
    ∃ n u b, isCapturedMacro code = .ok (some (n, u, b)) ∧ r = .ok (nameNode u) ∧ s3.globals.get u = some f := by
  obtain ⟨b, u, -, hp, -, rfl⟩ := captureMacro_ok h1
  have hm : isCapturedMacro (macroCode (scrub H name) u b) = .ok (some (scrub H name, u, b)) :=
    isCapturedMacro_some.2 (frozenMacro_macroCode _ _ _)
  refine ⟨_, _, _, hm, ?_⟩
  have hf := hfree _ _ _ hm
  have e : eval H (macroCode (scrub H name) u b) = lookupMacro H u (.bytes b) := eval_macroCode hH ⟨scrub H name, u, b⟩
  rw [e] at h3
  rcases lookupMacro_spec h3 with ⟨e, -, -, -, h⟩ | ⟨-, -, m, h⟩ | ⟨h, -, m, hu, rfl⟩
  · rw [hpick b hp] at h; cases h
  · rw [hf] at h; cases h
  · rw [hpick b hp] at hu
    cases hu
    exact ⟨h, by rw [Dict.get_set, if_pos rfl]⟩

example : Imported Ex.host ∧ ∀ b, Ex.host.pickle (.ext 7) = .ok b → Ex.host.unpickle b = .ok (.ext 7) :=
  ⟨rfl, by intro b h; cases h; rfl⟩

/-- No name is ever rebound, whatever happens: by the events of a history, … -/
theorem C37_never_rebound (H : Host σ) (hH : Imported H) (p p1 p2 : Process σ) (hp : Fresh p) (es es' : List Event)
    (h1 : history H p es = some p1) (h2 : history H p1 es' = some p2) (u : String) (m : Obj)
    (hb : p1.st.globals.get u = some m) : p2.st.globals.get u = some m := by
  have hi := (inv_history hH es (inv_fresh H (loaded es ++ loaded es') hp) (fun _ h => by simp [h]) h1).1
  exact (inv_history hH es' hi (fun _ h => by simp [h]) h2).2.1.bound u m hb

example : (history Ex.host exProcess exEvents).map (fun p => p.st.globals.get "m_9") = some (some (.ext 8)) := by
  decide +kernel

/-- … by running any code, and by compiling and uncompiling any quoted code; errors included. -/
theorem C37_never_rebound_by_code (H : Host σ) (hT : Tame H) (E : Option (String → Option Obj)) (x : Obj) :
    Forward (eval H x) ∧ Forward (astify H E x) ∧ Forward (unastify H x) :=
  ⟨eval_forward hT x, astify_forward H E x, unastify_forward hT x⟩

example : Tame Ex.host where
  name n := by
    show Forward (if _ then _ else _)
    repeat' split
    all_goals first | exact .pure _ | exact .throw _
  attr x _ := by cases x <;> first | exact .pure _ | exact .throw _
  call f _ _ := by
    show Forward (if _ then _ else _)
    split <;> exact .pure _
  expr _ := .throw _

/-- The captures made in a history (those from other processes left out) have different unique names. -/
theorem C37_unique (H : Host σ) (hH : Imported H) (p p' : Process σ) (hp : Fresh p) (es : List Event)
    (h : history H p es = some p') :
    ((p'.captures.filter fun k => decide (k ∉ loaded es)).map (·.unique)).Nodup :=
  (inv_history hH es (inv_fresh H (loaded es) hp) (fun _ h => h) h).1.nodup

example : (history Ex.host exProcess exEvents).isSome := by decide +kernel

/-- Nothing but the UUID generator prevents that a capture from another process has the unique name of a capture of this
process; then the lookup of the latter gives the wrong macro. -/
theorem C37_clash_violated : ∃ (H : Host Unit) (p p' : Process Unit) (es : List Event) (k : MacroKey), Imported H ∧
    Fresh p ∧ history H p es = some p' ∧ k ∈ p'.looked ∧ H.unpickle k.frozen = .ok (.ext 7) ∧
    isboundIn [] p'.st k.unique = some (.ext 8) := by
  refine ⟨Ex.host, exProcess, _, [.load ⟨"m", "m_00000000000000000000000000000001", [8]⟩, .capture (.ext 7) "m", .lookup 0,
    .lookup 1], ⟨"m", "m_00000000000000000000000000000001", [7]⟩, rfl, ⟨rfl, rfl, rfl⟩, rfl, ?_, rfl, ?_⟩
  · decide +kernel
  · decide +kernel

/-- Uncompiling the code of a capture gives an unquote `h[unique]`, and the name is bound, … -/
theorem C37_uncompile (H : Host σ) (k : MacroKey) (s s' : St σ) (x : Obj)
    (h : unastify H k.code s = some (.ok x, s')) :
    x = markerNode "Capture" [(.body, nameNode k.unique), (.name, .str k.name)] ∧
      ∃ m, s'.globals.get k.unique = some m ∧ (s.globals.get k.unique = none → H.unpickle k.frozen = .ok m) := by
  have e : unastify H k.code = (do
      return markerNode "Capture" [(.body, ← lookupMacro H k.unique (.bytes k.frozen)), (.name, .str k.name)]) := rfl
  rw [e] at h
  obtain ⟨y, s1, h1, h2⟩ := M.bind_some h
  cases h2
  rcases lookupMacro_spec h1 with ⟨_, e1, _⟩ | ⟨e1, rfl, m, hm⟩ | ⟨e1, hn, m, hu, rfl⟩
  · cases e1
  · cases e1
    exact ⟨rfl, m, hm, by rw [hm]; intro h; cases h⟩
  · cases e1
    exact ⟨rfl, m, by show (s.globals.set _ _).get _ = _; rw [Dict.get_set, if_pos rfl], fun _ => hu⟩

example : Ex.result (unastify Ex.host (MacroKey.code ⟨"m", "m_9", [8]⟩)) =
    some (.ok (markerNode "Capture" [(.body, nameNode "m_9"), (.name, .str "m")])) := by decide +kernel

/-- … and compiling that unquote, in any later state, captures the same function again. -/
theorem C37_recapture (H : Host σ) (locals_ : Dict String Obj) (s : St σ) (k : MacroKey) (m : Obj)
    (hl : locals_.get k.unique = none) (hm : s.globals.get k.unique = some m) :
    astify H (some (isboundIn locals_ s)) (markerNode "Capture" [(.body, nameNode k.unique), (.name, .str k.name)]) =
      captureMacro H m k.unique := by
  have hc : captured (some (isboundIn locals_ s)) (nameNode k.unique) = some (m, k.unique) := by
    show (isboundIn locals_ s k.unique).map (·, k.unique) = _
    unfold isboundIn
    rw [hl, hm]
    rfl
  show (match captured (some (isboundIn locals_ s)) (nameNode k.unique) with
    | some (f, n) => captureMacro H f n | none => _) = _
  rw [hc]

example : Ex.result (astify Ex.host (some (isboundIn [] { Ex.start with globals := [("m_9", .ext 8)] }))
    (markerNode "Capture" [(.body, nameNode "m_9"), (.name, .str "m")])) =
    Ex.result (captureMacro Ex.host (.ext 8) "m_9") := by decide +kernel

/-- The name recorded in the second capture is that of the first one, when the UUIDs are 32 hexadecimal digits. -/
theorem C37_recapture_name (H : Host σ) (f code : Obj) (name : String) (s s' : St σ) (hn : scrub H name ≠ "")
    (hu : ∀ u ∈ s.gensym.uuids, u.length = 32 ∧ ∀ c ∈ u, c ∈ "0123456789abcdefABCDEF".toList)
    (h : captureMacro H f name s = some (.ok code, s')) :
    ∃ u b, isCapturedMacro code = .ok (some (scrub H name, u, b)) ∧ scrub H u = scrub H name := by
  obtain ⟨b, u, -, -, hg, rfl⟩ := captureMacro_ok h
  refine ⟨u, b, isCapturedMacro_some.2 (frozenMacro_macroCode _ _ _), ?_⟩
  unfold gensymQ at hg
  cases hs : Gensym.gensym (.str (scrub H name).toList) s.gensym with
  | none => rw [hs] at hg; cases hg
  | some q =>
    obtain ⟨o, g⟩ := q
    rw [hs] at hg
    cases o with
    | typeError => cases hg
    | sym x =>
      cases hg
      have hb : (scrub H name).toList ≠ [] := by simpa using hn
      have := C02_scrub_gensym H.tables _ hb _ _ hu x hs
      unfold scrub at this ⊢
      rw [String.toList_ofList, this, String.ofList_toList]

example : scrub Ex.host "m_00000000000000000000000000000009" = "m" := by decide +kernel

end Mcpyrate
