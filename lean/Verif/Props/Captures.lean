import Verif.Lemmas.Captures
import Verif.Spec.QuotesExample
/-
C36.  Full statement: the AST produced by a hygienic value capture is recognised by `is_captured_value`, which returns
exactly the captured name and frozen value; the one produced by a macro capture is recognised by `is_captured_macro`; no
node is both; looking up a captured value yields the value that was captured.

Everything is proved, except that the last part is about a lookup that is not answered from the cache of `lookup_value`
(`C36_lookup_partial`); the cache can give wrong answers, see Props/CaptureLookup.lean and C38.
-/
namespace Mcpyrate
open Py Quotes
variable {σ : Type}

/-- What `capture_value` returns is recognised, with the name and the pickled value. -/
theorem C36_value (H : Host σ) (v code : Obj) (name : String) (h : captureValue H v (.str name) = .ok code) :
    ∃ frozen, H.pickle v = .ok frozen ∧ isCapturedValue code = .ok (some (name, some frozen)) ∧
      isCapturedMacro code = .ok none := by
  obtain ⟨b, h1, rfl⟩ := captureValue_ok h
  exact ⟨b, h1, isCapturedValue_some.2 (.inr ⟨b, rfl, frozenValue_valueCode name b⟩),
    isCapturedMacro_other (callsQuotes_import _ _ _) (by decide)⟩

example : ((captureValue Ex.host (.ext 7) (.str "value")).toOption.map isCapturedValue) =
    some (.ok (some ("value", some [7]))) := by decide +kernel

/-- So is the code for a capture that has not taken place yet: what `q` makes of `h[…]`, with the name only. -/
theorem C36_pending (H : Host σ) (E : Option (String → Option Obj)) (b : Obj) (name : String)
    (hb : captured E b = none) :
    ∃ code, astify H E (markerNode "Capture" [(.body, b), (.name, .str name)]) = pure code ∧
      isCapturedValue code = .ok (some (name, none)) ∧ isCapturedMacro code = .ok none := by
  refine ⟨callNode (quotesAttr "capture_value") [b, constantNode (.str name)] [], ?_, ?_, ?_⟩
  · show (match captured E b with | some (f, n) => captureMacro H f n | none => _) = _
    rw [hb]
    rfl
  · exact isCapturedValue_some.2 (.inl ⟨rfl, _, _, _, callsQuotes_direct _ _ _, ⟨rfl, rfl⟩⟩)
  · exact isCapturedMacro_other (callsQuotes_direct _ _ _) (by decide)

example : captured none (Ex.name "value") = none := rfl

/-- What `capture_macro` returns is recognised, with the name (without the suffix it may have from an earlier capture), the
new unique name and the pickled macro. -/
theorem C36_macro (H : Host σ) (f code : Obj) (name : String) (s s' : St σ)
    (h : captureMacro H f name s = some (.ok code, s')) :
    ∃ frozen unique, H.pickle f = .ok frozen ∧ gensymQ (scrub H name) s = some (.ok unique, s') ∧
      isCapturedMacro code = .ok (some (scrub H name, unique, frozen)) ∧ isCapturedValue code = .ok none := by
  obtain ⟨b, u, -, h1, h2, rfl⟩ := captureMacro_ok h
  exact ⟨b, u, h1, h2, isCapturedMacro_some.2 (frozenMacro_macroCode _ _ _),
    isCapturedValue_other (callsQuotes_direct _ _ _) (by decide) (by decide)⟩

example : Ex.result (do
    let code ← captureMacro Ex.host (.ext 7) "m_00000000000000000000000000000009"
    return decide (isCapturedMacro code = .ok (some ("m", "m_00000000000000000000000000000001", [7])))) =
    some (.ok true) := by decide +kernel

/-- What is recognised as a captured value: exactly the calls of `capture_value` and `lookup_value` with arguments of the
right form, with the name and the data that are there. -/
theorem C36_recognised_values (x : Obj) (name : String) (frozen : Option (List Nat)) :
    isCapturedValue x = .ok (some (name, frozen)) ↔
      (frozen = none ∧ PendingValue x name) ∨ ∃ b, frozen = some b ∧ FrozenValue x name b :=
  isCapturedValue_some

example : FrozenValue (valueCode (.str "value") [7]) "value" [7] := frozenValue_valueCode _ _

/-- What is recognised as a captured macro: exactly the calls of `lookup_macro` with arguments of the right form. -/
theorem C36_recognised_macros (x : Obj) (name unique : String) (frozen : List Nat) :
    isCapturedMacro x = .ok (some (name, unique, frozen)) ↔ FrozenMacro x name unique frozen :=
  isCapturedMacro_some

example : FrozenMacro (macroCode "m" "m_1" [7]) "m" "m_1" [7] := frozenMacro_macroCode _ _ _

/-- No node is both. -/
theorem C36_not_both (x : Obj) :
    (∀ r, isCapturedValue x = .ok (some r) → isCapturedMacro x = .ok none) ∧
    (∀ r, isCapturedMacro x = .ok (some r) → isCapturedValue x = .ok none) := by
  constructor
  · rintro ⟨n, b⟩ h
    rcases isCapturedValue_some.1 h with ⟨-, _, _, _, hc, -⟩ | ⟨_, -, _, _, _, _, hc, -⟩
    · exact isCapturedMacro_other hc (by decide)
    · exact isCapturedMacro_other hc (by decide)
  · rintro ⟨n, u, b⟩ h
    obtain ⟨_, _, _, _, _, hc, -⟩ := isCapturedMacro_some.1 h
    exact isCapturedValue_other hc (by decide) (by decide)

example : isCapturedValue (valueCode (.str "value") [7]) = .ok (some ("value", some [7])) ∧
    isCapturedMacro (macroCode "m" "m_1" [7]) = .ok (some ("m", "m_1", [7])) := by decide +kernel

/-- Source locations and `ctx` fields do not matter, errors included. -/
theorem C36_locations (x y : Obj) (h : bare x = bare y) :
    isCapturedValue x = isCapturedValue y ∧ isCapturedMacro x = isCapturedMacro y := by
  refine ⟨?_, ?_⟩
  · rw [← bare_isCapturedValue x, ← bare_isCapturedValue y, h]
  · rw [← bare_isCapturedMacro x, ← bare_isCapturedMacro y, h]

example : bare (Ex.call (Ex.nameAt 1 2 "f") []) = bare (callNode (nameNode "f") [] []) := by decide +kernel

/-- So captures are still recognised after the expander has processed the output of a macro. -/
theorem C36_expanded (t t1 t2 : Val) (ht : t.isTree = true) (ref : Loc) (mode : FixLocations.Mode)
    (h1 : FixLocations.fixLocations t ref mode = .ok t1) (h2 : FixCtx.fixCtx t1 = .ok t2) :
    isCapturedValue (.ofVal t2) = isCapturedValue (.ofVal t) ∧
      isCapturedMacro (.ofVal t2) = isCapturedMacro (.ofVal t) := by
  have e1 := Expander.like_fixLocations ht h1
  have e2 := Expander.like_fixCtx (e1.isTree ht) h2
  exact C36_locations _ _ ((like_bare e2).symm.trans (like_bare e1).symm)

example : ∃ t, (valueCode (.str "value") [7]).toVal = some t ∧ t.isTree = true := ⟨_, rfl, by decide +kernel⟩

/-- Running what `capture_value` returned, where the builtins are available: the value that was captured, if it can be
pickled without loss.  (First lookup; see C38 for the cache.) -/
theorem C36_lookup_partial (H : Host σ) (hB : Builtins H) (v code : Obj) (name : Const)
    (h : captureValue H v name = .ok code) (hp : ∀ b, H.pickle v = .ok b → H.unpickle b = .ok v) :
    eval H code = pure v := by
  obtain ⟨b, h1, rfl⟩ := captureValue_ok h
  rw [eval_valueCode hB, hp b h1]
  rfl

/-- The host of the examples, with the builtins. -/
def Quotes.Ex.builtinHost : Host Unit := { Ex.host with
  name := fun s => if s = "__import__" then pure (.ref ["__import__"]) else if s = "globals" then pure (.ext 2)
    else Ex.host.name s
  call := fun f as ks => if f = .ext 2 then pure (.dict [] []) else Ex.host.call f as ks }

example : Builtins Ex.builtinHost := ⟨rfl, .ext 2, .dict [] [], rfl, by simp, rfl⟩
example : Ex.result (do
    let code ← lift (captureValue Ex.builtinHost (.ext 7) (.str "value"))
    eval Ex.builtinHost code) = some (.ok (.ext 7)) := by decide +kernel

/-- The recognisers may raise: `is_captured_value` of `__import__().quotes.lookup_value(x)` is an IndexError. -/
theorem C36_import_raises : isCapturedValue (callNode (attributeNode (attributeNode (callNode (nameNode "__import__") [] [])
    "quotes") "lookup_value") [nameNode "x"] []) = .error .indexError := by decide +kernel

end Mcpyrate
