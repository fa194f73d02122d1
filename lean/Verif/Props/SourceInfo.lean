import Verif.Lemmas.SourceInfo
/-
C66 source locations in messages are those of the tree.

Full property: the line number that a message gives for a tree is the first one that occurs in it, depth first, and `None` if
there is none; a location is shown as `file:line: code`, with the code on the lines below if it has several lines; the context
shown for a tree is its source code, or the first `n` lines and `...` if it has more than `n`; the validator of location
information collects exactly the nodes that should have locations and do not, each one time, in the order of the tree, with
the names of the missing attributes.

The line number is not always the first one: the number 0 is skipped (`C66_zero_violated`), a first `lineno` that is `None`
hides the ones inside of its node (`C66_none_violated`), and in a marker that has a body the other fields are not searched
(`C66_marker_violated`).  The validator also collects nodes that can not have locations, such as `Load()`, so that it
reports something for trees that are complete (`C66_ctx_violated`).  Proved: the line number if none of these occur
(`C66_line_partial`); a number that is given always occurs in the tree (`C66_line_occurs`); the form of locations and contexts;
and that the validator collects exactly the nodes that lack one of the attributes.
-/
namespace Mcpyrate
open Py SourceInfo
open Dump (visible Codes)

/-- The line number of a tree is the first one in it. -/
theorem C66_line_partial {t : Val} (hn : ∀ a ∈ linenos t, ∃ n, a = .int n ∧ n ≠ 0) (hm : SourceInfo.Markers t) :
    getLineno t = firstLine t := by
  rw [firstLine_eq]
  exact get_first t hn hm

/-- A line number that is given is one of those in the tree. -/
theorem C66_line_occurs {t : Val} {n : Int} (h : getLineno t = some n) : .int n ∈ linenos t := occ t n h

/-- A location is shown as file, line and code, whatever the colors. -/
theorem C66_location {reset set filename : Str} (hr : Codes reset) (hs : Codes set) (hf : '\x1b' ∉ filename) (t : Val)
    {code seen : Str} (hc : Shows code seen) (he : seen = [] → code = []) : ∃ line, LineText (getLineno t) line ∧
      Located filename line seen (visible false (formatLocation reset set filename t code)) :=
  ⟨_, line_text _, located hr hs hf t hc he⟩

/-- The text for a line number is one for that number only. -/
theorem C66_line_text {a b : Option Int} {s : Str} (ha : LineText a s) (hb : LineText b s) : a = b := by
  have two : ∀ {a : Int} {s : Str}, Numeral a s → a = match s with | '-' :: r => -(digitsValue r : Int) | s => digitsValue s := by
    intro a s h
    cases h with
    | zero => rfl
    | @pos s h1 h2 h3 =>
      cases s with
      | nil => exact absurd rfl h1
      | cons c r =>
        split
        · rename_i h
          cases h
          exact absurd (h2 '-' (by simp)).1 (by decide)
        · rfl
    | neg => rfl
  have no : ∀ {a : Int}, ¬ Numeral a "None".toList := by
    intro a h
    rcases numeral_chars h 'N' (by decide) with h | h
    · cases h
    · exact absurd h.2 (by decide)
  cases ha with
  | none =>
    generalize hs : "None".toList = s at hb
    cases hb with
    | none => rfl
    | some h => subst hs; exact absurd h no
  | some h =>
    cases hb with
    | none => exact absurd h no
    | some h' => rw [two h, two h']

/-- The context is the source code as far as its first `n` lines, whatever the colors. -/
theorem C66_context {reset grey : Str} (hr : Codes reset) (hg : Codes grey) {n : Nat} (hn : 0 < n) {text seen : Str}
    (ht : Shows text seen) {ls : List Str} (h : Lines ls seen) :
    Lines (if ls.length ≤ n then ls else ls.take n ++ ["...".toList]) (visible false (formatContext reset grey n text)) :=
  context hr hg hn ht h

/-- Each text has its lines, and no others. -/
theorem C66_lines (t : Str) : ∃ ls, Lines ls t ∧ ∀ ks, Lines ks t → ks = ls :=
  ⟨_, split_lines t, fun _ h => lines_unique h (split_lines t) rfl⟩

/-- The validator collects, in order, each node that lacks one of the attributes and is not to be ignored. -/
theorem C66_collects (v : Validator) {t : Val} (ht : t.isTree = true) (its : List Item) :
    v.run t = .ok its ↔ Collects v 0 (preorder t) its := by
  have key : ∃ r, v.run t = .ok r ∧ Collects v 0 (preorder t) r := by
    cases t with
    | const c => cases ht
    | node c l fs => exact ⟨_, rfl, (examine_collects v 0 _ rfl).1⟩
    | list xs => exact ⟨_, if_pos ht, (items_collects v 0 xs).1⟩
  obtain ⟨r, h1, h2⟩ := key
  constructor
  · intro h
    rw [h1] at h
    cases h
    exact h2
  · intro h
    rw [h1, collects_det h2 h]

/-- Nothing is collected exactly if each node, except for those to be ignored, has all of the attributes. -/
theorem C66_complete (v : Validator) {t : Val} (ht : t.isTree = true) : v.run t = .ok [] ↔
    ∀ i u, (preorder t)[i]? = some u → v.ignore i = true ∨ ∀ x ∈ v.fields, Has u x := by
  rw [C66_collects v ht, collects_nil]
  constructor
  · intro h i u hu
    have := h i u hu
    rwa [Nat.zero_add] at this
  · intro h i u hu
    rw [Nat.zero_add]
    exact h i u hu

/-- What is not a tree is refused. -/
theorem C66_refused (v : Validator) {t : Val} (ht : t.isTree = false) : v.run t = .error .attributeError := by
  cases t with
  | node c l fs => cases ht
  | const c => rfl
  | list xs =>
    unfold Validator.run
    dsimp only
    rw [if_neg (by intro h; rw [show Val.isTree (.list xs) = xs.all Val.isAST from rfl, h] at ht; cases ht)]

namespace SourceInfo.Case

def at' (n : Int) : Loc := { lineno := .int n, colOffset := .int 0 }
def nameAt (n : Int) (s : String) : Val := .node (.py .Name) (at' n) [(.id, .str s), (.ctx, .node (.py .Load) {} [])]
/-- A module of two statements, the first one on line 3; the module itself has no location. -/
def t : Val := .node (.py .Module) {} [(.body, .list [.node (.py .Expr) (at' 3) [(.value, nameAt 3 "a")],
  .node (.py .Expr) (at' 4) [(.value, nameAt 4 "b")]]), (.type_ignores, .list [])]
/-- A marker around it. -/
def m : Val := .node (.marker "Done") {} [(.body, t)]
def red : Str := "\x1b[31m".toList
def reset : Str := "\x1b[0m".toList
theorem red_codes : Codes red := .cons (s := "[31".toList) (by decide) .nil
theorem reset_codes : Codes reset := .cons (s := "[0".toList) (by decide) .nil

def v : Validator := { ignore := fun i => i = 0, fields := ["lineno", "col_offset"], code := fun _ => [] }
/-- A name without location, in a located statement. -/
def u : Val := .node (.py .Module) {} [(.body, .list [.node (.py .Expr) (at' 3) [(.value,
  .node (.py .Name) { lineno := .int 3 } [(.id, .str "a"), (.ctx, .node (.py .Load) (at' 3) [])])]]), (.type_ignores, .list [])]

end SourceInfo.Case
open SourceInfo.Case

example : (∀ a ∈ linenos m, ∃ n, a = .int n ∧ n ≠ 0) ∧ SourceInfo.Markers m ∧ getLineno m = some 3 := by
  refine ⟨?_, ?_, by decide +kernel⟩
  · intro a ha
    have : linenos m = [.int 3, .int 3, .int 4, .int 4] := by decide +kernel
    rw [this] at ha
    simp at ha
    rcases ha with rfl | rfl
    · exact ⟨3, rfl, by decide⟩
    · exact ⟨4, rfl, by decide⟩
  · refine ⟨.inr ⟨[], _, [], rfl, by simp, rfl, rfl⟩, ?_, trivial⟩
    simp [t, nameAt, SourceInfo.Markers, SourceInfo.MarkersF, SourceInfo.MarkersL, MarkerOk]

example : visible false (formatLocation reset red "a.py".toList m ("x = ".toList ++ red ++ "1".toList ++ reset)) =
    "a.py:3: x = 1".toList := by decide +kernel
example : visible false (formatLocation reset red "a.py".toList m "x = 1".toList) = "a.py:3: x = 1".toList := by decide +kernel
example : visible false (formatLocation reset red "a.py".toList (.list []) "if x:\n    y".toList) =
    "a.py:None:\nif x:\n    y".toList := by decide +kernel
example : LineText (some (-120)) "-120".toList :=
  .some (Numeral.neg (s := "120".toList) (by decide) (by decide) (by decide))

/-- Two of three lines, the first one in color. -/
example : visible false (formatContext reset red 2 (red ++ "if".toList ++ reset ++ " x:\n    y\nz".toList)) =
    "if x:\n    y\n...".toList ∧
    Shows (red ++ "if".toList ++ reset ++ " x:\n    y\nz".toList) "if x:\n    y\nz".toList := by
  refine ⟨by decide +kernel, ?_⟩
  refine .code (s := "[31".toList) (by decide) (.char (by decide) (.char (by decide)
    (.code (s := "[0".toList) (by decide) ?_)))
  repeat first | exact .nil | refine .char (by decide) ?_

/-- The name lacks one attribute; the module, which lacks both, is ignored. -/
example : v.run u = .ok [⟨.node (.py .Name) { lineno := .int 3 } [(.id, .str "a"), (.ctx, .node (.py .Load) (at' 3) [])], [],
    ["col_offset"]⟩] := by
  rfl

/-- The number 0 is not returned if it is found inside: `None` is. -/
theorem C66_zero_violated : ∃ t : Val, t.isTree = true ∧ SourceInfo.Markers t ∧ linenos t = [.int 0] ∧ firstLine t = some 0 ∧
    getLineno t = none :=
  ⟨.list [.node (.py .Pass) (at' 0) []], rfl, by simp [SourceInfo.Markers, SourceInfo.MarkersL, MarkerOk, SourceInfo.MarkersF],
    by decide +kernel, by decide +kernel, by decide +kernel⟩

/-- A `lineno` that is `None` hides the line numbers inside of the node. -/
theorem C66_none_violated : ∃ t : Val, t.isAST = true ∧ linenos t = [.none, .int 3] ∧ getLineno t = none :=
  ⟨.node (.py .Expr) { lineno := .none } [(.value, .node (.py .Constant) (at' 3) [(.value, .int 1)])], rfl, by decide +kernel,
    by decide +kernel⟩

/-- The other fields of a marker with a body are not searched. -/
theorem C66_marker_violated : ∃ t : Val, t.isAST = true ∧ linenos t = [.int 3] ∧ firstLine t = some 3 ∧ getLineno t = none :=
  ⟨.node (.marker "M") {} [(.body, .list []), (.value, .node (.py .Constant) (at' 3) [(.value, .int 1)])], rfl,
    by decide +kernel, by decide +kernel, by decide +kernel⟩

/-- A tree in which each node that can have a location has it, and still there is something collected: the context `Load`. -/
theorem C66_ctx_violated : ∃ (v : Validator) (t : Val), t.isAST = true ∧ v.fields = ["lineno", "col_offset"] ∧
    (∀ u ∈ preorder t, ∀ c l fs, u = .node c l fs → c.hasLoc = true → ∀ x ∈ v.fields, Has u x) ∧
    v.run t = .ok [⟨.node (.py .Load) {} [], v.code (.node (.py .Load) {} []), ["lineno", "col_offset"]⟩] := by
  refine ⟨{ v with ignore := fun _ => false }, nameAt 3 "a", rfl, rfl, ?_, rfl⟩
  intro u hu c l fs he hl x hx
  have hp : preorder (nameAt 3 "a") = [nameAt 3 "a", .node (.py .Load) {} []] := rfl
  rw [hp] at hu
  simp only [List.mem_cons, List.not_mem_nil, or_false] at hu
  simp only [v, List.mem_cons, List.not_mem_nil, or_false] at hx
  rcases hu with rfl | rfl
  · rcases hx with rfl | rfl
    · exact .lineno (by decide)
    · exact .col (by decide)
  · cases he
    cases hl

end Mcpyrate
