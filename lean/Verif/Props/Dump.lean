import Verif.Lemmas.DumpLayout
/-
C62: `dump` shows the whole tree: two trees, or lists of trees, with the same dump are equal, but for the location
attributes if these are not included; if they are, but for a location attribute that is missing in one and `None` in the
other.  Conversely the dump depends on nothing else.  With colors, the text that a terminal shows is the same as without.
With `multiline`, the items of each pair of brackets are on lines of their own, below each other; the rest is as without.
Anything that is not a tree or a list raises TypeError.
-/
namespace Mcpyrate
open Py
open Unparse (Host)
open Dump

/-- Two trees, or lists, have the same dump if and only if they are the same in all that is shown. -/
theorem C62_determines (H : Host) {o : Options} (ho : o.color = none) {t t' : Val} (h : Regular t) (h' : Regular t')
    (ht : ∀ c, t ≠ .const c) (ht' : ∀ c, t' ≠ .const c) :
    dump H o t = dump H o t' ↔ shown o.attributes t = shown o.attributes t' := by
  have key : ∀ {t : Val}, (∀ c, t ≠ .const c) → dump H o t = .ok (recurse H o 0 t) := by
    intro t ht
    cases t with
    | const c => exact absurd rfl (ht c)
    | node => rfl
    | list => rfl
  rw [key ht, key ht']
  constructor
  · intro e
    injection e with e
    exact (told ho t h t' 0 [] [] h' (.inl rfl) (.inl rfl) (by rw [e])).1
  · intro e
    rw [← recurse_shown t, ← recurse_shown t', e]

/-- Whatever the options are, the dump depends only on what is shown. -/
theorem C62_depends (H : Host) (o : Options) {t t' : Val} (ht : ∀ c, t ≠ .const c) (ht' : ∀ c, t' ≠ .const c)
    (e : shown o.attributes t = shown o.attributes t') : dump H o t = dump H o t' := by
  have key : ∀ {t : Val}, (∀ c, t ≠ .const c) → dump H o t = .ok (recurse H o 0 t) := by
    intro t ht
    cases t with
    | const c => exact absurd rfl (ht c)
    | node => rfl
    | list => rfl
  rw [key ht, key ht', ← recurse_shown t, ← recurse_shown t', e]

/-- What a terminal shows of a dump with colors is the dump without colors. -/
theorem C62_color (H : Host) {o : Options} (ho : ∀ P, o.color = some P → P.Lawful) {t : Val} (h : Regular t) :
    (dump H o t).map (visible false) = dump H o.plain t := by
  cases t with
  | const c => rfl
  | list xs =>
    have := recurse_vis (H := H) ho (.list xs) h 0 []
    rw [List.append_nil, visible, List.append_nil] at this
    exact congrArg Except.ok this
  | node c l fs =>
    have := recurse_vis (H := H) ho (.node c l fs) h 0 []
    rw [List.append_nil, visible, List.append_nil] at this
    exact congrArg Except.ok this

/-- So a dump with colors tells the tree, too. -/
theorem C62_colorDetermines (H : Host) {o : Options} (ho : ∀ P, o.color = some P → P.Lawful) {t t' : Val} (h : Regular t)
    (h' : Regular t') (ht : ∀ c, t ≠ .const c) (ht' : ∀ c, t' ≠ .const c) :
    dump H o t = dump H o t' ↔ shown o.attributes t = shown o.attributes t' := by
  refine ⟨fun e => ?_, C62_depends H o ht ht'⟩
  have := congrArg (Except.map (visible false)) e
  rw [C62_color H ho h, C62_color H ho h'] at this
  exact (C62_determines H (o := o.plain) rfl h h' ht ht').1 this

/-- The dump on several lines is that on one line, with line breaks after the commas, and the items of each pair of
brackets aligned.  (With colors, by `C62_color`, a terminal shows the same.) -/
theorem C62_layout (H : Host) (attributes : Bool) {t : Val} (h : Regular t) :
    dump H ⟨attributes, true, none⟩ t = (dump H ⟨attributes, false, none⟩ t).map (aligned .code [] 0) := by
  have key : ∀ t, Regular t → recurse H ⟨attributes, true, none⟩ 0 t = aligned .code [] 0 (recurse H ⟨attributes, false, none⟩ 0 t) := by
    intro t h
    obtain ⟨m, hm⟩ := flows (H := H) (os := ⟨attributes, false, none⟩) (om := ⟨attributes, true, none⟩) rfl rfl rfl rfl rfl _ t (Nat.le_refl _) h 0 0
    have := hm [] []
    rw [List.append_nil, aligned_nil, List.append_nil] at this
    exact this.symm
  cases t with
  | const c => rfl
  | node => exact congrArg Except.ok (key _ h)
  | list => exact congrArg Except.ok (key _ h)

/-- Anything else is refused. -/
theorem C62_typeError (H : Host) (o : Options) (t : Val) : dump H o t = .error .typeError ↔ ∃ c, t = .const c := by
  cases t with
  | const c => exact ⟨fun _ => ⟨c, rfl⟩, fun _ => rfl⟩
  | node => exact ⟨fun h => (nomatch h), fun ⟨_, h⟩ => (nomatch h)⟩
  | list => exact ⟨fun h => (nomatch h), fun ⟨_, h⟩ => (nomatch h)⟩

/-! ### Examples -/

namespace Dump

/-- `ColorScheme`, with the codes of `colorama`. -/
def palette : Palette where
  node := "\x1b[1m\x1b[94m".toList
  field := "\x1b[33m".toList
  bare := "\x1b[32m".toList
  reset := "\x1b[0m".toList

theorem palette_lawful : palette.Lawful where
  node := .cons (s := "[1".toList) (by decide) (.cons (s := "[94".toList) (by decide) .nil)
  field := .cons (s := "[33".toList) (by decide) .nil
  bare := .cons (s := "[32".toList) (by decide) .nil
  reset := .cons (s := "[0".toList) (by decide) .nil

/-- `f("a'b")`; the call has a location. -/
def sample (line : Attr) : Val :=
  .node (.py .Call) { lineno := line, colOffset := .int 4 }
    [(.func, .node (.py .Name) {} [(.id, .const (.str "f")), (.ctx, .node (.py .Load) {} [])]),
     (.args, .list [.node (.py .Constant) {} [(.value, .const (.str "a'b")), (.kind, .none)]]),
     (.keywords, .list [])]

theorem sample_regular (line : Attr) : Regular (sample line) := by
  simp [sample, Regular, RegularF, RegularL, RegularClass, RegularConst, Val.none]

def ascii : Host := ⟨fun c => c.toNat < 127⟩

end Dump

example : dump ascii ⟨false, false, none⟩ (sample (.int 3)) = .ok
    "Call(func=Name(id='f', ctx=Load()), args=[Constant(value=\"a'b\", kind=None)], keywords=[])".toList := by
  decide +kernel
example : dump ascii ⟨false, true, none⟩ (sample (.int 3)) = .ok
    "Call(func=Name(id='f',\n               ctx=Load()),\n     args=[Constant(value=\"a'b\",\n                    kind=None)],\n     keywords=[])".toList := by
  decide +kernel

example : aligned .code [] 0 "f(a=[1, ','], b=x)".toList = "f(a=[1,\n     ','],\n  b=x)".toList := by decide +kernel

/-- Different locations cannot be seen without attributes, and can be seen with them. -/
example : dump ascii ⟨false, true, none⟩ (sample (.int 3)) = dump ascii ⟨false, true, none⟩ (sample (.int 7)) ∧
    dump ascii ⟨true, true, some palette⟩ (sample (.int 3)) ≠ dump ascii ⟨true, true, some palette⟩ (sample (.int 7)) :=
  ⟨C62_depends ascii _ (fun _ h => nomatch h) (fun _ h => nomatch h) rfl,
   fun e => by
     have := (C62_colorDetermines ascii (o := ⟨true, true, some palette⟩) (fun P hP => by cases hP; exact palette_lawful)
       (sample_regular _) (sample_regular _) (fun _ h => nomatch h) (fun _ h => nomatch h)).1 e
     revert this
     simp [sample, shown, shownF, shownL, seenLoc, seen, Cls.hasLoc, show K.Call.hasLoc = true by decide]⟩

/-- A missing attribute is shown as `None`. -/
example : dump ascii ⟨true, true, none⟩ (sample .missing) = dump ascii ⟨true, true, none⟩ (sample .none) :=
  C62_depends ascii _ (fun _ h => nomatch h) (fun _ h => nomatch h) rfl

example : (dump ascii ⟨false, false, some palette⟩ (.list [.node (.py .Pass) {} []])) =
    .ok "[\x1b[0m\x1b[1m\x1b[94mPass\x1b[0m()]".toList := by decide +kernel

end Mcpyrate
