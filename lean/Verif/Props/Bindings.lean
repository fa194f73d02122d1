import Verif.Lemmas.Bindings
import Verif.Lemmas.CollectorTotal
import Verif.Props.Coverage
import Verif.Props.ExpanderErrors
/-
C65 the report of macro bindings shows exactly the bindings in effect.

Full property: `format_bindings` lists each macro binding of the expander one time, sorted by name, with the module and
qualified name of its macro function; two reports are the same only if they are for the same file name and show the same
bindings; coloring changes nothing but the colors; if asked to, it includes the global bindings that are not shadowed.  The
identifier macro `show_bindings` prints the report of all bindings that are in effect when it is reached, changes nothing
else, and leaves an expression that evaluates to `None`.

`show_bindings` does not show all bindings: the global ones, which are those of hygienically captured macros, are left out,
although its description speaks of them (`C65_all_violated`).  Proved of it (`C65_show_partial`): it shows the local ones.
-/
namespace Mcpyrate
open Py Expander Bindings

variable {υ : Type}

/-- The report, without colors, is made of exactly the bindings, sorted by name. -/
theorem C65_report (describe : Nat → Fn) (g : Bool) (filename : Str) {locals globals : Dict String Nat} (hl : locals.WF)
    (hg : globals.WF) : ∃ l, Lists describe g locals globals l ∧
      Report filename l (format describe none g filename locals globals) :=
  ⟨_, lists hl hg, report⟩

theorem Bindings.before_irrefl (a : Str) : ¬ Before a a := by
  intro h
  have h1 := (strLt_iff a a).2 h
  have : ∀ s : Str, strLt s s = false := by
    intro s
    induction s with
    | nil => rfl
    | cons c s ih => rw [strLt, if_neg (Nat.lt_irrefl _), if_neg (Nat.lt_irrefl _), ih]
  rw [this] at h1
  cases h1

theorem Bindings.before_asymm {a b : Str} (h : Before a b) (h' : Before b a) : False :=
  before_irrefl a ((strLt_iff _ _).1 (strLt_trans _ _ _ ((strLt_iff _ _).2 h) ((strLt_iff _ _).2 h')))

theorem Bindings.sorted_ext : ∀ {l l' : List (Str × Str)}, l.Pairwise (fun x y => Before x.1 y.1) →
    l'.Pairwise (fun x y => Before x.1 y.1) → (∀ x, x ∈ l ↔ x ∈ l') → l = l'
  | [], [], _, _, _ => rfl
  | [], x :: l', _, _, h => absurd ((h x).2 (by simp)) (by simp)
  | x :: l, [], _, _, h => absurd ((h x).1 (by simp)) (by simp)
  | x :: l, y :: l', h1, h2, h => by
    rw [List.pairwise_cons] at h1 h2
    have hxy : x = y := by
      rcases List.mem_cons.1 ((h x).1 (by simp)) with he | hx
      · exact he
      rcases List.mem_cons.1 ((h y).2 (by simp)) with he | hy
      · exact he.symm
      exact absurd (before_asymm (h1.1 y hy) (h2.1 x hx)) id
    subst hxy
    refine congrArg _ (sorted_ext h1.2 h2.2 fun z => ?_)
    constructor
    · intro hz
      rcases List.mem_cons.1 ((h z).1 (by simp [hz])) with rfl | hz'
      · exact absurd (h1.1 _ hz) (before_irrefl _)
      · exact hz'
    · intro hz
      rcases List.mem_cons.1 ((h z).2 (by simp [hz])) with rfl | hz'
      · exact absurd (h2.1 _ hz) (before_irrefl _)
      · exact hz'

theorem Bindings.binding_det {g : Bool} {locals globals : Dict String Nat} {n : String} {i j : Nat}
    (h : Binding g locals globals n i) (h' : Binding g locals globals n j) : i = j := by
  rcases h with h | ⟨_, h0, h⟩ <;> rcases h' with h' | ⟨_, h0', h'⟩
  · rw [h] at h'; cases h'; rfl
  · rw [h] at h0'; cases h0'
  · rw [h'] at h0; cases h0
  · rw [h] at h'; cases h'; rfl

/-- In the list is what is bound. -/
theorem Bindings.Lists.mem {describe : Nat → Fn} {g : Bool} {locals globals : Dict String Nat} {l : List (Str × Str)}
    (h : Lists describe g locals globals l) {k f : Str} :
    (k, f) ∈ l ↔ ∃ n i, k = n.toList ∧ Binding g locals globals n i ∧ Shown (describe i) f := by
  refine ⟨h.sound k f, ?_⟩
  rintro ⟨n, i, rfl, hb, hs⟩
  obtain ⟨f', hm, hs'⟩ := h.complete n i hb
  rw [shown_det hs hs']
  exact hm

/-- There is one such list for given bindings, and so one report. -/
theorem C65_unique {describe : Nat → Fn} {g : Bool} {locals globals : Dict String Nat} {l l' : List (Str × Str)}
    (h : Lists describe g locals globals l) (h' : Lists describe g locals globals l') : l = l' :=
  sorted_ext h.sorted h'.sorted fun x => by obtain ⟨k, f⟩ := x; rw [h.mem, h'.mem]

/-- Two reports are the same only if they are for the same file and show the same functions for the same names. -/
theorem C65_determines {describe describe' : Nat → Fn} {g g' : Bool} {filename filename' : Str}
    {locals globals locals' globals' : Dict String Nat} (hl : locals.WF) (hg : globals.WF) (hl' : locals'.WF)
    (hg' : globals'.WF) (hn : '\n' ∉ filename) (hn' : '\n' ∉ filename')
    (hf : ∀ l, Lists describe g locals globals l → Fit l) (hf' : ∀ l, Lists describe' g' locals' globals' l → Fit l) :
    format describe none g filename locals globals = format describe' none g' filename' locals' globals' ↔
      filename = filename' ∧ ∀ n f, (∃ i, Binding g locals globals n i ∧ Shown (describe i) f) ↔
        ∃ i, Binding g' locals' globals' n i ∧ Shown (describe' i) f := by
  have L := lists (describe := describe) (g := g) hl hg
  have L' := lists (describe := describe') (g := g') hl' hg'
  constructor
  · intro he
    have R := report (describe := describe) (g := g) (filename := filename) (locals := locals) (globals := globals)
    rw [he] at R
    obtain ⟨h1, h2⟩ := report_det R report (hf _ L) (hf' _ L') hn hn'
    refine ⟨h1, fun n f => ?_⟩
    have key : ∀ {d : Nat → Fn} {b : Bool} {x y : Dict String Nat} {l}, Lists d b x y l →
        ((n.toList, f) ∈ l ↔ ∃ i, Binding b x y n i ∧ Shown (d i) f) := by
      intro d b x y l h
      rw [h.mem]
      constructor
      · rintro ⟨m, i, hm, hi⟩
        cases String.toList_inj.1 hm
        exact ⟨i, hi⟩
      · rintro ⟨i, hi⟩
        exact ⟨n, i, rfl, hi⟩
    rw [← key L, ← key L', h2]
  · rintro ⟨rfl, h⟩
    have he : texts (reported describe g locals globals) = texts (reported describe' g' locals' globals') := by
      refine sorted_ext L.sorted L'.sorted fun x => ?_
      obtain ⟨k, f⟩ := x
      rw [L.mem, L'.mem]
      constructor
      · rintro ⟨n, i, rfl, hi⟩
        obtain ⟨j, hj⟩ := (h n f).1 ⟨i, hi⟩
        exact ⟨n, j, rfl, hj⟩
      · rintro ⟨n, i, rfl, hi⟩
        obtain ⟨j, hj⟩ := (h n f).2 ⟨i, hi⟩
        exact ⟨n, j, rfl, hj⟩
    have R := report (describe := describe) (g := g) (filename := filename) (locals := locals) (globals := globals)
    rw [he] at R
    exact report_fun R report

/-- With colors the report is the same as seen in a terminal. -/
theorem C65_color {describe : Nat → Fn} {P : Palette} (hP : P.Lawful) {g : Bool} {filename : Str}
    {locals globals : Dict String Nat} (hl : locals.WF) (hg : globals.WF) (hf : '\x1b' ∉ filename)
    (hp : ∀ l, Lists describe g locals globals l → Plain l) :
    Dump.visible false (format describe (some P) g filename locals globals) =
      format describe none g filename locals globals := by
  have := vis_format (P := some P) (fun Q h => by cases h; exact hP) (describe := describe) (g := g) (locals := locals)
    (globals := globals) hf (fun x hx => hp _ (lists hl hg) _ _ (List.mem_map.2 ⟨x, mem_sort.2 hx, rfl⟩))
  have h := this []
  rw [List.append_nil] at h
  rw [h]
  exact List.append_nil _

/-- `show_bindings` is what the name is bound to. -/
def Bindings.IsShow (E : Env υ) (describe : Nat → Fn) (P : Palette) (say : Str → υ → υ) (id : Nat) : Prop :=
  E.macros id = showBindings describe P say E.filename.toList

/-- The name `show_bindings`, in an expression, prints the report of the local bindings that are in effect when it is
reached, and a line break; changes nothing else; and leaves an expression that evaluates to `None`. -/
theorem C65_show_partial (E : Env υ) {describe : Nat → Fn} {P : Palette} (hP : P.Lawful) {say : Str → υ → υ} (n : Nat) (t : Val)
    (s : St υ) (k : String) (id : Nat) (hw : WellFormed t) (ht : t.isK .Name = true) (hk : t.get? .id = some (.str k))
    (hne : k ≠ "") (hb : isbound s.world k = some id) (hid : IsShow E describe P say id) (hh : s.hook = none)
    (hl : s.world.locals.WF) (hg : s.world.globals.WF) (hf : '\x1b' ∉ E.filename.toList)
    (hp : ∀ l, Lists describe false s.world.locals s.world.globals l → Plain l) :
    ∃ v text l plain s', visit E (n + 1) t s = some (.ok v, s') ∧ DeletedExpr (locOf t) v ∧
      s'.world = { s.world with user := say (text ++ ['\n']) s.world.user } ∧ s'.recursive = s.recursive ∧ s'.hook = none ∧
      Dump.visible false text = plain ∧ Report E.filename.toList l plain ∧
      Lists describe false s.world.locals s.world.globals l := by
  have hname : (E.macros id).isName = true := by rw [hid]; rfl
  have hi : Invokes E s.world t k id ⟨.name, t, none, none, t⟩ t := .name ht hk hne hb hname
  obtain ⟨s1, h, h1, h2⟩ : ∃ s1, applyMacro E (visit E n) id k ⟨.name, t, none, none, t⟩ { s with recursive := false } =
      some (.ok (.val .none), s1) ∧ s1.hook = none ∧ s1.world = { s.world with
        user := say (format describe (some P) false E.filename.toList s.world.locals s.world.globals ++ lit "\n")
          s.world.user } := by
    refine ⟨{ s with
      recursive := false
      world := { s.world with
        user := say (format describe (some P) false E.filename.toList s.world.locals s.world.globals ++ lit "\n")
          s.world.user }
      log := s.log ++ [⟨k, id, ⟨.name, t, none, none, t⟩, s.depth, false, isbound s.world k⟩] }, ?_, hh, rfl⟩
    obtain ⟨r, hook, w, d, log⟩ := s
    cases hh
    unfold applyMacro
    rw [hid]
    rfl
  obtain ⟨v, hv, hd⟩ := C23_name_deleted E n t t s s1 k id _ hw hi rfl h
  exact ⟨v, _, _, _, _, hv, hd, h2, rfl, h1, C65_color hP hl hg hf hp, report, lists hl hg⟩

/-- Used in any other way it is refused. -/
theorem C65_refused (E : Env υ) {describe : Nat → Fn} {P : Palette} {say : Str → υ → υ} (vis : Val → X υ Val) (k : String)
    (id : Nat) (a : MArgs) (s : St υ) (hb : isbound s.world k = some id) (hid : IsShow E describe P say id)
    (ha : a.synt ≠ .name) :
    ∃ s', expand E vis k a s = some (.error (.app (useSite E a k) (.py .syntaxError)), s') ∧ s'.world = s.world := by
  obtain ⟨s', h, hs⟩ : ∃ s', applyMacro E vis id k a s = some (.error (.py .syntaxError), s') ∧ s'.world = s.world := by
    refine ⟨{ s with log := s.log ++ [⟨k, id, a, s.depth, s.recursive, isbound s.world k⟩] }, ?_, rfl⟩
    have hfn : (E.macros id).fn a = .raise (.py .syntaxError) := by
      rw [hid]
      exact if_pos ha
    unfold applyMacro
    rw [hfn]
    rfl
  obtain ⟨msg, cause, h1, h2, -⟩ := C20_step E vis k a s s' _ id hb (by rintro ⟨_, hc⟩; cases hc) h
  obtain ⟨rfl, rfl⟩ := h2 (by intro m c hc; cases hc)
  exact ⟨s', h1, hs⟩

/-! ### Examples -/

namespace Bindings.Case

/-- `ColorScheme`, with the codes of `colorama`. -/
def palette : Palette where
  heading := "\x1b[1m\x1b[94m".toList
  source := "\x1b[1m".toList
  grey := "\x1b[2m".toList
  name := "\x1b[34m".toList
  reset := "\x1b[0m".toList

theorem palette_lawful : palette.Lawful where
  heading := .cons (s := "[1".toList) (by decide) (.cons (s := "[94".toList) (by decide) .nil)
  source := .cons (s := "[1".toList) (by decide) .nil
  grey := .cons (s := "[2".toList) (by decide) .nil
  name := .cons (s := "[34".toList) (by decide) .nil
  reset := .cons (s := "[0".toList) (by decide) .nil

/-- A macro of a module, one of the console, and something that is not a function. -/
def describe : Nat → Fn
  | 0 => ⟨some (some "mcpyrate.debug".toList), some "show_bindings".toList, "<function>".toList⟩
  | 1 => ⟨some none, some "f".toList, "<function>".toList⟩
  | _ => ⟨none, none, "<module 'm'>".toList⟩

def env : Env Str where
  macros := fun _ => showBindings describe palette (fun text out => out ++ text) "a.py".toList
  hooks := fun _ _ _ _ => .ret (.val .none)
  filename := "a.py"
  loc := fun _ => ["a.py:1: x"]

/-- `sb` is bound, `z`, `b`, and globally a captured macro and another `b`. -/
def start : St Str := init ⟨[("sb", 0), ("z", 2), ("b", 1)], [("f_1234", 1), ("b", 0)], []⟩

/-- `sb` -/
def use : Val := name "sb"

theorem locals_wf : start.world.locals.WF := by show List.Nodup _; decide

theorem globals_wf : start.world.globals.WF := by show List.Nodup _; decide

theorem plain : ∀ l, Lists describe false start.world.locals start.world.globals l → Plain l := by
  intro l h
  rw [C65_unique h (lists locals_wf globals_wf)]
  intro k f hm
  have : ∀ x ∈ texts (reported describe false start.world.locals start.world.globals), '\x1b' ∉ x.1 ∧ '\x1b' ∉ x.2 := by
    decide +kernel
  exact this (k, f) hm

end Bindings.Case

open Bindings.Case (palette palette_lawful use)

example : format Case.describe none false "a.py".toList Case.start.world.locals Case.start.world.globals =
    "Macro bindings for a.py:\n    b: f\n    sb: mcpyrate.debug.show_bindings\n    z: <module 'm'>\n".toList := by
  decide +kernel
example : format Case.describe none true "a.py".toList Case.start.world.locals Case.start.world.globals =
    "Macro bindings for a.py:\n    b: f\n    f_1234: f\n    sb: mcpyrate.debug.show_bindings\n    z: <module 'm'>\n".toList := by
  decide +kernel
example : format Case.describe (some palette) false "a.py".toList [] [] =
    "\x1b[0m\x1b[1m\x1b[94mMacro bindings for \x1b[0m\x1b[1ma.py\x1b[0m\x1b[1m\x1b[94m:\x1b[0m\n\x1b[0m\x1b[2m    <no bindings>\n\x1b[0m".toList := by
  decide +kernel
/-- The hypotheses of `C65_determines`: global bindings that are shadowed make no difference. -/
example : format Case.describe none true "a.py".toList [("f", 1)] [("f", 0)] =
    format Case.describe none false "a.py".toList [("f", 1)] [] := by
  have wf1 : Dict.WF [("f", 1)] := by show List.Nodup _; decide
  have wf2 : Dict.WF [("f", 0)] := by show List.Nodup _; decide
  have wf3 : Dict.WF ([] : Dict String Nat) := by show List.Nodup _; decide
  have fit : ∀ {l : List (Str × Str)}, (∀ x ∈ l, ':' ∉ x.1 ∧ '\n' ∉ x.1 ∧ '\n' ∉ x.2) → Fit l := fun h k f hm => h (k, f) hm
  refine (C65_determines wf1 wf2 wf1 wf3 (by decide) (by decide)
    (fun l h => by rw [C65_unique h (lists wf1 wf2)]; exact fit (by decide +kernel))
    (fun l h => by rw [C65_unique h (lists wf1 wf3)]; exact fit (by decide +kernel))).2 ⟨rfl, fun n f => ?_⟩
  by_cases hn : n = "f"
  · subst hn
    simp [Binding, Dict.get]
  · have h : ("f" = n) = False := eq_false fun h => hn h.symm
    simp [Binding, Dict.get_cons, Dict.get_nil, h]

/-- `sb[x]` is refused. -/
example : ∃ s', expand Case.env (visit Case.env 2) "sb" ⟨.expr, name "x", some [], none, name "x"⟩ Case.start =
    some (.error (.app (useSite Case.env ⟨.expr, name "x", some [], none, name "x"⟩ "sb") (.py .syntaxError)), s') ∧
    s'.world = Case.start.world :=
  C65_refused Case.env _ "sb" 0 _ _ rfl (show IsShow Case.env Case.describe palette (fun text out => out ++ text) 0 from rfl)
    (by decide)

example : Dump.visible false (format Case.describe (some palette) false "a.py".toList Case.start.world.locals
    Case.start.world.globals) = format Case.describe none false "a.py".toList Case.start.world.locals
    Case.start.world.globals :=
  C65_color palette_lawful Case.locals_wf Case.globals_wf (by decide) Case.plain

/-- One report for two expanders with different bindings: no. -/
example : format Case.describe none false "a.py".toList [("f", 1)] [] ≠
    format Case.describe none false "a.py".toList [("f", 0)] [] := by
  decide +kernel

example : ∃ v text l plain s', visit Case.env 3 use Case.start = some (.ok v, s') ∧ DeletedExpr (locOf use) v ∧
    s'.world = { Case.start.world with user := text ++ ['\n'] } ∧ s'.recursive = true ∧ s'.hook = none ∧
    Dump.visible false text = plain ∧ Report "a.py".toList l plain ∧
    Lists Case.describe false Case.start.world.locals Case.start.world.globals l :=
  C65_show_partial Case.env palette_lawful 2 use Case.start "sb" 0 (Collector.wellFormed_of (by decide +kernel)) rfl rfl
    (by decide) rfl (show IsShow Case.env Case.describe palette (fun text out => out ++ text) 0 from rfl) rfl Case.locals_wf
    Case.globals_wf (by decide) Case.plain

/-- The expander has a macro that `show_bindings` does not show. -/
theorem C65_all_violated : ∃ (id : Nat) (v : Val) (s' : St Str),
    IsShow Case.env Case.describe palette (fun text out => out ++ text) id ∧ isbound Case.start.world "sb" = some id ∧
    isbound Case.start.world "f_1234" = some 1 ∧ visit Case.env 3 use Case.start = some (.ok v, s') ∧
    Dump.visible false s'.world.user =
      "Macro bindings for a.py:\n    b: f\n    sb: mcpyrate.debug.show_bindings\n    z: <module 'm'>\n\n".toList := by
  refine ⟨0, _, _, rfl, rfl, rfl, rfl, ?_⟩
  decide +kernel

end Mcpyrate
