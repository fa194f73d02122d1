import Verif.Lemmas.UnparseLabel
import Verif.Spec.UnparseColorExample
/-
C69 Syntax highlighting and the debug mode of `unparse` only add to what is shown.

`C69_plain`: without both, the text is the one of C47.  `C69_color`: with colors, it is the same text with colored runs,
up to white space around it.  `C69_debug`, `C69_lines`: in debug mode it is the same text with line numbers, marks for
nodes that have no text, and hygienic captures shown as such; `C69_else`: also for `elif` and `else`.  `C69_macro`,
`C69_capture`: the color of macros, and how captures are shown; `C69_compare`, `C69_boolOp`, `C69_not`: of operators.

The code does not have two stronger forms of `C69_color`.  `C69_space`: white space in front is not removed if it is
colored.  `C69_nameless`: a class without a name is an error without colors, but not with them.
-/
namespace Mcpyrate
open Py Unparse

/-- C69: without colors and debug mode, neither the builtins nor the macros nor the captures matter. -/
theorem C69_plain (H : Host) (o : Color.Opts) (hc : o.color = none) (hd : o.debug = false) (limit : Nat) (t : Val) :
    Color.unparse H o limit t = Unparse.unparse H limit t :=
  unparse_off H o hc hd limit t

example : Unparse.unparse ColorCase.host 20 ColorCase.tree = .ok (lit "@deco\nclass C:\n    print((1 in lookup()))") ∧
    (Color.unparse ColorCase.host (ColorCase.opts false none) 20 ColorCase.tree).toOption =
      some (lit "@deco\nclass C:\n    print((1 in lookup()))") := by
  have h : (Color.unparse ColorCase.host (ColorCase.opts false none) 20 ColorCase.tree).toOption =
      some (lit "@deco\nclass C:\n    print((1 in lookup()))") := by decide +kernel
  refine ⟨?_, h⟩
  rw [← C69_plain _ (ColorCase.opts false none) rfl rfl]
  cases e : Color.unparse ColorCase.host (ColorCase.opts false none) 20 ColorCase.tree with
  | error x => rw [e] at h; cases h
  | ok x => rw [e] at h; cases h; rfl

/-- C69: whatever can be unparsed without colors can be unparsed with them, in debug mode or not.  Without the colors, the
text is the same, up to white space around it; and each color is switched off where the text in it ends. -/
theorem C69_color (S : Color.Scheme) (hS : Solid S) (H : Host) (o : Color.Opts) (ho : o.color = some S) (limit : Nat)
    (t : Val) (p : Str) (h : Color.unparse H { o with color := none } limit t = .ok p) :
    ∃ s q, Color.unparse H o limit t = .ok s ∧ Painted S s q ∧ Dialects.strip q = p :=
  unparse_sim hS H o ho limit t h

example : Solid ColorCase.ansi ∧
    (Color.unparse ColorCase.host (ColorCase.opts false (some ColorCase.ansi)) 20 ColorCase.tree).toOption =
      some (lit ("\x1b[0m\x1b[94m@\x1b[0m\x1b[0m\x1b[94mdeco\x1b[0m\n\x1b[0m\x1b[33mclass \x1b[0m\x1b[0m\x1b[36mC\x1b[0m:\n" ++
        "    \x1b[0m\x1b[1mprint\x1b[0m((\x1b[0m\x1b[32m1\x1b[0m \x1b[0m\x1b[33min\x1b[0m lookup()))")) :=
  ⟨ColorCase.solid_of rfl, by decide +kernel⟩

/-- C69, not up to white space: ` for x in y` keeps the space in front, when it is colored. -/
theorem C69_space : ∃ s, Color.unparse ColorCase.host (ColorCase.opts false none) 20 ColorCase.clause = .ok (lit "for x in y") ∧
    Color.unparse ColorCase.host (ColorCase.opts false (some ColorCase.bright)) 20 ColorCase.clause = .ok s ∧
    ¬ Painted ColorCase.bright s (lit "for x in y") := by
  have ok : ∀ {r : R} {s : Str}, r.toOption = some s → r = .ok s := fun {r s} h => by
    cases r with
    | error => cases h
    | ok x => cases h; rfl
  refine ⟨lit "\x1b[0m" ++ lit "\x1b[1m" ++ ' ' :: lit "for \x1b[0mx\x1b[0m\x1b[1m in \x1b[0my", ok (by decide +kernel), ok (by decide +kernel), ?_⟩
  intro h
  generalize hp : lit "for x in y" = p at h
  generalize ht : lit "\x1b[0m" ++ lit "\x1b[1m" ++ ' ' :: lit "for \x1b[0mx\x1b[0m\x1b[1m in \x1b[0my" = t at h
  have first : ∀ {x r q : Str}, Painted ColorCase.bright x q → x = ' ' :: r → ∃ q', q = ' ' :: q' := by
    intro x r q h e
    cases h with
    | nil => cases e
    | char c h => cases e; exact ⟨_, rfl⟩
    | run k h1 h2 => cases e
  cases h with
  | nil => cases hp
  | char c h => cases ht; cases hp
  | @run k x q t' q' h1 h2 =>
    have e : x ++ ColorCase.bright.reset ++ t' = ' ' :: lit "for \x1b[0mx\x1b[0m\x1b[1m in \x1b[0my" := by
      have : (ColorCase.bright.reset ++ ColorCase.bright.code k) ++ (x ++ ColorCase.bright.reset ++ t') =
          (lit "\x1b[0m" ++ lit "\x1b[1m") ++ ' ' :: lit "for \x1b[0mx\x1b[0m\x1b[1m in \x1b[0my" := by
        rw [ht]; simp [List.append_assoc]
      exact List.append_cancel_left this
    cases x with
    | nil => cases e
    | cons y x =>
      have : y = ' ' := (List.cons.inj e).1
      subst this
      obtain ⟨q'', rfl⟩ := first h1 rfl
      cases hp

/-- C69, the converse: the name of a class is formatted when it is colored, even if it is not a string. -/
theorem C69_nameless : (Color.unparse ColorCase.host (ColorCase.opts false none) 20 ColorCase.nameless = .error .typeError) ∧
    ∃ s, Color.unparse ColorCase.host (ColorCase.opts false (some ColorCase.bright)) 20 ColorCase.nameless = .ok s := by
  refine ⟨?_, ?_⟩
  · have h : (Color.unparse ColorCase.host (ColorCase.opts false none) 20 ColorCase.nameless).toOption = none := by
      decide +kernel
    rfl
  · cases h : Color.unparse ColorCase.host (ColorCase.opts false (some ColorCase.bright)) 20 ColorCase.nameless with
    | ok s => exact ⟨s, rfl⟩
    | error e =>
      have : (Color.unparse ColorCase.host (ColorCase.opts false (some ColorCase.bright)) 20 ColorCase.nameless).toOption.isSome
          = true := by decide +kernel
      rw [h] at this
      cases this

/-- C69: whatever can be unparsed can be unparsed in debug mode, and shows the same code, if the tests for hygienic captures
raise no errors.  (White space around the two texts is removed.) -/
theorem C69_debug (H : Host) (o : Color.Opts) (ho : o.color = none) (hd : o.debug = true)
    (hv : ∀ t, ∃ r, o.capturedValue t = .ok r) (hm : ∀ t, ∃ r, o.capturedMacro t = .ok r) (limit : Nat) (t : Val) (p : Str)
    (h : Unparse.unparse H limit t = .ok p) :
    ∃ d q, Color.unparse H o limit t = .ok (Dialects.strip d) ∧ Annotated (CapturedAs H o) d q ∧ p = Dialects.strip q :=
  unparse_dbg H o ho hd hv hm limit t ((C69_plain H { o with debug := false } ho rfl limit t).trans h)

example : (∀ t, ∃ r, (ColorCase.opts true none).capturedValue t = .ok r) ∧
    (∀ t, ∃ r, (ColorCase.opts true none).capturedMacro t = .ok r) ∧
    (Color.unparse ColorCase.host (ColorCase.opts true none) 20 ColorCase.tree).toOption =
      some (lit ("L ---- $Module:\n\nL    1     @deco\nL    2     class C:\n" ++
        "L    3         $Expr: print((1 in $h[v]))")) :=
  ⟨fun _ => ⟨_, rfl⟩, fun _ => ⟨_, rfl⟩, by decide +kernel⟩

/-- C69: in debug mode, the text of each statement of a suite begins on a new line, with its line number.  (Functions and
classes have an empty line and their decorators first.) -/
theorem C69_lines (H : Host) (o : Color.Opts) (ho : o.color = none) (hd : o.debug = true) (limit : Nat)
    (code : List (K × Loc × Fields))
    (hk : ∀ x ∈ code, x.1.isStmt = true ∧ x.1 ∉ [K.ClassDef, .FunctionDef, .AsyncFunctionDef])
    (hv : ∀ x ∈ code, o.capturedValue (.node (.py x.1) x.2.1 x.2.2) = .ok none)
    (hm : ∀ x ∈ code, o.capturedMacro (.node (.py x.1) x.2.1 x.2.2) = .ok none) (s : Str)
    (h : Color.unparse H o limit (.list (code.map fun x => .node (.py x.1) x.2.1 x.2.2)) = .ok s) :
    ∃ rs : List Str, rs.length = code.length ∧
      s = Dialects.strip ((code.zip rs).flatMap fun p => '\n' :: (lineLabel (lineOf p.1.2.1) ++ p.2)) := by
  unfold Color.unparse Color.dispatchAny concat at h
  dsimp only at h
  cases ht : texts (Color.dispatch H limit { opts := o }) (code.map fun x => .node (.py x.1) x.2.1 x.2.2) with
  | error e => rw [ht] at h; cases h
  | ok ss =>
    rw [ht] at h
    cases h
    obtain ⟨rs, h1, h2⟩ := texts_begin hd ho code hk hv hm ht
    refine ⟨rs, h1, ?_⟩
    rw [← h2]
    have := strip_all [] ss.flatten (lit "\n") (by simp) (by decide +kernel)
    simpa using this

example : (Color.unparse ColorCase.host (ColorCase.opts true none) 20
      (.list ([(K.Pass, { lineno := .int 7 }, []), (.Expr, { lineno := .int 123456 }, [(.value, name "x")]), (.Break, {}, [])].map
        fun x : K × Loc × Fields => .node (.py x.1) x.2.1 x.2.2))).toOption =
      some (lit "L    7 pass\nL123456 $Expr: x\nL ---- break") := by decide +kernel

/-- C69: with colors, a name is highlighted as a macro if the expander has a macro for it, and no builtin has that name. -/
theorem C69_macro (H : Host) (o : Color.Opts) (S : Color.Scheme) (ho : o.color = some S) (hd : o.debug = false) (limit : Nat)
    (x : String) (he : o.isException x.toList = false) (hb : o.isBuiltin x.toList = false) (l : Loc) (fs : Fields)
    (hx : fs.lookup .id = some (.str x)) :
    Color.dispatch H (limit + 1) { opts := o } (.node (.py .Name) l fs) =
      .ok (if o.isbound x.toList then S.reset ++ S.code .macroName ++ x.toList ++ S.reset else x.toList) := by
  have hc : Color.captured o (.node (.py .Name) l fs) = .ok none := by
    unfold Color.captured
    dsimp only
    rw [hd]
    rfl
  unfold Color.dispatch
  rw [hc]
  show Color.nameText { opts := o } fs = _
  unfold Color.nameText attr
  rw [hx]
  show (if o.isException x.toList = true then _ else _) = _
  rw [he, if_neg (by simp)]
  show (if o.isBuiltin x.toList = true then _ else _) = _
  rw [hb, if_neg (by simp)]
  show (if o.isbound x.toList = true then (.ok (Color.paint { opts := o } .macroName x.toList) : R) else .ok x.toList) = _
  have hp : Color.paint { opts := o } .macroName x.toList = S.reset ++ S.code .macroName ++ x.toList ++ S.reset := by
    unfold Color.paint Color.Ctx.scheme
    simp only [ho]
    rfl
  rw [hp]
  cases o.isbound x.toList <;> rfl

example : (Color.unparse ColorCase.host { ColorCase.opts false (some ColorCase.ansi) with isbound := fun x => x == lit "m" } 20
      (mk .Subscript [(.value, name "m"), (.slice, name "x")])).toOption = some (lit "\x1b[0m\x1b[2mm\x1b[0m[x]") := by
  decide +kernel

private theorem painted_keyword {o : Color.Opts} {S : Color.Scheme} (ho : o.color = some S) (x : Str) :
    Color.paint { opts := o } .keyword x = S.reset ++ S.code .keyword ++ x ++ S.reset := by
  unfold Color.paint Color.Ctx.scheme
  simp only [ho]
  rfl

private theorem dispatch_node {H : Host} {o : Color.Opts} (hd : o.debug = false) (limit : Nat) (k : K) (l : Loc) (fs : Fields) :
    Color.dispatch H (limit + 1) { opts := o } (.node (.py k) l fs) =
      Color.method H (Color.dispatch H limit) limit { opts := o } (.node (.py k) l fs) l fs k := by
  have hc : Color.captured o (.node (.py k) l fs) = .ok none := by
    unfold Color.captured
    dsimp only
    rw [hd]
    rfl
  rw [Color.dispatch]
  show (Color.captured o _ >>= _) = _
  rw [hc]
  rfl

/-- C69: with colors, comparison operators that are words have the color of keywords, and the others have none. -/
theorem C69_compare (H : Host) (o : Color.Opts) (S : Color.Scheme) (ho : o.color = some S) (hd : o.debug = false)
    (limit : Nat) (l : Loc) (a : Val) (ta : Str) (xs : List ((K × String × Bool) × Loc × Val × Str))
    (ha : Color.dispatch H limit { opts := o } a = .ok ta)
    (hx : ∀ x ∈ xs, x.1 ∈ comparisonSigns ∧ Color.dispatch H limit { opts := o } x.2.2.1 = .ok x.2.2.2) :
    Color.dispatch H (limit + 1) { opts := o } (.node (.py .Compare) l [(.left, a),
        (.ops, .list (xs.map fun x => .node (.py x.1.1) x.2.1 [])), (.comparators, .list (xs.map (·.2.2.1)))]) =
      .ok (lit "(" ++ ta ++ xs.flatMap (fun x => lit " " ++ sign S x.1.2.2 x.1.2.1 ++ lit " " ++ x.2.2.2) ++ lit ")") := by
  have hs : texts (Color.comparison (Color.dispatch H limit) { opts := o })
      ((xs.map fun x => Val.node (.py x.1.1) x.2.1 []).zip (xs.map (·.2.2.1))) =
      .ok (xs.map fun x => lit " " ++ sign S x.1.2.2 x.1.2.1 ++ lit " " ++ x.2.2.2) := by
    induction xs with
    | nil => rfl
    | cons x xs ih =>
      obtain ⟨⟨k, text, word⟩, m, b, tb⟩ := x
      obtain ⟨h1, h2⟩ := hx _ List.mem_cons_self
      have hc : Color.comparison (Color.dispatch H limit) { opts := o } (Val.node (.py k) m [], b) =
          .ok (lit " " ++ sign S word text ++ lit " " ++ tb) := by
        unfold Color.comparison
        dsimp only at h2
        simp only [h2]
        simp only [comparisonSigns, List.mem_cons, Prod.mk.injEq, List.not_mem_nil, or_false] at h1
        rcases h1 with ⟨rfl, rfl, rfl⟩ | ⟨rfl, rfl, rfl⟩ | ⟨rfl, rfl, rfl⟩ | ⟨rfl, rfl, rfl⟩ | ⟨rfl, rfl, rfl⟩ |
          ⟨rfl, rfl, rfl⟩ | ⟨rfl, rfl, rfl⟩ | ⟨rfl, rfl, rfl⟩ | ⟨rfl, rfl, rfl⟩ | ⟨rfl, rfl, rfl⟩ <;>
          (simp only [painted_keyword ho]; rfl)
      simp only [List.map_cons, List.zip_cons_cons, texts, hc, ih fun y hy => hx y (List.mem_cons_of_mem _ hy)]
      rfl
  rw [dispatch_node hd]
  show Color.compare (Color.dispatch H limit) { opts := o } _ = _
  unfold Color.compare concat
  have h1 : ∀ fs : Fields, attr .Compare ((F.left, a) :: fs) .left = .ok a := fun _ => rfl
  have h2 : ∀ (v : Val) (fs : Fields), attr .Compare ((F.left, a) :: (F.ops, v) :: fs) .ops = .ok v := fun _ _ => rfl
  have h3 : ∀ (u v : Val), attr .Compare [(F.left, a), (F.ops, u), (F.comparators, v)] .comparators = .ok v := fun _ _ => rfl
  simp only [h1, attrL, h2, h3]
  show (Color.dispatch H limit { opts := o } a >>= _) = _
  rw [ha]
  show (texts _ _ >>= _) >>= _ = _
  rw [hs, List.flatMap_def]
  rfl

/-- C69: with colors, `and` and `or` have the color of keywords. -/
theorem C69_boolOp (H : Host) (o : Color.Opts) (S : Color.Scheme) (ho : o.color = some S) (hd : o.debug = false)
    (limit : Nat) (l m : Loc) (k : K) (text : String) (hk : k = .And ∧ text = "and" ∨ k = .Or ∧ text = "or")
    (x y : Val) (tx ty : Str) (hx : Color.dispatch H limit { opts := o } x = .ok tx)
    (hy : Color.dispatch H limit { opts := o } y = .ok ty) :
    Color.dispatch H (limit + 1) { opts := o }
        (.node (.py .BoolOp) l [(.op, .node (.py k) m []), (.values, .list [x, y])]) =
      .ok (lit "(" ++ tx ++ lit " " ++ sign S true text ++ lit " " ++ ty ++ lit ")") := by
  rw [dispatch_node hd]
  show Color.boolOp (Color.dispatch H limit) { opts := o } _ = _
  rcases hk with ⟨rfl, rfl⟩ | ⟨rfl, rfl⟩ <;>
  · unfold Color.boolOp
    show ((do
      let y' ← (do
        let t ← Color.dispatch H limit { opts := o } x
        let u ← (do
          let t ← Color.dispatch H limit { opts := o } y
          return t :: [])
        return t :: u : Except Err (List Str))
      return _) : R) = _
    rw [hx, hy]
    simp only [painted_keyword ho]
    simp [bind, Except.bind, pure, Except.pure, interleave, sign, lit]

/-- C69: with colors, `not` has the color of keywords. -/
theorem C69_not (H : Host) (o : Color.Opts) (S : Color.Scheme) (ho : o.color = some S) (hd : o.debug = false)
    (limit : Nat) (l m : Loc) (x : Val) (tx : Str) (hx : Color.dispatch H limit { opts := o } x = .ok tx) :
    Color.dispatch H (limit + 1) { opts := o } (.node (.py .UnaryOp) l [(.op, .node (.py .Not) m []), (.operand, x)]) =
      .ok (lit "(" ++ sign S true "not" ++ lit " " ++ tx ++ lit ")") := by
  rw [dispatch_node hd]
  show Color.unaryOp (Color.dispatch H limit) { opts := o } _ = _
  unfold Color.unaryOp
  show (Color.dispatch H limit { opts := o } x >>= _) = _
  rw [hx]
  simp only [painted_keyword ho]
  simp [bind, Except.bind, pure, Except.pure, sign, lit, Val.isK]

/-- `a < b is not c`, and `not (a and b)`. -/
example : (Color.unparse ColorCase.host (ColorCase.opts false (some ColorCase.ansi)) 20
      (mk .Compare [(.left, name "a"), (.ops, .list [mk .Lt [], mk .IsNot []]), (.comparators, .list [name "b", name "c"])])).toOption =
      some (lit "(a < b \x1b[0m\x1b[33mis not\x1b[0m c)") ∧
    (Color.unparse ColorCase.host (ColorCase.opts false (some ColorCase.ansi)) 20
      (mk .UnaryOp [(.op, mk .Not []), (.operand, mk .BoolOp [(.op, mk .And []), (.values, .list [name "a", name "b"])])])).toOption =
      some (lit "(\x1b[0m\x1b[33mnot\x1b[0m (a \x1b[0m\x1b[33mand\x1b[0m b))") := by
  decide +kernel

/-- C69: in debug mode, `elif` has the line number of the `if` that it stands for, and `else` the one of the last of them. -/
theorem C69_else (H : Host) (o : Color.Opts) (ho : o.color = none) (hd : o.debug = true) (limit : Nat)
    (x : Loc × Val × Val) (xs : List (Loc × Val × Val)) (e : List Val) (he : ∀ l fs, e ≠ [.node (.py .If) l fs])
    (hv : o.capturedValue (ifChain x xs e) = .ok none) (hm : o.capturedMacro (ifChain x xs e) = .ok none) (s : Str)
    (h : Color.unparse H o limit (ifChain x xs e) = .ok s) : ∃ t, ChainText "if " x xs e t ∧ s = Dialects.strip t := by
  obtain ⟨l, fs, hx⟩ : ∃ l fs, ifChain x xs e = .node (.py .If) l fs := by
    obtain ⟨l1, t1, b1⟩ := x
    cases xs <;> exact ⟨_, _, rfl⟩
  rw [hx] at h hv hm
  cases limit with
  | zero => cases h
  | succ n =>
    have hc : Color.captured o (.node (.py .If) l fs) = .ok none := by
      unfold Color.captured
      dsimp only
      rw [hd, hv, if_pos rfl]
      show (o.capturedMacro _ >>= _) = _
      rw [hm]
      rfl
    unfold Color.unparse Color.dispatchAny Color.dispatch at h
    dsimp only at h
    rw [hc] at h
    change (Color.ifStmt (Color.dispatch H n) { opts := o } "if " n l fs >>= fun s =>
      (pure (Dialects.strip (s ++ lit "\n")) : R)) = _ at h
    cases hr : Color.ifStmt (Color.dispatch H n) { opts := o } "if " n l fs with
    | error x => rw [hr] at h; cases h
    | ok t =>
      rw [hr] at h
      cases h
      refine ⟨t, ifStmt_chain (c := { opts := o }) hd ho rfl e he xs "if " n x l fs hx t hr, ?_⟩
      have := strip_all [] t (lit "\n") (by simp) (by decide +kernel)
      simpa using this

example : (Color.unparse ColorCase.host (ColorCase.opts true none) 20
      (ifChain ({ lineno := .int 1 }, name "a", .list [.node (.py .Pass) { lineno := .int 2 } []])
        [({ lineno := .int 3 }, name "b", .list [.node (.py .Pass) { lineno := .int 4 } []])]
        [.node (.py .Pass) { lineno := .int 6 } []])).toOption =
      some (lit "L    1 if a:\nL    2     pass\nL    3 elif b:\nL    4     pass\nL    3 else:\nL    6     pass") := by
  decide +kernel

/-- C69: in debug mode, a hygienic capture is shown by its name; with colors, the name of a captured macro has the color of
macro names. -/
theorem C69_capture (H : Host) (o : Color.Opts) (S : Color.Scheme) (ho : o.color = some S) (hd : o.debug = true) (limit : Nat)
    (t : Val) (ht : ∀ xs, t ≠ .list xs) (x : Str) :
    (o.capturedValue t = .ok (some x) → Color.dispatch H (limit + 1) { opts := o } t =
      .ok (S.reset ++ S.code .marker ++ lit "$h" ++ S.reset ++ (S.reset ++ S.code .marker ++ lit "[" ++ S.reset) ++ x ++
        (S.reset ++ S.code .marker ++ lit "]" ++ S.reset))) ∧
    (o.capturedValue t = .ok none → o.capturedMacro t = .ok (some x) → Color.dispatch H (limit + 1) { opts := o } t =
      .ok (S.reset ++ S.code .marker ++ lit "$h" ++ S.reset ++ (S.reset ++ S.code .marker ++ lit "[" ++ S.reset) ++
        (S.reset ++ S.code .macroName ++ x ++ S.reset) ++ (S.reset ++ S.code .marker ++ lit "]" ++ S.reset))) := by
  have hp : ∀ p y, Color.paint { opts := o } p y = S.reset ++ S.code p ++ y ++ S.reset := by
    intro p y
    unfold Color.paint Color.Ctx.scheme
    simp only [ho]
    rfl
  have hc : Color.captured o t = (o.capturedValue t >>= fun r => match r with
      | some x => pure (some (x, false))
      | none => o.capturedMacro t >>= fun r => match r with
        | some x => pure (some (x, true))
        | none => pure none) := by
    unfold Color.captured
    split
    · exact absurd rfl (ht _)
    · rw [hd, if_pos rfl]
      rfl
  refine ⟨fun h => ?_, fun h h' => ?_⟩
  · unfold Color.dispatch
    dsimp only
    rw [hc, h]
    show Except.ok (Color.capturedValue { opts := o } x) = _
    unfold Color.capturedValue
    simp only [hp]
  · unfold Color.dispatch
    dsimp only
    rw [hc, h]
    show ((o.capturedMacro t >>= _) >>= _) = _
    rw [h']
    show Except.ok (Color.capturedMacro { opts := o } x) = _
    unfold Color.capturedMacro
    simp only [hp]

example : (Color.unparse ColorCase.host (ColorCase.opts true (some ColorCase.ansi)) 20
      (mk .Call [(.func, name "lookup"), (.args, .list []), (.keywords, .list [])])).toOption =
    some (lit "\x1b[0m\x1b[2m$h\x1b[0m\x1b[0m\x1b[2m[\x1b[0mv\x1b[0m\x1b[2m]\x1b[0m") := by
  decide +kernel

end Mcpyrate
