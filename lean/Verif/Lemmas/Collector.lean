import Verif.Spec.Collector
import Verif.Lemmas.ExpanderClean
import Verif.Lemmas.ExpanderSyntax
/-
Lemmas on `MacroCollector`.
-/
namespace Mcpyrate.Collector
open Py M Expander

variable {υ : Type} {E : Env υ} {w : World υ}

/-! ### What a run may do -/

/-- The run appends new keys, all of them in `P`; if it succeeds, all in `N` are there. -/
structure Out (P N : Key → Prop) (l : List Key) (r : Except Exc Unit) (l' : List Key) : Prop where
  ext : ∃ m, l' = l ++ m
  nodup : l.Nodup → l'.Nodup
  sound : ∀ k ∈ l', k ∈ l ∨ P k
  complete : r = .ok () → ∀ k, N k → k ∈ l'

def Does (m : C Unit) (P N : Key → Prop) : Prop := ∀ l, Post m l (Out P N l)

theorem Does.mono {m : C Unit} {P P' N N' : Key → Prop} (h : Does m P N) (hP : ∀ k, P k → P' k)
    (hN : ∀ k, N' k → N k) : Does m P' N' := fun l => (h l).mono fun _ _ o =>
  ⟨o.ext, o.nodup, fun k hk => (o.sound k hk).imp id (hP k), fun h1 k h2 => o.complete h1 k (hN k h2)⟩

theorem Does.pure {P N : Key → Prop} (h : ∀ k, ¬ N k) : Does (Pure.pure ()) P N := fun _ =>
  post_pure.mpr ⟨⟨[], by simp⟩, id, fun _ => .inl, fun _ k hk => absurd hk (h k)⟩

theorem Does.throw {P N : Key → Prop} {e : Exc} : Does (M.throw e) P N := fun _ =>
  post_throw.mpr ⟨⟨[], by simp⟩, id, fun _ => .inl, fun h => by cases h⟩

theorem Does.bind {m : C Unit} {f : Unit → C Unit} {P N N' : Key → Prop} (h : Does m P N)
    (h' : Does (f ()) P N') : Does (m >>= f) P (fun k => N k ∨ N' k) := by
  intro l
  refine post_bind.mpr ((h l).mono ?_)
  rintro (e | ⟨⟩) l1 o
  · exact ⟨o.ext, o.nodup, o.sound, fun h => by cases h⟩
  · refine (h' l1).mono fun r l2 o' => ?_
    obtain ⟨m1, e1⟩ := o.ext
    obtain ⟨m2, e2⟩ := o'.ext
    refine ⟨⟨m1 ++ m2, by rw [e2, e1, List.append_assoc]⟩, o'.nodup ∘ o.nodup, fun k hk => ?_, fun hr k hk => ?_⟩
    · rcases o'.sound k hk with h | h
      · exact o.sound k h
      · exact .inr h
    · rcases hk with hk | hk
      · rw [e2]; exact List.mem_append_left _ (o.complete rfl k hk)
      · exact o'.complete hr k hk

theorem Does.ofExcept {α : Type} {x : Except Exc α} {f : α → C Unit} {P N : Key → Prop}
    (h : ∀ a, x = .ok a → Does (f a) P N) : Does (M.ofExcept x >>= f) P N := by
  cases x with
  | error e => exact Does.throw (e := e)
  | ok a => exact h a rfl

theorem Does.note {k : Key} {P : Key → Prop} (h : P k) : Does (note k) P (· = k) := by
  intro l
  refine post_modify.mpr ?_
  by_cases hk : k ∈ l
  · rw [if_pos hk]
    exact ⟨⟨[], by simp⟩, id, fun _ => .inl, fun _ _ e => e ▸ hk⟩
  · rw [if_neg hk]
    refine ⟨⟨[k], rfl⟩, fun hn => ?_, fun k' hk' => ?_, fun _ _ e => by simp [e]⟩
    · rw [List.nodup_append]
      exact ⟨hn, by simp, by rintro a ha b hb rfl; simp at hb; exact hk (hb ▸ ha)⟩
    · rcases List.mem_append.mp hk' with h' | h'
      · exact .inl h'
      · simp at h'; subst h'; exact .inr h

theorem Does.forAll {α : Type} {f : α → C Unit} {xs : List α} {P : Key → Prop} {N : α → Key → Prop}
    (h : ∀ x ∈ xs, Does (f x) P (N x)) : Does (forAll f xs) P (fun k => ∃ x ∈ xs, N x k) := by
  induction xs with
  | nil => exact Does.pure (by simp)
  | cons x xs ih =>
    exact (Does.bind (h x (by simp)) (ih fun y hy => h y (by simp [hy]))).mono (fun _ => id) (by simp)

/-! ### Trees -/

/-- Some invocation in `t` has this key. -/
def Has (E : Env υ) (w : World υ) (t : Val) (k : Key) : Prop := ∃ u, Open t u ∧ InvokesAs E w u k

theorem Has.child {t u : Val} {k : Key} (hd : isDone t = false) (hu : u ∈ childNodes t) (h : Has E w u k) :
    Has E w t k := h.imp fun _ h => ⟨.step hd hu h.1, h.2⟩

theorem Has.list {xs : List Val} {k : Key} (h : Has E w (.list xs) k) : ∃ x ∈ xs, x.isAST = true ∧ Has E w x k := by
  obtain ⟨u, ho, hi⟩ := h
  cases ho with
  | refl _ => exact absurd hi (by rintro ⟨⟩ <;> simp_all [Val.isK])
  | step _ hu ho =>
    obtain ⟨h1, h2⟩ := List.mem_filter.mp hu
    exact ⟨_, h1, h2, u, ho, hi⟩

theorem InvokesAs.invocation {t : Val} {k : Key} (h : InvokesAs E w t k) : Invocation E w t := by
  cases h with
  | expr h1 h2 h3 h4 => exact .expr h1 h2 ⟨_, _, _, h3, h4⟩
  | block h1 h2 h3 h4 h5 h6 => exact .block h1 h2 h3 h4 ⟨_, _, _, h5, h6⟩
  | decorator h1 h2 h3 h4 h5 => exact .decorator h1 h2 h3 ⟨_, _, _, h4, h5⟩
  | name h1 h2 h3 h4 h5 => exact .name h1 h2 h3 h4 h5

theorem _root_.Mcpyrate.Expander.Invocation.invokesAs {t : Val} (h : Invocation E w t) : ∃ k, InvokesAs E w t k := by
  cases h with
  | expr h1 h2 h => obtain ⟨_, _, _, h3, h4⟩ := h; exact ⟨_, .expr h1 h2 h3 h4⟩
  | block h1 h2 h3 h4 h => obtain ⟨_, _, _, h5, h6⟩ := h; exact ⟨_, .block h1 h2 h3 h4 h5 h6⟩
  | decorator h1 h2 h3 h => obtain ⟨_, _, _, h4, h5⟩ := h; exact ⟨_, .decorator h1 h2 h3 h4 h5⟩
  | name h1 h2 h3 h4 h5 => exact ⟨_, .name h1 h2 h3 h4 h5⟩

/-- If a list, then of nodes. -/
def Simple (v : Val) : Prop := ∀ xs, v = .list xs → ∀ x ∈ xs, x.isAST = true

theorem Shaped.child {t u : Val} (h : Shaped t) (hd : isDone t = false) (hu : u ∈ childNodes t) : Shaped u :=
  fun s hs => h s (.step hd hu hs)

theorem Shaped.self {t : Val} (h : Shaped t) (hd : isDone t = false) : partsOk t = true := h t (.refl t hd)

theorem Shaped.list {xs : List Val} (h : ∀ x ∈ xs, x.isAST = true → Shaped x) : Shaped (.list xs) := by
  intro u hu
  cases hu with
  | refl _ => rfl
  | step _ hx ho =>
    obtain ⟨h1, h2⟩ := List.mem_filter.mp hx
    exact h _ h1 h2 _ ho

theorem Simple.node {c l fs} : Simple (.node c l fs) := fun _ h => by cases h
theorem Simple.of_isAST {v : Val} (h : v.isAST = true) : Simple v := by
  cases v with
  | node => exact .node
  | _ => cases h

theorem NoInvocations.node {t : Val} (hn : ¬ Invocation E w t) (hc : ∀ u ∈ childNodes t, NoInvocations E w u) :
    NoInvocations E w t := by
  intro u hu
  cases hu with
  | refl _ => exact hn
  | step _ hu ho => exact hc _ hu _ ho

theorem Simple.of_isTree {v : Val} (h : v.isTree = true) : Simple v := by
  rintro xs rfl
  exact fun x hx => List.all_eq_true.mp h x hx

/-- Some invocation in `t`, not in a head, has this key. -/
def Must (E : Env υ) (w : World υ) (t : Val) (k : Key) : Prop := ∃ u, Exposed E w t u ∧ InvokesAs E w u k

theorem Must.plain {t : Val} {k : Key} (hn : ¬ Invocation E w t) (h : Must E w t k) : ∃ u ∈ childNodes t, Must E w u k := by
  obtain ⟨u, ho, hi⟩ := h
  cases ho with
  | refl _ => exact absurd hi.invocation hn
  | inside _ _ hu ho => exact ⟨_, hu, u, ho, hi⟩
  | part h => exact absurd h hn

theorem Must.inv {t : Val} {k : Key} (hn : Invocation E w t) (h : Must E w t k) :
    InvokesAs E w t k ∨ ∃ u, Part E w t u ∧ Must E w u k := by
  obtain ⟨u, ho, hi⟩ := h
  cases ho with
  | refl _ => exact .inl hi
  | inside _ h _ _ => exact absurd hn h
  | part _ hp ho => exact .inr ⟨_, hp, u, ho, hi⟩

theorem not_invocation_list {xs : List Val} : ¬ Invocation E w (.list xs) := by
  rintro (⟨h1, _⟩ | ⟨h1, _⟩ | ⟨h1 | h1, _⟩ | ⟨h1, _⟩) <;> cases h1

theorem not_invocation_const {c : Const} : ¬ Invocation E w (.const c) := by
  rintro (⟨h1, _⟩ | ⟨h1, _⟩ | ⟨h1 | h1, _⟩ | ⟨h1, _⟩) <;> cases h1

theorem Must.list {xs : List Val} {k : Key} {x : Val} (hx : x ∈ xs) (hi : x.isAST = true) (h : Must E w x k) : Must E w (.list xs) k :=
  h.imp fun _ h => ⟨.inside rfl not_invocation_list (List.mem_filter.mpr ⟨hx, hi⟩) h.1, h.2⟩

/-- The outermost invocation on the way to an invocation is not in the head of another one. -/
theorem must_of_open {t u : Val} (ho : Open t u) (hi : Invocation E w u) : ∃ k, Must E w t k := by
  induction ho with
  | refl t hd =>
    obtain ⟨k, hk⟩ := hi.invokesAs
    exact ⟨k, t, .refl t hd, hk⟩
  | @step t u s hd hu ho ih =>
    by_cases h : Invocation E w t
    · obtain ⟨k, hk⟩ := h.invokesAs
      exact ⟨k, t, .refl t hd, hk⟩
    · obtain ⟨k, v, hv, hk⟩ := ih hi
      exact ⟨k, v, .inside hd h hu hv, hk⟩

/-! ### The visitor -/

section
variable {vis : Val → C Unit}

/-- What is needed of the recursive calls. -/
def VisOk (E : Env υ) (w : World υ) (vis : Val → C Unit) : Prop :=
  ∀ v, Simple v → Shaped v → Does (vis v) (Has E w v) (Must E w v)

theorem mem_childNodes {c l fs} {f : F} {v : Val} (h : (f, v) ∈ fs) (hv : v.isAST = true) :
    v ∈ childNodes (.node c l fs) := by
  cases v with
  | node => exact List.mem_flatMap.mpr ⟨_, h, by simp⟩
  | _ => cases hv

theorem mem_childNodes_list {c l fs} {f : F} {xs : List Val} (h : (f, .list xs) ∈ fs) {x : Val} (hx : x ∈ xs)
    (hv : x.isAST = true) : x ∈ childNodes (.node c l fs) :=
  List.mem_flatMap.mpr ⟨_, h, List.mem_filter.mpr ⟨hx, hv⟩⟩

theorem generic_does (hv : VisOk E w vis) {t : Val} (hd : isDone t = false) (hs : Shaped t) :
    Does (generic vis t) (Has E w t) (fun k => ∃ u ∈ childNodes t, Must E w u k) := by
  cases t with
  | const c => exact Does.throw
  | list xs => exact Does.throw
  | node c l fs =>
    have h : ∀ p ∈ fs, Does (genericField vis p) (Has E w (.node c l fs))
        (fun k => ∃ u ∈ childNodes (.node c l [p]), Must E w u k) := by
      rintro ⟨f, v⟩ hp
      cases v with
      | const => exact Does.pure (by simp [childNodes])
      | node c' l' fs' =>
        have hu := mem_childNodes (c := c) (l := l) hp (v := .node c' l' fs') rfl
        refine (hv _ .node (hs.child hd hu)).mono (fun k h => h.child hd hu) fun k h => ?_
        obtain ⟨u, hu', h⟩ := h
        simp [childNodes] at hu'; subst hu'; exact h
      | list xs =>
        refine (Does.forAll (N := fun x k => x.isAST = true ∧ Must E w x k) (P := Has E w (.node c l fs))
          fun x hx => ?_).mono (fun _ => id) fun k h => ?_
        · unfold genericItem
          split
          · rename_i hi
            have hu := mem_childNodes_list (c := c) (l := l) hp hx hi
            exact (hv _ (.of_isAST hi) (hs.child hd hu)).mono (fun k h => h.child hd hu) fun k h => h.2
          · rename_i hi; exact Does.pure fun k h => absurd h.1 hi
        · obtain ⟨u, hu', h⟩ := h
          simp [childNodes] at hu'; exact ⟨u, hu'.1, hu'.2, h⟩
    refine (Does.forAll h).mono (fun _ => id) fun k h => ?_
    obtain ⟨u, hu, h⟩ := h
    simp only [childNodes, List.mem_flatMap] at hu
    obtain ⟨p, hp, hu⟩ := hu
    exact ⟨p, hp, u, by simp only [childNodes, List.mem_flatMap]; exact ⟨p, by simp, hu⟩, h⟩

/-- A node that is no invocation. -/
theorem plain_does (hv : VisOk E w vis) {t : Val} (hd : isDone t = false) (hs : Shaped t) (hn : ¬ Invocation E w t) :
    Does (generic vis t) (Has E w t) (Must E w t) :=
  (generic_does hv hd hs).mono (fun _ => id) fun _ h => h.plain hn

theorem nodesAt_eq {t : Val} {f : F} (h : nodesAt t f = true) : ∃ xs, t.get? f = some (.list xs) ∧ ∀ x ∈ xs, x.isAST = true := by
  unfold nodesAt at h
  split at h
  · rename_i xs e; exact ⟨xs, e, by simpa using h⟩
  · cases h

/-- The arguments of a macro are nodes inside of the expression that names it. -/
theorem _root_.Mcpyrate.Expander.Candidate.args {c : Val} {k : String} {as : List Val} (h : Candidate c k as) (hs : Shaped c) :
    ∀ a ∈ as, a.isAST = true ∧ ∀ u, Open a u → Open c u := by
  cases h with
  | plain => intro a ha; cases ha
  | bracket hk hv hvk hi ha hat =>
    intro a h
    simp at h; subst h
    have hd := isK_isDone hk
    have := hs.self hd
    obtain ⟨l, fs, rfl⟩ := isK_eq hk
    simp only [partsOk, ha] at this
    exact ⟨this, fun u hu => .step hd (get?_child ha this) hu⟩
  | brackets hk hv hvk hi ha hat he =>
    have hd := isK_isDone hk
    have hc := get?_child ha (isK_isAST hat)
    have hd' := isK_isDone hat
    have := (hs.child hd hc).self hd'
    obtain ⟨l, fs, rfl⟩ := isK_eq hat
    simp only [partsOk] at this
    obtain ⟨xs, e, hx⟩ := nodesAt_eq this
    rw [he] at e; cases e
    exact fun a h => ⟨hx a h, fun u hu => .step hd hc (.step hd' (get?_list_child he h (hx a h)) hu)⟩
  | parens hk hv hvk hi hkws hne he =>
    have hd := isK_isDone hk
    have := hs.self hd
    obtain ⟨l, fs, rfl⟩ := isK_eq hk
    simp only [partsOk] at this
    obtain ⟨xs, e, hx⟩ := nodesAt_eq this
    rw [he] at e; cases e
    exact fun a h => ⟨hx a h, fun u hu => .step hd (get?_list_child he h (hx a h)) hu⟩

theorem _root_.Mcpyrate.Expander.Candidate.isDone {c : Val} {k : String} {as : List Val} (h : Candidate c k as) : isDone c = false := by
  cases h with
  | plain hk => exact isK_isDone hk
  | bracket hk => exact isK_isDone hk
  | brackets hk => exact isK_isDone hk
  | parens hk => exact isK_isDone hk

theorem _root_.Mcpyrate.Expander.Candidate.isAST {c : Val} {k : String} {as : List Val} (h : Candidate c k as) : c.isAST = true := by
  cases h with
  | plain hk => exact isK_isAST hk
  | bracket hk => exact isK_isAST hk
  | brackets hk => exact isK_isAST hk
  | parens hk => exact isK_isAST hk

/-- A macro found at `t`, named by the expression `c` in it. -/
theorem found_does (hv : VisOk E w vis) {t c : Val} {k : String} {as : List Val} {synt : Syn} (hc : Candidate c k as)
    (hs : Shaped c) (ho : ∀ u, Open c u → Open t u) (ht : Has E w t (k, synt)) :
    Does (found vis synt (k, as)) (Has E w t) (fun k' => k' = (k, synt) ∨ ∃ a ∈ as, Must E w a k') := by
  have ha := hc.args hs
  refine Does.bind (.note ht) ?_
  refine (hv (.list as) (fun xs e x hx => ?_) (Shaped.list fun x hx _ => ?_)).mono (fun k h => ?_) fun k h => ?_
  · cases e; exact (ha x hx).1
  · exact fun u hu => hs u ((ha x hx).2 u hu)
  · obtain ⟨x, hx, -, u, hu, hi⟩ := h.list
    exact ⟨u, ho u ((ha x hx).2 u hu), hi⟩
  · obtain ⟨a, haa, h⟩ := h
    exact h.list haa (ha a haa).1

theorem names_none {c : Val} (h : destructure true c = .ok none) : ¬ Names E w c := by
  rintro ⟨k, as, id, hc, -⟩
  by_cases hb : BadCall c
  · rw [(destructure_validate hc).1 hb] at h; cases h
  · rw [(destructure_validate hc).2 hb] at h; cases h

theorem subscript_plain {t c : Val} (hk : t.isK .Subscript = true) (hc : t.get? .value = some c) (hn : ¬ Names E w c) :
    ¬ Invocation E w t := by
  rintro (⟨h1, h2, h3⟩ | ⟨h1, _⟩ | ⟨h1 | h1, _⟩ | ⟨h1, _⟩)
  · rw [hc] at h2; cases h2; exact hn h3
  all_goals exact absurd (isK_inj hk h1) (by decide)

theorem visitSubscript_does (hv : VisOk E w vis) {t : Val} (hk : t.isK .Subscript = true) (hs : Shaped t) :
    Does (visitSubscript E w vis t) (Has E w t) (Must E w t) := by
  have hd := isK_isDone hk
  unfold visitSubscript
  refine Does.ofExcept fun c hc => Does.ofExcept fun d hdd => ?_
  rw [attr_ok] at hc
  cases d with
  | none => exact plain_does hv hd hs (subscript_plain hk hc (names_none hdd))
  | some p =>
    obtain ⟨k, as⟩ := p
    have hcand := destructure_sound hdd
    dsimp only
    split
    · rename_i hm
      obtain ⟨k', as', id, e, hacc⟩ := (ismacrocall_iff (by decide)).mp hm
      cases e
      have hch := get?_child hc hcand.isAST
      refine (Does.bind (N' := fun k => ∃ v, t.get? .slice = some v ∧ Must E w v k)
        (found_does hv hcand (hs.child hd hch) (fun u hu => .step hd hch hu)
          ⟨t, .refl t hd, .expr hk hc hcand hacc⟩) (Does.ofExcept fun v hvv => ?_)).mono (fun _ h => h) fun k' h => ?_
      · rw [attr_ok] at hvv
        have hi : v.isAST = true := by
          have := hs.self hd
          obtain ⟨l, fs, rfl⟩ := isK_eq hk
          simpa only [partsOk, hvv] using this
        have hu := get?_child hvv hi
        refine (hv v (.of_isAST hi) (hs.child hd hu)).mono (fun k h => h.child hd hu) fun k h => ?_
        obtain ⟨v', e, h⟩ := h
        rw [hvv] at e; cases e; exact h
      · rcases h.inv (.expr hk hc ⟨_, _, _, hcand, hacc⟩) with h | ⟨u, hp, h⟩
        · cases h with
          | expr h1 h2 h3 h4 =>
            rw [hc] at h2; cases h2
            obtain ⟨rfl, -⟩ := hcand.unique h3
            exact .inl (.inl rfl)
          | block h1 => exact absurd (isK_inj hk h1) (by decide)
          | decorator h1 => rcases h1 with h1 | h1 <;> exact absurd (isK_inj hk h1) (by decide)
          | name h1 => exact absurd (isK_inj hk h1) (by decide)
        · cases hp with
          | arg hh hc' ha' hm' =>
            cases hh with
            | expr h1 h2 =>
              rw [hc] at h2; cases h2
              obtain ⟨rfl, rfl⟩ := hcand.unique hc'
              exact .inl (.inr ⟨u, hm', h⟩)
            | block h1 => exact absurd (isK_inj hk h1) (by decide)
            | decorator h1 => rcases h1 with h1 | h1 <;> exact absurd (isK_inj hk h1) (by decide)
          | tree _ h2 => exact .inr ⟨u, h2, h⟩
          | item h1 => exact absurd (isK_inj hk h1) (by decide)
          | body h1 => exact absurd (isK_inj hk h1) (by decide)
          | decorator h1 => rcases h1 with h1 | h1 <;> exact absurd (isK_inj hk h1) (by decide)
          | field h1 => rcases h1 with h1 | h1 <;> exact absurd (isK_inj hk h1) (by decide)
          | fields h1 => rcases h1 with h1 | h1 <;> exact absurd (isK_inj hk h1) (by decide)
    · rename_i hm
      refine plain_does hv hd hs (subscript_plain hk hc ?_)
      rintro ⟨k', as', id, hc', hacc⟩
      obtain ⟨rfl, rfl⟩ := hcand.unique hc'
      exact hm ((ismacrocall_iff (by decide)).mpr ⟨_, _, _, rfl, hacc⟩)

theorem ctx_noMust {t : Val} (h : isCtxNode t = true) (k : Key) : ¬ Must E w t k := by
  unfold isCtxNode at h
  split at h
  case h_4 => cases h
  all_goals
    intro h
    obtain ⟨u, hu, -⟩ := h.plain (by rintro (⟨h1, _⟩ | ⟨h1, _⟩ | ⟨h1 | h1, _⟩ | ⟨h1, _⟩) <;> cases h1)
    cases hu

theorem visitName_does {t : Val} (hk : t.isK .Name = true) (hs : Shaped t) :
    Does (visitName E w t) (Has E w t) (Must E w t) := by
  have hd := isK_isDone hk
  unfold visitName
  refine Does.ofExcept fun i hi => ?_
  rw [attr_ok] at hi
  have no : (∀ k id, i = .str k → k ≠ "" → isbound w k = some id → (E.macros id).isName = true → False) →
      ∀ k, ¬ Must E w t k := by
    intro hn k hm
    obtain ⟨u, hu, h⟩ := hm.plain (by
      rintro (⟨h1, _⟩ | ⟨h1, _⟩ | ⟨h1 | h1, _⟩ | ⟨h1, h2, h3, h4, h5⟩)
      case name => rw [hi] at h2; cases h2; exact hn _ _ rfl h3 h4 h5
      all_goals exact absurd (isK_inj hk h1) (by decide))
    have := hs.self hd
    obtain ⟨l, fs, rfl⟩ := isK_eq hk
    simp only [partsOk, List.all_eq_true] at this
    exact ctx_noMust (this u hu) k h
  cases ha : asName i with
  | none => exact Does.pure (no fun k id e => by rw [asName_some.mpr e] at ha; cases ha)
  | some k =>
    rw [asName_some] at ha; subst ha
    dsimp only
    split
    · rename_i hm
      obtain ⟨hne, id, hb, hn⟩ := ismacrocall_name.mp hm
      refine (Does.note ⟨t, .refl t hd, .name hk hi hne hb hn⟩).mono (fun _ h => h) fun k' h => ?_
      rcases h.inv (.name hk hi hne hb hn) with h | ⟨u, hp, h⟩
      · cases h with
        | name h1 h2 => rw [hi] at h2; cases h2; rfl
        | expr h1 => exact absurd (isK_inj hk h1) (by decide)
        | block h1 => exact absurd (isK_inj hk h1) (by decide)
        | decorator h1 => rcases h1 with h1 | h1 <;> exact absurd (isK_inj hk h1) (by decide)
      · cases hp with
        | arg hh =>
          cases hh with
          | expr h1 => exact absurd (isK_inj hk h1) (by decide)
          | block h1 => exact absurd (isK_inj hk h1) (by decide)
          | decorator h1 => rcases h1 with h1 | h1 <;> exact absurd (isK_inj hk h1) (by decide)
        | tree h1 => exact absurd (isK_inj hk h1) (by decide)
        | item h1 => exact absurd (isK_inj hk h1) (by decide)
        | body h1 => exact absurd (isK_inj hk h1) (by decide)
        | decorator h1 => rcases h1 with h1 | h1 <;> exact absurd (isK_inj hk h1) (by decide)
        | field h1 => rcases h1 with h1 | h1 <;> exact absurd (isK_inj hk h1) (by decide)
        | fields h1 => rcases h1 with h1 | h1 <;> exact absurd (isK_inj hk h1) (by decide)
    · rename_i hm
      refine Does.pure (no fun k' id e hne hb hn => hm ?_)
      cases e
      exact ismacrocall_name.mpr ⟨hne, id, hb, hn⟩

/-- The items that name macros, and the others. -/
theorem macrosOf_mem {synt : Syn} (hs : synt ≠ .name) {items : List Val} {ds : List (Val × Bool)}
    (h : detect E w synt items = .ok ds) {x : Val} (hx : x ∈ macrosOf ds) :
    x ∈ items ∧ ∃ c, candidateOf synt x = .ok c ∧ Names E w c := by
  obtain ⟨h1, h2⟩ := detect_sound hs h
  simp only [macrosOf, List.mem_map, List.mem_filter] at hx
  obtain ⟨q, ⟨hq, hb⟩, rfl⟩ := hx
  obtain ⟨c, hc, hn⟩ := h2 q hq
  exact ⟨h1 ▸ List.mem_map_of_mem hq, c, hc, hn.mp hb⟩

theorem othersOf_mem {synt : Syn} (hs : synt ≠ .name) {items : List Val} {ds : List (Val × Bool)}
    (h : detect E w synt items = .ok ds) {x : Val} (hx : x ∈ othersOf ds) : x ∈ items := by
  obtain ⟨h1, -⟩ := detect_sound hs h
  simp only [othersOf, List.mem_map, List.mem_filter] at hx
  obtain ⟨q, ⟨hq, -⟩, rfl⟩ := hx
  exact h1 ▸ List.mem_map_of_mem hq

theorem macrosOf_nil {synt : Syn} (hs : synt ≠ .name) {items : List Val} {ds : List (Val × Bool)}
    (h : detect E w synt items = .ok ds) (he : (macrosOf ds).isEmpty = true) {x c : Val} (hx : x ∈ items)
    (hc : candidateOf synt x = .ok c) : ¬ Names E w c := by
  obtain ⟨h1, h2⟩ := detect_sound hs h
  rw [← h1, List.mem_map] at hx
  obtain ⟨q, hq, rfl⟩ := hx
  obtain ⟨c', hc', hn⟩ := h2 q hq
  rw [hc] at hc'; cases hc'
  intro h
  have : q.1 ∈ macrosOf ds := List.mem_map_of_mem (List.mem_filter.mpr ⟨hq, hn.mpr h⟩)
  rw [List.isEmpty_iff.mp he] at this; cases this

theorem destructureCall_ok {c : Val} {k : String} {as : List Val} (h : destructureCall c = .ok (k, as)) : Candidate c k as := by
  unfold destructureCall at h
  simp only [ok_bind] at h
  obtain ⟨d, hd, h⟩ := h
  cases d with
  | none => cases h
  | some p => cases h; exact destructure_sound hd

theorem mem_macrosOf {synt : Syn} (hs : synt ≠ .name) {items : List Val} {ds : List (Val × Bool)}
    (h : detect E w synt items = .ok ds) {x c : Val} (hx : x ∈ items) (hc : candidateOf synt x = .ok c) :
    (Names E w c → x ∈ macrosOf ds) ∧ (¬ Names E w c → x ∈ othersOf ds) := by
  obtain ⟨h1, h2⟩ := detect_sound hs h
  rw [← h1, List.mem_map] at hx
  obtain ⟨q, hq, rfl⟩ := hx
  obtain ⟨c', hc', hn⟩ := h2 q hq
  rw [hc] at hc'; cases hc'
  refine ⟨fun h => List.mem_map_of_mem (List.mem_filter.mpr ⟨hq, hn.mpr h⟩),
    fun h => List.mem_map_of_mem (List.mem_filter.mpr ⟨hq, ?_⟩)⟩
  simpa using fun hb => h (hn.mp hb)

/-- What the loop over the macros has to find. -/
def ItemMust (E : Env υ) (w : World υ) (synt : Syn) (x : Val) (k : Key) : Prop :=
  ∃ c n as, candidateOf synt x = .ok c ∧ Candidate c n as ∧ (k = (n, synt) ∨ ∃ a ∈ as, Must E w a k)

theorem visitMacro_does (hv : VisOk E w vis) {synt : Syn} {t x c : Val} (hc : candidateOf synt x = .ok c)
    (hs : Shaped c) (ho : ∀ u, Open c u → Open t u) (ht : ∀ k as, Candidate c k as → Has E w t (k, synt)) :
    Does (visitMacro vis synt x) (Has E w t) (ItemMust E w synt x) := by
  refine Does.ofExcept fun c' hc' => Does.ofExcept fun p hpp => ?_
  rw [hc] at hc'; cases hc'
  obtain ⟨k, as⟩ := p
  have hcand := destructureCall_ok hpp
  refine (found_does hv hcand hs ho (ht _ _ hcand)).mono (fun _ => id) fun k' h => ?_
  obtain ⟨c', n, as', h1, h2, h3⟩ := h
  rw [hc] at h1; cases h1
  obtain ⟨rfl, rfl⟩ := hcand.unique h2
  exact h3

theorem visitWith_does (hv : VisOk E w vis) {t : Val} (hk : t.isK .With = true) (hs : Shaped t) :
    Does (visitWith E w vis t) (Has E w t) (Must E w t) := by
  have hd := isK_isDone hk
  unfold visitWith
  refine Does.ofExcept fun items hi => Does.ofExcept fun ds hds => ?_
  simp only [ok_bind, attr_ok, asList_ok] at hi
  obtain ⟨_, hi, rfl⟩ := hi
  have hp : (∀ x ∈ items, x.isK .withitem = true) ∧ nodesAt t .body = true := by
    have := hs.self hd
    obtain ⟨l, fs, rfl⟩ := isK_eq hk
    simpa only [partsOk, hi, Bool.and_eq_true, List.all_eq_true] using this
  have hcand : ∀ {x c : Val}, x.get? .context_expr = some c → candidateOf .block x = .ok c :=
    fun h => by simp [candidateOf, attr_eq h]
  split
  · rename_i he
    refine plain_does hv hd hs ?_
    rintro (⟨h1, _⟩ | ⟨h1, h2, h3, h4, h5⟩ | ⟨h1 | h1, _⟩ | ⟨h1, _⟩)
    case block =>
      rw [hi] at h2; cases h2
      exact macrosOf_nil (by decide) hds he h3 (hcand h4) h5
    all_goals exact absurd (isK_inj hk h1) (by decide)
  · rename_i he
    refine Does.mono (Does.bind (Does.forAll (N := ItemMust E w .block) fun x hx => ?_) (Does.bind
      (Does.forAll (N := Must E w) fun x hx => ?_)
      (N' := fun k => ∃ xs, t.get? .body = some (.list xs) ∧ ∃ x ∈ xs, Must E w x k) ?_)) (fun _ => id) fun k h => ?_
    · obtain ⟨hxi, c, hc, hn⟩ := macrosOf_mem (by decide) hds hx
      have hc' := hc
      simp only [candidateOf, if_true, attr_ok] at hc
      have hx1 := get?_list_child hi hxi (isK_isAST (hp.1 x hxi))
      have hdx := isK_isDone (hp.1 x hxi)
      obtain ⟨k', as', id, hcand', hacc⟩ := hn
      have hx2 := get?_child hc hcand'.isAST
      refine visitMacro_does hv hc' ((hs.child hd hx1).child hdx hx2) (fun u hu => .step hd hx1 (.step hdx hx2 hu))
        fun k as h => ?_
      obtain ⟨rfl, rfl⟩ := hcand'.unique h
      exact ⟨t, .refl t hd, .block hk hi hxi hc h hacc⟩
    · have hxi := othersOf_mem (by decide) hds hx
      have ha := isK_isAST (hp.1 x hxi)
      have hx1 := get?_list_child hi hxi ha
      exact (hv x (.of_isAST ha) (hs.child hd hx1)).mono (fun k h => h.child hd hx1) fun _ => id
    · refine Does.ofExcept fun b hb => ?_
      rw [attr_ok] at hb
      obtain ⟨xs, e, hx⟩ := nodesAt_eq hp.2
      rw [hb] at e; cases e
      have hx1 := fun x h => get?_list_child hb h (hx x h)
      refine (hv (.list xs) (fun ys e y hy => ?_) (Shaped.list fun x hx _ => hs.child hd (hx1 x hx))).mono (fun k h => ?_)
        fun k h => ?_
      · cases e; exact hx y hy
      · obtain ⟨x, hx, -, h⟩ := h.list
        exact h.child hd (hx1 x hx)
      · obtain ⟨ys, e, x, hx', h⟩ := h
        rw [hb] at e; cases e
        exact h.list hx' (hx x hx')
    · have hinv : Invocation E w t := by
        cases hm : macrosOf ds with
        | nil => rw [hm] at he; simp at he
        | cons x xs =>
          obtain ⟨hxi, c, hc, hn⟩ := macrosOf_mem (by decide) hds (x := x) (by rw [hm]; simp)
          simp only [candidateOf, if_true, attr_ok] at hc
          exact .block hk hi hxi hc hn
      rcases h.inv hinv with h | ⟨u, hpp, h⟩
      · cases h with
        | block h1 h2 h3 h4 h5 h6 =>
          rw [hi] at h2; cases h2
          exact .inl ⟨_, (mem_macrosOf (by decide) hds h3 (hcand h4)).1 ⟨_, _, _, h5, h6⟩, _, _, _, hcand h4, h5, .inl rfl⟩
        | expr h1 => exact absurd (isK_inj hk h1) (by decide)
        | name h1 => exact absurd (isK_inj hk h1) (by decide)
        | decorator h1 => rcases h1 with h1 | h1 <;> exact absurd (isK_inj hk h1) (by decide)
      · cases hpp with
        | arg hh hc' ha' hm' =>
          cases hh with
          | block h1 h2 h3 h4 =>
            rw [hi] at h2; cases h2
            exact .inl ⟨_, (mem_macrosOf (by decide) hds h3 (hcand h4)).1 ⟨_, _, _, hc', ha'⟩, _, _, _, hcand h4, hc',
              .inr ⟨u, hm', h⟩⟩
          | expr h1 => exact absurd (isK_inj hk h1) (by decide)
          | decorator h1 => rcases h1 with h1 | h1 <;> exact absurd (isK_inj hk h1) (by decide)
        | item h1 h2 h3 h4 h5 =>
          rw [hi] at h2; cases h2
          exact .inr (.inl ⟨_, (mem_macrosOf (by decide) hds h3 (hcand h4)).2 h5, h⟩)
        | body h1 h2 h3 => exact .inr (.inr ⟨_, h2, _, h3, h⟩)
        | tree h1 => exact absurd (isK_inj hk h1) (by decide)
        | decorator h1 => rcases h1 with h1 | h1 <;> exact absurd (isK_inj hk h1) (by decide)
        | field h1 => rcases h1 with h1 | h1 <;> exact absurd (isK_inj hk h1) (by decide)
        | fields h1 => rcases h1 with h1 | h1 <;> exact absurd (isK_inj hk h1) (by decide)

theorem lookup_mem {fs : Fields} {f : F} {v : Val} (h : fs.lookup f = some v) : (f, v) ∈ fs := by
  induction fs with
  | nil => cases h
  | cons p fs ih =>
    obtain ⟨g, x⟩ := p
    rw [List.lookup_cons] at h
    split at h
    · rename_i he; cases h; rw [eq_of_beq he]; simp
    · exact List.mem_cons_of_mem _ (ih h)

theorem otherFields_mem {t : Val} {f : F} {v : Val} (h1 : f ≠ .decorator_list) (h2 : f ≠ .name) (h : t.get? f = some v) :
    v ∈ otherFields t := by
  cases t with
  | node c l fs =>
    simp only [otherFields, List.mem_map, List.mem_filter, decide_eq_true_eq]
    exact ⟨(f, v), ⟨lookup_mem h, h1, h2⟩, rfl⟩
  | _ => cases h

theorem visitDecorated_does (hv : VisOk E w vis) {t : Val} (hk : t.isK .FunctionDef = true ∨ t.isK .ClassDef = true)
    (hs : Shaped t) : Does (visitDecorated E w vis t) (Has E w t) (Must E w t) := by
  have hd : isDone t = false := hk.elim isK_isDone isK_isDone
  have hno : ∀ {k}, t.isK k = true → k ≠ .FunctionDef → k ≠ .ClassDef → False := by
    intro k h h1 h2
    rcases hk with hk | hk
    · exact h1 (isK_inj h hk)
    · exact h2 (isK_inj h hk)
  unfold visitDecorated
  refine Does.ofExcept fun items hi => Does.ofExcept fun ds hds => ?_
  simp only [ok_bind, attr_ok, asList_ok] at hi
  obtain ⟨_, hi, rfl⟩ := hi
  have hp : (∀ x ∈ items, x.isAST = true) ∧
      ∀ c l fs, t = .node c l fs → ∀ p ∈ fs, p.1 = .name ∨ p.1 = .type_comment ∧ p.2.isList = false ∨ isPart p.2 = true := by
    have := hs.self hd
    rcases hk with hk | hk <;> obtain ⟨l, fs, rfl⟩ := isK_eq hk <;>
      simp only [partsOk, Bool.and_eq_true, nodesAt, hi, List.all_eq_true, Bool.or_eq_true, beq_iff_eq] at this <;>
      exact ⟨this.1, fun c l fs e p hp => by cases e; simpa [or_assoc] using this.2 p hp⟩
  split
  · rename_i he
    refine plain_does hv hd hs ?_
    rintro (⟨h1, _⟩ | ⟨h1, _⟩ | ⟨h1, h2, h3, h4⟩ | ⟨h1, _⟩)
    case decorator =>
      rw [hi] at h2; cases h2
      exact macrosOf_nil (by decide) hds he h3 rfl h4
    all_goals exact hno h1 (by decide) (by decide)
  · rename_i he
    refine Does.mono (Does.bind (Does.forAll (N := ItemMust E w .decorator) fun x hx => ?_) (Does.bind
      (Does.forAll (N := Must E w) fun x hx => ?_) (Does.forAll (N := Must E w) fun v hvv => ?_)))
      (fun _ => id) fun k h => ?_
    · obtain ⟨hxi, c, hc, hn⟩ := macrosOf_mem (by decide) hds hx
      cases hc
      obtain ⟨k', as', id, hcand', hacc⟩ := hn
      have hx1 := get?_list_child hi hxi hcand'.isAST
      refine visitMacro_does hv (c := x) rfl (hs.child hd hx1) (fun u hu => .step hd hx1 hu) fun k as h => ?_
      obtain ⟨rfl, rfl⟩ := hcand'.unique h
      exact ⟨t, .refl t hd, .decorator hk hi hxi h hacc⟩
    · have hxi := othersOf_mem (by decide) hds hx
      have ha := hp.1 x hxi
      have hx1 := get?_list_child hi hxi ha
      exact (hv x (.of_isAST ha) (hs.child hd hx1)).mono (fun k h => h.child hd hx1) fun _ => id
    · cases t with
      | const => cases hvv
      | list => cases hvv
      | node c l fs =>
        simp only [otherFields, List.mem_map, List.mem_filter, decide_eq_true_eq] at hvv
        obtain ⟨⟨f, v⟩, ⟨hf, -, hne⟩, rfl⟩ := hvv
        have hpart : Simple v ∧ Shaped v ∧ ∀ k, Has E w v k → Has E w (.node c l fs) k := by
          cases v with
          | const a =>
            refine ⟨fun _ e => (by cases e), fun u hu => ?_, fun k h => ?_⟩
            · cases hu with
              | refl _ => rfl
              | step _ hu _ => cases hu
            · obtain ⟨u, hu, hi⟩ := h
              cases hu with
              | refl _ => exact absurd hi.invocation not_invocation_const
              | step _ hu _ => cases hu
          | node c' l' fs' =>
            have := mem_childNodes (c := c) (l := l) hf (v := .node c' l' fs') rfl
            exact ⟨.node, hs.child hd this, fun k h => h.child hd this⟩
          | list xs =>
            have hx : ∀ x ∈ xs, x.isAST = true := by
              rcases hp.2 c l fs rfl _ hf with h | h | h
              · exact absurd h hne
              · cases h.2
              · simpa only [isPart, List.all_eq_true] using h
            have hx1 := fun x h => mem_childNodes_list (c := c) (l := l) hf h (hx x h)
            refine ⟨fun ys e y hy => ?_, Shaped.list fun x hx _ => hs.child hd (hx1 x hx), fun k h => ?_⟩
            · cases e; exact hx y hy
            · obtain ⟨x, hx, -, h⟩ := h.list
              exact h.child hd (hx1 x hx)
        exact (hv v hpart.1 hpart.2.1).mono hpart.2.2 fun _ => id
    · have hinv : Invocation E w t := by
        cases hm : macrosOf ds with
        | nil => rw [hm] at he; simp at he
        | cons x xs =>
          obtain ⟨hxi, c, hc, hn⟩ := macrosOf_mem (by decide) hds (x := x) (by rw [hm]; simp)
          cases hc
          exact .decorator hk hi hxi hn
      rcases h.inv hinv with h | ⟨u, hpp, h⟩
      · cases h with
        | decorator h1 h2 h3 h4 h5 =>
          rw [hi] at h2; cases h2
          exact .inl ⟨_, (mem_macrosOf (by decide) hds h3 rfl).1 ⟨_, _, _, h4, h5⟩, _, _, _, rfl, h4, .inl rfl⟩
        | expr h1 => exact (hno h1 (by decide) (by decide)).elim
        | name h1 => exact (hno h1 (by decide) (by decide)).elim
        | block h1 => exact (hno h1 (by decide) (by decide)).elim
      · cases hpp with
        | arg hh hc' ha' hm' =>
          cases hh with
          | decorator h1 h2 h3 =>
            rw [hi] at h2; cases h2
            exact .inl ⟨_, (mem_macrosOf (by decide) hds h3 rfl).1 ⟨_, _, _, hc', ha'⟩, _, _, _, rfl, hc', .inr ⟨u, hm', h⟩⟩
          | expr h1 => exact (hno h1 (by decide) (by decide)).elim
          | block h1 => exact (hno h1 (by decide) (by decide)).elim
        | decorator h1 h2 h3 h4 =>
          rw [hi] at h2; cases h2
          exact .inr (.inl ⟨_, (mem_macrosOf (by decide) hds h3 rfl).2 h4, h⟩)
        | field h1 h2 h3 h4 h5 => exact .inr (.inr ⟨_, otherFields_mem h2 h3 h4, h⟩)
        | fields h1 h2 h3 h4 h5 =>
          rename_i f xs
          refine .inr (.inr ⟨_, otherFields_mem h2 h3 h4, h.list h5 ?_⟩)
          cases t with
          | node c l fs =>
            rcases hp.2 c l fs rfl _ (lookup_mem h4) with h | h | h
            · exact absurd h h3
            · cases h.2
            · simp only [isPart, List.all_eq_true] at h; exact h u h5
          | _ => cases h4
        | tree h1 => exact (hno h1 (by decide) (by decide)).elim
        | item h1 => exact (hno h1 (by decide) (by decide)).elim
        | body h1 => exact (hno h1 (by decide) (by decide)).elim

theorem noBindings_no (h : noBindings w = true) {t : Val} : ¬ Invocation E w t := by
  have hb : ∀ k id, isbound w k ≠ some id := fun k id hk => by rw [bound_noBindings hk] at h; cases h
  rintro (⟨-, -, _, _, _, -, -, hn, -⟩ | ⟨-, -, -, -, _, _, _, -, -, hn, -⟩ | ⟨-, -, -, _, _, _, -, -, hn, -⟩ | ⟨-, -, -, hn, -⟩) <;>
    exact hb _ _ hn

theorem done_no {t : Val} (h : isDone t = true) (k : Key) : ¬ Must E w t k := by
  rintro ⟨u, hu, hi⟩
  have hni : ¬ Invocation E w t := by
    have : ∀ k, t.isK k ≠ true := fun k hk => by rw [isK_isDone hk] at h; cases h
    rintro (⟨h1, _⟩ | ⟨h1, _⟩ | ⟨h1 | h1, _⟩ | ⟨h1, _⟩) <;> exact this _ h1
  cases hu with
  | refl _ h1 => rw [h] at h1; cases h1
  | inside h1 _ _ _ => rw [h] at h1; cases h1
  | part h1 _ _ => exact hni h1

theorem visitNode_does (hv : VisOk E w vis) {t : Val} (hd : isDone t = false) (hs : Shaped t) :
    Does (visitNode E w vis t) (Has E w t) (Must E w t) := by
  unfold visitNode
  split
  · exact visitSubscript_does hv rfl hs
  · exact visitWith_does hv rfl hs
  · exact visitDecorated_does hv (.inr rfl) hs
  · exact visitDecorated_does hv (.inl rfl) hs
  · exact visitName_does rfl hs
  · rename_i h1 h2 h3 h4 h5
    refine plain_does hv hd hs ?_
    have hk : ∀ k, k = .Subscript ∨ k = .With ∨ k = .ClassDef ∨ k = .FunctionDef ∨ k = .Name → t.isK k ≠ true := by
      intro k hk h
      obtain ⟨l, fs, rfl⟩ := isK_eq h
      rcases hk with rfl | rfl | rfl | rfl | rfl
      · exact h1 _ _ rfl
      · exact h2 _ _ rfl
      · exact h3 _ _ rfl
      · exact h4 _ _ rfl
      · exact h5 _ _ rfl
    rintro (⟨h, _⟩ | ⟨h, _⟩ | ⟨h | h, _⟩ | ⟨h, _⟩) <;> exact hk _ (by simp) h

theorem visitBody_does (hv : VisOk E w vis) : VisOk E w (visitBody E w vis) := by
  intro t hsimple hs
  unfold visitBody
  split
  · rename_i h
    rw [Bool.or_eq_true] at h
    exact Does.pure (h.elim (fun h k hm => by
      obtain ⟨u, -, hi⟩ := hm; exact noBindings_no h hi.invocation) done_no)
  · rename_i h
    rw [Bool.not_eq_true, Bool.or_eq_false_iff] at h
    split
    · refine Does.pure fun k hm => ?_
      obtain ⟨u, hu, -⟩ := hm.plain not_invocation_const
      cases hu
    · rename_i xs
      have ha := hsimple xs rfl
      have hc : ∀ x ∈ xs, x ∈ childNodes (.list xs) := fun x hx => List.mem_filter.mpr ⟨hx, ha x hx⟩
      refine (Does.forAll (N := Must E w) (P := Has E w (.list xs)) fun x hx => ?_).mono (fun _ => id) fun k h => ?_
      · exact (hv x (.of_isAST (ha x hx)) (hs.child rfl (hc x hx))).mono (fun k h => h.child rfl (hc x hx)) fun _ => id
      · obtain ⟨u, hu, h⟩ := h.plain not_invocation_list
        exact ⟨u, (List.mem_filter.mp hu).1, h⟩
    · exact visitNode_does hv h.2 hs

end

theorem visit_does (n : Nat) : VisOk E w (visit E w n) := by
  induction n with
  | zero => exact fun _ _ _ _ => post_diverge
  | succ n ih => exact visitBody_does ih

theorem Collects.out {t : Val} {r : Except Exc Unit} {l : List Key} (h : Collects E w t r l) (hs : Shaped t) (hp : Simple t) :
    l.Nodup ∧ (∀ k ∈ l, Has E w t k) ∧ (r = .ok () → ∀ k, Must E w t k → k ∈ l) := by
  obtain ⟨n, h⟩ := h
  have o := visit_does n t hp hs [] _ _ h
  exact ⟨o.nodup (by simp), fun k hk => (o.sound k hk).resolve_left (by simp), o.complete⟩

end Mcpyrate.Collector
