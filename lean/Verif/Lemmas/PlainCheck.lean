import Verif.Spec.Plain
import Verif.Spec.PyParser
/-
A check for `Plain`, for the examples.
-/
namespace Mcpyrate.PyText
open Py

def isAsB : Val → Bool
  | .node (.py .MatchAs) _ [(.pattern, q), (.name, _)] => !q.isNone
  | _ => false

def oddB (k : K) (fs : Fields) : Bool :=
  match k with
  | .Dict => fs.any fun p => p.1 == .keys && (Val.elts p.2).any Val.isNone
  | .Subscript => fs.any fun p => p.1 == .slice && match p.2 with
    | .node (.py .Tuple) _ [(.elts, .list []), _] => true
    | _ => false
  | .With | .AsyncWith => fs.any fun p => p.1 == .items && (inParens (Val.elts p.2)).isSome
  | .MatchOr => fs.any fun p => p.1 == .patterns && (Val.elts p.2).any fun p => p.isK .MatchOr || isAsB p
  | .MatchAs => fs.any fun p => p.1 == .pattern && isAsB p.2
  | .MatchMapping => fs.any fun p => p.1 == .keys && (Val.elts p.2).any fun k => k.isK .UnaryOp || k.isK .BinOp
  | .MatchValue => fs.any fun p => p.1 == .value && match p.2 with
    | .node (.py .BinOp) _ ((.left, a) :: _) => a.isK .UnaryOp
    | _ => false
  | _ => false

theorem isAsB_of {p : Val} (h : IsAs p) : isAsB p = true := by
  obtain ⟨l, q, n, rfl, hq⟩ := h
  show (!q.isNone) = true
  cases h : q.isNone with
  | false => rfl
  | true =>
    unfold Val.isNone at h
    split at h
    · exact absurd rfl hq
    · cases h

theorem oddB_of {k : K} {fs : Fields} (h : Odd k fs) : oddB k fs = true := by
  have any : ∀ {f : F} {v : Val} {q : Val → Bool}, (f, v) ∈ fs → q v = true → (fs.any fun p => p.1 == f && q p.2) = true :=
    fun m h => List.any_eq_true.2 ⟨_, m, by simp [h]⟩
  unfold Odd at h
  split at h
  · obtain ⟨ks, m, hk⟩ := h
    exact any (q := fun v => (Val.elts v).any Val.isNone) m (List.any_eq_true.2 ⟨_, hk, rfl⟩)
  · obtain ⟨l, c, m⟩ := h
    exact List.any_eq_true.2 ⟨_, m, rfl⟩
  · obtain ⟨is, m, hi⟩ := h
    exact any (q := fun v => (inParens (Val.elts v)).isSome) m (Option.isSome_iff_ne_none.2 hi)
  · obtain ⟨is, m, hi⟩ := h
    exact any (q := fun v => (inParens (Val.elts v)).isSome) m (Option.isSome_iff_ne_none.2 hi)
  · obtain ⟨ps, p, m, hp, h⟩ := h
    refine any (q := fun v => (Val.elts v).any fun p => p.isK .MatchOr || isAsB p) m (List.any_eq_true.2 ⟨_, hp, ?_⟩)
    rcases h with h | h
    · simp [h]
    · simp [isAsB_of h]
  · obtain ⟨p, m, h⟩ := h
    exact any (q := isAsB) m (isAsB_of h)
  · obtain ⟨ks, k, m, hk, h⟩ := h
    refine any (q := fun v => (Val.elts v).any fun k => k.isK .UnaryOp || k.isK .BinOp) m (List.any_eq_true.2 ⟨_, hk, ?_⟩)
    rcases h with h | h <;> simp [h]
  · obtain ⟨l, a, r, m, h⟩ := h
    refine List.any_eq_true.2 ⟨_, m, ?_⟩
    simpa using h
  · exact h.elim

mutual
def plainB : Val → Bool
  | .node (.py k) _ fs => !oddB k fs && plainFB fs
  | .node (.marker _) _ fs => plainFB fs
  | .list xs => plainLB xs
  | .const _ => true
def plainFB : Fields → Bool
  | [] => true
  | (f, v) :: r => (f == .ctx || plainB v) && plainFB r
def plainLB : List Val → Bool
  | [] => true
  | v :: r => plainB v && plainLB r
end

mutual
theorem plain_of : ∀ {v : Val}, plainB v = true → Plain v
  | .node (.py k) _ fs, h => by
    simp only [plainB, Bool.and_eq_true, Bool.not_eq_true'] at h
    refine ⟨fun ho => ?_, plainF_of h.2⟩
    rw [oddB_of ho] at h
    exact absurd h.1 (by decide)
  | .node (.marker _) _ fs, h => by
    simp only [plainB] at h
    exact plainF_of h
  | .list xs, h => by
    simp only [plainB] at h
    exact plainLB_of h
  | .const _, _ => trivial
theorem plainF_of : ∀ {fs : Fields}, plainFB fs = true → PlainF fs
  | [], _ => trivial
  | (f, v) :: r, h => by
    simp only [plainFB, Bool.and_eq_true, Bool.or_eq_true, beq_iff_eq] at h
    exact ⟨h.1.imp id plain_of, plainF_of h.2⟩
theorem plainLB_of : ∀ {xs : List Val}, plainLB xs = true → PlainL xs
  | [], _ => trivial
  | v :: r, h => by
    simp only [plainLB, Bool.and_eq_true] at h
    exact ⟨plain_of h.1, plainLB_of h.2⟩
end

theorem plains_of {xs : List Val} (h : xs.all plainB = true) : ∀ s ∈ xs, Plain s := fun s m => plain_of (List.all_eq_true.1 h s m)

/-- The statements in a text; `[]` if it is not accepted. -/
def parsed (P : Reading) (n : Nat) (text : Str) : List Val :=
  match (tokens P text).bind (parse n .file) with
  | some (.list body, []) => body
  | _ => []

theorem isModule_of {P : Reading} {n : Nat} {text : Str} (h : (parsed P n text).isEmpty = false) : IsModule P text (parsed P n text) := by
  unfold parsed at h ⊢
  cases ht : tokens P text with
  | none => rw [ht] at h; exact nomatch h
  | some toks =>
    rw [ht] at h
    refine ⟨toks, n, ht, ?_⟩
    simp only [Option.bind_some] at h ⊢
    cases hp : parse n .file toks with
    | none => rw [hp] at h; exact nomatch h
    | some r =>
      rw [hp] at h
      obtain ⟨v, r⟩ := r
      cases v with
      | list body => cases r with
        | nil => rfl
        | cons => exact nomatch h
      | node => exact nomatch h
      | const => exact nomatch h

end Mcpyrate.PyText
