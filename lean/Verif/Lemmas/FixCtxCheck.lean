import Verif.Lemmas.FixCtxShared
/-
Checking the conditions of C13 for a concrete graph.
-/
namespace Mcpyrate.FixCtx
open Py

variable {H : List Obj}

/-- All field values. -/
def holdsList (H : List Obj) : List (Nat × F × HV) :=
  (List.range H.length).flatMap fun (p : Nat) =>
    match H[p]? with
    | some (.node c fs) =>
      (fs.filter fun q => !(c.hasCtx && decide (q.1 = .ctx))).map fun q => (p, q.1, q.2)
    | _ => []

theorem Holds.mem {p : Nat} {f : F} {v : HV} (h : Holds H p f v) : (p, f, v) ∈ holdsList H := by
  obtain ⟨c, fs, h1, h2, h3⟩ := h
  refine List.mem_flatMap.2 ⟨p, List.mem_range.2 (List.getElem?_eq_some_iff.1 h1).1, ?_⟩
  rw [h1]
  refine List.mem_map.2 ⟨(f, v), List.mem_filter.2 ⟨h2, ?_⟩, rfl⟩
  cases hc : c.hasCtx with
  | false => rfl
  | true => simpa using fun e => h3 ⟨hc, e⟩

def childrenOf (H : List Obj) : HV → List Nat
  | .const _ => []
  | .ref a =>
    match H[a]? with
    | some (.node ..) => [a]
    | some (.list xs) => xs.filterMap fun | .ref b => some b | .const _ => none
    | none => []

/-- All edges. -/
def edgeList (H : List Obj) : List (Nat × F × Nat) :=
  (holdsList H).flatMap fun q => (childrenOf H q.2.2).map fun a => (q.1, q.2.1, a)

theorem Edge.mem {p : Nat} {f : F} {a : Nat} (h : Edge H p f a) : (p, f, a) ∈ edgeList H := by
  cases h with
  | field h hn =>
    obtain ⟨c, fs, hn⟩ := hn
    refine List.mem_flatMap.2 ⟨_, h.mem, List.mem_map.2 ⟨a, ?_, rfl⟩⟩
    simp only [childrenOf, hn]
    exact List.mem_singleton.2 rfl
  | item h hl hx =>
    refine List.mem_flatMap.2 ⟨_, h.mem, List.mem_map.2 ⟨a, ?_, rfl⟩⟩
    simp only [childrenOf, hl]
    exact List.mem_filterMap.2 ⟨_, hx, rfl⟩

def isNodeB (H : List Obj) (a : Nat) : Bool :=
  match H[a]? with
  | some (.node ..) => true
  | _ => false

def isListB (H : List Obj) (a : Nat) : Bool :=
  match H[a]? with
  | some (.list _) => true
  | _ => false

def clsOf (H : List Obj) (a : Nat) : Option Cls :=
  match H[a]? with
  | some (.node c _) => some c
  | _ => none

theorem isListB_of {l : Nat} {xs : List HV} (h : H[l]? = some (.list xs)) : isListB H l = true := by
  simp [isListB, h]

theorem clsOf_of {p : Nat} {c : Cls} {fs : List (F × HV)} (h : H[p]? = some (.node c fs)) :
    clsOf H p = some c := by
  simp [clsOf, h]

def graphB (H : List Obj) (rank : Nat → Nat) : Bool :=
  ((List.range H.length).all fun (p : Nat) => match H[p]? with
    | some (.node _ fs) => decide (fs.map (·.1)).Nodup
    | _ => true) &&
  ((holdsList H).all fun q => match q.2.2 with
    | .ref a => decide (a < H.length)
    | .const _ => true) &&
  ((edgeList H).all fun e => isNodeB H e.2.2 && decide (rank e.2.2 < rank e.1)) &&
  ((holdsList H).all fun q => (holdsList H).all fun q' => match q.2.2 with
    | .ref l => !isListB H l || decide (q'.2.2 ≠ .ref l) || decide (q'.1 = q.1 ∧ q'.2.1 = q.2.1)
    | .const _ => true)

theorem graph_of {rank : Nat → Nat} (h : graphB H rank = true) : Graph H rank := by
  simp only [graphB, Bool.and_eq_true] at h
  obtain ⟨⟨⟨h1, h2⟩, h3⟩, h4⟩ := h
  rw [List.all_eq_true] at h1 h2 h3 h4
  refine ⟨fun p c fs hp => ?_, fun p f a hh => ?_, fun p f l xs a hh hl hx => ?_,
    fun p f p' f' l xs hh hh' hl => ?_, fun p f a he => ?_⟩
  · have := h1 p (List.mem_range.2 (List.getElem?_eq_some_iff.1 hp).1)
    rw [hp] at this
    simpa using this
  · have := h2 _ hh.mem
    exact ⟨_, List.getElem?_eq_getElem (by simpa using this)⟩
  · have := h3 _ (Edge.item hh hl hx).mem
    rw [Bool.and_eq_true] at this
    have h5 := this.1
    unfold isNodeB at h5
    split at h5
    · rename_i c fs e; exact ⟨c, fs, e⟩
    · cases h5
  · have := h4 _ hh.mem
    rw [List.all_eq_true] at this
    have := this _ hh'.mem
    simpa [isListB_of hl] using this
  · have := h3 _ he.mem
    rw [Bool.and_eq_true] at this
    simpa using this.2

def registeredB (H : List Obj) (p : Nat) (f : F) : Bool :=
  match clsOf H p with
  | some c => (registered c).contains f
  | none => false

theorem registeredB_of {p : Nat} {f : F} (h : Registered H p f) : registeredB H p f = true := by
  obtain ⟨c, fs, h1, h2⟩ := h
  simp [registeredB, clsOf_of h1, h2]

def pairB : List HV → Bool
  | [] => true
  | .const _ :: xs => pairB xs
  | .ref a :: xs => !xs.contains (.ref a) && pairB xs

theorem pairB_of {xs : List HV} (h : pairB xs = true) :
    xs.Pairwise fun x y => ∀ a, x = .ref a → y ≠ .ref a := by
  induction xs with
  | nil => exact .nil
  | cons x xs ih =>
    cases x with
    | const c => exact .cons (fun y _ a e => by cases e) (ih h)
    | ref b =>
      rw [pairB, Bool.and_eq_true] at h
      refine .cons (fun y hy a e e' => ?_) (ih h.2)
      cases e
      subst e'
      simp [hy] at h

/-- `L` lists all positions. -/
def closedB (H : List Obj) (root : Nat) (L : List (K × Nat)) : Bool :=
  L.contains (.Load, root) &&
  L.all fun q => (edgeList H).all fun e => decide (e.1 ≠ q.2) ||
    match clsOf H e.1 with
    | some c => L.contains (childCtx c q.1 e.2.1, e.2.2)
    | none => true

theorem closed_of {root : Nat} {L : List (K × Nat)} (h : closedB H root L = true) {d : K} {o : Nat}
    (hp : Pos H root d o) : (d, o) ∈ L := by
  simp only [closedB, Bool.and_eq_true] at h
  obtain ⟨h1, h2⟩ := h
  rw [List.all_eq_true] at h2
  induction hp with
  | root => simpa using h1
  | child _ he hp ih =>
    have := h2 _ ih
    rw [List.all_eq_true] at this
    have := this _ he.mem
    simpa [clsOf_of hp] using this

def sharingB (cs : Bool) (H : List Obj) (root : Nat) (L : List (K × Nat)) : Bool :=
  closedB H root L &&
  ((edgeList H).all fun e => !registeredB H e.1 e.2.1 || (edgeList H).all fun e' =>
    decide (e'.2.2 ≠ e.2.2) || decide (e'.1 = e.1 ∧ e'.2.1 = e.2.1)) &&
  ((holdsList H).all fun q => !registeredB H q.1 q.2.1 || match q.2.2 with
    | .ref l => match H[l]? with
      | some (.list xs) => pairB xs
      | _ => true
    | .const _ => true) &&
  (L.all fun q => L.all fun q' => decide (q'.2 ≠ q.2) || decide (q'.1 = q.1) ||
    (cs && (match clsOf H q.2 with | some c => c.hasCtx | none => false) &&
      (holdsList H).all fun h => decide (h.1 ≠ q.2) || match h.2.2 with
        | .ref l => !isListB H l
        | .const _ => true))

theorem sharing_of {cs : Bool} {root : Nat} (L : List (K × Nat)) (h : sharingB cs H root L = true) :
    Sharing cs H root := by
  simp only [sharingB, Bool.and_eq_true] at h
  obtain ⟨⟨⟨h1, h2⟩, h3⟩, h4⟩ := h
  rw [List.all_eq_true] at h2 h3 h4
  refine ⟨fun p f a hr he p' f' he' => ?_, fun p f l xs hr hh hl => ?_, fun o d d' hp hp' => ?_⟩
  · have := h2 _ he.mem
    simp only [registeredB_of hr, Bool.not_true, Bool.false_or, List.all_eq_true] at this
    simpa using this _ he'.mem
  · have := h3 _ hh.mem
    simp only [registeredB_of hr, Bool.not_true, Bool.false_or, hl] at this
    exact pairB_of this
  · have := h4 _ (closed_of h1 hp)
    rw [List.all_eq_true] at this
    have := this _ (closed_of h1 hp')
    simp only [Bool.or_eq_true, Bool.and_eq_true, decide_eq_true_eq] at this
    rcases this with (h | h) | ⟨⟨h5, h6⟩, h7⟩
    · exact absurd rfl h
    · exact .inl h.symm
    · refine .inr ⟨h5, ?_, fun f l xs hh hl => ?_⟩
      · unfold clsOf at h6
        split at h6
        · rename_i c e
          split at e
          · rename_i c' fs e'
            cases e
            exact ⟨_, fs, e', h6⟩
          · cases e
        · cases h6
      · rw [List.all_eq_true] at h7
        have := h7 _ hh.mem
        simp [isListB_of hl] at this

end Mcpyrate.FixCtx
