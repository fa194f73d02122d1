import Verif.Spec.Pycache
namespace Mcpyrate.Pycache

theorem lookup_some {es : Entries} {x : String} {n : Node} (h : es.lookup x = some n) : (x, n) ∈ es := by
  induction es with
  | nil => cases h
  | cons e es ih =>
    obtain ⟨y, m⟩ := e
    by_cases hxy : x = y
    · subst hxy; rw [List.lookup_cons_self] at h; cases h; simp
    · rw [List.lookup_cons, show (x == y) = false from by simpa using hxy] at h
      simp [ih h]

theorem lookup_none {es : Entries} {x : String} : es.lookup x = none ↔ ∀ n, (x, n) ∉ es := by
  induction es with
  | nil => simp
  | cons e es ih =>
    obtain ⟨y, m⟩ := e
    by_cases hxy : x = y
    · subst hxy; rw [List.lookup_cons_self]
      constructor
      · intro h; cases h
      · intro h; exact absurd (by simp) (h m)
    · rw [List.lookup_cons, show (x == y) = false from by simpa using hxy]
      dsimp only
      rw [ih]
      constructor
      · intro h n hn
        rcases List.mem_cons.1 hn with hn | hn
        · exact hxy (congrArg Prod.fst hn)
        · exact h n hn
      · intro h n hn; exact h n (by simp [hn])

theorem lookup_mem {es : Entries} (hd : (es.map Prod.fst).Nodup) {x : String} {n : Node} (h : (x, n) ∈ es) :
    es.lookup x = some n := by
  induction es with
  | nil => cases h
  | cons e es ih =>
    obtain ⟨y, m⟩ := e
    rw [List.map_cons, List.nodup_cons] at hd
    rcases List.mem_cons.1 h with h | h'
    · cases h; exact List.lookup_cons_self
    · have : x ≠ y := by
        rintro rfl
        exact hd.1 (List.mem_map.2 ⟨_, h', rfl⟩)
      rw [List.lookup_cons, show (x == y) = false from by simpa using this]
      exact ih hd.2 h'

theorem get_append (n : Node) (p q : Path) : n.get (p ++ q) = (n.get p).bind (·.get q) := by
  induction p generalizing n with
  | nil => cases n <;> cases q <;> rfl
  | cons x p ih =>
    cases n with
    | dir es =>
      rw [List.cons_append, Node.get, Node.get]
      cases es.lookup x with
      | none => rfl
      | some m => exact ih m
    | file _ => rfl
    | link _ => rfl

theorem resolveWith_real {root : Node} {rec : Path → Except OsErr Path} {p q : Path} {m : Node}
    (h : root.get (p ++ q) = some m) (hl : ∀ t, m ≠ .link t) : resolveWith root rec p q = .ok (p ++ q) := by
  induction q generalizing p with
  | nil => simp [resolveWith]
  | cons x q ih =>
    rw [resolveWith]
    have h' : root.get (p ++ [x] ++ q) = some m := by simpa using h
    rw [get_append] at h
    cases hp : root.get p with
    | none => rw [hp] at h; cases h
    | some n =>
      rw [hp] at h
      cases n with
      | dir es =>
        change Node.get (.dir es) (x :: q) = _ at h
        rw [Node.get] at h
        dsimp only
        cases hx : es.lookup x with
        | none => rw [hx] at h; cases h
        | some k =>
          rw [hx] at h
          cases k with
          | link t =>
            exfalso
            cases q with
            | nil => exact hl t (by simpa [Node.get] using h.symm)
            | cons y q => cases h
          | dir sub => dsimp only; rw [ih h']; simp
          | file c => dsimp only; rw [ih h']; simp
      | file _ => cases h
      | link _ => cases h

theorem resolve_real {root : Node} {p : Path} {m : Node} (h : root.get p = some m) (hl : ∀ t, m ≠ .link t) (n : Nat) :
    resolve root n p = .ok p := by
  cases n <;> exact resolveWith_real (p := []) h hl

/-- A path that runs through directories up to a missing entry. -/
theorem resolve_missing {root : Node} {p : Path} {es : Entries} (h : root.get p = some (.dir es)) {x : String}
    (hx : es.lookup x = none) (q : Path) (n : Nat) : resolve root n (p ++ x :: q) = .error .notFound := by
  have key : ∀ rec a p', a ++ p' = p → resolveWith root rec a (p' ++ x :: q) = .error .notFound := by
    intro rec a p'
    induction p' generalizing a with
    | nil =>
      intro ha
      rw [List.append_nil] at ha
      subst ha
      simp [resolveWith, h, hx]
    | cons y p' ih =>
      intro ha
      have hg := h
      rw [← ha, get_append] at hg
      rw [List.cons_append, resolveWith]
      cases hp : root.get a with
      | none => rw [hp] at hg; cases hg
      | some k =>
        rw [hp] at hg
        cases k with
        | dir es' =>
          change Node.get (.dir es') (y :: p') = _ at hg
          rw [Node.get] at hg
          dsimp only
          cases hy : es'.lookup y with
          | none => rw [hy] at hg
          | some k =>
            rw [hy] at hg
            have hi := ih (a ++ [y]) (by simpa using ha)
            cases k with
            | link t =>
              exfalso
              cases p' <;> cases hg
            | dir _ => exact hi
            | file _ => exact hi
        | file _ => cases hg
        | link _ => cases hg
  cases n <;> exact key _ [] p rfl

theorem resolved_real {root : Node} {p : Path} {m : Node} (h : root.get p = some m) (hl : ∀ t, m ≠ .link t) :
    resolved root p = .ok m := by
  simp [resolved, resolve_real h hl, h]

theorem scandir_real {root : Node} {p : Path} {es : Entries} (h : root.get p = some (.dir es)) :
    scandir root p = some es := by
  simp [scandir, resolved_real h (by simp)]

theorem get_child {root : Node} {p : Path} {es : Entries} (h : root.get p = some (.dir es)) {x : String} {n : Node}
    (hx : es.lookup x = some n) : root.get (p ++ [x]) = some n := by
  rw [get_append, h]
  change Node.get (.dir es) [x] = _
  simp [Node.get, hx]

theorem isDir_real {root : Node} {p : Path} {es : Entries} (h : root.get p = some (.dir es)) {x : String} {n : Node}
    (hx : es.lookup x = some n) (hl : ∀ t, n ≠ .link t) : isDir root (p ++ [x]) = realDir n := by
  rw [isDir, resolved_real (get_child h hx) hl]
  cases n <;> rfl

/-! `update`. -/

theorem get_update {root : Node} {p : Path} {es : Entries} (h : root.get p = some (.dir es)) (f : Entries → Entries) :
    (root.update p f).get p = some (.dir (f es)) := by
  induction p generalizing root with
  | nil =>
    simp only [Node.get, Option.some.injEq] at h
    subst h; rfl
  | cons x p ih =>
    cases root with
    | dir es' =>
      rw [Node.get] at h
      rw [Node.update, Node.get]
      have : ∀ es' : Entries, List.lookup x (es'.map fun e => if e.1 = x then (e.1, e.2.update p f) else e) =
          (es'.lookup x).map (·.update p f) := by
        intro es'
        induction es' with
        | nil => rfl
        | cons e es' ih =>
          obtain ⟨y, m⟩ := e
          by_cases hxy : y = x
          · subst hxy
            simp
          · have hb : (x == y) = false := by simpa using Ne.symm hxy
            simp only [List.map_cons, hxy, if_false, List.lookup_cons, hb]
            exact ih
      rw [this]
      cases hx : es'.lookup x with
      | none => rw [hx] at h; cases h
      | some m => rw [hx] at h; exact ih h
    | file _ => cases h
    | link _ => cases h

theorem update_update (root : Node) (p : Path) (f g : Entries → Entries) :
    (root.update p f).update p g = root.update p (g ∘ f) := by
  induction p generalizing root with
  | nil => cases root <;> rfl
  | cons x p ih =>
    cases root with
    | dir es =>
      simp only [Node.update, Node.dir.injEq, List.map_map]
      apply List.map_congr_left
      intro e _
      by_cases hx : e.1 = x
      · simp [hx, ih]
      · simp [hx]
    | file _ => rfl
    | link _ => rfl

/-- Entries with the one called `x` changed. -/
def change (x : String) (f : Entries → Entries) (es : Entries) : Entries :=
  es.map fun e => if e.1 = x then (e.1, e.2.update [] f) else e

theorem update_child (root : Node) (p : Path) (x : String) (f : Entries → Entries) :
    root.update (p ++ [x]) f = root.update p (change x f) := by
  induction p generalizing root with
  | nil => cases root <;> rfl
  | cons y p ih =>
    cases root with
    | dir es => simp only [List.cons_append, Node.update, ih]
    | file _ => rfl
    | link _ => rfl

theorem update_congr {root : Node} {p : Path} {es : Entries} (h : root.get p = some (.dir es))
    (hw : ∀ q es', root.get q = some (.dir es') → (es'.map Prod.fst).Nodup) {f g : Entries → Entries}
    (hfg : f es = g es) : root.update p f = root.update p g := by
  induction p generalizing root with
  | nil =>
    simp only [Node.get, Option.some.injEq] at h
    subst h
    simp [Node.update, hfg]
  | cons x p ih =>
    cases root with
    | dir es' =>
      rw [Node.get] at h
      simp only [Node.update, Node.dir.injEq]
      cases hx : es'.lookup x with
      | none => rw [hx] at h; cases h
      | some m =>
        rw [hx] at h
        apply List.map_congr_left
        rintro ⟨y, k⟩ he
        by_cases hy : y = x
        · subst hy
          have hd := hw [] es' rfl
          have := lookup_mem hd he
          rw [hx] at this
          cases this
          simp only [if_true, Prod.mk.injEq, true_and]
          refine ih h (fun q es'' hq => hw (y :: q) es'' ?_)
          rw [Node.get, hx]; exact hq
        · simp [hy]
    | file _ => cases h
    | link _ => cases h

/-! A file system as seen from the directory at `p`. -/

structure View (R : Entries → Node) (p : Path) : Prop where
  get : ∀ es, (R es).get p = some (.dir es)
  update : ∀ es f, (R es).update p f = R (f es)

theorem View.mk' {root : Node} {p : Path} {es : Entries} (h : root.get p = some (.dir es)) :
    View (fun es' => root.update p fun _ => es') p :=
  ⟨fun _ => get_update h _, fun _ _ => update_update _ _ _ _⟩

theorem update_id (root : Node) (p : Path) : root.update p id = root := by
  induction p generalizing root with
  | nil => cases root <;> rfl
  | cons x p ih =>
    cases root with
    | dir es =>
      simp only [Node.update, Node.dir.injEq, ih]
      exact (List.map_congr_left (fun e _ => by split <;> rfl)).trans (List.map_id es)
    | file _ => rfl
    | link _ => rfl

theorem update_self {root : Node} {p : Path} {es : Entries} (h : root.get p = some (.dir es))
    (hw : ∀ q es', root.get q = some (.dir es') → (es'.map Prod.fst).Nodup) :
    (root.update p fun _ => es) = root := by
  exact (update_congr h hw (f := fun _ => es) (g := id) rfl).trans (update_id root p)

theorem View.child {R : Entries → Node} {p : Path} (hv : View R p) {pre post : Entries} {x : String}
    (h1 : x ∉ pre.map Prod.fst) (h2 : x ∉ post.map Prod.fst) :
    View (fun s => R (pre ++ (x, .dir s) :: post)) (p ++ [x]) := by
  have hlook : ∀ n : Node, (pre ++ (x, n) :: post).lookup x = some n := by
    intro n
    induction pre with
    | nil => exact List.lookup_cons_self
    | cons e pre ih =>
      obtain ⟨y, m⟩ := e
      simp only [List.map_cons, List.mem_cons, not_or] at h1
      rw [List.cons_append, List.lookup_cons, show (x == y) = false from by simpa using h1.1]
      exact ih h1.2
  refine ⟨fun es => get_child (hv.get _) (hlook _), fun es f => ?_⟩
  rw [update_child, hv.update]
  have hid : ∀ l : Entries, x ∉ l.map Prod.fst → change x f l = l := by
    intro l hl
    refine (List.map_congr_left (fun e he => ?_)).trans (List.map_id l)
    rw [if_neg]
    · rfl
    · rintro rfl; exact hl (List.mem_map.2 ⟨e, he, rfl⟩)
  have : change x f (pre ++ (x, .dir es) :: post) = pre ++ (x, .dir (f es)) :: post := by
    rw [change, List.map_append, List.map_cons]
    change change x f pre ++ _ :: change x f post = _
    rw [hid _ h1, hid _ h2, if_pos rfl]
    rfl
  rw [this]

theorem lookup_mid {pre post : Entries} {x : String} {n : Node} (h1 : x ∉ pre.map Prod.fst) :
    (pre ++ (x, n) :: post).lookup x = some n := by
  induction pre with
  | nil => exact List.lookup_cons_self
  | cons e pre ih =>
    obtain ⟨y, m⟩ := e
    simp only [List.map_cons, List.mem_cons, not_or] at h1
    rw [List.cons_append, List.lookup_cons, show (x == y) = false from by simpa using h1.1]
    exact ih h1.2

theorem remove_id {l : Entries} {x : String} (h : x ∉ l.map Prod.fst) : remove x l = l := by
  rw [remove, List.filter_eq_self]
  intro e he
  simp only [bne_iff_ne]
  rintro rfl
  exact h (List.mem_map.2 ⟨e, he, rfl⟩)

theorem remove_mid {pre post : Entries} {x : String} {n : Node} (h1 : x ∉ pre.map Prod.fst)
    (h2 : x ∉ post.map Prod.fst) : remove x (pre ++ (x, n) :: post) = pre ++ post := by
  have : remove x (pre ++ (x, n) :: post) = remove x pre ++ remove x post := by
    simp [remove, List.filter_append]
  rw [this, remove_id h1, remove_id h2]

theorem forEach_append {α : Type} (f : α → Node → Except OsErr Unit × Node) (xs ys : List α) (root : Node) :
    forEach f (xs ++ ys) root = (match forEach f xs root with
      | (.error e, r) => (.error e, r)
      | (.ok (), r) => forEach f ys r) := by
  induction xs generalizing root with
  | nil => rfl
  | cons x xs ih =>
    simp only [List.cons_append, forEach]
    cases f x root with
    | mk r root' =>
      cases r with
      | error e => rfl
      | ok _ => exact ih root'

/-- The keys of two parts of a directory are different. -/
theorem nodup_mid {pre post : Entries} {x : String} {n : Node}
    (h : ((pre ++ (x, n) :: post).map Prod.fst).Nodup) : x ∉ pre.map Prod.fst ∧ x ∉ post.map Prod.fst := by
  rw [List.map_append, List.map_cons, List.nodup_append] at h
  obtain ⟨_, h2, h3⟩ := h
  exact ⟨fun hm => h3 x hm x (by simp) rfl, (List.nodup_cons.1 h2).1⟩

/-- A directory emptied. -/
def hollow : String × Node → String × Node
  | (x, .dir _) => (x, .dir [])
  | e => e

theorem hollow_fst (e : String × Node) : (hollow e).1 = e.1 := by
  obtain ⟨x, n⟩ := e
  cases n <;> rfl

theorem hollow_realDir (e : String × Node) : realDir (hollow e).2 = realDir e.2 := by
  obtain ⟨x, n⟩ := e
  cases n <;> rfl

theorem forEach_hollow {R : Entries → Node} (f : String → Node → Except OsErr Unit × Node)
    {pre post : Entries} (hn : ((pre ++ post).map Prod.fst).Nodup)
    (h : ∀ pre' x sub post', (x, Node.dir sub) ∈ post → x ∉ pre'.map Prod.fst → x ∉ post'.map Prod.fst →
      f x (R (pre' ++ (x, .dir sub) :: post')) = (.ok (), R (pre' ++ (x, .dir []) :: post'))) :
    forEach f ((post.filter fun e => realDir e.2).map Prod.fst) (R (pre ++ post)) =
      (.ok (), R (pre ++ post.map hollow)) := by
  induction post generalizing pre with
  | nil => rfl
  | cons e post ih =>
    obtain ⟨x, m⟩ := e
    obtain ⟨n1, n2⟩ := nodup_mid hn
    have hrest : ∀ m', hollow (x, m') = hollow (x, m) → forEach f ((post.filter fun e => realDir e.2).map Prod.fst)
        (R (pre ++ hollow (x, m) :: post)) = (.ok (), R (pre ++ hollow (x, m) :: post.map hollow)) := by
      intro _ _
      have := ih (pre := pre ++ [hollow (x, m)]) (by
        simp only [List.map_append, List.map_cons, hollow_fst, List.append_assoc,
          List.singleton_append] at hn ⊢
        exact hn) (fun pre' y sub post' hy => h pre' y sub post' (by simp [hy]))
      simpa using this
    cases m with
    | dir sub =>
      rw [List.filter_cons_of_pos (by rfl), List.map_cons, forEach, h pre x sub post (by simp) n1 n2]
      exact hrest _ rfl
    | file c =>
      rw [List.filter_cons_of_neg (by simp [realDir])]
      exact hrest _ rfl
    | link t =>
      rw [List.filter_cons_of_neg (by simp [realDir])]
      exact hrest _ rfl

theorem forEach_unlink {R : Entries → Node} {p : Path} (hv : View R p) {pre post : Entries}
    (hn : ((pre ++ post).map Prod.fst).Nodup) :
    forEach (fun x root => ignoring root (unlink root p x)) ((post.filter fun e => !realDir e.2).map Prod.fst)
      (R (pre ++ post)) = (.ok (), R (pre ++ post.filter fun e => realDir e.2)) := by
  induction post generalizing pre with
  | nil => rfl
  | cons e post ih =>
    obtain ⟨x, m⟩ := e
    obtain ⟨n1, n2⟩ := nodup_mid hn
    cases hm : realDir m with
    | true =>
      rw [List.filter_cons_of_neg (by simp [hm]), List.filter_cons_of_pos (by simp [hm])]
      have := ih (pre := pre ++ [(x, m)]) (by simpa using hn)
      simpa using this
    | false =>
      rw [List.filter_cons_of_pos (by simp [hm]), List.filter_cons_of_neg (by simp [hm]), List.map_cons, forEach]
      have hu : unlink (R (pre ++ (x, m) :: post)) p x = .ok (R (pre ++ post)) := by
        unfold unlink
        rw [resolve_real (hv.get _) (by simp)]
        dsimp only
        rw [hv.get]
        dsimp only
        rw [lookup_mid n1, hv.update, remove_mid n1 n2]
        cases m with
        | dir _ => cases hm
        | file _ => rfl
        | link _ => rfl
      rw [hu]
      refine ih ?_
      rw [List.map_append, List.map_cons] at hn
      rw [List.map_append]
      exact hn.sublist (List.Sublist.append_left (List.sublist_cons_self _ _) _)

theorem forEach_rmdir {R : Entries → Node} {p : Path} (hv : View R p) {post : Entries}
    (hn : (post.map Prod.fst).Nodup) (he : ∀ e ∈ post, e.2 = .dir []) :
    forEach (fun x root => ignoring root (rmdir root p x)) (post.map Prod.fst) (R post) = (.ok (), R []) := by
  induction post with
  | nil => rfl
  | cons e post ih =>
    obtain ⟨x, m⟩ := e
    obtain ⟨n1, n2⟩ := nodup_mid (pre := []) hn
    have hm : m = .dir [] := he (x, m) (by simp)
    subst hm
    rw [List.map_cons, forEach]
    have hu : rmdir (R ((x, .dir []) :: post)) p x = .ok (R post) := by
      unfold rmdir
      rw [resolve_real (hv.get _) (by simp)]
      dsimp only
      rw [hv.get]
      dsimp only
      rw [List.lookup_cons_self, hv.update]
      dsimp only
      have := remove_mid (pre := []) (post := post) (n := .dir []) n1 n2
      rw [List.nil_append, List.nil_append] at this
      rw [this]
    rw [hu]
    exact ih (List.nodup_cons.1 hn).2 (fun e h => he e (by simp [h]))

/-- No links below. -/
def Plain (es : Entries) : Prop := ∀ q es' x t, DirAt es q es' → (x, Node.link t) ∉ es'

theorem WF.sub {es sub : Entries} {x : String} (h : WF es) (hx : (x, .dir sub) ∈ es) : WF sub :=
  fun p es' hp => h (x :: p) es' (.step hx hp)

theorem Plain.sub {es sub : Entries} {x : String} (h : Plain es) (hx : (x, .dir sub) ∈ es) : Plain sub :=
  fun p es' y t hp => h (x :: p) es' y t (.step hx hp)

theorem filter_isDir {root : Node} {p : Path} {es l : Entries} (h : root.get p = some (.dir es))
    (hn : (es.map Prod.fst).Nodup) (hl : ∀ e ∈ l, e ∈ es) (hp : ∀ x t, (x, Node.link t) ∉ es) :
    (l.map Prod.fst).filter (fun x => isDir root (p ++ [x])) = (l.filter fun e => realDir e.2).map Prod.fst ∧
    (l.map Prod.fst).filter (fun x => !isDir root (p ++ [x])) = (l.filter fun e => !realDir e.2).map Prod.fst := by
  induction l with
  | nil => exact ⟨rfl, rfl⟩
  | cons e l ih =>
    obtain ⟨i1, i2⟩ := ih (fun e he => hl e (by simp [he]))
    obtain ⟨x, m⟩ := e
    have hm := hl (x, m) (by simp)
    have hd := isDir_real h (lookup_mem hn hm) (fun t ht => hp x t (by rw [← ht]; exact hm))
    simp only [List.map_cons, List.filter_cons, hd, i1, i2]
    cases realDir m <;> exact ⟨rfl, rfl⟩

theorem empty_ok (n : Nat) {R : Entries → Node} {p : Path} (hv : View R p) {es : Entries} (hd : Depth n es)
    (hw : WF es) (hp : Plain es) : empty n p (R es) = (.ok (), R []) := by
  induction n generalizing R p es with
  | zero => cases hd
  | succ n ih =>
    have hn := hw [] es .here
    rw [empty, scandir_real (hv.get es)]
    dsimp only
    obtain ⟨hdirs, hfiles⟩ := filter_isDir (l := es) (hv.get es) hn (fun _ h => h) (fun x t => hp [] es x t .here)
    rw [hdirs, hfiles]
    have h1 := forEach_hollow (R := R) (fun x root => empty n (p ++ [x]) root) (pre := []) (post := es) hn
      (fun pre' x sub post' hx n1 n2 => ih (hv.child n1 n2) (hd x sub hx) (hw.sub hx) (hp.sub hx))
    rw [List.nil_append, List.nil_append] at h1
    rw [h1]
    dsimp only
    have hfst : (es.map hollow).map Prod.fst = es.map Prod.fst := by
      rw [List.map_map]; exact List.map_congr_left (fun e _ => hollow_fst e)
    have hflt : ∀ g : Bool → Bool, ((es.map hollow).filter fun e => g (realDir e.2)).map Prod.fst =
        (es.filter fun e => g (realDir e.2)).map Prod.fst := by
      intro g
      rw [List.filter_map, List.map_map]
      have : ((fun e : String × Node => g (realDir e.2)) ∘ hollow) = fun e => g (realDir e.2) := by
        funext e; simp [hollow_realDir]
      rw [this]
      exact List.map_congr_left (fun e _ => hollow_fst e)
    have h2 := forEach_unlink hv (pre := []) (post := es.map hollow) (by rw [List.nil_append, hfst]; exact hn)
    rw [List.nil_append, List.nil_append, hflt not] at h2
    rw [h2]
    dsimp only
    have h3 := forEach_rmdir hv (post := (es.map hollow).filter fun e => realDir e.2) (by
        have : ((es.map hollow).map Prod.fst).Nodup := by rw [hfst]; exact hn
        exact this.sublist (List.Sublist.map _ List.filter_sublist)) (by
        intro e he
        obtain ⟨he, hr⟩ := List.mem_filter.1 he
        obtain ⟨e', _, rfl⟩ := List.mem_map.1 he
        obtain ⟨x, m⟩ := e'
        cases m with
        | dir _ => rfl
        | file _ => cases hr
        | link _ => cases hr)
    rw [show (es.map hollow |>.filter fun e => realDir e.2).map Prod.fst =
      (es.filter fun e => realDir e.2).map Prod.fst from hflt id] at h3
    exact h3

theorem delete_ok (n : Nat) {R : Entries → Node} {p : Path} (hv : View R p) {pre post sub : Entries} {x : String}
    (h1 : x ∉ pre.map Prod.fst) (h2 : x ∉ post.map Prod.fst) (hd : Depth n sub) (hw : WF sub) (hp : Plain sub) :
    delete n (p ++ [x]) (R (pre ++ (x, .dir sub) :: post)) = (.ok (), R (pre ++ post)) := by
  rw [delete, empty_ok n (hv.child h1 h2) hd hw hp]
  dsimp only
  rw [List.getLast?_concat, List.dropLast_concat]
  dsimp only
  have hu : rmdir (R (pre ++ (x, .dir []) :: post)) p x = .ok (R (pre ++ post)) := by
    unfold rmdir
    rw [resolve_real (hv.get _) (by simp)]
    dsimp only
    rw [hv.get]
    dsimp only
    rw [lookup_mid h1, hv.update, remove_mid h1 h2]
  rw [hu]
  rfl

theorem delete_missing (n : Nat) {root : Node} {p : Path} {es : Entries} (h : root.get p = some (.dir es)) {x : String}
    (hx : es.lookup x = none) (q : Path) : delete (n + 1) (p ++ x :: q) root = (.ok (), root) := by
  have hs : scandir root (p ++ x :: q) = none := by
    simp [scandir, resolved, resolve_missing h hx]
  rw [delete, empty, hs]
  dsimp only
  by_cases hq : q = []
  · subst hq
    rw [List.getLast?_concat, List.dropLast_concat]
    dsimp only
    have : rmdir root p x = .error .notFound := by
      unfold rmdir
      rw [resolve_real h (by simp)]
      simp [h, hx]
    rw [this]; rfl
  · obtain ⟨q', y, rfl⟩ : ∃ q' y, q = q' ++ [y] := ⟨q.dropLast, q.getLast hq, (List.dropLast_concat_getLast hq).symm⟩
    have he : p ++ x :: (q' ++ [y]) = (p ++ x :: q') ++ [y] := by simp
    rw [he, List.getLast?_concat, List.dropLast_concat]
    dsimp only
    have : rmdir root (p ++ x :: q') y = .error .notFound := by
      unfold rmdir
      rw [resolve_missing h hx]
    rw [this]; rfl

/-! The list of caches. -/

def subdir : Node → Entries
  | .dir es => es
  | _ => []

/-- The caches below, in the order of `os.walk`. -/
def caches : Nat → Path → Entries → List Path
  | 0, _, _ => []
  | n + 1, p, es =>
    (if es.any (fun e => e.1 == "__pycache__" && realDir e.2) then [p ++ ["__pycache__"]] else []) ++
      (es.filter fun e => realDir e.2).flatMap fun e => caches n (p ++ [e.1]) (subdir e.2)

theorem walk_ok (n : Nat) {root : Node} {p : Path} {es : Entries} (h : root.get p = some (.dir es))
    (hd : Depth n es) (hw : WF es) (hl : ∀ q es' t, DirAt es q es' → ("__pycache__", Node.link t) ∉ es') :
    walk root n p = .ok (caches n p es) := by
  induction n generalizing p es with
  | zero => cases hd
  | succ n ih =>
    have hn := hw [] es .here
    rw [walk, scandir_real h]
    dsimp only
    have hany : es.any (fun e => e.1 == "__pycache__" && isDir root (p ++ [e.1])) =
        es.any (fun e => e.1 == "__pycache__" && realDir e.2) := by
      rw [Bool.eq_iff_iff, List.any_eq_true, List.any_eq_true]
      have : ∀ e ∈ es, (e.1 == "__pycache__" && isDir root (p ++ [e.1])) = (e.1 == "__pycache__" && realDir e.2) := by
        rintro ⟨x, m⟩ he
        by_cases hx : x = "__pycache__"
        · subst hx
          dsimp only
          rw [isDir_real h (lookup_mem hn he)]
          rintro t rfl
          exact hl [] es t .here he
        · have : (x == "__pycache__") = false := by simpa using hx
          simp [this]
      constructor
      · rintro ⟨e, he, h⟩; exact ⟨e, he, by rw [← this e he]; exact h⟩
      · rintro ⟨e, he, h⟩; exact ⟨e, he, by rw [this e he]; exact h⟩
    have hcat : ∀ l : Entries, (∀ e ∈ l, e ∈ es ∧ realDir e.2 = true) →
        concat (l.map fun e => walk root n (p ++ [e.1])) =
          .ok (l.flatMap fun e => caches n (p ++ [e.1]) (subdir e.2)) := by
      intro l
      induction l with
      | nil => exact fun _ => rfl
      | cons e l ihl =>
        intro hl'
        obtain ⟨x, m⟩ := e
        obtain ⟨hm, hr⟩ := hl' (x, m) (by simp)
        cases m with
        | dir sub =>
          rw [List.map_cons, ih (get_child h (lookup_mem hn hm)) (hd x sub hm) (hw.sub hm)
            (fun q es' t hq => hl (x :: q) es' t (.step hm hq)), concat, ihl (fun e he => hl' e (by simp [he]))]
          rfl
        | file _ => cases hr
        | link _ => cases hr
    rw [hcat _ (fun e he => List.mem_filter.1 he), hany]
    rfl

theorem caches_mem (n : Nat) {p q : Path} {es : Entries} (hd : Depth n es) :
    q ∈ caches n p es ↔ ∃ r, q = p ++ r ∧ IsCache es r := by
  induction n generalizing p es with
  | zero => cases hd
  | succ n ih =>
    rw [caches, List.mem_append]
    have hown : q ∈ (if es.any (fun e => e.1 == "__pycache__" && realDir e.2) then [p ++ ["__pycache__"]] else []) ↔
        q = p ++ ["__pycache__"] ∧ ∃ sub, ("__pycache__", Node.dir sub) ∈ es := by
      have : (es.any (fun e => e.1 == "__pycache__" && realDir e.2) = true) ↔
          ∃ sub, ("__pycache__", Node.dir sub) ∈ es := by
        rw [List.any_eq_true]
        constructor
        · rintro ⟨⟨x, m⟩, he, h⟩
          simp only [Bool.and_eq_true, beq_iff_eq] at h
          obtain ⟨rfl, h⟩ := h
          cases m with
          | dir sub => exact ⟨sub, he⟩
          | file _ => cases h
          | link _ => cases h
        · rintro ⟨sub, h⟩; exact ⟨_, h, by simp [realDir]⟩
      rw [← this]
      split
      · rename_i h; simp [h]
      · rename_i h; simp [h]
    rw [hown, List.mem_flatMap]
    constructor
    · rintro (⟨rfl, sub, h⟩ | ⟨⟨x, m⟩, he, h⟩)
      · exact ⟨_, rfl, [], es, sub, rfl, .here, h⟩
      · obtain ⟨he, hr⟩ := List.mem_filter.1 he
        cases m with
        | dir sub =>
          obtain ⟨r, rfl, q', es', sub', rfl, h1, h2⟩ := (ih (hd x sub he)).1 h
          exact ⟨x :: (q' ++ ["__pycache__"]), by simp, x :: q', es', sub', rfl, .step he h1, h2⟩
        | file _ => cases hr
        | link _ => cases hr
    · rintro ⟨r, rfl, q', es', sub', rfl, h1, h2⟩
      cases h1 with
      | here => exact .inl ⟨rfl, sub', h2⟩
      | @step _ x sub q'' _ he h1 =>
        refine .inr ⟨(x, .dir sub), List.mem_filter.2 ⟨he, rfl⟩, (ih (hd x sub he)).2
          ⟨q'' ++ ["__pycache__"], by simp, q'', es', sub', rfl, h1, h2⟩⟩

theorem caches_nodup (n : Nat) {p : Path} {es : Entries} (hd : Depth n es) (hw : WF es) :
    (caches n p es).Nodup := by
  induction n generalizing p es with
  | zero => cases hd
  | succ n ih =>
    have hn := hw [] es .here
    -- paths in the part of `x` begin with `p ++ [x]` and are longer
    have hsub : ∀ e ∈ es, realDir e.2 = true → ∀ q ∈ caches n (p ++ [e.1]) (subdir e.2),
        ∃ y r, q = p ++ e.1 :: y :: r := by
      rintro ⟨x, m⟩ he hr q hq
      cases m with
      | dir sub =>
        obtain ⟨r, rfl, q', es', sub', rfl, _⟩ := (caches_mem n (hd x sub he)).1 hq
        cases q' with
        | nil => exact ⟨"__pycache__", [], by simp⟩
        | cons y q' => exact ⟨y, q' ++ ["__pycache__"], by simp⟩
      | file _ => cases hr
      | link _ => cases hr
    rw [caches, List.nodup_append]
    refine ⟨by split <;> simp, ?_, ?_⟩
    · have : ∀ l : Entries, (∀ e ∈ l, e ∈ es ∧ realDir e.2 = true) → (l.map Prod.fst).Nodup →
          (l.flatMap fun e => caches n (p ++ [e.1]) (subdir e.2)).Nodup := by
        intro l
        induction l with
        | nil => intros; simp
        | cons e l ihl =>
          intro hl hnl
          rw [List.map_cons, List.nodup_cons] at hnl
          rw [List.flatMap_cons, List.nodup_append]
          obtain ⟨he, hr⟩ := hl e (by simp)
          refine ⟨?_, ihl (fun e he => hl e (by simp [he])) hnl.2, ?_⟩
          · obtain ⟨x, m⟩ := e
            cases m with
            | dir sub => exact ih (hd x sub he) (hw.sub he)
            | file _ => cases hr
            | link _ => cases hr
          · rintro a ha b hb rfl
            obtain ⟨e', he', hb⟩ := List.mem_flatMap.1 hb
            obtain ⟨he1, hr1⟩ := hl e' (by simp [he'])
            obtain ⟨y, r, h1⟩ := hsub e he hr a ha
            obtain ⟨y', r', h2⟩ := hsub e' he1 hr1 a hb
            rw [h1] at h2
            have := List.append_cancel_left h2
            simp only [List.cons.injEq] at this
            exact hnl.1 (List.mem_map.2 ⟨e', he', this.1.symm⟩)
      exact this _ (fun e he => List.mem_filter.1 he) (hn.sublist (List.Sublist.map _ List.filter_sublist))
    · rintro a ha b hb rfl
      have ha : a = p ++ ["__pycache__"] := by
        split at ha
        · simpa using ha
        · simp at ha
      obtain ⟨e, he, hb⟩ := List.mem_flatMap.1 hb
      obtain ⟨he, hr⟩ := List.mem_filter.1 he
      obtain ⟨y, r, h⟩ := hsub e he hr a hb
      rw [ha] at h
      have := List.append_cancel_left h
      simp at this

/-! Deleting them. -/

theorem Depth.mono {n m : Nat} (h : n ≤ m) {es : Entries} (hd : Depth n es) : Depth m es := by
  induction n generalizing m es with
  | zero => cases hd
  | succ n ih =>
    obtain ⟨m, rfl⟩ : ∃ k, m = k + 1 := ⟨m - 1, by omega⟩
    exact fun x sub hx => ih (by omega) (hd x sub hx)

def keep (e : String × Node) : Bool := !(e.1 == "__pycache__" && realDir e.2)

theorem pruneAll_eq (es : Entries) : pruneAll es = (es.filter keep).map fun e => (e.1, prune e.2) := by
  induction es with
  | nil => rw [pruneAll]; rfl
  | cons e es ih =>
    obtain ⟨x, n⟩ := e
    rw [pruneAll]
    by_cases h : x = "__pycache__" ∧ realDir n = true
    · rw [if_pos h, ih, List.filter_cons_of_neg (by simp [keep, h])]
    · rw [if_neg h, ih, List.filter_cons_of_pos (by
        simp only [keep, Bool.not_eq_true', Bool.and_eq_false_iff, beq_eq_false_iff_ne]
        by_cases hx : x = "__pycache__"
        · exact .inr (by simpa [hx] using h)
        · exact .inl hx)]
      rfl

theorem NoLinks.sub {es sub : Entries} {x : String} (h : NoLinks es) (hx : (x, .dir sub) ∈ es) : NoLinks sub := by
  refine ⟨fun p es' t hp => h.1 (x :: p) es' t (.step hx hp), fun p sub' hp hc => h.2 (x :: p) sub' (.step hx hp) ?_⟩
  obtain ⟨q, es', s, rfl, h1, h2⟩ := hc
  exact ⟨x :: q, es', s, rfl, .step hx h1, h2⟩

theorem deleteAll_ok (N n : Nat) (hnN : n ≤ N) {R : Entries → Node} {p : Path} (hv : View R p) {es : Entries}
    (hd : Depth n es) (hw : WF es) (hl : NoLinks es) :
    forEach (delete N) (caches n p es) (R es) = (.ok (), R (pruneAll es)) := by
  induction n generalizing R p es with
  | zero => cases hd
  | succ n ih =>
    have hn := hw [] es .here
    obtain ⟨N, rfl⟩ : ∃ k, N = k + 1 := ⟨N - 1, by omega⟩
    rw [caches, forEach_append]
    have hown : forEach (delete (N + 1))
        (if es.any (fun e => e.1 == "__pycache__" && realDir e.2) then [p ++ ["__pycache__"]] else []) (R es) =
        (.ok (), R (es.filter keep)) := by
      split
      · rename_i h
        obtain ⟨⟨x, m⟩, he, hx⟩ := List.any_eq_true.1 h
        simp only [Bool.and_eq_true, beq_iff_eq] at hx
        obtain ⟨rfl, hm⟩ := hx
        cases m with
        | dir sub =>
          obtain ⟨pre, post, rfl⟩ := List.append_of_mem he
          obtain ⟨n1, n2⟩ := nodup_mid hn
          have hplain : Plain sub := fun q es' y t hq =>
            hl.2 ["__pycache__"] sub (.step he .here) ⟨[], _, sub, rfl, .here, he⟩ q es' y t hq
          rw [forEach, delete_ok (N + 1) hv n1 n2 ((hd _ sub he).mono (by omega)) (hw.sub he) hplain]
          have hk : ∀ l : Entries, "__pycache__" ∉ l.map Prod.fst → l.filter keep = l := by
            intro l hl
            rw [List.filter_eq_self]
            rintro ⟨y, k⟩ hy
            have : y ≠ "__pycache__" := by rintro rfl; exact hl (List.mem_map.2 ⟨_, hy, rfl⟩)
            simp [keep, this]
          rw [List.filter_append, List.filter_cons_of_neg (by simp [keep, realDir]), hk _ n1, hk _ n2]
          rfl
        | file _ => cases hm
        | link _ => cases hm
      · rename_i h
        have : es.filter keep = es := by
          rw [List.filter_eq_self]
          intro e he
          cases hk : keep e with
          | true => rfl
          | false => exact absurd (List.any_eq_true.2 ⟨e, he, by simpa [keep] using hk⟩) h
        rw [this]; rfl
    rw [hown]
    dsimp only
    -- the subdirectories
    have hloop : ∀ (post pre : Entries), (∀ e ∈ post, e ∈ es) →
        ((pre ++ post.filter keep).map Prod.fst).Nodup →
        (∀ sub, ("__pycache__", Node.dir sub) ∈ es →
          "__pycache__" ∉ (pre ++ post.filter keep).map Prod.fst) →
        forEach (delete (N + 1)) ((post.filter fun e => realDir e.2).flatMap fun e => caches n (p ++ [e.1]) (subdir e.2))
          (R (pre ++ post.filter keep)) = (.ok (), R (pre ++ pruneAll post)) := by
      intro post
      induction post with
      | nil => intro pre _ _ _; rw [pruneAll]; rfl
      | cons e post ihp =>
        intro pre hm hnd hc
        obtain ⟨x, m⟩ := e
        have hme := hm (x, m) (by simp)
        cases m with
        | dir sub =>
          rw [List.filter_cons_of_pos (by rfl), List.flatMap_cons, forEach_append]
          by_cases hx : x = "__pycache__"
          · subst hx
            have hk : List.filter keep (("__pycache__", Node.dir sub) :: post) = post.filter keep :=
              List.filter_cons_of_neg (by simp [keep, realDir])
            rw [hk] at hnd hc ⊢
            have hnone : List.lookup "__pycache__" (pre ++ post.filter keep) = none := by
              rw [lookup_none]
              intro k hk
              exact hc sub hme (List.mem_map.2 ⟨_, hk, rfl⟩)
            have hnop : ∀ qs : List Path, (∀ q ∈ qs, ∃ r, q = p ++ "__pycache__" :: r) →
                forEach (delete (N + 1)) qs (R (pre ++ post.filter keep)) = (.ok (), R (pre ++ post.filter keep)) := by
              intro qs
              induction qs with
              | nil => exact fun _ => rfl
              | cons q qs ihq =>
                intro hq
                obtain ⟨r, rfl⟩ := hq q (by simp)
                rw [forEach, delete_missing N (hv.get _) hnone]
                exact ihq (fun q h => hq q (by simp [h]))
            rw [hnop _ (fun q hq => by
              obtain ⟨r, rfl, _⟩ := (caches_mem n (hd _ sub hme)).1 hq
              exact ⟨r, by simp⟩)]
            dsimp only
            rw [ihp pre (fun e he => hm e (by simp [he])) hnd hc, pruneAll, if_pos ⟨rfl, rfl⟩]
          · have hk : List.filter keep ((x, Node.dir sub) :: post) = (x, .dir sub) :: post.filter keep :=
              List.filter_cons_of_pos (by simp [keep, hx])
            rw [hk] at hnd hc ⊢
            obtain ⟨n1, n2⟩ := nodup_mid hnd
            have := ih (by omega) (hv.child n1 n2) (hd x sub hme) (hw.sub hme) (hl.sub hme)
            rw [show subdir (Node.dir sub) = sub from rfl, this]
            dsimp only
            have h2 := ihp (pre ++ [(x, .dir (pruneAll sub))]) (fun e he => hm e (by simp [he])) (by simpa using hnd)
              (fun s hs => by simpa using hc s hs)
            simp only [List.append_assoc, List.singleton_append] at h2
            rw [h2, pruneAll, if_neg (by simp [hx]), prune]
        | file c =>
          have hk : List.filter keep ((x, Node.file c) :: post) = (x, .file c) :: post.filter keep :=
            List.filter_cons_of_pos (by simp [keep, realDir])
          rw [List.filter_cons_of_neg (by simp [realDir])]
          rw [hk] at hnd hc ⊢
          have h2 := ihp (pre ++ [(x, .file c)]) (fun e he => hm e (by simp [he])) (by simpa using hnd)
            (fun s hs => by simpa using hc s hs)
          simp only [List.append_assoc, List.singleton_append] at h2
          rw [h2, pruneAll, if_neg (by simp [realDir]), prune]
          exact fun _ h => by cases h
        | link t =>
          have hk : List.filter keep ((x, Node.link t) :: post) = (x, .link t) :: post.filter keep :=
            List.filter_cons_of_pos (by simp [keep, realDir])
          rw [List.filter_cons_of_neg (by simp [realDir])]
          rw [hk] at hnd hc ⊢
          have h2 := ihp (pre ++ [(x, .link t)]) (fun e he => hm e (by simp [he])) (by simpa using hnd)
            (fun s hs => by simpa using hc s hs)
          simp only [List.append_assoc, List.singleton_append] at h2
          rw [h2, pruneAll, if_neg (by simp [realDir]), prune]
          exact fun _ h => by cases h
    have := hloop es [] (fun _ h => h)
      (by rw [List.nil_append]; exact hn.sublist (List.Sublist.map _ List.filter_sublist))
      (fun sub hs hmem => by
        obtain ⟨⟨y, k⟩, he, hy⟩ := List.mem_map.1 hmem
        dsimp only at hy
        subst hy
        rw [List.nil_append] at he
        obtain ⟨he, hk⟩ := List.mem_filter.1 he
        have h1 := lookup_mem hn hs
        rw [lookup_mem hn he] at h1
        cases h1
        simp [keep, realDir] at hk)
    exact this

/-! Trees that are too deep. -/

theorem concat_error {α ε : Type} {e : ε} : ∀ (xs : List (Except ε (List α))), (∀ e', .error e' ∈ xs → e' = e) →
    .error e ∈ xs → concat xs = .error e
  | [], _, h => nomatch h
  | .error e' :: _, hu, _ => by rw [concat, hu e' List.mem_cons_self]
  | .ok x :: xs, hu, h => by
    have h : Except.error e ∈ xs := by simpa using h
    rw [concat, concat_error xs (fun e' he => hu e' (List.mem_cons_of_mem _ he)) h]

theorem concat_only {α ε : Type} {e : ε} : ∀ (xs : List (Except ε (List α))), concat xs = .error e → .error e ∈ xs
  | [], h => nomatch h
  | .error e' :: _, h => by
    rw [concat] at h
    cases h
    exact List.mem_cons_self
  | .ok x :: xs, h => by
    rw [concat] at h
    cases hc : concat xs with
    | error e' =>
      rw [hc] at h
      cases h
      exact List.mem_cons_of_mem _ (concat_only xs hc)
    | ok ys => rw [hc] at h; cases h

theorem walk_only (n : Nat) {root : Node} {p : Path} {e : OsErr} (h : walk root n p = .error e) : e = .recursion := by
  induction n generalizing p with
  | zero => cases h; rfl
  | succ n ih =>
    rw [walk] at h
    split at h
    · cases h
    · split at h
      · rename_i hc
        cases h
        obtain ⟨x, -, hx⟩ := List.mem_map.1 (concat_only _ hc)
        exact ih hx
      · cases h

theorem walk_deep (n : Nat) {root : Node} {p : Path} {es : Entries} (h : root.get p = some (.dir es))
    (hd : ¬ Depth n es) (hw : WF es) : walk root n p = .error .recursion := by
  induction n generalizing p es with
  | zero => rfl
  | succ n ih =>
    have hn := hw [] es .here
    have hd : ∃ x sub, (x, Node.dir sub) ∈ es ∧ ¬ Depth n sub := by
      refine Classical.byContradiction fun hc => hd fun x sub hx => ?_
      exact Classical.byContradiction fun hk => hc ⟨x, sub, hx, hk⟩
    obtain ⟨x, sub, hx, hk⟩ := hd
    rw [walk, scandir_real h]
    dsimp only
    rw [concat_error (e := .recursion)]
    · intro e' he
      obtain ⟨y, -, hy⟩ := List.mem_map.1 he
      exact walk_only n hy
    · exact List.mem_map.2 ⟨(x, .dir sub), List.mem_filter.2 ⟨hx, rfl⟩,
        ih (get_child h (lookup_mem hn hx)) hk (hw.sub hx)⟩

end Mcpyrate.Pycache
