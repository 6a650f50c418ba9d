import Verif.Reuse.Props

/-! # Trees with added children -/

namespace Verif.Reuse

variable {D P A E : Type}

mutual
/-- The tree with children added in front and at the end. -/
def image (pre post : Nat → List Tree) : Tree → Tree
  | .node h ks => .node h (pre h ++ (imageAll pre post ks ++ post h))
def imageAll (pre post : Nat → List Tree) : List Tree → List Tree
  | [] => []
  | t :: ts => image pre post t :: imageAll pre post ts
end

theorem subsAll_append (a b : List Tree) : subsAll (a ++ b) = subsAll a ++ subsAll b := by
  induction a with
  | nil => simp [subsAll]
  | cons t a ih => simp [subsAll, ih]

theorem mem_subs_self (t : Tree) : t ∈ subs t := by
  cases t; simp [subs]

theorem mem_subsAll {u : Tree} {ts : List Tree} : u ∈ subsAll ts ↔ ∃ t ∈ ts, u ∈ subs t := by
  induction ts with
  | nil => simp [subsAll]
  | cons t ts ih => simp [subsAll, ih]

mutual
theorem subs_trans {u : Tree} : ∀ {t : Tree} {v : Tree}, v ∈ subs u → u ∈ subs t → v ∈ subs t
  | .node h ks, v, hv, hu => by
    rw [subs, List.mem_cons] at hu
    rcases hu with rfl | hu
    · exact hv
    · rw [subs, List.mem_cons]
      exact .inr (subsAll_trans hv hu)
theorem subsAll_trans {u : Tree} : ∀ {ts : List Tree} {v : Tree}, v ∈ subs u → u ∈ subsAll ts → v ∈ subsAll ts
  | [], v, _, hu => by simp [subsAll] at hu
  | t :: ts, v, hv, hu => by
    rw [subsAll, List.mem_append] at hu ⊢
    exact hu.imp (subs_trans hv) (subsAll_trans hv)
end

theorem kid_mem {root : Tree} {h : Nat} {ks : List Tree} (hm : .node h ks ∈ subs root) {k : Tree} (hk : k ∈ ks) :
    k ∈ subs root := by
  refine subs_trans ?_ hm
  rw [subs, List.mem_cons, mem_subsAll]
  exact .inr ⟨k, hk, mem_subs_self k⟩

theorem image_handle (pre post : Nat → List Tree) (t : Tree) : (image pre post t).handle = t.handle := by
  cases t; simp [image, Tree.handle]

mutual
theorem mem_subs_image (pre post : Nat → List Tree) {u : Tree} : ∀ {t : Tree}, u ∈ subs (image pre post t) ↔
    (∃ v ∈ subs t, u = image pre post v) ∨ ∃ v ∈ subs t, u ∈ subsAll (pre v.handle) ∨ u ∈ subsAll (post v.handle)
  | .node h ks => by
    have ih := mem_subsAll_image pre post (u := u) (ts := ks)
    rw [image, subs, List.mem_cons, subsAll_append, subsAll_append, List.mem_append, List.mem_append, ih]
    simp only [subs, List.mem_cons, exists_eq_or_imp, image, Tree.handle]
    grind
theorem mem_subsAll_image (pre post : Nat → List Tree) {u : Tree} : ∀ {ts : List Tree},
    u ∈ subsAll (imageAll pre post ts) ↔
    (∃ v ∈ subsAll ts, u = image pre post v) ∨
      ∃ v ∈ subsAll ts, u ∈ subsAll (pre v.handle) ∨ u ∈ subsAll (post v.handle)
  | [] => by simp [imageAll, subsAll]
  | t :: ts => by
    have ih := mem_subs_image pre post (u := u) (t := t)
    have ih' := mem_subsAll_image pre post (u := u) (ts := ts)
    rw [imageAll, subsAll, List.mem_append, ih, ih', subsAll]
    simp only [List.mem_append]
    grind
end

/-- Handles are unique. -/
def Distinct (t : Tree) : Prop := ∀ u ∈ subs t, ∀ v ∈ subs t, u.handle = v.handle → u = v

theorem distinct_of_nodup {l : List Tree} (h : (l.map Tree.handle).Nodup) :
    ∀ u ∈ l, ∀ v ∈ l, u.handle = v.handle → u = v := by
  induction l with
  | nil => simp
  | cons t l ih =>
    rw [List.map_cons, List.nodup_cons] at h
    intro u hu v hv e
    rw [List.mem_cons] at hu hv
    rcases hu with rfl | hu <;> rcases hv with rfl | hv
    · rfl
    · exact absurd (List.mem_map.2 ⟨v, hv, e.symm⟩) h.1
    · exact absurd (List.mem_map.2 ⟨u, hu, e⟩) h.1
    · exact ih h.2 u hu v hv e

/-- Ids are unique. -/
def IdsUnique (s : State D P A) : Prop :=
  ∀ u ∈ subs s.root, ∀ v ∈ subs s.root, ∀ i, (s.heap u.handle).id = some i → (s.heap v.handle).id = some i →
    u.handle = v.handle

theorem target_of {s : State D P A} (hd : Distinct s.root) (hi : IdsUnique s) {t : Tree} {i : Text}
    (ht : t ∈ subs s.root) (h : (s.heap t.handle).id = some i) : target s i = some t := by
  unfold target
  cases hf : (subs s.root).find? fun t => decide ((s.heap t.handle).id = some i) with
  | none =>
    rw [List.find?_eq_none] at hf
    exact absurd h (by simpa using hf t ht)
  | some u =>
    have h1 := List.mem_of_find?_eq_some hf
    have h2 := List.find?_some hf
    rw [hd u h1 t ht (hi u h1 t ht i (by simpa using h2) h)]

theorem target_mem {s : State D P A} {t : Tree} {i : Text} (h : target s i = some t) :
    t ∈ subs s.root ∧ (s.heap t.handle).id = some i :=
  ⟨List.mem_of_find?_eq_some h, by simpa using List.find?_some h⟩

theorem target_none {s : State D P A} {i : Text} :
    target s i = none ↔ ∀ t ∈ subs s.root, (s.heap t.handle).id ≠ some i := by
  simp [target, List.find?_eq_none]

/-! ## Drawing -/

/-- `n` is a path with the data of `e`, and draws like `e` below `u`. -/
structure Stands (S : Sem P A E) (s : State D P A) (n : Tree) (e : El D P A) (outer : Ctx P E → Ctx P E) : Prop where
  kind : (s.heap n.handle).kind = .path
  data : (s.heap n.handle).d = e.d
  same : ∀ c, within S (s.heap n.handle) (outer c) = within S e c

/-- The fields that matter for drawing. -/
structure Kept (e e' : El D P A) : Prop where
  kind : e'.kind = e.kind
  d : e'.d = e.d
  fill : e'.fill = e.fill
  stroke : e'.stroke = e.stroke
  href : e'.href = e.href
  xlink : e'.xlink = e.xlink
  rest : e'.rest = e.rest

theorem Kept.within {e e' : El D P A} (k : Kept e e') (S : Sem P A E) (c : Ctx P E) :
    within S e' c = within S e c := by
  simp [Reuse.within, k.fill, k.stroke, k.rest, k.kind]

theorem Kept.points {e e' : El D P A} (k : Kept e e') : e'.points = e.points := by
  simp [El.points, k.href, k.xlink]

/-- What is enough for a document with added children and changed data to draw the same. -/
structure Carries (S : Sem P A E) (s s' : State D P A) (pre post : Nat → List Tree) : Prop where
  front : ∀ h, ∀ t ∈ pre h, (s'.heap t.handle).kind = .defs
  back : ∀ u ∈ subs s.root, post u.handle ≠ [] → (s.heap u.handle).kind = .defs
  node : ∀ u ∈ subs s.root, Kept (s.heap u.handle) (s'.heap u.handle) ∨
    ((s.heap u.handle).kind = .path ∧ (s'.heap u.handle).kind = .use ∧
      ∃ i n, (s'.heap u.handle).points = some i ∧ target s' i = some n ∧
        Stands S s' n (s.heap u.handle) (within S (s'.heap u.handle)))
  found : ∀ u ∈ subs s.root, (s.heap u.handle).kind = .use → ∀ i t, (s.heap u.handle).points = some i →
    target s i = some t → target s' i = some (image pre post t) ∨
      ((s.heap t.handle).kind = .path ∧ ∃ n, target s' i = some n ∧ Stands S s' n (s.heap t.handle) id)
  lost : ∀ u ∈ subs s.root, (s.heap u.handle).kind = .use → ∀ i, (s.heap u.handle).points = some i →
    target s i = none → target s' i = none

theorem Stands.draws {S : Sem P A E} {s : State D P A} {n : Tree} {e : El D P A} {outer : Ctx P E → Ctx P E}
    (h : Stands S s n e outer) (d : D) (hd : e.d = some d) (c : Ctx P E) :
    Draws S s n (outer c) [(d, within S e c)] := by
  cases n with
  | node x ks =>
    have h1 := h.kind
    have h2 := h.data
    rw [hd] at h2
    rw [← h.same c]
    exact .path d h1 h2

theorem Stands.draws_none {S : Sem P A E} {s : State D P A} {n : Tree} {e : El D P A} {outer : Ctx P E → Ctx P E}
    (h : Stands S s n e outer) (hd : e.d = none) (c : Ctx P E) : Draws S s n (outer c) [] := by
  cases n with
  | node x ks =>
    have h2 := h.data
    rw [hd] at h2
    exact .noPath h.kind h2

theorem drawsAll_pre {S : Sem P A E} {s : State D P A} {l : List Tree} (h : ∀ t ∈ l, (s.heap t.handle).kind = .defs)
    {ts : List Tree} {c : Ctx P E} {m : List (D × Ctx P E)} (hm : DrawsAll S s ts c m) : DrawsAll S s (l ++ ts) c m := by
  induction l with
  | nil => exact hm
  | cons t l ih =>
    have := ih fun t ht => h t (by simp [ht])
    have ht := h t (by simp)
    cases t with
    | node x ks =>
      exact DrawsAll.cons (l := []) (.defs ht) this

theorem carries_draws {S : Sem P A E} {s s' : State D P A} {pre post : Nat → List Tree} (k : Carries S s s' pre post)
    {t : Tree} {c : Ctx P E} {l : List (D × Ctx P E)} (h : Draws S s t c l) (ht : t ∈ subs s.root) :
    Draws S s' (image pre post t) c l := by
  revert ht
  refine Draws.rec (motive_1 := fun t c l _ => t ∈ subs s.root → Draws S s' (image pre post t) c l)
    (motive_2 := fun ts c l _ => (∀ t ∈ ts, t ∈ subs s.root) → DrawsAll S s' (imageAll pre post ts) c l)
    ?_ ?_ ?_ ?_ ?_ ?_ ?_ ?_ ?_ ?_ h
  · intro h ks c d hk hd ht
    rw [image]
    rcases k.node _ ht with kk | ⟨_, hu, i, n, hp, hn, hs⟩
    · simp only [Tree.handle] at kk
      rw [← kk.within S c]
      exact .path d (kk.kind.trans hk) (kk.d.trans hd)
    · exact .use i n hu hp hn (hs.draws d hd c)
  · intro h ks c hk hd ht
    rw [image]
    rcases k.node _ ht with kk | ⟨_, hu, i, n, hp, hn, hs⟩
    · exact .noPath (kk.kind.trans hk) (kk.d.trans hd)
    · exact .use i n hu hp hn (hs.draws_none hd c)
  · intro h ks c l i t hk hp hf hd ih ht
    rw [image]
    rcases k.node _ ht with kk | ⟨hpath, _⟩
    · simp only [Tree.handle] at kk
      rcases k.found _ ht hk i t hp hf with hf' | ⟨hpath, n, hn, hs⟩
      · refine .use i _ (kk.kind.trans hk) (kk.points.trans hp) hf' ?_
        rw [kk.within S c]
        exact ih (target_mem hf).1
      · refine .use i n (kk.kind.trans hk) (kk.points.trans hp) hn ?_
        rw [kk.within S c]
        cases t with
        | node x xs =>
          cases hd with
          | path d h1 h2 => exact hs.draws d h2 _
          | noPath h1 h2 => exact hs.draws_none h2 _
          | _ => simp_all [Tree.handle]
    · simp [Tree.handle, hk] at hpath
  · intro h ks c hk hn ht
    rw [image]
    rcases k.node _ ht with kk | ⟨hpath, _⟩
    · simp only [Tree.handle] at kk
      refine .noUse (kk.kind.trans hk) fun i hi => ?_
      rw [kk.points] at hi
      exact k.lost _ ht hk i hi (hn i hi)
    · simp [Tree.handle, hk] at hpath
  · intro h ks c hk ht
    rw [image]
    rcases k.node _ ht with kk | ⟨hpath, _⟩
    · exact .defs (kk.kind.trans hk)
    · simp [Tree.handle, hk] at hpath
  · intro h ks c hk ht
    rw [image]
    rcases k.node _ ht with kk | ⟨hpath, _⟩
    · exact .hidden (kk.kind.trans hk)
    · simp [Tree.handle, hk] at hpath
  · intro h ks c l hk _ ih ht
    rw [image]
    rcases k.node _ ht with kk | ⟨hpath, _⟩
    · simp only [Tree.handle] at kk
      have hp : post h = [] := Classical.byContradiction fun hne => by
        have := k.back _ ht hne
        simp [Tree.handle, hk] at this
      refine .svg (kk.kind.trans hk) ?_
      rw [hp, List.append_nil, kk.within S c]
      exact drawsAll_pre (k.front h) (ih fun t hm => kid_mem ht hm)
    · simp [Tree.handle, hk] at hpath
  · intro h ks c l hk _ ih ht
    rw [image]
    rcases k.node _ ht with kk | ⟨hpath, _⟩
    · simp only [Tree.handle] at kk
      have hp : post h = [] := Classical.byContradiction fun hne => by
        have := k.back _ ht hne
        simp [Tree.handle, hk] at this
      refine .group (kk.kind.trans hk) ?_
      rw [hp, List.append_nil, kk.within S c]
      exact drawsAll_pre (k.front h) (ih fun t hm => kid_mem ht hm)
    · simp [Tree.handle, hk] at hpath
  · intro c _
    rw [imageAll]
    exact .nil
  · intro t ts c l m _ _ ih1 ih2 hts
    rw [imageAll]
    exact .cons (ih1 (hts t (by simp))) (ih2 fun u hu => hts u (by simp [hu]))

end Verif.Reuse
