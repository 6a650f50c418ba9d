import Verif.Reuse.Whole

/-! # The job on documents with one `svg` element -/

namespace Verif.Reuse

variable {D P A E : Type} [DecidableEq D] [DecidableEq P]

/-- Two different paths of the document have the same data, fill and stroke. -/
def Duplicate (s : State D P A) (h : Nat) : Prop :=
  ∃ k, keyOf s.heap h = some k ∧ ∃ u ∈ subs s.root, u.handle ≠ h ∧ keyOf s.heap u.handle = some k

/-- No path before it has the same data, fill and stroke. -/
def First (s : State D P A) (h : Nat) : Prop :=
  ((subs s.root).map Tree.handle).find? (fun x => keyOf s.heap x = keyOf s.heap h) = some h

/-- An element refers to the id. -/
def Referenced (s : State D P A) (i : Text) : Prop :=
  ∃ u ∈ subs s.root, (s.heap u.handle).kind = .use ∧ (s.heap u.handle).points = some i

/-- Documents with one `svg` element, in which duplicate paths have no children and are not among definitions. -/
structure Simple (s : State D P A) : Prop where
  fresh : Fresh s
  handles : ((subs s.root).map Tree.handle).Nodup
  small : ∀ u ∈ subs s.root, u.handle < s.next
  top : (s.heap s.root.handle).kind = .svg
  svg : ∀ u ∈ subsAll s.root.kids, (s.heap u.handle).kind ≠ .svg
  kids : ∀ u ∈ subs s.root, Duplicate s u.handle → u.kids = []
  outside : ∀ u ∈ subs s.root, (s.heap u.handle).kind = .defs → ∀ v ∈ subsAll u.kids, ¬ Duplicate s v.handle

/-- The documents for which the job is right. -/
structure Plain (S : Sem P A E) (reuse : Nat → Text) (s : State D P A) : Prop extends Simple s where
  ids : IdsUnique s
  names : ∀ u ∈ subs s.root, ∀ k, (s.heap u.handle).id ≠ some (reuse k)
  points : ∀ k, ¬ Referenced s (reuse k)
  href : ∀ u ∈ subs s.root, Duplicate s u.handle → (s.heap u.handle).href = none
  harmless : ∀ u ∈ subs s.root, Duplicate s u.handle → Harmless S (s.heap u.handle)
  first : ∀ u ∈ subs s.root, Duplicate s u.handle → First s u.handle →
    ∀ i, (s.heap u.handle).id = some i → Referenced s i → (s.heap u.handle).rest = []

theorem Simple.distinct {s : State D P A} (p : Simple s) :
    Distinct s.root := distinct_of_nodup p.handles

theorem Simple.notRoot {s : State D P A} (p : Simple s) :
    ∀ u ∈ subsAll s.root.kids, u.handle ≠ s.root.handle := by
  have h := p.handles
  cases hr : s.root with
  | node r ks =>
    rw [hr, subs, List.map_cons, List.nodup_cons] at h
    intro u hu he
    exact h.1 (List.mem_map.2 ⟨u, hu, he⟩)

theorem two_of_length {l : List Nat} (hn : l.Nodup) (h : 2 ≤ l.length) (x : Nat) (hx : x ∈ l) : ∃ y ∈ l, y ≠ x := by
  match l, h with
  | a :: b :: r, _ =>
    rw [List.nodup_cons] at hn
    by_cases hxa : x = a
    · exact ⟨b, by simp, fun h => hn.1 (by rw [← hxa, ← h]; simp)⟩
    · exact ⟨a, by simp, fun h => hxa h.symm⟩

/-- The lists of a collection. -/
theorem list_facts {s s1 : State D P A} (p : Simple s)
    (c : Collected s ((subs s.root).map Tree.handle) s1) {g : Key D P × List Nat} (hg : g ∈ s1.paths)
    (h2 : 2 ≤ g.2.length) {x : Nat} (hx : x ∈ g.2) :
    keyOf s.heap x = some g.1 ∧ (∃ u ∈ subs s.root, u.handle = x) ∧ Duplicate s x := by
  have hl := c.paths.lists g hg
  have hm : ∀ y, y ∈ g.2 ↔ (∃ u ∈ subs s.root, u.handle = y) ∧ keyOf s.heap y = some g.1 := by
    intro y
    rw [hl]
    simp [List.mem_filter]
  have hn : g.2.Nodup := by
    rw [hl]
    exact p.handles.sublist List.filter_sublist
  obtain ⟨y, hy, hyx⟩ := two_of_length hn h2 x hx
  obtain ⟨⟨u, hu, rfl⟩, hky⟩ := (hm y).1 hy
  obtain ⟨hux, hkx⟩ := (hm x).1 hx
  exact ⟨hkx, hux, g.1, hkx, u, hu, hyx, hky⟩

theorem keyOf_some {heap : Nat → El D P A} {h : Nat} {k : Key D P} (hk : keyOf heap h = some k) :
    (heap h).kind = .path ∧ (heap h).d = some k.1 ∧ (heap h).stroke = k.2.1 ∧ (heap h).fill = k.2.2 := by
  unfold keyOf at hk
  split at hk
  · rename_i hp
    rw [Option.map_eq_some_iff] at hk
    obtain ⟨d, hd, rfl⟩ := hk
    exact ⟨hp, hd, rfl, rfl⟩
  · cases hk

theorem keyOf_congr {heap heap' : Nat → El D P A} {h : Nat} (e : heap' h = heap h) : keyOf heap' h = keyOf heap h := by
  simp [keyOf, e]

variable {sel : Text → Bool} {reuse : Nat → Text}

/-- Treating the lists after the place of the definitions is known. -/
theorem treat_draws {S : Sem P A E} (hS : S.Silent) (hinj : ∀ j k, reuse j = reuse k → j = k)
    {s s1 s2 : State D P A} (p : Plain S reuse s) (c : Collected s ((subs s.root).map Tree.handle) s1)
    {svg hd : Nat} (r : Ready reuse S hd s2) (hpaths : s2.paths = s1.paths)
    (hheap : ∀ u ∈ subs s.root, s2.heap u.handle = s.heap u.handle)
    (hmem : ∀ u ∈ subs s.root, ∃ v ∈ subs s2.root, v.handle = u.handle)
    (hleaf : ∀ u ∈ subs s.root, Duplicate s u.handle → Leaf s2.root hd u.handle)
    (hrefd : ∀ i, (∃ u ∈ subs s2.root, (s2.heap u.handle).kind = .use ∧ (s2.heap u.handle).points = some i) →
      Referenced s i)
    {ctx : Ctx P E} {l : List (D × Ctx P E)} (h : Draws S s2 s2.root ctx l) (f : Bool) :
    let s3 := (s2.paths.foldl (group sel reuse svg hd) (s2, 0)).1
    let s4 := if f then s3 else s3.upd hd fun e => { e with declares := true }
    Draws S s4 s4.root ctx l := by
  intro s3 s4
  obtain ⟨ud, hud, hudh, hdk⟩ := r.defs
  have hdn : hd < s2.next := hudh ▸ r.small ud hud
  have t0 : Treated sel reuse hd s2 [] 0 s2 := by
    refine ⟨?_, rfl, Nat.le_refl _, ?_, ?_, ?_, ?_, ?_, ?_, ?_, ?_, ?_, ?_⟩
    · rw [List.map_nil, leaves, List.map_nil, only_nil, image_nowhere]
    all_goals simp
  have facts : ∀ g ∈ s2.paths, 2 ≤ g.2.length → ∀ x ∈ g.2,
      keyOf s.heap x = some g.1 ∧ (∃ u ∈ subs s.root, u.handle = x) ∧ Duplicate s x := by
    intro g hg h2 x hx
    rw [hpaths] at hg
    exact list_facts p.toSimple c hg h2 hx
  obtain ⟨es, index, t, hes, _, _⟩ := treat_all sel reuse (svg := svg) hdn s2.paths [] 0 s2 t0
    (by rw [hpaths]; exact c.paths.nonempty)
    (by
      intro g hg h2 x hx
      obtain ⟨hk, ⟨u, hu, rfl⟩, hdup⟩ := facts g hg h2 x hx
      obtain ⟨v, hv, hvu⟩ := hmem u hu
      refine ⟨hvu ▸ r.small v hv, hleaf u hu hdup, fun he => ?_⟩
      have h1 := (keyOf_some hk).1
      rw [← hheap u hu, he, hdk] at h1
      cases h1)
    (by simp)
    (by
      rw [hpaths]
      refine List.Pairwise.imp_of_mem (R := fun g g' => g.1 ≠ g'.1) ?_ ?_
      · intro g g' hg hg' hne x hx hx'
        rw [c.paths.lists g hg, List.mem_filter] at hx
        rw [c.paths.lists g' hg', List.mem_filter] at hx'
        have h1 := of_decide_eq_true hx.2
        have h2 := of_decide_eq_true hx'.2
        exact hne (Option.some.inj (h1.symm.trans h2))
      · have := c.paths.keys
        rw [List.Nodup, List.pairwise_map] at this
        exact this)
  have hlist : ∀ e ∈ es, ∃ g ∈ s1.paths, 2 ≤ g.2.length ∧ e.list = g.2 := by
    intro e he
    obtain ⟨g, hg, h⟩ := hes e ⟨he, by simp⟩
    rw [hpaths] at hg
    exact ⟨g, hg, h⟩
  have efacts : ∀ e ∈ es, ∀ x ∈ e.list, ∃ k u, keyOf s.heap x = some k ∧ u ∈ subs s.root ∧ u.handle = x ∧
      Duplicate s x := by
    intro e he x hx
    obtain ⟨g, hg, h2, hl⟩ := hlist e he
    obtain ⟨hk, ⟨u, hu, hux⟩, hd⟩ := list_facts p.toSimple c hg h2 (hl ▸ hx)
    exact ⟨g.1, u, hk, hu, hux, hd⟩
  have hh : ∀ e ∈ es, ∀ x ∈ e.list, s2.heap x = s.heap x := by
    intro e he x hx
    obtain ⟨k, u, _, hu, rfl, _⟩ := efacts e he x hx
    exact hheap u hu
  have L : Lists S hd s2 es := by
    refine ⟨?_, ?_, ?_, ?_, ?_, ?_, ?_⟩
    · intro e he x hx y hy
      rw [keyOf_congr (hh e he x hx), keyOf_congr (hh e he y hy)]
      obtain ⟨g, hg, h2, hl⟩ := hlist e he
      rw [(list_facts p.toSimple c hg h2 (hl ▸ hx)).1, (list_facts p.toSimple c hg h2 (hl ▸ hy)).1]
    · intro e he x hx
      obtain ⟨k, u, hk, hu, rfl, hd⟩ := efacts e he x hx
      rw [hheap u hu]
      exact ⟨(keyOf_some hk).1, _, (keyOf_some hk).2.1⟩
    · intro e he x hx
      obtain ⟨k, u, hk, hu, rfl, hd⟩ := efacts e he x hx
      exact hmem u hu
    · intro e he x hx
      obtain ⟨k, u, hk, hu, rfl, hd⟩ := efacts e he x hx
      rw [hheap u hu]
      exact p.href u hu hd
    · intro e he x hx
      obtain ⟨k, u, hk, hu, rfl, hd⟩ := efacts e he x hx
      rw [hheap u hu]
      exact p.harmless u hu hd
    · exact t.apart
    · intro e he i hi hr
      have hm := head_mem (t.lists e he)
      obtain ⟨k, u, hk, hu, hux, hd⟩ := efacts e he _ hm
      rw [hh e he _ hm] at hi ⊢
      rw [← hux] at hi hd ⊢
      refine p.first u hu hd ?_ i hi (hrefd i hr)
      obtain ⟨g, hg, h2, hl⟩ := hlist e he
      have hkg := (list_facts p.toSimple c hg h2 (hl ▸ hm)).1
      unfold First
      rw [hux, hkg, ← List.head?_filter, ← c.paths.lists g hg, ← hl]
      obtain ⟨ll, n, ii⟩ := e
      cases ll with
      | nil => simp at hm
      | cons a ll => simp [Entry.head]
  have car : Carries S s2 s4 nowhere (only hd (leaves (es.map Entry.n))) := by
    refine treated_carries hS hinj r L t ?_ ?_ ?_
    · simp only [s4]
      cases f <;> simp [State.upd, s3]
    · intro x hx
      simp only [s4]
      cases f <;> simp [State.upd, s3, hx]
    · simp only [s4]
      cases f
      · simp only [Bool.false_eq_true, if_false, State.upd, if_true]
        exact ⟨⟨rfl, rfl, rfl, rfl, rfl, rfl, rfl⟩, rfl⟩
      · simp only [if_true]
        exact ⟨⟨rfl, rfl, rfl, rfl, rfl, rfl, rfl⟩, rfl⟩
  have hroot4 : s4.root = image nowhere (only hd (leaves (es.map Entry.n))) s2.root := by
    rw [← t.root]
    simp only [s4]
    cases f <;> simp [State.upd, s3]
  rw [hroot4]
  exact carries_draws car h (mem_subs_self _)

theorem same_draws {S : Sem P A E} {s s' : State D P A} (hr : s'.root = s.root) (hh : s'.heap = s.heap)
    {c : Ctx P E} {l : List (D × Ctx P E)} (h : Draws S s s.root c l) : Draws S s' s'.root c l := by
  have ht : ∀ i, target s' i = target s i := by intro i; simp [target, hr, hh]
  have car : Carries S s s' nowhere nowhere := by
    refine ⟨by simp [nowhere], by simp [nowhere], ?_, ?_, ?_⟩
    · intro u _
      rw [hh]
      exact .inl ⟨rfl, rfl, rfl, rfl, rfl, rfl, rfl⟩
    · intro u _ _ i t _ h
      rw [ht, h, image_nowhere]
      exact .inl rfl
    · intro u _ _ i _ h
      rw [ht, h]
  have := carries_draws car h (mem_subs_self _)
  rw [image_nowhere] at this
  rw [hr]
  exact this

/-- **C83 (what is drawn stays).** For every document with one `svg` element, in which ids are unique and differ from the
texts `reuse-N`, and in which duplicate paths have no children, are not among definitions and have only attributes that
mean the same on a reference, and the first of its kind has no such attributes if something refers to it: the job leaves
exactly what is drawn in all surroundings. -/
theorem run_draws_partial {S : Sem P A E} (hS : S.Silent) (hinj : ∀ j k, reuse j = reuse k → j = k) {s : State D P A}
    (p : Plain S reuse s) {c : Ctx P E} {l : List (D × Ctx P E)} (h : Draws S s s.root c l) (m : List (D × Ctx P E)) :
    Draws S (run sel reuse s) (run sel reuse s).root c m ↔ m = l := by
  suffices hd : Draws S (run sel reuse s) (run sel reuse s).root c l by
    constructor
    · intro hm; exact Draws.unique hm hd
    · rintro rfl; exact hd
  obtain ⟨s1, col, hrun⟩ := run_eq sel reuse s p.fresh fun u hu => ⟨p.notRoot u hu, p.svg u hu⟩
  rw [hrun]
  unfold leave
  rw [if_neg (by rw [col.root]; simp)]
  split
  · exact same_draws col.root col.heap h
  · cases hdefs : s1.defs with
    | some hd =>
      obtain ⟨hm, hk⟩ := col.defs hd hdefs
      obtain ⟨ud, hud, hudh⟩ := List.mem_map.1 hm
      have hens : ensureDefs s.root.handle s1 = (s1, hd) := by simp [ensureDefs, hdefs]
      rw [hens]
      have r : Ready reuse S hd s1 := by
        refine ⟨?_, ?_, ?_, ⟨ud, ?_, hudh, ?_⟩, ?_, ?_⟩
        · rw [col.root]; exact p.distinct
        · intro u hu v hv; rw [col.root] at hu hv; rw [col.heap]; exact p.ids u hu v hv
        · rw [col.root, col.next]; exact p.small
        · rw [col.root]; exact hud
        · rw [col.heap]; exact hk
        · rw [col.root, col.heap]; exact p.names
        · rw [col.root, col.heap]
          intro u hu huse k hp
          exact p.points k ⟨u, hu, huse, hp⟩
      have := treat_draws (sel := sel) (svg := s.root.handle) hS hinj p col r rfl (fun u _ => by rw [col.heap])
        (fun u hu => ⟨u, by rw [col.root]; exact hu, rfl⟩)
        (fun u hu hdup => by
          rw [col.root]
          refine ⟨fun v hv he => ?_, fun v hv he w hw hwu => ?_⟩
          · rw [p.distinct v hv u hu he]; exact p.kids u hu hdup
          · have hvd : v = ud := p.distinct v hv ud hud (he.trans hudh.symm)
            refine p.outside v hv (by rw [hvd, hudh]; exact hk) w hw (hwu ▸ hdup))
        (fun i hi => by rw [col.root, col.heap] at hi; exact hi)
        (same_draws col.root col.heap h)
        (childless (s1.paths.foldl (group sel reuse s.root.handle hd) (s1, 0)).1.root hd)
      exact this
    | none =>
      obtain ⟨s2, hs2⟩ : ∃ s2 : State D P A, s2 = ({ s1 with
          root := prependTo s.root.handle (.node s1.next []) s1.root, next := s1.next + 1,
          defs := some s1.next } : State D P A).upd s1.next fun _ => { kind := .defs } := ⟨_, rfl⟩
      have hens : ensureDefs s.root.handle s1 = (s2, s1.next) := by
        rw [hs2]; simp [ensureDefs, hdefs]
      rw [hens]
      have hnext : s1.next = s.next := col.next
      have hroot2 : s2.root = image (only s.root.handle [.node s.next []]) nowhere s.root := by
        rw [hs2]
        simp only [State.upd]
        rw [prependTo_eq, col.root, hnext]
      have hheap2 : ∀ x, s2.heap x = if x = s.next then { kind := .defs } else s.heap x := by
        intro x; rw [hs2]; simp [State.upd, hnext, col.heap]
      have hmem2 : ∀ u, u ∈ subs s2.root ↔ (∃ v ∈ subs s.root, u = image (only s.root.handle [.node s.next []]) nowhere v) ∨
          u = .node s.next [] := by
        intro u
        rw [hroot2, mem_subs_image]
        refine or_congr Iff.rfl ?_
        constructor
        · rintro ⟨v, hv, h | h⟩
          · unfold only at h
            split at h
            · simpa [subsAll, subs] using h
            · simp [subsAll] at h
          · simp [nowhere, subsAll] at h
        · rintro rfl
          exact ⟨s.root, mem_subs_self _, .inl (by simp [only, subsAll, subs])⟩
      have hold : ∀ u ∈ subs s.root, s2.heap u.handle = s.heap u.handle := by
        intro u hu
        rw [hheap2, if_neg (by have := p.small u hu; omega)]
      have hnew : s2.heap s.next = { kind := .defs } := by rw [hheap2, if_pos rfl]
      have hdist2 : Distinct s2.root := by
        intro u hu v hv he
        rcases (hmem2 u).1 hu with ⟨u', hu', rfl⟩ | rfl <;> rcases (hmem2 v).1 hv with ⟨v', hv', rfl⟩ | rfl
        · rw [image_handle, image_handle] at he
          rw [p.distinct u' hu' v' hv' he]
        · rw [image_handle] at he
          have := p.small u' hu'
          simp only [Tree.handle] at he this
          omega
        · rw [image_handle] at he
          have := p.small v' hv'
          simp only [Tree.handle] at he this
          omega
        · rfl
      have hids2 : IdsUnique s2 := by
        intro u hu v hv i hi hj
        rcases (hmem2 u).1 hu with ⟨u', hu', rfl⟩ | rfl <;> rcases (hmem2 v).1 hv with ⟨v', hv', rfl⟩ | rfl
        · rw [image_handle] at hi hj ⊢
          rw [image_handle]
          rw [hold _ hu'] at hi
          rw [hold _ hv'] at hj
          exact p.ids u' hu' v' hv' i hi hj
        · simp only [Tree.handle] at hj
          rw [hnew] at hj
          cases hj
        · simp only [Tree.handle] at hi
          rw [hnew] at hi
          cases hi
        · rfl
      have r : Ready reuse S s1.next s2 := by
        refine ⟨hdist2, hids2, ?_, ⟨.node s.next [], (hmem2 _).2 (.inr rfl), hnext.symm, ?_⟩, ?_, ?_⟩
        · intro u hu
          have hn2 : s2.next = s.next + 1 := by rw [hs2]; simp [State.upd, hnext]
          rw [hn2]
          rcases (hmem2 u).1 hu with ⟨u', hu', rfl⟩ | rfl
          · rw [image_handle]; have := p.small u' hu'; omega
          · simp [Tree.handle]
        · rw [hnext, hnew]
        · intro u hu k
          rcases (hmem2 u).1 hu with ⟨u', hu', rfl⟩ | rfl
          · rw [image_handle, hold u' hu']; exact p.names u' hu' k
          · simp [Tree.handle, hnew]
        · intro u hu huse k hp
          rcases (hmem2 u).1 hu with ⟨u', hu', rfl⟩ | rfl
          · rw [image_handle, hold u' hu'] at huse hp
            exact p.points k ⟨u', hu', huse, hp⟩
          · simp [Tree.handle, hnew] at huse
      have car : Carries S s s2 (only s.root.handle [.node s.next []]) nowhere := by
        refine ⟨?_, by simp [nowhere], ?_, ?_, ?_⟩
        · intro x t ht
          unfold only at ht
          split at ht
          · rw [List.mem_singleton] at ht
            subst ht
            simp [Tree.handle, hnew]
          · simp at ht
        · intro u hu
          rw [hold u hu]
          exact .inl ⟨rfl, rfl, rfl, rfl, rfl, rfl, rfl⟩
        · intro u hu _ i t _ ht
          obtain ⟨htm, hti⟩ := target_mem ht
          refine .inl (target_of hdist2 hids2 ((hmem2 _).2 (.inl ⟨t, htm, rfl⟩)) ?_)
          rw [image_handle, hold t htm]
          exact hti
        · intro u hu _ i _ ht
          rw [target_none] at ht ⊢
          intro w hw
          rcases (hmem2 w).1 hw with ⟨w', hw', rfl⟩ | rfl
          · rw [image_handle, hold w' hw']; exact ht w' hw'
          · simp [Tree.handle, hnew]
      have hdraw2 : Draws S s2 s2.root c l := by
        rw [hroot2]
        exact carries_draws car h (mem_subs_self _)
      have hpath : ∀ x, Duplicate s x → (s.heap x).kind = .path := by
        rintro x ⟨k, hk, _⟩
        exact (keyOf_some hk).1
      have := treat_draws (sel := sel) (svg := s.root.handle) hS hinj p col r (by rw [hs2]; rfl) hold
        (fun u hu => ⟨_, (hmem2 _).2 (.inl ⟨u, hu, rfl⟩), image_handle _ _ _⟩)
        (fun u hu hdup => by
          refine ⟨fun v hv he => ?_, fun v hv he w hw hwu => ?_⟩
          · rcases (hmem2 v).1 hv with ⟨v', hv', rfl⟩ | rfl
            · rw [image_handle] at he
              have hvu := p.distinct v' hv' u hu he
              have hkids := p.kids u hu hdup
              rw [hvu]
              cases u with
              | node y ks =>
                simp only [Tree.kids, Tree.handle] at hkids hdup
                have hy : ¬ y = s.root.handle := by
                  intro h
                  have := hpath y hdup
                  rw [h, p.top] at this
                  cases this
                subst hkids
                simp [image, imageAll, Tree.kids, only, nowhere, hy]
            · simp [Tree.kids]
          · rcases (hmem2 v).1 hv with ⟨v', hv', rfl⟩ | rfl
            · rw [image_handle, hnext] at he
              have := p.small v' hv'
              omega
            · simp [Tree.kids, subsAll] at hw)
        (fun i hi => by
          obtain ⟨u, hu, huse, hp⟩ := hi
          rcases (hmem2 u).1 hu with ⟨u', hu', rfl⟩ | rfl
          · rw [image_handle, hold u' hu'] at huse hp
            exact ⟨u', hu', huse, hp⟩
          · simp [Tree.handle, hnew] at huse)
        hdraw2 (childless (s2.paths.foldl (group sel reuse s.root.handle s1.next) (s2, 0)).1.root s1.next)
      exact this

end Verif.Reuse
