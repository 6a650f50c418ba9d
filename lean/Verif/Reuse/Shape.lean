import Verif.Reuse.Main

/-! # The document after the job -/

namespace Verif.Reuse

variable {D P A E : Type} [DecidableEq D] [DecidableEq P] {sel : Text → Bool} {reuse : Nat → Text}

/-- What the job leaves: `hd` holds the definitions, `es` are the lists. -/
structure Shape (sel : Text → Bool) (reuse : Nat → Text) (s s' : State D P A) (hd : Nat) (hrefs : List Text)
    (es : List Entry) : Prop where
  frags : ∀ x ∈ hrefs, isFragment x = true
  old : ∀ w ∈ subs s'.root, (∃ u ∈ subs s.root, u.handle = w.handle) ∨ w.handle = hd ∨ ∃ e ∈ es, w.handle = e.n
  has : ∀ u ∈ subs s.root, ∃ w ∈ subs s'.root, w.handle = u.handle
  holds : ∃ w ∈ subs s'.root, w.handle = hd ∧ ∀ e ∈ es, ∃ k ∈ w.kids, k.handle = e.n
  outside : ∀ u ∈ subs s.root, Duplicate s u.handle → Leaf s'.root hd u.handle
  lists : ∀ x, (∃ e ∈ es, x ∈ e.list) ↔ (∃ u ∈ subs s.root, u.handle = x) ∧ Duplicate s x
  apart : ∀ e ∈ es, ∀ e' ∈ es, ∀ x ∈ e.list, x ∈ e'.list → e = e'
  head : ∀ e ∈ es, e.head ∈ e.list ∧ First s e.head
  same : ∀ e ∈ es, ∀ x ∈ e.list, keyOf s.heap x = keyOf s.heap e.head
  kindhd : (s'.heap hd).kind = .defs
  conv : ∀ e ∈ es, ∀ x ∈ e.list, s'.heap x = e.conv sel reuse hrefs s.heap x
  def' : ∀ e ∈ es, s'.heap e.n = e.def' sel reuse hrefs s.heap
  kept : ∀ u ∈ subs s.root, ¬ Duplicate s u.handle → u.handle ≠ hd → s'.heap u.handle = s.heap u.handle
  declares : ∀ u ∈ subs s.root, u.handle = hd → ∃ b, s'.heap hd = { s.heap hd with declares := b }
  new : (∀ u ∈ subs s.root, u.handle ≠ hd) → ∃ b, s'.heap hd = { kind := .defs, declares := b }

theorem treat_shape {s s1 s2 : State D P A} (p : Simple s) (c : Collected s ((subs s.root).map Tree.handle) s1)
    {svg hd : Nat} (hpaths : s2.paths = s1.paths) (hhrefs : s2.hrefs = s1.hrefs) (hdist : Distinct s2.root)
    (hdefs : ∃ u ∈ subs s2.root, u.handle = hd) (hdk : (s2.heap hd).kind = .defs)
    (hsmall : ∀ u ∈ subs s2.root, u.handle < s2.next)
    (hheap : ∀ u ∈ subs s.root, s2.heap u.handle = s.heap u.handle)
    (hmem : ∀ u ∈ subs s.root, ∃ v ∈ subs s2.root, v.handle = u.handle)
    (hold : ∀ w ∈ subs s2.root, (∃ u ∈ subs s.root, u.handle = w.handle) ∨ w.handle = hd)
    (hleaf : ∀ u ∈ subs s.root, Duplicate s u.handle → Leaf s2.root hd u.handle)
    (hnew : (∀ u ∈ subs s.root, u.handle ≠ hd) → s2.heap hd = { kind := .defs }) (f : Bool) :
    let s3 := (s2.paths.foldl (group sel reuse svg hd) (s2, 0)).1
    let s4 := if f then s3 else s3.upd hd fun e => { e with declares := true }
    ∃ es, Shape sel reuse s s4 hd s2.hrefs es := by
  intro s3 s4
  obtain ⟨ud, hud, hudh⟩ := hdefs
  have hdn : hd < s2.next := hudh ▸ hsmall ud hud
  have t0 : Treated sel reuse hd s2 [] 0 s2 := by
    refine ⟨?_, rfl, Nat.le_refl _, ?_, ?_, ?_, ?_, ?_, ?_, ?_, ?_, ?_, ?_⟩
    · rw [List.map_nil, leaves, List.map_nil, only_nil, image_nowhere]
    all_goals simp
  have facts : ∀ g ∈ s2.paths, 2 ≤ g.2.length → ∀ x ∈ g.2,
      keyOf s.heap x = some g.1 ∧ (∃ u ∈ subs s.root, u.handle = x) ∧ Duplicate s x := by
    intro g hg h2 x hx
    rw [hpaths] at hg
    exact list_facts p c hg h2 hx
  obtain ⟨es, index, t, hes, _, hall⟩ := treat_all sel reuse (svg := svg) hdn s2.paths [] 0 s2 t0
    (by rw [hpaths]; exact c.paths.nonempty)
    (by
      intro g hg h2 x hx
      obtain ⟨hk, ⟨u, hu, rfl⟩, hdup⟩ := facts g hg h2 x hx
      obtain ⟨v, hv, hvu⟩ := hmem u hu
      refine ⟨hvu ▸ hsmall v hv, hleaf u hu hdup, fun he => ?_⟩
      have h1 := (keyOf_some hk).1
      rw [← hheap u hu, he, hdk] at h1
      cases h1)
    (by simp)
    (by
      rw [hpaths]
      refine List.Pairwise.imp_of_mem (R := fun g g' => g.1 ≠ g'.1) ?_ ?_
      · intro g g' hg hg' hne x hx hx'
        rw [c.paths.lists g hg, List.mem_filter] at hx
        rw [c.paths.lists g' hg', List.mem_filter] at hx'
        have h1 := of_decide_eq_true hx.2
        have h2 := of_decide_eq_true hx'.2
        exact hne (Option.some.inj (h1.symm.trans h2))
      · have := c.paths.keys
        rw [List.Nodup, List.pairwise_map] at this
        exact this)
  have hlist : ∀ e ∈ es, ∃ g ∈ s1.paths, 2 ≤ g.2.length ∧ e.list = g.2 := by
    intro e he
    obtain ⟨g, hg, h⟩ := hes e ⟨he, by simp⟩
    rw [hpaths] at hg
    exact ⟨g, hg, h⟩
  have efacts : ∀ e ∈ es, ∀ x ∈ e.list, ∃ k u, keyOf s.heap x = some k ∧ u ∈ subs s.root ∧ u.handle = x ∧
      Duplicate s x := by
    intro e he x hx
    obtain ⟨g, hg, h2, hl⟩ := hlist e he
    obtain ⟨hk, ⟨u, hu, hux⟩, hd⟩ := list_facts p c hg h2 (hl ▸ hx)
    exact ⟨g.1, u, hk, hu, hux, hd⟩
  have hh : ∀ e ∈ es, ∀ x ∈ e.list, s2.heap x = s.heap x := by
    intro e he x hx
    obtain ⟨k, u, _, hu, rfl, _⟩ := efacts e he x hx
    exact hheap u hu
  have hroot4 : s4.root = image nowhere (only hd (leaves (es.map Entry.n))) s2.root := by
    rw [← t.root]
    simp only [s4]
    cases f <;> simp [State.upd, s3]
  have hheap4 : ∀ x, x ≠ hd → s4.heap x = s3.heap x := by
    intro x hx
    simp only [s4]
    cases f <;> simp [State.upd, s3, hx]
  have hdlist : ∀ e ∈ es, hd ∉ e.list := by
    intro e he hm
    obtain ⟨k, u, hk, hu, rfl, _⟩ := efacts e he hd hm
    have := (keyOf_some hk).1
    rw [← hheap u hu, hdk] at this
    cases this
  have hden : ∀ e ∈ es, e.n ≠ hd := by
    intro e he h
    have := (t.between e he).1
    omega
  have h3hd : s3.heap hd = s2.heap hd := t.kept hd hdn hdlist
  have h4hd : ∃ b, s4.heap hd = { s2.heap hd with declares := b } := by
    simp only [s4]
    cases f
    · exact ⟨true, by simp [State.upd, h3hd]⟩
    · exact ⟨(s2.heap hd).declares, by simp [h3hd]⟩
  have hlists : ∀ x, (∃ e ∈ es, x ∈ e.list) ↔ (∃ u ∈ subs s.root, u.handle = x) ∧ Duplicate s x := by
    intro x
    constructor
    · rintro ⟨e, he, hx⟩
      obtain ⟨k, u, hk, hu, hux, hd⟩ := efacts e he x hx
      exact ⟨⟨u, hu, hux⟩, hd⟩
    · rintro ⟨⟨u, hu, rfl⟩, k, hk, v, hv, hne, hkv⟩
      obtain ⟨g, hg, rfl⟩ := c.paths.all u.handle (List.mem_map.2 ⟨u, hu, rfl⟩) k hk
      have hin : ∀ w ∈ subs s.root, keyOf s.heap w.handle = some g.1 → w.handle ∈ g.2 := by
        intro w hw hkw
        rw [c.paths.lists g hg, List.mem_filter]
        exact ⟨List.mem_map.2 ⟨w, hw, rfl⟩, by simp [hkw]⟩
      have h2 : 2 ≤ g.2.length := by
        have h1 := hin u hu hk
        have h3 := hin v hv hkv
        match hgl : g.2 with
        | [] => rw [hgl] at h1; simp at h1
        | [a] =>
          rw [hgl, List.mem_singleton] at h1 h3
          exact absurd (h3.trans h1.symm) hne
        | _ :: _ :: _ => simp
      obtain ⟨e, he, hl⟩ := hall g (by rw [hpaths]; exact hg) h2
      exact ⟨e, he, hl ▸ hin u hu hk⟩
  have hmem2 := fun (w : Tree) => mem_subs_image nowhere (only hd (leaves (es.map Entry.n))) (u := w) (t := s2.root)
  have hconvhead : ∀ e ∈ es, s2.heap e.head = s.heap e.head := fun e he => hh e he _ (head_mem (t.lists e he))
  refine ⟨es, ?_, ?_, ?_, ?_, ?_, hlists, t.apart, ?_, ?_, ?_, ?_, ?_, ?_, ?_, ?_⟩
  · rw [hhrefs]; exact c.hrefs
  · intro w hw
    rw [hroot4, hmem2] at hw
    rcases hw with ⟨v, hv, rfl⟩ | ⟨v, hv, h | h⟩
    · rw [image_handle]
      rcases hold v hv with h | h
      · exact .inl h
      · exact .inr (.inl h)
    · simp [nowhere, subsAll] at h
    · unfold only at h
      split at h
      · obtain ⟨n, hn, rfl⟩ := mem_subsAll_leaves.1 h
        obtain ⟨e, he, rfl⟩ := List.mem_map.1 hn
        exact .inr (.inr ⟨e, he, rfl⟩)
      · simp [subsAll] at h
  · intro u hu
    obtain ⟨v, hv, hvu⟩ := hmem u hu
    exact ⟨_, by rw [hroot4, hmem2]; exact .inl ⟨v, hv, rfl⟩, by rw [image_handle, hvu]⟩
  · refine ⟨_, by rw [hroot4, hmem2]; exact .inl ⟨ud, hud, rfl⟩, by rw [image_handle, hudh], ?_⟩
    intro e he
    refine ⟨.node e.n [], ?_, rfl⟩
    cases ud with
    | node y ks =>
      simp only [Tree.handle] at hudh
      subst hudh
      simp only [image, Tree.kids, only, if_true, List.mem_append]
      exact .inr (.inr (List.mem_map.2 ⟨e.n, List.mem_map.2 ⟨e, he, rfl⟩, rfl⟩))
  · intro u hu hdup
    rw [hroot4]
    obtain ⟨e, he, hx⟩ := (hlists u.handle).2 ⟨⟨u, hu, rfl⟩, hdup⟩
    refine (hleaf u hu hdup).image (fun h => hdlist e he (h ▸ hx)) ?_ ?_
    · intro hm
      obtain ⟨e', he', hn⟩ := List.mem_map.1 hm
      have := (t.between e' he').1
      have := t.small e he _ hx
      omega
    · intro hm
      obtain ⟨e', he', hn⟩ := List.mem_map.1 hm
      exact hden e' he' hn
  · intro e he
    have hm := head_mem (t.lists e he)
    refine ⟨hm, ?_⟩
    obtain ⟨g, hg, h2, hl⟩ := hlist e he
    have hkg := (list_facts p c hg h2 (hl ▸ hm)).1
    unfold First
    rw [hkg, ← List.head?_filter, ← c.paths.lists g hg, ← hl]
    obtain ⟨ll, n, ii⟩ := e
    cases ll with
    | nil => simp at hm
    | cons a ll => simp [Entry.head]
  · intro e he x hx
    obtain ⟨g, hg, h2, hl⟩ := hlist e he
    rw [(list_facts p c hg h2 (hl ▸ hx)).1, (list_facts p c hg h2 (hl ▸ head_mem (t.lists e he))).1]
  · obtain ⟨b, hb⟩ := h4hd
    rw [hb]
    exact hdk
  · intro e he x hx
    rw [hheap4 x fun h => hdlist e he (h ▸ hx), t.conv e he x hx]
    simp only [Entry.conv, Entry.url, Entry.def', hconvhead e he, hh e he x hx]
  · intro e he
    rw [hheap4 _ (hden e he), t.def' e he]
    simp only [Entry.def', hconvhead e he]
  · intro u hu hn hne
    rw [hheap4 _ hne]
    obtain ⟨v, hv, hvu⟩ := hmem u hu
    rw [t.kept _ (hvu ▸ hsmall v hv) ?_, hheap u hu]
    intro e he hx
    exact hn ((hlists _).1 ⟨e, he, hx⟩).2
  · intro u hu he
    obtain ⟨b, hb⟩ := h4hd
    have := hheap u hu
    rw [he] at this
    exact ⟨b, by rw [hb, this]⟩
  · intro h
    obtain ⟨b, hb⟩ := h4hd
    rw [hnew h] at hb
    exact ⟨b, hb⟩

/-- The job on a simple document: nothing without paths, otherwise the paths with equals become references. -/
theorem run_shape {s : State D P A} (p : Simple s) :
    ((run sel reuse s).root = s.root ∧ (run sel reuse s).heap = s.heap ∧ ∀ u ∈ subs s.root, ¬ Duplicate s u.handle) ∨
      ∃ hd hrefs es, Shape sel reuse s (run sel reuse s) hd hrefs es := by
  obtain ⟨s1, col, hrun⟩ := run_eq sel reuse s p.fresh fun u hu => ⟨p.notRoot u hu, p.svg u hu⟩
  rw [hrun]
  unfold leave
  rw [if_neg (by rw [col.root]; simp)]
  split
  · rename_i hemp
    refine .inl ⟨col.root, col.heap, ?_⟩
    rintro u hu ⟨k, hk, _⟩
    obtain ⟨g, hg, _⟩ := col.paths.all u.handle (List.mem_map.2 ⟨u, hu, rfl⟩) k hk
    rw [List.isEmpty_iff] at hemp
    rw [hemp] at hg
    cases hg
  · refine .inr ?_
    cases hdefs : s1.defs with
    | some hd =>
      obtain ⟨hm, hk⟩ := col.defs hd hdefs
      obtain ⟨ud, hud, hudh⟩ := List.mem_map.1 hm
      have hens : ensureDefs s.root.handle s1 = (s1, hd) := by simp [ensureDefs, hdefs]
      rw [hens]
      obtain ⟨es, h⟩ := treat_shape (sel := sel) (reuse := reuse) (svg := s.root.handle) (hd := hd) p col rfl rfl
        (by rw [col.root]; exact p.distinct) ⟨ud, by rw [col.root]; exact hud, hudh⟩ (by rw [col.heap]; exact hk)
        (by rw [col.root, col.next]; exact p.small) (fun u _ => by rw [col.heap])
        (fun u hu => ⟨u, by rw [col.root]; exact hu, rfl⟩)
        (fun w hw => .inl ⟨w, by rw [col.root] at hw; exact hw, rfl⟩)
        (fun u hu hdup => by
          rw [col.root]
          refine ⟨fun v hv he => ?_, fun v hv he w hw hwu => ?_⟩
          · rw [p.distinct v hv u hu he]; exact p.kids u hu hdup
          · have hvd : v = ud := p.distinct v hv ud hud (he.trans hudh.symm)
            refine p.outside v hv (by rw [hvd, hudh]; exact hk) w hw (hwu ▸ hdup))
        (fun h => absurd hudh (h ud hud))
        (childless (s1.paths.foldl (group sel reuse s.root.handle hd) (s1, 0)).1.root hd)
      exact ⟨hd, _, es, h⟩
    | none =>
      obtain ⟨s2, hs2⟩ : ∃ s2 : State D P A, s2 = ({ s1 with
          root := prependTo s.root.handle (.node s1.next []) s1.root, next := s1.next + 1,
          defs := some s1.next } : State D P A).upd s1.next fun _ => { kind := .defs } := ⟨_, rfl⟩
      have hens : ensureDefs s.root.handle s1 = (s2, s1.next) := by
        rw [hs2]; simp [ensureDefs, hdefs]
      rw [hens]
      have hnext : s1.next = s.next := col.next
      have hroot2 : s2.root = image (only s.root.handle [.node s.next []]) nowhere s.root := by
        rw [hs2]
        simp only [State.upd]
        rw [prependTo_eq, col.root, hnext]
      have hheap2 : ∀ x, s2.heap x = if x = s.next then { kind := .defs } else s.heap x := by
        intro x; rw [hs2]; simp [State.upd, hnext, col.heap]
      have hmem2 : ∀ u, u ∈ subs s2.root ↔ (∃ v ∈ subs s.root, u = image (only s.root.handle [.node s.next []]) nowhere v) ∨
          u = .node s.next [] := by
        intro u
        rw [hroot2, mem_subs_image]
        refine or_congr Iff.rfl ?_
        constructor
        · rintro ⟨v, hv, h | h⟩
          · unfold only at h
            split at h
            · simpa [subsAll, subs] using h
            · simp [subsAll] at h
          · simp [nowhere, subsAll] at h
        · rintro rfl
          exact ⟨s.root, mem_subs_self _, .inl (by simp [only, subsAll, subs])⟩
      have hold : ∀ u ∈ subs s.root, s2.heap u.handle = s.heap u.handle := by
        intro u hu
        rw [hheap2, if_neg (by have := p.small u hu; omega)]
      have hnew : s2.heap s.next = { kind := .defs } := by rw [hheap2, if_pos rfl]
      have hdist2 : Distinct s2.root := by
        intro u hu v hv he
        rcases (hmem2 u).1 hu with ⟨u', hu', rfl⟩ | rfl <;> rcases (hmem2 v).1 hv with ⟨v', hv', rfl⟩ | rfl
        · rw [image_handle, image_handle] at he
          rw [p.distinct u' hu' v' hv' he]
        · rw [image_handle] at he
          have := p.small u' hu'
          simp only [Tree.handle] at he this
          omega
        · rw [image_handle] at he
          have := p.small v' hv'
          simp only [Tree.handle] at he this
          omega
        · rfl
      have hpath : ∀ x, Duplicate s x → (s.heap x).kind = .path := by
        rintro x ⟨k, hk, _⟩
        exact (keyOf_some hk).1
      obtain ⟨es, h⟩ := treat_shape (sel := sel) (reuse := reuse) (svg := s.root.handle) (hd := s1.next) (s2 := s2) p col
        (by rw [hs2]; rfl) (by rw [hs2]; rfl) hdist2 ⟨_, (hmem2 _).2 (.inr rfl), hnext.symm⟩ (by rw [hnext, hnew])
        (by
          intro u hu
          have hn2 : s2.next = s.next + 1 := by rw [hs2]; simp [State.upd, hnext]
          rw [hn2]
          rcases (hmem2 u).1 hu with ⟨u', hu', rfl⟩ | rfl
          · rw [image_handle]; have := p.small u' hu'; omega
          · simp [Tree.handle])
        hold (fun u hu => ⟨_, (hmem2 _).2 (.inl ⟨u, hu, rfl⟩), image_handle _ _ _⟩)
        (by
          intro w hw
          rcases (hmem2 w).1 hw with ⟨w', hw', rfl⟩ | rfl
          · exact .inl ⟨w', hw', (image_handle _ _ _).symm⟩
          · exact .inr hnext.symm)
        (fun u hu hdup => by
          refine ⟨fun v hv he => ?_, fun v hv he w hw hwu => ?_⟩
          · rcases (hmem2 v).1 hv with ⟨v', hv', rfl⟩ | rfl
            · rw [image_handle] at he
              have hvu := p.distinct v' hv' u hu he
              have hkids := p.kids u hu hdup
              rw [hvu]
              cases u with
              | node y ks =>
                simp only [Tree.kids, Tree.handle] at hkids hdup
                have hy : ¬ y = s.root.handle := by
                  intro h
                  have := hpath y hdup
                  rw [h, p.top] at this
                  cases this
                subst hkids
                simp [image, imageAll, Tree.kids, only, nowhere, hy]
            · simp [Tree.kids]
          · rcases (hmem2 v).1 hv with ⟨v', hv', rfl⟩ | rfl
            · rw [image_handle, hnext] at he
              have := p.small v' hv'
              omega
            · simp [Tree.kids, subsAll] at hw)
        (fun _ => by rw [hnext, hnew])
        (childless (s2.paths.foldl (group sel reuse s.root.handle s1.next) (s2, 0)).1.root s1.next)
      exact ⟨s1.next, _, es, h⟩

/-- **C83 (which elements change).** In a simple document exactly the paths with the data, fill and stroke of another one
become references; all other elements keep everything, except that the `defs` element may get the declaration of a
prefix. -/
theorem run_uses {s : State D P A} (p : Simple s) (u : Tree) (hu : u ∈ subs s.root) :
    (Duplicate s u.handle → ((run sel reuse s).heap u.handle).kind = .use ∧
      ((run sel reuse s).heap u.handle).d = none ∧ ((run sel reuse s).heap u.handle).rest = (s.heap u.handle).rest ∧
      ∃ i, ((run sel reuse s).heap u.handle).xlink = some (35 :: i)) ∧
    (¬ Duplicate s u.handle → ∃ b, (run sel reuse s).heap u.handle = { s.heap u.handle with declares := b } ∧
      ((s.heap u.handle).kind ≠ .defs → b = (s.heap u.handle).declares)) := by
  rcases run_shape (sel := sel) (reuse := reuse) p with ⟨_, hh, hn⟩ | ⟨hd, hrefs, es, h⟩
  · exact ⟨fun hd => absurd hd (hn u hu), fun _ => ⟨_, by rw [hh], fun _ => rfl⟩⟩
  · constructor
    · intro hd
      obtain ⟨e, he, hx⟩ := (h.lists u.handle).2 ⟨⟨u, hu, rfl⟩, hd⟩
      rw [h.conv e he _ hx]
      refine ⟨rfl, rfl, ?_, _, rfl⟩
      simp only [Entry.conv, become, strip]
      split <;> rfl
    · intro hn
      by_cases he : u.handle = hd
      · obtain ⟨b, hb⟩ := h.declares u hu he
        refine ⟨b, by rw [he, hb], fun hk => absurd ?_ hk⟩
        have := h.kindhd
        rw [hb] at this
        rw [he]
        exact this
      · exact ⟨_, h.kept u hu hn he, fun _ => rfl⟩

mutual
theorem bound_none {heap : Nat → El D P A} {hd : Nat} : ∀ (t : Tree), Bound heap false t →
    (∀ v ∈ subs t, v.handle ≠ hd → (heap v.handle).declares = false) →
    ∀ u ∈ subs t, (∀ v ∈ subs t, v.handle = hd → u ∉ subs v) → (heap u.handle).xlink = none
  | .node h ks, hb, hdec, u, hu, hout => by
    have hne : h ≠ hd := fun he => hout (.node h ks) (mem_subs_self _) he hu
    have hd0 := hdec (.node h ks) (mem_subs_self _) hne
    simp only [Tree.handle] at hd0
    simp only [Bound, hd0, Bool.or_false] at hb
    rw [subs, List.mem_cons] at hu
    rcases hu with rfl | hu
    · have := hb.1
      simpa [Tree.handle] using this
    · exact boundAll_none ks hb.2 (fun v hv => hdec v (by simp [subs, hv])) u hu fun v hv => hout v (by simp [subs, hv])
theorem boundAll_none {heap : Nat → El D P A} {hd : Nat} : ∀ (ts : List Tree), BoundAll heap false ts →
    (∀ v ∈ subsAll ts, v.handle ≠ hd → (heap v.handle).declares = false) →
    ∀ u ∈ subsAll ts, (∀ v ∈ subsAll ts, v.handle = hd → u ∉ subs v) → (heap u.handle).xlink = none
  | [], _, _, u, hu, _ => by simp [subsAll] at hu
  | t :: ts, hb, hdec, u, hu, hout => by
    simp only [BoundAll] at hb
    rw [subsAll, List.mem_append] at hu
    rcases hu with hu | hu
    · exact bound_none t hb.1 (fun v hv => hdec v (by simp [subsAll, hv])) u hu fun v hv => hout v (by simp [subsAll, hv])
    · exact boundAll_none ts hb.2 (fun v hv => hdec v (by simp [subsAll, hv])) u hu
        fun v hv => hout v (by simp [subsAll, hv])
end

/-- **C83 (the prefix is not declared; violated).** For every simple document without a declaration of the prefix `xlink`
in which a path has an equal, the job leaves a document in which `xlink:href` is used outside of the declaration: the text
cannot be read as XML with namespaces. -/
theorem run_unbound_violated {s : State D P A} (p : Simple s)
    (hdec : ∀ u ∈ subs s.root, (s.heap u.handle).declares = false) {u : Tree} (hu : u ∈ subs s.root)
    (hdup : Duplicate s u.handle) : ¬ Bound (run sel reuse s).heap false (run sel reuse s).root := by
  intro hb
  rcases run_shape (sel := sel) (reuse := reuse) p with ⟨_, _, hn⟩ | ⟨hd, hrefs, es, h⟩
  · exact hn u hu hdup
  · obtain ⟨w, hw, hwu⟩ := h.has u hu
    obtain ⟨e, he, hx⟩ := (h.lists u.handle).2 ⟨⟨u, hu, rfl⟩, hdup⟩
    have := bound_none (hd := hd) _ hb (by
      intro v hv hne
      rcases h.old v hv with ⟨u', hu', huv⟩ | hvd | ⟨e', he', hve⟩
      · rw [← huv]
        rw [← huv] at hne
        by_cases hdu : Duplicate s u'.handle
        · obtain ⟨e', he', hx'⟩ := (h.lists u'.handle).2 ⟨⟨u', hu', rfl⟩, hdu⟩
          rw [h.conv e' he' _ hx']
          simp only [Entry.conv, become, strip]
          split <;> exact hdec u' hu'
        · rw [h.kept u' hu' hdu hne]
          exact hdec u' hu'
      · exact absurd hvd hne
      · rw [hve, h.def' e' he']
        rfl) w hw (by
      intro v hv hvd hwv
      cases v with
      | node y ks =>
        simp only [Tree.handle] at hvd
        rw [subs, List.mem_cons] at hwv
        rcases hwv with rfl | hwv
        · have hyu : y = u.handle := hwu
          have h2 := h.kindhd
          rw [← hvd, hyu, h.conv e he _ hx] at h2
          cases h2
        · exact (h.outside u hu hdup).outside _ hv hvd w hwv hwu)
    rw [hwu, h.conv e he _ hx] at this
    cases this

/-- **C83 (ids are not protected; violated).** For every simple document with unique ids: if the first of several equal
paths has an id that no style sheet selects, the id goes to the definition, which has none of the other attributes of the
path, no matter how many elements refer to it. -/
theorem run_id_violated {s : State D P A} (p : Simple s) (ids : IdsUnique s) {u : Tree} (hu : u ∈ subs s.root)
    (hdup : Duplicate s u.handle) (hfirst : First s u.handle) {i : Text} (hi : (s.heap u.handle).id = some i)
    (hfrag : i.head? ≠ some 35) (hsel : sel i = false) :
    ((run sel reuse s).heap u.handle).id = none ∧
      ∃ t, target (run sel reuse s) i = some t ∧ ((run sel reuse s).heap t.handle).kind = .path ∧
        ((run sel reuse s).heap t.handle).rest = [] := by
  rcases run_shape (sel := sel) (reuse := reuse) p with ⟨_, _, hn⟩ | ⟨hd, hrefs, es, h⟩
  · exact absurd hdup (hn u hu)
  · obtain ⟨e, he, hx⟩ := (h.lists u.handle).2 ⟨⟨u, hu, rfl⟩, hdup⟩
    have hhead : e.head = u.handle := by
      have h1 := (h.head e he).2
      unfold First at h1 hfirst
      rw [← h.same e he _ hx, hfirst] at h1
      exact (Option.some.inj h1).symm
    have hcont : hrefs.contains i = false := by
      rw [← Bool.not_eq_true, List.contains_iff_mem]
      intro hm
      have hf := h.frags i hm
      match i, hf with
      | 35 :: _ :: _, _ => exact hfrag rfl
    have hmoves : moves sel hrefs (s.heap u.handle) = true := by
      simp only [moves, hi, hcont, hsel, Bool.not_false, Bool.and_self]
    have hid : ((run sel reuse s).heap u.handle).id = none := by
      rw [h.conv e he _ hx]
      simp [Entry.conv, hhead, hmoves, become, strip]
    refine ⟨hid, ?_⟩
    have hdef : ((run sel reuse s).heap e.n).id = some i := by
      rw [h.def' e he]
      simp [Entry.def', hhead, definition, hmoves, hi]
    cases ht : target (run sel reuse s) i with
    | none =>
      rw [target_none] at ht
      obtain ⟨w, hw, _, hk⟩ := h.holds
      obtain ⟨k, hkm, hkn⟩ := hk e he
      cases w with
      | node y ks => exact absurd (hkn ▸ hdef) (ht k (kid_mem hw hkm))
    | some t =>
      refine ⟨t, rfl, ?_⟩
      obtain ⟨htm, hti⟩ := target_mem ht
      have hold : ∀ u' ∈ subs s.root, (s.heap u'.handle).id = some i → u'.handle = u.handle :=
        fun u' hu' h' => ids u' hu' u hu i h' hi
      have hno : ∀ u' ∈ subs s.root, u'.handle ≠ u.handle → u'.handle = t.handle → False := by
        intro u' hu' hne hut
        rw [← hut] at hti
        refine hne (hold u' hu' ?_)
        by_cases hdu : Duplicate s u'.handle
        · obtain ⟨e', he', hx'⟩ := (h.lists u'.handle).2 ⟨⟨u', hu', rfl⟩, hdu⟩
          rw [h.conv e' he' _ hx'] at hti
          simp only [Entry.conv, become, strip] at hti
          split at hti
          · cases hti
          · exact hti
        · by_cases hhd : u'.handle = hd
          · obtain ⟨b, hb⟩ := h.declares u' hu' hhd
            rw [hhd, hb] at hti
            rw [hhd]
            exact hti
          · rw [h.kept u' hu' hdu hhd] at hti
            exact hti
      rcases h.old t htm with ⟨u', hu', hut⟩ | htd | ⟨e', he', hte⟩
      · by_cases hne : u'.handle = u.handle
        · rw [← hut, hne, hid] at hti
          cases hti
        · exact (hno u' hu' hne hut).elim
      · by_cases hex : ∃ u' ∈ subs s.root, u'.handle = hd
        · obtain ⟨u', hu', hud⟩ := hex
          by_cases hne : u'.handle = u.handle
          · rw [htd, ← hud, hne, hid] at hti
            cases hti
          · exact (hno u' hu' hne (hud.trans htd.symm)).elim
        · obtain ⟨b, hb⟩ := h.new fun u' hu' hc => hex ⟨u', hu', hc⟩
          rw [htd, hb] at hti
          cases hti
      · rw [hte, h.def' e' he']
        exact ⟨rfl, rfl⟩

/-- **C83 (ids that are kept).** In every simple document, an element keeps its id if a style sheet selects the id or the
element is not the first of several equal paths. -/
theorem run_keeps_ids {s : State D P A} (p : Simple s) {u : Tree} (hu : u ∈ subs s.root) {i : Text}
    (hi : (s.heap u.handle).id = some i) (h : sel i = true ∨ ¬ Duplicate s u.handle ∨ ¬ First s u.handle) :
    ((run sel reuse s).heap u.handle).id = some i := by
  rcases run_shape (sel := sel) (reuse := reuse) p with ⟨_, hh, _⟩ | ⟨hd, hrefs, es, g⟩
  · rw [hh, hi]
  · by_cases hdup : Duplicate s u.handle
    · obtain ⟨e, he, hx⟩ := (g.lists u.handle).2 ⟨⟨u, hu, rfl⟩, hdup⟩
      rw [g.conv e he _ hx]
      have : ¬ (u.handle = e.head ∧ moves sel hrefs (s.heap u.handle) = true) := by
        rintro ⟨h1, h2⟩
        rcases h with h | h | h
        · simp [moves, hi, h] at h2
        · exact h hdup
        · exact h (h1 ▸ (g.head e he).2)
      simp only [Entry.conv, if_neg this, become, strip, hi]
    · by_cases hhd : u.handle = hd
      · obtain ⟨b, hb⟩ := g.declares u hu hhd
        rw [hhd] at hi ⊢
        rw [hb]
        exact hi
      · rw [g.kept u hu hdup hhd, hi]

/-- **C83 (references elsewhere).** When a path among the definitions is removed, elements that do not refer to it are
not changed. -/
theorem tidy_others (svg hd : Nat) (new : Text) (s : State D P A) (h x : Nat)
    (hx : ∀ i, (s.heap h).id = some i → (s.heap x).href ≠ some (35 :: i) ∧ (s.heap x).xlink ≠ some (35 :: i)) :
    (tidy svg hd new s h).heap x = s.heap x := by
  unfold tidy
  split
  · split
    · rfl
    · rename_i i hi
      obtain ⟨h1, h2⟩ := hx i hi
      simp only
      split
      · unfold retarget
        split
        · rename_i u hu
          rw [if_neg (fun h => h1 (by rw [hu, h]))]
        · rw [if_neg h2]
      · rfl
  · rfl

end Verif.Reuse
