import Verif.Gradients.Walk

/-! # C75: gradients of one stop are replaced by their colour -/

namespace Verif.Gradients

open Verif.Names (Str)

variable {C V S : Type}

/-- A document with one `svg` element, where elements have different numbers and gradients contain no gradients. -/
structure Single (doc : List (Node C V)) : Prop where
  shape : ∃ ls h e ks rs, doc = ls ++ .elem h .svg e ks :: rs ∧ elems ls = [] ∧ elems rs = [] ∧ ∀ n ∈ elems ks, ¬ IsSvg n
  numbers : ((tags doc).map Prod.fst).Nodup
  flat : ∀ h e ks, .elem h .gradient e ks ∈ elems doc → servers ks = []

theorem walk_leaves (ord : List Nat → List Nat) (p : Option Nat) (s : State C V) : ∀ (l m : List (Node C V)), elems l = [] →
    walk ord p (l ++ m) s = walk ord p m s
  | [], _, _ => rfl
  | .leaf v sh :: l, m, h => by
    rw [elems] at h
    rw [List.cons_append, walk, walk_leaves ord p s l m h]
  | .elem .. :: _, _, h => by simp [elems] at h

theorem elems_append (l m : List (Node C V)) : elems (l ++ m) = elems l ++ elems m := by
  induction l using forest with
  | nil => simp [elems]
  | leaf v s ns ih => simp [elems, ih]
  | elem h k e ks ns _ ih => simp [elems, ih]

theorem tags_append (l m : List (Node C V)) : tags (l ++ m) = tags l ++ tags m := by
  induction l using forest with
  | nil => simp [tags]
  | leaf v s ns ih => simp [tags, ih]
  | elem h k e ks ns _ ih => simp [tags, ih]

theorem mem_gone {doc : List (Node C V)} {g : Nat} : ∀ {l : List (Node C V)}, g ∈ gone doc l ↔ ∃ e ks, .elem g .gradient e ks ∈ l ∧ fate doc e ks ≠ .stays
  | [] => by simp [gone]
  | .leaf v s :: ns => by
    rw [gone, mem_gone (l := ns)]
    · simp
    · intro h e ks e'; cases e'
  | .elem h k e ks :: ns => by
    by_cases hk : k = .gradient
    · subst hk
      simp only [gone]
      cases hf : fate doc e ks with
      | stays =>
        simp only
        rw [mem_gone (l := ns)]
        constructor
        · rintro ⟨e', ks', h1, h2⟩; exact ⟨e', ks', .tail _ h1, h2⟩
        · rintro ⟨e', ks', h1, h2⟩
          cases h1 with
          | head => exact absurd hf h2
          | tail _ h1 => exact ⟨e', ks', h1, h2⟩
      | goes =>
        simp only [List.mem_cons]
        rw [mem_gone (l := ns)]
        constructor
        · rintro (rfl | ⟨e', ks', h1, h2⟩)
          · exact ⟨e, ks, .inl rfl, by rw [hf]; simp⟩
          · exact ⟨e', ks', .inr h1, h2⟩
        · rintro ⟨e', ks', h1, h2⟩
          rcases h1 with h1 | h1
          · cases h1; exact .inl rfl
          · exact .inr ⟨e', ks', h1, h2⟩
      | turns c =>
        simp only [List.mem_cons]
        rw [mem_gone (l := ns)]
        constructor
        · rintro (rfl | ⟨e', ks', h1, h2⟩)
          · exact ⟨e, ks, .inl rfl, by rw [hf]; simp⟩
          · exact ⟨e', ks', .inr h1, h2⟩
        · rintro ⟨e', ks', h1, h2⟩
          rcases h1 with h1 | h1
          · cases h1; exact .inl rfl
          · exact .inr ⟨e', ks', h1, h2⟩
    · have : gone doc (.elem h k e ks :: ns) = gone doc ns := by cases k <;> first | exact absurd rfl hk | rfl
      rw [this, mem_gone (l := ns)]
      constructor
      · rintro ⟨e', ks', h1, h2⟩; exact ⟨e', ks', .tail _ h1, h2⟩
      · rintro ⟨e', ks', h1, h2⟩
        cases h1 with
        | head => exact absurd rfl hk
        | tail _ h1 => exact ⟨e', ks', h1, h2⟩

/-- **C75 (exactly what happens)**: the job never fails for such documents. The gradients that are left are those that were neither turned into a
colour nor had a template that is missing; the paints of all other elements are changed by the changes, one after the other. -/
theorem run_single (ord : List Nat → List Nat) (doc : List (Node C V)) (hd : Single doc) : ∃ out, run ord true doc = some out ∧
    servers out = (servers doc).filter (fun s => !(gone doc (elems doc)).contains s.h) ∧
    lasting out = (lasting doc).map (fun x => (x.1, x.2.map (applied (changes doc (elems doc))))) := by
  obtain ⟨⟨ls, h, e, ks, rs, hdoc, hls, hrs, hks⟩, hnum, hflat⟩ := hd
  have hel : elems doc = .elem h .svg e ks :: elems ks := by rw [hdoc, elems_append, hls, elems, hrs]; simp
  have hgone : gone doc (elems doc) = gone doc (elems ks) := by rw [hel]; rfl
  have hchanges : changes doc (elems doc) = changes doc (elems ks) := by rw [hel]; rfl
  have htags : ∀ x ∈ tags ks, x ∈ tags doc := by
    intro x hx
    rw [hdoc, tags_append, tags]
    exact List.mem_append_right _ (.tail _ (List.mem_append_left _ hx))
  generalize hs0 : (⟨doc, [], [], [], 0⟩ : State C V) = s0
  have hs1 : ∃ n, enter none h .svg e ks s0 = { s0 with count := n } := by
    simp only [enter]
    split
    · exact ⟨_, rfl⟩
    · exact ⟨s0.count, rfl⟩
  obtain ⟨n, hs1⟩ := hs1
  obtain ⟨a1, a2, a3, a4⟩ := fold_after doc (events none ks) (events_defs doc ks none (fun g hg => by simp at hg) htags) (fun p => p) { s0 with count := n }
    (by rw [paint_id]; subst hs0; rfl)
  rw [events_elems, ← hchanges] at a1
  have hwalk : walk ord none ks (enter none h .svg e ks s0) = some ((events none ks).foldl step { s0 with count := n }) := by
    rw [walk_events ord ks hks, hs1]
  generalize hs2 : (events none ks).foldl step { s0 with count := n } = s2 at a1 a2 a3 a4 hwalk
  have a3 := a3 (by subst hs0; exact Nat.zero_le _)
  have a4 := a4 (by subst hs0; intro g hg; cases hg)
  have hrun : run ord true doc = (leave ord h s2).map State.doc := by
    unfold run
    rw [if_pos rfl, hs0]
    conv => lhs; rw [hdoc, walk_leaves ord none s0 ls _ hls, walk, if_neg (by decide), hwalk]
    have : ∀ s, walk ord none rs s = some s := fun s => by
      have := walk_leaves ord none s rs [] hrs
      rw [List.append_nil, walk] at this
      exact this
    simp only [if_pos, this, Option.bind_eq_bind, Option.bind_some]
    cases leave ord h s2 <;> rfl
  rw [hrun]
  unfold leave
  simp only [if_pos a3, Option.map_some, Option.some.injEq, exists_eq_left']
  have hdet : ∀ g, (s2.detached.map Prod.fst).contains g = (gone doc (elems doc)).contains g := by
    intro g
    have := a2 g
    rw [events_elems, ← hgone] at this
    subst hs0
    simp only [List.map_nil, List.not_mem_nil, or_false] at this
    rw [Bool.eq_iff_iff, List.contains_iff_mem, List.contains_iff_mem]
    exact this
  have hgk : ∀ g ∈ gone doc (elems doc), (g, Kind.gradient) ∈ tags doc := by
    intro g hg
    obtain ⟨e, ks, hm, _⟩ := mem_gone.1 hg
    exact elems_tags _ _ _ _ _ hm
  generalize hD : detach (fun g => (s2.detached.map Prod.fst).contains g) s2.doc = D
  have hsD : servers D = (servers doc).filter (fun s => !(gone doc (elems doc)).contains s.h) := by
    rw [← hD, a1]
    rw [servers_detach]
    · rw [servers_paint]
      congr 1
      funext s
      rw [hdet]
    · rintro ⟨g, k⟩ hx hk
      simp only at hk
      subst hk
      rw [tags_paint] at hx
      rw [hdet]
      cases hc : (gone doc (elems doc)).contains g with
      | false => rfl
      | true =>
        rw [List.contains_iff_mem] at hc
        cases tags_unique hnum hx (hgk g hc)
    · intro m hm
      rw [elems_paint, List.mem_map] at hm
      obtain ⟨m', hm', rfl⟩ := hm
      cases m' with
      | leaf => trivial
      | elem g k e' ks' =>
        intro hg
        simp only at hg
        rw [hdet, List.contains_iff_mem] at hg
        rw [servers_paint]
        have := tags_unique hnum (elems_tags _ _ _ _ _ hm') (hgk g hg)
        subst this
        exact hflat _ _ _ hm'
  have hlD : lasting D = (lasting doc).map (fun x => (x.1, x.2.map (applied (changes doc (elems doc))))) := by
    rw [← hD, a1, lasting_detach, lasting_paint]
    intro m hm
    rw [elems_paint, List.mem_map] at hm
    obtain ⟨m', hm', rfl⟩ := hm
    cases m' with
    | leaf => trivial
    | elem g k e' ks' =>
      intro hg
      simp only at hg
      rw [hdet, List.contains_iff_mem] at hg
      exact .inl (tags_unique hnum (elems_tags _ _ _ _ _ hm') (hgk g hg))
  have htD : (tags D).Sublist (tags doc) := by
    rw [← hD, a1]
    exact (tags_detach _ _).trans (by rw [tags_paint]; exact List.Sublist.refl _)
  split
  · obtain ⟨r1, r2, _⟩ := cleanDefs_same doc s2.affected hnum a4 (ord s2.defs) (undeclare h D) (by rw [tags_undeclare]; exact htD)
    exact ⟨r1.trans ((servers_undeclare h D).trans hsD), r2.trans ((lasting_undeclare h D).trans hlD)⟩
  · obtain ⟨r1, r2, _⟩ := cleanDefs_same doc s2.affected hnum a4 (ord s2.defs) D htD
    exact ⟨r1.trans hsD, r2.trans hlD⟩

/-- **C75 (off)**: if the job is off, nothing changes. -/
theorem run_off (ord : List Nat → List Nat) (doc : List (Node C V)) : run ord false doc = some doc := rfl

/-! ## What paints look like -/

theorem mem_servers {s : Server V} (l : List (Node C V)) : s ∈ servers l ↔ ∃ h e ks, .elem h .gradient e ks ∈ elems l ∧
    s = ⟨h, e.id, e.href.or e.xlink, stopsOf ks⟩ := by
  induction l using forest with
  | nil => simp [servers, elems]
  | leaf v sh ns ih => simp only [servers, elems, ih]
  | elem h k e ks ns ih1 ih2 =>
    simp only [servers, elems, List.mem_append, List.mem_cons, ih1, ih2]
    constructor
    · rintro (hg | ⟨a, b, c, d, e⟩ | ⟨a, b, c, d, e⟩)
      · by_cases hk : k = .gradient
        · rw [if_pos hk, List.mem_singleton] at hg
          subst hk
          exact ⟨h, e, ks, .inl rfl, hg⟩
        · rw [if_neg hk] at hg; cases hg
      · exact ⟨a, b, c, .inr (.inl d), e⟩
      · exact ⟨a, b, c, .inr (.inr d), e⟩
    · rintro ⟨a, b, c, d, e⟩
      rcases d with d | d | d
      · cases d
        exact .inl (by simp [e])
      · exact .inr (.inl ⟨a, b, c, d, e⟩)
      · exact .inr (.inr ⟨a, b, c, d, e⟩)

theorem elems_atDepth (l : List (Node C V)) (x : Node C V) : x ∈ elems l ↔ ∃ n, x ∈ atDepth n l := by
  have app : ∀ (n : Nat) (l m : List (Node C V)), atDepth n (l ++ m) = atDepth n l ++ atDepth n m := by
    intro n
    induction n with
    | zero => simp [atDepth]
    | succ n ih => simp [atDepth, ih]
  induction l using forest with
  | nil =>
    have : ∀ n, atDepth n ([] : List (Node C V)) = [] := fun n => by induction n <;> simp_all [atDepth]
    simp [elems, this]
  | leaf v s ns ih =>
    have ih : x ∈ elems ns ↔ ∃ n, x ∈ atDepth n ns := ih
    rw [elems, ih]
    have : ∀ n, atDepth n (.leaf v s :: ns) = atDepth n ns := fun n => by cases n <;> simp [atDepth, isElem, kids]
    simp [this]
  | elem h k e ks ns ih1 ih2 =>
    have ih1 : x ∈ elems ks ↔ ∃ n, x ∈ atDepth n ks := ih1
    have ih2 : x ∈ elems ns ↔ ∃ n, x ∈ atDepth n ns := ih2
    rw [elems, List.mem_cons, List.mem_append, ih1, ih2]
    constructor
    · rintro (rfl | ⟨n, hn⟩ | ⟨n, hn⟩)
      · exact ⟨0, by simp [atDepth, isElem]⟩
      · exact ⟨n + 1, by simp only [atDepth, List.flatMap_cons, kids, app]; exact List.mem_append_left _ hn⟩
      · refine ⟨n, ?_⟩
        rw [← List.singleton_append, app]
        exact List.mem_append_right _ hn
    · rintro ⟨n, hn⟩
      rw [← List.singleton_append, app, List.mem_append] at hn
      rcases hn with hn | hn
      · cases n with
        | zero => exact .inl (List.mem_singleton.1 (List.mem_filter.1 hn).1)
        | succ n => exact .inr (.inl ⟨n, by simpa [atDepth, kids] using hn⟩)
      · exact .inr (.inr ⟨n, hn⟩)

theorem atDepth_bound (n : Nat) : ∀ (l : List (Node C V)) (x : Node C V), x ∈ atDepth n l → n < (elems l).length := by
  have len : ∀ l : List (Node C V), (elems (l.flatMap kids)).length + (l.filter isElem).length = (elems l).length := by
    intro l
    induction l with
    | nil => simp [elems]
    | cons n ns ih =>
      cases n with
      | leaf => simpa [kids, isElem, elems] using ih
      | elem h k e ks =>
        simp only [List.flatMap_cons, kids, elems_append, elems, List.length_append, List.length_cons, List.filter_cons, isElem, if_true]
        omega
  induction n with
  | zero =>
    intro l x hx
    have := len l
    have h2 : 0 < (l.filter isElem).length := List.length_pos_of_mem hx
    omega
  | succ n ih =>
    intro l x hx
    simp only [atDepth] at hx
    have h1 := ih _ _ hx
    have h2 := len l
    have h3 : 0 < (l.filter isElem).length := by
      cases hf : l.filter isElem with
      | cons a b => simp
      | nil =>
        rw [List.filter_eq_nil_iff] at hf
        have : l.flatMap kids = [] := by
          rw [List.flatMap_eq_nil_iff]
          intro y hy
          cases y with
          | leaf => rfl
          | elem => exact absurd rfl (hf _ hy)
        rw [this] at h1
        simp [elems] at h1
    omega

theorem mem_breadthFirst {doc : List (Node C V)} {x : Node C V} : x ∈ breadthFirst doc ↔ x ∈ elems doc := by
  unfold breadthFirst
  rw [List.mem_flatMap, elems_atDepth]
  constructor
  · rintro ⟨n, _, h⟩; exact ⟨n, h⟩
  · rintro ⟨n, h⟩; exact ⟨n, List.mem_range.2 (atDepth_bound n doc x h), h⟩

/-- A document whose gradients can be replaced: ids are unique; a gradient has at most one template, and without stops of its own it has one with stops
or none; if there is only one stop, its colour is found, and is all there is to see of it. -/
structure Good (plain : C → S) (look : V → S) (doc : List (Node C V)) : Prop where
  single : Single doc
  ids : ((elems doc).filterMap idOf).Nodup
  one : ∀ h e ks, .elem h .gradient e ks ∈ elems doc → e.href = none ∨ e.xlink = none
  template : ∀ s ∈ servers doc, s.stops = [] → ∀ i, s.link = some (35 :: i) → ∃ t ∈ servers doc, t.id = some i ∧ t.stops ≠ []
  color : ∀ h e ks, .elem h .gradient e ks ∈ elems doc → ∀ h' k' e' ks', ks.filter isStop = [.elem h' k' e' ks'] → ∃ c, e'.color = some c ∧ plain c = look e'.rest

theorem unique_id {α : Type} {f : α → Option Str} {l : List α} (h : (l.filterMap f).Nodup) {a b : α} {i : Str} (ha : a ∈ l) (hb : b ∈ l)
    (hfa : f a = some i) (hfb : f b = some i) : a = b := by
  induction l with
  | nil => cases ha
  | cons x l ih =>
    have hl : (l.filterMap f).Nodup := by
      rw [List.filterMap_cons] at h
      split at h
      · exact h
      · exact (List.nodup_cons.1 h).2
    have key : ∀ y ∈ l, f x = some i → f y = some i → False := by
      intro y hy hx hfy
      rw [List.filterMap_cons, hx] at h
      exact (List.nodup_cons.1 h).1 (List.mem_filterMap.2 ⟨y, hy, hfy⟩)
    cases ha with
    | head =>
      cases hb with
      | head => rfl
      | tail _ hb => exact (key _ hb hfa hfb).elim
    | tail _ ha =>
      cases hb with
      | head => exact (key _ ha hfb hfa).elim
      | tail _ hb => exact ih hl ha hb

theorem stopsOf_filter : ∀ ks : List (Node C V), ∃ l : List (Nat × Elem C V × List (Node C V)),
    ks.filter isStop = l.map (fun x => .elem x.1 .stop x.2.1 x.2.2) ∧ stopsOf ks = l.map fun x => x.2.1.rest
  | [] => ⟨[], by simp [stopsOf]⟩
  | .leaf v s :: ns => by
    obtain ⟨l, h1, h2⟩ := stopsOf_filter ns
    exact ⟨l, by simp [isStop, h1], by simp [stopsOf, h2]⟩
  | .elem h k e ks :: ns => by
    obtain ⟨l, h1, h2⟩ := stopsOf_filter ns
    by_cases hk : k = .stop
    · subst hk
      exact ⟨(h, e, ks) :: l, by rw [List.filter_cons_of_pos rfl, h1]; rfl, by simp [stopsOf, h2]⟩
    · exact ⟨l, by rw [List.filter_cons_of_neg (by cases k <;> simp_all [isStop]), h1], by cases k <;> simp_all [stopsOf]⟩

section
variable {plain : C → S} {look : V → S} {doc : List (Node C V)}

theorem unique_server (g : Good plain look doc) {s t : Server V} {i : Str} (hs : s ∈ servers doc) (ht : t ∈ servers doc) (his : s.id = some i)
    (hit : t.id = some i) : s = t := by
  obtain ⟨h, e, ks, hm, rfl⟩ := (mem_servers doc).1 hs
  obtain ⟨h', e', ks', hm', rfl⟩ := (mem_servers doc).1 ht
  have := unique_id g.ids hm hm' his hit
  cases this
  rfl

/-- What becomes of the stops of an effective node. -/
theorem own_fate (g : Good plain look doc) {h : Nat} {e : Elem C V} {ks : List (Node C V)} (hm : .elem h .gradient e ks ∈ elems doc) :
    (∀ v, stopsOf ks = [v] → ∃ stop c, ks.filter isStop = [stop] ∧ colorOf stop = some c ∧ plain c = look v) ∧
    ((∀ v, stopsOf ks ≠ [v]) → ∀ stop, ks.filter isStop ≠ [stop]) := by
  obtain ⟨l, h1, h2⟩ := stopsOf_filter ks
  constructor
  · intro v hv
    rw [h2] at hv
    match l, hv with
    | [x], hv =>
      rw [List.map_singleton] at h1 hv
      cases hv
      obtain ⟨c, hc, hp⟩ := g.color h e ks hm _ _ _ _ h1
      exact ⟨_, c, h1, hc, hp⟩
  · intro hv stop hs
    rw [h1] at hs
    match l, hs with
    | [x], hs => exact hv x.2.1.rest (by rw [h2]; rfl)

/-- The stops of a gradient, and what becomes of it. -/
theorem stops_fate (g : Good plain look doc) {h : Nat} {e : Elem C V} {ks : List (Node C V)} (hm : .elem h .gradient e ks ∈ elems doc) :
    ∃ l, Stops (servers doc) ⟨h, e.id, e.href.or e.xlink, stopsOf ks⟩ l ∧
      (∀ l', Stops (servers doc) ⟨h, e.id, e.href.or e.xlink, stopsOf ks⟩ l' → l' = l) ∧
      (∀ v, l = [v] → ∃ c, fate doc e ks = .turns (some c) ∧ plain c = look v) ∧ ((∀ v, l ≠ [v]) → fate doc e ks = .stays) := by
  obtain ⟨m, h1, h2⟩ := stopsOf_filter ks
  have hsm : (⟨h, e.id, e.href.or e.xlink, stopsOf ks⟩ : Server V) ∈ servers doc := (mem_servers doc).2 ⟨h, e, ks, hm, rfl⟩
  have hor : e.xlink.or e.href = e.href.or e.xlink := by
    rcases g.one h e ks hm with h | h <;> simp [h]
  cases m with
  | cons x m =>
    have hne : stopsOf ks ≠ [] := by rw [h2]; simp
    refine ⟨stopsOf ks, .own hne, fun l' hl' => ?_, fun v hv => ?_, fun hv => ?_⟩
    · cases hl' with
      | own => rfl
      | via h => exact absurd h hne
      | bare h => exact absurd h hne
    · obtain ⟨stop, c, hs, hc, hp⟩ := (own_fate g hm).1 v hv
      refine ⟨c, ?_, hp⟩
      unfold fate effective
      rw [hs]
      simp only [hs, hc]
    · have := (own_fate g hm).2 hv
      unfold fate effective
      rw [h1] at this ⊢
      simp only [List.map_cons] at this ⊢
      rw [h1]
      cases m with
      | nil => exact absurd rfl (this _)
      | cons y m => rfl
  | nil =>
    have hnil : stopsOf ks = [] := by rw [h2]; rfl
    have hf : ks.filter isStop = [] := h1
    by_cases hl : ∃ i, e.href.or e.xlink = some (35 :: i)
    · obtain ⟨i, hl⟩ := hl
      obtain ⟨t, ht, hti, hts⟩ := g.template _ hsm hnil i hl
      obtain ⟨h', e', ks', hm', rfl⟩ := (mem_servers doc).1 ht
      have hfind : (breadthFirst doc).find? (fun n => decide (idOf n = some i)) = some (.elem h' .gradient e' ks') := by
        cases hx : (breadthFirst doc).find? (fun n => decide (idOf n = some i)) with
        | none =>
          rw [List.find?_eq_none] at hx
          exact absurd (decide_eq_true (show idOf (.elem h' .gradient e' ks') = some i from hti)) (hx _ (mem_breadthFirst.2 hm'))
        | some n =>
          have h3 := List.find?_some hx
          have h4 := List.mem_of_find?_eq_some hx
          rw [decide_eq_true_eq] at h3
          rw [unique_id g.ids (mem_breadthFirst.1 h4) hm' h3 hti]
      have heff : effective doc e ks = some ks' := by
        unfold effective
        simp only [hf, hor, hl, hfind, Option.map_some, kids]
      simp only at hts
      refine ⟨stopsOf ks', .via hnil hl ht hti (.own hts), fun l' hl' => ?_, fun v hv => ?_, fun hv => ?_⟩
      · cases hl' with
        | own h => exact absurd hnil h
        | @via _ t' j _ _ h4 h5 h6 h7 =>
          simp only at h4
          rw [hl] at h4
          cases h4
          rw [unique_server g h5 ht h6 hti] at h7
          cases h7 with
          | own => rfl
          | via h => exact absurd h hts
          | bare h => exact absurd h hts
        | bare _ h => exact absurd hti (h i hl _ ht)
      · obtain ⟨stop, c, hs, hc, hp⟩ := (own_fate g hm').1 v hv
        refine ⟨c, ?_, hp⟩
        unfold fate
        simp only [heff, hs, hc]
      · have := (own_fate g hm').2 hv
        unfold fate
        simp only [heff]
    · have hl' : ∀ i, e.href.or e.xlink ≠ some (35 :: i) := fun i hi => hl ⟨i, hi⟩
      refine ⟨[], .bare hnil fun i hi => absurd hi (hl' i), fun l' h' => ?_, fun v hv => (by cases hv), fun _ => ?_⟩
      · cases h' with
        | own h => exact absurd hnil h
        | via _ h => exact absurd h (hl' _)
        | bare => rfl
      · have heff : effective doc e ks = some ks := by
          unfold effective
          simp only [hf, hor]
        unfold fate
        simp only [heff, hf]

theorem applied_color (l : List (Str × C)) (c : C) : applied l (.color c : Paint C V) = .color c := by
  unfold applied
  induction l with
  | nil => rfl
  | cons x l ih => simpa [repaint] using ih

theorem applied_rest (l : List (Str × C)) (v : V) : applied l (.rest v : Paint C V) = .rest v := by
  unfold applied
  induction l with
  | nil => rfl
  | cons x l ih => simpa [repaint] using ih

theorem applied_url (l : List (Str × C)) (u : Str) (f : Option V) : applied l (.url u f : Paint C V) = .url u f ∧ (∀ x ∈ l, u ≠ 35 :: x.1) ∨
    ∃ x ∈ l, u = 35 :: x.1 ∧ applied l (.url u f : Paint C V) = .color x.2 := by
  induction l with
  | nil => exact .inl ⟨rfl, fun x h => by cases h⟩
  | cons x l ih =>
    by_cases hx : u = 35 :: x.1
    · refine .inr ⟨x, List.mem_cons_self, hx, ?_⟩
      have : applied (x :: l) (.url u f : Paint C V) = applied l (repaint x.1 x.2 (.url u f)) := rfl
      rw [this, repaint, if_pos hx, applied_color]
    · have : applied (x :: l) (.url u f : Paint C V) = applied l (.url u f) := by
        have : applied (x :: l) (.url u f : Paint C V) = applied l (repaint x.1 x.2 (.url u f)) := rfl
        rw [this, repaint, if_neg hx]
      rw [this]
      rcases ih with ⟨h1, h2⟩ | ⟨y, h1, h2⟩
      · refine .inl ⟨h1, fun y hy => ?_⟩
        cases hy with
        | head => exact hx
        | tail _ hy => exact h2 y hy
      · exact .inr ⟨y, .tail _ h1, h2⟩

theorem mem_changes {i : Str} {c : C} : ∀ {l : List (Node C V)}, (i, c) ∈ changes doc l ↔
    ∃ h e ks, .elem h .gradient e ks ∈ l ∧ e.id = some i ∧ fate doc e ks = .turns (some c)
  | [] => by simp [changes]
  | .leaf v s :: ns => by
    have : changes doc (.leaf v s :: ns) = changes doc ns := rfl
    rw [this, mem_changes (l := ns)]
    simp
  | .elem h k e ks :: ns => by
    have skip : ((i, c) ∈ changes doc ns ∨ (k = .gradient ∧ e.id = some i ∧ fate doc e ks = .turns (some c))) ↔
        ∃ h' e' ks', .elem h' .gradient e' ks' ∈ Node.elem h k e ks :: ns ∧ e'.id = some i ∧ fate doc e' ks' = .turns (some c) := by
      rw [mem_changes (l := ns)]
      constructor
      · rintro (⟨a, b, d, h1, h2⟩ | ⟨rfl, h2⟩)
        · exact ⟨a, b, d, .tail _ h1, h2⟩
        · exact ⟨h, e, ks, List.mem_cons_self, h2⟩
      · rintro ⟨a, b, d, h1, h2⟩
        cases h1 with
        | head => exact .inr ⟨rfl, h2⟩
        | tail _ h1 => exact .inl ⟨a, b, d, h1, h2⟩
    rw [← skip]
    by_cases hk : k = .gradient
    · subst hk
      simp only [changes]
      cases hi : e.id with
      | none => simp
      | some j =>
        cases hf : fate doc e ks with
        | stays => simp
        | goes => simp
        | turns d =>
          cases d with
          | none => simp
          | some d =>
            simp only [List.mem_cons, Prod.mk.injEq, Option.some.injEq, true_and, Fate.turns.injEq]
            grind
    · have : changes doc (.elem h k e ks :: ns) = changes doc ns := by cases k <;> first | exact absurd rfl hk | rfl
      rw [this]
      simp [hk]

/-- The stops of a gradient that stays are the same for the gradients that are left. -/
theorem stops_left (g : Good plain look doc) {G : List (Server V)} (hG : G = (servers doc).filter fun s => !(gone doc (elems doc)).contains s.h)
    {s : Server V} (hs : s ∈ G) {l : List V} : Stops G s l ↔ Stops (servers doc) s l := by
  have mem : ∀ t, t ∈ G ↔ t ∈ servers doc ∧ t.h ∉ gone doc (elems doc) := by
    intro t
    rw [hG, List.mem_filter, Bool.not_eq_true', ← Bool.not_eq_true, List.contains_iff_mem]
  have stays : ∀ t ∈ servers doc, (∀ v, ¬ Stops (servers doc) t [v]) → t ∈ G := by
    intro t ht hv
    rw [mem]
    refine ⟨ht, fun hg => ?_⟩
    obtain ⟨h, e, ks, hm, rfl⟩ := (mem_servers doc).1 ht
    obtain ⟨e', ks', hm', hf⟩ := mem_gone.1 hg
    simp only at hm'
    obtain ⟨l', hl1, _, _, hl4⟩ := stops_fate g hm'
    obtain ⟨_, heq, hks⟩ := elems_one g.single.numbers hm hm'
    subst hks heq
    exact hf (hl4 fun v hl' => hv v (hl' ▸ hl1))
  have hdoc := (mem s).1 hs
  obtain ⟨h, e, ks, hm, hse⟩ := (mem_servers doc).1 hdoc.1
  have hstays : fate doc e ks = .stays := by
    cases hf : fate doc e ks with
    | stays => rfl
    | goes => exact absurd (mem_gone.2 ⟨e, ks, by rw [hse]; exact hm, by rw [hf]; simp⟩) hdoc.2
    | turns c => exact absurd (mem_gone.2 ⟨e, ks, by rw [hse]; exact hm, by rw [hf]; simp⟩) hdoc.2
  obtain ⟨l0, hl1, hl2, hl3, hl4⟩ := stops_fate g hm
  rw [← hse] at hl1 hl2
  have hv : ∀ v, l0 ≠ [v] := by
    intro v hv
    obtain ⟨c, hc, _⟩ := hl3 v hv
    rw [hstays] at hc
    cases hc
  have other : ∀ i, s.stops = [] → s.link = some (35 :: i) → ∃ t ∈ G, t.id = some i ∧ t.stops ≠ [] := by
    intro i hn hi
    obtain ⟨t, ht, hti, hts⟩ := g.template s hdoc.1 hn i hi
    refine ⟨t, stays t ht fun v hvt => ?_, hti, hts⟩
    exact hv v (hl2 _ (.via hn hi ht hti hvt)).symm
  constructor
  · intro h
    cases h with
    | own h => exact .own h
    | via h1 h2 h3 h4 h5 =>
      obtain ⟨t, ht, hti, hts⟩ := other _ h1 h2
      have := unique_server g ((mem _).1 h3).1 ((mem _).1 ht).1 h4 hti
      subst this
      cases h5 with
      | own h => exact .via h1 h2 ((mem _).1 h3).1 h4 (.own h)
      | via h => exact absurd h hts
      | bare h => exact absurd h hts
    | bare h1 h2 =>
      refine .bare h1 fun i hi => ?_
      obtain ⟨t, ht, hti, _⟩ := other i h1 hi
      exact absurd hti (h2 i hi t ht)
  · intro h
    cases h with
    | own h => exact .own h
    | via h1 h2 h3 h4 h5 =>
      obtain ⟨t, ht, hti, hts⟩ := other _ h1 h2
      have := unique_server g h3 ((mem _).1 ht).1 h4 hti
      subst this
      cases h5 with
      | own h => exact .via h1 h2 ht h4 (.own h)
      | via h => exact absurd h hts
      | bare h => exact absurd h hts
    | bare h1 h2 => exact .bare h1 fun i hi t ht => h2 i hi t ((mem _).1 ht).1

/-- **C75 (paints look the same)**: the paint of every element that is not a gradient looks the same as before. Missing: documents that are not `Good`,
see the violations, and paints in style sheets. -/
theorem run_seen_partial (ord : List Nat → List Nat) (g : Good plain look doc) : ∃ out f, run ord true doc = some out ∧
    lasting out = (lasting doc).map (fun x => (x.1, x.2.map f)) ∧
    ∀ p x, Sees plain look (servers doc) p x ↔ Sees plain look (servers out) (f p) x := by
  obtain ⟨out, h1, h2, h3⟩ := run_single ord doc g.single
  refine ⟨out, _, h1, h3, fun p x => ?_⟩
  have mem : ∀ t, t ∈ servers out ↔ t ∈ servers doc ∧ t.h ∉ gone doc (elems doc) := by
    intro t
    rw [h2, List.mem_filter, Bool.not_eq_true', ← Bool.not_eq_true, List.contains_iff_mem]
  cases p with
  | color c =>
    rw [applied_color]
    constructor <;> (intro h; cases h; exact .color c)
  | rest v =>
    rw [applied_rest]
    constructor <;> (intro h; cases h; exact .rest v)
  | url u f =>
    rcases applied_url (changes doc (elems doc)) u f with ⟨ha, hn⟩ | ⟨⟨i, c⟩, hx, hu, ha⟩
    · rw [ha]
      by_cases hu : ∃ i, u = 35 :: i
      · obtain ⟨i, rfl⟩ := hu
        have left : ∀ t, t.id = some i → (t ∈ servers out ↔ t ∈ servers doc) := by
          intro t hti
          rw [mem]
          refine ⟨And.left, fun ht => ⟨ht, fun hg => ?_⟩⟩
          obtain ⟨h, e, ks, hm, rfl⟩ := (mem_servers doc).1 ht
          obtain ⟨e', ks', hm', hf⟩ := mem_gone.1 hg
          obtain ⟨_, rfl, rfl⟩ := elems_one g.single.numbers hm hm'
          obtain ⟨l, hl1, hl2, hl3, hl4⟩ := stops_fate g hm
          by_cases hl : ∃ v, l = [v]
          · obtain ⟨v, hv⟩ := hl
            obtain ⟨c, hc, _⟩ := hl3 v hv
            exact hn (i, c) (mem_changes.2 ⟨h, e, ks, hm, hti, hc⟩) rfl
          · exact hf (hl4 fun v hv => hl ⟨v, hv⟩)
        constructor
        · intro h
          cases h with
          | outside _ h => exact absurd rfl (h i)
          | missing _ h => exact .missing f fun t ht hti => h t ((left t hti).1 ht) hti
          | nothing _ ht hti hs => exact .nothing f ((left _ hti).2 ht) hti ((stops_left g h2 ((left _ hti).2 ht)).2 hs)
          | solid _ ht hti hs => exact .solid f ((left _ hti).2 ht) hti ((stops_left g h2 ((left _ hti).2 ht)).2 hs)
          | gradient _ ht hti hs => exact .gradient f ((left _ hti).2 ht) hti ((stops_left g h2 ((left _ hti).2 ht)).2 hs)
        · intro h
          cases h with
          | outside _ h => exact absurd rfl (h i)
          | missing _ h => exact .missing f fun t ht hti => h t ((left t hti).2 ht) hti
          | nothing _ ht hti hs => exact .nothing f ((left _ hti).1 ht) hti ((stops_left g h2 ht).1 hs)
          | solid _ ht hti hs => exact .solid f ((left _ hti).1 ht) hti ((stops_left g h2 ht).1 hs)
          | gradient _ ht hti hs => exact .gradient f ((left _ hti).1 ht) hti ((stops_left g h2 ht).1 hs)
      · have hu' : ∀ i, u ≠ 35 :: i := fun i hi => hu ⟨i, hi⟩
        constructor
        · intro h
          cases h with
          | outside => exact .outside f hu'
          | missing => exact absurd rfl (hu' _)
          | nothing => exact absurd rfl (hu' _)
          | solid => exact absurd rfl (hu' _)
          | gradient => exact absurd rfl (hu' _)
        · intro h
          cases h with
          | outside => exact .outside f hu'
          | missing => exact absurd rfl (hu' _)
          | nothing => exact absurd rfl (hu' _)
          | solid => exact absurd rfl (hu' _)
          | gradient => exact absurd rfl (hu' _)
    · simp only at hu
      subst hu
      rw [ha]
      simp only
      obtain ⟨h, e, ks, hm, hi, hf⟩ := mem_changes.1 hx
      obtain ⟨l, hl1, hl2, hl3, hl4⟩ := stops_fate g hm
      have hsm : (⟨h, e.id, e.href.or e.xlink, stopsOf ks⟩ : Server V) ∈ servers doc := (mem_servers doc).2 ⟨h, e, ks, hm, rfl⟩
      have hlv : ∃ v, l = [v] := by
        rcases Classical.em (∃ v, l = [v]) with h | h
        · exact h
        · rw [hl4 fun v hv => h ⟨v, hv⟩] at hf
          cases hf
      obtain ⟨v, rfl⟩ := hlv
      obtain ⟨c', hc', hp⟩ := hl3 v rfl
      rw [hf] at hc'
      cases hc'
      have only : ∀ t l', t ∈ servers doc → t.id = some i → Stops (servers doc) t l' → l' = [v] := by
        intro t l' ht hti hs
        have := unique_server g ht hsm hti hi
        subst this
        exact hl2 l' hs
      constructor
      · intro h
        cases h with
        | outside _ h => exact absurd rfl (h i)
        | missing _ h => exact absurd hi (h _ hsm)
        | nothing _ ht hti hs => cases only _ _ ht hti hs
        | solid _ ht hti hs =>
          cases only _ _ ht hti hs
          rw [← hp]
          exact .color c
        | gradient _ ht hti hs => cases only _ _ ht hti hs
      · intro h
        cases h
        rw [hp]
        exact .solid f hsm hi hl1

/-- **C75 (none is left)**: no gradient of one stop is left. -/
theorem run_none_left (ord : List Nat → List Nat) (g : Good plain look doc) (out : List (Node C V)) (h : run ord true doc = some out) :
    ∀ s ∈ servers out, ∀ v, ¬ Stops (servers out) s [v] := by
  obtain ⟨out', h1, h2, h3⟩ := run_single ord doc g.single
  rw [h] at h1
  cases h1
  intro s hs v hv
  have hv := (stops_left g h2 hs).1 hv
  rw [h2, List.mem_filter, Bool.not_eq_true', ← Bool.not_eq_true, List.contains_iff_mem] at hs
  obtain ⟨hs, hg⟩ := hs
  obtain ⟨h, e, ks, hm, rfl⟩ := (mem_servers doc).1 hs
  obtain ⟨l, hl1, hl2, hl3, hl4⟩ := stops_fate g hm
  obtain ⟨c, hc, _⟩ := hl3 v (hl2 _ hv).symm
  exact hg (mem_gone.2 ⟨e, ks, hm, by rw [hc]; simp⟩)

end

end Verif.Gradients
