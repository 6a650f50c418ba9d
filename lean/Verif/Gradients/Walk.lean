import Verif.Gradients.Lemmas

/-! # C75: the state after a walk, and what is left of the document -/

namespace Verif.Gradients

open Verif.Names (Str)

variable {C V S : Type}

/-- Numbers of `defs` in events. -/
def DefsIn (doc : List (Node C V)) (l : List Nat) : Prop := ∀ g ∈ l, (g, Kind.defs) ∈ tags doc

theorem enter_gradient (parent : Option Nat) (h : Nat) (e : Elem C V) (ks : List (Node C V)) (s : State C V) :
    enter parent h .gradient e ks s =
      match fate s.doc e ks with
      | .stays => { s with count := s.count + if e.xlink.isSome then 1 else 0 }
      | .goes => { s with count := s.count + (if e.xlink.isSome then 1 else 0), detached := (h, e.xlink.isSome) :: s.detached }
      | .turns c => { s with
          count := s.count + (if e.xlink.isSome then 1 else 0)
          detached := (h, e.xlink.isSome) :: s.detached
          affected := parent.toList ++ s.affected
          doc := match e.id, c with
            | some i, some c => update i c s.doc
            | _, _ => s.doc } := by
  unfold enter fate
  cases e.xlink.isSome <;> simp only [Bool.false_eq_true, if_false, if_true, Nat.add_zero]
  all_goals
    cases effective s.doc e ks with
    | none => rfl
    | some ks' =>
      simp only
      cases ks'.filter isStop with
      | nil => rfl
      | cons a l =>
        cases l with
        | cons b l => rfl
        | nil =>
          simp only
          cases parent <;> cases e.id <;> cases colorOf a <;> rfl

/-- The state after events. -/
structure After (doc : List (Node C V)) (l : List (Node C V)) (f : Paint C V → Paint C V) (s t : State C V) : Prop where
  document : t.doc = paint (fun p => applied (changes doc l) (f p)) doc
  detached : ∀ g, g ∈ t.detached.map Prod.fst ↔ g ∈ gone doc l ∨ g ∈ s.detached.map Prod.fst
  count : (s.detached.filter Prod.snd).length ≤ s.count → (t.detached.filter Prod.snd).length ≤ t.count
  affected : DefsIn doc s.affected → DefsIn doc t.affected

theorem fold_after (doc : List (Node C V)) : ∀ (es : List (Option Nat × Node C V)), (∀ x ∈ es, DefsIn doc x.1.toList) → ∀ (f : Paint C V → Paint C V)
    (s : State C V), s.doc = paint f doc → After doc (es.map Prod.snd) f s (es.foldl step s) := by
  intro es
  induction es with
  | nil => exact fun _ f s hs => ⟨hs, fun g => by simp [gone], fun h => h, fun h => h⟩
  | cons x es ih =>
    intro hp f s hs
    obtain ⟨parent, n⟩ := x
    have hp' : ∀ x ∈ es, DefsIn doc x.1.toList := fun x hx => hp x (.tail _ hx)
    have hpar : DefsIn doc parent.toList := hp _ List.mem_cons_self
    have key : ∀ (s' : State C V) (f' : Paint C V → Paint C V), s'.doc = paint f' doc →
        (∀ p, applied (changes doc (n :: es.map Prod.snd)) (f p) = applied (changes doc (es.map Prod.snd)) (f' p)) →
        (∀ g, (g ∈ gone doc (es.map Prod.snd) ∨ g ∈ s'.detached.map Prod.fst) ↔ g ∈ gone doc (n :: es.map Prod.snd) ∨ g ∈ s.detached.map Prod.fst) →
        ((s.detached.filter Prod.snd).length ≤ s.count → (s'.detached.filter Prod.snd).length ≤ s'.count) →
        (DefsIn doc s.affected → DefsIn doc s'.affected) →
        After doc (n :: es.map Prod.snd) f s (es.foldl step s') := by
      intro s' f' h1 h2 h3 h4 h5
      obtain ⟨a, b, c, d⟩ := ih hp' f' s' h1
      exact ⟨by rw [a]; congr 1; funext p; exact (h2 p).symm, fun g => (b g).trans (h3 g), fun h => c (h4 h), fun h => d (h5 h)⟩
    simp only [List.map_cons, List.foldl_cons]
    cases n with
    | leaf v sh => exact key s f hs (fun p => rfl) (fun g => Iff.rfl) id id
    | elem h k e ks =>
      have simple : ∀ (k : Kind), k ≠ .gradient →
          (∀ p : Paint C V, applied (changes doc (.elem h k e ks :: es.map Prod.snd)) (f p) = applied (changes doc (es.map Prod.snd)) (f p)) ∧
          gone doc (.elem h k e ks :: es.map Prod.snd) = gone doc (es.map Prod.snd) := by
        intro k hk
        cases k <;> first | exact absurd rfl hk | exact ⟨fun p => rfl, rfl⟩
      simp only [step]
      cases k with
      | gradient =>
        rw [enter_gradient]
        rw [hs, fate_paint]
        cases hf : fate doc e ks with
        | stays =>
          refine key _ f rfl (fun p => ?_) (fun g => ?_) (fun h => ?_) id
          · simp only [changes, hf]
            cases e.id <;> rfl
          · simp only [gone, hf]
          · exact Nat.le_trans h (Nat.le_add_right _ _)
        | goes =>
          refine key _ f rfl (fun p => ?_) (fun g => ?_) (fun h => ?_) id
          · simp only [changes, hf]
            cases e.id <;> rfl
          · simp only [gone, hf, List.map_cons, List.mem_cons]
            grind
          · simp only [List.filter_cons]
            cases e.xlink.isSome <;> simp <;> omega
        | turns c =>
          have hdet : ∀ g, (g ∈ gone doc (es.map Prod.snd) ∨ g ∈ ((h, e.xlink.isSome) :: s.detached).map Prod.fst) ↔
              g ∈ gone doc (.elem h .gradient e ks :: es.map Prod.snd) ∨ g ∈ s.detached.map Prod.fst := by
            intro g
            simp only [gone, hf, List.map_cons, List.mem_cons]
            grind
          have haff : DefsIn doc s.affected → DefsIn doc (parent.toList ++ s.affected) := by
            intro ha g hg
            rcases List.mem_append.1 hg with hg | hg
            · exact hpar g hg
            · exact ha g hg
          have hcount : (s.detached.filter Prod.snd).length ≤ s.count →
              (((h, e.xlink.isSome) :: s.detached).filter Prod.snd).length ≤ s.count + if e.xlink.isSome then 1 else 0 := by
            simp only [List.filter_cons]
            cases e.xlink.isSome <;> simp <;> omega
          cases hi : e.id with
          | none =>
            refine key _ f rfl (fun p => ?_) hdet hcount haff
            simp only [changes, hi]
          | some i =>
            cases c with
            | none =>
              refine key _ f rfl (fun p => ?_) hdet hcount haff
              simp only [changes, hi, hf]
            | some c =>
              refine key _ (fun p => repaint i c (f p)) ?_ (fun p => ?_) hdet hcount haff
              · simp only [update_paint, paint_paint]
              · simp only [changes, hi, hf]
                rfl
      | stop =>
        refine key _ f ?_ (simple .stop (by decide)).1 (fun g => by rw [(simple .stop (by decide)).2]; simp only [enter]; split <;> rfl) (fun h => ?_) ?_
        · simp only [enter]; split <;> exact hs
        · simp only [enter]; split <;> (try dsimp only) <;> omega
        · simp only [enter]; split <;> exact id
      | defs =>
        refine key _ f ?_ (simple .defs (by decide)).1 (fun g => by rw [(simple .defs (by decide)).2]; simp only [enter]; split <;> rfl) (fun h => ?_) ?_
        · simp only [enter]; split <;> exact hs
        · simp only [enter]; split <;> (try dsimp only) <;> omega
        · simp only [enter]; split <;> exact id
      | svg =>
        refine key _ f ?_ (simple .svg (by decide)).1 (fun g => by rw [(simple .svg (by decide)).2]; simp only [enter]; split <;> rfl) (fun h => ?_) ?_
        · simp only [enter]; split <;> exact hs
        · simp only [enter]; split <;> (try dsimp only) <;> omega
        · simp only [enter]; split <;> exact id
      | other =>
        refine key _ f ?_ (simple .other (by decide)).1 (fun g => by rw [(simple .other (by decide)).2]; simp only [enter]; split <;> rfl) (fun h => ?_) ?_
        · simp only [enter]; split <;> exact hs
        · simp only [enter]; split <;> (try dsimp only) <;> omega
        · simp only [enter]; split <;> exact id

theorem events_defs (doc : List (Node C V)) (l : List (Node C V)) : ∀ parent : Option Nat, DefsIn doc parent.toList → (∀ x ∈ tags l, x ∈ tags doc) →
    ∀ x ∈ events parent l, DefsIn doc x.1.toList := by
  induction l using forest with
  | nil => intro _ _ _ x hx; simp [events] at hx
  | leaf v s ns ih =>
    intro p hp ht x hx
    rw [tags] at ht
    rw [events] at hx
    exact ih p hp ht x hx
  | elem h k e ks ns ih1 ih2 =>
    intro p hp ht x hx
    rw [tags] at ht
    rw [events] at hx
    rcases List.mem_cons.1 hx with hx | hx
    · subst hx; exact hp
    · rcases List.mem_append.1 hx with hx | hx
      · refine ih1 _ ?_ (fun y hy => ht y (.tail _ (List.mem_append_left _ hy))) x hx
        split
        · next hk =>
          subst hk
          intro g hg
          simp only [Option.toList_some, List.mem_singleton] at hg
          subst hg
          exact ht _ List.mem_cons_self
        · intro g hg
          simp at hg
      · exact ih2 p hp (fun y hy => ht y (.tail _ (List.mem_append_right _ hy))) x hx

/-! ## What stays the same -/

theorem stopsOf_paint (f : Paint C V → Paint C V) : ∀ l : List (Node C V), stopsOf (paint f l) = stopsOf l
  | [] => by simp [paint]
  | .leaf v s :: ns => by simp [paint, stopsOf, stopsOf_paint f ns]
  | .elem h k e ks :: ns => by cases k <;> simp [paint, stopsOf, stopsOf_paint f ns]

theorem servers_paint (f : Paint C V → Paint C V) (l : List (Node C V)) : servers (paint f l) = servers l := by
  induction l using forest with
  | nil => simp [paint]
  | leaf v s ns ih => simp [paint, servers, ih]
  | elem h k e ks ns ih1 ih2 => simp [paint, servers, ih1, ih2, stopsOf_paint]

theorem tags_paint (f : Paint C V → Paint C V) (l : List (Node C V)) : tags (paint f l) = tags l := by
  induction l using forest with
  | nil => simp [paint]
  | leaf v s ns ih => simp [paint, tags, ih]
  | elem h k e ks ns ih1 ih2 => simp [paint, tags, ih1, ih2]

theorem lasting_paint (f : Paint C V → Paint C V) (l : List (Node C V)) :
    lasting (paint f l) = (lasting l).map fun x => (x.1, x.2.map f) := by
  induction l using forest with
  | nil => simp [paint, lasting]
  | leaf v s ns ih => simp [paint, lasting, ih]
  | elem h k e ks ns ih1 ih2 => cases k <;> simp [paint, lasting, ih1, ih2]

theorem stopsOf_undeclare (g : Nat) : ∀ l : List (Node C V), stopsOf (undeclare g l) = stopsOf l
  | [] => by simp [undeclare]
  | .leaf v s :: ns => by simp [undeclare, stopsOf, stopsOf_undeclare g ns]
  | .elem h k e ks :: ns => by
    cases k <;> simp [undeclare, stopsOf, stopsOf_undeclare g ns]
    split <;> rfl

theorem servers_undeclare (g : Nat) (l : List (Node C V)) : servers (undeclare g l) = servers l := by
  induction l using forest with
  | nil => simp [undeclare]
  | leaf v s ns ih => simp [undeclare, servers, ih]
  | elem h k e ks ns ih1 ih2 =>
    simp only [undeclare, servers, ih1, ih2, stopsOf_undeclare]
    congr 2
    split <;> rfl

theorem tags_undeclare (g : Nat) (l : List (Node C V)) : tags (undeclare g l) = tags l := by
  induction l using forest with
  | nil => simp [undeclare]
  | leaf v s ns ih => simp [undeclare, tags, ih]
  | elem h k e ks ns ih1 ih2 => simp [undeclare, tags, ih1, ih2]

theorem lasting_undeclare (g : Nat) (l : List (Node C V)) : lasting (undeclare g l) = lasting l := by
  induction l using forest with
  | nil => simp [undeclare]
  | leaf v s ns ih => simp [undeclare, lasting, ih]
  | elem h k e ks ns ih1 ih2 =>
    have : (if h = g then { e with decl := false } else e : Elem C V).paints = e.paints := by split <;> rfl
    cases k <;> simp only [undeclare, lasting, ih1, ih2, this]

/-! ## Detaching -/

theorem tags_detach (p : Nat → Bool) (l : List (Node C V)) : (tags (detach p l)).Sublist (tags l) := by
  induction l using forest with
  | nil => simp [detach]
  | leaf v s ns ih => simpa [detach, tags] using ih
  | elem h k e ks ns ih1 ih2 =>
    rw [detach]
    split
    · rw [tags]
      exact (ih2.trans (List.sublist_append_right _ _)).cons _
    · rw [tags, tags]
      exact (ih1.append ih2).cons_cons _

theorem stopsOf_detach (p : Nat → Bool) : ∀ l : List (Node C V), (∀ x ∈ tags l, x.2 = .stop → p x.1 = false) → stopsOf (detach p l) = stopsOf l
  | [], _ => by simp [detach]
  | .leaf v s :: ns, hp => by
    rw [tags] at hp
    simp [detach, stopsOf, stopsOf_detach p ns hp]
  | .elem h k e ks :: ns, hp => by
    rw [tags] at hp
    have ih := stopsOf_detach p ns fun x hx => hp x (.tail _ (List.mem_append_right _ hx))
    rw [detach]
    by_cases hk : k = .stop
    · subst hk
      have := hp _ List.mem_cons_self rfl
      simp only at this
      rw [this]
      simp [stopsOf, ih]
    · split
      · cases k <;> simp_all [stopsOf]
      · cases k <;> simp_all [stopsOf]

/-- Elements with a property contain no gradients. -/
def Empties (p : Nat → Bool) (l : List (Node C V)) : Prop := ∀ n ∈ elems l, match n with
  | .leaf _ _ => True
  | .elem h _ _ ks => p h = true → servers ks = []

theorem servers_detach (p : Nat → Bool) (l : List (Node C V)) : (∀ x ∈ tags l, x.2 = .stop → p x.1 = false) → Empties p l →
    servers (detach p l) = (servers l).filter fun s => !p s.h := by
  induction l using forest with
  | nil => intros; simp [detach, servers]
  | leaf v s ns ih =>
    intro h1 h2
    rw [tags] at h1
    rw [Empties, elems] at h2
    simp [detach, servers, ih h1 h2]
  | elem h k e ks ns ih1 ih2 =>
    intro h1 h2
    rw [tags] at h1
    rw [Empties, elems] at h2
    have h3 : ∀ x ∈ tags ks, x.2 = .stop → p x.1 = false := fun x hx => h1 x (.tail _ (List.mem_append_left _ hx))
    have h4 : ∀ x ∈ tags ns, x.2 = .stop → p x.1 = false := fun x hx => h1 x (.tail _ (List.mem_append_right _ hx))
    have h5 : Empties p ks := fun n hn => h2 n (.tail _ (List.mem_append_left _ hn))
    have h6 : Empties p ns := fun n hn => h2 n (.tail _ (List.mem_append_right _ hn))
    have h7 := h2 _ List.mem_cons_self
    simp only at h7
    rw [detach]
    split
    · next hp =>
      rw [ih2 h4 h6, servers, h7 hp]
      by_cases hk : k = .gradient <;> simp [hk, hp]
    · next hp =>
      rw [servers, servers, ih1 h3 h5, ih2 h4 h6, stopsOf_detach p ks h3]
      by_cases hk : k = .gradient <;> simp [hk, hp]

/-- Elements with a property are gradients, or `defs` where nothing lasts. -/
def Passing (p : Nat → Bool) (l : List (Node C V)) : Prop := ∀ n ∈ elems l, match n with
  | .leaf _ _ => True
  | .elem h k _ ks => p h = true → k = .gradient ∨ k = .defs ∧ lasting ks = []

theorem lasting_detach (p : Nat → Bool) (l : List (Node C V)) : Passing p l → lasting (detach p l) = lasting l := by
  induction l using forest with
  | nil => intros; simp [detach]
  | leaf v s ns ih =>
    intro h2
    rw [Passing, elems] at h2
    simp [detach, lasting, ih h2]
  | elem h k e ks ns ih1 ih2 =>
    intro h2
    rw [Passing, elems] at h2
    have h5 : Passing p ks := fun n hn => h2 n (.tail _ (List.mem_append_left _ hn))
    have h6 : Passing p ns := fun n hn => h2 n (.tail _ (List.mem_append_right _ hn))
    have h7 := h2 _ List.mem_cons_self
    simp only at h7
    rw [detach]
    split
    · next hp =>
      rw [ih2 h6]
      rcases h7 hp with hk | ⟨hk, hl⟩
      · subst hk; simp [lasting]
      · subst hk; simp [lasting, hl]
    · cases k <;> simp [lasting, ih1 h5, ih2 h6]

/-! ## Numbers -/

/-- The number and kind of a node. -/
theorem elems_tags (l : List (Node C V)) : ∀ h k e ks, .elem h k e ks ∈ elems l → (h, k) ∈ tags l := by
  induction l using forest with
  | nil => intro h k e ks hm; simp [elems] at hm
  | leaf v s ns ih =>
    intro h k e ks hm
    rw [elems] at hm
    rw [tags]
    exact ih h k e ks hm
  | elem h k e ks ns ih1 ih2 =>
    intro h' k' e' ks' hm
    rw [elems] at hm
    rw [tags]
    rcases List.mem_cons.1 hm with hm | hm
    · cases hm; exact List.mem_cons_self
    · rcases List.mem_append.1 hm with hm | hm
      · exact .tail _ (List.mem_append_left _ (ih1 _ _ _ _ hm))
      · exact .tail _ (List.mem_append_right _ (ih2 _ _ _ _ hm))

theorem tags_unique {l : List (Nat × Kind)} (h : (l.map Prod.fst).Nodup) {g : Nat} {k k' : Kind} (h1 : (g, k) ∈ l) (h2 : (g, k') ∈ l) : k = k' := by
  induction l with
  | nil => cases h1
  | cons x l ih =>
    rw [List.map_cons, List.nodup_cons] at h
    cases h1 with
    | head =>
      cases h2 with
      | head => rfl
      | tail _ h2 => exact absurd (List.mem_map_of_mem (f := Prod.fst) h2) h.1
    | tail _ h1 =>
      cases h2 with
      | head => exact absurd (List.mem_map_of_mem (f := Prod.fst) h1) h.1
      | tail _ h2 => exact ih h.2 h1 h2

theorem elems_one {l : List (Node C V)} (hn : ((tags l).map Prod.fst).Nodup) {h : Nat} {k k' : Kind} {e e' : Elem C V} {ks ks' : List (Node C V)}
    (h1 : .elem h k e ks ∈ elems l) (h2 : .elem h k' e' ks' ∈ elems l) : k = k' ∧ e = e' ∧ ks = ks' := by
  have same : ∀ l : List (Node C V), (tags l).map Prod.fst = (elems l).filterMap fun n => match n with
      | .leaf _ _ => none
      | .elem h _ _ _ => some h := by
    intro l
    induction l using forest with
    | nil => simp [tags, elems]
    | leaf v s ns ih => simp [tags, elems, ih]
    | elem h k e ks ns ih1 ih2 => simp [tags, elems, ih1, ih2]
  rw [same] at hn
  generalize elems l = m at hn h1 h2
  induction m with
  | nil => cases h1
  | cons x m ih =>
    cases x with
    | leaf v s =>
      simp only [List.filterMap_cons] at hn
      cases h1 with
      | tail _ h1 =>
        cases h2 with
        | tail _ h2 => exact ih hn h1 h2
    | elem a b c d =>
      simp only [List.filterMap_cons, List.nodup_cons, List.mem_filterMap, not_exists, not_and] at hn
      cases h1 with
      | head =>
        cases h2 with
        | head => exact ⟨rfl, rfl, rfl⟩
        | tail _ h2 => exact absurd rfl (hn.1 _ h2)
      | tail _ h1 =>
        cases h2 with
        | head => exact absurd rfl (hn.1 _ h1)
        | tail _ h2 => exact ih hn.2 h1 h2

theorem hollow_kids {ks : List (Node C V)} (h : ks.any isElem = false) : servers ks = [] ∧ lasting ks = [] := by
  induction ks with
  | nil => simp [servers, lasting]
  | cons n ns ih =>
    cases n with
    | leaf v s =>
      have := ih (by simpa [isElem] using h)
      simpa [servers, lasting] using this
    | elem => simp [isElem] at h

theorem cleanDefs_same (doc : List (Node C V)) (affected : List Nat) (hu : ((tags doc).map Prod.fst).Nodup) (ha : DefsIn doc affected) : ∀ (gs : List Nat)
    (cur : List (Node C V)), (tags cur).Sublist (tags doc) → servers (cleanDefs affected gs cur) = servers cur ∧
      lasting (cleanDefs affected gs cur) = lasting cur ∧ (tags (cleanDefs affected gs cur)).Sublist (tags doc) := by
  intro gs
  induction gs with
  | nil => exact fun cur h => ⟨rfl, rfl, h⟩
  | cons g gs ih =>
    intro cur hsub
    rw [cleanDefs]
    split
    · next hc =>
      simp only [Bool.and_eq_true] at hc
      obtain ⟨hh, haf⟩ := hc
      have haf := ha g (by simpa using haf)
      have hcu : ((tags cur).map Prod.fst).Nodup := (hsub.map Prod.fst).nodup hu
      unfold hollow at hh
      rw [List.any_eq_true] at hh
      obtain ⟨n, hn, hc⟩ := hh
      cases n with
      | leaf => simp at hc
      | elem h k e ks =>
        simp only [Bool.and_eq_true, decide_eq_true_eq, Bool.not_eq_true'] at hc
        obtain ⟨rfl, hks⟩ := hc
        have hd : ∀ k e ks', .elem h k e ks' ∈ elems cur → ks' = ks ∧ k = .defs := fun k' e' ks' hm =>
          ⟨(elems_one hcu hm hn).2.2, tags_unique hu (hsub.subset (elems_tags _ _ _ _ _ hm)) haf⟩
        obtain ⟨hs, hl⟩ := hollow_kids hks
        have e1 : servers (detach (fun g => decide (g = h)) cur) = servers cur := by
          rw [servers_detach]
          · rw [List.filter_eq_self]
            intro s hs
            have mem : ∀ (l : List (Node C V)), s ∈ servers l → ∃ e ks, .elem s.h .gradient e ks ∈ elems l := by
              intro l
              induction l using forest with
              | nil => intro h; simp [servers] at h
              | leaf v sh ns ih =>
                intro h
                rw [servers] at h
                rw [elems]
                exact ih h
              | elem h k e ks ns ih1 ih2 =>
                intro hm
                rw [servers] at hm
                rw [elems]
                rcases List.mem_append.1 hm with hg | hm
                · by_cases hk : k = .gradient
                  · rw [if_pos hk, List.mem_singleton] at hg
                    subst hk hg
                    exact ⟨e, ks, List.mem_cons_self⟩
                  · rw [if_neg hk] at hg
                    cases hg
                · rcases List.mem_append.1 hm with hm | hm
                  · obtain ⟨e, ks, hm⟩ := ih1 hm
                    exact ⟨e, ks, .tail _ (List.mem_append_left _ hm)⟩
                  · obtain ⟨e, ks, hm⟩ := ih2 hm
                    exact ⟨e, ks, .tail _ (List.mem_append_right _ hm)⟩
            obtain ⟨e', ks', hm⟩ := mem cur hs
            rw [Bool.not_eq_true', decide_eq_false_iff_not]
            intro he
            rw [he] at hm
            cases (hd _ _ _ hm).2
          · rintro ⟨a, b⟩ hx hb
            simp only at hb
            subst hb
            rw [decide_eq_false_iff_not]
            rintro rfl
            cases tags_unique hu (hsub.subset hx) haf
          · intro n hm
            cases n with
            | leaf => trivial
            | elem h' k' e' ks' =>
              intro hp
              rw [decide_eq_true_eq] at hp
              subst hp
              rw [(hd _ _ _ hm).1]
              exact hs
        have e2 : lasting (detach (fun g => decide (g = h)) cur) = lasting cur := by
          apply lasting_detach
          intro n hm
          cases n with
          | leaf => trivial
          | elem h' k' e' ks' =>
            intro hp
            rw [decide_eq_true_eq] at hp
            subst hp
            obtain ⟨h1, h2⟩ := hd _ _ _ hm
            exact .inr ⟨h2, by rw [h1]; exact hl⟩
        obtain ⟨r1, r2, r3⟩ := ih _ ((tags_detach (fun g => decide (g = h)) cur).trans hsub)
        exact ⟨r1.trans e1, r2.trans e2, r3⟩
    · exact ih cur hsub

end Verif.Gradients
