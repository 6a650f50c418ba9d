import Verif.MoveAttrs.Spec

/-!
# C28: moving attributes between group and children
-/

namespace Verif.MoveAttrs

open Verif.Tree Verif.Names

set_option linter.unusedSectionVars false

variable {K V X N C : Type} [DecidableEq K] [DecidableEq V] [DecidableEq X] [DecidableEq N]

/-! ## The view, by recursion on the tree -/

/-- What is seen of one element in a context. -/
def lookAt (act : K → V → C → C) (c : Ctx K X C) (n : EName) (as : List (GAttr K V X N)) : Option (Seen K V X N C) :=
  if n.is "g" then none else some ⟨n, rest as, (c.enter act as).vals, (c.enter act as).total⟩

mutual
def view (act : K → V → C → C) (c : Ctx K X C) : Node (GAttr K V X N) → List (Seen K V X N C)
  | .elem n as ks => (lookAt act c n as).toList ++ viewAll act (c.enter act as) ks
  | .text _ => []
  | .css _ => []
  | .comment _ => []
  | .pi _ _ => []
def viewAll (act : K → V → C → C) (c : Ctx K X C) : List (Node (GAttr K V X N)) → List (Seen K V X N C)
  | [] => []
  | n :: ns => view act c n ++ viewAll act c ns
end

mutual
theorem view_lines (act : K → V → C → C) (c : Ctx K X C) (n : Node (GAttr K V X N)) (anc : List (Node (GAttr K V X N))) :
    (n.lines anc).filterMap (look act c) = view act (ctxOf act c anc) n := by
  match n with
  | .elem nm as ks =>
    have ih := viewAll_lines act c ks (.elem nm as ks :: anc)
    simp only [Node.lines, List.filterMap_cons, ih, view]
    simp only [look, lookAt]
    cases nm.is "g" <;> simp [ctxOf]
  | .text s => simp [Node.lines, look, view]
  | .css s => simp [Node.lines, look, view]
  | .comment s => simp [Node.lines, look, view]
  | .pi t d => simp [Node.lines, look, view]
theorem viewAll_lines (act : K → V → C → C) (c : Ctx K X C) (ns : List (Node (GAttr K V X N)))
    (anc : List (Node (GAttr K V X N))) :
    (linesAll anc ns).filterMap (look act c) = viewAll act (ctxOf act c anc) ns := by
  match ns with
  | [] => simp [linesAll, viewAll]
  | n :: ns => simp only [linesAll, List.filterMap_append, view_lines, viewAll_lines, viewAll]
end

theorem seen_eq (act : K → V → C → C) (c : Ctx K X C) (doc : List (Node (GAttr K V X N))) :
    seen act c doc = viewAll act c doc := viewAll_lines act c doc []

/-! ## Lookups after edits -/

theorem getNamed_cons (i : GId K N) (a : GAttr K V X N) (as : List (GAttr K V X N)) :
    getNamed i (a :: as) = if a.id = i then some a else getNamed i as := by
  unfold getNamed
  rw [List.find?_cons]
  by_cases h : a.id = i
  · simp [h]
  · have : (a.id == i) = false := by simp [h]
    simp [this, h]

/-- The value of a presentation attribute. -/
def presValue : GAttr K V X N → Option V
  | .pres _ v => some v
  | _ => none

/-- The value of a transform attribute. -/
def transValue : GAttr K V X N → Option (TVal X)
  | .transform t => some t
  | _ => none

theorem attributed_get (k : K) (as : List (GAttr K V X N)) :
    attributed k as = (getNamed (.pres k) as).bind presValue := by
  induction as with
  | nil => rfl
  | cons a as ih =>
    rw [getNamed_cons]
    unfold attributed at ih ⊢
    rw [List.findSome?_cons]
    cases a with
    | pres k' v =>
      by_cases h : k' = k
      · simp [h, GAttr.id, presValue]
      · simp only [h, if_false, GAttr.id, GId.pres.injEq]
        exact ih
    | _ => simp only [GAttr.id, reduceCtorEq, if_false]; exact ih

theorem attributedT_get (as : List (GAttr K V X N)) :
    attributedT as = (getNamed .transform as).bind transValue := by
  induction as with
  | nil => rfl
  | cons a as ih =>
    rw [getNamed_cons]
    unfold attributedT at ih ⊢
    rw [List.findSome?_cons]
    cases a with
    | transform t => simp [GAttr.id, transValue]
    | _ => simp only [GAttr.id, reduceCtorEq, if_false]; exact ih

theorem getNamed_set (i : GId K N) (b : GAttr K V X N) (as : List (GAttr K V X N)) :
    getNamed i (setNamed b as) = if b.id = i then some b else getNamed i as := by
  induction as with
  | nil =>
    by_cases h : b.id = i <;> simp [setNamed, getNamed, h]
  | cons a as ih =>
    unfold getNamed at ih ⊢
    simp only [setNamed]
    by_cases h : a.id = b.id
    · simp only [h, beq_self_eq_true, if_true, List.find?_cons]
      by_cases hb : b.id = i
      · simp [hb]
      · have : (b.id == i) = false := by simp [hb]
        simp [this, hb]
    · have hab : (a.id == b.id) = false := by simp [h]
      simp only [hab, Bool.false_eq_true, if_false, List.find?_cons, ih]
      by_cases hb : b.id = i
      · have : (a.id == i) = false := by simp [← hb, h]
        simp [this, hb]
      · simp [hb]

/-- The names of the attributes are different. -/
def Distinct (as : List (GAttr K V X N)) : Prop := (as.map GAttr.id).Nodup

theorem getNamed_remove (i j : GId K N) (as : List (GAttr K V X N)) (hd : Distinct as) :
    getNamed i (removeNamed j as) = if j = i then none else getNamed i as := by
  induction as with
  | nil => simp [removeNamed, getNamed]
  | cons a as ih =>
    unfold Distinct at hd
    rw [List.map_cons, List.nodup_cons] at hd
    have ih := ih hd.2
    unfold getNamed removeNamed at ih ⊢
    by_cases ha : a.id = j
    · have hj : (a.id == j) = true := by simp [ha]
      rw [List.eraseP_cons_of_pos (by simp [ha])]
      by_cases h : j = i
      · simp only [h, if_true]
        rw [List.find?_eq_none]
        intro x hx
        have : x.id ≠ a.id := fun e => hd.1 (by rw [← e]; exact List.mem_map_of_mem hx)
        simp only [beq_iff_eq]
        rw [← h, ← ha]
        exact this
      · have : (a.id == i) = false := by simp [ha, h]
        simp [List.find?_cons, this, h]
    · rw [List.eraseP_cons_of_neg (by simp [ha]), List.find?_cons, List.find?_cons, ih]
      by_cases h : j = i
      · have : (a.id == i) = false := by simp [← h, ha]
        simp [this, h]
      · simp [h]

theorem distinct_remove (j : GId K N) (as : List (GAttr K V X N)) (hd : Distinct as) : Distinct (removeNamed j as) :=
  List.Nodup.sublist (List.Sublist.map _ (List.eraseP_sublist)) hd

theorem set_ids (b : GAttr K V X N) (as : List (GAttr K V X N)) :
    ∀ i, i ∈ (setNamed b as).map GAttr.id ↔ i = b.id ∨ i ∈ as.map GAttr.id := by
  intro i
  induction as with
  | nil => simp [setNamed]
  | cons a as ih =>
    simp only [setNamed]
    by_cases h : a.id = b.id
    · simp [h]
    · have hab : (a.id == b.id) = false := by simp [h]
      simp only [hab, Bool.false_eq_true, if_false, List.map_cons, List.mem_cons, ih]
      constructor
      · rintro (h | h | h)
        · exact Or.inr (Or.inl h)
        · exact Or.inl h
        · exact Or.inr (Or.inr h)
      · rintro (h | h | h)
        · exact Or.inr (Or.inl h)
        · exact Or.inl h
        · exact Or.inr (Or.inr h)

theorem distinct_set (b : GAttr K V X N) (as : List (GAttr K V X N)) (hd : Distinct as) : Distinct (setNamed b as) := by
  induction as with
  | nil => simp [Distinct, setNamed]
  | cons a as ih =>
    unfold Distinct at *
    rw [List.map_cons, List.nodup_cons] at hd
    simp only [setNamed]
    by_cases h : a.id = b.id
    · simp only [h, beq_self_eq_true, if_true, List.map_cons, List.nodup_cons]
      exact ⟨by rw [← h]; exact hd.1, hd.2⟩
    · have hab : (a.id == b.id) = false := by simp [h]
      simp only [hab, Bool.false_eq_true, if_false, List.map_cons, List.nodup_cons, set_ids]
      exact ⟨fun hx => hx.elim h hd.1, ih hd.2⟩

/-- Removing a presentation attribute or the transform does not touch the rest. -/
theorem rest_remove (j : GId K N) (hj : (∃ k, j = .pres k) ∨ j = .transform) (as : List (GAttr K V X N)) :
    rest (removeNamed j as) = rest as := by
  induction as with
  | nil => rfl
  | cons a as ih =>
    unfold removeNamed at ih ⊢
    by_cases ha : a.id = j
    · rw [List.eraseP_cons_of_pos (by simp [ha])]
      unfold rest
      rw [List.filter_cons_of_neg]
      subst ha
      rcases hj with ⟨k, h⟩ | h <;> cases a <;> simp_all [GAttr.id]
    · rw [List.eraseP_cons_of_neg (by simp [ha])]
      unfold rest at ih ⊢
      rw [List.filter_cons, List.filter_cons, ih]

theorem rest_set (b : GAttr K V X N) (hb : movable b = true) (as : List (GAttr K V X N)) :
    rest (setNamed b as) = rest as := by
  have h0 : ∀ l : List (GAttr K V X N), rest (b :: l) = rest l := by
    intro l
    unfold rest
    rw [List.filter_cons_of_neg]
    cases b <;> simp_all [movable]
  induction as with
  | nil => exact h0 []
  | cons a as ih =>
    simp only [setNamed]
    by_cases h : a.id = b.id
    · simp only [h, beq_self_eq_true, if_true, h0]
      unfold rest
      rw [List.filter_cons_of_neg]
      cases b <;> cases a <;> simp_all [movable, GAttr.id]
    · have hab : (a.id == b.id) = false := by simp [h]
      simp only [hab, Bool.false_eq_true, if_false]
      unfold rest at ih ⊢
      rw [List.filter_cons, List.filter_cons, ih]

theorem declared_rest (k : K) (as : List (GAttr K V X N)) : declared k as = declared k (rest as) := by
  induction as with
  | nil => rfl
  | cons a as ih =>
    unfold declared rest at *
    cases a <;> simp_all [List.findSome?_cons]

theorem declaredT_rest (as : List (GAttr K V X N)) : declaredT as = declaredT (rest as) := by
  induction as with
  | nil => rfl
  | cons a as ih =>
    unfold declaredT rest at *
    cases a <;> simp_all [List.findSome?_cons]

theorem movable_id {m : GAttr K V X N} (h : movable m = true) : (∃ k, m.id = .pres k) ∨ m.id = .transform := by
  cases m <;> simp_all [movable, GAttr.id]

/-! ## A child loses attributes -/

theorem lose_facts (ms : List (GAttr K V X N)) (hm : ∀ m ∈ ms, movable m = true) : ∀ (as : List (GAttr K V X N)),
    Distinct as → Distinct (loseAll ms as) ∧ rest (loseAll ms as) = rest as ∧
      ∀ i, getNamed i (loseAll ms as) = if i ∈ ms.map GAttr.id then none else getNamed i as := by
  induction ms with
  | nil => intro as hd; exact ⟨hd, rfl, fun i => by simp [loseAll]⟩
  | cons m ms ih =>
    intro as hd
    have hd' := distinct_remove m.id as hd
    obtain ⟨h1, h2, h3⟩ := ih (fun x hx => hm x (by simp [hx])) (removeNamed m.id as) hd'
    refine ⟨h1, ?_, ?_⟩
    · exact h2.trans (rest_remove _ (movable_id (hm m (by simp))) as)
    · intro i
      have := h3 i
      unfold loseAll at this ⊢
      rw [List.foldl_cons, this, getNamed_remove _ _ _ hd]
      by_cases hi : m.id = i
      · by_cases h' : i ∈ ms.map GAttr.id <;> simp [hi, h']
      · have : i ≠ m.id := fun e => hi e.symm
        simp [hi, this]

/-! ## The group is given attributes -/

theorem give_facts (m : GAttr K V X N) (hm : movable m = true) (as : List (GAttr K V X N)) (hd : Distinct as) :
    Distinct (give as m) ∧ rest (give as m) = rest as ∧
      (∀ i, i ≠ m.id → getNamed i (give as m) = getNamed i as) ∧
      (∀ k v, m = .pres k v → getNamed (.pres k) (give as m) = some (.pres k v)) ∧
      ∀ l, m = .transform (.defined l) → ∃ g, getNamed .transform (give as m) = some (.transform (.defined (g ++ l))) ∧
        (getNamed .transform as = some (.transform (.defined g)) ∨
          g = [] ∧ ∀ g', getNamed .transform as ≠ some (.transform (.defined g'))) := by
  have hset : ∀ b : GAttr K V X N, b.id = m.id → movable b = true →
      Distinct (setNamed b as) ∧ rest (setNamed b as) = rest as ∧
        (∀ i, i ≠ m.id → getNamed i (setNamed b as) = getNamed i as) ∧
        getNamed m.id (setNamed b as) = some b := by
    intro b hb hmb
    refine ⟨distinct_set b as hd, rest_set b hmb as, ?_, ?_⟩
    · intro i hi
      rw [getNamed_set, if_neg]
      rw [hb]
      exact fun e => hi e.symm
    · rw [getNamed_set, if_pos hb]
  cases m with
  | pres k v =>
    obtain ⟨h1, h2, h3, h4⟩ := hset (.pres k v) rfl rfl
    refine ⟨h1, h2, h3, ?_, by simp⟩
    intro k' v' e
    cases e
    exact h4
  | transform t =>
    cases t with
    | defined l =>
      simp only [give, extendTransform]
      cases hg : getNamed .transform as with
      | none =>
        obtain ⟨h1, h2, h3, h4⟩ := hset (.transform (.defined l)) rfl rfl
        refine ⟨h1, h2, h3, by simp, ?_⟩
        intro l' e
        cases e
        exact ⟨[], h4, Or.inr ⟨rfl, by simp⟩⟩
      | some a =>
        have ha : a.id = .transform := by
          have := List.find?_some hg
          simpa using this
        cases a with
        | transform t' =>
          cases t' with
          | defined g =>
            obtain ⟨h1, h2, h3, h4⟩ := hset (.transform (.defined (g ++ l))) rfl rfl
            refine ⟨h1, h2, h3, by simp, ?_⟩
            intro l' e
            cases e
            exact ⟨g, h4, Or.inl rfl⟩
          | inherit =>
            obtain ⟨h1, h2, h3, h4⟩ := hset (.transform (.defined l)) rfl rfl
            refine ⟨h1, h2, h3, by simp, ?_⟩
            intro l' e
            cases e
            exact ⟨[], h4, Or.inr ⟨rfl, by simp⟩⟩
          | unparsed s =>
            obtain ⟨h1, h2, h3, h4⟩ := hset (.transform (.defined l)) rfl rfl
            refine ⟨h1, h2, h3, by simp, ?_⟩
            intro l' e
            cases e
            exact ⟨[], h4, Or.inr ⟨rfl, by simp⟩⟩
        | _ => simp [GAttr.id] at ha
    | inherit =>
      obtain ⟨h1, h2, h3, h4⟩ := hset (.transform .inherit) rfl rfl
      exact ⟨h1, h2, h3, by simp, by simp⟩
    | unparsed s =>
      obtain ⟨h1, h2, h3, h4⟩ := hset (.transform (.unparsed s)) rfl rfl
      exact ⟨h1, h2, h3, by simp, by simp⟩
  | _ => simp [movable] at hm

theorem giveAll_facts (ms : List (GAttr K V X N)) : ∀ (as : List (GAttr K V X N)), (∀ m ∈ ms, movable m = true) →
    (ms.map GAttr.id).Nodup → Distinct as →
    Distinct (ms.foldl give as) ∧ rest (ms.foldl give as) = rest as ∧
      (∀ i, i ∉ ms.map GAttr.id → getNamed i (ms.foldl give as) = getNamed i as) ∧
      (∀ k v, .pres k v ∈ ms → getNamed (.pres k) (ms.foldl give as) = some (.pres k v)) ∧
      ∀ l, .transform (.defined l) ∈ ms → ∃ g,
        getNamed .transform (ms.foldl give as) = some (.transform (.defined (g ++ l))) ∧
        (getNamed .transform as = some (.transform (.defined g)) ∨
          g = [] ∧ ∀ g', getNamed .transform as ≠ some (.transform (.defined g'))) := by
  induction ms with
  | nil => intro as _ _ hd; exact ⟨hd, rfl, fun _ _ => rfl, by simp, by simp⟩
  | cons m ms ih =>
    intro as hm hn hd
    rw [List.map_cons, List.nodup_cons] at hn
    obtain ⟨g1, g2, g3, g4, g5⟩ := give_facts m (hm m (by simp)) as hd
    obtain ⟨h1, h2, h3, h4, h5⟩ := ih (give as m) (fun x hx => hm x (by simp [hx])) hn.2 g1
    rw [List.foldl_cons]
    refine ⟨h1, h2.trans g2, ?_, ?_, ?_⟩
    · intro i hi
      simp only [List.map_cons, List.mem_cons, not_or] at hi
      rw [h3 i hi.2, g3 i hi.1]
    · intro k v hk
      rcases List.mem_cons.1 hk with h | h
      · rw [h3 (.pres k) (by
          have : m.id = .pres k := by rw [← h]; rfl
          rw [← this]; exact hn.1)]
        exact g4 k v h.symm
      · exact h4 k v h
    · intro l hl
      rcases List.mem_cons.1 hl with h | h
      · rw [h3 .transform (by
          have : m.id = .transform := by rw [← h]; rfl
          rw [← this]; exact hn.1)]
        exact g5 l h.symm
      · obtain ⟨g, e1, e2⟩ := h5 l h
        refine ⟨g, e1, ?_⟩
        have : (GId.transform : GId K N) ≠ m.id := by
          intro e
          apply hn.1
          rw [← e]
          exact List.mem_map.2 ⟨_, h, rfl⟩
        rw [g3 .transform this] at e2
        exact e2

/-! ## The moved attributes -/

theorem common_spec {ks : List (Node (GAttr K V X N))} {a : GAttr K V X N} (h : a ∈ common ks) :
    movable a = true ∧ ∀ n as ks', .elem n as ks' ∈ ks → getNamed a.id as = some a := by
  unfold common at h
  split at h
  · simp at h
  · rename_i first rest' hc
    simp only [List.mem_filter, List.all_eq_true, beq_iff_eq] at h
    refine ⟨h.1.2, ?_⟩
    intro n as ks' hmem
    apply h.2
    rw [← hc]
    exact List.mem_filterMap.2 ⟨_, hmem, rfl⟩

theorem moved_sub {E : Env N} {as : List (GAttr K V X N)} {ks : List (Node (GAttr K V X N))} {a : GAttr K V X N}
    (h : a ∈ moved E as ks) : a ∈ common ks := by
  unfold moved at h
  split at h
  · exact (List.mem_filter.1 h).1
  · exact h

theorem moved_nodup (E : Env N) (as : List (GAttr K V X N)) (ks : List (Node (GAttr K V X N)))
    (hd : ∀ n as' ks', .elem n as' ks' ∈ ks → Distinct as') : ((moved E as ks).map GAttr.id).Nodup := by
  have hc : ((common ks).map GAttr.id).Nodup := by
    unfold common
    split
    · simp
    · rename_i first rest' hc
      have hf : first ∈ childAttrs ks := by rw [hc]; simp
      obtain ⟨x, hx, e⟩ := List.mem_filterMap.1 hf
      cases x with
      | elem n as' ks' =>
        simp only [elemAttrs, Option.some.injEq] at e
        subst e
        exact List.Nodup.sublist (List.Sublist.map _ ((List.filter_sublist).trans (List.filter_sublist))) (hd n as' ks' hx)
      | _ => simp [elemAttrs] at e
  unfold moved
  split
  · exact List.Nodup.sublist (List.Sublist.map _ List.filter_sublist) hc
  · exact hc

/-! ## One group -/

/-- The value forgets what is inherited. -/
def Absolute (act : K → V → C → C) (k : K) (v : V) : Prop := ∀ c c', act k v c = act k v c'

/-- What is asked of one group and its children: no `style` declaration on the group for an inherited property or
the transform; a moved value is absolute or the group does not set the property itself; where a child has an
attribute that is moved, its `style` declaration for the property, if any, is absolute, and it declares no
transform there; transforms are lists of functions, not `inherit` or unreadable text. -/
structure GroupOk (act : K → V → C → C) (as : List (GAttr K V X N)) (ks : List (Node (GAttr K V X N))) : Prop where
  distinct : Distinct as
  plain : ∀ k, declared k as = none
  plainT : declaredT as = none
  readable : ∀ t, attributedT as = some t → ∃ l, t = .defined l
  child : ∀ n as' ks', .elem n as' ks' ∈ ks →
    Distinct as' ∧ declaredT as' = none ∧ (∀ t, attributedT as' = some t → ∃ l, t = .defined l) ∧
    ∀ k v, attributed k as' = some v → (Absolute act k v ∨ attributed k as = none) ∧
      ∀ d, declared k as' = some d → Absolute act k d

theorem computed_rest (act : K → V → C → C) {as bs : List (GAttr K V X N)} (h : rest as = rest bs) (k : K) (c : C)
    (ha : attributed k as = attributed k bs) : computed act as k c = computed act bs k c := by
  unfold computed
  rw [declared_rest k as, declared_rest k bs, h, ha]

/-- The child of the group gives its children the same values and the same transforms as before. -/
theorem child_enter (act : K → V → C → C) (E : Env N) (c : Ctx K X C) {as : List (GAttr K V X N)}
    {ks : List (Node (GAttr K V X N))} (ok : GroupOk act as ks) {n : EName} {as' : List (GAttr K V X N)}
    {ks' : List (Node (GAttr K V X N))} (hmem : .elem n as' ks' ∈ ks) :
    let a := (c.enter act as).enter act as'
    let b := (c.enter act ((moved E as ks).foldl give as)).enter act (loseAll (moved E as ks) as')
    b.vals = a.vals ∧ b.total = a.total := by
  intro a b
  obtain ⟨hd', hT', hr', hv'⟩ := ok.child n as' ks' hmem
  have hmv : ∀ m ∈ moved E as ks, movable m = true := fun m hm => (common_spec (moved_sub hm)).1
  have hnd := moved_nodup E as ks fun n as' ks' h => (ok.child n as' ks' h).1
  obtain ⟨-, g2, g3, g4, g5⟩ := giveAll_facts (moved E as ks) as hmv hnd ok.distinct
  obtain ⟨-, l2, l3⟩ := lose_facts (moved E as ks) hmv as' hd'
  have hall : ∀ m ∈ moved E as ks, getNamed m.id as' = some m := fun m hm =>
    (common_spec (moved_sub hm)).2 n as' ks' hmem
  have ids : ∀ i, i ∈ (moved E as ks).map GAttr.id → ∃ m ∈ moved E as ks, m.id = i ∧ getNamed i as' = some m := by
    intro i hi
    obtain ⟨m, hm, e⟩ := List.mem_map.1 hi
    exact ⟨m, hm, e, by rw [← e]; exact hall m hm⟩
  constructor
  · funext k
    simp only [a, b, Ctx.enter]
    by_cases hk : GId.pres k ∈ (moved E as ks).map GAttr.id
    · obtain ⟨m, hm, e1, e2⟩ := ids _ hk
      cases m with
      | pres k' v =>
        simp only [GAttr.id, GId.pres.injEq] at e1
        subst e1
        have av : attributed k' as' = some v := by rw [attributed_get, e2]; rfl
        have ag : attributed k' ((moved E as ks).foldl give as) = some v := by rw [attributed_get, g4 k' v hm]; rfl
        have al : attributed k' (loseAll (moved E as ks) as') = none := by
          rw [attributed_get, l3, if_pos hk]; rfl
        have dg : declared k' ((moved E as ks).foldl give as) = none := by
          rw [declared_rest, g2, ← declared_rest]; exact ok.plain k'
        have dl : declared k' (loseAll (moved E as ks) as') = declared k' as' := by
          rw [declared_rest, l2, ← declared_rest]
        obtain ⟨habs, hdecl⟩ := hv' k' v av
        have hgroup : act k' v (computed act as k' (c.vals k')) = act k' v (c.vals k') := by
          rcases habs with h | h
          · exact h _ _
          · simp only [computed, ok.plain k', h]
        simp only [computed, dg, ag, dl, al, av] at hgroup ⊢
        cases hd : declared k' as' with
        | some d => exact hdecl d hd _ _
        | none => simp only; exact hgroup.symm
      | _ => simp [GAttr.id] at e1
    · have e1 : attributed k ((moved E as ks).foldl give as) = attributed k as := by
        rw [attributed_get, attributed_get, g3 _ hk]
      have e2 : attributed k (loseAll (moved E as ks) as') = attributed k as' := by
        rw [attributed_get, attributed_get, l3, if_neg hk]
      rw [computed_rest act l2 k _ e2, computed_rest act g2 k _ e1]
  · have tg : declaredT ((moved E as ks).foldl give as) = none := by
      rw [declaredT_rest, g2, ← declaredT_rest]; exact ok.plainT
    have tl : declaredT (loseAll (moved E as ks) as') = none := by
      rw [declaredT_rest, l2, ← declaredT_rest]; exact hT'
    simp only [a, b, Ctx.enter, ownT, tg, tl, hT', ok.plainT]
    by_cases hk : GId.transform ∈ (moved E as ks).map GAttr.id
    · obtain ⟨m, hm, e1, e2⟩ := ids _ hk
      cases m with
      | transform t =>
        have av : attributedT as' = some t := by rw [attributedT_get, e2]; rfl
        obtain ⟨l, rfl⟩ := hr' t av
        obtain ⟨g, e3, e4⟩ := g5 l hm
        have ag : attributedT ((moved E as ks).foldl give as) = some (.defined (g ++ l)) := by
          rw [attributedT_get, e3]; rfl
        have al : attributedT (loseAll (moved E as ks) as') = none := by
          rw [attributedT_get, l3, if_pos hk]; rfl
        have ao : (∃ o, attributedT as = o ∧ (o = some (.defined g) ∨ o = none ∧ g = [])) := by
          refine ⟨_, rfl, ?_⟩
          rcases e4 with e4 | ⟨e4, e5⟩
          · left; rw [attributedT_get, e4]; rfl
          · right
            refine ⟨?_, e4⟩
            cases hq : attributedT as with
            | none => rfl
            | some t' =>
              obtain ⟨l', rfl⟩ := ok.readable t' hq
              rw [attributedT_get] at hq
              obtain ⟨x, hx, hq⟩ := Option.bind_eq_some_iff.1 hq
              cases x with
              | transform t =>
                simp only [transValue, Option.some.injEq] at hq
                subst hq
                exact absurd hx (e5 l')
              | _ => simp [transValue] at hq
        obtain ⟨o, ho, hcase⟩ := ao
        rw [ag, al, av, ho]
        rcases hcase with rfl | ⟨rfl, rfl⟩ <;> simp
      | _ => simp [GAttr.id] at e1
    · have e1 : attributedT ((moved E as ks).foldl give as) = attributedT as := by
        rw [attributedT_get, attributedT_get, g3 _ hk]
      have e2 : attributedT (loseAll (moved E as ks) as') = attributedT as' := by
        rw [attributedT_get, attributedT_get, l3, if_neg hk]
      rw [e1, e2]

mutual
/-- No element below has `transform="inherit"`. -/
def NoInherit : Node (GAttr K V X N) → Prop
  | .elem _ as ks => attributedT as ≠ some .inherit ∧ NoInheritAll ks
  | .text _ => True
  | .css _ => True
  | .comment _ => True
  | .pi _ _ => True
def NoInheritAll : List (Node (GAttr K V X N)) → Prop
  | [] => True
  | n :: ns => NoInherit n ∧ NoInheritAll ns
end

theorem ownT_indep {as : List (GAttr K V X N)} (h : attributedT as ≠ some .inherit) (o o' : List X) :
    ownT o as = ownT o' as := by
  unfold ownT
  split
  · rfl
  · split <;> simp_all

theorem view_ctx (act : K → V → C → C) {c c' : Ctx K X C} (hv : c.vals = c'.vals) (ht : c.total = c'.total)
    (n : Node (GAttr K V X N)) (hn : NoInherit n) : view act c n = view act c' n := by
  cases n with
  | elem nm as ks =>
    have e := ownT_indep hn.1 c.own c'.own
    have : c.enter act as = c'.enter act as := by simp only [Ctx.enter, hv, ht, e]
    simp only [view, lookAt, this]
  | _ => rfl

theorem viewAll_ctx (act : K → V → C → C) {c c' : Ctx K X C} (hv : c.vals = c'.vals) (ht : c.total = c'.total)
    (ns : List (Node (GAttr K V X N))) (h : NoInheritAll ns) : viewAll act c ns = viewAll act c' ns := by
  induction ns with
  | nil => rfl
  | cons n ns ih => simp only [viewAll, view_ctx act hv ht n h.1, ih h.2]

/-- **C28 (children to group, one group)** When the job leaves a group that satisfies `GroupOk`, everything below
the group is seen as before: same elements in order, same other attributes, same values of all inherited
properties, same transforms. -/
theorem exitGroup_partial (act : K → V → C → C) (E : Env N) (c : Ctx K X C) (n : EName) (as : List (GAttr K V X N))
    (ks : List (Node (GAttr K V X N))) (hn : NoInheritAll ks) (ok : n.is "g" = true → GroupOk act as ks) :
    view act c (exitElement E n as ks) = view act c (.elem n as ks) := by
  unfold exitElement
  split
  · rfl
  · rename_i hg
    have hg : n.is "g" = true := by simpa using hg
    have ok := ok hg
    split
    · rfl
    · simp only [view, lookAt, hg, if_true, Option.toList_none, List.nil_append]
      have key : ∀ l : List (Node (GAttr K V X N)), (∀ x ∈ l, x ∈ ks) → NoInheritAll l →
          viewAll act (c.enter act ((moved E as ks).foldl give as)) (l.map (strip (moved E as ks))) =
            viewAll act (c.enter act as) l := by
        intro l
        induction l with
        | nil => intro _ _; rfl
        | cons x l ih =>
          intro hx hni
          simp only [List.map_cons, viewAll]
          rw [ih (fun y hy => hx y (by simp [hy])) hni.2]
          congr 1
          cases x with
          | elem n' as' ks' =>
            have hmem := hx (.elem n' as' ks') (by simp)
            obtain ⟨hv, ht⟩ := child_enter act E c ok hmem
            have hmv : ∀ m ∈ moved E as ks, movable m = true := fun m hm => (common_spec (moved_sub hm)).1
            obtain ⟨-, l2, -⟩ := lose_facts (moved E as ks) hmv as' (ok.child n' as' ks' hmem).1
            simp only [strip, view, lookAt, hv, ht, l2]
            rw [viewAll_ctx act hv ht ks' hni.1.2]
          | _ => rfl
      exact key ks (fun x hx => hx) hn

/-! ## A whole run, children to group -/

/-- The attributes of one element: distinct names, a readable transform, absolute values. -/
structure PlainAttrs (act : K → V → C → C) (as : List (GAttr K V X N)) : Prop where
  distinct : Distinct as
  readable : ∀ t, attributedT as = some t → ∃ l, t = .defined l
  attrs : ∀ k v, attributed k as = some v → Absolute act k v
  decls : ∀ k v, declared k as = some v → Absolute act k v

mutual
/-- What is asked of a document for `toGroup_partial`: every element has `PlainAttrs`; groups declare no inherited
property in `style`; groups and their children (`inG`) declare no transform in `style`. -/
def Plain (act : K → V → C → C) (inG : Bool) : Node (GAttr K V X N) → Prop
  | .elem n as ks => PlainAttrs act as ∧ (n.is "g" = true → ∀ k, declared k as = none) ∧
      ((inG || n.is "g") = true → declaredT as = none) ∧ PlainAll act (n.is "g") ks
  | .text _ => True
  | .css _ => True
  | .comment _ => True
  | .pi _ _ => True
def PlainAll (act : K → V → C → C) (inG : Bool) : List (Node (GAttr K V X N)) → Prop
  | [] => True
  | n :: ns => Plain act inG n ∧ PlainAll act inG ns
end

theorem PlainAll.mem {act : K → V → C → C} {b : Bool} {ns : List (Node (GAttr K V X N))} (h : PlainAll act b ns)
    {n : Node (GAttr K V X N)} (hn : n ∈ ns) : Plain act b n := by
  induction ns with
  | nil => simp at hn
  | cons m ns ih =>
    rcases List.mem_cons.1 hn with rfl | hn
    · exact h.1
    · exact ih h.2 hn

theorem PlainAll.map {act : K → V → C → C} {b : Bool} {f : Node (GAttr K V X N) → Node (GAttr K V X N)}
    {ns : List (Node (GAttr K V X N))} (hf : ∀ n ∈ ns, Plain act b (f n)) : PlainAll act b (ns.map f) := by
  induction ns with
  | nil => trivial
  | cons m ns ih => exact ⟨hf m (by simp), ih fun n hn => hf n (by simp [hn])⟩

mutual
theorem Plain.noInherit {act : K → V → C → C} {b : Bool} (n : Node (GAttr K V X N)) (h : Plain act b n) :
    NoInherit n := by
  match n, h with
  | .elem nm as ks, h =>
    refine ⟨?_, PlainAll.noInherit ks h.2.2.2⟩
    intro e
    obtain ⟨l, hl⟩ := h.1.readable _ e
    cases hl
  | .text _, _ => trivial
  | .css _, _ => trivial
  | .comment _, _ => trivial
  | .pi _ _, _ => trivial
theorem PlainAll.noInherit {act : K → V → C → C} {b : Bool} (ns : List (Node (GAttr K V X N)))
    (h : PlainAll act b ns) : NoInheritAll ns := by
  match ns, h with
  | [], _ => trivial
  | n :: ns, h => exact ⟨Plain.noInherit n h.1, PlainAll.noInherit ns h.2⟩
end

theorem Plain.groupOk {act : K → V → C → C} {b : Bool} {n : EName} {as : List (GAttr K V X N)}
    {ks : List (Node (GAttr K V X N))} (h : Plain act b (.elem n as ks)) (hg : n.is "g" = true) : GroupOk act as ks := by
  obtain ⟨h1, h2, h3, h4⟩ := h
  refine ⟨h1.distinct, h2 hg, h3 (by simp [hg]), h1.readable, ?_⟩
  intro n' as' ks' hmem
  obtain ⟨c1, c2, c3, c4⟩ := h4.mem hmem
  exact ⟨c1.distinct, c3 (by simp [hg]), c1.readable, fun k v hv => ⟨Or.inl (c1.attrs k v hv), fun d hd => c1.decls k d hd⟩⟩

/-- Losing attributes keeps an element plain. -/
theorem plain_lose {act : K → V → C → C} {b : Bool} {ms : List (GAttr K V X N)} (hm : ∀ m ∈ ms, movable m = true)
    {n : Node (GAttr K V X N)} (h : Plain act b n) : Plain act b (strip ms n) := by
  cases n with
  | elem nm as ks =>
    obtain ⟨h1, h2, h3, h4⟩ := h
    obtain ⟨l1, l2, l3⟩ := lose_facts ms hm as h1.distinct
    have dl : ∀ k, declared k (loseAll ms as) = declared k as := fun k => by
      rw [declared_rest, l2, ← declared_rest]
    have tl : declaredT (loseAll ms as) = declaredT as := by rw [declaredT_rest, l2, ← declaredT_rest]
    refine ⟨⟨l1, ?_, ?_, ?_⟩, ?_, ?_, h4⟩
    · intro t ht
      rw [attributedT_get, l3] at ht
      split at ht
      · simp at ht
      · exact h1.readable t (by rw [attributedT_get, ht])
    · intro k v hv
      rw [attributed_get, l3] at hv
      split at hv
      · simp at hv
      · exact h1.attrs k v (by rw [attributed_get, hv])
    · intro k v hv
      exact h1.decls k v (by rw [← dl, hv])
    · intro hg k
      rw [dl]
      exact h2 hg k
    · intro hg
      rw [tl]
      exact h3 hg
  | _ => trivial

theorem exit_plain {act : K → V → C → C} {b : Bool} (E : Env N) {n : EName} {as : List (GAttr K V X N)}
    {ks : List (Node (GAttr K V X N))} (h : Plain act b (.elem n as ks)) : Plain act b (exitElement E n as ks) := by
  unfold exitElement
  split
  · exact h
  · rename_i hg
    have hg : n.is "g" = true := by simpa using hg
    split
    · exact h
    · rename_i hl
      have ok := h.groupOk hg
      obtain ⟨h1, h2, h3, h4⟩ := h
      have hmv : ∀ m ∈ moved E as ks, movable m = true := fun m hm => (common_spec (moved_sub hm)).1
      have hnd := moved_nodup E as ks fun n as' ks' h => (ok.child n as' ks' h).1
      obtain ⟨g1, g2, g3, g4, g5⟩ := giveAll_facts (moved E as ks) as hmv hnd ok.distinct
      have dg : ∀ k, declared k ((moved E as ks).foldl give as) = declared k as := fun k => by
        rw [declared_rest, g2, ← declared_rest]
      have tg : declaredT ((moved E as ks).foldl give as) = declaredT as := by
        rw [declaredT_rest, g2, ← declaredT_rest]
      -- there is a first child
      have hex : ∃ n' as' ks', Node.elem n' as' ks' ∈ ks := by
        cases hc : childAttrs ks with
        | nil => simp [hc] at hl
        | cons a l =>
          have : a ∈ childAttrs ks := by rw [hc]; simp
          obtain ⟨x, hx, e⟩ := List.mem_filterMap.1 this
          cases x with
          | elem n' as' ks' => exact ⟨n', as', ks', hx⟩
          | _ => simp [elemAttrs] at e
      obtain ⟨n', as', ks', hmem⟩ := hex
      obtain ⟨c1, -, -, -⟩ := h4.mem hmem
      have hall : ∀ m ∈ moved E as ks, getNamed m.id as' = some m := fun m hm =>
        (common_spec (moved_sub hm)).2 n' as' ks' hmem
      refine ⟨⟨g1, ?_, ?_, ?_⟩, ?_, ?_, PlainAll.map fun x hx => plain_lose hmv (h4.mem hx)⟩
      · intro t ht
        by_cases hk : GId.transform ∈ (moved E as ks).map GAttr.id
        · obtain ⟨m, hm, e⟩ := List.mem_map.1 hk
          cases m with
          | transform t' =>
            have av : attributedT as' = some t' := by
              have := hall _ hm
              rw [attributedT_get]
              simp only [GAttr.id] at this
              rw [this]; rfl
            obtain ⟨l, rfl⟩ := c1.readable t' av
            obtain ⟨g, e3, -⟩ := g5 l hm
            rw [attributedT_get, e3] at ht
            exact ⟨g ++ l, by simpa [transValue] using ht.symm⟩
          | _ => simp [GAttr.id] at e
        · rw [attributedT_get, g3 _ hk, ← attributedT_get] at ht
          exact h1.readable t ht
      · intro k v hv
        by_cases hk : GId.pres k ∈ (moved E as ks).map GAttr.id
        · obtain ⟨m, hm, e⟩ := List.mem_map.1 hk
          cases m with
          | pres k' v' =>
            simp only [GAttr.id, GId.pres.injEq] at e
            subst e
            rw [attributed_get, g4 k' v' hm] at hv
            simp only [presValue, Option.bind_some, Option.some.injEq] at hv
            subst hv
            have := hall _ hm
            exact c1.attrs k' v' (by rw [attributed_get]; simp only [GAttr.id] at this; rw [this]; rfl)
          | _ => simp [GAttr.id] at e
        · rw [attributed_get, g3 _ hk, ← attributed_get] at hv
          exact h1.attrs k v hv
      · intro k v hv
        exact h1.decls k v (by rw [← dg, hv])
      · intro _ k
        rw [dg]
        exact h2 hg k
      · intro hb
        rw [tg]
        exact h3 hb

mutual
theorem toGroup_view (act : K → V → C → C) (E : Env N) {b : Bool} (n : Node (GAttr K V X N)) (h : Plain act b n) :
    Plain act b (toGroup E n) ∧ ∀ c, view act c (toGroup E n) = view act c n := by
  match n, h with
  | .elem nm as ks, h =>
    obtain ⟨h1, h2, h3, h4⟩ := h
    obtain ⟨i1, i2⟩ := toGroupAll_view act E ks h4
    have hp : Plain act b (.elem nm as (toGroupAll E ks)) := ⟨h1, h2, h3, i1⟩
    refine ⟨exit_plain E hp, ?_⟩
    intro c
    rw [toGroup, exitGroup_partial act E c nm as (toGroupAll E ks) (PlainAll.noInherit _ i1) fun hg => hp.groupOk hg]
    simp only [view, i2]
  | .text _, _ => exact ⟨trivial, fun _ => rfl⟩
  | .css _, _ => exact ⟨trivial, fun _ => rfl⟩
  | .comment _, _ => exact ⟨trivial, fun _ => rfl⟩
  | .pi _ _, _ => exact ⟨trivial, fun _ => rfl⟩
theorem toGroupAll_view (act : K → V → C → C) (E : Env N) {b : Bool} (ns : List (Node (GAttr K V X N)))
    (h : PlainAll act b ns) : PlainAll act b (toGroupAll E ns) ∧ ∀ c, viewAll act c (toGroupAll E ns) = viewAll act c ns := by
  match ns, h with
  | [], _ => exact ⟨trivial, fun _ => rfl⟩
  | n :: ns, h =>
    obtain ⟨a1, a2⟩ := toGroup_view act E n h.1
    obtain ⟨b1, b2⟩ := toGroupAll_view act E ns h.2
    exact ⟨⟨a1, b1⟩, fun c => by simp only [toGroupAll, viewAll, a2, b2]⟩
end

/-- **C28 (children to group, whole run)** For every document in which values are absolute, transforms are
readable lists, groups have no competing `style` declaration and neither groups nor their children declare a
transform in `style`: all elements that are not groups are seen as before, in the same order, with the same other
attributes, the same value of every inherited property and the same transforms from the root down. Missing
(and false, see below): competing `style` declarations, relative values and `inherit`, reuse of a child by `use`. -/
theorem toGroup_partial (act : K → V → C → C) (E : Env N) (c : Ctx K X C) (on stylesheet : Bool)
    (doc : List (Node (GAttr K V X N))) (h : PlainAll act false doc) :
    seen act c (moveElemsAttrs E on stylesheet doc) = seen act c doc := by
  unfold moveElemsAttrs
  split
  · rw [seen_eq, seen_eq]
    exact (toGroupAll_view act E doc h).2 c
  · rfl

/-! ## From the group to the children -/

mutual
/-- What is asked of a document for `toElems_partial`: distinct names, no `transform="inherit"`, and no transform
in `style` on groups and their children. -/
def Straight (inG : Bool) : Node (GAttr K V X N) → Prop
  | .elem n as ks => Distinct as ∧ attributedT as ≠ some .inherit ∧
      ((inG || n.is "g") = true → declaredT as = none) ∧ StraightAll (n.is "g") ks
  | .text _ => True
  | .css _ => True
  | .comment _ => True
  | .pi _ _ => True
def StraightAll (inG : Bool) : List (Node (GAttr K V X N)) → Prop
  | [] => True
  | n :: ns => Straight inG n ∧ StraightAll inG ns
end

mutual
theorem Straight.noInherit {b : Bool} (n : Node (GAttr K V X N)) (h : Straight b n) : NoInherit n := by
  match n, h with
  | .elem nm as ks, h => exact ⟨h.2.1, StraightAll.noInherit ks h.2.2.2⟩
  | .text _, _ => trivial
  | .css _, _ => trivial
  | .comment _, _ => trivial
  | .pi _ _, _ => trivial
theorem StraightAll.noInherit {b : Bool} (ns : List (Node (GAttr K V X N))) (h : StraightAll b ns) :
    NoInheritAll ns := by
  match ns, h with
  | [], _ => trivial
  | n :: ns, h => exact ⟨Straight.noInherit n h.1, StraightAll.noInherit ns h.2⟩
end

/-- The attributes of a child that is given the transform. -/
def pushAttrs (l : List X) (as : List (GAttr K V X N)) : List (GAttr K V X N) :=
  match getNamed .transform as with
  | some (.transform (.defined c)) => setNamed (.transform (.defined (l ++ c))) as
  | _ => setNamed (.transform (.defined l)) as

theorem push_facts (l : List X) (as : List (GAttr K V X N)) (hd : Distinct as) (hi : attributedT as ≠ some .inherit) :
    Distinct (pushAttrs l as) ∧ rest (pushAttrs l as) = rest as ∧
      (∀ k, attributed k (pushAttrs l as) = attributed k as) ∧
      ∃ l', attributedT (pushAttrs l as) = some (.defined (l ++ l')) ∧
        (declaredT as = none → ∀ o, ownT o as = l') := by
  have hset : ∀ l', Distinct (setNamed (.transform (.defined l')) as) ∧
      rest (setNamed (.transform (.defined l')) as) = rest as ∧
      (∀ k, attributed k (setNamed (.transform (.defined l')) as) = attributed k as) ∧
      attributedT (setNamed (.transform (.defined l')) as) = some (.defined l') := by
    intro l'
    refine ⟨distinct_set _ _ hd, rest_set _ rfl _, ?_, ?_⟩
    · intro k
      rw [attributed_get, attributed_get, getNamed_set]
      simp [GAttr.id]
    · rw [attributedT_get, getNamed_set]
      simp [GAttr.id, transValue]
  unfold pushAttrs
  split
  · rename_i c hc
    obtain ⟨a1, a2, a3, a4⟩ := hset (l ++ c)
    refine ⟨a1, a2, a3, c, a4, ?_⟩
    intro ht o
    have : attributedT as = some (.defined c) := by rw [attributedT_get, hc]; rfl
    simp [ownT, ht, this]
  · rename_i hc
    obtain ⟨a1, a2, a3, a4⟩ := hset l
    refine ⟨a1, a2, a3, [], by simpa using a4, ?_⟩
    intro ht o
    unfold ownT
    rw [ht]
    simp only
    split
    · rename_i l' h
      rw [attributedT_get] at h
      obtain ⟨x, hx, h⟩ := Option.bind_eq_some_iff.1 h
      cases x with
      | transform t =>
        simp only [transValue, Option.some.injEq] at h
        subst h
        exact absurd hx (hc l')
      | _ => simp [transValue] at h
    · exact absurd (by assumption) hi
    · rfl
    · rfl

theorem pushDown_elem (l : List X) (n : EName) (as : List (GAttr K V X N)) (ks : List (Node (GAttr K V X N))) :
    pushDown l (.elem n as ks) = .elem n (pushAttrs l as) ks := rfl

theorem removeT_facts (as : List (GAttr K V X N)) (hd : Distinct as) :
    Distinct (removeNamed .transform as) ∧ rest (removeNamed .transform as) = rest as ∧
      (∀ k, attributed k (removeNamed .transform as) = attributed k as) ∧
      attributedT (removeNamed .transform as) = none := by
  refine ⟨distinct_remove _ _ hd, rest_remove _ (Or.inr rfl) _, ?_, ?_⟩
  · intro k
    rw [attributed_get, attributed_get, getNamed_remove _ _ _ hd]
    simp
  · rw [attributedT_get, getNamed_remove _ _ _ hd]
    simp

theorem spread_view (act : K → V → C → C) {b : Bool} {n : EName} {as : List (GAttr K V X N)}
    {ks : List (Node (GAttr K V X N))} (hg : n.is "g" = true) (h : Straight b (.elem n as ks)) :
    (∃ as' ks', spread n as ks = .elem n as' ks') ∧ Straight b (spread n as ks) ∧
      ∀ c, view act c (spread n as ks) = view act c (.elem n as ks) := by
  have hall := h
  obtain ⟨h1, h2, h3, h4⟩ := h
  obtain ⟨r1, r2, r3, r4⟩ := removeT_facts as h1
  have hT : declaredT as = none := h3 (by simp [hg])
  have rT : declaredT (removeNamed .transform as) = none := by rw [declaredT_rest, r2, ← declaredT_rest, hT]
  have rv : ∀ k x, computed act (removeNamed .transform as) k x = computed act as k x := fun k x =>
    computed_rest act r2 k x (r3 k)
  unfold spread
  split
  · rename_i l hl
    have ht : attributedT as = some (.defined l) := by rw [attributedT_get, hl]; rfl
    refine ⟨⟨_, _, rfl⟩, ⟨r1, by simp [r4], fun _ => rT, ?_⟩, ?_⟩
    · -- the children
      revert h4
      rw [hg]
      generalize ks = ks
      induction ks with
      | nil => intro h4; trivial
      | cons x ks ih =>
        intro h4
        refine ⟨?_, ih h4.2⟩
        have h4 := h4.1
        cases x with
        | elem n' as' ks' =>
          obtain ⟨c1, c2, c3, c4⟩ := h4
          obtain ⟨p1, p2, p3, l', p4, -⟩ := push_facts l as' c1 c2
          rw [pushDown_elem]
          refine ⟨p1, by simp [p4], ?_, c4⟩
          intro hb
          rw [declaredT_rest, p2, ← declaredT_rest]
          exact c3 hb
        | _ => trivial
    · intro c
      simp only [view, lookAt, hg, if_true, Option.toList_none, List.nil_append]
      have hn : StraightAll true ks := by rw [hg] at h4; exact h4
      clear hall h4
      revert hn
      generalize ks = ks
      induction ks with
      | nil => intro _; rfl
      | cons x ks ih =>
        intro h4
        simp only [List.map_cons, viewAll]
        rw [ih h4.2]
        congr 1
        have h4 := h4.1
        cases x with
        | elem n' as' ks' =>
          obtain ⟨c1, c2, c3, c4⟩ := h4
          obtain ⟨p1, p2, p3, l', p4, p5⟩ := push_facts l as' c1 c2
          have cT : declaredT as' = none := c3 (by simp)
          have pT : declaredT (pushAttrs l as') = none := by rw [declaredT_rest, p2, ← declaredT_rest, cT]
          have hv : ((c.enter act (removeNamed .transform as)).enter act (pushAttrs l as')).vals =
              ((c.enter act as).enter act as').vals := by
            funext k
            simp only [Ctx.enter, rv, computed_rest act p2 k _ (p3 k)]
          have htot : ((c.enter act (removeNamed .transform as)).enter act (pushAttrs l as')).total =
              ((c.enter act as).enter act as').total := by
            simp only [Ctx.enter]
            rw [p5 cT]
            simp [ownT, rT, r4, pT, p4, hT, ht]
          rw [pushDown_elem]
          simp only [view, lookAt, hv, htot, p2]
          rw [viewAll_ctx act hv htot ks' (StraightAll.noInherit _ c4)]
        | _ => rfl
  · rename_i hl
    exact absurd (by rw [attributedT_get, hl]; rfl) h2
  · rename_i s hl
    have ht : attributedT as = some (.unparsed s) := by rw [attributedT_get, hl]; rfl
    refine ⟨⟨_, _, rfl⟩, ⟨r1, by simp [r4], fun _ => rT, h4⟩, ?_⟩
    intro c
    have : c.enter act (removeNamed .transform as) = c.enter act as := by
      simp only [Ctx.enter, rv, ownT, rT, r4, hT, ht]
    simp only [view, lookAt, hg, if_true, this]
  · exact ⟨⟨_, _, rfl⟩, hall, fun _ => rfl⟩

theorem enter_view (act : K → V → C → C) (E : Env N) (white : Char → Bool) (refers : GAttr K V X N → Bool) {b : Bool}
    {n : EName} {as : List (GAttr K V X N)} {ks : List (Node (GAttr K V X N))} (h : Straight b (.elem n as ks)) :
    (∃ as' ks', enterElement E white refers n as ks = .elem n as' ks') ∧
      Straight b (enterElement E white refers n as ks) ∧
      ∀ c, view act c (enterElement E white refers n as ks) = view act c (.elem n as ks) := by
  have same : (∃ as' ks', (.elem n as ks : Node (GAttr K V X N)) = .elem n as' ks') ∧ Straight b (.elem n as ks) ∧
      ∀ c, view act c (.elem n as ks) = view act c (.elem n as ks) := ⟨⟨_, _, rfl⟩, h, fun _ => rfl⟩
  unfold enterElement
  split
  · exact same
  · rename_i hg
    have hg : n.is "g" = true := by simpa using hg
    split
    · exact same
    · split
      · exact same
      · split
        · exact same
        · split
          · exact same
          · exact spread_view act hg h

theorem toElems_view (act : K → V → C → C) (E : Env N) (white : Char → Bool) (refers : GAttr K V X N → Bool) :
    ∀ (fuel : Nat) (b : Bool) (n : Node (GAttr K V X N)), Straight b n →
      Straight b (toElems E white refers fuel n) ∧ ∀ c, view act c (toElems E white refers fuel n) = view act c n := by
  intro fuel
  induction fuel with
  | zero => intro b n h; exact ⟨h, fun _ => rfl⟩
  | succ fuel ih =>
    intro b n h
    cases n with
    | elem nm as ks =>
      obtain ⟨⟨as', ks', e⟩, e2, e3⟩ := enter_view act E white refers h
      rw [e] at e2 e3
      have ht : toElems E white refers (fuel + 1) (.elem nm as ks) = .elem nm as' (ks'.map (toElems E white refers fuel)) := by
        simp only [toElems, e]
      rw [ht]
      obtain ⟨h1, h2, h3, h4⟩ := e2
      have key : ∀ l : List (Node (GAttr K V X N)), StraightAll (nm.is "g") l →
          StraightAll (nm.is "g") (l.map (toElems E white refers fuel)) ∧
            ∀ c, viewAll act c (l.map (toElems E white refers fuel)) = viewAll act c l := by
        intro l
        induction l with
        | nil => intro _; exact ⟨trivial, fun _ => rfl⟩
        | cons x l ihl =>
          intro hl
          obtain ⟨a1, a2⟩ := ih _ x hl.1
          obtain ⟨b1, b2⟩ := ihl hl.2
          exact ⟨⟨a1, b1⟩, fun c => by simp only [List.map_cons, viewAll, a2, b2]⟩
      obtain ⟨k1, k2⟩ := key ks' h4
      refine ⟨⟨h1, h2, h3, k1⟩, ?_⟩
      intro c
      rw [← e3 c]
      simp only [view, k2]
    | _ => exact ⟨trivial, fun _ => rfl⟩

/-- **C28 (group to children, whole run)** For every document without `transform="inherit"` in which neither groups
nor their children declare a transform in `style`: all elements that are not groups are seen as before, in the
same order, with the same other attributes, the same value of every inherited property (whatever `style` says
about it) and the same transforms from the root down. -/
theorem toElems_partial (act : K → V → C → C) (E : Env N) (white : Char → Bool) (refers : GAttr K V X N → Bool)
    (c : Ctx K X C) (on : Bool) (doc : List (Node (GAttr K V X N))) (h : StraightAll false doc) :
    seen act c (moveGroupAttrs E white refers on doc) = seen act c doc := by
  unfold moveGroupAttrs
  split
  · rw [seen_eq, seen_eq]
    induction doc with
    | nil => rfl
    | cons n ns ih =>
      simp only [List.map_cons, viewAll, (toElems_view act E white refers _ false n h.1).2 c, ih h.2]
  · rfl

end Verif.MoveAttrs
