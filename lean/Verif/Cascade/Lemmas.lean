import Verif.Cascade.Spec

/-! # What `with_all` has collected -/

namespace Verif.Cascade

set_option linter.unusedSectionVars false

variable {K V Sel C N : Type} [DecidableEq K]

mutual
/-- The blocks of matching rules with the conditions they stand under, the inmost first. -/
def tagged (test : List Sel → N → Option Bool) (n : N) (conds : List C) :
    Rule K V Sel C → List (List C × Nat × Block K V)
  | .style ss b => (ss.filter fun s => test [s.1] n == some true).map fun s => (conds, s.2, b)
  | .media c rs => taggedAll test n (c :: conds) rs
  | .other _ _ => []
def taggedAll (test : List Sel → N → Option Bool) (n : N) (conds : List C) :
    List (Rule K V Sel C) → List (List C × Nat × Block K V)
  | [] => []
  | r :: rs => tagged test n conds r ++ taggedAll test n conds rs
end

/-- The mode of what stands under these conditions. -/
def modeOf : List C → Mode
  | [] => .static
  | _ :: _ => .dynamic

/-- A block is added. -/
def step (c : Computed K V) (t : List C × Nat × Block K V) : Computed K V := addDeclarations c t.2.2 t.2.1 (modeOf t.1)

variable {test : List Sel → N → Option Bool} {look : N → Level K V} {n : N}

theorem filter_const_true {A : Type} (l : List A) : l.filter (fun _ => true) = l := by
  induction l <;> simp

theorem filter_const_false {A : Type} (l : List A) : l.filter (fun _ => false) = [] := by
  induction l <;> simp

theorem allButLast_append (a b : List Sel) (hb : b ≠ []) :
    AllButLast test n (a ++ b) ↔ (∀ s ∈ a, test [s] n = some true) ∧ AllButLast test n b := by
  induction a with
  | nil => simp
  | cons s a ih =>
    have : ∃ t l, a ++ b = t :: l := by
      cases h : a ++ b with
      | nil => simp at h; exact absurd h.2 hb
      | cons t l => exact ⟨t, l, rfl⟩
    obtain ⟨t, l, e⟩ := this
    rw [List.cons_append, e, AllButLast, ← e, ih]
    simp [and_assoc]

theorem overSelectors_eq (b : Block K V) (mode : Mode) (ss : List (Sel × Nat)) : ∀ (c : Computed K V),
    AllButLast test n (ss.map (·.1)) → ∃ acc, overSelectors test n b 0 mode c [] ss =
      some ((ss.filter fun s => test [s.1] n == some true).foldl (fun c s => addDeclarations c b s.2 mode) c, acc) ∧
      ((∀ s ∈ ss.map (·.1), test [s] n = some true) → acc = []) := by
  induction ss with
  | nil => intro c _; exact ⟨[], by simp [overSelectors], by simp⟩
  | cons s ss ih =>
    intro c h
    rw [overSelectors, List.nil_append]
    cases ss with
    | nil =>
      simp only [List.map_cons, List.map_nil, AllButLast] at h
      cases e : test [s.1] n with
      | none => exact absurd e h
      | some v => cases v <;> simp [overSelectors, e]
    | cons t ss =>
      simp only [List.map_cons, AllButLast] at h
      obtain ⟨acc, h1, h2⟩ := ih (addDeclarations c b (0 + s.2) mode) h.2
      rw [h.1]
      dsimp only
      refine ⟨acc, ?_, ?_⟩
      · rw [h1]
        have hs : (test [s.1] n == some true) = true := by simp [h.1]
        rw [List.filter_cons_of_pos (p := fun s : Sel × Nat => test [s.1] n == some true) hs, List.foldl_cons, Nat.zero_add]
      · intro hall
        apply h2
        intro x hx
        exact hall x (by rw [List.map_cons]; exact List.mem_cons_of_mem _ hx)

mutual
theorem nested_noSel (r : Rule K V Sel C) : selectorsOf r = [] → ∀ (mode : Mode) (c : Computed K V) (acc : List Sel) (conds : List C),
    nested test n 0 mode c acc r = some (c, acc) ∧ tagged test n conds r = [] := by
  cases r with
  | style ss b =>
    intro h mode c acc conds
    simp [selectorsOf] at h
    subst h
    simp [nested, overSelectors, tagged]
  | media d rs =>
    intro h mode c acc conds
    rw [selectorsOf] at h
    rw [nested, tagged]
    exact nestedAll_noSel rs h .dynamic c acc (d :: conds)
  | other d rs => intro _ mode c acc conds; simp [nested, tagged]
theorem nestedAll_noSel (rs : List (Rule K V Sel C)) : selectorsOfAll rs = [] → ∀ (mode : Mode) (c : Computed K V)
    (acc : List Sel) (conds : List C),
    nestedAll test n 0 mode c acc rs = some (c, acc) ∧ taggedAll test n conds rs = [] := by
  cases rs with
  | nil => intro _ mode c acc conds; simp [nestedAll, taggedAll]
  | cons r rs =>
    intro h mode c acc conds
    rw [selectorsOfAll, List.append_eq_nil_iff] at h
    obtain ⟨a1, a2⟩ := nested_noSel r h.1 mode c acc conds
    obtain ⟨b1, b2⟩ := nestedAll_noSel rs h.2 mode c acc conds
    rw [nestedAll, a1, taggedAll, a2, b2]
    exact ⟨b1, rfl⟩
end

mutual
theorem nested_eq (r : Rule K V Sel C) : AllButLast test n (selectorsOf r) → ∀ (conds : List C) (c : Computed K V),
    ∃ acc, nested test n 0 (modeOf conds) c [] r = some ((tagged test n conds r).foldl step c, acc) ∧
      ((∀ s ∈ selectorsOf r, test [s] n = some true) → acc = []) := by
  cases r with
  | style ss b =>
    intro h conds c
    obtain ⟨acc, h1, h2⟩ := overSelectors_eq b (modeOf conds) ss c h
    refine ⟨acc, ?_, h2⟩
    rw [nested, h1, tagged, List.foldl_map]
    rfl
  | media d rs =>
    intro h conds c
    rw [selectorsOf] at h
    obtain ⟨acc, h1, h2⟩ := nestedAll_eq rs h (d :: conds) c
    exact ⟨acc, by rw [nested, tagged]; exact h1, by rw [selectorsOf]; exact h2⟩
  | other d rs => intro _ conds c; exact ⟨[], by simp [nested, tagged], fun _ => rfl⟩
theorem nestedAll_eq (rs : List (Rule K V Sel C)) : AllButLast test n (selectorsOfAll rs) →
    ∀ (conds : List C) (c : Computed K V),
    ∃ acc, nestedAll test n 0 (modeOf conds) c [] rs = some ((taggedAll test n conds rs).foldl step c, acc) ∧
      ((∀ s ∈ selectorsOfAll rs, test [s] n = some true) → acc = []) := by
  cases rs with
  | nil => intro _ conds c; exact ⟨[], by simp [nestedAll, taggedAll], fun _ => rfl⟩
  | cons r rs =>
    intro h conds c
    rw [selectorsOfAll] at h
    by_cases hn : selectorsOfAll rs = []
    · rw [hn, List.append_nil] at h
      obtain ⟨acc, h1, h2⟩ := nested_eq r h conds c
      obtain ⟨b1, b2⟩ := nestedAll_noSel (test := test) (n := n) rs hn (modeOf conds) ((tagged test n conds r).foldl step c) acc conds
      refine ⟨acc, ?_, ?_⟩
      · rw [nestedAll, h1, taggedAll, b2, List.append_nil]
        exact b1
      · rw [selectorsOfAll, hn, List.append_nil]; exact h2
    · rw [allButLast_append _ _ hn] at h
      have hr : AllButLast test n (selectorsOf r) := by
        have : ∀ l : List Sel, (∀ s ∈ l, test [s] n = some true) → AllButLast test n l := by
          intro l hl
          induction l with
          | nil => trivial
          | cons s l ih =>
            cases l with
            | nil => simp [AllButLast, hl s (by simp)]
            | cons t l => exact ⟨hl s (by simp), ih (fun x hx => hl x (by simp [hx]))⟩
        exact this _ h.1
      obtain ⟨acc, h1, h2⟩ := nested_eq r hr conds c
      have := h2 h.1
      subst this
      obtain ⟨acc', h3, h4⟩ := nestedAll_eq rs h.2 conds ((tagged test n conds r).foldl step c)
      refine ⟨acc', ?_, ?_⟩
      · rw [nestedAll, h1, taggedAll, List.foldl_append]
        exact h3
      · intro hall
        apply h4
        intro s hs
        exact hall s (by rw [selectorsOfAll]; simp [hs])
end

theorem withStyle_eq (rules : List (Rule K V Sel C)) : ∀ (c : Computed K V),
    (∀ r ∈ rules, AllButLast test n (selectorsOf r)) →
    withStyle test n c rules = some ((taggedAll test n [] rules).foldl step c) := by
  induction rules with
  | nil => intro c _; rfl
  | cons r rs ih =>
    intro c h
    obtain ⟨acc, h1, _⟩ := nested_eq r (h r (by simp)) [] c
    rw [withStyle]
    rw [show Mode.static = modeOf ([] : List C) from rfl, h1]
    dsimp only
    rw [ih _ (fun x hx => h x (by simp [hx])), taggedAll, List.foldl_append]

/-! ## Applied rules -/

mutual
theorem tagged_suffix (r : Rule K V Sel C) : ∀ (conds : List C) (t), t ∈ tagged test n conds r → ∃ l, t.1 = l ++ conds := by
  cases r with
  | style ss b =>
    intro conds t ht
    rw [tagged, List.mem_map] at ht
    obtain ⟨s, _, rfl⟩ := ht
    exact ⟨[], rfl⟩
  | media d rs =>
    intro conds t ht
    rw [tagged] at ht
    obtain ⟨l, h⟩ := taggedAll_suffix rs (d :: conds) t ht
    exact ⟨l ++ [d], by rw [h]; simp⟩
  | other d rs => intro conds t ht; simp [tagged] at ht
theorem taggedAll_suffix (rs : List (Rule K V Sel C)) : ∀ (conds : List C) (t), t ∈ taggedAll test n conds rs →
    ∃ l, t.1 = l ++ conds := by
  cases rs with
  | nil => intro conds t ht; simp [taggedAll] at ht
  | cons r rs =>
    intro conds t ht
    rw [taggedAll, List.mem_append] at ht
    rcases ht with ht | ht
    · exact tagged_suffix r conds t ht
    · exact taggedAll_suffix rs conds t ht
end

mutual
theorem applied_eq (holds : C → Bool) (r : Rule K V Sel C) : onlyMedia r → ∀ (conds : List C), conds.all holds = true →
    applied test holds n r = ((tagged test n conds r).filter fun t => t.1.all holds).map (·.2) := by
  cases r with
  | style ss b =>
    intro _ conds hc
    rw [applied, tagged, List.filter_map, List.map_map]
    rw [show ((fun t : List C × Nat × Block K V => t.1.all holds) ∘ fun s : Sel × Nat => (conds, s.2, b)) =
      fun _ => true from by funext s; simpa using hc, filter_const_true]
    rfl
  | media d rs =>
    intro h conds hc
    rw [onlyMedia] at h
    rw [applied, tagged]
    split
    · next hd => exact appliedAll_eq holds rs h (d :: conds) (by simp [hd]; simpa using hc)
    · next hd =>
      rw [List.filter_eq_nil_iff.mpr]
      · rfl
      · intro t ht
        obtain ⟨l, e⟩ := taggedAll_suffix rs (d :: conds) t ht
        rw [e]
        simp [hd]
  | other d rs => intro h; exact absurd h (by simp [onlyMedia])
theorem appliedAll_eq (holds : C → Bool) (rs : List (Rule K V Sel C)) : onlyMediaAll rs → ∀ (conds : List C),
    conds.all holds = true →
    appliedAll test holds n rs = ((taggedAll test n conds rs).filter fun t => t.1.all holds).map (·.2) := by
  cases rs with
  | nil => intro _ conds _; simp [appliedAll, taggedAll]
  | cons r rs =>
    intro h conds hc
    rw [onlyMediaAll] at h
    rw [appliedAll, taggedAll, List.filter_append, List.map_append, applied_eq holds r h.1 conds hc,
      appliedAll_eq holds rs h.2 conds hc]
end

/-- Candidates with their conditions. -/
def marked (pick : Block K V → List (K × V)) (k : K) (T : List (List C × Nat × Block K V)) : List (List C × Nat × V) :=
  T.flatMap fun t => (valuesOf k (pick t.2.2)).map fun v => (t.1, t.2.1, v)

theorem candidates_marked (pick : Block K V → List (K × V)) (k : K) (P : List C → Bool)
    (T : List (List C × Nat × Block K V)) :
    candidates pick k ((T.filter fun t => P t.1).map (·.2)) = ((marked pick k T).filter fun t => P t.1).map (·.2) := by
  induction T with
  | nil => rfl
  | cons t T ih =>
    simp only [candidates, marked] at ih ⊢
    rw [List.flatMap_cons, List.filter_append, List.map_append, ← ih]
    by_cases h : P t.1 = true
    · rw [List.filter_cons_of_pos (p := fun t : List C × Nat × Block K V => P t.1) h, List.map_cons, List.flatMap_cons]
      congr 1
      rw [List.filter_map, List.map_map]
      rw [show ((fun t : List C × Nat × V => P t.1) ∘ fun v => (t.1, t.2.1, v)) = fun _ => true from by
        funext v; simpa using h, filter_const_true]
      rfl
    · rw [List.filter_cons_of_neg (p := fun t : List C × Nat × Block K V => P t.1) h]
      rw [List.filter_map]
      rw [show ((fun t : List C × Nat × V => P t.1) ∘ fun v => (t.1, t.2.1, v)) = fun _ => false from by
        funext v; simpa using h, filter_const_false]
      rfl

/-! ## The maps -/

theorem setDeclarations_apply (l : List (K × V)) (s : Nat) (mode : Mode) (k : K) : ∀ (m : K → Option (Nat × V × Mode)),
    setDeclarations m l s mode k = (((valuesOf k l).getLast?).map fun v => (s, v, mode)).or (m k) := by
  induction l with
  | nil => intro m; rfl
  | cons d l ih =>
    intro m
    have := ih (put m d.1 (s, d.2, mode))
    simp only [setDeclarations, List.foldl_cons] at this ⊢
    rw [this]
    simp only [valuesOf, List.filterMap_cons]
    by_cases h : d.1 = k
    · simp only [h, if_true, List.getLast?_cons, put]
      cases (l.filterMap fun d => if d.1 = k then some d.2 else none).getLast? <;> simp
    · simp only [h, if_false]
      congr 1
      simp [put, Ne.symm h]

theorem extendList_apply (l : List (K × V)) (k : K) : ∀ (m : K → Option (V × Mode)),
    extendList m l k = (((valuesOf k l).getLast?).map fun v => (v, Mode.static)).or (m k) := by
  induction l with
  | nil => intro m; rfl
  | cons d l ih =>
    intro m
    have := ih (put m d.1 (d.2, .static))
    simp only [extendList, List.foldl_cons] at this ⊢
    rw [this]
    simp only [valuesOf, List.filterMap_cons]
    by_cases h : d.1 = k
    · simp only [h, if_true, List.getLast?_cons, put]
      cases (l.filterMap fun d => if d.1 = k then some d.2 else none).getLast? <;> simp
    · simp only [h, if_false]
      congr 1
      simp [put, Ne.symm h]

/-- The last candidate, as it is recorded. -/
def recorded (X : List (List C × Nat × V)) : Option (Nat × V × Mode) :=
  X.getLast?.map fun t => (t.2.1, t.2.2, modeOf t.1)

theorem recorded_append (X Y : List (List C × Nat × V)) : recorded (X ++ Y) = (recorded Y).or (recorded X) := by
  simp only [recorded, List.getLast?_append]
  cases Y.getLast? <;> simp

theorem foldl_step (T : List (List C × Nat × Block K V)) : ∀ (c : Computed K V),
    (∀ k, (T.foldl step c).declarations k = (recorded (marked (·.declarations) k T)).or (c.declarations k)) ∧
    (∀ k, (T.foldl step c).important k = (recorded (marked (·.important) k T)).or (c.important k)) ∧
    (T.foldl step c).inherited = c.inherited ∧ (T.foldl step c).attr = c.attr ∧ (T.foldl step c).inline = c.inline := by
  induction T with
  | nil => intro c; exact ⟨fun _ => rfl, fun _ => rfl, rfl, rfl, rfl⟩
  | cons t T ih =>
    intro c
    obtain ⟨h1, h2, h3, h4, h5⟩ := ih (step c t)
    simp only [List.foldl_cons]
    have one : ∀ (l : List V) (s : Nat) (conds : List C), recorded (l.map fun v => (conds, s, v)) =
        l.getLast?.map fun v => (s, v, modeOf conds) := by
      intro l s conds
      simp only [recorded, List.getLast?_map, Option.map_map]
      rfl
    refine ⟨?_, ?_, h3, h4, h5⟩
    · intro k
      rw [h1, marked, marked, List.flatMap_cons, recorded_append, one, Option.or_assoc]
      congr 1
      exact setDeclarations_apply _ _ _ k _
    · intro k
      rw [h2, marked, marked, List.flatMap_cons, recorded_append, one, Option.or_assoc]
      congr 1
      exact setDeclarations_apply _ _ _ k _

/-! ## Agreement of a found style with the values under all conditions -/

/-- What is found as static holds under all conditions, what is not found is not there under any, and what is found
is the value if all conditions hold. -/
def Agrees (r : Option (V × Mode)) (f : (C → Bool) → Option V) : Prop :=
  (∀ v, r = some (v, .static) → ∀ holds, f holds = some v) ∧ (r = none → ∀ holds, f holds = none) ∧
  (∀ holds, (∀ c, holds c = true) → f holds = r.map (·.1))

theorem Agrees.or {r s : Option (V × Mode)} {f g : (C → Bool) → Option V} (h1 : Agrees r f) (h2 : Agrees s g) :
    Agrees (r.or s) (fun h => (f h).or (g h)) := by
  obtain ⟨a1, a2, a3⟩ := h1
  obtain ⟨b1, b2, b3⟩ := h2
  refine ⟨?_, ?_, ?_⟩
  · intro v e holds
    dsimp only
    cases r with
    | some x =>
      simp only [Option.some_or] at e
      rw [a1 v e holds]; rfl
    | none =>
      rw [a2 rfl holds]
      exact b1 v (by simpa using e) holds
  · intro e holds
    rw [Option.or_eq_none_iff] at e
    dsimp only
    rw [a2 e.1, b2 e.2]; rfl
  · intro holds hh
    dsimp only
    rw [a3 holds hh, b3 holds hh]
    cases r <;> simp

theorem Agrees.const (o : Option V) : Agrees (o.map fun v => (v, Mode.static)) (fun _ : C → Bool => o) := by
  refine ⟨?_, ?_, ?_⟩
  · intro v e _
    cases o <;> simp_all
  · intro e _
    cases o <;> simp_all
  · intro _ _
    cases o <;> rfl

theorem filter_pairwise_map {X : List (List C × Nat × V)} (P : List C → Bool)
    (h : (X.map (·.2)).Pairwise (fun a b => a.1 ≤ b.1)) :
    ((X.filter fun t => P t.1).map (·.2)).Pairwise (fun a b => a.1 ≤ b.1) := by
  rw [List.pairwise_map] at h ⊢
  exact h.sublist List.filter_sublist

theorem agrees_recorded (X : List (List C × Nat × V)) (h : (X.map (·.2)).Pairwise (fun a b => a.1 ≤ b.1)) :
    Agrees ((recorded X).map (·.2)) (fun holds => (winner ((X.filter fun t => t.1.all holds).map (·.2))).map (·.2)) := by
  refine ⟨?_, ?_, ?_⟩
  · intro v e holds
    rcases X.eq_nil_or_concat with rfl | ⟨Y, t, rfl⟩
    · simp [recorded] at e
    · simp only [recorded, List.concat_eq_append, List.getLast?_append, List.getLast?_singleton, Option.some_or,
        Option.map_some, Option.some.injEq, Prod.mk.injEq] at e
      obtain ⟨e1, e2⟩ := e
      have ht : t.1 = [] := by
        cases e3 : t.1 with
        | nil => rfl
        | cons a l => rw [e3] at e2; simp [modeOf] at e2
      dsimp only
      rw [winner_sorted _ (filter_pairwise_map (fun l => l.all holds) h)]
      rw [List.concat_eq_append, List.filter_append, List.map_append]
      have : ([t].filter fun t => t.1.all holds) = [t] := by simp [ht]
      rw [this]
      simp [e1]
  · intro e holds
    have : X = [] := by
      cases hx : X.getLast? with
      | none => exact List.getLast?_eq_none_iff.mp hx
      | some t => simp [recorded, hx] at e
    subst this
    rfl
  · intro holds hh
    dsimp only
    have : (X.filter fun t => t.1.all holds) = X := by
      rw [List.filter_eq_self]
      intro t _
      simp [hh]
    rw [this, winner_sorted _ h, List.getLast?_map, recorded]
    cases X.getLast? <;> rfl

theorem valuesOf_nodup (k : K) (l : List (K × V)) (h : (l.map (·.1)).Nodup) :
    (valuesOf k l).head? = (valuesOf k l).getLast? := by
  have key : ∀ l : List (K × V), (l.map (·.1)).Nodup → valuesOf k l = [] ∨ ∃ v, valuesOf k l = [v] := by
    intro l
    induction l with
    | nil => intro _; exact .inl rfl
    | cons d l ih =>
      intro h
      rw [List.map_cons, List.nodup_cons] at h
      simp only [valuesOf, List.filterMap_cons]
      split
      · exact ih h.2
      · next v hv =>
        split at hv
        · next hk =>
          simp at hv
          subst hv
          right
          refine ⟨d.2, ?_⟩
          congr 1
          rw [List.filterMap_eq_nil_iff]
          intro x hx
          have : x.1 ≠ k := by
            intro e
            exact h.1 (List.mem_map.mpr ⟨x, hx, by rw [e, hk]⟩)
          simp [this]
        · simp at hv
  rcases key l h with e | ⟨v, e⟩ <;> simp [e]

theorem findFirst_eq (l : List (K × V)) (k : K) : findFirst l k = (valuesOf k l).head? := by
  induction l with
  | nil => rfl
  | cons d l ih =>
    simp only [findFirst, valuesOf, List.find?_cons, List.filterMap_cons] at ih ⊢
    by_cases h : d.1 = k
    · simp [h]
    · simp only [h, decide_false, if_false]
      exact ih

end Verif.Cascade
