import Verif.Cascade.Lemmas

/-!
# C43: computed styles say how an element looks
-/

namespace Verif.Cascade

set_option linter.unusedSectionVars false

variable {K V Sel C N : Type} [DecidableEq K]
variable {test : List Sel → N → Option Bool} {look : N → Level K V} {rules : List (Rule K V Sel C)} {inheritable : K → Bool}

/-- What the ancestors give to a property. -/
def above (test : List Sel → N → Option Bool) (look : N → Level K V) (rules : List (Rule K V Sel C))
    (inheritable : K → Bool) (ps : List N) (k : K) (holds : C → Bool) : Option V :=
  match ps with
  | [] => none
  | p :: ps => value test look rules inheritable holds p ps k

/-- The styles of an element, but for those taken over, are the recorded ones. -/
structure Own (test : List Sel → N → Option Bool) (look : N → Level K V) (rules : List (Rule K V Sel C)) (n : N)
    (c : Computed K V) : Prop where
  declarations : ∀ k, c.declarations k = recorded (marked (·.declarations) k (taggedAll test n [] rules))
  important : ∀ k, c.important k = recorded (marked (·.important) k (taggedAll test n [] rules))
  attr : c.attr = (look n).attr
  inline : c.inline = (look n).inline

theorem withStyle_own (n : N) (h : Fits test look rules n) :
    ∃ c, withStyle test n (withOwn (look n) .empty) rules = some c ∧ Own test look rules n c ∧ c.inherited = fun _ => none := by
  refine ⟨_, withStyle_eq rules _ h.selectors, ?_, ?_⟩
  · obtain ⟨h1, h2, _, h4, h5⟩ := foldl_step (taggedAll test n [] rules) (withOwn (look n) .empty)
    refine ⟨?_, ?_, h4, ?_⟩
    · intro k; rw [h1]; exact Option.or_none
    · intro k; rw [h2]; exact Option.or_none
    · rw [h5]; exact Option.or_none
  · exact (foldl_step (taggedAll test n [] rules) (withOwn (look n) .empty)).2.2.1

theorem candidates_all (pick : Block K V → List (K × V)) (k : K) (n : N) (hm : onlyMediaAll rules) (holds : C → Bool) :
    candidates pick k (appliedAll test holds n rules) =
      ((marked pick k (taggedAll test n [] rules)).filter fun t => t.1.all holds).map (·.2) := by
  rw [appliedAll_eq holds rules hm [] rfl]
  exact candidates_marked pick k (fun l => l.all holds) _

theorem agrees_rules (pick : Block K V → List (K × V)) (k : K) (n : N) (hm : onlyMediaAll rules)
    (ho : (candidates pick k (appliedAll test (fun _ => true) n rules)).Pairwise (fun a b => a.1 ≤ b.1)) :
    Agrees ((recorded (marked pick k (taggedAll test n [] rules))).map (·.2))
      (fun holds => (winner (candidates pick k (appliedAll test holds n rules))).map (·.2)) := by
  have : (fun holds => (winner (candidates pick k (appliedAll test holds n rules))).map (·.2)) =
      fun holds => (winner (((marked pick k (taggedAll test n [] rules)).filter fun t => t.1.all holds).map (·.2))).map (·.2) := by
    funext holds
    rw [candidates_all pick k n hm holds]
  rw [this]
  apply agrees_recorded
  rw [candidates_all pick k n hm] at ho
  have e : ((marked pick k (taggedAll test n [] rules)).filter fun t => t.1.all fun _ => true) =
      marked pick k (taggedAll test n [] rules) := by
    rw [List.filter_eq_self]
    intro t _
    simp
  rw [e] at ho
  exact ho

theorem last_inline (pick : Block K V → List (K × V)) (o : Option (Block K V)) (k : K)
    (h : ∀ b, o = some b → ((pick b).map (·.1)).Nodup) :
    (o.bind fun b => findFirst (pick b) k) = (valuesOf k ((o.map pick).getD [])).getLast? := by
  cases o with
  | none => rfl
  | some b =>
    simp only [Option.bind_some, Option.map_some, Option.getD_some]
    rw [findFirst_eq, valuesOf_nodup k _ (h b rfl)]

theorem flatten_toList (pick : Block K V → List (K × V)) (o : Option (Block K V)) :
    (o.map pick).toList.flatten = (o.map pick).getD [] := by
  cases o <;> simp

/-- What is found on the element itself. -/
theorem agrees_get (n : N) (ps : List N) (k : K) (h : Fits test look rules n) (c : Computed K V)
    (hc : Own test look rules n c)
    (hi : inheritable k = true → Agrees (c.inherited k) (above test look rules inheritable ps k)) :
    Agrees (get inheritable c k) (fun holds => value test look rules inheritable holds n ps k) := by
  have inh : Agrees (getInherited inheritable c k)
      (fun holds => if inheritable k then above test look rules inheritable ps k holds else none) := by
    unfold getInherited
    by_cases hk : inheritable k = true
    · simp only [hk, if_true]; exact hi hk
    · simp only [hk]; exact Agrees.const none
  have hv : (fun holds => value test look rules inheritable holds n ps k) = fun holds =>
      (specified test look rules holds n k).or
        (if inheritable k then above test look rules inheritable ps k holds else none) := by
    funext holds
    cases ps with
    | nil => simp [value, above]
    | cons p ps => rfl
  rw [hv, get, getHigh, hc.inline, hc.attr, hc.important, hc.declarations,
    last_inline (·.important) _ k (fun b hb => (h.inline b hb).2),
    last_inline (·.declarations) _ k (fun b hb => (h.inline b hb).1), findFirst_eq]
  have := ((Agrees.const (C := C) (valuesOf k (((look n).inline.map (·.important)).getD [])).getLast?).or
    ((agrees_rules (·.important) k n h.media (h.orderedImportant k)).or
      ((Agrees.const (C := C) (valuesOf k (((look n).inline.map (·.declarations)).getD [])).getLast?).or
        ((agrees_rules (·.declarations) k n h.media (h.ordered k)).or
          (Agrees.const (C := C) (valuesOf k (look n).attr).head?))))).or inh
  simp only [specified, Option.or_assoc] at this ⊢
  exact this

/-- What is handed on to a child. -/
theorem agrees_takeOver (n : N) (ps : List N) (k : K) (h : Fits test look rules n) (hn : NoClash test look rules n)
    (c q : Computed K V) (he : c.inherited = fun _ => none) (hq : Own test look rules n q) (hk : inheritable k = true)
    (hi : Agrees (q.inherited k) (above test look rules inheritable ps k)) :
    Agrees ((takeOver c q).inherited k) (fun holds => value test look rules inheritable holds n ps k) := by
  have hv : (fun holds => value test look rules inheritable holds n ps k) = fun holds =>
      (specified test look rules holds n k).or (above test look rules inheritable ps k holds) := by
    funext holds
    cases ps with
    | nil => simp [value, above]
    | cons p ps => simp [value, above, hk]
  have hswap : ∀ x : Option (V × Mode),
      (((valuesOf k (look n).attr).getLast?.map fun v => (v, Mode.static)).or
        (((recorded (marked (·.declarations) k (taggedAll test n [] rules))).map (·.2)).or x)) =
      ((recorded (marked (·.declarations) k (taggedAll test n [] rules))).map (·.2)).or
        (((valuesOf k (look n).attr).head?.map fun v => (v, Mode.static)).or x) := by
    intro x
    rw [valuesOf_nodup k _ h.attr]
    cases hg : (valuesOf k (look n).attr).getLast? with
    | none => simp
    | some v =>
      have hmem := List.mem_of_getLast? hg
      simp only [valuesOf, List.mem_filterMap] at hmem
      obtain ⟨d, hd, hdk⟩ := hmem
      split at hdk
      · next hdk' =>
        have := hn d hd
        rw [hdk', candidates_all _ k n h.media] at this
        have hm : marked (·.declarations) k (taggedAll test n [] rules) = [] := by
          rw [List.map_eq_nil_iff, List.filter_eq_nil_iff] at this
          rw [List.eq_nil_iff_forall_not_mem]
          intro t ht
          exact this t ht (by simp)
        rw [hm]
        simp [recorded]
      · simp at hdk
  rw [hv]
  simp only [takeOver, extendMap, extendList_apply, he, hq.inline, hq.attr, hq.important, hq.declarations, flatten_toList,
    Option.or_none]
  rw [hswap]
  have := ((Agrees.const (C := C) (valuesOf k (((look n).inline.map (·.important)).getD [])).getLast?).or
    ((agrees_rules (·.important) k n h.media (h.orderedImportant k)).or
      ((Agrees.const (C := C) (valuesOf k (((look n).inline.map (·.declarations)).getD [])).getLast?).or
        ((agrees_rules (·.declarations) k n h.media (h.ordered k)).or
          (Agrees.const (C := C) (valuesOf k (look n).attr).head?))))).or hi
  simp only [specified, Option.or_assoc] at this ⊢
  exact this

theorem withAll_own (ps : List N) : ∀ (n : N), (∀ m ∈ n :: ps, Fits test look rules m) →
    (∀ m ∈ ps, NoClash test look rules m) →
    ∃ c, withAll test look rules n ps = some c ∧ Own test look rules n c ∧
      ∀ k, inheritable k = true → Agrees (c.inherited k) (above test look rules inheritable ps k) := by
  induction ps with
  | nil =>
    intro n h _
    obtain ⟨c, h1, h2, h3⟩ := withStyle_own n (h n (by simp))
    refine ⟨c, h1, h2, ?_⟩
    intro k _
    rw [h3]
    exact Agrees.const none
  | cons p ps ih =>
    intro n h hc
    obtain ⟨c, h1, h2, h3⟩ := withStyle_own n (h n (by simp))
    obtain ⟨q, g1, g2, g3⟩ := ih p (fun m hm => h m (List.mem_cons_of_mem _ hm)) (fun m hm => hc m (by simp [hm]))
    refine ⟨takeOver c q, ?_, ⟨h2.1, h2.2, h2.3, h2.4⟩, ?_⟩
    · rw [withAll, h1, g1]
    · intro k hk
      exact agrees_takeOver p ps k (h p (by simp)) (hc p (by simp)) c q h3 g2 hk (g3 k hk)

/-- **C43 (styles are computed as CSS computes them).** For an element and its ancestors, if in no rule a
selector follows one that does not match, if all at-rules with rules inside are `@media` or `@container`, if
matching declarations of one property come in the order of their specificity, if no `style` attribute declares a
property twice, and if no property of an ancestor has both a presentation attribute and a matching rule: the styles can
be computed; a property found as static has that value whichever conditions of at-rules hold; a property not found has
no value whichever conditions hold; and if all conditions hold, a property has exactly the value found.

Without these conditions it is not so: `list_violated` and the following theorems. -/
theorem computed_partial (n : N) (ps : List N) (h : ∀ m ∈ n :: ps, Fits test look rules m)
    (hc : ∀ m ∈ ps, NoClash test look rules m) :
    ∃ c, withAll test look rules n ps = some c ∧ ∀ k,
      (∀ v, get inheritable c k = some (v, .static) → ∀ holds, value test look rules inheritable holds n ps k = some v) ∧
      (get inheritable c k = none → ∀ holds, value test look rules inheritable holds n ps k = none) ∧
      (∀ holds, (∀ x, holds x = true) →
        value test look rules inheritable holds n ps k = (get inheritable c k).map (·.1)) := by
  obtain ⟨c, h1, h2, h3⟩ := withAll_own (inheritable := inheritable) ps n h hc
  exact ⟨c, h1, fun k => agrees_get n ps k (h n (by simp)) c h2 (h3 k)⟩

/-- Nothing dynamic has been recorded. -/
structure AllStatic (c : Computed K V) : Prop where
  inherited : ∀ k v m, c.inherited k = some (v, m) → m = .static
  declarations : ∀ k s v m, c.declarations k = some (s, v, m) → m = .static
  important : ∀ k s v m, c.important k = some (s, v, m) → m = .static

theorem setDeclarations_static (m : K → Option (Nat × V × Mode)) (l : List (K × V)) (s : Nat)
    (h : ∀ k s v x, m k = some (s, v, x) → x = .static) :
    ∀ k s' v x, setDeclarations m l s .static k = some (s', v, x) → x = .static := by
  intro k s' v x e
  rw [setDeclarations_apply] at e
  cases hv : (valuesOf k l).getLast? with
  | none => rw [hv] at e; exact h k s' v x (by simpa using e)
  | some w => rw [hv] at e; simp at e; exact e.2.2.symm

theorem overSelectors_static (n : N) (b : Block K V) (s : Nat) (ss : List (Sel × Nat)) :
    ∀ (c : Computed K V) (acc : List Sel) (x : Computed K V × List Sel), AllStatic c →
    overSelectors test n b s .static c acc ss = some x → AllStatic x.1 := by
  induction ss with
  | nil => intro c acc x h e; simp [overSelectors] at e; subst e; exact h
  | cons t ss ih =>
    intro c acc x h e
    rw [overSelectors] at e
    split at e
    · simp at e
    · exact ih _ _ _ h e
    · have hs : AllStatic (addDeclarations c b (s + t.2) .static) :=
        ⟨h.1, setDeclarations_static _ _ _ h.2, setDeclarations_static _ _ _ h.3⟩
      exact ih _ _ _ hs e

theorem withStyle_static (n : N) (rules : List (Rule K V Sel C)) (hr : ∀ r ∈ rules, ∃ ss b, r = .style ss b) :
    ∀ (c x : Computed K V), AllStatic c → withStyle test n c rules = some x → AllStatic x := by
  induction rules with
  | nil => intro c x h e; simp [withStyle] at e; subst e; exact h
  | cons r rs ih =>
    intro c x h e
    obtain ⟨ss, b, rfl⟩ := hr r (by simp)
    rw [withStyle, nested] at e
    split at e
    · simp at e
    · next y hy => exact ih (fun r hm => hr r (by simp [hm])) _ _ (overSelectors_static n b 0 ss c [] y h hy) e

theorem takeOver_static (c q : Computed K V) (h : AllStatic c) (g : AllStatic q) : AllStatic (takeOver c q) := by
  refine ⟨?_, h.2, h.3⟩
  intro k v m e
  simp only [takeOver, extendMap, extendList_apply] at e
  have one : ∀ (o : Option V), ∀ x, (o.map fun v => (v, Mode.static)) = some x → x.2 = .static := by
    intro o x hx; cases o <;> simp at hx; subst hx; rfl
  rw [Option.or_eq_some_iff] at e
  rcases e with e | ⟨_, e⟩
  · exact one _ _ e
  rw [Option.or_eq_some_iff] at e
  rcases e with e | ⟨_, e⟩
  · rw [Option.map_eq_some_iff] at e
    obtain ⟨⟨s, w, y⟩, e1, e2⟩ := e
    simp at e2
    exact e2.2 ▸ g.3 k s w y e1
  rw [Option.or_eq_some_iff] at e
  rcases e with e | ⟨_, e⟩
  · exact one _ _ e
  rw [Option.or_eq_some_iff] at e
  rcases e with e | ⟨_, e⟩
  · exact one _ _ e
  rw [Option.or_eq_some_iff] at e
  rcases e with e | ⟨_, e⟩
  · rw [Option.map_eq_some_iff] at e
    obtain ⟨⟨s, w, y⟩, e1, e2⟩ := e
    simp at e2
    exact e2.2 ▸ g.2 k s w y e1
  rw [Option.or_eq_some_iff] at e
  rcases e with e | ⟨_, e⟩
  · exact g.1 k v m e
  · exact h.1 k v m e

theorem withAll_static (hr : ∀ r ∈ rules, ∃ ss b, r = .style ss b) (ps : List N) : ∀ (n : N) (c : Computed K V),
    withAll test look rules n ps = some c → AllStatic c := by
  have base : ∀ n, AllStatic (withOwn (look n) .empty) := by
    intro n
    refine ⟨?_, ?_, ?_⟩ <;> intros <;> simp_all [withOwn, Computed.empty]
  induction ps with
  | nil => intro n c h; exact withStyle_static n rules hr _ _ (base n) h
  | cons p ps ih =>
    intro n c h
    rw [withAll] at h
    split at h
    · next x q hx hq =>
      simp at h
      subst h
      exact takeOver_static _ _ (withStyle_static n rules hr _ _ (base n) hx) (ih p q hq)
    · simp at h

/-- **C43 (only conditions make a style dynamic).** If no rule of the style sheet stands inside an at-rule, no style
of any element is said to be dynamic. -/
theorem plain_static (hr : ∀ r ∈ rules, ∃ ss b, r = .style ss b) (n : N) (ps : List N) (c : Computed K V)
    (h : withAll test look rules n ps = some c) (k : K) (v : V) (m : Mode) (hg : get inheritable c k = some (v, m)) :
    m = .static := by
  have hs := withAll_static hr ps n c h
  have one : ∀ (o : Option V) (x : V × Mode), (o.map fun v => (v, Mode.static)) = some x → x.2 = .static := by
    intro o x hx; cases o <;> simp at hx; subst hx; rfl
  rw [get, getHigh, Option.or_assoc, Option.or_eq_some_iff] at hg
  rcases hg with e | ⟨_, e⟩
  · exact one _ _ e
  rw [Option.or_assoc, Option.or_eq_some_iff] at e
  rcases e with e | ⟨_, e⟩
  · rw [Option.map_eq_some_iff] at e
    obtain ⟨⟨s, w, y⟩, e1, e2⟩ := e
    simp at e2
    exact e2.2 ▸ hs.3 k s w y e1
  rw [Option.or_eq_some_iff] at e
  rcases e with e | ⟨_, e⟩
  · exact one _ _ e
  rw [Option.or_eq_some_iff] at e
  rcases e with e | ⟨_, e⟩
  · rw [Option.map_eq_some_iff] at e
    obtain ⟨⟨s, w, y⟩, e1, e2⟩ := e
    simp at e2
    exact e2.2 ▸ hs.2 k s w y e1
  rw [Option.or_eq_some_iff] at e
  rcases e with e | ⟨_, e⟩
  · exact one _ _ e
  · unfold getInherited at e
    split at e
    · exact hs.1 k v m e
    · simp at e

/-- A selector that the selector engine cannot read, such as `:hover`, makes the styles of every element an error,
wherever its rule stands in the style sheet. -/
theorem unreadable_violated (n : N) (ps : List N) (pre post : List (Rule K V Sel C)) (s : Sel) (sp : Nat)
    (ss : List (Sel × Nat)) (b : Block K V) (h : test [s] n = none) :
    withAll test look (pre ++ .style ((s, sp) :: ss) b :: post) n ps = none := by
  have key : ∀ (pre : List (Rule K V Sel C)) (c : Computed K V),
      withStyle test n c (pre ++ .style ((s, sp) :: ss) b :: post) = none := by
    intro pre
    induction pre with
    | nil => intro c; simp [withStyle, nested, overSelectors, h]
    | cons r pre ih =>
      intro c
      rw [List.cons_append, withStyle]
      cases nested test n 0 .static c [] r with
      | none => rfl
      | some x => exact ih x.1
  cases ps with
  | nil => exact key pre _
  | cons p ps => rw [withAll, key]

/-! ## Where the code differs from CSS

Elements are lists of classes, a selector is a class, a text of several classes matches an element with all of
them. Properties and values are numbers. -/

/-- The classes are those of the element. -/
def classes (ss : List Nat) (n : List Nat) : Option Bool := some (ss.all fun s => n.contains s)

/-- No attributes at all. -/
def bare (_ : List Nat) : Level Nat Nat := ⟨[], none⟩

/-- The value that is found for property 0 and the one it has. -/
def found (look : List Nat → Level Nat Nat) (rules : List (Rule Nat Nat Nat Nat)) (n : List Nat) (ps : List (List Nat)) :
    Option (Option (Nat × Mode)) := (withAll classes look rules n ps).map fun c => get (fun _ => true) c 0
def actual (look : List Nat → Level Nat Nat) (rules : List (Rule Nat Nat Nat Nat)) (holds : Nat → Bool) (n : List Nat)
    (ps : List (List Nat)) : Option Nat := value classes look rules (fun _ => true) holds n ps 0

/-- With `.a, .b { fill: red }` an element of class `b` is not found to be red. -/
theorem list_violated : ∃ (rules : List (Rule Nat Nat Nat Nat)) (n : List Nat),
    found bare rules n [] = some none ∧ ∀ holds, actual bare rules holds n [] = some 7 :=
  ⟨[.style [(1, 1), (2, 1)] ⟨[(0, 7)], []⟩], [2], by decide +kernel, fun _ => by rfl⟩

/-- Inside `@media`, a rule that does not match hides those that follow. -/
theorem sibling_violated : ∃ (rules : List (Rule Nat Nat Nat Nat)) (n : List Nat),
    found bare rules n [] = some none ∧ actual bare rules (fun _ => true) n [] = some 7 :=
  ⟨[.media 0 [.style [(1, 1)] ⟨[], []⟩, .style [(2, 1)] ⟨[(0, 7)], []⟩]], [2], by decide +kernel, by rfl⟩

/-- A later rule wins over an earlier, more specific one. -/
theorem specificity_violated : ∃ (rules : List (Rule Nat Nat Nat Nat)) (n : List Nat),
    found bare rules n [] = some (some (8, .static)) ∧ ∀ holds, actual bare rules holds n [] = some 7 :=
  ⟨[.style [(1, 5)] ⟨[(0, 7)], []⟩, .style [(1, 1)] ⟨[(0, 8)], []⟩], [1], by decide +kernel, fun _ => by rfl⟩

/-- A value is said to be static though a more specific rule inside `@media` can replace it. -/
theorem static_violated : ∃ (rules : List (Rule Nat Nat Nat Nat)) (n : List Nat),
    found bare rules n [] = some (some (8, .static)) ∧ actual bare rules (fun _ => true) n [] = some 7 ∧
      actual bare rules (fun _ => false) n [] = some 8 :=
  ⟨[.media 0 [.style [(1, 5)] ⟨[(0, 7)], []⟩], .style [(1, 1)] ⟨[(0, 8)], []⟩], [1], by decide +kernel, by rfl, by rfl⟩

/-- What stands in an at-rule other than `@media` and `@container` is not seen. -/
theorem supports_violated : ∃ (rules : List (Rule Nat Nat Nat Nat)) (n : List Nat),
    found bare rules n [] = some none ∧ actual bare rules (fun _ => true) n [] = some 7 :=
  ⟨[.other 0 [.style [(1, 1)] ⟨[(0, 7)], []⟩]], [1], by decide +kernel, by rfl⟩

/-- Of two declarations in a `style` attribute the first is taken. -/
theorem inline_violated : ∃ (look : List Nat → Level Nat Nat) (n : List Nat),
    found look [] n [] = some (some (7, .static)) ∧ ∀ holds, actual look [] holds n [] = some 8 :=
  ⟨fun _ => ⟨[], some ⟨[(0, 7), (0, 8)], []⟩⟩, [], by decide +kernel, fun _ => by rfl⟩

/-- An element takes over the attribute of its parent although a rule gives the parent another value. -/
theorem inherited_violated : ∃ (look : List Nat → Level Nat Nat) (rules : List (Rule Nat Nat Nat Nat)) (n p : List Nat),
    found look rules n [p] = some (some (7, .static)) ∧ found look rules p [] = some (some (8, .static)) ∧
      ∀ holds, actual look rules holds n [p] = some 8 :=
  ⟨fun n => ⟨if n = [] then [] else [(0, 7)], none⟩, [.style [(1, 1)] ⟨[(0, 8)], []⟩], [], [1],
    by decide +kernel, by decide +kernel, fun _ => by rfl⟩

/-! ## Examples -/

/-- A style sheet with a rule for class 1, and rules for class 1 and 2 under conditions. -/
def sheet : List (Rule Nat Nat Nat Nat) :=
  [.style [(1, 1)] ⟨[(0, 7), (1, 3)], []⟩, .media 5 [.style [(1, 1)] ⟨[(0, 8)], []⟩, .style [(2, 1)] ⟨[], [(2, 4)]⟩]]

/-- An attribute, and on elements of class 6 a `style` attribute. -/
def sheetLook (n : List Nat) : Level Nat Nat := ⟨[(4, 9)], if n.contains 6 then some ⟨[(5, 1)], []⟩ else none⟩

theorem sheet_fits (n : List Nat) (hs : n = [1] ∨ n = [1, 6]) : Fits classes sheetLook sheet n := by
  refine ⟨?_, ?_, ?_, ?_, ?_, ?_⟩
  · intro r hr
    simp only [sheet, List.mem_cons, List.not_mem_nil, or_false] at hr
    rcases hr with rfl | rfl
    · rcases hs with rfl | rfl <;> simp [selectorsOf, AllButLast, classes]
    · rcases hs with rfl | rfl <;> simp [selectorsOf, selectorsOfAll, AllButLast, classes]
  · simp [sheet, onlyMediaAll, onlyMedia]
  · intro k
    rw [show appliedAll classes (fun _ => true) n sheet = [(1, ⟨[(0, 7), (1, 3)], []⟩), (1, ⟨[(0, 8)], []⟩)] from by
      rcases hs with rfl | rfl <;> rfl]
    rw [List.pairwise_iff_forall_sublist]
    intro a b hab
    have ha : ∀ x ∈ candidates (·.declarations) k [(1, (⟨[(0, 7), (1, 3)], []⟩ : Block Nat Nat)), (1, ⟨[(0, 8)], []⟩)], x.1 = 1 := by
      intro x hx
      simp only [candidates, List.mem_flatMap, List.mem_map] at hx
      obtain ⟨e, he, v, _, rfl⟩ := hx
      simp only [List.mem_cons, List.not_mem_nil, or_false] at he
      rcases he with rfl | rfl <;> rfl
    have h1 := ha a (hab.subset (by simp))
    have h2 := ha b (hab.subset (by simp))
    omega
  · intro k
    rw [show appliedAll classes (fun _ => true) n sheet = [(1, ⟨[(0, 7), (1, 3)], []⟩), (1, ⟨[(0, 8)], []⟩)] from by
      rcases hs with rfl | rfl <;> rfl]
    simp [candidates, valuesOf]
  · intro b hb
    simp only [sheetLook] at hb
    split at hb
    · simp at hb; subst hb; simp
    · simp at hb
  · simp [sheetLook]

/-- An element of class 1 in an element of classes 1 and 6. Property 0 is dynamic, property 1 static, property 4 an
attribute, property 5 is taken over, property 2 is not there. -/
example : ∃ c, withAll classes sheetLook sheet [1] [[1, 6]] = some c ∧
    get (fun _ => true) c 0 = some (8, .dynamic) ∧ get (fun _ => true) c 1 = some (3, .static) ∧
    get (fun _ => true) c 2 = none ∧ get (fun _ => true) c 4 = some (9, .static) ∧
    get (fun _ => true) c 5 = some (1, .static) ∧ get (fun _ => false) c 5 = none :=
  ⟨_, rfl, by decide +kernel, by decide +kernel, by decide +kernel, by decide +kernel, by decide +kernel,
    by decide +kernel⟩

/-- So it has the value 3 for property 1 and none for property 2 under all conditions. -/
example (holds : Nat → Bool) : value classes sheetLook sheet (fun _ => true) holds [1] [[1, 6]] 1 = some 3 ∧
    value classes sheetLook sheet (fun _ => true) holds [1] [[1, 6]] 2 = none := by
  obtain ⟨c, h1, h2⟩ := computed_partial (test := classes) (look := sheetLook) (rules := sheet)
    (inheritable := fun _ => true) [1] [[1, 6]]
    (by intro m hm; exact sheet_fits m (by simpa using hm))
    (by
      intro m hm
      simp at hm
      subst hm
      intro d hd
      simp [sheetLook] at hd
      subst hd
      rfl)
  have e : withAll classes sheetLook sheet [1] [[1, 6]] = some c := h1
  refine ⟨(h2 1).1 3 ?_ holds, (h2 2).2.1 ?_ holds⟩
  · have : (withAll classes sheetLook sheet [1] [[1, 6]]).map (fun c => get (fun _ => true) c 1) = some (some (3, .static)) := by
      decide +kernel
    rw [e] at this
    simpa using this
  · have : (withAll classes sheetLook sheet [1] [[1, 6]]).map (fun c => get (fun _ => true) c 2) = some none := by
      decide +kernel
    rw [e] at this
    simpa using this

/-- Only rules outside at-rules. -/
example (c : Computed Nat Nat) (h : withAll classes sheetLook (sheet.take 1) [1] [[1, 6]] = some c) (v : Nat) (m : Mode)
    (hg : get (fun _ => true) c 0 = some (v, m)) : m = .static :=
  plain_static (by simp [sheet]) [1] [[1, 6]] c h 0 v m hg

/-- `:hover` somewhere in the style sheet: selector 9 cannot be read. -/
example : withAll (fun ss n => if ss.contains 9 then none else classes ss n) bare
    ([.style [(1, 1)] ⟨[(0, 7)], []⟩] ++ .style [(9, 1)] ⟨[], []⟩ :: ([] : List (Rule Nat Nat Nat Nat))) [1] [] = none :=
  unreadable_violated [1] [] _ _ 9 1 [] _ (by simp)

end Verif.Cascade
