import Verif.Precheck.Model
import Verif.Scripts.Spec

/-! # C73: refusing what cannot be kept -/

namespace Verif.Precheck

open Verif.Scripts (Space Name AttrSpace Attr Node Has isEvent events)

variable {V : Type}

/-- Why an element is refused. -/
inductive Refused (n : Name) (as : List Attr) : Err → Prop
  | script : n = ⟨.svg, "script"⟩ → Refused n as .scripting
  | animation : n.space = .svg → n.loc ∈ ["animate", "animateColor", "animateMotion", "animateTransform", "set"] → Refused n as .animation
  | event {a : Attr} : a ∈ as → a.space = .plain → a.name ∈ events → Refused n as .scripting
  | conditional {a : Attr} : a ∈ as → a.space = .plain → a.name ∈ ["requiredExtensions", "requiredFeatures", "systemLanguage"] → a.value ≠ [] →
      Refused n as .conditional
  | link {a : Attr} : a ∈ as → a.space = .xlink → a.name = "href" → ¬ (n.space = .svg ∧ n.loc ∈ ["a", "image", "font-face-uri", "feImage"]) →
      Refused n as (.xlink a.value)

mutual
/-- The elements of a document, in the order in which they begin. -/
inductive Order : Node V → List (Name × List Attr) → Prop
  | text (v : V) : Order (.text v) []
  | leaf (v : V) : Order (.leaf v) []
  | elem (n : Name) (as : List Attr) {ks : List (Node V)} {l : List (Name × List Attr)} : OrderAll ks l → Order (.elem n as ks) ((n, as) :: l)
/-- The same for lists. -/
inductive OrderAll : List (Node V) → List (Name × List Attr) → Prop
  | nil : OrderAll [] []
  | cons {k : Node V} {ks : List (Node V)} {x l : List (Name × List Attr)} : Order k x → OrderAll ks l → OrderAll (k :: ks) (x ++ l)
end

theorem checkElement_some {n : Name} {e : Err} (h : checkElement n = some e) (as : List Attr) : Refused n as e := by
  unfold checkElement at h
  split at h
  · next hs => cases h; exact .script hs
  · split at h
    · next ha =>
      cases h
      simp only [Bool.and_eq_true, decide_eq_true_eq, List.contains_iff_mem] at ha
      exact .animation ha.1 ha.2
    · cases h

theorem checkElement_none {n : Name} (h : checkElement n = none) : n ≠ ⟨.svg, "script"⟩ ∧
    ¬ (n.space = .svg ∧ n.loc ∈ ["animate", "animateColor", "animateMotion", "animateTransform", "set"]) := by
  unfold checkElement at h
  split at h
  · cases h
  · next hs =>
    split at h
    · cases h
    · next ha =>
      simp only [Bool.and_eq_true, decide_eq_true_eq, List.contains_iff_mem] at ha
      exact ⟨hs, ha⟩

theorem checkEvents_some {n : Name} {as : List Attr} {e : Err} (h : checkEvents as = some e) : Refused n as e := by
  unfold checkEvents at h
  split at h
  · next ha =>
    cases h
    rw [List.any_eq_true] at ha
    obtain ⟨a, ha, he⟩ := ha
    simp only [isEvent, Bool.and_eq_true, beq_iff_eq, List.contains_iff_mem] at he
    exact .event ha he.1 he.2
  · cases h

theorem checkEvents_none {as : List Attr} (h : checkEvents as = none) : ∀ a ∈ as, ¬ (a.space = .plain ∧ a.name ∈ events) := by
  unfold checkEvents at h
  split at h
  · cases h
  · next ha =>
    intro a hm he
    refine ha (List.any_eq_true.2 ⟨a, hm, ?_⟩)
    simp only [isEvent, Bool.and_eq_true, beq_iff_eq, List.contains_iff_mem]
    exact he

theorem checkConditional_some {n : Name} {as : List Attr} {e : Err} (h : checkConditional as = some e) : Refused n as e := by
  unfold checkConditional at h
  split at h
  · next ha =>
    cases h
    rw [List.any_eq_true] at ha
    obtain ⟨a, ha, he⟩ := ha
    simp only [isConditional, Bool.and_eq_true, beq_iff_eq, List.contains_iff_mem, Bool.not_eq_true', List.isEmpty_eq_false_iff] at he
    exact .conditional ha he.1.1 he.1.2 he.2
  · cases h

theorem checkConditional_none {as : List Attr} (h : checkConditional as = none) :
    ∀ a ∈ as, a.space = .plain → a.name ∈ ["requiredExtensions", "requiredFeatures", "systemLanguage"] → a.value = [] := by
  unfold checkConditional at h
  split at h
  · cases h
  · next ha =>
    intro a hm h1 h2
    refine Classical.byContradiction fun h3 => ha (List.any_eq_true.2 ⟨a, hm, ?_⟩)
    simp only [isConditional, Bool.and_eq_true, beq_iff_eq, List.contains_iff_mem, Bool.not_eq_true', List.isEmpty_eq_false_iff]
    exact ⟨⟨h1, h2⟩, h3⟩

theorem checkXlink_some {n : Name} {as : List Attr} {e : Err} (h : checkXlink n as = some e) : Refused n as e := by
  unfold checkXlink at h
  split at h
  · cases h
  · next hn =>
    simp only [Bool.and_eq_true, decide_eq_true_eq, List.contains_iff_mem] at hn
    cases hf : as.find? fun a => a.space == .xlink && a.name == "href" with
    | none => rw [hf] at h; cases h
    | some a =>
      rw [hf] at h
      cases h
      have hs := List.find?_some hf
      simp only [Bool.and_eq_true, beq_iff_eq] at hs
      exact .link (List.mem_of_find?_eq_some hf) hs.1 hs.2 hn

theorem checkXlink_none {n : Name} {as : List Attr} (h : checkXlink n as = none) :
    ∀ a ∈ as, a.space = .xlink → a.name = "href" → n.space = .svg ∧ n.loc ∈ ["a", "image", "font-face-uri", "feImage"] := by
  unfold checkXlink at h
  split at h
  · next hn =>
    simp only [Bool.and_eq_true, decide_eq_true_eq, List.contains_iff_mem] at hn
    exact fun _ _ _ _ => hn
  · intro a hm h1 h2
    rw [Option.map_eq_none_iff, List.find?_eq_none] at h
    exact absurd (by simp [h1, h2]) (h a hm)

theorem check_some {n : Name} {as : List Attr} {e : Err} (h : check n as = some e) : Refused n as e := by
  unfold check at h
  rw [Option.or_eq_some_iff] at h
  rcases h with h | ⟨_, h⟩
  · exact checkElement_some h as
  rw [Option.or_eq_some_iff] at h
  rcases h with h | ⟨_, h⟩
  · exact checkEvents_some h
  rw [Option.or_eq_some_iff] at h
  rcases h with h | ⟨_, h⟩
  · exact checkConditional_some h
  · exact checkXlink_some h

theorem check_none {n : Name} {as : List Attr} : check n as = none ↔ ∀ e, ¬ Refused n as e := by
  constructor
  · intro h e hr
    unfold check at h
    simp only [Option.or_eq_none_iff] at h
    obtain ⟨h1, h2, h3, h4⟩ := h
    cases hr with
    | script hs => exact (checkElement_none h1).1 hs
    | animation ha hb => exact (checkElement_none h1).2 ⟨ha, hb⟩
    | event hm ha hb => exact checkEvents_none h2 _ hm ⟨ha, hb⟩
    | conditional hm ha hb hc => exact hc (checkConditional_none h3 _ hm ha hb)
    | link hm ha hb hc => exact hc (checkXlink_none h4 _ hm ha hb)
  · intro h
    cases hc : check n as with
    | none => rfl
    | some e => exact absurd (check_some hc) (h e)

mutual
theorem order_exists : ∀ k : Node V, ∃ l, Order k l
  | .text v => ⟨_, .text v⟩
  | .leaf v => ⟨_, .leaf v⟩
  | .elem n as ks => (orderAll_exists ks).elim fun _ h => ⟨_, .elem n as h⟩
theorem orderAll_exists : ∀ ks : List (Node V), ∃ l, OrderAll ks l
  | [] => ⟨_, .nil⟩
  | k :: ks => (order_exists k).elim fun _ h => (orderAll_exists ks).elim fun _ h' => ⟨_, .cons h h'⟩
end

theorem findSome_append {A B : Type} (f : A → Option B) (x y : List A) : (x ++ y).findSome? f = (x.findSome? f).or (y.findSome? f) := List.findSome?_append

mutual
theorem visit_order {o : Options} (ho : o.precleanChecks = true) : ∀ {k : Node V} {l : List (Name × List Attr)}, Order k l →
    visit o k = l.findSome? fun p => check p.1 p.2
  | _, _, .text _ => rfl
  | _, _, .leaf _ => rfl
  | _, _, .elem n as h => by
    simp only [visit, ho, if_true, visitAll_order ho h, List.findSome?_cons]
    cases check n as <;> rfl
theorem visitAll_order {o : Options} (ho : o.precleanChecks = true) : ∀ {ks : List (Node V)} {l : List (Name × List Attr)}, OrderAll ks l →
    visitAll o ks = l.findSome? fun p => check p.1 p.2
  | _, _, .nil => rfl
  | _, _, .cons h h' => by
    simp only [visitAll, visit_order ho h, visitAll_order ho h', findSome_append]
end

mutual
theorem visit_off {o : Options} (ho : o.precleanChecks = false) : ∀ k : Node V, visit o k = none
  | .text _ => rfl
  | .leaf _ => rfl
  | .elem n as ks => by simp [visit, ho, visitAll_off ho ks]
theorem visitAll_off {o : Options} (ho : o.precleanChecks = false) : ∀ ks : List (Node V), visitAll o ks = none
  | [] => rfl
  | k :: ks => by simp [visitAll, visit_off ho k, visitAll_off ho ks]
end

mutual
theorem order_mem {k : Node V} : ∀ {l : List (Name × List Attr)}, Order k l → ∀ n as, (n, as) ∈ l → Has [k] n as
  | _, .text _, n, as, h => by cases h
  | _, .leaf _, n, as, h => by cases h
  | _, .elem m bs ho, n, as, h => by
    cases h with
    | head => exact .here List.mem_cons_self
    | tail _ h => exact .deep List.mem_cons_self (orderAll_mem ho n as h)
theorem orderAll_mem {ks : List (Node V)} : ∀ {l : List (Name × List Attr)}, OrderAll ks l → ∀ n as, (n, as) ∈ l → Has ks n as
  | _, .nil, n, as, h => by cases h
  | _, .cons h1 h2, n, as, h => by
    rcases List.mem_append.1 h with h | h
    · cases order_mem h1 n as h with
      | here hm =>
        rw [List.mem_singleton] at hm
        exact .here (by rw [hm]; exact List.mem_cons_self)
      | deep hm h =>
        rw [List.mem_singleton] at hm
        exact .deep (by rw [hm]; exact List.mem_cons_self) h
    · cases orderAll_mem h2 n as h with
      | here hm => exact .here (.tail _ hm)
      | deep hm h => exact .deep (.tail _ hm) h
end

theorem mem_order {doc : List (Node V)} {n : Name} {as : List Attr} (h : Has doc n as) : ∀ {l : List (Name × List Attr)}, OrderAll doc l → (n, as) ∈ l := by
  have part : ∀ {doc : List (Node V)} {k : Node V} {l : List (Name × List Attr)}, OrderAll doc l → k ∈ doc → ∃ x, Order k x ∧ ∀ p ∈ x, p ∈ l := by
    intro doc k
    induction doc with
    | nil => intro l _ h; cases h
    | cons j doc ih =>
      intro l ho hm
      cases ho with
      | cons h1 h2 =>
        cases hm with
        | head => exact ⟨_, h1, fun p hp => List.mem_append_left _ hp⟩
        | tail _ hm =>
          obtain ⟨x, hx, hs⟩ := ih h2 hm
          exact ⟨x, hx, fun p hp => List.mem_append_right _ (hs p hp)⟩
  induction h with
  | here hm =>
    intro l ho
    obtain ⟨x, hx, hs⟩ := part ho hm
    cases hx with
    | elem _ _ h => exact hs _ List.mem_cons_self
  | deep hm _ ih =>
    intro l ho
    obtain ⟨x, hx, hs⟩ := part ho hm
    cases hx with
    | elem _ _ h => exact hs _ (.tail _ (ih h))

/-- **C73 (what is accepted)**: with the checks, a document is accepted, and stays as it is, exactly if no element in it is refused. -/
theorem accepted_iff (o : Options) (ho : o.precleanChecks = true) (doc : List (Node V)) :
    run o doc = .ok doc ↔ ∀ n as, Has doc n as → ∀ e, ¬ Refused n as e := by
  obtain ⟨l, hl⟩ := orderAll_exists doc
  have h : run o doc = .ok doc ↔ visitAll o doc = none := by
    unfold run
    cases visitAll o doc <;> simp
  rw [h, visitAll_order ho hl, List.findSome?_eq_none_iff]
  constructor
  · intro h n as hn
    exact check_none.1 (h (n, as) (mem_order hn hl))
  · intro h p hp
    exact check_none.2 (h p.1 p.2 (orderAll_mem hl p.1 p.2 hp))

/-- **C73 (the error)**: the error is about the first element that is refused. -/
theorem error_first (o : Options) (doc : List (Node V)) (e : Err) (h : run o doc = .error e) :
    o.precleanChecks = true ∧ ∃ before n as after, OrderAll doc (before ++ (n, as) :: after) ∧ (∀ p ∈ before, ∀ e, ¬ Refused p.1 p.2 e) ∧ Refused n as e := by
  have hv : visitAll o doc = some e := by
    unfold run at h
    cases hc : visitAll o doc with
    | none => rw [hc] at h; cases h
    | some e' => rw [hc] at h; cases h; rfl
  cases ho : o.precleanChecks with
  | false => rw [visitAll_off ho] at hv; cases hv
  | true =>
    refine ⟨rfl, ?_⟩
    obtain ⟨l, hl⟩ := orderAll_exists doc
    rw [visitAll_order ho hl, List.findSome?_eq_some_iff] at hv
    obtain ⟨x, p, y, rfl, h1, h2⟩ := hv
    exact ⟨x, p.1, p.2, y, hl, fun q hq => check_none.1 (h2 q hq), check_some h1⟩

/-- **C73 (an error or the same document)**. -/
theorem run_same (o : Options) (doc doc' : List (Node V)) (h : run o doc = .ok doc') : doc' = doc := by
  unfold run at h
  split at h
  · cases h
  · cases h; rfl

/-- **C73 (off)**: without the checks, as by default, everything is accepted. -/
theorem run_off (o : Options) (ho : o.precleanChecks = false) (doc : List (Node V)) : run o doc = .ok doc ∧ run standard doc = .ok doc := by
  unfold run
  rw [visitAll_off ho, visitAll_off (o := standard) rfl]
  exact ⟨rfl, rfl⟩

end Verif.Precheck
