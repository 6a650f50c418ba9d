import Verif.Scripts.Spec

/-! # C72: removing scripts -/

namespace Verif.Scripts

open Verif.CleanAttrs (white)
open Verif.Names (lit)

variable {V : Type}

theorem white_iff (c : Nat) : white c = true ↔ c ∈ [9, 10, 11, 12, 13, 0x20, 0x85, 0xa0, 0x1680, 0x2000, 0x2001, 0x2002, 0x2003,
    0x2004, 0x2005, 0x2006, 0x2007, 0x2008, 0x2009, 0x200a, 0x2028, 0x2029, 0x202f, 0x205f, 0x3000] := by
  simp only [white, Bool.or_eq_true, Bool.and_eq_true, decide_eq_true_eq, beq_iff_eq, List.mem_cons, List.not_mem_nil, or_false]
  omega

theorem dropWhile_split {A : Type} (p : A → Bool) (l : List A) : ∃ x, l = x ++ l.dropWhile p ∧ ∀ a ∈ x, p a = true := by
  induction l with
  | nil => exact ⟨[], rfl, fun _ h => by cases h⟩
  | cons a l ih =>
    by_cases h : p a = true
    · obtain ⟨x, e, hx⟩ := ih
      refine ⟨a :: x, ?_, fun b hb => ?_⟩
      · rw [List.dropWhile_cons_of_pos h, List.cons_append, ← e]
      · cases hb with
        | head => exact h
        | tail _ hb => exact hx b hb
    · exact ⟨[], by rw [List.dropWhile_cons_of_neg h]; rfl, fun _ h => by cases h⟩

theorem dropWhile_append {A : Type} {p : A → Bool} {x y : List A} (h : ∀ a ∈ x, p a = true) : (x ++ y).dropWhile p = y.dropWhile p := by
  induction x with
  | nil => rfl
  | cons a x ih => rw [List.cons_append, List.dropWhile_cons_of_pos (h a List.mem_cons_self), ih fun b hb => h b (.tail _ hb)]

theorem isJs_iff (u : List Nat) : isJs u = true ↔ Starts u := by
  unfold isJs Starts
  rw [List.isPrefixOf_iff_prefix]
  constructor
  · rintro ⟨rest, e⟩
    obtain ⟨x, e', hx⟩ := dropWhile_split white u
    exact ⟨x, rest, by rw [e]; exact e', fun c hc => (white_iff c).1 (hx c hc)⟩
  · rintro ⟨lead, rest, rfl, h⟩
    rw [dropWhile_append fun c hc => (white_iff c).2 (h c hc)]
    refine ⟨rest, ?_⟩
    show _ = (lit "javascript:" ++ rest).dropWhile white
    exact (List.dropWhile_cons_of_neg (by decide)).symm

theorem isHrefJs_iff (a : Attr) : isHrefJs a = true ↔ Href a ∧ Starts a.value := by
  simp only [isHrefJs, Bool.and_eq_true, Bool.or_eq_true, beq_iff_eq, isJs_iff, Href]
  grind

theorem isEvent_iff (a : Attr) : isEvent a = true ↔ Event a := by
  simp [isEvent, Event]

theorem href_not_event {a : Attr} (h : Href a) : ¬ Event a := by
  rintro ⟨_, h2⟩
  rw [h.1] at h2
  revert h2
  decide

theorem link_iff (n : Name) (as : List Attr) : (n = anchor && (as.filter fun a => !isEvent a).any isHrefJs) = true ↔ Link n as := by
  rw [Bool.and_eq_true, decide_eq_true_iff]
  simp only [List.any_eq_true, List.mem_filter, Bool.not_eq_true', isHrefJs_iff, Link, anchor]
  constructor
  · rintro ⟨h1, a, ⟨h2, _⟩, h3⟩
    exact ⟨h1, a, h2, h3⟩
  · rintro ⟨h1, a, h2, h3⟩
    refine ⟨h1, a, ⟨h2, ?_⟩, h3⟩
    rw [Bool.eq_false_iff]
    exact fun h => href_not_event h3.1 ((isEvent_iff a).1 h)

theorem isText_iff (k : Node V) : isText k = true ↔ Text k := by
  cases k <;> simp [isText, Text]

theorem without_filter {A : Type} {P : A → Prop} {p : A → Bool} (hp : ∀ a, p a = true ↔ P a) (l : List A) : Without P l (l.filter fun a => !p a) := by
  induction l with
  | nil => exact .nil
  | cons a l ih =>
    by_cases h : p a = true
    · rw [List.filter_cons_of_neg (by simp [h])]
      exact .drop ((hp a).1 h) ih
    · rw [List.filter_cons_of_pos (by simp [h])]
      exact .keep (fun hc => h ((hp a).2 hc)) ih

/-- What is written when a node is visited. -/
theorem visit_elem (n : Name) (as : List Attr) (ks : List (Node V)) (h : n ≠ script) (hl : ¬ Link n as) :
    visit (.elem n as ks) = ([.elem n (as.filter fun a => !isEvent a) (visitAll ks)], false) := by
  simp only [visit]
  rw [if_neg h, if_neg]
  rw [link_iff]
  exact hl

theorem visit_link (n : Name) (as : List Attr) (ks : List (Node V)) (hl : Link n as) : visit (.elem n as ks) = dissolve isText (visitAll ks) := by
  simp only [visit]
  rw [if_neg, if_pos ((link_iff n as).2 hl)]
  rw [hl.1]
  decide

theorem visit_script (as : List Attr) (ks : List (Node V)) : visit (.elem script as ks) = ([], false) := by simp [visit]

/-- The document holds nothing of what the job knows. -/
def Safe (n : Name) (as : List Attr) : Prop := n ≠ ⟨.svg, "script"⟩ ∧ ¬ Link n as ∧ ∀ a ∈ as, ¬ Event a

theorem has_append {x y : List (Node V)} {n : Name} {as : List Attr} : Has (x ++ y) n as ↔ Has x n as ∨ Has y n as := by
  constructor
  · intro h
    generalize hd : x ++ y = doc at h
    cases h with
    | here hm =>
      rw [← hd] at hm
      exact (List.mem_append.1 hm).imp .here .here
    | deep hm h =>
      rw [← hd] at hm
      exact (List.mem_append.1 hm).imp (.deep · h) (.deep · h)
  · rintro (h | h)
    · cases h with
      | here hm => exact .here (List.mem_append_left _ hm)
      | deep hm h => exact .deep (List.mem_append_left _ hm) h
    · cases h with
      | here hm => exact .here (List.mem_append_right _ hm)
      | deep hm h => exact .deep (List.mem_append_right _ hm) h

theorem has_sub {x y : List (Node V)} (hs : ∀ k ∈ x, k ∈ y) {n : Name} {as : List Attr} (h : Has x n as) : Has y n as := by
  cases h with
  | here hm => exact .here (hs _ hm)
  | deep hm h => exact .deep (hs _ hm) h

theorem dissolve_sub (ks : List (Node V)) : ∀ k ∈ (dissolve isText ks).1, k ∈ ks := by
  intro k hk
  have h1 : ∀ k, k ∈ ks.dropWhile isText → k ∈ ks := fun k h => (List.dropWhile_sublist _).subset h
  simp only [dissolve] at hk
  split at hk
  · rcases List.mem_append.1 hk with hk | hk
    · exact h1 k ((List.takeWhile_sublist _).subset hk)
    · exact h1 k ((List.dropWhile_sublist _).subset (List.mem_of_mem_take hk))
  · exact h1 k ((List.takeWhile_sublist _).subset hk)

mutual
theorem visit_safe : ∀ (k : Node V) {n : Name} {as : List Attr}, Has (visit k).1 n as → Safe n as
  | .text v, n, as, h => by
    simp only [visit] at h
    cases h with
    | here hm => simp at hm
    | deep hm => simp at hm
  | .leaf v, n, as, h => by
    simp only [visit] at h
    cases h with
    | here hm => simp at hm
    | deep hm => simp at hm
  | .elem m bs ks, n, as, h => by
    by_cases hs : m = script
    · subst hs
      rw [visit_script] at h
      cases h with
      | here hm => cases hm
      | deep hm => cases hm
    by_cases hl : Link m bs
    · rw [visit_link m bs ks hl] at h
      exact visitAll_safe ks (has_sub (dissolve_sub _) h)
    · rw [visit_elem m bs ks hs hl] at h
      have hf : ∀ a, a ∈ (bs.filter fun a => !isEvent a) ↔ a ∈ bs ∧ ¬ Event a := by
        intro a
        simp only [List.mem_filter, Bool.not_eq_true', Bool.eq_false_iff, ne_eq, isEvent_iff]
      cases h with
      | here hm =>
        simp only [List.mem_singleton, Node.elem.injEq] at hm
        obtain ⟨rfl, rfl, -⟩ := hm
        refine ⟨hs, fun ⟨h1, a, h2, h3⟩ => hl ⟨h1, a, ((hf a).1 h2).1, h3⟩, fun a ha => ((hf a).1 ha).2⟩
      | deep hm h =>
        simp only [List.mem_singleton, Node.elem.injEq] at hm
        obtain ⟨-, -, rfl⟩ := hm
        exact visitAll_safe ks h
theorem visitAll_safe : ∀ (ks : List (Node V)) {n : Name} {as : List Attr}, Has (visitAll ks) n as → Safe n as
  | [], n, as, h => by
    simp only [visitAll] at h
    cases h with
    | here hm => cases hm
    | deep hm => cases hm
  | k :: ks, n, as, h => by
    simp only [visitAll] at h
    split at h
    · exact visit_safe k h
    · exact (has_append.1 h).elim (visit_safe k) (visitAll_safe ks)
end

/-- **C72 (what is gone)**: in no document is there afterwards a script element of SVG, an attribute of the table of events, or a link of SVG whose
address, after white space, begins with `javascript:`. -/
theorem run_safe (doc : List (Node V)) {n : Name} {as : List Attr} (h : Has (run true doc) n as) :
    n ≠ ⟨.svg, "script"⟩ ∧ (∀ a ∈ as, ¬ Event a) ∧ ¬ Link n as := by
  have := visitAll_safe doc (n := n) (as := as) (by simpa [run] using h)
  exact ⟨this.1, this.2.2, this.2.1⟩

theorem visitAll_quiet {x : List (Node V)} (h : ∀ k ∈ x, (visit k).2 = false) (y : List (Node V)) : visitAll (x ++ y) = visitAll x ++ visitAll y := by
  induction x with
  | nil => rfl
  | cons k x ih =>
    simp only [List.cons_append, visitAll, h k List.mem_cons_self, Bool.false_eq_true, if_false, ih fun b hb => h b (.tail _ hb), List.append_assoc]

theorem visitAll_texts {x : List (Node V)} (h : ∀ k ∈ x, Text k) : visitAll x = x := by
  induction x with
  | nil => rfl
  | cons k x ih =>
    obtain ⟨v, rfl⟩ := h k List.mem_cons_self
    simp [visitAll, visit, ih fun b hb => h b (.tail _ hb)]

theorem dissolve_neat {x y z : List (Node V)} (hx : ∀ k ∈ x, Text k) (hy : ∀ k ∈ y, ¬ Text k) (hz : ∀ k ∈ z, Text k) :
    dissolve isText (x ++ y ++ z) = (y, false) := by
  have hnot : ∀ k : Node V, isText k = false ↔ ¬ Text k := fun k => by rw [← isText_iff, Bool.not_eq_true]
  simp only [dissolve]
  rw [List.append_assoc, dropWhile_append fun k hk => (isText_iff k).2 (hx k hk)]
  cases y with
  | nil =>
    have : z.dropWhile isText = [] := by
      have := dropWhile_append (y := []) (p := isText) (x := z) fun k hk => (isText_iff k).2 (hz k hk)
      simpa using this
    simp [this]
  | cons k y =>
    have h0 : (k :: y ++ z).dropWhile isText = k :: y ++ z :=
      List.dropWhile_cons_of_neg (by simp [(hnot k).2 (hy k List.mem_cons_self)])
    have h1 : ∀ w : List (Node V), (∀ k ∈ w, ¬ Text k) → (w ++ z).takeWhile (fun k => !isText k) = w ∧ (w ++ z).dropWhile (fun k => !isText k) = z := by
      intro w hw
      induction w with
      | nil =>
        cases z with
        | nil => exact ⟨rfl, rfl⟩
        | cons t z =>
          have := (isText_iff t).2 (hz t List.mem_cons_self)
          exact ⟨List.takeWhile_cons_of_neg (by simp [this]), List.dropWhile_cons_of_neg (by simp [this])⟩
      | cons a w ih =>
        have ha := (hnot a).2 (hw a List.mem_cons_self)
        obtain ⟨i1, i2⟩ := ih fun b hb => hw b (.tail _ hb)
        rw [List.cons_append, List.takeWhile_cons_of_pos (by simp [ha]), List.dropWhile_cons_of_pos (by simp [ha]), i1, i2]
        exact ⟨rfl, rfl⟩
    obtain ⟨h2, h3⟩ := h1 _ hy
    rw [h0, h2, h3, if_neg]
    rw [Bool.not_eq_true, List.any_eq_false]
    intro t ht
    simp [(isText_iff t).2 (hz t ht)]

theorem without_neat {x y z : List (Node V)} (hx : ∀ k ∈ x, Text k) (hy : ∀ k ∈ y, ¬ Text k) (hz : ∀ k ∈ z, Text k) : Without Text (x ++ y ++ z) y := by
  have h1 : Without Text z [] := by
    induction z with
    | nil => exact .nil
    | cons k z ih => exact .drop (hz k List.mem_cons_self) (ih fun b hb => hz b (.tail _ hb))
  have h2 : Without Text (y ++ z) y := by
    induction y with
    | nil => exact h1
    | cons k y ih => exact .keep (hy k List.mem_cons_self) (ih fun b hb => hy b (.tail _ hb))
  rw [List.append_assoc]
  clear h1
  induction x with
  | nil => exact h2
  | cons k x ih => exact .drop (hx k List.mem_cons_self) (ih fun b hb => hx b (.tail _ hb))

theorem cleanedAll_append {x y u w : List (Node V)} (h : CleanedAll x u) (h' : CleanedAll y w) : CleanedAll (x ++ y) (u ++ w) := by
  induction x generalizing u with
  | nil => cases h; exact h'
  | cons k x ih =>
    cases h with
    | cons h1 h2 =>
      rw [List.append_assoc]
      exact .cons h1 (ih h2)

theorem cleanedAll_texts {x : List (Node V)} (h : ∀ k ∈ x, Text k) : CleanedAll x x := by
  induction x with
  | nil => exact .nil
  | cons k x ih =>
    obtain ⟨v, rfl⟩ := h k List.mem_cons_self
    exact .cons (.text v) (ih fun b hb => h b (.tail _ hb))

mutual
theorem visit_neat : ∀ {k : Node V}, Neat k → Cleaned k (visit k).1 ∧ (visit k).2 = false ∧ (¬ Text k → ∀ m ∈ (visit k).1, ¬ Text m)
  | _, .text v => ⟨.text v, rfl, fun h => absurd ⟨v, rfl⟩ h⟩
  | _, .leaf v => ⟨.leaf v, rfl, fun _ m hm => by
      rw [show (visit (Node.leaf v)).1 = [.leaf v] from rfl, List.mem_singleton] at hm
      subst hm
      rintro ⟨_, h⟩
      cases h⟩
  | _, @Neat.link _ n as x y z hl hx hy hz hn => by
    obtain ⟨h1, h2, h3⟩ := visitAll_neat hn
    have hall : visitAll (x ++ y ++ z) = x ++ visitAll y ++ z := by
      rw [visitAll_quiet, visitAll_quiet, visitAll_texts hx, visitAll_texts hz]
      · intro k hk
        obtain ⟨v, rfl⟩ := hx k hk
        rfl
      · intro k hk
        rcases List.mem_append.1 hk with hk | hk
        · obtain ⟨v, rfl⟩ := hx k hk
          rfl
        · exact h2 k hk
    have hd := dissolve_neat hx (h3 hy) hz
    rw [visit_link n as _ hl, hall, hd]
    refine ⟨.link hl ?_ (without_neat hx (h3 hy) hz), rfl, fun _ => h3 hy⟩
    exact cleanedAll_append (cleanedAll_append (cleanedAll_texts hx) h1) (cleanedAll_texts hz)
  | _, @Neat.elem _ n as ks hl hn => by
    obtain ⟨h1, h2, _⟩ := visitAll_neat hn
    by_cases hs : n = script
    · subst hs
      rw [visit_script]
      exact ⟨.script _ _, rfl, fun _ m hm => by cases hm⟩
    · rw [visit_elem n as ks hs hl]
      refine ⟨.elem hs hl (without_filter isEvent_iff as) h1, rfl, fun _ m hm => ?_⟩
      rw [List.mem_singleton] at hm
      subst hm
      rintro ⟨_, h⟩
      cases h
theorem visitAll_neat : ∀ {ks : List (Node V)}, NeatAll ks → CleanedAll ks (visitAll ks) ∧ (∀ k ∈ ks, (visit k).2 = false) ∧
    ((∀ k ∈ ks, ¬ Text k) → ∀ m ∈ visitAll ks, ¬ Text m)
  | _, .nil => ⟨.nil, (fun _ h => by cases h), fun _ _ h => by cases h⟩
  | _, @NeatAll.cons _ n l hn hl => by
    obtain ⟨h1, h2, h3⟩ := visit_neat hn
    obtain ⟨g1, g2, g3⟩ := visitAll_neat hl
    simp only [visitAll, h2, Bool.false_eq_true, if_false]
    refine ⟨.cons h1 g1, fun k hk => ?_, fun ht m hm => ?_⟩
    · cases hk with
      | head => exact h2
      | tail _ hk => exact g2 k hk
    · rcases List.mem_append.1 hm with hm | hm
      · exact h3 (ht n List.mem_cons_self) m hm
      · exact g3 (fun k hk => ht k (.tail _ hk)) m hm
end

/-- **C72 (what stays)**: if no link to a script has a text between other things, everything stays, in order, but scripts, attributes for events,
links to scripts themselves, and texts directly in them. -/
theorem run_kept_partial (doc : List (Node V)) (h : NeatAll doc) : CleanedAll doc (run true doc) := by
  simpa [run] using (visitAll_neat h).1

/-- **C72 (off)**. -/
theorem run_off (doc : List (Node V)) : run false doc = doc := rfl

/-- **C72 (a clean document stays as it is)**. -/
theorem run_clean (doc : List (Node V)) (h : ∀ n as, Has doc n as → Safe n as) : run true doc = doc := by
  have key : (∀ k : Node V, (∀ n as, Has [k] n as → Safe n as) → visit k = ([k], false)) ∧
      ∀ ks : List (Node V), (∀ n as, Has ks n as → Safe n as) → visitAll ks = ks := by
    have h1 : ∀ k : Node V, (∀ n as, Has [k] n as → Safe n as) → visit k = ([k], false) := by
      intro k
      refine Node.rec (motive_1 := fun k => (∀ n as, Has [k] n as → Safe n as) → visit k = ([k], false))
        (motive_2 := fun ks => (∀ n as, Has ks n as → Safe n as) → visitAll ks = ks) (fun v _ => rfl) (fun v _ => rfl) ?_ (fun _ => rfl) ?_ k
      · intro n as ks ih h
        have hs := h n as (.here List.mem_cons_self)
        rw [visit_elem n as ks hs.1 hs.2.1, ih fun m bs hm => h m bs (.deep List.mem_cons_self hm)]
        have : as.filter (fun a => !isEvent a) = as := by
          rw [List.filter_eq_self]
          intro a ha
          simp only [Bool.not_eq_true', Bool.eq_false_iff, ne_eq, isEvent_iff]
          exact hs.2.2 a ha
        rw [this]
      · intro k ks h1 h2 h
        have hk : visit k = ([k], false) := h1 fun n as hn => h n as (has_sub (fun x hx => by
          rw [List.mem_singleton] at hx
          rw [hx]
          exact List.mem_cons_self) hn)
        simp only [visitAll, hk, Bool.false_eq_true, if_false]
        rw [h2 fun n as hn => h n as (has_sub (fun x hx => .tail _ hx) hn)]
        rfl
    refine ⟨h1, fun ks => ?_⟩
    induction ks with
    | nil => exact fun _ => rfl
    | cons k ks ih =>
      intro h
      have hk : visit k = ([k], false) := h1 k fun n as hn => h n as (has_sub (fun x hx => by
        rw [List.mem_singleton] at hx
        rw [hx]
        exact List.mem_cons_self) hn)
      simp only [visitAll, hk, Bool.false_eq_true, if_false]
      rw [ih fun n as hn => h n as (has_sub (fun x hx => .tail _ hx) hn)]
      rfl
  simpa [run] using key.2 doc h

/-- **C72 (once is enough)**: a second run changes nothing. -/
theorem run_twice (doc : List (Node V)) : run true (run true doc) = run true doc :=
  run_clean _ fun n as h => visitAll_safe doc (by simpa [run] using h)

/-- What the search for scripts finds in an element. -/
def Found (n : Name) (as : List Attr) : Prop :=
  n = ⟨.svg, "script"⟩ ∨ (∃ a ∈ as, Event a) ∨ (n = ⟨.svg, "a"⟩ ∧ ∃ a ∈ as, a.name = "href" ∧ a.space = .plain ∧ Starts a.value)

theorem attrScript_iff (n : Name) (a : Attr) : attrScript n a = true ↔ Event a ∨ (n = ⟨.svg, "a"⟩ ∧ a.name = "href" ∧ a.space = .plain ∧ Starts a.value) := by
  unfold attrScript
  split
  · next h =>
    simp only [Bool.and_eq_true, beq_iff_eq] at h
    have he : ¬ Event a := href_not_event ⟨h.2, .inl h.1⟩
    simp only [Bool.and_eq_true, beq_iff_eq, isJs_iff, anchor]
    grind
  · next h =>
    simp only [Bool.and_eq_true, beq_iff_eq] at h
    rw [isEvent_iff]
    grind

mutual
theorem hasScript_iff : ∀ k : Node V, hasScript k = true ↔ ∃ n as, Has [k] n as ∧ Found n as
  | .text v => by
    simp only [hasScript, Bool.false_eq_true, false_iff]
    rintro ⟨n, as, h, _⟩
    cases h with
    | here hm => simp at hm
    | deep hm => simp at hm
  | .leaf v => by
    simp only [hasScript, Bool.false_eq_true, false_iff]
    rintro ⟨n, as, h, _⟩
    cases h with
    | here hm => simp at hm
    | deep hm => simp at hm
  | .elem m bs ks => by
    have hf : (m == script || bs.any (attrScript m)) = true ↔ Found m bs := by
      simp only [Bool.or_eq_true, beq_iff_eq, List.any_eq_true, attrScript_iff, Found, script]
      grind
    simp only [hasScript]
    rw [Bool.or_eq_true, hf, hasScripts_iff ks]
    constructor
    · rintro (h | ⟨n, as, h1, h2⟩)
      · exact ⟨m, bs, .here List.mem_cons_self, h⟩
      · exact ⟨n, as, .deep List.mem_cons_self h1, h2⟩
    · rintro ⟨n, as, h1, h2⟩
      cases h1 with
      | here hm =>
        simp only [List.mem_singleton, Node.elem.injEq] at hm
        obtain ⟨rfl, rfl, -⟩ := hm
        exact .inl h2
      | deep hm h1 =>
        simp only [List.mem_singleton, Node.elem.injEq] at hm
        obtain ⟨-, -, rfl⟩ := hm
        exact .inr ⟨n, as, h1, h2⟩
theorem hasScripts_iff : ∀ ks : List (Node V), hasScripts ks = true ↔ ∃ n as, Has ks n as ∧ Found n as
  | [] => by
    simp only [hasScripts, Bool.false_eq_true, false_iff]
    rintro ⟨n, as, h, _⟩
    cases h with
    | here hm => cases hm
    | deep hm => cases hm
  | k :: ks => by
    simp only [hasScripts, Bool.or_eq_true, hasScript_iff k, hasScripts_iff ks]
    rw [show k :: ks = [k] ++ ks from rfl]
    simp only [has_append]
    grind
end

/-- **C72 (the search finds nothing afterwards)**. -/
theorem search_after (doc : List (Node V)) : hasScripts (run true doc) = false := by
  rw [Bool.eq_false_iff, ne_eq, hasScripts_iff]
  rintro ⟨n, as, h, hf⟩
  obtain ⟨h1, h2, h3⟩ := run_safe doc h
  rcases hf with hf | ⟨a, ha, hf⟩ | ⟨hn, a, ha, hn', hs, hj⟩
  · exact h1 hf
  · exact h2 a ha hf
  · exact h3 ⟨hn, a, ha, ⟨hn', .inl hs⟩, hj⟩

end Verif.Scripts
