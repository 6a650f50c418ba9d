import Verif.Select.Spec

/-! # Lemmas: navigation, words and the run of the tests -/

namespace Verif.Select

open Verif.CleanAttrs (white splitWhitespace)

/-! ## Navigation -/

theorem parent_iff (p l : Loc) : p ∈ l.parent.toList ↔ IsParent p l := by
  unfold Loc.parent IsParent
  cases h : l.up with
  | nil => simp
  | cons f fs =>
    obtain ⟨ph, pu⟩ := p
    simp only [Option.toList_some, List.mem_singleton, Loc.mk.injEq, List.cons.injEq]
    exact ⟨fun h => ⟨h.1.symm, h.2.symm⟩, fun h => ⟨h.1.symm, h.2.symm⟩⟩

theorem ancestorsOf_iff (a : Loc) (fs : List Frame) (f : Frame) : a ∈ ancestorsOf fs ↔ IsAncestor a ⟨f, fs⟩ := by
  induction fs generalizing f with
  | nil =>
    refine ⟨fun h => (by cases h), fun h => ?_⟩
    generalize hl : (⟨f, []⟩ : Loc) = l at h
    cases h with
    | parent h => subst hl; simp [IsParent] at h
    | above _ h => subst hl; simp [IsParent] at h
  | cons g gs ih =>
    simp only [ancestorsOf, List.mem_cons]
    constructor
    · rintro (rfl | h)
      · exact .parent rfl
      · exact .above (p := ⟨g, gs⟩) ((ih g).1 h) rfl
    · intro h
      generalize hl : (⟨f, g :: gs⟩ : Loc) = l at h
      cases h with
      | parent h =>
        subst hl
        simp only [IsParent, List.cons.injEq] at h
        obtain ⟨ah, au⟩ := a
        simp only at h
        left; rw [h.1, h.2]
      | @above p _ h h' =>
        subst hl
        simp only [IsParent, List.cons.injEq] at h'
        obtain ⟨ph, pu⟩ := p
        simp only at h'
        obtain ⟨rfl, rfl⟩ := h'
        right; exact (ih _).2 h

theorem ancestors_iff (a l : Loc) : a ∈ l.ancestors ↔ IsAncestor a l := ancestorsOf_iff a l.up l.here

theorem goLeft_iff (a : Loc) (up : List Frame) (b af : List Node) :
    a ∈ goLeft up b af ↔ a.up = up ∧ ∃ mid, b = mid ++ a.here.node :: a.here.before ∧ a.here.after = mid.reverse ++ af := by
  induction b generalizing af with
  | nil => simp [goLeft]
  | cons x b ih =>
    have step : (a.up = up ∧ ∃ mid, b = mid ++ a.here.node :: a.here.before ∧ a.here.after = mid.reverse ++ x :: af) →
        a.up = up ∧ ∃ mid, x :: b = mid ++ a.here.node :: a.here.before ∧ a.here.after = mid.reverse ++ af := by
      rintro ⟨h, mid, e, e'⟩
      exact ⟨h, x :: mid, by simp [e], by simp [e']⟩
    have back : (a.up = up ∧ ∃ mid, x :: b = mid ++ a.here.node :: a.here.before ∧ a.here.after = mid.reverse ++ af) →
        (a.up = up ∧ x = a.here.node ∧ b = a.here.before ∧ a.here.after = af) ∨
        (a.up = up ∧ ∃ mid, b = mid ++ a.here.node :: a.here.before ∧ a.here.after = mid.reverse ++ x :: af) := by
      rintro ⟨h, mid, e, e'⟩
      cases mid with
      | nil => simp only [List.nil_append, List.cons.injEq, List.reverse_nil] at e e'; exact .inl ⟨h, e.1, e.2, e'⟩
      | cons y mid =>
        simp only [List.cons_append, List.cons.injEq, List.reverse_cons, List.append_assoc, List.nil_append] at e e'
        exact .inr ⟨h, mid, e.2, by rw [e', e.1]⟩
    cases x with
    | elem n as ks =>
      simp only [goLeft, List.mem_cons, ih]
      constructor
      · rintro (rfl | h)
        · exact ⟨rfl, [], by simp [Frame.node], by simp⟩
        · exact step h
      · intro h
        rcases back h with ⟨h1, h2, h3, h4⟩ | h
        · left
          obtain ⟨⟨b', n', as', ks', af'⟩, u⟩ := a
          simp only [Frame.node, Node.elem.injEq] at h1 h2 h3 h4
          obtain ⟨rfl, rfl, rfl⟩ := h2
          subst h1 h3 h4; rfl
        · exact .inr h
    | text t =>
      simp only [goLeft, ih]
      refine ⟨step, fun h => ?_⟩
      rcases back h with ⟨_, h2, _⟩ | h
      · simp [Frame.node] at h2
      · exact h
    | other =>
      simp only [goLeft, ih]
      refine ⟨step, fun h => ?_⟩
      rcases back h with ⟨_, h2, _⟩ | h
      · simp [Frame.node] at h2
      · exact h

theorem goLeft_head_iff (a : Loc) (up : List Frame) (b af : List Node) :
    a ∈ (goLeft up b af).head?.toList ↔
      a.up = up ∧ ∃ mid, (∀ n ∈ mid, n.isElem = false) ∧ b = mid ++ a.here.node :: a.here.before ∧ a.here.after = mid.reverse ++ af := by
  induction b generalizing af with
  | nil => simp [goLeft]
  | cons x b ih =>
    have other (hx : x.isElem = false) :
        (a.up = up ∧ ∃ mid, (∀ n ∈ mid, n.isElem = false) ∧ b = mid ++ a.here.node :: a.here.before ∧ a.here.after = mid.reverse ++ x :: af) ↔
        (a.up = up ∧ ∃ mid, (∀ n ∈ mid, n.isElem = false) ∧ x :: b = mid ++ a.here.node :: a.here.before ∧ a.here.after = mid.reverse ++ af) := by
      constructor
      · rintro ⟨h, mid, hm, e, e'⟩
        exact ⟨h, x :: mid, by simpa [hx] using hm, by simp [e], by simp [e']⟩
      · rintro ⟨h, mid, hm, e, e'⟩
        cases mid with
        | nil => simp only [List.nil_append, List.cons.injEq] at e; rw [e.1] at hx; simp [Frame.node, Node.isElem] at hx
        | cons y mid =>
          simp only [List.cons_append, List.cons.injEq, List.reverse_cons, List.append_assoc, List.nil_append] at e e'
          exact ⟨h, mid, fun n hn => hm n (by simp [hn]), e.2, by rw [e', e.1]⟩
    cases x with
    | elem n as ks =>
      simp only [goLeft, List.head?_cons, Option.toList_some, List.mem_singleton]
      constructor
      · rintro rfl
        exact ⟨rfl, [], by simp, by simp [Frame.node], by simp⟩
      · rintro ⟨h, mid, hm, e, e'⟩
        cases mid with
        | nil =>
          simp only [List.nil_append, List.cons.injEq, List.reverse_nil] at e e'
          obtain ⟨⟨b', n', as', ks', af'⟩, u⟩ := a
          simp only [Frame.node, Node.elem.injEq] at h e e'
          obtain ⟨⟨rfl, rfl, rfl⟩, rfl⟩ := e
          subst h e'; rfl
        | cons y mid =>
          simp only [List.cons_append, List.cons.injEq] at e
          have := hm y (by simp)
          rw [← e.1] at this
          simp [Node.isElem] at this
    | text t => simp only [goLeft, ih]; exact other rfl
    | other => simp only [goLeft, ih]; exact other rfl

theorem goRight_iff (a : Loc) (up : List Frame) (b af : List Node) :
    a ∈ goRight up b af ↔ a.up = up ∧ ∃ mid, af = mid ++ a.here.node :: a.here.after ∧ a.here.before = mid.reverse ++ b := by
  induction af generalizing b with
  | nil => simp [goRight]
  | cons x af ih =>
    have step : (a.up = up ∧ ∃ mid, af = mid ++ a.here.node :: a.here.after ∧ a.here.before = mid.reverse ++ x :: b) →
        a.up = up ∧ ∃ mid, x :: af = mid ++ a.here.node :: a.here.after ∧ a.here.before = mid.reverse ++ b := by
      rintro ⟨h, mid, e, e'⟩
      exact ⟨h, x :: mid, by simp [e], by simp [e']⟩
    have back : (a.up = up ∧ ∃ mid, x :: af = mid ++ a.here.node :: a.here.after ∧ a.here.before = mid.reverse ++ b) →
        (a.up = up ∧ x = a.here.node ∧ af = a.here.after ∧ a.here.before = b) ∨
        (a.up = up ∧ ∃ mid, af = mid ++ a.here.node :: a.here.after ∧ a.here.before = mid.reverse ++ x :: b) := by
      rintro ⟨h, mid, e, e'⟩
      cases mid with
      | nil => simp only [List.nil_append, List.cons.injEq, List.reverse_nil] at e e'; exact .inl ⟨h, e.1, e.2, e'⟩
      | cons y mid =>
        simp only [List.cons_append, List.cons.injEq, List.reverse_cons, List.append_assoc, List.nil_append] at e e'
        exact .inr ⟨h, mid, e.2, by rw [e', e.1]⟩
    cases x with
    | elem n as ks =>
      simp only [goRight, List.mem_cons, ih]
      constructor
      · rintro (rfl | h)
        · exact ⟨rfl, [], by simp [Frame.node], by simp⟩
        · exact step h
      · intro h
        rcases back h with ⟨h1, h2, h3, h4⟩ | h
        · left
          obtain ⟨⟨b', n', as', ks', af'⟩, u⟩ := a
          simp only [Frame.node, Node.elem.injEq] at h1 h2 h3 h4
          obtain ⟨rfl, rfl, rfl⟩ := h2
          subst h1 h3 h4; rfl
        · exact .inr h
    | text t =>
      simp only [goRight, ih]
      refine ⟨step, fun h => ?_⟩
      rcases back h with ⟨_, h2, _⟩ | h
      · simp [Frame.node] at h2
      · exact h
    | other =>
      simp only [goRight, ih]
      refine ⟨step, fun h => ?_⟩
      rcases back h with ⟨_, h2, _⟩ | h
      · simp [Frame.node] at h2
      · exact h

/-- At the root of the document, no other element is beside the element. -/
def Single (l : Loc) : Prop := ∀ f, (l.here :: l.up).getLast? = some f → ∀ n ∈ f.before ++ f.after, n.isElem = false

theorem Single.parent {p l : Loc} (h : Single l) (hp : IsParent p l) : Single p := by
  intro f hf
  apply h f
  rw [hp]
  simpa using hf

theorem Single.ancestor {p l : Loc} (h : Single l) (hp : IsAncestor p l) : Single p := by
  induction hp with
  | parent hp => exact h.parent hp
  | above _ hp ih => exact ih (h.parent hp)

theorem single_nil {l : Loc} (h : Single l) (e : l.up = []) : ∀ n ∈ l.here.before ++ l.here.after, n.isElem = false :=
  h l.here (by simp [e])

theorem no_elem {ns : List Node} (h : ∀ n ∈ ns, n.isElem = false) (f : Frame) : f.node ∉ ns := fun m => by
  have := h _ m
  simp [Frame.node, Node.isElem] at this

theorem lefts_iff {a l : Loc} (h : Single l) : a ∈ l.lefts ↔ IsEarlier a l := by
  unfold Loc.lefts IsEarlier Between
  cases e : l.up with
  | nil =>
    simp only [List.isEmpty_nil, if_true, List.not_mem_nil, false_iff]
    rintro ⟨mid, _, e', _⟩
    exact no_elem (single_nil h e) a.here (by simp [e'])
  | cons f fs =>
    simp only [List.isEmpty_cons, Bool.false_eq_true, if_false, goLeft_iff]
    exact ⟨fun ⟨a, m, b, c⟩ => ⟨m, a, b, c⟩, fun ⟨m, a, b, c⟩ => ⟨a, m, b, c⟩⟩

theorem left_iff {a l : Loc} (h : Single l) : a ∈ l.lefts.head?.toList ↔ IsPrevious a l := by
  unfold Loc.lefts IsPrevious Between
  cases e : l.up with
  | nil =>
    simp only [List.isEmpty_nil, if_true, List.head?_nil, Option.toList_none, List.not_mem_nil, false_iff]
    rintro ⟨mid, ⟨_, e', _⟩, _⟩
    exact no_elem (single_nil h e) a.here (by simp [e'])
  | cons f fs =>
    simp only [List.isEmpty_cons, Bool.false_eq_true, if_false, goLeft_head_iff]
    exact ⟨fun ⟨a, m, d, b, c⟩ => ⟨m, ⟨a, b, c⟩, d⟩, fun ⟨m, ⟨a, b, c⟩, d⟩ => ⟨a, m, d, b, c⟩⟩

theorem Single.earlier {a l : Loc} (h : Single l) (e : IsEarlier a l) : Single a := by
  obtain ⟨mid, hu, hb, _⟩ := e
  cases e' : l.up with
  | nil => exact absurd (by simp [hb]) (no_elem (single_nil h e') a.here)
  | cons f fs =>
    intro g hg
    apply h g
    rw [hu, e'] at hg
    rw [e']
    simpa using hg

theorem IsPrevious.earlier {a l : Loc} (h : IsPrevious a l) : IsEarlier a l := h.elim fun m h => ⟨m, h.1⟩

/-! ## Places -/

theorem goLeft_count (t : Bool) (l : Loc) (up : List Frame) (b af : List Node) :
    ((goLeft up b af).filter fun s => !t || sameType l s).length = countType t l.here.name b := by
  induction b generalizing af with
  | nil => rfl
  | cons x b ih =>
    cases x with
    | elem n as ks =>
      simp only [goLeft, List.filter_cons, countType, List.countP_cons]
      have e : (!t || sameType l ⟨⟨b, n, as, ks, af⟩, up⟩) = (!t || n == l.here.name) := by
        simp only [sameType]
        cases t with
        | false => rfl
        | true =>
          rw [Bool.eq_iff_iff]
          simp only [Bool.not_true, Bool.false_or, decide_eq_true_eq, beq_iff_eq]
          exact eq_comm
      rw [e]
      have := ih (af := .elem n as ks :: af)
      simp only [countType] at this
      split
      · rw [List.length_cons, this]
      · rw [this]; simp
    | text t => simpa [goLeft, countType, List.countP_cons] using ih (af := .text t :: af)
    | other => simpa [goLeft, countType, List.countP_cons] using ih (af := .other :: af)

theorem goRight_count (t : Bool) (l : Loc) (up : List Frame) (b af : List Node) :
    ((goRight up b af).filter fun s => !t || sameType l s).length = countType t l.here.name af := by
  induction af generalizing b with
  | nil => rfl
  | cons x af ih =>
    cases x with
    | elem n as ks =>
      simp only [goRight, List.filter_cons, countType, List.countP_cons]
      have e : (!t || sameType l ⟨⟨b, n, as, ks, af⟩, up⟩) = (!t || n == l.here.name) := by
        simp only [sameType]
        cases t with
        | false => rfl
        | true =>
          rw [Bool.eq_iff_iff]
          simp only [Bool.not_true, Bool.false_or, decide_eq_true_eq, beq_iff_eq]
          exact eq_comm
      rw [e]
      have := ih (b := .elem n as ks :: b)
      simp only [countType] at this
      split
      · rw [List.length_cons, this]
      · rw [this]; simp
    | text t => simpa [goRight, countType, List.countP_cons] using ih (b := .text t :: b)
    | other => simpa [goRight, countType, List.countP_cons] using ih (b := .other :: b)

theorem count_none {t : Bool} {m : Name} {ns : List Node} (h : ∀ n ∈ ns, n.isElem = false) : countType t m ns = 0 := by
  unfold countType
  rw [List.countP_eq_zero]
  intro n hn
  have := h n hn
  cases n with
  | elem _ _ _ => simp [Node.isElem] at this
  | text _ => simp
  | other => simp

theorem index_place {l : Loc} (h : Single l) (t e : Bool) : index t e l = place t e l := by
  unfold index place
  congr 1
  cases e with
  | false =>
    simp only [Bool.false_eq_true, if_false, Loc.lefts]
    cases e' : l.up with
    | nil => simpa using (count_none fun n hn => single_nil h e' n (by simp [hn])).symm
    | cons f fs => simp only [List.isEmpty_cons, Bool.false_eq_true, if_false]; exact goLeft_count t l _ _ _
  | true =>
    simp only [if_true, Loc.rights]
    cases e' : l.up with
    | nil => simpa using (count_none fun n hn => single_nil h e' n (by simp [hn])).symm
    | cons f fs => simp only [List.isEmpty_cons, Bool.false_eq_true, if_false]; exact goRight_count t l _ _ _

theorem onStep_iff (a b : Int) (i : Nat) : onStep a b i = true ↔ ∃ k : Nat, a * k + b = (i : Int) := by
  unfold onStep
  by_cases ha : a = 0
  · subst ha
    simp only [if_true, decide_eq_true_eq, Int.zero_mul, Int.zero_add]
    exact ⟨fun h => ⟨0, h.symm⟩, fun ⟨_, h⟩ => h.symm⟩
  · simp only [if_neg ha, Bool.and_eq_true, decide_eq_true_eq]
    constructor
    · rintro ⟨h, e⟩
      refine ⟨(((i : Int) - b) / a).toNat, ?_⟩
      rw [Int.toNat_of_nonneg h, e]; omega
    · rintro ⟨k, e⟩
      have e' : (i : Int) - b = a * k := by omega
      rw [e', Int.mul_ediv_cancel_left _ ha]
      exact ⟨by omega, rfl⟩

/-! ## Words -/

theorem isInfix_iff (v s : Str) : isInfix v s = true ↔ ∃ r t, s = r ++ v ++ t := by
  induction s with
  | nil =>
    simp only [isInfix, List.isEmpty_iff]
    constructor
    · rintro rfl; exact ⟨[], [], rfl⟩
    · rintro ⟨r, t, h⟩; simp at h; exact h.2.1
  | cons c s ih =>
    simp only [isInfix, Bool.or_eq_true, ih, List.isPrefixOf_iff_prefix]
    constructor
    · rintro (⟨t, h⟩ | ⟨r, t, h⟩)
      · exact ⟨[], t, by simp [h]⟩
      · exact ⟨c :: r, t, by simp [h]⟩
    · rintro ⟨r, t, h⟩
      cases r with
      | nil => left; exact ⟨t, by simpa using h.symm⟩
      | cons d r =>
        right
        simp only [List.cons_append, List.cons.injEq] at h
        exact ⟨r, t, h.2⟩

/-- A piece between separators. -/
def Piece (p : Nat → Bool) (w v : Str) : Prop :=
  (∀ c ∈ w, p c = false) ∧
    ∃ a b, v = a ++ w ++ b ∧ (a = [] ∨ ∃ a' c, a = a' ++ [c] ∧ p c = true) ∧ (b = [] ∨ ∃ c b', b = c :: b' ∧ p c = true)

theorem piece_cons_sep {p : Nat → Bool} {w v : Str} {c : Nat} (hc : p c = true) : Piece p w (c :: v) ↔ w = [] ∨ Piece p w v := by
  constructor
  · rintro ⟨hw, a, b, e, ha, hb⟩
    cases a with
    | nil =>
      cases w with
      | nil => exact .inl rfl
      | cons x w =>
        simp only [List.nil_append, List.cons_append, List.cons.injEq] at e
        have := hw x (by simp)
        rw [← e.1, hc] at this; cases this
    | cons x a =>
      right
      simp only [List.cons_append, List.cons.injEq] at e
      refine ⟨hw, a, b, e.2, ?_, hb⟩
      rcases ha with ha | ⟨a', d, ha, hd⟩
      · simp at ha
      · cases a' with
        | nil => simp only [List.nil_append, List.cons.injEq] at ha; exact .inl ha.2
        | cons y a' => simp only [List.cons_append, List.cons.injEq] at ha; exact .inr ⟨a', d, ha.2, hd⟩
  · rintro (rfl | ⟨hw, a, b, e, ha, hb⟩)
    · exact ⟨by simp, [], c :: v, by simp, .inl rfl, .inr ⟨c, v, rfl, hc⟩⟩
    · refine ⟨hw, c :: a, b, by simp [e], .inr ?_, hb⟩
      rcases ha with rfl | ⟨a', d, rfl, hd⟩
      · exact ⟨[], c, rfl, hc⟩
      · exact ⟨c :: a', d, rfl, hd⟩

/-- The piece at the front of `v`, with `cur` before it. -/
theorem split_iff {p : Nat → Bool} {f : Str → Str → List Str} (f0 : ∀ cur, f cur [] = [cur.reverse])
    (f1 : ∀ cur c v, f cur (c :: v) = if p c = true then cur.reverse :: f [] v else f (c :: cur) v) (cur v w : Str)
    (hcur : ∀ c ∈ cur, p c = false) : w ∈ f cur v ↔ Piece p w (cur.reverse ++ v) := by
  induction v generalizing cur with
  | nil =>
    rw [f0]
    simp only [List.mem_singleton, List.append_nil]
    constructor
    · rintro rfl; exact ⟨by simpa using hcur, [], [], by simp, .inl rfl, .inl rfl⟩
    · rintro ⟨hw, a, b, e, ha, hb⟩
      have hall : ∀ c ∈ a ++ w ++ b, p c = false := by rw [← e]; simpa using hcur
      rcases ha with rfl | ⟨a', d, rfl, hd⟩
      · rcases hb with rfl | ⟨d, b', rfl, hd⟩
        · simpa using e.symm
        · have := hall d (by simp); rw [hd] at this; cases this
      · have := hall d (by simp); rw [hd] at this; cases this
  | cons c v ih =>
    rw [f1]
    by_cases hc : p c = true
    · rw [if_pos hc]
      simp only [List.mem_cons, ih [] (by simp)]
      simp only [List.reverse_nil, List.nil_append]
      -- everything in front of the separator is one piece
      constructor
      · rintro (rfl | ⟨hw, a, b, e, ha, hb⟩)
        · exact ⟨by simpa using hcur, [], c :: v, by simp, .inl rfl, .inr ⟨c, v, rfl, hc⟩⟩
        · refine ⟨hw, cur.reverse ++ c :: a, b, by simp [e], .inr ?_, hb⟩
          rcases ha with rfl | ⟨a', d, rfl, hd⟩
          · exact ⟨cur.reverse, c, rfl, hc⟩
          · exact ⟨cur.reverse ++ c :: a', d, by simp, hd⟩
      · rintro ⟨hw, a, b, e, ha, hb⟩
        have hcur' : ∀ x ∈ cur.reverse, p x = false := by simpa using hcur
        generalize cur.reverse = u at *
        rcases List.append_eq_append_iff.1 (show u ++ (c :: v) = a ++ (w ++ b) by simpa using e) with ⟨z, hz, hz'⟩ | ⟨z, hz, hz'⟩
        · -- a = u ++ z
          cases z with
          | nil =>
            simp only [List.append_nil, List.nil_append] at hz hz'
            cases w with
            | nil =>
              rcases ha with rfl | ⟨a', d, rfl, hd⟩
              · left; exact hz
              · have := hcur' d (by simp [← hz]); rw [hd] at this; cases this
            | cons x w =>
              simp only [List.cons_append, List.cons.injEq] at hz'
              have := hw x (by simp); rw [← hz'.1, hc] at this; cases this
          | cons y z =>
            simp only [List.cons_append, List.cons.injEq] at hz'
            right
            refine ⟨hw, z, b, by simp [hz'.2], ?_, hb⟩
            rcases ha with rfl | ⟨a', d, ha, hd⟩
            · simp at hz
            · rw [hz] at ha
              by_cases hzn : z = []
              · exact .inl hzn
              · right
                obtain ⟨z', x, rfl⟩ : ∃ z' x, z = z' ++ [x] := ⟨z.dropLast, z.getLast hzn, (List.dropLast_concat_getLast hzn).symm⟩
                refine ⟨z', x, rfl, ?_⟩
                have : (u ++ y :: z') ++ [x] = a' ++ [d] := by simpa using ha
                have := List.append_inj_right' this rfl
                simp only [List.cons.injEq, and_true] at this
                rw [this]; exact hd
        · -- u = a ++ z
          left
          have ha' : a = [] := by
            rcases ha with rfl | ⟨a', d, rfl, hd⟩
            · rfl
            · have := hcur' d (by simp [hz]); rw [hd] at this; cases this
          subst ha'
          simp only [List.nil_append] at hz
          subst hz
          rcases List.append_eq_append_iff.1 hz' with ⟨y, hy, hy'⟩ | ⟨y, hy, hy'⟩
          · -- u = w ++ y, b = y ++ c :: v
            cases y with
            | nil => simpa using hy.symm
            | cons x y =>
              rcases hb with rfl | ⟨d, b', rfl, hd⟩
              · simp at hy'
              · simp only [List.cons_append, List.cons.injEq] at hy'
                have := hcur' x (by simp [hy]); rw [← hy'.1, hd] at this; cases this
          · cases y with
            | nil => simpa using hy
            | cons x y =>
              simp only [List.cons_append, List.cons.injEq] at hy'
              have := hw x (by simp [hy]); rw [← hy'.1, hc] at this; cases this
    · rw [if_neg hc, ih (c :: cur) (by simpa [hc] using hcur)]
      simp

theorem cssWhite_eq : cssWhite = space := by
  funext c
  rw [Bool.eq_iff_iff]
  simp only [cssWhite, space, Bool.or_eq_true, beq_iff_eq, List.contains_iff_mem, List.mem_cons, List.not_mem_nil, or_false]
  omega

theorem splitCss_iff (v w : Str) : w ∈ splitCss [] v ↔ Piece space w v := by
  rw [← cssWhite_eq]
  simpa using split_iff (p := cssWhite) (f := splitCss) (fun _ => rfl) (fun _ _ _ => rfl) [] v w (by simp)

theorem splitWhite_iff (v w : Str) : w ∈ splitWhitespace v ↔ w ≠ [] ∧ Piece white w v := by
  have := split_iff (p := white) (f := CleanAttrs.split) (fun _ => rfl) (fun _ _ _ => rfl) [] v w (by simp)
  simp only [splitWhitespace, List.mem_filter]
  rw [this]
  simp only [List.reverse_nil, List.nil_append, Bool.not_eq_true', List.isEmpty_eq_false_iff]
  exact and_comm

theorem isWord_iff (w v : Str) : IsWord w v ↔ w ≠ [] ∧ Piece space w v := Iff.rfl

theorem eval_iff (o : Op) (s : Str) : eval o s = true ↔ Says o s := by
  cases o with
  | present => simp [eval, Says]
  | equals v => simp [eval, Says, eq_comm]
  | includes v =>
    simp only [eval, Says, isWord_iff, Bool.and_eq_true, Bool.not_eq_true', List.isEmpty_eq_false_iff, List.contains_iff_mem, splitCss_iff]
  | dash v =>
    simp only [eval, Says, Bool.or_eq_true, decide_eq_true_eq, List.isPrefixOf_iff_prefix]
    constructor
    · rintro (h | ⟨r, h⟩)
      · exact .inl h.symm
      · exact .inr ⟨r, by simp [← h]⟩
    · rintro (h | ⟨r, h⟩)
      · exact .inl h.symm
      · exact .inr ⟨r, by simp [h]⟩
  | starts v =>
    simp only [eval, Says, Bool.and_eq_true, Bool.not_eq_true', List.isEmpty_eq_false_iff, List.isPrefixOf_iff_prefix]
    exact and_congr_right fun _ => ⟨fun ⟨r, h⟩ => ⟨r, h.symm⟩, fun ⟨r, h⟩ => ⟨r, h.symm⟩⟩
  | ends v =>
    simp only [eval, Says, Bool.and_eq_true, Bool.not_eq_true', List.isEmpty_eq_false_iff, List.isSuffixOf_iff_suffix]
    exact and_congr_right fun _ => ⟨fun ⟨r, h⟩ => ⟨r, h.symm⟩, fun ⟨r, h⟩ => ⟨r, h.symm⟩⟩
  | contains v =>
    simp only [eval, Says, Bool.and_eq_true, Bool.not_eq_true', List.isEmpty_eq_false_iff, isInfix_iff]

/-! ## Runs -/

/-- What is known is right. -/
def Good (E : Env) (c : Cache) : Prop := ∀ t e l i, c.get (t, e, E.addr l) = some i → i = index t e l

/-- The run answers `P`, whatever is known, and what is known stays right. -/
def Right (E : Env) (r : Run) (P : Prop) : Prop := ∀ c, Good E c → ((r c).1 = true ↔ P) ∧ Good E (r c).2

theorem Right.ret {E : Env} {b : Bool} {P : Prop} (h : b = true ↔ P) : Right E (.ret b) P := fun _ g => ⟨h, g⟩

theorem Right.neg {E : Env} {r : Run} {P : Prop} (h : Right E r P) : Right E r.neg (¬ P) := fun c g => by
  refine ⟨?_, (h c g).2⟩
  rw [← (h c g).1]
  simp [Run.neg]

theorem Right.and {E : Env} {r s : Run} {P Q : Prop} (h : Right E r P) (k : Right E s Q) : Right E (r.and s) (P ∧ Q) := fun c g => by
  unfold Run.and
  obtain ⟨h1, h2⟩ := h c g
  cases e : (r c).1 with
  | false =>
    simp only [Bool.false_eq_true, if_false, false_iff]
    rw [e] at h1
    exact ⟨fun p => by simpa using h1.2 p.1, h2⟩
  | true =>
    simp only [if_true]
    obtain ⟨k1, k2⟩ := k _ h2
    exact ⟨by rw [k1]; exact ⟨fun q => ⟨h1.1 e, q⟩, fun q => q.2⟩, k2⟩

theorem Right.or {E : Env} {r s : Run} {P Q : Prop} (h : Right E r P) (k : Right E s Q) : Right E (r.or s) (P ∨ Q) := fun c g => by
  unfold Run.or
  obtain ⟨h1, h2⟩ := h c g
  cases e : (r c).1 with
  | true => simp only [if_true, true_iff]; exact ⟨.inl (h1.1 e), h2⟩
  | false =>
    simp only [Bool.false_eq_true, if_false]
    obtain ⟨k1, k2⟩ := k _ h2
    rw [e] at h1
    exact ⟨by rw [k1]; exact ⟨.inr, fun q => q.resolve_left fun p => by simpa using h1.2 p⟩, k2⟩

theorem Right.any {E : Env} {f : Loc → Run} {P : Loc → Prop} {ls : List Loc} (h : ∀ l ∈ ls, Right E (f l) (P l)) :
    Right E (Run.any f ls) (∃ l ∈ ls, P l) := by
  induction ls with
  | nil => exact .ret (by simp)
  | cons l ls ih =>
    have := (h l (by simp)).or (ih fun l hl => h l (by simp [hl]))
    simpa [Run.any] using this

theorem Right.of {E : Env} {r : Run} {P Q : Prop} (h : Right E r P) (e : P ↔ Q) : Right E r Q := fun c g =>
  ⟨(h c g).1.trans e, (h c g).2⟩

theorem good_nil (E : Env) : Good E [] := fun _ _ _ _ h => by simp [Cache.get] at h

theorem nth_edge {E : Env} {l : Loc} (h : Single l) (e : Bool) : Right E (nthChild E false e 0 1 l) (∃ k : Nat, (0 : Int) * k + 1 = (place false e l : Nat)) := by
  intro c g
  simp only [nthChild, and_self, if_true]
  refine ⟨?_, g⟩
  rw [← index_place h]
  have : index false e l = (if e = true then l.rights else l.lefts).length + 1 := by simp [index]
  rw [this]
  cases (if e = true then l.rights else l.lefts) with
  | nil => simp
  | cons a as => simp; omega

theorem nth_any {E : Env} {l : Loc} (inj : ∀ a b, E.addr a = E.addr b → a = b) (h : Single l) (t e : Bool) (a b : Int) :
    Right E (nthChild E t e a b l) (∃ k : Nat, a * k + b = (place t e l : Nat)) := by
  by_cases hs : a = 0 ∧ b = 1 ∧ t = false
  · obtain ⟨rfl, rfl, rfl⟩ := hs
    exact nth_edge h e
  · intro c g
    simp only [nthChild, if_neg hs]
    cases hc : c.get (t, e, E.addr l) with
    | some i =>
      refine ⟨?_, g⟩
      rw [onStep_iff, g t e l i hc, index_place h]
    | none =>
      refine ⟨by rw [onStep_iff, index_place h], ?_⟩
      intro t' e' l' i hi
      simp only [Cache.get, List.find?_cons] at hi
      split at hi
      · rename_i heq
        simp only [decide_eq_true_eq, Prod.mk.injEq] at heq
        obtain ⟨rfl, rfl, ha⟩ := heq
        rw [← inj _ _ ha]
        simpa using hi.symm
      · exact g t' e' l' i hi

end Verif.Select
