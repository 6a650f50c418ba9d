import Verif.Empty.Defs

/-!
# C47: removing empty containers
-/

namespace Verif.Empty

open Verif.Tree Verif.Names Verif.Removal

variable {A ε : Type}

/-- SVG 1.1, 5.1 (container element). -/
def isContainer (n : EName) : Bool :=
  among ["a", "defs", "glyph", "g", "marker", "mask", "missing-glyph", "pattern", "svg", "switch", "symbol"] n

theorem containers_svg (n : EName) : among containers n = isContainer n := by
  rw [Bool.eq_iff_iff]
  simp only [among, isContainer, List.any_eq_true]
  have h : ∀ x, x ∈ containers ↔
      x ∈ ["a", "defs", "glyph", "g", "marker", "mask", "missing-glyph", "pattern", "svg", "switch", "symbol"] := by
    intro x
    simp only [containers, List.mem_cons, List.not_mem_nil, or_false]
    constructor <;> rintro (h | h | h | h | h | h | h | h | h | h | h) <;> simp [h]
  simp only [h]

/-- A name and the attributes of an element for which an element without content is of no use: a container, not the outermost
kind, not a pattern with attributes, not a mask with an `id`, otherwise not a choice of a `switch`, not a group with a filter. -/
structure Idle (isId : A → Bool) (filtered : Chain A → Except ε Bool) (anc : Chain A) (n : EName) (as : List A) : Prop where
  container : isContainer n = true
  svg : n.is "svg" = false
  pattern : n.is "pattern" = true → as = []
  mask : n.is "mask" = true → ∀ a ∈ as, isId a = false
  choice : n.is "pattern" = false → n.is "mask" = false → ∀ p, anc.head? = some p → p.1.is "switch" = false
  group : n.is "g" = true → filtered ((n, as) :: anc) = .ok false

/-- A node of no use: a blank text, or an idle element with nothing else in it. -/
inductive Hollow (white : Char → Bool) (isId : A → Bool) (filtered : Chain A → Except ε Bool) : Chain A → Node A → Prop
  | text {anc s} : (∀ c ∈ s, white c = true) → Hollow white isId filtered anc (.text s)
  | elem {anc n as ks} : Idle isId filtered anc n as → (∀ k ∈ ks, Hollow white isId filtered ((n, as) :: anc) k) →
      Hollow white isId filtered anc (.elem n as ks)

def Node.isElem : Node A → Prop
  | .elem _ _ _ => True
  | _ => False

/-- The names and attributes of a chain of nodes. -/
def heads : List (Node A) → Chain A
  | [] => []
  | .elem n as _ :: l => (n, as) :: heads l
  | _ :: l => heads l

/-- A node with its ancestors is removed if it or one of them is a hollow element. -/
def Gone (white : Char → Bool) (isId : A → Bool) (filtered : Chain A → Except ε Bool) : List (Node A) → Prop
  | [] => False
  | n :: anc => (Node.isElem n ∧ Hollow white isId filtered (heads anc) n) ∨ Gone white isId filtered anc

theorem is_both {n : EName} {a b : String} (h : lit a ≠ lit b) (ha : n.is a = true) : n.is b = false := by
  cases hb : n.is b with
  | false => rfl
  | true =>
    simp only [EName.is, Bool.and_eq_true, beq_iff_eq] at ha hb
    exact absurd (ha.2.symm.trans hb.2) h

theorem exit_spec {white : Char → Bool} {isId : A → Bool} {filtered : Chain A → Except ε Bool} {anc : Chain A} {n : EName}
    {as : List A} {ks : List (Node A)} {b : Bool} (h : emptyExit white isId filtered anc n as ks = .ok b) :
    b = true ↔ Idle isId filtered anc n as ∧ isEmpty white ks = true := by
  unfold emptyExit at h
  rw [containers_svg] at h
  have fin : ∀ (hc : isContainer n = true) (he : isEmpty white ks = true) (h1 : n.is "svg" = false)
      (h2 : n.is "pattern" = true → as = []) (h3 : n.is "mask" = true → ∀ a ∈ as, isId a = false)
      (h4 : n.is "pattern" = false → n.is "mask" = false → ∀ p, anc.head? = some p → p.1.is "switch" = false)
      (h5 : (do if n.is "g" = true then (do if (← filtered ((n, as) :: anc)) = true then return false else return true) else return true)
        = Except.ok b), b = true ↔ Idle isId filtered anc n as ∧ isEmpty white ks = true := by
    intro hc he h1 h2 h3 h4 h5
    by_cases hg : n.is "g" = true
    · rw [if_pos hg] at h5
      cases hf : filtered ((n, as) :: anc) with
      | error e => rw [hf] at h5; cases h5
      | ok f =>
        rw [hf] at h5
        cases f with
        | true =>
          have : b = false := by simpa [pure, Except.pure, bind, Except.bind] using h5.symm
          subst this
          simp only [Bool.false_eq_true, false_iff, not_and]
          intro hi
          have := hi.group hg
          rw [hf] at this
          cases this
        | false =>
          have : b = true := by simpa [pure, Except.pure, bind, Except.bind] using h5.symm
          subst this
          simp only [true_iff]
          exact ⟨⟨hc, h1, h2, h3, h4, fun _ => hf⟩, he⟩
    · rw [if_neg hg] at h5
      have : b = true := by simpa [pure, Except.pure] using h5.symm
      subst this
      simp only [true_iff]
      exact ⟨⟨hc, h1, h2, h3, h4, fun h => absurd h hg⟩, he⟩
  by_cases hc : (!isContainer n || !isEmpty white ks) = true
  · rw [if_pos hc] at h
    have : b = false := by simpa [pure, Except.pure] using h.symm
    subst this
    simp only [Bool.false_eq_true, false_iff]
    rintro ⟨hi, he⟩
    simp [hi.container, he] at hc
  rw [if_neg hc] at h
  simp only [Bool.or_eq_true, Bool.not_eq_true', not_or, Bool.not_eq_false] at hc
  obtain ⟨hc, he⟩ := hc
  by_cases h1 : n.is "svg" = true
  · rw [if_pos h1] at h
    have : b = false := by simpa [pure, Except.pure] using h.symm
    subst this
    simp only [Bool.false_eq_true, false_iff]
    rintro ⟨hi, -⟩
    rw [hi.svg] at h1
    cases h1
  rw [if_neg h1] at h
  have h1 : n.is "svg" = false := by simpa using h1
  by_cases h2 : n.is "pattern" = true
  · have hm : n.is "mask" = false := is_both (by decide) h2
    rw [if_pos h2] at h
    by_cases ha : as.isEmpty = true
    · refine fin hc he h1 (fun _ => List.isEmpty_iff.mp ha) (fun e => by rw [hm] at e; cases e) (fun e => by rw [h2] at e; cases e) ?_
      simpa [ha] using h
    · have : b = false := by simpa [ha, pure, Except.pure] using h.symm
      subst this
      simp only [Bool.false_eq_true, false_iff]
      rintro ⟨hi, -⟩
      exact ha (List.isEmpty_iff.mpr (hi.pattern h2))
  rw [if_neg h2] at h
  have h2 : n.is "pattern" = false := by simpa using h2
  by_cases h3 : n.is "mask" = true
  · rw [if_pos h3] at h
    by_cases ha : as.any isId = true
    · have : b = false := by simpa [ha, pure, Except.pure] using h.symm
      subst this
      simp only [Bool.false_eq_true, false_iff]
      rintro ⟨hi, -⟩
      obtain ⟨a, hm, hai⟩ := List.any_eq_true.mp ha
      rw [hi.mask h3 a hm] at hai
      cases hai
    · refine fin hc he h1 (fun e => by rw [h2] at e; cases e) (fun _ => by simpa using ha) (fun _ e => by rw [h3] at e; cases e) ?_
      simpa [ha] using h
  rw [if_neg h3] at h
  have h3 : n.is "mask" = false := by simpa using h3
  by_cases h4 : anc.head?.any (fun p => p.1.is "switch") = true
  · rw [if_pos h4] at h
    have : b = false := by simpa [pure, Except.pure] using h.symm
    subst this
    simp only [Bool.false_eq_true, false_iff]
    rintro ⟨hi, -⟩
    cases ha : anc.head? with
    | none => rw [ha] at h4; cases h4
    | some p =>
      rw [ha] at h4
      rw [Option.any_some, hi.choice h2 h3 p ha] at h4
      cases h4
  rw [if_neg h4] at h
  refine fin hc he h1 (fun e => by rw [h2] at e; cases e) (fun e => by rw [h3] at e; cases e) (fun _ _ p hp => ?_) ?_
  · rw [hp] at h4
    simpa using h4
  · simpa using h

theorem sweep_elem {white : Char → Bool} {isId : A → Bool} {filtered : Chain A → Except ε Bool} {anc : Chain A} {n : EName}
    {as : List A} {ks out : List (Node A)} (h : sweep white isId filtered anc (.elem n as ks) = .ok out) :
    ∃ ks' b, sweepAll white isId filtered ((n, as) :: anc) ks = .ok ks' ∧ emptyExit white isId filtered anc n as ks' = .ok b ∧
      out = if b then [] else [.elem n as ks'] := by
  rw [sweep] at h
  cases h1 : sweepAll white isId filtered ((n, as) :: anc) ks with
  | error e => rw [h1] at h; cases h
  | ok ks' =>
    rw [h1] at h
    change (do let gone ← emptyExit white isId filtered anc n as ks'; pure (if gone then [] else [.elem n as ks'])) = Except.ok out at h
    cases h2 : emptyExit white isId filtered anc n as ks' with
    | error e => rw [h2] at h; cases h
    | ok b =>
      rw [h2] at h
      exact ⟨ks', b, rfl, h2, (Except.ok.inj h).symm⟩

theorem sweepAll_cons {white : Char → Bool} {isId : A → Bool} {filtered : Chain A → Except ε Bool} {anc : Chain A} {n : Node A}
    {ns out : List (Node A)} (h : sweepAll white isId filtered anc (n :: ns) = .ok out) :
    ∃ a b, sweep white isId filtered anc n = .ok a ∧ sweepAll white isId filtered anc ns = .ok b ∧ out = a ++ b := by
  rw [sweepAll] at h
  cases h1 : sweep white isId filtered anc n with
  | error e => rw [h1] at h; cases h
  | ok a =>
    rw [h1] at h
    cases h2 : sweepAll white isId filtered anc ns with
    | error e => rw [h2] at h; cases h
    | ok b =>
      rw [h2] at h
      exact ⟨a, b, rfl, rfl, (Except.ok.inj h).symm⟩

mutual
/-- What is left of a node is empty exactly if the node is hollow. -/
theorem sweep_hollow {white : Char → Bool} {isId : A → Bool} {filtered : Chain A → Except ε Bool} {anc : Chain A} (n : Node A)
    {out : List (Node A)} (h : sweep white isId filtered anc n = .ok out) :
    isEmpty white out = true ↔ Hollow white isId filtered anc n := by
  match n with
  | .elem n as ks =>
    obtain ⟨ks', b, h1, h2, rfl⟩ := sweep_elem h
    have hb := exit_spec h2
    have ih := sweepAll_hollow ks h1
    cases b with
    | true =>
      have := hb.mp rfl
      simp only [if_true, isEmpty, List.all_nil, true_iff]
      exact .elem this.1 (ih.mp this.2)
    | false =>
      simp only [Bool.false_eq_true, if_false, isEmpty, List.all_cons, Node.isBlankText, Bool.false_and, false_iff]
      intro hh
      cases hh with
      | elem hi hk => exact absurd (hb.mpr ⟨hi, ih.mpr hk⟩) (by simp)
  | .text s =>
    rw [sweep] at h
    cases h
    simp only [isEmpty, List.all_cons, Node.isBlankText, isBlank, List.all_nil, Bool.and_true, List.all_eq_true]
    exact ⟨fun h => .text h, fun h => by cases h with | text h => exact h⟩
  | .css s =>
    rw [sweep] at h
    cases h
    simp only [isEmpty, List.all_cons, Node.isBlankText, Bool.false_and, Bool.false_eq_true, false_iff]
    intro h; cases h
  | .comment s =>
    rw [sweep] at h
    cases h
    simp only [isEmpty, List.all_cons, Node.isBlankText, Bool.false_and, Bool.false_eq_true, false_iff]
    intro h; cases h
  | .pi t d =>
    rw [sweep] at h
    cases h
    simp only [isEmpty, List.all_cons, Node.isBlankText, Bool.false_and, Bool.false_eq_true, false_iff]
    intro h; cases h
theorem sweepAll_hollow {white : Char → Bool} {isId : A → Bool} {filtered : Chain A → Except ε Bool} {anc : Chain A}
    (ns : List (Node A)) {out : List (Node A)} (h : sweepAll white isId filtered anc ns = .ok out) :
    isEmpty white out = true ↔ ∀ k ∈ ns, Hollow white isId filtered anc k := by
  match ns with
  | [] => rw [sweepAll] at h; cases h; simp [isEmpty]
  | n :: ns =>
    obtain ⟨a, b, h1, h2, rfl⟩ := sweepAll_cons h
    have i1 := sweep_hollow n h1
    have i2 := sweepAll_hollow ns h2
    unfold isEmpty at i1 i2 ⊢
    rw [List.all_append, Bool.and_eq_true, i1, i2]
    simp
end

theorem heads_bare {a a' : List (Node A)} (h : a.map Node.bare = a'.map Node.bare) : heads a = heads a' := by
  induction a generalizing a' with
  | nil => cases a' with
    | nil => rfl
    | cons => cases h
  | cons x a ih =>
    cases a' with
    | nil => cases h
    | cons y a' =>
      simp only [List.map_cons, List.cons.injEq] at h
      have := ih h.2
      cases x <;> cases y <;> simp_all [Node.bare, heads]

theorem gone_append {white : Char → Bool} {isId : A → Bool} {filtered : Chain A → Except ε Bool} {a : List (Node A)}
    (p : List (Node A)) (h : Gone white isId filtered a) : Gone white isId filtered (p ++ a) := by
  induction p with
  | nil => exact h
  | cons x p ih => exact .inr ih

open Classical in
mutual
theorem sweep_lines {white : Char → Bool} {isId : A → Bool} {filtered : Chain A → Except ε Bool} (n : Node A)
    (a a' : List (Node A)) (ha : a.map Node.bare = a'.map Node.bare) (hg : ¬ Gone white isId filtered a) {out : List (Node A)}
    (h : sweep white isId filtered (heads a) n = .ok out) :
    (linesAll a' out).map (List.map Node.bare) =
      ((n.lines a).filter fun l => decide (¬ Gone white isId filtered l)).map (List.map Node.bare) := by
  match n with
  | .elem n as ks =>
    have hh := sweep_hollow (.elem n as ks) h
    obtain ⟨ks', b, h1, h2, rfl⟩ := sweep_elem h
    cases b with
    | true =>
      have hol := hh.mp (by simp [isEmpty])
      have hgone : Gone white isId filtered (.elem n as ks :: a) := .inl ⟨trivial, hol⟩
      simp only [if_true, linesAll, List.map_nil]
      symm
      rw [List.map_eq_nil_iff, List.filter_eq_nil_iff]
      intro l hl
      simp only [decide_eq_true_eq, not_not]
      simp only [Node.lines, List.mem_cons] at hl
      rcases hl with rfl | hl
      · exact hgone
      · obtain ⟨p, -, rfl⟩ := linesAll_suffix _ _ l hl
        exact gone_append p hgone
    | false =>
      have hnh : ¬ Hollow white isId filtered (heads a) (.elem n as ks) := by
        intro hcon
        have := hh.mpr hcon
        simp [isEmpty, Node.isBlankText] at this
      have hng : ¬ Gone white isId filtered (.elem n as ks :: a) := by
        rintro (⟨-, h⟩ | h)
        · exact hnh h
        · exact hg h
      have ih := sweepAll_lines ks (.elem n as ks :: a) (.elem n as ks' :: a') (by simp [Node.bare, ha]) hng h1
      simp only [Bool.false_eq_true, if_false, linesAll, List.append_nil, Node.lines, List.map_cons, ih, List.filter_cons, hng,
        not_false_eq_true, decide_true, if_true, Node.bare, ha]
  | .text s =>
    rw [sweep] at h
    cases h
    have : ¬ Gone white isId filtered (.text s :: a) := by
      rintro (⟨h, -⟩ | h)
      · exact h
      · exact hg h
    simp [linesAll, Node.lines, this, ha]
  | .css s =>
    rw [sweep] at h
    cases h
    have : ¬ Gone white isId filtered (.css s :: a) := by
      rintro (⟨h, -⟩ | h)
      · exact h
      · exact hg h
    simp [linesAll, Node.lines, this, ha]
  | .comment s =>
    rw [sweep] at h
    cases h
    have : ¬ Gone white isId filtered (.comment s :: a) := by
      rintro (⟨h, -⟩ | h)
      · exact h
      · exact hg h
    simp [linesAll, Node.lines, this, ha]
  | .pi t d =>
    rw [sweep] at h
    cases h
    have : ¬ Gone white isId filtered (.pi t d :: a) := by
      rintro (⟨h, -⟩ | h)
      · exact h
      · exact hg h
    simp [linesAll, Node.lines, this, ha]
theorem sweepAll_lines {white : Char → Bool} {isId : A → Bool} {filtered : Chain A → Except ε Bool} (ns : List (Node A))
    (a a' : List (Node A)) (ha : a.map Node.bare = a'.map Node.bare) (hg : ¬ Gone white isId filtered a) {out : List (Node A)}
    (h : sweepAll white isId filtered (heads a) ns = .ok out) :
    (linesAll a' out).map (List.map Node.bare) =
      ((linesAll a ns).filter fun l => decide (¬ Gone white isId filtered l)).map (List.map Node.bare) := by
  match ns with
  | [] => rw [sweepAll] at h; cases h; rfl
  | n :: ns =>
    obtain ⟨x, y, h1, h2, rfl⟩ := sweepAll_cons h
    have happ : ∀ x y : List (Node A), linesAll a' (x ++ y) = linesAll a' x ++ linesAll a' y := by
      intro x y
      induction x with
      | nil => rfl
      | cons n ns ih => simp only [List.cons_append, linesAll, ih, List.append_assoc]
    rw [happ, List.map_append, sweep_lines n a a' ha hg h1, sweepAll_lines ns a a' ha hg h2, linesAll, List.filter_append,
      List.map_append]
end

open Classical in
/-- **C47 (containers).** Exactly the containers of no use go away, with everything in them, which is nothing but blank texts and
other containers of no use. All other nodes stay in order, with the same names, attributes and ancestors. -/
theorem containers_spec {white : Char → Bool} {isId : A → Bool} {filtered : Chain A → Except ε Bool} {doc out : List (Node A)}
    (h : removeEmptyContainers white isId filtered true doc = .ok out) :
    (lines out).map (List.map Node.bare) =
      ((lines doc).filter fun l => decide (¬ Gone white isId filtered l)).map (List.map Node.bare) :=
  sweepAll_lines doc [] [] rfl (by simp [Gone]) h

/-- Something that is not a blank text and not a container. -/
def solid (white : Char → Bool) : Node A → Bool
  | .elem n _ _ => !isContainer n
  | .text s => !s.all white
  | _ => true

mutual
theorem hollow_below {white : Char → Bool} {isId : A → Bool} {filtered : Chain A → Except ε Bool} {anc : Chain A} (n : Node A)
    (h : Hollow white isId filtered anc n) : ∀ m, Occurs [n] m → solid white m = false := by
  match n, h with
  | .text s, .text hs =>
    intro m hm
    rw [occurs_cons] at hm
    rcases hm with rfl | hm | hm
    · simpa [solid] using hs
    · exact absurd hm not_occurs_nil
    · exact absurd hm not_occurs_nil
  | .elem n as ks, .elem hi hk =>
    intro m hm
    rw [occurs_cons] at hm
    rcases hm with rfl | hm | hm
    · simp [solid, hi.container]
    · exact hollow_below_all ks hk m hm
    · exact absurd hm not_occurs_nil
theorem hollow_below_all {white : Char → Bool} {isId : A → Bool} {filtered : Chain A → Except ε Bool} {anc : Chain A}
    (ns : List (Node A)) (h : ∀ k ∈ ns, Hollow white isId filtered anc k) : ∀ m, Occurs ns m → solid white m = false := by
  match ns with
  | [] => intro m hm; exact absurd hm not_occurs_nil
  | n :: ns =>
    intro m hm
    rw [show n :: ns = [n] ++ ns from rfl, occurs_append] at hm
    rcases hm with hm | hm
    · exact hollow_below n (h n (by simp)) m hm
    · exact hollow_below_all ns (fun k hk => h k (by simp [hk])) m hm
end

mutual
theorem lines_below (anc : List (Node A)) (n : Node A) (l : List (Node A)) (h : l ∈ n.lines anc) :
    ∃ m t, l = m :: t ∧ Occurs [n] m ∧ ∀ p q r, t = p ++ q :: r → anc.length < (q :: r).length → Occurs [q] m := by
  match n with
  | .elem n as ks =>
    simp only [Node.lines, List.mem_cons] at h
    rcases h with rfl | h
    · refine ⟨_, _, rfl, occurs_cons.mpr (.inl rfl), ?_⟩
      intro p q r e hl
      rw [e] at hl
      simp at hl
      omega
    · obtain ⟨m, t, rfl, ho, hq⟩ := linesAll_below _ ks l h
      refine ⟨m, t, rfl, occurs_cons.mpr (.inr (.inl ho)), ?_⟩
      intro p q r e hl
      by_cases hlen : (.elem n as ks :: anc).length < (q :: r).length
      · exact hq p q r e hlen
      · obtain ⟨p', hp', e'⟩ := linesAll_suffix _ ks _ h
        cases p' with
        | nil => exact absurd rfl hp'
        | cons m' p' =>
          simp only [List.cons_append, List.cons.injEq] at e'
          obtain ⟨-, e'⟩ := e'
          rw [e] at e'
          have hl2 : (q :: r).length = (.elem n as ks :: anc).length := by simp at hlen hl ⊢; omega
          have := (List.append_inj' e' hl2).2
          simp only [List.cons.injEq] at this
          rw [this.1]
          exact occurs_cons.mpr (.inr (.inl ho))
  | .text s | .css s | .comment s | .pi _ _ =>
    simp only [Node.lines, List.mem_singleton] at h
    subst h
    refine ⟨_, _, rfl, occurs_cons.mpr (.inl rfl), ?_⟩
    intro p q r e hl
    rw [e] at hl
    simp at hl
    omega
theorem linesAll_below (anc : List (Node A)) (ns : List (Node A)) (l : List (Node A)) (h : l ∈ linesAll anc ns) :
    ∃ m t, l = m :: t ∧ Occurs ns m ∧ ∀ p q r, t = p ++ q :: r → anc.length < (q :: r).length → Occurs [q] m := by
  match ns with
  | [] => simp [linesAll] at h
  | n :: ns =>
    simp only [linesAll, List.mem_append] at h
    rcases h with h | h
    · obtain ⟨m, t, e, ho, hq⟩ := lines_below anc n l h
      exact ⟨m, t, e, by rw [show n :: ns = [n] ++ ns from rfl, occurs_append]; exact .inl ho, hq⟩
    · obtain ⟨m, t, e, ho, hq⟩ := linesAll_below anc ns l h
      exact ⟨m, t, e, by rw [show n :: ns = [n] ++ ns from rfl, occurs_append]; exact .inr ho, hq⟩
end

theorem gone_split {white : Char → Bool} {isId : A → Bool} {filtered : Chain A → Except ε Bool} {l : List (Node A)}
    (h : Gone white isId filtered l) : ∃ p q r, l = p ++ q :: r ∧ Hollow white isId filtered (heads r) q := by
  induction l with
  | nil => exact h.elim
  | cons x l ih =>
    rcases h with ⟨-, h⟩ | h
    · exact ⟨[], x, l, rfl, h⟩
    · obtain ⟨p, q, r, rfl, h'⟩ := ih h
      exact ⟨x :: p, q, r, rfl, h'⟩

/-- Something solid and its ancestors are never removed. -/
theorem solid_stays {white : Char → Bool} {isId : A → Bool} {filtered : Chain A → Except ε Bool} {doc : List (Node A)} {m : Node A}
    {t : List (Node A)} (h : (m :: t) ∈ lines doc) (hs : solid white m = true) : ¬ Gone white isId filtered (m :: t) := by
  intro hg
  obtain ⟨p, q, r, e, hh⟩ := gone_split hg
  obtain ⟨m', t', e', -, hb⟩ := linesAll_below [] doc _ h
  simp only [List.cons.injEq] at e'
  obtain ⟨rfl, rfl⟩ := e'
  have : solid white m = false := by
    cases p with
    | nil =>
      simp only [List.nil_append, List.cons.injEq] at e
      rw [← e.1] at hh
      exact hollow_below m hh m (occurs_cons.mpr (.inl rfl))
    | cons x p =>
      simp only [List.cons_append, List.cons.injEq] at e
      exact hollow_below q hh m (hb p q r e.2 (by simp))
  rw [hs] at this
  cases this

theorem solid_bare (white : Char → Bool) (n : Node A) : solid white n.bare = solid white n := by cases n <;> rfl

open Classical in
/-- **C47 (containers).** Everything but containers and blank texts is there afterwards, in the same order and with the same
ancestors. What is missing: containers that are drawn themselves (`glyph_violated`). -/
theorem containers_solid_partial {white : Char → Bool} {isId : A → Bool} {filtered : Chain A → Except ε Bool}
    {doc out : List (Node A)} (h : removeEmptyContainers white isId filtered true doc = .ok out) :
    ((lines out).map (List.map Node.bare)).filter (fun l => l.head?.any (solid white)) =
      ((lines doc).map (List.map Node.bare)).filter (fun l => l.head?.any (solid white)) := by
  rw [containers_spec h, List.filter_map, List.filter_map, List.filter_filter]
  congr 1
  apply List.filter_congr
  intro l hl
  obtain ⟨m, t, rfl, -⟩ := linesAll_below [] doc l hl
  simp only [Function.comp, List.map_cons, List.head?_cons, Option.any_some, solid_bare]
  cases hs : solid white m with
  | false => rfl
  | true =>
    simp only [Bool.true_and, decide_eq_true_eq]
    exact solid_stays hl hs

mutual
theorem sweep_again {white : Char → Bool} {isId : A → Bool} {filtered : Chain A → Except ε Bool} {anc : Chain A} (n : Node A)
    {out : List (Node A)} (h : sweep white isId filtered anc n = .ok out) : sweepAll white isId filtered anc out = .ok out := by
  match n with
  | .elem n as ks =>
    obtain ⟨ks', b, h1, h2, rfl⟩ := sweep_elem h
    have ih := sweepAll_again ks h1
    cases b with
    | true => rfl
    | false => simp only [Bool.false_eq_true, if_false, sweepAll, sweep, ih, h2, bind, Except.bind, pure, Except.pure, List.append_nil]
  | .text s | .css s | .comment s | .pi _ _ => rw [sweep] at h; cases h; rfl
theorem sweepAll_again {white : Char → Bool} {isId : A → Bool} {filtered : Chain A → Except ε Bool} {anc : Chain A}
    (ns : List (Node A)) {out : List (Node A)} (h : sweepAll white isId filtered anc ns = .ok out) :
    sweepAll white isId filtered anc out = .ok out := by
  match ns with
  | [] => rw [sweepAll] at h; cases h; rfl
  | n :: ns =>
    obtain ⟨a, b, h1, h2, rfl⟩ := sweepAll_cons h
    have happ : ∀ x y u v : List (Node A), sweepAll white isId filtered anc x = .ok u → sweepAll white isId filtered anc y = .ok v →
        sweepAll white isId filtered anc (x ++ y) = .ok (u ++ v) := by
      intro x
      induction x with
      | nil => intro y u v hu hv; rw [sweepAll] at hu; cases hu; exact hv
      | cons n ns ih =>
        intro y u v hu hv
        obtain ⟨a, b, h1, h2, rfl⟩ := sweepAll_cons hu
        rw [List.cons_append, sweepAll, h1, List.append_assoc]
        simp only [bind, Except.bind, ih y b v h2 hv, pure, Except.pure]
    exact happ _ _ _ _ (sweep_again n h1) (sweepAll_again ns h2)
end

/-- **C47 (containers).** A second run changes nothing. -/
theorem containers_again {white : Char → Bool} {isId : A → Bool} {filtered : Chain A → Except ε Bool} {on : Bool}
    {doc out : List (Node A)} (h : removeEmptyContainers white isId filtered on doc = .ok out) :
    removeEmptyContainers white isId filtered on out = .ok out := by
  cases on
  · rfl
  · exact sweepAll_again doc h

/-- The filters of the examples. -/
def noFilter (_ : Chain String) : Except Unit Bool := .ok false

def isIdName (a : String) : Bool := a == "id"

/-- **C47 (glyphs violate it).** The outline of a glyph is in its attribute `d`; the glyph is removed as empty. -/
theorem glyph_violated : ∃ doc out : List (Node String), Occurs doc (tag "glyph" ["unicode", "d"] []) ∧
    removeEmptyContainers (· == ' ') isIdName noFilter true doc = .ok out ∧ ¬ Occurs out (tag "glyph" ["unicode", "d"] []) := by
  refine ⟨[tag "svg" [] [tag "font" ["id"] [tag "font-face" ["font-family"] [], tag "glyph" ["unicode", "d"] []]]],
    [tag "svg" [] [tag "font" ["id"] [tag "font-face" ["font-family"] []]]], ?_, rfl, ?_⟩
  · simp [tag, occurs_cons, Node.kids]
  · simp [tag, occurs_cons, Node.kids, not_occurs_nil, lit]

/-- Nested groups go away together; a filter, a comment, a choice of a switch and a mask with an id stay. -/
example : removeEmptyContainers (ε := Unit) (· == ' ') isIdName (fun l => .ok (l.head?.any fun p => p.2.contains "filter")) true
    [tag "svg" [] [tag "g" [] [tag "g" ["id"] [.text [' ']], tag "defs" [] []], tag "g" ["filter"] [], tag "g" [] [.comment []],
      tag "switch" [] [tag "g" [] []], tag "switch" [] [], tag "mask" ["id"] [], tag "mask" ["x"] [], tag "path" [] []]] =
    .ok [tag "svg" [] [tag "g" ["filter"] [], tag "g" [] [.comment []], tag "switch" [] [tag "g" [] []], tag "mask" ["id"] [],
      tag "path" [] []]] := rfl

end Verif.Empty
