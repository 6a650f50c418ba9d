import Verif.Arena.Model

/-! # Document order, and what renumbering does to the ids -/

namespace Verif.Arena

open Verif.Dom

variable {ch : Kids}

/-- `Spans ch as l`: `l` lists the nodes of the trees rooted at `as` in document order. -/
inductive Spans (ch : Kids) : List Handle → List Handle → Prop
  | nil : Spans ch [] []
  | cons {a : Handle} {as l m : List Handle} : Spans ch (ch a) l → Spans ch as m → Spans ch (a :: as) (a :: (l ++ m))

/-- Ids given to the nodes of a list one after the other. -/
def assign (h : Heap) : List Handle → Nat → Heap
  | [], _ => h
  | a :: l, i => assign (setId h a i) l (i + 1)

theorem assign_append (h : Heap) (l m : List Handle) (i : Nat) :
    assign h (l ++ m) i = assign (assign h l i) m (i + l.length) := by
  induction l generalizing h i with
  | nil => rfl
  | cons a l ih => simp [assign, ih, Nat.add_comm, Nat.add_left_comm]

theorem assign_next (h : Heap) (l : List Handle) (i : Nat) : (assign h l i).next = h.next := by
  induction l generalizing h i with
  | nil => rfl
  | cons a l ih => simp [assign, ih, setId]

theorem assign_first (h : Heap) (l : List Handle) (i : Nat) : (assign h l i).first = h.first := by
  induction l generalizing h i with
  | nil => rfl
  | cons a l ih => simp [assign, ih, setId]

/-- The next pointers along a list of siblings. -/
def Chain (h : Heap) (as : List Handle) : Prop := ∀ pre c post, as = pre ++ c :: post → h.next c = post.head?

theorem Chain.head {h : Heap} {a : Handle} {as : List Handle} (c : Chain h (a :: as)) : h.next a = as.head? :=
  c [] a as rfl

theorem Chain.tail {h : Heap} {a : Handle} {as : List Handle} (c : Chain h (a :: as)) : Chain h as := by
  intro pre x post e
  exact c (a :: pre) x post (by simp [e])

theorem Chain.congr {h g : Heap} {as : List Handle} (c : Chain h as) (e : g.next = h.next) : Chain g as := by
  intro pre x post hx
  rw [e]
  exact c pre x post hx

theorem numberFrom_eq {as l : List Handle} (sp : Spans ch as l) : ∃ N, ∀ fuel, N ≤ fuel → ∀ (h : Heap),
    (∀ p, h.first p = (ch p).head?) → (∀ p, Chain h (ch p)) → Chain h as → ∀ i, ∀ c, as.head? = some c →
    numberFrom fuel h c i = some (assign h l (i + 1), i + l.length) := by
  induction sp with
  | nil => exact ⟨0, by simp⟩
  | @cons a as l m s1 s2 ih1 ih2 =>
    obtain ⟨N1, ih1⟩ := ih1
    obtain ⟨N2, ih2⟩ := ih2
    refine ⟨N1 + N2 + 2, ?_⟩
    intro fuel hf h hfirst hch hc i c hcc
    simp at hcc
    subst hcc
    obtain ⟨f, rfl⟩ : ∃ f, fuel = f + 2 := ⟨fuel - 2, by omega⟩
    have e1 : number (f + 1) h a (i + 1) = some (assign h (a :: l) (i + 1), i + 1 + l.length) := by
      simp only [number]
      have hfa : (setId h a (i + 1)).first a = (ch a).head? := hfirst a
      rw [hfa]
      cases hk : ch a with
      | nil =>
        rw [hk] at s1
        cases s1
        simp [assign]
      | cons b bs =>
        simp only [List.head?_cons]
        exact ih1 f (by omega) (setId h a (i + 1)) hfirst (fun p => (hch p).congr rfl) ((hch a).congr rfl) (i + 1) b
          (by simp [hk])
    have hstep : numberFrom (f + 2) h a i = match number (f + 1) h a (i + 1) with
      | none => none
      | some (h, id) => match h.next a with
        | none => some (h, id)
        | some sibling => numberFrom (f + 1) h sibling id := by
      rw [numberFrom]
      rfl
    rw [hstep, e1]
    simp only [assign_next, hc.head]
    cases as with
    | nil => cases s2; simp [Nat.add_comm, Nat.add_left_comm]
    | cons b bs =>
      simp only [List.head?_cons]
      rw [ih2 (f + 1) (by omega) (assign h (a :: l) (i + 1)) (by simpa [assign_first] using hfirst)
        (fun p => (hch p).congr (assign_next ..)) (hc.tail.congr (assign_next ..)) _ b rfl]
      rw [show a :: (l ++ m) = (a :: l) ++ m from rfl, assign_append]
      rw [show i + 1 + (a :: l).length = i + 1 + l.length + 1 by simp; omega]
      simp
      omega

theorem number_eq {root : Handle} {l : List Handle} (sp : Spans ch [root] l) : ∃ N, ∀ fuel, N ≤ fuel → ∀ (h : Heap),
    (∀ p, h.first p = (ch p).head?) → (∀ p, Chain h (ch p)) → ∀ i,
    number fuel h root i = some (assign h l i, i + l.length - 1) := by
  cases sp with
  | @cons _ _ l m s1 s2 =>
    cases s2
    obtain ⟨N, hN⟩ := numberFrom_eq s1
    refine ⟨N + 1, ?_⟩
    intro fuel hf h h1 h2 i
    obtain ⟨f, rfl⟩ : ∃ f, fuel = f + 1 := ⟨fuel - 1, by omega⟩
    simp only [number]
    have hfa : (setId h root i).first root = (ch root).head? := h1 root
    rw [hfa]
    cases hk : ch root with
    | nil =>
      rw [hk] at s1
      cases s1
      simp [assign]
    | cons b bs =>
      simp only [List.head?_cons]
      rw [hN f (by omega) (setId h root i) h1 (fun p => (h2 p).congr rfl) ((h2 root).congr rfl) i b (by simp [hk])]
      simp [assign]

/-! ## Existence and uniqueness of the document order -/

theorem Spans.append {as bs l m : List Handle} (s : Spans ch as l) (t : Spans ch bs m) : Spans ch (as ++ bs) (l ++ m) := by
  induction s with
  | nil => exact t
  | cons s1 _ _ ih2 =>
    have := Spans.cons s1 ih2
    simpa using this

theorem Spans.unique {as l m : List Handle} (s : Spans ch as l) (t : Spans ch as m) : l = m := by
  induction s generalizing m with
  | nil => cases t; rfl
  | cons _ _ ih1 ih2 =>
    cases t with
    | cons t1 t2 => rw [ih1 t1, ih2 t2]

theorem Spans.mem_iff {as l : List Handle} (s : Spans ch as l) (x : Handle) :
    x ∈ l ↔ x ∈ as ∨ ∃ a ∈ as, Desc ch a x := by
  induction s with
  | nil => simp
  | @cons a as l m _ _ ih1 ih2 =>
    have hd : Desc ch a x ↔ x ∈ ch a ∨ ∃ b ∈ ch a, Desc ch b x := by
      constructor
      · intro h
        cases h with
        | child h => exact .inl h
        | step h1 h2 => exact .inr ⟨_, h1, h2⟩
      · rintro (h | ⟨b, h1, h2⟩)
        · exact .child h
        · exact .step h1 h2
    simp only [List.mem_cons, List.mem_append, ih1, ih2, ← hd]
    constructor
    · rintro (rfl | h | h | ⟨b, h1, h2⟩)
      · exact .inl (.inl rfl)
      · exact .inr ⟨a, .inl rfl, h⟩
      · exact .inl (.inr h)
      · exact .inr ⟨b, .inr h1, h2⟩
    · rintro ((rfl | h) | ⟨b, rfl | h1, h2⟩)
      · exact .inl rfl
      · exact .inr (.inr (.inl h))
      · exact .inr (.inl h2)
      · exact .inr (.inr (.inr ⟨b, h1, h2⟩))

/-- The last step of a descent. -/
theorem desc_last {a x : Handle} (d : Desc ch a x) : ∃ p, x ∈ ch p ∧ (a = p ∨ Desc ch a p) := by
  induction d with
  | child h => exact ⟨_, h, .inl rfl⟩
  | step h _ ih =>
    obtain ⟨p, h1, h2⟩ := ih
    refine ⟨p, h1, .inr ?_⟩
    rcases h2 with rfl | h2
    · exact .child h
    · exact .step h h2

/-- Two ancestors of one node are on one line. -/
theorem desc_line (un : ∀ p q c, c ∈ ch p → c ∈ ch q → p = q) {a b x : Handle} (d : Desc ch a x) (e : Desc ch b x) :
    a = b ∨ Desc ch a b ∨ Desc ch b a := by
  induction d with
  | @child a c h =>
    obtain ⟨p, h1, h2⟩ := desc_last e
    have := un _ _ _ h h1
    subst this
    rcases h2 with rfl | h2
    · exact .inl rfl
    · exact .inr (.inr h2)
  | @step a c d hm hd ih =>
    rcases ih e with rfl | h | h
    · exact .inr (.inl (.child hm))
    · exact .inr (.inl (.step hm h))
    · obtain ⟨p, h1, h2⟩ := desc_last h
      have := un _ _ _ hm h1
      subst this
      rcases h2 with rfl | h2
      · exact .inl rfl
      · exact .inr (.inr h2)

/-- Children of one node lie in disjoint trees. -/
theorem siblings_apart (un : ∀ p q c, c ∈ ch p → c ∈ ch q → p = q) (ac : Acyclic ch) {p a b x : Handle}
    (ha : a ∈ ch p) (hb : b ∈ ch p) (hx : x = a ∨ Desc ch a x) (hy : x = b ∨ Desc ch b x) : a = b := by
  have key : ∀ {a b}, a ∈ ch p → b ∈ ch p → ¬ Desc ch a b := by
    intro a b ha hb hd
    obtain ⟨q, h1, h2⟩ := desc_last hd
    have := un _ _ _ hb h1
    subst this
    rcases h2 with rfl | h2
    · exact ac a (.child ha)
    · exact ac p (.step ha h2)
  rcases hx with rfl | hx
  · rcases hy with rfl | hy
    · rfl
    · exact absurd hy (key hb ha)
  · rcases hy with rfl | hy
    · exact absurd hx (key ha hb)
    · rcases desc_line un hx hy with h | h | h
      · exact h
      · exact absurd h (key ha hb)
      · exact absurd h (key hb ha)

theorem Spans.nodup (un : ∀ p q c, c ∈ ch p → c ∈ ch q → p = q) (nd : ∀ p, (ch p).Nodup) (ac : Acyclic ch)
    {as l : List Handle} (s : Spans ch as l) (na : as.Nodup)
    (ap : ∀ a ∈ as, ∀ b ∈ as, ∀ x, (x = a ∨ Desc ch a x) → (x = b ∨ Desc ch b x) → a = b) : l.Nodup := by
  induction s with
  | nil => simp
  | @cons a as l m s1 s2 ih1 ih2 =>
    have n1 : l.Nodup := ih1 (nd a) (fun x hx y hy z h1 h2 => siblings_apart un ac hx hy h1 h2)
    have n2 : m.Nodup := ih2 (List.nodup_cons.mp na).2
      (fun x hx y hy => ap x (by simp [hx]) y (by simp [hy]))
    have below : ∀ x, x ∈ l → Desc ch a x := by
      intro x hx
      rcases (s1.mem_iff x).mp hx with h | ⟨b, h1, h2⟩
      · exact .child h
      · exact .step h1 h2
    have inM : ∀ x ∈ m, ∃ b ∈ as, x = b ∨ Desc ch b x := by
      intro x hx
      rcases (s2.mem_iff x).mp hx with h | ⟨b, h1, h2⟩
      · exact ⟨x, h, .inl rfl⟩
      · exact ⟨b, h1, .inr h2⟩
    have sep : ∀ x, (x = a ∨ Desc ch a x) → x ∉ m := by
      intro x h1 h2
      obtain ⟨b, hb, h3⟩ := inM x h2
      have := ap a (by simp) b (by simp [hb]) x h1 h3
      subst this
      exact (List.nodup_cons.mp na).1 hb
    rw [List.nodup_cons, List.nodup_append]
    refine ⟨?_, n1, n2, ?_⟩
    · intro h
      rcases List.mem_append.mp h with h | h
      · exact ac a (below a h)
      · exact sep a (.inl rfl) h
    · intro x hx y hy e
      subst e
      exact sep x (.inr (below x hx)) hy

theorem Spans.nodup_root (un : ∀ p q c, c ∈ ch p → c ∈ ch q → p = q) (nd : ∀ p, (ch p).Nodup) (ac : Acyclic ch)
    {a : Handle} {l : List Handle} (s : Spans ch [a] l) : l.Nodup :=
  s.nodup un nd ac (by simp) (by intro x hx y hy; simp at hx hy; simp [hx, hy])

open Classical in
/-- Without cycles and with finitely many nodes every tree has a document order. -/
theorem spans_exists (ac : Acyclic ch) (made : List Handle) (closed : ∀ p, ∀ c ∈ ch p, c ∈ made) :
    ∀ (n : Nat) (a : Handle), made.countP (fun x => decide (Desc ch a x)) ≤ n → ∃ l, Spans ch [a] l := by
  intro n
  induction n using Nat.strongRecOn with
  | ind n ih =>
    intro a ha
    have kids : ∀ as : List Handle, (∀ c ∈ as, c ∈ ch a) → ∃ l, Spans ch as l := by
      intro as
      induction as with
      | nil => intro _; exact ⟨[], .nil⟩
      | cons c as ihl =>
        intro hc
        obtain ⟨m, hm⟩ := ihl (fun x hx => hc x (by simp [hx]))
        have hca : c ∈ ch a := hc c (by simp)
        have lt : made.countP (fun x => decide (Desc ch c x)) < made.countP (fun x => decide (Desc ch a x)) := by
          rw [List.countP_eq_length_filter, List.countP_eq_length_filter]
          have hsub : (made.filter (fun x => decide (Desc ch c x))) =
              (made.filter (fun x => decide (Desc ch a x))).filter (fun x => decide (Desc ch c x)) := by
            rw [List.filter_filter]
            congr 1
            funext x
            by_cases h : Desc ch c x
            · simp [h, Desc.step hca h]
            · simp [h]
          rw [hsub]
          refine Nat.lt_of_le_of_ne (List.length_filter_le _ _) ?_
          intro he
          have := List.length_filter_eq_length_iff.mp he c
            (by simp [closed a c hca, Desc.child hca])
          simp at this
          exact ac c this
        obtain ⟨l, hl⟩ := ih _ (Nat.lt_of_lt_of_le lt ha) c (Nat.le_refl _)
        have := hl.append hm
        exact ⟨_, this⟩
    obtain ⟨l, hl⟩ := kids (ch a) (fun _ h => h)
    exact ⟨a :: (l ++ []), .cons hl .nil⟩

end Verif.Arena
