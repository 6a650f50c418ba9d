import Verif.LineCol.Model

/-! # C32: source positions are reported as line and column -/

namespace Verif.LineCol

/-- Specification: walking over the text from the start, a line feed begins the next line at column
zero, any other byte advances the column. -/
def adv (p : Nat × Nat) (b : Nat) : Nat × Nat := if b = 10 then (p.1 + 1, 0) else (p.1, p.2 + 1)

@[inherit_doc adv] def walk (l : List Nat) : Nat × Nat := l.foldl adv (0, 0)

/-- Specification of the way back: the offset of a line and column, by skipping whole lines. -/
def offset : Nat → Nat → List Nat → Nat
  | 0, col, _ => col
  | _ + 1, col, [] => col
  | line + 1, col, b :: l => 1 + (if b = 10 then offset line col l else offset (line + 1) col l)

theorem rposition_append_nl (l : List Nat) : rposition (l ++ [10]) = some l.length := by
  simp [rposition, List.findIdx?_cons]

theorem rposition_append_other (l : List Nat) (b : Nat) (h : b ≠ 10) :
    rposition (l ++ [b]) = rposition l := by
  simp only [rposition, List.reverse_append, List.reverse_cons, List.reverse_nil, List.nil_append,
    List.singleton_append, List.findIdx?_cons, List.length_append, List.length_singleton]
  have hb : (b == 10) = false := by simpa using h
  simp only [hb]
  cases hf : l.reverse.findIdx? (· == 10) with
  | none => simp
  | some i => simp; omega

theorem rposition_lt {l : List Nat} {i : Nat} (h : rposition l = some i) : i < l.length := by
  simp only [rposition, Option.map_eq_some_iff] at h
  obtain ⟨j, hj, rfl⟩ := h
  have := (List.findIdx?_eq_some_iff_getElem.1 hj).1
  simp at this; omega

/-- the last line feed: nothing but other bytes after it -/
theorem walk_append (l : List Nat) (b : Nat) :
    walk (l ++ [b]) = if b = 10 then ((walk l).1 + 1, 0) else ((walk l).1, (walk l).2 + 1) := by
  simp [walk, adv]

def lineStart (l : List Nat) : Nat := match rposition l with | some i => i + 1 | none => 0

theorem lineStart_le (l : List Nat) : lineStart l ≤ l.length := by
  unfold lineStart
  cases h : rposition l with
  | none => simp
  | some i => have := rposition_lt h; simp; omega

theorem eq_walk_reverse (r : List Nat) :
    ((r.reverse.take (lineStart r.reverse)).count 10, r.length - lineStart r.reverse) = walk r.reverse := by
  induction r with
  | nil => simp [walk, lineStart, rposition]
  | cons b r ih =>
    simp only [List.reverse_cons]
    have hle := lineStart_le r.reverse
    simp only [List.length_reverse] at hle
    rw [walk_append]
    by_cases hb : b = 10
    · subst hb
      have e : lineStart (r.reverse ++ [10]) = r.length + 1 := by
        simp [lineStart, rposition_append_nl]
      rw [e]
      have hall : List.count 10 r.reverse = (walk r.reverse).1 := by
        rw [← ih]
        simp only
        have hsplit : r.reverse = r.reverse.take (lineStart r.reverse) ++ r.reverse.drop (lineStart r.reverse) := by simp
        conv => lhs; rw [hsplit, List.count_append]
        have : List.count 10 (r.reverse.drop (lineStart r.reverse)) = 0 := by
          rw [List.count_eq_zero]
          intro hm
          obtain ⟨j, hj, he⟩ := List.mem_iff_getElem.1 hm
          rw [List.getElem_drop] at he
          simp only [List.length_drop, List.length_reverse] at hj
          unfold lineStart at he hj
          cases hr : rposition r.reverse with
          | none =>
            simp only [rposition, Option.map_eq_none_iff, List.findIdx?_eq_none_iff] at hr
            have := hr 10 (by rw [← he]; simp)
            simp at this
          | some i =>
            simp only [hr] at he hj
            simp only [rposition, Option.map_eq_some_iff] at hr
            obtain ⟨k, hk, hki⟩ := hr
            have hk' := List.findIdx?_eq_some_iff_getElem.1 hk
            obtain ⟨h1, h2, h3⟩ := hk'
            simp only [List.reverse_reverse, List.length_reverse] at h1 h2 h3 hki
            have h4 := h3 (r.length - 1 - (i + 1 + j)) (by omega)
            simp only [List.getElem_reverse] at he
            simp [he] at h4
        omega
      rw [List.take_of_length_le (by simp)]
      simp [hall]
    · have e : lineStart (r.reverse ++ [b]) = lineStart r.reverse := by
        simp [lineStart, rposition_append_other _ _ hb]
      rw [e, if_neg hb, ← ih]
      simp only [List.length_cons]
      rw [List.take_append_of_le_length (by simpa using hle)]
      ext <;> simp; omega

/-- **C32 (position).** For every text and every offset inside of it the reported position is the one
obtained by walking over the text; no offset inside of the text panics. -/
theorem position_correct (cursor : Nat) (source : List Nat) (h : cursor ≤ source.length) :
    toLineAndCol cursor source = some (walk (source.take cursor)) := by
  unfold toLineAndCol
  rw [if_neg (by omega)]
  have hw := eq_walk_reverse (source.take cursor).reverse
  simp only [List.reverse_reverse, List.length_reverse, List.length_take] at hw
  rw [← hw, Nat.min_eq_left h]
  have hle := lineStart_le (source.take cursor)
  simp only [List.length_take] at hle
  have : (source.take cursor).take (lineStart (source.take cursor)) = source.take (lineStart (source.take cursor)) := by
    rw [List.take_take]; congr 1; omega
  rw [this]
  rfl

theorem walk_cons_nl (l : List Nat) : walk (10 :: l) = ((walk l).1 + 1, (walk l).2) := by
  have : ∀ (l : List Nat) a b, l.foldl adv (a + 1, b)
      = ((l.foldl adv (a, b)).1 + 1,
         (l.foldl adv (a, b)).2) := by
    intro l
    induction l with
    | nil => intros; rfl
    | cons c l ih => intro a b; simp only [List.foldl_cons, adv]; split <;> rw [ih]
  simp [walk, adv, this]

/-- **C32 (way back).** Skipping `line` whole lines and then `col` bytes leads back to the offset. -/
theorem position_round_trip (cursor : Nat) (source : List Nat) (h : cursor ≤ source.length)
    {line col} (hp : toLineAndCol cursor source = some (line, col)) :
    offset line col source = cursor := by
  rw [position_correct _ _ h] at hp
  simp only [Option.some.injEq] at hp
  induction source generalizing cursor line col with
  | nil =>
    simp at h; subst h
    simp [walk] at hp; obtain ⟨rfl, rfl⟩ := hp; rfl
  | cons b l ih =>
    cases cursor with
    | zero => simp [walk] at hp; obtain ⟨rfl, rfl⟩ := hp; rfl
    | succ n =>
      simp only [List.length_cons, Nat.add_le_add_iff_right] at h
      simp only [List.take_succ_cons] at hp
      by_cases hb : b = 10
      · subst hb
        rw [walk_cons_nl] at hp
        simp only [Prod.mk.injEq] at hp
        obtain ⟨rfl, rfl⟩ := hp
        simp only [offset, if_true]
        rw [ih n h (line := (walk (l.take n)).1) (col := (walk (l.take n)).2) rfl]; omega
      · have key : ∀ (l : List Nat) a b, l.foldl adv (a, b)
            = let w := l.foldl adv (a, 0)
              if w.1 = a then (a, b + w.2) else w := by
          have mono : ∀ (l : List Nat) (a b : Nat), a ≤ (l.foldl adv (a, b)).1 := by
            intro l
            induction l with
            | nil => intros; simp
            | cons c l ih => intro a b; simp only [List.foldl_cons, adv]; split
                             · have := ih (a+1) 0; omega
                             · exact ih a _
          intro l
          induction l with
          | nil => intros; simp
          | cons c l ih =>
            intro a b
            simp only [List.foldl_cons, adv]
            by_cases hc : c = 10
            · simp only [hc, if_true]
              have := mono l (a+1) 0
              rw [if_neg (by omega)]
            · simp only [hc, if_false]
              have e1 := ih a (b+1); have e2 := ih a (0+1)
              simp only at e1 e2
              rw [e1, e2]
              split
              · simp; omega
              · rfl
        have hw : walk (b :: l.take n) = let w := walk (l.take n); if w.1 = 0 then (0, 1 + w.2) else w := by
          have := key (l.take n) 0 1
          simp only [walk, List.foldl_cons, adv, hb, if_false]
          exact this
        rw [hw] at hp
        have hi := ih n h (line := (walk (l.take n)).1) (col := (walk (l.take n)).2) rfl
        simp only at hp
        split at hp
        · rename_i hz
          simp only [Prod.mk.injEq] at hp
          obtain ⟨rfl, rfl⟩ := hp
          rw [hz] at hi
          simp [offset] at hi ⊢; omega
        · rename_i hz
          obtain ⟨k, hk⟩ := Nat.exists_eq_succ_of_ne_zero hz
          have h1 : line = k + 1 := by rw [hp] at hk; simpa using hk
          have h2 : col = (walk (l.take n)).2 := by rw [hp]
          subst h1
          rw [hk, ← h2] at hi
          simp only [offset, hb, if_false]
          simp only [Nat.succ_eq_add_one] at hi
          omega

/-- **C32 (order).** A later offset never has an earlier position: the line does not decrease and on
the same line the column increases by the distance. -/
theorem position_monotone (c1 c2 : Nat) (source : List Nat) (h : c1 ≤ c2) (h2 : c2 ≤ source.length)
    {p1 p2} (hp1 : toLineAndCol c1 source = some p1) (hp2 : toLineAndCol c2 source = some p2) :
    p1.1 ≤ p2.1 ∧ (p1.1 = p2.1 → p2.2 = p1.2 + (c2 - c1)) := by
  have q1 := position_correct c1 source (by omega)
  have q2 := position_correct c2 source h2
  have ne : ∀ n, c1 + n ≤ source.length → (walk (source.take c1)).1 ≤ (walk (source.take (c1 + n))).1 ∧
      ((walk (source.take c1)).1 = (walk (source.take (c1 + n))).1 →
        (walk (source.take (c1 + n))).2 = (walk (source.take c1)).2 + n) := by
    intro n
    induction n with
    | zero => simp
    | succ n ih =>
      intro hn
      obtain ⟨i1, i2⟩ := ih (by omega)
      rw [← Nat.add_assoc, List.take_add_one]
      have : (source[c1 + n]?).toList = [source[c1 + n]'(by omega)] := by
        rw [List.getElem?_eq_getElem (by omega)]; rfl
      rw [this, walk_append]
      split
      · constructor
        · simp; omega
        · intro h; simp at h; omega
      · exact ⟨i1, fun h => by have := i2 h; simp; omega⟩
  obtain ⟨r1, r2⟩ := ne (c2 - c1) (by omega)
  rw [show c1 + (c2 - c1) = c2 by omega] at r1 r2
  rw [q1] at hp1; rw [q2] at hp2
  simp only [Option.some.injEq] at hp1 hp2
  subst hp1 hp2
  exact ⟨r1, r2⟩

/-- Non-trivial case: offset 4 of "a\nb\nc" is line 2, column 0. -/
example : toLineAndCol 4 [97, 10, 98, 10, 99] = some (2, 0) ∧ offset 2 0 [97, 10, 98, 10, 99] = 4 := by decide

end Verif.LineCol
