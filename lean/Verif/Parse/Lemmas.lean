import Verif.Parse.Model

/-! # Positions between characters -/

namespace Verif.Parse

theorem width_nil : width [] = 0 := rfl
theorem width_cons (c : Char) (l : List Char) : width (c :: l) = c.utf8Size + width l := by simp [width]
theorem width_append (l m : List Char) : width (l ++ m) = width l + width m := by simp [width]
theorem width_reverse (l : List Char) : width l.reverse = width l := by simp [width, List.sum_reverse]

theorem size_pos (c : Char) : 0 < c.utf8Size := c.utf8Size_pos

theorem dropBytes_append (a b : List Char) : dropBytes (width a) (a ++ b) = some b := by
  induction a with
  | nil => simp [width_nil, dropBytes]
  | cons c a ih =>
    have hc := size_pos c
    rw [width_cons, List.cons_append]
    obtain ⟨n, hn⟩ : ∃ n, c.utf8Size + width a = n + 1 := ⟨c.utf8Size + width a - 1, by omega⟩
    rw [hn, dropBytes]
    rw [if_neg (by omega), ← hn]
    simpa using ih

theorem dropBytes_some {n : Nat} {l s : List Char} (h : dropBytes n l = some s) :
    ∃ a, l = a ++ s ∧ n = width a := by
  induction l generalizing n with
  | nil =>
    cases n with
    | zero => simp [dropBytes] at h; exact ⟨[], by simp [h], rfl⟩
    | succ n => simp [dropBytes] at h
  | cons c l ih =>
    cases n with
    | zero => simp [dropBytes] at h; exact ⟨[], by simp [h], rfl⟩
    | succ n =>
      rw [dropBytes] at h
      split at h
      · simp at h
      · obtain ⟨a, e1, e2⟩ := ih h
        exact ⟨c :: a, by simp [e1], by rw [width_cons]; omega⟩

theorem takeBytes_append (a b : List Char) : takeBytes (width a) (a ++ b) = some a := by
  induction a with
  | nil => simp [width_nil, takeBytes]
  | cons c a ih =>
    have hc := size_pos c
    rw [width_cons, List.cons_append]
    obtain ⟨n, hn⟩ : ∃ n, c.utf8Size + width a = n + 1 := ⟨c.utf8Size + width a - 1, by omega⟩
    rw [hn, takeBytes]
    rw [if_neg (by omega), ← hn]
    simp [ih]

theorem takeBytes_some {n : Nat} {l a : List Char} (h : takeBytes n l = some a) :
    ∃ s, l = a ++ s ∧ n = width a := by
  induction l generalizing n a with
  | nil =>
    cases n with
    | zero => simp [takeBytes] at h; subst h; exact ⟨[], rfl, rfl⟩
    | succ n => simp [takeBytes] at h
  | cons c l ih =>
    cases n with
    | zero => simp [takeBytes] at h; subst h; exact ⟨c :: l, rfl, rfl⟩
    | succ n =>
      rw [takeBytes] at h
      split at h
      · simp at h
      · cases ht : takeBytes (n + 1 - c.utf8Size) l with
        | none => simp [ht] at h
        | some a' =>
          obtain ⟨s, e1, e2⟩ := ih ht
          simp [ht] at h
          exact ⟨s, by simp [← h, e1], by rw [← h, width_cons]; omega⟩

/-- The parser stands between the characters `pre` already passed and the characters `rest` to come. -/
def At (p : Parser) (pre rest : List Char) : Prop := p.input = pre ++ rest ∧ p.cursor = width pre

/-- The parser stands between characters of its input: it has not passed the end. -/
def Good (p : Parser) : Prop := ∃ pre rest, At p pre rest

theorem At.slice {p : Parser} {pre rest : List Char} (h : At p pre rest) : p.slice = some rest := by
  rw [Parser.slice, h.1, h.2, dropBytes_append]

theorem good_iff (p : Parser) : Good p ↔ ∃ s, p.slice = some s := by
  constructor
  · rintro ⟨a, b, h⟩; exact ⟨b, h.slice⟩
  · rintro ⟨s, h⟩
    obtain ⟨a, e1, e2⟩ := dropBytes_some h
    exact ⟨a, s, e1, e2⟩

theorem At.len {p : Parser} {pre rest : List Char} (h : At p pre rest) : p.len = some (width rest) := by
  rw [Parser.len, h.1, h.2, width_append, if_pos (by omega)]
  simp

theorem At.moved {p : Parser} {pre a rest : List Char} (h : At p pre (a ++ rest)) :
    At { p with cursor := p.cursor + width a } (pre ++ a) rest :=
  ⟨by simp [h.1], by simp [h.2, width_append]⟩

theorem At.unique {p : Parser} {pre pre' rest rest' : List Char} (h : At p pre rest) (h' : At p pre' rest') :
    pre = pre' ∧ rest = rest' := by
  have e : rest = rest' := by simpa [h.slice] using h'.slice
  subst e
  have := h.1.symm.trans h'.1
  exact ⟨List.append_cancel_right this, rfl⟩

theorem At.giveFrom {p q : Parser} {pre a rest : List Char} (h : At p pre (a ++ rest)) (hq : At q (pre ++ a) rest) :
    q.giveFrom p.cursor = .ok a q := by
  have : q.sliceFrom p.cursor = some a := by
    simp only [Parser.sliceFrom]
    rw [hq.2, h.2, hq.1, width_append, width_append]
    rw [Nat.min_eq_left (by simp [width_append]), if_pos (by omega)]
    rw [List.append_assoc, dropBytes_append]
    simp only [Option.bind_some]
    rw [show width pre + width a - width pre = width a by omega, takeBytes_append]
  simp [Parser.giveFrom, this]

theorem At.skipInternal {p : Parser} {pre a rest : List Char} (h : At p pre (a ++ rest)) :
    p.skipInternal (width rest) = .ok () { p with cursor := p.cursor + width a } := by
  rw [Parser.skipInternal, h.len, width_append]
  simp only [show width rest ≤ width a + width rest by omega, if_true]
  congr 3
  omega

theorem At.skipMatches {p : Parser} {pre rest : List Char} (h : At p pre rest) (f : Char → Bool) :
    p.skipMatches f = .ok () { p with cursor := p.cursor + width (rest.takeWhile f) } := by
  rw [Parser.skipMatches, h.slice]
  have h' : At p pre (rest.takeWhile f ++ rest.dropWhile f) := by simpa using h
  exact h'.skipInternal

theorem At.skipMatches_at {p : Parser} {pre rest : List Char} (h : At p pre rest) (f : Char → Bool) :
    ∃ q, p.skipMatches f = .ok () q ∧ At q (pre ++ rest.takeWhile f) (rest.dropWhile f) ∧ q.input = p.input := by
  refine ⟨_, h.skipMatches f, ?_, rfl⟩
  have h' : At p pre (rest.takeWhile f ++ rest.dropWhile f) := by simpa using h
  exact h'.moved

theorem At.current {p : Parser} {pre rest : List Char} (h : At p pre rest) :
    p.current = match rest with
      | [] => .err p
      | c :: _ => .ok c p := by
  rw [Parser.current, h.slice]
  cases rest <;> rfl

theorem At.read {p : Parser} {pre rest : List Char} (h : At p pre rest) :
    p.read = match rest with
      | [] => .err p
      | c :: _ => .ok c p.advance := by
  rw [Parser.read, h.current]
  cases rest <;> rfl

/-- Moving one byte past a character of one byte, and of more than one. -/
theorem At.advance {p : Parser} {pre rest : List Char} {c : Char} (h : At p pre (c :: rest)) (hc : c.utf8Size = 1) :
    At p.advance (pre ++ [c]) rest :=
  ⟨by simp [Parser.advance, h.1], by simp [Parser.advance, h.2, width_append, width_cons, width_nil, hc]⟩

theorem At.advance_bad {p : Parser} {pre rest : List Char} {c : Char} (h : At p pre (c :: rest))
    (hc : c.utf8Size ≠ 1) : ¬ Good p.advance := by
  rintro ⟨a, b, h1, h2⟩
  simp only [Parser.advance] at h1 h2
  have hp := size_pos c
  -- `a` is `pre` and one byte more
  rw [h.1] at h1
  rw [h.2] at h2
  rcases List.append_eq_append_iff.mp h1 with ⟨m, e1, e2⟩ | ⟨m, e1, e2⟩
  · subst e1
    rw [width_append] at h2
    cases m with
    | nil => simp [width_nil] at h2
    | cons d m =>
      simp at e2
      rw [width_cons, ← e2.1] at h2
      omega
  · subst e1
    rw [width_append] at h2
    omega

theorem At.advance_end {p : Parser} {pre : List Char} (h : At p pre []) : ¬ Good p.advance := by
  rintro ⟨a, b, h1, h2⟩
  simp only [Parser.advance] at h1 h2
  rw [h.1] at h1
  rw [h.2] at h2
  have := congrArg width h1
  rw [width_append, width_append, width_nil] at this
  omega

/-- Cutting a text at the start of the piece that is passed and at a position inside of a character. -/
theorem takeBytes_none {c : Char} {rest : List Char} {n : Nat} (h1 : 0 < n) (h2 : n < c.utf8Size) :
    takeBytes n (c :: rest) = none := by
  obtain ⟨m, rfl⟩ : ∃ m, n = m + 1 := ⟨n - 1, by omega⟩
  rw [takeBytes, if_pos h2]

end Verif.Parse
