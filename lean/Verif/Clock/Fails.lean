import Verif.Clock.Props

/-! # Where no number and no clock value is read -/

namespace Verif.Clock

open Verif.Parse Verif.Number

variable {p q : Parser} {pre r t l : List Char} {v : ℚ}

theorem input_of (h : At p pre l) {m : List Char} (hq : At q (pre ++ m) r) (e : l = m ++ r) : q.input = p.input := by
  rw [h.1, hq.1, e]
  simp

/-- Skipping goes on to a later place of the same text. -/
theorem skip_to (h : At p pre l) (f : Char → Bool) (hl : l.getLast? ≠ some '.') :
    ∃ q m r, p.skipMatches f = .ok () q ∧ At q (pre ++ m) r ∧ l = m ++ r ∧ r.getLast? ≠ some '.' := by
  obtain ⟨q, e, hq, _⟩ := h.skipMatches_at f
  exact ⟨q, _, _, e, hq, (List.takeWhile_append_dropWhile).symm, dropWhile_last hl⟩

theorem skipDot_to (h : At p pre l) (hl : l.getLast? ≠ some '.') :
    ∃ q m r, p.skipChar '.' = .ok () q ∧ At q (pre ++ m) r ∧ l = m ++ r ∧ r.getLast? ≠ some '.' := by
  have h' : At p pre (l.takeWhile (· == '.') ++ l.dropWhile (· == '.')) := by
    rw [List.takeWhile_append_dropWhile]; exact h
  obtain ⟨q, e, hq⟩ := Verif.Number.At.skipDot h' (fun c hc => by
      have := takeWhile_all c hc
      simpa using this) (fun u e => by
      have := ends_dropWhile (· == '.') l '.' u e
      simp at this) (dropWhile_last hl)
  exact ⟨q, _, _, e, hq, (List.takeWhile_append_dropWhile).symm, dropWhile_last hl⟩

theorem body_to (h : At p pre l) (hl : l.getLast? ≠ some '.') :
    ∃ q m r, (exponent.body p = .ok () q ∨ exponent.body p = .err q) ∧ At q (pre ++ m) r ∧ l = m ++ r := by
  obtain ⟨q1, m1, r1, e1, h1, s1, l1⟩ := skip_to h isSign hl
  obtain ⟨q2, m2, r2, e2, h2, s2, l2⟩ := skip_to h1 Char.isDigit l1
  obtain ⟨q3, m3, r3, e3, h3, s3, l3⟩ := skipDot_to h2 l2
  obtain ⟨q4, m4, r4, e4, h4, s4, l4⟩ := skip_to h3 Char.isDigit l3
  refine ⟨q4, m1 ++ m2 ++ m3 ++ m4, r4, ?_, by simpa using h4, by rw [s1, s2, s3, s4]; simp⟩
  simp only [exponent.body, e1, Res.bind, e2, e3, e4]
  split
  · exact .inr rfl
  · exact .inl rfl

theorem exponent_to (h : At p pre l) (hl : l.getLast? ≠ some '.') :
    ∃ q m r, (exponent p = .ok () q ∨ exponent p = .err q) ∧ At q (pre ++ m) r ∧ l = m ++ r := by
  have stay : ∃ q m r, ((Res.ok () p : Res Unit) = .ok () q ∨ (Res.ok () p : Res Unit) = .err q) ∧ At q (pre ++ m) r ∧ l = m ++ r :=
    ⟨p, [], l, .inl rfl, by simpa using h, rfl⟩
  have go : ∀ c u, l = c :: u → isE c = true → ∃ q m r, (exponent.body p.advance = .ok () q ∨ exponent.body p.advance = .err q) ∧
      At q (pre ++ m) r ∧ l = m ++ r := by
    intro c u e he
    subst e
    have hc : c.utf8Size = 1 := by
      simp only [isE, Bool.or_eq_true, beq_iff_eq] at he
      rcases he with rfl | rfl <;> decide
    have hu : u.getLast? ≠ some '.' := by
      cases u with
      | nil => simp
      | cons d u => simpa using hl
    obtain ⟨q, m, r, h1, h2, h3⟩ := body_to (h.advance hc) hu
    exact ⟨q, c :: m, r, h1, by simpa using h2, by rw [h3]; rfl⟩
  rw [exponent_eq h]
  match l, h, hl, stay, go with
  | [], _, _, stay, _ => exact stay
  | [c], _, _, stay, go =>
    simp only [expCase]
    split
    · exact go c [] rfl (by assumption)
    · exact stay
  | c :: y :: u, _, _, stay, go =>
    simp only [expCase]
    split
    · split
      · exact stay
      · exact go c _ rfl (by assumption)
    · exact stay

/-- Where no number begins, reading a number is an error. -/
theorem f32_fails (h : At p pre l) (hl : l.getLast? ≠ some '.')
    (hn : ∀ t, IsNumber t → ¬ t <+: l.dropWhile isWhitespace) : ∃ q, f32 p = .err q ∧ q.input = p.input := by
  obtain ⟨q0, m0, r0, e0, h0, s0, l0⟩ := skip_to h isWhitespace hl
  obtain ⟨q1, m1, r1, e1, h1, s1, l1⟩ := skip_to h0 isSign l0
  obtain ⟨q2, m2, r2, e2, h2, s2, l2⟩ := skip_to h1 Char.isDigit l1
  obtain ⟨q3, m3, r3, e3, h3, s3, l3⟩ := skipDot_to h2 l2
  obtain ⟨q4, m4, r4, e4, h4, s4, l4⟩ := skip_to h3 Char.isDigit l3
  obtain ⟨q5, m5, r5, e5, h5, s5⟩ := exponent_to h4 l4
  have no := f64_none (finite := fun _ => true) h hn
  have hin : q5.input = p.input :=
    input_of h (m := m0 ++ m1 ++ m2 ++ m3 ++ m4 ++ m5) (r := r5) (by simpa using h5) (by rw [s0, s1, s2, s3, s4, s5]; simp)
  have hs : At q0 (pre ++ m0) ((m1 ++ m2 ++ m3 ++ m4 ++ m5) ++ r5) := by rw [s1, s2, s3, s4, s5] at h0; simpa using h0
  have hg := hs.giveFrom (q := q5) (by simpa using h5)
  refine ⟨q5, ?_, hin⟩
  have hp : parseF64 (fun _ => true) p = .err q5 := by
    rcases e5 with e5 | e5
    · have hp : parseF64 (fun _ => true) p = if rustFloat (m1 ++ m2 ++ m3 ++ m4 ++ m5) && true then .ok (m1 ++ m2 ++ m3 ++ m4 ++ m5) q5 else .err q5 := by
        simp only [parseF64, Parser.skipWhitespace, e0, Res.bind, e1, e2, e3, e4, e5, hg]
      rw [hp]
      split
      · rename_i hr
        rw [if_pos hr] at hp
        exact absurd hp (no _ _)
      · rfl
    · simp only [parseF64, Parser.skipWhitespace, e0, Res.bind, e1, e2, e3, e4, e5]
  rw [f32, hp]
  rfl

/-- A number begins with a digit, a sign or a point. -/
theorem number_head {t : List Char} (h : IsNumber t) : ∃ c u, t = c :: u ∧ (c.isDigit = true ∨ c = '.' ∨ isSign c = true) := by
  obtain ⟨s, d, f, x, rfl, hs, hd, hf, _⟩ := h
  rcases hs with rfl | rfl | rfl
  · cases d with
    | nil =>
      rcases hf with ⟨_, h⟩ | ⟨d', rfl, _⟩
      · exact absurd rfl h
      · exact ⟨'.', _, rfl, .inr (.inl rfl)⟩
    | cons c d => exact ⟨c, _, rfl, .inl (hd c (by simp))⟩
  · exact ⟨'+', _, rfl, .inr (.inr (by decide))⟩
  · exact ⟨'-', _, rfl, .inr (.inr (by decide))⟩

/-- A character that begins no clock value. -/
def Other (c : Char) : Prop :=
  c.isDigit = false ∧ c ≠ '.' ∧ isSign c = false ∧ isWhitespace c = false ∧ c.utf8Size = 1

theorem f32_other {c : Char} {u : List Char} (h : At p pre (c :: u)) (hc : Other c) (hl : (c :: u).getLast? ≠ some '.') :
    ∃ q, f32 p = .err q ∧ q.input = p.input := by
  refine f32_fails h hl ?_
  intro t ht hp
  obtain ⟨d, w, rfl, hd⟩ := number_head ht
  rw [List.dropWhile_cons, hc.2.2.2.1] at hp
  simp only [Bool.false_eq_true, if_false, List.cons_prefix_cons] at hp
  rw [hp.1] at hd
  simp [hc.1, hc.2.1, hc.2.2.1] at hd

theorem f32_end (h : At p pre []) : ∃ q, f32 p = .err q ∧ q.input = p.input := by
  refine f32_fails h (by simp) ?_
  intro t ht hp
  obtain ⟨d, w, rfl, hd⟩ := number_head ht
  simp at hp

theorem not_sign_plus {c : Char} (h : isSign c = false) : c ≠ '+' ∧ c ≠ '-' := by
  constructor <;> rintro rfl <;> simp [isSign] at h

/-- No clock value is read in front of such a character, with or without a sign. -/
theorem clock_fails {c : Char} {u w g : List Char} {minus : Bool} (hw : White w) (hg : SignText g minus)
    (h : At p pre (w ++ (g ++ c :: u))) (hc : Other c) (hl : (c :: u).getLast? ≠ some '.') :
    ∃ q, ClockValue.parse p = .err q ∧ q.input = p.input := by
  have hgh : ∀ x y, g ++ c :: u = x :: y → isWhitespace x = false := by
    intro x y e
    rcases hg with ⟨rfl, _⟩ | ⟨c', w', rfl, h1, _⟩
    · simp only [List.nil_append, List.cons.injEq] at e
      rw [← e.1]; exact hc.2.2.2.1
    · simp only [List.cons_append, List.cons.injEq] at e
      rw [← e.1]
      rcases h1 with rfl | rfl <;> decide
  obtain ⟨p1, e1, h1⟩ := Verif.Number.At.skip h (white_space hw) hgh
  have hs : ∃ p2, sign p1 = .ok minus p2 ∧ At p2 (pre ++ w ++ g) (c :: u) := by
    rcases hg with ⟨rfl, rfl⟩ | ⟨c', w', rfl, h2, h3, rfl⟩
    · refine ⟨p1, ?_, by simpa using h1⟩
      exact sign_none (r := u) (by simpa using h1) hc.2.2.2.2 (not_sign_plus hc.2.2.1).1 (not_sign_plus hc.2.2.1).2
    · obtain ⟨q, e, hq⟩ := sign_some (r := c :: u) (by simpa using h1) h2 (white_space h3)
        (by intro x y e; simp only [List.cons.injEq] at e; rw [← e.1]; exact hc.2.2.2.1)
      exact ⟨q, e, by simpa using hq⟩
  obtain ⟨p2, e2, h2⟩ := hs
  obtain ⟨q, e3, h3⟩ := f32_other h2 hc hl
  refine ⟨q, ?_, ?_⟩
  · rw [ClockValue.parse, Parser.skipWhitespace, e1]
    simp only [Res.bind, e2, e3]
  · rw [h3, h2.1, h.1]; simp

/-- No clock value is read at the end. -/
theorem clock_end (h : At p pre []) : ∃ q, ClockValue.parse p = .err q ∧ q.input = p.input := by
  obtain ⟨p1, e1, h1⟩ := Verif.Number.At.skip (t := []) h (f := isWhitespace) (by simp) (by intro x w e; simp at e)
  have h1' : p1 = p := At.same h (by simpa using h1)
  subst h1'
  have hs : sign p1 = .ok false p1 := by
    have : p1.tryParse (fun p => p.read.bind fun c q => q.skipWhitespace.bind fun _ q =>
        if c = '+' then .ok false q else if c = '-' then .ok true q else .err q) = .err p1 := by
      refine tryParse_err (q := p1) ?_ rfl
      rw [h.read]
      rfl
    rw [sign, this]
    rfl
  obtain ⟨q, e3, h3⟩ := f32_end h
  refine ⟨q, ?_, h3⟩
  rw [ClockValue.parse, Parser.skipWhitespace, e1]
  simp only [Res.bind, hs, e3]

end Verif.Clock
