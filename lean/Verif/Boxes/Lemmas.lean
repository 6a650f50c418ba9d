import Verif.Boxes.Model
import Verif.Boxes.Spec
import Verif.Clock.Text
import Verif.Clock.Fails
import Mathlib.Tactic.FieldSimp
import Mathlib.Tactic.Ring

namespace Verif.Boxes

open Verif.Parse Verif.Clock Verif.Number

variable {p q : Parser} {pre rest r t : List Char} {v : ℚ}

/-! ## The value of a number -/

/-- The value of a decimal. -/
def val (neg : Bool) (ip fp : List Char) : ℚ := (if neg then -1 else 1) * (decimal ip + tail fp)

theorem decimal_snoc (l : List Char) (c : Char) : (decimal (l ++ [c]) : ℚ) = decimal l * 10 + decimal [c] := by
  rw [Verif.Path.decimal_append]; simp

theorem tail_cons (c : Char) (l : List Char) : tail (c :: l) = (decimal [c] + tail l) / 10 := by
  simp only [tail, decimal, List.length_cons, List.length_nil, pow_zero, mul_one, add_zero]
  push_cast
  field_simp
  ring

theorem tail_nil : tail [] = 0 := by simp [tail, decimal]

theorem zero_char : (decimal ['0'] : ℚ) = 0 := by
  have : decimal ['0'] = 0 := by decide
  rw [this]; simp

theorem up_spec (n : Nat) (ip fp : List Char) (h1 : Digits ip) (h2 : Digits fp) : Digits (up n ip fp).1 ∧ Digits (up n ip fp).2 ∧
    (decimal (up n ip fp).1 + tail (up n ip fp).2 : ℚ) = (decimal ip + tail fp) * 10 ^ n := by
  induction n generalizing ip fp with
  | zero => exact ⟨h1, h2, by simp [up]⟩
  | succ n ih =>
    cases fp with
    | nil =>
      obtain ⟨a, b, c⟩ := ih (ip ++ ['0']) [] (digits_snoc h1 (by decide)) h2
      refine ⟨a, b, ?_⟩
      rw [up, c, decimal_snoc, zero_char, tail_nil, pow_succ]; ring
    | cons d fp =>
      obtain ⟨a, b, c⟩ := ih (ip ++ [d]) fp (digits_snoc h1 (h2 d (by simp))) (fun x hx => h2 x (by simp [hx]))
      refine ⟨a, b, ?_⟩
      rw [up, c, decimal_snoc, tail_cons, pow_succ]; ring

theorem down_spec (n : Nat) (ip fp : List Char) (h1 : Digits ip) (h2 : Digits fp) : Digits (down n ip fp).1.reverse ∧ Digits (down n ip fp).2 ∧
    (decimal (down n ip fp).1.reverse + tail (down n ip fp).2 : ℚ) * 10 ^ n = decimal ip.reverse + tail fp := by
  induction n generalizing ip fp with
  | zero => exact ⟨fun x hx => h1 x (by simpa [down] using hx), h2, by simp [down]⟩
  | succ n ih =>
    cases ip with
    | nil =>
      obtain ⟨a, b, c⟩ := ih [] ('0' :: fp) h1 (by
        intro x hx
        rcases List.mem_cons.mp hx with rfl | hx
        · decide
        · exact h2 x hx)
      refine ⟨a, b, ?_⟩
      rw [down, pow_succ, ← mul_assoc, c, tail_cons, zero_char]
      simp only [List.reverse_nil, decimal, Nat.cast_zero]
      ring
    | cons d ip =>
      obtain ⟨a, b, c⟩ := ih ip (d :: fp) (fun x hx => h1 x (by simp [hx])) (by
        intro x hx
        rcases List.mem_cons.mp hx with rfl | hx
        · exact h1 _ (by simp)
        · exact h2 x hx)
      refine ⟨a, b, ?_⟩
      rw [down, pow_succ, ← mul_assoc, c, tail_cons, List.reverse_cons, decimal_snoc]
      ring

theorem shift_spec (e : Int) (ip fp : List Char) (h1 : Digits ip) (h2 : Digits fp) : Digits (shift e ip fp).1 ∧ Digits (shift e ip fp).2 ∧
    (decimal (shift e ip fp).1 + tail (shift e ip fp).2 : ℚ) = (decimal ip + tail fp) * 10 ^ e := by
  by_cases he : e < 0
  · obtain ⟨a, b, c⟩ := down_spec e.natAbs ip.reverse fp (fun x hx => h1 x (by simpa using hx)) h2
    rw [List.reverse_reverse] at c
    have e1 : e = -(e.natAbs : Int) := by omega
    simp only [shift, if_pos he]
    refine ⟨a, b, ?_⟩
    rw [← c]
    conv => rhs; rw [e1, zpow_neg, zpow_natCast]
    rw [Int.natAbs_neg, Int.natAbs_natCast]
    field_simp
  · have e1 : e = (e.natAbs : Int) := by omega
    obtain ⟨a, b, c⟩ := up_spec e.natAbs ip fp h1 h2
    simp only [shift, if_neg he]
    refine ⟨a, b, ?_⟩
    rw [c]
    conv => rhs; rw [e1, zpow_natCast]

theorem splitSign_of {s m : List Char} (hs : IsSign s) (hm : ∀ c u, m = c :: u → isSign c = false) :
    splitSign (s ++ m) = (decide (s = ['-']), m) := by
  rcases hs with rfl | rfl | rfl
  · cases m with
    | nil => rfl
    | cons c u =>
      have := hm c u rfl
      simp only [isSign, Bool.or_eq_false_iff, beq_eq_false_iff_ne] at this
      simp only [List.nil_append, splitSign]
      split
      · rename_i e; simp only [List.cons.injEq] at e; simp [e.1] at this
      · rename_i e; simp only [List.cons.injEq] at e; simp [e.1] at this
      · rfl
  · rfl
  · rfl

theorem value_parts {s d f x : List Char} (hs : IsSign s) (hd : Digits d) (hf : (f = [] ∧ d ≠ []) ∨ ∃ d', f = '.' :: d' ∧ Digits d' ∧ d' ≠ [])
    (hx : x = [] ∨ ∃ e u, x = e :: u ∧ (e = 'e' ∨ e = 'E')) :
    numOf (s ++ d ++ f ++ x) = norm (decide (s = ['-'])) (shift ((rustInt x.tail).getD 0) d f.tail).1
      (shift ((rustInt x.tail).getD 0) d f.tail).2 := by
  have h0 : ∀ c u, d ++ f ++ x = c :: u → isSign c = false := by
    intro c u e
    cases d with
    | cons c' d =>
      simp only [List.cons_append, List.cons.injEq] at e
      rw [← e.1]
      exact (digit_facts (hd _ (by simp))).2.2.2.1
    | nil =>
      rcases hf with ⟨_, h⟩ | ⟨d', rfl, _⟩
      · simp at h
      · simp only [List.nil_append, List.cons_append, List.cons.injEq] at e
        rw [← e.1]; decide
  have hE : ∀ c ∈ d ++ f, (!isE c) = true := by
    intro c hc
    rcases List.mem_append.mp hc with hc | hc
    · simp [(digit_facts (hd c hc)).2.2.2.2.1]
    · rcases hf with ⟨rfl, _⟩ | ⟨d', rfl, h', _⟩
      · simp at hc
      · rcases List.mem_cons.mp hc with rfl | hc
        · decide
        · simp [(digit_facts (h' c hc)).2.2.2.2.1]
  have hx1 : x.takeWhile (fun c => !isE c) = [] ∧ x.dropWhile (fun c => !isE c) = x := by
    rcases hx with rfl | ⟨e, u, rfl, rfl | rfl⟩ <;> simp [isE]
  have h1 : (d ++ f ++ x).takeWhile (fun c => !isE c) = d ++ f := by
    rw [List.takeWhile_append_of_pos hE, hx1.1]; simp
  have h2 : (d ++ f ++ x).dropWhile (fun c => !isE c) = x := by
    rw [List.dropWhile_append_of_pos hE, hx1.2]
  have h3 : f.takeWhile Char.isDigit = [] ∧ (f.dropWhile Char.isDigit) = f := by
    rcases hf with ⟨rfl, _⟩ | ⟨e, rfl, _⟩
    · simp
    · simp [not_digit_dot]
  have h4 : (d ++ f).takeWhile Char.isDigit = d := by
    rw [List.takeWhile_append_of_pos hd, h3.1]; simp
  have h5 : (d ++ f).dropWhile Char.isDigit = f := by
    rw [List.dropWhile_append_of_pos hd, h3.2]
  have e : s ++ d ++ f ++ x = s ++ (d ++ f ++ x) := by simp
  rw [numOf, e, splitSign_of hs h0]
  simp only [h1, h2, h4, h5, List.drop_one]

theorem exponent_value {x : List Char} {k : Int} (h : Exponent x k) : (rustInt x.tail).getD 0 = k := by
  rcases h with ⟨rfl, rfl⟩ | ⟨e, s, d, rfl, _, hs, hd, hne, hlt, rfl⟩
  · rfl
  · rw [List.tail_cons, rustInt_of hs hd hne, if_pos]
    · rfl
    · unfold signed
      split <;> omega

/-- **The value** of a number that is read. -/
theorem numOf_value (h : Value t v) : ∃ neg ip fp, numOf t = norm neg ip fp ∧ Digits ip ∧ Digits fp ∧ val neg ip fp = v := by
  obtain ⟨s, d, f, x, k, rfl, hs, hd, hf, hx, rfl⟩ := h
  have hft : Digits f.tail := by
    rcases hf with ⟨rfl, _⟩ | ⟨d', rfl, h, _⟩
    · intro c hc; simp at hc
    · exact h
  obtain ⟨a, b, c⟩ := shift_spec k d f.tail hd hft
  refine ⟨decide (s = ['-']), _, _, ?_, a, b, ?_⟩
  · rw [value_parts hs hd hf, exponent_value hx]
    rcases hx with ⟨rfl, _⟩ | ⟨e, s, d, rfl, he, _⟩
    · exact .inl rfl
    · exact .inr ⟨e, _, rfl, he⟩
  · rw [val, c]
    by_cases h : s = ['-']
    · simp only [h, decide_true, if_true]; ring
    · simp only [h, decide_false, if_false, Bool.false_eq_true]; ring

/-- A number as it is written. -/
theorem value_text {z ip fp : List Char} (neg : Bool) (hz : z = "0".toList ∨ z = "-0".toList) (h1 : Digits ip) (h2 : Digits fp) :
    Value ((norm neg ip fp).text z) (val neg ip fp) := by
  have hff : Fraction ('.' :: fp) ∨ fp = [] := by
    by_cases h : fp = []
    · exact .inr h
    · exact .inl (.inr ⟨fp, h, h2, rfl⟩)
  obtain ⟨f, hf, rfl⟩ : ∃ f, Fraction f ∧ f.tail = fp := by
    rcases hff with h | rfl
    · exact ⟨_, h, rfl⟩
    · exact ⟨[], .inl rfl, rfl⟩
  obtain ⟨d', f', e1, ⟨g1, g2, g3⟩, e2, e3, _, e4, e5⟩ := num_text z h1 hf
  have g4 : (f' = [] ∧ d' ≠ []) ∨ ∃ d, f' = '.' :: d ∧ Digits d ∧ d ≠ [] := by
    rcases g2 with rfl | ⟨d, a, b, rfl⟩
    · exact .inl ⟨rfl, by simpa using g3⟩
    · exact .inr ⟨d, rfl, b, a⟩
  cases neg with
  | false =>
    rw [e1]
    exact ⟨[], d', f', [], 0, by simp, .inl rfl, g1, g4, .inl ⟨rfl, rfl⟩, by simp [val, e2, e3]⟩
  | true =>
    by_cases hz0 : decimal ip = 0 ∧ decimal f.tail = 0
    · rw [e5 hz0]
      have hv : val true ip f.tail = 0 := by
        rw [val, (tail_eq_zero _).mpr hz0.2, hz0.1]; simp
      rw [hv]
      have h0 : Digits ['0'] := by unfold Digits; decide
      rcases hz with rfl | rfl
      · exact ⟨[], ['0'], [], [], 0, rfl, .inl rfl, h0, .inl ⟨rfl, by simp⟩, .inl ⟨rfl, rfl⟩, by simp [zero_char, tail_nil]⟩
      · exact ⟨['-'], ['0'], [], [], 0, rfl, .inr (.inr rfl), h0, .inl ⟨rfl, by simp⟩, .inl ⟨rfl, rfl⟩, by simp [zero_char, tail_nil]⟩
    · rw [e4 (by by_contra h; push Not at h; exact hz0 h)]
      exact ⟨['-'], d', f', [], 0, by simp, .inr (.inr rfl), g1, g4, .inl ⟨rfl, rfl⟩, by simp [val, e2, e3]⟩

/-- **What is written has the value of what is read.** -/
theorem value_kept {z : List Char} (h : Value t v) (hz : z = "0".toList ∨ z = "-0".toList) : Value ((numOf t).text z) v := by
  obtain ⟨neg, ip, fp, e, h1, h2, rfl⟩ := numOf_value h
  rw [e]
  exact value_text neg hz h1 h2

/-! ## Reading -/

theorem value_number (h : Value t v) : IsNumber t := by
  obtain ⟨s, d, f, x, k, rfl, hs, hd, hf, hx, rfl⟩ := h
  refine ⟨s, d, f, x, rfl, hs, hd, ?_, ?_⟩
  · rcases hf with h | ⟨d', h1, h2, h3⟩
    · exact .inl h
    · exact .inr ⟨d', h1, h2, .inr h3⟩
  · rcases hx with ⟨h, _⟩ | ⟨e, s', d', h1, h2, h3, h4, h5, _⟩
    · exact .inl h
    · exact .inr ⟨e, s', d', h1, h2, h3, h4, h5⟩

/-- Texts that do not end with a point or a comma. -/
def Fine (l : List Char) : Prop := ∀ c, l.getLast? = some c → c ≠ '.' ∧ c ≠ ','

theorem fine_left {a b : List Char} (hb : Fine b) (hne : b ≠ []) : Fine (a ++ b) := by
  intro c hc
  rw [List.getLast?_append] at hc
  cases h : b.getLast? with
  | none => simp at h; exact absurd h hne
  | some x => rw [h] at hc; simp at hc; subst hc; exact hb _ h

theorem fine_append {a b : List Char} (ha : Fine a) (hb : Fine b) : Fine (a ++ b) := by
  by_cases h : b = []
  · subst h; simpa using ha
  · exact fine_left hb h

theorem fine_digits {l : List Char} (h : Digits l) : Fine l := by
  intro c hc
  have := h c (List.mem_of_getLast? hc)
  constructor <;> rintro rfl <;> simp at this

theorem fine_white {l : List Char} (h : White l) : Fine l := by
  intro c hc
  have := h c (List.mem_of_getLast? hc)
  constructor <;> rintro rfl <;> simp at this

theorem value_fine (h : Value t v) : Fine t := by
  obtain ⟨s, d, f, x, k, rfl, hs, hd, hf, hx, rfl⟩ := h
  rcases hx with ⟨rfl, _⟩ | ⟨e, s', d', rfl, _, _, h4, h5, _⟩
  · rw [List.append_nil]
    rcases hf with ⟨rfl, h⟩ | ⟨d', rfl, h2, h3⟩
    · rw [List.append_nil]; exact fine_left (fine_digits hd) h
    · have : s ++ d ++ '.' :: d' = (s ++ d ++ ['.']) ++ d' := by simp
      rw [this]
      exact fine_left (fine_digits h2) h3
  · have : s ++ d ++ f ++ e :: (s' ++ d') = (s ++ d ++ f ++ e :: s') ++ d' := by simp
    rw [this]
    exact fine_left (fine_digits h4) h5

theorem value_head (h : Value t v) : ∃ c u, t = c :: u ∧ isWhitespace c = false ∧ c ≠ ',' ∧ c.utf8Size = 1 ∧ isNameStartChar c = false := by
  obtain ⟨c, u, e, hc⟩ := number_head (value_number h)
  refine ⟨c, u, e, ?_⟩
  rcases hc with hc | rfl | hc
  · have := digit_facts hc
    exact ⟨this.1, by rintro rfl; simp at hc, this.2.2.2.2.2.2.2.2.2, this.2.1⟩
  · decide
  · simp only [isSign, Bool.or_eq_true, beq_iff_eq] at hc
    rcases hc with rfl | rfl <;> decide

/-- What may follow a number. -/
def Stop (r : List Char) : Prop := ∀ c u, r = c :: u → c.isDigit = false ∧ c ≠ '.' ∧ isE c = false

/-- **A number is read.** -/
theorem f32_value (hp : At p pre (t ++ r)) (h : Value t v) (hr : Stop r) (hl : Fine r) : ∃ q, f32 p = .ok (numOf t) q ∧ At q (pre ++ t) r := by
  have hn := value_number h
  have hL : Longest (t ++ r) t := by
    refine longest_of hn (fun c u e => (hr c u e).1) (fun _ u e => (hr '.' u e).2.1 rfl) ?_
    intro _ e y u hu he
    rw [(hr e (y :: u) hu).2.2] at he
    simp at he
  obtain ⟨c, u, e, hc, _⟩ := value_head h
  have hw : (t ++ r).dropWhile isWhitespace = t ++ r := by
    rw [e]; simp [hc]
  have hw' : (t ++ r).takeWhile isWhitespace = [] := by
    rw [e]; simp [hc]
  obtain ⟨q, hq⟩ := f64_parsed (finite := fun _ => true) hp hw hL (fun e => (hl _ e).1 rfl) rfl (by
    rintro (⟨h1, h2⟩ | ⟨_, e, u, h1, h2, _⟩)
    · cases r with
      | nil => simp at h1
      | cons c u =>
        simp only [List.head?_cons, Option.some.injEq] at h1
        exact (hr c u rfl).2.1 h1
    · rw [(hr e u h1).2.2] at h2
      simp at h2)
  obtain ⟨r', e1, _, _, e4⟩ := f64_sound hp hq
  have hr' : r' = r := by
    rw [hw] at e1
    exact (List.append_cancel_left e1).symm
  subst hr'
  refine ⟨q, ?_, ?_⟩
  · rw [f32, hq]; rfl
  · rw [hw'] at e4
    simpa using e4

/-- White space, any number of commas, white space. -/
def Commas (g : List Char) : Prop := ∃ w n w', g = w ++ List.replicate n ',' ++ w' ∧ White w ∧ White w'

theorem comma_commas {g : List Char} (h : Comma g) : Commas g := by
  obtain ⟨w, w', c, rfl, h1, h2, rfl | rfl, _⟩ := h
  · exact ⟨w, 0, w', by simp, h1, h2⟩
  · exact ⟨w, 1, w', by simp, h1, h2⟩

theorem blank_comma {g : List Char} (h : Blank g) : Comma g := ⟨g, [], [], by simp, h.1, by simp [White], .inl rfl, h.2⟩

theorem commas_stop {g x : List Char} (h : Commas g) (hx : Stop x ∨ g ≠ []) : Stop (g ++ x) := by
  intro c u e
  cases g with
  | nil => exact (hx.resolve_right (by simp)) c u e
  | cons a g =>
    simp only [List.cons_append, List.cons.injEq] at e
    obtain ⟨rfl, _⟩ := e
    obtain ⟨w, n, w', e, h1, h2⟩ := h
    have : a ∈ w ++ List.replicate n ',' ++ w' := by rw [← e]; simp
    simp only [List.mem_append, List.mem_replicate] at this
    rcases this with (h | ⟨_, rfl⟩) | h
    · rcases h1 a h with rfl | rfl | rfl | rfl <;> decide
    · decide
    · rcases h2 a h with rfl | rfl | rfl | rfl <;> decide

theorem skip_white {w : List Char} (hp : At p pre (w ++ r)) (hw : White w) (hr : Ends isWhitespace r) :
    ∃ q, p.skipWhitespace = .ok () q ∧ At q (pre ++ w) r :=
  Verif.Number.At.skip hp (white_space hw) hr

theorem ends_of {f : Char → Bool} {c : Char} {u : List Char} (h : f c = false) : Ends f (c :: u) := by
  intro x w e; simp only [List.cons.injEq] at e; rw [← e.1]; exact h

theorem ends_nil {f : Char → Bool} : Ends f [] := by intro x w e; simp at e

/-- A gap is read. -/
theorem gap_read {g : List Char} {c : Char} (hp : At p pre (g ++ c :: r)) (hg : Commas g) (hc : isWhitespace c = false) (hc' : c ≠ ',')
    (hl : Fine (c :: r)) : ∃ q, gap p = .ok () q ∧ At q (pre ++ g) (c :: r) := by
  obtain ⟨w, n, w', rfl, h1, h2⟩ := hg
  have hcw : isWhitespace ',' = false := by decide
  by_cases hn : n = 0
  · subst hn
    have hww : White (w ++ w') := fun x hx => by
      rcases List.mem_append.mp hx with hx | hx
      · exact h1 x hx
      · exact h2 x hx
    obtain ⟨q, e1, a1⟩ := skip_white (w := w ++ w') (r := c :: r) (by simpa using hp) hww (ends_of hc)
    have e2 : q.skipChar ',' = .ok () q := by
      have := (skipChar_iff a1 ',').mpr (by
        rw [List.dropWhile_cons_of_neg (by simpa using hc')]
        exact fun e => (hl _ e).2 rfl)
      rw [List.takeWhile_cons_of_neg (by simpa using hc')] at this
      simpa [width] using this
    obtain ⟨q', e3, a3⟩ := skip_white (w := []) (r := c :: r) (by simpa using a1) (by simp [White]) (ends_of hc)
    refine ⟨q', ?_, by simpa using a3⟩
    rw [gap, e1]
    simp only [Res.bind, e2, e3]
  · obtain ⟨m, rfl⟩ := Nat.exists_eq_succ_of_ne_zero hn
    obtain ⟨q, e1, a1⟩ := skip_white (w := w) (r := List.replicate (m + 1) ',' ++ (w' ++ c :: r)) (by simpa using hp) h1
      (by rw [List.replicate_succ, List.cons_append]; exact ends_of hcw)
    have hd : ∀ y, (List.replicate (m + 1) ',' ++ (w' ++ c :: r)) = y →
        y.takeWhile (· == ',') = List.replicate (m + 1) ',' ∧ y.dropWhile (· == ',') = w' ++ c :: r := by
      rintro _ rfl
      have hall : ∀ x ∈ List.replicate (m + 1) ',', (x == ',') = true := by
        intro x hx; simp [List.eq_of_mem_replicate hx]
      have hk : (w' ++ c :: r).takeWhile (· == ',') = [] ∧ (w' ++ c :: r).dropWhile (· == ',') = w' ++ c :: r := by
        cases w' with
        | nil => simp [hc']
        | cons x w' =>
          have hx : (x == ',') = false := by
            rcases h2 x (by simp) with rfl | rfl | rfl | rfl <;> decide
          simp [hx]
      rw [List.takeWhile_append_of_pos hall, List.dropWhile_append_of_pos hall, hk.1, hk.2]
      simp
    have e2 := (skipChar_iff a1 ',').mpr (by
      rw [(hd _ rfl).2]
      exact fun e => (fine_left hl (by simp) _ e).2 rfl)
    rw [(hd _ rfl).1] at e2
    obtain ⟨q', e3, a3⟩ := skip_white (w := w') (r := c :: r) a1.moved h2 (ends_of hc)
    refine ⟨q', ?_, by simpa using a3⟩
    rw [gap, e1]
    simp only [Res.bind, e2, e3]

/-- A gap and a number are read. -/
theorem next_read {g : List Char} (hp : At p pre (g ++ (t ++ r))) (hg : Commas g) (h : Value t v) (hr : Stop r) (hl : Fine r) :
    ∃ q q' pre', gap p = .ok () q ∧ f32 q = .ok (numOf t) q' ∧ At q' pre' r := by
  obtain ⟨c, u, e, hc, hc', _⟩ := value_head h
  have hf : Fine (t ++ r) := fine_append (value_fine h) hl
  obtain ⟨q, e1, a1⟩ := gap_read (c := c) (r := u ++ r) (by rw [e] at hp; simpa using hp) hg hc hc' (by rw [e] at hf; exact hf)
  obtain ⟨q', e2, a2⟩ := f32_value (p := q) (t := t) (r := r) (by rw [e]; exact a1) h hr hl
  exact ⟨q, q', _, e1, e2, a2⟩

/-- **A whole value** is read. -/
theorem parse_done {α : Type} {T : Parser → Res α} {P : α → Prop} {w x : List Char} (hw : White w) (hx : Ends isWhitespace x)
    (e : ∀ p pre, At p pre x → ∃ a q pre' w', T p = .ok a q ∧ At q pre' w' ∧ White w' ∧ P a) :
    ∃ a q, ListOf.parseString T (w ++ x) = .ok a q ∧ P a := by
  obtain ⟨p0, e0, h0⟩ := skip_white (p := Parser.new (w ++ x)) (pre := []) (w := w) (r := x) ⟨rfl, rfl⟩ hw hx
  obtain ⟨a, q, pre', w', e1, a1, hw', ha⟩ := e p0 _ h0
  obtain ⟨q', e2, a2⟩ := skip_white (w := w') (r := []) (by simpa using a1) hw' ends_nil
  refine ⟨a, q', ?_, ha⟩
  rw [ListOf.parseString, e0]
  simp only [Res.bind, e1, e2, (expectDone_spec a2 q').mpr ⟨rfl, rfl⟩]

/-- A name ahead. -/
theorem ident_at {c : Char} {m k : List Char} (hp : At p pre (c :: (m ++ r))) (hc : isNameStartChar c = true) (hs : c.utf8Size = 1)
    (hm : ∀ x ∈ m, isNameChar x = true) (hr : Ends isNameChar r) : ∃ q, q.input = p.input ∧ At q (pre ++ (c :: m)) r ∧
      p.expectIdentMatching k = if c :: m = k then .ok () q else .err q := by
  obtain ⟨q, hi, h⟩ := expectIdent_spec hp (ascii_head_cons.mpr hs)
  simp only [hc, if_true] at h
  have e : (m ++ r).takeWhile isNameChar = m ∧ (m ++ r).dropWhile isNameChar = r := by
    have : r.takeWhile isNameChar = [] ∧ r.dropWhile isNameChar = r := by
      cases r with
      | nil => simp
      | cons x r => simp [hr x r rfl]
    rw [List.takeWhile_append_of_pos hm, List.dropWhile_append_of_pos hm, this.1, this.2]
    simp
  rw [e.1, e.2] at h
  refine ⟨q, hi, h.2, ?_⟩
  rw [Parser.expectIdentMatching, h.1]
  rfl

/-- White space and a number are read. -/
theorem blank_read {g : List Char} (hp : At p pre (g ++ (t ++ r))) (hg : White g) (h : Value t v) (hr : Stop r) (hl : Fine r) :
    ∃ q q' pre', p.skipWhitespace = .ok () q ∧ f32 q = .ok (numOf t) q' ∧ At q' pre' r := by
  obtain ⟨c, u, e, hc, _⟩ := value_head h
  obtain ⟨q, e1, a1⟩ := skip_white hp hg (by rw [e]; exact ends_of hc)
  obtain ⟨q', e2, a2⟩ := f32_value a1 h hr hl
  exact ⟨q, q', _, e1, e2, a2⟩

end Verif.Boxes
