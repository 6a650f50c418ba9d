import Verif.Clock.Text

/-! # Property C87: durations and offsets keep their meaning -/

namespace Verif.Clock

open Verif.Parse Verif.Number

variable {p q : Parser} {pre r t : List Char} {v : ℚ}

/-- No number of the text has more than six digits. -/
def Brief (t : List Char) : Prop := ∀ d, Digits d → d <:+: t → d.length ≤ 6

/-- What is read of a clock value. -/
inductive Got : List Char → ℚ → Bool → ClockValue → Prop
  | full (h m s f : List Char) (minus : Bool) : Digits h → h ≠ [] → Sixty m → Sixty s → Fraction f →
      Got (h ++ ':' :: (m ++ ':' :: (s ++ f))) (3600 * decimal h + 60 * decimal m + decimal s + tail f.tail) minus
        (.full (if minus then -(decimal h : Int) else decimal h) (decimal m) (norm false s f.tail))
  | half (m s f : List Char) (minus : Bool) : Sixty m → Sixty s → Fraction f →
      Got (m ++ ':' :: (s ++ f)) (60 * decimal m + decimal s + tail f.tail) minus
        (.half (if minus then -(decimal m : Int) else decimal m) (norm false s f.tail))
  | count (d f u : List Char) (k : ℚ) (minus : Bool) (m : Metric) : Digits d → d ≠ [] → Fraction f → (u, k) ∈ units →
      ((if m = .second then ([] : List Char) else m.text), k) ∈ units →
      Got (d ++ f ++ u) ((decimal d + tail f.tail) * k) minus (.count ((norm false d f.tail).times minus) m)

/-- The text of a sign. -/
def SignText (g : List Char) (minus : Bool) : Prop :=
  (g = [] ∧ minus = false) ∨ ∃ c w, g = c :: w ∧ (c = '+' ∨ c = '-') ∧ White w ∧ minus = (c == '-')

theorem infix_head (a b : List Char) : a <:+: a ++ b := ⟨[], b, by simp⟩

theorem clock_head (h : Clock t v) : ∃ c u, t = c :: u ∧ c.isDigit = true := by
  cases h with
  | full h m s f h1 h2 =>
    obtain ⟨c, h', rfl⟩ := List.exists_cons_of_ne_nil h2
    exact ⟨c, _, rfl, h1 c (by simp)⟩
  | half m s f h1 =>
    obtain ⟨c, h', rfl⟩ := List.exists_cons_of_ne_nil (sixty_ne h1)
    exact ⟨c, _, rfl, h1.1 c (by simp)⟩
  | count d f u k h1 h2 =>
    obtain ⟨c, h', rfl⟩ := List.exists_cons_of_ne_nil h2
    exact ⟨c, h' ++ f ++ u, by simp, h1 c (by simp)⟩

theorem unit_facts {u : List Char} {k : ℚ} (h : (u, k) ∈ units) : (∀ c w, u = c :: w → c.isDigit = false ∧ c ≠ '.' ∧ isE c = false) ∧
    u.getLast? ≠ some '.' ∧ 0 < k ∧ ':' ∉ u ∧ '-' ∉ u := by
  simp only [units, List.mem_cons, Prod.mk.injEq, List.not_mem_nil, or_false] at h
  have key : ∀ x ∈ [([] : List Char), ['s'], ['h'], ['m', 'i', 'n'], ['m', 's']],
      (∀ c w, x = c :: w → c.isDigit = false ∧ c ≠ '.' ∧ isE c = false) ∧ x.getLast? ≠ some '.' ∧ ':' ∉ x ∧ '-' ∉ x := by
    intro x hx
    simp only [List.mem_cons, List.not_mem_nil, or_false] at hx
    rcases hx with rfl | rfl | rfl | rfl | rfl <;> refine ⟨?_, by decide, by decide, by decide⟩ <;> intro c w e <;>
      simp only [List.cons.injEq, reduceCtorEq] at e <;> rw [← e.1] <;> decide
  rcases h with ⟨rfl, rfl⟩ | ⟨rfl, rfl⟩ | ⟨rfl, rfl⟩ | ⟨rfl, rfl⟩ | ⟨rfl, rfl⟩
  · have := key [] (by simp); exact ⟨this.1, this.2.1, by norm_num, this.2.2.1, this.2.2.2⟩
  · have := key ['s'] (by simp); exact ⟨this.1, this.2.1, by norm_num, this.2.2.1, this.2.2.2⟩
  · have := key ['h'] (by simp); exact ⟨this.1, this.2.1, by norm_num, this.2.2.1, this.2.2.2⟩
  · have := key ['m', 'i', 'n'] (by simp); exact ⟨this.1, this.2.1, by norm_num, this.2.2.1, this.2.2.2⟩
  · have := key ['m', 's'] (by simp); exact ⟨this.1, this.2.1, by norm_num, this.2.2.1, this.2.2.2⟩

/-- **C87 (reading)** Every clock value of the grammar, with or without a sign, is read completely. -/
theorem clock_read {w g : List Char} {minus : Bool} (hc : Clock t v) (hb : Brief t) (hw : White w) (hg : SignText g minus)
    (h : At p pre (w ++ (g ++ t))) :
    ∃ c q, ClockValue.parse p = .ok c q ∧ At q (pre ++ (w ++ (g ++ t))) [] ∧ Got t v minus c := by
  obtain ⟨c0, u0, ht, hd0⟩ := clock_head hc
  have hf0 := digit_facts hd0
  have hgh : ∀ x u, g ++ t = x :: u → isWhitespace x = false := by
    intro x u e
    rcases hg with ⟨rfl, _⟩ | ⟨c, w', rfl, h1, _⟩
    · rw [List.nil_append, ht] at e
      simp only [List.cons.injEq] at e
      rw [← e.1]; exact hf0.1
    · simp only [List.cons_append, List.cons.injEq] at e
      rw [← e.1]
      rcases h1 with rfl | rfl <;> decide
  obtain ⟨p1, e1, h1⟩ := Verif.Number.At.skip h (white_space hw) hgh
  have hs : ∃ p2, sign p1 = .ok minus p2 ∧ At p2 (pre ++ w ++ g) t := by
    rcases hg with ⟨rfl, rfl⟩ | ⟨c, w', rfl, h2, h3, rfl⟩
    · refine ⟨p1, ?_, by simpa using h1⟩
      refine sign_none (r := u0) (by rw [List.nil_append, ht] at h1; exact h1) hf0.2.2.2.2.2.2.2.2.2 ?_ ?_
      · exact hf0.2.2.2.2.2.2.2.1
      · exact hf0.2.2.2.2.2.2.2.2.1
    · obtain ⟨q, e, hq⟩ := sign_some (r := t) (by simpa using h1) h2 (white_space h3)
        (by intro x u e; rw [ht] at e; simp only [List.cons.injEq] at e; rw [← e.1]; exact hf0.1)
      exact ⟨q, e, by simpa using hq⟩
  obtain ⟨p2, e2, h2⟩ := hs
  have hparse : ∀ n p3, f32 p2 = .ok n p3 → ClockValue.parse p = afterCount (n.times minus) p3 := by
    intro n p3 e3
    rw [ClockValue.parse, Parser.skipWhitespace, e1]
    simp only [Res.bind, e2, e3]
  cases hc with
  | full h' m s f k1 k2 k3 k4 k5 =>
    obtain ⟨p3, e3, h3⟩ := f32_read (f := []) (r := ':' :: (m ++ ':' :: (s ++ f))) (by simpa using h2) k1 k2 (.inl rfl)
      (by intro c u e; simp only [List.cons.injEq] at e; rw [← e.1]; decide) (by
        rw [show ':' :: (m ++ ':' :: (s ++ f)) = (':' :: (m ++ [':'])) ++ (s ++ f) by simp]
        exact last_append (by simp [sixty_ne k4]) (number_last k4.1 k5))
    obtain ⟨p4, e4, h4⟩ := full_read ((norm false h' []).times minus) h3 k3.1 (sixty_ne k3) k4.1 (sixty_ne k4) k5
    refine ⟨_, p4, by rw [hparse _ _ e3]; exact e4, by simpa using h4, ?_⟩
    have b1 := hb h' k1 (infix_head _ _)
    rw [asInt_norm minus k1 b1]
    have := asInt_norm (d := m) false k3.1 (by rw [k3.2.1]; omega)
    simp only [Num.times, norm, Bool.bne_false, Bool.false_eq_true, if_false] at this
    simp only [norm, List.tail_nil, this]
    exact Got.full h' m s f minus k1 k2 k3 k4 k5
  | half m s f k3 k4 k5 =>
    obtain ⟨p3, e3, h3⟩ := f32_read (f := []) (r := ':' :: (s ++ f)) (by simpa using h2) k3.1 (sixty_ne k3) (.inl rfl)
      (by intro c u e; simp only [List.cons.injEq] at e; rw [← e.1]; decide) (by
        rw [show ':' :: (s ++ f) = [':'] ++ (s ++ f) by simp]
        exact last_append (by simp [sixty_ne k4]) (number_last k4.1 k5))
    obtain ⟨p4, e4, h4⟩ := half_read ((norm false m []).times minus) h3 k4.1 (sixty_ne k4) k5
    refine ⟨_, p4, by rw [hparse _ _ e3]; exact e4, by simpa using h4, ?_⟩
    rw [asInt_norm minus k3.1 (by rw [k3.2.1]; omega)]
    exact Got.half m s f minus k3 k4 k5
  | count d f u k k1 k2 k3 k4 =>
    obtain ⟨p3, e3, h3⟩ := f32_read (r := u) (by simpa using h2) k1 k2 k3 (unit_facts k4).1 (unit_facts k4).2.1
    obtain ⟨m, p4, e4, h4, h5⟩ := count_end ((norm false d f.tail).times minus) k4 h3
    exact ⟨_, p4, by rw [hparse _ _ e3]; exact e4, by simpa using h4, Got.count d f u k minus m k1 k2 k3 k4 h5⟩

theorem nat_not_neg (k : Nat) : decide ((k : Int) < 0) = false := by simp

theorem loose_of_full {h m s f s' f' : List Char} (k3 : Sixty m)
    (h1 : LooseNumber s' f') (h2 : decimal s' = decimal s) (h3 : tail f'.tail = tail f.tail) :
    Loose (pad (decide ((decimal h : Int) < 10)) (ListOf.intText (decimal h)) ++
      ':' :: (pad (decide ((decimal m : Int) < 10)) (ListOf.intText (decimal m)) ++ ':' :: (s' ++ f')))
      (3600 * decimal h + 60 * decimal m + decimal s + tail f.tail) := by
  obtain ⟨i1, i2, i3, _⟩ := int_text (decimal h)
  obtain ⟨j1, j2, j3, _⟩ := int_text (decimal m)
  have := Loose.full _ _ s' f' i1 i2 j1 j2 h1
  rw [i3, j3, h2, h3] at this
  exact this

theorem loose_of_half {m s f s' f' : List Char}
    (h1 : LooseNumber s' f') (h2 : decimal s' = decimal s) (h3 : tail f'.tail = tail f.tail) :
    Loose (pad (decide ((decimal m : Int) < 10)) (ListOf.intText (decimal m)) ++ ':' :: (s' ++ f'))
      (60 * decimal m + decimal s + tail f.tail) := by
  obtain ⟨j1, j2, j3, _⟩ := int_text (decimal m)
  have := Loose.half _ s' f' j1 j2 h1
  rw [j3, h2, h3] at this
  exact this

theorem times_norm (d f : List Char) (minus : Bool) : (norm false d f).times minus = norm minus d f := by
  simp [Num.times, norm]

/-- What is written of a clock value that was read without a minus sign. -/
theorem got_plus {c : ClockValue} (z : List Char) (h : Got t v false c) : Loose (c.text z) v ∧ c.isNegative = false := by
  generalize hm : false = minus at h
  cases h with
  | full h m s f minus k1 k2 k3 k4 k5 =>
    subst hm
    obtain ⟨s', f', e, h1, _, h2, h3, _⟩ := seconds_text z k4 k5
    refine ⟨?_, by simp [ClockValue.isNegative]⟩
    simp only [ClockValue.text, Bool.false_eq_true, if_false, e]
    exact loose_of_full k3 h1 h2 h3
  | half m s f minus k3 k4 k5 =>
    subst hm
    obtain ⟨s', f', e, h1, _, h2, h3, _⟩ := seconds_text z k4 k5
    refine ⟨?_, by simp [ClockValue.isNegative]⟩
    simp only [ClockValue.text, Bool.false_eq_true, if_false, e]
    exact loose_of_half h1 h2 h3
  | count d f u k minus m k1 k2 k3 k4 k5 =>
    subst hm
    obtain ⟨d', f', e, h1, h2, h3, _⟩ := num_text z k1 k3
    rw [times_norm]
    refine ⟨?_, rfl⟩
    simp only [ClockValue.text, e]
    have := Loose.count d' f' _ k h1 k5
    rw [h2, h3] at this
    exact this

/-- The first field of a clock value. -/
def firstField (t : List Char) : List Char := t.takeWhile (· != ':')

theorem first_field {d r : List Char} (h : Digits d) : firstField (d ++ ':' :: r) = d := by
  have : ∀ c ∈ d, (c != ':') = true := fun c hc => by simp [(digit_facts (h c hc)).2.2.2.2.2.2.1]
  rw [firstField, List.takeWhile_append_of_pos this]
  simp

theorem count_no_colon {d f u : List Char} {k : ℚ} (h1 : Digits d) (h2 : Fraction f) (h3 : (u, k) ∈ units) : ':' ∉ d ++ f ++ u := by
  intro h
  simp only [List.mem_append] at h
  rcases h with (h | h) | h
  · exact (digit_facts (h1 _ h)).2.2.2.2.2.2.1 rfl
  · rcases h2 with rfl | ⟨e, _, he, rfl⟩
    · simp at h
    · rcases List.mem_cons.mp h with h | h
      · simp at h
      · exact (digit_facts (he _ h)).2.2.2.2.2.2.1 rfl
  · exact (unit_facts h3).2.2.2.1 h

/-- What is written of a clock value that was read with a minus sign. -/
theorem got_minus {c : ClockValue} (z : List Char) (h : Got t v true c) :
    if ':' ∈ t then
      if decimal (firstField t) = 0 then Loose (c.text z) v ∧ c.isNegative = false
      else (∃ u, c.text z = '0' :: '-' :: u) ∧ c.isNegative = true
    else c.isNegative = true ∧ (v ≠ 0 → ∃ u, c.text z = '-' :: u ∧ Loose u v) ∧
      (v = 0 → ∃ u k, (u, k) ∈ units ∧ c.text z = z ++ u) := by
  generalize hm : true = minus at h
  cases h with
  | full h m s f minus k1 k2 k3 k4 k5 =>
    subst hm
    rw [if_pos (by simp), first_field k1]
    obtain ⟨s', f', e, h1, _, h2, h3, _⟩ := seconds_text z k4 k5
    split
    · rename_i h0
      refine ⟨?_, by simp [ClockValue.isNegative, h0]⟩
      have := loose_of_full (h := h) k3 h1 h2 h3
      simp only [ClockValue.text, if_true, e, h0, Int.natCast_zero, Int.neg_zero] at this ⊢
      exact this
    · rename_i h0
      refine ⟨?_, by simp [ClockValue.isNegative]; omega⟩
      simp only [ClockValue.text, if_true, neg_text _ h0]
      exact ⟨_, rfl⟩
  | half m s f minus k3 k4 k5 =>
    subst hm
    rw [if_pos (by simp), first_field k3.1]
    obtain ⟨s', f', e, h1, _, h2, h3, _⟩ := seconds_text z k4 k5
    split
    · rename_i h0
      refine ⟨?_, by simp [ClockValue.isNegative, h0]⟩
      have := loose_of_half (m := m) h1 h2 h3
      simp only [ClockValue.text, if_true, e, h0, Int.natCast_zero, Int.neg_zero] at this ⊢
      exact this
    · rename_i h0
      refine ⟨?_, by simp [ClockValue.isNegative]; omega⟩
      simp only [ClockValue.text, if_true, neg_text _ h0]
      exact ⟨_, rfl⟩
  | count d f u k minus m k1 k2 k3 k4 k5 =>
    subst hm
    rw [if_neg (count_no_colon k1 k3 k4), times_norm]
    obtain ⟨d', f', e, h1, h2, h3, _, h4, h5⟩ := num_text z k1 k3
    refine ⟨rfl, fun hv => ?_, fun hv => ?_⟩
    · have hn : decimal d ≠ 0 ∨ decimal f.tail ≠ 0 := by
        by_contra hc
        rw [not_or, not_not, not_not] at hc
        apply hv
        rw [hc.1, (tail_eq_zero _).mpr hc.2]
        simp
      refine ⟨d' ++ f' ++ (if m = .second then [] else m.text), by simp [ClockValue.text, h4 hn], ?_⟩
      have := Loose.count d' f' _ k h1 k5
      rw [h2, h3] at this
      exact this
    · have hz : decimal d = 0 ∧ decimal f.tail = 0 := by
        have hk := (unit_facts k4).2.2.1
        have h6 := tail_nonneg f.tail
        have h7 : (0 : ℚ) ≤ decimal d := by positivity
        have h8 : (decimal d : ℚ) + tail f.tail = 0 := by
          rcases mul_eq_zero.mp hv with h | h
          · exact h
          · exact absurd h hk.ne'
        refine ⟨?_, (tail_eq_zero _).mp (by linarith)⟩
        have : (decimal d : ℚ) = 0 := by linarith
        exact_mod_cast this
      exact ⟨_, k, k5, by simp only [ClockValue.text, h5 hz]⟩

/-! ## Durations -/

/-- At the end of the text, all of it is taken. -/
theorem done_at {α : Type} {T : Parser → Res α} {a : α} {c : Char} {u : List Char} (hc : isWhitespace c = false)
    (e : ∀ p, At p [] (c :: u) → ∃ q, T p = .ok a q ∧ At q (c :: u) []) :
    ∃ q, ListOf.parseString T (c :: u) = .ok a q := by
  have h : At (Parser.new (c :: u)) [] (c :: u) := ⟨rfl, rfl⟩
  obtain ⟨p0, e0, h0⟩ := Verif.Number.At.skip (t := []) h (f := isWhitespace) (by simp)
    (by intro x w e; simp only [List.cons.injEq] at e; rw [← e.1]; exact hc)
  obtain ⟨q, e1, h1⟩ := e p0 (by simpa using h0)
  obtain ⟨q1, e2, h2⟩ := Verif.Number.At.skip (t := []) h1 (f := isWhitespace) (by simp) (by intro x w e; simp at e)
  refine ⟨q1, ?_⟩
  rw [ListOf.parseString, Parser.skipWhitespace, e0]
  simp only [Res.bind, e1, Parser.skipWhitespace, e2, Parser.expectDone]
  rw [if_neg]
  rw [h2.1, h2.2]
  simp

/-- A duration of the grammar is read as a clock value. -/
theorem dur_read (hc : Clock t v) (hb : Brief t) :
    ∃ c q, ListOf.parseString Dur.parse t = .ok (.clock c) q ∧ Got t v false c := by
  obtain ⟨c0, u0, ht, hd0⟩ := clock_head hc
  have hf0 := digit_facts hd0
  have h0 : At (Parser.new t) [] ([] ++ ([] ++ t)) := ⟨rfl, rfl⟩
  obtain ⟨c, _, _, _, hg⟩ := clock_read (w := []) (g := []) (minus := false) hc hb (by intro x hx; simp at hx) (.inl ⟨rfl, rfl⟩) h0
  have key : ∀ p, At p [] (c0 :: u0) → ∃ q, Dur.parse p = .ok (.clock c) q ∧ At q (c0 :: u0) [] := by
    intro p hp
    have hp' : At p [] ([] ++ ([] ++ t)) := by rw [ht]; simpa using hp
    obtain ⟨c', q, e, hq, hg'⟩ := clock_read (w := []) (g := []) (minus := false) hc hb (by intro x hx; simp at hx) (.inl ⟨rfl, rfl⟩) hp'
    have hpn : p = Parser.new t := by
      refine At.same (pre := []) (rest := t) ⟨rfl, rfl⟩ ?_
      rw [ht]; exact hp
    have hcc : c' = c := by
      have h1 : ClockValue.parse (Parser.new t) = .ok c' q := by rw [← hpn]; exact e
      rename_i q0 e0 _
      rw [e0] at h1
      injection h1 with h1 _
      exact h1.symm
    subst hcc
    obtain ⟨q', hi, hq'⟩ := expectIdent_spec hp (ascii_head_cons.mpr hf0.2.2.2.2.2.2.2.2.2)
    simp only [hf0.2.1, Bool.false_eq_true, if_false] at hq'
    refine ⟨q, ?_, by rw [← ht]; simpa using hq⟩
    have : p.tryParse (fun p => p.expectIdent.bind fun ident q =>
        if ident = "media".toList then Res.ok Dur.media q
        else if ident = "indefinite".toList then .ok .indefinite q else .err q) = .err p := by
      refine tryParse_err (q := q') ?_ hi
      rw [hq'.1]
      rfl
    rw [Dur.parse, this]
    simp only [orElse, e, Res.bind]
  obtain ⟨q, e⟩ := done_at hf0.1 key
  exact ⟨c, q, by rw [ht]; exact e, hg⟩

/-- **C87 (durations)** A duration of the grammar is read, and the text written for it is a clock value with exactly the
same number of seconds — for readers that do not insist on the digits before a point. -/
theorem duration_kept (z : List Char) (hc : Clock t v) (hb : Brief t) :
    ∃ c q, ListOf.parseString Dur.parse t = .ok (.clock c) q ∧ Loose ((Dur.clock c).text z) v := by
  obtain ⟨c, q, e, hg⟩ := dur_read hc hb
  exact ⟨c, q, e, (got_plus z hg).1⟩

/-! ## Exactly when the written duration is in the grammar -/

/-- The field behind the last colon. -/
def lastField (t : List Char) : List Char := (t.reverse.takeWhile (· != ':')).reverse

/-- The digits before and behind the point of the last field. -/
def wholePart (t : List Char) : List Char := (lastField t).takeWhile Char.isDigit
def fractionPart (t : List Char) : List Char := ((lastField t).dropWhile Char.isDigit).tail.takeWhile Char.isDigit

/-- The number of the last field is between zero and one. -/
def Tiny (t : List Char) : Prop := decimal (wholePart t) = 0 ∧ decimal (fractionPart t) ≠ 0

theorem last_field_colon {a b : List Char} (h : ':' ∉ b) : lastField (a ++ ':' :: b) = b := by
  have : ∀ c ∈ b.reverse, (c != ':') = true := by
    intro c hc
    have : c ≠ ':' := fun e => h (by rw [← e]; exact List.mem_reverse.mp hc)
    simp [this]
  simp only [lastField, List.reverse_append, List.reverse_cons, List.append_assoc]
  rw [List.takeWhile_append_of_pos this]
  simp

theorem last_field_all {b : List Char} (h : ':' ∉ b) : lastField b = b := by
  have : ∀ c ∈ b.reverse, (c != ':') = true := by
    intro c hc
    have : c ≠ ':' := fun e => h (by rw [← e]; exact List.mem_reverse.mp hc)
    simp [this]
  rw [lastField, take_all this, List.reverse_reverse]

theorem parts_of {d f u : List Char} {k : ℚ} {t : List Char} (h1 : Digits d) (h2 : Fraction f) (h3 : (u, k) ∈ units)
    (h : lastField t = d ++ f ++ u) : wholePart t = d ∧ fractionPart t = f.tail := by
  have hu := (unit_facts h3).1
  have hux : u.takeWhile Char.isDigit = [] := by
    cases u with
    | nil => rfl
    | cons c w => simp [List.takeWhile_cons, (hu c w rfl).1]
  have hut : u.tail.takeWhile Char.isDigit = [] := by
    simp only [units, List.mem_cons, Prod.mk.injEq, List.not_mem_nil, or_false] at h3
    rcases h3 with ⟨rfl, _⟩ | ⟨rfl, _⟩ | ⟨rfl, _⟩ | ⟨rfl, _⟩ | ⟨rfl, _⟩ <;> decide
  have hud : u.dropWhile Char.isDigit = u := by
    cases u with
    | nil => rfl
    | cons c w => simp [List.dropWhile_cons, (hu c w rfl).1]
  rcases h2 with rfl | ⟨e, hne, he, rfl⟩
  · rw [wholePart, fractionPart, h, List.append_nil, List.takeWhile_append_of_pos h1, List.dropWhile_append_of_pos h1, hux, hud]
    simp [hut]
  · rw [wholePart, fractionPart, h, List.append_assoc, List.takeWhile_append_of_pos h1, List.dropWhile_append_of_pos h1]
    simp [not_digit_dot, List.takeWhile_append_of_pos he, hux]

theorem split_colon {a b a' b' : List Char} (h : ':' ∉ a) (h' : ':' ∉ a') (e : a ++ ':' :: b = a' ++ ':' :: b') : a = a' ∧ b = b' := by
  induction a generalizing a' with
  | nil =>
    cases a' with
    | nil => simpa using e
    | cons c a' => simp at e; exact absurd (by rw [e.1]; simp) h'
  | cons c a ih =>
    cases a' with
    | nil => simp at e; exact absurd (by rw [e.1]; simp) h
    | cons c' a' =>
      simp only [List.cons_append, List.cons.injEq] at e
      obtain ⟨h1, h2⟩ := ih (by simp at h; tauto) (by simp at h'; tauto) e.2
      exact ⟨by rw [e.1, h1], h2⟩

theorem digits_colon {d : List Char} (h : Digits d) : ':' ∉ d := fun hc => (digit_facts (h _ hc)).2.2.2.2.2.2.1 rfl

theorem number_colon {d f : List Char} (h : Digits d) (hf : Fraction f) : ':' ∉ d ++ f := by
  have := count_no_colon (k := 1) h hf (u := []) (by simp [units])
  simpa using this

/-- The seconds of a text of the grammar are two digits. -/
theorem clock_seconds {a s f : List Char} (h : Clock (a ++ ':' :: (s ++ f)) v) (hs : ':' ∉ s ++ f) :
    ∃ x y w, s ++ f = x :: y :: w ∧ y.isDigit = true := by
  have two : ∀ {s1 f1 : List Char}, Sixty s1 → ∃ x y w, s1 ++ f1 = x :: y :: w ∧ y.isDigit = true := by
    intro s1 f1 h1
    match s1, h1.2.1 with
    | [x, y], _ => exact ⟨x, y, f1, rfl, h1.1 y (by simp)⟩
  have hl := last_field_colon (a := a) hs
  generalize hx : a ++ ':' :: (s ++ f) = x at h hl
  cases h with
  | full h1 m1 s1 f1 k1 k2 k3 k4 k5 =>
    have : lastField (h1 ++ ':' :: (m1 ++ ':' :: (s1 ++ f1))) = s1 ++ f1 := by
      have := last_field_colon (a := h1 ++ ':' :: m1) (number_colon k4.1 k5)
      simpa using this
    rw [this] at hl
    rw [← hl]
    exact two k4
  | half m1 s1 f1 k3 k4 k5 =>
    rw [last_field_colon (number_colon k4.1 k5)] at hl
    rw [← hl]
    exact two k4
  | count d f1 u k k1 k2 k3 k4 =>
    exact absurd (by rw [← hx]; simp) (count_no_colon k1 k3 k4)

theorem full_strict {h m s f : List Char} (z : List Char) (k1 : Digits h) (k3 : Sixty m) (k4 : Sixty s) (k5 : Fraction f) :
    Clock ((ClockValue.full (decimal h) (decimal m) (norm false s f.tail)).text z)
      (3600 * decimal h + 60 * decimal m + decimal s + tail f.tail) ↔ ¬ Tiny (h ++ ':' :: (m ++ ':' :: (s ++ f))) := by
  have unit1 : (([] : List Char), (1 : ℚ)) ∈ units := by simp [units]
  have hl : lastField (h ++ ':' :: (m ++ ':' :: (s ++ f))) = s ++ f ++ [] := by
    have := last_field_colon (a := h ++ ':' :: m) (number_colon k4.1 k5)
    simpa using this
  obtain ⟨p1, p2⟩ := parts_of k4.1 k5 unit1 hl
  obtain ⟨s', f', e, h1, h1', h2, h3, h4⟩ := seconds_text z k4 k5
  obtain ⟨i1, i2, i3, _⟩ := int_text (decimal h)
  obtain ⟨j1, j2, j3, j4⟩ := int_text (decimal m)
  rw [Tiny, p1, p2]
  simp only [ClockValue.text, e]
  constructor
  · intro hC ht
    rw [if_pos ht] at h4
    obtain ⟨x, y, w, hxy, hy⟩ := clock_seconds (s := s') (f := f')
      (a := pad (decide ((decimal h : Int) < 10)) (ListOf.intText (decimal h)) ++ ':' :: pad (decide ((decimal m : Int) < 10)) (ListOf.intText (decimal m)))
      (by simpa using hC) (number_colon h1.1 h1')
    have hf' : f' ≠ [] := by
      rintro rfl
      apply ht.2
      rw [← tail_eq_zero, ← h3]
      simp [tail, decimal]
    rcases h1' with rfl | ⟨d, _, _, rfl⟩
    · exact hf' rfl
    · subst h4
      simp at hxy
      rw [← hxy.2.1] at hy
      simp [not_digit_dot] at hy
  · intro ht
    rw [if_neg ht] at h4
    subst h4
    have := Clock.full _ _ s' f' i1 i2 ⟨j1, j4 (by have := k3.2.2; omega), by rw [j3]; exact k3.2.2⟩ k4 h1'
    rw [i3, j3, h3] at this
    exact this

theorem half_strict {m s f : List Char} (z : List Char) (k3 : Sixty m) (k4 : Sixty s) (k5 : Fraction f) :
    Clock ((ClockValue.half (decimal m) (norm false s f.tail)).text z)
      (60 * decimal m + decimal s + tail f.tail) ↔ ¬ Tiny (m ++ ':' :: (s ++ f)) := by
  have unit1 : (([] : List Char), (1 : ℚ)) ∈ units := by simp [units]
  have hl : lastField (m ++ ':' :: (s ++ f)) = s ++ f ++ [] := by
    rw [List.append_nil]
    exact last_field_colon (number_colon k4.1 k5)
  obtain ⟨p1, p2⟩ := parts_of k4.1 k5 unit1 hl
  obtain ⟨s', f', e, h1, h1', h2, h3, h4⟩ := seconds_text z k4 k5
  obtain ⟨j1, j2, j3, j4⟩ := int_text (decimal m)
  rw [Tiny, p1, p2]
  simp only [ClockValue.text, e]
  constructor
  · intro hC ht
    rw [if_pos ht] at h4
    obtain ⟨x, y, w, hxy, hy⟩ := clock_seconds hC (number_colon h1.1 h1')
    have hf' : f' ≠ [] := by
      rintro rfl
      apply ht.2
      rw [← tail_eq_zero, ← h3]
      simp [tail, decimal]
    rcases h1' with rfl | ⟨d, _, _, rfl⟩
    · exact hf' rfl
    · subst h4
      simp at hxy
      rw [← hxy.2.1] at hy
      simp [not_digit_dot] at hy
  · intro ht
    rw [if_neg ht] at h4
    subst h4
    have := Clock.half _ s' f' ⟨j1, j4 (by have := k3.2.2; omega), by rw [j3]; exact k3.2.2⟩ k4 h1'
    rw [j3, h3] at this
    exact this

theorem count_strict {d f u : List Char} {k : ℚ} {m : Metric} (z : List Char) (k1 : Digits d) (k3 : Fraction f)
    (k4 : (u, k) ∈ units) (k5 : ((if m = .second then ([] : List Char) else m.text), k) ∈ units) :
    Clock ((ClockValue.count (norm false d f.tail) m).text z) ((decimal d + tail f.tail) * k) ↔ ¬ Tiny (d ++ f ++ u) := by
  obtain ⟨p1, p2⟩ := parts_of k1 k3 k4 (last_field_all (count_no_colon k1 k3 k4))
  obtain ⟨d', f', e, h1, h2, h3, h4, _⟩ := num_text z k1 k3
  rw [Tiny, p1, p2, ← h4]
  simp only [ClockValue.text, e]
  constructor
  · rintro hC rfl
    obtain ⟨c, w, hw, hcd⟩ := clock_head hC
    rcases h1.2.1 with rfl | ⟨x, _, _, rfl⟩
    · rcases h1.2.2 with h | h <;> exact h rfl
    · simp at hw
      rw [← hw.1] at hcd
      simp [not_digit_dot] at hcd
  · intro hne
    have := Clock.count d' f' _ k h1.1 hne h1.2.1 k5
    rw [h2, h3] at this
    exact this

/-- **C87 (exactly when, durations)** What is written for a duration of the grammar is in the grammar again, with the same
number of seconds, if and only if the last number of the duration is not between zero and one. -/
theorem duration_strict_iff (z : List Char) (hc : Clock t v) (hb : Brief t) :
    ∃ c q, ListOf.parseString Dur.parse t = .ok (.clock c) q ∧ (Clock ((Dur.clock c).text z) v ↔ ¬ Tiny t) := by
  obtain ⟨c, q, e, hg⟩ := dur_read hc hb
  refine ⟨c, q, e, ?_⟩
  clear e hc hb
  generalize hm : false = minus at hg
  cases hg with
  | full h m s f minus k1 k2 k3 k4 k5 =>
    subst hm
    exact full_strict z k1 k3 k4 k5
  | half m s f minus k3 k4 k5 =>
    subst hm
    exact half_strict z k3 k4 k5
  | count d f u k minus m k1 k2 k3 k4 k5 =>
    subst hm
    rw [times_norm]
    exact count_strict z k1 k3 k4 k5

/-! ## Offsets -/

theorem loose_nonneg (h : Loose t v) : 0 ≤ v := by
  cases h with
  | full h m s f _ _ _ _ _ => have := tail_nonneg f.tail; positivity
  | half m s f _ _ _ => have := tail_nonneg f.tail; positivity
  | count d f u k _ hu => have := tail_nonneg f.tail; have := (unit_facts hu).2.2.1; positivity

theorem number_minus {d f : List Char} (h : Digits d) (hf : Fraction f) : '-' ∉ d ++ f := by
  intro hc
  rcases List.mem_append.mp hc with hc | hc
  · exact (digit_facts (h _ hc)).2.2.2.2.2.2.2.2.1 rfl
  · rcases hf with rfl | ⟨e, _, he, rfl⟩
    · simp at hc
    · rcases List.mem_cons.mp hc with hc | hc
      · simp at hc
      · exact (digit_facts (he _ hc)).2.2.2.2.2.2.2.2.1 rfl

theorem loose_minus (h : Loose t v) : '-' ∉ t := by
  cases h with
  | full h m s f h1 _ h3 _ h5 =>
    have a1 := number_minus h1 (.inl rfl)
    have a2 := number_minus h3 (.inl rfl)
    have a3 := number_minus h5.1 h5.2.1
    simp at a1 a2 a3 ⊢
    tauto
  | half m s f h3 _ h5 =>
    have a2 := number_minus h3 (.inl rfl)
    have a3 := number_minus h5.1 h5.2.1
    simp at a2 a3 ⊢
    tauto
  | count d f u k h1 hu =>
    have a3 := number_minus h1.1 h1.2.1
    have := (unit_facts hu).2.2.2.2
    simp at a3 ⊢
    tauto

theorem loose_head (h : Loose t v) : ∃ c w, t = c :: w ∧ (c.isDigit = true ∨ c = '.') := by
  have num : ∀ {d f : List Char} (r : List Char), LooseNumber d f → ∃ c w, d ++ f ++ r = c :: w ∧ (c.isDigit = true ∨ c = '.') := by
    intro d f r h
    cases d with
    | nil =>
      rcases h.2.1 with rfl | ⟨e, _, _, rfl⟩
      · rcases h.2.2 with h | h <;> exact absurd rfl h
      · exact ⟨'.', _, rfl, .inr rfl⟩
    | cons c d => exact ⟨c, _, rfl, .inl (h.1 c (by simp))⟩
  cases h with
  | full h m s f h1 h2 _ _ _ =>
    obtain ⟨c, w, e, hc⟩ := num (':' :: (m ++ ':' :: (s ++ f))) (d := h) (f := []) ⟨h1, .inl rfl, .inl h2⟩
    exact ⟨c, w, by simpa using e, hc⟩
  | half m s f h1 h2 _ =>
    obtain ⟨c, w, e, hc⟩ := num (':' :: (s ++ f)) (d := m) (f := []) ⟨h1, .inl rfl, .inl h2⟩
    exact ⟨c, w, by simpa using e, hc⟩
  | count d f u k h1 hu => exact num u h1

theorem signed_head {C : List Char → ℚ → Prop} (h : Signed C t v) : ∃ w, t = '+' :: w ∨ t = '-' :: w := by
  cases h with
  | plus w t v _ _ => exact ⟨_, .inl rfl⟩
  | minus w t v _ _ => exact ⟨_, .inr rfl⟩

theorem clock_first (h : Clock t v) (hc : ':' ∈ t) (hv : v = 0) : decimal (firstField t) = 0 := by
  cases h with
  | full h m s f h1 _ _ _ _ =>
    rw [first_field h1]
    have := tail_nonneg f.tail
    have h2 : (0 : ℚ) ≤ decimal h := by positivity
    have h3 : (0 : ℚ) ≤ decimal m := by positivity
    have h4 : (0 : ℚ) ≤ decimal s := by positivity
    have : (decimal h : ℚ) = 0 := by linarith
    exact_mod_cast this
  | half m s f h1 _ _ =>
    rw [first_field h1.1]
    have := tail_nonneg f.tail
    have h3 : (0 : ℚ) ≤ decimal m := by positivity
    have h4 : (0 : ℚ) ≤ decimal s := by positivity
    have : (decimal m : ℚ) = 0 := by linarith
    exact_mod_cast this
  | count d f u k h1 _ h3 h4 => exact absurd hc (count_no_colon h1 h3 h4)

theorem loose_zero {u : List Char} {k : ℚ} (h : (u, k) ∈ units) : Loose ('0' :: u) 0 := by
  have := Loose.count ['0'] [] u k ⟨by unfold Digits; decide, .inl rfl, .inl (by simp)⟩ h
  simpa [decimal, tail] using this

theorem offset_zero {u z : List Char} {k : ℚ} (hz : z = "0".toList ∨ z = "-0".toList) (h : (u, k) ∈ units) : Offset Loose (z ++ u) 0 := by
  rcases hz with rfl | rfl
  · exact .bare _ _ (loose_zero h)
  · have := Signed.minus (C := Loose) [] _ 0 (by intro c hc; simp at hc) (loose_zero h)
    rw [neg_zero] at this
    exact .signed _ _ this

theorem offset_got_iff {z : List Char} {minus : Bool} {c : ClockValue} (hz : z = "0".toList ∨ z = "-0".toList) (hc : Clock t v)
    (hgot : Got t v minus c) : Offset Loose (c.text z) (if minus then -v else v) ↔ ¬ (minus = true ∧ ':' ∈ t ∧ v ≠ 0) := by
  cases minus with
  | false =>
    have := (got_plus z hgot).1
    simp only [Bool.false_eq_true, if_false, false_and, not_false_eq_true, iff_true]
    exact .bare _ _ this
  | true =>
    have hm := got_minus z hgot
    simp only [if_true, true_and]
    by_cases hcol : ':' ∈ t
    · rw [if_pos hcol] at hm
      by_cases hv : v = 0
      · rw [if_pos (clock_first hc hcol hv)] at hm
        simp only [hv, neg_zero, ne_eq, not_true_eq_false, and_false, not_false_eq_true, iff_true]
        rw [hv] at hm
        exact .bare _ _ hm.1
      · refine iff_of_false ?_ (by simp [hcol, hv])
        intro ho
        split at hm
        · obtain ⟨d, w, e, hd⟩ := loose_head hm.1
          have hpos := loose_nonneg hm.1
          cases ho with
          | bare h =>
            have := loose_nonneg h
            exact hv (by linarith)
          | signed h =>
            obtain ⟨w', h | h⟩ := signed_head h
            · rw [h] at e
              simp only [List.cons.injEq] at e
              rw [← e.1] at hd
              simp [Char.isDigit] at hd
            · rw [h] at e
              simp only [List.cons.injEq] at e
              rw [← e.1] at hd
              simp [Char.isDigit] at hd
        · obtain ⟨⟨u, e⟩, _⟩ := hm
          cases ho with
          | bare h => exact loose_minus h (by rw [e]; simp)
          | signed h =>
            obtain ⟨w', h | h⟩ := signed_head h <;> rw [e] at h <;> simp at h
    · rw [if_neg hcol] at hm
      simp only [hcol, false_and, not_false_eq_true, iff_true]
      by_cases hv : v = 0
      · obtain ⟨u, k, hu, e⟩ := hm.2.2 hv
        rw [e, hv, neg_zero]
        exact offset_zero hz hu
      · obtain ⟨u, e, hl⟩ := hm.2.1 hv
        rw [e]
        exact .signed _ _ (.minus [] u v (by intro c hc; simp at hc) hl)

/-- **C87 (exactly when, offsets)** An offset of the grammar is read; what is written for it is an offset of the same length
and direction if and only if it is not the case that it is negative, has a colon and is not zero. -/
theorem offset_kept_iff {g z : List Char} {minus : Bool} (hz : z = "0".toList ∨ z = "-0".toList) (hc : Clock t v) (hb : Brief t)
    (hg : SignText g minus) : ∃ c q, ListOf.parseString ClockValue.parse (g ++ t) = .ok c q ∧
      (Offset Loose (c.text z) (if minus then -v else v) ↔ ¬ (minus = true ∧ ':' ∈ t ∧ v ≠ 0)) := by
  obtain ⟨c0, u0, ht, hd0⟩ := clock_head hc
  have hf0 := digit_facts hd0
  have h0 : At (Parser.new (g ++ t)) [] ([] ++ (g ++ t)) := ⟨rfl, rfl⟩
  obtain ⟨c, q0, e0, h1, hgot⟩ := clock_read (w := []) hc hb (by intro x hx; simp at hx) hg h0
  obtain ⟨x, y, hxy, hx⟩ : ∃ x y, g ++ t = x :: y ∧ isWhitespace x = false := by
    rcases hg with ⟨rfl, _⟩ | ⟨c, w', rfl, h2, _⟩
    · exact ⟨c0, u0, ht, hf0.1⟩
    · exact ⟨c, w' ++ t, rfl, by rcases h2 with rfl | rfl <;> decide⟩
  have hq : ∃ q, ListOf.parseString ClockValue.parse (g ++ t) = .ok c q := by
    rw [hxy]
    refine done_at hx ?_
    intro p hp
    have hpn : p = Parser.new (g ++ t) := At.same (pre := []) (rest := g ++ t) ⟨rfl, rfl⟩ (by rw [hxy]; exact hp)
    exact ⟨q0, by rw [hpn]; exact e0, by rw [← hxy]; simpa using h1⟩
  obtain ⟨q, hq⟩ := hq
  exact ⟨c, q, hq, offset_got_iff hz hc hgot⟩

end Verif.Clock
