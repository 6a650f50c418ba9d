import Verif.Clock.Model
import Verif.Clock.Spec
import Verif.Path.FormatLemmas

/-! # Reading of numbers, signs and units -/

namespace Verif.Clock

open Verif.Parse Verif.Number

variable {p q : Parser} {pre rest r : List Char}

theorem At.same (h : At p pre rest) (h' : At q pre rest) : q = p := by
  obtain ⟨a, b⟩ := p
  obtain ⟨a', b'⟩ := q
  simp only [At] at h h'
  rw [h.1, h.2, h'.1, h'.2]

theorem take_all {f : Char → Bool} {l : List Char} (h : ∀ x ∈ l, f x = true) : l.takeWhile f = l := by
  induction l with
  | nil => rfl
  | cons c l ih =>
    rw [List.takeWhile_cons, h c (by simp), if_pos rfl, ih fun x hx => h x (by simp [hx])]

theorem drop_all {f : Char → Bool} {l : List Char} (h : ∀ x ∈ l, f x = true) : l.dropWhile f = [] := by
  induction l with
  | nil => rfl
  | cons c l ih =>
    rw [List.dropWhile_cons, h c (by simp), if_pos rfl, ih fun x hx => h x (by simp [hx])]

/-- After an error the parser is where it was. -/
theorem tryParse_err {α : Type} {f : Parser → Res α} (e : f p = .err q) (hi : q.input = p.input) :
    p.tryParse f = .err p := by
  rw [Parser.tryParse, e]
  simp only [Res.err.injEq]
  obtain ⟨a, b⟩ := p
  simp only at hi
  rw [hi]

theorem tryParse_ok {α : Type} {f : Parser → Res α} {a : α} (e : f p = .ok a q) : p.tryParse f = .ok a q := by
  rw [Parser.tryParse, e]

theorem alpha_size {c : Char} (h : c.toNat < 128) : c.utf8Size = 1 := by
  have : c.val ≤ 0x7f := by
    rw [UInt32.le_iff_toNat_le]
    simp only [Char.toNat] at h
    exact Nat.le_of_lt_succ h
  rw [Char.utf8Size]
  simp [this]

theorem digit_range {c : Char} (h : c.isDigit = true) : 48 ≤ c.toNat ∧ c.toNat ≤ 57 := by
  simp only [Char.isDigit, ge_iff_le, Bool.and_eq_true, decide_eq_true_eq, UInt32.le_iff_toNat_le] at h
  exact h

/-- What is known about ASCII characters. -/
theorem ascii_digit : ∀ n < 128, (Char.ofNat n).isDigit = true → isWhitespace (Char.ofNat n) = false ∧
    isNameStartChar (Char.ofNat n) = false ∧ isNameChar (Char.ofNat n) = true ∧ isSign (Char.ofNat n) = false ∧
    isE (Char.ofNat n) = false ∧ Char.ofNat n ≠ '.' ∧ Char.ofNat n ≠ ':' ∧ Char.ofNat n ≠ '+' ∧ Char.ofNat n ≠ '-' := by
  decide +kernel

theorem digit_facts {c : Char} (h : c.isDigit = true) : isWhitespace c = false ∧ isNameStartChar c = false ∧
    isNameChar c = true ∧ isSign c = false ∧ isE c = false ∧ c ≠ '.' ∧ c ≠ ':' ∧ c ≠ '+' ∧ c ≠ '-' ∧ c.utf8Size = 1 := by
  have hr := digit_range h
  have := ascii_digit c.toNat (by omega)
  rw [Char.ofNat_toNat] at this
  obtain ⟨h1, h2, h3, h4, h5, h6, h7, h8, h9⟩ := this h
  exact ⟨h1, h2, h3, h4, h5, h6, h7, h8, h9, alpha_size (by omega)⟩

theorem fraction_number {d f : List Char} (hd : Digits d) (hne : d ≠ []) (hf : Fraction f) : IsNumber (d ++ f) := by
  rcases hf with rfl | ⟨e, he, hde, rfl⟩
  · exact ⟨[], d, [], [], by simp, .inl rfl, hd, .inl ⟨rfl, hne⟩, .inl rfl⟩
  · exact ⟨[], d, '.' :: e, [], by simp, .inl rfl, hd, .inr ⟨e, rfl, hde, .inl hne⟩, .inl rfl⟩

/-- The value of digits and a fraction. -/
theorem numOf_plain {d f : List Char} (hd : Digits d) (hne : d ≠ []) (hf : Fraction f) :
    numOf (d ++ f) = norm false d f.tail := by
  obtain ⟨c, d', rfl⟩ := List.exists_cons_of_ne_nil hne
  have hc := digit_facts (hd c (by simp))
  have hs : splitSign (c :: d' ++ f) = (false, c :: d' ++ f) := by
    simp only [List.cons_append, splitSign]
    split
    · rename_i e; simp only [List.cons.injEq] at e; exact absurd e.1 hc.2.2.2.2.2.2.2.2.1
    · rename_i e; simp only [List.cons.injEq] at e; exact absurd e.1 hc.2.2.2.2.2.2.2.1
    · rfl
  have hE : ∀ x ∈ c :: d' ++ f, (!isE x) = true := by
    intro x hx
    rcases List.mem_append.mp hx with hx | hx
    · simp [(digit_facts (hd x hx)).2.2.2.2.1]
    · rcases hf with rfl | ⟨e, _, he, rfl⟩
      · simp at hx
      · rcases List.mem_cons.mp hx with rfl | hx
        · decide
        · simp [(digit_facts (he x hx)).2.2.2.2.1]
  have h1 : (c :: d' ++ f).takeWhile (fun c => !isE c) = c :: d' ++ f := by
    exact take_all hE
  have h2 : (c :: d' ++ f).dropWhile (fun c => !isE c) = [] := by
    exact drop_all hE
  have h3 : f.takeWhile Char.isDigit = [] ∧ (f.dropWhile Char.isDigit) = f := by
    rcases hf with rfl | ⟨e, _, he, rfl⟩
    · simp
    · simp [not_digit_dot]
  have h4 : (c :: d' ++ f).takeWhile Char.isDigit = c :: d' := by
    rw [List.takeWhile_append_of_pos hd, h3.1]; simp
  have h5 : (c :: d' ++ f).dropWhile Char.isDigit = f := by
    rw [List.dropWhile_append_of_pos hd, h3.2]
  have h6 : (rustInt []).getD 0 = 0 := rfl
  simp only [numOf, hs, h1, h2, h4, h5, List.drop_nil, h6, shift, Int.natAbs_zero, up]
  simp

/-- **Reading** of digits and a fraction, in front of a text that does not go on with a digit, a point or `e`. -/
theorem f32_read {d f : List Char} (h : At p pre (d ++ f ++ r)) (hd : Digits d) (hne : d ≠ []) (hf : Fraction f)
    (hr : ∀ c u, r = c :: u → c.isDigit = false ∧ c ≠ '.' ∧ isE c = false) (hl : r.getLast? ≠ some '.') :
    ∃ q, f32 p = .ok (norm false d f.tail) q ∧ At q (pre ++ (d ++ f)) r := by
  have hn := fraction_number hd hne hf
  have hL : Longest (d ++ f ++ r) (d ++ f) := by
    refine longest_of hn (fun c u e => (hr c u e).1) (fun _ u e => (hr '.' u e).2.1 rfl) ?_
    intro _ e y u hu he
    rw [(hr e (y :: u) hu).2.2] at he
    simp at he
  have hw : (d ++ f ++ r).dropWhile isWhitespace = d ++ f ++ r := by
    obtain ⟨c, d', rfl⟩ := List.exists_cons_of_ne_nil hne
    simp [List.dropWhile_cons, (digit_facts (hd c (by simp))).1]
  have hE : ∀ e ∈ d ++ f, isE e = false := by
    intro x hx
    rcases List.mem_append.mp hx with hx | hx
    · exact (digit_facts (hd x hx)).2.2.2.2.1
    · rcases hf with rfl | ⟨e, _, he, rfl⟩
      · simp at hx
      · rcases List.mem_cons.mp hx with rfl | hx
        · decide
        · exact (digit_facts (he x hx)).2.2.2.2.1
  obtain ⟨q, hq⟩ := f64_parsed (finite := fun _ => true) h hw hL hl rfl (by
    rintro (⟨h1, h2⟩ | ⟨_, e, u, h1, h2, _⟩)
    · cases r with
      | nil => simp at h1
      | cons c u =>
        simp only [List.head?_cons, Option.some.injEq] at h1
        exact (hr c u rfl).2.1 h1
    · rw [(hr e u h1).2.2] at h2
      simp at h2)
  obtain ⟨r', e1, _, _, e4⟩ := f64_sound h hq
  have hr' : r' = r := by
    rw [hw] at e1
    exact (List.append_cancel_left e1).symm
  subst hr'
  have hw' : (d ++ f ++ r').takeWhile isWhitespace = [] := by
    obtain ⟨c, d', rfl⟩ := List.exists_cons_of_ne_nil hne
    simp [List.takeWhile_cons, (digit_facts (hd c (by simp))).1]
  refine ⟨q, ?_, ?_⟩
  · rw [f32, hq]
    simp only [Res.bind, numOf_plain hd hne hf]
  · rw [hw'] at e4
    simpa using e4

/-- The optional sign, read in front of a digit. -/
theorem sign_none {c : Char} (h : At p pre (c :: r)) (hs : c.utf8Size = 1) (h1 : c ≠ '+') (h2 : c ≠ '-') :
    sign p = .ok false p := by
  have ha := h.advance hs
  obtain ⟨q, e, _, hi⟩ := ha.skipMatches_at isWhitespace
  have : p.tryParse (fun p => p.read.bind fun c q => q.skipWhitespace.bind fun _ q =>
      if c = '+' then .ok false q else if c = '-' then .ok true q else .err q) = .err p := by
    refine tryParse_err (q := q) ?_ ?_
    · rw [h.read]
      simp only [Res.bind, Parser.skipWhitespace, e, if_neg h1, if_neg h2]
    · rw [hi]; rfl
  rw [sign, this]
  rfl

theorem sign_some {c : Char} {w : List Char} (h : At p pre (c :: (w ++ r))) (hc : c = '+' ∨ c = '-')
    (hw : ∀ x ∈ w, isWhitespace x = true) (hr : ∀ x u, r = x :: u → isWhitespace x = false) :
    ∃ q, sign p = .ok (c == '-') q ∧ At q (pre ++ c :: w) r := by
  have hs : c.utf8Size = 1 := by rcases hc with rfl | rfl <;> decide
  have ha := h.advance hs
  obtain ⟨q, e, hq⟩ := Verif.Number.At.skip ha hw hr
  refine ⟨q, ?_, by simpa using hq⟩
  have : p.tryParse (fun p => p.read.bind fun c q => q.skipWhitespace.bind fun _ q =>
      if c = '+' then .ok false q else if c = '-' then .ok true q else .err q) = .ok (c == '-') q := by
    refine tryParse_ok ?_
    rw [h.read]
    simp only [Res.bind, Parser.skipWhitespace, e]
    rcases hc with rfl | rfl <;> simp
  rw [sign, this]
  rfl

theorem white_space {w : List Char} (h : White w) : ∀ x ∈ w, isWhitespace x = true := by
  intro x hx
  rcases h x hx with rfl | rfl | rfl | rfl <;> decide

/-- `expect_char` in front of the character. -/
theorem expectChar_ok {c : Char} (h : At p pre (c :: r)) (hs : c.utf8Size = 1) :
    ∃ q, p.expectChar c = .ok () q ∧ At q (pre ++ [c]) r := by
  refine ⟨p.advance, ?_, h.advance hs⟩
  rw [Parser.expectChar, h.read]
  simp [Res.bind]

theorem expectChar_err {c : Char} (h : At p pre r) (hr : ∀ u, r ≠ c :: u) (ha : AsciiHead r) :
    ∃ q, p.expectChar c = .err q ∧ q.input = p.input := by
  rw [Parser.expectChar, h.read]
  cases r with
  | nil => exact ⟨p, rfl, rfl⟩
  | cons d u =>
    refine ⟨p.advance, ?_, rfl⟩
    have : d ≠ c := fun e => hr u (by rw [e])
    simp [Res.bind, this]

/-- No unit begins with a colon. -/
theorem metric_colon (x : List Char) : ∃ q, ListOf.parseString Metric.parse (':' :: x) = .err q := by
  have h : At (Parser.new (':' :: x)) [] (':' :: x) := ⟨rfl, rfl⟩
  have hc : isWhitespace ':' = false := by decide
  have hn : isNameStartChar ':' = true := by decide
  obtain ⟨p0, e0, h0⟩ := Verif.Number.At.skip (t := []) h (f := isWhitespace) (by simp)
    (by intro c u e; simp only [List.cons.injEq] at e; rw [← e.1]; exact hc)
  obtain ⟨q, hi, e1, _⟩ : ∃ q, q.input = p0.input ∧ p0.expectIdent = .ok (':' :: x.takeWhile isNameChar) q ∧ True := by
    obtain ⟨q, hi, hq⟩ := expectIdent_spec h0 (ascii_head_cons.mpr (by decide))
    simp only [hn, if_true] at hq
    exact ⟨q, hi, hq.1, trivial⟩
  have hm : metricOf (':' :: x.takeWhile isNameChar) = none := by simp [metricOf]
  have e2 : Metric.parse p0 = .ok .second p0 := by
    rw [Metric.parse, tryParse_err (q := q) _ hi]
    rw [e1]
    simp only [Res.bind, hm]
  refine ⟨p0, ?_⟩
  rw [ListOf.parseString, Parser.skipWhitespace, e0]
  simp only [Res.bind, e2]
  obtain ⟨p1, e3, h3⟩ := Verif.Number.At.skip (t := []) h0 (f := isWhitespace) (by simp)
    (by intro c u e; simp only [List.cons.injEq] at e; rw [← e.1]; exact hc)
  rw [Parser.skipWhitespace, e3]
  have h3' : p1 = p0 := At.same h0 (by simpa using h3)
  subst h3'
  simp only [Parser.expectDone]
  rw [if_pos]
  rw [h0.1, h0.2]
  have : width ([] ++ []) < width (':' :: x) := by
    rw [width_cons]
    have : (':' : Char).utf8Size = 1 := by decide
    simp only [List.append_nil, width_nil]
    omega
  simpa using this

/-- The units, read at the end of the text. -/
theorem count_end (n : Num) {u : List Char} {k : ℚ} (hu : (u, k) ∈ units) (h : At p pre u) :
    ∃ m q, afterCount n p = .ok (.count n m) q ∧ At q (pre ++ u) [] ∧
      ((if m = .second then ([] : List Char) else m.text), k) ∈ units := by
  have key : ∀ (c : Char) (v : List Char) (m : Metric), c.utf8Size = 1 → isNameStartChar c = true →
      (∀ x ∈ v, isNameChar x = true) → (∃ q, ListOf.parseString Metric.parse (c :: v) = .ok m q) → At p pre (c :: v) →
      ∃ q, afterCount n p = .ok (.count n m) q ∧ At q (pre ++ c :: v) [] := by
    intro c v m h1 h2 h3 h4 h5
    obtain ⟨q, hi, hq⟩ := expectIdent_spec h5 (ascii_head_cons.mpr h1)
    simp only [h2, if_true, take_all h3, drop_all h3] at hq
    obtain ⟨q', h4⟩ := h4
    refine ⟨q, ?_, hq.2⟩
    have : p.tryParse (fun p => p.expectIdent.bind fun ident p =>
        (ListOf.within (ListOf.parseString Metric.parse ident) p).bind fun m p => Res.ok (ClockValue.count n m) p) =
        .ok (.count n m) q := by
      refine tryParse_ok ?_
      rw [hq.1]
      simp only [Res.bind, h4, ListOf.within]
    rw [afterCount, this]
    rfl
  simp only [units, List.mem_cons, Prod.mk.injEq, List.not_mem_nil, or_false] at hu
  rcases hu with ⟨rfl, rfl⟩ | ⟨rfl, rfl⟩ | ⟨rfl, rfl⟩ | ⟨rfl, rfl⟩ | ⟨rfl, rfl⟩
  · refine ⟨.second, p, ?_, by simpa using h, by simp [units]⟩
    obtain ⟨q, hi, hq⟩ := expectIdent_spec h (by intro c t e; simp at e)
    have h1 : p.tryParse (fun p => p.expectIdent.bind fun ident p =>
        (ListOf.within (ListOf.parseString Metric.parse ident) p).bind fun m p => Res.ok (ClockValue.count n m) p) =
        .err p := by
      refine tryParse_err (q := q) ?_ hi
      rw [hq.1]
      rfl
    obtain ⟨q', e, hi'⟩ := expectChar_err (c := ':') h (by simp) (by intro c t e; simp at e)
    have h2 : p.tryParse (colons n) = .err p := by
      refine tryParse_err (q := q') ?_ hi'
      rw [colons, e]
      rfl
    rw [afterCount, h1]
    simp only [orElse, h2]
  · obtain ⟨q, e, hq⟩ := key 's' [] .second (by decide) (by decide) (by simp) ⟨⟨"s".toList, 1⟩, by decide +kernel⟩ h
    exact ⟨_, q, e, hq, by simp [units]⟩
  · obtain ⟨q, e, hq⟩ := key 'h' [] .hour (by decide) (by decide) (by simp) ⟨⟨"h".toList, 1⟩, by decide +kernel⟩ h
    exact ⟨_, q, e, hq, by simp [units, Metric.text]⟩
  · obtain ⟨q, e, hq⟩ := key 'm' ['i', 'n'] .min (by decide) (by decide) (by decide) ⟨⟨"min".toList, 3⟩, by decide +kernel⟩ h
    exact ⟨_, q, e, hq, by simp [units, Metric.text]⟩
  · obtain ⟨q, e, hq⟩ := key 'm' ['s'] .milli (by decide) (by decide) (by decide) ⟨⟨"ms".toList, 2⟩, by decide +kernel⟩ h
    exact ⟨_, q, e, hq, by simp [units, Metric.text]⟩

/-- A colon is no unit. -/
theorem after_colon (n : Num) (h : At p pre (':' :: r)) :
    afterCount n p = orElse (p.tryParse (colons n)) fun p => .ok (.count n .second) p := by
  obtain ⟨q, hi, hq⟩ := expectIdent_spec h (ascii_head_cons.mpr (by decide))
  have hn : isNameStartChar ':' = true := by decide
  simp only [hn, if_true] at hq
  obtain ⟨q', e⟩ := metric_colon (r.takeWhile isNameChar)
  have h1 : p.tryParse (fun p => p.expectIdent.bind fun ident p =>
      (ListOf.within (ListOf.parseString Metric.parse ident) p).bind fun m p => Res.ok (ClockValue.count n m) p) =
      .err p := by
    refine tryParse_err (q := q) ?_ hi
    rw [hq.1]
    simp only [Res.bind, e, ListOf.within]
  rw [afterCount, h1]
  rfl

theorem last_append {a b : List Char} (hb : b ≠ []) (h : b.getLast? ≠ some '.') : (a ++ b).getLast? ≠ some '.' := by
  obtain ⟨c, b', rfl⟩ := List.exists_cons_of_ne_nil hb
  simpa using h

theorem digits_not_dot {d : List Char} (h : Digits d) : d.getLast? ≠ some '.' := digits_last h

theorem number_last {d f : List Char} (hd : Digits d) (hf : Fraction f) : (d ++ f).getLast? ≠ some '.' := by
  rcases hf with rfl | ⟨e, he, hde, rfl⟩
  · simpa using digits_last hd
  · rw [show d ++ '.' :: e = (d ++ ['.']) ++ e by simp]
    exact last_append he (digits_last hde)

theorem sixty_ne {t : List Char} (h : Sixty t) : t ≠ [] := by
  rintro rfl
  simp [Sixty] at h

/-- Minutes and seconds. -/
theorem half_read (n : Num) {s f : List Char} (h : At p pre (':' :: (s ++ f))) (hs : Digits s) (hne : s ≠ [])
    (hf : Fraction f) :
    ∃ q, afterCount n p = .ok (.half n.asInt (norm false s f.tail)) q ∧ At q (pre ++ ':' :: (s ++ f)) [] := by
  rw [after_colon n h]
  obtain ⟨q1, e1, h1⟩ := expectChar_ok h (by decide)
  obtain ⟨q2, e2, h2⟩ := f32_read (r := []) (by simpa using h1) hs hne hf (by simp) (by simp)
  obtain ⟨q3, e3, hi⟩ := expectChar_err (c := ':') h2 (by simp) (by intro c t e; simp at e)
  refine ⟨q2, ?_, by simpa using h2⟩
  have : colons n p = .ok (.half n.asInt (norm false s f.tail)) q2 := by
    rw [colons, e1]
    simp only [Res.bind, e2, tryParse_err (f := fun p => p.expectChar ':') e3 hi]
  rw [tryParse_ok this]
  rfl

/-- Hours, minutes and seconds. -/
theorem full_read (n : Num) {m s f : List Char} (h : At p pre (':' :: (m ++ ':' :: (s ++ f)))) (hm : Digits m)
    (hmne : m ≠ []) (hs : Digits s) (hne : s ≠ []) (hf : Fraction f) :
    ∃ q, afterCount n p = .ok (.full n.asInt (norm false m []).asInt (norm false s f.tail)) q ∧
      At q (pre ++ ':' :: (m ++ ':' :: (s ++ f))) [] := by
  rw [after_colon n h]
  obtain ⟨q1, e1, h1⟩ := expectChar_ok h (by decide)
  have hl : (':' :: (s ++ f)).getLast? ≠ some '.' := by
    rw [show ':' :: (s ++ f) = [':'] ++ (s ++ f) from rfl]
    exact last_append (by simp [hne]) (number_last hs hf)
  obtain ⟨q2, e2, h2⟩ := f32_read (f := []) (r := ':' :: (s ++ f)) (by simpa using h1) hm hmne (.inl rfl)
    (by intro c u e; simp only [List.cons.injEq] at e; rw [← e.1]; decide) hl
  obtain ⟨q3, e3, h3⟩ := expectChar_ok h2 (by decide)
  obtain ⟨q4, e4, h4⟩ := f32_read (r := []) (by simpa using h3) hs hne hf (by simp) (by simp)
  refine ⟨q4, ?_, by simpa using h4⟩
  have hfp : (norm false m []).fp.isEmpty = true := rfl
  rw [List.tail_nil] at e2
  have : colons n p = .ok (.full n.asInt (norm false m []).asInt (norm false s f.tail)) q4 := by
    rw [colons, e1]
    simp only [Res.bind, e2, tryParse_ok (f := fun p => p.expectChar ':') e3, hfp, if_true, e4]
  rw [tryParse_ok this]
  rfl

end Verif.Clock
