import Mathlib.Tactic.FieldSimp
import Mathlib.Tactic.Linarith
import Mathlib.Tactic.Positivity
import Mathlib.Tactic.Ring
import Verif.Clock.Lemmas

/-! # The texts of numbers and of clock values -/

namespace Verif.Clock

open Verif.Parse Verif.Number

theorem decimal_zero_cons (l : List Char) : decimal ('0' :: l) = decimal l := by simp [decimal]

theorem decimal_strip (l : List Char) : decimal (l.dropWhile (· == '0')) = decimal l := by
  induction l with
  | nil => rfl
  | cons c l ih =>
    by_cases h : c = '0'
    · subst h
      rw [decimal_zero_cons, ← ih]
      simp
    · simp [List.dropWhile_cons, h]

theorem tail_strip (l : List Char) : tail (l.reverse.dropWhile (· == '0')).reverse = tail l := by
  generalize hm : l.reverse = m
  have hl : l = m.reverse := by rw [← hm]; simp
  subst hl
  clear hm
  induction m with
  | nil => rfl
  | cons c m ih =>
    by_cases h : c = '0'
    · subst h
      have e : tail (('0' :: m).reverse) = tail m.reverse := by
        rw [tail, tail, List.reverse_cons, Verif.Path.decimal_append]
        have : decimal ['0'] = 0 := by decide
        rw [this]
        simp only [List.length_append, List.length_reverse, List.length_cons, List.length_nil, Nat.cast_add, Nat.cast_mul,
          Nat.cast_pow, Nat.cast_zero, Nat.zero_add, pow_add, pow_one]
        field_simp
        norm_num
      rw [e, ← ih]
      simp
    · simp [List.dropWhile_cons, h]

theorem decimal_eq_zero {l : List Char} (h : Digits l) : decimal l = 0 ↔ ∀ c ∈ l, c = '0' := by
  induction l with
  | nil => simp [decimal]
  | cons c l ih =>
    have ih' := ih fun x hx => h x (by simp [hx])
    have hr := digit_range (h c (by simp))
    have hc : c.toNat - '0'.toNat = 0 ↔ c = '0' := by
      constructor
      · intro e
        have : c.toNat = '0'.toNat := by
          have : '0'.toNat = 48 := rfl
          omega
        rw [← Char.ofNat_toNat c, this]
        rfl
      · rintro rfl; rfl
    rw [decimal]
    simp only [Nat.add_eq_zero_iff, Nat.mul_eq_zero, hc, ih', List.mem_cons, forall_eq_or_imp]
    constructor
    · rintro ⟨h1 | h1, h2⟩
      · exact ⟨h1, h2⟩
      · exact absurd h1 (by positivity)
    · rintro ⟨h1, h2⟩; exact ⟨.inl h1, h2⟩

theorem digits_strip {l : List Char} (h : Digits l) : Digits (l.dropWhile (· == '0')) :=
  fun c hc => h c ((List.dropWhile_sublist _).subset hc)

theorem digits_strip_end {l : List Char} (h : Digits l) : Digits (l.reverse.dropWhile (· == '0')).reverse := by
  intro c hc
  rw [List.mem_reverse] at hc
  exact h c (List.mem_reverse.mp ((List.dropWhile_sublist _).subset hc))

theorem drop_zeros {l : List Char} : l.dropWhile (· == '0') = [] ↔ ∀ c ∈ l, c = '0' := by
  induction l with
  | nil => simp
  | cons c l ih =>
    by_cases h : c = '0'
    · subst h; simp [ih]
    · simp [List.dropWhile_cons, h]

theorem strip_nil {l : List Char} (h : Digits l) : l.dropWhile (· == '0') = [] ↔ decimal l = 0 := by
  rw [drop_zeros, decimal_eq_zero h]

theorem strip_end_nil {l : List Char} (h : Digits l) : (l.reverse.dropWhile (· == '0')).reverse = [] ↔ decimal l = 0 := by
  rw [decimal_eq_zero h, List.reverse_eq_nil_iff, drop_zeros]
  simp

theorem tail_nonneg (l : List Char) : 0 ≤ tail l := by unfold tail; positivity

theorem tail_eq_zero (l : List Char) : tail l = 0 ↔ decimal l = 0 := by
  unfold tail
  rw [div_eq_zero_iff]
  constructor
  · rintro (h | h)
    · exact_mod_cast h
    · exact absurd h (by positivity)
  · intro h; left; exact_mod_cast h

theorem fraction_digits {f : List Char} (h : Fraction f) : Digits f.tail := by
  rcases h with rfl | ⟨d, _, hd, rfl⟩
  · intro c hc; simp at hc
  · exact hd

/-- The fraction as it is written. -/
def fracText (n : Num) : List Char := if n.fp.isEmpty then [] else '.' :: n.fp

theorem fracText_spec {d f : List Char} (b : Bool) (hf : Fraction f) : Fraction (fracText (norm b d f.tail)) ∧
    tail (fracText (norm b d f.tail)).tail = tail f.tail ∧
    (fracText (norm b d f.tail) = [] ↔ decimal f.tail = 0) := by
  have hd := fraction_digits hf
  have h1 := strip_end_nil hd
  by_cases h : decimal f.tail = 0
  · have e : fracText (norm b d f.tail) = [] := by simp only [fracText, norm, h1.mpr h, List.isEmpty_nil, if_true]
    rw [e]
    refine ⟨.inl rfl, ?_, by simp [h]⟩
    rw [(tail_eq_zero _).mpr h]
    simp [tail, decimal]
  · have hne : (norm b d f.tail).fp ≠ [] := fun e => h (h1.mp e)
    have e : fracText (norm b d f.tail) = '.' :: (norm b d f.tail).fp := by
      simp [fracText, hne]
    rw [e]
    exact ⟨.inr ⟨_, hne, digits_strip_end hd, rfl⟩, tail_strip _, by simp [h]⟩

/-- **A number as written**: without the zeros that do not count, not even the one before the point. -/
theorem num_text {d f : List Char} (z : List Char) (hd : Digits d) (hf : Fraction f) :
    ∃ d' f', (norm false d f.tail).text z = d' ++ f' ∧ LooseNumber d' f' ∧ decimal d' = decimal d ∧
      tail f'.tail = tail f.tail ∧ (d' = [] ↔ decimal d = 0 ∧ decimal f.tail ≠ 0) ∧
      ((decimal d ≠ 0 ∨ decimal f.tail ≠ 0) → (norm true d f.tail).text z = '-' :: (d' ++ f')) ∧
      ((decimal d = 0 ∧ decimal f.tail = 0) → (norm true d f.tail).text z = z) := by
  obtain ⟨h1, h2, h3⟩ := fracText_spec (d := d) false hf
  have hip := strip_nil hd
  have hfp := strip_end_nil (fraction_digits hf)
  by_cases hz : decimal d = 0 ∧ decimal f.tail = 0
  · have e : ∀ b, (norm b d f.tail).ip = [] ∧ (norm b d f.tail).fp = [] := fun b => ⟨hip.mpr hz.1, hfp.mpr hz.2⟩
    refine ⟨['0'], [], ?_, ⟨by unfold Digits; decide, .inl rfl, .inl (by simp)⟩, ?_, ?_, ?_, ?_, ?_⟩
    · have hb : (norm false d f.tail).neg = false := rfl
      simp [Num.text, e, hb]
    · rw [hz.1]; decide
    · rw [(tail_eq_zero _).mpr hz.2]; simp [tail, decimal]
    · simp [hz]
    · rintro (h | h)
      · exact absurd hz.1 h
      · exact absurd hz.2 h
    · intro _
      have := e true
      have hb : (norm true d f.tail).neg = true := rfl
      simp [Num.text, this, hb]
  · have hne : ∀ b, ((norm b d f.tail).ip.isEmpty && (norm b d f.tail).fp.isEmpty) = false := by
      intro b
      rw [Bool.and_eq_false_iff, List.isEmpty_eq_false_iff, List.isEmpty_eq_false_iff]
      by_cases h0 : decimal d = 0
      · right
        intro e
        exact hz ⟨h0, hfp.mp e⟩
      · left
        intro e
        exact h0 (hip.mp e)
    have ht : ∀ b, (norm b d f.tail).text z = (if b then ['-'] else []) ++ d.dropWhile (· == '0') ++ fracText (norm b d f.tail) := by
      intro b
      rw [Num.text, hne b]
      rfl
    refine ⟨d.dropWhile (· == '0'), fracText (norm false d f.tail), by simpa using ht false, ⟨digits_strip hd, h1, ?_⟩,
      decimal_strip d, h2, ?_, ?_, ?_⟩
    · by_cases h0 : decimal d = 0
      · right
        intro e
        exact hz ⟨h0, h3.mp e⟩
      · left
        intro e
        exact h0 (hip.mp e)
    · rw [hip]
      constructor
      · intro h; exact ⟨h, fun h' => hz ⟨h, h'⟩⟩
      · exact fun h => h.1
    · intro _
      rw [ht true]
      rfl
    · intro h; exact absurd h hz

/-- **Seconds as written**: two digits, unless they are between zero and one. -/
theorem seconds_text {s f : List Char} (z : List Char) (hs : Sixty s) (hf : Fraction f) :
    ∃ s' f', pad (norm false s f.tail).below10 ((norm false s f.tail).text z) = s' ++ f' ∧ LooseNumber s' f' ∧
      Fraction f' ∧ decimal s' = decimal s ∧ tail f'.tail = tail f.tail ∧
      (if decimal s = 0 ∧ decimal f.tail ≠ 0 then s' = ['0'] else s' = s) := by
  obtain ⟨hd, hl, _⟩ := hs
  obtain ⟨h1, h2, h3⟩ := fracText_spec (d := s) false hf
  have hfp := strip_end_nil (fraction_digits hf)
  match s, hl with
  | [a, b], _ =>
    have hfe : decimal f.tail = 0 → (norm false [a, b] f.tail).fp = [] := hfp.mpr
    have hfn : decimal f.tail ≠ 0 → (norm false [a, b] f.tail).fp ≠ [] := fun h e => h (hfp.mp e)
    have hft : (norm false [a, b] f.tail).fp ≠ [] → fracText (norm false [a, b] f.tail) = '.' :: (norm false [a, b] f.tail).fp := by
      intro h; simp [fracText, h]
    by_cases ha : a = '0'
    · subst ha
      by_cases hb : b = '0'
      · subst hb
        have hz : decimal ['0', '0'] = 0 := by decide
        have hip : (norm false ['0', '0'] f.tail).ip = [] := rfl
        by_cases hf0 : decimal f.tail = 0
        · refine ⟨['0', '0'], [], ?_, ⟨by unfold Digits; decide, .inl rfl, .inl (by simp)⟩, .inl rfl, rfl, ?_, by simp [hf0]⟩
          · have hb : (norm false ['0', '0'] f.tail).neg = false := rfl
            simp [pad, Num.below10, Num.text, hip, hfe hf0, hb]
          · rw [(tail_eq_zero _).mpr hf0]; simp [tail, decimal]
        · refine ⟨['0'], fracText (norm false ['0', '0'] f.tail), ?_, ⟨by unfold Digits; decide, h1, .inl (by simp)⟩, h1, by rw [hz]; decide, h2, ?_⟩
          · rw [hft (hfn hf0)]
            simp only [pad, Num.below10, Num.text, hip, List.length_nil, Nat.zero_le, decide_true, Bool.or_true, if_true,
              List.isEmpty_nil, Bool.true_and, List.isEmpty_eq_false_iff.mpr (hfn hf0), Bool.false_eq_true, if_false]
            rfl
          · rw [if_pos ⟨hz, hf0⟩]
      · have hip : (norm false ['0', b] f.tail).ip = [b] := by simp [norm, hb]
        have hn0 : decimal ['0', b] ≠ 0 := by
          rw [Ne, decimal_eq_zero hd]
          intro h
          exact hb (h b (by simp))
        refine ⟨['0', b], fracText (norm false ['0', b] f.tail), ?_, ⟨hd, h1, .inl (by simp)⟩, h1, rfl, h2, ?_⟩
        · simp only [pad, Num.below10, Num.text, hip, List.length_cons, List.length_nil, Nat.zero_add, Nat.le_refl, decide_true,
            Bool.or_true, if_true, List.isEmpty_cons, Bool.false_and, Bool.false_eq_true, if_false]
          rfl
        · rw [if_neg (fun h => hn0 h.1)]
    · have hip : (norm false [a, b] f.tail).ip = [a, b] := by simp [norm, ha, List.dropWhile_cons]
      have hn0 : decimal [a, b] ≠ 0 := by
        rw [Ne, decimal_eq_zero hd]
        intro h
        exact ha (h a (by simp))
      refine ⟨[a, b], fracText (norm false [a, b] f.tail), ?_, ⟨hd, h1, .inl (by simp)⟩, h1, rfl, h2, ?_⟩
      · have : (norm false [a, b] f.tail).neg = false := rfl
        simp only [pad, Num.below10, Num.text, hip, this]
        rfl
      · rw [if_neg (fun h => hn0 h.1)]

/-- Whole numbers as written. -/
theorem int_text (k : Nat) : Digits (pad (decide ((k : Int) < 10)) (ListOf.intText k)) ∧
    pad (decide ((k : Int) < 10)) (ListOf.intText k) ≠ [] ∧
    decimal (pad (decide ((k : Int) < 10)) (ListOf.intText k)) = k ∧
    (k < 100 → (pad (decide ((k : Int) < 10)) (ListOf.intText k)).length = 2) := by
  obtain ⟨h1, h2, h3, _⟩ := Verif.Path.natText_spec k
  have e : ListOf.intText (k : Int) = Verif.Path.natText k := by
    rw [ListOf.intText, if_neg (by omega)]
    simp
  rw [e]
  by_cases h : k < 10
  · have hd : decide ((k : Int) < 10) = true := by simp; omega
    rw [hd]
    simp only [pad, if_true]
    refine ⟨?_, by simp, by rw [decimal_zero_cons, h3], fun _ => ?_⟩
    · intro c hc
      rcases List.mem_cons.mp hc with rfl | hc
      · decide
      · exact h1 c hc
    · rw [Verif.Path.natText, if_pos h]; rfl
  · have hd : decide ((k : Int) < 10) = false := by simp; omega
    rw [hd]
    simp only [pad, Bool.false_eq_true, if_false]
    refine ⟨h1, h2, h3, fun hk => ?_⟩
    rw [Verif.Path.natText, if_neg h, Verif.Path.natText, if_pos (by omega)]
    rfl

/-- A negative whole number as written: a zero, and then the sign. -/
theorem neg_text (k : Nat) (hk : k ≠ 0) :
    pad (decide (-(k : Int) < 10)) (ListOf.intText (-(k : Int))) = '0' :: '-' :: Verif.Path.natText k := by
  have hd : decide (-(k : Int) < 10) = true := by simp; omega
  have hn : (-(k : Int)) < 0 := by omega
  rw [hd, ListOf.intText, if_pos hn]
  simp [pad]

theorem decimal_bound {d : List Char} (h : Digits d) : decimal d < 10 ^ d.length := by
  induction d with
  | nil => simp [decimal]
  | cons c d ih =>
    have ih' := ih fun x hx => h x (by simp [hx])
    have hr := digit_range (h c (by simp))
    have : c.toNat - '0'.toNat ≤ 9 := by
      have : '0'.toNat = 48 := rfl
      omega
    rw [decimal, List.length_cons, Nat.pow_succ]
    have := Nat.mul_le_mul_right (10 ^ d.length) this
    omega

/-- Up to six digits, whole numbers are exact. -/
theorem asInt_norm {d : List Char} (minus : Bool) (hd : Digits d) (hl : d.length ≤ 6) :
    ((norm false d []).times minus).asInt = if minus then -(decimal d : Int) else decimal d := by
  have h1 := decimal_bound hd
  have h2 : 10 ^ d.length ≤ 10 ^ 6 := Nat.pow_le_pow_right (by omega) hl
  have hv : digitsValue (d.dropWhile (· == '0')) = decimal d := by rw [digitsValue_eq, decimal_strip]
  simp only [Num.asInt, Num.times, norm, hv]
  cases minus
  · simp only [Bool.false_bne, Bool.false_eq_true, if_false]
    omega
  · simp only [Bool.false_bne, if_true]
    omega

end Verif.Clock
