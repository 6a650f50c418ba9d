import Verif.Path.FormatModel
import Verif.Path.Props

/-! # Written numbers -/

namespace Verif.Path

open Verif.Parse Verif.Number

/-! ## Numerals -/

theorem digitChar_digit : ∀ n < 10, (digitChar n).isDigit = true ∧ (digitChar n).toNat - 48 = n := by decide +kernel

theorem decimal_append (a b : List Char) : decimal (a ++ b) = decimal a * 10 ^ b.length + decimal b := by
  induction a with
  | nil => simp [decimal]
  | cons c a ih =>
    simp only [List.cons_append, decimal, ih, List.length_append, Nat.pow_add, Nat.add_mul, Nat.mul_assoc, Nat.add_assoc]

theorem natText_spec (n : Nat) : Digits (natText n) ∧ natText n ≠ [] ∧ decimal (natText n) = n ∧
    (natText n).getLast? = some (digitChar (n % 10)) := by
  induction n using natText.induct with
  | case1 n h =>
    rw [natText, if_pos h]
    have := digitChar_digit n h
    refine ⟨by simp [Digits, this], by simp, ?_, by simp [Nat.mod_eq_of_lt h]⟩
    simp only [decimal, List.length_nil, Nat.pow_zero, Nat.mul_one, Nat.add_zero]
    exact this.2
  | case2 n h ih =>
    rw [natText, if_neg h]
    obtain ⟨h1, h2, h3, h4⟩ := ih
    have := digitChar_digit (n % 10) (Nat.mod_lt _ (by omega))
    refine ⟨digits_snoc h1 this.1, by simp, ?_, by simp⟩
    rw [decimal_append, h3]
    have h5 : decimal [digitChar (n % 10)] = n % 10 := by
      simp only [decimal, List.length_nil, Nat.pow_zero, Nat.mul_one, Nat.add_zero]
      exact this.2
    rw [h5]
    simp
    omega

theorem decimal_zeros (k : Nat) : decimal (List.replicate k '0') = 0 := by
  induction k with
  | zero => rfl
  | succ k ih =>
    rw [List.replicate_succ, decimal, ih]
    simp

theorem digits_zeros (k : Nat) : Digits (List.replicate k '0') := by
  intro c hc
  rw [(List.mem_replicate.mp hc).2]
  decide

theorem digits_append {a b : List Char} (ha : Digits a) (hb : Digits b) : Digits (a ++ b) := by
  intro c hc
  rcases List.mem_append.mp hc with h | h
  · exact ha c h
  · exact hb c h

/-! ## The value of a literal -/

/-- The exponent behind `e`. -/
def exponentValue (u : List Char) : Int :=
  if u.head? = some '-' then - (decimal (u.drop 1) : Int)
  else if u.head? = some '+' then (decimal (u.drop 1) : Int)
  else decimal u

/-- A literal without its sign. -/
def unsigned (t : List Char) : List Char := if t.head? = some '-' ∨ t.head? = some '+' then t.drop 1 else t

/-- Digits behind the point, and what follows. -/
def fraction (r : List Char) : List Char := if r.head? = some '.' then (r.drop 1).takeWhile Char.isDigit else []
def behind (r : List Char) : List Char := if r.head? = some '.' then (r.drop 1).dropWhile Char.isDigit else r

/-- The number that a literal of SVG denotes. -/
def litValue (t : List Char) : Rat :=
  let r := unsigned t
  let a := r.takeWhile Char.isDigit
  let r1 := r.dropWhile Char.isDigit
  let r2 := behind r1
  let e := if r2 = [] then 0 else exponentValue (r2.drop 1)
  (if t.head? = some '-' then -1 else 1) * (decimal (a ++ fraction r1) : Rat) * 10 ^ (e - ((fraction r1).length : Int))

/-- The number that a decimal stands for. -/
def Num.value (n : Num) : Rat := (if n.neg then -1 else 1) * (decimal n.digits : Rat) * 10 ^ n.exp

theorem takeWhile_digits {a r : List Char} (ha : Digits a) (hr : Ends Char.isDigit r) :
    (a ++ r).takeWhile Char.isDigit = a ∧ (a ++ r).dropWhile Char.isDigit = r := by
  rw [List.takeWhile_append_of_pos ha, List.dropWhile_append_of_pos ha]
  cases r with
  | nil => simp
  | cons c r => simp [hr c r rfl]

theorem head_append_ne {a r : List Char} (h : a ≠ []) : (a ++ r).head? = a.head? := by
  cases a with
  | nil => exact absurd rfl h
  | cons c a => rfl

theorem digit_head_sign {a : List Char} (ha : Digits a) (r : List Char) (h : a ≠ []) :
    (a ++ r).head? ≠ some '-' ∧ (a ++ r).head? ≠ some '+' ∧ (a ++ r).head? ≠ some '.' := by
  cases a with
  | nil => exact absurd rfl h
  | cons c a =>
    have := ha c (by simp)
    simp only [List.cons_append, List.head?_cons, ne_eq, Option.some.injEq]
    refine ⟨?_, ?_, ?_⟩ <;> (rintro rfl; revert this; decide)

theorem unsigned_sign (b : Bool) (r : List Char) (h : r.head? ≠ some '-' ∧ r.head? ≠ some '+') :
    unsigned (signText b ++ r) = r ∧ ((signText b ++ r).head? = some '-' ↔ b = true) := by
  cases b with
  | true => simp [unsigned, signText]
  | false => simp [unsigned, signText, h]

theorem ends_cons {c : Char} (h : c.isDigit = false) (r : List Char) : Ends Char.isDigit (c :: r) := by
  rintro d t e
  simp at e
  rw [← e.1]; exact h

theorem ends_nil : Ends Char.isDigit [] := by intro c t e; simp at e

/-- The value of a literal with digits only. -/
theorem lit_int (b : Bool) {a : List Char} (ha : Digits a) (hne : a ≠ []) :
    litValue (signText b ++ a) = (if b then -1 else 1) * (decimal a : Rat) := by
  have h0 := digit_head_sign ha [] hne
  simp only [List.append_nil] at h0
  obtain ⟨h1, h2⟩ := unsigned_sign b a ⟨h0.1, h0.2.1⟩
  obtain ⟨h3, h4⟩ := takeWhile_digits ha ends_nil
  simp only [List.append_nil] at h3 h4
  have h5 : fraction [] = [] := rfl
  have h6 : behind [] = [] := rfl
  simp only [litValue, h1, h3, h4, h5, h6, if_pos, List.append_nil, List.length_nil, h2, if_true]
  cases b <;> simp

/-- The value of a literal with a point. -/
theorem lit_frac (b : Bool) {a f : List Char} (ha : Digits a) (hf : Digits f) :
    litValue (signText b ++ (a ++ '.' :: f)) =
      (if b then -1 else 1) * (decimal (a ++ f) : Rat) * 10 ^ (-(f.length : Int)) := by
  have hh : (a ++ '.' :: f).head? ≠ some '-' ∧ (a ++ '.' :: f).head? ≠ some '+' := by
    by_cases h : a = []
    · subst h; simp
    · exact ⟨(digit_head_sign ha _ h).1, (digit_head_sign ha _ h).2.1⟩
  obtain ⟨h1, h2⟩ := unsigned_sign b _ hh
  obtain ⟨h3, h4⟩ := takeWhile_digits (r := '.' :: f) ha (ends_cons (by decide) f)
  have h7 := takeWhile_digits hf ends_nil
  simp only [List.append_nil] at h7
  have h5 : fraction ('.' :: f) = f := by simp [fraction, h7]
  have h6 : behind ('.' :: f) = [] := by simp [behind, h7]
  simp only [litValue, h1, h3, h4, h5, h6, if_pos, h2]
  cases b <;> simp

theorem exponentValue_text (e : Int) : exponentValue (expText e) = e := by
  unfold expText
  obtain ⟨h1, h2, h3, _⟩ := natText_spec e.natAbs
  split
  · next h => simp [exponentValue, h3]; omega
  · next h =>
    have := digit_head_sign h1 [] h2
    simp only [List.append_nil] at this
    simp only [exponentValue, this, if_false, h3]
    omega

/-- The value of a literal with an exponent. -/
theorem lit_exp (b : Bool) {a : List Char} (ha : Digits a) (hne : a ≠ []) (e : Int) :
    litValue (signText b ++ (a ++ 'e' :: expText e)) = (if b then -1 else 1) * (decimal a : Rat) * 10 ^ e := by
  obtain ⟨g1, g2, _⟩ := digit_head_sign ha ('e' :: expText e) hne
  obtain ⟨h1, h2⟩ := unsigned_sign b _ ⟨g1, g2⟩
  obtain ⟨h3, h4⟩ := takeWhile_digits (r := 'e' :: expText e) ha (ends_cons (by decide) _)
  have h5 : fraction ('e' :: expText e) = [] := rfl
  have h6 : behind ('e' :: expText e) = 'e' :: expText e := rfl
  simp only [litValue, h1, h3, h4, h5, h6, h2, List.append_nil, List.length_nil, reduceCtorEq, if_false, List.drop_succ_cons,
    List.drop_zero, exponentValue_text]
  cases b <;> simp

theorem lit_frac_exp (b : Bool) {a f : List Char} (ha : Digits a) (hf : Digits f) (e : Int) :
    litValue (signText b ++ (a ++ '.' :: f ++ 'e' :: expText e)) =
      (if b then -1 else 1) * (decimal (a ++ f) : Rat) * 10 ^ (e - (f.length : Int)) := by
  have hh : (a ++ '.' :: f ++ 'e' :: expText e).head? ≠ some '-' ∧ (a ++ '.' :: f ++ 'e' :: expText e).head? ≠ some '+' := by
    by_cases h : a = []
    · subst h; simp
    · rw [List.append_assoc]
      exact ⟨(digit_head_sign ha _ h).1, (digit_head_sign ha _ h).2.1⟩
  obtain ⟨h1, h2⟩ := unsigned_sign b _ hh
  obtain ⟨h3, h4⟩ := takeWhile_digits (r := '.' :: (f ++ 'e' :: expText e)) ha (ends_cons (by decide) _)
  obtain ⟨h7, h8⟩ := takeWhile_digits (r := 'e' :: expText e) hf (ends_cons (by decide) _)
  have h5 : fraction ('.' :: (f ++ 'e' :: expText e)) = f := by simp [fraction, h7]
  have h6 : behind ('.' :: (f ++ 'e' :: expText e)) = 'e' :: expText e := by simp [behind, h8]
  have ha' : a ++ '.' :: f ++ 'e' :: expText e = a ++ '.' :: (f ++ 'e' :: expText e) := by simp
  rw [ha'] at h1 h2 ⊢
  simp only [litValue, h1, h3, h4, h5, h6, h2, reduceCtorEq, if_false, List.drop_succ_cons, List.drop_zero, exponentValue_text]

/-! ## The shortened text -/

theorem strip_snoc (c : Char) (l : List Char) : stripSuffix c (l ++ [c]) = l := by simp [stripSuffix]

theorem strip_other {c : Char} {l : List Char} (h : l.getLast? ≠ some c) : stripSuffix c l = l := by simp [stripSuffix, h]

theorem dlz_id (b : Bool) {r : List Char} (h : r.head? ≠ some '0') (h2 : r.head? ≠ some '-') : dropLeadingZero (signText b ++ r) = signText b ++ r := by
  cases r with
  | nil => cases b <;> decide
  | cons c r =>
    simp at h h2
    cases b <;> simp [dropLeadingZero, signText, List.isPrefixOf, Ne.symm h, Ne.symm h2]

theorem dlz_zero (b : Bool) (r : List Char) : dropLeadingZero (signText b ++ '0' :: '.' :: r) = signText b ++ '.' :: r := by
  cases b <;> simp [dropLeadingZero, signText, List.isPrefixOf]

theorem shortenPoint_of {raw : List Char} (h : raw.getLast? ≠ some '.') : shortenPoint raw = dropLeadingZero raw := by
  have h1 : ¬ (raw = "0.".toList ∨ raw = "-0.".toList) := by
    rintro (rfl | rfl) <;> exact h (by decide)
  rw [shortenPoint, if_neg h1, strip_other h]

theorem getLast_append {a b : List Char} (h : b ≠ []) : (a ++ b).getLast? = b.getLast? := by
  rw [List.getLast?_append]
  cases hb : b.getLast? with
  | none => exact absurd (List.getLast?_eq_none_iff.mp hb) h
  | some c => rfl

theorem digits_last_ne {a : List Char} (ha : Digits a) {c : Char} (hc : c.isDigit = false) : a.getLast? ≠ some c := by
  intro h
  have := ha c (List.mem_of_getLast? h)
  rw [hc] at this; cases this

theorem head_digits_ne {a : List Char} (ha : Digits a) {c : Char} (hc : c.isDigit = false) (r : List Char) (hne : a ≠ []) :
    (a ++ r).head? ≠ some c := by
  rw [head_append_ne hne]
  intro h
  have := ha c (List.mem_of_mem_head? h)
  rw [hc] at this; cases this

theorem contains_dot {l : List Char} (h : '.' ∈ l) : l.contains '.' = true := by simpa using h

theorem take_ne {l : List Char} {k : Nat} (h : 0 < k) (hl : 0 < l.length) : l.take k ≠ [] := by
  intro e
  have := congrArg List.length e
  rw [List.length_take, List.length_nil] at this
  omega

/-- The forms of a written number. -/
inductive Form where
  | zero | int | mixed | small | single | long
deriving DecidableEq

def Num.form (n : Num) : Form :=
  if n.isZero then .zero
  else if 0 ≤ n.exp ∧ n.point ≤ 16 then .int
  else if 0 < n.point ∧ n.point ≤ 16 then .mixed
  else if -5 < n.point ∧ n.point ≤ 0 then .small
  else if n.digits.length = 1 then .single
  else .long

variable {n : Num}

theorem short_zero (h : n.form = .zero) : n.digits = [] ∧ short n = ['0'] := by
  unfold Num.form at h
  split at h
  · next hz =>
    refine ⟨by simpa [Num.isZero] using hz, ?_⟩
    simp only [short, ryu, hz, if_true]
    cases n.neg <;> decide
  all_goals (repeat' split at h) <;> cases h

theorem short_int (hv : n.Valid) (h : n.form = .int) : n.digits ≠ [] ∧ 0 ≤ n.exp ∧ n.point ≤ 16 ∧
    short n = signText n.neg ++ (n.digits ++ List.replicate n.exp.toNat '0') := by
  unfold Num.form at h
  split at h
  · cases h
  · next hz =>
    split at h
    · next hi =>
      have hne : n.digits ≠ [] := by simpa [Num.isZero] using hz
      refine ⟨hne, hi.1, hi.2, ?_⟩
      rw [short, ryu, if_neg hz, if_pos hi]
      generalize hd : n.digits ++ List.replicate n.exp.toNat '0' = d
      have hdd : Digits d := by rw [← hd]; exact digits_append hv.1 (digits_zeros _)
      have hdh : d.head? ≠ some '0' := by
        rw [← hd, head_append_ne hne]; exact hv.2.1
      have hdn : d ≠ [] := by rw [← hd]; simp [hne]
      have e1 : signText n.neg ++ (d ++ ".0".toList) = (signText n.neg ++ d ++ ['.']) ++ ['0'] := by simp
      rw [e1, shorten, contains_dot (by simp), if_pos rfl, strip_snoc, shortenPoint]
      have hcond : ¬ (signText n.neg ++ d ++ ['.'] = "0.".toList ∨ signText n.neg ++ d ++ ['.'] = "-0.".toList) := by
        cases d with
        | nil => exact absurd rfl hdn
        | cons c d =>
          simp at hdh
          have hdash := hdd c (by simp)
          have : c ≠ '-' := by rintro rfl; revert hdash; decide
          cases n.neg <;> simp [signText, hdh, this]
      rw [if_neg hcond, strip_snoc, dlz_id _ hdh]
      have := head_digits_ne hdd (c := '-') (by decide) [] hdn
      simpa using this
    · repeat' split at h
      all_goals cases h

theorem short_mixed (hv : n.Valid) (h : n.form = .mixed) : n.digits ≠ [] ∧ n.exp < 0 ∧ 0 < n.point ∧ n.point ≤ 16 ∧
    short n = signText n.neg ++ (n.digits.take n.point.toNat ++ '.' :: n.digits.drop n.point.toNat) := by
  unfold Num.form at h
  split at h
  · cases h
  · next hz =>
    split at h
    · cases h
    · next hi =>
      split at h
      · next hm =>
        have hne : n.digits ≠ [] := by simpa [Num.isZero] using hz
        have hexp : n.exp < 0 := by omega
        refine ⟨hne, hexp, hm.1, hm.2, ?_⟩
        rw [short, ryu, if_neg hz, if_neg hi, if_pos hm]
        have hlen : n.point.toNat < n.digits.length := by simp only [Num.point] at hm ⊢; omega
        have hdrop : n.digits.drop n.point.toNat ≠ [] := by simp; omega
        have hlast : (signText n.neg ++ (n.digits.take n.point.toNat ++ '.' :: n.digits.drop n.point.toNat)).getLast? = n.digits.getLast? := by
          rw [getLast_append (by simp), getLast_append (by simp), List.getLast?_cons]
          have : n.digits.getLast? = (n.digits.drop n.point.toNat).getLast? := by
            conv => lhs; rw [← List.take_append_drop n.point.toNat n.digits, getLast_append hdrop]
          rw [this, List.getLast?_eq_some_getLast hdrop]
          rfl
        rw [shorten, contains_dot (by simp), if_pos rfl, strip_other (by rw [hlast]; exact hv.2.2),
          shortenPoint_of (by rw [hlast]; exact digits_last_ne hv.1 (by decide)), dlz_id]
        · rw [head_append_ne (take_ne (by omega) (by omega))]
          have : n.digits.head? = (n.digits.take n.point.toNat).head? := by
            rw [List.head?_take, if_neg (by omega)]
          rw [← this]; exact hv.2.1
        · rw [head_append_ne (take_ne (by omega) (by omega))]
          intro h
          have := hv.1 '-' (List.mem_of_mem_take (List.mem_of_mem_head? h))
          revert this; decide
      · repeat' split at h
        all_goals cases h

theorem short_small (hv : n.Valid) (h : n.form = .small) : n.digits ≠ [] ∧ -5 < n.point ∧ n.point ≤ 0 ∧
    short n = signText n.neg ++ '.' :: (List.replicate (-n.point).toNat '0' ++ n.digits) := by
  unfold Num.form at h
  split at h
  · cases h
  · next hz =>
    split at h
    · cases h
    · next hi =>
      split at h
      · cases h
      · next hm =>
        split at h
        · next hs =>
          have hne : n.digits ≠ [] := by simpa [Num.isZero] using hz
          refine ⟨hne, hs.1, hs.2, ?_⟩
          rw [short, ryu, if_neg hz, if_neg hi, if_neg hm, if_pos hs]
          have e1 : signText n.neg ++ ("0.".toList ++ List.replicate (-n.point).toNat '0' ++ n.digits) =
              signText n.neg ++ '0' :: '.' :: (List.replicate (-n.point).toNat '0' ++ n.digits) := by simp
          rw [e1]
          have hlast : (signText n.neg ++ '0' :: '.' :: (List.replicate (-n.point).toNat '0' ++ n.digits)).getLast? = n.digits.getLast? := by
            have e2 : signText n.neg ++ '0' :: '.' :: (List.replicate (-n.point).toNat '0' ++ n.digits) =
              (signText n.neg ++ '0' :: '.' :: (List.replicate (-n.point).toNat '0')) ++ n.digits := by simp
            rw [e2, getLast_append hne]
          rw [shorten, contains_dot (by simp), if_pos rfl, strip_other (by rw [hlast]; exact hv.2.2),
            shortenPoint_of (by rw [hlast]; exact digits_last_ne hv.1 (by decide)), dlz_zero]
        · repeat' split at h
          all_goals cases h

theorem expText_last (e : Int) : (expText e).getLast? = some (digitChar (e.natAbs % 10)) := by
  unfold expText
  obtain ⟨_, h2, _, h4⟩ := natText_spec e.natAbs
  split
  · rw [List.getLast?_cons, h4]; rfl
  · exact h4

theorem expText_chars (e : Int) : ∀ c ∈ expText e, c.isDigit = true ∨ c = '-' := by
  unfold expText
  obtain ⟨h1, _⟩ := natText_spec e.natAbs
  split
  · intro c hc
    simp at hc
    rcases hc with rfl | hc
    · exact .inr rfl
    · exact .inl (h1 c hc)
  · intro c hc; exact .inl (h1 c hc)

theorem expText_ne (e : Int) : expText e ≠ [] := by
  intro h
  have := expText_last e
  rw [h] at this
  cases this

theorem digitChar_ne {c : Char} (hc : c.isDigit = false) (n : Nat) : digitChar (n % 10) ≠ c := by
  have := (digitChar_digit (n % 10) (Nat.mod_lt _ (by omega))).1
  rintro rfl
  rw [hc] at this; cases this

theorem short_single (hv : n.Valid) (h : n.form = .single) : n.digits.length = 1 ∧ ¬ (-5 < n.point ∧ n.point ≤ 16) ∧
    short n = signText n.neg ++ (n.digits ++ 'e' :: expText (n.point - 1)) := by
  unfold Num.form at h
  split at h
  · cases h
  · next hz =>
    split at h
    · cases h
    · next hi =>
      split at h
      · cases h
      · next hm =>
        split at h
        · cases h
        · next hs =>
          split at h
          · next hl =>
            have hne : n.digits ≠ [] := by simpa [Num.isZero] using hz
            refine ⟨hl, by omega, ?_⟩
            rw [short, ryu, if_neg hz, if_neg hi, if_neg hm, if_neg hs, if_pos hl]
            have hnd : (signText n.neg ++ (n.digits ++ 'e' :: expText (n.point - 1))).contains '.' = false := by
              simp only [List.contains_eq_mem, decide_eq_false_iff_not, List.mem_append, List.mem_cons]
              rintro (h | h | h | h)
              · cases n.neg <;> simp [signText] at h
              · have := hv.1 '.' h; revert this; decide
              · cases h
              · rcases expText_chars _ _ h with h | h
                · revert h; decide
                · cases h
            rw [shorten, hnd]
            simp only [Bool.false_eq_true, if_false]
            rw [shortenPoint_of, dlz_id]
            · rw [head_append_ne hne]; exact hv.2.1
            · exact head_digits_ne hv.1 (by decide) _ hne
            · rw [getLast_append (by simp), getLast_append (by simp), List.getLast?_cons, expText_last]
              simp only [Option.getD_some, ne_eq, Option.some.injEq]
              exact digitChar_ne (by decide) _
          · cases h

theorem digitChar_zero (n : Nat) : digitChar (n % 10) = '0' ↔ n % 10 = 0 := by
  have : ∀ m < 10, digitChar m = '0' ↔ m = 0 := by decide +kernel
  exact this _ (Nat.mod_lt _ (by omega))

theorem form_long (h : n.form = .long) : 2 ≤ n.digits.length ∧ ¬ (-5 < n.point ∧ n.point ≤ 16) ∧
    ryu n = signText n.neg ++ (n.digits.take 1 ++ '.' :: n.digits.drop 1 ++ 'e' :: expText (n.point - 1)) := by
  unfold Num.form at h
  split at h
  · cases h
  · next hz =>
    split at h
    · cases h
    · next hi =>
      split at h
      · cases h
      · next hm =>
        split at h
        · cases h
        · next hs =>
          split at h
          · cases h
          · next hl =>
            have hne : n.digits ≠ [] := by simpa [Num.isZero] using hz
            have : 0 < n.digits.length := List.length_pos_iff.mpr hne
            exact ⟨by omega, by omega, by rw [ryu, if_neg hz, if_neg hi, if_neg hm, if_neg hs, if_neg hl]⟩

theorem take1_head (hv : n.Valid) (hl : 2 ≤ n.digits.length) (r : List Char) :
    (n.digits.take 1 ++ r).head? ≠ some '0' ∧ (n.digits.take 1 ++ r).head? ≠ some '-' := by
  have hh : (n.digits.take 1 ++ r).head? = n.digits.head? := by
    rw [head_append_ne (take_ne (by omega) (by omega)), List.head?_take, if_neg (by omega)]
  rw [hh]
  refine ⟨hv.2.1, fun h => ?_⟩
  have := hv.1 '-' (List.mem_of_mem_head? h)
  revert this; decide

theorem short_long (hv : n.Valid) (h : n.form = .long) (hx : (n.point - 1).natAbs % 10 ≠ 0) :
    short n = signText n.neg ++ (n.digits.take 1 ++ '.' :: n.digits.drop 1 ++ 'e' :: expText (n.point - 1)) := by
  obtain ⟨hl, _, hr⟩ := form_long h
  have hlast : (ryu n).getLast? = some (digitChar ((n.point - 1).natAbs % 10)) := by
    rw [hr, getLast_append (by simp), getLast_append (by simp), List.getLast?_cons, expText_last]
    rfl
  have h1 : stripSuffix '0' (ryu n) = ryu n := strip_other (by
    rw [hlast]; simp only [ne_eq, Option.some.injEq]; exact fun h => hx ((digitChar_zero _).mp h))
  rw [short, shorten, contains_dot (by rw [hr]; simp), if_pos rfl, h1, shortenPoint_of, hr]
  · have := take1_head hv hl ('.' :: n.digits.drop 1 ++ 'e' :: expText (n.point - 1))
    simp only [List.append_assoc, List.cons_append] at this ⊢
    exact dlz_id _ this.1 this.2
  · rw [hlast]; simp only [ne_eq, Option.some.injEq]; exact digitChar_ne (by decide) _

end Verif.Path
