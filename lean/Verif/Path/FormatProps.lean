import Verif.Path.FormatLemmas

/-!
# Path data: writing and reading again

Sentences of the specification: `litValue` is the number that a literal denotes and `Num.value` the number of a decimal.
-/

namespace Verif.Path

open Verif.Parse Verif.Number

variable {n p c : Num} {finite : List Char → Bool}

/-- The relation holds between the members of the two lists at each place. -/
inductive All2 {α β : Type} (R : α → β → Prop) : List α → List β → Prop
  | nil : All2 R [] []
  | cons {x : α} {y : β} {l : List α} {m : List β} : R x y → All2 R l m → All2 R (x :: l) (y :: m)

theorem All2.length_eq {α β : Type} {R : α → β → Prop} {l : List α} {m : List β} (h : All2 R l m) : l.length = m.length := by
  induction h <;> simp_all

/-- Written with an exponent: below `1e-5` or at least `1e16`, in magnitude. -/
def Num.Sci (n : Num) : Prop := n.digits ≠ [] ∧ (n.point ≤ -5 ∨ 16 < n.point)

instance (n : Num) : Decidable n.Sci := inferInstanceAs (Decidable (_ ∧ _))

/-- The number does not have both a decimal point and an exponent that ends with `0` when it is written. -/
def Num.Good (n : Num) : Prop := n.Sci → 2 ≤ n.digits.length → (n.point - 1) % 10 ≠ 0

theorem form_cases (n : Num) : (n.digits = [] ∧ n.form = .zero) ∨
    (n.digits ≠ [] ∧ ((0 ≤ n.exp ∧ n.point ≤ 16 ∧ n.form = .int) ∨ (n.exp < 0 ∧ 0 < n.point ∧ n.point ≤ 16 ∧ n.form = .mixed) ∨
      (-5 < n.point ∧ n.point ≤ 0 ∧ n.form = .small) ∨ (n.Sci ∧ n.digits.length = 1 ∧ n.form = .single) ∨
      (n.Sci ∧ 2 ≤ n.digits.length ∧ n.form = .long))) := by
  unfold Num.form
  by_cases hz : n.isZero = true
  · exact .inl ⟨by simpa [Num.isZero] using hz, by rw [if_pos hz]⟩
  · have hne : n.digits ≠ [] := by simpa [Num.isZero] using hz
    have hl : 0 < n.digits.length := List.length_pos_iff.mpr hne
    refine .inr ⟨hne, ?_⟩
    rw [if_neg hz]
    by_cases h1 : 0 ≤ n.exp ∧ n.point ≤ 16
    · rw [if_pos h1]; exact .inl ⟨h1.1, h1.2, rfl⟩
    rw [if_neg h1]
    by_cases h2 : 0 < n.point ∧ n.point ≤ 16
    · rw [if_pos h2]; exact .inr (.inl ⟨by omega, h2.1, h2.2, rfl⟩)
    rw [if_neg h2]
    by_cases h3 : -5 < n.point ∧ n.point ≤ 0
    · rw [if_pos h3]; exact .inr (.inr (.inl ⟨h3.1, h3.2, rfl⟩))
    rw [if_neg h3]
    have hsci : n.Sci := ⟨hne, by omega⟩
    by_cases h4 : n.digits.length = 1
    · rw [if_pos h4]; exact .inr (.inr (.inr (.inl ⟨hsci, h4, rfl⟩)))
    · rw [if_neg h4]; exact .inr (.inr (.inr (.inr ⟨hsci, by omega, rfl⟩)))

/-! ## The value -/

theorem ten_ne : (10 : Rat) ≠ 0 := by decide

theorem zero_value (h : n.digits = []) : n.value = 0 := by
  simp [Num.value, h, decimal]

theorem sign_value (b : Bool) (d : List Char) (e : Int) (n : Num) (hb : n.neg = b) (hd : n.digits = d) (he : n.exp = e) :
    n.value = (if b then -1 else 1) * (decimal d : Rat) * 10 ^ e := by subst hb hd he; rfl

theorem short_value (hv : n.Valid) (hg : n.Good) : litValue (short n) = n.value := by
  rcases form_cases n with ⟨h, hf⟩ | ⟨hne, ⟨h1, h2, hf⟩ | ⟨h1, h2, h3, hf⟩ | ⟨h1, h2, hf⟩ | ⟨h1, h2, hf⟩ | ⟨h1, h2, hf⟩⟩
  · rw [zero_value h, (short_zero hf).2]; decide +kernel
  · obtain ⟨_, _, _, e⟩ := short_int hv hf
    rw [e, lit_int _ (digits_append hv.1 (digits_zeros _)) (by simp [hne]), decimal_append, decimal_zeros, List.length_replicate]
    have : n.exp = (n.exp.toNat : Int) := by omega
    rw [Num.value]
    conv => rhs; rw [this, Rat.zpow_natCast]
    push_cast
    grind
  · obtain ⟨_, _, _, _, e⟩ := short_mixed hv hf
    rw [e, lit_frac _ (fun c hc => hv.1 c (List.mem_of_mem_take hc)) (fun c hc => hv.1 c (List.mem_of_mem_drop hc)),
      List.take_append_drop, List.length_drop, Num.value]
    have : -((n.digits.length - n.point.toNat : Nat) : Int) = n.exp := by
      simp only [Num.point] at h2 h3 ⊢; omega
    rw [this]
  · obtain ⟨_, _, _, e⟩ := short_small hv hf
    have := lit_frac n.neg (a := []) (by simp [Digits]) (digits_append (digits_zeros (-n.point).toNat) hv.1)
    rw [List.nil_append, List.nil_append] at this
    rw [e, this, decimal_append, decimal_zeros, Num.value, List.length_append, List.length_replicate]
    have : -(((-n.point).toNat + n.digits.length : Nat) : Int) = n.exp := by
      simp only [Num.point] at h1 h2 ⊢; omega
    rw [this]
    simp
  · obtain ⟨_, _, e⟩ := short_single hv hf
    rw [e, lit_exp _ hv.1 hne, Num.value]
    have : n.point - 1 = n.exp := by simp only [Num.point]; omega
    rw [this]
  · have hm := hg h1 h2
    have e := short_long hv hf (by omega)
    rw [e, lit_frac_exp _ (fun c hc => hv.1 c (List.mem_of_mem_take hc)) (fun c hc => hv.1 c (List.mem_of_mem_drop hc)),
      List.take_append_drop, List.length_drop, Num.value]
    have : n.point - 1 - ((n.digits.length - 1 : Nat) : Int) = n.exp := by
      simp only [Num.point]; omega
    rw [this]

/-! ## The shape -/

theorem run_sign (b : Bool) (r : List Char) (h : r ≠ []) (hd : ∀ c u, r = c :: u → c.isDigit = true ∨ c = '.') :
    (signText b ++ r).foldl step .start = r.foldl step .start := by
  cases b with
  | false => rfl
  | true =>
    cases r with
    | nil => exact absurd rfl h
    | cons c r =>
      simp only [signText, if_true, List.cons_append, List.nil_append, List.foldl_cons]
      congr 1
      rcases hd c r rfl with h | rfl
      · rw [step_digit h, step_digit h, step_sign (by decide)]; rfl
      · decide

theorem digits_first {a : List Char} (ha : Digits a) (hne : a ≠ []) (r : List Char) : ∀ c u, a ++ r = c :: u → c.isDigit = true ∨ c = '.' := by
  cases a with
  | nil => exact absurd rfl hne
  | cons d a => intro c u e; simp at e; exact .inl (by rw [← e.1]; exact ha d (by simp))

theorem run_exp (e : Int) (s : St) (h : s = .int ∨ s = .frac) : ('e' :: expText e).foldl step s = .exp := by
  rw [List.foldl_cons, step_e (by decide)]
  obtain ⟨h1, h2, _⟩ := natText_spec e.natAbs
  unfold expText
  split
  · rw [List.foldl_cons, step_sign (by decide), run_digits h1 _ h2]
    rcases h with rfl | rfl <;> rfl
  · rw [run_digits h1 _ h2]
    rcases h with rfl | rfl <;> rfl

theorem not_e_digits {a : List Char} (ha : Digits a) : 'e' ∉ a ∧ 'E' ∉ a := by
  constructor <;> (intro h; have := ha _ h; revert this; decide)

theorem not_e_sign (b : Bool) : 'e' ∉ signText b ∧ 'E' ∉ signText b := by cases b <;> decide

theorem last_digit {a x : List Char} (ha : Digits a) (hne : a ≠ []) : ∃ c, (x ++ a).getLast? = some c ∧ c.isDigit = true := by
  refine ⟨a.getLast hne, by rw [getLast_append hne, List.getLast?_eq_some_getLast hne], ha _ (List.getLast_mem hne)⟩

theorem last_exp (x : List Char) (e : Int) : ∃ c, (x ++ 'e' :: expText e).getLast? = some c ∧ c.isDigit = true := by
  refine ⟨digitChar (e.natAbs % 10), ?_, (digitChar_digit _ (Nat.mod_lt _ (by omega))).1⟩
  rw [getLast_append (by simp), List.getLast?_cons, expText_last]
  rfl

/-- A written number is a number, ends with a digit, and is a plain decimal fraction where a point may follow. -/
theorem short_shape (hv : n.Valid) (hg : n.Good) : accept ((short n).foldl step .start) = true ∧
    (∃ c, (short n).getLast? = some c ∧ c.isDigit = true) ∧
    (n.exp < 0 → n.digits ≠ [] → ¬ n.Sci → (short n).foldl step .start = .frac ∧ 'e' ∉ short n ∧ 'E' ∉ short n) := by
  rcases form_cases n with ⟨h, hf⟩ | ⟨hne, ⟨h1, h2, hf⟩ | ⟨h1, h2, h3, hf⟩ | ⟨h1, h2, hf⟩ | ⟨h1, h2, hf⟩ | ⟨h1, h2, hf⟩⟩
  · rw [(short_zero hf).2]
    exact ⟨by decide, ⟨'0', by decide⟩, fun _ h' => absurd h h'⟩
  · obtain ⟨_, _, _, e⟩ := short_int hv hf
    have hd := digits_append hv.1 (digits_zeros n.exp.toNat)
    have hdn : n.digits ++ List.replicate n.exp.toNat '0' ≠ [] := by simp [hne]
    rw [e, run_sign _ _ hdn (by simpa using digits_first hd hdn []), run_digits hd _ hdn]
    exact ⟨rfl, last_digit hd hdn, fun h => by omega⟩
  · obtain ⟨_, _, _, _, e⟩ := short_mixed hv hf
    have hlen : n.point.toNat < n.digits.length := by simp only [Num.point] at h2 h3 ⊢; omega
    have ht : Digits (n.digits.take n.point.toNat) := fun c hc => hv.1 c (List.mem_of_mem_take hc)
    have hd : Digits (n.digits.drop n.point.toNat) := fun c hc => hv.1 c (List.mem_of_mem_drop hc)
    have hdn : n.digits.drop n.point.toNat ≠ [] := by
      intro e; have := congrArg List.length e; simp only [List.length_drop, List.length_nil] at this; omega
    have htn := take_ne (l := n.digits) (k := n.point.toNat) (by omega) (by omega)
    have hrun : (short n).foldl step .start = .frac := by
      rw [e, run_sign _ _ (by simp) (digits_first ht htn _), List.foldl_append, run_digits ht _ htn, List.foldl_cons, step_dot,
        run_digits hd _ hdn]
      rfl
    rw [hrun]
    refine ⟨rfl, ?_, fun _ _ _ => ⟨rfl, ?_⟩⟩
    · have := last_digit (x := signText n.neg ++ n.digits.take n.point.toNat ++ ['.']) hd hdn
      simpa [e] using this
    · rw [e]
      have := not_e_sign n.neg; have := not_e_digits ht; have := not_e_digits hd
      simp_all
  · obtain ⟨_, _, _, e⟩ := short_small hv hf
    have hd := digits_append (digits_zeros (-n.point).toNat) hv.1
    have hdn : List.replicate (-n.point).toNat '0' ++ n.digits ≠ [] := by simp [hne]
    have hrun : (short n).foldl step .start = .frac := by
      rw [e, run_sign _ _ (by simp) (by intro c u h; simp at h; exact .inr h.1.symm), List.foldl_cons, step_dot, run_digits hd _ hdn]
      rfl
    rw [hrun]
    refine ⟨rfl, ?_, fun _ _ _ => ⟨rfl, ?_⟩⟩
    · have := last_digit (x := signText n.neg ++ ['.']) hd hdn
      simpa [e] using this
    · rw [e]
      have h4 := not_e_sign n.neg; have h5 := not_e_digits hd
      simp only [List.mem_append, List.mem_cons] at h5 ⊢
      constructor
      · rintro (h | h | h)
        · exact h4.1 h
        · cases h
        · exact h5.1 h
      · rintro (h | h | h)
        · exact h4.2 h
        · cases h
        · exact h5.2 h
  · obtain ⟨_, _, e⟩ := short_single hv hf
    have hrun : (short n).foldl step .start = .exp := by
      rw [e, run_sign _ _ (by simp) (digits_first hv.1 hne _), List.foldl_append, run_digits hv.1 _ hne]
      exact run_exp _ _ (.inl rfl)
    rw [hrun]
    refine ⟨rfl, ?_, fun _ _ h => absurd h1 h⟩
    have := last_exp (signText n.neg ++ n.digits) (n.point - 1)
    simpa [e] using this
  · have hm := hg h1 h2
    have e := short_long hv hf (by omega)
    have ht : Digits (n.digits.take 1) := fun c hc => hv.1 c (List.mem_of_mem_take hc)
    have hd : Digits (n.digits.drop 1) := fun c hc => hv.1 c (List.mem_of_mem_drop hc)
    have hdn : n.digits.drop 1 ≠ [] := by
      intro e; have := congrArg List.length e; simp only [List.length_drop, List.length_nil] at this; omega
    have htn := take_ne (l := n.digits) (k := 1) (by omega) (by omega)
    have hrun : (short n).foldl step .start = .exp := by
      rw [e, List.append_assoc, run_sign _ _ (by simp) (digits_first ht htn _), List.foldl_append, run_digits ht _ htn, List.cons_append,
        List.foldl_cons, step_dot, List.foldl_append, run_digits hd _ hdn]
      exact run_exp _ _ (.inr rfl)
    rw [hrun]
    refine ⟨rfl, ?_, fun _ _ h => absurd h1 h⟩
    have := last_exp (signText n.neg ++ (n.digits.take 1 ++ '.' :: n.digits.drop 1)) (n.point - 1)
    simpa [e] using this

/-- The number ends where `r` begins. -/
theorem short_apart (hv : n.Valid) (hg : n.Good) {r : List Char}
    (hr : ∀ c u, r = c :: u → c.isDigit = false ∧ isE c = false ∧ (c = '.' → n.exp < 0 ∧ n.digits ≠ [] ∧ ¬ n.Sci)) :
    Apart (short n) r := by
  obtain ⟨h1, ⟨c, h2, h3⟩, h4⟩ := short_shape hv hg
  refine ⟨longest_of ((rustFloat_iff _).mp h1) (fun c u e => (hr c u e).1) ?_ ?_, ?_⟩
  · rintro hi u rfl
    obtain ⟨g1, g2, g3⟩ := (hr '.' u rfl).2.2 rfl
    rw [(h4 g1 g2 g3).1] at hi
    cases hi
  · rintro - e y u rfl he
    rw [(hr e _ rfl).2.1] at he
    cases he
  · intro hd
    cases r with
    | nil => cases hd
    | cons d u =>
      simp at hd
      obtain ⟨g1, g2, g3⟩ := (hr d u rfl).2.2 hd
      refine ⟨?_, (h4 g1 g2 g3).2⟩
      rw [h2]
      simp only [ne_eq, Option.some.injEq]
      rintro rfl
      revert h3; decide

theorem neg_head (hv : n.Valid) (hneg : n.neg = true) (hne : n.digits ≠ []) : ∃ u, short n = '-' :: u := by
  rcases form_cases n with ⟨h, hf⟩ | ⟨_, ⟨h1, h2, hf⟩ | ⟨h1, h2, h3, hf⟩ | ⟨h1, h2, hf⟩ | ⟨h1, h2, hf⟩ | ⟨h1, h2, hf⟩⟩
  · exact absurd h hne
  · rw [(short_int hv hf).2.2.2, hneg]; exact ⟨_, rfl⟩
  · rw [(short_mixed hv hf).2.2.2.2, hneg]; exact ⟨_, rfl⟩
  · rw [(short_small hv hf).2.2.2, hneg]; exact ⟨_, rfl⟩
  · rw [(short_single hv hf).2.2, hneg]; exact ⟨_, rfl⟩
  · obtain ⟨hl, _, hr⟩ := form_long hf
    by_cases hx : (n.point - 1).natAbs % 10 = 0
    · have hlast : (ryu n).getLast? = some '0' := by
        rw [hr, getLast_append (by simp), getLast_append (by simp), List.getLast?_cons, expText_last, (digitChar_zero _).mpr hx]
        rfl
      have ht := take1_head hv hl ('.' :: n.digits.drop 1 ++ 'e' :: expText (n.point - 1))
      have : ∃ u, ryu n = '-' :: u := by rw [hr, hneg]; exact ⟨_, rfl⟩
      rw [short, shorten, contains_dot (by rw [hr]; simp), if_pos rfl]
      have hstrip : stripSuffix '0' (ryu n) = signText n.neg ++ (n.digits.take 1 ++ '.' :: n.digits.drop 1 ++ 'e' :: (expText (n.point - 1)).dropLast) := by
        rw [stripSuffix, if_pos hlast, hr, List.dropLast_append_of_ne_nil (by simp), List.dropLast_append_of_ne_nil (by simp),
          List.dropLast_cons_of_ne_nil (expText_ne _)]
      rw [hstrip, shortenPoint]
      have hxl : (signText n.neg ++ (n.digits.take 1 ++ '.' :: n.digits.drop 1 ++ 'e' :: (expText (n.point - 1)).dropLast)).getLast? ≠ some '.' := by
        rw [getLast_append (by simp), getLast_append (by simp)]
        intro h
        have := List.mem_of_getLast? h
        simp only [List.mem_cons] at this
        rcases this with h | h
        · cases h
        · rcases expText_chars _ _ (List.dropLast_subset _ h) with h | h
          · revert h; decide
          · cases h
      have h0 := shortenPoint_of hxl
      rw [shortenPoint] at h0
      rw [h0]
      have ht := take1_head hv hl ('.' :: n.digits.drop 1 ++ 'e' :: (expText (n.point - 1)).dropLast)
      rw [List.append_assoc, dlz_id _ ht.1 ht.2, hneg]
      exact ⟨_, rfl⟩
    · rw [short_long hv hf hx, hneg]; exact ⟨_, rfl⟩

theorem small_head (hv : n.Valid) (hneg : n.neg = false) (hne : n.digits ≠ []) (h1 : -5 < n.point) (h2 : n.point ≤ 0) :
    (∃ u, short n = '.' :: u) ∧ "0.".toList.isPrefixOf (ryu n) = true := by
  have hl : 0 < n.digits.length := List.length_pos_iff.mpr hne
  rcases form_cases n with ⟨h, hf⟩ | ⟨_, ⟨g1, g2, hf⟩ | ⟨g1, g2, g3, hf⟩ | ⟨g1, g2, hf⟩ | ⟨g1, g2, hf⟩ | ⟨g1, g2, hf⟩⟩
  · exact absurd h hne
  · simp only [Num.point] at h2; omega
  · omega
  · rw [(short_small hv hf).2.2.2, hneg]
    refine ⟨⟨_, rfl⟩, ?_⟩
    have hz : ¬ n.isZero = true := by simpa [Num.isZero] using hne
    rw [ryu, if_neg hz, if_neg (by simp only [Num.point] at h2 ⊢; omega), if_neg (by omega), if_pos ⟨h1, h2⟩, hneg]
    simp [signText, List.isPrefixOf]
  · have := g1.2; omega
  · have := g1.2; omega

/-! ## Arguments -/

/-- `c` may be written after `p` within a command. -/
def Next (p c : Num) : Prop := ¬ (p.Sci ∧ p.exp < 0 ∧ c.neg = false ∧ c.digits ≠ [] ∧ -4 < c.point ∧ c.point ≤ 0)

/-- `c` may start an implicit command after `p`. -/
def NextImplicit (p c : Num) : Prop :=
  ¬ (p.digits ≠ [] ∧ p.exp < 0 ∧ c.neg = false ∧ c.digits ≠ [] ∧ (c.point ≤ -5 ∨ (c.point ≤ 0 ∧ p.Sci)))

theorem sep_space (b : Bool) : Sep (spaceText b) := by
  refine ⟨spaceText b, [], ?_, by simp [Blank], .inl (by simp)⟩
  cases b <;> simp [spaceText, Blank, isWhitespace]

theorem space_apart (hv : n.Valid) (hg : n.Good) (r : List Char) : Apart (short n) (spaceText true ++ r) := by
  apply short_apart hv hg
  intro c u e
  simp [spaceText] at e
  rw [← e.1]
  exact ⟨by decide, by decide, fun h => absurd h (by decide)⟩

theorem neg_apart (hp : p.Valid) (hpg : p.Good) (hc : c.Valid) (hneg : c.neg = true) (hne : c.digits ≠ []) (r : List Char) :
    Apart (short p) (short c ++ r) := by
  obtain ⟨u, hu⟩ := neg_head hc hneg hne
  apply short_apart hp hpg
  intro d v e
  rw [hu] at e
  simp at e
  rw [← e.1]
  exact ⟨by decide, by decide, fun h => absurd h (by decide)⟩

theorem small_apart (hp : p.Valid) (hpg : p.Good) (hc : c.Valid) (hneg : c.neg = false) (hne : c.digits ≠ []) (h1 : -5 < c.point)
    (h2 : c.point ≤ 0) (h3 : p.exp < 0 ∧ p.digits ≠ [] ∧ ¬ p.Sci) (r : List Char) : Apart (short p) (short c ++ r) := by
  obtain ⟨⟨u, hu⟩, _⟩ := small_head hc hneg hne h1 h2
  apply short_apart hp hpg
  intro d v e
  rw [hu] at e
  simp at e
  rw [← e.1]
  exact ⟨by decide, by decide, fun _ => h3⟩

theorem next_apart (hp : p.Valid) (hpg : p.Good) (hc : c.Valid) (h : Next p c) (r : List Char) :
    Apart (short p) (spaceText (spaceBefore p c) ++ short c ++ r) := by
  cases hs : spaceBefore p c with
  | true => rw [List.append_assoc]; exact space_apart hp hpg _
  | false =>
    simp only [spaceBefore, Bool.or_eq_false_iff, Bool.and_eq_false_iff] at hs
    obtain ⟨⟨⟨⟨s1, s2⟩, s3⟩, s4⟩, s5⟩ := hs
    have hne : c.digits ≠ [] := by simpa [Num.isZero] using s2
    rw [show spaceText false = [] from rfl, List.nil_append]
    cases hneg : c.neg with
    | true => exact neg_apart hp hpg hc hneg hne r
    | false =>
      have h1 : c.point ≤ 0 := by simp [Num.geOne, hneg, s2] at s1; omega
      have h2 : -4 < c.point := by simp [Num.tiny, hneg, s2] at s5; omega
      have h0 := (small_head hc hneg hne (by omega) h1).2
      have hi : p.isInt = false := by
        rcases s4 with s4 | s4
        · exact s4
        · rw [h0] at s4; cases s4
      simp [Num.isInt, Num.isZero] at hi
      exact small_apart hp hpg hc hneg hne (by omega) h1 ⟨hi.2, hi.1, fun hsci => h ⟨hsci, hi.2, hneg, hne, h2, h1⟩⟩ r

/-- A number that stands for a flag. -/
def IsFlag (n : Num) : Prop := n.digits = [] ∨ n = ⟨false, ['1'], 0⟩

/-- Arguments that fit a command: as many as it takes, and flags where it takes flags. -/
inductive Fits : List Bool → List Num → Prop
  | nil : Fits [] []
  | num {fs : List Bool} {a : List Num} (n : Num) : n.Valid → Fits fs a → Fits (false :: fs) (n :: a)
  | flag {fs : List Bool} {a : List Num} (n : Num) : n.Valid → IsFlag n → Fits fs a → Fits (true :: fs) (n :: a)

/-- Arguments that are read as they are written. -/
def SafeArgs (a : List Num) : Prop :=
  (∀ n ∈ a, n.Good) ∧ ∀ i p c, a[i]? = some p → a[i + 1]? = some c → Next p c

theorem safe_tail {n : Num} {a : List Num} (h : SafeArgs (n :: a)) : SafeArgs a :=
  ⟨fun m hm => h.1 m (by simp [hm]), fun i p c hp hc => h.2 (i + 1) p c (by simpa using hp) (by simpa using hc)⟩

theorem flag_short (h : IsFlag n) : ∃ c, (c = '0' ∨ c = '1') ∧ short n = [c] := by
  rcases h with h | rfl
  · refine ⟨'0', .inl rfl, ?_⟩
    rcases form_cases n with ⟨h, hf⟩ | ⟨h', _⟩
    · exact (short_zero hf).2
    · exact absurd h h'
  · exact ⟨'1', .inr rfl, by decide +kernel⟩

theorem args_ok {fs : List Bool} {a : List Num} (hf : Fits fs a) : ∀ (_ : SafeArgs a) (_ : ∀ n ∈ a, finite (short n) = true)
    (s r : List Char) (_ : Sep s) (_ : ∀ p, a.getLast? = some p → Apart (short p) (s ++ r)) (_ : a = [] → s = []),
    Args finite Sep fs (a.map short) (argsText a ++ s ++ r) r := by
  induction hf with
  | nil => intro _ _ s r _ _ he; simp only [he rfl, List.map_nil, argsText, List.nil_append]; exact .nil r
  | @num fs a n hv hfit ih =>
    intro hs hfin s r hsep hap _
    cases a with
    | nil =>
      cases hfit
      have := Args.num (hap n rfl) (hfin n (by simp)) hsep (Args.nil (finite := finite) (sep := Sep) r)
      simpa [argsText, argsFrom] using this
    | cons c a =>
      have hcv : c.Valid := by cases hfit <;> assumption
      have ih := ih (safe_tail hs) (fun m hm => hfin m (by simp [hm])) s r hsep (fun p hp => hap p (by simpa using hp)) (by simp)
      have h1 := next_apart (p := n) hv (hs.1 n (by simp)) hcv (hs.2 0 n c rfl rfl) (argsFrom c a ++ s ++ r)
      have e1 : argsText (n :: c :: a) ++ s ++ r = short n ++ spaceText (spaceBefore n c) ++ (argsText (c :: a) ++ s ++ r) := by
        simp [argsText, argsFrom]
      rw [e1]
      refine Args.num ?_ (hfin n (by simp)) (sep_space _) ih
      have e2 : spaceText (spaceBefore n c) ++ (argsText (c :: a) ++ s ++ r) =
        spaceText (spaceBefore n c) ++ short c ++ (argsFrom c a ++ s ++ r) := by simp [argsText]
      rw [e2]
      exact h1
  | @flag fs a n hv hfl hfit ih =>
    intro hs hfin s r hsep hap _
    obtain ⟨d, hd, hsh⟩ := flag_short hfl
    cases a with
    | nil =>
      cases hfit
      have := Args.flag (finite := finite) hd hsep (Args.nil (finite := finite) (sep := Sep) r)
      simpa [argsText, argsFrom, hsh] using this
    | cons c a =>
      have ih := ih (safe_tail hs) (fun m hm => hfin m (by simp [hm])) s r hsep (fun p hp => hap p (by simpa using hp)) (by simp)
      have e1 : argsText (n :: c :: a) ++ s ++ r = d :: spaceText (spaceBefore n c) ++ (argsText (c :: a) ++ s ++ r) := by
        simp [argsText, argsFrom, hsh]
      rw [e1, List.map_cons, hsh]
      exact Args.flag hd (sep_space _) ih

/-! ## Commands -/

/-- Commands that follow a command `n`: an implicit one is the one that SVG would understand. -/
inductive Written : Kind → List (Data Num) → Prop
  | nil (n : Kind) : Written n []
  | letter {n k : Kind} {a : List Num} {ds : List (Data Num)} : Fits k.shape a → Written k ds → Written n (.plain k a :: ds)
  | again {n k : Kind} {a : List Num} {ds : List (Data Num)} : continues n = some k → Fits k.shape a → Written k ds →
      Written n (.implicit (.plain k a) :: ds)

/-- A path that starts with a move. -/
def WrittenPath (l : List (Data Num)) : Prop := ∃ k a ds, l = .plain k a :: ds ∧ (k = .moveTo ∨ k = .moveBy) ∧ Fits k.shape a ∧ Written k ds

/-- A path whose numbers are read as they are written. -/
def SafePath (l : List (Data Num)) : Prop :=
  (∀ d ∈ l, SafeArgs d.args) ∧
  ∀ i d d', l[i]? = some d → l[i + 1]? = some d' → d'.isImplicit = true → ∀ p c, d.args.getLast? = some p → d'.args.head? = some c →
    NextImplicit p c

theorem safePath_tail {d : Data Num} {l : List (Data Num)} (h : SafePath (d :: l)) : SafePath l :=
  ⟨fun m hm => h.1 m (by simp [hm]), fun i p c hp hc => h.2 (i + 1) p c (by simpa using hp) (by simpa using hc)⟩

/-- The same commands with the same numbers. -/
def SameCommand (x : Data (List Char)) (d : Data Num) : Prop :=
  x.asExplicit.id = d.asExplicit.id ∧ All2 (fun t n => litValue t = n.value) x.args d.args

theorem fits_length {fs : List Bool} {a : List Num} (h : Fits fs a) : a.length = fs.length := by
  induction h <;> simp_all

theorem fits_valid {fs : List Bool} {a : List Num} (h : Fits fs a) : ∀ n ∈ a, n.Valid := by
  induction h <;> simp_all

theorem same_args {a : List Num} (hv : ∀ n ∈ a, n.Valid) (hg : ∀ n ∈ a, n.Good) :
    All2 (fun t n => litValue t = Num.value n) (a.map short) a := by
  induction a with
  | nil => exact .nil
  | cons n a ih =>
    exact .cons (short_value (hv n (by simp)) (hg n (by simp))) (ih (fun m hm => hv m (by simp [hm])) (fun m hm => hg m (by simp [hm])))

theorem mark_explicit (o : Option Kind) (k : Kind) (a : List (List Char)) : (mark o k a).asExplicit = .plain k a ∧ (mark o k a).args = a := by
  unfold mark
  split <;> exact ⟨rfl, rfl⟩

theorem implicit_apart (hp : p.Valid) (hpg : p.Good) (hc : c.Valid) (h : NextImplicit p c) {args prev : List Num}
    (hpl : prev.getLast? = some p) (hch : args.head? = some c) (r : List Char) :
    Apart (short p) (spaceText (isSpaceNeeded args prev && args.head?.any Num.nonneg) ++ (short c ++ r)) := by
  cases hs : (isSpaceNeeded args prev && args.head?.any Num.nonneg) with
  | true => exact space_apart hp hpg _
  | false =>
    simp only [isSpaceNeeded, hpl, hch, Option.any_some, Bool.and_eq_false_iff, Bool.or_eq_false_iff] at hs
    rw [show spaceText false = [] from rfl, List.nil_append]
    have hne_of : c.nonneg = false → c.neg = true ∧ c.digits ≠ [] := by
      intro h; simp [Num.nonneg, Num.isZero] at h; exact h
    rcases hs with ⟨s1, s2, s3⟩ | s4
    · have hne : c.digits ≠ [] := by simpa [Num.isZero] using s3
      cases hneg : c.neg with
      | true => exact neg_apart hp hpg hc hneg hne r
      | false =>
        have h1 : c.point ≤ 0 := by simp [Num.geOne, hneg, s3] at s2; omega
        simp [Num.isInt, Num.isZero] at s1
        have h2 : -5 < c.point := by
          by_cases h2 : -5 < c.point
          · exact h2
          · exact absurd ⟨s1.1, s1.2, hneg, hne, .inl (by omega)⟩ h
        exact small_apart hp hpg hc hneg hne h2 h1 ⟨s1.2, s1.1, fun hsci => h ⟨s1.1, s1.2, hneg, hne, .inr ⟨h1, hsci⟩⟩⟩ r
    · obtain ⟨hneg, hne⟩ := hne_of s4
      exact neg_apart hp hpg hc hneg hne r

theorem letter_apart (hp : p.Valid) (hpg : p.Good) {d : Char} (hd : d ∈ "MmLlHhVvCcSsQqTtAaZz".toList) (r : List Char) :
    Apart (short p) (d :: r) := by
  have hall : ∀ x ∈ "MmLlHhVvCcSsQqTtAaZz".toList, x.isDigit = false ∧ isE x = false ∧ x ≠ '.' := by decide +kernel
  apply short_apart hp hpg
  intro e u h
  simp at h
  rw [← h.1]
  exact ⟨(hall d hd).1, (hall d hd).2.1, fun h => absurd h (hall d hd).2.2⟩

theorem kind_letter_mem (k : Kind) : k.letter ∈ "MmLlHhVvCcSsQqTtAaZz".toList := by cases k <;> decide +kernel

/-- The text ends with a digit or a letter. -/
def LastOk (t : List Char) : Prop := ∃ c, t.getLast? = some c ∧ c ≠ ',' ∧ c ≠ '.'

theorem lastOk_append {a b : List Char} (h : LastOk b) : LastOk (a ++ b) := by
  obtain ⟨c, h1, h2⟩ := h
  refine ⟨c, ?_, h2⟩
  rw [getLast_append, h1]
  rintro rfl; cases h1

theorem lastOk_argsFrom (a : List Num) : ∀ (t : List Char) (p : Num), LastOk t → (∀ n ∈ a, n.Valid ∧ n.Good) → LastOk (t ++ argsFrom p a) := by
  induction a with
  | nil => intro t p h _; simpa [argsFrom] using h
  | cons c a ih =>
    intro t p h hv
    obtain ⟨d, h1, h2⟩ := (short_shape (hv c (by simp)).1 (hv c (by simp)).2).2.1
    have := ih (t ++ (spaceText (spaceBefore p c) ++ short c)) c (lastOk_append (lastOk_append ⟨d, h1, by rintro rfl; revert h2; decide,
      by rintro rfl; revert h2; decide⟩)) (fun n hn => hv n (by simp [hn]))
    simpa [argsFrom] using this

theorem lastOk_args {a : List Num} (t : List Char) (h : LastOk t) (hv : ∀ n ∈ a, n.Valid ∧ n.Good) : LastOk (t ++ argsText a) := by
  cases a with
  | nil => simpa [argsText] using h
  | cons c a =>
    obtain ⟨d, h1, h2⟩ := (short_shape (hv c (by simp)).1 (hv c (by simp)).2).2.1
    have := lastOk_argsFrom a (t ++ short c) c (lastOk_append ⟨d, h1, by rintro rfl; revert h2; decide, by rintro rfl; revert h2; decide⟩)
      (fun n hn => hv n (by simp [hn]))
    simpa [argsText] using this

theorem lastOk_letter (k : Kind) (t : List Char) : LastOk (t ++ [k.letter]) :=
  lastOk_append ⟨k.letter, rfl, by cases k <;> decide, by cases k <;> decide⟩

/-- The commands after the first. -/
theorem tail_ok {n : Kind} {ds : List (Data Num)} (hw : Written n ds) : ∀ {prev : Data Num} (_ : prev.args.length = n.shape.length)
    (_ : SafePath (prev :: ds)) (_ : ∀ d ∈ ds, ∀ m ∈ d.args, finite (short m) = true) (_ : ∀ m ∈ prev.args, m.Valid),
    ∃ b m L, formatFrom prev.args ds = spaceText b ++ m ∧ Svg finite n m L ∧ All2 SameCommand L ds ∧
      (∀ p, prev.args.getLast? = some p → Apart (short p) (spaceText b ++ m)) ∧ (prev.args = [] → b = false) ∧
      (∀ t, LastOk t → LastOk (t ++ formatFrom prev.args ds)) := by
  induction hw with
  | nil n =>
    intro prev _ hs _ hv
    refine ⟨false, [], [], rfl, .nil n, .nil, ?_, fun _ => rfl, fun t h => by simpa [formatFrom] using h⟩
    intro p hp
    have hm := List.mem_of_getLast? hp
    apply short_apart (hv p hm) ((hs.1 prev (by simp)).1 p hm)
    intro c u e
    simp [spaceText] at e
  | @letter n k a ds hfit hw ih =>
    intro prev hlen hs hfin hv
    have hva := fits_valid hfit
    have hga := (hs.1 (.plain k a) (by simp)).1
    obtain ⟨b, m, L, e1, h1, h2, h3, h4, h5⟩ := ih (prev := .plain k a) (fits_length hfit) (safePath_tail hs)
      (fun d hd => hfin d (by simp [hd])) (fits_valid hfit)
    simp only [Data.args] at e1 h3 h4 h5
    have hargs := args_ok hfit (hs.1 (.plain k a) (by simp)) (fun m hm => hfin (.plain k a) (by simp) m hm) (spaceText b) m (sep_space b) h3
      (fun h => by rw [h4 h]; rfl)
    have hlead : leader prev.args (.plain k a) = [k.letter] := by
      simp [leader, Data.args, Data.isImplicit, Data.id, ID.letter]
    have e2 : formatFrom prev.args (.plain k a :: ds) = k.letter :: (argsText a ++ spaceText b ++ m) := by
      simp only [formatFrom, hlead, Data.args, e1]; simp
    have hsame : ∀ o, SameCommand (mark o k (a.map short)) (.plain k a) := by
      intro o
      refine ⟨by rw [(mark_explicit o k _).1]; rfl, ?_⟩
      rw [(mark_explicit o k _).2]
      exact same_args hva hga
    have hap : ∀ p, prev.args.getLast? = some p → Apart (short p) (spaceText false ++ (k.letter :: (argsText a ++ spaceText b ++ m))) := by
      intro p hp
      have hm := List.mem_of_getLast? hp
      exact letter_apart (hv p hm) ((hs.1 prev (by simp)).1 p hm) (kind_letter_mem k) _
    have hlast : ∀ t, LastOk t → LastOk (t ++ formatFrom prev.args (.plain k a :: ds)) := by
      intro t ht
      have := h5 _ (lastOk_args (t ++ [k.letter]) (lastOk_letter k t) (fun n hn => ⟨hva n hn, hga n hn⟩))
      simpa [formatFrom, hlead, Data.args] using this
    by_cases hk : k = .closePath
    · subst hk
      cases hfit
      have hb := h4 rfl
      subst hb
      refine ⟨false, _, mark (some n) .closePath [] :: L, e2, ?_, .cons (hsame _) h2, hap, fun _ => rfl, hlast⟩
      have := Svg.close (n := n) (c := 'Z') (.inr rfl) (w := []) (by simp [Blank]) (fun _ => rfl) h1
      simpa [argsText, spaceText, Kind.letter] using this
    · refine ⟨false, _, mark (continues n) k (a.map short) :: L, e2, ?_, .cons (hsame _) h2, hap, fun _ => rfl, hlast⟩
      exact Svg.letter (w := []) (kind_letter k) hk (by simp [Blank]) hargs h1
  | @again n k a ds hc hfit hw ih =>
    intro prev hlen hs hfin hv
    have hva := fits_valid hfit
    have hga := (hs.1 (.implicit (.plain k a)) (by simp)).1
    obtain ⟨b, m, L, e1, h1, h2, h3, h4, h5⟩ := ih (prev := .implicit (.plain k a)) (fits_length hfit) (safePath_tail hs)
      (fun d hd => hfin d (by simp [hd])) (fits_valid hfit)
    simp only [Data.args] at e1 h3 h4 h5
    have hargs := args_ok hfit (hs.1 (.implicit (.plain k a)) (by simp)) (fun m hm => hfin (.implicit (.plain k a)) (by simp) m hm) (spaceText b) m (sep_space b) h3
      (fun h => by rw [h4 h]; rfl)
    have hk : k ≠ .closePath := by cases n <;> simp [continues] at hc <;> subst hc <;> simp
    have hnn : n ≠ .closePath := by rintro rfl; simp [continues] at hc
    obtain ⟨fs, hfs⟩ := shape_cons hk
    obtain ⟨fs', hfs'⟩ := shape_cons hnn
    have hane : a ≠ [] := by rintro rfl; rw [hfs] at hfit; cases hfit
    have hpne : prev.args ≠ [] := by intro h; rw [h, hfs'] at hlen; simp at hlen
    obtain ⟨c, a', rfl⟩ : ∃ c a', a = c :: a' := by cases a with | nil => exact absurd rfl hane | cons c a => exact ⟨c, a, rfl⟩
    have hlead : leader prev.args (.implicit (.plain k (c :: a'))) =
        spaceText (isSpaceNeeded (c :: a') prev.args && (c :: a').head?.any Num.nonneg) := by
      have hpe : prev.args.isEmpty = false := by simpa using hpne
      simp [leader, Data.args, Data.isImplicit, hpe]
    refine ⟨(isSpaceNeeded (c :: a') prev.args && (c :: a').head?.any Num.nonneg), argsText (c :: a') ++ spaceText b ++ m,
      .implicit (.plain k ((c :: a').map short)) :: L, ?_, ?_, ?_, ?_, fun h => absurd h hpne, ?_⟩
    · simp only [formatFrom, hlead, Data.args, e1]; simp
    · exact Svg.again hc (kind_letter k) hargs h1
    · exact .cons ⟨rfl, same_args hva hga⟩ h2
    · intro p hp
      have hm := List.mem_of_getLast? hp
      have := implicit_apart (hv p hm) ((hs.1 prev (by simp)).1 p hm) (hva c (by simp)) (args := c :: a')
        (hs.2 0 prev (.implicit (.plain k (c :: a'))) rfl rfl rfl p c hp rfl) hp rfl (argsFrom c a' ++ spaceText b ++ m)
      simpa [argsText] using this
    · intro t ht
      obtain ⟨d, g1, g2⟩ := (short_shape (hva c (by simp)) (hga c (List.mem_cons_self))).2.1
      have h6 := lastOk_argsFrom a' (t ++ (spaceText (isSpaceNeeded (c :: a') prev.args && (c :: a').head?.any Num.nonneg) ++ short c)) c
        (lastOk_append (lastOk_append ⟨d, g1, by rintro rfl; revert g2; decide, by rintro rfl; revert g2; decide⟩))
        (fun n hn => ⟨hva n (by simp [hn]), hga n (List.mem_cons_of_mem _ hn)⟩)
      have := h5 _ h6
      simpa [formatFrom, hlead, Data.args, argsText] using this

theorem format_cons (d : Data Num) (hd : d.isImplicit = false) (ds : List (Data Num)) :
    format (d :: ds) = d.id.letter :: argsText d.args ++ formatFrom d.args ds := by
  cases ds with
  | nil =>
    cases d with
    | plain k a => simp [format, Data.display, ID.display, Data.id, ID.isImplicit, formatFrom]
    | implicit d => cases hd
  | cons d' ds => rfl

/-- **C21 (partial)** A path that starts with a move, and whose numbers avoid the cases below, is read back after it was
written: the same commands (up to whether a letter was written) with numbers of the same value. -/
theorem format_partial {l : List (Data Num)} (hw : WrittenPath l) (hs : SafePath l)
    (hfin : ∀ d ∈ l, ∀ n ∈ d.args, finite (short n) = true) :
    ∃ L q, (∀ fuel > l.length, parseString finite fuel (format l) = some (.ok L q)) ∧ All2 SameCommand L l := by
  obtain ⟨k, a, ds, rfl, hk, hfit, hw⟩ := hw
  have hva := fits_valid hfit
  have hga := (hs.1 (.plain k a) (by simp)).1
  obtain ⟨b, m, L, e1, h1, h2, h3, h4, h5⟩ := tail_ok (finite := finite) hw (prev := .plain k a) (fits_length hfit) hs
    (fun d hd => hfin d (by simp [hd])) hva
  simp only [Data.args] at e1 h3 h4 h5
  have hargs := args_ok hfit (hs.1 (.plain k a) (by simp)) (fun m hm => hfin (.plain k a) (by simp) m hm) (spaceText b) m (sep_space b) h3
      (fun h => by rw [h4 h]; rfl)
  have ef : format (.plain k a :: ds) = k.letter :: (argsText a ++ spaceText b ++ m) := by
    rw [format_cons _ rfl]
    simp only [Data.args, e1]
    simp [Data.id, ID.letter]
  have hlast : LastOk (format (.plain k a :: ds)) := by
    have := h5 _ (lastOk_args [k.letter] (by simpa using lastOk_letter k []) (fun n hn => ⟨hva n hn, hga n hn⟩))
    rw [format_cons _ rfl]
    simpa [Data.args, Data.id, ID.letter] using this
  have hpath : SvgPath finite (k.letter :: [] ++ (argsText a ++ spaceText b ++ m)) (.plain k (a.map short) :: L) := by
    refine SvgPath.move (w := []) ?_ (by simp [Blank]) ?_ h1
    · rcases hk with rfl | rfl <;> simp [Kind.letter]
    · have : k.shape = [false, false] := by rcases hk with rfl | rfl <;> rfl
      rw [← this]; exact hargs
  have hsame : All2 SameCommand (.plain k (a.map short) :: L) (.plain k a :: ds) := .cons ⟨rfl, same_args hva hga⟩ h2
  refine ⟨_, ⟨format (.plain k a :: ds), width (format (.plain k a :: ds))⟩, ?_, hsame⟩
  intro fuel hfuel
  have := parse_svg (w := []) hpath (by simp [Blank]) (by
    rw [List.cons_append, List.nil_append, ← ef]
    obtain ⟨c, g1, g2, g3⟩ := hlast
    exact ⟨by rw [g1]; simp [g2], by rw [g1]; simp [g3]⟩) fuel (by
      have := hsame.length_eq
      omega)
  rw [List.nil_append, List.cons_append, List.nil_append, ← ef] at this
  exact this

/-! ## What is not read back -/

theorem short_bad (hv : n.Valid) (h : ¬ n.Good) : n.Sci ∧ 2 ≤ n.digits.length ∧ (n.point - 1) % 10 = 0 ∧
    short n = signText n.neg ++ (n.digits.take 1 ++ '.' :: n.digits.drop 1 ++ 'e' :: (expText (n.point - 1)).dropLast) := by
  have hsci : n.Sci := Decidable.byContradiction fun h' => h fun hs => absurd hs h'
  have hl : 2 ≤ n.digits.length := Decidable.byContradiction fun h' => h fun _ hl => absurd hl h'
  have hx : (n.point - 1) % 10 = 0 := Decidable.byContradiction fun h' => h fun _ _ => h'
  refine ⟨hsci, hl, hx, ?_⟩
  have hf : n.form = .long := by
    have h2 := hsci.2
    rcases form_cases n with ⟨h, hf⟩ | ⟨_, ⟨g1, g2, hf⟩ | ⟨g1, g2, g3, hf⟩ | ⟨g1, g2, hf⟩ | ⟨g1, g2, hf⟩ | ⟨g1, g2, hf⟩⟩
    · exact absurd h hsci.1
    · simp only [Num.point] at h2 g2; omega
    · omega
    · omega
    · omega
    · exact hf
  obtain ⟨_, _, hr⟩ := form_long hf
  have hlast : (ryu n).getLast? = some '0' := by
    rw [hr, getLast_append (by simp), getLast_append (by simp), List.getLast?_cons, expText_last, (digitChar_zero _).mpr (by omega)]
    rfl
  rw [short, shorten, contains_dot (by rw [hr]; simp), if_pos rfl]
  have hstrip : stripSuffix '0' (ryu n) = signText n.neg ++ (n.digits.take 1 ++ '.' :: n.digits.drop 1 ++ 'e' :: (expText (n.point - 1)).dropLast) := by
    rw [stripSuffix, if_pos hlast, hr, List.dropLast_append_of_ne_nil (by simp), List.dropLast_append_of_ne_nil (by simp),
      List.dropLast_cons_of_ne_nil (expText_ne _)]
  rw [hstrip]
  have hxl : (signText n.neg ++ (n.digits.take 1 ++ '.' :: n.digits.drop 1 ++ 'e' :: (expText (n.point - 1)).dropLast)).getLast? ≠ some '.' := by
    rw [getLast_append (by simp), getLast_append (by simp)]
    intro h
    have := List.mem_of_getLast? h
    simp only [List.mem_cons] at this
    rcases this with h | h
    · cases h
    · rcases expText_chars _ _ (List.dropLast_subset _ h) with h | h
      · revert h; decide
      · cases h
  rw [shortenPoint_of hxl]
  have ht := take1_head hv hl ('.' :: n.digits.drop 1 ++ 'e' :: (expText (n.point - 1)).dropLast)
  rw [List.append_assoc, dlz_id _ ht.1 ht.2]

theorem natText_drop (k : Nat) (h : 10 ≤ k) : (natText k).dropLast = natText (k / 10) := by
  rw [natText, if_neg (by omega)]
  simp

theorem tdiv_ten (e : Int) : e.tdiv 10 = if e < 0 then -((-e) / 10) else e / 10 := by
  split
  · have : e.tdiv 10 = -((-e).tdiv 10) := by rw [Int.neg_tdiv]; omega
    rw [this, Int.tdiv_eq_ediv_of_nonneg (by omega)]
  · rw [Int.tdiv_eq_ediv_of_nonneg (by omega)]

theorem expText_drop (e : Int) (h : 10 ≤ e.natAbs) : (expText e).dropLast = expText (e.tdiv 10) := by
  unfold expText
  have hq : (e.tdiv 10).natAbs = e.natAbs / 10 := by rw [Int.natAbs_tdiv]; rfl
  by_cases hn : e < 0
  · have : e.tdiv 10 < 0 := by rw [tdiv_ten, if_pos hn]; omega
    rw [if_pos hn, if_pos this, List.dropLast_cons_of_ne_nil (natText_spec _).2.1, natText_drop _ h, hq]
  · have : ¬ e.tdiv 10 < 0 := by rw [tdiv_ten, if_neg hn]; omega
    rw [if_neg hn, if_neg this, natText_drop _ h, hq]

theorem digit_pos {c : Char} (h : c.isDigit = true) (h0 : c ≠ '0') : 0 < c.toNat - '0'.toNat := by
  have := digit_range h
  have h1 : c.toNat ≠ 48 := fun e => h0 (Char.toNat_inj.mp (by rw [e]; rfl))
  have h2 : '0'.toNat = 48 := rfl
  omega

theorem value_ne (hv : n.Valid) (hne : n.digits ≠ []) : n.value ≠ 0 := by
  have hd : 0 < decimal n.digits := by
    cases hn : n.digits with
    | nil => exact absurd hn hne
    | cons c l =>
      have h1 := hv.1 c (by simp [hn])
      have h2 := hv.2.1
      rw [hn] at h2
      simp at h2
      rw [decimal]
      have := digit_pos h1 h2
      have h3 : 0 < (c.toNat - '0'.toNat) * 10 ^ l.length := Nat.mul_pos this (Nat.pow_pos (by omega))
      omega
  have hd' : (decimal n.digits : Rat) ≠ 0 := by
    intro h
    have : (decimal n.digits : Rat) = ((0 : Nat) : Rat) := h
    have := Rat.natCast_inj.mp this
    omega
  have h10 : (10 : Rat) ^ n.exp ≠ 0 := by
    have := Rat.zpow_pos (a := 10) (n := n.exp) (by decide)
    intro h; rw [h] at this; exact absurd this (by decide)
  rw [Num.value]
  intro h
  rcases Rat.mul_eq_zero.mp h with h | h
  · rcases Rat.mul_eq_zero.mp h with h | h
    · revert h; cases n.neg <;> decide
    · exact hd' h
  · exact h10 h

/-- **C21 (violated, for every such number)** A number with a decimal point and an exponent that ends with `0` is written
as another number: `1.5e-10` becomes `1.5e-1`. -/
theorem short_value_violated (hv : n.Valid) (h : ¬ n.Good) :
    litValue (short n) = n.value * 10 ^ ((n.point - 1).tdiv 10 - (n.point - 1)) ∧ litValue (short n) ≠ n.value := by
  obtain ⟨hsci, hl, hx, e⟩ := short_bad hv h
  have h10 : 10 ≤ (n.point - 1).natAbs := by have := hsci.2; omega
  have hval : litValue (short n) = n.value * 10 ^ ((n.point - 1).tdiv 10 - (n.point - 1)) := by
    rw [e, expText_drop _ h10, lit_frac_exp _ (fun c hc => hv.1 c (List.mem_of_mem_take hc)) (fun c hc => hv.1 c (List.mem_of_mem_drop hc)),
      List.take_append_drop, List.length_drop, Num.value]
    have : (n.point - 1).tdiv 10 - ((n.digits.length - 1 : Nat) : Int) = n.exp + ((n.point - 1).tdiv 10 - (n.point - 1)) := by
      simp only [Num.point]; omega
    rw [this, Rat.zpow_add ten_ne]
    grind
  refine ⟨hval, fun heq => ?_⟩
  rw [hval] at heq
  have hne := value_ne hv hsci.1
  have h1 : (10 : Rat) ^ ((n.point - 1).tdiv 10 - (n.point - 1)) = 1 := by grind
  generalize hk : (n.point - 1).tdiv 10 - (n.point - 1) = k at h1
  have hk0 : k ≠ 0 := by
    rw [tdiv_ten] at hk
    split at hk <;> omega
  have hpow : ∀ m : Nat, 0 < m → (10 : Rat) ^ m ≠ 1 := by
    intro m hm he
    have : ((10 ^ m : Nat) : Rat) = ((1 : Nat) : Rat) := by push_cast; exact he
    have := Rat.natCast_inj.mp this
    have := Nat.one_lt_pow (by omega : m ≠ 0) (by omega : 1 < 10)
    omega
  rcases Int.lt_or_gt_of_ne hk0 with hlt | hgt
  · obtain ⟨m, rfl⟩ : ∃ m : Nat, k = -(m : Int) := ⟨k.natAbs, by omega⟩
    rw [Rat.zpow_neg, Rat.zpow_natCast] at h1
    have h2 := hpow m (by omega)
    apply h2
    have : ((10 : Rat) ^ m)⁻¹⁻¹ = 1⁻¹ := by rw [h1]
    rw [Rat.inv_inv] at this
    rw [this]; decide +kernel
  · obtain ⟨m, rfl⟩ : ∃ m : Nat, k = (m : Int) := ⟨k.natAbs, by omega⟩
    rw [Rat.zpow_natCast] at h1
    exact hpow m (by omega) h1

/-! ### Witnesses -/

/-- A decimal from its parts. -/
private def num (neg : Bool) (s : String) (e : Int) : Num := ⟨neg, s.toList, e⟩

/-- What the parser makes of a path that was written. -/
def reread (l : List (Data Num)) : Option (Res (List (Data (List Char)))) := parseString (fun _ => true) 20 (format l)

/-- **C21 (violated)** A small number and a fraction are written without a separator, and the text is refused. -/
theorem fraction_after_exponent_violated :
    format [.plain .moveTo [num false "1" (-7), num false "5" (-1)]] = "M1e-7.5".toList ∧
    reread [.plain .moveTo [num false "1" (-7), num false "5" (-1)]] = some (.err ⟨"M1e-7.5".toList, 7⟩) := by decide +kernel

/-- **C21 (violated)** The last number of a command and the first number of an implicit one run together. -/
theorem implicit_violated :
    format [.plain .moveTo [num false "1" 0, num false "5" (-1)], .implicit (.plain .lineTo [num false "1" (-7), num false "2" 0])] =
      "M1 .51e-7 2".toList ∧
    reread [.plain .moveTo [num false "1" 0, num false "5" (-1)], .implicit (.plain .lineTo [num false "1" (-7), num false "2" 0])] =
      some (.err ⟨"M1 .51e-7 2".toList, 11⟩) := by decide +kernel

/-- **C21 (violated)** The same, unnoticed: two lines become one. -/
theorem implicit_silent_violated :
    format [.plain .moveTo [num false "1" 0, num false "2" 0], .plain .horizontalTo [num false "5" (-1)],
      .implicit (.plain .horizontalTo [num false "1" (-7)])] = "M1 2H.51e-7".toList ∧
    reread [.plain .moveTo [num false "1" 0, num false "2" 0], .plain .horizontalTo [num false "5" (-1)],
      .implicit (.plain .horizontalTo [num false "1" (-7)])] =
      some (.ok [.plain .moveTo ["1".toList, "2".toList], .plain .horizontalTo [".51e-7".toList]] ⟨"M1 2H.51e-7".toList, 11⟩) := by
  decide +kernel

/-- **C21 (violated)** An implicit close-path is written as white space. -/
theorem implicit_close_violated :
    format [.plain .moveTo [num false "1" 0, num false "2" 0], .plain .closePath [], .implicit (.plain .closePath []),
      .plain .lineTo [num false "3" 0, num false "4" 0]] = "M1 2Z L3 4".toList := by decide +kernel

/-! ### Examples -/

private def sample : List (Data Num) :=
  [.plain .moveTo [num false "105" (-1), num true "5" (-1)],
   .implicit (.plain .lineTo [num false "25" (-2), num false "15" (-8)]),
   .plain .arcTo [num false "1" 0, num false "25" (-3), num false "" 0, num false "1" 0, num false "" 0, num true "3" 20, num false "1" 3],
   .plain .closePath [], .plain .closePath [], .plain .moveBy [num false "15" (-22), num false "3" 0]]

private theorem sample_written : WrittenPath sample := by
  have hv : ∀ b s e, Num.Valid (num b s e) ↔ ((∀ c ∈ s.toList, c.isDigit = true) ∧ s.toList.head? ≠ some '0' ∧ s.toList.getLast? ≠ some '0') :=
    fun _ _ _ => Iff.rfl
  refine ⟨.moveTo, _, _, rfl, .inl rfl, ?_, .again (k := .lineTo) rfl ?_ (.letter ?_ (.letter ?_ (.letter ?_ (.letter ?_ (.nil _)))))⟩
  · exact .num _ ((hv ..).mpr (by decide +kernel)) (.num _ ((hv ..).mpr (by decide +kernel)) .nil)
  · exact .num _ ((hv ..).mpr (by decide +kernel)) (.num _ ((hv ..).mpr (by decide +kernel)) .nil)
  · exact .num _ ((hv ..).mpr (by decide +kernel)) (.num _ ((hv ..).mpr (by decide +kernel)) (.num _ ((hv ..).mpr (by decide +kernel))
      (.flag _ ((hv ..).mpr (by decide +kernel)) (.inr (by decide +kernel)) (.flag _ ((hv ..).mpr (by decide +kernel)) (.inl (by decide +kernel))
      (.num _ ((hv ..).mpr (by decide +kernel)) (.num _ ((hv ..).mpr (by decide +kernel)) .nil))))))
  · exact .nil
  · exact .nil
  · exact .num _ ((hv ..).mpr (by decide +kernel)) (.num _ ((hv ..).mpr (by decide +kernel)) .nil)

private theorem adjacent_of {α : Type} {R : α → α → Prop} {l : List α} (h : ∀ x ∈ l.zip l.tail, R x.1 x.2) :
    ∀ i p c, l[i]? = some p → l[i + 1]? = some c → R p c := by
  intro i p c hp hc
  refine h (p, c) (List.mem_of_getElem? (i := i) ?_)
  rw [List.getElem?_zip_eq_some]
  exact ⟨hp, by simpa using hc⟩

instance (p c : Num) : Decidable (Next p c) := inferInstanceAs (Decidable (¬ _))
instance (p c : Num) : Decidable (NextImplicit p c) := inferInstanceAs (Decidable (¬ _))
instance (n : Num) : Decidable n.Good := inferInstanceAs (Decidable (_ → _ → _))

private theorem sample_safe : SafePath sample := by
  refine ⟨?_, ?_⟩
  · have : ∀ d ∈ sample, (∀ n ∈ d.args, n.Good) ∧ ∀ x ∈ d.args.zip d.args.tail, Next x.1 x.2 := by decide +kernel
    exact fun d hd => ⟨(this d hd).1, adjacent_of (this d hd).2⟩
  · have : ∀ x ∈ sample.zip sample.tail, x.2.isImplicit = true → ∀ p ∈ x.1.args.getLast?, ∀ c ∈ x.2.args.head?, NextImplicit p c := by
      decide +kernel
    exact adjacent_of (R := fun d d' => d'.isImplicit = true → ∀ p c, d.args.getLast? = some p → d'.args.head? = some c → NextImplicit p c)
      (fun x hx hi p c hp hc => this x hx hi p hp c hc)

example : format sample = "M10.5-.5.25 1.5e-7A1 .025 0 1 0-3e20 1000ZZm1.5e-21 3".toList := by decide +kernel

example : ∃ L q, (∀ fuel > sample.length, parseString (fun _ => true) fuel (format sample) = some (.ok L q)) ∧ All2 SameCommand L sample :=
  format_partial sample_written sample_safe (fun _ _ _ _ => rfl)

example : litValue (short (num true "15" (-8))) = -15 / 100000000 := by
  rw [short_value ⟨by decide +kernel, by decide +kernel, by decide +kernel⟩ (by decide +kernel)]
  decide +kernel

example : short (num false "15" (-11)) = "1.5e-1".toList := by decide +kernel

example : litValue (short (num false "15" (-11))) ≠ (num false "15" (-11)).value :=
  (short_value_violated ⟨by decide +kernel, by decide +kernel, by decide +kernel⟩ (by decide +kernel)).2

end Verif.Path
