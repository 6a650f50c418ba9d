import Verif.Choice.Model
import Verif.Choice.Spec
import Verif.Boxes.Sound

/-!
# C94: values of a keyword or a number keep their meaning
-/

namespace Verif.Choice

open Verif.Parse Verif.Clock Verif.Number Verif.Boxes

variable {p q : Parser} {pre rest r t w w' z : List Char} {v : ℚ}

theorem white_nil : White [] := by simp [White]

/-- No name begins at a number. -/
theorem ident_number (h : Value t v) (hp : At p pre (t ++ r)) : ∃ q, p.expectIdent = .err q ∧ q.input = p.input := by
  obtain ⟨c, u, rfl, _, _, h1, h2⟩ := value_head h
  obtain ⟨q, hi, e⟩ := expectIdent_spec (rest := c :: (u ++ r)) hp (ascii_head_cons.mpr h1)
  simp only [h2] at e
  exact ⟨q, e.1, hi⟩

theorem word_number {k : List Char} (h : Value t v) (hp : At p pre (t ++ r)) : ∃ q, p.expectIdentMatching k = .err q ∧ q.input = p.input := by
  obtain ⟨q, e, hi⟩ := ident_number h hp
  exact ⟨q, by rw [Parser.expectIdentMatching, e]; rfl, hi⟩

/-- A word ahead. -/
theorem ident_word {c : Char} {m : List Char} (hp : At p pre (c :: (m ++ r))) (hc : isNameStartChar c = true) (hs : c.utf8Size = 1)
    (hm : ∀ x ∈ m, isNameChar x = true) (hr : Ends isNameChar r) : ∃ q, q.input = p.input ∧ At q (pre ++ (c :: m)) r ∧
      p.expectIdent = .ok (c :: m) q := by
  obtain ⟨q, hi, h⟩ := expectIdent_spec hp (ascii_head_cons.mpr hs)
  simp only [hc, if_true] at h
  have e : (m ++ r).takeWhile isNameChar = m ∧ (m ++ r).dropWhile isNameChar = r := by
    have : r.takeWhile isNameChar = [] ∧ r.dropWhile isNameChar = r := by
      cases r with
      | nil => simp
      | cons x r => simp [hr x r rfl]
    rw [List.takeWhile_append_of_pos hm, List.dropWhile_append_of_pos hm, this.1, this.2]
    simp
  rw [e.1, e.2] at h
  exact ⟨q, hi, h.2, h.1⟩

theorem ends_white (h : White w) : Ends isNameChar w := by
  intro c u e
  exact white_name (h c (by rw [e]; simp))

theorem ends_value (h : Value t v) : Ends isWhitespace (t ++ r) := by
  obtain ⟨c, u, rfl, h1, _⟩ := value_head h
  exact ends_of h1

/-- **C94 (font-size-adjust)** Every valid `font-size-adjust`, with white space around it, is read, and it is written as a valid one of
the same meaning. -/
theorem adjust_kept {m : Option ℚ} (hw : White w) (hw' : White w') (h : AdjustMeans t m) (hz : z = "0".toList ∨ z = "-0".toList) :
    ∃ x q, ListOf.parseString adjust (w ++ (t ++ w')) = .ok x q ∧ AdjustMeans (adjustText z x) m := by
  cases h with
  | off =>
    have := parse_done (T := adjust) (P := fun x => x = none) (w := w) (x := "none".toList ++ w') hw (ends_of (c := 'n') (by decide)) ?_
    · obtain ⟨_, q, e, rfl⟩ := this
      exact ⟨none, q, e, .off⟩
    intro p pre hp
    obtain ⟨q, _, a, e⟩ := ident_at (c := 'n') (m := ['o', 'n', 'e']) (k := "none".toList) (r := w') hp (by decide) (by decide) (by decide) (ends_white hw')
    rw [if_pos (by decide)] at e
    refine ⟨none, q, _, w', ?_, a, hw', rfl⟩
    rw [adjust, tryParse_ok (a := none) (q := q) (by rw [e]; rfl)]
    rfl
  | number _ v h =>
    have := parse_done (T := adjust) (P := fun x => x = some (numOf t)) (w := w) (x := t ++ w') hw (ends_value h) ?_
    · obtain ⟨_, q, e, rfl⟩ := this
      exact ⟨some (numOf t), q, e, .number _ _ (value_kept h hz)⟩
    intro p pre hp
    obtain ⟨q1, e1, i1⟩ := word_number (k := "none".toList) h hp
    obtain ⟨q2, e2, a2⟩ := f32_value hp h (stop_white hw') (fine_white hw')
    refine ⟨_, q2, _, w', ?_, a2, hw', rfl⟩
    rw [adjust, tryParse_err (q := q1) (by rw [e1]; rfl) i1]
    simp only [orElse, Res.bind, e2]

theorem nonpos_iff (h : Value t v) : nonpos (numOf t) = true ↔ v ≤ 0 := by
  obtain ⟨neg, ip, fp, e, h1, h2, rfl⟩ := numOf_value h
  rw [e]
  have hd : (0 : ℚ) ≤ decimal ip := by positivity
  have ht := tail_nonneg fp
  cases neg with
  | true =>
    simp only [nonpos, norm, Bool.true_or, val, if_true, true_iff]
    linarith
  | false =>
    simp only [nonpos, norm, Bool.false_or, Bool.and_eq_true, List.isEmpty_iff, val, Bool.false_eq_true, if_false, one_mul]
    rw [strip_nil h1, strip_end_nil h2, ← tail_eq_zero (l := fp)]
    constructor
    · rintro ⟨a, b⟩; rw [a, b]; simp
    · intro hle
      have h3 : (decimal ip : ℚ) = 0 := by linarith
      exact ⟨by exact_mod_cast h3, by linarith⟩

theorem count_number (hw : White w) (hw' : White w') (h : Value t v) :
    (0 < v → ∃ q, ListOf.parseString count (w ++ (t ++ w')) = .ok (some (numOf t)) q) ∧
    (v ≤ 0 → ∃ q, ListOf.parseString count (w ++ (t ++ w')) = .err q) := by
  have run : ∀ p pre, At p pre (t ++ w') → ∃ q pre', At q pre' w' ∧ count p = if nonpos (numOf t) then .err q else .ok (some (numOf t)) q := by
    intro p pre hp
    obtain ⟨q1, e1, i1⟩ := word_number (k := "indefinite".toList) h hp
    obtain ⟨q2, e2, a2⟩ := f32_value hp h (stop_white hw') (fine_white hw')
    refine ⟨q2, _, a2, ?_⟩
    rw [count, tryParse_err (q := q1) (by rw [e1]; rfl) i1]
    simp only [orElse, Res.bind, e2]
  constructor
  · intro hv
    have hn : nonpos (numOf t) = false := by
      cases hb : nonpos (numOf t) with
      | false => rfl
      | true => exact absurd ((nonpos_iff h).mp hb) (by linarith)
    have := parse_done (T := count) (P := fun x => x = some (numOf t)) (w := w) (x := t ++ w') hw (ends_value h) (fun p pre hp => by
      obtain ⟨q, pre', a, e⟩ := run p pre hp
      rw [hn] at e
      exact ⟨_, q, pre', w', e, a, hw', rfl⟩)
    obtain ⟨_, q, e, rfl⟩ := this
    exact ⟨q, e⟩
  · intro hv
    obtain ⟨p0, e0, h0⟩ := skip_white (p := Parser.new (w ++ (t ++ w'))) (pre := []) (w := w) (r := t ++ w') ⟨rfl, rfl⟩ hw (ends_value h)
    obtain ⟨q, _, _, e⟩ := run p0 _ h0
    rw [(nonpos_iff h).mpr hv] at e
    refine ⟨q, ?_⟩
    rw [ListOf.parseString, e0]
    simp only [Res.bind, e, if_true]

/-- **C94 (repeatCount)** Every valid `repeatCount`, with white space around it, is read, and it is written as a valid one of the same
meaning. -/
theorem count_kept {m : Option ℚ} (hw : White w) (hw' : White w') (h : CountMeans t m) (hz : z = "0".toList ∨ z = "-0".toList) :
    ∃ x q, ListOf.parseString count (w ++ (t ++ w')) = .ok x q ∧ CountMeans (countText z x) m := by
  cases h with
  | indefinite =>
    have := parse_done (T := count) (P := fun x => x = none) (w := w) (x := "indefinite".toList ++ w') hw (ends_of (c := 'i') (by decide)) ?_
    · obtain ⟨_, q, e, rfl⟩ := this
      exact ⟨none, q, e, .indefinite⟩
    intro p pre hp
    obtain ⟨q, _, a, e⟩ := ident_at (c := 'i') (m := ['n', 'd', 'e', 'f', 'i', 'n', 'i', 't', 'e']) (k := "indefinite".toList) (r := w') hp
      (by decide) (by decide) (by decide) (ends_white hw')
    rw [if_pos (by decide)] at e
    refine ⟨none, q, _, w', ?_, a, hw', rfl⟩
    rw [count, tryParse_ok (a := none) (q := q) (by rw [e]; rfl)]
    rfl
  | number _ v h hv =>
    obtain ⟨q, e⟩ := (count_number hw hw' h).1 hv
    exact ⟨_, q, e, .number _ _ (value_kept h hz) hv⟩

/-- **C94 (repeatCount of zero)** A number is read as a `repeatCount` exactly if it is above zero. -/
theorem count_iff (hw : White w) (hw' : White w') (h : Value t v) : (∃ x q, ListOf.parseString count (w ++ (t ++ w')) = .ok x q) ↔ 0 < v := by
  constructor
  · rintro ⟨x, q, e⟩
    by_contra hv
    obtain ⟨q', e'⟩ := (count_number hw hw' h).2 (by linarith)
    rw [e'] at e
    cases e
  · intro hv
    obtain ⟨q, e⟩ := (count_number hw hw' h).1 hv
    exact ⟨_, q, e⟩

/-- **C94 (rotate)** Every valid `rotate`, with white space around it, is read, and it is written as a valid one of the same meaning. -/
theorem rotate_kept {m : Bool ⊕ ℚ} (hw : White w) (hw' : White w') (h : RotateMeans t m) (hz : z = "0".toList ∨ z = "-0".toList) :
    ∃ x q, ListOf.parseString rotate (w ++ (t ++ w')) = .ok x q ∧ RotateMeans (rotateText z x) m := by
  cases h with
  | auto =>
    have := parse_done (T := rotate) (P := fun x => x = .auto) (w := w) (x := "auto".toList ++ w') hw (ends_of (c := 'a') (by decide)) ?_
    · obtain ⟨_, q, e, rfl⟩ := this
      exact ⟨.auto, q, e, .auto⟩
    intro p pre hp
    obtain ⟨q, _, a, e⟩ := ident_word (c := 'a') (m := ['u', 't', 'o']) (r := w') hp (by decide) (by decide) (by decide) (ends_white hw')
    refine ⟨.auto, q, _, w', ?_, a, hw', rfl⟩
    rw [rotate, tryParse_ok (a := .auto) (q := q) (by rw [e]; rfl)]
    rfl
  | reverse =>
    have := parse_done (T := rotate) (P := fun x => x = .reverse) (w := w) (x := "auto-reverse".toList ++ w') hw (ends_of (c := 'a') (by decide)) ?_
    · obtain ⟨_, q, e, rfl⟩ := this
      exact ⟨.reverse, q, e, .reverse⟩
    intro p pre hp
    obtain ⟨q, _, a, e⟩ := ident_word (c := 'a') (m := ['u', 't', 'o', '-', 'r', 'e', 'v', 'e', 'r', 's', 'e']) (r := w') hp
      (by decide) (by decide) (by decide) (ends_white hw')
    refine ⟨.reverse, q, _, w', ?_, a, hw', rfl⟩
    rw [rotate, tryParse_ok (a := .reverse) (q := q) (by rw [e]; rfl)]
    rfl
  | number _ v h =>
    have := parse_done (T := rotate) (P := fun x => x = .number (numOf t)) (w := w) (x := t ++ w') hw (ends_value h) ?_
    · obtain ⟨_, q, e, rfl⟩ := this
      exact ⟨.number (numOf t), q, e, .number _ _ (value_kept h hz)⟩
    intro p pre hp
    obtain ⟨q1, e1, i1⟩ := ident_number h hp
    obtain ⟨q2, e2, a2⟩ := skip_white (w := []) (r := t ++ w') (by simpa using hp) white_nil (ends_value h)
    obtain ⟨q3, e3, a3⟩ := f32_value a2 h (stop_white hw') (fine_white hw')
    refine ⟨_, q3, _, w', ?_, a3, hw', rfl⟩
    rw [rotate, tryParse_err (q := q1) (by rw [e1]; rfl) i1]
    simp only [orElse, e2, Res.bind, e3]

/-- **C94 (control points)** Four numbers with separators are read as control points, and they are written as the same four numbers. -/
theorem control_kept {v : ℚ × ℚ × ℚ × ℚ} (hw : White w) (hw' : White w') (h : FourOf Comma t v) (hz : z = "0".toList ∨ z = "-0".toList) :
    ∃ x q, ListOf.parseString control (w ++ (t ++ w')) = .ok x q ∧ FourOf Comma (controlText z x) v := by
  have h' := four_mono (S' := Loose) (fun _ => comma_loose) h
  obtain ⟨c0, u0, e0, hc0, _⟩ := four_head h
  have hx : Ends isWhitespace (t ++ w') := by rw [e0]; exact ends_of hc0
  have := parse_done (T := control) (P := Gives v) hw hx ?_
  · obtain ⟨x, q, e, hg⟩ := this
    refine ⟨x, q, e, four_mono ?_ (gives_text hg hz)⟩
    rintro _ rfl
    exact blank_comma ⟨by simp [White], by simp⟩
  intro p pre hp
  obtain ⟨q0, e0, a0⟩ := skip_white (w := []) (r := t ++ w') (by simpa using hp) white_nil hx
  obtain ⟨a, b, c, d, p1, p2, p3, p4, p5, p6, p7, _, e1, e2, e3, e4, e5, e6, e7, a7, h1, h2, h3, h4⟩ :=
    four_read h' a0 (stop_white hw') (fine_white hw')
  refine ⟨_, p7, _, w', ?_, a7, hw', a, b, c, d, rfl, h1, h2, h3, h4⟩
  rw [control, e0]
  simp only [Res.bind, e1, e2, e3, e4, e5, e6, e7]

/-! ## Frequencies -/

/-- The letters of the units. -/
theorem lower_ascii : ∀ n < 128, (Char.ofNat n).toLower = 'h' ∨ (Char.ofNat n).toLower = 'z' ∨ (Char.ofNat n).toLower = 'k' →
    isNameStartChar (Char.ofNat n) = true ∧ isNameChar (Char.ofNat n) = true ∧ (Char.ofNat n).utf8Size = 1 ∧ (Char.ofNat n).isDigit = false ∧
      Char.ofNat n ≠ '.' ∧ isE (Char.ofNat n) = false ∧ Char.ofNat n ≠ ',' := by decide +kernel

theorem letter {c : Char} (h : c.toLower = 'h' ∨ c.toLower = 'z' ∨ c.toLower = 'k') : isNameStartChar c = true ∧ isNameChar c = true ∧
    c.utf8Size = 1 ∧ c.isDigit = false ∧ c ≠ '.' ∧ isE c = false ∧ c ≠ ',' := by
  have hn : c.toNat < 128 := by
    by_cases hu : c.isUpper = true
    · simp only [Char.isUpper, decide_eq_true_eq] at hu
      have : c.val.toNat ≤ 90 := hu.2
      have e : c.toNat = c.val.toNat := rfl
      omega
    · have e : c.toLower = c := by
        rw [Char.toLower]
        simp only [Char.isUpper, decide_eq_true_eq] at hu
        rw [dif_neg hu]
      rw [e] at h
      rcases h with rfl | rfl | rfl <;> decide
  have := lower_ascii c.toNat hn
  rw [Char.ofNat_toNat] at this
  exact this h

theorem unit_letters {u : List Char} {k : ℚ} (h : Unit u k) : ∃ c m, u = c :: m ∧ ∀ x ∈ u, x.toLower = 'h' ∨ x.toLower = 'z' ∨ x.toLower = 'k' := by
  have key : ∀ l : List Char, (∀ y ∈ l, y = 'h' ∨ y = 'z' ∨ y = 'k') → u.map Char.toLower = l → ∀ x ∈ u, x.toLower = 'h' ∨ x.toLower = 'z' ∨ x.toLower = 'k' :=
    fun l hl e x hx => hl _ (by rw [← e]; exact List.mem_map_of_mem hx)
  have hne : u ≠ [] := by
    rintro rfl
    rcases h with ⟨h, _⟩ | ⟨h, _⟩ <;> simp at h
  obtain ⟨c, m, rfl⟩ := List.exists_cons_of_ne_nil hne
  refine ⟨c, m, rfl, ?_⟩
  rcases h with ⟨h, _⟩ | ⟨h, _⟩
  · exact key _ (by decide) h
  · exact key _ (by decide) h

theorem frequency_run {u : List Char} {k : ℚ} (hw' : White w') (h : Value t v) (hu : Unit u k) (hp : At p pre (t ++ (u ++ w'))) :
    ∃ q pre', At q pre' w' ∧ frequency p =
      if u = "Hz".toList then .ok ⟨numOf t, false⟩ q else if u = "KHz".toList then .ok ⟨numOf t, true⟩ q else .err q := by
  obtain ⟨c, m, rfl, hl⟩ := unit_letters hu
  have hc := letter (hl c (by simp))
  have hf : Fine (c :: m ++ w') := by
    refine fine_append ?_ (fine_white hw')
    intro x hx
    have := letter (hl x (List.mem_of_getLast? hx))
    exact ⟨this.2.2.2.2.1, this.2.2.2.2.2.2⟩
  have hs : Stop (c :: m ++ w') := by
    intro x y e
    simp only [List.cons_append, List.cons.injEq] at e
    rw [← e.1]
    exact ⟨hc.2.2.2.1, hc.2.2.2.2.1, hc.2.2.2.2.2.1⟩
  obtain ⟨q1, e1, a1⟩ := f32_value hp h hs hf
  obtain ⟨q2, _, a2, e2⟩ := ident_word (r := w') a1 hc.1 hc.2.2.1 (fun x hx => (letter (hl x (by simp [hx]))).2.1) (ends_white hw')
  refine ⟨q2, _, a2, ?_⟩
  rw [frequency, e1]
  simp only [Res.bind, e2]

/-- **C94 (frequencies, partly)** A frequency in `Hz` or `KHz` is read, and it is written as a valid one of the same value. -/
theorem frequency_kept_partial {u : List Char} {k : ℚ} (hw : White w) (hw' : White w') (h : Value t v) (hu : Unit u k)
    (h2 : u = "Hz".toList ∨ u = "KHz".toList) (hz : z = "0".toList ∨ z = "-0".toList) :
    ∃ x q, ListOf.parseString frequency (w ++ (t ++ (u ++ w'))) = .ok x q ∧ FreqMeans (frequencyText z x) (v * k) := by
  refine parse_done (P := fun x => FreqMeans (frequencyText z x) (v * k)) hw (ends_value h) ?_
  intro p pre hp
  obtain ⟨q, pre', a, e⟩ := frequency_run hw' h hu hp
  rcases h2 with rfl | rfl
  · rw [if_pos rfl] at e
    exact ⟨_, q, pre', w', e, a, hw', .mk _ _ _ _ (value_kept h hz) hu⟩
  · rw [if_neg (by decide), if_pos rfl] at e
    exact ⟨_, q, pre', w', e, a, hw', .mk _ _ _ _ (value_kept h hz) hu⟩

/-- **C94 (violated: units of frequencies)** A frequency is read exactly if its unit is written `Hz` or `KHz`; so none in `kHz`, as the unit is
written by SVG and CSS, is read. -/
theorem frequency_iff {u : List Char} {k : ℚ} (hw : White w) (hw' : White w') (h : Value t v) (hu : Unit u k) :
    (∃ x q, ListOf.parseString frequency (w ++ (t ++ (u ++ w'))) = .ok x q) ↔ u = "Hz".toList ∨ u = "KHz".toList := by
  constructor
  · rintro ⟨x, q, e⟩
    by_contra hn
    rw [not_or] at hn
    obtain ⟨p0, e0, h0⟩ := skip_white (p := Parser.new (w ++ (t ++ (u ++ w')))) (pre := []) (w := w) (r := t ++ (u ++ w')) ⟨rfl, rfl⟩ hw (ends_value h)
    obtain ⟨q, _, _, e1⟩ := frequency_run hw' h hu h0
    rw [if_neg hn.1, if_neg hn.2] at e1
    rw [ListOf.parseString, e0] at e
    simp only [Res.bind, e1] at e
    cases e
  · intro h2
    obtain ⟨x, q, e, _⟩ := frequency_kept_partial (z := "0".toList) hw hw' h hu h2 (.inl rfl)
    exact ⟨x, q, e⟩

theorem khz_violated (hw : White w) (hw' : White w') (h : Value t v) : FreqMeans (t ++ "kHz".toList) (v * 1000) ∧
    ¬ ∃ x q, ListOf.parseString frequency (w ++ (t ++ ("kHz".toList ++ w'))) = .ok x q := by
  have hu : Unit "kHz".toList 1000 := .inr ⟨by decide, rfl⟩
  refine ⟨.mk _ _ _ _ h hu, ?_⟩
  rw [frequency_iff hw hw' h hu]
  decide

/-! ## Examples -/

theorem two : Value "2.5".toList (5 / 2) :=
  ⟨[], ['2'], ['.', '5'], [], 0, rfl, .inl rfl, digits_of rfl, .inr ⟨['5'], rfl, digits_of rfl, by simp⟩, .inl ⟨rfl, rfl⟩, by
    have h1 : decimal ['2'] = 2 := by decide
    have h2 : decimal ['5'] = 5 := by decide
    simp only [tail, List.tail_cons, h1, h2]
    norm_num⟩

example : ∃ x q, ListOf.parseString count " 2.5\n".toList = .ok x q :=
  (count_iff (w := [' ']) (w' := ['\n']) (by simp [White]) (by simp [White]) two).mpr (by norm_num)

example : ¬ ∃ x q, ListOf.parseString count "-0".toList = .ok x q := fun h => by
  have h0 : Value "-0".toList 0 := ⟨['-'], ['0'], [], [], 0, rfl, .inr (.inr rfl), digits_of rfl, .inl ⟨rfl, by simp⟩, .inl ⟨rfl, rfl⟩, by
    simp [zero_char, tail_nil]⟩
  have := (count_iff (w := []) (w' := []) white_nil white_nil h0).mp (by simpa using h)
  simp at this

example : textOf (adjustText "0".toList) (ListOf.parseString adjust " 0.50 ".toList) = some ".5".toList ∧
    textOf (adjustText "0".toList) (ListOf.parseString adjust "none".toList) = some "none".toList ∧
    textOf (countText "0".toList) (ListOf.parseString count "indefinite".toList) = some "indefinite".toList ∧
    textOf (countText "0".toList) (ListOf.parseString count "0".toList) = none ∧
    textOf (rotateText "0".toList) (ListOf.parseString rotate "auto-reverse".toList) = some "auto-reverse".toList ∧
    textOf (rotateText "0".toList) (ListOf.parseString rotate "+90".toList) = some "90".toList ∧
    textOf (frequencyText "0".toList) (ListOf.parseString frequency " 10.5Hz ".toList) = some "10.5Hz".toList ∧
    textOf (frequencyText "0".toList) (ListOf.parseString frequency "1kHz".toList) = none ∧
    textOf (controlText "0".toList) (ListOf.parseString control "0,0 .5 1".toList) = some "0 0 .5 1".toList := by decide +kernel

end Verif.Choice
