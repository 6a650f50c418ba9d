import Verif.Boxes.Lemmas

/-!
# C93: values of several numbers keep their numbers
-/

namespace Verif.Boxes

open Verif.Parse Verif.Clock Verif.Number

variable {p q : Parser} {pre rest r t z : List Char} {v : ℚ × ℚ × ℚ × ℚ}

theorem stop_nil : Stop [] := by intro c u e; simp at e

theorem stop_white {w : List Char} (h : White w) : Stop w := by
  have := commas_stop (g := w) (x := []) ⟨w, 0, [], by simp, h, by simp [White]⟩ (.inl stop_nil)
  simpa using this

theorem stop_close {w : List Char} (h : White w) : Stop (w ++ [')']) :=
  commas_stop (g := w) ⟨w, 0, [], by simp, h, by simp [White]⟩ (.inl (by
    intro c u e; simp only [List.cons.injEq] at e; rw [← e.1]; decide))

theorem fine_close : Fine [')'] := by intro c e; simp at e; subst e; decide

/-- Gaps with any number of commas, but not empty. -/
def Loose (g : List Char) : Prop := Commas g ∧ g ≠ []

theorem comma_loose {g : List Char} (h : Comma g) : Loose g := ⟨comma_commas h, by obtain ⟨_, _, _, _, _, _, _, h⟩ := h; exact h⟩

theorem four_mono {S S' : List Char → Prop} (hS : ∀ g, S g → S' g) (h : FourOf S t v) : FourOf S' t v := by
  obtain ⟨a, b, c, d, g, h', i, e, h1, h2, h3, h4, h5, h6, h7⟩ := h
  exact ⟨a, b, c, d, g, h', i, e, h1, h2, h3, h4, hS _ h5, hS _ h6, hS _ h7⟩

/-- The four numbers of a text. -/
def Gives (v : ℚ × ℚ × ℚ × ℚ) (x : Four) : Prop :=
  ∃ a b c d, x = ⟨numOf a, numOf b, numOf c, numOf d⟩ ∧ Value a v.1 ∧ Value b v.2.1 ∧ Value c v.2.2.1 ∧ Value d v.2.2.2

/-- **Writing with spaces.** -/
theorem gives_text {x : Four} (h : Gives v x) (hz : z = "0".toList ∨ z = "-0".toList) : FourOf (· = [' ']) (viewBoxText z x) v := by
  obtain ⟨a, b, c, d, rfl, h1, h2, h3, h4⟩ := h
  exact ⟨_, _, _, _, [' '], [' '], [' '], by simp [viewBoxText], value_kept h1 hz, value_kept h2 hz, value_kept h3 hz, value_kept h4 hz, rfl, rfl, rfl⟩

theorem gives_rect {x : Four} (h : Gives v x) (hz : z = "0".toList ∨ z = "-0".toList) :
    ∃ u, clipText z (some x) = "rect(".toList ++ (u ++ [')']) ∧ FourOf (· = [',']) u v := by
  obtain ⟨a, b, c, d, rfl, h1, h2, h3, h4⟩ := h
  exact ⟨_, by simp only [clipText]; rw [List.append_cancel_left_eq]; simp only [List.append_assoc, List.cons_append]; rfl, _, _, _, _, [','], [','], [','], rfl, value_kept h1 hz, value_kept h2 hz, value_kept h3 hz, value_kept h4 hz, rfl, rfl, rfl⟩

theorem four_head {S : List Char → Prop} (h : FourOf S t v) : ∃ c u, t = c :: u ∧ isWhitespace c = false ∧ c ≠ ',' ∧ c.utf8Size = 1 ∧ isNameStartChar c = false := by
  obtain ⟨a, b, c, d, g, h', i, rfl, h1, _⟩ := h
  obtain ⟨x, u, rfl, hx⟩ := value_head h1
  exact ⟨x, u ++ _, rfl, hx⟩

theorem four_fine {S : List Char → Prop} (h : FourOf S t v) : Fine t := by
  obtain ⟨a, b, c, d, g, h', i, rfl, h1, h2, h3, h4, _⟩ := h
  have hd : d ≠ [] := by obtain ⟨x, u, rfl, _⟩ := value_head h4; simp
  have e : a ++ (g ++ (b ++ (h' ++ (c ++ (i ++ d))))) = (a ++ (g ++ (b ++ (h' ++ (c ++ i))))) ++ d := by simp
  rw [e]
  exact fine_left (value_fine h4) hd

theorem value_no_space {x : ℚ} (h : Value t x) : ' ' ∉ t := by
  obtain ⟨s, d, f, x, k, rfl, hs, hd, hf, hx, rfl⟩ := h
  have dig : ∀ {l}, Digits l → ' ' ∉ l := fun h hm => by have := h _ hm; simp at this
  have sg : ∀ {l}, IsSign l → ' ' ∉ l := fun h hm => by rcases h with rfl | rfl | rfl <;> simp at hm
  simp only [List.mem_append, not_or]
  refine ⟨⟨⟨sg hs, dig hd⟩, ?_⟩, ?_⟩
  · rcases hf with ⟨rfl, _⟩ | ⟨d', rfl, h, _⟩
    · simp
    · simp [dig h]
  · rcases hx with ⟨rfl, _⟩ | ⟨e, s', d', rfl, he, hs', hd', _⟩
    · simp
    · simp only [List.mem_cons, List.mem_append, not_or]
      exact ⟨by rcases he with rfl | rfl <;> decide, sg hs', dig hd'⟩

theorem four_no_space (h : FourOf (· = [',']) t v) : ' ' ∉ t := by
  obtain ⟨a, b, c, d, g, h', i, rfl, h1, h2, h3, h4, rfl, rfl, rfl⟩ := h
  simp [value_no_space h1, value_no_space h2, value_no_space h3, value_no_space h4]

theorem white_name {c : Char} (h : c = ' ' ∨ c = '\t' ∨ c = '\n' ∨ c = '\r') : isNameChar c = false := by
  rcases h with rfl | rfl | rfl | rfl <;> decide

/-- The run over four numbers. -/
theorem four_read (h : FourOf Loose t v) (hp : At p pre (t ++ r)) (hr : Stop r) (hl : Fine r) :
    ∃ a b c d p1 p2 p3 p4 p5 p6 p7 pre', f32 p = .ok (numOf a) p1 ∧ gap p1 = .ok () p2 ∧ f32 p2 = .ok (numOf b) p3 ∧ gap p3 = .ok () p4 ∧
      f32 p4 = .ok (numOf c) p5 ∧ gap p5 = .ok () p6 ∧ f32 p6 = .ok (numOf d) p7 ∧ At p7 pre' r ∧
      Value a v.1 ∧ Value b v.2.1 ∧ Value c v.2.2.1 ∧ Value d v.2.2.2 := by
  obtain ⟨a, b, c, d, g, h', i, rfl, h1, h2, h3, h4, h5, h6, h7⟩ := h
  have f4 : Fine (d ++ r) := fine_append (value_fine h4) hl
  have n4 : d ++ r ≠ [] := by obtain ⟨x, u, rfl, _⟩ := value_head h4; simp
  have f3 : Fine (i ++ (d ++ r)) := fine_left f4 n4
  have f3' : Fine (c ++ (i ++ (d ++ r))) := fine_left f3 (by simp [h7.2])
  have f2 : Fine (h' ++ (c ++ (i ++ (d ++ r)))) := fine_left f3' (by simp [h7.2])
  have f1 : Fine (g ++ (b ++ (h' ++ (c ++ (i ++ (d ++ r)))))) := fine_left (fine_left f2 (by simp [h6.2])) (by simp [h6.2])
  obtain ⟨p1, e1, a1⟩ := f32_value (t := a) (r := g ++ (b ++ (h' ++ (c ++ (i ++ (d ++ r)))))) (by simpa using hp) h1 (commas_stop h5.1 (.inr h5.2)) f1
  obtain ⟨p2, p3, _, e2, e3, a3⟩ := next_read a1 h5.1 h2 (commas_stop h6.1 (.inr h6.2)) f2
  obtain ⟨p4, p5, _, e4, e5, a5⟩ := next_read a3 h6.1 h3 (commas_stop h7.1 (.inr h7.2)) f3
  obtain ⟨p6, p7, _, e6, e7, a7⟩ := next_read a5 h7.1 h4 hr hl
  exact ⟨a, b, c, d, p1, p2, p3, p4, p5, p6, p7, _, e1, e2, e3, e4, e5, e6, e7, a7, h1, h2, h3, h4⟩

theorem viewBox_loose {w u w' : List Char} (hw : White w) (hw' : White w') (h : FourOf Loose u v) :
    ∃ x q, ListOf.parseString viewBox (w ++ (u ++ w')) = .ok x q ∧ Gives v x := by
  obtain ⟨c0, u0, e0, hc0, _⟩ := four_head h
  have hx : Ends isWhitespace (u ++ w') := by rw [e0]; exact ends_of hc0
  refine parse_done hw hx ?_
  intro p pre hp
  obtain ⟨q0, e0, a0⟩ := skip_white (w := []) (r := u ++ w') (by simpa using hp) (by simp [White]) hx
  obtain ⟨a, b, c, d, p1, p2, p3, p4, p5, p6, p7, _, e1, e2, e3, e4, e5, e6, e7, a7, h1, h2, h3, h4⟩ :=
    four_read h a0 (stop_white hw') (fine_white hw')
  obtain ⟨q8, e8, a8⟩ := skip_white (w := w') (r := []) (by simpa using a7) hw' ends_nil
  refine ⟨_, q8, _, [], ?_, a8, by simp [White], a, b, c, d, rfl, h1, h2, h3, h4⟩
  rw [viewBox, e0]
  simp only [Res.bind, e1, e2, e3, e4, e5, e6, e7, e8]

/-- **C93 (viewBox)** Every valid `viewBox` is read, and it is written as a valid `viewBox` with the same four numbers (with
single spaces, and without white space around it). -/
theorem viewBox_kept (h : ViewBoxMeans t v) (hz : z = "0".toList ∨ z = "-0".toList) :
    ∃ x q, ListOf.parseString viewBox t = .ok x q ∧ ViewBoxMeans (viewBoxText z x) v ∧ FourOf (· = [' ']) (viewBoxText z x) v := by
  obtain ⟨w, u, w', rfl, hw, hw', h⟩ := h
  obtain ⟨x, q, e, hg⟩ := viewBox_loose hw hw' (four_mono (fun _ => comma_loose) h)
  have h4 := gives_text hg hz
  refine ⟨x, q, e, ⟨[], _, [], by simp, by simp [White], by simp [White], four_mono ?_ h4⟩, h4⟩
  rintro _ rfl
  exact blank_comma ⟨by simp [White], by simp⟩

theorem word_read {α : Type} {T : Parser → Res α} {a : α} {c : Char} {m : List Char} (hc : isWhitespace c = false)
    (e : ∀ p pre, At p pre (c :: (m ++ [])) → ∃ q pre', T p = .ok a q ∧ At q pre' []) :
    ∃ x q, ListOf.parseString T (c :: m) = .ok x q ∧ x = a := by
  have := parse_done (T := T) (P := fun x => x = a) (w := []) (x := c :: m) (by simp [White]) (ends_of hc) (fun p pre hp => by
    obtain ⟨q, pre', h1, h2⟩ := e p pre (by simpa using hp)
    exact ⟨a, q, pre', [], h1, h2, by simp [White], rfl⟩)
  simpa using this

theorem auto_fails (hp : At p pre ("rect(".toList ++ r)) :
    (p.tryParse fun p => (p.expectIdentMatching "auto".toList).bind fun _ p => Res.ok (none : Option Four) p) = .err p := by
  have ht : "rect(".toList = ['r', 'e', 'c', 't', '('] := rfl
  obtain ⟨q, hi, _, e⟩ := ident_at (c := 'r') (m := ['e', 'c', 't']) (r := '(' :: r) (k := "auto".toList) (by rw [ht] at hp; simpa using hp)
    (by decide) (by decide) (by decide) (ends_of (by decide))
  rw [if_neg (by decide)] at e
  exact tryParse_err (q := q) (by rw [e]; rfl) hi

theorem clip_loose {g u w' : List Char} (hg : Commas g) (hw' : White w') (h : FourOf Loose u v) :
    ∃ x q, ListOf.parseString clip ("rect(".toList ++ (g ++ (u ++ (w' ++ [')'])))) = .ok x q ∧ ∃ y, x = some y ∧ Gives v y := by
  have hr : "rect(".toList = 'r' :: "ect(".toList := rfl
  have := parse_done (T := clip) (P := fun x => ∃ y, x = some y ∧ Gives v y) (w := []) (x := "rect(".toList ++ (g ++ (u ++ (w' ++ [')']))))
    (by simp [White]) (by rw [hr]; exact ends_of (by decide)) ?_
  · simpa using this
  intro p pre hp
  have e0 := auto_fails hp
  obtain ⟨q1, e1, a1⟩ : ∃ q1, p.expectStr "rect(".toList = .ok () q1 ∧ At q1 (pre ++ "rect(".toList) (g ++ (u ++ (w' ++ [')']))) :=
    ⟨_, (expectStr_spec hp "rect(".toList ⟨p.input, p.cursor + width "rect(".toList⟩).mpr ⟨_, rfl, rfl⟩, hp.moved⟩
  obtain ⟨c0, u0, ec, hc0, hc1, _⟩ := four_head h
  have hf : Fine (u ++ (w' ++ [')'])) := fine_left (fine_left fine_close (by simp)) (by simp)
  have hf' : Fine (w' ++ [')']) := fine_left fine_close (by simp)
  obtain ⟨q2, e2, a2⟩ := gap_read (c := c0) (r := u0 ++ (w' ++ [')'])) (by rw [ec] at a1; simpa using a1) hg hc0 hc1 (by rw [ec] at hf; exact hf)
  obtain ⟨a, b, c, d, p1, p2, p3, p4, p5, p6, p7, pre', f1, f2, f3, f4, f5, f6, f7, a7, h1, h2, h3, h4⟩ :=
    four_read (p := q2) (r := w' ++ [')']) h (by rw [ec]; exact a2) (stop_close hw') hf'
  obtain ⟨q8, e8, a8⟩ := skip_white (w := w') (r := [')']) a7 hw' (ends_of (by decide))
  obtain ⟨q9, e9, a9⟩ := expectChar_ok (c := ')') a8 (by decide)
  refine ⟨_, q9, _, [], ?_, a9, by simp [White], _, rfl, a, b, c, d, rfl, h1, h2, h3, h4⟩
  rw [clip, e0]
  simp only [orElse, e1, Res.bind, e2, f1, f2, f3, f4, f5, f6, f7, e8, e9]

/-- **C93 (clip)** Every `clip` that is `auto` or a rectangle of plain numbers is read, and it is written as a `clip` of the same
meaning (with commas, and without white space). -/
theorem clip_kept {m : Option (ℚ × ℚ × ℚ × ℚ)} (h : ClipMeans t m) (hz : z = "0".toList ∨ z = "-0".toList) :
    ∃ x q, ListOf.parseString clip t = .ok x q ∧ ClipMeans (clipText z x) m ∧ ' ' ∉ clipText z x := by
  cases h with
  | auto => 
    obtain ⟨_, q, e, rfl⟩ := word_read (T := clip) (a := none) (c := 'a') (m := ['u', 't', 'o']) (by decide) (fun p pre hp => by
      obtain ⟨q, _, a, e⟩ := ident_at (k := "auto".toList) (r := []) hp (by decide) (by decide) (by decide) ends_nil
      rw [if_pos (by decide)] at e
      refine ⟨q, _, ?_, a⟩
      rw [clip, tryParse_ok (a := none) (q := q) (by rw [e]; rfl)]
      rfl)
    exact ⟨none, q, e, .auto, show ' ' ∉ "auto".toList by decide⟩
  | rect w u w' v hw hw' h =>
    obtain ⟨_, q, e, y, rfl, hg⟩ := clip_loose (g := w) ⟨w, 0, [], by simp, hw, by simp [White]⟩ hw' (four_mono (fun _ => comma_loose) h)
    obtain ⟨u', e', h'⟩ := gives_rect hg hz
    refine ⟨_, q, e, ?_, ?_⟩
    · rw [e']
      have := ClipMeans.rect [] u' [] v (by simp [White]) (by simp [White]) (four_mono (by
        rintro _ rfl
        exact ⟨[], [], [','], rfl, by simp [White], by simp [White], .inr rfl, by simp⟩) h')
      simpa using this
    · rw [e']
      have := four_no_space h'
      simp only [List.mem_append]
      rintro (h | h | h)
      · revert h; decide
      · exact this h
      · simp at h

theorem accumulate_fails (hp : At p pre ("new".toList ++ r)) (hr : Ends isNameChar r) :
    (p.tryParse fun p => (p.expectIdentMatching "accumulate".toList).bind fun _ p => Res.ok Enable.accumulate p) = .err p ∧
    ∃ q, p.expectIdentMatching "new".toList = .ok () q ∧ At q (pre ++ "new".toList) r := by
  have ht : "new".toList = ['n', 'e', 'w'] := rfl
  have hp' : At p pre ('n' :: (['e', 'w'] ++ r)) := by rw [ht] at hp; simpa using hp
  obtain ⟨q, hi, _, e⟩ := ident_at (k := "accumulate".toList) hp' (by decide) (by decide) (by decide) hr
  rw [if_neg (by decide)] at e
  refine ⟨tryParse_err (q := q) (by rw [e]; rfl) hi, ?_⟩
  obtain ⟨q, _, a, e⟩ := ident_at (k := "new".toList) hp' (by decide) (by decide) (by decide) hr
  rw [if_pos (by decide)] at e
  exact ⟨q, e, a⟩

/-- **C93 (enable-background)** Every valid `enable-background` is read, and it is written as a valid one of the same meaning. -/
theorem enable_kept {m : Option (Option (ℚ × ℚ × ℚ × ℚ))} (h : EnableMeans t m) (hz : z = "0".toList ∨ z = "-0".toList) :
    ∃ x q, ListOf.parseString enable t = .ok x q ∧ EnableMeans (enableText z x) m := by
  cases h with
  | accumulate =>
    obtain ⟨_, q, e, rfl⟩ := word_read (T := enable) (a := .accumulate) (c := 'a') (m := ['c', 'c', 'u', 'm', 'u', 'l', 'a', 't', 'e']) (by decide) (fun p pre hp => by
      obtain ⟨q, _, a, e⟩ := ident_at (k := "accumulate".toList) (r := []) hp (by decide) (by decide) (by decide) ends_nil
      rw [if_pos (by decide)] at e
      refine ⟨q, _, ?_, a⟩
      rw [enable, tryParse_ok (a := .accumulate) (q := q) (by rw [e]; rfl)]
      rfl)
    exact ⟨.accumulate, q, e, .accumulate⟩
  | fresh =>
    obtain ⟨_, q, e, rfl⟩ := word_read (T := enable) (a := .fresh none) (c := 'n') (m := ['e', 'w']) (by decide) (fun p pre hp => by
      obtain ⟨e0, q1, e1, a1⟩ := accumulate_fails (r := []) (by simpa using hp) ends_nil
      obtain ⟨q2, e2, a2⟩ := skip_white (w := []) (r := []) (by simpa using a1) (by simp [White]) ends_nil
      obtain ⟨q3, e3, i3⟩ := f32_end a2
      refine ⟨q2, _, ?_, a2⟩
      rw [enable, e0]
      simp only [orElse, e1, Res.bind, e2, tryParse_err e3 i3])
    exact ⟨.fresh none, q, e, .fresh⟩
  | box g u v hg h =>
    have hn : "new".toList = 'n' :: "ew".toList := rfl
    have := parse_done (T := enable) (P := fun x => ∃ y, x = .fresh (some y) ∧ Gives v y) (w := []) (x := "new".toList ++ (g ++ u))
      (by simp [White]) (by rw [hn]; exact ends_of (by decide)) ?_
    · obtain ⟨_, q, e, y, rfl, hy⟩ := this
      refine ⟨_, q, by simpa using e, ?_⟩
      have h4 := gives_text hy hz
      have := EnableMeans.box [' '] (viewBoxText z y) v ⟨by simp [White], by simp⟩ (four_mono (by
        rintro _ rfl
        exact ⟨by simp [White], by simp⟩) h4)
      exact this
    intro p pre hp
    obtain ⟨a, b, c, d, g1, g2, g3, rfl, h1, h2, h3, h4, s1, s2, s3⟩ := h
    have hgn : Ends isNameChar (g ++ (a ++ (g1 ++ (b ++ (g2 ++ (c ++ (g3 ++ d))))))) := by
      obtain ⟨x, g', rfl⟩ := List.exists_cons_of_ne_nil hg.2
      exact ends_of (white_name (hg.1 x (by simp)))
    obtain ⟨e0, q1, e1, a1⟩ := accumulate_fails hp hgn
    have f4 : Fine (g3 ++ d) := fine_append (fine_white s3.1) (value_fine h4)
    have f3 : Fine (g2 ++ (c ++ (g3 ++ d))) := fine_append (fine_white s2.1) (fine_append (value_fine h3) f4)
    have f2 : Fine (g1 ++ (b ++ (g2 ++ (c ++ (g3 ++ d))))) := fine_append (fine_white s1.1) (fine_append (value_fine h2) f3)
    have st : ∀ {g x : List Char}, Blank g → Stop (g ++ x) := fun h => commas_stop (comma_commas (blank_comma h)) (.inr h.2)
    obtain ⟨q2, q3, _, e2, e3, a3⟩ := blank_read a1 hg.1 h1 (st s1) f2
    obtain ⟨q4, q5, _, e4, e5, a5⟩ := blank_read a3 s1.1 h2 (st s2) f3
    obtain ⟨q6, q7, _, e6, e7, a7⟩ := blank_read a5 s2.1 h3 (st s3) f4
    obtain ⟨q8, q9, _, e8, e9, a9⟩ := blank_read (r := []) (by simpa using a7) s3.1 h4 stop_nil (by intro c e; simp at e)
    refine ⟨_, q9, _, [], ?_, a9, by simp [White], _, rfl, a, b, c, d, rfl, h1, h2, h3, h4⟩
    rw [enable, e0]
    simp only [orElse, e1, Res.bind, e2, tryParse_ok e3, e4, e5, e6, e7, e8, e9]

theorem ascii_of {c : Char} {u : List Char} (h : c.utf8Size = 1) : AsciiHead (c :: u) := ascii_head_cons.mpr h

/-- **C93 (one or two numbers)** Every valid value of one or two numbers is read, and it is written as a valid value of the same
numbers. -/
theorem pair_kept {m : ℚ × Option ℚ} (h : PairMeans t m) (hz : z = "0".toList ∨ z = "-0".toList) :
    ∃ x q, ListOf.parseString pair t = .ok x q ∧ PairMeans (pairText z x) m := by
  cases h with
  | one _ v ha =>
    generalize t = a at ha ⊢
    obtain ⟨c0, u0, ec, hc0, _⟩ := value_head ha
    have := parse_done (T := pair) (P := fun x => x = (numOf a, none)) (w := []) (x := a) (by simp [White]) (by rw [ec]; exact ends_of hc0) ?_
    · obtain ⟨_, q, e, rfl⟩ := this
      exact ⟨(numOf a, none), q, by simpa using e, .one _ _ (value_kept ha hz)⟩
    intro p pre hp
    obtain ⟨q1, e1, a1⟩ := f32_value (r := []) (by simpa using hp) ha stop_nil (by intro c e; simp at e)
    obtain ⟨q2, e2, a2⟩ := skip_white (w := []) (r := []) (by simpa using a1) (by simp [White]) ends_nil
    obtain ⟨q3, e3, i3⟩ := expectChar_err (c := ',') a2 (by simp) (by intro c t e; simp at e)
    obtain ⟨q4, e4, a4⟩ := skip_white (w := []) (r := []) (by simpa using a2) (by simp [White]) ends_nil
    obtain ⟨q5, e5, i5⟩ := f32_end a4
    refine ⟨_, q4, _, [], ?_, a4, by simp [White], rfl⟩
    rw [pair, e1]
    simp only [Res.bind, e2, tryParse_err (f := fun p => p.expectChar ',') e3 i3, e4, tryParse_err e5 i5]
  | two a g b v v' ha hg hb =>
    obtain ⟨c0, u0, ec, hc0, _⟩ := value_head ha
    obtain ⟨c1, u1, eb, hc1, hc2, hc3, _⟩ := value_head hb
    have := parse_done (T := pair) (P := fun x => x = (numOf a, some (numOf b))) (w := []) (x := a ++ (g ++ b)) (by simp [White]) (by rw [ec]; exact ends_of hc0) ?_
    · obtain ⟨_, q, e, rfl⟩ := this
      exact ⟨(numOf a, some (numOf b)), q, by simpa using e, .two _ [' '] _ _ _ (value_kept ha hz) (blank_comma ⟨by simp [White], by simp⟩) (value_kept hb hz)⟩
    intro p pre hp
    have hne : b ≠ [] := by rw [eb]; simp
    obtain ⟨q1, e1, a1⟩ := f32_value hp ha (commas_stop (comma_commas hg) (.inr (comma_loose hg).2)) (fine_left (value_fine hb) hne)
    obtain ⟨w, w', c, rfl, hw, hw', rfl | rfl, hgn⟩ := hg
    · have hww : White (w ++ w') := fun x hx => by
        rcases List.mem_append.mp hx with hx | hx
        · exact hw x hx
        · exact hw' x hx
      obtain ⟨q2, e2, a2⟩ := skip_white (w := w ++ w') (r := b) (by simpa using a1) hww (by rw [eb]; exact ends_of hc1)
      obtain ⟨q3, e3, i3⟩ := expectChar_err (c := ',') a2 (by rw [eb]; intro u e; simp only [List.cons.injEq] at e; exact hc2 e.1) (by rw [eb]; exact ascii_of hc3)
      obtain ⟨q4, e4, a4⟩ := skip_white (w := []) (r := b) (by simpa using a2) (by simp [White]) (by rw [eb]; exact ends_of hc1)
      obtain ⟨q5, e5, a5⟩ := f32_value (r := []) (by simpa using a4) hb stop_nil (by intro c e; simp at e)
      have hcur : q1.cursor ≠ q4.cursor := by
        rw [a1.2, a4.2]
        have : 0 < width (w ++ w') := by
          obtain ⟨x, y, e⟩ := List.exists_cons_of_ne_nil (l := w ++ w') (by simpa using hgn)
          rw [e, width_cons]
          have := x.utf8Size_pos
          omega
        simp only [width_append, width_nil] at this ⊢
        omega
      refine ⟨_, q5, _, [], ?_, a5, by simp [White], rfl⟩
      rw [pair, e1]
      simp only [Res.bind, e2, tryParse_err (f := fun p => p.expectChar ',') e3 i3, e4, tryParse_ok e5, if_neg hcur]
    · obtain ⟨q2, e2, a2⟩ := skip_white (w := w) (r := ',' :: (w' ++ b)) (by simpa using a1) hw (ends_of (by decide))
      obtain ⟨q3, e3, a3⟩ := expectChar_ok (c := ',') a2 (by decide)
      obtain ⟨q4, e4, a4⟩ := skip_white (w := w') (r := b) a3 hw' (by rw [eb]; exact ends_of hc1)
      obtain ⟨q5, e5, a5⟩ := f32_value (r := []) (by simpa using a4) hb stop_nil (by intro c e; simp at e)
      refine ⟨_, q5, _, [], ?_, a5, by simp [White], rfl⟩
      rw [pair, e1]
      simp only [Res.bind, e2, tryParse_ok (f := fun p => p.expectChar ',') e3, e4, e5]

end Verif.Boxes
