import Verif.Moves.Model
import Verif.Moves.Spec
import Verif.Choice.Props

namespace Verif.Moves

open Verif.Parse Verif.Clock Verif.Number Verif.Boxes Verif.Choice

variable {γ : Type} {p q : Parser} {pre rest r t u w w' g z R : List Char} {v : ℚ} {l : List ℚ}

/-- A number of that value. -/
def IsNum (n : Num) (v : ℚ) : Prop := ∃ t, Value t v ∧ numOf t = n

theorem num_value {n : Num} (h : IsNum n v) (hz : z = "0".toList ∨ z = "-0".toList) : Value (n.text z) v := by
  obtain ⟨t, h, rfl⟩ := h
  exact value_kept h hz

theorem num_val {n : Num} (h : IsNum n v) : v = val n.neg n.ip n.fp := by
  obtain ⟨t, h, rfl⟩ := h
  obtain ⟨neg, ip, fp, e, h1, h2, rfl⟩ := numOf_value h
  rw [e]
  simp only [norm, val, decimal_strip, tail_strip]
  rfl

theorem num_zero : IsNum zero 0 :=
  ⟨['0'], ⟨[], ['0'], [], [], 0, rfl, .inl rfl, by unfold Digits; decide, .inl ⟨rfl, by simp⟩, .inl ⟨rfl, rfl⟩, by simp [zero_char, tail_nil]⟩, by decide⟩

theorem isZero_value {n : Num} (h : IsNum n v) (hn : isZero n = true) : v = 0 := by
  simp only [isZero, Bool.and_eq_true, List.isEmpty_iff] at hn
  rw [num_val h, hn.1, hn.2, val, tail_nil]
  simp [decimal]

theorem same_value {m n : Num} {v' : ℚ} (h : IsNum m v) (h' : IsNum n v') (e : same m n = true) : v = v' := by
  simp only [same, Bool.or_eq_true, beq_iff_eq, Bool.and_eq_true] at e
  rcases e with rfl | ⟨e1, e2⟩
  · rw [num_val h, num_val h']
  · rw [isZero_value h e1, isZero_value h' e2]

theorem gap_eq (p : Parser) : skipComma p = gap p := rfl

/-! ## Arguments -/

theorem args_head (h : Args u l) : ∃ c x, u = c :: x ∧ isWhitespace c = false ∧ c ≠ ',' := by
  cases h with
  | one _ v h => obtain ⟨c, x, e, h1, h2, _⟩ := value_head h; exact ⟨c, x, e, h1, h2⟩
  | more t v g r l h _ _ => obtain ⟨c, x, rfl, h1, h2, _⟩ := value_head h; exact ⟨c, _, rfl, h1, h2⟩

theorem args_fine (h : Args u l) : Fine u := by
  induction h with
  | one _ v h => exact value_fine h
  | more t v g r l _ _ h ih =>
    have hr : r ≠ [] := by obtain ⟨c, x, rfl, _⟩ := args_head h; simp
    exact fine_left (fine_left ih hr) (by simp [hr])

theorem between_commas (h : Between g r) : Commas g := by
  rcases h with h | ⟨rfl, _⟩
  · exact comma_commas h
  · exact ⟨[], 0, [], rfl, white_nil, white_nil⟩

theorem between_stop (h : Between g r) : Stop (g ++ (r ++ R)) := by
  refine commas_stop (between_commas h) ?_
  rcases h with h | ⟨rfl, x, rfl | rfl⟩
  · exact .inr (comma_loose h).2
  · exact .inl (by intro c u e; simp only [List.cons_append, List.cons.injEq] at e; rw [← e.1]; decide)
  · exact .inl (by intro c u e; simp only [List.cons_append, List.cons.injEq] at e; rw [← e.1]; decide)

/-- The last number. -/
theorem num_last (h : Args u [v]) (hp : At p pre (u ++ R)) (hs : Stop R) (hf : Fine R) :
    ∃ n q pre', f32 p = .ok n q ∧ IsNum n v ∧ At q pre' R := by
  cases h with
  | one _ _ h =>
    obtain ⟨q, e, a⟩ := f32_value hp h hs hf
    exact ⟨_, q, _, e, ⟨_, h, rfl⟩, a⟩
  | more _ _ _ _ _ _ _ h => cases h

/-- A number, and what is between it and the next one. -/
theorem num_gap {v' : ℚ} (h : Args u (v :: v' :: l)) (hp : At p pre (u ++ R)) (hf : Fine R) :
    ∃ n q q' pre' r, f32 p = .ok n q ∧ skipComma q = .ok () q' ∧ IsNum n v ∧ Args r (v' :: l) ∧ At q' pre' (r ++ R) := by
  cases h with
  | more t _ g r _ h hg hr =>
    have fr : Fine (r ++ R) := fine_append (args_fine hr) hf
    obtain ⟨c, x, rfl, h1, h2⟩ := args_head hr
    obtain ⟨q, e, a⟩ := f32_value (t := t) (r := g ++ ((c :: x) ++ R)) (by simpa using hp) h (between_stop hg) (fine_left fr (by simp))
    obtain ⟨q', e', a'⟩ := gap_read (c := c) (r := x ++ R) a (between_commas hg) h1 h2 fr
    exact ⟨_, q, q', _, _, e, e', ⟨_, h, rfl⟩, hr, a'⟩

/-- White space before a number is skipped. -/
theorem f32_skip {x : List Char} (hp : At p pre (w ++ x)) (hw : White w) (hx : Ends isWhitespace x) :
    ∃ q pre', f32 p = f32 q ∧ At q pre' x := by
  obtain ⟨q, e, a⟩ := skip_white hp hw hx
  obtain ⟨q', e', a'⟩ := skip_white (w := []) (by simpa using a) white_nil hx
  have hq : q = q' := by
    have hi : q.input = q'.input := by rw [a.1, a'.1]; simp
    have hc : q.cursor = q'.cursor := by rw [a.2, a'.2]; simp
    cases q; cases q'; simp_all
  subst hq
  refine ⟨q, _, ?_, a⟩
  rw [f32, f32, parseF64, parseF64, e, e']

/-- The end of a function. -/
def Tail (R k : List Char) : Prop := ∃ w, White w ∧ R = w ++ ')' :: k ∧ Fine (')' :: k)

theorem tail_stop {k : List Char} (h : Tail R k) : Stop R := by
  obtain ⟨w, hw, rfl, _⟩ := h
  exact commas_stop (g := w) ⟨w, 0, [], by simp, hw, white_nil⟩ (.inl (by
    intro c u e; simp only [List.cons.injEq] at e; rw [← e.1]; decide))

theorem tail_fine {k : List Char} (h : Tail R k) : Fine R := by
  obtain ⟨w, _, rfl, hf⟩ := h
  exact fine_left hf (by simp)

theorem close_read {k : List Char} (x : Item γ) (hp : At p pre R) (h : Tail R k) : ∃ q pre', close x p = .ok x q ∧ At q pre' k := by
  obtain ⟨w, hw, rfl, _⟩ := h
  obtain ⟨q1, e1, a1⟩ := skip_white hp hw (ends_of (by decide))
  obtain ⟨q2, e2, a2⟩ := expectChar_ok a1 (by decide)
  refine ⟨q2, _, ?_, a2⟩
  rw [close, e1]
  simp only [Res.bind, e2]

/-- No further number. -/
theorem no_more {k : List Char} (hp : At p pre R) (h : Tail R k) : ∃ q pre', skipComma p = .ok () q ∧ q.tryParse f32 = .err q ∧ At q pre' (')' :: k) ∧
    Tail (')' :: k) k := by
  obtain ⟨w, hw, rfl, hf⟩ := h
  obtain ⟨q, e, a⟩ := gap_read (c := ')') (r := k) hp ⟨w, 0, [], by simp, hw, white_nil⟩ (by decide) (by decide) hf
  obtain ⟨q', e', i'⟩ := f32_other a ⟨by decide, by decide, by decide, by decide, by decide⟩ (fun e => (hf _ e).1 rfl)
  exact ⟨q, _, e, tryParse_err e' i', a, [], white_nil, by simp, hf⟩

/-- What is read for a transform. -/
inductive Gives : Item γ → Move → Prop
  | matrix {a b c d e f : Num} {a' b' c' d' e' f' : ℚ} : IsNum a a' → IsNum b b' → IsNum c c' → IsNum d d' → IsNum e e' → IsNum f f' →
      Gives (.matrix a b c d e f) (.matrix a' b' c' d' e' f')
  | translate {x y : Num} {x' y' : ℚ} : IsNum x x' → IsNum y y' → Gives (.translate x y) (.translate x' y')
  | scale {x y : Num} {x' y' : ℚ} : IsNum x x' → IsNum y y' → Gives (.scale x y) (.scale x' y')
  | rotate {a x y : Num} {a' x' y' : ℚ} : IsNum a a' → IsNum x x' → IsNum y y' → Gives (.rotate a x y) (.rotate a' x' y')
  | skewX {a : Num} {a' : ℚ} : IsNum a a' → Gives (.skewX a) (.skewX a')
  | skewY {a : Num} {a' : ℚ} : IsNum a a' → Gives (.skewY a) (.skewY a')

/-- The arguments of a function are read. -/
theorem args_read {name k : List Char} {m : Move} (hu : Args u l) (hc : Call name l m) (hp : At p pre (u ++ R)) (hR : Tail R k) :
    ∃ (x : Item γ) (q : Parser) (pre' : List Char), args name p = .ok x q ∧ Gives x m ∧ At q pre' k := by
  have hs := tail_stop hR
  have hf := tail_fine hR
  cases hc with
  | matrix a b c d e f =>
    obtain ⟨n1, q1, p2, _, _, e1, g1, i1, hu, hp⟩ := num_gap hu hp hf
    obtain ⟨n2, q2, p3, _, _, e2, g2, i2, hu, hp⟩ := num_gap hu hp hf
    obtain ⟨n3, q3, p4, _, _, e3, g3, i3, hu, hp⟩ := num_gap hu hp hf
    obtain ⟨n4, q4, p5, _, _, e4, g4, i4, hu, hp⟩ := num_gap hu hp hf
    obtain ⟨n5, q5, p6, _, _, e5, g5, i5, hu, hp⟩ := num_gap hu hp hf
    obtain ⟨n6, q6, _, e6, i6, hp⟩ := num_last hu hp hs hf
    obtain ⟨q7, _, e7, hp⟩ := close_read (γ := γ) (.matrix n1 n2 n3 n4 n5 n6) hp hR
    refine ⟨_, q7, _, ?_, .matrix i1 i2 i3 i4 i5 i6, hp⟩
    rw [args, if_pos rfl, matrixArgs]
    simp only [Res.bind, e1, g1, e2, g2, e3, g3, e4, g4, e5, g5, e6, e7]
  | translate x y =>
    obtain ⟨n1, q1, p2, _, _, e1, g1, i1, hu, hp⟩ := num_gap hu hp hf
    obtain ⟨n2, q2, _, e2, i2, hp⟩ := num_last hu hp hs hf
    obtain ⟨q7, _, e7, hp⟩ := close_read (γ := γ) (.translate n1 n2) hp hR
    refine ⟨_, q7, _, ?_, .translate i1 i2, hp⟩
    rw [args, if_neg (by decide), if_pos rfl, translateArgs]
    simp only [Res.bind, e1, g1, tryParse_ok e2, e7]
  | translateX x =>
    obtain ⟨n1, q1, _, e1, i1, hp⟩ := num_last hu hp hs hf
    obtain ⟨q2, _, e2, e3, hp, hR⟩ := no_more hp hR
    obtain ⟨q7, _, e7, hp⟩ := close_read (γ := γ) (.translate n1 zero) hp hR
    refine ⟨_, q7, _, ?_, .translate i1 num_zero, hp⟩
    rw [args, if_neg (by decide), if_pos rfl, translateArgs]
    simp only [Res.bind, e1, e2, e3, e7]
  | scale x y =>
    obtain ⟨n1, q1, p2, _, _, e1, g1, i1, hu, hp⟩ := num_gap hu hp hf
    obtain ⟨n2, q2, _, e2, i2, hp⟩ := num_last hu hp hs hf
    obtain ⟨q7, _, e7, hp⟩ := close_read (γ := γ) (.scale n1 n2) hp hR
    refine ⟨_, q7, _, ?_, .scale i1 i2, hp⟩
    rw [args, if_neg (by decide), if_neg (by decide), if_pos rfl, scaleArgs]
    simp only [Res.bind, e1, g1, tryParse_ok e2, e7]
  | scaleBoth x =>
    obtain ⟨n1, q1, _, e1, i1, hp⟩ := num_last hu hp hs hf
    obtain ⟨q2, _, e2, e3, hp, hR⟩ := no_more hp hR
    obtain ⟨q7, _, e7, hp⟩ := close_read (γ := γ) (.scale n1 n1) hp hR
    refine ⟨_, q7, _, ?_, .scale i1 i1, hp⟩
    rw [args, if_neg (by decide), if_neg (by decide), if_pos rfl, scaleArgs]
    simp only [Res.bind, e1, e2, e3, e7]
  | rotate a x y =>
    obtain ⟨n1, q1, p2, _, _, e1, g1, i1, hu, hp⟩ := num_gap hu hp hf
    obtain ⟨n2, q2, p3, _, _, e2, g2, i2, hu, hp⟩ := num_gap hu hp hf
    obtain ⟨n3, q3, _, e3, i3, hp⟩ := num_last hu hp hs hf
    obtain ⟨q7, _, e7, hp⟩ := close_read (γ := γ) (.rotate n1 n2 n3) hp hR
    refine ⟨_, q7, _, ?_, .rotate i1 i2 i3, hp⟩
    rw [args, if_neg (by decide), if_neg (by decide), if_neg (by decide), if_pos rfl, rotateArgs]
    simp only [Res.bind, e1, g1, tryParse_ok e2, g2, e3, e7]
  | rotateOrigin a =>
    obtain ⟨n1, q1, _, e1, i1, hp⟩ := num_last hu hp hs hf
    obtain ⟨q2, _, e2, e3, hp, hR⟩ := no_more hp hR
    obtain ⟨q7, _, e7, hp⟩ := close_read (γ := γ) (.rotate n1 zero zero) hp hR
    refine ⟨_, q7, _, ?_, .rotate i1 num_zero num_zero, hp⟩
    rw [args, if_neg (by decide), if_neg (by decide), if_neg (by decide), if_pos rfl, rotateArgs]
    simp only [Res.bind, e1, e2, e3, e7]
  | skewX a =>
    obtain ⟨n1, q1, _, e1, i1, hp⟩ := num_last hu hp hs hf
    obtain ⟨q7, _, e7, hp⟩ := close_read (γ := γ) (.skewX n1) hp hR
    refine ⟨_, q7, _, ?_, .skewX i1, hp⟩
    rw [args, if_neg (by decide), if_neg (by decide), if_neg (by decide), if_neg (by decide), if_pos rfl]
    simp only [Res.bind, e1, e7]
  | skewY a =>
    obtain ⟨n1, q1, _, e1, i1, hp⟩ := num_last hu hp hs hf
    obtain ⟨q7, _, e7, hp⟩ := close_read (γ := γ) (.skewY n1) hp hR
    refine ⟨_, q7, _, ?_, .skewY i1, hp⟩
    rw [args, if_neg (by decide), if_neg (by decide), if_neg (by decide), if_neg (by decide), if_neg (by decide), if_pos rfl]
    simp only [Res.bind, e1, e7]

theorem args_skip {name x : List Char} {m : Move} (hc : Call name l m) (hp : At p pre (w ++ x)) (hw : White w) (hx : Ends isWhitespace x) :
    ∃ q pre', (args name p : Res (Item γ)) = args name q ∧ At q pre' x := by
  obtain ⟨q, pre', e, a⟩ := f32_skip hp hw hx
  refine ⟨q, pre', ?_, a⟩
  cases hc <;> simp [args, matrixArgs, translateArgs, scaleArgs, rotateArgs, e]

theorem call_name {name : List Char} {m : Move} (hc : Call name l m) : ∃ c n, name = c :: n ∧ isNameStartChar c = true ∧ c.utf8Size = 1 ∧
    (∀ x ∈ n, isNameChar x = true) ∧ isWhitespace c = false ∧ c ≠ ',' := by
  cases hc
  · exact ⟨'m', "atrix".toList, rfl, by decide, by decide, by decide, by decide, by decide⟩
  · exact ⟨'t', "ranslate".toList, rfl, by decide, by decide, by decide, by decide, by decide⟩
  · exact ⟨'t', "ranslate".toList, rfl, by decide, by decide, by decide, by decide, by decide⟩
  · exact ⟨'s', "cale".toList, rfl, by decide, by decide, by decide, by decide, by decide⟩
  · exact ⟨'s', "cale".toList, rfl, by decide, by decide, by decide, by decide, by decide⟩
  · exact ⟨'r', "otate".toList, rfl, by decide, by decide, by decide, by decide, by decide⟩
  · exact ⟨'r', "otate".toList, rfl, by decide, by decide, by decide, by decide, by decide⟩
  · exact ⟨'s', "kewX".toList, rfl, by decide, by decide, by decide, by decide, by decide⟩
  · exact ⟨'s', "kewY".toList, rfl, by decide, by decide, by decide, by decide, by decide⟩

/-- **A function is read.** -/
theorem item_read {css : List Char → Option γ} {k : List Char} {m : Move} (h : Means t m) (hp : At p pre (t ++ k)) (hk : Fine (')' :: k)) :
    ∃ x q pre', p.tryParse (item css) = .ok x q ∧ Gives x m ∧ At q pre' k := by
  obtain ⟨name, w, w1, u, w2, l, rfl, hw, hw1, hw2, hu, hc⟩ := h
  obtain ⟨c, n, rfl, h1, h2, h3, _⟩ := call_name hc
  have hb : Ends isNameChar (w ++ '(' :: (w1 ++ (u ++ (w2 ++ ')' :: k)))) := by
    cases w with
    | nil => exact ends_of (by decide)
    | cons x w => exact ends_of (white_name (hw x (by simp)))
  obtain ⟨q1, _, a1, e1⟩ := ident_word (c := c) (m := n) (r := w ++ '(' :: (w1 ++ (u ++ (w2 ++ ')' :: k)))) (by simpa using hp) h1 h2 h3 hb
  obtain ⟨q2, e2, a2⟩ := skip_white a1 hw (ends_of (by decide))
  obtain ⟨q3, e3, a3⟩ := expectChar_ok a2 (by decide)
  obtain ⟨cu, xu, eu, hcu, _⟩ := args_head hu
  obtain ⟨q4, _, e4, a4⟩ := args_skip (γ := γ) hc a3 hw1 (by rw [eu]; exact ends_of hcu)
  obtain ⟨x, q5, _, e5, hx, a5⟩ := args_read (γ := γ) hu hc a4 ⟨w2, hw2, rfl, hk⟩
  refine ⟨x, q5, _, ?_, hx, a5⟩
  have hfn : function p = .ok x q5 := by
    rw [function, e1]
    simp only [Res.bind, e2, e3, e4, e5]
  apply tryParse_ok
  rw [item, tryParse_ok hfn]
  rfl

theorem means_head {m : Move} (h : Means t m) : ∃ c u, t = c :: u ∧ isWhitespace c = false ∧ c ≠ ',' := by
  obtain ⟨name, w, w1, u, w2, l, rfl, _, _, _, _, hc⟩ := h
  obtain ⟨c, n, rfl, _, _, _, h1, h2⟩ := call_name hc
  exact ⟨c, _, rfl, h1, h2⟩

theorem means_fine {m : Move} (h : Means t m) : Fine t := by
  obtain ⟨name, w, w1, u, w2, l, rfl, _, _, _, _, hc⟩ := h
  have : name ++ (w ++ '(' :: (w1 ++ (u ++ (w2 ++ [')'])))) = (name ++ (w ++ '(' :: (w1 ++ (u ++ w2)))) ++ [')'] := by simp
  rw [this]
  exact fine_left fine_close (by simp)

theorem fine_paren (h : Fine u) : Fine (')' :: u) := fine_append (a := [')']) fine_close h

end Verif.Moves
