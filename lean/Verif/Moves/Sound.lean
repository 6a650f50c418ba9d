import Verif.Moves.Limits
import Verif.Choice.Sound

/-!
# C96: what is read
-/

namespace Verif.Moves

open Verif.Parse Verif.Clock Verif.Number Verif.Boxes Verif.Choice

variable {γ : Type} {p q : Parser} {pre rest r t u w w' g z R : List Char} {css : List Char → Option γ} {cssText : γ → List Char}

/-! ## The input is kept -/

/-- The parser afterwards has this input. -/
def Keeps {α : Type} (i : List Char) : Res α → Prop
  | .ok _ q => q.input = i
  | .err q => q.input = i
  | .panic => True

theorem keeps_bind {α β : Type} {i : List Char} {a : Res α} {f : α → Parser → Res β} (h : Keeps i a) (hf : ∀ x q, q.input = i → Keeps i (f x q)) :
    Keeps i (a.bind f) := by
  cases a with
  | ok x q => exact hf x q h
  | err q => exact h
  | panic => trivial

theorem keeps_internal {i : List Char} (n : Nat) (h : p.input = i) : Keeps i (p.skipInternal n) := by
  rw [Parser.skipInternal]
  split
  · trivial
  · split
    · exact h
    · trivial

theorem keeps_matches {i : List Char} (f : Char → Bool) (h : p.input = i) : Keeps i (p.skipMatches f) := by
  rw [Parser.skipMatches]
  split
  · trivial
  · exact keeps_internal _ h

theorem keeps_white {i : List Char} (h : p.input = i) : Keeps i p.skipWhitespace := keeps_matches _ h

theorem keeps_skipChar {i : List Char} (c : Char) (h : p.input = i) : Keeps i (p.skipChar c) := by
  rw [Parser.skipChar]
  split
  · trivial
  · exact keeps_internal _ h

theorem keeps_give {i : List Char} (n : Nat) (h : p.input = i) : Keeps i (p.giveFrom n) := by
  rw [Parser.giveFrom]
  split
  · trivial
  · exact h

theorem keeps_current {i : List Char} (h : p.input = i) : Keeps i p.current := by
  rw [Parser.current]
  split
  · trivial
  · exact h
  · exact h

theorem keeps_body {i : List Char} (h : p.input = i) : Keeps i (exponent.body p) := by
  rw [exponent.body]
  refine keeps_bind (keeps_matches _ h) fun _ q h => keeps_bind (keeps_matches _ h) fun _ q h => keeps_bind (keeps_skipChar _ h) fun _ q h =>
    keeps_bind (keeps_matches _ h) fun _ q h => ?_
  split <;> exact h

theorem keeps_exponent {i : List Char} (h : p.input = i) : Keeps i (exponent p) := by
  have h1 := keeps_current h
  rw [exponent]
  cases e : p.current with
  | panic => trivial
  | err q => rw [e] at h1; exact h1
  | ok c q =>
    rw [e] at h1
    change q.input = i at h1
    have h2 : q.advance.input = i := h1
    have h3 := keeps_current h2
    simp only []
    split
    · cases e' : q.advance.current with
      | panic => trivial
      | err q' => exact keeps_body h2
      | ok d q' =>
        rw [e'] at h3
        simp only []
        split
        · rw [Parser.rewind]
          split
          · exact h3
          · trivial
        · exact keeps_body h2
    · exact h1

theorem keeps_f32 {i : List Char} (h : p.input = i) : Keeps i (f32 p) := by
  rw [f32, parseF64]
  refine keeps_bind (keeps_bind (keeps_white h) fun _ p h => keeps_bind (keeps_matches _ h) fun _ q h => keeps_bind (keeps_matches _ h) fun _ q h =>
    keeps_bind (keeps_skipChar _ h) fun _ q h => keeps_bind (keeps_matches _ h) fun _ q h => keeps_bind (keeps_exponent h) fun _ q h =>
      keeps_bind (keeps_give _ h) fun _ q h => ?_) fun _ q h => h
  split <;> exact h

theorem keeps_expect {i : List Char} (c : Char) (h : p.input = i) : Keeps i (p.expectChar c) := by
  rw [Parser.expectChar, Parser.read]
  refine keeps_bind (keeps_bind (keeps_current h) fun _ q h => h) fun _ q h => ?_
  split <;> exact h

theorem keeps_ident {i : List Char} (h : p.input = i) : Keeps i p.expectIdent := by
  rw [Parser.expectIdent, Parser.read]
  refine keeps_bind (keeps_bind (keeps_current h) fun _ q h => h) fun _ q h => ?_
  split
  · exact keeps_bind (keeps_matches _ h) fun _ q h => keeps_give _ h
  · exact keeps_bind (keeps_give _ h) fun _ q h => h

theorem keeps_comma {i : List Char} (h : p.input = i) : Keeps i (skipComma p) :=
  keeps_bind (keeps_white h) fun _ _ h => keeps_bind (keeps_skipChar _ h) fun _ _ h => keeps_white h

theorem keeps_close {i : List Char} (x : Item γ) (h : p.input = i) : Keeps i (close x p) :=
  keeps_bind (keeps_white h) fun _ _ h => keeps_bind (keeps_expect _ h) fun _ _ h => h

theorem keeps_try {α : Type} {i : List Char} {f : Parser → Res α} (h : p.input = i) (hf : Keeps i (f p)) : Keeps i (p.tryParse f) := by
  rw [Parser.tryParse]
  cases e : f p with
  | ok a q => rw [e] at hf; exact hf
  | err q => rw [e] at hf; exact hf
  | panic => trivial

theorem keeps_args {i name : List Char} (h : p.input = i) : Keeps i (args name p : Res (Item γ)) := by
  rw [args]
  split_ifs
  · exact keeps_bind (keeps_f32 h) fun _ _ h => keeps_bind (keeps_comma h) fun _ _ h => keeps_bind (keeps_f32 h) fun _ _ h =>
      keeps_bind (keeps_comma h) fun _ _ h => keeps_bind (keeps_f32 h) fun _ _ h => keeps_bind (keeps_comma h) fun _ _ h => keeps_bind (keeps_f32 h) fun _ _ h =>
      keeps_bind (keeps_comma h) fun _ _ h => keeps_bind (keeps_f32 h) fun _ _ h => keeps_bind (keeps_comma h) fun _ _ h => keeps_bind (keeps_f32 h) fun _ _ h =>
      keeps_close _ h
  · refine keeps_bind (keeps_f32 h) fun _ _ h => keeps_bind (keeps_comma h) fun _ p h => ?_
    have := keeps_try h (keeps_f32 h)
    cases e : p.tryParse f32 with
    | ok a q => rw [e] at this; exact keeps_close _ this
    | err q => rw [e] at this; exact keeps_close _ this
    | panic => trivial
  · refine keeps_bind (keeps_f32 h) fun _ _ h => keeps_bind (keeps_comma h) fun _ p h => ?_
    have := keeps_try h (keeps_f32 h)
    cases e : p.tryParse f32 with
    | ok a q => rw [e] at this; exact keeps_close _ this
    | err q => rw [e] at this; exact keeps_close _ this
    | panic => trivial
  · refine keeps_bind (keeps_f32 h) fun _ _ h => keeps_bind (keeps_comma h) fun _ p h => ?_
    have := keeps_try h (keeps_f32 h)
    cases e : p.tryParse f32 with
    | ok a q =>
      rw [e] at this
      exact keeps_bind (keeps_comma this) fun _ _ h => keeps_bind (keeps_f32 h) fun _ _ h => keeps_close _ h
    | err q => rw [e] at this; exact keeps_close _ this
    | panic => trivial
  · exact keeps_bind (keeps_f32 h) fun _ _ h => keeps_close _ h
  · exact keeps_bind (keeps_f32 h) fun _ _ h => keeps_close _ h
  · exact h

theorem keeps_function {i : List Char} (h : p.input = i) : Keeps i (function p : Res (Item γ)) :=
  keeps_bind (keeps_ident h) fun _ _ h => keeps_bind (keeps_white h) fun _ _ h => keeps_bind (keeps_expect _ h) fun _ _ h => keeps_args h

theorem keeps_item {i : List Char} (h : p.input = i) : Keeps i (item css p) := by
  have h1 := keeps_try h (keeps_function (γ := γ) h)
  rw [item]
  cases e : p.tryParse (function : Parser → Res (Item γ)) with
  | ok x q => rw [e] at h1; exact h1
  | panic => trivial
  | err q =>
    rw [e] at h1
    change q.input = i at h1
    simp only [orElse, Parser.takeSlice]
    cases q.slice with
    | none => trivial
    | some s =>
      simp only [Res.bind]
      cases css s with
      | none => exact h1
      | some d => exact h1

theorem f32_back (h : p.tryParse f32 = .err q) : q = p := try_err h fun q' e => by have := keeps_f32 (p := p) rfl; rw [e] at this; exact this

theorem item_back (h : p.tryParse (item css) = .err q) : q = p := try_err h fun q' e => by
  have := keeps_item (css := css) (p := p) rfl; rw [e] at this; exact this

/-! ## What is read -/

/-- Numbers with white space before them, and white space and commas between them, perhaps nothing. -/
inductive Numbers : List Char → List (List Char) → Prop
  | one (w a : List Char) : Wide w → IsNumber a → Numbers (w ++ a) [a]
  | more (w a g r : List Char) (as : List (List Char)) : Wide w → IsNumber a → Gap g → Numbers r as → Numbers (w ++ (a ++ (g ++ r))) (a :: as)

/-- Functions with their names and numbers, with white space and commas before each of them and at the end. -/
inductive Texts : List Char → List (List Char × List (List Char)) → Prop
  | nil (g : List Char) : Gap g → Texts g []
  | cons (g name w u g' r : List Char) (as : List (List Char)) (cs : List (List Char × List (List Char))) : Gap g → Wide w → Numbers u as → Gap g' → Texts r cs →
      Texts (g ++ (name ++ (w ++ '(' :: (u ++ (g' ++ ')' :: r))))) ((name, as) :: cs)

/-- The transforms of functions with their numbers. -/
inductive Calls : List (List Char × List (List Char)) → List (List ℚ) → List Move → Prop
  | nil : Calls [] [] []
  | cons (name as vs m cs vss l) : Call name vs m → Calls cs vss l → Calls ((name, as) :: cs) (vs :: vss) (m :: l)

theorem close_from {x y : Item γ} (hp : At p pre rest) (h : close x p = .ok y q) : y = x ∧ ∃ w r pre', rest = w ++ ')' :: r ∧ Wide w ∧ At q pre' r := by
  obtain ⟨_, p1, e1, h⟩ := bind_ok h
  obtain ⟨_, p2, e2, h⟩ := bind_ok h
  cases h
  obtain ⟨w, r, rfl, hw, a⟩ := skip_from hp e1
  obtain ⟨r, rfl, a'⟩ := expectChar_from (by decide) a e2
  exact ⟨rfl, w, r, _, rfl, hw, a'⟩

theorem wide_gap {w : List Char} (h : Wide w) : Gap w := ⟨w, 0, [], by simp, h, by intro c hc; simp at hc⟩

theorem inv_one {a : List Char} {vs : List ℚ} (h : List.Forall₂ Value [a] vs) : ∃ x, vs = [x] ∧ Value a x := by
  cases h with | cons h h' => cases h'; exact ⟨_, rfl, h⟩

theorem inv_cons {a : List Char} {as : List (List Char)} {vs : List ℚ} (h : List.Forall₂ Value (a :: as) vs) :
    ∃ x vs', vs = x :: vs' ∧ Value a x ∧ List.Forall₂ Value as vs' := by
  cases h with | cons h h' => exact ⟨_, _, rfl, h, h'⟩

/-- A number and a gap. -/
theorem step_from {n : Num} {p1 p2 : Parser} (hp : At p pre rest) (h : f32 p = .ok n p1) (h' : skipComma p1 = .ok () p2) (hl : rest.getLast? ≠ some ',') :
    ∃ w a g r pre', rest = w ++ (a ++ (g ++ r)) ∧ Wide w ∧ IsNumber a ∧ Gap g ∧ n = numOf a ∧ At p2 pre' r ∧ r.getLast? ≠ some ',' := by
  obtain ⟨w, a, r, rfl, hw, ha, rfl, a1⟩ := f32_from hp h
  obtain ⟨g, r, rfl, a2, hg⟩ := gap_from a1 h'
  exact ⟨w, a, g, r, _, rfl, hw, ha, hg fun e => hl (last_of_suffix (last_of_suffix e)), rfl, a2,
    fun e => hl (last_of_suffix (last_of_suffix (last_of_suffix e)))⟩

/-- What the arguments are. -/
def Read (name : List Char) (x : Item γ) (q : Parser) (rest : List Char) : Prop :=
  ∃ u as g r pre', rest = u ++ (g ++ ')' :: r) ∧ Numbers u as ∧ Gap g ∧ At q pre' r ∧ (∃ vs m, Call name vs m ∧ vs.length = as.length) ∧
    ∀ vs, List.Forall₂ Value as vs → ∃ m, Call name vs m ∧ Gives x m

theorem args_from {name : List Char} {x : Item γ} (hp : At p pre rest) (h : args name p = .ok x q) (hl : rest.getLast? ≠ some ',') : Read name x q rest := by
  rw [args] at h
  split_ifs at h with h1 h2 h3 h4 h5 h6
  · subst h1
    obtain ⟨n1, p1, e1, h⟩ := bind_ok h
    obtain ⟨_, p2, e2, h⟩ := bind_ok h
    obtain ⟨n2, p3, e3, h⟩ := bind_ok h
    obtain ⟨_, p4, e4, h⟩ := bind_ok h
    obtain ⟨n3, p5, e5, h⟩ := bind_ok h
    obtain ⟨_, p6, e6, h⟩ := bind_ok h
    obtain ⟨n4, p7, e7, h⟩ := bind_ok h
    obtain ⟨_, p8, e8, h⟩ := bind_ok h
    obtain ⟨n5, p9, e9, h⟩ := bind_ok h
    obtain ⟨_, p10, e10, h⟩ := bind_ok h
    obtain ⟨n6, p11, e11, h⟩ := bind_ok h
    obtain ⟨w1, a1, g1, _, _, rfl, hw1, ha1, hg1, rfl, hp, hl⟩ := step_from hp e1 e2 hl
    obtain ⟨w2, a2, g2, _, _, rfl, hw2, ha2, hg2, rfl, hp, hl⟩ := step_from hp e3 e4 hl
    obtain ⟨w3, a3, g3, _, _, rfl, hw3, ha3, hg3, rfl, hp, hl⟩ := step_from hp e5 e6 hl
    obtain ⟨w4, a4, g4, _, _, rfl, hw4, ha4, hg4, rfl, hp, hl⟩ := step_from hp e7 e8 hl
    obtain ⟨w5, a5, g5, _, _, rfl, hw5, ha5, hg5, rfl, hp, hl⟩ := step_from hp e9 e10 hl
    obtain ⟨w6, a6, _, rfl, hw6, ha6, rfl, hp⟩ := f32_from hp e11
    obtain ⟨rfl, w, r, pre', rfl, hw, hq⟩ := close_from hp h
    refine ⟨w1 ++ (a1 ++ (g1 ++ (w2 ++ (a2 ++ (g2 ++ (w3 ++ (a3 ++ (g3 ++ (w4 ++ (a4 ++ (g4 ++ (w5 ++ (a5 ++ (g5 ++ (w6 ++ a6))))))))))))))),
      [a1, a2, a3, a4, a5, a6], w, r, pre', by simp, .more _ _ _ _ _ hw1 ha1 hg1 (.more _ _ _ _ _ hw2 ha2 hg2 (.more _ _ _ _ _ hw3 ha3 hg3
        (.more _ _ _ _ _ hw4 ha4 hg4 (.more _ _ _ _ _ hw5 ha5 hg5 (.one _ _ hw6 ha6))))), wide_gap hw, hq, ⟨_, _, .matrix 0 0 0 0 0 0, rfl⟩, ?_⟩
    intro vs h
    obtain ⟨v1, _, rfl, k1, h⟩ := inv_cons h
    obtain ⟨v2, _, rfl, k2, h⟩ := inv_cons h
    obtain ⟨v3, _, rfl, k3, h⟩ := inv_cons h
    obtain ⟨v4, _, rfl, k4, h⟩ := inv_cons h
    obtain ⟨v5, _, rfl, k5, h⟩ := inv_cons h
    obtain ⟨v6, rfl, k6⟩ := inv_one h
    exact ⟨_, .matrix _ _ _ _ _ _, .matrix ⟨_, k1, rfl⟩ ⟨_, k2, rfl⟩ ⟨_, k3, rfl⟩ ⟨_, k4, rfl⟩ ⟨_, k5, rfl⟩ ⟨_, k6, rfl⟩⟩
  · subst h2
    obtain ⟨n1, p1, e1, h⟩ := bind_ok h
    obtain ⟨_, p2, e2, h⟩ := bind_ok h
    obtain ⟨w1, a1, g1, _, _, rfl, hw1, ha1, hg1, rfl, hp, hl⟩ := step_from hp e1 e2 hl
    cases e3 : p2.tryParse f32 with
    | panic => simp [e3] at h
    | ok n2 p3 =>
      simp only [e3] at h
      obtain ⟨w2, a2, _, rfl, hw2, ha2, rfl, hp⟩ := f32_from hp (Verif.Path.tryParse_ok e3)
      obtain ⟨rfl, w, r, pre', rfl, hw, hq⟩ := close_from hp h
      refine ⟨w1 ++ (a1 ++ (g1 ++ (w2 ++ a2))), [a1, a2], w, r, pre', by simp, .more _ _ _ _ _ hw1 ha1 hg1 (.one _ _ hw2 ha2), wide_gap hw, hq,
        ⟨_, _, .translate 0 0, rfl⟩, ?_⟩
      intro vs h
      obtain ⟨v1, _, rfl, k1, h⟩ := inv_cons h
      obtain ⟨v2, rfl, k2⟩ := inv_one h
      exact ⟨_, .translate _ _, .translate ⟨_, k1, rfl⟩ ⟨_, k2, rfl⟩⟩
    | err p3 =>
      simp only [e3] at h
      obtain rfl := f32_back e3
      obtain ⟨rfl, w, r, pre', rfl, hw, hq⟩ := close_from hp h
      refine ⟨w1 ++ a1, [a1], g1 ++ w, r, pre', by simp, .one _ _ hw1 ha1, gap_append hg1 hw, hq, ⟨_, _, .translateX 0, rfl⟩, ?_⟩
      intro vs h
      obtain ⟨v1, rfl, k1⟩ := inv_one h
      exact ⟨_, .translateX _, .translate ⟨_, k1, rfl⟩ num_zero⟩
  · subst h3
    obtain ⟨n1, p1, e1, h⟩ := bind_ok h
    obtain ⟨_, p2, e2, h⟩ := bind_ok h
    obtain ⟨w1, a1, g1, _, _, rfl, hw1, ha1, hg1, rfl, hp, hl⟩ := step_from hp e1 e2 hl
    cases e3 : p2.tryParse f32 with
    | panic => simp [e3] at h
    | ok n2 p3 =>
      simp only [e3] at h
      obtain ⟨w2, a2, _, rfl, hw2, ha2, rfl, hp⟩ := f32_from hp (Verif.Path.tryParse_ok e3)
      obtain ⟨rfl, w, r, pre', rfl, hw, hq⟩ := close_from hp h
      refine ⟨w1 ++ (a1 ++ (g1 ++ (w2 ++ a2))), [a1, a2], w, r, pre', by simp, .more _ _ _ _ _ hw1 ha1 hg1 (.one _ _ hw2 ha2), wide_gap hw, hq,
        ⟨_, _, .scale 0 0, rfl⟩, ?_⟩
      intro vs h
      obtain ⟨v1, _, rfl, k1, h⟩ := inv_cons h
      obtain ⟨v2, rfl, k2⟩ := inv_one h
      exact ⟨_, .scale _ _, .scale ⟨_, k1, rfl⟩ ⟨_, k2, rfl⟩⟩
    | err p3 =>
      simp only [e3] at h
      obtain rfl := f32_back e3
      obtain ⟨rfl, w, r, pre', rfl, hw, hq⟩ := close_from hp h
      refine ⟨w1 ++ a1, [a1], g1 ++ w, r, pre', by simp, .one _ _ hw1 ha1, gap_append hg1 hw, hq, ⟨_, _, .scaleBoth 0, rfl⟩, ?_⟩
      intro vs h
      obtain ⟨v1, rfl, k1⟩ := inv_one h
      exact ⟨_, .scaleBoth _, .scale ⟨_, k1, rfl⟩ ⟨_, k1, rfl⟩⟩
  · subst h4
    obtain ⟨n1, p1, e1, h⟩ := bind_ok h
    obtain ⟨_, p2, e2, h⟩ := bind_ok h
    obtain ⟨w1, a1, g1, _, _, rfl, hw1, ha1, hg1, rfl, hp, hl⟩ := step_from hp e1 e2 hl
    cases e3 : p2.tryParse f32 with
    | panic => simp [e3] at h
    | ok n2 p3 =>
      simp only [e3] at h
      obtain ⟨_, p4, e4, h⟩ := bind_ok h
      obtain ⟨n3, p5, e5, h⟩ := bind_ok h
      obtain ⟨w2, a2, g2, _, _, rfl, hw2, ha2, hg2, rfl, hp, hl⟩ := step_from hp (Verif.Path.tryParse_ok e3) e4 hl
      obtain ⟨w3, a3, _, rfl, hw3, ha3, rfl, hp⟩ := f32_from hp e5
      obtain ⟨rfl, w, r, pre', rfl, hw, hq⟩ := close_from hp h
      refine ⟨w1 ++ (a1 ++ (g1 ++ (w2 ++ (a2 ++ (g2 ++ (w3 ++ a3)))))), [a1, a2, a3], w, r, pre', by simp,
        .more _ _ _ _ _ hw1 ha1 hg1 (.more _ _ _ _ _ hw2 ha2 hg2 (.one _ _ hw3 ha3)), wide_gap hw, hq, ⟨_, _, .rotate 0 0 0, rfl⟩, ?_⟩
      intro vs h
      obtain ⟨v1, _, rfl, k1, h⟩ := inv_cons h
      obtain ⟨v2, _, rfl, k2, h⟩ := inv_cons h
      obtain ⟨v3, rfl, k3⟩ := inv_one h
      exact ⟨_, .rotate _ _ _, .rotate ⟨_, k1, rfl⟩ ⟨_, k2, rfl⟩ ⟨_, k3, rfl⟩⟩
    | err p3 =>
      simp only [e3] at h
      obtain rfl := f32_back e3
      obtain ⟨rfl, w, r, pre', rfl, hw, hq⟩ := close_from hp h
      refine ⟨w1 ++ a1, [a1], g1 ++ w, r, pre', by simp, .one _ _ hw1 ha1, gap_append hg1 hw, hq, ⟨_, _, .rotateOrigin 0, rfl⟩, ?_⟩
      intro vs h
      obtain ⟨v1, rfl, k1⟩ := inv_one h
      exact ⟨_, .rotateOrigin _, .rotate ⟨_, k1, rfl⟩ num_zero num_zero⟩
  · subst h5
    obtain ⟨n1, p1, e1, h⟩ := bind_ok h
    obtain ⟨w1, a1, _, rfl, hw1, ha1, rfl, hp⟩ := f32_from hp e1
    obtain ⟨rfl, w, r, pre', rfl, hw, hq⟩ := close_from hp h
    refine ⟨w1 ++ a1, [a1], w, r, pre', by simp, .one _ _ hw1 ha1, wide_gap hw, hq, ⟨_, _, .skewX 0, rfl⟩, ?_⟩
    intro vs h
    obtain ⟨v1, rfl, k1⟩ := inv_one h
    exact ⟨_, .skewX _, .skewX ⟨_, k1, rfl⟩⟩
  · subst h6
    obtain ⟨n1, p1, e1, h⟩ := bind_ok h
    obtain ⟨w1, a1, _, rfl, hw1, ha1, rfl, hp⟩ := f32_from hp e1
    obtain ⟨rfl, w, r, pre', rfl, hw, hq⟩ := close_from hp h
    refine ⟨w1 ++ a1, [a1], w, r, pre', by simp, .one _ _ hw1 ha1, wide_gap hw, hq, ⟨_, _, .skewY 0, rfl⟩, ?_⟩
    intro vs h
    obtain ⟨v1, rfl, k1⟩ := inv_one h
    exact ⟨_, .skewY _, .skewY ⟨_, k1, rfl⟩⟩

theorem last_cons {c : Char} {b : List Char} (h : b.getLast? = some ',') : (c :: b).getLast? = some ',' := last_of_suffix (a := [c]) h

theorem item_from {x : Item γ} (hp : At p pre rest) (h : p.tryParse (item css) = .ok x q) (hx : ∀ c, x ≠ .css c) (hl : rest.getLast? ≠ some ',') :
    ∃ name w u as g r pre', rest = name ++ (w ++ '(' :: (u ++ (g ++ ')' :: r))) ∧ Wide w ∧ Numbers u as ∧ Gap g ∧ At q pre' r ∧
      (∃ vs m, Call name vs m ∧ vs.length = as.length) ∧ ∀ vs, List.Forall₂ Value as vs → ∃ m, Call name vs m ∧ Gives x m := by
  have h1 := Verif.Path.tryParse_ok h
  have h2 : function p = .ok x q := by
    cases e : p.tryParse (function : Parser → Res (Item γ)) with
    | panic => rw [item, e] at h1; simp [orElse] at h1
    | ok y q' =>
      rw [item, e] at h1
      simp only [orElse, Res.ok.injEq] at h1
      rw [← h1.1, ← h1.2]
      exact Verif.Path.tryParse_ok e
    | err p' =>
      rw [item, e] at h1
      simp only [orElse, Parser.takeSlice] at h1
      cases h3 : p'.slice with
      | none => simp [h3, Res.bind] at h1
      | some s =>
        simp only [h3, Res.bind] at h1
        cases h4 : css s with
        | none => simp [h4] at h1
        | some d => simp only [h4, Res.ok.injEq] at h1; exact absurd h1.1.symm (hx d)
  obtain ⟨name, p1, e1, h⟩ := bind_ok h2
  obtain ⟨_, p2, e2, h⟩ := bind_ok h
  obtain ⟨_, p3, e3, h⟩ := bind_ok h
  obtain ⟨r1, rfl, a1⟩ := ident_from hp e1
  obtain ⟨w, r2, rfl, hw, a2⟩ := skip_from a1 e2
  obtain ⟨r3, rfl, a3⟩ := expectChar_from (by decide) a2 e3
  obtain ⟨u, as, g, r, pre', rfl, hu, hg, hq, hA, hv⟩ := args_from a3 h (fun e => hl (last_of_suffix (last_of_suffix (last_cons e))))
  exact ⟨name, w, u, as, g, r, pre', rfl, hw, hu, hg, hq, hA, hv⟩

theorem loop_from (n : Nat) {x : List (Item γ)} (hp : At p pre rest) (h : loop css n p = .ok x q) (hx : ∀ c, Item.css c ∉ x) (hl : rest.getLast? ≠ some ',') :
    ∃ T r pre' cs, rest = T ++ r ∧ At q pre' r ∧ (∀ w, Wide w → Texts (T ++ w) cs) ∧ (∀ c ∈ cs, ∃ vs m, Call c.1 vs m ∧ vs.length = c.2.length) ∧
      ∀ vss, List.Forall₂ (fun c vs => List.Forall₂ Value c.2 vs) cs vss → ∃ l, Calls cs vss l ∧ List.Forall₂ Gives x l := by
  induction n generalizing p pre rest x q with
  | zero => simp [loop] at h
  | succ n ih =>
    rw [loop] at h
    obtain ⟨_, p1, e1, h⟩ := bind_ok h
    obtain ⟨g, r, rfl, a1, hg⟩ := gap_from hp e1
    have hg0 := hg hl
    clear hg
    cases e2 : p1.tryParse (item css) with
    | panic => simp [e2] at h
    | err p2 =>
      simp only [e2, Res.ok.injEq] at h
      obtain ⟨rfl, rfl⟩ := h
      obtain rfl := item_back e2
      refine ⟨g, r, _, [], rfl, a1, fun w hw => .nil _ (gap_append hg0 hw), by simp, ?_⟩
      intro vss h
      cases h
      exact ⟨[], .nil, .nil⟩
    | ok y p2 =>
      simp only [e2] at h
      obtain ⟨l, p3, e3, h⟩ := bind_ok h
      cases h
      obtain ⟨name, w, u, as, g', r', pre', rfl, hw, hu, hg', a2, hA, hv⟩ := item_from a1 e2 (fun c e => hx c (by simp [e]))
        (fun e => hl (last_of_suffix e))
      obtain ⟨T, r'', pre'', cs, rfl, a3, hT, hcs, hvs⟩ := ih a2 e3 (fun c e => hx c (by simp [e]))
        (fun e => hl (last_of_suffix (last_of_suffix (last_of_suffix (last_cons (last_of_suffix (last_of_suffix (last_cons e))))))))
      refine ⟨g ++ (name ++ (w ++ '(' :: (u ++ (g' ++ ')' :: T)))), r'', pre'', (name, as) :: cs, by simp, a3, ?_, ?_, ?_⟩
      · intro w' hw'
        have := Texts.cons g name w u g' (T ++ w') as cs hg0 hw hu hg' (hT w' hw')
        simpa using this
      · intro c hc
        rcases List.mem_cons.mp hc with rfl | hc
        · exact hA
        · exact hcs c hc
      · intro vss h
        cases h with
        | cons h h' =>
          obtain ⟨m, hm, hm'⟩ := hv _ h
          obtain ⟨l', hl', hl''⟩ := hvs _ h'
          exact ⟨m :: l', .cons _ _ _ _ _ _ _ hm hl', .cons hm' hl''⟩

/-- **C96 (nothing else is read)** What is read as a `transform` without functions in CSS (from a text that does not end with a comma) is a
sequence of functions of SVG with as many numbers as they have, with white space, and white space and commas (perhaps nothing, or too many commas)
between them; and what is written has the meaning of these functions with the values of these numbers. -/
theorem list_sound {x : List (Item γ)} (h : ListOf.parseString (list css) t = .ok x q) (hx : ∀ c, Item.css c ∉ x) (hl : t.getLast? ≠ some ',')
    (hz : z = "0".toList ∨ z = "-0".toList) :
    ∃ cs, Texts t cs ∧ (∀ c ∈ cs, ∃ vs m, Call c.1 vs m ∧ vs.length = c.2.length) ∧
      ∀ vss, List.Forall₂ (fun c vs => List.Forall₂ Value c.2 vs) cs vss → ∃ l, Calls cs vss l ∧ ListMeans (listText z cssText x) l := by
  obtain ⟨_, p0, e0, h⟩ := bind_ok h
  obtain ⟨x', p1, e1, h⟩ := bind_ok h
  obtain ⟨_, p2, e2, h⟩ := bind_ok h
  obtain ⟨_, p3, e3, h⟩ := bind_ok h
  cases h
  obtain ⟨w0, r0, rfl, hw0, a0⟩ := skip_from (pre := []) (rest := t) ⟨rfl, rfl⟩ e0
  obtain ⟨T, r, pre', cs, rfl, a1, hT, hcs, hv⟩ := loop_from 2048 a0 e1 hx (fun e => hl (last_of_suffix e))
  have hr := rest_done a1 e2 e3
  refine ⟨cs, ?_, hcs, ?_⟩
  · have hg : ∀ {a}, Gap a → Gap (w0 ++ a) := by
      rintro a ⟨w, n, w', rfl, h1, h2⟩
      exact ⟨w0 ++ w, n, w', by simp, wide_append hw0 h1, h2⟩
    have := hT r hr
    generalize T ++ r = s at this ⊢
    cases this with
    | nil g h => exact .nil _ (hg h)
    | cons g name w u g' r as cs h1 h2 h3 h4 h5 =>
      have := Texts.cons (w0 ++ g) name w u g' r as cs (hg h1) h2 h3 h4 h5
      simpa using this
  · intro vss h
    obtain ⟨l, h1, h2⟩ := hv vss h
    exact ⟨l, h1, list_written h2 hz⟩

/-- Too many commas are read. -/
example : written "scale(1 2 3)" = none ∧ written "scale(1) 2" = none ∧ written ",scale(2,,3),,rotate(1,)" = some "scale(2 3)rotate(1)" := by
  decide +kernel

end Verif.Moves
