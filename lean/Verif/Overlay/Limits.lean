import Mathlib.Tactic.IntervalCases
import Verif.Overlay.Whole

/-!
# Where combining paths fails, and examples
-/

namespace Verif.Overlay

open Verif.Gjk
open Verif.Curves (Sq Between Along Cubic)

/-! ## Panics -/

theorem tAt_far (c : Cubic ℝ) (x : Pt ℝ) {tol : ℝ} (far : ∀ t, 0 ≤ t → t ≤ 1 → tol < Sq (c.curve t) x) : Curves.tAt c x tol = none := by
  cases h : Curves.tAt c x tol with
  | none => rfl
  | some t =>
    obtain ⟨h0, h1, h2⟩ := Curves.tAt_sound c x tol h
    exact absurd h2 (not_le.2 (far t h0 h1))

theorem push_keeps {s : Source} {v : Pt ℝ} {acts : List Action} (a b : Pt ℝ) (m : Option Source) (h : ∃ mid w, Action.original s v mid w ∈ acts) :
    ∃ mid w, Action.original s v mid w ∈ push acts a b m := by
  obtain ⟨mid, w, h⟩ := h
  cases m with
  | none => exact ⟨mid, w, List.mem_cons_of_mem _ h⟩
  | some s1 =>
    cases acts with
    | nil => cases h
    | cons x acts =>
      cases x with
      | line z => exact ⟨mid, w, List.mem_cons_of_mem _ h⟩
      | original s2 v2 mid2 w2 =>
        simp only [push]
        split
        · rcases List.mem_cons.1 h with h | h
          · cases h; exact ⟨_, _, List.mem_cons_self⟩
          · exact ⟨mid, w, List.mem_cons_of_mem _ h⟩
        · exact ⟨mid, w, List.mem_cons_of_mem _ h⟩

theorem gather_keeps {look : Pt ℝ → Pt ℝ → Option Source} {s : Source} {v : Pt ℝ} (l : List (Pt ℝ)) {acts : List Action} (a : Pt ℝ)
    (h : ∃ mid w, Action.original s v mid w ∈ acts) : ∃ mid w, Action.original s v mid w ∈ gather look acts a l := by
  induction l generalizing acts a with
  | nil => exact h
  | cons b l ih => exact ih b (push_keeps a b _ h)

theorem gather_append (look : Pt ℝ → Pt ℝ → Option Source) (l r : List (Pt ℝ)) (b : Pt ℝ) (acts : List Action) (a : Pt ℝ) :
    gather look acts a (l ++ b :: r) = gather look (gather look acts a (l ++ [b])) b r := by
  induction l generalizing acts a with
  | nil => rfl
  | cons c l ih => exact ih _ c

theorem mapM_none {α β : Type} {f : α → Option β} {l : List α} {x : α} (hx : x ∈ l) (h : f x = none) : l.mapM f = none := by
  induction l with
  | nil => cases hx
  | cons a l ih =>
    simp only [List.mapM_cons, Option.bind_eq_bind]
    rcases List.mem_cons.1 hx with rfl | hx
    · rw [h]; rfl
    · cases f a with
      | none => rfl
      | some b => simp [ih hx]

/-- **C79 (panics)** Combining paths panics, if a ring has a vertex where the entry changes to that of a curve which is more than 1/1000 away from the vertex; the
polygon of the curve may well be nearer than that. -/
theorem rebuild_panics (look : Pt ℝ → Pt ℝ → Option Source) (pre : List (Pt ℝ)) (v w : Pt ℝ) (post : List (Pt ℝ)) (s : Source) (hl : look v w = some s)
    {a b p : Pt ℝ} (hd : s.data = .curve a b p)
    (hp : ∀ pre' u, pre = pre' ++ [u] → ∀ s', look u v = some s' → s'.key ≠ s.key)
    (far : ∀ t, 0 ≤ t → t ≤ 1 → (1 / 1000) ^ 2 < Sq ((⟨s.start, a, b, p⟩ : Cubic ℝ).curve t) v) : rebuild look (pre ++ v :: w :: post) = none := by
  -- the action that starts at the vertex
  have fresh : ∀ acts : List Action, (∀ s' v' mid' w', acts.head? = some (.original s' v' mid' w') → s'.key ≠ s.key) →
      ∃ mid w', Action.original s v mid w' ∈ gather look acts v (w :: post) := by
    intro acts hacts
    refine gather_keeps post w ⟨[], w, ?_⟩
    rw [hl]
    cases acts with
    | nil => exact List.mem_cons_self
    | cons x acts =>
      cases x with
      | line z => exact List.mem_cons_self
      | original s2 v2 mid2 w2 =>
        have := hacts s2 v2 mid2 w2 rfl
        simp only [push]
        rw [if_neg (Ne.symm this)]
        exact List.mem_cons_self
  have fails : ∀ mid w', emit (.original s v mid w') = none := by
    intro mid w'
    have : Curves.tAt (⟨s.start, a, b, p⟩ : Cubic ℝ) v (1 / 10 ^ 6) = none := tAt_far _ _ (by rw [tol_eq]; exact far)
    simp only [emit, hd, curvePart, this]
    rfl
  have done : ∀ acts : List Action, (∃ mid w', Action.original s v mid w' ∈ acts) → acts.reverse.mapM emit = none := by
    rintro acts ⟨mid, w', h⟩
    exact mapM_none (List.mem_reverse.2 h) (fails mid w')
  cases pre with
  | nil =>
    simp only [List.nil_append, rebuild]
    rw [done _ (fresh [] (by simp))]; rfl
  | cons x pre =>
    simp only [List.cons_append, rebuild]
    rw [gather_append, done _ (fresh _ ?_)]
    · rfl
    intro s' v' mid' w' hh
    rcases List.eq_nil_or_concat pre with rfl | ⟨pre', u, rfl⟩
    · simp only [List.nil_append, gather] at hh
      cases hk : look x v with
      | none => rw [hk] at hh; simp [push] at hh
      | some s1 =>
        rw [hk] at hh
        simp only [push, List.head?_cons, Option.some.injEq, Action.original.injEq] at hh
        rw [← hh.1]
        exact hp [] x rfl s1 hk
    · rw [List.concat_eq_append] at hh
      rw [show (pre' ++ [u]) ++ [v] = pre' ++ u :: [v] by simp, gather_append] at hh
      simp only [gather] at hh
      generalize gather look [] x (pre' ++ [u]) = acts at hh
      cases hk : look u v with
      | none => rw [hk] at hh; simp [push] at hh
      | some s1 =>
        have hs1 := hp (x :: pre') u (by simp [List.concat_eq_append]) s1 hk
        rw [hk] at hh
        cases acts with
        | nil =>
          simp only [push, List.head?_cons, Option.some.injEq, Action.original.injEq] at hh
          rw [← hh.1]; exact hs1
        | cons y acts =>
          cases y with
          | line z =>
            simp only [push, List.head?_cons, Option.some.injEq, Action.original.injEq] at hh
            rw [← hh.1]; exact hs1
          | original s2 v2 mid2 w2 =>
            simp only [push] at hh
            split at hh <;> simp only [List.head?_cons, Option.some.injEq, Action.original.injEq] at hh
            · rename_i e; rw [← hh.1, ← e]; exact hs1
            · rw [← hh.1]; exact hs1

/-- The entry of a curve alone. -/
noncomputable def entry (c : Cubic ℝ) : Source := ⟨0, .curve c.a c.b c.p, c.s, c.s :: coords c.s (.curve c.a c.b c.p)⟩

/-- The entry of a curve is what is kept for it. -/
theorem entry_flatten (c : Cubic ℝ) : flatten 0 ⟨c.s, [.curve c.a c.b c.p], true⟩ = ((entry c).contour, [entry c]) := by
  simp [flatten, flattenFrom, entry]

theorem entry_contour (c : Cubic ℝ) (h : ∀ i < 7, 1 / 10 ^ 6 ≤ Sq c.s (c.curve (1 / 2 ^ i))) :
    (entry c).contour = (List.range 129).map fun i : ℕ => c.curve ((i : ℝ) / 128) := by
  have h7 : Curves.halvings c (1 / 10 ^ 6) 7 1 = 7 :=
    le_antisymm (Curves.halvings_le _ _ _ _) ((Curves.halvings_iff _ _ _ _ _).2 ⟨le_refl _, fun i hi => h i hi⟩)
  have := Curves.coords_of c (1 / 10 ^ 6) 130 (by rw [h7]; norm_num)
  rw [h7] at this
  show c.s :: ((Curves.items c (Curves.step c (1 / 10 ^ 6)) 130 0).getD []).drop 1 = _
  rw [this, Option.getD_some, show (2 : ℕ) ^ 7 + 1 = 128 + 1 from rfl, List.range_succ_eq_map, List.map_cons, List.drop_one, List.tail_cons]
  rw [List.map_cons]
  congr 1
  · simp [Curves.curve_zero]
  · refine List.map_congr_left fun i _ => ?_
    norm_num

/-- An edge of the contour belongs to the entry, and so do parts of it. -/
theorem entry_match (s : Source) {i : ℕ} {p q : Pt ℝ} (hp : s.contour[i]? = some p) (hq : s.contour[i + 1]? = some q) {x y : ℝ} (hx0 : 0 ≤ x) (hx1 : x ≤ 1)
    (hy0 : 0 ≤ y) (hy1 : y ≤ 1) : Match s (Between p q x) (Between p q y) := by
  have mp := List.mem_of_getElem? hp
  have mq := List.mem_of_getElem? hq
  have near : ∀ z, 0 ≤ z → z ≤ 1 → Near s.contour (Between p q z) := fun z h0 h1 => ⟨i, p, q, z, hp, hq, h0, h1, by simp [Sq]⟩
  have bounds : ∀ (f g : ℝ), (min f g ≤ (1 - x) * f + x * g) ∧ (1 - x) * f + x * g ≤ max f g := by
    intro f g
    rcases le_total f g with h | h
    · rw [min_eq_left h, max_eq_right h]; constructor <;> nlinarith
    · rw [min_eq_right h, max_eq_left h]; constructor <;> nlinarith
  have box : ∀ f : Pt ℝ → ℝ, (∃ r ∈ s.contour, f r ≤ (1 - x) * f p + x * f q) ∧ ∃ r ∈ s.contour, (1 - x) * f p + x * f q ≤ f r := by
    intro f
    obtain ⟨b1, b2⟩ := bounds (f p) (f q)
    rcases le_total (f p) (f q) with h | h
    · rw [min_eq_left h] at b1; rw [max_eq_right h] at b2
      exact ⟨⟨p, mp, b1⟩, q, mq, b2⟩
    · rw [min_eq_right h] at b1; rw [max_eq_left h] at b2
      exact ⟨⟨q, mq, b1⟩, p, mp, b2⟩
  refine ⟨⟨⟨(Between p q x).1, (box Prod.fst).1, (box Prod.fst).2, min_le_left _ _, le_max_left _ _⟩,
    ⟨(Between p q x).2, (box Prod.snd).1, (box Prod.snd).2, min_le_left _ _, le_max_left _ _⟩⟩, near x hx0 hx1, near y hy0 hy1, ?_⟩
  have : (((Between p q x).1 + (Between p q y).1) / 2, ((Between p q x).2 + (Between p q y).2) / 2) = Between p q ((x + y) / 2) := by
    apply Prod.ext <;> simp only [Between] <;> ring
  rw [this]
  exact near _ (by linarith) (by linarith)

theorem find_entry (s : Source) {i : ℕ} {p q : Pt ℝ} (hp : s.contour[i]? = some p) (hq : s.contour[i + 1]? = some q) {x y : ℝ} (hx0 : 0 ≤ x) (hx1 : x ≤ 1)
    (hy0 : 0 ≤ y) (hy1 : y ≤ 1) : find [s] (Between p q x) (Between p q y) = some s :=
  find_only [s] _ _ s (by simp) (entry_match s hp hq hx0 hx1 hy0 hy1) (by simp)

theorem between_zero (p q : Pt ℝ) : Between p q 0 = p := by simp [Between]

theorem between_one (p q : Pt ℝ) : Between p q 1 = q := by simp [Between]

/-- A part of a parabola. -/
noncomputable def parabola (L : ℝ) : Cubic ℝ := ⟨(0, 0), (L / 3, 0), (2 * L / 3, L / 3), (L, L)⟩

theorem parabola_curve (L t : ℝ) : (parabola L).curve t = (L * t, L * t ^ 2) := by
  apply Prod.ext <;> simp only [parabola, Cubic.curve, Curves.Bez] <;> ring

/-- **C79 violated: panics.** Take a curve along a parabola, 100 wide or more, and a ring that has a vertex in the middle of the first side of the curve's polygon,
as a line across it gives: making the ring a path panics. -/
theorem rebuild_panic_violated (L : ℝ) (hL : 100 ≤ L) : ∃ p q : Pt ℝ, (entry (parabola L)).contour[0]? = some p ∧ (entry (parabola L)).contour[1]? = some q ∧
    ∀ rest, rebuild (find [entry (parabola L)]) (Between p q (1 / 2) :: q :: rest) = none := by
  have hc : (entry (parabola L)).contour = (List.range 129).map fun i : ℕ => (parabola L).curve ((i : ℝ) / 128) := by
    refine entry_contour _ fun i hi => ?_
    have h2 : (1 : ℝ) / 2 ^ 6 ≤ 1 / 2 ^ i := one_div_le_one_div_of_le (by positivity) (pow_le_pow_right₀ (by norm_num) (by omega))
    have h3 : (1 : ℝ) ≤ L * (1 / 2 ^ i) := by nlinarith
    rw [parabola_curve]
    simp only [Sq, parabola]
    have := sq_nonneg (0 - L * (1 / 2 ^ i) ^ 2)
    nlinarith
  refine ⟨(parabola L).curve 0, (parabola L).curve (1 / 128), by rw [hc]; simp, by rw [hc]; simp, fun rest => ?_⟩
  have h0 : (entry (parabola L)).contour[0]? = some ((parabola L).curve 0) := by rw [hc]; simp
  have h1 : (entry (parabola L)).contour[0 + 1]? = some ((parabola L).curve (1 / 128)) := by rw [hc]; simp
  have hf := find_entry (entry (parabola L)) h0 h1 (x := 1 / 2) (y := 1) (by norm_num) (by norm_num) (by norm_num) (by norm_num)
  rw [between_one] at hf
  refine rebuild_panics _ [] _ _ rest (entry (parabola L)) hf rfl (by simp) fun t t0 t1 => ?_
  have e : (⟨(entry (parabola L)).start, (parabola L).a, (parabola L).b, (parabola L).p⟩ : Cubic ℝ) = parabola L := rfl
  rw [e, parabola_curve, parabola_curve, parabola_curve]
  simp only [Sq, Between]
  by_contra hcon
  rw [not_lt] at hcon
  set X := L * t - ((1 - 1 / 2) * (L * 0) + 1 / 2 * (L * (1 / 128))) with hX
  set Y := L * t ^ 2 - ((1 - 1 / 2) * (L * 0 ^ 2) + 1 / 2 * (L * (1 / 128) ^ 2)) with hY
  have hx : |X| ≤ 1 / 1000 := abs_le_of_sq_le_sq (by nlinarith [sq_nonneg Y]) (by norm_num)
  have hy : |Y| ≤ 1 / 1000 := abs_le_of_sq_le_sq (by nlinarith [sq_nonneg X]) (by norm_num)
  obtain ⟨hx1, hx2⟩ := abs_le.1 hx
  obtain ⟨hy1, hy2⟩ := abs_le.1 hy
  have hLt : L * t ≤ L / 256 + 1 / 1000 := by rw [hX] at hx2; linarith
  have ht : t ≤ 1 / 256 + 1 / 100000 := by
    have : L * t ≤ L * (1 / 256 + 1 / 100000) := by nlinarith
    exact le_of_mul_le_mul_left this (by linarith)
  have : L * t ^ 2 ≤ (L / 256 + 1 / 1000) * (1 / 256 + 1 / 100000) := by
    calc L * t ^ 2 = (L * t) * t := by ring
      _ ≤ (L / 256 + 1 / 1000) * (1 / 256 + 1 / 100000) := mul_le_mul hLt ht t0 (by positivity)
  rw [hY] at hy1
  nlinarith

/-! ## Loops -/

/-- A curve that crosses itself. -/
noncomputable def loop (S : ℝ) : Cubic ℝ :=
  ⟨(-3 * S / 4, 0), (13 * S / 12, 4 * S / 3), (-13 * S / 12, 4 * S / 3), (3 * S / 4, 0)⟩

theorem loop_curve (S t : ℝ) : (loop S).curve t = (S * ((2 * t - 1) ^ 3 - (2 * t - 1) / 4), S * (1 - (2 * t - 1) ^ 2)) := by
  apply Prod.ext <;> simp only [loop, Cubic.curve, Curves.Bez] <;> ring

theorem gather_same {look : Pt ℝ → Pt ℝ → Option Source} {s : Source} (v0 : Pt ℝ) (mid : List (Pt ℝ)) (v : Pt ℝ) (l : List (Pt ℝ))
    (h : ∀ (i : ℕ) (x y : Pt ℝ), (v :: l)[i]? = some x → (v :: l)[i + 1]? = some y → look x y = some s) :
    ∃ mid', gather look [.original s v0 mid v] v l = [.original s v0 mid' ((v :: l).getLast (by simp))] := by
  induction l generalizing v mid with
  | nil => exact ⟨mid, rfl⟩
  | cons w l ih =>
    have e := h 0 v w rfl rfl
    simp only [gather, e, push, if_pos]
    obtain ⟨mid', hm⟩ := ih (mid ++ [v]) w fun i x y hx hy => h (i + 1) x y (by simpa using hx) (by simpa using hy)
    exact ⟨mid', by rw [hm, List.getLast_cons_cons]⟩

/-- **C79 (rings of one curve)** A ring with all of its edges from one curve is made a single part of it, from its first vertex to its last one, wherever its other
vertices are. -/
theorem rebuild_same (look : Pt ℝ → Pt ℝ → Option Source) (s : Source) (v w : Pt ℝ) (l : List (Pt ℝ)) {a b p : Pt ℝ} (hd : s.data = .curve a b p)
    (h : ∀ (i : ℕ) (x y : Pt ℝ), (v :: w :: l)[i]? = some x → (v :: w :: l)[i + 1]? = some y → look x y = some s) :
    rebuild look (v :: w :: l) = none ∨ ∃ (d : Cubic ℝ) (t u : ℝ), rebuild look (v :: w :: l) = some ⟨v, [.curve d.a d.b d.p], true⟩ ∧
      Along d ⟨s.start, a, b, p⟩ t u ∧ 0 ≤ t ∧ t ≤ 1 ∧ 0 ≤ u ∧ u ≤ 1 ∧ Sq ((⟨s.start, a, b, p⟩ : Cubic ℝ).curve t) v ≤ (1 / 1000) ^ 2 ∧
      (Sq ((⟨s.start, a, b, p⟩ : Cubic ℝ).curve u) ((w :: l).getLast (by simp)) ≤ (1 / 1000) ^ 2 ∨ |u - t| < 1 / 10 ^ 10) := by
  have e := h 0 v w rfl rfl
  obtain ⟨mid, hm⟩ := gather_same (s := s) v [] w l fun i x y hx hy => h (i + 1) x y (by simpa using hx) (by simpa using hy)
  simp only [rebuild, gather, e, push, hm]
  cases hc : curvePart ⟨s.start, a, b, p⟩ v ((w :: l).getLast (by simp)) with
  | none => left; simp [emit, hd, hc]
  | some d =>
    right
    obtain ⟨t, u, hp⟩ := curvePart_part hc
    exact ⟨d, t, u, by simp [emit, hd, hc], hp⟩

/-- The vertices of the polygon of the curve that are around the loop, from the middle on; it meets itself at the 96th one and the 32nd one. -/
noncomputable def around (S : ℝ) : List (Pt ℝ) :=
  ((List.range 33).map fun i : ℕ => (loop S).curve ((64 + i : ℝ) / 128)) ++ (List.range 31).map fun i : ℕ => (loop S).curve ((33 + i : ℝ) / 128)

/-- **C79 violated: loops.** Take a curve that crosses itself, and the ring around its loop, along the polygon of the curve. Making the ring a path panics or loses
all of the loop but a small part of it next to its first vertex: the ring goes down to 3/4 of its height. -/
theorem rebuild_loop_violated (S : ℝ) (hS : 1 ≤ S) : ∃ v w l, around S = v :: w :: l ∧ (0, 3 / 4 * S) ∈ around S ∧
    (∀ x ∈ around S, x ∈ (entry (loop S)).contour) ∧
    (rebuild (find [entry (loop S)]) (around S) = none ∨ ∃ a b p, rebuild (find [entry (loop S)]) (around S) = some ⟨v, [.curve a b p], true⟩ ∧
      ∀ x, 0 ≤ x → x ≤ 1 → 98 / 100 * S ≤ ((⟨v, a, b, p⟩ : Cubic ℝ).curve x).2) := by
  have hc : (entry (loop S)).contour = (List.range 129).map fun i : ℕ => (loop S).curve ((i : ℝ) / 128) := by
    refine entry_contour _ fun i hi => ?_
    rw [loop_curve]
    simp only [Sq, loop]
    interval_cases i <;> norm_num <;> nlinarith
  have point : ∀ j : ℕ, j < 129 → (entry (loop S)).contour[j]? = some ((loop S).curve ((j : ℝ) / 128)) := fun j hj => by
    rw [hc]; simp [hj]
  have lower : ∀ i : ℕ, i < 33 → (around S)[i]? = some ((loop S).curve ((64 + i : ℝ) / 128)) := fun i hi => by
    unfold around; rw [List.getElem?_append_left (by simpa using hi)]; simp [hi]
  have upper : ∀ i : ℕ, 33 ≤ i → i < 64 → (around S)[i]? = some ((loop S).curve ((i : ℝ) / 128)) := fun i h1 h2 => by
    unfold around; rw [List.getElem?_append_right (by simpa using h1)]
    have : i - 33 < 31 := by omega
    simp [this, Nat.cast_sub h1]
  have len : (around S).length = 64 := by simp [around]
  have cross : (loop S).curve ((64 + (32 : ℕ) : ℝ) / 128) = (loop S).curve ((32 : ℕ) / 128) := by
    rw [loop_curve, loop_curve]; norm_num
  have edge : ∀ i : ℕ, i + 1 < 64 → ∃ j : ℕ, (entry (loop S)).contour[j]? = (around S)[i]? ∧ (entry (loop S)).contour[j + 1]? = (around S)[i + 1]? := by
    intro i hi
    rcases lt_trichotomy i 32 with h | rfl | h
    · refine ⟨64 + i, ?_, ?_⟩
      · rw [lower i (by omega), point _ (by omega)]; push_cast; rfl
      · rw [lower (i + 1) (by omega), point _ (by omega)]; push_cast; rw [add_assoc]
    · exact ⟨32, by rw [lower 32 (by omega), point _ (by omega), cross], by rw [upper 33 (by omega) (by omega), point _ (by omega)]⟩
    · exact ⟨i, by rw [upper i (by omega) (by omega), point _ (by omega)], by rw [upper (i + 1) (by omega) (by omega), point _ (by omega)]⟩
  obtain ⟨v, w, l, e⟩ : ∃ v w l, around S = v :: w :: l := by
    have : 2 ≤ (around S).length := by rw [len]; norm_num
    match h : around S with
    | [] => rw [h] at this; simp at this
    | [_] => rw [h] at this; simp at this
    | v :: w :: l => exact ⟨v, w, l, rfl⟩
  have hv : v = (loop S).curve (1 / 2) := by
    have := lower 0 (by norm_num)
    rw [e] at this
    simp only [List.getElem?_cons_zero, Option.some.injEq] at this
    rw [this]; norm_num
  have hw : (w :: l).getLast (by simp) = (loop S).curve (63 / 128) := by
    have h1 := upper 63 (by norm_num) (by norm_num)
    rw [e] at h1 len
    have h2 : (v :: w :: l).getLast? = some ((loop S).curve (63 / 128)) := by
      rw [List.getLast?_eq_getElem?, len]; exact_mod_cast h1
    rw [List.getLast?_eq_some_getLast (by simp), List.getLast_cons_cons, Option.some.injEq] at h2
    exact h2
  refine ⟨v, w, l, e, ?_, ?_, ?_⟩
  · have := List.mem_of_getElem? (lower 32 (by norm_num))
    rw [loop_curve] at this
    convert this using 2 <;> push_cast <;> ring
  · intro x hx
    obtain ⟨i, hi⟩ := List.mem_iff_getElem?.1 hx
    have hi' : i < 64 := by have := (List.getElem?_eq_some_iff.1 hi).1; omega
    by_cases h : i + 1 < 64
    · obtain ⟨j, hj, -⟩ := edge i h
      exact List.mem_of_getElem? (hj.trans hi)
    · obtain rfl : i = 63 := by omega
      exact List.mem_of_getElem? (((point 63 (by norm_num)).trans (upper 63 (by norm_num) (by norm_num)).symm).trans hi)
  · rw [e]
    rcases rebuild_same (find [entry (loop S)]) (entry (loop S)) v w l rfl (fun i x y hx hy => by
      rw [← e] at hx hy
      have hi := (List.getElem?_eq_some_iff.1 hy).1
      obtain ⟨j, h1, h2⟩ := edge i (by omega)
      have := find_entry (entry (loop S)) (h1.trans hx) (h2.trans hy) (x := 0) (y := 1) (by norm_num) (by norm_num) (by norm_num) (by norm_num)
      rwa [between_zero, between_one] at this) with h | ⟨d, t, u, h, ha, ht0, ht1, hu0, hu1, s1, s2⟩
    · exact .inl h
    · refine .inr ⟨d.a, d.b, d.p, h, fun x x0 x1 => ?_⟩
      have es : (⟨(entry (loop S)).start, (loop S).a, (loop S).b, (loop S).p⟩ : Cubic ℝ) = loop S := rfl
      rw [es] at ha s1 s2
      rw [hw, loop_curve, loop_curve] at s2
      rw [hv, loop_curve, loop_curve] at s1
      have hds := ha.ends.1
      rw [loop_curve] at hds
      have hx := ha x
      rw [loop_curve] at hx
      have hx2 := congrArg Prod.snd hx
      simp only [Cubic.curve, Curves.Bez] at hx2
      have hd2 := congrArg Prod.snd hds
      simp only at hd2
      have hv2 : v.2 = S := by rw [hv, loop_curve]; norm_num
      simp only [Cubic.curve, Curves.Bez, hv2]
      simp only [Sq] at s1 s2
      have b1 : S * (2 * t - 1) ^ 2 ≤ 1 / 1000 := by
        have : (S * (1 - (2 * t - 1) ^ 2) - S * (1 - (2 * (1 / 2) - 1) ^ 2)) ^ 2 ≤ (1 / 1000) ^ 2 := by nlinarith [sq_nonneg (S * ((2 * t - 1) ^ 3 - (2 * t - 1) / 4) - S * ((2 * (1 / 2) - 1) ^ 3 - (2 * (1 / 2) - 1) / 4))]
        have := (abs_le.1 (abs_le_of_sq_le_sq this (by norm_num))).1
        nlinarith
      have b2 : S * (2 * u - 1) ^ 2 ≤ 1 / 4096 * S + 1 / 100 := by
        rcases s2 with s2 | s2
        · have : (S * (1 - (2 * u - 1) ^ 2) - S * (1 - (2 * (63 / 128) - 1) ^ 2)) ^ 2 ≤ (1 / 1000) ^ 2 := by nlinarith [sq_nonneg (S * ((2 * u - 1) ^ 3 - (2 * u - 1) / 4) - S * ((2 * (63 / 128) - 1) ^ 3 - (2 * (63 / 128) - 1) / 4))]
          have := (abs_le.1 (abs_le_of_sq_le_sq this (by norm_num))).1
          nlinarith
        · obtain ⟨h1, h2⟩ := abs_lt.1 s2
          have hp : |2 * t - 1| ≤ 1 := abs_le.2 ⟨by linarith, by linarith⟩
          have hq : 4 * ((2 * t - 1) * (u - t)) + 4 * (u - t) ^ 2 ≤ 1 / 4096 := by
            have k1 : (2 * t - 1) * (u - t) ≤ 1 / 10 ^ 10 := by
              calc (2 * t - 1) * (u - t) ≤ |(2 * t - 1) * (u - t)| := le_abs_self _
                _ = |2 * t - 1| * |u - t| := abs_mul _ _
                _ ≤ 1 * (1 / 10 ^ 10) := mul_le_mul hp s2.le (abs_nonneg _) zero_le_one
                _ = _ := one_mul _
            have k2 : (u - t) ^ 2 ≤ (1 / 10 ^ 10) ^ 2 := sq_le_sq' h1.le h2.le
            norm_num at k1 k2 ⊢; linarith
          have e3 : S * (2 * u - 1) ^ 2 = S * (2 * t - 1) ^ 2 + S * (4 * ((2 * t - 1) * (u - t)) + 4 * (u - t) ^ 2) := by ring
          have := mul_le_mul_of_nonneg_left hq (by linarith : (0 : ℝ) ≤ S)
          rw [e3]; linarith
      have conv : S * (2 * (t + x * (u - t)) - 1) ^ 2 ≤ (1 - x) * (S * (2 * t - 1) ^ 2) + x * (S * (2 * u - 1) ^ 2) := by
        have : 0 ≤ S * ((1 - x) * x * (2 * t - 2 * u) ^ 2) := by
          have := mul_nonneg (sub_nonneg.2 x1) x0
          positivity
        nlinarith
      have b3 : S * (2 * (t + x * (u - t)) - 1) ^ 2 ≤ 1 / 4096 * S + 1 / 100 := by
        have k1 := mul_le_mul_of_nonneg_left (b1.trans (by linarith : (1 : ℝ) / 1000 ≤ 1 / 4096 * S + 1 / 100)) (sub_nonneg.2 x1)
        have k2 := mul_le_mul_of_nonneg_left b2 x0
        have k3 : (1 - x) * (1 / 4096 * S + 1 / 100) + x * (1 / 4096 * S + 1 / 100) = 1 / 4096 * S + 1 / 100 := by ring
        linarith
      have b4 : 0 ≤ (1 - x) ^ 3 * (S * (2 * t - 1) ^ 2) := mul_nonneg (pow_nonneg (sub_nonneg.2 x1) 3) (by positivity)
      rw [hd2] at hx2
      have b5 : (1 - x) ^ 3 * (S * (1 - (2 * t - 1) ^ 2)) = (1 - x) ^ 3 * S - (1 - x) ^ 3 * (S * (2 * t - 1) ^ 2) := by ring
      have b6 : S * (1 - (2 * (t + x * (u - t)) - 1) ^ 2) = S - S * (2 * (t + x * (u - t)) - 1) ^ 2 := by ring
      rw [b5, b6] at hx2
      linarith

/-! ## Arcs -/

/-- **C79 (parts of arcs)** Where both vertices are on the arc, and it does not go around once, the part of it goes from the one to the other. -/
theorem emit_arc (s : Source) {a : ArcR} (hd : s.data = .arc a) (hx : 0 < a.rx) (hy : 0 < a.ry) (h0 : a.sweep ≠ 0) (hs : |a.sweep| ≤ 2 * Real.pi - 1 / 100)
    {t u : ℝ} (ht0 : 0 ≤ t) (ht1 : t ≤ 1) (hu0 : 0 ≤ u) (hu1 : u ≤ 1) (mid : List (Pt ℝ)) :
    ∃ d, emit (.original s (Arcs.Along a t) mid (Arcs.Along a u)) = some (.arc d) ∧ ∀ x, Arcs.Along d x = Arcs.Along a (t + x * (u - t)) := by
  have f : ∀ z, 0 ≤ z → z ≤ 1 → Arcs.tAt a (Arcs.Along a z) (1 / 10 ^ 3) = some z := fun z z0 z1 =>
    Arcs.tAt_complete a hx hy h0 (by norm_num) z0 z1 (.inl (by linarith))
  simp only [emit, hd]
  refine ⟨_, rfl, fun x => ?_⟩
  obtain ⟨k, hk, hk'⟩ := arcPart_along a (Arcs.Along a t) (Arcs.Along a u)
    (if mid.isEmpty then none else (Arcs.Along a t :: mid ++ [Arcs.Along a u])[(mid.length + 1) / 2]?) t u (by rw [f t ht0 ht1]; rfl) (by rw [f u hu0 hu1]; rfl)
  rcases hk' with rfl | ⟨-, hk'⟩
  · rw [hk x, add_zero]
  · rw [abs_lt] at hk'; linarith [hk'.1]

/-! ## Transforms -/

/-- **C79 violated: transforms.** The action combines the data of the paths without their transforms. A point that the first one of two paths is drawn at is lost
by their union, wherever its transform takes it out of what the transform of the other one makes of both. -/
theorem action_transform_violated (comb : BoolPath → BoolPath → List Seg) (fill : List Seg → Bool → Set (Pt ℝ))
    (hc : ∀ p q r, fill (comb p q) r = Op.union.area (fill p.inner p.evenodd) (fill q.inner q.evenodd)) (e f : ℕ × BoolPath) (T U : Pt ℝ → Pt ℝ) (x : Pt ℝ)
    (hx : x ∈ fill e.2.inner e.2.evenodd) (hT : ∀ y ∈ fill e.2.inner e.2.evenodd, U y ≠ T x) (hU : ∀ y ∈ fill f.2.inner f.2.evenodd, U y ≠ T x) :
    ∃ p, action comb [e, f] = some (f.1, p) ∧ T x ∈ T '' fill e.2.inner e.2.evenodd ∧ T x ∉ U '' fill p.inner p.evenodd := by
  refine ⟨⟨comb e.2 f.2, true⟩, rfl, ⟨x, hx, rfl⟩, ?_⟩
  rintro ⟨y, hy, hyx⟩
  rw [hc] at hy
  rcases hy with hy | hy
  · exact hT y hy hyx
  · exact hU y hy hyx

/-- **C79 (transforms)** With the same transform on all of the paths, it makes no difference. -/
theorem action_transform (comb : BoolPath → BoolPath → List Seg) (op : Op) (fill : List Seg → Bool → Set (Pt ℝ))
    (hc : ∀ p q r, fill (comb p q) r = op.area (fill p.inner p.evenodd) (fill q.inner q.evenodd)) (e f : ℕ × BoolPath) (T : Pt ℝ → Pt ℝ) (hT : T.Injective) :
    ∃ p, action comb [e, f] = some (f.1, p) ∧
      T '' fill p.inner p.evenodd = op.area (T '' fill e.2.inner e.2.evenodd) (T '' fill f.2.inner f.2.evenodd) := by
  refine ⟨⟨comb e.2 f.2, true⟩, rfl, ?_⟩
  rw [hc]
  have key : ∀ {A B A' B' : Set (Pt ℝ)} {x y : Pt ℝ}, (x ∈ A ↔ y ∈ A') → (x ∈ B ↔ y ∈ B') → (x ∈ op.area A B ↔ y ∈ op.area A' B') := by
    intro A B A' B' x y h1 h2
    cases op
    · exact and_congr h1 h2
    · exact or_congr h1 h2
    · exact and_congr h1 (not_congr h2)
    · exact not_congr (iff_congr h1 h2)
  have m : ∀ (A : Set (Pt ℝ)) x, T x ∈ T '' A ↔ x ∈ A := fun A x => hT.mem_set_image
  have o : ∀ (A : Set (Pt ℝ)) y, (¬ ∃ x, T x = y) → y ∉ T '' A := fun A y h ⟨x, _, e⟩ => h ⟨x, e⟩
  ext y
  by_cases hy : ∃ x, T x = y
  · obtain ⟨x, rfl⟩ := hy
    rw [m]
    exact key (m _ x).symm (m _ x).symm
  · have h1 := o (fill e.2.inner e.2.evenodd) y hy
    have h2 := o (fill f.2.inner f.2.evenodd) y hy
    have h3 := o (op.area (fill e.2.inner e.2.evenodd) (fill f.2.inner f.2.evenodd)) y hy
    constructor
    · intro h; exact absurd h h3
    · intro h
      have := (key (A' := ∅) (B' := ∅) (y := y) (by simpa using h1) (by simpa using h2)).1 h
      cases op <;> simp [Op.area] at this

/-! ## Examples -/

/-- The polygon of a path of lines has their ends as vertices. -/
example : flatten 0 ⟨(0, 0), [.line (4, 0), .line (0, 3)], true⟩ =
    ([(0, 0), (4, 0), (0, 3)], [⟨0, .line (4, 0), (0, 0), [(0, 0), (4, 0)]⟩, ⟨1, .line (0, 3), (4, 0), [(4, 0), (0, 3)]⟩]) := by
  simp [flatten, flattenFrom, coords, endOf]

/-- A ring that no path is near of is made lines. -/
example : rebuild (find []) [(0, 0), (4, 0), (0, 3)] = some ⟨(0, 0), [.line (4, 0), .line (0, 3)], true⟩ := by
  simp [rebuild, gather, find, push, emit]

/-- There are engines that keep the contract, for a rule of filling that tells polygons apart. -/
example : ∃ (E : Engine) (area : Shapes → Set (Pt ℝ)) (fill : List (List (Pt ℝ)) → Bool → Set (Pt ℝ)), E.Sound area fill ∧
    fill [[(0, 0)]] true ≠ fill [] true := by
  refine ⟨⟨fun cs _ => if cs = [] then [] else [[]], fun a b op => match op with
      | .intersect => if a = [] ∨ b = [] then [] else [[]]
      | .union => if a = [] ∧ b = [] then [] else [[]]
      | .difference => if a = [] ∨ b ≠ [] then [] else [[]]
      | .xor => if a = [] ↔ b = [] then [] else [[]]⟩, fun s => {_x | s ≠ []}, fun cs _ => {_x | cs ≠ []}, ⟨?_, ?_⟩, ?_⟩
  · intro cs r; ext x; by_cases h : cs = [] <;> simp [h]
  · intro a b op; ext x; cases op <;> by_cases h : a = [] <;> by_cases h' : b = [] <;> simp [Op.area, h, h']
  · intro h; have := congrArg (fun A => ((0, 0) : Pt ℝ) ∈ A) h; simp at this

/-- Three selected paths: the last element is kept. -/
example : action (fun p q => p.inner ++ q.inner) [(5, ⟨[], false⟩), (7, ⟨[⟨0, [], true⟩], false⟩), (9, ⟨[], true⟩)] = some (9, ⟨[⟨0, [], true⟩], true⟩) ∧
    removed [(5, ⟨[], false⟩), (7, ⟨[⟨0, [], true⟩], false⟩), (9, ⟨[], true⟩)] = [5, 7] := ⟨rfl, rfl⟩

end Verif.Overlay
