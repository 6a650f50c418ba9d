import Mathlib.Tactic.NormNum
import Verif.Curves.Coords

/-!
# Where parts of curves, and points along them, are not what is promised; examples
-/

namespace Verif.Curves

open Verif.Gjk

variable {K : Type} [Field K] [LinearOrder K] [IsStrictOrderedRing K]

/-- **C77 (violated: closed curves)** The coordinates along a curve that ends where it starts, or closer than the tolerance, are its two ends only,
wherever the curve goes in between. -/
theorem coords_closed_violated (c : Cubic K) {tol : K} (h : Sq c.s c.p < tol) (f : ℕ) : items c (step c tol) (f + 3) 0 = some [c.s, c.p] := by
  obtain ⟨j, -, hl, hm⟩ := coords_points c tol
  obtain rfl : j = 0 := by
    by_contra hj
    have := (hm 0 (by omega)).1 (by omega) 0 (le_refl _)
    rw [pow_zero, div_one, curve_one] at this
    exact absurd h (not_lt.2 this)
  rw [hl _ (by omega)]
  simp [List.range_succ, curve_zero, curve_one]

/-- **C77 (violated: the number of coordinates)** The number of coordinates that is announced is always one less than the number of coordinates. -/
theorem coords_len_violated (c : Cubic K) (tol : K) : ∃ (l : List (Pt K)) (n : ℕ), (∀ f, n + 2 ≤ f → items c (step c tol) f 0 = some l) ∧
    len 0 (step c tol) + 1 = l.length := by
  refine ⟨_, _, coords_of c tol, ?_⟩
  simp [len, step]

theorem newton_tiny (s v : Pt K) (x : Pt K) (n : ℕ) (t : K) (hv : 9 * (v.1 ^ 2 + v.2 ^ 2) < 1 / 10 ^ 12) : newton (straight s v) x n t = t := by
  cases n with
  | zero => rfl
  | succ n =>
    have f2 : dot ((3 : K) • v) ((3 : K) • v) + dot (pointAt (straight s v) t - x) 0 = 9 * (v.1 ^ 2 + v.2 ^ 2) := by
      simp [dot]; ring
    simp only [newton, straight_first, straight_second, f2]
    rw [if_pos (by rw [abs_of_nonneg (by positivity)]; exact hv)]

/-- **C77 (violated: finding a point)** In a short line the point at an eighth is not found, although it is on the curve, unless the tolerance is an
eighth of the length at least. -/
theorem tAt_short_violated (s v : Pt K) {tol : K} (hv : Sq (straight s v).s (straight s v).p < (1 / 10 ^ 6) ^ 2)
    (ht : tol < Sq (straight s v).s (straight s v).p / 8 ^ 2) : tAt (straight s v) ((straight s v).curve (1 / 8)) tol = none := by
  have e9 : Sq (straight s v).s (straight s v).p = 9 * (v.1 ^ 2 + v.2 ^ 2) := by
    simp only [Sq, straight, Prod.fst_add, Prod.snd_add, Prod.smul_fst, Prod.smul_snd, smul_eq_mul]; ring
  rw [e9] at hv ht
  have hv' : 9 * (v.1 ^ 2 + v.2 ^ 2) < 1 / 10 ^ 12 := lt_of_lt_of_eq hv (by ring)
  obtain ⟨k, hk, hb⟩ := tAt_best (straight s v) ((straight s v).curve (1 / 8)) tol
  obtain ⟨_, e⟩ := hb _ rfl
  rw [e, newton_tiny s v _ _ _ hv', if_neg]
  rw [not_le]
  refine lt_of_lt_of_le ht ?_
  have hd : Sq ((straight s v).curve k) ((straight s v).curve (1 / 8)) = 9 * (v.1 ^ 2 + v.2 ^ 2) * (k - 1 / 8) ^ 2 := by
    rw [straight_curve, straight_curve]; simp only [Sq]; ring
  rw [hd, div_eq_mul_inv]
  refine mul_le_mul_of_nonneg_left ?_ (by positivity)
  simp only [seeds, List.mem_cons, List.not_mem_nil, or_false] at hk
  rcases hk with rfl | rfl | rfl | rfl | rfl <;> norm_num

/-! ## Examples -/

/-- A curve: `M0 0 C 1 0 1 0 1 1`. -/
def hook : Cubic ℚ := ⟨(0, 0), (1, 0), (1, 0), (1, 1)⟩

example : subdivide hook (1 / 2) =
    (⟨(0, 0), (1 / 2, 0), (3 / 4, 0), (7 / 8, 1 / 8)⟩, ⟨(7 / 8, 1 / 8), (1, 1 / 4), (1, 1 / 2), (1, 1)⟩) := by decide +kernel

example : reverse hook = ⟨(1, 1), (1, 0), (1, 0), (0, 0)⟩ := by decide +kernel

example : clampT hook (1 / 2) 1 = ⟨(7 / 8, 1 / 8), (1, 1 / 4), (1, 1 / 2), (1, 1)⟩ := by decide +kernel

example : newQuad (0, 3) (0, 0) ((3, 0) : Pt ℚ) = ⟨(0, 0), (0, 2), (1, 2), (3, 0)⟩ := by decide +kernel

example : (subdivideAt hook (hook.curve (1 / 2)) (1 / 10 ^ 6)).isSome := by
  obtain ⟨t, _, _, e, _⟩ := tAt_seed hook (tol := 1 / 10 ^ 6) (by norm_num) (u := 1 / 2) (by simp)
  rw [subdivideAt, e]; rfl

example : tAt (straight (0, 0) ((1, 1) : Pt ℚ)) (1, 1) 0 = some (1 / 3) := by
  have h := tAt_straight (0, 0) ((1, 1) : Pt ℚ) (tol := 0) (u := 1 / 3) (le_refl _) (by norm_num) (by norm_num [Sq, straight])
  rw [straight_curve] at h
  norm_num at h
  exact h

example : chordDist2 ((1, 2) : Pt ℚ) (0, 0) (4, 0) = 4 := by decide +kernel

example : chordDist2 ((-3, 4) : Pt ℚ) (0, 0) (4, 0) = 25 := by decide +kernel

/-- A curve of four steps: after a quarter it is still close to the start. -/
def slow : Cubic ℚ := ⟨(0, 0), (0, 0), (0, 0), (8, 0)⟩

example : items slow (step slow (1 / 10)) 6 0 = some [(0, 0), (1 / 8, 0), (1, 0), (27 / 8, 0), (8, 0)] := by decide +kernel

/-- A petal. -/
def petal : Cubic ℚ := ⟨(0, 0), (40, 0), (0, 40), (0, 0)⟩

example : items petal (step petal (1 / 10 ^ 6)) 3 0 = some [(0, 0), (0, 0)] := coords_closed_violated petal (by norm_num [Sq, petal]) 0

example : petal.curve (1 / 2) = (15, 15) := by decide +kernel

example : tAt (straight (0, 0) ((1 / 10 ^ 7, 0) : Pt ℚ)) (3 / 8 / 10 ^ 7, 0) (1 / 10 ^ 18) = none := by decide +kernel

end Verif.Curves
