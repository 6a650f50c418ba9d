import Verif.Transform.Spec
import Mathlib.Tactic.Linarith
import Mathlib.Tactic.Ring
import Mathlib.Tactic.FieldSimp
import Mathlib.Tactic.Positivity
import Mathlib.Tactic.NormNum

/-! # Rounding -/

namespace Verif.Transform

open Real

variable {Css : Type}

theorem roundAway_exists (x : ℝ) : ∃ n : ℤ, roundAway x = n := by
  unfold roundAway
  split
  · exact ⟨_, rfl⟩
  · exact ⟨-⌊-x + 1 / 2⌋, by push_cast; rfl⟩

theorem roundAway_int (n : ℤ) : roundAway (n : ℝ) = n := by
  have h : ∀ k : ℤ, ⌊(k : ℝ) + 1 / 2⌋ = k := by
    intro k
    rw [Int.floor_eq_iff]
    constructor <;> linarith
  unfold roundAway
  split
  · rw [h]
  · rw [show (-(n : ℝ)) = ((-n : ℤ) : ℝ) by push_cast; rfl, h]
    push_cast
    ring

theorem roundAway_neg (x : ℝ) : roundAway (-x) = -roundAway x := by
  rcases lt_trichotomy x 0 with h | h | h
  · unfold roundAway
    rw [if_pos (by linarith), if_neg (by linarith)]
    ring
  · subst h
    have := roundAway_int 0
    simp at this
    simp [this]
  · unfold roundAway
    rw [if_neg (by linarith), if_pos (by linarith)]
    simp

theorem roundAway_near (x : ℝ) : |roundAway x - x| ≤ 1 / 2 := by
  unfold roundAway
  split
  · have h1 := Int.floor_le (x + 1 / 2)
    have h2 := Int.lt_floor_add_one (x + 1 / 2)
    rw [abs_le]
    constructor <;> linarith
  · have h1 := Int.floor_le (-x + 1 / 2)
    have h2 := Int.lt_floor_add_one (-x + 1 / 2)
    rw [abs_le]
    constructor <;> linarith

theorem toFixed_neg (x : ℝ) (p : Nat) : toFixed (-x) p = -toFixed x p := by
  unfold toFixed
  rw [neg_mul, roundAway_neg, neg_div]

theorem toFixed_near (x : ℝ) (p : Nat) : |toFixed x p - x| ≤ 1 / 2 / 10 ^ p := by
  unfold toFixed
  have h := roundAway_near (x * 10 ^ p)
  have hp : (0 : ℝ) < 10 ^ p := by positivity
  have : roundAway (x * 10 ^ p) / 10 ^ p - x = (roundAway (x * 10 ^ p) - x * 10 ^ p) / 10 ^ p := by
    field_simp
  rw [this, abs_div, abs_of_pos hp]
  exact div_le_div_of_nonneg_right h hp.le

theorem toFixed_whole (k : ℤ) (p : Nat) : toFixed ((k : ℝ) / 10 ^ p) p = k / 10 ^ p := by
  unfold toFixed
  have hp : (10 : ℝ) ^ p ≠ 0 := by positivity
  rw [div_mul_cancel₀ _ hp, roundAway_int]

theorem toFixed_exists (x : ℝ) (p : Nat) : ∃ k : ℤ, toFixed x p = k / 10 ^ p := by
  obtain ⟨k, h⟩ := roundAway_exists (x * 10 ^ p)
  exact ⟨k, by rw [toFixed, h]⟩

theorem toFixed_idem (x : ℝ) (p : Nat) : toFixed (toFixed x p) p = toFixed x p := by
  obtain ⟨k, h⟩ := toFixed_exists x p
  rw [h, toFixed_whole]

theorem toFixed_coarser (x : ℝ) (p : Nat) : toFixed (toFixed x (p - 1)) p = toFixed x (p - 1) := by
  cases p with
  | zero => exact toFixed_idem x 0
  | succ p =>
    obtain ⟨k, h⟩ := toFixed_exists x p
    simp only [Nat.add_sub_cancel]
    rw [h, show (k : ℝ) / 10 ^ p = ((k * 10 : ℤ) : ℝ) / 10 ^ (p + 1) by push_cast; rw [pow_succ]; field_simp,
      toFixed_whole]

theorem smartRound_fixed (p : Nat) (x : ℝ) : toFixed (smartRound p x) p = smartRound p x := by
  unfold smartRound
  split
  · assumption
  · split
    · exact toFixed_idem x p
    · exact toFixed_coarser x p

theorem smartRound_of_fixed {p : Nat} {x : ℝ} (h : toFixed x p = x) : smartRound p x = x := by
  unfold smartRound
  rw [if_pos h]

theorem smartRound_idem (p : Nat) (x : ℝ) : smartRound p (smartRound p x) = smartRound p x :=
  smartRound_of_fixed (smartRound_fixed p x)

theorem smartRound_neg (p : Nat) (x : ℝ) : smartRound p (-x) = -smartRound p x := by
  unfold smartRound
  simp only [toFixed_neg]
  rw [show |-toFixed x (p - 1) - -x| = |toFixed x (p - 1) - x| by rw [← abs_neg]; congr 1; ring]
  have h : (-toFixed x p = -x) ↔ (toFixed x p = x) := neg_inj
  simp only [h]
  split
  · rfl
  · split <;> rfl

theorem smartRound_near (p : Nat) (x : ℝ) : |smartRound p x - x| ≤ 1 / 10 ^ p := by
  have hp : (0 : ℝ) < 10 ^ p := by positivity
  unfold smartRound
  split
  · simp
  · split
    · have := toFixed_near x p
      have h2 : (1 : ℝ) / 2 / 10 ^ p ≤ 1 / 10 ^ p := div_le_div_of_nonneg_right (by norm_num) hp.le
      linarith
    · next h =>
      have ht : toFixed ((1 / 10) ^ p) p = (1 : ℝ) / 10 ^ p := by
        have := toFixed_whole 1 p
        rw [one_div, inv_pow, ← one_div]
        simpa using this
      rw [ht, ge_iff_le, not_le] at h
      obtain ⟨k, hk⟩ := toFixed_exists |toFixed x (p - 1) - x| (p + 1)
      have hn := toFixed_near |toFixed x (p - 1) - x| (p + 1)
      rw [hk] at h hn
      have hp1 : (0 : ℝ) < 10 ^ (p + 1) := by positivity
      have hk9 : k ≤ 9 := by
        by_contra hcon
        have h10 : (10 : ℤ) ≤ k := by omega
        have h10r : (10 : ℝ) ≤ k := by exact_mod_cast h10
        have : (1 : ℝ) / 10 ^ p ≤ k / 10 ^ (p + 1) := by
          rw [pow_succ, div_le_div_iff₀ hp (by positivity)]
          nlinarith
        linarith
      have hk9r : (k : ℝ) ≤ 9 := by exact_mod_cast hk9
      have := (abs_le.mp hn).1
      have h3 : (k : ℝ) / 10 ^ (p + 1) + 1 / 2 / 10 ^ (p + 1) ≤ 1 / 10 ^ p := by
        rw [← add_div, pow_succ, div_le_div_iff₀ (by positivity) hp]
        nlinarith
      linarith

theorem roundArg_idem (p : Int) (x : ℝ) : roundArg p (roundArg p x) = roundArg p x := by
  unfold roundArg
  split
  · exact smartRound_idem _ _
  · obtain ⟨n, h⟩ := roundAway_exists x
    rw [h, roundAway_int]

theorem roundArg_neg (p : Int) (x : ℝ) : roundArg p (-x) = -roundArg p x := by
  unfold roundArg
  split
  · exact smartRound_neg _ _
  · exact roundAway_neg _

theorem roundArg_int (p : Int) (n : ℤ) : roundArg p (n : ℝ) = n := by
  unfold roundArg
  split
  · apply smartRound_of_fixed
    have hp : (10 : ℝ) ^ p.toNat ≠ 0 := by positivity
    have := toFixed_whole (n * 10 ^ p.toNat) p.toNat
    rw [show (((n * 10 ^ p.toNat : ℤ) : ℝ) / 10 ^ p.toNat) = (n : ℝ) by push_cast; field_simp] at this
    exact this
  · exact roundAway_int n

theorem roundArg_zero (p : Int) : roundArg p 0 = 0 := by simpa using roundArg_int p 0

theorem roundArg_one (p : Int) : roundArg p 1 = 1 := by simpa using roundArg_int p 1

theorem roundArg_near (p : Int) (x : ℝ) : |x - roundArg p x| ≤ tolerance p := by
  rw [abs_sub_comm]
  unfold roundArg tolerance
  split
  · exact smartRound_near _ _
  · exact roundAway_near x

theorem round_idem (p : Precision) (t : T Css) : (t.round p).round p = t.round p := by
  cases t <;> simp [T.round, roundArg_idem]

theorem round_near (p : Precision) (t : T Css) : Near p t (t.round p) := by
  cases t <;> simp [T.round, Near, roundArg_near]

end Verif.Transform
