import Mathlib.Data.Int.Log
import Mathlib.Data.Real.Basic
import Mathlib.Data.Real.Archimedean
import Mathlib.Algebra.Order.Round
import Mathlib.Tactic.Linarith
import Mathlib.Tactic.NormNum
import Mathlib.Tactic.Positivity
import Mathlib.Tactic.Ring
import Mathlib.Tactic.FieldSimp
/-
Rounding of floating-point numbers: what an operation of Python or numpy on two floats returns is the result on the real numbers, rounded. Used for C169 and C170, where the other parts of the model take numbers to be real.
Overflow, underflow, infinities and NaN are left out: exponents are not bounded.
-/
namespace Verif.Floats

/-- A way of rounding real numbers to the numbers of a floating-point format: monotone, the same number for numbers of the format, with a relative error of at most `u`, and scaling with two exact. -/
structure Rounding where
  r : ℝ → ℝ
  u : ℝ
  mono : ∀ x y, x ≤ y → r x ≤ r y
  idem : ∀ x, r (r x) = r x
  err : ∀ x, |r x - x| ≤ u * |x|
  double : ∀ x, r (2 * x) = 2 * r x
  small : u ≤ 1 / 4

/-- Rounding to an integer, to the even one of two that are as near as each other. -/
noncomputable def nearest (x : ℝ) : ℤ :=
  if x - ⌊x⌋ < 1 / 2 then ⌊x⌋
  else if 1 / 2 < x - ⌊x⌋ then ⌊x⌋ + 1
  else if ⌊x⌋ % 2 = 0 then ⌊x⌋ else ⌊x⌋ + 1

theorem nearest_le (x : ℝ) : nearest x ≤ ⌊x⌋ + 1 := by unfold nearest; split_ifs <;> omega

theorem le_nearest (x : ℝ) : ⌊x⌋ ≤ nearest x := by unfold nearest; split_ifs <;> omega

theorem nearest_int (k : ℤ) : nearest (k : ℝ) = k := by unfold nearest; simp

theorem nearest_err (x : ℝ) : |(nearest x : ℝ) - x| ≤ 1 / 2 := by
  have h1 := Int.floor_le x
  have h2 := Int.lt_floor_add_one x
  unfold nearest
  split_ifs <;> push_cast <;> rw [abs_le] <;> constructor <;> linarith

theorem nearest_mono {x y : ℝ} (h : x ≤ y) : nearest x ≤ nearest y := by
  rcases (Int.floor_mono h).lt_or_eq with hlt | heq
  · have := nearest_le x
    have := le_nearest y
    have : ⌊x⌋ + 1 ≤ ⌊y⌋ := hlt
    omega
  · unfold nearest
    rw [heq]
    split_ifs <;> first | omega | (exfalso; linarith)

/-- The exponent of the last of 53 binary digits of a positive number. -/
noncomputable def lastBit (x : ℝ) : ℤ := Int.log 2 x - 52

/-- Rounding of a positive number to 53 binary digits. -/
noncomputable def flPos (x : ℝ) : ℝ := nearest (x / 2 ^ lastBit x) * 2 ^ lastBit x

/-- Rounding to the numbers of IEEE 754 binary64, the floats of Python, to nearest, ties to even, with exponents that are not bounded. -/
noncomputable def fl (x : ℝ) : ℝ := if 0 < x then flPos x else if x = 0 then 0 else -flPos (-x)

theorem mant_bounds {x : ℝ} (hx : 0 < x) : (2 : ℝ) ^ 52 ≤ x / 2 ^ lastBit x ∧ x / 2 ^ lastBit x < 2 ^ 53 := by
  have h1 := Int.zpow_log_le_self (b := 2) (r := x) (by norm_num) hx
  have h2 := Int.lt_zpow_succ_log_self (b := 2) (by norm_num) x
  have hp : (0 : ℝ) < 2 ^ lastBit x := zpow_pos (by norm_num) _
  have e1 : (2 : ℝ) ^ 52 * 2 ^ lastBit x = 2 ^ Int.log 2 x := by
    rw [← zpow_natCast, ← zpow_add₀ (by norm_num)]; congr 1; unfold lastBit; push_cast; ring
  have e2 : (2 : ℝ) ^ 53 * 2 ^ lastBit x = 2 ^ (Int.log 2 x + 1) := by
    rw [← zpow_natCast, ← zpow_add₀ (by norm_num)]; congr 1; unfold lastBit; push_cast; ring
  rw [le_div_iff₀ hp, div_lt_iff₀ hp, e1, e2]
  push_cast at h1 h2
  exact ⟨h1, h2⟩

theorem near_bounds {x : ℝ} (hx : 0 < x) : (2 : ℤ) ^ 52 ≤ nearest (x / 2 ^ lastBit x) ∧ nearest (x / 2 ^ lastBit x) ≤ 2 ^ 53 := by
  obtain ⟨h1, h2⟩ := mant_bounds hx
  constructor
  · have := nearest_mono h1
    rwa [show ((2 : ℝ) ^ 52) = (((2 : ℤ) ^ 52 : ℤ) : ℝ) by norm_num, nearest_int] at this
  · have := nearest_mono h2.le
    rwa [show ((2 : ℝ) ^ 53) = (((2 : ℤ) ^ 53 : ℤ) : ℝ) by norm_num, nearest_int] at this

theorem flPos_pos {x : ℝ} (hx : 0 < x) : 0 < flPos x := by
  obtain ⟨h1, -⟩ := near_bounds hx
  have : (0 : ℝ) < nearest (x / 2 ^ lastBit x) := by exact_mod_cast lt_of_lt_of_le (by norm_num) h1
  exact mul_pos this (zpow_pos (by norm_num) _)

theorem flPos_bounds {x : ℝ} (hx : 0 < x) : (2 : ℝ) ^ Int.log 2 x ≤ flPos x ∧ flPos x ≤ 2 ^ (Int.log 2 x + 1) := by
  obtain ⟨h1, h2⟩ := near_bounds hx
  have h1' : (2 : ℝ) ^ 52 ≤ (nearest (x / 2 ^ lastBit x) : ℝ) := by exact_mod_cast h1
  have h2' : (nearest (x / 2 ^ lastBit x) : ℝ) ≤ (2 : ℝ) ^ 53 := by exact_mod_cast h2
  have hp : (0 : ℝ) < 2 ^ lastBit x := zpow_pos (by norm_num) _
  have e1 : (2 : ℝ) ^ 52 * 2 ^ lastBit x = 2 ^ Int.log 2 x := by
    rw [← zpow_natCast, ← zpow_add₀ (by norm_num)]; congr 1; unfold lastBit; push_cast; ring
  have e2 : (2 : ℝ) ^ 53 * 2 ^ lastBit x = 2 ^ (Int.log 2 x + 1) := by
    rw [← zpow_natCast, ← zpow_add₀ (by norm_num)]; congr 1; unfold lastBit; push_cast; ring
  rw [← e1, ← e2, flPos]
  exact ⟨mul_le_mul_of_nonneg_right h1' hp.le, mul_le_mul_of_nonneg_right h2' hp.le⟩

theorem flPos_mono {x y : ℝ} (hx : 0 < x) (h : x ≤ y) : flPos x ≤ flPos y := by
  have hy : 0 < y := lt_of_lt_of_le hx h
  rcases (Int.log_mono_right (b := 2) hx h).lt_or_eq with hlt | heq
  · refine (flPos_bounds hx).2.trans (le_trans ?_ (flPos_bounds hy).1)
    exact zpow_le_zpow_right₀ (by norm_num) hlt
  · have hb : lastBit x = lastBit y := by unfold lastBit; rw [heq]
    unfold flPos
    rw [hb]
    have hp : (0 : ℝ) < 2 ^ lastBit y := zpow_pos (by norm_num) _
    refine mul_le_mul_of_nonneg_right ?_ hp.le
    exact_mod_cast nearest_mono (div_le_div_of_nonneg_right h hp.le)

/-- A number with an integer significand of 53 digits is not changed. -/
theorem flPos_exact (k e : ℤ) (h1 : 2 ^ 52 ≤ k) (h2 : k ≤ 2 ^ 53) : flPos (k * 2 ^ e) = k * 2 ^ e := by
  have main : ∀ (k e : ℤ), 2 ^ 52 ≤ k → k < 2 ^ 53 → flPos (k * 2 ^ e) = k * 2 ^ e := by
    intro k e h1 h2
    have k1 : (2 : ℝ) ^ 52 ≤ k := by exact_mod_cast h1
    have k2 : (k : ℝ) < 2 ^ 53 := by exact_mod_cast h2
    have hp : (0 : ℝ) < 2 ^ e := zpow_pos (by norm_num) _
    have hpos : (0 : ℝ) < k * 2 ^ e := mul_pos (lt_of_lt_of_le (by norm_num) k1) hp
    have e1 : (2 : ℝ) ^ 52 * 2 ^ e = 2 ^ (52 + e) := by rw [← zpow_natCast, ← zpow_add₀ (by norm_num)]; norm_num
    have e2 : (2 : ℝ) ^ 53 * 2 ^ e = 2 ^ (52 + e + 1) := by
      rw [← zpow_natCast, ← zpow_add₀ (by norm_num)]; congr 1; push_cast; ring
    have hl : Int.log 2 ((k : ℝ) * 2 ^ e) = 52 + e := by
      apply le_antisymm
      · have := (Int.lt_zpow_iff_log_lt (b := 2) (by norm_num) hpos (x := 52 + e + 1)).1 (by push_cast; rw [← e2]; exact mul_lt_mul_of_pos_right k2 hp)
        omega
      · refine (Int.zpow_le_iff_le_log (b := 2) (by norm_num) hpos).1 ?_
        push_cast; rw [← e1]; exact mul_le_mul_of_nonneg_right k1 hp.le
    have hb : lastBit ((k : ℝ) * 2 ^ e) = e := by unfold lastBit; rw [hl]; ring
    unfold flPos
    rw [hb, mul_div_assoc, div_self hp.ne', mul_one, nearest_int]
  rcases h2.lt_or_eq with hlt | rfl
  · exact main k e h1 hlt
  · have := main (2 ^ 52) (e + 1) (by norm_num) (by norm_num)
    have he : (((2 : ℤ) ^ 52 : ℤ) : ℝ) * 2 ^ (e + 1) = (((2 : ℤ) ^ 53 : ℤ) : ℝ) * 2 ^ e := by
      rw [zpow_add₀ (by norm_num)]; push_cast; ring
    rw [he] at this
    exact this

theorem flPos_idem {x : ℝ} (hx : 0 < x) : flPos (flPos x) = flPos x := by
  obtain ⟨h1, h2⟩ := near_bounds hx
  exact flPos_exact _ _ h1 h2

theorem flPos_err {x : ℝ} (hx : 0 < x) : |flPos x - x| ≤ 2⁻¹ ^ 53 * x := by
  have hp : (0 : ℝ) < 2 ^ lastBit x := zpow_pos (by norm_num) _
  have h := nearest_err (x / 2 ^ lastBit x)
  have h1 := (mant_bounds hx).1
  have e1 : flPos x - x = ((nearest (x / 2 ^ lastBit x) : ℝ) - x / 2 ^ lastBit x) * 2 ^ lastBit x := by
    unfold flPos; field_simp
  rw [e1, abs_mul, abs_of_pos hp]
  have h2 : (2 : ℝ) ^ 52 * 2 ^ lastBit x ≤ x := by rwa [le_div_iff₀ hp] at h1
  calc _ ≤ 1 / 2 * 2 ^ lastBit x := mul_le_mul_of_nonneg_right h hp.le
    _ = 2⁻¹ ^ 53 * (2 ^ 52 * 2 ^ lastBit x) := by ring
    _ ≤ _ := mul_le_mul_of_nonneg_left h2 (by positivity)

theorem flPos_double {x : ℝ} (hx : 0 < x) : flPos (2 * x) = 2 * flPos x := by
  have h1 := Int.zpow_log_le_self (b := 2) (r := x) (by norm_num) hx
  have h2 := Int.lt_zpow_succ_log_self (b := 2) (by norm_num) x
  push_cast at h1 h2
  have hx2 : 0 < 2 * x := by linarith
  have hl : Int.log 2 (2 * x) = Int.log 2 x + 1 := by
    apply le_antisymm
    · have := (Int.lt_zpow_iff_log_lt (b := 2) (by norm_num) hx2 (x := Int.log 2 x + 1 + 1)).1 (by push_cast; rw [zpow_add_one₀ (by norm_num)]; linarith)
      omega
    · refine (Int.zpow_le_iff_le_log (b := 2) (by norm_num) hx2).1 ?_
      push_cast; rw [zpow_add_one₀ (by norm_num)]; linarith
  have hb : lastBit (2 * x) = lastBit x + 1 := by unfold lastBit; rw [hl]; ring
  have hp : (0 : ℝ) < 2 ^ lastBit x := zpow_pos (by norm_num) _
  unfold flPos
  rw [hb, zpow_add_one₀ (by norm_num)]
  rw [show 2 * x / (2 ^ lastBit x * 2) = x / 2 ^ lastBit x by field_simp]
  ring

/-- Python's floats. -/
noncomputable def binary64 : Rounding where
  r := fl
  u := 2⁻¹ ^ 53
  mono x y h := by
    have pos : ∀ z, 0 < z → fl z = flPos z := fun z hz => by unfold fl; rw [if_pos hz]
    have neg : ∀ z, z < 0 → fl z = -flPos (-z) := fun z hz => by unfold fl; rw [if_neg (by linarith), if_neg hz.ne]
    have zero : fl 0 = 0 := by simp [fl]
    rcases lt_trichotomy x 0 with hx | rfl | hx <;> rcases lt_trichotomy y 0 with hy | rfl | hy
    · rw [neg x hx, neg y hy]
      have := flPos_mono (x := -y) (y := -x) (by linarith) (by linarith)
      linarith
    · rw [neg x hx, zero]
      have := flPos_pos (x := -x) (by linarith)
      linarith
    · rw [neg x hx, pos y hy]
      have := flPos_pos (x := -x) (by linarith)
      have := flPos_pos hy
      linarith
    · linarith
    · exact le_rfl
    · rw [zero, pos y hy]; exact (flPos_pos hy).le
    · linarith
    · linarith
    · rw [pos x hx, pos y hy]; exact flPos_mono hx h
  idem x := by
    rcases lt_trichotomy x 0 with h | h | h
    · have h1 : 0 < -x := by linarith
      have h2 := flPos_pos h1
      have e : fl x = -flPos (-x) := by unfold fl; rw [if_neg (by linarith), if_neg h.ne]
      rw [e]; unfold fl
      rw [if_neg (by linarith), if_neg (by linarith), neg_neg, flPos_idem h1]
    · simp [fl, h]
    · have e : fl x = flPos x := by unfold fl; rw [if_pos h]
      rw [e]; unfold fl
      rw [if_pos (flPos_pos h), flPos_idem h]
  err x := by
    rcases lt_trichotomy x 0 with h | h | h
    · have h1 : 0 < -x := by linarith
      have e : fl x = -flPos (-x) := by unfold fl; rw [if_neg (by linarith), if_neg h.ne]
      rw [e, abs_of_neg h, show -flPos (-x) - x = -(flPos (-x) - -x) by ring, abs_neg]
      exact flPos_err h1
    · simp [fl, h]
    · have e : fl x = flPos x := by unfold fl; rw [if_pos h]
      rw [e, abs_of_pos h]
      exact flPos_err h
  double x := by
    rcases lt_trichotomy x 0 with h | h | h
    · have h1 : 0 < -x := by linarith
      unfold fl
      rw [if_neg (by linarith), if_neg (by linarith), if_neg (by linarith), if_neg h.ne, show -(2 * x) = 2 * -x by ring, flPos_double h1]
      ring
    · simp [fl, h]
    · unfold fl
      rw [if_pos (by linarith), if_pos h, flPos_double h]
  small := by norm_num

end Verif.Floats
