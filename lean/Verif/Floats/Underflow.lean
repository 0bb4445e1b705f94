import Verif.Floats.Basic
/-
Rounding with gradual underflow: the numbers of IEEE 754 binary64 have no digit below 2^-1074, and half of that is rounded to zero. Used for C191. Overflow is left out.
-/
namespace Verif.Floats

/-- The exponent of the last digit that is kept of a positive number: of 53 digits, and not below -1074. -/
noncomputable def lastKept (x : ℝ) : ℤ := max (lastBit x) (-1074)

/-- Rounding of a positive number. -/
noncomputable def subPos (x : ℝ) : ℝ := nearest (x / 2 ^ lastKept x) * 2 ^ lastKept x

/-- Rounding to the floats of Python, to nearest, ties to even, with gradual underflow; numbers that would overflow are kept as they are. -/
noncomputable def fl64 (x : ℝ) : ℝ := if 0 < x then subPos x else if x = 0 then 0 else -subPos (-x)

theorem subPos_eq {x : ℝ} (h : -1074 ≤ lastBit x) : subPos x = flPos x := by
  unfold subPos lastKept flPos
  rw [max_eq_left h]

theorem nat_pow_div (k : ℕ) (hk : k ≤ 1074) : (2 : ℝ)⁻¹ ^ k / 2 ^ (-1074 : ℤ) = (((2 : ℤ) ^ (1074 - k) : ℤ) : ℝ) := by
  push_cast
  rw [inv_pow, ← zpow_natCast, ← zpow_natCast, ← zpow_neg, ← zpow_sub₀ (by norm_num)]
  congr 1
  omega

theorem pow_eq_zpow (k : ℕ) : (2 : ℝ)⁻¹ ^ k = 2 ^ (-(k : ℤ)) := by rw [inv_pow, zpow_neg, zpow_natCast]

/-- A number that is at least a power of two is rounded to at least that power. -/
theorem le_fl64 {x : ℝ} {k : ℕ} (hk : k ≤ 1074) (h : 2⁻¹ ^ k ≤ x) : 2⁻¹ ^ k ≤ fl64 x := by
  have hx : 0 < x := lt_of_lt_of_le (by positivity) h
  rw [fl64, if_pos hx]
  rcases le_total (-1074) (lastBit x) with hb | hb
  · rw [subPos_eq hb]
    refine le_trans ?_ (flPos_bounds hx).1
    rw [pow_eq_zpow] at h ⊢
    have := (Int.zpow_le_iff_le_log (b := 2) (by norm_num) hx).1 (by push_cast; exact h)
    exact zpow_le_zpow_right₀ (by norm_num) this
  · have hp : (0 : ℝ) < 2 ^ (-1074 : ℤ) := zpow_pos (by norm_num) _
    rw [subPos, lastKept, max_eq_right hb, ← div_le_iff₀ hp, nat_pow_div k hk]
    have := nearest_mono (div_le_div_of_nonneg_right h hp.le)
    rw [nat_pow_div k hk, nearest_int] at this
    exact_mod_cast this

/-- A number that is at most a power of two is rounded to at most that power. -/
theorem fl64_le {x : ℝ} {k : ℕ} (hk : k ≤ 1074) (h0 : 0 ≤ x) (h : x ≤ 2⁻¹ ^ k) : 0 ≤ fl64 x ∧ fl64 x ≤ 2⁻¹ ^ k := by
  rcases h0.eq_or_lt with rfl | hx
  · simp [fl64]
  rw [fl64, if_pos hx]
  rcases le_total (-1074) (lastBit x) with hb | hb
  · rw [subPos_eq hb]
    refine ⟨(flPos_pos hx).le, (flPos_mono hx h).trans_eq ?_⟩
    have := flPos_exact (2 ^ 52) (-(k : ℤ) - 52) le_rfl (by norm_num)
    have he : (((2 : ℤ) ^ 52 : ℤ) : ℝ) * 2 ^ (-(k : ℤ) - 52) = 2⁻¹ ^ k := by
      rw [pow_eq_zpow]
      rw [show (((2 : ℤ) ^ 52 : ℤ) : ℝ) = 2 ^ (52 : ℤ) by norm_num, ← zpow_add₀ (by norm_num)]
      congr 1
      ring
    rwa [he] at this
  · have hp : (0 : ℝ) < 2 ^ (-1074 : ℤ) := zpow_pos (by norm_num) _
    rw [subPos, lastKept, max_eq_right hb]
    constructor
    · have := nearest_mono (div_nonneg hx.le hp.le)
      rw [show (0 : ℝ) = ((0 : ℤ) : ℝ) by norm_num, nearest_int] at this
      exact mul_nonneg (by exact_mod_cast this) hp.le
    · rw [← le_div_iff₀ hp, nat_pow_div k hk]
      have := nearest_mono (div_le_div_of_nonneg_right h hp.le)
      rw [nat_pow_div k hk, nearest_int] at this
      exact_mod_cast this

/-- Half of the smallest positive float, and less, is rounded to zero. -/
theorem fl64_zero {x : ℝ} (h0 : 0 ≤ x) (h : x ≤ 2⁻¹ ^ 1075) : fl64 x = 0 := by
  rcases h0.eq_or_lt with rfl | hx
  · simp [fl64]
  have hp : (0 : ℝ) < 2 ^ (-1074 : ℤ) := zpow_pos (by norm_num) _
  have hlog : Int.log 2 x ≤ -1075 := by
    have := Int.log_mono_right (b := 2) hx h
    rw [pow_eq_zpow] at this
    have e := Int.log_zpow (R := ℝ) (b := 2) (by norm_num) (-((1075 : ℕ) : ℤ))
    push_cast at e this
    rw [e] at this
    exact this
  have hb : lastBit x ≤ -1074 := by unfold lastBit; omega
  rw [fl64, if_pos hx, subPos, lastKept, max_eq_right hb]
  have hhalf : x / 2 ^ (-1074 : ℤ) ≤ 1 / 2 := by
    rw [div_le_iff₀ hp]
    refine h.trans_eq ?_
    rw [pow_eq_zpow, show (1 / 2 : ℝ) = 2 ^ (-1 : ℤ) by norm_num, ← zpow_add₀ (by norm_num)]
    norm_num
  have h1 := nearest_mono hhalf
  have h2 := nearest_mono (div_nonneg hx.le hp.le)
  have e1 : nearest (1 / 2) = 0 := by
    have : ⌊(1 / 2 : ℝ)⌋ = 0 := by norm_num
    unfold nearest
    rw [this]
    norm_num
  rw [e1] at h1
  rw [show (0 : ℝ) = ((0 : ℤ) : ℝ) by norm_num, nearest_int] at h2
  have : nearest (x / 2 ^ (-1074 : ℤ)) = 0 := le_antisymm h1 h2
  rw [this]
  simp

/-- The numbers that Python multiplies: a real number, with products rounded. -/
structure Fl where
  val : ℝ

noncomputable instance : Mul Fl := ⟨fun a b => ⟨fl64 (a.val * b.val)⟩⟩
noncomputable instance : One Fl := ⟨⟨1⟩⟩

theorem Fl.mul_val (a b : Fl) : (a * b).val = fl64 (a.val * b.val) := rfl
theorem Fl.one_val : (1 : Fl).val = 1 := rfl

end Verif.Floats
