import Verif.Floats.Bisection
/-
C169 for large numbers: the search for the next threshold of `SMCABC` ends only if there are two numbers of the format near each other with different signs of the function, or a zero. For Python's floats and
the tolerance 0.001 this fails as soon as the sign changes above 2^44, about 1.8 * 10^13.
-/
namespace Verif.Floats

variable (R : Rounding) (f : ℝ → ℝ) (tol : ℝ)

/-- **C169, when the search never ends.** If the function has no zero among the numbers of the format between the ends, its signs at the ends are different, and all numbers of the format at which its signs are different are
further apart than twice the tolerance, then the search does not end. -/
theorem C169_endless_violated (hs : ∀ a b, R.r (f a * f b) < 0 ↔ f a * f b < 0) (fuel : Nat) (low high : ℝ) (hl : R.Float low) (hh : R.Float high) (h : low ≤ high) (hsg : f low * f high < 0)
    (hz : ∀ x, R.Float x → low ≤ x → x ≤ high → f x ≠ 0) (hap : ∀ x y, R.Float x → R.Float y → low ≤ x → x < y → y ≤ high → f x * f y < 0 → tol < R.r (y - x) / 2) :
    bisectionFl R f tol fuel low high = none := by
  induction fuel generalizing low high with
  | zero => rfl
  | succ fuel ih =>
    obtain ⟨m1, m2, m3, -⟩ := mid_spec R hl hh h
    have hlt : low < high := by
      rcases h.lt_or_eq with h | h
      · exact h
      · rw [h] at hsg; exact absurd hsg (not_lt.2 (mul_self_nonneg _))
    have h0 := hz _ m1 m2 m3
    rw [bisectionFl, wid_eq, mid_eq, if_pos (hap low high hl hh le_rfl hlt le_rfl hsg), if_neg h0]
    split
    · rename_i hneg
      exact ih low _ hl m1 m2 ((hs _ _).1 hneg) (fun x hx h1 h2 => hz x hx h1 (h2.trans m3)) fun x y hx hy h1 h2 h3 => hap x y hx hy h1 h2 (h3.trans m3)
    · rename_i hneg
      rw [hs] at hneg
      refine ih _ high m1 hh m3 ?_ (fun x hx h1 h2 => hz x hx (m2.trans h1) h2) fun x y hx hy h1 h2 h3 => hap x y hx hy (m2.trans h1) h2 h3
      rcases lt_or_gt_of_ne (hz low hl le_rfl h) with h1 | h1
      · have h2 : 0 < f high := by
          by_contra hc
          exact absurd hsg (not_lt.2 (mul_nonneg_of_nonpos_of_nonpos h1.le (not_lt.1 hc)))
        have h3 : f (R.r (low + high) / 2) < 0 := by
          rcases lt_or_gt_of_ne h0 with h3 | h3
          · exact h3
          · exact absurd (mul_neg_of_neg_of_pos h1 h3) hneg
        exact mul_neg_of_neg_of_pos h3 h2
      · have h2 : f high < 0 := by
          by_contra hc
          exact absurd hsg (not_lt.2 (mul_nonneg h1.le (not_lt.1 hc)))
        have h3 : 0 < f (R.r (low + high) / 2) := by
          rcases lt_or_gt_of_ne h0 with h3 | h3
          · exact absurd (mul_neg_of_pos_of_neg h1 h3) hneg
          · exact h3
        exact mul_neg_of_pos_of_neg h3 h2

/-- Products keep their sign in the model of Python's floats. -/
theorem fl_neg_iff (x : ℝ) : fl x < 0 ↔ x < 0 := by
  refine ⟨fun h => ?_, fl_neg⟩
  by_contra hx
  have := binary64.mono 0 x (not_lt.1 hx)
  have h0 : binary64.r 0 = 0 := by simp [binary64, fl]
  rw [h0] at this
  exact absurd h (not_lt.2 this)

/-- Python's floats from 2^44 on are multiples of 1 / 256. -/
theorem fl_grid {x : ℝ} (hx : fl x = x) (h : 2 ^ 44 ≤ x) : ∃ k : ℤ, x = k / 256 := by
  have hpos : 0 < x := lt_of_lt_of_le (by norm_num) h
  have hlog : 44 ≤ Int.log 2 x := (Int.zpow_le_iff_le_log (b := 2) (by norm_num) hpos).1 (by exact_mod_cast h)
  have hb : -8 ≤ lastBit x := by unfold lastBit; omega
  unfold fl at hx
  rw [if_pos hpos] at hx
  unfold flPos at hx
  obtain ⟨n, hn⟩ : ∃ n : Nat, lastBit x = -8 + n := ⟨(lastBit x + 8).toNat, by omega⟩
  generalize nearest (x / 2 ^ lastBit x) = q at hx
  refine ⟨q * 2 ^ n, ?_⟩
  rw [← hx, hn, zpow_add₀ (by norm_num), zpow_natCast]
  push_cast
  norm_num
  ring

/-- Floats of which the larger one is above 2^44 are further apart than twice the tolerance. -/
theorem fl_apart {x y : ℝ} (hx : fl x = x) (hy : fl y = y) (hlt : x < y) (hb : 2 ^ 44 < y) : (0.001 : ℝ) < fl (y - x) / 2 := by
  have hd : 1 / 256 ≤ y - x := by
    obtain ⟨k, hk⟩ := fl_grid hy hb.le
    have key : ∀ m : ℤ, (m : ℝ) / 256 < y → 1 / 256 ≤ y - (m : ℝ) / 256 := by
      intro m hm
      rw [hk] at hm ⊢
      have : m < k := by
        have := (div_lt_div_iff_of_pos_right (by norm_num : (0 : ℝ) < 256)).1 hm
        exact_mod_cast this
      have : (m : ℝ) + 1 ≤ k := by exact_mod_cast this
      linarith
    by_cases h : 2 ^ 44 ≤ x
    · obtain ⟨m, rfl⟩ := fl_grid hx h
      exact key m hlt
    · have := key (2 ^ 52) (by norm_num at hb ⊢; linarith)
      norm_num at this h ⊢
      linarith
  have h1 := binary64.mono _ _ hd
  have h2 : fl (1 / 256) = 1 / 256 := by
    have := fl_of 1 (by norm_num) (by norm_num) (-8)
    norm_num at this ⊢
    exact this
  change fl (1 / 256) ≤ fl (y - x) at h1
  rw [h2] at h1
  norm_num at h1 ⊢
  linarith

/-- **C169 fails for all large thresholds.** For Python's floats, the tolerance of the code, all ends, and every function: if its signs at the ends are different, it is zero at no float between them, and up to 2^44 it has
the sign that it has at the lower end, then the search never ends. -/
theorem C169_python_violated (low high : ℝ) (hl : fl low = low) (hh : fl high = high) (h : low ≤ high) (hsg : f low * f high < 0) (hz : ∀ x, fl x = x → low ≤ x → x ≤ high → f x ≠ 0)
    (hlow : ∀ x, fl x = x → low ≤ x → x ≤ high → x ≤ 2 ^ 44 → 0 < f low * f x) (fuel : Nat) : bisectionFl binary64 f 0.001 fuel low high = none := by
  refine C169_endless_violated binary64 f 0.001 (fun a b => fl_neg_iff _) fuel low high hl hh h hsg hz fun x y hx hy h1 h2 h3 h4 => fl_apart hx hy h2 ?_
  by_contra hc
  rw [not_lt] at hc
  have e1 := hlow x hx h1 (h2.le.trans h3) (h2.le.trans hc)
  have e2 := hlow y hy (h1.trans h2.le) h3 hc
  have : 0 < (f low * f x) * (f low * f y) := mul_pos e1 e2
  nlinarith [mul_self_nonneg (f low)]

/-- All distances three times 2^44, thresholds from 0 to 2^46: the function of Del Moral et al. for one particle. -/
example (fuel : Nat) : bisectionFl binary64 (fun x => if x < 3 * 2 ^ 44 then 1 else -1) 0.001 fuel 0 (2 ^ 46) = none := by
  refine C169_python_violated _ 0 (2 ^ 46) (by simp [fl]) ?_ (by norm_num) (by norm_num) (fun x _ _ _ => ?_) (fun x _ _ _ hx => ?_) fuel
  · have := fl_of 1 (by norm_num) (by norm_num) 46
    norm_num at this ⊢
    exact this
  · split <;> norm_num
  · have : x < 3 * 2 ^ 44 := by norm_num at hx ⊢; linarith
    simp only [this, if_true]
    norm_num

end Verif.Floats
