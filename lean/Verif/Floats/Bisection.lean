import Verif.Floats.Basic
/-
C169: the search for the next threshold of `SMCABC` in floating-point arithmetic.
-/
namespace Verif.Floats

/-- The numbers of the format. -/
def Rounding.Float (R : Rounding) (x : ℝ) : Prop := R.r x = x

/-- `_bisection`, abcpy/inferences.py 3705-3721, with every operation rounded. `fuel` bounds the number of rounds of the `while`, `none` means that it is used up. The cache of line 3708 changes nothing as long as `f` is a
function. Division by 2.0 is rounded like the other operations. -/
noncomputable def bisectionFl (R : Rounding) (f : ℝ → ℝ) (tol : ℝ) : Nat → ℝ → ℝ → Option ℝ
  | 0, _, _ => none
  | fuel + 1, low, high =>
    if R.r (R.r (high - low) / 2) > tol then
      if f (R.r (R.r (low + high) / 2)) = 0 then some (R.r (R.r (low + high) / 2))
      else if R.r (f low * f (R.r (R.r (low + high) / 2))) < 0 then bisectionFl R f tol fuel low (R.r (R.r (low + high) / 2))
      else bisectionFl R f tol fuel (R.r (R.r (low + high) / 2)) high
    else some (R.r (R.r (low + high) / 2))

variable (R : Rounding) (f : ℝ → ℝ) (tol : ℝ)

theorem half (x : ℝ) : R.r (x / 2) = R.r x / 2 := by
  have := R.double (x / 2)
  rw [show 2 * (x / 2) = x by ring] at this
  linarith

theorem mid_eq (low high : ℝ) : R.r (R.r (low + high) / 2) = R.r (low + high) / 2 := by rw [half, R.idem]

theorem wid_eq (low high : ℝ) : R.r (R.r (high - low) / 2) = R.r (high - low) / 2 := by rw [half, R.idem]

theorem u_nonneg : 0 ≤ R.u := by
  have := R.err 1
  rw [abs_one, mul_one] at this
  exact (abs_nonneg _).trans this

/-- The midpoint is a number of the format between the ends, not far from the exact one. -/
theorem mid_spec {low high : ℝ} (hl : R.Float low) (hh : R.Float high) (h : low ≤ high) :
    R.Float (R.r (low + high) / 2) ∧ low ≤ R.r (low + high) / 2 ∧ R.r (low + high) / 2 ≤ high ∧ |R.r (low + high) / 2 - (low + high) / 2| ≤ R.u * max |low| |high| := by
  have h1 := R.mono (2 * low) (low + high) (by linarith)
  have h2 := R.mono (low + high) (2 * high) (by linarith)
  rw [R.double, hl] at h1
  rw [R.double, hh] at h2
  refine ⟨?_, by linarith, by linarith, ?_⟩
  · unfold Rounding.Float; rw [half, R.idem]
  · have he := R.err (low + high)
    have hu := u_nonneg R
    have ha : |low + high| ≤ 2 * max |low| |high| := (abs_add_le _ _).trans (by linarith [le_max_left |low| |high|, le_max_right |low| |high|])
    rw [show R.r (low + high) / 2 - (low + high) / 2 = (R.r (low + high) - (low + high)) / 2 by ring, abs_div, abs_two]
    nlinarith

/-- **C169 (partial).** In floating-point arithmetic the search ends, after at most `N` halvings, with a number of the format between its ends, for every function `f`, if the ends are small enough in comparison with the precision
(for Python's floats and the tolerance 0.001: below 2·10^12 in absolute value). Missing: larger thresholds, see below. -/
theorem C169_partial (N : Nat) (low high M : ℝ) (hl : R.Float low) (hh : R.Float high) (h : low ≤ high) (hM : |low| ≤ M) (hM' : |high| ≤ M)
    (hu : 4 * R.u * M ≤ tol) (hN : high - low ≤ 2 ^ N * tol) (fuel : Nat) (hf : N < fuel) :
    ∃ x, bisectionFl R f tol fuel low high = some x ∧ R.Float x ∧ low ≤ x ∧ x ≤ high := by
  have u0 := u_nonneg R
  have us := R.small
  have hM0 : 0 ≤ M := (abs_nonneg _).trans hM
  have ht : 0 ≤ tol := by
    have : 0 ≤ 4 * R.u * M := by positivity
    linarith
  -- the widths are bounded by `w / 2 ^ k + 2 u M`
  have key : ∀ (N fuel : Nat) (low high : ℝ), R.Float low → R.Float high → low ≤ high → |low| ≤ M → |high| ≤ M → high - low ≤ 2 ^ N * tol + 2 * R.u * M → N < fuel →
      ∃ x, bisectionFl R f tol fuel low high = some x ∧ R.Float x ∧ low ≤ x ∧ x ≤ high := by
    intro N
    induction N with
    | zero =>
      intro fuel low high hl hh h hM hM' hN hf
      obtain ⟨fuel, rfl⟩ := Nat.exists_eq_succ_of_ne_zero (by omega : fuel ≠ 0)
      obtain ⟨m1, m2, m3, -⟩ := mid_spec R hl hh h
      refine ⟨R.r (low + high) / 2, ?_, m1, m2, m3⟩
      have he := R.err (high - low)
      rw [abs_of_nonneg (by linarith : 0 ≤ high - low)] at he
      have he' := (abs_le.1 he).2
      rw [bisectionFl, wid_eq, mid_eq, if_neg]
      rw [not_lt]
      norm_num at hN
      nlinarith
    | succ N ih =>
      intro fuel low high hl hh h hM hM' hN hf
      obtain ⟨fuel, rfl⟩ := Nat.exists_eq_succ_of_ne_zero (by omega : fuel ≠ 0)
      obtain ⟨m1, m2, m3, m4⟩ := mid_spec R hl hh h
      have m5 : |R.r (low + high) / 2 - (low + high) / 2| ≤ R.u * M := m4.trans (mul_le_mul_of_nonneg_left (max_le hM hM') u0)
      obtain ⟨m6, m7⟩ := abs_le.1 m5
      have hmM : |R.r (low + high) / 2| ≤ M := by
        rw [abs_le] at hM hM' ⊢
        constructor <;> linarith [hM.1, hM.2, hM'.1, hM'.2]
      rw [bisectionFl, wid_eq, mid_eq]
      rw [pow_succ] at hN
      split
      · split
        · exact ⟨_, rfl, m1, m2, m3⟩
        · split
          · obtain ⟨x, x1, x2, x3, x4⟩ := ih fuel low _ hl m1 m2 hM hmM (by linarith) (by omega)
            exact ⟨x, x1, x2, x3, x4.trans m3⟩
          · obtain ⟨x, x1, x2, x3, x4⟩ := ih fuel _ high m1 hh m3 hmM hM' (by linarith) (by omega)
            exact ⟨x, x1, x2, m2.trans x3, x4⟩
      · exact ⟨_, rfl, m1, m2, m3⟩
  refine key N fuel low high hl hh h hM hM' ?_ hf
  have : 0 ≤ 2 * R.u * M := by positivity
  linarith

/-- The same for Python's floats, the tolerance of the code and thresholds up to 10^12: the search ends after 50 halvings or less. -/
theorem C169_python_partial (low high : ℝ) (hl : fl low = low) (hh : fl high = high) (h0 : 0 ≤ low) (h : low ≤ high) (hM : high ≤ 10 ^ 12) (fuel : Nat) (hf : 50 < fuel) :
    ∃ x, bisectionFl binary64 f 0.001 fuel low high = some x ∧ fl x = x ∧ low ≤ x ∧ x ≤ high := by
  refine C169_partial binary64 f 0.001 50 low high (10 ^ 12) hl hh h (by rw [abs_of_nonneg h0]; linarith) (by rw [abs_of_nonneg (h0.trans h)]; exact hM) ?_ ?_ fuel hf
  · show 4 * (2⁻¹ ^ 53) * 10 ^ 12 ≤ (0.001 : ℝ)
    norm_num
  · norm_num
    linarith

/-- The sign of `f` changes within twice the tolerance, up to the error of one operation, if it is different at the ends and products that are not zero do not become zero. -/
theorem C169_sign_partial (hs : ∀ a b, R.r (f a * f b) < 0 ↔ f a * f b < 0) (fuel : Nat) (low high x : ℝ) (hl : R.Float low) (hh : R.Float high) (h : low ≤ high) (hsg : f low * f high < 0)
    (hx : bisectionFl R f tol fuel low high = some x) : f x = 0 ∨ ∃ a b, low ≤ a ∧ a ≤ x ∧ x ≤ b ∧ b ≤ high ∧ (b - a) * (1 - R.u) ≤ 2 * tol ∧ f a * f b < 0 := by
  induction fuel generalizing low high with
  | zero => simp [bisectionFl] at hx
  | succ fuel ih =>
    obtain ⟨m1, m2, m3, -⟩ := mid_spec R hl hh h
    rw [bisectionFl, wid_eq, mid_eq] at hx
    split at hx
    · split at hx
      · rename_i h0
        cases hx; exact .inl h0
      · rename_i h0
        split at hx
        · rename_i hneg
          rw [hs] at hneg
          rcases ih low _ hl m1 m2 hneg hx with q | ⟨a, b, q1, q2, q3, q4, q5, q6⟩
          · exact .inl q
          · exact .inr ⟨a, b, q1, q2, q3, q4.trans m3, q5, q6⟩
        · rename_i hneg
          rw [hs] at hneg
          have hneg' : f (R.r (low + high) / 2) * f high < 0 := by
            rcases lt_or_gt_of_ne h0 with h1 | h1
            · have hlo : f low < 0 := by
                by_contra hc
                push Not at hc
                rcases hc.lt_or_eq with hc | hc
                · exact hneg (mul_neg_of_pos_of_neg hc h1)
                · rw [← hc, zero_mul] at hsg; exact lt_irrefl _ hsg
              exact mul_neg_of_neg_of_pos h1 (by by_contra hc; push Not at hc; exact absurd hsg (not_lt.2 (mul_nonneg_of_nonpos_of_nonpos hlo.le hc)))
            · have hlo : 0 < f low := by
                by_contra hc
                push Not at hc
                rcases hc.lt_or_eq with hc | hc
                · exact hneg (mul_neg_of_neg_of_pos hc h1)
                · rw [hc, zero_mul] at hsg; exact lt_irrefl _ hsg
              exact mul_neg_of_pos_of_neg h1 (by by_contra hc; push Not at hc; exact absurd hsg (not_lt.2 (mul_nonneg hlo.le hc)))
          rcases ih _ high m1 hh m3 hneg' hx with q | ⟨a, b, q1, q2, q3, q4, q5, q6⟩
          · exact .inl q
          · exact .inr ⟨a, b, m2.trans q1, q2, q3, q4, q5, q6⟩
    · rename_i hw
      cases hx
      refine .inr ⟨low, high, le_rfl, m2, m3, le_rfl, ?_, hsg⟩
      have he := R.err (high - low)
      rw [abs_of_nonneg (by linarith : 0 ≤ high - low)] at he
      have := (abs_le.1 he).1
      rw [not_lt] at hw
      nlinarith

/-- If the midpoint is rounded to the upper end, and the sign changes between the ends, nothing changes any more: the loop does not end. -/
theorem stuck (low high : ℝ) (hm : R.r (low + high) / 2 = high) (hw : tol < R.r (high - low) / 2) (hf : f high ≠ 0) (hn : R.r (f low * f high) < 0) (fuel : Nat) :
    bisectionFl R f tol fuel low high = none := by
  induction fuel with
  | zero => rfl
  | succ fuel ih => rw [bisectionFl, wid_eq, mid_eq, if_pos hw, hm, if_neg hf, if_pos hn, ih]

/-- Integers with up to 53 binary digits, scaled by a power of two, are floats. -/
theorem fl_of (k : Nat) (h0 : 0 < k) (h2 : k ≤ 2 ^ 53) (e : ℤ) : fl (k * 2 ^ e) = k * 2 ^ e := by
  have hpos : ∀ (k : Nat) (e : ℤ), 0 < k → (0 : ℝ) < k * 2 ^ e := fun k e h => mul_pos (by exact_mod_cast h) (zpow_pos (by norm_num) _)
  have main : ∀ (n k : Nat) (e : ℤ), 0 < k → k ≤ 2 ^ 53 → 2 ^ 52 ≤ k * 2 ^ n → fl (k * 2 ^ e) = k * 2 ^ e := by
    intro n
    induction n with
    | zero =>
      intro k e h0 h2 h1
      have := flPos_exact k e (by simpa using (by exact_mod_cast h1 : ((2 ^ 52 : Nat) : ℤ) ≤ ((k * 2 ^ 0 : Nat) : ℤ))) (by exact_mod_cast h2)
      unfold fl
      rw [if_pos (hpos k e h0)]
      exact_mod_cast this
    | succ n ih =>
      intro k e h0 h2 h1
      by_cases hk : 2 ^ 52 ≤ k
      · have := flPos_exact k e (by exact_mod_cast hk) (by exact_mod_cast h2)
        unfold fl
        rw [if_pos (hpos k e h0)]
        exact_mod_cast this
      · have := ih (2 * k) (e - 1) (by omega) (by omega) (by rw [mul_comm 2 k, mul_assoc, ← pow_succ']; exact h1)
        have he : ((2 * k : Nat) : ℝ) * 2 ^ (e - 1) = k * 2 ^ e := by
          rw [zpow_sub_one₀ (by norm_num)]; push_cast; ring
        rwa [he] at this
  refine main 52 k e h0 h2 ?_
  nlinarith [Nat.one_le_two_pow (n := 52)]

theorem fl_neg {x : ℝ} (h : x < 0) : fl x < 0 := by
  unfold fl
  rw [if_neg (by linarith), if_neg h.ne]
  have := flPos_pos (x := -x) (by linarith)
  linarith

/-- The sum of two neighbouring floats is halfway between two floats, and is rounded up. -/
theorem fl_tie : fl (2 ^ 61 - 128) = 2 ^ 61 := by
  have hpos : (0 : ℝ) < 2 ^ 61 - 128 := by norm_num
  have hl : Int.log 2 ((2 : ℝ) ^ 61 - 128) = 60 := by
    apply le_antisymm
    · have := (Int.lt_zpow_iff_log_lt (b := 2) (by norm_num) hpos (x := 61)).1 (by norm_num)
      omega
    · exact (Int.zpow_le_iff_le_log (b := 2) (by norm_num) hpos).1 (by norm_num)
  have hb : lastBit ((2 : ℝ) ^ 61 - 128) = 8 := by unfold lastBit; rw [hl]; norm_num
  unfold fl
  rw [if_pos hpos]
  unfold flPos
  rw [hb]
  have hq : ((2 : ℝ) ^ 61 - 128) / 2 ^ (8 : ℤ) = ((2 ^ 53 - 1 : ℤ) : ℝ) + 1 / 2 := by norm_num
  have hfl : ⌊((2 ^ 53 - 1 : ℤ) : ℝ) + 1 / 2⌋ = 2 ^ 53 - 1 := by rw [Int.floor_intCast_add]; norm_num
  have hn : nearest (((2 ^ 53 - 1 : ℤ) : ℝ) + 1 / 2) = 2 ^ 53 := by
    unfold nearest
    rw [hfl, if_neg (by norm_num), if_neg (by norm_num), if_neg (by norm_num)]
    norm_num
  rw [hq, hn]
  norm_num

/-- C169 fails: if the next threshold has to lie between the neighbouring floats 2^60 - 128 and 2^60, the search from `epsilon_final = 0` and the threshold 2^60 comes to these two and does not end: their midpoint is rounded to 2^60
again and again. This is the case if all distances are 2^60 - 128, about 10^18, and the maximal distance is 2^60. -/
theorem C169_violated (hf : ∀ x, x ≤ 2 ^ 60 - 128 → 0 < f x) (hf' : ∀ x, 2 ^ 60 ≤ x → f x < 0) :
    ∀ fuel, bisectionFl binary64 f 0.001 fuel 0 (2 ^ 60) = none := by
  have hneg : ∀ low, low ≤ 2 ^ 60 - 128 → f low * f (2 ^ 60) < 0 := fun low h => mul_neg_of_pos_of_neg (hf low h) (hf' _ le_rfl)
  have key : ∀ (k : Nat), k ≤ 53 → ∀ fuel, bisectionFl binary64 f 0.001 fuel (2 ^ 60 - 2 ^ (7 + k)) (2 ^ 60) = none := by
    intro k
    induction k with
    | zero =>
      intro _ fuel
      apply stuck
      · show fl _ / 2 = _
        rw [show (2 : ℝ) ^ 60 - 2 ^ (7 + 0) + 2 ^ 60 = 2 ^ 61 - 128 by norm_num, fl_tie]
        norm_num
      · show _ < fl _ / 2
        have := fl_of 128 (by norm_num) (by norm_num) 0
        rw [show (2 : ℝ) ^ 60 - (2 ^ 60 - 2 ^ (7 + 0)) = (128 : Nat) * 2 ^ (0 : ℤ) by norm_num, this]
        norm_num
      · exact (hf' _ le_rfl).ne
      · exact fl_neg (hneg _ (by norm_num))
    | succ k ih =>
      intro hk fuel
      cases fuel with
      | zero => rfl
      | succ fuel =>
        have hle : (1 : ℝ) ≤ 2 ^ k := one_le_pow₀ (by norm_num)
        have hle' : (1 : ℝ) ≤ 2 ^ (k + 1) := one_le_pow₀ (by norm_num)
        have e1 : (2 : ℝ) ^ 60 - 2 ^ (7 + (k + 1)) + 2 ^ 60 = ((2 ^ (53 - k) - 1 : Nat) : ℝ) * 2 ^ ((8 + k : Nat) : ℤ) := by
          rw [Nat.cast_sub Nat.one_le_two_pow, zpow_natCast, sub_mul]
          push_cast
          rw [← pow_add, show 53 - k + (8 + k) = 61 by omega, show 7 + (k + 1) = 8 + k by ring]
          ring
        have f1 := fl_of (2 ^ (53 - k) - 1) (by
            have : 2 ^ 1 ≤ 2 ^ (53 - k) := Nat.pow_le_pow_right (by norm_num) (by omega)
            omega) (by
            have : 2 ^ (53 - k) ≤ 2 ^ 53 := Nat.pow_le_pow_right (by norm_num) (by omega)
            omega) ((8 + k : Nat) : ℤ)
        have e2 : (2 : ℝ) ^ 60 - (2 ^ 60 - 2 ^ (7 + (k + 1))) = ((1 : Nat) : ℝ) * 2 ^ ((8 + k : Nat) : ℤ) := by
          rw [zpow_natCast, show 7 + (k + 1) = 8 + k by ring]; push_cast; ring
        have f2 := fl_of 1 (by norm_num) (by norm_num) ((8 + k : Nat) : ℤ)
        have hm : fl ((2 : ℝ) ^ 60 - 2 ^ (7 + (k + 1)) + 2 ^ 60) / 2 = 2 ^ 60 - 2 ^ (7 + k) := by
          rw [e1, f1, ← e1]; ring
        have hw : (0.001 : ℝ) < fl ((2 : ℝ) ^ 60 - (2 ^ 60 - 2 ^ (7 + (k + 1)))) / 2 := by
          rw [e2, f2, ← e2, pow_add 2 7]; norm_num; linarith
        have hlow : (2 : ℝ) ^ 60 - 2 ^ (7 + k) ≤ 2 ^ 60 - 128 := by rw [pow_add]; norm_num; nlinarith
        have hlow' : (2 : ℝ) ^ 60 - 2 ^ (7 + (k + 1)) ≤ 2 ^ 60 - 128 := by rw [pow_add 2 7]; norm_num; linarith
        rw [bisectionFl, wid_eq, mid_eq]
        show (if fl _ / 2 > 0.001 then _ else _) = _
        rw [if_pos hw]
        show (if f (fl _ / 2) = 0 then _ else if fl (f _ * f (fl _ / 2)) < 0 then _ else bisectionFl _ _ _ _ (fl _ / 2) _) = _
        rw [hm, if_neg (hf _ hlow).ne', if_neg, ih (by omega)]
        rw [not_lt]
        have := binary64.mono 0 _ (mul_pos (hf _ hlow') (hf _ hlow)).le
        simpa [binary64, fl] using this
  intro fuel
  have := key 53 le_rfl fuel
  rwa [show (2 : ℝ) ^ 60 - 2 ^ (7 + 53) = 0 by norm_num] at this

/-- Such a function: the one of the version of Del Moral et al. for one particle at distance 2^60 - 128. And with the ends 0 and 1 the search ends for it. -/
example : ∃ f : ℝ → ℝ, (∀ x, x ≤ 2 ^ 60 - 128 → 0 < f x) ∧ (∀ x, 2 ^ 60 ≤ x → f x < 0) ∧ ∃ x, bisectionFl binary64 f 0.001 60 0 1 = some x := by
  refine ⟨fun x => if x ≤ 2 ^ 60 - 128 then 1 else -1, fun x h => by simp [h], fun x h => ?_, ?_⟩
  · have : ¬ x ≤ 2 ^ 60 - 128 := by norm_num at h ⊢; linarith
    simp only [this, if_false]; norm_num
  · obtain ⟨x, hx, -⟩ := C169_python_partial (fun x => if x ≤ 2 ^ 60 - 128 then 1 else -1) 0 1 (by simp [fl]) (by simpa using fl_of 1 (by norm_num) (by norm_num) 0) le_rfl (by norm_num) (by norm_num) 60 (by norm_num)
    exact ⟨x, hx⟩

end Verif.Floats
