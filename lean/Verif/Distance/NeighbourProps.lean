import Verif.Distance.NeighbourLemmas
import Verif.Distance.Props
import Mathlib.Analysis.SpecialFunctions.Pow.NNReal

/-!
# C60 (flag of the Hellinger estimate), C82 and C83: nearest-neighbour estimators, order, units, maxima
-/

namespace Verif.Distance

open Classical

/-! ## Specification -/

/-- `v` is the k-th smallest of the distances from `p` to the points: fewer than `k` points are
closer, at least `k` are not farther. -/
def IsKth (pts : List Row) (k : Nat) (p : Row) (v : ℝ) : Prop :=
  (pts.filter fun q => decide (euclid p q < v)).length < k ∧
  k ≤ (pts.filter fun q => decide (euclid p q ≤ v)).length

/-! ## C82 -/

theorem countP_sorted (l : List ℝ) (hl : l.Pairwise (· ≤ ·)) (i : Nat) (v : ℝ) (h : l[i]? = some v) :
    l.countP (fun x => decide (x < v)) ≤ i ∧ i < l.countP (fun x => decide (x ≤ v)) := by
  obtain ⟨hi, hv⟩ := List.getElem?_eq_some_iff.1 h
  have hp := List.pairwise_iff_getElem.1 hl
  constructor
  · have hz : (l.drop i).countP (fun x => decide (x < v)) = 0 := by
      rw [List.countP_eq_zero]
      intro x hx
      obtain ⟨j, hj, rfl⟩ := List.mem_iff_getElem.1 hx
      simp only [List.length_drop] at hj
      rw [List.getElem_drop]
      simp only [decide_eq_true_eq, not_lt]
      rw [← hv]
      rcases Nat.eq_zero_or_pos j with rfl | hj0
      · simp
      · exact hp i (i + j) hi (by omega) (by omega)
    calc l.countP (fun x => decide (x < v))
        = (l.take i ++ l.drop i).countP (fun x => decide (x < v)) := by rw [List.take_append_drop]
      _ = (l.take i).countP (fun x => decide (x < v)) := by rw [List.countP_append, hz, Nat.add_zero]
      _ ≤ (l.take i).length := List.countP_le_length
      _ ≤ i := by simp
  · have hz : (l.take (i + 1)).countP (fun x => decide (x ≤ v)) = (l.take (i + 1)).length := by
      rw [List.countP_eq_length]
      intro x hx
      obtain ⟨j, hj, rfl⟩ := List.mem_iff_getElem.1 hx
      simp only [List.length_take] at hj
      rw [List.getElem_take]
      simp only [decide_eq_true_eq]
      rw [← hv]
      rcases Nat.lt_or_ge j i with hji | hji
      · exact hp j i (by omega) hi hji
      · have : j = i := by omega
        subst this; exact le_rfl
    have hlen : (l.take (i + 1)).length = i + 1 := by rw [List.length_take]; omega
    calc i < (l.take (i + 1)).length := by omega
      _ = (l.take (i + 1)).countP (fun x => decide (x ≤ v)) := hz.symm
      _ ≤ (l.take (i + 1) ++ l.drop (i + 1)).countP (fun x => decide (x ≤ v)) := by rw [List.countP_append]; omega
      _ = l.countP (fun x => decide (x ≤ v)) := by rw [List.take_append_drop]

/-- The distances used by the estimators are those of the k-th nearest neighbours; they exist exactly
when there are `k` points. -/
theorem C82_neighbour (pts : List Row) (k : Nat) (p : Row) :
    (∀ v, kth pts k p = some v → IsKth pts k p v) ∧ ((kth pts k p).isSome ↔ 0 < k ∧ k ≤ pts.length) := by
  constructor
  · intro v h
    rw [kth] at h
    by_cases hk : k = 0
    · rw [if_pos hk] at h; cases h
    · rw [if_neg hk] at h
      obtain ⟨h1, h2⟩ := countP_sorted _ (List.pairwise_insertionSort (· ≤ ·) _) (k - 1) v h
      have hperm := List.perm_insertionSort (· ≤ ·) (pts.map (euclid p))
      rw [hperm.countP_eq, List.countP_map, List.countP_eq_length_filter] at h1 h2
      have e1 : ((fun x => decide (x < v)) ∘ euclid p) = fun q => decide (euclid p q < v) := rfl
      have e2 : ((fun x => decide (x ≤ v)) ∘ euclid p) = fun q => decide (euclid p q ≤ v) := rfl
      rw [e1] at h1
      rw [e2] at h2
      exact ⟨by omega, by omega⟩
  · rw [kth]
    by_cases hk : k = 0
    · simp [hk]
    · rw [if_neg hk, Option.isSome_iff_ne_none, ne_eq, List.getElem?_eq_none_iff]
      simp only [List.length_insertionSort, List.length_map]
      omega

/-- C82, order: no estimate depends on the order of the rows of either data set (for the MMD and
energy distances with a symmetric kernel). -/
theorem C82_order (s1 s1' s2 s2' : Stats) (h1 : s1.Reorder s1') (h2 : s2.Reorder s2') :
    euclidean s1 s2 = euclidean s1' s2' ∧
    (∀ (k : KernelArg) (biased : Bool), Pair s1 s2 → Symm s1.width k.fn →
      mmd k biased s1 s2 = mmd k biased s1' s2') ∧
    (∀ k, klEst s1 s2 k = klEst s1' s2' k) ∧
    (∀ k g, gammaEst s1 s2 k g = gammaEst s1' s2' k g) ∧
    (∀ k, hellinger s1 s2 k = hellinger s1' s2' k) := by
  obtain ⟨w1, p1⟩ := id h1
  obtain ⟨w2, p2⟩ := id h2
  refine ⟨?_, ?_, klEst_perm h1 h2, gammaEst_perm h1 h2, ?_⟩
  · rw [euclidean, euclidean, p1.length_eq, p2.length_eq]
    have : total (s1.rows.map fun a => s2.rows.map fun b => euclid a b)
        = total (s1'.rows.map fun a => s2'.rows.map fun b => euclid a b) := total_perm euclid p1 p2
    rw [this]
  · intro k biased hp hs
    have r1' : s1'.Rect := fun r hr => w1 ▸ hp.rect1 r (p1.mem_iff.2 hr)
    have r2' : s2'.Rect := fun r hr => w2 ▸ hp.rect2 r (p2.mem_iff.2 hr)
    rw [mmd, mmd]
    simp only [self_eq_gram k s1 hp.rect1 hs, self_eq_gram k s2 hp.rect2 (hp.width ▸ hs),
      self_eq_gram k s1' r1' (w1 ▸ hs), self_eq_gram k s2' r2' (w2 ▸ hp.width ▸ hs)]
    simp only [mmdV, mmdUnbiased, gram_length, p1.length_eq, p2.length_eq, total_perm k.fn p1 p1,
      total_perm k.fn p2 p2, total_perm k.fn p1 p2, offDiagonal_perm k.fn p1, offDiagonal_perm k.fn p2]
  · intro k
    rw [hellinger, hellinger, hellingerHalf_perm h1 h2, hellingerHalf_perm h2 h1]

/-- C82, units: multiplying every statistic by `c > 0` and adding a constant row multiplies the
Euclidean distance by `c` and leaves the KL and Hellinger estimates as they are. -/
theorem C82_units (c : ℝ) (hc : 0 < c) (t : Row) (s1 s2 : Stats) (h : Pair s1 s2) (ht : t.length = s1.width) :
    euclidean (s1.affine c t) (s2.affine c t) = (euclidean s1 s2).map (c * ·) ∧
    (∀ k, klEst (s1.affine c t) (s2.affine c t) k = klEst s1 s2 k) ∧
    (∀ k, hellinger (s1.affine c t) (s2.affine c t) k = hellinger s1 s2 k) := by
  have h1 : ∀ q ∈ s1.rows, q.length = t.length := fun q hq => by rw [ht]; exact h.rect1 q hq
  have h2 : ∀ q ∈ s2.rows, q.length = t.length := fun q hq => by rw [ht, h.width]; exact h.rect2 q hq
  refine ⟨?_, klEst_affine c hc t s1 s2 h1 h2, fun k => ?_⟩
  · rw [euclidean, euclidean]
    simp only [Stats.affine, List.length_map]
    split
    · rfl
    · rw [Option.map_some]
      congr 1
      rw [← mul_div_assoc]
      congr 1
      simp only [List.map_map]
      rw [total, total, List.map_map, List.map_map, ← List.sum_map_mul_left]
      congr 1
      apply List.map_congr_left
      intro a ha
      show (s2.rows.map fun b => euclid (affine c t a) (affine c t b)).sum = c * (s2.rows.map fun b => euclid a b).sum
      rw [← List.sum_map_mul_left]
      congr 1
      apply List.map_congr_left
      intro b hb
      exact euclid_affine c hc t a b (h1 a ha) (h2 b hb)
  · rw [hellinger, hellinger, hellingerHalf_affine c hc t s1 s2 h1 h2, hellingerHalf_affine c hc t s2 s1 h2 h1]

/-- Gamma estimate: `(c x)^(-dγ)` summed. -/
theorem scaled_sum (c e : ℝ) (hc : 0 < c) (l : List ℝ) (hl : ∀ x ∈ l, 0 ≤ x) :
    ((l.map (c * ·)).map fun x => 1 / x ^ e).sum = (c ^ e)⁻¹ * (l.map fun x => 1 / x ^ e).sum := by
  rw [List.map_map, ← List.sum_map_mul_left]
  congr 1
  apply List.map_congr_left
  intro x hx
  show 1 / (c * x) ^ e = _
  rw [Real.mul_rpow hc.le (hl x hx), one_div, mul_inv, one_div]

/-- C82, units, for the gamma estimate. -/
theorem C82_units_gamma (c : ℝ) (hc : 0 < c) (t : Row) (s1 s2 : Stats) (h : Pair s1 s2) (ht : t.length = s1.width)
    (k : Nat) (g : ℝ) :
    gammaEst (s1.affine c t) (s2.affine c t) k g = gammaEst s1 s2 k g := by
  have h1 : ∀ q ∈ s1.rows, q.length = t.length := fun q hq => by rw [ht]; exact h.rect1 q hq
  have h2 : ∀ q ∈ s2.rows, q.length = t.length := fun q hq => by rw [ht, h.width]; exact h.rect2 q hq
  rw [gammaEst, gammaEst]
  simp only [Stats.affine, rho_affine c hc t _ h1, rho_affine c hc t _ h2, nu_affine c hc t _ _ h1 h2, List.length_map]
  cases hr : rho s1.rows k with
  | none => rfl
  | some r =>
    cases hv : nu s1.rows s2.rows k with
    | none => rfl
    | some v =>
      cases hq : rho s2.rows k with
      | none => rfl
      | some q =>
        have pr := collect_nonneg _ (fun p v => kth_nonneg _ _ p v) _ _ hr
        have pv := collect_nonneg _ (fun p v => kth_nonneg _ _ p v) _ _ hv
        have pq := collect_nonneg _ (fun p v => kth_nonneg _ _ p v) _ _ hq
        simp only [Option.map_some, zero_mem_scaled c hc]
        refine if_congr Iff.rfl rfl (if_congr Iff.rfl rfl ?_)
        congr 3
        set e := (s1.width : ℝ) * g
        set n : ℝ := (s1.rows.length : ℝ)
        set m : ℝ := (s2.rows.length : ℝ)
        have hn : 0 ≤ n := Nat.cast_nonneg _
        have hm1 : 1 ≤ m := by
          have : s2.rows.length ≠ 0 := by simpa using h.ne2
          have h1 : 1 ≤ s2.rows.length := Nat.one_le_iff_ne_zero.2 this
          exact Nat.one_le_cast.2 h1
        rw [scaled_sum c e hc r pr, scaled_sum c e hc v pv, scaled_sum c e hc q pq]
        have nn : ∀ l : List ℝ, (∀ x ∈ l, 0 ≤ x) → 0 ≤ (l.map fun x => 1 / x ^ e).sum := by
          intro l hl
          apply List.sum_nonneg
          intro y hy
          obtain ⟨x, hx, rfl⟩ := List.mem_map.1 hy
          exact one_div_nonneg.2 (Real.rpow_nonneg (hl x hx) _)
        have cpos : 0 < c ^ e := Real.rpow_pos_of_pos hc _
        have cinv : 0 < (c ^ e)⁻¹ := inv_pos.2 cpos
        rw [mul_div_assoc (c ^ e)⁻¹ (r.map _).sum, mul_div_assoc (c ^ e)⁻¹ (q.map _).sum,
          mul_div_assoc (c ^ e)⁻¹ (v.map _).sum]
        have hmm : 0 ≤ m * (m - 1) ^ g := mul_nonneg (by linarith) (Real.rpow_nonneg (by linarith) _)
        have hnm : 0 ≤ n * m ^ g := mul_nonneg hn (Real.rpow_nonneg (by linarith) _)
        rw [Real.mul_rpow cinv.le (div_nonneg (nn q pq) hmm), Real.mul_rpow cinv.le (div_nonneg (nn v pv) hnm)]
        have hpow : (c ^ e)⁻¹ ^ (1 + g) = (c ^ e)⁻¹ * (c ^ e)⁻¹ ^ g := by
          rw [Real.rpow_add cinv, Real.rpow_one]
        rw [hpow]
        have hne : (c ^ e)⁻¹ * (c ^ e)⁻¹ ^ g ≠ 0 := (mul_pos cinv (Real.rpow_pos_of_pos cinv _)).ne'
        rw [mul_mul_mul_comm, mul_div_mul_left _ _ hne]

/-- The hypotheses of the C82 theorems hold for two data sets of two points in one dimension, where
the KL estimate is a number: the neighbour distances are 3, 3 within the first set and 1, 2 to the
second. -/
example : Pair ⟨1, [[0], [3]]⟩ ⟨1, [[1], [5]]⟩ ∧ Stats.Reorder ⟨1, [[0], [3]]⟩ ⟨1, [[3], [0]]⟩ ∧
    klEst ⟨1, [[0], [3]]⟩ ⟨1, [[1], [5]]⟩ 1 = some (1 / 2 * (Real.log (1 / 3) + Real.log (2 / 3)) + Real.log 2) := by
  refine ⟨⟨by simp [Stats.Rect], by simp [Stats.Rect], rfl, by simp, by simp⟩,
    ⟨rfl, List.Perm.swap _ _ _⟩, ?_⟩
  have h9 : Real.sqrt 9 = 3 := by rw [show (9 : ℝ) = 3 ^ 2 by norm_num]; exact Real.sqrt_sq (by norm_num)
  have h4 : Real.sqrt 4 = 2 := by rw [show (4 : ℝ) = 2 ^ 2 by norm_num]; exact Real.sqrt_sq (by norm_num)
  have h25 : Real.sqrt 25 = 5 := by rw [show (25 : ℝ) = 5 ^ 2 by norm_num]; exact Real.sqrt_sq (by norm_num)
  norm_num [klEst, rho, nu, kth, collect, euclid, h9, h4, h25, List.insertionSort, List.orderedInsert]

/-! ## C83: declared maxima, and C60 for the Hellinger estimate -/

theorem hellingerHalf_le (s1 s2 : Stats) (k : Nat) (v : ℝ) (h : hellingerHalf s1 s2 k = some v) : v ≤ 2 := by
  rw [hellingerHalf] at h
  cases hr : rho s1.rows k with
  | none => rw [hr] at h; cases h
  | some r =>
    cases hn : nu s1.rows s2.rows k with
    | none => rw [hr, hn] at h; cases h
    | some u =>
      rw [hr, hn] at h
      simp only at h
      split at h
      · cases h
      · split at h
        · cases h
        · have pr := collect_nonneg _ (fun p v => kth_nonneg _ _ p v) _ _ hr
          have pu := collect_nonneg _ (fun p v => kth_nonneg _ _ p v) _ _ hn
          rw [← Option.some.inj h]
          have : 0 ≤ (List.zipWith (fun a b => (a / b) ^ ((s1.width : ℝ) / 2)) r u).sum := by
            apply List.sum_nonneg
            intro y hy
            obtain ⟨i, hi, rfl⟩ := List.mem_iff_getElem.1 hy
            rw [List.getElem_zipWith]
            exact Real.rpow_nonneg (div_nonneg (pr _ (List.getElem_mem _)) (pu _ (List.getElem_mem _))) _
          have h2 := mul_nonneg (mul_nonneg (by norm_num : (0:ℝ) ≤ 2) (Real.sqrt_nonneg ((s1.rows.length - 1 : ℝ) / s2.rows.length))) this
          linarith

/-- C83, the Hellinger estimate: symmetric, and never above the declared maximum. -/
theorem C83_hellinger (s1 s2 : Stats) (k : Nat) :
    hellinger s1 s2 k = hellinger s2 s1 k ∧ ∀ v, hellinger s1 s2 k = some v → v ≤ hellingerMax := by
  constructor
  · rw [hellinger, hellinger]
    cases hellingerHalf s1 s2 k <;> cases hellingerHalf s2 s1 k <;> simp [add_comm]
  · intro v h
    rw [hellinger] at h
    cases h1 : hellingerHalf s1 s2 k with
    | none => rw [h1] at h; cases h
    | some a =>
      cases h2 : hellingerHalf s2 s1 k with
      | none => rw [h1, h2] at h; cases h
      | some b =>
        rw [h1, h2] at h
        have ha := hellingerHalf_le _ _ _ _ h1
        have hb := hellingerHalf_le _ _ _ _ h2
        rw [← Option.some.inj h, hellingerMax]
        linarith

/-- C60 fails for the Hellinger distance: `_estimate_always_positive` is true, and the estimate is
negative for these two data sets of two points each (the sum in the estimator is not divided by the
number of points). -/
theorem C60_hellinger_violated : Kind.hellinger.alwaysPositive = true ∧
    ∃ s1 s2 : Stats, Pair s1 s2 ∧ ∃ v, hellinger s1 s2 1 = some v ∧ v < 0 := by
  refine ⟨rfl, ⟨2, [[0, 0], [3, 0]]⟩, ⟨2, [[0, 1], [3, 1]]⟩,
    ⟨by simp [Stats.Rect], by simp [Stats.Rect], rfl, by simp, by simp⟩, 2 - 12 * Real.sqrt (1 / 2), ?_, ?_⟩
  · have h9 : Real.sqrt 9 = 3 := by rw [show (9 : ℝ) = 3 ^ 2 by norm_num]; exact Real.sqrt_sq (by norm_num)
    have h1 : (1 : ℝ) ≤ Real.sqrt 10 := by rw [Real.one_le_sqrt]; norm_num
    have half1 : hellingerHalf ⟨2, [[0, 0], [3, 0]]⟩ ⟨2, [[0, 1], [3, 1]]⟩ 1 = some (2 - 12 * Real.sqrt (1 / 2)) := by
      norm_num [hellingerHalf, rho, nu, kth, collect, euclid, h9, h1, List.insertionSort, List.orderedInsert]
      ring_nf
    have half2 : hellingerHalf ⟨2, [[0, 1], [3, 1]]⟩ ⟨2, [[0, 0], [3, 0]]⟩ 1 = some (2 - 12 * Real.sqrt (1 / 2)) := by
      norm_num [hellingerHalf, rho, nu, kth, collect, euclid, h9, h1, List.insertionSort, List.orderedInsert]
      ring_nf
    rw [hellinger, half1, half2]
    simp only [Option.some.injEq]
    ring
  · have : (1 / 4 : ℝ) ≤ Real.sqrt (1 / 2) := by
      apply Real.le_sqrt_of_sq_le; norm_num
    linarith

end Verif.Distance
