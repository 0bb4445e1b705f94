import Mathlib.Analysis.InnerProductSpace.PiL2
import Mathlib.Topology.Order.Compact
import Mathlib.Topology.MetricSpace.ProperSpace.Lemmas

/-!
# Transport plans between finite distributions

Plans, optimal costs, gluing of plans. Nothing here refers to the program.
-/

namespace Verif.Wasserstein

open Finset

variable {ι κ μ : Type} [Fintype ι] [Fintype κ] [Fintype μ]

/-- `P i j` is the mass moved from `i` to `j`. -/
structure IsPlan (a : ι → ℝ) (b : κ → ℝ) (P : ι → κ → ℝ) : Prop where
  nonneg : ∀ i j, 0 ≤ P i j
  rows : ∀ i, ∑ j, P i j = a i
  cols : ∀ j, ∑ i, P i j = b j

/-- The cost of a plan. -/
def planCost (M P : ι → κ → ℝ) : ℝ := ∑ i, ∑ j, P i j * M i j

/-- `v` is the smallest cost of a plan. -/
def IsOptimal (a : ι → ℝ) (b : κ → ℝ) (M : ι → κ → ℝ) (v : ℝ) : Prop :=
  (∃ P, IsPlan a b P ∧ v = planCost M P) ∧ ∀ P, IsPlan a b P → v ≤ planCost M P

theorem IsOptimal.unique {a : ι → ℝ} {b : κ → ℝ} {M : ι → κ → ℝ} {v w : ℝ} (hv : IsOptimal a b M v)
    (hw : IsOptimal a b M w) : v = w := by
  obtain ⟨⟨P, hP, rfl⟩, h1⟩ := hv
  obtain ⟨⟨Q, hQ, rfl⟩, h2⟩ := hw
  exact le_antisymm (h1 Q hQ) (h2 P hP)

theorem product_plan (a : ι → ℝ) (b : κ → ℝ) (ha : ∀ i, 0 ≤ a i) (hb : ∀ j, 0 ≤ b j) (sa : ∑ i, a i = 1)
    (sb : ∑ j, b j = 1) : IsPlan a b fun i j => a i * b j where
  nonneg i j := mul_nonneg (ha i) (hb j)
  rows i := by rw [← mul_sum, sb, mul_one]
  cols j := by rw [← sum_mul, sa, one_mul]

theorem plan_le {a : ι → ℝ} {b : κ → ℝ} {P : ι → κ → ℝ} (h : IsPlan a b P) (i : ι) (j : κ) : P i j ≤ a i := by
  rw [← h.rows i]
  exact single_le_sum (fun j _ => h.nonneg i j) (mem_univ j)

/-- There is a cheapest plan. -/
theorem exists_optimal (a : ι → ℝ) (b : κ → ℝ) (M : ι → κ → ℝ) (ha : ∀ i, 0 ≤ a i) (hb : ∀ j, 0 ≤ b j)
    (sa : ∑ i, a i = 1) (sb : ∑ j, b j = 1) : ∃ v, IsOptimal a b M v := by
  have hcont : Continuous fun P : ι → κ → ℝ => planCost M P := by
    unfold planCost
    fun_prop
  have hclosed : IsClosed {P : ι → κ → ℝ | IsPlan a b P} := by
    have : {P : ι → κ → ℝ | IsPlan a b P} = (⋂ i, ⋂ j, {P | 0 ≤ P i j}) ∩ (⋂ i, {P | ∑ j, P i j = a i}) ∩
        ⋂ j, {P | ∑ i, P i j = b j} := by
      ext P
      simp only [Set.mem_setOf_eq, Set.mem_inter_iff, Set.mem_iInter]
      exact ⟨fun h => ⟨⟨h.nonneg, h.rows⟩, h.cols⟩, fun h => ⟨h.1.1, h.1.2, h.2⟩⟩
    rw [this]
    refine ((isClosed_iInter fun i => isClosed_iInter fun j => ?_).inter (isClosed_iInter fun i => ?_)).inter
      (isClosed_iInter fun j => ?_)
    · exact isClosed_le continuous_const (by fun_prop)
    · exact isClosed_eq (by fun_prop) continuous_const
    · exact isClosed_eq (by fun_prop) continuous_const
  have hsub : {P : ι → κ → ℝ | IsPlan a b P} ⊆ Set.Icc (fun _ _ => 0) (fun i _ => a i) := by
    intro P hP
    exact ⟨fun i j => hP.nonneg i j, fun i j => plan_le hP i j⟩
  have hcomp : IsCompact {P : ι → κ → ℝ | IsPlan a b P} := isCompact_Icc.of_isClosed_subset hclosed hsub
  obtain ⟨P, hP, hmin⟩ := hcomp.exists_isMinOn ⟨_, product_plan a b ha hb sa sb⟩ hcont.continuousOn
  exact ⟨planCost M P, ⟨P, hP, rfl⟩, fun Q hQ => hmin hQ⟩

theorem IsPlan.symm {a : ι → ℝ} {b : κ → ℝ} {P : ι → κ → ℝ} (h : IsPlan a b P) : IsPlan b a fun j i => P i j :=
  ⟨fun j i => h.nonneg i j, h.cols, h.rows⟩

theorem planCost_symm (M P : ι → κ → ℝ) : planCost (fun j i => M i j) (fun j i => P i j) = planCost M P := by
  rw [planCost, planCost, sum_comm]

theorem IsOptimal.symm {a : ι → ℝ} {b : κ → ℝ} {M : ι → κ → ℝ} {v : ℝ} (h : IsOptimal a b M v) :
    IsOptimal b a (fun j i => M i j) v := by
  obtain ⟨⟨P, hP, rfl⟩, h1⟩ := h
  refine ⟨⟨_, hP.symm, (planCost_symm M P).symm⟩, fun Q hQ => ?_⟩
  exact (h1 _ hQ.symm).trans_eq (planCost_symm M fun i j => Q j i).symm

theorem IsOptimal.nonneg {a : ι → ℝ} {b : κ → ℝ} {M : ι → κ → ℝ} {v : ℝ} (h : IsOptimal a b M v)
    (hM : ∀ i j, 0 ≤ M i j) : 0 ≤ v := by
  obtain ⟨⟨P, hP, rfl⟩, -⟩ := h
  exact sum_nonneg fun i _ => sum_nonneg fun j _ => mul_nonneg (hP.nonneg i j) (hM i j)

theorem plan_zero_col {a : ι → ℝ} {b : κ → ℝ} {P : ι → κ → ℝ} (h : IsPlan a b P) (j : κ) (hb : b j = 0) (i : ι) :
    P i j = 0 := by
  have := (sum_eq_zero_iff_of_nonneg fun i _ => h.nonneg i j).1 ((h.cols j).trans hb)
  exact this i (mem_univ i)

/-- Mass moved from `i` through `j` to `k`. -/
noncomputable def through (b : κ → ℝ) (P : ι → κ → ℝ) (Q : κ → μ → ℝ) (i : ι) (j : κ) (k : μ) : ℝ := P i j * Q j k / b j

theorem through_sum_right {a : ι → ℝ} {b : κ → ℝ} {c : μ → ℝ} {P : ι → κ → ℝ} {Q : κ → μ → ℝ} (hP : IsPlan a b P)
    (hQ : IsPlan b c Q) (i : ι) (j : κ) : ∑ k, through b P Q i j k = P i j := by
  simp only [through]
  rw [← sum_div, ← mul_sum, hQ.rows]
  by_cases hb : b j = 0
  · rw [plan_zero_col hP j hb i]; simp
  · rw [mul_div_assoc, div_self hb, mul_one]

theorem through_sum_left {a : ι → ℝ} {b : κ → ℝ} {c : μ → ℝ} {P : ι → κ → ℝ} {Q : κ → μ → ℝ} (hP : IsPlan a b P)
    (hQ : IsPlan b c Q) (j : κ) (k : μ) : ∑ i, through b P Q i j k = Q j k := by
  simp only [through]
  rw [← sum_div, ← sum_mul, hP.cols]
  by_cases hb : b j = 0
  · rw [plan_zero_col hQ.symm j hb k]; simp
  · rw [mul_comm, mul_div_assoc, div_self hb, mul_one]

theorem through_nonneg {a : ι → ℝ} {b : κ → ℝ} {c : μ → ℝ} {P : ι → κ → ℝ} {Q : κ → μ → ℝ} (hP : IsPlan a b P)
    (hQ : IsPlan b c Q) (i : ι) (j : κ) (k : μ) : 0 ≤ through b P Q i j k := by
  refine div_nonneg (mul_nonneg (hP.nonneg i j) (hQ.nonneg j k)) ?_
  rw [← hP.cols j]
  exact sum_nonneg fun i _ => hP.nonneg i j

theorem glued_plan {a : ι → ℝ} {b : κ → ℝ} {c : μ → ℝ} {P : ι → κ → ℝ} {Q : κ → μ → ℝ} (hP : IsPlan a b P)
    (hQ : IsPlan b c Q) : IsPlan a c fun i k => ∑ j, through b P Q i j k where
  nonneg i k := sum_nonneg fun j _ => through_nonneg hP hQ i j k
  rows i := by
    rw [sum_comm, ← hP.rows i]
    exact sum_congr rfl fun j _ => through_sum_right hP hQ i j
  cols k := by
    rw [sum_comm, ← hQ.cols k]
    exact sum_congr rfl fun j _ => through_sum_left hP hQ j k

variable {E : Type} [PseudoMetricSpace E]

/-- The matrix of squared distances. -/
def sqDist (x : ι → E) (y : κ → E) (i : ι) (j : κ) : ℝ := dist (x i) (y j) ^ 2

/-- Square roots of the costs of glued plans satisfy the triangle inequality. -/
theorem glued_cost {a : ι → ℝ} {b : κ → ℝ} {c : μ → ℝ} {P : ι → κ → ℝ} {Q : κ → μ → ℝ} (hP : IsPlan a b P)
    (hQ : IsPlan b c Q) (x : ι → E) (y : κ → E) (z : μ → E) :
    Real.sqrt (planCost (sqDist x z) fun i k => ∑ j, through b P Q i j k)
      ≤ Real.sqrt (planCost (sqDist x y) P) + Real.sqrt (planCost (sqDist y z) Q) := by
  set t := fun p : ι × κ × μ => through b P Q p.1 p.2.1 p.2.2 with ht
  have t0 : ∀ p, 0 ≤ t p := fun p => through_nonneg hP hQ _ _ _
  set f := fun p : ι × κ × μ => dist (x p.1) (y p.2.1) with hf
  set g := fun p : ι × κ × μ => dist (y p.2.1) (z p.2.2) with hg
  have eA : planCost (sqDist x y) P = ∑ p, t p * f p ^ 2 := by
    rw [planCost, Fintype.sum_prod_type]
    refine sum_congr rfl fun i _ => ?_
    rw [Fintype.sum_prod_type]
    refine sum_congr rfl fun j _ => ?_
    show P i j * dist (x i) (y j) ^ 2 = ∑ k, through b P Q i j k * dist (x i) (y j) ^ 2
    rw [← sum_mul, through_sum_right hP hQ]
  have eB : planCost (sqDist y z) Q = ∑ p, t p * g p ^ 2 := by
    have e : ∑ p, t p * g p ^ 2 = ∑ j, ∑ k, ∑ i, through b P Q i j k * dist (y j) (z k) ^ 2 := by
      rw [Fintype.sum_prod_type]
      simp only [Fintype.sum_prod_type]
      rw [sum_comm]
      exact sum_congr rfl fun j _ => sum_comm
    rw [e, planCost]
    refine sum_congr rfl fun j _ => sum_congr rfl fun k _ => ?_
    rw [← sum_mul, through_sum_left hP hQ]; rfl
  have eC : planCost (sqDist x z) (fun i k => ∑ j, through b P Q i j k)
      = ∑ p : ι × κ × μ, t p * dist (x p.1) (z p.2.2) ^ 2 := by
    rw [planCost, Fintype.sum_prod_type]
    refine sum_congr rfl fun i _ => ?_
    rw [Fintype.sum_prod_type, sum_comm]
    refine sum_congr rfl fun k _ => ?_
    show (∑ j, through b P Q i j k) * dist (x i) (z k) ^ 2 = ∑ j, through b P Q i j k * dist (x i) (z k) ^ 2
    rw [← sum_mul]
  have hcs : ∑ p, t p * (f p * g p) ≤ Real.sqrt (∑ p, t p * f p ^ 2) * Real.sqrt (∑ p, t p * g p ^ 2) := by
    have h := Real.sum_mul_le_sqrt_mul_sqrt univ (fun p => Real.sqrt (t p) * f p) (fun p => Real.sqrt (t p) * g p)
    have e1 : ∀ u : ι × κ × μ → ℝ, ∑ p, (Real.sqrt (t p) * u p) ^ 2 = ∑ p, t p * u p ^ 2 := fun u =>
      sum_congr rfl fun p _ => by rw [mul_pow, Real.sq_sqrt (t0 p)]
    have e2 : ∑ p, (Real.sqrt (t p) * f p) * (Real.sqrt (t p) * g p) = ∑ p, t p * (f p * g p) :=
      sum_congr rfl fun p _ => by rw [mul_mul_mul_comm, Real.mul_self_sqrt (t0 p)]
    rw [e1, e1, e2] at h
    exact h
  rw [eA, eB, eC]
  apply Real.sqrt_le_iff.2
  refine ⟨by positivity, ?_⟩
  calc ∑ p : ι × κ × μ, t p * dist (x p.1) (z p.2.2) ^ 2
      ≤ ∑ p, t p * (f p + g p) ^ 2 := by
        refine sum_le_sum fun p _ => mul_le_mul_of_nonneg_left ?_ (t0 p)
        exact pow_le_pow_left₀ dist_nonneg (dist_triangle _ _ _) 2
    _ = ∑ p, t p * f p ^ 2 + 2 * ∑ p, t p * (f p * g p) + ∑ p, t p * g p ^ 2 := by
        rw [mul_sum, ← sum_add_distrib, ← sum_add_distrib]
        exact sum_congr rfl fun p _ => by ring
    _ ≤ (Real.sqrt (∑ p, t p * f p ^ 2) + Real.sqrt (∑ p, t p * g p ^ 2)) ^ 2 := by
        rw [add_sq, Real.sq_sqrt (sum_nonneg fun p _ => mul_nonneg (t0 p) (sq_nonneg _)),
          Real.sq_sqrt (sum_nonneg fun p _ => mul_nonneg (t0 p) (sq_nonneg _)), mul_assoc]
        linarith

/-- Triangle inequality for the square roots of optimal costs. -/
theorem optimal_triangle {a : ι → ℝ} {b : κ → ℝ} {c : μ → ℝ} {x : ι → E} {y : κ → E} {z : μ → E} {u v w : ℝ}
    (h1 : IsOptimal a b (sqDist x y) u) (h2 : IsOptimal b c (sqDist y z) v) (h3 : IsOptimal a c (sqDist x z) w) :
    Real.sqrt w ≤ Real.sqrt u + Real.sqrt v := by
  obtain ⟨⟨P, hP, rfl⟩, -⟩ := h1
  obtain ⟨⟨Q, hQ, rfl⟩, -⟩ := h2
  exact (Real.sqrt_le_sqrt (h3.2 _ (glued_plan hP hQ))).trans (glued_cost hP hQ x y z)

open Classical in
/-- The mass of a point. -/
noncomputable def mass {F : Type} (a : ι → ℝ) (x : ι → F) (p : F) : ℝ := ∑ i, if x i = p then a i else 0

open Classical in
/-- Distributions with a plan of cost zero give every point the same mass. -/
theorem mass_of_cost_zero {F : Type} [MetricSpace F] {a : ι → ℝ} {b : κ → ℝ} {P : ι → κ → ℝ} (hP : IsPlan a b P)
    (x : ι → F) (y : κ → F) (h : planCost (sqDist x y) P = 0) (p : F) : mass a x p = mass b y p := by
  have hz : ∀ i j, P i j ≠ 0 → x i = y j := by
    intro i j hne
    have h1 := (sum_eq_zero_iff_of_nonneg fun i _ => sum_nonneg fun j _ =>
      mul_nonneg (hP.nonneg i j) (sq_nonneg (dist (x i) (y j)))).1 h i (mem_univ i)
    have h2 := (sum_eq_zero_iff_of_nonneg fun j _ =>
      mul_nonneg (hP.nonneg i j) (sq_nonneg (dist (x i) (y j)))).1 h1 j (mem_univ j)
    rcases mul_eq_zero.1 h2 with h3 | h3
    · exact absurd h3 hne
    · exact dist_eq_zero.1 (pow_eq_zero_iff two_ne_zero |>.1 h3)
  have e1 : mass a x p = ∑ i, ∑ j, if x i = p then P i j else 0 := by
    refine sum_congr rfl fun i _ => ?_
    rw [← hP.rows i]
    split <;> simp
  have e2 : mass b y p = ∑ i, ∑ j, if y j = p then P i j else 0 := by
    rw [sum_comm]
    refine sum_congr rfl fun j _ => ?_
    rw [← hP.cols j]
    split <;> simp
  rw [e1, e2]
  refine sum_congr rfl fun i _ => sum_congr rfl fun j _ => ?_
  by_cases h0 : P i j = 0
  · simp [h0]
  · rw [hz i j h0]

open Classical in
/-- Distributions that give every point the same mass have a plan that moves nothing. -/
theorem plan_of_mass {F : Type} {a : ι → ℝ} {b : κ → ℝ} (ha : ∀ i, 0 ≤ a i) (hb : ∀ j, 0 ≤ b j) (x : ι → F) (y : κ → F)
    (h : ∀ p, mass a x p = mass b y p) : ∃ P, IsPlan a b P ∧ ∀ i j, x i ≠ y j → P i j = 0 := by
  have le_mass : ∀ i, a i ≤ mass a x (x i) := by
    intro i
    have := single_le_sum (f := fun i' => if x i' = x i then a i' else 0) (fun i' _ => by split; exacts [ha i', le_rfl]) (mem_univ i)
    simpa [mass] using this
  have le_mass' : ∀ j, b j ≤ mass b y (y j) := by
    intro j
    have := single_le_sum (f := fun j' => if y j' = y j then b j' else 0) (fun j' _ => by split; exacts [hb j', le_rfl]) (mem_univ j)
    simpa [mass] using this
  have mass0 : ∀ p, 0 ≤ mass a x p := fun p => sum_nonneg fun i _ => by split; exacts [ha i, le_rfl]
  refine ⟨fun i j => if x i = y j then a i * b j / mass a x (x i) else 0, ⟨?_, ?_, ?_⟩, ?_⟩
  · intro i j
    split
    · exact div_nonneg (mul_nonneg (ha i) (hb j)) (mass0 _)
    · exact le_rfl
  · intro i
    have e : ∑ j, (if x i = y j then a i * b j / mass a x (x i) else 0) = a i * mass b y (x i) / mass a x (x i) := by
      generalize mass a x (x i) = q
      rw [mass, mul_sum, sum_div]
      refine sum_congr rfl fun j _ => ?_
      by_cases hj : x i = y j
      · rw [if_pos hj, if_pos hj.symm]
      · rw [if_neg hj, if_neg fun e => hj e.symm]; simp
    rw [e, ← h]
    by_cases h0 : mass a x (x i) = 0
    · have : a i = 0 := le_antisymm (h0 ▸ le_mass i) (ha i)
      rw [this]; simp
    · rw [mul_div_assoc, div_self h0, mul_one]
  · intro j
    have e : ∑ i, (if x i = y j then a i * b j / mass a x (x i) else 0) = b j * mass a x (y j) / mass a x (y j) := by
      conv_rhs => rw [mass, mul_sum, sum_div]
      refine sum_congr rfl fun i _ => ?_
      by_cases hj : x i = y j
      · rw [if_pos hj, if_pos hj, hj, mul_comm]; rfl
      · rw [if_neg hj, if_neg hj]; simp
    rw [e]
    by_cases h0 : mass a x (y j) = 0
    · have : b j = 0 := le_antisymm (by rw [← h0, h]; exact le_mass' j) (hb j)
      rw [this]; simp
    · rw [mul_div_assoc, div_self h0, mul_one]
  · intro i j hne
    exact if_neg hne

/-- The optimal cost is zero exactly when the distributions are the same. -/
theorem optimal_zero_iff {F : Type} [MetricSpace F] {a : ι → ℝ} {b : κ → ℝ} (ha : ∀ i, 0 ≤ a i) (hb : ∀ j, 0 ≤ b j)
    {x : ι → F} {y : κ → F} {v : ℝ} (h : IsOptimal a b (sqDist x y) v) : v = 0 ↔ ∀ p, mass a x p = mass b y p := by
  constructor
  · rintro rfl
    obtain ⟨⟨P, hP, h0⟩, -⟩ := h
    exact mass_of_cost_zero hP x y h0.symm
  · intro hm
    obtain ⟨P, hP, hz⟩ := plan_of_mass ha hb x y hm
    refine le_antisymm ((h.2 P hP).trans_eq ?_) (h.nonneg fun i j => sq_nonneg _)
    refine sum_eq_zero fun i _ => sum_eq_zero fun j _ => ?_
    by_cases hx : x i = y j
    · simp [sqDist, hx]
    · rw [hz i j hx, zero_mul]

/-- A map that does not increase distances does not increase the optimal cost. -/
theorem optimal_mono {a : ι → ℝ} {b : κ → ℝ} {M N : ι → κ → ℝ} {u v : ℝ} (h : ∀ i j, M i j ≤ N i j)
    (hu : IsOptimal a b M u) (hv : IsOptimal a b N v) : u ≤ v := by
  obtain ⟨⟨P, hP, rfl⟩, -⟩ := hv
  exact (hu.2 P hP).trans (sum_le_sum fun i _ => sum_le_sum fun j _ => mul_le_mul_of_nonneg_left (h i j) (hP.nonneg i j))

end Verif.Wasserstein
