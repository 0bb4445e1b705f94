import Verif.Likelihood.Model
import Verif.Collect
import Mathlib.Analysis.SpecialFunctions.Trigonometric.Basic
import Mathlib.Analysis.SpecialFunctions.Pow.Real
import Mathlib.LinearAlgebra.Matrix.PosDef
import Mathlib.Data.List.Perm.Subperm
import Mathlib.Algebra.Order.Star.Real

/-!
# C86, C90, C91: synthetic likelihoods
-/

namespace Verif.Likelihood

open Matrix

/-! ## Specification -/

/-- The log-likelihood of a list of observations is the sum of the values on the single ones, and is
defined when all of these are. -/
def Additive {d : Nat} (L : List (Vec d) → Option ℝ) : Prop :=
  ∀ obs, obs ≠ [] → L obs = (collect (obs.map fun x => L [x])).map List.sum

/-- The density of the normal distribution. -/
noncomputable def gaussian {d : Nat} (μ : Vec d) (S : Matrix (Fin d) (Fin d) ℝ) (x : Vec d) : ℝ :=
  Real.exp (-(1 / 2) * ((x - μ) ⬝ᵥ (S⁻¹ *ᵥ (x - μ)))) / Real.sqrt ((2 * Real.pi) ^ d * S.det)

/-- Every denominator in the dictionary is the one for its number of rows. -/
def Sound (ppf : ℝ → ℝ) (dict : Denominators) : Prop := ∀ n v, dict.lookup n = some v → v = denominator ppf n

/-- No statistic takes the same value in two simulations. -/
def NoTies {d : Nat} (x : List (Vec d)) : Prop := ∀ j, (x.map fun r => r j).Nodup

/-! ## C86 and C90 -/

theorem additive_of {d : Nat} {L : List (Vec d) → Option ℝ} (g : Vec d → Option ℝ)
    (h : ∀ obs, obs ≠ [] → L obs = (collect (obs.map g)).map List.sum) : Additive L := by
  intro obs ho
  have hs : ∀ x, L [x] = g x := by
    intro x
    rw [h [x] (by simp)]
    cases hg : g x <;> simp [collect, hg]
  simp only [hs]
  exact h obs ho

theorem collect_map_some' {α : Type} (f : α → ℝ) (l : List α) : collect (l.map fun x => some (f x)) = some (l.map f) := by
  rw [← collect_map_some (l.map f), List.map_map]
  rfl

theorem sum_add_const {α : Type} (f : α → ℝ) (c : ℝ) (l : List α) :
    (l.map fun x => f x + c).sum = (l.map f).sum + l.length * c := by
  induction l with
  | nil => simp
  | cons a l ih => simp only [List.map_cons, List.sum_cons, ih, List.length_cons]; push_cast; ring

theorem synthetic_eq {d : Nat} (cov : List (Vec d) → Matrix (Fin d) (Fin d) ℝ) (obs sim : List (Vec d)) (h1 : sim ≠ [])
    (h2 : (cov sim).det ≠ 0) : synthetic cov obs sim =
      some (obs.map fun x => -(1 / 2) * quad (cov sim)⁻¹ (fun i => x i - mean sim i) + 1 / 2 * Real.log (cov sim)⁻¹.det).sum := by
  rw [synthetic, if_neg h1, if_neg h2, sum_add_const]
  simp only [Option.some.injEq]
  ring

/-- C86, synthetic likelihood: the log-likelihood of several observations is the sum over the single ones. -/
theorem C86_synthetic {d : Nat} (cov : List (Vec d) → Matrix (Fin d) (Fin d) ℝ) (sim : List (Vec d)) :
    Additive fun obs => synthetic cov obs sim := by
  by_cases h1 : sim = []
  · refine additive_of (fun _ => none) fun obs ho => ?_
    obtain ⟨x, l, rfl⟩ := List.exists_cons_of_ne_nil ho
    rw [synthetic, if_pos h1]
    simp [collect]
  by_cases h2 : (cov sim).det = 0
  · refine additive_of (fun _ => none) fun obs ho => ?_
    obtain ⟨x, l, rfl⟩ := List.exists_cons_of_ne_nil ho
    rw [synthetic, if_neg h1, if_pos h2]
    simp [collect]
  refine additive_of (fun x => some (-(1 / 2) * quad (cov sim)⁻¹ (fun i => x i - mean sim i) + 1 / 2 * Real.log (cov sim)⁻¹.det))
    fun obs _ => ?_
  rw [collect_map_some', synthetic_eq cov obs sim h1 h2]
  rfl

theorem quad_eq {d : Nat} (P : Matrix (Fin d) (Fin d) ℝ) (v : Vec d) : quad P v = v ⬝ᵥ (P *ᵥ v) := by
  simp only [quad, dotProduct, mulVec, Finset.mul_sum]
  refine Finset.sum_congr rfl fun i _ => Finset.sum_congr rfl fun j _ => by ring

/-- C90: the synthetic likelihood of the observations is the product of their densities under the normal
distribution with the mean of the simulations and the estimated covariance, times a factor that depends only
on the numbers of observations and of statistics. -/
theorem C90 {d : Nat} (cov : List (Vec d) → Matrix (Fin d) (Fin d) ℝ) (obs sim : List (Vec d)) (h1 : sim ≠ [])
    (h2 : 0 < (cov sim).det) :
    ∃ v, synthetic cov obs sim = some v ∧
      Real.exp v = (obs.map (gaussian (mean sim) (cov sim))).prod * Real.sqrt ((2 * Real.pi) ^ d) ^ obs.length := by
  refine ⟨_, synthetic_eq cov obs sim h1 h2.ne', ?_⟩
  have hpi : 0 < (2 * Real.pi) ^ d := by positivity
  have single : ∀ x : Vec d, Real.exp (-(1 / 2) * quad (cov sim)⁻¹ (fun i => x i - mean sim i) + 1 / 2 * Real.log (cov sim)⁻¹.det) =
      gaussian (mean sim) (cov sim) x * Real.sqrt ((2 * Real.pi) ^ d) := by
    intro x
    have hv : (fun i => x i - mean sim i) = x - mean sim := rfl
    have hdet : (cov sim)⁻¹.det = ((cov sim).det)⁻¹ := by rw [det_nonsing_inv, Ring.inverse_eq_inv']
    have hlog : Real.exp (1 / 2 * Real.log (cov sim)⁻¹.det) = (Real.sqrt (cov sim).det)⁻¹ := by
      rw [hdet, ← Real.sqrt_inv, Real.sqrt_eq_rpow, Real.rpow_def_of_pos (inv_pos.2 h2), mul_comm]
    rw [Real.exp_add, hlog, hv, quad_eq, gaussian, Real.sqrt_mul hpi.le]
    have : Real.sqrt ((2 * Real.pi) ^ d) ≠ 0 := (Real.sqrt_pos.2 hpi).ne'
    have h3 : Real.sqrt (cov sim).det ≠ 0 := (Real.sqrt_pos.2 h2).ne'
    field_simp
  induction obs with
  | nil => simp
  | cons x obs ih =>
    rw [List.map_cons, List.sum_cons, Real.exp_add, ih, single, List.map_cons, List.prod_cons, List.length_cons, pow_succ]
    ring

/-- The hypotheses of `C90` hold with a covariance of determinant one. -/
example : ∃ v, synthetic (fun _ => (1 : Matrix (Fin 2) (Fin 2) ℝ)) [![1, 2], ![3, 4]] [![0, 0]] = some v :=
  (C90 (fun _ => (1 : Matrix (Fin 2) (Fin 2) ℝ)) [![1, 2], ![3, 4]] [![0, 0]] (by simp) (by simp)).imp fun _ h => h.1

/-! ## Ranks -/

/-- How many entries are smaller. -/
noncomputable def below (x : List ℝ) (v : ℝ) : Nat := open Classical in (x.filter fun u => decide (u < v)).length

theorem rank_eq (x : List ℝ) (hx : x.Nodup) (v : ℝ) (hv : v ∈ x) : rank x v = below x v + 1 := by
  classical
  have : (x.filter fun u => decide (u = v)).length = 1 := by
    have hf : (x.filter fun u => decide (u = v)) = x.filter (fun u => u == v) := by
      refine List.filter_congr fun u _ => ?_
      by_cases h : u = v
      · simp [h]
      · simp [h]
    rw [hf, ← List.count_eq_length_filter]
    exact List.count_eq_one_of_mem hx hv
  have h1 : rank x v = (below x v : ℝ) + (((x.filter fun u => decide (u = v)).length : ℝ) + 1) / 2 := by
    unfold rank below
    congr!
  rw [h1, this]
  norm_num

theorem below_lt (x : List ℝ) (v w : ℝ) (hv : v ∈ x) (h : v < w) : below x v < below x w := by
  classical
  unfold below
  have hsub : (x.filter fun u => decide (u < v)).Sublist (x.filter fun u => decide (u < w)) := by
    have : (x.filter fun u => decide (u < v)) = (x.filter fun u => decide (u < w)).filter fun u => decide (u < v) := by
      rw [List.filter_filter]
      refine List.filter_congr fun u _ => ?_
      by_cases h1 : u < v
      · simp [h1, h1.trans h]
      · simp [h1]
    rw [this]
    exact List.filter_sublist
  rcases Nat.lt_or_ge (x.filter fun u => decide (u < v)).length (x.filter fun u => decide (u < w)).length with h1 | h1
  · exact h1
  · exfalso
    have heq := hsub.eq_of_length_le h1
    have : v ∈ x.filter fun u => decide (u < w) := by simp [hv, h]
    rw [← heq] at this
    simp at this

theorem ranks_perm (x : List ℝ) (hx : x.Nodup) : (x.map (below x)).Perm (List.range x.length) := by
  classical
  have hinj : ∀ v ∈ x, ∀ w ∈ x, below x v = below x w → v = w := by
    intro v hv w hw h
    rcases lt_trichotomy v w with hlt | heq | hgt
    · have := below_lt x v w hv hlt; omega
    · exact heq
    · have := below_lt x w v hw hgt; omega
  have hnd : (x.map (below x)).Nodup := hx.map_on hinj
  have hsub : x.map (below x) ⊆ List.range x.length := by
    intro k hk
    obtain ⟨v, hv, rfl⟩ := List.mem_map.1 hk
    rw [List.mem_range]
    unfold below
    rcases Nat.lt_or_ge (x.filter fun u => decide (u < v)).length x.length with h | h
    · exact h
    · have := (List.filter_sublist (p := fun u => decide (u < v)) (l := x)).eq_of_length_le h
      have hm := this ▸ hv
      simp at hm
  exact (hnd.subperm hsub).perm_of_length_le (by simp)

/-- Ranks depend only on the order. -/
theorem rank_mono (g : ℝ → ℝ) (hg : StrictMono g) (x : List ℝ) (v : ℝ) : rank (x.map g) (g v) = rank x v := by
  classical
  unfold rank
  have h1 : ((x.map g).filter fun u => decide (u < g v)).length = (x.filter fun u => decide (u < v)).length := by
    rw [List.filter_map, List.length_map]
    congr 1
    refine List.filter_congr fun u _ => ?_
    simp [hg.lt_iff_lt]
  have h2 : ((x.map g).filter fun u => decide (u = g v)).length = (x.filter fun u => decide (u = v)).length := by
    rw [List.filter_map, List.length_map]
    congr 1
    refine List.filter_congr fun u _ => ?_
    simp [hg.injective.eq_iff]
  have e1 : ∀ (l : List ℝ) (a : ℝ) , (l.filter fun u => @decide (u < a) (Classical.propDecidable _)) = l.filter fun u => decide (u < a) := by
    intro l a; congr!
  have e2 : ∀ (l : List ℝ) (a : ℝ) , (l.filter fun u => @decide (u = a) (Classical.propDecidable _)) = l.filter fun u => decide (u = a) := by
    intro l a; congr!
  rw [e1, e1, e2, e2, h1, h2]

theorem rank_perm (x y : List ℝ) (h : x.Perm y) (v : ℝ) : rank x v = rank y v := by
  unfold rank
  rw [(h.filter _).length_eq, (h.filter fun u => @decide (u = v) (Classical.propDecidable _)).length_eq]

/-! ## C91 -/

theorem correlation_eq {d : Nat} (ppf : ℝ → ℝ) (dict : Denominators) (hd : Sound ppf dict) (x : List (Vec d)) :
    (correlation ppf dict x).1 = (if denominator ppf x.length = 0 then none else
      some fun i j => (x.map fun r => normalScore ppf x r i * normalScore ppf x r j).sum / denominator ppf x.length) ∧
    Sound ppf (correlation ppf dict x).2 := by
  rw [correlation.eq_def]
  simp only
  cases hl : dict.lookup x.length with
  | none =>
    have hl2 : List.lookup x.length ((x.length, denominator ppf x.length) :: dict) = some (denominator ppf x.length) := by
      simp [List.lookup]
    have hs : Sound ppf ((x.length, denominator ppf x.length) :: dict) := by
      intro n v h
      by_cases hn : n = x.length
      · subst hn
        rw [hl2] at h
        exact (Option.some.inj h).symm
      · have hb : (n == x.length) = false := by simpa using hn
        rw [List.lookup, hb] at h
        exact hd n v h
    simp only [hl2]
    split <;> exact ⟨rfl, hs⟩
  | some den =>
    obtain rfl := hd _ _ hl
    simp only [hl]
    split <;> exact ⟨rfl, hd⟩

theorem denominator_pos (ppf : ℝ → ℝ) (hp : StrictMonoOn ppf (Set.Ioo 0 1)) (n : Nat) (hn : 2 ≤ n) : 0 < denominator ppf n := by
  obtain ⟨m, rfl⟩ : ∃ m, n = m + 2 := ⟨n - 2, by omega⟩
  have hlt : ppf ((0 + 1 : ℝ) / ((m + 2 : Nat) + 1)) < ppf ((1 + 1 : ℝ) / ((m + 2 : Nat) + 1)) := by
    have h0 : (0 : ℝ) < ((m + 2 : Nat) : ℝ) + 1 := by positivity
    have hm : (0 : ℝ) ≤ (m : ℝ) := by positivity
    refine hp ⟨by positivity, ?_⟩ ⟨by positivity, ?_⟩ ?_
    · rw [div_lt_one h0]; push_cast; linarith
    · rw [div_lt_one h0]; push_cast; linarith
    · exact div_lt_div_of_pos_right (by norm_num) h0
  rw [denominator, List.range_succ_eq_map, List.range_succ_eq_map]
  simp only [List.map_cons, List.map_map, List.sum_cons]
  have hr : 0 ≤ ((List.range m).map (((fun i : Nat => ppf ((i + 1 : ℝ) / ((m + 2 : Nat) + 1)) ^ 2) ∘ Nat.succ) ∘ Nat.succ)).sum := by
    refine List.sum_nonneg fun v hv => ?_
    obtain ⟨i, -, rfl⟩ := List.mem_map.1 hv
    exact sq_nonneg _
  have e0 : ((0 : Nat) : ℝ) + 1 = 0 + 1 := by norm_num
  have e1 : ((Nat.succ 0 : Nat) : ℝ) + 1 = 1 + 1 := by norm_num
  simp only [Function.comp_apply, e0, e1]
  have hne : ppf ((0 + 1 : ℝ) / ((m + 2 : Nat) + 1)) ≠ 0 ∨ ppf ((1 + 1 : ℝ) / ((m + 2 : Nat) + 1)) ≠ 0 := by
    by_contra hc
    push Not at hc
    rw [hc.1, hc.2] at hlt
    exact lt_irrefl _ hlt
  have hr' : 0 ≤ ((List.range m).map ((fun i : Nat => ppf ((i + 1 : ℝ) / ((m + 2 : Nat) + 1)) ^ 2) ∘ Nat.succ ∘ Nat.succ)).sum := hr
  rcases hne with h | h
  · have := pow_pos (abs_pos.2 h) 2
    rw [sq_abs] at this
    have h2 := sq_nonneg (ppf ((1 + 1 : ℝ) / ((m + 2 : Nat) + 1)))
    linarith
  · have := pow_pos (abs_pos.2 h) 2
    rw [sq_abs] at this
    have h2 := sq_nonneg (ppf ((0 + 1 : ℝ) / ((m + 2 : Nat) + 1)))
    linarith

theorem scores_sq {d : Nat} (ppf : ℝ → ℝ) (x : List (Vec d)) (j : Fin d) (hx : (x.map fun r => r j).Nodup) :
    (x.map fun r => normalScore ppf x r j * normalScore ppf x r j).sum = denominator ppf x.length := by
  have h1 : (x.map fun r => normalScore ppf x r j * normalScore ppf x r j) =
      ((x.map fun r => r j).map (below (x.map fun r => r j))).map fun k : Nat => ppf ((k + 1 : ℝ) / ((x.length : ℝ) + 1)) ^ 2 := by
    rw [List.map_map, List.map_map]
    refine List.map_congr_left fun r hr => ?_
    simp only [normalScore, Function.comp_apply]
    rw [rank_eq _ hx _ (List.mem_map_of_mem hr), sq]
  rw [h1, ((ranks_perm _ hx).map _).sum_eq, List.length_map, denominator]

/-- C91, what holds with ties too: with two or more simulations the matrix exists whatever was computed before, is symmetric and positive semidefinite, and does not depend on the order of the simulations nor
on the scale of the statistics. -/
theorem C91_ties {d : Nat} (ppf : ℝ → ℝ) (hp : StrictMonoOn ppf (Set.Ioo 0 1)) (dict : Denominators) (hd : Sound ppf dict)
    (x : List (Vec d)) (hn : 2 ≤ x.length) :
    ∃ R, (correlation ppf dict x).1 = some R ∧ Sound ppf (correlation ppf dict x).2 ∧ R.PosSemidef ∧
      (∀ i j, R i j = R j i) ∧
      (∀ y, x.Perm y → (correlation ppf dict y).1 = some R) ∧
      (∀ g : Fin d → ℝ → ℝ, (∀ j, StrictMono (g j)) → (correlation ppf dict (x.map fun r j => g j (r j))).1 = some R) := by
  have hpos := denominator_pos ppf hp x.length hn
  obtain ⟨h1, h2⟩ := correlation_eq ppf dict hd x
  rw [if_neg hpos.ne'] at h1
  refine ⟨_, h1, h2, ?_, fun i j => ?_, fun y hy => ?_, fun g hg => ?_⟩
  · -- a sum of squares
    have : (fun i j => (x.map fun r => normalScore ppf x r i * normalScore ppf x r j).sum / denominator ppf x.length) =
        (denominator ppf x.length)⁻¹ • (x.map fun r => vecMulVec (normalScore ppf x r) (star (normalScore ppf x r))).sum := by
      funext i j
      have hs : ∀ (l : List (Vec d)) (s : Vec d → Vec d), ((l.map fun r => vecMulVec (s r) (star (s r))).sum : Matrix _ _ ℝ) i j =
          (l.map fun r => s r i * s r j).sum := by
        intro l s
        induction l with
        | nil => simp
        | cons r l ih => simp only [List.map_cons, List.sum_cons, Matrix.add_apply, ih]; simp [vecMulVec_apply]
      rw [Matrix.smul_apply, hs]
      rw [smul_eq_mul, div_eq_inv_mul]
    rw [this]
    refine PosSemidef.smul ?_ (inv_pos.2 hpos).le
    have hs : ∀ (l : List (Vec d)) (s : Vec d → Vec d), ((l.map fun r => vecMulVec (s r) (star (s r))).sum : Matrix _ _ ℝ).PosSemidef := by
      intro l s
      induction l with
      | nil => exact PosSemidef.zero
      | cons r l ih =>
        rw [List.map_cons, List.sum_cons]
        exact (posSemidef_vecMulVec_self_star _).add ih
    exact hs x _
  · simp only [mul_comm]
  · obtain ⟨e1, -⟩ := correlation_eq ppf dict hd y
    rw [e1, ← hy.length_eq, if_neg hpos.ne']
    congr 1
    funext i j
    have hsc : ∀ r, normalScore ppf y r = normalScore ppf x r := by
      intro r
      funext k
      rw [normalScore, normalScore, rank_perm _ _ (hy.map fun q => q k), hy.length_eq]
    simp only [hsc]
    rw [(hy.map fun r => normalScore ppf x r i * normalScore ppf x r j).sum_eq]
  · obtain ⟨e1, -⟩ := correlation_eq ppf dict hd (x.map fun r j => g j (r j))
    rw [e1, List.length_map, if_neg hpos.ne']
    congr 1
    funext i j
    have hsc : ∀ r : Vec d, normalScore ppf (x.map fun r j => g j (r j)) (fun j => g j (r j)) = normalScore ppf x r := by
      intro r
      funext k
      rw [normalScore, normalScore, List.map_map, List.length_map]
      have : (x.map ((fun q : Vec d => q k) ∘ fun r j => g j (r j))) = (x.map fun q => q k).map (g k) := by
        rw [List.map_map]; rfl
      rw [this, rank_mono (g k) (hg k)]
    rw [List.map_map]
    simp only [Function.comp_def, hsc]

/-- C91, what holds: with two or more simulations and no ties, the matrix of rank correlations exists whatever was
computed before, is symmetric and positive semidefinite, has ones on the diagonal and entries between -1 and 1.
It does not depend on the order of the simulations, nor on the scale of the statistics: it stays the same when
each statistic is transformed by a strictly increasing function. -/
theorem C91_partial {d : Nat} (ppf : ℝ → ℝ) (hp : StrictMonoOn ppf (Set.Ioo 0 1)) (dict : Denominators) (hd : Sound ppf dict)
    (x : List (Vec d)) (hn : 2 ≤ x.length) (hx : NoTies x) :
    ∃ R, (correlation ppf dict x).1 = some R ∧ Sound ppf (correlation ppf dict x).2 ∧ R.PosSemidef ∧
      (∀ i, R i i = 1) ∧ (∀ i j, R i j = R j i ∧ -1 ≤ R i j ∧ R i j ≤ 1) ∧
      (∀ y, x.Perm y → (correlation ppf dict y).1 = some R) ∧
      (∀ g : Fin d → ℝ → ℝ, (∀ j, StrictMono (g j)) → (correlation ppf dict (x.map fun r j => g j (r j))).1 = some R) := by
  have hpos := denominator_pos ppf hp x.length hn
  obtain ⟨h1, h2⟩ := correlation_eq ppf dict hd x
  rw [if_neg hpos.ne'] at h1
  obtain ⟨R, t1, t2, t3, t4, t5, t6⟩ := C91_ties ppf hp dict hd x hn
  obtain rfl := Option.some.inj (h1.symm.trans t1)
  refine ⟨_, h1, h2, t3, fun i => ?_, fun i j => ?_, t5, t6⟩
  · show (x.map fun r => normalScore ppf x r i * normalScore ppf x r i).sum / denominator ppf x.length = 1
    rw [scores_sq ppf x i (hx i), div_self hpos.ne']
  · have hi := scores_sq ppf x i (hx i)
    have hj := scores_sq ppf x j (hx j)
    have hplus : ∀ (l : List (Vec d)) (a b : Vec d → ℝ), 0 ≤ (l.map fun r => a r * a r).sum + (l.map fun r => b r * b r).sum + 2 * (l.map fun r => a r * b r).sum ∧
        0 ≤ (l.map fun r => a r * a r).sum + (l.map fun r => b r * b r).sum - 2 * (l.map fun r => a r * b r).sum := by
      intro l a b
      induction l with
      | nil => simp
      | cons r l ih =>
        simp only [List.map_cons, List.sum_cons]
        have s1 := mul_self_nonneg (a r + b r)
        have s2 := mul_self_nonneg (a r - b r)
        constructor <;> nlinarith [ih.1, ih.2]
    obtain ⟨p1, p2⟩ := hplus x (fun r => normalScore ppf x r i) (fun r => normalScore ppf x r j)
    simp only [hi, hj] at p1 p2
    refine ⟨?_, ?_, ?_⟩
    · simp only [mul_comm]
    · rw [le_div_iff₀ hpos]; linarith
    · rw [div_le_one hpos]; linarith

/-- C91 fails with ties: a statistic that has the same value in two simulations gets a zero on the diagonal. -/
theorem C91_violated (ppf : ℝ → ℝ) (hp : StrictMonoOn ppf (Set.Ioo 0 1)) (h0 : ppf (1 / 2) = 0) :
    ∃ R, (correlation ppf [] [![0, 0], ![0, 1]]).1 = some R ∧ R 0 0 = 0 := by
  classical
  obtain ⟨h1, -⟩ := correlation_eq (d := 2) ppf [] (by intro n v h; simp at h) [![0, 0], ![0, 1]]
  rw [if_neg (denominator_pos ppf hp _ (by simp)).ne'] at h1
  refine ⟨_, h1, ?_⟩
  have hr : rank ([![0, 0], ![0, 1]].map fun q : Vec 2 => q 0) 0 = 3 / 2 := by
    simp [rank]
    norm_num
  have : ∀ r : Vec 2, r 0 = 0 → normalScore ppf [![0, 0], ![0, 1]] r 0 = 0 := by
    intro r h
    rw [normalScore, h, hr, ← h0]
    norm_num
  simp only [List.map_cons, List.map_nil, List.sum_cons, List.sum_nil]
  rw [this ![0, 0] rfl, this ![0, 1] rfl]
  simp

/-- A single simulation is never enough. -/
theorem C91_single {d : Nat} (ppf : ℝ → ℝ) (h0 : ppf (1 / 2) = 0) (dict : Denominators) (hd : Sound ppf dict) (r : Vec d) :
    (correlation ppf dict [r]).1 = none := by
  have h : denominator ppf [r].length = 0 := by
    norm_num [denominator] at h0 ⊢
    exact h0
  rw [(correlation_eq ppf dict hd [r]).1]
  exact if_pos h

/-- Two statistics in three simulations without ties. -/
example : NoTies ([![0, 5], ![1, 3], ![2, 4]] : List (Vec 2)) ∧ StrictMonoOn (fun p : ℝ => p - 1 / 2) (Set.Ioo 0 1) := by
  constructor
  · intro j
    fin_cases j <;> norm_num
  · intro a _ b _ h
    simpa using h

/-! ## C86 for the semiparametric likelihood -/

/-- C86, semiparametric likelihood: the value does not depend on which denominators were cached before, and for several observations it
is the sum over the single ones. -/
theorem C86_semiparametric {d : Nat} (ppf : ℝ → ℝ) (kde : Marginal) (dict : Denominators) (hd : Sound ppf dict) (sim : List (Vec d)) :
    (Additive fun obs => (semiparametric ppf kde dict obs sim).1) ∧
    ∀ obs, (semiparametric ppf kde dict obs sim).1 = (semiparametric ppf kde [] obs sim).1 ∧
      Sound ppf (semiparametric ppf kde dict obs sim).2 := by
  classical
  have hempty : Sound ppf [] := by intro n v h; simp at h
  obtain ⟨c1, c2⟩ := correlation_eq ppf dict hd sim
  obtain ⟨c3, -⟩ := correlation_eq ppf [] hempty sim
  constructor
  · by_cases hlt : d < 2
    · refine additive_of (fun _ => none) fun obs ho => ?_
      obtain ⟨x, l, rfl⟩ := List.exists_cons_of_ne_nil ho
      rw [semiparametric, if_pos hlt]
      simp [collect]
    · cases hc : correlation ppf dict sim with
      | mk R dict' =>
        by_cases hR : R = none ∨ ∃ R', R = some R' ∧ R'.det = 0
        · refine additive_of (fun _ => none) fun obs ho => ?_
          obtain ⟨x, l, rfl⟩ := List.exists_cons_of_ne_nil ho
          rw [semiparametric, if_neg hlt]
          simp only
          split
          · simp [collect]
          · rw [hc]
            rcases hR with rfl | ⟨R', rfl, h0⟩
            · simp [collect]
            · simp only [h0, if_true]
              simp [collect]
        · push Not at hR
          obtain ⟨R', rfl⟩ := Option.ne_none_iff_exists'.1 hR.1
          have hdet := hR.2 R' rfl
          refine additive_of (fun x => if ∃ j, kde.cdf (sim.map fun r => r j) (x j) ≤ 0 ∨ 1 ≤ kde.cdf (sim.map fun r => r j) (x j) then none
            else some ((∑ j, kde.logpdf (sim.map fun r => r j) (x j)) +
              (-(1 / 2) * quad (R'⁻¹ - 1) (fun j => ppf (kde.cdf (sim.map fun r => r j) (x j))) + 1 / 2 * Real.log R'⁻¹.det))) fun obs ho => ?_
          rw [semiparametric, if_neg hlt]
          simp only
          by_cases hbad : ∃ x ∈ obs, ∃ j, kde.cdf (sim.map fun r => r j) (x j) ≤ 0 ∨ 1 ≤ kde.cdf (sim.map fun r => r j) (x j)
          · rw [if_pos hbad]
            obtain ⟨x, hx, hj⟩ := hbad
            symm
            have : ∀ l : List (Option ℝ), none ∈ l → (collect l).map List.sum = none := by
              intro l hl
              rw [(collect_eq_none l).2 hl]; rfl
            apply this
            rw [List.mem_map]
            exact ⟨x, hx, if_pos hj⟩
          · rw [if_neg hbad, hc]
            simp only [if_neg hdet]
            push Not at hbad
            have hm : (obs.map fun x => if ∃ j, kde.cdf (sim.map fun r => r j) (x j) ≤ 0 ∨ 1 ≤ kde.cdf (sim.map fun r => r j) (x j) then none
              else some ((∑ j, kde.logpdf (sim.map fun r => r j) (x j)) +
                (-(1 / 2) * quad (R'⁻¹ - 1) (fun j => ppf (kde.cdf (sim.map fun r => r j) (x j))) + 1 / 2 * Real.log R'⁻¹.det))) =
              obs.map fun x => some ((∑ j, kde.logpdf (sim.map fun r => r j) (x j)) +
                (-(1 / 2) * quad (R'⁻¹ - 1) (fun j => ppf (kde.cdf (sim.map fun r => r j) (x j))) + 1 / 2 * Real.log R'⁻¹.det)) := by
              refine List.map_congr_left fun x hx => if_neg ?_
              push Not
              exact fun j => hbad x hx j
            rw [hm, collect_map_some']
            simp only [Option.map_some, Option.some.injEq]
            clear ho hbad hm
            induction obs with
            | nil => simp
            | cons x obs ih =>
              simp only [List.map_cons, List.sum_cons, List.length_cons] at ih ⊢
              rw [← ih]
              push_cast
              ring
  · intro obs
    have e : (correlation ppf dict sim).1 = (correlation ppf [] sim).1 := by rw [c1, c3]
    rw [semiparametric, semiparametric]
    by_cases hlt : d < 2
    · rw [if_pos hlt, if_pos hlt]; exact ⟨rfl, hd⟩
    · rw [if_neg hlt, if_neg hlt]
      simp only
      split
      · exact ⟨rfl, hd⟩
      · cases hc : correlation ppf dict sim with
        | mk R dict' =>
          cases hc' : correlation ppf [] sim with
          | mk R2 dict'' =>
            rw [hc, hc'] at e
            rw [hc] at c2
            simp only at e c2
            subst e
            cases R with
            | none => exact ⟨rfl, c2⟩
            | some R =>
              simp only
              split <;> exact ⟨rfl, c2⟩

end Verif.Likelihood
