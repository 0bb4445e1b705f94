import Verif.Mcmc.Balance
import Verif.Kernel.Density
import Verif.Network.Props
import Mathlib.MeasureTheory.Measure.WithDensity
import Mathlib.MeasureTheory.Measure.Count
import Mathlib.MeasureTheory.Constructions.Pi
import Mathlib.MeasureTheory.Measure.Prod
import Mathlib.Tactic.NormNum
/-
C166: which of the kernels of the library make a step of `MCMCMetropoliHastings` leave the posterior invariant. The acceptance rule (`abcpy/inferences.py` 4369-4394) has no ratio of kernel densities; line 4391 says
"assumes symmetric kernel". Kernels are described by the laws of what their `update` draws: for the normal and Student kernels those of `Verif.Kernel.Density`, for fixed covariance matrices.
-/
namespace Verif.Mcmc

open MeasureTheory Set Matrix
open scoped ENNReal

variable {X Y : Type} [MeasurableSpace X] [MeasurableSpace Y]

/-! ### Model -/

/-- `rng.randint(lo, hi)`: each of the integers `lo, …, hi - 1` with the same probability. -/
noncomputable def randintLaw (lo hi : ℤ) : Measure ℤ := ((hi - lo).toNat : ℝ≥0∞)⁻¹ • ∑ k ∈ Finset.Ico lo hi, Measure.dirac k

/-- `RandomWalkKernel.update`, perturbationkernel.py 541-594: independent draws for all entries of the (concatenated) values. -/
noncomputable def walkLaw {n : ℕ} (jump : ℕ) (x : Fin n → ℤ) : Measure (Fin n → ℤ) := Measure.pi fun i => randintLaw (x i - jump) (x i + jump + 1)

/-- `NetworkRandomWalkKernel.update`, perturbationkernel.py 689-710, for one parameter, given as an array with one entry: the law of the outcomes. (Where `update` raises: no outcome.) -/
noncomputable def networkLaw (net : Network.Net) (v : ℤ) : Measure ℤ :=
  ((Network.moves net v v).getD []).foldr (fun p m => ENNReal.ofReal p.2 • Measure.dirac p.1 + m) 0

/-- `JointPerturbationKernel.update`, perturbationkernel.py 165-204, for two kernels: they draw independently. -/
noncomputable def jointLaw (K : X → Measure X) (K' : Y → Measure Y) (p : X × Y) : Measure (X × Y) := (K p.1).prod (K' p.2)

/-- One step of the sampler, inferences.py 4355-4400, from `x` into `B`: `y` is drawn by the kernel `K`, the sampler moves with probability `moveProb` and stays otherwise. -/
noncomputable def stepLaw (K : X → Measure X) (pdf L J : X → ℝ) (x : X) (B : Set X) : ℝ≥0∞ :=
  (∫⁻ y in B, moveProb pdf L J x y ∂(K x)) + B.indicator (fun x => 1 - ∫⁻ y, moveProb pdf L J x y ∂(K x)) x

/-! ### Specification -/

/-- A step of the sampler with kernel `K` leaves the density `prior * likelihood / Jacobian` with respect to `μ` invariant. -/
def LeavesInvariant (μ : Measure X) (K : X → Measure X) (pdf L J : X → ℝ) : Prop :=
  ∀ B, MeasurableSet B → ∫⁻ x, target pdf L J x * stepLaw K pdf L J x B ∂μ = ∫⁻ x in B, target pdf L J x ∂μ

/-- Whatever the prior, the likelihood and the Jacobian. -/
def Reliable (μ : Measure X) (K : X → Measure X) : Prop :=
  ∀ pdf L J : X → ℝ, (∀ x, 0 ≤ pdf x) → Measurable pdf → Measurable L → Measurable J → LeavesInvariant μ K pdf L J

/-! ### Kernels with a symmetric density -/

/-- `K` has a symmetric density with respect to `μ`. -/
structure Symmetric (μ : Measure X) (K : X → Measure X) (q : X → X → ℝ≥0∞) : Prop where
  meas : Measurable (Function.uncurry q)
  symm : ∀ x y, q x y = q y x
  dens : ∀ x, K x = μ.withDensity (q x)
  one : ∀ x, K x univ = 1

theorem step_eq {μ : Measure X} {K : X → Measure X} {q : X → X → ℝ≥0∞} (h : Symmetric μ K q) {pdf L J : X → ℝ} (m1 : Measurable pdf) (m2 : Measurable L) (m3 : Measurable J)
    (x : X) {B : Set X} (hB : MeasurableSet B) : stepLaw K pdf L J x B = transition μ q pdf L J x B := by
  have mm : Measurable (moveProb pdf L J x) := (measurable_moveProb m1 m2 m3).comp measurable_prodMk_left
  have mq : ∀ x, Measurable (q x) := fun x => h.meas.comp measurable_prodMk_left
  have e1 : ∫⁻ y in B, moveProb pdf L J x y ∂(K x) = ∫⁻ y in B, q x y * moveProb pdf L J x y ∂μ := by
    rw [h.dens x, restrict_withDensity hB, lintegral_withDensity_eq_lintegral_mul _ (mq x) mm]
    rfl
  have e2 : ∫⁻ y, moveProb pdf L J x y ∂(K x) = ∫⁻ y, q x y * moveProb pdf L J x y ∂μ := by
    rw [h.dens x, lintegral_withDensity_eq_lintegral_mul _ (mq x) mm]
    rfl
  unfold stepLaw transition
  rw [e1]
  congr 1
  by_cases hx : x ∈ B
  · simp only [indicator_of_mem hx, e2]
  · simp only [indicator_of_notMem hx]

theorem Symmetric.reliable {μ : Measure X} [SFinite μ] {K : X → Measure X} {q : X → X → ℝ≥0∞} (h : Symmetric μ K q) : Reliable μ K := by
  intro pdf L J h0 m1 m2 m3 B hB
  simp only [fun x => step_eq h m1 m2 m3 x hB]
  refine C53_invariant μ q h.meas h.symm (fun x => ?_) pdf L J h0 m1 m2 m3 B hB
  rw [← h.one x, h.dens x, withDensity_apply _ MeasurableSet.univ, Measure.restrict_univ]

theorem Symmetric.prod {μ : Measure X} {ν : Measure Y} [SFinite μ] [SFinite ν] {K : X → Measure X} {K' : Y → Measure Y} {q : X → X → ℝ≥0∞} {q' : Y → Y → ℝ≥0∞}
    (h : Symmetric μ K q) (h' : Symmetric ν K' q') : Symmetric (μ.prod ν) (jointLaw K K') (fun a b => q a.1 b.1 * q' a.2 b.2) where
  meas := by
    refine Measurable.mul ?_ ?_
    · exact h.meas.comp ((measurable_fst.comp measurable_fst).prodMk (measurable_fst.comp measurable_snd))
    · exact h'.meas.comp ((measurable_snd.comp measurable_fst).prodMk (measurable_snd.comp measurable_snd))
  symm x y := by rw [h.symm, h'.symm]
  dens p := by
    rw [jointLaw, h.dens, h'.dens]
    exact prod_withDensity (h.meas.comp measurable_prodMk_left) (h'.meas.comp measurable_prodMk_left)
  one p := by
    have i1 : IsProbabilityMeasure (K p.1) := ⟨h.one _⟩
    have i2 : IsProbabilityMeasure (K' p.2) := ⟨h'.one _⟩
    exact measure_univ (μ := (K p.1).prod (K' p.2))

/-! ### Normal and Student kernels -/

variable {dim : ℕ}

theorem symmetric_of_density {K : (Fin dim → ℝ) → Measure (Fin dim → ℝ)} {f : (Fin dim → ℝ) → (Fin dim → ℝ) → ℝ} (hd : ∀ x, Densities.IsDensityOn (K x) (f x))
    (hm : Measurable (Function.uncurry f)) (hs : ∀ x y, f x y = f y x) : Symmetric volume K (fun x y => ENNReal.ofReal (f x y)) where
  meas := ENNReal.measurable_ofReal.comp hm
  symm x y := by rw [hs]
  dens x := by
    ext A hA
    rw [(hd x).2.2.2 A hA, withDensity_apply _ hA]
  one x := (hd x).1

theorem measurable_normalPdf {c : Matrix (Fin dim) (Fin dim) ℝ} (cond : ℝ) (e : Kernel.Eigh c) : Measurable (Function.uncurry (Kernel.normalPdf cond e)) := by
  unfold Function.uncurry Kernel.normalPdf
  simp only [vecMul, dotProduct, Pi.sub_apply]
  fun_prop

theorem measurable_studentPdf (c : Matrix (Fin dim) (Fin dim) ℝ) (v : ℝ) : Measurable (Function.uncurry (Kernel.studentPdf c v)) := by
  unfold Function.uncurry Kernel.studentPdf
  simp only [vecMul, dotProduct, Pi.sub_apply]
  fun_prop

theorem normal_symmetric {c : Matrix (Fin dim) (Fin dim) ℝ} (hc : c.PosDef) (hs : c.IsSymm) (e : Kernel.Eigh c) (d : Densities.Svd c) :
    Symmetric volume (Kernel.normalLaw d) (fun x y => ENNReal.ofReal (Kernel.normalPdf 0 e x y)) := by
  have hL : (Densities.lowerSym c).PosDef := by rw [Densities.lowerSym_of_symm hs]; exact hc
  exact symmetric_of_density (fun x => Kernel.C136_normal_partial hc hs 0 e d (fun i j => by rw [zero_mul]; exact Kernel.eigh_pos hL e i) x)
    (measurable_normalPdf 0 e) fun x y => (Kernel.C136_symmetric 0 e 1 x y).1

/-! ### Random walk -/

theorem randint_singleton (lo hi k : ℤ) : randintLaw lo hi {k} = if lo ≤ k ∧ k < hi then ((hi - lo).toNat : ℝ≥0∞)⁻¹ else 0 := by
  rw [randintLaw, Measure.smul_apply, Measure.finsetSum_apply]
  simp only [Measure.dirac_apply' _ (MeasurableSet.singleton k), indicator, mem_singleton_iff, Pi.one_apply, smul_eq_mul]
  rw [Finset.sum_ite_eq' (Finset.Ico lo hi) k]
  simp only [Finset.mem_Ico]
  split_ifs <;> simp

theorem randint_prob {lo hi : ℤ} (h : lo < hi) : IsProbabilityMeasure (randintLaw lo hi) := by
  constructor
  rw [randintLaw, Measure.smul_apply, Measure.finsetSum_apply]
  simp only [measure_univ, Finset.sum_const, Int.card_Ico, smul_eq_mul, nsmul_eq_mul, mul_one]
  refine ENNReal.inv_mul_cancel ?_ (ENNReal.natCast_ne_top _)
  have : 0 < (hi - lo).toNat := by omega
  exact_mod_cast this.ne'

/-- The probability that the random walk goes from `x` to `y`. -/
noncomputable def walkMass {n : ℕ} (jump : ℕ) (x y : Fin n → ℤ) : ℝ≥0∞ := ∏ i, if |x i - y i| ≤ jump then ((2 * jump + 1 : ℕ) : ℝ≥0∞)⁻¹ else 0

theorem walk_symmetric {n : ℕ} (jump : ℕ) : Symmetric (Measure.count : Measure (Fin n → ℤ)) (walkLaw jump) (walkMass jump) where
  meas := measurable_of_countable _
  symm x y := by unfold walkMass; simp only [abs_sub_comm]
  dens x := by
    have hp : ∀ i, IsProbabilityMeasure (randintLaw (x i - jump) (x i + jump + 1)) := fun i => randint_prob (by omega)
    rw [Measure.ext_iff_singleton]
    intro y
    rw [walkLaw, Measure.pi_singleton, withDensity_apply _ (MeasurableSet.singleton y), lintegral_singleton, Measure.count_singleton, mul_one, walkMass]
    refine Finset.prod_congr rfl fun i _ => ?_
    rw [randint_singleton]
    have e : (x i + jump + 1 - (x i - jump)).toNat = 2 * jump + 1 := by omega
    rw [e]
    refine if_congr ?_ rfl rfl
    rw [abs_le]
    constructor <;> rintro ⟨a, b⟩ <;> constructor <;> omega
  one x := by
    have hp : ∀ i, IsProbabilityMeasure (randintLaw (x i - jump) (x i + jump + 1)) := fun i => randint_prob (by omega)
    exact measure_univ (μ := Measure.pi fun i => randintLaw (x i - jump) (x i + jump + 1))

/-! ### Properties -/

/-- **C166, continuous parameters.** With the normal kernel (symmetric positive definite covariance matrix) and with the Student kernel a step of the sampler leaves the posterior invariant, whatever prior, likelihood and
Jacobian. -/
theorem C166_continuous_partial {c : Matrix (Fin dim) (Fin dim) ℝ} (hc : c.PosDef) (hs : c.IsSymm) (e : Kernel.Eigh c) (d : Densities.Svd c) (df : ℝ) (hdf : 0 < df) :
    Reliable volume (Kernel.normalLaw d) ∧ Reliable volume (Kernel.studentLaw d df) :=
  ⟨(normal_symmetric hc hs e d).reliable,
    (symmetric_of_density (fun x => Kernel.C136_student hc hs df hdf d x) (measurable_studentPdf c df) fun x y => (Kernel.C136_symmetric 0 e df x y).2).reliable⟩

/-- **C166, discrete parameters.** With the random walk kernel, for any number of parameters and any jump. -/
theorem C166_walk_partial (n jump : ℕ) : Reliable (Measure.count : Measure (Fin n → ℤ)) (walkLaw jump) := (walk_symmetric jump).reliable

/-- **C166, the default kernel**: the normal kernel for the continuous and the random walk for the discrete parameters. Missing: see `C166_violated`. -/
theorem C166_default_partial {c : Matrix (Fin dim) (Fin dim) ℝ} (hc : c.PosDef) (hs : c.IsSymm) (e : Kernel.Eigh c) (d : Densities.Svd c) (n jump : ℕ) :
    Reliable ((volume : Measure (Fin dim → ℝ)).prod (Measure.count : Measure (Fin n → ℤ))) (jointLaw (Kernel.normalLaw d) (walkLaw jump)) :=
  ((normal_symmetric hc hs e d).prod (walk_symmetric jump)).reliable

/-! ### Network kernel -/

theorem list_law_singleton (l : List (ℤ × ℝ)) (k : ℤ) : (l.foldr (fun p m => ENNReal.ofReal p.2 • Measure.dirac p.1 + m) (0 : Measure ℤ)) {k} =
    (l.map fun p => if p.1 = k then ENNReal.ofReal p.2 else 0).sum := by
  induction l with
  | nil => simp
  | cons a l ih =>
    rw [List.foldr_cons, Measure.add_apply, ih, List.map_cons, List.sum_cons, Measure.smul_apply, Measure.dirac_apply' _ (MeasurableSet.singleton k)]
    congr 1
    by_cases h : a.1 = k <;> simp [h]

theorem network_singleton {net : Network.Net} {weight : ℤ → ℤ → ℝ} {v : ℤ} (h : Network.Connected net weight v) (k : ℤ) :
    networkLaw net v {k} = ENNReal.ofReal (Network.transition net.nbrs weight v k) := by
  rw [networkLaw, Network.moves_eq h, Option.getD_some, list_law_singleton, List.map_map, Network.transition]
  have hn := h.nodup
  generalize ((net.nbrs v).map (weight v)).sum = c
  generalize net.nbrs v = l at hn
  induction l with
  | nil => simp
  | cons a l ih =>
    rw [List.nodup_cons] at hn
    rw [List.map_cons, List.sum_cons, ih hn.2]
    by_cases ha : a = k
    · subst ha
      simp [hn.1]
    · have : k ≠ a := fun e => ha e.symm
      simp [ha, this]

theorem network_univ {net : Network.Net} {weight : ℤ → ℤ → ℝ} {v : ℤ} (h : Network.Connected net weight v) : networkLaw net v univ = 1 := by
  have hs := Network.sum_pos h.nonempty h.pos
  have key : ∀ l : List (ℤ × ℝ), (∀ p ∈ l, 0 ≤ p.2) → (l.foldr (fun p m => ENNReal.ofReal p.2 • Measure.dirac p.1 + m) (0 : Measure ℤ)) univ = ENNReal.ofReal (l.map (·.2)).sum := by
    intro l
    induction l with
    | nil => simp
    | cons a l ih =>
      intro hl
      rw [List.foldr_cons, Measure.add_apply, ih fun p hp => hl p (by simp [hp]), List.map_cons, List.sum_cons, ENNReal.ofReal_add (hl a (by simp)), Measure.smul_apply]
      · simp
      · exact List.sum_nonneg fun x hx => by
          obtain ⟨p, hp, rfl⟩ := List.mem_map.1 hx
          exact hl p (by simp [hp])
  rw [networkLaw, Network.moves_eq h, Option.getD_some, key]
  · rw [List.map_map, show ((fun x : ℤ × ℝ => x.2) ∘ fun x => (x, weight v x / ((net.nbrs v).map (weight v)).sum)) = fun x => weight v x * (((net.nbrs v).map (weight v)).sum)⁻¹ from
      funext fun x => by simp [div_eq_mul_inv], List.sum_map_mul_right, mul_inv_cancel₀ hs.ne', ENNReal.ofReal_one]
  · intro p hp
    obtain ⟨x, hx, rfl⟩ := List.mem_map.1 hp
    exact (div_pos (h.pos x hx) hs).le

/-- `networkLaw` is the law of what the modelled `update` (C122) returns for one array with one entry. -/
theorem network_update {net : Network.Net} {weight : ℤ → ℤ → ℝ} {v : ℤ} (h : Network.Connected net weight v) :
    ∃ outs, Network.updateArrays net [[v]] = some outs ∧ ∀ x, networkLaw net v {x} = ENNReal.ofReal (Network.mass outs [[x]]) := by
  obtain ⟨outs, h1, _, _, h4⟩ := Network.C122_update net weight [[v]] (by simpa using h)
  refine ⟨outs, h1, fun x => ?_⟩
  rw [network_singleton h, h4 [[x]] (by simp)]
  simp

/-- **C166, network kernel.** If the weights are symmetric and the weights of the edges at each node have the same sum. Missing: networks where the sums differ, see `C166_violated`. -/
theorem C166_network_partial (net : Network.Net) (weight : ℤ → ℤ → ℝ) (h : ∀ v, Network.Connected net weight v) (hn : ∀ v x, x ∈ net.nbrs v ↔ v ∈ net.nbrs x)
    (hw : ∀ v x, weight v x = weight x v) (total : ℝ) (hs : ∀ v, ((net.nbrs v).map (weight v)).sum = total) : Reliable Measure.count (networkLaw net) := by
  refine Symmetric.reliable (q := fun v x => ENNReal.ofReal (Network.transition net.nbrs weight v x)) ⟨measurable_of_countable _, fun v x => ?_, fun v => ?_, fun v => network_univ (h v)⟩
  · simp only [Network.transition, hs, hw v x, hn v x]
  · rw [Measure.ext_iff_singleton]
    intro k
    rw [network_singleton (h v), withDensity_apply _ (MeasurableSet.singleton k), lintegral_singleton, Measure.count_singleton, mul_one]

/-- The hypotheses are met: the integers, each joined to its two neighbours. -/
def lineNet : Network.Net where
  nbrs v := [v - 1, v + 1]
  weight v x := if x = v - 1 ∨ x = v + 1 then some 1 else none

example : Reliable Measure.count (networkLaw lineNet) := by
  refine C166_network_partial lineNet (fun _ _ => 1) (fun v => ⟨by simp [lineNet], by simp [lineNet]; omega, by simp [lineNet], by simp⟩) (fun v x => ?_) (fun _ _ => rfl) 2
    (fun v => by simp [lineNet]; norm_num)
  simp only [lineNet, List.mem_cons, List.not_mem_nil, or_false]
  omega

/-- The path `0 - 1 - 2` with equal weights. -/
def pathNet : Network.Net where
  nbrs v := if v = 0 then [1] else if v = 1 then [0, 2] else if v = 2 then [1] else []
  weight _ _ := some 1

theorem path_end {v : ℤ} (h : v = 0 ∨ v = 2) : Network.Connected pathNet (fun _ _ => 1) v := by
  rcases h with rfl | rfl <;> exact ⟨by simp [pathNet], by simp [pathNet], by simp [pathNet], by simp⟩

/-- **C166, violated.** The network kernel on the path `0 - 1 - 2` with equal weights, a flat prior on the three nodes and constant likelihood: the posterior is flat, but a step of the sampler moves both ends to the middle,
so that a step doubles the probability of the middle. -/
theorem C166_violated : ¬ LeavesInvariant Measure.count (networkLaw pathNet) (fun v => if v = 0 ∨ v = 1 ∨ v = 2 then 1 else 0) (fun _ => 0) (fun _ => 0) := by
  intro h
  have := h {1} (MeasurableSet.singleton 1)
  set pdf : ℤ → ℝ := fun v => if v = 0 ∨ v = 1 ∨ v = 2 then 1 else 0 with hpdf
  have ht : ∀ v, v = 0 ∨ v = 1 ∨ v = 2 → target pdf (fun _ => 0) (fun _ => 0) v = 1 := by
    intro v hv
    simp [target, hpdf, hv]
  have hm : ∀ v, v = 0 ∨ v = 2 → 1 ≤ stepLaw (networkLaw pathNet) pdf (fun _ => 0) (fun _ => 0) v {1} := by
    intro v hv
    refine le_trans ?_ (le_add_right le_rfl)
    rw [lintegral_singleton, network_singleton (path_end hv), moveProb_eq]
    rcases hv with rfl | rfl <;> simp [hpdf, Network.transition, pathNet, alpha]
  rw [lintegral_singleton, ht 1 (by simp), Measure.count_singleton, mul_one, lintegral_count] at this
  have h2 : (2 : ℝ≥0∞) ≤ 1 := by
    calc (2 : ℝ≥0∞) = 1 + 1 := by norm_num
      _ ≤ ∑ v ∈ ({0, 2} : Finset ℤ), target pdf (fun _ => 0) (fun _ => 0) v * stepLaw (networkLaw pathNet) pdf (fun _ => 0) (fun _ => 0) v {1} := by
        rw [Finset.sum_pair (by norm_num), ht 0 (by simp), ht 2 (by simp), one_mul, one_mul]
        exact add_le_add (hm 0 (by simp)) (hm 2 (by simp))
      _ ≤ _ := ENNReal.sum_le_tsum _
      _ = 1 := this
  norm_num at h2

end Verif.Mcmc
