import Verif.Rejection.Props
import Verif.Rejection.Law
import Mathlib.Probability.ProductMeasure
import Mathlib.Probability.Independence.InfinitePi
import Mathlib.Probability.StrongLaw
import Mathlib.Probability.Kernel.Composition.MeasureCompProd
/-!
# C177: averages over the samples of `RejectionABC`

The random numbers of a task are a sequence of independent outcomes, as in `Rejection/Law`, but outcomes are from any probability space. Different tasks use independent sequences.
-/

namespace Verif.Rejection

open MeasureTheory ProbabilityTheory Filter Topology Set
open scoped ENNReal

/-- One trial with the next outcome of an infinite sequence. -/
def trialStream {Ω Θ Y : Type} (param : Ω → Θ) (data : Ω → Option Y) (s : ℕ → Ω) : (ℕ → Ω) × Θ × Option Y := (fun n => s (n + 1), param (s 0), data (s 0))

section Streams

variable {Ω Θ Y : Type} (param : Ω → Θ) (data : Ω → Option Y) (dist : Y → ℝ) (distMax eps : ℝ)

theorem after_stream (s : ℕ → Ω) (k : ℕ) : after (trialStream param data) s k = fun n => s (n + k) := by
  induction k with
  | zero => rfl
  | succ k ih =>
    rw [after_succ, ih]
    funext n
    change s (n + 1 + k) = s (n + (k + 1))
    congr 1
    omega

/-- Specification: the outcomes that are accepted. -/
def acceptedSet : Set Ω := {ω | accepted data dist eps ω}

open Classical in
/-- The position of the first accepted outcome (zero if there is none). -/
noncomputable def firstAt (A : Set Ω) (s : ℕ → Ω) : ℕ := if h : ∃ k, s k ∈ A then Nat.find h else 0

/-- The first accepted outcome. -/
noncomputable def hit (A : Set Ω) (s : ℕ → Ω) : Ω := s (firstAt A s)

theorem firstAt_eq {A : Set Ω} {s : ℕ → Ω} {k : ℕ} (h : s k ∈ A) (hb : ∀ j < k, s j ∉ A) : firstAt A s = k := by
  classical
  rw [firstAt, dif_pos ⟨k, h⟩]
  exact (Nat.find_eq_iff _).2 ⟨h, fun j hj => hb j hj⟩

theorem firstAt_mem {A : Set Ω} {s : ℕ → Ω} (h : ∃ k, s k ∈ A) : s (firstAt A s) ∈ A ∧ ∀ j < firstAt A s, s j ∉ A := by
  classical
  rw [firstAt, dif_pos h]
  exact ⟨Nat.find_spec h, fun j hj => Nat.find_min h hj⟩

/-- **C177, what is averaged.** A task returns the parameters of the first accepted outcome, as soon as it is given enough rounds. -/
theorem C177_task (hmax : eps < distMax) (s : ℕ → Ω) (h : ∃ k, s k ∈ acceptedSet data dist eps) (fuel : ℕ) (hf : firstAt (acceptedSet data dist eps) s + 2 ≤ fuel) :
    ∃ d c w, rejectTask (trialStream param data) dist distMax eps fuel s = .done (param (hit (acceptedSet data dist eps) s), d, c, w) := by
  obtain ⟨⟨y, hy, hd⟩, hb⟩ := firstAt_mem h
  set k := firstAt (acceptedSet data dist eps) s with hk
  have hdata : ∀ j, (trialStream param data (after (trialStream param data) s j)).2 = (param (s j), data (s j)) := by
    intro j
    rw [after_stream]
    simp [trialStream]
  obtain ⟨h1, h2, h3⟩ := C36_task (trialStream param data) dist distMax eps hmax fuel s
  have h3 := h3 k y (by rw [hdata]; exact hy) hd hf
  cases ht : rejectTask (trialStream param data) dist distMax eps fuel s with
  | running => exact absurd ht h3
  | unbound => exact absurd ht h2
  | done a =>
    obtain ⟨θ, d, c, w⟩ := a
    obtain ⟨k1, -, k3, ⟨y', k4, k5⟩, k6, k7⟩ := h1 θ d c w ht
    rw [hdata] at k3 k4
    have : firstAt (acceptedSet data dist eps) s = c - 1 := by
      refine firstAt_eq ⟨y', k4, by rw [← k5]; exact k6⟩ ?_
      rintro j hj ⟨y'', e1, e2⟩
      exact absurd (k7 j hj y'' (by rw [hdata]; exact e1)) (not_lt.2 e2)
    refine ⟨d, c, w, ?_⟩
    rw [hit, this, k3]

end Streams

section Law

variable {Ω : Type} [MeasurableSpace Ω] (P : Measure Ω) [IsProbabilityMeasure P] {A : Set Ω} (hA : MeasurableSet A)

/-- The random numbers of a task. -/
noncomputable def stream : Measure (ℕ → Ω) := Measure.infinitePi fun _ => P

instance : IsProbabilityMeasure (stream P) := by unfold stream; infer_instance

/-- The random numbers of all tasks. -/
noncomputable def streams : Measure (ℕ → ℕ → Ω) := Measure.infinitePi fun _ => stream P

instance : IsProbabilityMeasure (streams P) := by unfold streams; infer_instance

/-- The sequences whose outcome `k` is the first in `A`, and is in `B`. -/
def hitAt (A B : Set Ω) (k : ℕ) : Set (ℕ → Ω) := Set.pi (Finset.range (k + 1)) fun j => if j < k then Aᶜ else A ∩ B

theorem mem_hitAt (B : Set Ω) (k : ℕ) (s : ℕ → Ω) : s ∈ hitAt A B k ↔ (∀ j < k, s j ∉ A) ∧ s k ∈ A ∧ s k ∈ B := by
  unfold hitAt
  simp only [Set.mem_pi, Finset.coe_range, Set.mem_Iio]
  constructor
  · intro h
    refine ⟨fun j hj => ?_, ?_⟩
    · have := h j (by omega)
      rwa [if_pos hj] at this
    · have := h k (by omega)
      rwa [if_neg (lt_irrefl _)] at this
  · rintro ⟨h1, h2⟩ j hj
    by_cases hjk : j < k
    · rw [if_pos hjk]; exact h1 j hjk
    · rw [if_neg hjk, show j = k by omega]; exact h2

include hA in
theorem measurableSet_hitAt {B : Set Ω} (hB : MeasurableSet B) (k : ℕ) : MeasurableSet (hitAt A B k) := by
  refine MeasurableSet.pi (Finset.countable_toSet _) fun j _ => ?_
  split_ifs
  exacts [hA.compl, hA.inter hB]

include hA in
theorem stream_hitAt {B : Set Ω} (hB : MeasurableSet B) (k : ℕ) : stream P (hitAt A B k) = P Aᶜ ^ k * P (A ∩ B) := by
  unfold stream hitAt
  rw [Measure.infinitePi_pi]
  · rw [Finset.prod_range_succ, if_neg (lt_irrefl _)]
    congr 1
    rw [Finset.prod_congr rfl (g := fun _ => P Aᶜ) fun j hj => by rw [if_pos (Finset.mem_range.1 hj)]]
    simp
  · intro j _
    split_ifs
    exacts [hA.compl, hA.inter hB]

theorem disjoint_hitAt (B : Set Ω) : Pairwise (Function.onFun Disjoint (hitAt A B)) := by
  intro i j hij
  refine Set.disjoint_left.2 fun s hi hj => ?_
  rw [mem_hitAt] at hi hj
  rcases lt_or_gt_of_ne hij with h | h
  · exact hj.1 i h hi.2.1
  · exact hi.1 j h hj.2.1

include hA in
theorem stream_hits {B : Set Ω} (hB : MeasurableSet B) (h0 : P A ≠ 0) : stream P (⋃ k, hitAt A B k) = P (A ∩ B) / P A := by
  rw [measure_iUnion (disjoint_hitAt B) (measurableSet_hitAt hA hB)]
  simp_rw [stream_hitAt P hA hB]
  rw [ENNReal.tsum_mul_right, ENNReal.tsum_geometric, mul_comm, ENNReal.div_eq_inv_mul, mul_comm]
  congr 2
  rw [prob_compl_eq_one_sub hA, ENNReal.sub_sub_cancel ENNReal.one_ne_top prob_le_one]

include hA in
/-- With probability one an outcome is accepted. -/
theorem ae_hit (h0 : P A ≠ 0) : ∀ᵐ s ∂stream P, ∃ k, s k ∈ A := by
  have h1 := stream_hits P hA MeasurableSet.univ h0
  rw [Set.inter_univ, ENNReal.div_self h0 (measure_ne_top _ _)] at h1
  have hm : MeasurableSet (⋃ k, hitAt A univ k) := MeasurableSet.iUnion fun k => measurableSet_hitAt hA MeasurableSet.univ k
  have h2 : ∀ᵐ s ∂stream P, s ∈ ⋃ k, hitAt A univ k := by
    rw [ae_iff]
    change stream P (⋃ k, hitAt A univ k)ᶜ = 0
    rw [prob_compl_eq_zero_iff hm, h1]
  filter_upwards [h2] with s hs
  obtain ⟨k, hk⟩ := Set.mem_iUnion.1 hs
  exact ⟨k, ((mem_hitAt _ _ _).1 hk).2.1⟩

include hA in
theorem measurable_firstAt : Measurable (firstAt A : (ℕ → Ω) → ℕ) := by
  refine measurable_to_countable' fun k => ?_
  have e : firstAt A ⁻¹' {k} = hitAt A univ k ∪ ({s | ¬ ∃ k, s k ∈ A} ∩ {_s | k = 0}) := by
    ext s
    simp only [Set.mem_preimage, Set.mem_singleton_iff, Set.mem_union, mem_hitAt, Set.mem_inter_iff, Set.mem_setOf_eq, Set.mem_univ, and_true]
    by_cases h : ∃ k, s k ∈ A
    · constructor
      · rintro rfl
        exact Or.inl ⟨(firstAt_mem h).2, (firstAt_mem h).1⟩
      · rintro (⟨h1, h2⟩ | ⟨h1, -⟩)
        · exact firstAt_eq h2 h1
        · exact absurd h h1
    · have : firstAt A s = 0 := by rw [firstAt, dif_neg h]
      constructor
      · intro hk
        exact Or.inr ⟨h, by omega⟩
      · rintro (⟨-, h2⟩ | ⟨-, h2⟩)
        · exact absurd ⟨k, h2⟩ h
        · omega
  rw [e]
  refine (measurableSet_hitAt hA MeasurableSet.univ k).union (MeasurableSet.inter ?_ (MeasurableSet.const _))
  have : {s : ℕ → Ω | ¬ ∃ k, s k ∈ A} = ⋂ k, (fun s => s k) ⁻¹' Aᶜ := by
    ext s
    simp
  rw [this]
  exact MeasurableSet.iInter fun k => measurable_pi_apply k hA.compl

include hA in
theorem measurable_hit : Measurable (hit A : (ℕ → Ω) → Ω) := by
  have h : Measurable fun p : ℕ × (ℕ → Ω) => p.2 p.1 := measurable_from_prod_countable_right fun k => measurable_pi_apply k
  exact h.comp ((measurable_firstAt hA).prodMk measurable_id)

include hA in
/-- **C177, one task.** The law of the first accepted outcome is the law of an outcome conditioned on being accepted. -/
theorem C177_law (h0 : P A ≠ 0) : (stream P).map (hit A) = cond P A := by
  ext B hB
  rw [Measure.map_apply (measurable_hit hA) hB, cond_apply hA, ← ENNReal.div_eq_inv_mul, ← stream_hits P hA hB h0]
  refine measure_congr ?_
  filter_upwards [ae_hit P hA h0] with s hs
  refine propext ⟨fun h => Set.mem_iUnion.2 ⟨firstAt A s, (mem_hitAt _ _ _).2 ⟨(firstAt_mem hs).2, (firstAt_mem hs).1, h⟩⟩, fun h => ?_⟩
  obtain ⟨k, hk⟩ := Set.mem_iUnion.1 h
  rw [mem_hitAt] at hk
  change s (firstAt A s) ∈ B
  rw [firstAt_eq hk.2.1 hk.1]
  exact hk.2.2

end Law

section Averages

variable {Ω Θ Y : Type} [MeasurableSpace Ω] (P : Measure Ω) [IsProbabilityMeasure P] (param : Ω → Θ) (data : Ω → Option Y) (dist : Y → ℝ) (distMax eps : ℝ) (f : Θ → ℝ)

/-- Specification: the mean of `f` under the ABC posterior, that is, over the accepted outcomes. -/
noncomputable def abcMean : ℝ := (∫ ω in acceptedSet data dist eps, f (param ω) ∂P) / P.real (acceptedSet data dist eps)

/-- Specification: the variance of `f` under the ABC posterior. -/
noncomputable def abcVariance : ℝ := (∫ ω in acceptedSet data dist eps, (f (param ω) - abcMean P param data dist eps f) ^ 2 ∂P) / P.real (acceptedSet data dist eps)

theorem integral_cond {A : Set Ω} (g : Ω → ℝ) : ∫ ω, g ω ∂cond P A = (∫ ω in A, g ω ∂P) / P.real A := by
  rw [ProbabilityTheory.cond, integral_smul_measure, ENNReal.toReal_inv, smul_eq_mul, div_eq_inv_mul]
  rfl

/-- The value of `f` for sample `i`. -/
noncomputable def value (A : Set Ω) (i : ℕ) (ω : ℕ → ℕ → Ω) : ℝ := f (param (hit A (ω i)))

variable {f} (hf : Measurable fun ω => f (param ω))

section
variable {A : Set Ω} (hA : MeasurableSet A) (h0 : P A ≠ 0)
include hf hA

omit hf in
theorem measurable_hit_at (i : ℕ) : Measurable fun ω : ℕ → ℕ → Ω => hit A (ω i) := (measurable_hit hA).comp (measurable_pi_apply i)

theorem measurable_value (i : ℕ) : Measurable (value param f A i) := hf.comp ((measurable_hit hA).comp (measurable_pi_apply i))

theorem indep_value : iIndepFun (fun i => value param f A i) (streams P) := by
  unfold streams
  exact iIndepFun_infinitePi (X := fun _ s => f (param (hit A s))) fun _ => hf.comp (measurable_hit hA)

omit hf in
theorem ident_value (i : ℕ) : (streams P).map (fun ω => hit A (ω i)) = (stream P).map (hit A) := by
  rw [← Measure.infinitePi_map_eval (fun _ : ℕ => stream P) i, Measure.map_map (measurable_hit hA) (measurable_pi_apply i)]
  rfl

include h0 in
theorem integral_value (g : ℝ → ℝ) (hg : Measurable g) (i : ℕ) : ∫ ω, g (value param f A i ω) ∂streams P = (∫ ω in A, g (f (param ω)) ∂P) / P.real A := by
  rw [← integral_cond, ← C177_law P hA h0, ← ident_value P hA i, integral_map (measurable_hit_at hA i).aemeasurable (show Measurable fun ω => g (f (param ω)) from hg.comp hf).aestronglyMeasurable]
  rfl

include h0 in
theorem integrable_value (g : ℝ → ℝ) (hg : Measurable g) (h : IntegrableOn (fun ω => g (f (param ω))) A P) (i : ℕ) : Integrable (fun ω => g (value param f A i ω)) (streams P) := by
  have h1 : Integrable (fun ω => g (f (param ω))) (cond P A) := by
    rw [ProbabilityTheory.cond]
    exact Integrable.smul_measure h (ENNReal.inv_ne_top.2 h0)
  rw [← C177_law P hA h0, ← ident_value P hA i, integrable_map_measure (show Measurable fun ω => g (f (param ω)) from hg.comp hf).aestronglyMeasurable (measurable_hit_at hA i).aemeasurable] at h1
  exact h1

end

variable (hA : MeasurableSet (acceptedSet data dist eps)) (h0 : P (acceptedSet data dist eps) ≠ 0)

include hf hA h0

/-- **C177.** With probability one, every task of `RejectionABC` ends, and the mean of `f` over the first `n` samples tends to the mean under the ABC posterior. -/
theorem C177_average (hmax : eps < distMax) (hi : IntegrableOn (fun ω => f (param ω)) (acceptedSet data dist eps) P) :
    ∀ᵐ ω ∂streams P, ∃ θ : ℕ → Θ, (∀ i, ∃ fuel₀, ∀ fuel ≥ fuel₀, ∃ d c w, rejectTask (trialStream param data) dist distMax eps fuel (ω i) = .done (θ i, d, c, w)) ∧
      Tendsto (fun n : ℕ => (∑ i ∈ Finset.range n, f (θ i)) / n) atTop (𝓝 (abcMean P param data dist eps f)) := by
  have hlaw := strong_law_ae_real (μ := streams P) (fun i => value param f (acceptedSet data dist eps) i) (integrable_value P param hf hA h0 id measurable_id hi 0)
    (fun i j hij => (indep_value P param hf hA).indepFun hij) (fun i => ⟨(measurable_value param hf hA i).aemeasurable, (measurable_value param hf hA 0).aemeasurable, by
      have e : ∀ i, (streams P).map (value param f (acceptedSet data dist eps) i) = ((stream P).map (hit (acceptedSet data dist eps))).map fun ω => f (param ω) := fun i => by
        rw [← ident_value P hA i, Measure.map_map hf (measurable_hit_at hA i)]
        rfl
      rw [e, e]⟩)
  have hends : ∀ᵐ ω ∂streams P, ∀ i, ∃ k, ω i k ∈ acceptedSet data dist eps := by
    rw [ae_all_iff]
    intro i
    have := ae_hit P hA h0
    rw [show stream P = (streams P).map fun ω => ω i from (Measure.infinitePi_map_eval (fun _ : ℕ => stream P) i).symm] at this
    exact ae_of_ae_map (measurable_pi_apply i).aemeasurable this
  filter_upwards [hlaw, hends] with ω h1 h2
  refine ⟨fun i => param (hit (acceptedSet data dist eps) (ω i)), fun i => ⟨_, fun fuel hfuel => C177_task param data dist distMax eps hmax (ω i) (h2 i) fuel hfuel⟩, ?_⟩
  have e := integral_value P param hf hA h0 id measurable_id 0
  simp only [id] at e
  rw [e] at h1
  exact h1

/-- **C177, error.** The mean squared error of the mean of `f` over `n` samples is the variance under the ABC posterior divided by `n`. -/
theorem C177_error (hi : IntegrableOn (fun ω => f (param ω) ^ 2) (acceptedSet data dist eps) P) (n : ℕ) (hn : 0 < n) :
    ∫ ω, ((∑ i ∈ Finset.range n, value param f (acceptedSet data dist eps) i ω) / n - abcMean P param data dist eps f) ^ 2 ∂streams P = abcVariance P param data dist eps f / n := by
  set A := acceptedSet data dist eps with hAdef
  have hmem : ∀ i, MemLp (value param f A i) 2 (streams P) := fun i => by
    rw [memLp_two_iff_integrable_sq (measurable_value param hf hA i).aestronglyMeasurable]
    exact integrable_value P param hf hA h0 (fun x => x ^ 2) (by fun_prop) hi i
  have hmean : ∀ i, ∫ ω, value param f A i ω ∂streams P = abcMean P param data dist eps f := fun i => by
    have e := integral_value P param hf hA h0 id measurable_id i
    simp only [id] at e
    exact e
  have hvar : ∀ i, Var[value param f A i; streams P] = abcVariance P param data dist eps f := fun i => by
    rw [variance_eq_integral (measurable_value param hf hA i).aemeasurable, hmean]
    exact integral_value P param hf hA h0 (fun x => (x - abcMean P param data dist eps f) ^ 2) (by fun_prop) i
  have hsum : Var[∑ i ∈ Finset.range n, value param f A i; streams P] = n * abcVariance P param data dist eps f := by
    rw [IndepFun.variance_sum (fun i _ => hmem i) fun i _ j _ hij => (indep_value P param hf hA).indepFun hij]
    simp [hvar]
  have hn' : (n : ℝ) ≠ 0 := by positivity
  rw [variance_eq_integral (Finset.aemeasurable_sum _ fun i _ => (measurable_value param hf hA i).aemeasurable)] at hsum
  have hE : ∫ ω, (∑ i ∈ Finset.range n, value param f A i) ω ∂streams P = n * abcMean P param data dist eps f := by
    simp only [Finset.sum_apply]
    rw [integral_finsetSum _ fun i _ => (hmem i).integrable one_le_two]
    simp [hmean]
  rw [hE] at hsum
  have e : ∀ ω, ((∑ i ∈ Finset.range n, value param f A i ω) / n - abcMean P param data dist eps f) ^ 2 =
      ((∑ i ∈ Finset.range n, value param f A i) ω - n * abcMean P param data dist eps f) ^ 2 * (1 / (n : ℝ) ^ 2) := by
    intro ω
    rw [Finset.sum_apply]
    field_simp
  simp_rw [e]
  rw [integral_mul_const, hsum]
  field_simp

end Averages

end Verif.Rejection
