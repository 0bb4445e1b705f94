import Verif.Rejection.Averages
/-!
# C201: how many simulations `RejectionABC` needs

Random numbers as in `Rejection/Averages`. The number of simulations is what `_sample_n_samples_epsilon` adds up (589) and the journal keeps.
-/

namespace Verif.Rejection

open MeasureTheory ProbabilityTheory Filter Topology Set
open scoped ENNReal

section Streams

variable {Ω Θ Y : Type} (param : Ω → Θ) (data : Ω → Option Y) (dist : Y → ℝ) (distMax eps : ℝ)

/-- Specification: the number of outcomes up to and including the first accepted one. -/
noncomputable def needed (A : Set Ω) (s : ℕ → Ω) : ℕ := firstAt A s + 1

/-- **C201, one task.** A task that meets an accepted outcome ends, given enough rounds, and reports as its number of simulations the number of outcomes up to
and including the first accepted one; a task that does not meet one never ends. -/
theorem C201_task (hmax : eps < distMax) (s : ℕ → Ω) :
    ((∃ k, s k ∈ acceptedSet data dist eps) → ∀ fuel, needed (acceptedSet data dist eps) s + 1 ≤ fuel →
      ∃ d w, rejectTask (trialStream param data) dist distMax eps fuel s =
        .done (param (hit (acceptedSet data dist eps) s), d, needed (acceptedSet data dist eps) s, w)) ∧
    ((∀ k, s k ∉ acceptedSet data dist eps) → ∀ fuel, rejectTask (trialStream param data) dist distMax eps fuel s = .running) := by
  have hdata : ∀ j, (trialStream param data (after (trialStream param data) s j)).2 = (param (s j), data (s j)) := by
    intro j
    rw [after_stream]
    simp [trialStream]
  constructor
  · intro h fuel hf
    obtain ⟨d, c, w, ht⟩ := C177_task param data dist distMax eps hmax s h fuel (by unfold needed at hf; omega)
    obtain ⟨h1, -, -⟩ := C36_task (trialStream param data) dist distMax eps hmax fuel s
    obtain ⟨k1, -, k3, ⟨y', k4, k5⟩, k6, k7⟩ := h1 _ d c w ht
    rw [hdata] at k4
    have : firstAt (acceptedSet data dist eps) s = c - 1 := by
      refine firstAt_eq ⟨y', k4, by rw [← k5]; exact k6⟩ ?_
      rintro j hj ⟨y'', e1, e2⟩
      exact absurd (k7 j hj y'' (by rw [hdata]; exact e1)) (not_lt.2 e2)
    have hc : needed (acceptedSet data dist eps) s = c := by unfold needed; omega
    exact ⟨d, w, by rw [ht, hc]⟩
  · intro h fuel
    obtain ⟨h1, h2, -⟩ := C36_task (trialStream param data) dist distMax eps hmax fuel s
    cases ht : rejectTask (trialStream param data) dist distMax eps fuel s with
    | running => rfl
    | unbound => exact absurd ht h2
    | done a =>
      obtain ⟨θ, d, c, w⟩ := a
      obtain ⟨-, -, -, ⟨y', k4, k5⟩, k6, -⟩ := h1 θ d c w ht
      rw [hdata] at k4
      exact absurd ⟨y', k4, by rw [← k5]; exact k6⟩ (h (c - 1))

/-- **C201, a run.** If every task meets an accepted outcome the run ends, given enough rounds, and its number of simulations is what was counted before plus
what the tasks need. -/
theorem C201_run (hmax : eps < distMax) (n : ℕ) (h1 : 2 ≤ n) (h2 : n * n ≤ 2 ^ 31) (counter : ℕ) (ω : ℕ → ℕ → Ω)
    (h : ∀ i < n, ∃ k, ω i k ∈ acceptedSet data dist eps) :
    ∃ fuel₀, ∀ fuel ≥ fuel₀, ∃ r, rejectRound (trialStream param data) dist distMax eps fuel counter ((List.range n).map ω) = some r ∧
      r.params = (List.range n).map (fun i => param (hit (acceptedSet data dist eps) (ω i))) ∧
      r.counter = counter + ∑ i ∈ Finset.range n, needed (acceptedSet data dist eps) (ω i) := by
  refine ⟨(∑ i ∈ Finset.range n, needed (acceptedSet data dist eps) (ω i)) + 1, fun fuel hfuel => ?_⟩
  have ht : ∀ i < n, ∃ d w, rejectTask (trialStream param data) dist distMax eps fuel (ω i) =
      .done (param (hit (acceptedSet data dist eps) (ω i)), d, needed (acceptedSet data dist eps) (ω i), w) := fun i hi =>
    (C201_task param data dist distMax eps hmax (ω i)).1 (h i hi) fuel (by
      have := Finset.single_le_sum (f := fun i => needed (acceptedSet data dist eps) (ω i)) (fun _ _ => Nat.zero_le _) (Finset.mem_range.2 hi)
      omega)
  haveI : Nonempty (ℕ → Ω) := ⟨ω 0⟩
  choose! d w ht using ht
  have e : (((List.range n).map ω).map fun s => (rejectTask (trialStream param data) dist distMax eps fuel s).result) =
      ((List.range n).map fun i => (param (hit (acceptedSet data dist eps) (ω i)), d i, needed (acceptedSet data dist eps) (ω i), w i)).map some := by
    rw [List.map_map, List.map_map]
    refine List.map_congr_left fun i hi => ?_
    simp only [Function.comp_apply]
    rw [ht i (List.mem_range.1 hi)]
    rfl
  unfold rejectRound
  rw [if_pos (by simp only [List.length_map, List.length_range]; exact ⟨by nlinarith, h2⟩), e, collect_map_some]
  refine ⟨_, rfl, ?_, ?_⟩
  · simp
  · simp only [List.map_map]
    rw [Finset.sum_range]
    congr 1
    rw [← List.sum_ofFn, List.ofFn_eq_map, ← List.map_coe_finRange_eq_range, List.map_map]
    rfl

end Streams

section Law

variable {Ω : Type} [MeasurableSpace Ω] (P : Measure Ω) [IsProbabilityMeasure P] {A : Set Ω} (hA : MeasurableSet A) (h0 : P A ≠ 0)

include hA

theorem measurable_needed : Measurable (needed A : (ℕ → Ω) → ℕ) := (measurable_firstAt hA).add_const 1

include h0

/-- **C201, law of the number of simulations of a task.** It is geometric: `k + 1` simulations have probability `(1 - p) ^ k * p`. -/
theorem C201_geometric (k : ℕ) : stream P {s | needed A s = k + 1} = P Aᶜ ^ k * P A := by
  have e := stream_hitAt P hA MeasurableSet.univ k
  rw [Set.inter_univ] at e
  rw [← e]
  refine measure_congr ?_
  filter_upwards [ae_hit P hA h0] with s hs
  refine propext ⟨fun h => ?_, fun h => ?_⟩
  · have h : firstAt A s = k := Nat.succ_injective h
    exact (mem_hitAt _ _ _).2 ⟨h ▸ (firstAt_mem hs).2, h ▸ (firstAt_mem hs).1, trivial⟩
  · have h := (mem_hitAt _ _ _).1 h
    exact congrArg Nat.succ (firstAt_eq h.2.1 h.1)

/-- Sums over the possible numbers of simulations. -/
theorem needed_mean (g : ℕ → ℝ) (hg : ∀ k, 0 ≤ g k) (m : ℝ) (hm : HasSum (fun k => (1 - P.real A) ^ k * P.real A * g (k + 1)) m) :
    Integrable (fun s => g (needed A s)) (stream P) ∧ ∫ s, g (needed A s) ∂stream P = m := by
  have hmeas : Measurable fun s : ℕ → Ω => g (needed A s) := (measurable_from_top (f := g)).comp (measurable_needed hA)
  have hle : P.real A ≤ 1 := measureReal_le_one
  have hc : P Aᶜ = ENNReal.ofReal (1 - P.real A) := by
    rw [← probReal_compl_eq_one_sub hA, ofReal_measureReal]
  have hl : ∫⁻ s, ENNReal.ofReal (g (needed A s)) ∂stream P = ENNReal.ofReal m := by
    have h1 : ∫⁻ s, ENNReal.ofReal (g (needed A s)) ∂stream P = ∫⁻ k, ENNReal.ofReal (g k) ∂(stream P).map (needed A) :=
      (lintegral_map (measurable_from_top (f := fun k => ENNReal.ofReal (g k))) (measurable_needed hA)).symm
    rw [h1, lintegral_countable', tsum_eq_zero_add' ENNReal.summable]
    have hz : (stream P).map (needed A) {0} = 0 := by
      rw [Measure.map_apply (measurable_needed hA) (measurableSet_singleton _)]
      convert measure_empty (μ := stream P)
      ext s
      simp [needed]
    rw [hz, mul_zero, zero_add, ← hm.tsum_eq, ENNReal.ofReal_tsum_of_nonneg _ hm.summable]
    · refine tsum_congr fun k => ?_
      rw [Measure.map_apply (measurable_needed hA) (measurableSet_singleton _)]
      have := C201_geometric P hA h0 k
      rw [show needed A ⁻¹' {k + 1} = {s | needed A s = k + 1} from rfl, this, hc, ← ofReal_measureReal (μ := P) (s := A), ← ENNReal.ofReal_pow (by linarith),
        ← ENNReal.ofReal_mul (pow_nonneg (by linarith) _), ← ENNReal.ofReal_mul (hg _), mul_comm]
    · intro k
      exact mul_nonneg (mul_nonneg (pow_nonneg (by linarith) _) measureReal_nonneg) (hg _)
  have hi : Integrable (fun s => g (needed A s)) (stream P) := by
    refine ⟨hmeas.aestronglyMeasurable, ?_⟩
    rw [hasFiniteIntegral_iff_ofReal (Eventually.of_forall fun s => hg _), hl]
    exact ENNReal.ofReal_lt_top
  refine ⟨hi, ?_⟩
  rw [integral_eq_lintegral_of_nonneg_ae (Eventually.of_forall fun s => hg _) hmeas.aestronglyMeasurable, hl, ENNReal.toReal_ofReal]
  refine hm.nonneg fun k => ?_
  exact mul_nonneg (mul_nonneg (pow_nonneg (by linarith) _) measureReal_nonneg) (hg _)

omit hA in
theorem accept_pos : 0 < P.real A := by
  rw [measureReal_def]
  exact ENNReal.toReal_pos h0 (measure_ne_top _ _)

theorem needed_first : Integrable (fun s => (needed A s : ℝ)) (stream P) ∧ ∫ s, (needed A s : ℝ) ∂stream P = 1 / P.real A := by
  have hp := accept_pos P h0
  have hle : P.real A ≤ 1 := measureReal_le_one
  have hn : ‖1 - P.real A‖ < 1 := by rw [Real.norm_eq_abs, abs_lt]; constructor <;> linarith
  refine needed_mean P hA h0 (fun k => (k : ℝ)) (fun k => Nat.cast_nonneg k) _ ?_
  have h := (hasSum_choose_mul_geometric_of_norm_lt_one 1 hn).mul_right (P.real A)
  have e1 : (fun k : ℕ => (1 - P.real A) ^ k * P.real A * ((k + 1 : ℕ) : ℝ)) = fun k => ((k + 1).choose 1 : ℝ) * (1 - P.real A) ^ k * P.real A := by
    funext k
    rw [Nat.choose_one_right]
    ring
  have e2 : 1 / P.real A = 1 / (1 - (1 - P.real A)) ^ (1 + 1) * P.real A := by
    rw [sub_sub_cancel]
    field_simp
  rw [e1, e2]
  exact h

theorem needed_second : Integrable (fun s => (needed A s : ℝ) ^ 2) (stream P) ∧ ∫ s, (needed A s : ℝ) ^ 2 ∂stream P = 2 / P.real A ^ 2 - 1 / P.real A := by
  have hp := accept_pos P h0
  have hle : P.real A ≤ 1 := measureReal_le_one
  have hn : ‖1 - P.real A‖ < 1 := by rw [Real.norm_eq_abs, abs_lt]; constructor <;> linarith
  refine needed_mean P hA h0 (fun k => (k : ℝ) ^ 2) (fun k => sq_nonneg _) _ ?_
  have h1 := (hasSum_choose_mul_geometric_of_norm_lt_one 1 hn).mul_right (P.real A)
  have h2 := (hasSum_choose_mul_geometric_of_norm_lt_one 2 hn).mul_right (2 * P.real A)
  have e1 : (fun k : ℕ => (1 - P.real A) ^ k * P.real A * ((k + 1 : ℕ) : ℝ) ^ 2) =
      fun k => ((k + 2).choose 2 : ℝ) * (1 - P.real A) ^ k * (2 * P.real A) - ((k + 1).choose 1 : ℝ) * (1 - P.real A) ^ k * P.real A := by
    funext k
    have e : ((k + 2).choose 2 : ℝ) = ((k : ℝ) + 2) * (k + 1) / 2 := by
      rw [Nat.cast_choose_two]
      push_cast
      ring
    rw [Nat.choose_one_right, e]
    push_cast
    ring
  have e2 : 2 / P.real A ^ 2 - 1 / P.real A = 1 / (1 - (1 - P.real A)) ^ (2 + 1) * (2 * P.real A) - 1 / (1 - (1 - P.real A)) ^ (1 + 1) * P.real A := by
    rw [sub_sub_cancel]
    field_simp
    ring
  rw [e1, e2]
  exact h2.sub h1

end Law

section Cost

variable {Ω Θ Y : Type} [MeasurableSpace Ω] (P : Measure Ω) [IsProbabilityMeasure P] (param : Ω → Θ) (data : Ω → Option Y) (dist : Y → ℝ) (distMax eps : ℝ)

/-- Specification: the probability that an outcome is accepted (the ABC approximation of the evidence, up to the volume of the acceptance region). -/
noncomputable def acceptance : ℝ := P.real (acceptedSet data dist eps)

section
variable {A : Set Ω} (hA : MeasurableSet A)
include hA

theorem measurable_needed_at (i : ℕ) : Measurable fun ω : ℕ → ℕ → Ω => (needed A (ω i) : ℝ) :=
  (measurable_from_top (f := fun k : ℕ => (k : ℝ))).comp ((measurable_needed hA).comp (measurable_pi_apply i))

theorem indep_needed : iIndepFun (fun i (ω : ℕ → ℕ → Ω) => (needed A (ω i) : ℝ)) (streams P) := by
  unfold streams
  exact iIndepFun_infinitePi (X := fun _ s => (needed A s : ℝ)) fun _ => (measurable_from_top (f := fun k : ℕ => (k : ℝ))).comp (measurable_needed hA)

theorem needed_at (g : ℕ → ℝ) (i : ℕ) (h : Integrable (fun s => g (needed A s)) (stream P)) :
    Integrable (fun ω : ℕ → ℕ → Ω => g (needed A (ω i))) (streams P) ∧ ∫ ω, g (needed A (ω i)) ∂streams P = ∫ s, g (needed A s) ∂stream P := by
  have e : stream P = (streams P).map fun ω => ω i := (Measure.infinitePi_map_eval (fun _ : ℕ => stream P) i).symm
  have hm : Measurable fun s : ℕ → Ω => g (needed A s) := (measurable_from_top (f := g)).comp (measurable_needed hA)
  refine ⟨?_, ?_⟩
  · rw [e, integrable_map_measure hm.aestronglyMeasurable (measurable_pi_apply i).aemeasurable] at h
    exact h
  · rw [e, integral_map (measurable_pi_apply i).aemeasurable hm.aestronglyMeasurable]

end

variable (hA : MeasurableSet (acceptedSet data dist eps))
include hA

/-- **C201, mean and spread.** For `n` samples the mean of the number of simulations is `n / p` and its mean squared deviation from there is `n * (1 - p) / p ^ 2`,
`p` being the probability of acceptance. -/
theorem C201_moments (h0 : P (acceptedSet data dist eps) ≠ 0) (n : ℕ) :
    ∫ ω, (∑ i ∈ Finset.range n, (needed (acceptedSet data dist eps) (ω i) : ℝ)) ∂streams P = n / acceptance P data dist eps ∧
    ∫ ω, (∑ i ∈ Finset.range n, (needed (acceptedSet data dist eps) (ω i) : ℝ) - n / acceptance P data dist eps) ^ 2 ∂streams P =
      n * (1 - acceptance P data dist eps) / acceptance P data dist eps ^ 2 := by
  set A := acceptedSet data dist eps with hAdef
  have hp : 0 < acceptance P data dist eps := accept_pos P h0
  have hint : ∀ i, Integrable (fun ω : ℕ → ℕ → Ω => (needed A (ω i) : ℝ)) (streams P) ∧ ∫ ω, (needed A (ω i) : ℝ) ∂streams P = 1 / acceptance P data dist eps := fun i => by
    have h := needed_at P hA (fun k => (k : ℝ)) i (needed_first P hA h0).1
    exact ⟨h.1, h.2.trans (needed_first P hA h0).2⟩
  have hsq : ∀ i, Integrable (fun ω : ℕ → ℕ → Ω => (needed A (ω i) : ℝ) ^ 2) (streams P) ∧
      ∫ ω, (needed A (ω i) : ℝ) ^ 2 ∂streams P = 2 / acceptance P data dist eps ^ 2 - 1 / acceptance P data dist eps := fun i => by
    have h := needed_at P hA (fun k => (k : ℝ) ^ 2) i (needed_second P hA h0).1
    exact ⟨h.1, h.2.trans (needed_second P hA h0).2⟩
  have hE : ∫ ω, (∑ i ∈ Finset.range n, (needed A (ω i) : ℝ)) ∂streams P = n / acceptance P data dist eps := by
    rw [integral_finsetSum _ fun i _ => (hint i).1, Finset.sum_congr rfl fun i _ => (hint i).2]
    simp
    ring
  refine ⟨hE, ?_⟩
  have hmem : ∀ i, MemLp (fun ω : ℕ → ℕ → Ω => (needed A (ω i) : ℝ)) 2 (streams P) := fun i => by
    rw [memLp_two_iff_integrable_sq (measurable_needed_at hA i).aestronglyMeasurable]
    exact (hsq i).1
  have hvar : ∀ i, Var[fun ω : ℕ → ℕ → Ω => (needed A (ω i) : ℝ); streams P] = (1 - acceptance P data dist eps) / acceptance P data dist eps ^ 2 := fun i => by
    rw [variance_eq_sub (hmem i), (hint i).2]
    simp only [Pi.pow_apply]
    rw [(hsq i).2]
    field_simp
    ring
  have hsum : Var[∑ i ∈ Finset.range n, fun ω : ℕ → ℕ → Ω => (needed A (ω i) : ℝ); streams P] = n * ((1 - acceptance P data dist eps) / acceptance P data dist eps ^ 2) := by
    rw [IndepFun.variance_sum (fun i _ => hmem i) fun i _ j _ hij => (indep_needed P hA).indepFun hij]
    simp [hvar]
  rw [variance_eq_integral (Finset.aemeasurable_sum _ fun i _ => (measurable_needed_at hA i).aemeasurable)] at hsum
  simp only [Finset.sum_apply] at hsum
  rw [hE] at hsum
  rw [hsum]
  ring

/-- **C201, rate.** With probability one every task ends, and the number of samples divided by the number of simulations used for them tends to the probability of
acceptance. -/
theorem C201_rate (h0 : P (acceptedSet data dist eps) ≠ 0) (hmax : eps < distMax) :
    ∀ᵐ ω ∂streams P, ∃ c : ℕ → ℕ, (∀ i, ∃ fuel₀, ∀ fuel ≥ fuel₀, ∃ θ d w, rejectTask (trialStream param data) dist distMax eps fuel (ω i) = .done (θ, d, c i, w)) ∧
      Tendsto (fun n : ℕ => (n : ℝ) / (∑ i ∈ Finset.range n, (c i : ℝ))) atTop (𝓝 (acceptance P data dist eps)) := by
  have hmeas : Measurable fun s : ℕ → Ω => (needed (acceptedSet data dist eps) s : ℝ) := (measurable_from_top (f := fun k : ℕ => (k : ℝ))).comp (measurable_needed hA)
  have hlaw := strong_law_ae_real (μ := streams P) (fun i ω => (needed (acceptedSet data dist eps) (ω i) : ℝ))
    (needed_at P hA (fun k => (k : ℝ)) 0 (needed_first P hA h0).1).1
    (fun i j hij => (indep_needed P hA).indepFun hij) (fun i => ⟨(measurable_needed_at hA i).aemeasurable, (measurable_needed_at hA 0).aemeasurable, by
      have e : ∀ i, (streams P).map (fun ω => (needed (acceptedSet data dist eps) (ω i) : ℝ)) = (stream P).map fun s => (needed (acceptedSet data dist eps) s : ℝ) := fun i => by
        rw [show stream P = (streams P).map fun ω => ω i from (Measure.infinitePi_map_eval (fun _ : ℕ => stream P) i).symm, Measure.map_map hmeas (measurable_pi_apply i)]
        rfl
      rw [e, e]⟩)
  have hends : ∀ᵐ ω ∂streams P, ∀ i, ∃ k, ω i k ∈ acceptedSet data dist eps := by
    rw [ae_all_iff]
    intro i
    have := ae_hit P hA h0
    rw [show stream P = (streams P).map fun ω => ω i from (Measure.infinitePi_map_eval (fun _ : ℕ => stream P) i).symm] at this
    exact ae_of_ae_map (measurable_pi_apply i).aemeasurable this
  filter_upwards [hlaw, hends] with ω h1 h2
  refine ⟨fun i => needed (acceptedSet data dist eps) (ω i), fun i => ⟨needed (acceptedSet data dist eps) (ω i) + 1, fun fuel hfuel => ?_⟩, ?_⟩
  · obtain ⟨d, w, h⟩ := (C201_task param data dist distMax eps hmax (ω i)).1 (h2 i) fuel hfuel
    exact ⟨_, d, w, h⟩
  · rw [(needed_at P hA (fun k => (k : ℝ)) 0 (needed_first P hA h0).1).2, (needed_first P hA h0).2] at h1
    have h3 := h1.inv₀ (one_div_ne_zero (accept_pos P h0).ne')
    simp only [inv_div, one_div, inv_inv] at h3
    exact h3

/-- **C201, no acceptance.** If acceptance has probability zero then with probability one no task ever ends. -/
theorem C201_never (h0 : P (acceptedSet data dist eps) = 0) (hmax : eps < distMax) :
    ∀ᵐ ω ∂streams P, ∀ i fuel, rejectTask (trialStream param data) dist distMax eps fuel (ω i) = .running := by
  rw [ae_all_iff]
  intro i
  have h : ∀ᵐ s ∂stream P, ∀ k, s k ∉ acceptedSet data dist eps := by
    rw [ae_all_iff]
    intro k
    have hk : P = (stream P).map fun s => s k := (Measure.infinitePi_map_eval (fun _ : ℕ => P) k).symm
    rw [ae_iff]
    simp only [not_not]
    rw [hk, Measure.map_apply (measurable_pi_apply k) hA] at h0
    exact h0
  rw [show stream P = (streams P).map fun ω => ω i from (Measure.infinitePi_map_eval (fun _ : ℕ => stream P) i).symm] at h
  filter_upwards [ae_of_ae_map (measurable_pi_apply i).aemeasurable h] with ω hω
  exact (C201_task param data dist distMax eps hmax (ω i)).2 hω

end Cost

/-- A simulator that succeeds for heads and refuses for tails. -/
example (P : Measure Bool) [IsProbabilityMeasure P] (h : P {true} = 1 / 4) :
    ∫ ω, (∑ i ∈ Finset.range 10, (needed (acceptedSet (fun b : Bool => if b then some (0 : ℝ) else none) id 1) (ω i) : ℝ)) ∂streams P = 40 ∧
    ∀ᵐ ω ∂streams P, ∃ c : ℕ → ℕ, (∀ i, ∃ fuel₀, ∀ fuel ≥ fuel₀, ∃ θ d w,
        rejectTask (trialStream id fun b : Bool => if b then some (0 : ℝ) else none) id 2 1 fuel (ω i) = .done (θ, d, c i, w)) ∧
      Tendsto (fun n : ℕ => (n : ℝ) / (∑ i ∈ Finset.range n, (c i : ℝ))) atTop (𝓝 (1 / 4)) := by
  have e : acceptedSet (fun b : Bool => if b then some (0 : ℝ) else none) id 1 = {true} := by
    ext b
    cases b <;> simp [acceptedSet, accepted]
  have hp : acceptance P (fun b : Bool => if b then some (0 : ℝ) else none) id 1 = 1 / 4 := by
    unfold acceptance
    rw [e, measureReal_def, h]
    simp
  have h0 : P (acceptedSet (fun b : Bool => if b then some (0 : ℝ) else none) id 1) ≠ 0 := by rw [e, h]; simp
  have hA : MeasurableSet (acceptedSet (fun b : Bool => if b then some (0 : ℝ) else none) id 1) := by rw [e]; exact measurableSet_singleton _
  have h1 := (C201_moments P _ _ _ hA h0 10).1
  have h2 := C201_rate P id (fun b : Bool => if b then some (0 : ℝ) else none) id 2 1 hA h0 (by norm_num)
  rw [hp] at h1 h2
  refine ⟨h1.trans (by norm_num), h2⟩

end Verif.Rejection
