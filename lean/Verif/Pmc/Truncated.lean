import Verif.Pmc.Props
import Verif.Smc.Truncated
/-
C97: the importance weights of `PMCABC` and the density of the particles that it really draws.
-/
namespace Verif.Pmc

open Verif.Chance
open Verif.Smc (draw refusal mass propose propose_limit cutLaw Refused)

variable {W Θ Y : Type} (env : Env W Θ Y)

/-- The loop of `PMCABC` that draws proposals again is that of the other samplers. -/
theorem proposeLoop_eq (p : Pop Θ) (i fuel : Nat) (w : W) : proposeLoop env p i fuel w = propose env.pdf (env.perturb p i) fuel w := by
  induction fuel generalizing w with
  | zero => rfl
  | succ fuel ih =>
    rw [proposeLoop, propose]
    generalize env.perturb p i w = r
    obtain ⟨w, a⟩ := r
    cases a with
    | none => exact ih w
    | some θ => simp only [ih w]

/-- The density of a proposal when particle `a` is chosen according to its weight and perturbed until the result is not refused, where single perturbations of `a` are refused with probability
`R a` (`Smc.propose_limit`). -/
noncomputable def proposalDensity (p : Pop Θ) (R : Θ → ℝ) (θ : Θ) : ℝ := (List.zipWith (fun w a => w * (env.kernel p a θ / (1 - R a))) p.weights p.params).sum

theorem zipWith_const (ws : List ℝ) (as : List Θ) (f g : ℝ → Θ → ℝ) (z : ℝ) (h : ∀ w, ∀ a ∈ as, f w a = z * g w a) :
    (List.zipWith f ws as).sum = z * (List.zipWith g ws as).sum := by
  induction ws generalizing as with
  | nil => simp
  | cons w ws ih =>
    cases as with
    | nil => simp
    | cons a as =>
      simp only [List.zipWith_cons_cons, List.sum_cons]
      rw [ih as fun w b hb => h w b (by simp [hb]), h w a (by simp)]
      ring

/-- **C97 (partial).** If perturbations of all particles are refused with the same probability `z`, weight times density of the proposals is the prior density up to a factor that is the same for
all particles. Missing: different probabilities, where this fails, see below. -/
theorem C97_partial (n : Nat) (p : Pop Θ) (R : Θ → ℝ) (z : ℝ) (hz : z < 1) (hR : ∀ a ∈ p.params, R a = z) (θ : Θ) (hm : mixture env p θ ≠ 0) :
    rawWeight env n (some p) θ * proposalDensity env p R θ = (1 / (1 - z)) * env.pdf θ := by
  have : proposalDensity env p R θ = (1 / (1 - z)) * mixture env p θ := by
    unfold proposalDensity mixture
    apply zipWith_const
    intro w a ha
    rw [hR a ha]; ring
  rw [this, rawWeight]
  have : 1 - z ≠ 0 := by linarith
  field_simp

theorem zipWith_bound (ws : List ℝ) (as : List Θ) (f g : ℝ → Θ → ℝ) (h : ∀ w ∈ ws, ∀ a ∈ as, f w a ≤ g w a) : (List.zipWith f ws as).sum ≤ (List.zipWith g ws as).sum := by
  induction ws generalizing as with
  | nil => simp
  | cons w ws ih =>
    cases as with
    | nil => simp
    | cons a as =>
      simp only [List.zipWith_cons_cons, List.sum_cons]
      exact add_le_add (h w (by simp) a (by simp)) (ih as fun v hv b hb => h v (by simp [hv]) b (by simp [hb]))

/-- **C97, how far the weights are off.** If perturbations of all particles are refused with probabilities from `z0` to `z1`, weight times density of the proposals is the prior density up to a factor
between `1 / (1 - z0)` and `1 / (1 - z1)`. -/
theorem C97_bounds_partial (n : Nat) (p : Pop Θ) (R : Θ → ℝ) (z0 z1 : ℝ) (hz : z1 < 1) (hR : ∀ a ∈ p.params, z0 ≤ R a ∧ R a ≤ z1) (hw : ∀ w ∈ p.weights, 0 ≤ w)
    (θ : Θ) (hk : ∀ a ∈ p.params, 0 ≤ env.kernel p a θ) (hpdf : 0 ≤ env.pdf θ) (hm : mixture env p θ ≠ 0) :
    1 / (1 - z0) * env.pdf θ ≤ rawWeight env n (some p) θ * proposalDensity env p R θ ∧ rawWeight env n (some p) θ * proposalDensity env p R θ ≤ 1 / (1 - z1) * env.pdf θ := by
  have hlo : 1 / (1 - z0) * mixture env p θ ≤ proposalDensity env p R θ := by
    unfold mixture proposalDensity
    rw [← zipWith_const p.weights p.params (fun w a => 1 / (1 - z0) * (w * env.kernel p a θ)) _ (1 / (1 - z0)) fun _ _ _ => rfl]
    refine zipWith_bound _ _ _ _ fun w hwm a ha => ?_
    obtain ⟨h0, h1⟩ := hR a ha
    rw [show w * (env.kernel p a θ / (1 - R a)) = 1 / (1 - R a) * (w * env.kernel p a θ) by ring]
    exact mul_le_mul_of_nonneg_right (one_div_le_one_div_of_le (by linarith) (by linarith)) (mul_nonneg (hw w hwm) (hk a ha))
  have hhi : proposalDensity env p R θ ≤ 1 / (1 - z1) * mixture env p θ := by
    unfold mixture proposalDensity
    rw [← zipWith_const p.weights p.params (fun w a => 1 / (1 - z1) * (w * env.kernel p a θ)) _ (1 / (1 - z1)) fun _ _ _ => rfl]
    refine zipWith_bound _ _ _ _ fun w hwm a ha => ?_
    obtain ⟨h0, h1⟩ := hR a ha
    rw [show w * (env.kernel p a θ / (1 - R a)) = 1 / (1 - R a) * (w * env.kernel p a θ) by ring]
    exact mul_le_mul_of_nonneg_right (one_div_le_one_div_of_le (by linarith) (by linarith)) (mul_nonneg (hw w hwm) (hk a ha))
  have hpos : 0 ≤ mixture env p θ := by
    unfold mixture
    have := zipWith_bound p.weights p.params (fun _ _ => 0) (fun w a => w * env.kernel p a θ) fun w hwm a ha => mul_nonneg (hw w hwm) (hk a ha)
    have h0 : (List.zipWith (fun (_ : ℝ) (_ : Θ) => (0 : ℝ)) p.weights p.params).sum = 0 := by
      rw [zipWith_const p.weights p.params (fun _ _ => 0) (fun _ _ => 0) 0 (by simp)]; simp
    rw [h0] at this
    exact this
  have hq : 0 ≤ env.pdf θ / mixture env p θ := div_nonneg hpdf hpos
  have he : ∀ c, c * env.pdf θ = env.pdf θ / mixture env p θ * (c * mixture env p θ) := fun c => by field_simp
  rw [rawWeight, he, he]
  exact ⟨mul_le_mul_of_nonneg_left hlo hq, mul_le_mul_of_nonneg_left hhi hq⟩

/-- A model with two values and the proposals of `Smc.cutLaw`: from `false` half of them are refused. -/
noncomputable def cutEnv : Env (List (Option Bool)) Bool Unit :=
  ⟨none, fun _ => 0, fun _ => 1 / 2, fun _ a b => cutLaw a (some b), fun _ => false, fun l => (l, false), fun _ l => (l, 0), fun _ _ l => draw l, fun _ l => (l, ())⟩

/-- The partial theorem is not void: refusals with probability 1/2 from the only particle. -/
example : let p : Pop Bool := ⟨[false], [1]⟩
    (∀ a ∈ p.params, refusal cutEnv.pdf [none, some false, some true] (cutLaw a) = 1 / 2) ∧ mixture cutEnv p true ≠ 0 := by
  refine ⟨?_, by norm_num [mixture, cutEnv, cutLaw]⟩
  intro a ha
  obtain rfl : a = false := by simpa using ha
  have hs : ∀ b, ¬ Refused cutEnv.pdf (some b) := fun b h => by have := h b rfl; norm_num [cutEnv] at this
  have hn : Refused cutEnv.pdf (none : Option Bool) := fun θ h => by cases h
  simp [refusal, hn, hs, cutLaw]

/-- C97 fails. Two particles of weight 1/2 in a model where `kernel` is the law of a single perturbation and refusals have the probabilities 1/2 and 0. Both values have the same prior density; weight
times density of the proposals is 3/4 for one and 5/8 for the other. -/
theorem C97_violated : let p : Pop Bool := ⟨[false, true], [1 / 2, 1 / 2]⟩
    let outcomes := [none, some false, some true]
    let R := fun a => refusal cutEnv.pdf outcomes (cutLaw a)
    (∀ a b, cutEnv.kernel p a b = mass outcomes (cutLaw a) b) ∧ R false = 1 / 2 ∧ R true = 0 ∧
    cutEnv.pdf false = cutEnv.pdf true ∧
    rawWeight cutEnv 2 (some p) false * proposalDensity cutEnv p R false = 3 / 4 ∧ rawWeight cutEnv 2 (some p) true * proposalDensity cutEnv p R true = 5 / 8 := by
  intro p outcomes R
  have hn : Refused cutEnv.pdf (none : Option Bool) := fun θ h => by cases h
  have hs : ∀ b, ¬ Refused cutEnv.pdf (some b) := fun b h => by have := h b rfl; norm_num [cutEnv] at this
  have R0 : R false = 1 / 2 := by simp [R, refusal, outcomes, hn, hs, cutLaw]
  have R1 : R true = 0 := by simp [R, refusal, outcomes, hn, hs, cutLaw]
  refine ⟨?_, R0, R1, rfl, ?_, ?_⟩
  · intro a b; cases b <;> simp [mass, outcomes, cutEnv]
  · simp only [rawWeight, mixture, proposalDensity, p, List.zipWith_cons_cons, List.zipWith_nil_right, List.sum_cons, List.sum_nil, R0, R1]
    norm_num [cutEnv, cutLaw]
  · simp only [rawWeight, mixture, proposalDensity, p, List.zipWith_cons_cons, List.zipWith_nil_right, List.sum_cons, List.sum_nil, R0, R1]
    norm_num [cutEnv, cutLaw]

/-- In the model of `C97_violated` the bounds of `C97_bounds_partial` are 1 and 2 times the prior density 1/2. -/
example : let p : Pop Bool := ⟨[false, true], [1 / 2, 1 / 2]⟩
    let R := fun a => refusal cutEnv.pdf [none, some false, some true] (cutLaw a)
    ∀ b, 1 / 2 ≤ rawWeight cutEnv 2 (some p) b * proposalDensity cutEnv p R b ∧ rawWeight cutEnv 2 (some p) b * proposalDensity cutEnv p R b ≤ 1 := by
  intro p R b
  obtain ⟨-, h0, h1, -⟩ := C97_violated
  have := C97_bounds_partial cutEnv 2 p R 0 (1 / 2) (by norm_num) (by
    intro a _
    cases a
    · rw [show R false = 1 / 2 from h0]; norm_num
    · rw [show R true = 0 from h1]; norm_num) (by simp [p]) b (by
    intro a _; cases a <;> cases b <;> norm_num [cutEnv, cutLaw]) (by norm_num [cutEnv]) (by cases b <;> norm_num [mixture, cutEnv, cutLaw, p])
  have e : cutEnv.pdf b = 1 / 2 := rfl
  rw [e] at this
  norm_num at this ⊢
  exact this

end Verif.Pmc
