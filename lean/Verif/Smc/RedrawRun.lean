import Verif.Smc.Redraw

/-!
# C179: averages estimated by the weighted particles of `SMCABC` when refused proposals are drawn again

As `Verif.Smc.Target`, but with the loop that draws proposals again until the prior does not exclude them.
-/

namespace Verif.Smc

open Verif.Pmc (Pop)
open MeasureTheory ProbabilityTheory Measure Set
open scoped ENNReal

variable {W X Y : Type} [MeasurableSpace X] [MeasurableSpace Y] {env : Env W X Y} {sim : Kernel X Y}

/-! ### Model -/

/-- As `after` (`abcpy/inferences.py` 3406-3574), with moves whose refused proposals are drawn again, given that the loops end within `tries` draws. -/
noncomputable def afterRedrawn (env : Env W X Y) (sim : Kernel X Y) (tries : ℕ) : ℝ → List (Stage X) → (X × Y → ℝ → ℝ≥0∞) → X × Y → ℝ → ℝ≥0∞
  | _, [], f, z, w => f z w
  | e, s :: ss, f, z, w =>
    let w' := reweight env e s.eps z.2 w
    if 0 < w' then redrawMean env s.pop s.law sim tries s.eps (fun z => afterRedrawn env sim tries s.eps ss f z w') z else afterRedrawn env sim tries s.eps ss f z w'

/-- As `runMean`: particles are drawn from the prior with their simulations. -/
noncomputable def runRedrawn (env : Env W X Y) (sim : Kernel X Y) (tries : ℕ) (prior : Measure X) (e : ℝ) (ss : List (Stage X)) (f : X × Y → ℝ → ℝ≥0∞) : ℝ≥0∞ :=
  ∫⁻ x, ∫⁻ y, afterRedrawn env sim tries e ss f (x, y) 1 ∂sim x ∂prior

/-! ### Proofs -/

variable {p : Pop X} {K : Kernel X X} {μ prior : Measure X} [SFinite μ] [IsMarkovKernel sim]

theorem Setting.redrawMeas (S : Setting env p K μ prior) (tries : ℕ) (ht : 0 < tries) (e : ℝ) (f : X × Y → ℝ≥0∞) (hf : Measurable f) : Measurable (redrawMean env p K sim tries e f) := by
  obtain ⟨k, hkd⟩ : ∃ k : X → X → ℝ≥0∞, k = fun x x' => ENNReal.ofReal (env.kernel p x x') := ⟨_, rfl⟩
  have hk : Measurable fun q : X × X => k q.1 q.2 := by
    rw [hkd]
    exact S.kernelMeas.ennreal_ofReal
  have hKk : ∀ x, μ.withDensity (k x) = K x := fun x => by rw [hkd, S.proposals x]
  have hK : ∀ x, IsProbabilityMeasure (μ.withDensity (k x)) := fun x => by
    have := S.markov
    rw [hKk]
    infer_instance
  have hS : MeasurableSet (support env) := (measurableSet_eq_fun S.pdfMeas measurable_const).compl
  have ha := S.prob0Meas (Y := Y) e
  have ha0 : ∀ z z' : X × Y, 0 ≤ prob0 env e p z.1 z.2 z'.1 z'.2 := fun z z' => (prob0_mem env p S.kernel0 S.pdf0 e _ _ _ _).1
  have := Redraw.moveMeas μ k hk hK _ hS sim tries ht _ ha ha0 f hf
  simp only [hKk] at this
  exact this

theorem Setting.redraw_mul (S : Setting env p K μ prior) (tries : ℕ) (e : ℝ) (f : X × Y → ℝ≥0∞) (hf : Measurable f) (c : ℝ≥0∞) (z : X × Y) :
    redrawMean env p K sim tries e (fun z => c * f z) z = c * redrawMean env p K sim tries e f z := by
  have hi : Measurable fun z' : X × Y => inner env p e f (z, z') := (S.innerMeas e f hf).comp measurable_prodMk_left
  unfold redrawMean Redraw.moveMean
  have h1 : Measurable fun x' => ∫⁻ y', inner env p e f (z, (x', y')) ∂sim x' := hi.lintegral_kernel_prod_right'
  calc _ = ∫⁻ x', c * ∫⁻ y', inner env p e f (z, (x', y')) ∂sim x' ∂Redraw.proposed (K z.1) (support env) tries := by
        refine lintegral_congr fun x' => ?_
        have h2 : Measurable fun y' => inner env p e f (z, (x', y')) := hi.comp measurable_prodMk_left
        rw [← lintegral_const_mul _ h2]
        refine lintegral_congr fun y' => ?_
        simp only [inner]
        ring
    _ = _ := by
        rw [lintegral_const_mul _ h1]
        rfl

/-- The runs without the weights. -/
noncomputable def factoredRedrawn (env : Env W X Y) (sim : Kernel X Y) (tries : ℕ) : ℝ → List (Stage X) → (X × Y → ℝ≥0∞) → X × Y → ℝ≥0∞
  | _, [], f, z => f z
  | e, s :: ss, f, z => ENNReal.ofReal (reweight env e s.eps z.2 1) * redrawMean env s.pop s.law sim tries s.eps (factoredRedrawn env sim tries s.eps ss f) z

theorem factoredRedrawnMeas (tries : ℕ) (ht : 0 < tries) (f : X × Y → ℝ≥0∞) (hf : Measurable f) : ∀ (ss : List (Stage X)) (e : ℝ), (∀ s ∈ ss, Setting env s.pop s.law μ prior) →
    Measurable (factoredRedrawn env sim tries e ss f)
  | [], _, _ => hf
  | s :: ss, e, h => (((h s (by simp)).reweightMeas e s.eps).comp measurable_snd).ennreal_ofReal.mul
      ((h s (by simp)).redrawMeas tries ht s.eps _ (factoredRedrawnMeas tries ht f hf ss s.eps fun t ht => h t (by simp [ht])))

theorem afterRedrawn_eq (tries : ℕ) (ht : 0 < tries) (f : X × Y → ℝ≥0∞) (hf : Measurable f) : ∀ (ss : List (Stage X)) (e : ℝ) (z : X × Y) (w : ℝ), (∀ s ∈ ss, Setting env s.pop s.law μ prior) → 0 ≤ w →
    afterRedrawn env sim tries e ss (fun z w => ENNReal.ofReal w * f z) z w = ENNReal.ofReal w * factoredRedrawn env sim tries e ss f z
  | [], _, _, _, _, _ => rfl
  | s :: ss, e, z, w, h, hw => by
    have h0 := reweight_nonneg (env := env) e s.eps z.2 w hw
    have hss : ∀ s ∈ ss, Setting env s.pop s.law μ prior := fun t ht => h t (by simp [ht])
    have ih := fun z => afterRedrawn_eq tries ht f hf ss s.eps z _ hss h0
    simp only [afterRedrawn, factoredRedrawn]
    rw [← mul_assoc, ← ENNReal.ofReal_mul hw, ← reweight_mul]
    split_ifs with hp
    · simp_rw [ih]
      exact (h s (by simp)).redraw_mul tries s.eps _ (factoredRedrawnMeas tries ht f hf ss s.eps hss) _ z
    · rw [ih z, le_antisymm (not_lt.1 hp) h0]
      simp

/-- A move changes averages under the target by a factor between `c` and `1 / c`, if no value of the support leaves it with a probability above `1 - c`. -/
theorem redraw_between (S : Setting env p K μ prior) (c : ℝ≥0∞) (hc : c ≠ 0) (stays : ∀ x ∈ support env, c ≤ K x (support env)) (tries : ℕ) (ht : 0 < tries) (e : ℝ) (f : X × Y → ℝ≥0∞) (hf : Measurable f) :
    c * targetMean env sim prior e f ≤ targetMean env sim prior e (redrawMean env p K sim tries e f) ∧ c * targetMean env sim prior e (redrawMean env p K sim tries e f) ≤ targetMean env sim prior e f := by
  have := S.markov
  have h := C95_exact (sim := sim) S (fun x hx h0 => hc (le_antisymm (h0 ▸ stays x hx) zero_le)) tries ht e f hf
  have upper : ∀ g : X × Y → ℝ≥0∞, targetMean env sim prior e (fun z => K z.1 (support env) * g z) ≤ targetMean env sim prior e g := fun g =>
    lintegral_mono fun x => lintegral_mono fun y => by
      gcongr
      exact mul_le_of_le_one_left zero_le prob_le_one
  have hin : ∀ᵐ x ∂prior, x ∈ support env := by
    rw [S.prior, ae_withDensity_iff S.pdfMeas.ennreal_ofReal]
    exact Filter.Eventually.of_forall fun x hx hx0 => hx (by rw [hx0, ENNReal.ofReal_zero])
  have lower : ∀ g : X × Y → ℝ≥0∞, Measurable g → c * targetMean env sim prior e g ≤ targetMean env sim prior e (fun z => K z.1 (support env) * g z) := by
    intro g hg
    have hb : Measurable fun z : X × Y => ENNReal.ofReal (below e (env.dists z.2)) * g z := ((S.belowMeas e).comp measurable_snd).ennreal_ofReal.mul hg
    unfold targetMean
    rw [← lintegral_const_mul _ hb.lintegral_kernel_prod_right']
    refine lintegral_mono_ae ?_
    filter_upwards [hin] with x hx
    have hgx : Measurable fun y => g (x, y) := hg.comp measurable_prodMk_left
    have hbx : Measurable fun y => ENNReal.ofReal (below e (env.dists y)) * g (x, y) := (S.belowMeas e).ennreal_ofReal.mul hgx
    rw [← lintegral_const_mul _ hbx]
    refine lintegral_mono fun y => ?_
    dsimp only
    rw [mul_left_comm]
    gcongr
    exact stays x hx
  exact ⟨(lower f hf).trans (h ▸ upper _), (lower _ (S.redrawMeas tries ht e f hf)).trans (h ▸ upper f)⟩

theorem stepsRedrawn (tries : ℕ) (ht : 0 < tries) (c : ℝ≥0∞) (hc : c ≠ 0) (f : X × Y → ℝ≥0∞) (hf : Measurable f) : ∀ (ss : List (Stage X)) (e : ℝ), (∀ s ∈ ss, Setting env s.pop s.law μ prior) →
    (∀ s ∈ ss, ∀ x ∈ support env, c ≤ s.law x (support env)) → (e :: ss.map Stage.eps).Pairwise (fun a b => b ≤ a) →
    c ^ ss.length * targetMean env sim prior (lastEps e ss) f ≤ targetMean env sim prior e (factoredRedrawn env sim tries e ss f) ∧
      c ^ ss.length * targetMean env sim prior e (factoredRedrawn env sim tries e ss f) ≤ targetMean env sim prior (lastEps e ss) f
  | [], _, _, _, _ => by simp [factoredRedrawn, lastEps]
  | s :: ss, e, h, hst, hd => by
    have hle : s.eps ≤ e := (List.pairwise_cons.1 hd).1 s.eps (by simp)
    have hss : ∀ s ∈ ss, Setting env s.pop s.law μ prior := fun t ht => h t (by simp [ht])
    obtain ⟨ih1, ih2⟩ := stepsRedrawn tries ht c hc f hf ss s.eps hss (fun t ht => hst t (by simp [ht])) (List.pairwise_cons.1 hd).2
    have hl : lastEps e (s :: ss) = lastEps s.eps ss := List.getLast_cons (by simp)
    obtain ⟨b1, b2⟩ := redraw_between (sim := sim) (h s (by simp)) c hc (hst s (by simp)) tries ht s.eps _ (factoredRedrawnMeas (sim := sim) tries ht f hf ss s.eps hss)
    have he : targetMean env sim prior e (factoredRedrawn env sim tries e (s :: ss) f) =
        targetMean env sim prior s.eps (redrawMean env s.pop s.law sim tries s.eps (factoredRedrawn env sim tries s.eps ss f)) := by
      unfold targetMean
      refine lintegral_congr fun x => lintegral_congr fun y => ?_
      simp only [factoredRedrawn]
      rw [← mul_assoc, ← ENNReal.ofReal_mul (below_nonneg _ _), reweight_target hle]
    rw [hl, he, List.length_cons, pow_succ']
    constructor
    · rw [mul_assoc]
      refine le_trans ?_ b1
      gcongr
    · rw [mul_comm c, mul_assoc]
      refine le_trans ?_ ih2
      gcongr

/-- The initial threshold has all parts of a simulation on one side. -/
theorem runRedrawn_eq (tries : ℕ) (ht : 0 < tries) (f : X × Y → ℝ≥0∞) (hf : Measurable f) (e : ℝ) (ss : List (Stage X)) (hne : ss ≠ []) (hS : ∀ s ∈ ss, Setting env s.pop s.law μ prior) (n : ℕ)
    (hfirst : ∀ y, below e (env.dists y) = 0 ∨ below e (env.dists y) = n) :
    (n : ℝ≥0∞) * runRedrawn env sim tries prior e ss (fun z w => ENNReal.ofReal w * f z) = targetMean env sim prior e (factoredRedrawn env sim tries e ss f) := by
  have hm := factoredRedrawnMeas (sim := sim) tries ht f hf ss e hS
  have e0 : runRedrawn env sim tries prior e ss (fun z w => ENNReal.ofReal w * f z) = ∫⁻ x, ∫⁻ y, factoredRedrawn env sim tries e ss f (x, y) ∂sim x ∂prior :=
    lintegral_congr fun x => lintegral_congr fun y => by rw [afterRedrawn_eq tries ht f hf ss e (x, y) 1 hS zero_le_one, ENNReal.ofReal_one, one_mul]
  rw [e0]
  unfold targetMean
  have m1 : Measurable fun x => ∫⁻ y, factoredRedrawn env sim tries e ss f (x, y) ∂sim x := Measurable.lintegral_kernel_prod_right' hm
  rw [← lintegral_const_mul _ m1]
  refine lintegral_congr fun x => ?_
  have m2 : Measurable fun y => factoredRedrawn env sim tries e ss f (x, y) := hm.comp measurable_prodMk_left
  rw [← lintegral_const_mul _ m2]
  refine lintegral_congr fun y => ?_
  rcases hfirst y with h | h
  · obtain ⟨s, ss, rfl⟩ := List.exists_cons_of_ne_nil hne
    simp [factoredRedrawn, reweight, h]
  · rw [h, ENNReal.ofReal_natCast]

/-- **C179 with refusals.** If no value of the support is perturbed out of it with a probability above `1 - c`, in any step, what a user estimates with the weights of a journal after `k` steps differs from the average under the target by a factor
between `c ^ (2 k)` and `1 / c ^ (2 k)`. (C95 says why it may differ.) -/
theorem C179_bounds (tries : ℕ) (ht : 0 < tries) (c : ℝ≥0∞) (hc : c ≠ 0) (f : X × Y → ℝ≥0∞) (hf : Measurable f) (e : ℝ) (ss : List (Stage X)) (hne : ss ≠ []) (hS : ∀ s ∈ ss, Setting env s.pop s.law μ prior)
    (hst : ∀ s ∈ ss, ∀ x ∈ support env, c ≤ s.law x (support env)) (hd : (e :: ss.map Stage.eps).Pairwise (fun a b => b ≤ a)) (n : ℕ) (hn : 0 < n)
    (hfirst : ∀ y, below e (env.dists y) = 0 ∨ below e (env.dists y) = n) :
    c ^ (2 * ss.length) * (targetMean env sim prior (lastEps e ss) f / targetMean env sim prior (lastEps e ss) (fun _ => 1)) ≤
        runRedrawn env sim tries prior e ss (fun z w => ENNReal.ofReal w * f z) / runRedrawn env sim tries prior e ss (fun _ w => ENNReal.ofReal w) ∧
      c ^ (2 * ss.length) * (runRedrawn env sim tries prior e ss (fun z w => ENNReal.ofReal w * f z) / runRedrawn env sim tries prior e ss (fun _ w => ENNReal.ofReal w)) ≤
        targetMean env sim prior (lastEps e ss) f / targetMean env sim prior (lastEps e ss) (fun _ => 1) := by
  obtain ⟨a1, a2⟩ := stepsRedrawn (sim := sim) tries ht c hc f hf ss e hS hst hd
  obtain ⟨b1, b2⟩ := stepsRedrawn (sim := sim) tries ht c hc (fun _ => 1) measurable_const ss e hS hst hd
  have r1 := runRedrawn_eq (sim := sim) tries ht f hf e ss hne hS n hfirst
  have r2 := runRedrawn_eq (sim := sim) tries ht (fun _ => 1) measurable_const e ss hne hS n hfirst
  simp only [mul_one] at r2
  rw [← r1] at a1 a2
  rw [← r2] at b1 b2
  have hn0 : (n : ℝ≥0∞) ≠ 0 := by exact_mod_cast hn.ne'
  have hnt : (n : ℝ≥0∞) ≠ ∞ := ENNReal.natCast_ne_top n
  rw [← ENNReal.mul_div_mul_left (runRedrawn env sim tries prior e ss fun z w => ENNReal.ofReal w * f z) _ hn0 hnt]
  set C := c ^ ss.length with hC
  have hC0 : C ≠ 0 := pow_ne_zero _ hc
  have hCt : C ≠ ∞ ∨ ∀ x, x ∉ support env := by
    by_cases hx : ∃ x, x ∈ support env
    · left
      obtain ⟨x, hx⟩ := hx
      obtain ⟨s, ss', rfl⟩ := List.exists_cons_of_ne_nil hne
      have := (hS s (by simp)).markov
      exact ENNReal.pow_ne_top (ne_top_of_le_ne_top (measure_ne_top _ _) (hst s (by simp) x hx))
    · right
      exact fun x h => hx ⟨x, h⟩
  have key : ∀ A B A' B' : ℝ≥0∞, C ≠ ∞ → C * A ≤ A' → C * B' ≤ B → C * C * (A / B) ≤ A' / B' := by
    intro A B A' B' ht h1 h2
    calc C * C * (A / B) = C * A * (C * B⁻¹) := by rw [div_eq_mul_inv]; ring
      _ ≤ A' * B'⁻¹ := by
          refine mul_le_mul' h1 ?_
          rw [ENNReal.le_inv_iff_mul_le]
          calc C * B⁻¹ * B' = (C * B') * B⁻¹ := by ring
            _ ≤ B * B⁻¹ := by gcongr
            _ ≤ 1 := ENNReal.mul_inv_le_one B
  rw [two_mul, pow_add, ← hC]
  rcases hCt with hCt | hno
  · exact ⟨key _ _ _ _ hCt a1 b2, key _ _ _ _ hCt a2 b1⟩
  · have hp : prior = 0 := by
      obtain ⟨s, ss', rfl⟩ := List.exists_cons_of_ne_nil hne
      rw [(hS s (by simp)).prior]
      have : (fun x => ENNReal.ofReal (env.pdf x)) = 0 := by
        funext x
        have : env.pdf x = 0 := not_not.1 (hno x)
        simp [this]
      rw [this, withDensity_zero]
    simp [targetMean, runRedrawn, hp]

theorem stepsEven (tries : ℕ) (ht : 0 < tries) (f : X × Y → ℝ≥0∞) (hf : Measurable f) : ∀ (ss : List (Stage X)) (e : ℝ), (∀ s ∈ ss, Setting env s.pop s.law μ prior) →
    (∀ s ∈ ss, ∃ c, c ≠ 0 ∧ ∀ x ∈ support env, s.law x (support env) = c) → (e :: ss.map Stage.eps).Pairwise (fun a b => b ≤ a) →
    targetMean env sim prior e (factoredRedrawn env sim tries e ss f) = targetMean env sim prior (lastEps e ss) f
  | [], _, _, _, _ => rfl
  | s :: ss, e, h, hst, hd => by
    have hle : s.eps ≤ e := (List.pairwise_cons.1 hd).1 s.eps (by simp)
    have hss : ∀ s ∈ ss, Setting env s.pop s.law μ prior := fun t ht => h t (by simp [ht])
    have ih := stepsEven tries ht f hf ss s.eps hss (fun t ht => hst t (by simp [ht])) (List.pairwise_cons.1 hd).2
    have hl : lastEps e (s :: ss) = lastEps s.eps ss := List.getLast_cons (by simp)
    obtain ⟨c, hc, hev⟩ := hst s (by simp)
    rw [hl, ← ih, ← C95_even (sim := sim) (h s (by simp)) c hc hev tries ht s.eps _ (factoredRedrawnMeas (sim := sim) tries ht f hf ss s.eps hss)]
    unfold targetMean
    refine lintegral_congr fun x => lintegral_congr fun y => ?_
    simp only [factoredRedrawn]
    rw [← mul_assoc, ← ENNReal.ofReal_mul (below_nonneg _ _), reweight_target hle]

/-- **C179 with equal refusals.** If in every step all values of the support are perturbed out of it with the same probability, the estimates are right. -/
theorem C179_even (tries : ℕ) (ht : 0 < tries) (f : X × Y → ℝ≥0∞) (hf : Measurable f) (e : ℝ) (ss : List (Stage X)) (hne : ss ≠ []) (hS : ∀ s ∈ ss, Setting env s.pop s.law μ prior)
    (hst : ∀ s ∈ ss, ∃ c, c ≠ 0 ∧ ∀ x ∈ support env, s.law x (support env) = c) (hd : (e :: ss.map Stage.eps).Pairwise (fun a b => b ≤ a)) (n : ℕ) (hn : 0 < n)
    (hfirst : ∀ y, below e (env.dists y) = 0 ∨ below e (env.dists y) = n) :
    runRedrawn env sim tries prior e ss (fun z w => ENNReal.ofReal w * f z) / runRedrawn env sim tries prior e ss (fun _ w => ENNReal.ofReal w) =
      targetMean env sim prior (lastEps e ss) f / targetMean env sim prior (lastEps e ss) (fun _ => 1) := by
  have r1 := runRedrawn_eq (sim := sim) tries ht f hf e ss hne hS n hfirst
  have r2 := runRedrawn_eq (sim := sim) tries ht (fun _ => 1) measurable_const e ss hne hS n hfirst
  rw [stepsEven tries ht f hf ss e hS hst hd] at r1
  rw [stepsEven tries ht (fun _ => 1) measurable_const ss e hS hst hd] at r2
  simp only [mul_one] at r2
  rw [← r1, ← r2, ENNReal.mul_div_mul_left _ _ (by exact_mod_cast hn.ne') (ENNReal.natCast_ne_top n)]

/-! ### A concrete case -/

theorem edge_noise (x : ℝ) (hx : x ∈ Ioo (0 : ℝ) 1) : gaussianPDF 0 1 1 ≤ gaussianReal x 1 (Ioo 0 1) := by
  rw [gaussianReal_apply _ one_ne_zero]
  have h : ∀ y ∈ Ioo (0 : ℝ) 1, gaussianPDF 0 1 1 ≤ gaussianPDF x 1 y := by
    intro y hy
    refine ENNReal.ofReal_le_ofReal ?_
    simp only [gaussianPDFReal]
    have hle : (y - x) ^ 2 ≤ (1 - 0) ^ 2 := by nlinarith [hx.1, hx.2, hy.1, hy.2]
    gcongr
  calc gaussianPDF 0 1 1 = ∫⁻ _ in Ioo (0 : ℝ) 1, gaussianPDF 0 1 1 := by simp
    _ ≤ _ := setLIntegral_mono' measurableSet_Ioo h

/-- A case of C179_bounds: the uniform prior on the interval between 0 and 1 with a random walk of variance one, two steps. -/
example (tries : ℕ) (ht : 0 < tries) (f : ℝ × ℝ → ℝ≥0∞) (hf : Measurable f) :
    let ss : List (Stage ℝ) := [⟨2, ⟨[], []⟩, noisy 1⟩, ⟨1, ⟨[], []⟩, noisy 1⟩]
    gaussianPDF 0 1 1 ^ 4 * (runRedrawn edgeEnv (noisy 1) tries (volume.restrict (Ioo 0 1)) 100000 ss (fun z w => ENNReal.ofReal w * f z) /
        runRedrawn edgeEnv (noisy 1) tries (volume.restrict (Ioo 0 1)) 100000 ss (fun _ w => ENNReal.ofReal w)) ≤
      targetMean edgeEnv (noisy 1) (volume.restrict (Ioo 0 1)) 1 f / targetMean edgeEnv (noisy 1) (volume.restrict (Ioo 0 1)) 1 (fun _ => 1) := by
  have hset : ∀ s ∈ ([⟨2, ⟨[], []⟩, noisy 1⟩, ⟨1, ⟨[], []⟩, noisy 1⟩] : List (Stage ℝ)), Setting edgeEnv s.pop s.law volume (volume.restrict (Ioo 0 1)) := by
    intro s hs
    simp only [List.mem_cons, List.not_mem_nil, or_false] at hs
    rcases hs with rfl | rfl
    · simpa using edgeEnv_setting ⟨[], []⟩
    · simpa using edgeEnv_setting ⟨[], []⟩
  refine (C179_bounds tries ht (gaussianPDF 0 1 1) (gaussianPDF_pos 0 one_ne_zero 1).ne' f hf 100000 _ (by simp) hset ?_ (by norm_num) 1 one_pos ?_).2
  · intro s hs x hx
    rw [edgeEnv_support] at hx ⊢
    have : s.law = noisy 1 := by
      simp only [List.mem_cons, List.not_mem_nil, or_false] at hs
      rcases hs with rfl | rfl <;> rfl
    rw [this, noisy_apply]
    exact edge_noise x hx
  · intro y
    by_cases h : |y| < 100000 <;> simp [below, edgeEnv, normalEnv, h]

end Verif.Smc
