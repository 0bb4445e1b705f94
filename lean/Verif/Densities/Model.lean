import Mathlib.Probability.Distributions.Gaussian.Real
import Mathlib.Probability.Distributions.Gamma

/-!
# The continuous distributions: sampler and density function

abcpy/continuousmodels.py, `Normal`, `StudentT`, `LogNormal`, `Exponential`, and abcpy/discretemodels.py, `Poisson`. Numbers are reals.

Trusted descriptions (numpy `RandomState`, scipy): `rng.normal(m, s)` is `m + s z` with `z` standard normal;
`rng.lognormal(m, s)` is `exp (rng.normal(m, s))`; `rng.exponential(b)` is `- b log (1 - u)` with `u` uniform on the unit interval;
`rng.standard_t(d)` is `sqrt (d / 2) z / sqrt g` with `z` standard normal and `g` an independent gamma variable of shape `d / 2`;
`rng.poisson(n)` has the Poisson law; and the formulas of `scipy.stats` quoted below.
-/

namespace Verif.Densities

open MeasureTheory ProbabilityTheory Real

/-- The uniform law on the open unit interval (`rng.random_sample()`). -/
noncomputable def unitLaw : Measure ℝ := volume.restrict (Set.Ioo 0 1)

/-- The standard normal law (`rng.randn()`). -/
noncomputable def stdNormal : Measure ℝ := gaussianReal 0 1

/-! ### scipy -/

/-- `scipy.stats.norm(loc, scale).pdf(x)` (trusted description). -/
noncomputable def scipyNorm (loc scale x : ℝ) : ℝ :=
  exp (-((x - loc) / scale) ^ 2 / 2) / √(2 * π) / scale

/-- `scipy.stats.lognorm(s, scale=scale).pdf(x)` (trusted description): zero at and below the origin. -/
noncomputable def scipyLognorm (s scale x : ℝ) : ℝ :=
  if 0 < x then 1 / (s * (x / scale) * √(2 * π)) * exp (-(log (x / scale)) ^ 2 / (2 * s ^ 2)) / scale else 0

/-- `scipy.stats.expon(scale=scale).pdf(x)` (trusted description). -/
noncomputable def scipyExpon (scale x : ℝ) : ℝ := if 0 ≤ x / scale then exp (-(x / scale)) / scale else 0

/-- `scipy.stats.poisson(mu).pmf(x)` (trusted description), at a nonnegative integer. -/
noncomputable def scipyPoisson (mu : ℝ) (x : ℕ) : ℝ := exp (-mu) * mu ^ x / x.factorial

/-! ### Normal -/

/-- `Normal._check_input`, continuousmodels.py 147-156. -/
noncomputable def normalCheck : List ℝ → Bool
  | [_, sigma] => !decide (sigma ≤ 0)
  | _ => false

/-- `Normal.forward_simulate`, continuousmodels.py 183-186: one draw, as a function of the standard normal number. -/
def normalDraw (mu sigma z : ℝ) : ℝ := mu + sigma * z

/-- The law of one draw of `Normal.forward_simulate`. -/
noncomputable def normalLaw (mu sigma : ℝ) : Measure ℝ := stdNormal.map (normalDraw mu sigma)

/-- `Normal.pdf`, continuousmodels.py 211-215. -/
noncomputable def normalPdf (mu sigma x : ℝ) : ℝ := scipyNorm mu sigma x

/-! ### StudentT -/

/-- `StudentT._check_input`, continuousmodels.py 267-278. -/
noncomputable def studentCheck : List ℝ → Bool
  | [_, df] => !decide (df ≤ 0)
  | _ => false

/-- `StudentT.forward_simulate`, continuousmodels.py 262-265: one draw, as a function of the gamma and the standard normal number. -/
noncomputable def studentDraw (mean df : ℝ) (e : ℝ × ℝ) : ℝ := √(df / 2) * e.2 / √e.1 + mean

/-- The law of one draw of `StudentT.forward_simulate`. -/
noncomputable def studentLaw (mean df : ℝ) : Measure ℝ :=
  ((gammaMeasure (df / 2) 1).prod stdNormal).map (studentDraw mean df)

/-- `StudentT.pdf`, continuousmodels.py 308-312, on a fresh argument. -/
noncomputable def studentPdf (mean df x : ℝ) : ℝ :=
  let y := x - mean
  Gamma ((df + 1) / 2) / (√(df * π) * Gamma (df / 2) * (1 + y ^ 2 / df) ^ ((df + 1) / 2))

/-! ### LogNormal -/

/-- `LogNormal._check_input`, continuousmodels.py 613-622. -/
noncomputable def lognormalCheck : List ℝ → Bool
  | [_, sigma] => !decide (sigma ≤ 0)
  | _ => false

/-- `LogNormal.forward_simulate`, continuousmodels.py 649-652. -/
noncomputable def lognormalDraw (mu sigma z : ℝ) : ℝ := exp (mu + sigma * z)

/-- The law of one draw of `LogNormal.forward_simulate`. -/
noncomputable def lognormalLaw (mu sigma : ℝ) : Measure ℝ := stdNormal.map (lognormalDraw mu sigma)

/-- `LogNormal.pdf`, continuousmodels.py 677-681. -/
noncomputable def lognormalPdf (mu sigma x : ℝ) : ℝ := scipyLognorm sigma (exp mu) x

/-! ### Exponential -/

/-- `Exponential._check_input`, continuousmodels.py 709-718. -/
noncomputable def exponentialCheck : List ℝ → Bool
  | [rate] => !decide (rate ≤ 0)
  | _ => false

/-- `Exponential.forward_simulate`, continuousmodels.py 744-748. -/
noncomputable def exponentialDraw (rate u : ℝ) : ℝ :=
  let scale := 1 / rate;
  -scale * log (1 - u)

/-- The law of one draw of `Exponential.forward_simulate`. -/
noncomputable def exponentialLaw (rate : ℝ) : Measure ℝ := unitLaw.map (exponentialDraw rate)

/-- `Exponential.pdf`, continuousmodels.py 773-777. -/
noncomputable def exponentialPdf (rate x : ℝ) : ℝ :=
  let scale := 1 / rate
  scipyExpon scale x

/-! ### Poisson -/

/-- `Poisson._check_input`, discretemodels.py 229-239; the empty list is an `IndexError`, here `none`. -/
noncomputable def poissonCheck : List ℝ → Option Bool
  | [] => none
  | [rate] => some !decide (rate < 0)
  | _ => some false

/-- `Poisson.pmf`, discretemodels.py 290-292: the rate is truncated (`int` of a nonnegative number). -/
noncomputable def poissonPmf (rate : ℝ) (x : ℕ) : ℝ := scipyPoisson (⌊rate⌋₊ : ℝ) x

/-- The mass function of one draw of `Poisson.forward_simulate`, discretemodels.py 268: `rng.poisson(int(rate))`. -/
noncomputable def poissonDrawMass (rate : ℝ) (x : ℕ) : ℝ := scipyPoisson (⌊rate⌋₊ : ℝ) x

end Verif.Densities
