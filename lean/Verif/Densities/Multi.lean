import Mathlib.LinearAlgebra.Matrix.PosDef
import Mathlib.Analysis.Matrix.PosDef
import Mathlib.Algebra.Order.Star.Real
import Verif.Densities.Model

/-!
# The multivariate distributions: checks, sampler and density function

abcpy/continuousmodels.py, `MultivariateNormal` and `MultiStudentT`. Numbers are reals.

Trusted descriptions: `np.linalg.cholesky` reads the lower triangle and succeeds exactly if the symmetric matrix with that lower triangle
is positive definite; `rng.multivariate_normal(mean, cov)` is `z (sqrt(s) v) + mean` with `z` standard normal and `u s v` a singular
value decomposition of `cov`; `scipy.stats.multivariate_normal(mean, cov).pdf` is the density formula with the symmetric matrix read from the lower
triangle of `cov` (`scipy.linalg.eigh`); `rng.chisquare(d)` is `2 g` with `g` a gamma variable of shape `d / 2`.
-/

namespace Verif.Densities

open MeasureTheory ProbabilityTheory Real Matrix

/-- `input_values[0:dim]`. -/
def meanOf (dim : ℕ) (input : List ℝ) : Fin dim → ℝ := fun i => input.getD i 0

/-- `np.array(input_values[dim:dim + dim ** 2]).reshape((dim, dim))`, continuousmodels.py 361, 404, 432, 488, 537, 574. -/
def covOf (dim : ℕ) (input : List ℝ) : Matrix (Fin dim) (Fin dim) ℝ := fun i j => input.getD (dim + i * dim + j) 0

/-- `np.allclose(a, b, atol=1e-3)` with the default relative tolerance. -/
def allclose {dim : ℕ} (a b : Matrix (Fin dim) (Fin dim) ℝ) : Prop :=
  ∀ i j, |a i j - b i j| ≤ 1 / 1000 + 1 / 100000 * |b i j|

/-- The symmetric matrix with the lower triangle of `c`. -/
def lowerSym {dim : ℕ} (c : Matrix (Fin dim) (Fin dim) ℝ) : Matrix (Fin dim) (Fin dim) ℝ :=
  fun i j => if j ≤ i then c i j else c j i

/-- `MultivariateNormal._check_input`, continuousmodels.py 350-373. -/
def mvnCheck (dim : ℕ) (input : List ℝ) : Prop :=
  input.length = dim + dim ^ 2 ∧ allclose (covOf dim input) (covOf dim input)ᵀ ∧ (lowerSym (covOf dim input)).PosDef

/-- `MultiStudentT._check_input`, continuousmodels.py 475-505; the degrees of freedom are the last value. -/
def multiTCheck (dim : ℕ) (input : List ℝ) : Prop :=
  input.length = dim + dim ^ 2 + 1 ∧ allclose (covOf dim input) (covOf dim input)ᵀ ∧ (lowerSym (covOf dim input)).PosDef
    ∧ ¬ input.getD (dim + dim ^ 2) 0 ≤ 0

/-- A singular value decomposition `c = u s v`. -/
structure Svd {dim : ℕ} (c : Matrix (Fin dim) (Fin dim) ℝ) where
  u : Matrix (Fin dim) (Fin dim) ℝ
  s : Fin dim → ℝ
  v : Matrix (Fin dim) (Fin dim) ℝ
  orthU : uᵀ * u = 1
  orthV : v * vᵀ = 1
  nonneg : ∀ i, 0 ≤ s i
  eq : c = u * diagonal s * v

/-- The factor `sqrt(s) v` of `rng.multivariate_normal`. -/
noncomputable def Svd.factor {dim : ℕ} {c : Matrix (Fin dim) (Fin dim) ℝ} (d : Svd c) : Matrix (Fin dim) (Fin dim) ℝ :=
  diagonal (fun i => √(d.s i)) * d.v

/-- Independent standard normal numbers. -/
noncomputable def stdMulti (dim : ℕ) : Measure (Fin dim → ℝ) := Measure.pi fun _ => stdNormal

/-- `MultivariateNormal.forward_simulate`, continuousmodels.py 402-406: one draw. -/
noncomputable def mvnDraw {dim : ℕ} (mean : Fin dim → ℝ) {c : Matrix (Fin dim) (Fin dim) ℝ} (d : Svd c) (z : Fin dim → ℝ) :
    Fin dim → ℝ := z ᵥ* d.factor + mean

/-- The law of one draw of `MultivariateNormal.forward_simulate`. -/
noncomputable def mvnLaw {dim : ℕ} (mean : Fin dim → ℝ) {c : Matrix (Fin dim) (Fin dim) ℝ} (d : Svd c) : Measure (Fin dim → ℝ) :=
  (stdMulti dim).map (mvnDraw mean d)

/-- `scipy.stats.multivariate_normal(mean, cov).pdf(x)` (trusted description). -/
noncomputable def scipyMvn {dim : ℕ} (mean : Fin dim → ℝ) (c : Matrix (Fin dim) (Fin dim) ℝ) (x : Fin dim → ℝ) : ℝ :=
  exp (-(1 / 2) * ((x - mean) ⬝ᵥ (lowerSym c)⁻¹ *ᵥ (x - mean))) / √((2 * π) ^ dim * (lowerSym c).det)

/-- `MultivariateNormal.pdf`, continuousmodels.py 411-436. -/
noncomputable def mvnPdf {dim : ℕ} (mean : Fin dim → ℝ) (c : Matrix (Fin dim) (Fin dim) ℝ) (x : Fin dim → ℝ) : ℝ :=
  scipyMvn mean c x

/-- `MultiStudentT.forward_simulate`, continuousmodels.py 534-547, finite degrees of freedom: one draw, as a function of the gamma number and the standard normal
numbers. -/
noncomputable def multiTDraw {dim : ℕ} (mean : Fin dim → ℝ) {c : Matrix (Fin dim) (Fin dim) ℝ} (d : Svd c) (df : ℝ)
    (e : ℝ × (Fin dim → ℝ)) : Fin dim → ℝ :=
  let chisq := 2 * e.1 / df
  let mvn := e.2 ᵥ* d.factor + 0
  fun i => mean i + mvn i / √chisq

/-- The law of one draw of `MultiStudentT.forward_simulate`. -/
noncomputable def multiTLaw {dim : ℕ} (mean : Fin dim → ℝ) {c : Matrix (Fin dim) (Fin dim) ℝ} (d : Svd c) (df : ℝ) :
    Measure (Fin dim → ℝ) :=
  ((gammaMeasure (df / 2) 1).prod (stdMulti dim)).map (multiTDraw mean d df)

/-- `MultiStudentT.pdf`, continuousmodels.py 570-584. -/
noncomputable def multiTPdf {dim : ℕ} (mean : Fin dim → ℝ) (c : Matrix (Fin dim) (Fin dim) ℝ) (df : ℝ) (x : Fin dim → ℝ) : ℝ :=
  let p : ℝ := dim
  let numerator := Gamma ((df + p) / 2)
  let denominator := Gamma (df / 2) * (df * π) ^ (p / 2) * √|c.det|
  let tmp := 1 + 1 / df * ((x - mean) ᵥ* c⁻¹ ⬝ᵥ (x - mean))
  numerator / denominator * tmp ^ (-((df + p) / 2))

end Verif.Densities
