import Verif.Deriv.Train
/-
Derivatives of any network by automatic differentiation (`abcpy/NN_utilities/utilities.py` 61-162) and the loss of `ExponentialFamilyScoreMatching` built on them (`abcpy/statisticslearning.py` 1753-1764).
Tensors are functions of their indices; indices outside of the shape are not used.
-/
namespace Verif.Deriv

/-- `torch.autograd.grad(output, input, g)[0]` for an output `F x` of `n` rows and `m` columns: the gradient of the sum of all entries of `g * output`. -/
noncomputable def gradWith (n m : Nat) (F : Batch → Batch) (g : Batch) (x : Batch) : Batch :=
  autograd (fun x => ∑ b ∈ Finset.range n, ∑ o ∈ Finset.range m, g b o * F x b o) x

/-- `g = torch.zeros(output.shape); g[:, i] = 1`, lines 79-80. -/
def oneColumn (i : Nat) : Batch := fun _ o => if o = i then 1 else 0

/-- The array `J` before it is transposed, lines 76-85, 107-111 and 147-151: row, output, input. `diffable` does not change values. -/
noncomputable def rawJacobian (n m : Nat) (F : Batch → Batch) (x : Batch) : Nat → Nat → Nat → ℝ := fun b i k => gradWith n m F (oneColumn i) x b k

/-- `jacobian`, lines 61-86: row, input, output. -/
noncomputable def jacobian (n m : Nat) (F : Batch → Batch) (x : Batch) : Nat → Nat → Nat → ℝ := fun b k i => rawJacobian n m F x b i k

/-- `g = torch.zeros(J.shape); g[:, i, j] = 1`, lines 115-116. -/
def oneEntry (i j : Nat) : Nat → Nat → Nat → ℝ := fun _ i' j' => if i' = i ∧ j' = j then 1 else 0

/-- `torch.autograd.grad(J, input, g)[0]` for `J` with `n` rows, `m` outputs and `d` inputs, lines 118 and 158. -/
noncomputable def gradOfJacobian (n d m : Nat) (F : Batch → Batch) (g : Nat → Nat → Nat → ℝ) (x : Batch) : Batch :=
  autograd (fun x => ∑ b ∈ Finset.range n, ∑ i ∈ Finset.range m, ∑ j ∈ Finset.range d, g b i j * rawJacobian n m F x b i j) x

/-- `jacobian_second_order`, lines 89-125: first and second derivatives with the indices row, input, output. -/
noncomputable def jacobianSecondOrder (n d m : Nat) (F : Batch → Batch) (x : Batch) : (Nat → Nat → Nat → ℝ) × (Nat → Nat → Nat → ℝ) :=
  let J2 : Nat → Nat → Nat → ℝ := fun b i j => gradOfJacobian n d m F (oneEntry i j) x b j
  (fun b k i => rawJacobian n m F x b i k, fun b k i => J2 b i k)

/-- `jacobian_hessian`, lines 128-162: `H[:, i, j]` is a gradient; `transpose(3, 1)` gives the indices row, input, input, output. -/
noncomputable def jacobianHessian (n d m : Nat) (F : Batch → Batch) (x : Batch) : (Nat → Nat → Nat → ℝ) × (Nat → Nat → Nat → Nat → ℝ) :=
  let H : Nat → Nat → Nat → Nat → ℝ := fun b i j k => gradOfJacobian n d m F (oneEntry i j) x b k
  (fun b k i => rawJacobian n m F x b i k, fun b k j i => H b i j k)

/-- `_batch_Fisher_div_with_c_x`, statisticslearning.py 1753-1764, for a network without `forward_and_derivatives`: `m + 1` outputs. -/
noncomputable def batchLossAuto (F : Batch → Batch) (n d m : Nat) (samples eta : Batch) (lam : ℝ) : ℝ :=
  let r := jacobianSecondOrder n d (m + 1) F samples
  fisherLossWithC n d m r.1 r.2 eta lam / n

/-- A number of a tensor. -/
inductive Num where
  | fin (r : ℝ)
  | inf
  | negInf
  | nan

/-- Addition of numbers of a tensor; overflow is not modelled. -/
noncomputable def Num.add : Num → Num → Num
  | .nan, _ => .nan
  | _, .nan => .nan
  | .inf, .negInf => .nan
  | .negInf, .inf => .nan
  | .inf, _ => .inf
  | _, .inf => .inf
  | .negInf, _ => .negInf
  | _, .negInf => .negInf
  | .fin a, .fin b => .fin (a + b)

/-- `==` of Python for numbers: `nan` differs from everything. -/
def Num.eq : Num → Num → Prop
  | .fin a, .fin b => a = b
  | .inf, .inf => True
  | .negInf, .negInf => True
  | _, _ => False

/-- `(input.sum() + output.sum()).item() in [np.nan, np.inf]`, lines 74, 102 and 142: whether `ValueError` is raised. `item()` makes a new object, hence membership is decided by `==`. -/
def raises (input output : List Num) : Prop :=
  let s := (input.foldl Num.add (.fin 0)).add (output.foldl Num.add (.fin 0))
  s.eq .nan ∨ s.eq .inf

end Verif.Deriv
