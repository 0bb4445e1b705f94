import Mathlib.Data.Real.Basic
import Mathlib.Algebra.BigOperators.Group.Finset.Basic
/-
The network that computes its own derivatives (`abcpy/NN_utilities/networks.py` 159-323), the losses built on it (`abcpy/NN_utilities/losses.py` 43-61) and the batches of `ExponentialFamilyScoreMatching`
(`abcpy/statisticslearning.py` 1540-1814). Tensors are functions of their indices; indices outside of the shape are not used. Numbers are reals.
-/
namespace Verif.Deriv

/-- A linear layer `nn.Linear(width, _)`. -/
structure Layer where
  width : Nat
  weight : Nat → Nat → ℝ
  bias : Nat → ℝ

/-- The nonlinearity: its values, what `x1.grad_fn(torch.ones_like(x1))` gives at `x` and what `grad(z, x, torch.ones_like(z))` gives (lines 258, 262). The theorems assume that these are the derivatives. -/
structure Act where
  value : ℝ → ℝ
  first : ℝ → ℝ
  second : ℝ → ℝ

/-- The network: `fc_in`, then the layers `fc_hidden` and `fc_out` in this order; there are none if `hidden_sizes` is an empty list (lines 195-217). -/
structure Net where
  input : Layer
  layers : List Layer
  act : Act

/-- A batch of vectors: row, component. -/
abbrev Batch := Nat → Nat → ℝ

/-- The call of a linear layer. -/
def Layer.apply (L : Layer) (x : Batch) : Batch := fun b o => ∑ k ∈ Finset.range L.width, L.weight o k * x b k + L.bias o

/-- `F.linear(f, weight)`: no bias; the last index is summed over. -/
def Layer.linear (L : Layer) (f : Nat → ℝ) : Nat → ℝ := fun o => ∑ k ∈ Finset.range L.width, L.weight o k * f k

/-- `forward`, lines 219-234: the loop over the hidden layers and the last layer. -/
def forwardLoop (act : Act) : List Layer → Batch → Batch
  | [], x => x
  | L :: ls, x => forwardLoop act ls (L.apply fun b k => act.value (x b k))

def Net.forward (net : Net) (x : Batch) : Batch := forwardLoop net.act net.layers (net.input.apply x)

/-- The loop of `forward_and_derivatives`, lines 252-276: `f` and `s` have the indices input, row, component. -/
def derivativesLoop (act : Act) : List Layer → Batch → (Nat → Batch) → (Nat → Batch) → Batch × (Nat → Batch) × (Nat → Batch)
  | [], x, f, s => (x, f, s)
  | L :: ls, x, f, s =>
    let z : Batch := fun b k => act.first (x b k)
    let s' : Nat → Batch := fun i b k => z b k * s i b k + act.second (x b k) * f i b k ^ 2
    let f' : Nat → Batch := fun i b k => z b k * f i b k
    derivativesLoop act ls (L.apply fun b k => act.value (x b k)) (fun i b => L.linear (f' i b)) (fun i b => L.linear (s' i b))

/-- `forward_and_derivatives`, lines 236-283: the outputs, and first and second derivatives with the indices row, input, output. -/
def Net.derivatives (net : Net) (x : Batch) : Batch × (Nat → Nat → Nat → ℝ) × (Nat → Nat → Nat → ℝ) :=
  let r := derivativesLoop net.act net.layers (net.input.apply x) (fun i _ o => net.input.weight o i) (fun _ _ _ => 0)
  (r.1, fun b i o => r.2.1 i b o, fun b i o => r.2.2 i b o)

/-- The loop of `forward_and_full_derivatives`, lines 299-318. -/
def fullLoop (act : Act) : List Layer → Batch → (Nat → Batch) → (Nat → Nat → Batch) → Batch × (Nat → Batch) × (Nat → Nat → Batch)
  | [], x, f, h => (x, f, h)
  | L :: ls, x, f, h =>
    let z : Batch := fun b k => act.first (x b k)
    let h' : Nat → Nat → Batch := fun i j b k => z b k * h i j b k + act.second (x b k) * (f i b k * f j b k)
    let f' : Nat → Batch := fun i b k => z b k * f i b k
    fullLoop act ls (L.apply fun b k => act.value (x b k)) (fun i b => L.linear (f' i b)) (fun i j b => L.linear (h' i j b))

/-- `forward_and_full_derivatives`, lines 285-321: the matrix of second derivatives has the indices row, input, input, output; `transpose(0, 2)` exchanges row and first input. -/
def Net.full (net : Net) (x : Batch) : Batch × (Nat → Nat → Nat → ℝ) × (Nat → Nat → Nat → Nat → ℝ) :=
  let r := fullLoop net.act net.layers (net.input.apply x) (fun i _ o => net.input.weight o i) (fun _ _ _ _ => 0)
  (r.1, fun b i o => r.2.1 i b o, fun b j i o => r.2.2 i j b o)

/-- `Fisher_divergence_loss`, losses.py 43-53, for `n` rows, `d` inputs and `m` outputs. The two branches agree when `lam` is zero. -/
noncomputable def fisherLoss (n d m : Nat) (first second : Nat → Nat → Nat → ℝ) (eta : Batch) (lam : ℝ) : ℝ :=
  if lam = 0 then
    ∑ b ∈ Finset.range n, ∑ i ∈ Finset.range d, (1 / 2 * (∑ k ∈ Finset.range m, first b i k * eta b k) ^ 2 + ∑ k ∈ Finset.range m, second b i k * eta b k)
  else
    ∑ b ∈ Finset.range n, ∑ i ∈ Finset.range d, (1 / 2 * (∑ k ∈ Finset.range m, first b i k * eta b k) ^ 2 + ∑ k ∈ Finset.range m, second b i k * eta b k +
      lam * (∑ k ∈ Finset.range m, second b i k * eta b k) ^ 2)

/-- `torch.cat((eta, torch.ones(n, 1)), dim=1)` for `m` columns. -/
def appendOne (m : Nat) (eta : Batch) : Batch := fun b k => if k < m then eta b k else 1

/-- `Fisher_divergence_loss_with_c_x`, losses.py 56-61: `m` columns of `eta`, one more output. -/
noncomputable def fisherLossWithC (n d m : Nat) (first second : Nat → Nat → Nat → ℝ) (eta : Batch) (lam : ℝ) : ℝ :=
  fisherLoss n d (m + 1) first second (appendOne m eta) lam

/-- `_batch_Fisher_div_with_c_x`, statisticslearning.py 1753-1764, for a network that computes its derivatives. -/
noncomputable def batchLoss (net : Net) (n d m : Nat) (samples eta : Batch) (lam : ℝ) : ℝ :=
  fisherLossWithC n d m (net.derivatives samples).2.1 (net.derivatives samples).2.2 eta lam / n

end Verif.Deriv
