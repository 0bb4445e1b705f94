import Verif.Deriv.Props
/-
Training of `ExponentialFamilyScoreMatching` (`abcpy/statisticslearning.py` 1540-1814): the sliced loss, and the batches of an epoch. `torch.autograd.grad` is taken to give exact partial derivatives.
-/
namespace Verif.Deriv

/-- `autograd.grad(F(x), x)[0]`. -/
noncomputable def autograd (F : Batch → ℝ) (x : Batch) : Batch := fun b i => partialAt F b i x

/-- `_single_sliced_score_matching`, lines 1775-1814, for `n` samples of dimension `d`, `m` columns of `etas` and the noise `vectors`. -/
noncomputable def slicedLoss (net : Net) (n d m : Nat) (samples etas vectors : Batch) (varianceReduction : Bool) : ℝ :=
  let etas' := appendOne m etas
  let logp : Batch → ℝ := fun x => ∑ b ∈ Finset.range n, ∑ k ∈ Finset.range (m + 1), etas' b k * net.forward x b k
  let grad1 : Batch → Batch := fun x => autograd logp x
  let gradv : Batch → ℝ := fun x => ∑ b ∈ Finset.range n, ∑ i ∈ Finset.range d, grad1 x b i * vectors b i
  let loss1 : Nat → ℝ := fun b =>
    if varianceReduction then (Real.sqrt (∑ i ∈ Finset.range d, grad1 samples b i ^ 2)) ^ 2 * (1 / 2)
    else (∑ i ∈ Finset.range d, grad1 samples b i * vectors b i) ^ 2 * (1 / 2)
  let grad2 := autograd gradv samples
  let loss2 : Nat → ℝ := fun b => ∑ i ∈ Finset.range d, vectors b i * grad2 b i
  (∑ b ∈ Finset.range n, (loss1 b + loss2 b)) / n

/-- The loop over the batches of one epoch, lines 1643-1679: `step` is the loss of a batch and the update of the two networks. Returns networks, sum of losses and `batch_index`; `none` if the loop does not end
with this fuel. -/
noncomputable def batchLoop {T A : Type} (step : T → List A → T × ℝ) (batchSize : Nat) (indices : List A) : Nat → Nat → T → ℝ → Option (T × ℝ × Nat)
  | 0, _, _, _ => none
  | fuel + 1, k, t, total =>
    if batchSize * k < indices.length then
      let r := step t ((indices.take (batchSize * (k + 1))).drop (batchSize * k))
      batchLoop step batchSize indices fuel (k + 1) r.1 (total + r.2)
    else some (t, total, k)

/-- One epoch, lines 1639-1681: `indices` is the permutation drawn; the loss appended to the list. -/
noncomputable def epoch {T A : Type} (step : T → List A → T × ℝ) (batchSize fuel : Nat) (indices : List A) (t : T) : Option (T × ℝ) :=
  match batchLoop step batchSize indices fuel 0 t 0 with
  | none => none
  | some (t, total, k) => some (t, total / (k + 1))

end Verif.Deriv
