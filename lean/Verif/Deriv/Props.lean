import Verif.Deriv.Model
import Mathlib.Analysis.Calculus.Deriv.Add
import Mathlib.Analysis.Calculus.Deriv.Mul
import Mathlib.Analysis.Calculus.Deriv.Comp
import Mathlib.Analysis.Calculus.Deriv.Pow
import Mathlib.Analysis.SpecialFunctions.ExpDeriv
import Mathlib.Analysis.SpecialFunctions.Log.Deriv
import Mathlib.Tactic.Ring
/-
C126: the derivatives that the network computes along with its output are the derivatives of its output. C127: the loss is the score-matching objective.
-/
namespace Verif.Deriv

/-- Specification: the nonlinearity is twice differentiable and its derivatives are computed exactly. -/
structure Act.Smooth (act : Act) : Prop where
  first : ∀ y, HasDerivAt act.value (act.first y) y
  second : ∀ y, HasDerivAt act.first (act.second y) y

/-- Specification: a batch with component `i` of row `b` replaced by `t`. -/
def put (x : Batch) (b i : Nat) (t : ℝ) : Batch := fun b' k => if b' = b ∧ k = i then t else x b' k

/-- Specification: the partial derivative of a function of a batch with respect to component `i` of row `b`. -/
noncomputable def partialAt (F : Batch → ℝ) (b i : Nat) (x : Batch) : ℝ := deriv (fun t => F (put x b i t)) (x b i)

theorem put_self (x : Batch) (b i : Nat) : put x b i (x b i) = x := by
  funext b' k
  unfold put
  split
  · rename_i h; rw [h.1, h.2]
  · rfl

theorem put_put (x : Batch) (b i : Nat) (t u : ℝ) : put (put x b i t) b i u = put x b i u := by
  funext b' k
  unfold put
  split <;> rfl

theorem put_at (x : Batch) (b i : Nat) (t : ℝ) : put x b i t b i = t := by simp [put]

/-! ### One row -/

/-- The tangent of the loop in one row. -/
def pushF (act : Act) : List Layer → Batch → Nat → (Nat → ℝ) → (Nat → ℝ)
  | [], _, _, v => v
  | L :: ls, x, b, v => pushF act ls (L.apply fun b k => act.value (x b k)) b (L.linear fun k => act.first (x b k) * v k)

/-- The second-order part of the loop in one row, for two tangents. -/
def pushH (act : Act) : List Layer → Batch → Nat → (Nat → ℝ) → (Nat → ℝ) → (Nat → ℝ) → (Nat → ℝ)
  | [], _, _, _, _, h => h
  | L :: ls, x, b, w, v, h => pushH act ls (L.apply fun b k => act.value (x b k)) b (L.linear fun k => act.first (x b k) * w k) (L.linear fun k => act.first (x b k) * v k)
      (L.linear fun k => act.first (x b k) * h k + act.second (x b k) * (w k * v k))

theorem apply_deriv (L : Layer) (X : ℝ → Batch) (b : Nat) (v : Nat → ℝ) (t : ℝ) (h : ∀ k, HasDerivAt (fun t => X t b k) (v k) t) (o : Nat) :
    HasDerivAt (fun t => L.apply (X t) b o) (L.linear v o) t := by
  unfold Layer.apply Layer.linear
  refine HasDerivAt.add_const _ ?_
  exact HasDerivAt.fun_sum fun k _ => (h k).const_mul _

theorem linear_deriv (L : Layer) (V : ℝ → Nat → ℝ) (h : Nat → ℝ) (t : ℝ) (hv : ∀ k, HasDerivAt (fun t => V t k) (h k) t) (o : Nat) :
    HasDerivAt (fun t => L.linear (V t) o) (L.linear h o) t := by
  unfold Layer.linear
  exact HasDerivAt.fun_sum fun k _ => (hv k).const_mul _

theorem loop_first (act : Act) (ha : act.Smooth) (ls : List Layer) : ∀ (X : ℝ → Batch) (b : Nat) (v : Nat → ℝ) (t : ℝ), (∀ k, HasDerivAt (fun t => X t b k) (v k) t) → ∀ o,
    HasDerivAt (fun t => forwardLoop act ls (X t) b o) (pushF act ls (X t) b v o) t := by
  induction ls with
  | nil => intro X b v t h o; exact h o
  | cons L ls ih =>
    intro X b v t h o
    rw [pushF]
    simp only [forwardLoop]
    refine ih (fun t => L.apply fun b k => act.value (X t b k)) b _ t (fun k => ?_) o
    refine apply_deriv L (fun t b k => act.value (X t b k)) b _ t (fun k => ?_) k
    exact (ha.first _).comp t (h k)

theorem loop_second (act : Act) (ha : act.Smooth) (ls : List Layer) : ∀ (X : ℝ → Batch) (b : Nat) (V : ℝ → Nat → ℝ) (w h : Nat → ℝ) (t : ℝ), (∀ k, HasDerivAt (fun t => X t b k) (w k) t) →
    (∀ k, HasDerivAt (fun t => V t k) (h k) t) → ∀ o, HasDerivAt (fun t => pushF act ls (X t) b (V t) o) (pushH act ls (X t) b w (V t) h o) t := by
  induction ls with
  | nil => intro X b V w h t _ hv o; exact hv o
  | cons L ls ih =>
    intro X b V w h t hx hv o
    rw [pushH]
    simp only [pushF]
    refine ih (fun t => L.apply fun b k => act.value (X t b k)) b (fun t => L.linear fun k => act.first (X t b k) * V t k) _ _ t (fun k => ?_) (fun k => ?_) o
    · refine apply_deriv L (fun t b k => act.value (X t b k)) b _ t (fun k => ?_) k
      exact (ha.first _).comp t (hx k)
    · refine linear_deriv L (fun t k => act.first (X t b k) * V t k) _ t (fun k => ?_) k
      have := ((ha.second (X t b k)).comp t (hx k)).fun_mul (hv k)
      refine HasDerivAt.congr_deriv this ?_
      simp only [Function.comp_apply]
      ring

theorem derivativesLoop_eq (act : Act) (ls : List Layer) : ∀ (x : Batch) (f s : Nat → Batch), (derivativesLoop act ls x f s).1 = forwardLoop act ls x ∧
    (∀ i b, (derivativesLoop act ls x f s).2.1 i b = pushF act ls x b (f i b)) ∧ ∀ i b, (derivativesLoop act ls x f s).2.2 i b = pushH act ls x b (f i b) (f i b) (s i b) := by
  induction ls with
  | nil => intro x f s; exact ⟨rfl, fun _ _ => rfl, fun _ _ => rfl⟩
  | cons L ls ih =>
    intro x f s
    obtain ⟨h1, h2, h3⟩ := ih (L.apply fun b k => act.value (x b k)) (fun i b => L.linear fun k => act.first (x b k) * f i b k)
      (fun i b => L.linear fun k => act.first (x b k) * s i b k + act.second (x b k) * f i b k ^ 2)
    refine ⟨h1, h2, fun i b => ?_⟩
    rw [pushH]
    simp only [← pow_two]
    exact h3 i b

theorem fullLoop_eq (act : Act) (ls : List Layer) : ∀ (x : Batch) (f : Nat → Batch) (h : Nat → Nat → Batch), (fullLoop act ls x f h).1 = forwardLoop act ls x ∧
    (∀ i b, (fullLoop act ls x f h).2.1 i b = pushF act ls x b (f i b)) ∧ ∀ i j b, (fullLoop act ls x f h).2.2 i j b = pushH act ls x b (f i b) (f j b) (h i j b) := by
  induction ls with
  | nil => intro x f s; exact ⟨rfl, fun _ _ => rfl, fun _ _ _ => rfl⟩
  | cons L ls ih =>
    intro x f h
    exact ih (L.apply fun b k => act.value (x b k)) (fun i b => L.linear fun k => act.first (x b k) * f i b k)
      (fun i j b => L.linear fun k => act.first (x b k) * h i j b k + act.second (x b k) * (f i b k * f j b k))

theorem input_deriv (L : Layer) (x : Batch) (b i : Nat) (hi : i < L.width) (t : ℝ) (o : Nat) : HasDerivAt (fun t => L.apply (put x b i t) b o) (L.weight o i) t := by
  have := apply_deriv L (put x b i) b (fun k => if k = i then 1 else 0) t (fun k => by
    unfold put
    by_cases h : k = i
    · simp only [h, and_self, if_true]; exact hasDerivAt_id t
    · simp only [h, and_false, if_false]; exact hasDerivAt_const t _) o
  simpa [Layer.linear, hi] using this

theorem forward_first (net : Net) (ha : net.act.Smooth) (x : Batch) (b i : Nat) (hi : i < net.input.width) (t : ℝ) (o : Nat) :
    HasDerivAt (fun t => net.forward (put x b i t) b o) (pushF net.act net.layers (net.input.apply (put x b i t)) b (fun o => net.input.weight o i) o) t :=
  loop_first net.act ha net.layers (fun t => net.input.apply (put x b i t)) b _ t (fun k => input_deriv net.input x b i hi t k) o

theorem partial_first (net : Net) (ha : net.act.Smooth) (x : Batch) (b i : Nat) (hi : i < net.input.width) (o : Nat) :
    partialAt (fun x => net.forward x b o) b i x = pushF net.act net.layers (net.input.apply x) b (fun o => net.input.weight o i) o := by
  have := (forward_first net ha x b i hi (x b i) o).deriv
  rw [put_self] at this
  exact this

theorem partial_second (net : Net) (ha : net.act.Smooth) (x : Batch) (b i j : Nat) (hi : i < net.input.width) (hj : j < net.input.width) (o : Nat) :
    HasDerivAt (fun t => partialAt (fun x => net.forward x b o) b j (put x b i t))
      (pushH net.act net.layers (net.input.apply x) b (fun o => net.input.weight o i) (fun o => net.input.weight o j) (fun _ => 0) o) (x b i) := by
  simp only [partial_first net ha _ b j hj o]
  have := loop_second net.act ha net.layers (fun t => net.input.apply (put x b i t)) b (fun _ o => net.input.weight o j) (fun o => net.input.weight o i) (fun _ => 0) (x b i)
    (fun k => input_deriv net.input x b i hi _ k) (fun k => hasDerivAt_const _ _) o
  rwa [put_self] at this

/-- Specification: `w` is what the layers make of the row `v`. Each layer adds its bias to the product of its weights with the values of the nonlinearity. -/
inductive Outputs (act : Act) : List Layer → (Nat → ℝ) → (Nat → ℝ) → Prop where
  | last (v) : Outputs act [] v v
  | layer (L : Layer) (ls) (v u w) (hu : ∀ o, u o = L.bias o + ((List.range L.width).map fun k => L.weight o k * act.value (v k)).sum) (h : Outputs act ls u w) : Outputs act (L :: ls) v w

theorem sum_list (n : Nat) (f : Nat → ℝ) : ((List.range n).map f).sum = ∑ k ∈ Finset.range n, f k := by
  induction n with
  | zero => simp
  | succ n ih => rw [List.range_succ, List.map_append, List.sum_append, ih, Finset.sum_range_succ]; simp

/-- C126, the value: each row goes through the first layer and then, after the nonlinearity, through each of the others. -/
theorem C126_value (net : Net) (x : Batch) (b : Nat) :
    ∃ u, (∀ o, u o = net.input.bias o + ((List.range net.input.width).map fun k => net.input.weight o k * x b k).sum) ∧ Outputs net.act net.layers u (net.forward x b) := by
  refine ⟨net.input.apply x b, fun o => by rw [sum_list, Layer.apply, add_comm], ?_⟩
  unfold Net.forward
  generalize net.input.apply x = y
  induction net.layers generalizing y with
  | nil => exact .last _
  | cons L ls ih =>
    refine .layer L ls _ (L.apply (fun b k => net.act.value (y b k)) b) _ (fun o => by rw [sum_list, Layer.apply, add_comm]) ?_
    exact ih _

/-- C126: `forward_and_derivatives` returns the output of the network and, for each row, input and output, the first and the second partial derivative of the output with respect to the input. -/
theorem C126 (net : Net) (ha : net.act.Smooth) (x : Batch) : (net.derivatives x).1 = net.forward x ∧ ∀ b i o, i < net.input.width →
    HasDerivAt (fun t => net.forward (put x b i t) b o) ((net.derivatives x).2.1 b i o) (x b i) ∧
    HasDerivAt (fun t => partialAt (fun x => net.forward x b o) b i (put x b i t)) ((net.derivatives x).2.2 b i o) (x b i) := by
  obtain ⟨h1, h2, h3⟩ := derivativesLoop_eq net.act net.layers (net.input.apply x) (fun i _ o => net.input.weight o i) (fun _ _ _ => 0)
  refine ⟨h1, fun b i o hi => ⟨?_, ?_⟩⟩
  · have := forward_first net ha x b i hi (x b i) o
    rw [put_self] at this
    simpa only [Net.derivatives, h2] using this
  · have := partial_second net ha x b i i hi hi o
    simpa only [Net.derivatives, h3] using this

/-- C126: `forward_and_full_derivatives` returns the same first derivatives and all mixed second derivatives. -/
theorem C126_full (net : Net) (ha : net.act.Smooth) (x : Batch) : (net.full x).1 = net.forward x ∧ ∀ b i j o, i < net.input.width → j < net.input.width →
    HasDerivAt (fun t => net.forward (put x b i t) b o) ((net.full x).2.1 b i o) (x b i) ∧
    HasDerivAt (fun t => partialAt (fun x => net.forward x b o) b i (put x b j t)) ((net.full x).2.2 b i j o) (x b j) := by
  obtain ⟨h1, h2, h3⟩ := fullLoop_eq net.act net.layers (net.input.apply x) (fun i _ o => net.input.weight o i) (fun _ _ _ _ => 0)
  refine ⟨h1, fun b i j o hi hj => ⟨?_, ?_⟩⟩
  · have := forward_first net ha x b i hi (x b i) o
    rw [put_self] at this
    simpa only [Net.full, h2] using this
  · have := partial_second net ha x b j i hj hi o
    simpa only [Net.full, h3] using this

/-- The softplus function meets the hypotheses. -/
noncomputable def softplus : Act where
  value y := Real.log (1 + Real.exp y)
  first y := Real.exp y / (1 + Real.exp y)
  second y := Real.exp y / (1 + Real.exp y) ^ 2

theorem softplus_smooth : softplus.Smooth where
  first y := by
    have h := Real.exp_pos y
    have := ((Real.hasDerivAt_exp y).const_add 1).log (by positivity)
    exact this
  second y := by
    have h := Real.exp_pos y
    have := (Real.hasDerivAt_exp y).fun_div ((Real.hasDerivAt_exp y).const_add 1) (by positivity)
    refine HasDerivAt.congr_deriv this ?_
    change _ = Real.exp y / (1 + Real.exp y) ^ 2
    congr 1
    ring

/-! ### The loss -/

/-- Specification: the logarithm of the density of row `b` of the exponential family, up to its normalisation: the products of the statistics with the natural parameters, plus the last output. -/
def logDensity (net : Net) (m : Nat) (eta : Batch) (b : Nat) (x : Batch) : ℝ := ∑ k ∈ Finset.range m, eta b k * net.forward x b k + net.forward x b m

/-- Specification: the score-matching objective of Hyvärinen for `n` samples of dimension `d`, with the penalty `lam` of Kingma and LeCun. -/
noncomputable def scoreMatching (net : Net) (n d m : Nat) (samples eta : Batch) (lam : ℝ) : ℝ :=
  (∑ b ∈ Finset.range n, ∑ i ∈ Finset.range d,
    (1 / 2 * partialAt (logDensity net m eta b) b i samples ^ 2 + partialAt (partialAt (logDensity net m eta b) b i) b i samples +
      lam * partialAt (partialAt (logDensity net m eta b) b i) b i samples ^ 2)) / n

theorem logDensity_first (net : Net) (ha : net.act.Smooth) (m : Nat) (eta x : Batch) (b i : Nat) (hi : i < net.input.width) :
    partialAt (logDensity net m eta b) b i x = ∑ k ∈ Finset.range (m + 1), (net.derivatives x).2.1 b i k * appendOne m eta b k := by
  have h := (C126 net ha x).2
  have : HasDerivAt (fun t => logDensity net m eta b (put x b i t)) (∑ k ∈ Finset.range m, eta b k * (net.derivatives x).2.1 b i k + (net.derivatives x).2.1 b i m) (x b i) :=
    (HasDerivAt.fun_sum fun k _ => (h b i k hi).1.const_mul _).add (h b i m hi).1
  unfold partialAt
  rw [this.deriv, Finset.sum_range_succ]
  simp only [appendOne, lt_irrefl, if_false, mul_one]
  congr 1
  apply Finset.sum_congr rfl
  intro k hk
  rw [if_pos (Finset.mem_range.mp hk), mul_comm]

theorem logDensity_second (net : Net) (ha : net.act.Smooth) (m : Nat) (eta x : Batch) (b i : Nat) (hi : i < net.input.width) :
    partialAt (partialAt (logDensity net m eta b) b i) b i x = ∑ k ∈ Finset.range (m + 1), (net.derivatives x).2.2 b i k * appendOne m eta b k := by
  have h := (C126 net ha x).2
  have e : ∀ t, partialAt (logDensity net m eta b) b i (put x b i t) = ∑ k ∈ Finset.range (m + 1), partialAt (fun x => net.forward x b k) b i (put x b i t) * appendOne m eta b k := by
    intro t
    rw [logDensity_first net ha m eta _ b i hi]
    apply Finset.sum_congr rfl
    intro k _
    rw [((C126 net ha (put x b i t)).2 b i k hi).1.deriv.symm]
    rfl
  have : HasDerivAt (fun t => partialAt (logDensity net m eta b) b i (put x b i t)) (∑ k ∈ Finset.range (m + 1), (net.derivatives x).2.2 b i k * appendOne m eta b k) (x b i) := by
    simp only [e]
    exact HasDerivAt.fun_sum fun k _ => (h b i k hi).2.mul_const _
  exact this.deriv

/-- C127: the loss of a batch is the score-matching objective. -/
theorem C127 (net : Net) (ha : net.act.Smooth) (n d m : Nat) (hd : d ≤ net.input.width) (samples eta : Batch) (lam : ℝ) :
    batchLoss net n d m samples eta lam = scoreMatching net n d m samples eta lam := by
  unfold batchLoss scoreMatching fisherLossWithC fisherLoss
  congr 1
  split
  · rename_i h0
    subst h0
    refine Finset.sum_congr rfl fun b _ => Finset.sum_congr rfl fun i hi => ?_
    have hi' := (Finset.mem_range.mp hi).trans_le hd
    rw [logDensity_first net ha m eta samples b i hi', logDensity_second net ha m eta samples b i hi']
    ring
  · refine Finset.sum_congr rfl fun b _ => Finset.sum_congr rfl fun i hi => ?_
    have hi' := (Finset.mem_range.mp hi).trans_le hd
    rw [logDensity_first net ha m eta samples b i hi', logDensity_second net ha m eta samples b i hi']

/-- The hypotheses can be met: two inputs, two hidden units, one statistic and the term `c(x)`. -/
example : ∃ net : Net, net.act.Smooth ∧ 2 ≤ net.input.width ∧ net.layers.length = 1 ∧ net.forward (fun _ _ => 0) 0 0 = 2 * Real.log 2 := by
  refine ⟨⟨⟨2, fun o i => if o = i then 1 else 0, fun _ => 0⟩, [⟨2, fun _ _ => 1, fun _ => 0⟩], softplus⟩, softplus_smooth, le_refl _, rfl, ?_⟩
  simp [Net.forward, forwardLoop, Layer.apply, softplus]
  norm_num

end Verif.Deriv
