import Verif.Expr.Props
import Mathlib.Probability.Distributions.Uniform
/-
C190: a model with the sum of a parameter and itself.
-/
namespace Verif.Expr

open Graph Rejection MeasureTheory ProbabilityTheory Set

/-- The probability 1/2 (node 0), `X`, a coin with this probability (node 1), `Z = X + X` (node 2, or node 2 is the sum of two constants when `plain`), and a simulator that returns its input, `Z` (node 3), or `X` when `plain`. -/
def coinG (plain : Bool) : G where
  kind v := if v = 0 then .hyper else if v = 2 then .op else .disc
  parents v := if v = 1 then [0] else if v = 2 then (if plain then [0, 0] else [1, 1]) else if v = 3 then (if plain then [1, 2] else [2]) else []
  lt_of_parent {v p} h := by
    split_ifs at h <;> simp at h <;> omega
  hyper_leaf {v} h := by
    split_ifs at h with h1
    simp [h1]

/-- The random numbers of a call are one bit. -/
def coinNet (plain : Bool) : Net Bool ℤ ℤ where
  g := coinG plain
  roots := [3]
  const _ := 0
  draw _ _ u := if u then 1 else 0
  arith _ l := l.sum
  part u _ := u
  simulate l := (l.head?.bind fun x => x.1.head?).join

theorem coin_apart (plain : Bool) : RootsApart (coinNet plain).g (coinNet plain).roots := by
  intro r hr r' hr' h
  simp only [coinNet, List.mem_singleton] at hr hr'
  subst hr hr'
  exact absurd h.lt (lt_irrefl _)

theorem coin_above (plain : Bool) : above (coinNet plain).g (coinNet plain).roots = if plain then [1, 0, 2, 0, 0] else [2, 1, 0, 1, 0] := by
  have h0 : (coinG plain).parents 0 = [] := rfl
  have h1 : (coinG plain).parents 1 = [0] := rfl
  have h2 : (coinG plain).parents 2 = if plain then [0, 0] else [1, 1] := rfl
  have h3 : (coinG plain).parents 3 = if plain then [1, 2] else [2] := rfl
  cases plain <;> simp [above, coinNet, unfold_eq, h0, h1, h2, h3]

theorem coin_order (plain : Bool) : order (coinNet plain).g (coinNet plain).roots = [1] := by
  rw [order, coin_above]
  cases plain <;> simp [List.eraseDups_cons, coinNet, coinG, Kind.isFree]

theorem coin_truth_one (plain : Bool) (ω : ℕ → Bool) : truth (coinNet plain) ω 1 = if ω 1 then 1 else 0 := by
  rw [truth_eq]; rfl

theorem coin_hidden : Hidden (coinNet false) 1 where
  free := rfl
  inputs p hp := by
    have : p = 0 := by simpa [coinNet, coinG] using hp
    subst this; rfl
  uses w hw := by
    simp only [coinNet, coinG] at hw ⊢
    by_cases h0 : w = 0
    · subst h0; simp at hw
    by_cases h1 : w = 1
    · subst h1; simp at hw
    by_cases h2 : w = 2
    · subst h2; simp
    by_cases h3 : w = 3
    · subst h3; simp at hw
    simp [h1, h2, h3] at hw

theorem coin_hiddenPart (ω : ℕ → Bool) : hiddenPart (coinNet false) (trueParams (coinNet false) ω) = [some (if ω 1 then 1 else 0)] := by
  classical
  rw [trueParams, hiddenPart_map, coin_order, List.filter_cons, if_pos (by simpa using coin_hidden)]
  simp [coin_truth_one]

theorem coin_data (ω : ℕ → Bool) : data (coinNet false) ω = some (if ω 2 then 2 else 0) := by
  have h := (sampled_spec (coinNet false) (coin_apart false) (start (coinNet false)) (start_clean _) (start_const _) ω).2
  have h2 := h.drawn 2 (by rw [coin_above]; simp) (by simp [coinNet, coinG])
  unfold data
  simp only [coinNet, List.map_cons, List.map_nil, List.head?_cons, Option.bind_some, coinG, Nat.reduceEqDiff, if_false, if_true]
  have e : (coinNet false).g = coinG false := rfl
  refine Eq.trans (b := (sampled (coinNet false) (start (coinNet false)) ω).value 2) rfl ?_
  rw [h2, call_eq]
  change some (List.sum ([1, 1].map fun p => call (coinNet false) p _ (ω 2))) = _
  have : ∀ vals, call (coinNet false) 1 vals (ω 2) = if ω 2 then 1 else 0 := fun vals => by rw [call_eq]; rfl
  simp only [List.map_cons, List.map_nil, this]
  cases ω 2 <;> simp

theorem coin_trueData (ω : ℕ → Bool) : trueData (coinNet false) ω = some (if ω 1 then 2 else 0) := by
  refine Eq.trans (b := some (truth (coinNet false) ω 2)) rfl ?_
  rw [truth_eq]
  change some (List.sum ([1, 1].map fun p => truth (coinNet false) ω p)) = _
  simp only [List.map_cons, List.map_nil, coin_truth_one]
  cases ω 1 <;> simp

theorem plain_trueData (ω : ℕ → Bool) : trueData (coinNet true) ω = some (if ω 1 then 1 else 0) := by
  refine Eq.trans (b := some (truth (coinNet true) ω 1)) rfl ?_
  rw [coin_truth_one]

/-- A fair bit. -/
noncomputable def fair : Measure Bool := (PMF.uniformOfFintype Bool).toMeasure

instance : IsProbabilityMeasure fair := by unfold fair; infer_instance

theorem trialLaw_bit (i : ℕ) (b : Bool) : trialLaw fair {ω | ω i = b} = 1 / 2 := by
  have h : trialLaw fair {ω | ω i = b} = fair {b} := by
    have e := Measure.infinitePi_map_eval (fun _ : ℕ => fair) i
    have e' := congrArg (fun m => m {b}) e
    rw [Measure.map_apply (measurable_pi_apply i) (MeasurableSet.singleton b)] at e'
    exact e'
  rw [h, fair, PMF.toMeasure_apply_singleton _ _ (MeasurableSet.singleton b)]
  simp

/-- Observed: 2. -/
noncomputable def coinDist (y : ℤ) : ℝ := |(y : ℝ) - 2|

theorem coin_accepted : acceptedSet (data (coinNet false)) coinDist 0 = {ω | ω 2 = true} := by
  ext ω
  simp only [acceptedSet, accepted, coin_data, coinDist, Set.mem_ofPred_eq, Option.some.injEq, exists_eq_left']
  cases ω 2 <;> simp

theorem coin_trueAccepted : acceptedSet (trueData (coinNet false)) coinDist 0 = {ω | ω 1 = true} := by
  ext ω
  simp only [acceptedSet, accepted, coin_trueData, coinDist, Set.mem_ofPred_eq, Option.some.injEq, exists_eq_left']
  cases ω 1 <;> simp

theorem measurable_bit (i : ℕ) (b : Bool) : MeasurableSet {ω : ℕ → Bool | ω i = b} := by
  have h : MeasurableSet ((fun ω : ℕ → Bool => ω i) ⁻¹' {b}) := measurable_pi_apply i (MeasurableSet.singleton b)
  exact h

/-- **C190 is violated.** The simulator returns `X + X` for a fair coin `X`, and 2 was observed, with threshold 0. Given the observation `X` is 1 with probability one, but `RejectionABC` returns `X = 1` with probability one half, and `X = 0` with probability one half. -/
theorem C190_violated :
    cond (trialLaw fair) (acceptedSet (trueData (coinNet false)) coinDist 0) {ω | trueParams (coinNet false) ω ∈ ({[some 1]} : Set (List (Option ℤ)))} = 1 ∧
    stream (trialLaw fair) {s | ∃ θ, Returns (coinNet false) coinDist 10 0 s θ ∧ hiddenPart (coinNet false) θ ∈ ({[some 1]} : Set (List (Option ℤ)))} = 1 / 2 ∧
    stream (trialLaw fair) {s | ∃ θ, Returns (coinNet false) coinDist 10 0 s θ ∧ hiddenPart (coinNet false) θ ∈ ({[some 0]} : Set (List (Option ℤ)))} = 1 / 2 := by
  have ht : ∀ ω : ℕ → Bool, trueParams (coinNet false) ω = [some (if ω 1 then 1 else 0)] := fun ω => by rw [trueParams, coin_order]; simp [coin_truth_one]
  have h1 : ∀ b : Bool, {ω : ℕ → Bool | hiddenPart (coinNet false) (trueParams (coinNet false) ω) ∈ ({[some (if b then 1 else 0)]} : Set (List (Option ℤ)))} = {ω | ω 1 = b} := by
    intro b
    ext ω
    simp only [coin_hiddenPart, Set.mem_ofPred_eq, Set.mem_singleton_iff]
    cases b <;> cases ω 1 <;> simp
  have hroots : ∀ r ∈ (coinNet false).roots, (coinNet false).g.kind r ≠ .op := by
    intro r hr
    simp only [coinNet, List.mem_singleton] at hr
    subst hr
    simp [coinNet, coinG]
  have h2 : ∀ b : Bool, stream (trialLaw fair) {s | ∃ θ, Returns (coinNet false) coinDist 10 0 s θ ∧ hiddenPart (coinNet false) θ ∈ ({[some (if b then 1 else 0)]} : Set (List (Option ℤ)))} = 1 / 2 := by
    intro b
    rw [C190_prior_violated (coinNet false) coinDist 10 0 fair (coin_apart false) hroots (by norm_num) _ (by rw [coin_accepted]; exact measurable_bit 2 true) (by rw [coin_accepted, trialLaw_bit]; simp)
      (by rw [h1 b]; exact measurable_bit 1 b), h1 b, trialLaw_bit]
  refine ⟨?_, h2 true, h2 false⟩
  have h3 : {ω : ℕ → Bool | trueParams (coinNet false) ω ∈ ({[some 1]} : Set (List (Option ℤ)))} = {ω | ω 1 = true} := by
    ext ω
    simp only [ht, Set.mem_ofPred_eq, Set.mem_singleton_iff]
    cases ω 1 <;> simp
  rw [h3, coin_trueAccepted, cond_apply (measurable_bit 1 true), Set.inter_self, ENNReal.inv_mul_cancel (by rw [trialLaw_bit]; simp) (measure_ne_top _ _)]

theorem plain_constant : ConstantExpressions (coinNet true) := by
  intro v hv hk a ha
  have : v = 2 := by
    by_contra h
    by_cases h0 : v = 0 <;> simp [coinNet, coinG, h, h0] at hk
  subst this
  have h2 : ∀ p ∈ (coinNet true).g.parents 2, p = 0 := by intro p hp; simpa [coinNet, coinG] using hp
  have h0 : ∀ q, ¬ Anc (coinNet true).g q 0 := fun q h => absurd h.lt (Nat.not_lt_zero _)
  cases ha with
  | input h => rw [h2 _ h]; rfl
  | step h hp => rw [h2 _ hp] at h; exact absurd h (h0 _)

/-- C190_partial applies when the simulator uses `X` itself (and a sum of constants): with 2 replaced by 1 as observation, `X = 1` is returned with probability one. -/
example : stream (trialLaw fair) {s | ∃ θ, Returns (coinNet true) (fun y => |(y : ℝ) - 1|) 10 0 s θ ∧ θ ∈ ({[some 1]} : Set (List (Option ℤ)))} = 1 := by
  have hacc : acceptedSet (trueData (coinNet true)) (fun y => |(y : ℝ) - 1|) 0 = {ω | ω 1 = true} := by
    ext ω
    simp only [acceptedSet, accepted, plain_trueData, Set.mem_ofPred_eq, Option.some.injEq, exists_eq_left']
    cases ω 1 <;> simp
  have h3 : {ω : ℕ → Bool | trueParams (coinNet true) ω ∈ ({[some 1]} : Set (List (Option ℤ)))} = {ω | ω 1 = true} := by
    ext ω
    have : trueParams (coinNet true) ω = [some (if ω 1 then 1 else 0)] := by rw [trueParams, coin_order]; simp [coin_truth_one]
    simp only [this, Set.mem_ofPred_eq, Set.mem_singleton_iff]
    cases ω 1 <;> simp
  rw [C190_partial (coinNet true) _ 10 0 fair (coin_apart true) plain_constant (by norm_num) _ (by rw [hacc]; exact measurable_bit 1 true) (by rw [hacc, trialLaw_bit]; simp) (by rw [h3]; exact measurable_bit 1 true),
    h3, hacc, cond_apply (measurable_bit 1 true), Set.inter_self, ENNReal.inv_mul_cancel (by rw [trialLaw_bit]; simp) (measure_ne_top _ _)]

end Verif.Expr
