import Verif.Smc.Model
import Verif.Journal.Bootstrap
/-
C232: averages over the population of `SMCABC` before and after resampling.
-/
namespace Verif.Smc

open Verif.Pmc (Pop)
open Verif.Journal.Bootstrap (draws_one)

variable {W Θ Y : Type}

/-- Specification: the sum of `h` over weighted items; the average if the weights have sum one. -/
noncomputable def Weighted {β : Type} (weights : List ℝ) (items : List β) (h : β → ℝ) : ℝ := (List.zipWith (fun w x => w * h x) weights items).sum

/-- Random numbers outside of the workers, for which the indices that are drawn for resampling are `f`. -/
def drawn {n m : Nat} (dr : Draws) (f : Fin n → Fin m) : Draws := { dr with choice := fun _ _ => List.ofFn fun i => (f i).1 }

/-- The parameters and weights after resampling with the indices `f`. -/
theorem resampled_drawn (c : Config) (dr : Draws) (t : Nat) (params : List Θ) (weights : List ℝ) (hres : c.bernton = true ∨ ess weights < c.resample) (f : Fin c.n → Fin params.length) :
    resampled c (drawn dr f) t params weights = some ⟨List.ofFn fun i => params[(f i).1], equalWeights c.n⟩ := by
  have hc : collect ((List.ofFn fun i => (f i).1).map fun i => params[i]?) = some (List.ofFn fun i => params[(f i).1]) := by
    rw [collect_eq_some, List.map_ofFn, List.map_ofFn]
    congr 1
    funext i
    exact List.getElem?_eq_getElem (f i).2
  simp only [resampled, drawn]
  rw [if_pos hres, hc]
  rfl

theorem weighted_equal {β : Type} {n : Nat} (g : Fin n → β) (h : β → ℝ) : Weighted (equalWeights n) (List.ofFn g) h = (∑ k, h (g k)) / n := by
  have : List.zipWith (fun w x => w * h x) (equalWeights n) (List.ofFn g) = List.ofFn fun k => 1 / (n : ℝ) * h (g k) := by
    apply List.ext_getElem
    · simp [equalWeights]
    · intro i h1 h2
      simp [equalWeights]
  rw [Weighted, this, List.sum_ofFn, ← Finset.mul_sum, one_div, div_eq_inv_mul]

theorem weighted_get {β : Type} (weights : List ℝ) (items : List β) (hw : weights.length = items.length) (h : β → ℝ) :
    Weighted weights items h = ∑ i : Fin items.length, weights[i.1]'(by rw [hw]; exact i.2) * h items[i.1] := by
  have hz : List.zipWith (fun w p => w * h p) weights items = List.ofFn fun i : Fin items.length => weights[i.1]'(by rw [hw]; exact i.2) * h items[i.1] := by
    apply List.ext_getElem
    · simp [hw]
    · intro i h1 h2
      simp
  rw [Weighted, hz, List.sum_ofFn]

theorem sum_weights (weights : List ℝ) (n : Nat) (hw : weights.length = n) (h1 : weights.sum = 1) : ∑ i : Fin n, weights[i.1]'(by rw [hw]; exact i.2) = 1 := by
  rw [← h1, ← Fin.sum_univ_getElem weights]
  exact (Fintype.sum_equiv (finCongr hw) _ _ fun i => rfl).symm

/-- C232 for pairs of parameters and simulations, what resampling does to them: on average over all outcomes `f` of the draws, parameters with their weights are combined with all simulations, each with weight `1 / n`. The simulations are those before resampling, `moved` gets them
as they were. -/
theorem C232_pairs (c : Config) (dr : Draws) (t : Nat) (params : List Θ) (sims : Fin c.n → Y) (weights : List ℝ) (hw : weights.length = params.length) (h1 : weights.sum = 1)
    (hres : c.bernton = true ∨ ess weights < c.resample) (h : Θ × Y → ℝ) : ∃ q : (Fin c.n → Fin params.length) → Pop Θ,
      (∀ f, resampled c (drawn dr f) t params weights = some (q f)) ∧
      ∑ f : Fin c.n → Fin params.length, (∏ i, weights[(f i).1]'(by rw [hw]; exact (f i).2)) * Weighted (q f).weights ((q f).params.zip (List.ofFn sims)) h =
        (∑ k, Weighted weights params fun θ => h (θ, sims k)) / c.n := by
  refine ⟨_, fun f => resampled_drawn c dr t params weights hres f, ?_⟩
  have hz : ∀ f : Fin c.n → Fin params.length, (List.ofFn fun i => params[(f i).1]).zip (List.ofFn sims) = List.ofFn fun i => (params[(f i).1], sims i) := by
    intro f
    apply List.ext_getElem
    · simp
    · intro i h1 h2
      simp
  have hf : ∀ f : Fin c.n → Fin params.length, (∏ i, weights[(f i).1]'(by rw [hw]; exact (f i).2)) * ((∑ k, h (params[(f k).1], sims k)) / c.n) = (∑ k, (∏ i, weights[(f i).1]'(by rw [hw]; exact (f i).2)) * h (params[(f k).1], sims k)) / c.n := by
    intro f
    rw [← Finset.mul_sum, mul_div_assoc]
  simp only [hz, weighted_equal, hf]
  rw [← Finset.sum_div, Finset.sum_comm]
  congr 1
  refine Finset.sum_congr rfl fun k _ => ?_
  rw [draws_one (fun j : Fin params.length => weights[j.1]'(by rw [hw]; exact j.2)) (fun j => h (params[j.1], sims k)) (sum_weights weights _ hw h1) k, weighted_get weights params hw]

/-- C232 for parameters: on average over all outcomes `f` of the draws, resampling keeps the weighted average of every function of the parameters. -/
theorem C232_parameters_partial (c : Config) (hn : 0 < c.n) (dr : Draws) (t : Nat) (params : List Θ) (weights : List ℝ) (hw : weights.length = params.length) (h1 : weights.sum = 1)
    (hres : c.bernton = true ∨ ess weights < c.resample) (h : Θ → ℝ) : ∃ q : (Fin c.n → Fin params.length) → Pop Θ,
      (∀ f, resampled c (drawn dr f) t params weights = some (q f)) ∧
      ∑ f : Fin c.n → Fin params.length, (∏ i, weights[(f i).1]'(by rw [hw]; exact (f i).2)) * Weighted (q f).weights (q f).params h = Weighted weights params h := by
  refine ⟨_, fun f => resampled_drawn c dr t params weights hres f, ?_⟩
  simp only [weighted_equal]
  rw [Verif.Journal.Bootstrap.draws_mean hn (fun j : Fin params.length => weights[j.1]'(by rw [hw]; exact j.2)) (fun j => h params[j.1]) (sum_weights weights _ hw h1), weighted_get weights params hw]

/-- C232 fails for the simulations, in every case and not only on average: whatever the weights were and whatever is drawn, after resampling every simulation has weight `1 / n`, also one of weight zero, which is too far from the observation. -/
theorem C232_simulations_violated (c : Config) (dr : Draws) (t : Nat) (params : List Θ) (sims : Fin c.n → Y) (weights : List ℝ) (hres : c.bernton = true ∨ ess weights < c.resample) (f : Fin c.n → Fin params.length) (g : Y → ℝ) :
    ∃ q, resampled c (drawn dr f) t params weights = some q ∧ Weighted q.weights (q.params.zip (List.ofFn sims)) (fun a => g a.2) = (∑ k, g (sims k)) / c.n := by
  refine ⟨_, resampled_drawn c dr t params weights hres f, ?_⟩
  have hz : (List.ofFn fun i => params[(f i).1]).zip (List.ofFn sims) = List.ofFn fun i => (params[(f i).1], sims i) := by
    apply List.ext_getElem
    · simp
    · intro i h1 h2
      simp
  simp only [hz]
  exact weighted_equal (fun i => (params[(f i).1], sims i)) (fun a => g a.2)

open Classical in
/-- Two particles with data 0 and 5, threshold 1, in the version of Bernton et al.: the weights are 1 and 0, the share of the data below the threshold is 1, and 1/2 after resampling, in every case. -/
example (env : Env W ℝ ℝ) (c : Config) (hc : c.n = 2) (hb : c.bernton = true) (dr : Draws) (f : Fin c.n → Fin 2) : newWeights env c 6 1 ⟨[0, 5], [0, 5], [0, 5], [1 / 2, 1 / 2]⟩ = some [1, 0] ∧
    Weighted [1, 0] [(0 : ℝ), 5] (fun y => if y < 1 then 1 else 0) = 1 ∧
    ∃ q, resampled c (drawn dr f) 1 [(0 : ℝ), 5] [1, 0] = some q ∧ Weighted q.weights (q.params.zip (List.ofFn fun k : Fin c.n => if k.1 = 0 then (0 : ℝ) else 5)) (fun a => if a.2 < 1 then 1 else 0) = 1 / 2 := by
  refine ⟨?_, ?_, ?_⟩
  · norm_num [newWeights, hb, berntonWeights, Verif.Pmc.normalise]
  · norm_num [Weighted]
  · obtain ⟨q, h1, h2⟩ := C232_simulations_violated c dr 1 [(0 : ℝ), 5] (fun k : Fin c.n => if k.1 = 0 then (0 : ℝ) else 5) [1, 0] (.inl hb) f (fun y => if y < 1 then 1 else 0)
    refine ⟨q, h1, h2.trans ?_⟩
    obtain ⟨n, b⟩ := c
    simp only at hc
    subst hc
    rw [show ((2 : Nat) : ℝ) = 2 from rfl, Fin.sum_univ_two]
    norm_num

end Verif.Smc
