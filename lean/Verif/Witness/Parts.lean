import Verif.Models.Props
import Verif.Mpi.Props
import Verif.Rejection.Props
import Verif.Transform.Jacobian
import Verif.Transform.Scaler
import Verif.Joint.Props
import Verif.LogReg.Props
import Verif.Memo.Props
import Verif.Selection.Props
import Verif.Nn.Props
import Verif.Distance.Props
/-
Theorems about parts of the library, applied to concrete cases: their hypotheses are met.
-/
namespace Verif.Witness

/-- C13: the component 1 of a model with three outputs. -/
example : ∃ c : Models.Conn Int, Models.getComponent (fun _ => 3) 0 1 = some c ∧ Models.getValues (fun _ => some [10, 20, 30]) c = some [some 20] := by
  obtain ⟨c, h1, h2⟩ := (Models.C13_index_partial (V := Int) (fun _ => 3) 0 1 (by norm_num)).1 (by norm_num)
  exact ⟨c, h1, (h2 (fun _ => some [10, 20, 30]) _ rfl rfl).1⟩

/-- C13: the component -1. -/
example : ∃ c : Models.Conn Int, Models.getComponent (fun _ => 3) 0 (-1) = some c ∧ Models.getValues (fun _ => some [10, 20, 30]) c = some [some 30] := by
  obtain ⟨c, h1, h2⟩ := Models.C13_negative_violated (V := Int) (fun _ => 3) 0 (-1) (by norm_num)
  exact ⟨c, h1, ((h2 (fun _ => some [10, 20, 30]) _ rfl rfl).1 (by norm_num)).1⟩

/-- C14: the sum of two models with two outputs cannot be stored. -/
example : ∃ keys, Models.opNode (fun _ => 2) .add (.model 0 : Models.Opd Int) (.model 1) = some keys ∧
    Models.opStore (V := Int) (· + ·) .add keys (fun n _ => if n = 0 then some [[1, 2]] else some [[5, 6]]) none = (none, .raised) := by
  obtain ⟨keys, h1, -, h3⟩ := Models.C14_dimension_violated (V := Int) (· + ·) .add (by simp) (fun _ => 2) 0 1 rfl le_rfl
    (fun n _ => if n = 0 then some [[1, 2]] else some [[5, 6]]) [1, 2] [5, 6] rfl rfl rfl none
  exact ⟨keys, h1, h3⟩

/-- C14: `2 ** X` where `X` is drawn as 5 is `2 ** 2`. -/
example : ∃ keys, Models.opNode (fun _ => 1) .rpow (.num (2 : Int)) (.model 7) = some keys ∧
    Models.opStore (V := Int) (fun a b => a ^ b.toNat) .rpow keys (fun n _ => if n = 0 then some [[2]] else some [[5]]) none = (some ⟨1, [4]⟩, .ret true) := by
  have hd : Models.Drawn 1 (.num (2 : Int)) (.model 7) (fun n _ => if n = 0 then some [[2]] else some [[5]]) [2] [5] :=
    ⟨⟨.hyper 0, rfl, rfl⟩, ⟨.model 7, rfl, fun _ => rfl, fun h => by simp [Models.opdKeys] at h⟩, rfl, rfl⟩
  exact Models.C14_rpow_violated (fun a b => a ^ b.toNat) (fun _ => 1) 2 7 rfl _ 5 hd none

/-- C16. -/
example : Models.bernoulliPmf (1 / 3) 0 + Models.bernoulliPmf (1 / 3) 1 = 1 := (Models.C16_bernoulli (1 / 3) (by norm_num) (by norm_num)).2.2

/-- C16. -/
example : Models.binomialPmf 4 (1 / 3) 5 = some 0 := (Models.C16_binomial_partial 4 (1 / 3) (by norm_num) (by norm_num)).2.1 5 (by norm_num)

/-- C21: three items, chunks of one, two workers: an execution, and all items are sent in it. -/
example : ∃ k w, Mpi.Steps 2 1 7 (fun x : Nat => some (Mpi.Res.val (E := Unit) (x * x))) k (Mpi.start [1, 2, 3] []) w ∧ (w.sent.map fun e => e.2).Perm [(1, 1), (2, 2), (3, 3)] := by
  obtain ⟨k, w, h1, h2⟩ := Mpi.C18_ends 2 7 (fun x : Nat => some (Mpi.Res.val (E := Unit) (x * x))) [1, 2, 3] [] (by simp) 0 _ (.refl _)
  exact ⟨_, w, h1, Mpi.C21_chunks_partial 2 7 (by norm_num) _ [1, 2, 3] _ w (by simp) h1 h2⟩

/-- C21: chunks of two. -/
example := Mpi.C21_chunks_violated 2 le_rfl [7, 8, 9] 9 rfl

/-- C38. -/
example : ∃ k, Rejection.cleanup [[1], [2], [3]] [(3 : Int), 1, 2] [("x", [[10], [20], [30]])] 3 = some k ∧
    Journal.resample (decide ("type_model" ∈ k.config)) (some k.params.length) k.params k.params.length k.named none true [] = .error .keyError := by
  have : (Rejection.cleanup [[1], [2], [3]] [(3 : Int), 1, 2] [("x", [[10], [20], [30]])] 3).isSome := by decide
  obtain ⟨k, hk⟩ := Option.isSome_iff_exists.1 this
  exact ⟨k, hk, Rejection.C38_config_violated _ _ _ _ k hk [] (by simp)⟩

/-- C75: a budget of three simulations. -/
example := Rejection.C75_budget_partial (fun w : Nat => (w + 1, w, some w)) (fun y => ((y % 5 : Nat) : WithTop Nat)) ⊤ ((100 : Nat) : WithTop Nat) (WithTop.coe_lt_top _) (fun w => ⟨w, rfl⟩)
  (fun y => by exact_mod_cast (by omega : y % 5 ≤ 100)) [0, 1, 2] (by simp) (by simp)

/-- C75: a distance with the maximum one. -/
example := Rejection.C75_finite_violated (fun w : Nat => (w + 1, w, some w)) (fun y => y % 2) 1 100 (by norm_num) 3 0

/-- C76. -/
example : ∃ r, Rejection.rejectRound (fun w : Nat => (w + 1, w, some w)) (fun y => y % 3) 10 2 2 0 [0, 1, 2] = some r ∧ r.params.length = 3 := by
  refine Rejection.C76_number_partial (fun w : Nat => (w + 1, w, some w)) (fun y => y % 3) 10 2 2 0 [0, 1, 2] (by simp) (by simp) ?_
  intro w _
  exact ⟨_, Rejection.task_one (fun w : Nat => (w + 1, w, some w)) (fun y => y % 3) 10 2 (by norm_num) 2 le_rfl w w rfl (by omega)⟩

/-- C76: one sample. -/
example := Rejection.C76_number_violated (fun w : Nat => (w + 1, w, some w)) (fun y => y % 3) 10 2 2 0 [0] (Or.inl rfl)

/-- C63: four samples in two folds. -/
example := LogReg.C63_partition 2 4 (by norm_num) [[1], [2], [3], [4]] [[5], [6], [7], [8]] rfl rfl

/-- C58: two distances. -/
example : ∃ c : Joint.Combination ℝ, Joint.new 2 [⟨fun a b => some (b - a), ⊤⟩, ⟨fun a b => some (2 * (b - a)), ⊤⟩] none = some c ∧
    c.distance [1, 2] [4, 6] = some (([3, 8] : List ℝ).sum / 2) := by
  refine Joint.C58_unweighted [⟨fun a b => some (b - a), ⊤⟩, ⟨fun a b => some (2 * (b - a)), ⊤⟩] [1, 2] [4, 6] [3, 8] (by simp) ⟨rfl, rfl, rfl, ?_⟩
  intro i h
  have : i < 2 := h
  interval_cases i <;> norm_num

/-- C70: data sets of two numbers. -/
example : Selection.call ⟨[0, 1], [], fun _ => [1, 0], fun seed i k => some [[(seed : ℝ)], [(i + k : ℝ)]], fun a _ => a⟩ 3 (fun _ => [5, 6]) none 2 = none :=
  Selection.C70_vector_violated _ _ _ _ (by rintro seed i k y h; cases h; simp)

end Verif.Witness
