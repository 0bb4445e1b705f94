import Verif.Rejection.Model
import Verif.Chance
import Mathlib.Tactic.Linarith
import Mathlib.Tactic.NormNum
/-
C125: the law of an accepted particle of RejectionABC. The random numbers of one task are a sequence of independent outcomes; an outcome decides what is drawn from the prior and what the simulator returns.
-/
namespace Verif.Rejection

open Chance Filter Topology

variable {Ω Θ Y : Type}

/-- One trial with the next outcome of the sequence: parameters and data (`none` if the simulator refuses). The sequences below are not used up. -/
def trialOf (param : Ω → Θ) (data : Ω → Option Y) (first : Ω) : List Ω → List Ω × Θ × Option Y
  | [] => ([], param first, none)
  | ω :: l => (l, param ω, data ω)

/-- Specification: an outcome is accepted if there are data and they are near enough. -/
def accepted (data : Ω → Option Y) (dist : Y → ℝ) (eps : ℝ) (ω : Ω) : Prop := ∃ y, data ω = some y ∧ dist y ≤ eps

/-- The total probability of the outcomes with a property. -/
noncomputable def total (outcomes : List Ω) (q : Ω → ℝ) (event : Ω → Prop) [DecidablePred event] : ℝ := (outcomes.map fun ω => if event ω then q ω else 0).sum

/-- What a task returns: the parameters and the number of simulations. -/
noncomputable def returned {W : Type} : Task (Θ × ℝ × Nat × W) → Option (Θ × Nat) := fun t => t.result.map fun r => (r.1, r.2.2.1)

open Classical in
/-- Specification: the probability that a task returns parameters in a set within `n` trials. -/
noncomputable def chanceOf (outcomes : List Ω) (q : Ω → ℝ) (param : Ω → Θ) (data : Ω → Option Y) (first : Ω) (dist : Y → ℝ) (distMax eps : ℝ) (n : Nat) (set : Θ × Nat → Prop) : ℝ :=
  prob outcomes q n fun l => decide (∃ r, returned (rejectTask (trialOf param data first) dist distMax eps (n + 1) l) = some r ∧ set r)

theorem rejectLoop_step {W : Type} (trial : W → W × Θ × Option Y) (dist : Y → ℝ) (distMax eps : ℝ) (n : Nat) (w : W) (θ : Option Θ) (d : ℝ) (c : Nat) (hd : eps < d) :
    rejectLoop trial dist distMax eps (n + 1) w θ d c = rejectLoop trial dist distMax eps n (trial w).1 (some (trial w).2.1) ((trial w).2.2.elim distMax dist) (c + 1) := by
  rw [rejectLoop.eq_def]
  simp [hd]

theorem rejectLoop_cons (param : Ω → Θ) (data : Ω → Option Y) (first : Ω) (dist : Y → ℝ) (distMax eps : ℝ) (hmax : eps < distMax) (n c : Nat) (θ : Option Θ) (d : ℝ) (hd : eps < d) (ω : Ω) (l : List Ω) :
    (accepted data dist eps ω → returned (rejectLoop (trialOf param data first) dist distMax eps (n + 2) (ω :: l) θ d c) = some (param ω, c + 1)) ∧
    (¬ accepted data dist eps ω → ∃ d', eps < d' ∧ ∀ l, rejectLoop (trialOf param data first) dist distMax eps (n + 2) (ω :: l) θ d c =
      rejectLoop (trialOf param data first) dist distMax eps (n + 1) l (some (param ω)) d' (c + 1)) := by
  constructor
  · rintro ⟨y, hy, h⟩
    rw [rejectLoop_step _ _ _ _ _ _ _ _ _ hd, rejectLoop.eq_def]
    have : ¬ eps < dist y := not_lt.mpr h
    simp [trialOf, hy, this, returned, Task.result]
  · intro h
    refine ⟨(data ω).elim distMax dist, ?_, fun l => ?_⟩
    · cases hy : data ω with
      | none => simpa
      | some y => simpa using fun hle => h ⟨y, hy, hle⟩
    · rw [rejectLoop_step _ _ _ _ _ _ _ _ _ hd]
      rfl

theorem prob_true (outcomes : List Ω) (q : Ω → ℝ) (hq1 : (outcomes.map q).sum = 1) (n : Nat) : prob outcomes q n (fun _ => true) = 1 := by
  induction n with
  | zero => rw [prob_zero]; simp
  | succ n ih => rw [prob_succ]; simp [ih, hq1]

open Classical in
theorem loop_law (outcomes : List Ω) (q : Ω → ℝ) (hq1 : (outcomes.map q).sum = 1) (param : Ω → Θ) (data : Ω → Option Y) (first : Ω) (dist : Y → ℝ) (distMax eps : ℝ) (hmax : eps < distMax)
    (set : Θ × Nat → Prop) (n : Nat) : ∀ (θ : Option Θ) (d : ℝ) (c : Nat), eps < d →
    prob outcomes q n (fun l => decide (∃ r, returned (rejectLoop (trialOf param data first) dist distMax eps (n + 1) l θ d c) = some r ∧ set r)) =
      ((List.range n).map fun k => (1 - total outcomes q (accepted data dist eps)) ^ k * total outcomes q fun ω => accepted data dist eps ω ∧ set (param ω, c + k + 1)).sum := by
  induction n with
  | zero =>
    intro θ d c hd
    rw [prob_zero]
    simp [rejectLoop, hd, returned, Task.result]
  | succ n ih =>
    intro θ d c hd
    rw [prob_succ]
    have h1 : ∀ ω, (q ω * prob outcomes q n fun l => decide (∃ r, returned (rejectLoop (trialOf param data first) dist distMax eps (n + 1 + 1) (ω :: l) θ d c) = some r ∧ set r)) =
        (if accepted data dist eps ω ∧ set (param ω, c + 0 + 1) then q ω else 0) + ((List.range n).map fun k => (1 - total outcomes q (accepted data dist eps)) ^ k *
          total outcomes q fun ω => accepted data dist eps ω ∧ set (param ω, (c + 1) + k + 1)).sum * (if accepted data dist eps ω then 0 else q ω) := by
      intro ω
      by_cases hω : accepted data dist eps ω
      · by_cases hs : set (param ω, c + 1)
        · rw [prob_congr (e' := fun _ => true)]
          · simp [hω, hs, prob_true outcomes q hq1]
          · intro l _
            simp [(rejectLoop_cons param data first dist distMax eps hmax n c θ d hd ω l).1 hω, hs]
        · rw [prob_congr (e' := fun _ => false)]
          · simp [hω, hs, prob_false]
          · intro l _
            simp [(rejectLoop_cons param data first dist distMax eps hmax n c θ d hd ω l).1 hω, hs]
      · obtain ⟨d', hd', h⟩ := (rejectLoop_cons param data first dist distMax eps hmax n c θ d hd ω []).2 hω
        simp only [h]
        rw [ih _ d' (c + 1) hd']
        simp [hω, mul_comm]
    simp only [h1]
    rw [List.sum_map_add, map_mul_sum, List.range_succ_eq_map, List.map_cons, List.sum_cons, List.map_map]
    have h2 : (outcomes.map fun ω => if accepted data dist eps ω then 0 else q ω).sum = 1 - total outcomes q (accepted data dist eps) := by
      rw [← hq1, total, eq_sub_iff_add_eq, ← List.sum_map_add]
      congr 1
      apply List.map_congr_left
      intro ω _
      split <;> simp
    rw [h2]
    congr 1
    · simp [total]
    · rw [mul_comm, ← map_mul_sum]
      congr 1
      apply List.map_congr_left
      intro k _
      simp only [Function.comp, Nat.succ_eq_add_one]
      rw [show c + (k + 1) + 1 = c + 1 + k + 1 by omega]
      ring

open Classical in
/-- C125: if the trials of a task are independent with the given probabilities, and some outcome with positive probability is accepted, then a task of `RejectionABC` ends with probability one, and the law of the
returned parameters is the prior conditioned on acceptance: the limit of the probabilities for `n` trials is the probability of an accepted outcome with parameters in the set, divided by the probability
of an accepted outcome. -/
theorem C125 (outcomes : List Ω) (q : Ω → ℝ) (hq0 : ∀ ω ∈ outcomes, 0 ≤ q ω) (hq1 : (outcomes.map q).sum = 1) (param : Ω → Θ) (data : Ω → Option Y) (first : Ω) (dist : Y → ℝ) (distMax eps : ℝ)
    (hmax : eps < distMax) (hacc : 0 < total outcomes q (accepted data dist eps)) (set : Θ → Prop) :
    Tendsto (fun n => chanceOf outcomes q param data first dist distMax eps n fun r => set r.1) atTop
      (𝓝 (total outcomes q (fun ω => accepted data dist eps ω ∧ set (param ω)) / total outcomes q (accepted data dist eps))) := by
  have hle : total outcomes q (accepted data dist eps) ≤ 1 := by
    rw [← hq1, total]
    apply List.sum_le_sum
    intro ω hω
    split
    · exact le_rfl
    · exact hq0 ω hω
  have hgeo := hasSum_geometric_of_lt_one (r := 1 - total outcomes q (accepted data dist eps)) (by linarith) (by linarith)
  have ht := (hgeo.tendsto_sum_nat).mul_const (total outcomes q fun ω => accepted data dist eps ω ∧ set (param ω))
  rw [sub_sub_cancel, inv_mul_eq_div] at ht
  convert ht using 2 with n
  unfold chanceOf rejectTask
  rw [loop_law outcomes q hq1 param data first dist distMax eps hmax _ n none distMax 0 hmax, Finset.sum_mul]
  rfl

open Classical in
/-- C125: the number of simulations that a task reports has the geometric law, and is independent of the parameters. -/
theorem C125_count (outcomes : List Ω) (q : Ω → ℝ) (hq1 : (outcomes.map q).sum = 1) (param : Ω → Θ) (data : Ω → Option Y) (first : Ω) (dist : Y → ℝ) (distMax eps : ℝ)
    (hmax : eps < distMax) (set : Θ → Prop) (n k : Nat) (hk : k < n) :
    chanceOf outcomes q param data first dist distMax eps n (fun r => set r.1 ∧ r.2 = k + 1) =
      (1 - total outcomes q (accepted data dist eps)) ^ k * total outcomes q fun ω => accepted data dist eps ω ∧ set (param ω) := by
  unfold chanceOf rejectTask
  rw [loop_law outcomes q hq1 param data first dist distMax eps hmax _ n none distMax 0 hmax, List.sum_map_eq_nsmul_single k]
  · have : (List.range n).count k = 1 := List.count_eq_one_of_mem List.nodup_range (List.mem_range.mpr hk)
    rw [this]
    simp
  · intro k' hne _
    simp [hne, total]

/-- The hypotheses can be met: of three equally likely outcomes one is refused by the simulator and one too far; the law is concentrated on the third. -/
example : ∃ (outcomes : List (Fin 3)) (q : Fin 3 → ℝ) (data : Fin 3 → Option ℝ), (∀ ω ∈ outcomes, 0 ≤ q ω) ∧ (outcomes.map q).sum = 1 ∧ accepted data id 1 2 ∧ ¬ accepted data id 1 0 ∧ ¬ accepted data id 1 1 := by
  refine ⟨[0, 1, 2], fun _ => 1 / 3, fun ω => if ω = 0 then none else if ω = 1 then some 5 else some 0, by simp, by norm_num, ⟨0, by simp, by simp⟩, ?_, ?_⟩
  · rintro ⟨y, h, -⟩; simp at h
  · rintro ⟨y, h, h'⟩
    simp at h
    subst h
    norm_num at h'

end Verif.Rejection
