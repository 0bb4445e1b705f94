import Verif.Rejection.Model
import Verif.Pmc.Model
/-!
# C204: the unit of the distance, `RejectionABC` and `PMCABC`

Two runs are compared: one with distances, largest distance and thresholds as they are, one with all of them multiplied by a positive number `u`.
-/
namespace Verif.Units

variable {W Θ Y V : Type}

/-! ### RejectionABC -/

section Rejection
open Rejection

variable {D E : Type} [LinearOrder D] [LinearOrder E] {f : D → E} (hf : StrictMono f)

/-- The distance of a task in other units. -/
def taskIn (f : D → E) : Rejection.Task (Θ × D × Nat × W) → Rejection.Task (Θ × E × Nat × W)
  | .running => .running
  | .unbound => .unbound
  | .done a => .done (a.1, f a.2.1, a.2.2)

/-- Specification: the same round, with the distances in other units. -/
def roundIn (f : D → E) (r : Round Θ D) : Round Θ E := ⟨r.params, r.distances.map f, r.weights, r.counter⟩

/-- Specification: the same journal, with the distances in other units. -/
def keptIn (f : D → E) (r : Kept Θ V D) : Kept Θ V E := ⟨r.params, r.distances.map f, r.weights, r.named, r.config⟩

include hf in
theorem reject_loop (trial : W → W × Θ × Option Y) (dist : Y → D) (distMax eps : D) (fuel : Nat) (w : W) (θ : Option Θ) (d : D) (c : Nat) :
    rejectLoop trial (fun y => f (dist y)) (f distMax) (f eps) fuel w θ (f d) c = taskIn f (rejectLoop trial dist distMax eps fuel w θ d c) := by
  induction fuel generalizing w θ d c with
  | zero => rfl
  | succ fuel ih =>
    unfold rejectLoop
    by_cases h : d > eps
    · have h' : f d > f eps := hf h
      rw [if_pos h, if_pos h']
      simp only
      rw [← ih]
      congr 1
      cases (trial w).2.2 <;> rfl
    · have h' : ¬ f d > f eps := fun h' => h (hf.lt_iff_lt.1 h')
      rw [if_neg h, if_neg h']
      cases θ <;> rfl

theorem collect_map {A B C : Type} (g : B → C) (p : A → Option B) (l : List A) : collect (l.map fun x => (p x).map g) = (collect (l.map p)).map fun r => r.map g := by
  induction l with
  | nil => rfl
  | cons x l ih =>
    rw [List.map_cons, List.map_cons]
    cases p x with
    | none => rfl
    | some y =>
      simp only [Option.map_some, collect, ih]
      cases collect (l.map p) <;> rfl

include hf in
/-- **C204, RejectionABC with a threshold.** The tasks compare distances only: any change of distances, threshold and largest distance that preserves the order gives the same particles,
weights and number of simulations. -/
theorem C204_rejection (trial : W → W × Θ × Option Y) (dist : Y → D) (distMax eps : D) (fuel counter : Nat) (start : List W) :
    rejectRound trial (fun y => f (dist y)) (f distMax) (f eps) fuel counter start = (rejectRound trial dist distMax eps fuel counter start).map (roundIn f) := by
  unfold rejectRound
  by_cases h : 1 < start.length * start.length ∧ start.length * start.length ≤ 2 ^ 31
  · rw [if_pos h, if_pos h]
    have e : ∀ w, (rejectTask trial (fun y => f (dist y)) (f distMax) (f eps) fuel w).result =
        ((rejectTask trial dist distMax eps fuel w).result).map fun a : Θ × D × Nat × W => (a.1, f a.2.1, a.2.2) := by
      intro w
      unfold rejectTask
      rw [reject_loop hf]
      cases rejectLoop trial dist distMax eps fuel w none distMax 0 <;> rfl
    simp only [e, collect_map]
    cases collect (start.map fun w => (rejectTask trial dist distMax eps fuel w).result) with
    | none => rfl
    | some l => simp only [Option.map_some, roundIn, List.map_map, Function.comp_def]
  · rw [if_neg h, if_neg h]
    rfl

include hf in
/-- **C204, RejectionABC with a budget and a threshold.** The same for the particles that are kept. -/
theorem C204_budget (params : List Θ) (distances : List D) (named : List (String × List V)) (cutoff : D) :
    cleanup params (distances.map f) named (f cutoff) = (cleanup params distances named cutoff).map (keptIn f) := by
  have hm : (distances.map f).map (fun d => decide (d < f cutoff)) = distances.map fun d => decide (d < cutoff) := by
    rw [List.map_map]
    refine List.map_congr_left fun d _ => ?_
    simp only [Function.comp_apply, hf.lt_iff_lt]
  have hs : ∀ mask : List Bool, select mask (distances.map f) = (select mask distances).map f := by
    intro mask
    unfold select
    rw [List.zip_map_left, List.filter_map, List.map_map, List.map_map]
    rfl
  unfold cleanup
  simp only [hm, hs]
  by_cases h : (distances.map fun d => decide (d < cutoff)).count true = 0
  · rw [if_pos h, if_pos h]
    rfl
  · rw [if_neg h, if_neg h]
    rfl

end Rejection

/-! ### PMCABC -/

open Pmc

variable {u : ℝ} (hu : 0 < u)

include hu in
theorem mul_strictMono : StrictMono fun x : ℝ => u * x := fun _ _ h => mul_lt_mul_of_pos_left h hu

include hu in
theorem sort_mul (l : List ℝ) : (l.map fun x => u * x).insertionSort (· ≤ ·) = (l.insertionSort (· ≤ ·)).map fun x => u * x :=
  (List.map_insertionSort _ _ (fun x : ℝ => u * x) l fun a _ b _ => ((mul_strictMono hu).le_iff_le).symm).symm

include hu in
/-- Percentiles are in the unit of the numbers. -/
theorem percentile_mul (l : List ℝ) (q : ℝ) : percentile (l.map fun x => u * x) q = (percentile l q).map fun x => u * x := by
  unfold percentile
  by_cases h : q < 0 ∨ 100 < q
  · rw [if_pos h, if_pos h]
    rfl
  · rw [if_neg h, if_neg h]
    simp only [sort_mul hu, List.getElem?_map, List.length_map]
    generalize (l.insertionSort (· ≤ ·))[⌊((l.length : ℝ) - 1) * (q / 100)⌋₊]? = a
    generalize (l.insertionSort (· ≤ ·))[⌊((l.length : ℝ) - 1) * (q / 100)⌋₊ + 1]? = b
    cases a with
    | none => rfl
    | some a => cases b with
      | none => rfl
      | some b =>
        simp only [Option.map_some, Option.some.injEq]
        ring

include hu in
/-- **C204, RejectionABC with a budget and a quantile.** -/
theorem C204_quantile (params : List Θ) (distances : List ℝ) (named : List (String × List V)) (q : ℝ) :
    (percentile (distances.map fun x => u * x) q).bind (fun cut => Rejection.cleanup params (distances.map fun x => u * x) named cut) =
      ((percentile distances q).bind fun cut => Rejection.cleanup params distances named cut).map (keptIn fun x => u * x) := by
  rw [percentile_mul hu]
  cases percentile distances q with
  | none => rfl
  | some cut => exact C204_budget (mul_strictMono hu) params distances named cut

/-- Specification: the same problem, with distances measured in another unit. -/
def pmcIn (u : ℝ) (env : Env W Θ Y) : Env W Θ Y := { env with distMax := env.distMax.map fun x => u * x, dist := fun y => u * env.dist y }

/-- Specification: the same population, with the distances in another unit. -/
def recIn (u : ℝ) (r : Rec Θ) : Rec Θ := ⟨u * r.eps, r.params, r.distances.map fun x => u * x, r.weights⟩

/-- Specification: the same state, with the distances in another unit. -/
def stateIn (u : ℝ) (s : State Θ) : State Θ := ⟨s.epsArr.map fun e => e.map fun x => u * x, s.pop, s.counter, s.hist.map (recIn u)⟩

variable (env : Env W Θ Y)

include hu in
theorem above_mul (d : Option ℝ) (eps : ℝ) : above (d.map fun x => u * x) (u * eps) = above d eps := by
  cases d with
  | none => rfl
  | some d => simp only [above, Option.map_some, Option.elim_some, mul_lt_mul_iff_right₀ hu]

theorem propose_in (p : Pop Θ) (i fuel : Nat) (w : W) : proposeLoop (pmcIn u env) p i fuel w = proposeLoop env p i fuel w := by
  induction fuel generalizing w with
  | zero => rfl
  | succ fuel ih =>
    unfold proposeLoop
    simp only [ih]
    rfl

include hu in
theorem resample_in (eps : ℝ) (pop : Option (Pop Θ)) (fuel : Nat) (w : W) (θ : Θ) (d : Option ℝ) (n : Nat) :
    resampleLoop (pmcIn u env) (u * eps) pop fuel w θ (d.map fun x => u * x) n =
      (resampleLoop env eps pop fuel w θ d n).map fun r => (r.1, r.2.1.map (fun x => u * x), r.2.2) := by
  induction fuel generalizing w θ d n with
  | zero => rfl
  | succ fuel ih =>
    unfold resampleLoop
    rw [above_mul hu]
    cases above d eps with
    | false => rfl
    | true =>
      simp only [if_true]
      cases pop with
      | none =>
        simp only
        rw [← ih]
        rfl
      | some p =>
        simp only [propose_in]
        rw [show (pmcIn u env).choose p.weights w = env.choose p.weights w from rfl]
        cases proposeLoop env p (env.choose p.weights w).2 fuel (env.choose p.weights w).1 with
        | none => rfl
        | some r =>
          simp only
          rw [← ih]
          rfl

include hu in
theorem task_in (eps : ℝ) (pop : Option (Pop Θ)) (fuel : Nat) (w : W) :
    resampleTask (pmcIn u env) (u * eps) pop fuel w = (resampleTask env eps pop fuel w).map fun r => (r.1, u * r.2.1, r.2.2) := by
  unfold resampleTask
  rw [show (pmcIn u env).distMax = env.distMax.map fun x => u * x from rfl, show (pmcIn u env).held w = env.held w from rfl, resample_in hu]
  rcases resampleLoop env eps pop fuel w (env.held w) env.distMax 0 with _ | ⟨θ, _ | d, n⟩ <;> rfl

include hu in
theorem next_in (steps t : Nat) (pct : ℝ) (distances : List ℝ) (arr : List (Option ℝ)) :
    nextEps steps t pct (distances.map fun x => u * x) (arr.map fun e => e.map fun x => u * x) = (nextEps steps t pct distances arr).map fun l => l.map fun e => e.map fun x => u * x := by
  unfold nextEps
  by_cases h : t + 1 < steps
  · rw [if_pos h, if_pos h, percentile_mul hu, List.getElem?_map]
    cases percentile distances pct with
    | none => rfl
    | some q =>
      rcases arr[t + 1]? with _ | _ | e
      · rfl
      · simp only [Option.map_some, Option.map_none, List.map_set]
      · simp only [Option.map_some, List.map_set, mul_max_of_nonneg _ _ hu.le]
  · rw [if_neg h, if_neg h]
    rfl

include hu in
theorem step_in (steps : Nat) (pct : ℝ) (fuel t : Nat) (start : List W) (s : State Θ) :
    pmcStep (pmcIn u env) steps pct fuel t start (stateIn u s) = (pmcStep env steps pct fuel t start s).map (stateIn u) := by
  unfold pmcStep
  have ha : (stateIn u s).epsArr[t]? = (s.epsArr[t]?).map fun e => e.map fun x => u * x := by simp only [stateIn, List.getElem?_map]
  have hp : (stateIn u s).pop = s.pop := rfl
  rw [ha, hp]
  rcases s.epsArr[t]? with _ | _ | eps
  · rfl
  · rfl
  · simp only [Option.map_some]
    by_cases h : s.pop.all (fun p => decide (p.weights.length = start.length ∧ p.params.length = start.length)) = true
    · simp only [h, if_true]
      rw [show start.map (resampleTask (pmcIn u env) (u * eps) s.pop fuel) = start.map fun w => (resampleTask env eps s.pop fuel w).map fun r => (r.1, u * r.2.1, r.2.2) from
        List.map_congr_left fun w _ => task_in hu env eps s.pop fuel w]
      rw [collect_map]
      cases collect (start.map (resampleTask env eps s.pop fuel)) with
      | none => rfl
      | some res =>
        simp only [Option.map_some]
        have h1 : (res.map fun r => (r.1, u * r.2.1, r.2.2)).map (fun r => r.1) = res.map (fun r => r.1) := by rw [List.map_map]; rfl
        have h2 : (res.map fun r => (r.1, u * r.2.1, r.2.2)).map (fun r => r.2.1) = (res.map (fun r => r.2.1)).map fun x => u * x := by rw [List.map_map, List.map_map]; rfl
        have h3 : (res.map fun r => (r.1, u * r.2.1, r.2.2)).map (fun r => r.2.2) = res.map (fun r => r.2.2) := by rw [List.map_map]; rfl
        rw [h1, h2, h3, show (stateIn u s).epsArr = s.epsArr.map fun e => e.map fun x => u * x from rfl, next_in hu]
        cases nextEps steps t pct (res.map fun r => r.2.1) s.epsArr with
        | none => rfl
        | some arr =>
          simp only [Option.map_some, stateIn, List.map_append, List.map_cons, List.map_nil, recIn]
          rfl
    · simp only [h]
      rfl

include hu in
theorem loop_in (steps : Nat) (pct : ℝ) (fuel : Nat) (start : Nat → List W) (k t : Nat) (s : State Θ) :
    pmcLoop (pmcIn u env) steps pct fuel start k t (stateIn u s) = (pmcLoop env steps pct fuel start k t s).map (stateIn u) := by
  induction k generalizing t s with
  | zero => rfl
  | succ k ih =>
    unfold pmcLoop
    rw [step_in hu]
    cases pmcStep env steps pct fuel t (start t) s with
    | none => rfl
    | some s => exact ih (t + 1) s

include hu in
/-- **C204, PMCABC.** With all distances, the largest distance and the thresholds given measured in another unit, a run of `PMCABC` gives the same particles, weights and number of simulations. Its
thresholds and distances are the same in the other unit. -/
theorem C204_pmcabc (steps : Nat) (epsInit : List ℝ) (pct : ℝ) (fuel : Nat) (start : Nat → List W) (before : Option (Pop Θ)) (counter : Nat) :
    pmcRun (pmcIn u env) steps (epsInit.map fun x => u * x) pct fuel start before counter = (pmcRun env steps epsInit pct fuel start before counter).map (stateIn u) := by
  unfold pmcRun
  have hi : initEps (epsInit.map fun x => u * x) steps = (initEps epsInit steps).map fun l => l.map fun e => e.map fun x => u * x := by
    unfold initEps
    by_cases h : epsInit.length = steps
    · rw [if_pos (by rw [List.length_map]; exact h), if_pos h]
      simp only [Option.map_some, List.map_map]
      rfl
    · rw [if_neg (by rw [List.length_map]; exact h), if_neg h]
      rcases epsInit with _ | ⟨e, _ | ⟨_, _⟩⟩
      · rfl
      · cases steps with
        | zero => rfl
        | succ n => simp only [List.map_cons, List.map_nil, Option.map_some, List.map_replicate, Option.map_none]
      · rfl
  rw [hi]
  cases initEps epsInit steps with
  | none => rfl
  | some arr => exact loop_in hu env steps pct fuel start steps 0 ⟨arr, before, counter, []⟩

end Verif.Units
