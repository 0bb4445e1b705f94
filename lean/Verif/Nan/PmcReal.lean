import Verif.Nan.PmcProps
/-
`PMCABC` with distances that are real numbers: the model with NaN agrees with `Verif.Pmc`, so that the theorems about `Verif.Pmc` apply to it. And a run with a NaN.
-/
namespace Verif.Nan

open Pmc (Env Pop)

variable {W Θ Y : Type} (env : Env W Θ Y)

/-- A distance that may be infinite. -/
def ofOption (d : Option ℝ) : Num := d.elim .inf .num

theorem gt_above (d : Option ℝ) (e : ℝ) : (ofOption d).gt (.num e) ↔ Pmc.above d e = true := by
  cases d with
  | none => simp [ofOption, Num.gt, Num.lt, Pmc.above]
  | some x => simp [ofOption, Num.gt, Num.lt, Pmc.above]

theorem loop_real (eps : ℝ) (pop : Option (Pop Θ)) (fuel : Nat) : ∀ (w : W) (θ : Θ) (d : Option ℝ) (c : Nat),
    resampleLoop env (fun y => .num (env.dist y)) (.num eps) pop fuel w θ (ofOption d) c = (Pmc.resampleLoop env eps pop fuel w θ d c).map fun r => (r.1, ofOption r.2.1, r.2.2) := by
  classical
  induction fuel with
  | zero => intro w θ d c; rfl
  | succ fuel ih =>
    intro w θ d c
    rw [resampleLoop.eq_def, Pmc.resampleLoop.eq_def]
    simp only
    by_cases hd : (ofOption d).gt (.num eps)
    · rw [if_pos hd, if_pos ((gt_above d eps).1 hd)]
      cases pop with
      | none => exact ih _ _ (some _) _
      | some p =>
        simp only
        cases Pmc.proposeLoop env p (env.choose p.weights w).2 fuel (env.choose p.weights w).1 with
        | none => rfl
        | some q => exact ih _ _ (some _) _
    · rw [if_neg hd, if_neg (fun h => hd ((gt_above d eps).2 h))]
      rfl

theorem task_real (eps : ℝ) (pop : Option (Pop Θ)) (fuel : Nat) (w : W) :
    resampleTask env (fun y => .num (env.dist y)) (ofOption env.distMax) (.num eps) pop fuel w = (Pmc.resampleTask env eps pop fuel w).map fun r => (r.1, .num r.2.1, r.2.2) := by
  have hl := loop_real env eps pop fuel w (env.held w) env.distMax 0
  unfold resampleTask Pmc.resampleTask
  rw [hl]
  cases hr : Pmc.resampleLoop env eps pop fuel w (env.held w) env.distMax 0 with
  | none => rfl
  | some r =>
    obtain ⟨θ, d, c⟩ := r
    cases d with
    | some x => rfl
    | none =>
      rw [hr] at hl
      have := (loop_spec env _ (.num eps) pop fuel w (env.held w) (ofOption env.distMax) 0 _ hl).1
      exact absurd trivial this

theorem collect_map {A B C : Type} (f : A → Option B) (g : A → Option C) (m : B → C) (h : ∀ a, g a = (f a).map m) (l : List A) : collect (l.map g) = (collect (l.map f)).map (List.map m) := by
  cases hc : collect (l.map f) with
  | some bs =>
    rw [Option.map_some]
    refine (collect_eq_some _ _).2 ?_
    have := (collect_eq_some _ _).1 hc
    rw [show l.map g = (l.map f).map (Option.map m) by rw [List.map_map]; exact List.map_congr_left fun a _ => h a, this, List.map_map, List.map_map]
    rfl
  | none =>
    rw [Option.map_none]
    have := (collect_eq_none _).1 hc
    refine (collect_eq_none _).2 ?_
    obtain ⟨a, ha, ha'⟩ := List.mem_map.1 this
    exact List.mem_map.2 ⟨a, ha, by rw [h, ha']; rfl⟩

/-- The same run: thresholds, population and results agree, and the simulations counted are those of the tasks. -/
structure Agrees (before : Nat) (s : State Θ) (p : Pmc.State Θ) : Prop where
  eps : s.epsArr = p.epsArr.map (·.map .num)
  pop : s.pop = p.pop
  hist : s.hist.map (fun r => (r.eps, r.params, r.distances, r.weights)) = p.hist.map fun r => (.num r.eps, r.params, r.distances.map .num, r.weights)
  counter : p.counter = before + (s.hist.map fun r => r.counts.sum).sum

theorem nextEps_real (steps t : Nat) (pct : ℝ) (ds : List ℝ) (arr : List (Option ℝ)) :
    nextEps steps t pct (ds.map .num) (arr.map (·.map .num)) = (Pmc.nextEps steps t pct ds arr).map fun a => a.map (·.map .num) := by
  unfold nextEps Pmc.nextEps
  split
  · rw [percentile_num, List.getElem?_map]
    cases Pmc.percentile ds pct with
    | none => cases arr[t + 1]? with
      | none => rfl
      | some e => cases e <;> rfl
    | some q => cases arr[t + 1]? with
      | none => rfl
      | some e => cases e with
        | none => simp [List.map_set]
        | some x => simp [List.map_set, maxN]
  · rfl

theorem step_real (before steps : Nat) (pct : ℝ) (fuel t : Nat) (start : List W) (s : State Θ) (p : Pmc.State Θ) (h : Agrees before s p) :
    match Pmc.pmcStep env steps pct fuel t start p with
    | none => pmcStep env (fun y => .num (env.dist y)) (ofOption env.distMax) steps pct fuel t start s = none
    | some p' => ∃ s', pmcStep env (fun y => .num (env.dist y)) (ofOption env.distMax) steps pct fuel t start s = some s' ∧ Agrees before s' p' := by
  unfold pmcStep Pmc.pmcStep
  rw [h.eps, h.pop, List.getElem?_map]
  cases p.epsArr[t]? with
  | none => simp
  | some e =>
    cases e with
    | none => simp
    | some e =>
      simp only [Option.map_some]
      by_cases hc : (p.pop.all fun q => decide (q.weights.length = start.length ∧ q.params.length = start.length)) = true
      · rw [if_pos hc, if_pos hc, collect_map _ _ _ (task_real env e p.pop fuel) start]
        cases collect (start.map (Pmc.resampleTask env e p.pop fuel)) with
        | none => simp
        | some res =>
          simp only [Option.map_some, List.map_map]
          have e1 : (res.map ((fun r : Θ × Num × Nat => r.2.1) ∘ fun r => (r.1, Num.num r.2.1, r.2.2))) = (res.map (·.2.1)).map .num := by rw [List.map_map]; rfl
          rw [e1, nextEps_real]
          cases Pmc.nextEps steps t pct (res.map (·.2.1)) p.epsArr with
          | none => simp
          | some arr =>
            simp only [Option.map_some]
            refine ⟨_, rfl, rfl, ?_, ?_, ?_⟩
            · simp only [Function.comp_def, List.map_map]
            · simp only [List.map_append, h.hist, List.map_cons, List.map_nil, Function.comp_def, List.map_map]
            · simp only [List.map_append, List.sum_append, List.map_cons, List.map_nil, List.sum_singleton, h.counter, Function.comp_def]
              omega
      · rw [if_neg hc, if_neg hc]

/-- With distances that are real numbers (and a maximal distance that may be infinite) both models of `PMCABC` give the same run, or both none. -/
theorem C192_agrees (before steps : Nat) (pct : ℝ) (fuel : Nat) (start : Nat → List W) (k : Nat) : ∀ (t : Nat) (s : State Θ) (p : Pmc.State Θ), Agrees before s p →
    match Pmc.pmcLoop env steps pct fuel start k t p with
    | none => pmcLoop env (fun y => .num (env.dist y)) (ofOption env.distMax) steps pct fuel start k t s = none
    | some p' => ∃ s', pmcLoop env (fun y => .num (env.dist y)) (ofOption env.distMax) steps pct fuel start k t s = some s' ∧ Agrees before s' p' := by
  induction k with
  | zero => intro t s p h; exact ⟨s, rfl, h⟩
  | succ k ih =>
    intro t s p h
    have hs := step_real env before steps pct fuel t (start t) s p h
    rw [Pmc.pmcLoop, pmcLoop]
    cases hp : Pmc.pmcStep env steps pct fuel t (start t) p with
    | none =>
      rw [hp] at hs
      simp only at hs ⊢
      rw [hs]
    | some p1 =>
      rw [hp] at hs
      obtain ⟨s1, h1, h2⟩ := hs
      simp only [h1]
      exact ih (t + 1) s1 p1 h2

/-! ### A run with NaN -/

/-- One parameter, drawn as 7; the model holds 3 when a task starts. -/
noncomputable def oneEnv : Env Nat ℝ ℝ := ⟨none, fun y => y, fun _ => 1, fun _ _ _ => 1, fun _ => 3, fun w => (w + 1, 7), fun _ w => (w, 0), fun _ _ w => (w, some 7), fun θ w => (w, θ)⟩

theorem one_task (eps : Num) (h : Num.inf.gt eps) (w : Nat) : resampleTask oneEnv (fun _ => .nan) .inf eps none 2 w = some (7, .nan, 1) := by
  classical
  unfold resampleTask
  rw [resampleLoop.eq_def]
  simp only
  rw [if_pos h, resampleLoop.eq_def]
  simp only
  rw [if_neg (by unfold Num.gt; cases eps <;> exact id)]
  rfl

/-- All distances are NaN: the first population is accepted at once, after that nothing is simulated: the user gave the thresholds 1 and 1/2, and gets populations of the values held before. -/
example : ∃ hist r, pmcRun oneEnv (fun _ => .nan) .inf 2 [1, 1 / 2] 10 2 (fun _ => [0, 5]) none = some hist ∧ hist[1]? = some r ∧ r.params = [3, 3] ∧ r.distances = [.inf, .inf] ∧ r.counts = [0, 0] := by
  have hnan : resampleTask oneEnv (fun _ => .nan) .inf .nan (some ⟨[7, 7], [1 / 2, 1 / 2]⟩) 2 = fun _ => some (3, .inf, 0) := by
    classical
    funext w
    unfold resampleTask
    rw [resampleLoop.eq_def]
    simp only
    rw [if_neg (not_gt_nan .inf)]
    rfl
  have hpn : percentile [.nan, .nan] 10 = some .nan := by
    unfold percentile
    rw [collect_none _ .nan (by simp) rfl]
    simp only
    rw [if_neg (by norm_num)]
  have hnorm : Pmc.normalise [(1 : ℝ) / 2, 1 / 2] = [1 / 2, 1 / 2] := by
    norm_num [Pmc.normalise]
  refine ⟨[⟨.num 1, [7, 7], [.nan, .nan], [1, 1], [1 / 2, 1 / 2]⟩, ⟨.nan, [3, 3], [.inf, .inf], [0, 0], Pmc.normalise ([3, 3].map (Pmc.rawWeight oneEnv 2 (some ⟨[7, 7], [1 / 2, 1 / 2]⟩)))⟩], _, ?_, rfl, rfl, rfl, rfl⟩
  · unfold pmcRun
    rw [show Pmc.initEps [1, 1 / 2] 2 = some [some 1, some (1 / 2)] from by simp [Pmc.initEps]]
    simp only [pmcLoop]
    have s1 : pmcStep oneEnv (fun _ => .nan) .inf 2 10 2 0 [0, 5] ⟨[some (.num 1), some (.num (1 / 2))], none, []⟩ =
        some ⟨[some (.num 1), some .nan], some ⟨[7, 7], [1 / 2, 1 / 2]⟩, [⟨.num 1, [7, 7], [.nan, .nan], [1, 1], [1 / 2, 1 / 2]⟩]⟩ := by
      unfold pmcStep
      simp only [List.getElem?_cons_zero, Option.all_none, if_true, List.map_cons, List.map_nil, one_task (.num 1) trivial]
      simp only [collect, List.map_cons, List.map_nil, nextEps, hpn, Pmc.rawWeight]
      norm_num [maxN, hnorm]
    have s2 : pmcStep oneEnv (fun _ => .nan) .inf 2 10 2 1 [0, 5] ⟨[some (.num 1), some .nan], some ⟨[7, 7], [1 / 2, 1 / 2]⟩, [⟨.num 1, [7, 7], [.nan, .nan], [1, 1], [1 / 2, 1 / 2]⟩]⟩ =
        some ⟨[some (.num 1), some .nan], some ⟨[3, 3], Pmc.normalise ([3, 3].map (Pmc.rawWeight oneEnv 2 (some ⟨[7, 7], [1 / 2, 1 / 2]⟩)))⟩, [⟨.num 1, [7, 7], [.nan, .nan], [1, 1], [1 / 2, 1 / 2]⟩,
          ⟨.nan, [3, 3], [.inf, .inf], [0, 0], Pmc.normalise ([3, 3].map (Pmc.rawWeight oneEnv 2 (some ⟨[7, 7], [1 / 2, 1 / 2]⟩)))⟩]⟩ := by
      unfold pmcStep
      simp only [List.getElem?_cons_succ, List.getElem?_cons_zero, hnan]
      simp [collect, nextEps]
    simp only [List.map_cons, List.map_nil, Option.map_some]
    rw [s1]
    simp only
    rw [s2]
    rfl

end Verif.Nan
