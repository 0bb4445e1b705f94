import Verif.Units.Basic
import Verif.Smc.Props
/-!
# C204: the unit of the distance, `SMCABC`
-/
namespace Verif.Units

open Verif.Pmc (Pop normalise)
open Smc

variable {W Θ Y : Type} {u : ℝ} (hu : 0 < u)

/-- Specification: the same problem, with distances measured in another unit. -/
def smcIn (u : ℝ) (env : Env W Θ Y) : Env W Θ Y := { env with dist := fun y => u * env.dist y, dists := fun y => (env.dists y).map fun x => u * x }

/-- Specification: the same configuration, with the final threshold in another unit. -/
def smcConfigIn (u : ℝ) (c : Config) : Config := { c with final := u * c.final }

/-- Specification: the same population, with the distances in another unit. -/
def smcRecIn (u : ℝ) (r : Rec Θ Y) : Rec Θ Y := { r with distances := r.distances.map fun x => u * x }

/-- Specification: the same state, with thresholds and distances in another unit. -/
def smcStateIn (u : ℝ) (s : State Θ Y) : State Θ Y :=
  { s with past := s.past.map fun x => u * x, cur := u * s.cur, last := s.last.map (smcRecIn u), journal := s.journal.map (smcRecIn u) }

def smcOutIn (u : ℝ) (o : Out Θ Y) : Out Θ Y := { o with d := u * o.d }

/-! ### Bisection -/

include hu in
/-- With the tolerance in the same unit, the bisection does not depend on the unit. -/
theorem bisection_in (f g : ℝ → ℝ) (hg : ∀ x, g (u * x) = f x) (tol : ℝ) (fuel : Nat) (low high : ℝ) :
    bisection g (u * tol) fuel (u * low) (u * high) = (bisection f tol fuel low high).map fun x => u * x := by
  induction fuel generalizing low high with
  | zero => rfl
  | succ fuel ih =>
    unfold bisection
    have hm : (u * low + u * high) / 2 = u * ((low + high) / 2) := by ring
    have hd : (u * high - u * low) / 2 = u * ((high - low) / 2) := by ring
    simp only [hm, hd, hg, gt_iff_lt, mul_lt_mul_iff_right₀ hu, ih]
    by_cases h1 : tol < (high - low) / 2
    · simp only [h1, if_true]
      by_cases h2 : f ((low + high) / 2) = 0
      · simp only [h2, if_true, Option.map_some]
      · simp only [h2, if_false]
        by_cases h3 : f low * f ((low + high) / 2) < 0
        · simp only [h3, if_true]
        · simp only [h3, if_false]
    · simp only [h1, if_false, Option.map_some]

variable (env : Env W Θ Y)

include hu in
theorem below_in (eps : ℝ) (row : List ℝ) : below (u * eps) (row.map fun x => u * x) = below eps row := by
  unfold below
  simp only [List.countP_map, Function.comp_def, mul_lt_mul_iff_right₀ hu]

include hu in
theorem dm_in (old : List ℝ) (ys : List Y) (a b : ℝ) : dmWeights old (ys.map (smcIn u env).dists) (u * a) (u * b) = dmWeights old (ys.map env.dists) a b := by
  unfold dmWeights
  rw [List.zipWith_map_right, List.zipWith_map_right]
  congr 1
  funext w y
  simp only [smcIn, below_in hu]

include hu in
theorem bernton_in (ds : List ℝ) (b : ℝ) : berntonWeights (ds.map fun x => u * x) (u * b) = berntonWeights ds b := by
  unfold berntonWeights
  rw [List.map_map]
  refine List.map_congr_left fun d _ => ?_
  simp only [Function.comp_apply, mul_lt_mul_iff_right₀ hu]

/-- The function whose zero is the next threshold. -/
noncomputable def target (env : Env W Θ Y) (c : Config) (dr : Draws) (cur : ℝ) (p : Rec Θ Y) : ℝ → ℝ :=
  if c.bernton then berntonFun dr.unique p.distances c.alpha else dmFun p.weights (p.sims.map env.dists) cur c.alpha

include hu in
theorem target_in (c : Config) (dr : Draws) (cur : ℝ) (p : Rec Θ Y) (x : ℝ) :
    target (smcIn u env) (smcConfigIn u c) dr (u * cur) (smcRecIn u p) (u * x) = target env c dr cur p x := by
  unfold target
  rw [show (smcConfigIn u c).bernton = c.bernton from rfl, show (smcConfigIn u c).alpha = c.alpha from rfl]
  cases c.bernton
  · simp only [Bool.false_eq_true, if_false, dmFun, smcRecIn, dm_in hu]
  · simp only [if_true, berntonFun, smcRecIn, bernton_in hu, List.length_map]

include hu in
/-- **C204, SMCABC, thresholds.** The next threshold would not depend on the unit if the tolerance of the bisection, 0.001, were in the unit of the distances. -/
theorem C204_smc_threshold (c : Config) (dr : Draws) (fuel : Nat) (cur : ℝ) (p : Rec Θ Y) :
    ((bisection (target (smcIn u env) (smcConfigIn u c) dr (u * cur) (smcRecIn u p)) (u * 0.001) fuel (u * c.final) (u * cur)).map fun e => if e < u * c.final then u * c.final else e) =
      (newEps env c dr fuel cur p).map fun x => u * x := by
  rw [bisection_in hu _ _ (target_in hu env c dr cur p)]
  unfold newEps
  rw [show (if c.bernton then berntonFun dr.unique p.distances c.alpha else dmFun p.weights (p.sims.map env.dists) cur c.alpha) = target env c dr cur p from rfl]
  cases bisection (target env c dr cur p) 0.001 fuel c.final cur with
  | none => rfl
  | some e =>
    simp only [Option.map_some, mul_lt_mul_iff_right₀ hu]
    by_cases h : e < c.final
    · simp only [h, if_true]
    · simp only [h, if_false]

include hu in
theorem newWeights_in (c : Config) (old new : ℝ) (p : Rec Θ Y) : newWeights (smcIn u env) (smcConfigIn u c) (u * old) (u * new) (smcRecIn u p) = newWeights env c old new p := by
  unfold newWeights
  rw [show (smcConfigIn u c).bernton = c.bernton from rfl]
  cases c.bernton
  · simp only [Bool.false_eq_true, if_false, smcRecIn, dm_in hu]
  · simp only [if_true, smcRecIn, bernton_in hu]

include hu in
theorem accept0_in (fuel : Nat) (eps : ℝ) (p : Pop Θ) (i : Nat) (θ : Θ) (wt : ℝ) (y : Y) (w : W) :
    accept0 (smcIn u env) fuel (u * eps) p i θ wt y w = (accept0 env fuel eps p i θ wt y w).map (smcOutIn u) := by
  unfold accept0
  by_cases h : 0 < wt
  · simp only [h, if_true]
    rw [show propose (smcIn u env).pdf ((smcIn u env).perturb p i) fuel w = propose env.pdf (env.perturb p i) fuel w from rfl]
    cases propose env.pdf (env.perturb p i) fuel w with
    | none => rfl
    | some a =>
      simp only
      rw [show (smcIn u env).sim a.2 a.1 = env.sim a.2 a.1 from rfl, show (smcIn u env).bern = env.bern from rfl]
      have hp : prob0 (smcIn u env) (u * eps) p θ y a.2 (env.sim a.2 a.1).2 = prob0 env eps p θ y a.2 (env.sim a.2 a.1).2 := by
        unfold prob0
        simp only [smcIn, below_in hu]
        rfl
      rw [hp]
      cases (env.bern (prob0 env eps p θ y a.2 (env.sim a.2 a.1).2) (env.sim a.2 a.1).1).2 <;> rfl
  · simp only [h, if_false]
    rfl

include hu in
theorem hit_in (eps : ℝ) : (fun y => decide ((smcIn u env).dist y < u * eps)) = fun y => decide (env.dist y < eps) := by
  funext y
  simp only [smcIn, mul_lt_mul_iff_right₀ hu]

include hu in
theorem accept1_in (r fuel : Nat) (eps : ℝ) (p : Pop Θ) (i : Nat) (θ : Θ) (wt : ℝ) (y : Y) (w : W) :
    accept1 (smcIn u env) r fuel (u * eps) p i θ wt y w = (accept1 env r fuel eps p i θ wt y w).map (smcOutIn u) := by
  unfold accept1
  by_cases h : 0 < wt
  · simp only [h, if_true, hit_in hu]
    rw [show (smcIn u env).sim = env.sim from rfl]
    cases hitLoop (fun w => some (env.sim θ w)) (fun y => decide (env.dist y < eps)) (r - 1) fuel w [] with
    | none => rfl
    | some a =>
      simp only
      rw [show propose (smcIn u env).pdf ((smcIn u env).perturb p i) fuel a.1 = propose env.pdf (env.perturb p i) fuel a.1 from rfl]
      cases propose env.pdf (env.perturb p i) fuel a.1 with
      | none => rfl
      | some b =>
        simp only
        cases hitLoop (fun w => some (env.sim b.2 w)) (fun y => decide (env.dist y < eps)) r fuel b.1 [] with
        | none => rfl
        | some d =>
          simp only
          by_cases h1 : d.2.length = 1
          · simp only [h1, if_true]; rfl
          · simp only [h1, if_false]
            rw [show (smcIn u env).bern = env.bern from rfl, show ratio (smcIn u env) p θ b.2 = ratio env p θ b.2 from rfl, show (smcIn u env).pick = env.pick from rfl]
            cases (env.bern (min 1 ((a.2.length : ℝ) / (d.2.length - 1) * ratio env p θ b.2)) d.1).2
            · rfl
            · simp only [if_true]
              cases (hits (fun y => decide (env.dist y < eps)) d.2).dropLast with
              | nil => rfl
              | cons k ks =>
                simp only
                cases d.2[(env.pick (k :: ks) (env.bern (min 1 ((a.2.length : ℝ) / (d.2.length - 1) * ratio env p θ b.2)) d.1).1).2]? <;> rfl
  · simp only [h, if_false]
    rfl

include hu in
theorem hit2_in (eps : ℝ) : (fun a : Θ × Y => decide ((smcIn u env).dist a.2 < u * eps)) = fun a => decide (env.dist a.2 < eps) := by
  funext y
  simp only [smcIn, mul_lt_mul_iff_right₀ hu]

include hu in
theorem accept2_in (r fuel : Nat) (eps : ℝ) (p : Pop Θ) (i : Nat) (θ : Θ) (wt : ℝ) (y : Y) (w : W) :
    accept2 (smcIn u env) r fuel (u * eps) p i θ wt y w = (accept2 env r fuel eps p i θ wt y w).map (smcOutIn u) := by
  unfold accept2
  by_cases h : 0 < wt
  · simp only [h, if_true, hit2_in hu, hit_in hu]
    rw [show (smcIn u env).sim = env.sim from rfl, show (smcIn u env).pdf = env.pdf from rfl, show (smcIn u env).perturb = env.perturb from rfl, show (smcIn u env).pick = env.pick from rfl,
      show (smcIn u env).around = env.around from rfl, show (smcIn u env).bern = env.bern from rfl]
    cases hitLoop (fun w => (propose env.pdf (env.perturb p i) fuel w).map fun e => ((env.sim e.2 e.1).1, e.2, (env.sim e.2 e.1).2))
        (fun a => decide (env.dist a.2 < eps)) r fuel w [] with
    | none => rfl
    | some a =>
      simp only
      cases (hits (fun a : Θ × Y => decide (env.dist a.2 < eps)) a.2).dropLast with
      | nil => rfl
      | cons k ks =>
        simp only
        cases a.2[(env.pick (k :: ks) a.1).2]? with
        | none => rfl
        | some b =>
          simp only
          cases hitLoop (fun w => (propose env.pdf (env.around p b.1) fuel w).map fun e => env.sim e.2 e.1) (fun y => decide (env.dist y < eps)) (r - 1) fuel (env.pick (k :: ks) a.1).1 [] with
          | none => rfl
          | some d =>
            simp only
            rw [show ratio (smcIn u env) p θ b.1 = ratio env p θ b.1 from rfl]
            cases (env.bern (min 1 ((d.2.length : ℝ) / (a.2.length - 1) * ratio env p θ b.1)) d.1).2 <;> rfl
  · simp only [h, if_false]
    rfl

include hu in
/-- **C204, SMCABC, moves.** For a given threshold the moves of the particles do not depend on the unit. -/
theorem C204_smc_moves (c : Config) (fuel : Nat) (eps : ℝ) (p : Pop Θ) (ys : List Y) (start : List W) :
    moved (smcIn u env) (smcConfigIn u c) fuel (u * eps) p ys start = (moved env c fuel eps p ys start).map fun l => l.map (smcOutIn u) := by
  have hm : ∀ i θ wt y w, mcmc (smcIn u env) c.which c.r fuel (u * eps) p i θ wt y w = (mcmc env c.which c.r fuel eps p i θ wt y w).map (smcOutIn u) := by
    intro i θ wt y w
    unfold mcmc
    by_cases h0 : c.which = 0
    · simp only [h0, if_true, accept0_in hu]
    · by_cases h1 : c.which = 1
      · simp only [h1, one_ne_zero, if_false, if_true, accept1_in hu]
      · by_cases h2 : c.which = 2
        · simp only [h2, show ¬ (2 = 0) by omega, show ¬ (2 = 1) by omega, if_false, if_true, accept2_in hu]
        · simp only [h0, h1, h2, if_false]; rfl
  unfold moved
  rw [show (smcConfigIn u c).which = c.which from rfl, show (smcConfigIn u c).r = c.r from rfl, ← collect_map]
  congr 1
  refine List.map_congr_left fun e _ => ?_
  cases p.params[e.2]? with
  | none => rfl
  | some θ =>
    cases p.weights[e.2]? with
    | none => rfl
    | some wt =>
      cases ys[e.2]? with
      | none => rfl
      | some y => exact hm _ _ _ _ _

theorem save_in (c : Config) (t : Nat) (s : State Θ Y) (past : List ℝ) (cur : ℝ) (weights : List ℝ) (l : List (Out Θ Y)) :
    save (smcConfigIn u c) t (smcStateIn u s) (past.map fun x => u * x) (u * cur) weights (l.map (smcOutIn u)) = smcStateIn u (save c t s past cur weights l) := by
  have ho : outRec weights (l.map (smcOutIn u)) = smcRecIn u (outRec weights l) := by
    simp only [outRec, smcRecIn, List.map_map, Function.comp_def]
    rfl
  have hc : (l.map (smcOutIn u)).map Out.count = l.map Out.count := by rw [List.map_map]; rfl
  unfold save
  rw [ho, hc, show (smcConfigIn u c).full = c.full from rfl, show (smcConfigIn u c).steps = c.steps from rfl]
  simp only [smcStateIn, Option.map_some]
  by_cases h : (c.full = true ∧ t ≤ c.steps - 1) ∨ (c.full = false ∧ t = c.steps - 1)
  · simp only [h, if_true]
    cases c.full <;> simp
  · simp only [h, if_false]

include hu in
/-- **C204, SMCABC, partial.** A step whose next threshold does not depend on the unit does not depend on it. -/
theorem C204_smc_partial (c : Config) (dr : Draws) (fuel t : Nat) (start : List W) (s : State Θ Y)
    (h : ∀ p, s.last = some p → newEps (smcIn u env) (smcConfigIn u c) dr fuel (u * s.cur) (smcRecIn u p) = (newEps env c dr fuel s.cur p).map fun x => u * x) :
    smcStep (smcIn u env) (smcConfigIn u c) dr fuel t start (smcStateIn u s) = (smcStep env c dr fuel t start s).map (smcStateIn u) := by
  unfold smcStep
  rw [show (smcStateIn u s).last = s.last.map (smcRecIn u) from rfl, show (smcStateIn u s).cur = u * s.cur from rfl, show (smcStateIn u s).past = s.past.map fun x => u * x from rfl]
  cases hl : s.last with
  | none =>
    simp only [Option.map_none, Option.map_some]
    rw [← save_in, List.map_map]
    rfl
  | some p =>
    simp only [Option.map_some, h p hl]
    cases newEps env c dr fuel s.cur p with
    | none => rfl
    | some eps =>
      simp only [Option.map_some, newWeights_in hu]
      cases newWeights env c s.cur eps p with
      | none => rfl
      | some wts =>
        simp only
        rw [show resampled (smcConfigIn u c) dr t (smcRecIn u p).params wts = resampled c dr t p.params wts from rfl]
        cases resampled c dr t p.params wts with
        | none => rfl
        | some q =>
          simp only
          rw [show (smcRecIn u p).sims = p.sims from rfl, C204_smc_moves hu]
          cases moved env c fuel eps q p.sims start with
          | none => rfl
          | some l =>
            simp only [Option.map_some]
            rw [← save_in, List.map_append]
            rfl

/-- **C204 fails for SMCABC: tolerance.** A run with thresholds 1 and 0.9995. With distances, largest distance and final threshold four times as large, and the same random numbers, the thresholds
are 4 and 3.999, and not 4 and 3.998. -/
theorem C204_smc_violated :
    (∃ s, smcRun exEnv (exConfig 0) ⟨fun _ _ => [0, 0], fun _ => 1⟩ (some 1) 1 (fun _ => [0, 1]) = some s ∧ s.epsilons = [1, 0.9995]) ∧
    ∃ s, smcRun (smcIn 4 exEnv) (smcConfigIn 4 (exConfig 0)) ⟨fun _ _ => [0, 0], fun _ => 1⟩ (some (4 * 1)) 2 (fun _ => [0, 1]) = some s ∧ s.epsilons = [4, 3.999] := by
  constructor
  · obtain ⟨s, h1, -, -, h2, -⟩ := exRun 0 ⟨[0, 1], [1, 0]⟩ (by norm_num [resampled, exConfig, ess]) _ _ _ _ rfl
    exact ⟨s, h1, h2⟩
  · have hcond : (smcConfigIn 4 (exConfig 0)).which ≤ 2 ∧ ¬ ((smcConfigIn 4 (exConfig 0)).bernton = true ∧ (smcConfigIn 4 (exConfig 0)).which = 0) ∧
        ∀ t : Nat, ((fun _ => [0, 1] : Nat → List Nat) t).length = (smcConfigIn 4 (exConfig 0)).n := by simp [smcConfigIn, exConfig]
    have s0 : smcStep (smcIn 4 exEnv) (smcConfigIn 4 (exConfig 0)) ⟨fun _ _ => [0, 0], fun _ => 1⟩ 2 0 [0, 1] ⟨[], 4, none, [], 0, 0⟩ =
        some ⟨[], 4, some ⟨[0, 1], [0, 1], [0, 8], [1 / 2, 1 / 2]⟩, [⟨[0, 1], [0, 1], [0, 8], [1 / 2, 1 / 2]⟩], 1, 2⟩ := by
      norm_num [smcStep, save, smcConfigIn, exConfig, equalWeights, initial, smcIn, exEnv, outRec]
      rfl
    have hf : ∀ x : ℝ, 0 < x → x < 8 → dmFun [1 / 2, 1 / 2] ([0, 1].map (smcIn 4 exEnv).dists) 4 0.95 x = 0.9 := by
      intro x h0 h8
      have h8' : ¬ (8 : ℝ) < x := not_lt.2 h8.le
      have hw : dmWeights [1 / 2, 1 / 2] ([0, 1].map (smcIn 4 exEnv).dists) 4 x = [1 / 2, 0] := by
        norm_num [dmWeights, smcIn, exEnv, below, h0]
      unfold dmFun
      rw [hw]
      norm_num [ess, normalise]
    have e1 : newEps (smcIn 4 exEnv) (smcConfigIn 4 (exConfig 0)) ⟨fun _ _ => [0, 0], fun _ => 1⟩ 2 4 ⟨[0, 1], [0, 1], [0, 8], [1 / 2, 1 / 2]⟩ = some 3.999 := by
      have g1 := hf 3.998 (by norm_num) (by norm_num)
      have g2 := hf 3.996 (by norm_num) (by norm_num)
      have hb : bisection (dmFun [1 / 2, 1 / 2] ([0, 1].map (smcIn 4 exEnv).dists) 4 0.95) 0.001 2 (4 * 0.999) 4 = some 3.999 := by
        rw [show (4 : ℝ) * 0.999 = 3.996 by norm_num, bisection, if_pos (by norm_num), show ((3.996 : ℝ) + 4) / 2 = 3.998 by norm_num, g1, g2, if_neg (by norm_num), if_neg (by norm_num), bisection,
          if_neg (by norm_num)]
        norm_num
      have hc : ¬ (3.999 : ℝ) < (smcConfigIn 4 (exConfig 0)).final := by norm_num [smcConfigIn, exConfig]
      show ((bisection (dmFun [1 / 2, 1 / 2] ([0, 1].map (smcIn 4 exEnv).dists) 4 0.95) 0.001 2 (4 * 0.999) 4).map
        fun e => if e < (smcConfigIn 4 (exConfig 0)).final then (smcConfigIn 4 (exConfig 0)).final else e) = some 3.999
      rw [hb, Option.map_some, if_neg hc]
    have e2 : newWeights (smcIn 4 exEnv) (smcConfigIn 4 (exConfig 0)) 4 3.999 ⟨[0, 1], [0, 1], [0, 8], [1 / 2, 1 / 2]⟩ = some [1, 0] := by
      norm_num [newWeights, smcConfigIn, exConfig, dmWeights, smcIn, exEnv, below, normalise]
    have e3 : resampled (smcConfigIn 4 (exConfig 0)) ⟨fun _ _ => [0, 0], fun _ => 1⟩ 1 [0, 1] [1, 0] = some ⟨[0, 1], [1, 0]⟩ := by
      norm_num [resampled, smcConfigIn, exConfig, ess]
    have e4 : ∃ l, moved (smcIn 4 exEnv) (smcConfigIn 4 (exConfig 0)) 2 3.999 ⟨[0, 1], [1, 0]⟩ [0, 1] [0, 1] = some l := by
      simp [moved, mcmc, smcConfigIn, exConfig, accept0, smcIn, exEnv, propose, stay, collect]
    obtain ⟨l, e4⟩ := e4
    refine ⟨save (smcConfigIn 4 (exConfig 0)) 1 ⟨[], 4, some ⟨[0, 1], [0, 1], [0, 8], [1 / 2, 1 / 2]⟩, [⟨[0, 1], [0, 1], [0, 8], [1 / 2, 1 / 2]⟩], 1, 2⟩ [4] 3.999 [1, 0] l, ?_, ?_⟩
    · unfold smcRun
      rw [if_pos hcond]
      show smcLoop _ _ _ _ _ 2 0 _ = _
      rw [smcLoop, if_neg (by simp [smcConfigIn, exConfig]; norm_num)]
      simp only [Option.getD_some, mul_one, s0]
      rw [smcLoop, if_neg (by simp [smcConfigIn, exConfig]; norm_num)]
      simp only [Nat.zero_add]
      unfold smcStep
      simp only [e1, e2, e3, e4, List.nil_append, smcLoop]
    · simp [save, State.epsilons]

/-- **C204 fails for SMCABC: first threshold.** If there is no largest distance, the first threshold is 100000 in any unit. -/
theorem C204_smc_start_violated (c : Config) (dr : Draws) (fuel : Nat) (start : Nat → List W) (s : State Θ Y) (h : smcRun env c dr none fuel start = some s) : s.epsilons.head? = some (10 ^ 5) := by
  have hl : ∀ k t (s s' : State Θ Y), smcLoop env c dr fuel start k t s = some s' → s.epsilons.head? = some (10 ^ 5) → s'.epsilons.head? = some (10 ^ 5) := by
    intro k
    induction k with
    | zero =>
      intro t s s' h hs
      rw [smcLoop, Option.some.injEq] at h
      exact h ▸ hs
    | succ k ih =>
      intro t s s' h hs
      rw [smcLoop] at h
      by_cases hc : s.cur ≤ c.final
      · rw [if_pos hc, Option.some.injEq] at h
        exact h ▸ hs
      · rw [if_neg hc] at h
        cases hstep : smcStep env c dr fuel t (start t) s with
        | none => simp [hstep] at h
        | some s1 =>
          simp only [hstep] at h
          refine ih _ _ _ h ?_
          unfold smcStep at hstep
          revert hstep
          cases s.last with
          | none =>
            intro hstep
            rw [Option.some.injEq] at hstep
            rw [← hstep]
            exact hs
          | some p =>
            simp only
            cases newEps env c dr fuel s.cur p with
            | none => intro hstep; cases hstep
            | some eps =>
              simp only
              cases newWeights env c s.cur eps p with
              | none => intro hstep; cases hstep
              | some wts =>
                simp only
                cases resampled c dr t p.params wts with
                | none => intro hstep; cases hstep
                | some q =>
                  simp only
                  cases moved env c fuel eps q p.sims (start t) with
                  | none => intro hstep; cases hstep
                  | some l =>
                    intro hstep
                    simp only [Option.some.injEq] at hstep
                    rw [← hstep]
                    unfold State.epsilons at hs ⊢
                    simp only [save]
                    rw [List.head?_append, hs]
                    rfl
  unfold smcRun at h
  by_cases hc : c.which ≤ 2 ∧ ¬ (c.bernton = true ∧ c.which = 0) ∧ ∀ t, (start t).length = c.n
  · rw [if_pos hc] at h
    exact hl _ _ _ _ h rfl
  · rw [if_neg hc] at h
    cases h

end Verif.Units
