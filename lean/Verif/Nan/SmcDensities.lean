import Verif.Nan.Mcmc
import Verif.Smc.Lemmas
import Verif.Smc.Props
/-
`SMCABC` with prior and kernel densities that may be computed as zero: C228. Definitions are those of `Verif.Smc`, with the divisions of numpy in the acceptance probabilities, where `Verif.Smc` takes
the densities that are divided by not to be zero. Distances, thresholds and weights are real. Densities are taken to be numbers of numpy, as those of all continuous distributions are: a division by zero gives an
infinity or NaN and does not raise.
-/
namespace Verif.Nan.SmcDensities

open Verif.Pmc (Pop)
open Verif.Smc (Env Config Draws Out Rec State propose hitLoop hits ratio stay below initial equalWeights resampled newEps newWeights save outRec)

variable {W Θ Y : Type}

/-- `a * b` of numpy; zeros are not negative. -/
noncomputable def mul : Num → Num → Num
  | .num x, b => b.mulReal x
  | .nan, _ => .nan
  | .inf, .num y => signedInf y
  | .inf, .inf => .inf
  | .inf, .negInf => .negInf
  | .inf, .nan => .nan
  | .negInf, .num y => signedInf (-y)
  | .negInf, .inf => .negInf
  | .negInf, .negInf => .inf
  | .negInf, .nan => .nan

open Classical in
/-- `min(1, x)` of Python: 1 unless `x < 1`. -/
noncomputable def atMostOne (x : Num) : Num := if x.lt (.num 1) then x else .num 1

/-- Lines 3790-3798, 3882-3890 and 4020-4028: the acceptance probability. `k` is the factor that comes from the simulations, `pn` and `po` are the prior densities of the proposal and of the particle, `kn` and `kd` the numerator and the
denominator of the ratio of kernel densities. -/
noncomputable def prob (k pn po kn kd : ℝ) : Num := atMostOne (mul (mul (.num k) ((Num.num pn).divReal po)) ((Num.num kn).divReal kd))

/-- `rng.binomial(1, x) == 1`, lines 3799, 3892 and 4030; numpy raises if `x` is not a number. -/
def bern (env : Env W Θ Y) (x : Num) (w : W) : Option (W × Bool) :=
  match x with
  | .num a => some (env.bern a w)
  | _ => none

/-- The decision about the proposal `θ'` for the particle `θ`. -/
noncomputable def decision (env : Env W Θ Y) (p : Pop Θ) (k : ℝ) (θ θ' : Θ) (w : W) : Option (W × Bool) :=
  bern env (prob k (env.pdf θ') (env.pdf θ) (env.kernel p θ' θ) (env.kernel p θ θ')) w

/-- Lines 3785-3788. -/
noncomputable def share (env : Env W Θ Y) (eps : ℝ) (y y' : Y) : ℝ :=
  if below eps (env.dists y) = 0 then 1 else below eps (env.dists y') / below eps (env.dists y)

/-- `_accept_parameter`, lines 3765-3808, as `Smc.accept0`. -/
noncomputable def accept0 (env : Env W Θ Y) (fuel : Nat) (eps : ℝ) (p : Pop Θ) (i : Nat) (θ : Θ) (wt : ℝ) (y : Y) (w : W) : Option (Out Θ Y) :=
  if 0 < wt then
    match propose env.pdf (env.perturb p i) fuel w with
    | none => none
    | some (w, θ') =>
      let r := env.sim θ' w
      match decision env p (share env eps y r.2) θ θ' r.1 with
      | none => none
      | some b => if b.2 then some ⟨θ', r.2, env.dist r.2, 1⟩ else some (stay env θ y 1)
  else some (stay env θ y 0)

/-- `_accept_parameter_r_hit_kernel`, lines 3846-3908, as `Smc.accept1`. -/
noncomputable def accept1 (env : Env W Θ Y) (r fuel : Nat) (eps : ℝ) (p : Pop Θ) (i : Nat) (θ : Θ) (wt : ℝ) (y : Y) (w : W) : Option (Out Θ Y) :=
  if 0 < wt then
    match hitLoop (fun w => some (env.sim θ w)) (fun y => decide (env.dist y < eps)) (r - 1) fuel w [] with
    | none => none
    | some (w, old) =>
      match propose env.pdf (env.perturb p i) fuel w with
      | none => none
      | some (w, θ') =>
        match hitLoop (fun w => some (env.sim θ' w)) (fun y => decide (env.dist y < eps)) r fuel w [] with
        | none => none
        | some (w, new) =>
          if new.length = 1 then none
          else
            match decision env p ((old.length : ℝ) / (new.length - 1)) θ θ' w with
            | none => none
            | some b =>
              if b.2 then
                match (hits (fun y => decide (env.dist y < eps)) new).dropLast with
                | [] => none
                | first => match new[(env.pick first b.1).2]? with
                  | none => none
                  | some y' => some ⟨θ', y', env.dist y', old.length + new.length⟩
              else some (stay env θ y (old.length + new.length))
  else some (stay env θ y 0)

/-- `_accept_parameter_r_hit_kernel_version_2`, lines 3946-4044, as `Smc.accept2`. -/
noncomputable def accept2 (env : Env W Θ Y) (r fuel : Nat) (eps : ℝ) (p : Pop Θ) (i : Nat) (θ : Θ) (wt : ℝ) (y : Y) (w : W) : Option (Out Θ Y) :=
  if 0 < wt then
    match hitLoop (fun w => (propose env.pdf (env.perturb p i) fuel w).map fun e => ((env.sim e.2 e.1).1, e.2, (env.sim e.2 e.1).2))
        (fun a => decide (env.dist a.2 < eps)) r fuel w [] with
    | none => none
    | some (w, prime) =>
      match (hits (fun a : Θ × Y => decide (env.dist a.2 < eps)) prime).dropLast with
      | [] => none
      | first =>
        let l := env.pick first w
        match prime[l.2]? with
        | none => none
        | some (θ', y') =>
          match hitLoop (fun w => (propose env.pdf (env.around p θ') fuel w).map fun e => env.sim e.2 e.1)
              (fun y => decide (env.dist y < eps)) (r - 1) fuel l.1 [] with
          | none => none
          | some (w, back) =>
            match decision env p ((back.length : ℝ) / (prime.length - 1)) θ θ' w with
            | none => none
            | some b =>
              if b.2 then some ⟨θ', y', env.dist y', prime.length + back.length⟩
              else some (stay env θ y (prime.length + back.length))
  else some (stay env θ y 0)

/-- Lines 3539-3544, as `Smc.mcmc`. -/
noncomputable def mcmc (env : Env W Θ Y) (which : Nat) (r : Option Nat) (fuel : Nat) (eps : ℝ) (p : Pop Θ) (i : Nat) (θ : Θ) (wt : ℝ) (y : Y) (w : W) : Option (Out Θ Y) :=
  if which = 0 then accept0 env fuel eps p i θ wt y w
  else if which = 1 then accept1 env (r.getD 3) fuel eps p i θ wt y w
  else if which = 2 then accept2 env (r.getD 2) fuel eps p i θ wt y w
  else none

/-- Lines 3537-3547, as `Smc.moved`. -/
noncomputable def moved (env : Env W Θ Y) (c : Config) (fuel : Nat) (eps : ℝ) (p : Pop Θ) (ys : List Y) (start : List W) : Option (List (Out Θ Y)) :=
  collect (start.zipIdx.map fun e =>
    (p.params[e.2]?).bind fun θ => (p.weights[e.2]?).bind fun wt => (ys[e.2]?).bind fun y => mcmc env c.which c.r fuel eps p e.2 θ wt y e.1)

/-- Iteration `t`, as `Smc.smcStep`. -/
noncomputable def smcStep (env : Env W Θ Y) (c : Config) (dr : Draws) (fuel t : Nat) (start : List W) (s : State Θ Y) : Option (State Θ Y) :=
  match s.last with
  | none => some (save c t s s.past s.cur (equalWeights c.n) (start.map (initial env)))
  | some p =>
    match newEps env c dr fuel s.cur p with
    | none => none
    | some eps => match newWeights env c s.cur eps p with
      | none => none
      | some wts => match resampled c dr t p.params wts with
        | none => none
        | some q => match moved env c fuel eps q p.sims start with
          | none => none
          | some l => some (save c t s (s.past ++ [s.cur]) eps q.weights l)

/-- The loop of lines 3406-3574, as `Smc.smcLoop`. -/
noncomputable def smcLoop (env : Env W Θ Y) (c : Config) (dr : Draws) (fuel : Nat) (start : Nat → List W) : Nat → Nat → State Θ Y → Option (State Θ Y)
  | 0, _, s => some s
  | k + 1, t, s =>
    if s.cur ≤ c.final then some s
    else match smcStep env c dr fuel t (start t) s with
      | none => none
      | some s => smcLoop env c dr fuel start k (t + 1) s

open Classical in
/-- `SMCABC.sample`, as `Smc.smcRun`. -/
noncomputable def smcRun (env : Env W Θ Y) (c : Config) (dr : Draws) (distMax : Option ℝ) (fuel : Nat) (start : Nat → List W) : Option (State Θ Y) :=
  if c.which ≤ 2 ∧ ¬ (c.bernton = true ∧ c.which = 0) ∧ ∀ t, (start t).length = c.n then
    smcLoop env c dr fuel start c.steps 0 ⟨[], distMax.getD (10 ^ 5), none, [], 0, 0⟩
  else none

/-! ### The acceptance probability -/

open Classical in
/-- C228 for the acceptance probability: it is always a number between 0 and 1, so that `binomial` does not raise. It is the ratio of Metropolis and Hastings if the densities in the denominators are not zero. If one of
them is zero it is 1, whatever the simulations and the other densities are. -/
theorem C228_prob (k pn po kn kd : ℝ) (hk : 0 ≤ k) (h1 : 0 < pn) (h2 : 0 ≤ po) (h3 : 0 ≤ kn) (h4 : 0 ≤ kd) :
    prob k pn po kn kd = .num (if po = 0 ∨ kd = 0 then 1 else min 1 (k * (pn / po) * (kn / kd))) ∧
    0 ≤ (if po = 0 ∨ kd = 0 then 1 else min 1 (k * (pn / po) * (kn / kd))) ∧ (if po = 0 ∨ kd = 0 then 1 else min 1 (k * (pn / po) * (kn / kd))) ≤ 1 := by
  refine ⟨?_, ?_, ?_⟩
  · unfold prob atMostOne
    by_cases hp : po = 0
    · subst hp
      rw [if_pos (show (0 : ℝ) = 0 ∨ kd = 0 from Or.inl rfl)]
      have e1 : (Num.num pn).divReal 0 = .inf := by simp [Num.divReal, signedInf, h1]
      rw [e1]
      have e2 : mul (.num k) .inf = .inf ∨ mul (.num k) .inf = .nan := by
        rcases hk.lt_or_eq with hk | rfl
        · left; simp [mul, Num.mulReal, signedInf, hk]
        · right; simp [mul, Num.mulReal, signedInf]
      have e3 : (Num.num kn).divReal kd = .inf ∨ (Num.num kn).divReal kd = .nan ∨ ∃ y, 0 ≤ y ∧ (Num.num kn).divReal kd = .num y := by
        by_cases hd : kd = 0
        · rcases h3.lt_or_eq with h3 | rfl
          · left; simp [Num.divReal, signedInf, hd, h3]
          · right; left; simp [Num.divReal, signedInf, hd]
        · right; right; exact ⟨kn / kd, by positivity, by simp [Num.divReal, hd]⟩
      rcases e2 with e2 | e2 <;> rw [e2]
      · rcases e3 with e3 | e3 | ⟨y, hy, e3⟩ <;> rw [e3]
        · simp [mul, Num.lt]
        · simp [mul, Num.lt]
        · rcases hy.lt_or_eq with hy | rfl
          · simp [mul, signedInf, hy, Num.lt]
          · simp [mul, signedInf, Num.lt]
      · simp [mul, Num.lt]
    · have e1 : mul (.num k) ((Num.num pn).divReal po) = .num (k * (pn / po)) := by simp [mul, Num.divReal, hp, Num.mulReal, mul_comm]
      rw [e1]
      have hnn : 0 ≤ k * (pn / po) := by positivity
      by_cases hd : kd = 0
      · rw [if_pos (show po = 0 ∨ kd = 0 from Or.inr hd)]
        subst hd
        have e3 : (Num.num kn).divReal 0 = .inf ∨ (Num.num kn).divReal 0 = .nan := by
          rcases h3.lt_or_eq with h3 | rfl
          · left; simp [Num.divReal, signedInf, h3]
          · right; simp [Num.divReal, signedInf]
        rcases e3 with e3 | e3 <;> rw [e3]
        · rcases hnn.lt_or_eq with h | h
          · simp [mul, Num.mulReal, signedInf, h, Num.lt]
          · rw [← h]; simp [mul, Num.mulReal, signedInf, Num.lt]
        · simp [mul, Num.mulReal, Num.lt]
      · rw [if_neg (show ¬ (po = 0 ∨ kd = 0) by tauto)]
        have e3 : mul (.num (k * (pn / po))) ((Num.num kn).divReal kd) = .num (k * (pn / po) * (kn / kd)) := by simp [mul, Num.divReal, hd, Num.mulReal, mul_comm]
        rw [e3]
        by_cases hlt : k * (pn / po) * (kn / kd) < 1
        · rw [if_pos ((lt_num _ _).2 hlt), min_eq_right hlt.le]
        · rw [if_neg (fun h => hlt ((lt_num _ _).1 h)), min_eq_left (not_lt.1 hlt)]
  · split
    · exact zero_le_one
    · exact le_min zero_le_one (by positivity)
  · split
    · exact le_rfl
    · exact min_le_left _ _

/-- Densities that are not zero: 1/2. Nothing near, and kernel densities that are both zero: accepted for sure. -/
example : prob 1 1 2 1 1 = .num (1 / 2) ∧ prob 0 1 2 0 0 = .num 1 := by
  rw [(C228_prob 1 1 2 1 1 (by norm_num) (by norm_num) (by norm_num) (by norm_num) (by norm_num)).1, (C228_prob 0 1 2 0 0 (by norm_num) (by norm_num) (by norm_num) (by norm_num) (by norm_num)).1]
  norm_num

theorem decision_real (env : Env W Θ Y) (p : Pop Θ) (k : ℝ) (θ θ' : Θ) (w : W) (h1 : env.pdf θ ≠ 0) (h2 : env.kernel p θ θ' ≠ 0) :
    decision env p k θ θ' w = some (env.bern (min 1 (k * ratio env p θ θ')) w) := by
  have e : prob k (env.pdf θ') (env.pdf θ) (env.kernel p θ' θ) (env.kernel p θ θ') = .num (min 1 (k * ratio env p θ θ')) := by
    have e3 : mul (mul (.num k) ((Num.num (env.pdf θ')).divReal (env.pdf θ))) ((Num.num (env.kernel p θ' θ)).divReal (env.kernel p θ θ')) = .num (k * ratio env p θ θ') := by
      simp only [mul, Num.divReal, h1, h2, Num.mulReal, if_false, ratio]
      congr 1; ring
    unfold prob atMostOne
    rw [e3]
    by_cases hlt : k * ratio env p θ θ' < 1
    · rw [if_pos ((lt_num _ _).2 hlt), min_eq_right hlt.le]
    · rw [if_neg (fun h => hlt ((lt_num _ _).1 h)), min_eq_left (not_lt.1 hlt)]
  unfold decision
  rw [e]
  rfl

theorem mcmc_real (env : Env W Θ Y) (which : Nat) (r : Option Nat) (fuel : Nat) (eps : ℝ) (p : Pop Θ) (i : Nat) (θ : Θ) (wt : ℝ) (y : Y) (w : W) (h1 : env.pdf θ ≠ 0) (h2 : ∀ θ', env.kernel p θ θ' ≠ 0) :
    mcmc env which r fuel eps p i θ wt y w = Verif.Smc.mcmc env which r fuel eps p i θ wt y w := by
  have hd : ∀ k θ' w, decision env p k θ θ' w = some (env.bern (min 1 (k * ratio env p θ θ')) w) := fun k θ' w => decision_real env p k θ θ' w h1 (h2 θ')
  have a0 : accept0 env fuel eps p i θ wt y w = Verif.Smc.accept0 env fuel eps p i θ wt y w := by
    simp only [accept0, Verif.Smc.accept0, hd, share, Verif.Smc.prob0]
    rfl
  have a1 : ∀ r, accept1 env r fuel eps p i θ wt y w = Verif.Smc.accept1 env r fuel eps p i θ wt y w := by
    intro r
    simp only [accept1, Verif.Smc.accept1, hd]
    rfl
  have a2 : ∀ r, accept2 env r fuel eps p i θ wt y w = Verif.Smc.accept2 env r fuel eps p i θ wt y w := by
    intro r
    simp only [accept2, Verif.Smc.accept2, hd]
    rfl
  simp only [mcmc, Verif.Smc.mcmc, a0, a1, a2]

/-! ### Runs with positive densities -/

/-- All particles carried over have a prior density that is not zero. -/
def Fine (env : Env W Θ Y) (s : State Θ Y) : Prop := ∀ p, s.last = some p → ∀ θ ∈ p.params, env.pdf θ ≠ 0

theorem moved_real (env : Env W Θ Y) (c : Config) (fuel : Nat) (eps : ℝ) (p : Pop Θ) (ys : List Y) (start : List W) (h1 : ∀ θ ∈ p.params, env.pdf θ ≠ 0) (h2 : ∀ x y, env.kernel p x y ≠ 0) :
    moved env c fuel eps p ys start = Verif.Smc.moved env c fuel eps p ys start := by
  unfold moved Verif.Smc.moved
  congr 1
  refine List.map_congr_left fun e _ => ?_
  cases ht : p.params[e.2]? with
  | none => rfl
  | some θ =>
    have := h1 θ (List.mem_of_getElem? ht)
    simp only [Option.bind_some, mcmc_real env c.which c.r fuel eps p e.2 θ _ _ e.1 this (h2 θ)]

theorem step_real (env : Env W Θ Y) (hprior : ∀ w, env.pdf (env.prior w).2 ≠ 0) (hker : ∀ p x y, env.kernel p x y ≠ 0) (c : Config) (dr : Draws) (fuel t : Nat) (start : List W) (s : State Θ Y) (hs : Fine env s) :
    smcStep env c dr fuel t start s = Verif.Smc.smcStep env c dr fuel t start s ∧ ∀ s', Verif.Smc.smcStep env c dr fuel t start s = some s' → Fine env s' := by
  unfold smcStep Verif.Smc.smcStep
  cases hl : s.last with
  | none =>
    refine ⟨rfl, ?_⟩
    simp only [Option.some.injEq]
    rintro s' rfl p hp θ hθ
    simp only [save, Option.some.injEq] at hp
    subst hp
    simp only [outRec, List.map_map, List.mem_map, Function.comp] at hθ
    obtain ⟨w, -, rfl⟩ := hθ
    exact hprior w
  | some p =>
    simp only
    cases newEps env c dr fuel s.cur p with
    | none => simp
    | some eps =>
      simp only
      cases newWeights env c s.cur eps p with
      | none => simp
      | some wts =>
        simp only
        cases hq : resampled c dr t p.params wts with
        | none => simp
        | some q =>
          have hq' : ∀ θ ∈ q.params, env.pdf θ ≠ 0 := by
            unfold resampled at hq
            split at hq
            · obtain ⟨l, hl', rfl⟩ := Option.map_eq_some_iff.1 hq
              intro θ hθ
              have := (collect_eq_some _ _).1 hl'
              have hm : some θ ∈ l.map some := List.mem_map.2 ⟨θ, hθ, rfl⟩
              rw [← this] at hm
              obtain ⟨i, -, hi⟩ := List.mem_map.1 hm
              exact hs p hl θ (List.mem_of_getElem? hi)
            · simp only [Option.some.injEq] at hq
              subst hq
              exact fun θ hθ => hs p hl θ hθ
          simp only [moved_real env c fuel eps q p.sims start hq' (hker q)]
          cases hm : Verif.Smc.moved env c fuel eps q p.sims start with
          | none => simp
          | some l =>
            simp only [Option.some.injEq, true_and]
            rintro s' rfl p' hp θ hθ
            simp only [save, Option.some.injEq] at hp
            subst hp
            simp only [outRec, List.mem_map] at hθ
            obtain ⟨o, ho, rfl⟩ := hθ
            obtain ⟨i, hi⟩ := List.getElem?_of_mem ho
            obtain ⟨θ, wt, y, e1, -, e3, hmv⟩ := (Verif.Smc.moved_spec env c fuel eps q p.sims start l hm).2 i o hi
            rcases hmv.2.2 with ⟨a, -⟩ | ⟨θ', w, a, -, b⟩
            · rw [a]; exact hq' θ (List.mem_of_getElem? e1)
            · rw [a]; exact b

/-- C228 for runs (partial). If the prior density of no draw from the prior and no kernel density is computed as zero, the run is that of the model that divides as with exact numbers. -/
theorem C228_run_partial (env : Env W Θ Y) (hprior : ∀ w, env.pdf (env.prior w).2 ≠ 0) (hker : ∀ p x y, env.kernel p x y ≠ 0) (c : Config) (dr : Draws) (distMax : Option ℝ) (fuel : Nat) (start : Nat → List W) :
    smcRun env c dr distMax fuel start = Verif.Smc.smcRun env c dr distMax fuel start := by
  have key : ∀ (k t : Nat) (s : State Θ Y), Fine env s → smcLoop env c dr fuel start k t s = Verif.Smc.smcLoop env c dr fuel start k t s := by
    intro k
    induction k with
    | zero => intros; rfl
    | succ k ih =>
      intro t s hs
      rw [smcLoop, Verif.Smc.smcLoop]
      obtain ⟨h1, h2⟩ := step_real env hprior hker c dr fuel t (start t) s hs
      rw [h1]
      split
      · rfl
      · cases hst : Verif.Smc.smcStep env c dr fuel t (start t) s with
        | none => rfl
        | some s' => exact ih (t + 1) s' (h2 s' hst)
  unfold smcRun Verif.Smc.smcRun
  rw [key _ _ _ (by intro p hp; simp at hp)]

/-! ### Moves -/

/-- C228 for the standard kernel (partial): if the prior density of the particle and the kernel density of the proposal are not computed as zero, a particle with a data set nearer than the threshold stays or is replaced by one with a data
set nearer than the threshold. Missing: densities that are computed as zero, see `C228_violated`. `hb`: with probability zero nothing is accepted. -/
theorem C228_move_partial (env : Env W Θ Y) (hb : ∀ w, (env.bern 0 w).2 = false) (fuel : Nat) (eps : ℝ) (p : Pop Θ) (i : Nat) (θ : Θ) (wt : ℝ) (y : Y) (w : W) (h1 : env.pdf θ ≠ 0) (h2 : ∀ θ', env.kernel p θ θ' ≠ 0)
    (hy : ∃ d ∈ env.dists y, d < eps) (o : Out Θ Y) (ho : accept0 env fuel eps p i θ wt y w = some o) : (o.θ = θ ∧ o.y = y) ∨ ∃ d ∈ env.dists o.y, d < eps := by
  have hc : ∀ l : List ℝ, below eps l = 0 ↔ ¬ ∃ d ∈ l, d < eps := by
    intro l
    simp [below, List.countP_eq_zero]
  unfold accept0 at ho
  split at ho
  · split at ho
    · cases ho
    · rename_i w1 θ' hpr
      simp only [decision_real env p _ θ θ' _ h1 (h2 θ')] at ho
      split at ho
      · rename_i hbt
        cases ho
        by_contra hn
        push Not at hn
        have hz : below eps (env.dists (env.sim θ' w1).2) = 0 := (hc _).2 (by push Not; exact hn.2)
        simp only [share, hz, zero_div, if_neg (fun h => (hc _).1 h hy), zero_mul] at hbt
        rw [min_eq_right zero_le_one, hb] at hbt
        cases hbt
      · cases ho; exact .inl ⟨rfl, rfl⟩
  · cases ho; exact .inl ⟨rfl, rfl⟩

theorem hits_spec {A : Type} (hit : A → Bool) (l : List A) (i : Nat) (hi : i ∈ (hits hit l).dropLast) (a : A) (ha : l[i]? = some a) : hit a = true := by
  have := List.mem_of_mem_dropLast hi
  simp only [hits, List.mem_filter, ha, Option.any_some] at this
  exact this.2

/-- C228 for the two r-hit kernels, for all densities: a particle stays or is replaced by one whose simulation is nearer than the threshold. `hpick`: `rng.choice` returns one of the entries. -/
theorem C228_hits (env : Env W Θ Y) (hpick : ∀ l w, l ≠ [] → (env.pick l w).2 ∈ l) (which : Nat) (hw : which = 1 ∨ which = 2) (r : Option Nat) (fuel : Nat) (eps : ℝ) (p : Pop Θ) (i : Nat) (θ : Θ) (wt : ℝ) (y : Y) (w : W) (o : Out Θ Y)
    (ho : mcmc env which r fuel eps p i θ wt y w = some o) : (o.θ = θ ∧ o.y = y) ∨ env.dist o.y < eps := by
  unfold mcmc at ho
  rcases hw with rfl | rfl
  · simp only [one_ne_zero, if_false, if_true] at ho
    unfold accept1 at ho
    split at ho
    · split at ho
      · cases ho
      · split at ho
        · cases ho
        · split at ho
          · cases ho
          · rename_i new _
            split at ho
            · cases ho
            · split at ho
              · cases ho
              · rename_i b _
                split at ho
                · split at ho
                  · cases ho
                  · rename_i hne
                    split at ho
                    · cases ho
                    · rename_i y' hy'
                      cases ho
                      have := hits_spec _ _ _ (hpick _ b.1 (fun h => hne h)) _ hy'
                      exact .inr (of_decide_eq_true this)
                · cases ho; exact .inl ⟨rfl, rfl⟩
    · cases ho; exact .inl ⟨rfl, rfl⟩
  · simp only [OfNat.ofNat_ne_zero, OfNat.ofNat_ne_one, if_false, if_true] at ho
    unfold accept2 at ho
    split at ho
    · split at ho
      · cases ho
      · rename_i w1 prime _
        split at ho
        · cases ho
        · rename_i hne
          simp only at ho
          split at ho
          · cases ho
          · rename_i θ' y' hy'
            have := hits_spec _ _ _ (hpick _ w1 (fun h => hne h)) _ hy'
            split at ho
            · cases ho
            · split at ho
              · cases ho
              · split at ho
                · cases ho
                  exact .inr (of_decide_eq_true this)
                · cases ho; exact .inl ⟨rfl, rfl⟩
    · cases ho; exact .inl ⟨rfl, rfl⟩

/-- Lines 2361-2370: the acceptance probability of `ABCsubsim` with the divisions of numpy. -/
noncomputable def subsimProb (pn po kn kd d anneal : ℝ) : Num := (atMostOne (mul ((Num.num pn).divReal po) ((Num.num kn).divReal kd))).mulReal (if d < anneal then 1 else 0)

/-- C228 for `ABCsubsim`, for all densities: a simulation that is not nearer than the annealing parameter has acceptance probability zero; one that is nearer has probability 1 if a density in a denominator is zero, else the smaller one of 1 and the ratio. -/
theorem C228_subsim (pn po kn kd d anneal : ℝ) (h1 : 0 < pn) (h2 : 0 ≤ po) (h3 : 0 ≤ kn) (h4 : 0 ≤ kd) :
    (anneal ≤ d → subsimProb pn po kn kd d anneal = .num 0) ∧ (d < anneal → po = 0 ∨ kd = 0 → subsimProb pn po kn kd d anneal = .num 1) ∧
    (d < anneal → po ≠ 0 → kd ≠ 0 → subsimProb pn po kn kd d anneal = .num (min 1 (pn / po * (kn / kd)))) := by
  have e1 : mul (.num 1) ((Num.num pn).divReal po) = (Num.num pn).divReal po := by
    by_cases h : po = 0
    · simp [mul, Num.divReal, h, signedInf, h1, Num.mulReal]
    · simp [mul, Num.divReal, h, Num.mulReal]
  have e2 := (C228_prob 1 pn po kn kd zero_le_one h1 h2 h3 h4).1
  rw [prob, e1] at e2
  unfold subsimProb
  rw [e2]
  refine ⟨fun h => ?_, fun h hz => ?_, fun h hp hk => ?_⟩
  · rw [if_neg (not_lt.2 h), Num.mulReal, mul_zero]
  · rw [if_pos h, if_pos hz, Num.mulReal, mul_one]
  · rw [if_pos h, if_neg (by tauto), Num.mulReal, mul_one, one_mul]

/-- All three cases occur. -/
example : subsimProb 1 2 0 0 3 2 = .num 0 ∧ subsimProb 1 2 0 0 1 2 = .num 1 ∧ subsimProb 1 2 1 1 1 2 = .num (1 / 2) := by
  refine ⟨(C228_subsim 1 2 0 0 3 2 (by norm_num) (by norm_num) (by norm_num) (by norm_num)).1 (by norm_num), (C228_subsim 1 2 0 0 1 2 (by norm_num) (by norm_num) (by norm_num) (by norm_num)).2.1 (by norm_num) (by simp), ?_⟩
  rw [(C228_subsim 1 2 1 1 1 2 (by norm_num) (by norm_num) (by norm_num) (by norm_num)).2.2 (by norm_num) (by norm_num) (by norm_num)]
  norm_num

/-! ### Balance -/

/-- With kernel densities that are computed as zero the moves of the standard kernel are not those of Metropolis and Hastings (compare `Smc.C78_detailed_balance`). `K` is the exact density of a kernel that is symmetric, `g` that of simulated data. The flow from
`(θ, y)` to `(θ', y')` is equal to the flow back only if the target density takes the same value at both. -/
theorem C228_balance (env : Env W Θ Y) (eps : ℝ) (p : Pop Θ) (K : Θ → Θ → ℝ) (g : Y → Θ → ℝ) (θ θ' : Θ) (y y' : Y) (hK : K θ θ' = K θ' θ) (hpos : 0 < K θ θ') (h1 : 0 < env.pdf θ) (h2 : 0 < env.pdf θ') (k1 : env.kernel p θ θ' = 0) (k2 : env.kernel p θ' θ = 0) :
    ∃ a b, prob (share env eps y y') (env.pdf θ') (env.pdf θ) (env.kernel p θ' θ) (env.kernel p θ θ') = .num a ∧ prob (share env eps y' y) (env.pdf θ) (env.pdf θ') (env.kernel p θ θ') (env.kernel p θ' θ) = .num b ∧
      ((env.pdf θ * g y θ * below eps (env.dists y)) * (K θ θ' * g y' θ') * a = (env.pdf θ' * g y' θ' * below eps (env.dists y')) * (K θ' θ * g y θ) * b ↔
        g y θ = 0 ∨ g y' θ' = 0 ∨ env.pdf θ * below eps (env.dists y) = env.pdf θ' * below eps (env.dists y')) := by
  have hs : ∀ y y', 0 ≤ share env eps y y' := by
    intro y y'
    unfold share
    split
    · exact zero_le_one
    · exact div_nonneg (by simp [below]) (by simp [below])
  refine ⟨1, 1, ?_, ?_, ?_⟩
  · rw [(C228_prob _ _ _ _ _ (hs y y') h2 h1.le k2.ge k1.ge).1, if_pos (Or.inr k1)]
  · rw [(C228_prob _ _ _ _ _ (hs y' y) h1 h2.le k1.ge k2.ge).1, if_pos (Or.inr k2)]
  · rw [← hK]
    constructor
    · intro h
      have : (g y θ * g y' θ' * K θ θ') * (env.pdf θ * below eps (env.dists y) - env.pdf θ' * below eps (env.dists y')) = 0 := by linear_combination h
      rcases mul_eq_zero.1 this with h | h
      · rcases mul_eq_zero.1 h with h | h
        · rcases mul_eq_zero.1 h with h | h
          · exact .inl h
          · exact .inr (.inl h)
        · exact absurd h hpos.ne'
      · exact .inr (.inr (sub_eq_zero.1 h))
    · rintro (h | h | h)
      · rw [h]; ring
      · rw [h]; ring
      · linear_combination (g y θ * g y' θ' * K θ θ') * h

/-! ### A run -/

/-- The models of `Smc.exEnv`, where data 0 is near the observation and all other data are too far. The kernel always proposes 5, and its density is computed as `k`. Proposals are accepted if their probability is not zero. -/
noncomputable def vanishing (k : ℝ) : Env Nat Nat Nat := { Verif.Smc.exEnv with kernel := fun _ _ _ => k, bern := fun a w => (w, decide (0 < a)) }

open Verif.Smc (exConfig) in
theorem vanishing_run (k : ℝ) (hk : 0 ≤ k) : ∃ s, smcRun (vanishing k) (exConfig 0) ⟨fun _ _ => [0, 0], fun _ => 1⟩ (some 1) 1 (fun _ => [0, 1]) = some s ∧ s.cur = 0.9995 ∧
    s.journal.getLast? = s.last ∧ s.last = some (if k = 0 then ⟨[5, 1], [5, 1], [2, 2], [1, 0]⟩ else ⟨[0, 1], [0, 1], [0, 2], [1, 0]⟩) := by
  have hcond : (exConfig 0).which ≤ 2 ∧ ¬ ((exConfig 0).bernton = true ∧ (exConfig 0).which = 0) ∧ ∀ t : Nat, ((fun _ => [0, 1] : Nat → List Nat) t).length = (exConfig 0).n := by simp [exConfig]
  have s0 : smcStep (vanishing k) (exConfig 0) ⟨fun _ _ => [0, 0], fun _ => 1⟩ 1 0 [0, 1] ⟨[], 1, none, [], 0, 0⟩ =
      some ⟨[], 1, some ⟨[0, 1], [0, 1], [0, 2], [1 / 2, 1 / 2]⟩, [⟨[0, 1], [0, 1], [0, 2], [1 / 2, 1 / 2]⟩], 1, 2⟩ := by
    simp [smcStep, save, exConfig, equalWeights, initial, vanishing, Verif.Smc.exEnv, outRec]
  have e1 : newEps (vanishing k) (exConfig 0) ⟨fun _ _ => [0, 0], fun _ => 1⟩ 1 1 ⟨[0, 1], [0, 1], [0, 2], [1 / 2, 1 / 2]⟩ = some 0.9995 := by
    unfold newEps exConfig
    rw [Verif.Smc.bisection, if_neg (by norm_num)]
    norm_num
  have e2 : newWeights (vanishing k) (exConfig 0) 1 0.9995 ⟨[0, 1], [0, 1], [0, 2], [1 / 2, 1 / 2]⟩ = some [1, 0] := by
    norm_num [newWeights, exConfig, Verif.Smc.dmWeights, vanishing, Verif.Smc.exEnv, below, Verif.Pmc.normalise]
  have hq : resampled (exConfig 0) ⟨fun _ _ => [0, 0], fun _ => 1⟩ 1 [0, 1] [1, 0] = some (⟨[0, 1], [1, 0]⟩ : Pop Nat) := by norm_num [resampled, exConfig, Verif.Smc.ess]
  have hd : ∀ p w, decision (vanishing k) p (share (vanishing k) 0.9995 0 5) 0 5 w = some (w, decide (k = 0)) := by
    intro p w
    have hs : share (vanishing k) 0.9995 0 5 = 0 := by norm_num [share, vanishing, Verif.Smc.exEnv, below]
    unfold decision
    rw [hs, (C228_prob 0 _ _ _ _ le_rfl (by simp [vanishing, Verif.Smc.exEnv]) (by simp [vanishing, Verif.Smc.exEnv]) (by simpa [vanishing] using hk) (by simpa [vanishing] using hk)).1]
    by_cases h : k = 0
    · simp [bern, vanishing, Verif.Smc.exEnv, h]
    · simp [bern, vanishing, Verif.Smc.exEnv, h]
  have e3 : moved (vanishing k) (exConfig 0) 1 0.9995 ⟨[0, 1], [1, 0]⟩ [0, 1] [0, 1] = some [if k = 0 then ⟨5, 5, 2, 1⟩ else ⟨0, 0, 0, 1⟩, ⟨1, 1, 2, 0⟩] := by
    have hp : ∀ w, propose (vanishing k).pdf ((vanishing k).perturb ⟨[0, 1], [1, 0]⟩ 0) 1 w = some (w, 5) := by
      intro w; simp [propose, vanishing, Verif.Smc.exEnv]
    have hs : ∀ w, (vanishing k).sim 5 w = (w, 5) := fun _ => rfl
    have t0 : accept0 (vanishing k) 1 0.9995 ⟨[0, 1], [1, 0]⟩ 0 0 1 0 0 = some (if k = 0 then ⟨5, 5, 2, 1⟩ else ⟨0, 0, 0, 1⟩) := by
      unfold accept0
      rw [if_pos one_pos]
      simp only [hp, hs, hd]
      by_cases h : k = 0
      · simp [h, vanishing, Verif.Smc.exEnv]
      · simp [h, stay, vanishing, Verif.Smc.exEnv]
    have t1 : accept0 (vanishing k) 1 0.9995 ⟨[0, 1], [1, 0]⟩ 1 1 0 1 1 = some ⟨1, 1, 2, 0⟩ := by
      simp [accept0, stay, vanishing, Verif.Smc.exEnv]
    simp [moved, mcmc, exConfig, collect, t0, t1]
  have s1 : smcStep (vanishing k) (exConfig 0) ⟨fun _ _ => [0, 0], fun _ => 1⟩ 1 1 [0, 1]
      ⟨[], 1, some ⟨[0, 1], [0, 1], [0, 2], [1 / 2, 1 / 2]⟩, [⟨[0, 1], [0, 1], [0, 2], [1 / 2, 1 / 2]⟩], 1, 2⟩ =
      some (save (exConfig 0) 1 ⟨[], 1, some ⟨[0, 1], [0, 1], [0, 2], [1 / 2, 1 / 2]⟩, [⟨[0, 1], [0, 1], [0, 2], [1 / 2, 1 / 2]⟩], 1, 2⟩ [1] 0.9995 [1, 0]
        [if k = 0 then ⟨5, 5, 2, 1⟩ else ⟨0, 0, 0, 1⟩, ⟨1, 1, 2, 0⟩]) := by
    unfold smcStep
    simp only [e1, e2, hq, e3, List.nil_append]
  refine ⟨save (exConfig 0) 1 ⟨[], 1, some ⟨[0, 1], [0, 1], [0, 2], [1 / 2, 1 / 2]⟩, [⟨[0, 1], [0, 1], [0, 2], [1 / 2, 1 / 2]⟩], 1, 2⟩ [1] 0.9995 [1, 0]
        [if k = 0 then ⟨5, 5, 2, 1⟩ else ⟨0, 0, 0, 1⟩, ⟨1, 1, 2, 0⟩], ?_, rfl, ?_, ?_⟩
  · unfold smcRun
    rw [if_pos hcond]
    show smcLoop _ _ _ _ _ 2 0 _ = _
    rw [smcLoop, if_neg (by simp [exConfig]; norm_num)]
    simp only [Option.getD_some, s0]
    rw [smcLoop, if_neg (by simp [exConfig]; norm_num)]
    simp only [Nat.zero_add, s1, smcLoop]
  · simp [save, outRec, exConfig]
  · by_cases h : k = 0 <;> simp [save, outRec, h]

/-- The hypotheses of `C228_balance` hold for these models, and the flows differ: data 0 is near, data 5 is not. -/
example : ∃ a b, prob (share (vanishing 0) 1 0 5) 1 1 0 0 = .num a ∧ prob (share (vanishing 0) 1 5 0) 1 1 0 0 = .num b ∧
    ¬ (1 * 1 * below 1 ((vanishing 0).dists 0)) * (1 * 1) * a = (1 * 1 * below 1 ((vanishing 0).dists 5)) * (1 * 1) * b := by
  obtain ⟨a, b, h1, h2, h3⟩ := C228_balance (vanishing 0) 1 ⟨[], []⟩ (fun _ _ => 1) (fun _ _ => 1) 0 5 0 5 rfl one_pos one_pos one_pos rfl rfl
  refine ⟨a, b, h1, h2, fun h => ?_⟩
  have := h3.1 h
  norm_num [vanishing, Verif.Smc.exEnv, below] at this

/-- C228 fails for the standard kernel. If the density of the kernel is computed as zero, in both directions, a proposal is accepted although its simulation is too far: the run ends with the threshold 0.9995 and all weight on a particle with distance 2.
The prior density is 1 everywhere, and with probability zero nothing is accepted. -/
theorem C228_violated : (∀ θ, 0 < (vanishing 0).pdf θ) ∧ (∀ w, ((vanishing 0).bern 0 w).2 = false) ∧
    ∃ s r, smcRun (vanishing 0) (Verif.Smc.exConfig 0) ⟨fun _ _ => [0, 0], fun _ => 1⟩ (some 1) 1 (fun _ => [0, 1]) = some s ∧ s.cur = 0.9995 ∧ s.journal.getLast? = some r ∧ r.distances = [2, 2] ∧ r.weights = [1, 0] := by
  refine ⟨fun _ => one_pos, fun w => by simp [vanishing], ?_⟩
  obtain ⟨s, h1, h2, h3, h4⟩ := vanishing_run 0 le_rfl
  rw [if_pos rfl] at h4
  exact ⟨s, _, h1, h2, h3.trans h4, rfl, rfl⟩

/-- The same run with a kernel density that is not zero meets the hypotheses of `C228_run_partial` and `C228_move_partial`, and ends with all weight on a particle with distance 0. -/
example (k : ℝ) (hk : 0 < k) : (∀ w, (vanishing k).pdf ((vanishing k).prior w).2 ≠ 0) ∧ (∀ p x y, (vanishing k).kernel p x y ≠ 0) ∧ (∀ w, ((vanishing k).bern 0 w).2 = false) ∧
    ∃ s r, smcRun (vanishing k) (Verif.Smc.exConfig 0) ⟨fun _ _ => [0, 0], fun _ => 1⟩ (some 1) 1 (fun _ => [0, 1]) = some s ∧ s.journal.getLast? = some r ∧ r.distances = [0, 2] ∧ r.weights = [1, 0] := by
  refine ⟨fun _ => one_ne_zero, fun _ _ _ => hk.ne', fun w => by simp [vanishing], ?_⟩
  obtain ⟨s, h1, h2, h3, h4⟩ := vanishing_run k hk.le
  rw [if_neg hk.ne'] at h4
  exact ⟨s, _, h1, h3.trans h4, rfl, rfl⟩

/-- `C228_hits` applies to a move with the first r-hit kernel and with kernel densities that are zero: particle 3 is replaced by particle 5. -/
example : ∃ env : Env Nat Nat Nat, (∀ l w, l ≠ [] → (env.pick l w).2 ∈ l) ∧ mcmc env 1 (some 2) 3 1 ⟨[3], [1]⟩ 0 3 1 0 0 = some ⟨5, 0, 0, 3⟩ := by
  refine ⟨{ vanishing 0 with sim := fun _ w => (w, 0), pick := fun l w => (w, l.headD 0) }, ?_, ?_⟩
  · intro l w hl
    cases l with
    | nil => exact absurd rfl hl
    | cons a l => simp
  · have hp : prob 1 1 1 0 0 = .num 1 := by
      rw [(C228_prob 1 1 1 0 0 (by norm_num) (by norm_num) (by norm_num) (by norm_num) (by norm_num)).1]; simp
    simp [mcmc, accept1, hitLoop, propose, vanishing, Verif.Smc.exEnv, decision, hits, List.range_succ]
    norm_num [hp, bern]

end Verif.Nan.SmcDensities
