import Verif.Refuse.Pmc
import Verif.Apmc.Model
import Verif.Subsim.Model
import Verif.Sabc.Model
/-
C214 for the first populations of `SABC`, `ABCsubsim`, `RSMCABC`, `APMCABC` and `SMCABC`. As in `Verif.Refuse.Pmc`, `None` is handed to the distance, which raises.
-/
namespace Verif.Refuse

variable {W Θ Y M : Type}

/-! ### Model -/

/-- `_accept_parameter` of `APMCABC` for the first population, lines 3118-3124, as `Apmc.accept`. -/
noncomputable def apmcFirst (env : Apmc.Env W Θ Y) (sim : Θ → W → W × Option Y) (w : W) : End (Apmc.Out Θ) :=
  let a := env.prior w
  match (sim a.2 a.1).2 with
  | none => .raised
  | some y => .done ⟨a.2, env.dist y, 1⟩

/-- `_accept_parameter` of `ABCsubsim` for the first population, lines 2337-2343, as `Subsim.first`. -/
def subsimFirst (env : Subsim.Env W Θ Y M) (sim : Θ → W → W × Option Y) (w : W) : End (List Θ × List ℝ) :=
  let a := env.prior w
  match (sim a.2 a.1).2 with
  | none => .raised
  | some y => .done ([a.2], [env.dist y])

/-- The tasks of `SMCABC` for the first population, lines 3761-3764 and 3809-3810 (and the same lines of the other kernels), as `Smc.initial`. -/
def smcFirst (env : Smc.Env W Θ Y) (sim : Θ → W → W × Option Y) (w : W) : End (Smc.Out Θ Y) :=
  let a := env.prior w
  match (sim a.2 a.1).2 with
  | none => .raised
  | some y => .done ⟨a.2, y, env.dist y, 1⟩

/-- The loop of `RSMCABC._accept_parameter` for the first population, lines 2764-2768, as `Rsmc.priorLoop`. -/
noncomputable def rsmcFirst (env : Rsmc.Env W Θ Y) (sim : Θ → W → W × Option Y) (eps : ℝ) : Nat → W → Θ → Option ℝ → Nat → End (Θ × Option ℝ × Nat)
  | 0, _, _, _, _ => .running
  | fuel + 1, w, held, d, c =>
    if Pmc.above d eps then
      let a := env.prior w
      match sim a.2 a.1 with
      | (_, none) => .raised
      | (w, some y) => rsmcFirst env sim eps fuel w a.2 (some (env.dist y)) (c + 1)
    else .done (held, d, c)

/-- The loop of `SABC._accept_parameter` for the first population, lines 1963-1974, as `Sabc.first`. -/
noncomputable def sabcFirst (env : Sabc.Env W Θ Y) (sim : Θ → W → W × Option Y) (eps : ℝ) (index : Nat) : Nat → W → List ℝ → Nat → End (Sabc.Out Θ)
  | 0, _, _, _ => .running
  | fuel + 1, w, all, c =>
    let a := env.prior w
    match sim a.2 a.1 with
    | (_, none) => .raised
    | (w, some y) =>
      let d := env.dist y
      let u := env.bern (Real.exp (-d / eps)) w
      if u.2 then .done ⟨a.2, d, all ++ [d], index, true, c + 1⟩ else sabcFirst env sim eps index fuel u.1 (all ++ [d]) (c + 1)

/-! ### One simulation for each sample -/

theorem collectE_iff {A : Type} (l : List (End A)) (h : .running ∉ l) : collectE l = .raised ↔ .raised ∈ l := by
  refine ⟨fun hc => ?_, fun hm => collectE_raised l hm h⟩
  induction l with
  | nil => cases hc
  | cons e l ih =>
    cases e with
    | running => simp at h
    | raised => simp
    | done a =>
      have h' : End.running ∉ l := by simpa using h
      rw [collectE] at hc
      have : collectE l = .raised := by
        cases hl : collectE l with
        | running => rw [hl] at hc; cases hc
        | raised => rfl
        | done r => rw [hl] at hc; cases hc
      simp [ih h' this]

theorem first_raised {A : Type} (draw : W → W × Θ) (sim : Θ → W → W × Option Y) (out : Θ → Y → A) (task : W → End A)
    (ht : ∀ w, task w = match (sim (draw w).2 (draw w).1).2 with | none => .raised | some y => .done (out (draw w).2 y)) (start : List W) :
    collectE (start.map task) = .raised ↔ ∃ w ∈ start, (sim (draw w).2 (draw w).1).2 = none := by
  rw [collectE_iff]
  · constructor
    · intro h
      obtain ⟨w, hw, he⟩ := List.mem_map.1 h
      refine ⟨w, hw, ?_⟩
      rw [ht] at he
      cases hs : (sim (draw w).2 (draw w).1).2 with
      | none => rfl
      | some y => rw [hs] at he; cases he
    · rintro ⟨w, hw, he⟩
      refine List.mem_map.2 ⟨w, hw, ?_⟩
      rw [ht, he]
  · intro h
    obtain ⟨w, -, he⟩ := List.mem_map.1 h
    rw [ht] at he
    cases hs : (sim (draw w).2 (draw w).1).2 <;> rw [hs] at he <;> cases he

/-- C214 fails for APMCABC: the first population raises exactly if a simulator refuses one of the draws from the prior. -/
theorem C214_apmcabc_violated (env : Apmc.Env W Θ Y) (sim : Θ → W → W × Option Y) (start : List W) :
    collectE (start.map (apmcFirst env sim)) = .raised ↔ ∃ w ∈ start, (sim (env.prior w).2 (env.prior w).1).2 = none :=
  first_raised env.prior sim (fun θ y => (⟨θ, env.dist y, 1⟩ : Apmc.Out Θ)) (apmcFirst env sim) (fun _ => rfl) start

/-- C214 fails for ABCsubsim. -/
theorem C214_abcsubsim_violated (env : Subsim.Env W Θ Y M) (sim : Θ → W → W × Option Y) (start : List W) :
    collectE (start.map (subsimFirst env sim)) = .raised ↔ ∃ w ∈ start, (sim (env.prior w).2 (env.prior w).1).2 = none :=
  first_raised env.prior sim (fun θ y => ([θ], [env.dist y])) (subsimFirst env sim) (fun _ => rfl) start

/-- C214 fails for SMCABC. -/
theorem C214_smcabc_violated (env : Smc.Env W Θ Y) (sim : Θ → W → W × Option Y) (start : List W) :
    collectE (start.map (smcFirst env sim)) = .raised ↔ ∃ w ∈ start, (sim (env.prior w).2 (env.prior w).1).2 = none :=
  first_raised env.prior sim (fun θ y => (⟨θ, y, env.dist y, 1⟩ : Smc.Out Θ Y)) (smcFirst env sim) (fun _ => rfl) start

/-- C214: draws that are not refused give what they give in the models without refusals. -/
theorem C214_draw_partial (apmc : Apmc.Env W Θ Y) (subsim : Subsim.Env W Θ Y M) (smc : Smc.Env W Θ Y) (fuel : Nat) (w : W) :
    apmcFirst apmc (fun θ w => ((apmc.sim θ w).1, some (apmc.sim θ w).2)) w = orRaise (Apmc.accept apmc fuel none w) ∧
    subsimFirst subsim (fun θ w => ((subsim.sim θ w).1, some (subsim.sim θ w).2)) w = .done (Subsim.first subsim w) ∧
    smcFirst smc (fun θ w => ((smc.sim θ w).1, some (smc.sim θ w).2)) w = .done (Smc.initial smc w) := ⟨rfl, rfl, rfl⟩

/-! ### Simulations until one is accepted -/

/-- The same as the task of PMCABC. -/
theorem rsmc_pmc (env : Rsmc.Env W Θ Y) (pmc : Pmc.Env W Θ Y) (hp : pmc.prior = env.prior) (hd : pmc.dist = env.dist) (sim : Θ → W → W × Option Y) (eps : ℝ) (fuel : Nat) :
    ∀ (w : W) (θ : Θ) (d : Option ℝ) (c : Nat), rsmcFirst env sim eps fuel w θ d c = resampleLoop pmc sim eps none fuel w θ d c := by
  induction fuel with
  | zero => intro w θ d c; rfl
  | succ fuel ih =>
    intro w θ d c
    unfold rsmcFirst resampleLoop
    by_cases h : Pmc.above d eps = true
    · rw [if_pos h, if_pos h, hp]
      simp only
      rcases sim (env.prior w).2 (env.prior w).1 with ⟨w', _ | y⟩
      · rfl
      · simp only [ih, hd]
    · rw [if_neg h, if_neg h]

/-- Draw from the prior and simulate. -/
def trialBy (draw : W → W × Θ) (sim : Θ → W → W × Option Y) (w : W) : W × Θ × Option Y :=
  let q := draw w
  let r := sim q.2 q.1
  (r.1, q.2, r.2)

/-- C214 fails for RSMCABC: a task of the first population raises exactly if a draw is refused before data within the first threshold have been simulated. -/
theorem C214_rsmcabc_violated (env : Rsmc.Env W Θ Y) (sim : Θ → W → W × Option Y) (eps : ℝ) (hmax : Pmc.above env.distMax eps = true) (fuel : Nat) (w : W) (held : Θ) :
    rsmcFirst env sim eps fuel w held env.distMax 0 = .raised ↔ ∃ k, k < fuel ∧ (trialBy env.prior sim (Rejection.after (trialBy env.prior sim) w k)).2.2 = none ∧
      ∀ j, j < k → ∃ y, (trialBy env.prior sim (Rejection.after (trialBy env.prior sim) w j)).2.2 = some y ∧ eps < env.dist y := by
  have h := rsmc_pmc env ⟨env.distMax, env.dist, env.pdf, env.kernel, fun _ => held, env.prior, fun l w => env.choose l.length w, env.perturb, env.sim⟩ rfl rfl sim eps fuel w held env.distMax 0
  rw [h]
  exact loop_raised _ sim eps fuel w held env.distMax 0 hmax

/-- One round of the loop of SABC: draw, simulate and, if there are data, decide. The last component says whether the round ends the loop. -/
noncomputable def sabcRound (env : Sabc.Env W Θ Y) (sim : Θ → W → W × Option Y) (eps : ℝ) (w : W) : W × Option Bool :=
  let a := env.prior w
  match sim a.2 a.1 with
  | (w, none) => (w, none)
  | (w, some y) => ((env.bern (Real.exp (-env.dist y / eps)) w).1, some (env.bern (Real.exp (-env.dist y / eps)) w).2)

/-- C214 fails for SABC: a task of the first population raises exactly if a draw is refused before one has been accepted. -/
theorem C214_sabc_violated (env : Sabc.Env W Θ Y) (sim : Θ → W → W × Option Y) (eps : ℝ) (index fuel : Nat) : ∀ (w : W) (all : List ℝ) (c : Nat),
    sabcFirst env sim eps index fuel w all c = .raised ↔ ∃ k, k < fuel ∧ (sabcRound env sim eps ((fun w => (sabcRound env sim eps w).1)^[k] w)).2 = none ∧
      ∀ j, j < k → (sabcRound env sim eps ((fun w => (sabcRound env sim eps w).1)^[j] w)).2 = some false := by
  induction fuel with
  | zero => intro w all c; simp [sabcFirst]
  | succ fuel ih =>
    intro w all c
    have hshift : ∀ k, (fun w => (sabcRound env sim eps w).1)^[k + 1] w = (fun w => (sabcRound env sim eps w).1)^[k] (sabcRound env sim eps w).1 :=
      fun k => Function.iterate_succ_apply _ _ _
    unfold sabcFirst
    simp only
    rcases hs : sim (env.prior w).2 (env.prior w).1 with ⟨w', _ | y⟩
    · have ht : sabcRound env sim eps w = (w', none) := by simp [sabcRound, hs]
      simp only [true_iff]
      exact ⟨0, by omega, by rw [Function.iterate_zero_apply, ht], fun j hj => absurd hj (Nat.not_lt_zero j)⟩
    · have ht : sabcRound env sim eps w = ((env.bern (Real.exp (-env.dist y / eps)) w').1, some (env.bern (Real.exp (-env.dist y / eps)) w').2) := by
        simp [sabcRound, hs]
      simp only
      by_cases hu : (env.bern (Real.exp (-env.dist y / eps)) w').2 = true
      · rw [if_pos hu]
        refine ⟨fun h => (by cases h), ?_⟩
        rintro ⟨k, -, h2, h3⟩
        cases k with
        | zero => rw [Function.iterate_zero_apply, ht] at h2; cases h2
        | succ k =>
          have := h3 0 (by omega)
          rw [Function.iterate_zero_apply, ht] at this
          simp [hu] at this
      · rw [if_neg hu, ih]
        have hf : (sabcRound env sim eps w).2 = some false := by rw [ht]; simp [hu]
        constructor
        · rintro ⟨k, h1, h2, h3⟩
          refine ⟨k + 1, by omega, by rw [hshift, ht]; exact h2, fun j hj => ?_⟩
          cases j with
          | zero => exact hf
          | succ j => rw [hshift, ht]; exact h3 j (by omega)
        · rintro ⟨k, h1, h2, h3⟩
          cases k with
          | zero => rw [Function.iterate_zero_apply, ht] at h2; cases h2
          | succ k =>
            refine ⟨k, by omega, by rw [hshift, ht] at h2; exact h2, fun j hj => ?_⟩
            have := h3 (j + 1) (by omega)
            rwa [hshift, ht] at this

/-- C214: without refusals the loops are those of `Verif.Rsmc` and `Verif.Sabc`. -/
theorem C214_loop_partial (rsmc : Rsmc.Env W Θ Y) (sabc : Sabc.Env W Θ Y) (eps : ℝ) (index fuel : Nat) (w : W) (held : Θ) :
    (rsmcFirst rsmc (fun θ w => ((rsmc.sim θ w).1, some (rsmc.sim θ w).2)) eps fuel w held rsmc.distMax 0).toOption = Rsmc.priorLoop rsmc eps fuel w held rsmc.distMax 0 ∧
    (sabcFirst sabc (fun θ w => ((sabc.sim θ w).1, some (sabc.sim θ w).2)) eps index fuel w [] 0).toOption = Sabc.first sabc eps index fuel w [] 0 := by
  constructor
  · have : ∀ (w : W) (held : Θ) (d : Option ℝ) (c : Nat),
        (rsmcFirst rsmc (fun θ w => ((rsmc.sim θ w).1, some (rsmc.sim θ w).2)) eps fuel w held d c).toOption = Rsmc.priorLoop rsmc eps fuel w held d c := by
      induction fuel with
      | zero => intro w held d c; rfl
      | succ fuel ih =>
        intro w held d c
        unfold rsmcFirst Rsmc.priorLoop
        by_cases h : Pmc.above d eps = true
        · rw [if_pos h, if_pos h]; exact ih _ _ _ _
        · rw [if_neg h, if_neg h]; rfl
    exact this _ _ _ _
  · have : ∀ (w : W) (all : List ℝ) (c : Nat),
        (sabcFirst sabc (fun θ w => ((sabc.sim θ w).1, some (sabc.sim θ w).2)) eps index fuel w all c).toOption = Sabc.first sabc eps index fuel w all c := by
      induction fuel with
      | zero => intro w all c; rfl
      | succ fuel ih =>
        intro w all c
        unfold sabcFirst Sabc.first
        simp only
        split_ifs
        · rfl
        · exact ih _ _ _
    exact this _ _ _

/-! ### Runs -/

/-- Parameters are the worker's counter, and `pickySim` refuses 0. -/
noncomputable def pickyApmc : Apmc.Env Nat Nat Unit where
  dist := fun _ => 0
  pdf := fun _ => 1
  kernel := fun _ _ _ => 1
  prior := fun w => (w + 1, w)
  choose := fun _ w => (w, 0)
  perturb := fun _ _ w => (w + 1, some w)
  sim := fun _ w => (w, ())

/-- Of three workers the last one makes the population raise. -/
example : collectE ([2, 1, 0].map (apmcFirst pickyApmc pickySim)) = .raised := (C214_apmcabc_violated _ _ _).2 ⟨0, by simp, rfl⟩

example : collectE ([2, 1].map (apmcFirst pickyApmc pickySim)) = .done [⟨2, 0, 1⟩, ⟨1, 0, 1⟩] := rfl

noncomputable def pickySabc : Sabc.Env Nat Nat Unit where
  dist := fun _ => 0
  pdf := fun _ => 1
  prior := fun w => (w + 1, 5 - w)
  choose := fun _ w => (w, 0)
  perturb := fun _ _ w => (w + 1, some w)
  sim := fun _ w => (w, ())
  bern := fun _ w => (w, false)
  unif := fun w => (w, 0)
  schedule := fun x => x
  pick := fun _ l => List.range l.length

/-- Draws of 2 and 1 are not accepted, then 0 is refused. -/
example : sabcFirst pickySabc pickySim 1 0 10 3 [] 0 = .raised := by
  refine (C214_sabc_violated pickySabc pickySim 1 0 10 3 [] 0).2 ⟨2, by norm_num, rfl, fun j hj => ?_⟩
  rcases (by omega : j = 0 ∨ j = 1) with rfl | rfl <;> rfl

/-- The hypothesis of `C214_rsmcabc_violated`. -/
noncomputable def pickyRsmc : Rsmc.Env Nat Nat Unit where
  distMax := none
  dist := fun _ => 2
  pdf := fun _ => 1
  kernel := fun _ _ _ => 1
  prior := fun w => (w + 1, 5 - w)
  choose := fun _ w => (w, 0)
  perturb := fun _ _ w => (w + 1, some w)
  sim := fun _ w => (w, ())
  bern := fun _ w => (w, false)

example : rsmcFirst pickyRsmc pickySim 1 10 3 0 none 0 = .raised := by
  refine (C214_rsmcabc_violated pickyRsmc pickySim 1 rfl 10 3 0).2 ⟨2, by norm_num, rfl, fun j hj => ⟨(), ?_, ?_⟩⟩
  · rcases (by omega : j = 0 ∨ j = 1) with rfl | rfl <;> rfl
  · show (1 : ℝ) < 2
    norm_num

end Verif.Refuse
