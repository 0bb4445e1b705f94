import Verif.Pmc.Lemmas
import Verif.Rejection.Props
/-
C214: simulators that refuse parameters (`_check_input` is false), so that `simulate` returns `None` (graphtools.py 411-420). `RejectionABC` looks whether there are data (inferences.py 698-703); `PMCABC` hands
`None` to the distance (1021-1022), which raises `TypeError` (distances.py 114-115). The other oracles are those of `Verif.Pmc`; here running on and raising are told apart.
-/
namespace Verif.Refuse

open Verif.Pmc (Pop Env State Rec above proposeLoop rawWeight normalise nextEps initEps)

variable {W Θ Y : Type}

/-! ### Model -/

/-- How a computation ends: not within the fuel, with an exception, or with a result. -/
inductive End (A : Type)
  | running
  | raised
  | done (a : A)

def End.toOption {A : Type} : End A → Option A
  | .done a => some a
  | _ => none

def End.bind {A B : Type} (e : End A) (f : A → End B) : End B :=
  match e with
  | .running => .running
  | .raised => .raised
  | .done a => f a

/-- An exception if there is nothing. -/
def orRaise {A : Type} : Option A → End A
  | none => .raised
  | some a => .done a

/-- The results of a map over tasks, one after the other. -/
def collectE {A : Type} : List (End A) → End (List A)
  | [] => .done []
  | e :: l => e.bind fun a => (collectE l).bind fun r => .done (a :: r)

/-- Lines 998-1024 of `PMCABC._resample_parameter`, as `Pmc.resampleLoop`. `sim θ w` is `simulate` while the models hold `θ`; its second component is `none` if a simulator refuses. -/
noncomputable def resampleLoop (env : Env W Θ Y) (sim : Θ → W → W × Option Y) (eps : ℝ) (pop : Option (Pop Θ)) : Nat → W → Θ → Option ℝ → Nat → End (Θ × Option ℝ × Nat)
  | 0, _, _, _, _ => .running
  | fuel + 1, w, θ, d, c =>
    if above d eps then
      match pop with
      | none =>
        let q := env.prior w
        match sim q.2 q.1 with
        | (_, none) => .raised
        | (w, some y) => resampleLoop env sim eps pop fuel w q.2 (some (env.dist y)) (c + 1)
      | some p =>
        let i := env.choose p.weights w
        match proposeLoop env p i.2 fuel i.1 with
        | none => .running
        | some (w, θ) => match sim θ w with
          | (_, none) => .raised
          | (w, some y) => resampleLoop env sim eps pop fuel w θ (some (env.dist y)) (c + 1)
    else .done (θ, d, c)

/-- Lines 967-1026, as `Pmc.resampleTask`. The loop is not left with an infinite distance. -/
noncomputable def resampleTask (env : Env W Θ Y) (sim : Θ → W → W × Option Y) (eps : ℝ) (pop : Option (Pop Θ)) (fuel : Nat) (w : W) : End (Θ × ℝ × Nat) :=
  (resampleLoop env sim eps pop fuel w (env.held w) env.distMax 0).bind fun r => match r with
    | (θ, some d, c) => .done (θ, d, c)
    | _ => .running

/-- Iteration `t`, lines 875-941, as `Pmc.pmcStep`. -/
noncomputable def pmcStep (env : Env W Θ Y) (sim : Θ → W → W × Option Y) (steps : Nat) (pct : ℝ) (fuel t : Nat) (start : List W) (s : State Θ) : End (State Θ) :=
  match s.epsArr[t]? with
  | some (some eps) =>
    if s.pop.all fun p => p.weights.length = start.length ∧ p.params.length = start.length then
      (collectE (start.map (resampleTask env sim eps s.pop fuel))).bind fun res =>
        let params := res.map (·.1)
        let distances := res.map (·.2.1)
        (orRaise (nextEps steps t pct distances s.epsArr)).bind fun epsArr =>
          let weights := normalise (params.map (rawWeight env start.length s.pop))
          .done ⟨epsArr, some ⟨params, weights⟩, s.counter + (res.map (·.2.2)).sum, s.hist ++ [⟨eps, params, distances, weights⟩]⟩
    else .raised
  | _ => .raised

/-- Lines 847-963, as `Pmc.pmcLoop`. -/
noncomputable def pmcLoop (env : Env W Θ Y) (sim : Θ → W → W × Option Y) (steps : Nat) (pct : ℝ) (fuel : Nat) (start : Nat → List W) : Nat → Nat → State Θ → End (State Θ)
  | 0, _, s => .done s
  | k + 1, t, s => (pmcStep env sim steps pct fuel t (start t) s).bind fun s => pmcLoop env sim steps pct fuel start k (t + 1) s

/-- `PMCABC.sample` without a journal file, lines 810-965, as `Pmc.pmcRun`. -/
noncomputable def pmcRun (env : Env W Θ Y) (sim : Θ → W → W × Option Y) (steps : Nat) (epsInit : List ℝ) (pct : ℝ) (fuel : Nat) (start : Nat → List W) (before : Option (Pop Θ)) (counter : Nat) :
    End (State Θ) :=
  (orRaise (initEps epsInit steps)).bind fun arr => pmcLoop env sim steps pct fuel start steps 0 ⟨arr, before, counter, []⟩

/-! ### Specification -/

/-- The sampler that counts a refused simulation as one at distance `D`. -/
def far (env : Env W Θ Y) (sim : Θ → W → W × Option Y) (D : ℝ) : Env W Θ (Option Y) where
  distMax := env.distMax
  dist := fun y => y.elim D env.dist
  pdf := env.pdf
  kernel := env.kernel
  held := env.held
  prior := env.prior
  choose := env.choose
  perturb := env.perturb
  sim := sim

/-! ### Runs that return -/

theorem proposeLoop_far (env : Env W Θ Y) (sim : Θ → W → W × Option Y) (D : ℝ) (p : Pop Θ) (i fuel : Nat) : ∀ w, proposeLoop (far env sim D) p i fuel w = proposeLoop env p i fuel w := by
  induction fuel with
  | zero => intro w; rfl
  | succ fuel ih =>
    intro w
    unfold proposeLoop
    show (match env.perturb p i w with | (w, none) => _ | (w, some θ) => _) = _
    rcases env.perturb p i w with ⟨w', _ | θ⟩
    · exact ih w'
    · simp only [ih]; rfl

theorem loop_far (env : Env W Θ Y) (sim : Θ → W → W × Option Y) (D eps : ℝ) (pop : Option (Pop Θ)) (fuel : Nat) : ∀ (w : W) (θ : Θ) (d : Option ℝ) (c : Nat) (r : Θ × Option ℝ × Nat),
    resampleLoop env sim eps pop fuel w θ d c = .done r → Pmc.resampleLoop (far env sim D) eps pop fuel w θ d c = some r := by
  induction fuel with
  | zero => intro w θ d c r h; cases h
  | succ fuel ih =>
    intro w θ d c r h
    unfold resampleLoop at h
    unfold Pmc.resampleLoop
    by_cases hd : above d eps = true
    · rw [if_pos hd] at h ⊢
      cases pop with
      | none =>
        simp only at h ⊢
        rw [show (far env sim D).prior = env.prior from rfl, show (far env sim D).sim = sim from rfl]
        rcases hs : sim (env.prior w).2 (env.prior w).1 with ⟨w', _ | y⟩
        · rw [hs] at h; cases h
        · rw [hs] at h; exact ih _ _ _ _ _ h
      | some p =>
        simp only [proposeLoop_far] at h ⊢
        rw [show (far env sim D).choose = env.choose from rfl]
        cases hp : proposeLoop env p (env.choose p.weights w).2 fuel (env.choose p.weights w).1 with
        | none => rw [hp] at h; cases h
        | some e =>
          rw [hp] at h
          simp only at h ⊢
          rw [show (far env sim D).sim = sim from rfl]
          rcases hs : sim e.2 e.1 with ⟨w', _ | y⟩
          · rw [hs] at h; cases h
          · rw [hs] at h; exact ih _ _ _ _ _ h
    · rw [if_neg hd] at h ⊢
      cases h
      rfl

theorem bind_done {A B : Type} (e : End A) (f : A → End B) (b : B) : e.bind f = .done b ↔ ∃ a, e = .done a ∧ f a = .done b := by
  cases e <;> simp [End.bind]

theorem collectE_done {A : Type} (l : List (End A)) (r : List A) : collectE l = .done r ↔ l = r.map .done := by
  induction l generalizing r with
  | nil => cases r <;> simp [collectE]
  | cons e l ih =>
    rw [collectE, bind_done]
    constructor
    · rintro ⟨a, rfl, h⟩
      obtain ⟨r', h1, h2⟩ := (bind_done _ _ _).1 h
      cases h2
      rw [(ih _).1 h1]
      rfl
    · intro h
      cases r with
      | nil => cases h
      | cons a r =>
        rw [List.map_cons, List.cons.injEq] at h
        exact ⟨a, h.1, (bind_done _ _ _).2 ⟨r, (ih r).2 h.2, rfl⟩⟩

theorem task_far (env : Env W Θ Y) (sim : Θ → W → W × Option Y) (D eps : ℝ) (pop : Option (Pop Θ)) (fuel : Nat) (w : W) (r : Θ × ℝ × Nat) (h : resampleTask env sim eps pop fuel w = .done r) :
    Pmc.resampleTask (far env sim D) eps pop fuel w = some r := by
  obtain ⟨⟨θ, d, c⟩, h1, h2⟩ := (bind_done _ _ _).1 h
  unfold Pmc.resampleTask
  rw [show (far env sim D).held = env.held from rfl, show (far env sim D).distMax = env.distMax from rfl, loop_far env sim D eps pop fuel _ _ _ _ _ h1]
  cases d with
  | none => cases h2
  | some d => cases h2; rfl

theorem rawWeight_far (env : Env W Θ Y) (sim : Θ → W → W × Option Y) (D : ℝ) (n : Nat) (pop : Option (Pop Θ)) : rawWeight (far env sim D) n pop = rawWeight env n pop := rfl

theorem step_far (env : Env W Θ Y) (sim : Θ → W → W × Option Y) (D : ℝ) (steps : Nat) (pct : ℝ) (fuel t : Nat) (start : List W) (s s' : State Θ)
    (h : pmcStep env sim steps pct fuel t start s = .done s') : Pmc.pmcStep (far env sim D) steps pct fuel t start s = some s' := by
  unfold pmcStep at h
  unfold Pmc.pmcStep
  split at h
  · rename_i eps he
    split_ifs at h with hl
    simp only [he, hl, if_true]
    obtain ⟨res, h1, h2⟩ := (bind_done _ _ _).1 h
    obtain ⟨arr, h3, h4⟩ := (bind_done _ _ _).1 h2
    have hc : collect (start.map (Pmc.resampleTask (far env sim D) eps s.pop fuel)) = some res := by
      rw [collect_eq_some]
      have h1' := (collectE_done _ _).1 h1
      have : ∀ (l : List W) (res : List (Θ × ℝ × Nat)), l.map (resampleTask env sim eps s.pop fuel) = res.map .done →
          l.map (Pmc.resampleTask (far env sim D) eps s.pop fuel) = res.map some := by
        intro l
        induction l with
        | nil => intro res h; cases res <;> simp_all
        | cons w l ih =>
          intro res h
          cases res with
          | nil => cases h
          | cons r res =>
            rw [List.map_cons, List.map_cons, List.cons.injEq] at h
            rw [List.map_cons, List.map_cons, task_far env sim D _ _ _ _ _ h.1, ih _ h.2]
      exact this _ _ h1'
    rw [hc]
    simp only
    cases hn : nextEps steps t pct (res.map (·.2.1)) s.epsArr with
    | none => rw [hn] at h3; cases h3
    | some arr' =>
      rw [hn] at h3
      cases h3
      cases h4
      rfl
  · cases h

/-- C214 for runs of PMCABC that return: they are the runs of the sampler that counts a refused simulation as one at distance `D`, whatever `D` is; so no refused simulation has had any influence. -/
theorem C214_returns_partial (env : Env W Θ Y) (sim : Θ → W → W × Option Y) (D : ℝ) (steps : Nat) (epsInit : List ℝ) (pct : ℝ) (fuel : Nat) (start : Nat → List W) (before : Option (Pop Θ))
    (counter : Nat) (s : State Θ) (h : pmcRun env sim steps epsInit pct fuel start before counter = .done s) :
    Pmc.pmcRun (far env sim D) steps epsInit pct fuel start before counter = some s := by
  have hl : ∀ (k t : Nat) (s0 : State Θ), pmcLoop env sim steps pct fuel start k t s0 = .done s → Pmc.pmcLoop (far env sim D) steps pct fuel start k t s0 = some s := by
    intro k
    induction k with
    | zero => intro t s0 h; cases h; rfl
    | succ k ih =>
      intro t s0 h
      obtain ⟨s1, h1, h2⟩ := (bind_done _ _ _).1 h
      rw [Pmc.pmcLoop, step_far env sim D steps pct fuel t _ _ _ h1]
      exact ih _ _ h2
  obtain ⟨arr, h1, h2⟩ := (bind_done _ _ _).1 h
  unfold Pmc.pmcRun
  cases hi : initEps epsInit steps with
  | none => rw [hi] at h1; cases h1
  | some arr' =>
    rw [hi] at h1
    cases h1
    exact hl _ _ _ h2

/-- C214: without refusals the run is that of `Verif.Pmc`. -/
theorem C214_accepting_partial (env : Env W Θ Y) (steps : Nat) (epsInit : List ℝ) (pct : ℝ) (fuel : Nat) (start : Nat → List W) (before : Option (Pop Θ)) (counter : Nat) :
    (pmcRun env (fun θ w => ((env.sim θ w).1, some (env.sim θ w).2)) steps epsInit pct fuel start before counter).toOption = Pmc.pmcRun env steps epsInit pct fuel start before counter := by
  have hloop : ∀ (eps : ℝ) (pop : Option (Pop Θ)) (f : Nat) (w : W) (θ : Θ) (d : Option ℝ) (c : Nat),
      (resampleLoop env (fun θ w => ((env.sim θ w).1, some (env.sim θ w).2)) eps pop f w θ d c).toOption = Pmc.resampleLoop env eps pop f w θ d c := by
    intro eps pop f
    induction f with
    | zero => intro w θ d c; rfl
    | succ f ih =>
      intro w θ d c
      unfold resampleLoop Pmc.resampleLoop
      by_cases hd : above d eps = true
      · rw [if_pos hd, if_pos hd]
        cases pop with
        | none => exact ih _ _ _ _
        | some p =>
          simp only
          cases proposeLoop env p (env.choose p.weights w).2 f (env.choose p.weights w).1 with
          | none => rfl
          | some e => exact ih _ _ _ _
      · rw [if_neg hd, if_neg hd]; rfl
  have hbind : ∀ {A B : Type} (e : End A) (f : A → End B), (e.bind f).toOption = e.toOption.bind fun a => (f a).toOption := by
    intro A B e f; cases e <;> rfl
  have htask : ∀ (eps : ℝ) (pop : Option (Pop Θ)) (w : W),
      (resampleTask env (fun θ w => ((env.sim θ w).1, some (env.sim θ w).2)) eps pop fuel w).toOption = Pmc.resampleTask env eps pop fuel w := by
    intro eps pop w
    unfold resampleTask Pmc.resampleTask
    rw [hbind, hloop]
    rcases Pmc.resampleLoop env eps pop fuel w (env.held w) env.distMax 0 with _ | ⟨θ, _ | d, c⟩ <;> rfl
  have hcollect : ∀ {A : Type} (l : List (End A)), (collectE l).toOption = collect (l.map End.toOption) := by
    intro A l
    induction l with
    | nil => rfl
    | cons e l ih =>
      rw [collectE, hbind, List.map_cons]
      cases e with
      | running => rfl
      | raised => rfl
      | done a =>
        change ((collectE l).bind fun r => End.done (a :: r)).toOption = collect (some a :: l.map End.toOption)
        rw [hbind, ih, collect]
        cases collect (l.map End.toOption) <;> rfl
  have hstep : ∀ (t : Nat) (st : List W) (s : State Θ),
      (pmcStep env (fun θ w => ((env.sim θ w).1, some (env.sim θ w).2)) steps pct fuel t st s).toOption = Pmc.pmcStep env steps pct fuel t st s := by
    intro t st s
    unfold pmcStep Pmc.pmcStep
    rcases he : s.epsArr[t]? with _ | _ | eps
    · rfl
    · rfl
    · simp only
      split_ifs with hl
      · rw [hbind, hcollect, List.map_map, show (End.toOption ∘ resampleTask env (fun θ w => ((env.sim θ w).1, some (env.sim θ w).2)) eps s.pop fuel) =
          Pmc.resampleTask env eps s.pop fuel from funext fun w => htask eps s.pop w]
        cases collect (st.map (Pmc.resampleTask env eps s.pop fuel)) with
        | none => rfl
        | some res =>
          simp only [Option.bind_some, hbind]
          cases nextEps steps t pct (res.map (·.2.1)) s.epsArr <;> rfl
      · rfl
  have hl : ∀ (k t : Nat) (s : State Θ), (pmcLoop env (fun θ w => ((env.sim θ w).1, some (env.sim θ w).2)) steps pct fuel start k t s).toOption =
      Pmc.pmcLoop env steps pct fuel start k t s := by
    intro k
    induction k with
    | zero => intro t s; rfl
    | succ k ih =>
      intro t s
      rw [pmcLoop, hbind, hstep, Pmc.pmcLoop]
      cases Pmc.pmcStep env steps pct fuel t (start t) s with
      | none => rfl
      | some s1 => exact ih _ _
  unfold pmcRun Pmc.pmcRun
  rw [hbind]
  cases initEps epsInit steps with
  | none => rfl
  | some arr => exact hl _ _ _

/-! ### Runs that raise -/

/-- Draw from the prior and simulate. -/
def trial (env : Env W Θ Y) (sim : Θ → W → W × Option Y) (w : W) : W × Θ × Option Y :=
  let q := env.prior w
  let r := sim q.2 q.1
  (r.1, q.2, r.2)

theorem loop_raised (env : Env W Θ Y) (sim : Θ → W → W × Option Y) (eps : ℝ) (fuel : Nat) : ∀ (w : W) (θ : Θ) (d : Option ℝ) (c : Nat), above d eps = true →
    (resampleLoop env sim eps none fuel w θ d c = .raised ↔ ∃ k, k < fuel ∧ (trial env sim (Rejection.after (trial env sim) w k)).2.2 = none ∧
      ∀ j, j < k → ∃ y, (trial env sim (Rejection.after (trial env sim) w j)).2.2 = some y ∧ eps < env.dist y) := by
  induction fuel with
  | zero => intro w θ d c _; simp [resampleLoop]
  | succ fuel ih =>
    intro w θ d c hd
    have hshift : ∀ k, Rejection.after (trial env sim) w (k + 1) = Rejection.after (trial env sim) (trial env sim w).1 k := fun k => by
      unfold Rejection.after; rw [Function.iterate_succ_apply]
    have h0 : Rejection.after (trial env sim) w 0 = w := rfl
    unfold resampleLoop
    rw [if_pos hd]
    simp only
    rcases hs : sim (env.prior w).2 (env.prior w).1 with ⟨w', _ | y⟩
    · have ht : trial env sim w = (w', (env.prior w).2, none) := by simp [trial, hs]
      simp only [true_iff]
      exact ⟨0, by omega, by rw [h0, ht], fun j hj => absurd hj (Nat.not_lt_zero j)⟩
    · have ht : trial env sim w = (w', (env.prior w).2, some y) := by simp [trial, hs]
      by_cases hy : eps < env.dist y
      · rw [ih _ _ _ _ (by simpa [above] using hy)]
        constructor
        · rintro ⟨k, h1, h2, h3⟩
          refine ⟨k + 1, by omega, by rw [hshift, ht]; exact h2, fun j hj => ?_⟩
          cases j with
          | zero => exact ⟨y, by rw [h0, ht], hy⟩
          | succ j => rw [hshift, ht]; exact h3 j (by omega)
        · rintro ⟨k, h1, h2, h3⟩
          cases k with
          | zero => rw [h0, ht] at h2; cases h2
          | succ k =>
            refine ⟨k, by omega, by rw [hshift, ht] at h2; exact h2, fun j hj => ?_⟩
            have := h3 (j + 1) (by omega)
            rwa [hshift, ht] at this
      · constructor
        · intro h
          cases fuel with
          | zero => cases h
          | succ fuel =>
            have hn : ¬above (some (env.dist y)) eps = true := by simpa [above] using hy
            simp only [resampleLoop, if_neg hn] at h
            cases h
        · rintro ⟨k, h1, h2, h3⟩
          cases k with
          | zero => rw [h0, ht] at h2; cases h2
          | succ k =>
            obtain ⟨z, h4, h5⟩ := h3 0 (by omega)
            rw [h0, ht] at h4
            cases h4
            exact absurd h5 hy

/-- C214 fails for the first population of PMCABC: a task raises exactly if a draw from the prior is refused by a simulator before data within the threshold have been simulated. -/
theorem C214_task_violated (env : Env W Θ Y) (sim : Θ → W → W × Option Y) (eps : ℝ) (hmax : above env.distMax eps = true) (fuel : Nat) (w : W) :
    resampleTask env sim eps none fuel w = .raised ↔ ∃ k, k < fuel ∧ (trial env sim (Rejection.after (trial env sim) w k)).2.2 = none ∧
      ∀ j, j < k → ∃ y, (trial env sim (Rejection.after (trial env sim) w j)).2.2 = some y ∧ eps < env.dist y := by
  rw [← loop_raised env sim eps fuel w (env.held w) env.distMax 0 hmax]
  unfold resampleTask
  cases resampleLoop env sim eps none fuel w (env.held w) env.distMax 0 with
  | running => simp [End.bind]
  | raised => simp [End.bind]
  | done r => rcases r with ⟨θ, _ | d, c⟩ <;> simp [End.bind]

theorem collectE_raised {A : Type} (l : List (End A)) (h : .raised ∈ l) (hr : .running ∉ l) : collectE l = .raised := by
  induction l with
  | nil => cases h
  | cons e l ih =>
    rw [collectE]
    cases e with
    | running => simp at hr
    | raised => rfl
    | done a =>
      rw [ih (by simpa using h) (by simpa using hr)]
      rfl

/-- C214 fails for PMCABC: if all tasks of the first population end and one of them meets a refused simulation before it has accepted data, the run raises, whatever the other parameters and the later populations
are. -/
theorem C214_run_violated (env : Env W Θ Y) (sim : Θ → W → W × Option Y) (steps : Nat) (hsteps : 0 < steps) (eps : ℝ) (rest : List ℝ) (hmax : above env.distMax eps = true) (pct : ℝ) (fuel : Nat)
    (start : Nat → List W) (counter : Nat) (hend : ∀ w ∈ start 0, resampleTask env sim eps none fuel w ≠ .running) (w : W) (hw : w ∈ start 0) (k : Nat) (hk : k < fuel)
    (hno : (trial env sim (Rejection.after (trial env sim) w k)).2.2 = none)
    (hfar : ∀ j, j < k → ∃ y, (trial env sim (Rejection.after (trial env sim) w j)).2.2 = some y ∧ eps < env.dist y) :
    pmcRun env sim steps (eps :: rest) pct fuel start none counter = .raised := by
  unfold pmcRun
  cases hi : initEps (eps :: rest) steps with
  | none => rfl
  | some arr =>
    obtain ⟨m, rfl⟩ := Nat.exists_eq_succ_of_ne_zero hsteps.ne'
    have h0 : arr[0]? = some (some eps) := by
      unfold initEps at hi
      split_ifs at hi with hl
      · cases hi; rfl
      · cases rest with
        | nil => cases hi; rfl
        | cons a rest => cases hi
    have hr : pmcStep env sim (m + 1) pct fuel 0 (start 0) ⟨arr, none, counter, []⟩ = .raised := by
      unfold pmcStep
      simp only [h0, Option.all_none, if_true]
      rw [collectE_raised _ (List.mem_map.2 ⟨w, hw, (C214_task_violated env sim eps hmax fuel w).2 ⟨k, hk, hno, hfar⟩⟩) (by
        intro h
        obtain ⟨v, hv, he⟩ := List.mem_map.1 h
        exact hend v hv he)]
      rfl
    simp only [orRaise, End.bind, pmcLoop, hr]

/-- C214 for RejectionABC: a call in which simulators refuse is the call in which they return data at the maximal distance. -/
theorem C214_rejection {D : Type} [LinearOrder D] (trial : W → W × Θ × Option Y) (dist : Y → D) (distMax eps : D) (fuel : Nat) (w : W) :
    Rejection.rejectTask trial dist distMax eps fuel w =
      Rejection.rejectTask (fun w => ((trial w).1, (trial w).2.1, some (trial w).2.2)) (fun y : Option Y => y.elim distMax dist) distMax eps fuel w := by
  unfold Rejection.rejectTask
  have : ∀ (fuel : Nat) (w : W) (θ : Option Θ) (d : D) (c : Nat), Rejection.rejectLoop trial dist distMax eps fuel w θ d c =
      Rejection.rejectLoop (fun w => ((trial w).1, (trial w).2.1, some (trial w).2.2)) (fun y : Option Y => y.elim distMax dist) distMax eps fuel w θ d c := by
    intro fuel
    induction fuel with
    | zero => intro w θ d c; rfl
    | succ fuel ih =>
      intro w θ d c
      unfold Rejection.rejectLoop
      by_cases hd : d > eps
      · rw [if_pos hd, if_pos hd]
        exact ih _ _ _ _
      · rw [if_neg hd, if_neg hd]
  exact this _ _ _ _ _

/-! ### A run -/

/-- Parameters are the worker's counter; the simulator refuses the parameter 0. -/
noncomputable def picky : Env Nat Nat Unit where
  distMax := none
  dist := fun _ => 0
  pdf := fun _ => 1
  kernel := fun _ _ _ => 1
  held := fun w => w
  prior := fun w => (w + 1, w)
  choose := fun _ w => (w, 0)
  perturb := fun _ _ w => (w + 1, some w)
  sim := fun _ w => (w, ())

def pickySim (θ w : Nat) : Nat × Option Unit := (w, if θ = 0 then none else some ())

/-- C214: RejectionABC returns after the second trial; PMCABC with the same worker raises; and the sampler that counts the refused simulation as one that is too far returns the same parameter as RejectionABC. -/
theorem C214_picky_violated : Rejection.rejectTask (trial picky pickySim) picky.dist 10 1 3 0 = .done (1, 0, 2, 2) ∧
    pmcRun picky pickySim 1 [1] 50 3 (fun _ => [0]) none 0 = .raised ∧
    Pmc.pmcRun (far picky pickySim 10) 1 [1] 50 3 (fun _ => [0]) none 0 = some ⟨[some 1], some ⟨[1], [1]⟩, 2, [⟨1, [1], [0], [1]⟩]⟩ := by
  refine ⟨?_, ?_, ?_⟩
  · simp [Rejection.rejectTask, Rejection.rejectLoop, trial, picky, pickySim]
  · refine C214_run_violated picky pickySim 1 one_pos 1 [] rfl 50 3 _ 0 ?_ 0 (by simp) 0 (by norm_num) rfl (fun j hj => absurd hj (Nat.not_lt_zero j))
    intro w hw
    have : w = 0 := by simpa using hw
    subst this
    rw [(C214_task_violated picky pickySim 1 rfl 3 0).2 ⟨0, by norm_num, rfl, fun j hj => absurd hj (Nat.not_lt_zero j)⟩]
    exact fun h => by cases h
  · simp [Pmc.pmcRun, initEps, Pmc.pmcLoop, Pmc.pmcStep, Pmc.resampleTask, Pmc.resampleLoop, above, far, picky, pickySim, collect, nextEps, normalise, rawWeight, show ¬(1 : ℝ) < 0 by norm_num]

/-- The hypothesis of `C214_returns_partial`: another worker does not meet the refused parameter. -/
example : pmcRun picky pickySim 1 [1] 50 3 (fun _ => [1]) none 0 = .done ⟨[some 1], some ⟨[1], [1]⟩, 1, [⟨1, [1], [0], [1]⟩]⟩ := by
  simp [pmcRun, initEps, orRaise, End.bind, pmcLoop, pmcStep, resampleTask, resampleLoop, above, picky, pickySim, collectE, nextEps, normalise, rawWeight, show ¬(1 : ℝ) < 0 by norm_num]

end Verif.Refuse
