import Verif.Site.Same
/-
C139: maps of tasks on the graph, for any schedule. C138: the data behind the particles of the other samplers.
-/
namespace Verif.Site

open Graph

variable {α Y K M : Type}

/-- A task is a seed and a number (the second entry of `rng_and_index`); an exception leaves the object as it was. -/
def runTask {A : Type} (t : Nat → Worker α → Option (Worker α × A)) (task : Nat × Nat) (st : St α) : St α × Option A :=
  match t task.2 ⟨task.1, st, 0⟩ with
  | none => (st, none)
  | some (w, a) => (w.st, some a)

/-- Specification: maps of tasks on the graph give what `spec` gives for seed and number of each task, with the MPI backend for every schedule, and with the sequential backend; and what comes out has the property `P`. -/
def MapsTo {A : Type} (S : Site α Y K) (consts : Nat → Option α) (P : A → Prop) (t : Nat → Worker α → Option (Worker α × A)) (spec : Nat → Nat × Nat → Option A) : Prop :=
  ∀ (tasks : Nat → Nat × Nat) (n : Nat) (schedule : List (Nat × Nat)) (st : St α), Schedule.Complete n schedule → Good S consts st →
    Schedule.mapMpi (runTask t) tasks n schedule st = (List.range n).map (fun i => some (spec (tasks i).2 ((tasks i).1, 0))) ∧
    (Schedule.mapSequential (runTask t) tasks n st).2 = (List.range n).map (fun i => spec (tasks i).2 ((tasks i).1, 0)) ∧
    ∀ i a, spec (tasks i).2 ((tasks i).1, 0) = some a → P a

theorem maps_to {A : Type} (S : Site α Y K) (consts : Nat → Option α) (P : A → Prop) (t : Nat → Worker α → Option (Worker α × A)) (spec : Nat → Nat × Nat → Option A)
    (h : ∀ i w, Good S consts w.st → Agrees S consts P (t i w) (spec i w.pos)) : MapsTo S consts P t spec := by
  intro tasks n schedule st hc hst
  have key : ∀ (task : Nat × Nat) (s : St α), Good S consts s → (runTask t task s).2 = spec task.2 (task.1, 0) ∧ Good S consts (runTask t task s).1 := by
    intro task s hs
    have := h task.2 ⟨task.1, s, 0⟩ hs
    have e : Worker.pos (⟨task.1, s, 0⟩ : Worker α) = (task.1, 0) := rfl
    rw [e] at this
    unfold runTask
    rcases this with ⟨a1, a2⟩ | ⟨w, a, a1, a2, a3, -⟩
    · rw [a1, a2]; exact ⟨rfl, hs⟩
    · rw [a1, a2]; exact ⟨rfl, a3⟩
  obtain ⟨a1, a2, -⟩ := Schedule.maps_agree (runTask t) tasks (fun a b => a = b ∨ (Good S consts a ∧ Good S consts b)) (fun s => .inl rfl)
    (by
      rintro t s s' (rfl | ⟨h, h'⟩)
      · rfl
      · rw [(key t s h).1, (key t s' h').1]) st
    (by
      rintro t s (rfl | ⟨h, h'⟩)
      · exact .inr ⟨(key t _ hst).2, hst⟩
      · exact .inr ⟨(key t s h).2, hst⟩) n schedule hc
  rw [a1, a2]
  refine ⟨List.map_congr_left fun i _ => by rw [(key _ st hst).1], List.map_congr_left fun i _ => (key _ st hst).1, fun i a ha => ?_⟩
  rcases h (tasks i).2 ⟨(tasks i).1, st, 0⟩ hst with ⟨-, b2⟩ | ⟨w, b, -, b2, -, b4⟩
  · have b2' : spec (tasks i).2 ((tasks i).1, 0) = none := b2
    rw [b2'] at ha; cases ha
  · have b2' : spec (tasks i).2 ((tasks i).1, 0) = some b := b2
    rw [b2', Option.some.injEq] at ha
    rw [← ha]; exact b4

/-- C139 for `APMCABC`. -/
theorem C139_apmcabc (S : Site α Y K) (hS : Plain S) (consts : Nat → Option α) (hd : Draws S consts) (hin : Inside S consts) (req : Pmc.Pop (List (Option α)) → Nat → K)
    (kern : Pmc.Pop (List (Option α)) → List (Option α) → List (Option α) → ℝ) (fuel : Nat) (pop : Option (Pmc.Pop (List (Option α)))) :
    MapsTo S consts (fun o => Fits S consts o.θ) (fun _ => apmcTask S req kern fuel pop) (fun _ => Apmc.accept (apmcEnv S consts req kern) fuel pop) :=
  maps_to S consts _ _ _ fun _ w hw => apmc_same S hS consts hd hin req kern fuel pop w hw

theorem rsmc_held (env : Rsmc.Env (Nat × Nat) (List (Option α)) Y) (fuel : Nat) (eps : ℝ) (pop : Option (Pmc.Pop (List (Option α)) × List ℝ)) (r : Nat) (hr : 0 < r) (hmax : Pmc.above env.distMax eps = true)
    (p : Nat × Nat) (held held' : List (Option α)) : Rsmc.accept env fuel eps pop r p held = Rsmc.accept env fuel eps pop r p held' := by
  unfold Rsmc.accept
  cases pop with
  | none =>
    simp only
    cases fuel with
    | zero => rfl
    | succ n => rw [Rsmc.priorLoop, Rsmc.priorLoop, if_pos hmax, if_pos hmax]
  | some q =>
    simp only
    obtain ⟨k, rfl⟩ : ∃ k, r = k + 1 := ⟨r - 1, by omega⟩
    rfl

/-- C139 for `RSMCABC`, if every particle is moved at least once and the threshold is below the maximum of the distance. -/
theorem C139_rsmcabc (S : Site α Y K) (R : Rng) (hS : Plain S) (consts : Nat → Option α) (hd : Draws S consts) (hin : Inside S consts) (req : Pmc.Pop (List (Option α)) → Nat → K)
    (kern : Pmc.Pop (List (Option α)) → List (Option α) → List (Option α) → ℝ) (fuel : Nat) (eps : ℝ) (pop : Option (Pmc.Pop (List (Option α)) × List ℝ)) (hmax : Pmc.above S.distMax eps = true)
    (hpop : ∀ p, pop = some p → ∀ θ ∈ p.1.params, Fits S consts θ) (r : Nat) (hr : 0 < r) (held : List (Option α)) :
    MapsTo S consts (fun o => Fits S consts o.θ) (fun _ => rsmcTask S R req kern fuel eps pop r) (fun _ p => Rsmc.accept (rsmcEnv S R consts req kern) fuel eps pop r p held) :=
  maps_to S consts _ _ _ fun _ w hw => by
    rw [rsmc_held (rsmcEnv S R consts req kern) fuel eps pop r hr hmax w.pos held ((order S.g S.roots).map w.st.value)]
    exact rsmc_same S R hS consts hd hin req kern fuel eps pop hmax hpop r hr w hw

/-- C139 for the first population of `SMCABC`. -/
theorem C139_smcabc_first (S : Site α Y K) (R : Rng) (hS : Plain S) (consts : Nat → Option α) (hd : Draws S consts) (hin : Inside S consts) (req : Pmc.Pop (List (Option α)) → Nat → K)
    (around : Pmc.Pop (List (Option α)) → List (Option α) → K) (kern : Pmc.Pop (List (Option α)) → List (Option α) → List (Option α) → ℝ) (dists : Y → List ℝ) :
    MapsTo S consts (fun o => Fits S consts o.θ) (fun _ => smcFirst S) (fun _ p => some (Smc.initial (smcEnv S R consts req around kern dists) p)) :=
  maps_to S consts _ _ _ fun _ w hw => smcFirst_same S R hS consts hd hin req around kern dists w hw

/-- The tasks of `SMCABC` after the first population: particle, weight and data number `i` of the lists (3757-3766, 3833-3846, 3932-3946). -/
noncomputable def smcTask (S : Site α Y K) (R : Rng) (req : Pmc.Pop (List (Option α)) → Nat → K) (around : Pmc.Pop (List (Option α)) → List (Option α) → K)
    (kern : Pmc.Pop (List (Option α)) → List (Option α) → List (Option α) → ℝ) (dists : Y → List ℝ) (which r fuel : Nat) (eps : ℝ) (p : Pmc.Pop (List (Option α))) (ys : List Y) (i : Nat) (w : Worker α) :
    Option (Worker α × Smc.Out (List (Option α)) Y) :=
  match p.params[i]?, p.weights[i]?, ys[i]? with
  | some θ, some wt, some y =>
    if which = 0 then smcTask0 S R req kern dists fuel eps p i θ wt y w
    else if which = 1 then smcTask1 S R req kern r fuel eps p i θ wt y w
    else if which = 2 then smcTask2 S R req around kern r fuel eps p i θ wt y w
    else none
  | _, _, _ => none

/-- C139 for the three kernels of `SMCABC`. -/
theorem C139_smcabc (S : Site α Y K) (R : Rng) (hS : Plain S) (consts : Nat → Option α) (req : Pmc.Pop (List (Option α)) → Nat → K) (around : Pmc.Pop (List (Option α)) → List (Option α) → K)
    (kern : Pmc.Pop (List (Option α)) → List (Option α) → List (Option α) → ℝ) (dists : Y → List ℝ) (which r fuel : Nat) (eps : ℝ) (p : Pmc.Pop (List (Option α)))
    (hpop : ∀ θ ∈ p.params, Fits S consts θ) (ys : List Y) :
    MapsTo S consts (fun o => Fits S consts o.θ) (smcTask S R req around kern dists which r fuel eps p ys) (fun i q =>
      match p.params[i]?, p.weights[i]?, ys[i]? with
      | some θ, some wt, some y => Smc.mcmc (smcEnv S R consts req around kern dists) which (some r) fuel eps p i θ wt y q
      | _, _, _ => none) :=
  maps_to S consts _ _ _ fun i w hw => by
    unfold smcTask
    cases hp : p.params[i]? with
    | none => exact .inl ⟨rfl, rfl⟩
    | some θ =>
      cases p.weights[i]? with
      | none => exact .inl ⟨rfl, rfl⟩
      | some wt =>
        cases ys[i]? with
        | none => exact .inl ⟨rfl, rfl⟩
        | some y =>
          simp only
          have hθ := hpop θ (List.mem_of_getElem? hp)
          unfold Smc.mcmc
          split
          · exact smc0_same S R hS consts req around kern dists fuel eps p i θ hθ wt y w hw
          · split
            · exact smc1_same S R hS consts req around kern dists r fuel eps p i θ hθ wt y w hw
            · split
              · exact smc2_same S R hS consts req around kern dists r fuel eps p i θ hθ wt y w hw
              · exact .inl ⟨rfl, rfl⟩

/-- C139 for `SABC`: the first population and the moves. -/
theorem C139_sabc (S : Site α Y K) (R : Rng) (hS : Plain S) (consts : Nat → Option α) (hd : Draws S consts) (hin : Inside S consts) (req : Pmc.Pop (List (Option α)) → Nat → K) (schedule : ℝ → ℝ)
    (pick : Nat → List ℝ → List Nat) (eps : ℝ) (fuel n : Nat) (s : Sabc.State (List (Option α))) (hpop : ∀ θ ∈ s.params, Fits S consts θ) :
    MapsTo S consts (fun o => Fits S consts o.θ) (fun i w => sabcFirst S R eps i fuel w [] 0) (fun i p => Sabc.first (sabcEnv S R consts req schedule pick) eps i fuel p [] 0) ∧
    MapsTo S consts (fun o => Fits S consts o.θ) (fun _ => sabcMove S R req fuel n s) (fun _ => Sabc.move (sabcEnv S R consts req schedule pick) fuel n s) :=
  ⟨maps_to S consts _ _ _ fun i w hw => sabcFirst_same S R hS consts hd hin req schedule pick eps i fuel w [] 0 hw,
    maps_to S consts _ _ _ fun _ w hw => sabcMove_same S R hS consts req schedule pick fuel n s hpop w hw⟩

/-- C139 for `ABCsubsim`: the chains and the choice of the covariance matrices. -/
theorem C139_subsim (S : Site α Y K) (R : Rng) (hS : Plain S) (consts : Nat → Option α) (req : List M → List (Option α) → K) (kern : List M → List (Option α) → List (Option α) → ℝ)
    (cov : Pmc.Pop (List (Option α)) → List M) (scale : Nat → M → M) (fuel length : Nat) (covs : List M) (anneal : ℝ) (base pop : List (List (Option α))) (hpop : ∀ θ ∈ pop, Fits S consts θ) :
    MapsTo S consts (fun o => ∀ θ ∈ o.1, Fits S consts θ) (subsimTask S R req kern fuel length covs anneal base pop) (Subsim.accept (subsimEnv S R consts req kern cov scale) fuel length covs anneal base pop) ∧
    MapsTo S consts (fun _ => True) (subsimTune S R req kern scale fuel length covs anneal base pop) (Subsim.tune (subsimEnv S R consts req kern cov scale) fuel length covs anneal base pop) :=
  ⟨maps_to S consts _ _ _ fun i w hw => subsim_same S R hS consts req kern cov scale fuel length covs anneal base pop hpop i w hw,
    maps_to S consts _ _ _ fun i w hw => subsimTune_same S R hS consts req kern cov scale fuel length covs anneal base pop hpop i w hw⟩

/-! ### C138 -/

/-- Specification: data that were simulated, at some point of some stream, with the values of a particle. -/
def From (S : Site α Y K) (consts : Nat → Option α) (θ : List (Option α)) (y : Y) : Prop := ∃ seed clock, y = (S.simulate seed (valuesOf S consts θ) clock).2

theorem from_sim (S : Site α Y K) (consts : Nat → Option α) (θ : List (Option α)) (p : Nat × Nat) : From S consts θ (aSim S consts θ p).2 := ⟨p.1, p.2, rfl⟩

theorem mem_hitLoop {W A : Type} (P : A → Prop) (gen : W → Option (W × A)) (hit : A → Bool) (r : Nat) (hg : ∀ w w' a, gen w = some (w', a) → P a) (n : Nat) : ∀ (w w' : W) (out l : List A),
    (∀ a ∈ out, P a) → Smc.hitLoop gen hit r n w out = some (w', l) → ∀ a ∈ l, P a := by
  induction n with
  | zero => intro w w' out l _ h; simp [Smc.hitLoop] at h
  | succ n ih =>
    intro w w' out l ho h
    rw [Smc.hitLoop] at h
    split at h
    · cases e : gen w with
      | none => rw [e] at h; cases h
      | some v =>
        obtain ⟨v, b⟩ := v
        rw [e] at h
        refine ih v w' _ l (fun a ha => ?_) h
        rcases List.mem_append.1 ha with ha | ha
        · exact ho a ha
        · rw [List.mem_singleton.1 ha]; exact hg w v b e
    · simp only [Option.some.injEq, Prod.mk.injEq] at h
      rw [← h.2]; exact ho

/-- C138 for the tasks of `SMCABC` on the graph, with each of its kernels: the particle that is returned is the old one with its old data, or comes with data simulated with its values; the distance is that of the data. -/
theorem C138_smcabc (S : Site α Y K) (R : Rng) (hS : Plain S) (consts : Nat → Option α) (req : Pmc.Pop (List (Option α)) → Nat → K) (around : Pmc.Pop (List (Option α)) → List (Option α) → K)
    (kern : Pmc.Pop (List (Option α)) → List (Option α) → List (Option α) → ℝ) (dists : Y → List ℝ) (which r fuel : Nat) (eps : ℝ) (p : Pmc.Pop (List (Option α)))
    (hpop : ∀ θ ∈ p.params, Fits S consts θ) (ys : List Y) (i : Nat) (w w' : Worker α) (hw : Good S consts w.st) (o : Smc.Out (List (Option α)) Y)
    (h : smcTask S R req around kern dists which r fuel eps p ys i w = some (w', o)) :
    o.d = S.dist o.y ∧ ((p.params[i]? = some o.θ ∧ ys[i]? = some o.y) ∨ From S consts o.θ o.y) := by
  unfold smcTask at h
  cases hp : p.params[i]? with
  | none => rw [hp] at h; cases h
  | some θ =>
    cases hwt : p.weights[i]? with
    | none => rw [hp, hwt] at h; cases h
    | some wt =>
      cases hy : ys[i]? with
      | none => rw [hp, hwt, hy] at h; cases h
      | some y =>
        rw [hp, hwt, hy] at h
        simp only at h
        have hθ := hpop θ (List.mem_of_getElem? hp)
        have stay : ∀ c, o = ⟨θ, y, S.dist y, c⟩ → o.d = S.dist o.y ∧ ((some θ = some o.θ ∧ some y = some o.y) ∨ From S consts o.θ o.y) := by
          rintro c rfl; exact ⟨rfl, .inl ⟨rfl, rfl⟩⟩
        split at h
        · rcases smc0_same S R hS consts req around kern dists fuel eps p i θ hθ wt y w hw with ⟨a1, -⟩ | ⟨v, a, a1, a2, -⟩
          · rw [a1] at h; cases h
          · rw [a1] at h
            simp only [Option.some.injEq, Prod.mk.injEq] at h
            obtain ⟨-, rfl⟩ := h
            unfold Smc.accept0 at a2
            split at a2
            · split at a2
              · cases a2
              · simp only at a2
                split at a2
                · simp only [Option.some.injEq] at a2
                  subst a2
                  exact ⟨rfl, .inr (from_sim S consts _ _)⟩
                · exact stay _ (Option.some.inj a2).symm
            · exact stay _ (Option.some.inj a2).symm
        · split at h
          · rcases smc1_same S R hS consts req around kern dists r fuel eps p i θ hθ wt y w hw with ⟨a1, -⟩ | ⟨v, a, a1, a2, -⟩
            · rw [a1] at h; cases h
            · rw [a1] at h
              simp only [Option.some.injEq, Prod.mk.injEq] at h
              obtain ⟨-, rfl⟩ := h
              unfold Smc.accept1 at a2
              split at a2
              · split at a2
                · cases a2
                · split at a2
                  · cases a2
                  · rename_i θ' _
                    split at a2
                    · cases a2
                    · rename_i hnew
                      split at a2
                      · cases a2
                      · simp only at a2
                        split at a2
                        · split at a2
                          · cases a2
                          · split at a2
                            · cases a2
                            · rename_i y' hy'
                              simp only [Option.some.injEq] at a2
                              subst a2
                              refine ⟨rfl, .inr ?_⟩
                              exact mem_hitLoop (From S consts θ') _ _ _ (fun q q' b hb => by
                                simp only [Option.some.injEq] at hb
                                have : b = (aSim S consts θ' q).2 := by
                                  have := congrArg Prod.snd hb; exact this.symm
                                rw [this]; exact from_sim S consts θ' q) _ _ _ _ _ (by simp) hnew y' (List.mem_of_getElem? hy')
                        · exact stay _ (Option.some.inj a2).symm
              · exact stay _ (Option.some.inj a2).symm
          · split at h
            · rcases smc2_same S R hS consts req around kern dists r fuel eps p i θ hθ wt y w hw with ⟨a1, -⟩ | ⟨v, a, a1, a2, -⟩
              · rw [a1] at h; cases h
              · rw [a1] at h
                simp only [Option.some.injEq, Prod.mk.injEq] at h
                obtain ⟨-, rfl⟩ := h
                unfold Smc.accept2 at a2
                split at a2
                · split at a2
                  · cases a2
                  · rename_i hprime
                    split at a2
                    · cases a2
                    · simp only at a2
                      split at a2
                      · cases a2
                      · rename_i θ' y' hl
                        split at a2
                        · cases a2
                        · split at a2
                          · simp only [Option.some.injEq] at a2
                            subst a2
                            refine ⟨rfl, .inr ?_⟩
                            refine mem_hitLoop (fun a : List (Option α) × Y => From S consts a.1 a.2) _ _ _ (fun q q' b hb => ?_) _ _ _ _ _ (by simp) hprime _ (List.mem_of_getElem? hl)
                            rw [Option.map_eq_some_iff] at hb
                            obtain ⟨e, -, he⟩ := hb
                            have hb2 := congrArg Prod.snd he
                            simp only at hb2
                            rw [← hb2]
                            exact from_sim S consts e.2 e.1
                          · exact stay _ (Option.some.inj a2).symm
                · exact stay _ (Option.some.inj a2).symm
            · cases h

/-- C138 for `APMCABC`. -/
theorem C138_apmcabc (S : Site α Y K) (hS : Plain S) (consts : Nat → Option α) (hd : Draws S consts) (hin : Inside S consts) (req : Pmc.Pop (List (Option α)) → Nat → K)
    (kern : Pmc.Pop (List (Option α)) → List (Option α) → List (Option α) → ℝ) (fuel : Nat) (pop : Option (Pmc.Pop (List (Option α)))) (w w' : Worker α) (hw : Good S consts w.st)
    (o : Apmc.Out (List (Option α))) (h : apmcTask S req kern fuel pop w = some (w', o)) : ∃ y, From S consts o.θ y ∧ o.d = S.dist y := by
  rcases apmc_same S hS consts hd hin req kern fuel pop w hw with ⟨a1, -⟩ | ⟨v, a, a1, a2, -⟩
  · rw [a1] at h; cases h
  · rw [a1] at h
    simp only [Option.some.injEq, Prod.mk.injEq] at h
    obtain ⟨-, rfl⟩ := h
    unfold Apmc.accept at a2
    cases pop with
    | none =>
      simp only [Option.some.injEq] at a2
      subst a2
      exact ⟨_, from_sim S consts _ _, rfl⟩
    | some p =>
      simp only at a2
      rw [Option.bind_eq_some_iff] at a2
      obtain ⟨θ, -, a2⟩ := a2
      rw [Option.map_eq_some_iff] at a2
      obtain ⟨e, -, rfl⟩ := a2
      exact ⟨_, from_sim S consts _ _, rfl⟩

/-- C138 for `SABC`: moves. -/
theorem C138_sabc (S : Site α Y K) (R : Rng) (hS : Plain S) (consts : Nat → Option α) (req : Pmc.Pop (List (Option α)) → Nat → K) (fuel n : Nat) (s : Sabc.State (List (Option α)))
    (hpop : ∀ θ ∈ s.params, Fits S consts θ) (w w' : Worker α) (hw : Good S consts w.st) (o : Sabc.Out (List (Option α))) (h : sabcMove S R req fuel n s w = some (w', o)) :
    ∃ y, From S consts o.θ y ∧ o.d = S.dist y := by
  rcases sabcMove_same S R hS consts req (fun x => x) (fun _ _ => []) fuel n s hpop w hw with ⟨a1, -⟩ | ⟨v, a, a1, a2, -⟩
  · rw [a1] at h; cases h
  · rw [a1] at h
    simp only [Option.some.injEq, Prod.mk.injEq] at h
    obtain ⟨-, rfl⟩ := h
    unfold Sabc.move at a2
    simp only at a2
    rw [Option.bind_eq_some_iff] at a2
    obtain ⟨θ, -, a2⟩ := a2
    rw [Option.bind_eq_some_iff] at a2
    obtain ⟨sθ, -, a2⟩ := a2
    rw [Option.bind_eq_some_iff] at a2
    obtain ⟨e, -, a2⟩ := a2
    rw [Option.map_eq_some_iff] at a2
    obtain ⟨sd, -, rfl⟩ := a2
    exact ⟨_, from_sim S consts _ _, rfl⟩

/-- C138 for `ABCsubsim`: every state of a chain stands beside the distance of data simulated with its values. -/
theorem C138_subsim (S : Site α Y K) (R : Rng) (hS : Plain S) (consts : Nat → Option α) (req : List M → List (Option α) → K) (kern : List M → List (Option α) → List (Option α) → ℝ)
    (fuel length : Nat) (covs : List M) (anneal : ℝ) (base pop : List (List (Option α))) (hpop : ∀ θ ∈ pop, Fits S consts θ) (i : Nat) (w w' : Worker α) (hw : Good S consts w.st)
    (o : List (List (Option α)) × List ℝ) (h : subsimTask S R req kern fuel length covs anneal base pop i w = some (w', o)) :
    List.Forall₂ (fun θ d => ∃ y, From S consts θ y ∧ d = S.dist y) o.1 o.2 := by
  have hchain : ∀ (θ0 : List (Option α)) (k : Nat) (q : Nat × Nat) (θ : List (Option α)) (d : ℝ) (r : List (List (Option α)) × List ℝ), (∃ y, From S consts θ y ∧ d = S.dist y) →
      Subsim.chain (subsimEnv S R consts req kern (fun _ => []) (fun _ m => m)) fuel covs anneal θ0 k q θ d = some r → List.Forall₂ (fun θ d => ∃ y, From S consts θ y ∧ d = S.dist y) r.1 r.2 := by
    intro θ0 k
    induction k with
    | zero =>
      intro q θ d r _ h
      simp only [Subsim.chain, Option.some.injEq] at h
      subst h
      exact .nil
    | succ k ih =>
      intro q θ d r hθ h
      rw [Subsim.chain] at h
      split at h
      · cases h
      · simp only at h
        split at h
        · rw [Option.map_eq_some_iff] at h
          obtain ⟨e, h1, rfl⟩ := h
          exact .cons ⟨_, from_sim S consts _ _, rfl⟩ (ih _ _ _ _ ⟨_, from_sim S consts _ _, rfl⟩ h1)
        · rw [Option.map_eq_some_iff] at h
          obtain ⟨e, h1, rfl⟩ := h
          exact .cons hθ (ih _ _ _ _ hθ h1)
  rcases subsim_same S R hS consts req kern (fun _ => []) (fun _ m => m) fuel length covs anneal base pop hpop i w hw with ⟨a1, -⟩ | ⟨v, a, a1, a2, -⟩
  · rw [a1] at h; cases h
  · rw [a1] at h
    simp only [Option.some.injEq, Prod.mk.injEq] at h
    obtain ⟨-, rfl⟩ := h
    unfold Subsim.accept at a2
    rw [Option.bind_eq_some_iff] at a2
    obtain ⟨θ, -, a2⟩ := a2
    rw [Option.bind_eq_some_iff] at a2
    obtain ⟨θ0, -, a2⟩ := a2
    simp only at a2
    rw [Option.map_eq_some_iff] at a2
    obtain ⟨e, h1, rfl⟩ := a2
    have hf : ∃ y, From S consts θ y ∧ (subsimEnv S R consts req kern (fun _ => []) (fun _ m => m)).dist ((subsimEnv S R consts req kern (fun _ => []) (fun _ m => m)).sim θ w.pos).2 = S.dist y :=
      ⟨_, from_sim S consts θ w.pos, rfl⟩
    exact .cons hf (hchain θ0 _ _ _ _ _ hf h1)

end Verif.Site
