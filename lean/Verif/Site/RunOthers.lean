import Verif.Site.Run
import Verif.Rsmc.Props
/-
C146 for APMCABC, SMCABC, RSMCABC, SABC and ABCsubsim.
-/
namespace Verif.Site

open Graph

variable {A α Y K M : Type}

/-- Specification: the workers of the samplers over parameter vectors start at the beginning of the streams with the given seeds. -/
def starts (seeds : List Nat) : List (Nat × Nat) := seeds.map fun k => (k, 0)

theorem starts_nil (seeds : List Nat) : starts seeds = [] ↔ seeds = [] := by simp [starts]

theorem starts_length (seeds : List Nat) : (starts seeds).length = seeds.length := by simp [starts]

/-! ### APMCABC -/

theorem apmcStep_same (S : Site α Y K) (hS : Plain S) (consts : Nat → Option α) (hd : Draws S consts) (hin : Inside S consts) (req : Pmc.Pop (List (Option α)) → Nat → K)
    (kern : Pmc.Pop (List (Option α)) → List (Option α) → List (Option α) → ℝ) (c : Apmc.Config) (fuel t : Nat) (seeds : List Nat) (schedule : Option (List (Nat × Nat))) (hc : Scheduled seeds.length schedule)
    (st : St α) (hst : Good S consts st) (s : Apmc.State (List (Option α))) :
    (apmcStep S req kern c fuel t seeds schedule st s = none ∧ Apmc.step (apmcEnv S consts req kern) c fuel t (starts seeds) s = none) ∨
    ∃ st' s', apmcStep S req kern c fuel t seeds schedule st s = some (st', s') ∧ Apmc.step (apmcEnv S consts req kern) c fuel t (starts seeds) s = some s' ∧ Good S consts st' := by
  unfold apmcStep Apmc.step
  by_cases hg : seeds.length ≠ Apmc.wanted c t ∨ seeds = []
  · rw [if_pos hg, if_pos (by rw [starts_length, starts_nil]; exact hg)]; exact .inl ⟨rfl, rfl⟩
  · rw [if_neg hg, if_neg (by rw [starts_length, starts_nil]; exact hg)]
    obtain ⟨m1, m2, -⟩ := seedMap_spec S consts _ (fun _ => apmcTask S req kern fuel (Apmc.seen s)) (fun _ => Apmc.accept (apmcEnv S consts req kern) fuel (Apmc.seen s))
      (fun _ w hw => apmc_same S hS consts hd hin req kern fuel (Apmc.seen s) w hw) seeds schedule hc st hst
    rw [zipIdx_const] at m1
    simp only
    generalize runMap (runTask fun _ => apmcTask S req kern fuel (Apmc.seen s)) seeds.zipIdx schedule st = m at m1 m2
    obtain ⟨st1, out1⟩ := m
    simp only at m1 m2 ⊢
    subst m1
    have e : (starts seeds).map (fun w => Apmc.accept (apmcEnv S consts req kern) fuel (Apmc.seen s) w) = (seeds.map fun k => (k, 0)).map (Apmc.accept (apmcEnv S consts req kern) fuel (Apmc.seen s)) := rfl
    rw [e]
    cases collect ((seeds.map fun k => (k, 0)).map (Apmc.accept (apmcEnv S consts req kern) fuel (Apmc.seen s))) with
    | none => exact .inl ⟨rfl, rfl⟩
    | some out =>
      simp only
      cases Pmc.percentile (Apmc.merge c s out).2.1 (c.alpha * 100) with
      | none => exact .inl ⟨rfl, rfl⟩
      | some eps => exact .inr ⟨_, _, rfl, rfl, m2⟩

/-- C146 for `APMCABC`. -/
theorem C146_apmcabc (S : Site α Y K) (hS : Plain S) (consts : Nat → Option α) (hd : Draws S consts) (hin : Inside S consts) (req : Pmc.Pop (List (Option α)) → Nat → K)
    (kern : Pmc.Pop (List (Option α)) → List (Option α) → List (Option α) → ℝ) (c : Apmc.Config) (fuel : Nat) (seeds : Nat → List Nat) (schedule : Nat → Option (List (Nat × Nat)))
    (hc : ∀ t, Scheduled (seeds t).length (schedule t)) (st : St α) (hst : Good S consts st) :
    (apmcRun S req kern c fuel seeds schedule st).map Prod.snd = Apmc.run (apmcEnv S consts req kern) c fuel fun t => starts (seeds t) := by
  have loop : ∀ (k t : Nat) (st : St α) (s : Apmc.State (List (Option α))), Good S consts st →
      (apmcLoop S req kern c fuel seeds schedule k t st s).map Prod.snd = Apmc.loop (apmcEnv S consts req kern) c fuel (fun t => starts (seeds t)) k t s := by
    intro k
    induction k with
    | zero => intro t st s _; rfl
    | succ k ih =>
      intro t st s hst
      rw [apmcLoop, Apmc.loop]
      split
      · rfl
      · rcases apmcStep_same S hS consts hd hin req kern c fuel t (seeds t) (schedule t) (hc t) st hst s with ⟨h1, h2⟩ | ⟨st', s', h1, h2, h3⟩
        · rw [h1, h2]; rfl
        · rw [h1, h2]; exact ih (t + 1) st' s' h3
  exact loop _ _ _ _ hst

/-! ### SMCABC -/

theorem collect_mem {B : Type} (l : List (Option B)) (out : List B) (h : collect l = some out) (a : B) (ha : a ∈ out) : some a ∈ l := by
  rw [collect_eq_some] at h
  rw [h]; exact List.mem_map_of_mem ha

/-- The populations of a state consist of vectors that fit. -/
def SmcFits (S : Site α Y K) (consts : Nat → Option α) (s : Smc.State (List (Option α)) Y) : Prop := ∀ p, s.last = some p → ∀ θ ∈ p.params, Fits S consts θ

theorem smcStep_same (S : Site α Y K) (R : Rng) (hS : Plain S) (consts : Nat → Option α) (hd : Draws S consts) (hin : Inside S consts) (req : Pmc.Pop (List (Option α)) → Nat → K)
    (around : Pmc.Pop (List (Option α)) → List (Option α) → K) (kern : Pmc.Pop (List (Option α)) → List (Option α) → List (Option α) → ℝ) (dists : Y → List ℝ) (c : Smc.Config) (hw : c.which ≤ 2) (dr : Smc.Draws)
    (fuel t : Nat) (seeds : List Nat) (schedule : Option (List (Nat × Nat))) (hc : Scheduled seeds.length schedule) (st : St α) (hst : Good S consts st) (s : Smc.State (List (Option α)) Y)
    (hs : SmcFits S consts s) :
    (smcStep S R consts req around kern dists c dr fuel t seeds schedule st s = none ∧ Smc.smcStep (smcEnv S R consts req around kern dists) c dr fuel t (starts seeds) s = none) ∨
    ∃ st' s', smcStep S R consts req around kern dists c dr fuel t seeds schedule st s = some (st', s') ∧
      Smc.smcStep (smcEnv S R consts req around kern dists) c dr fuel t (starts seeds) s = some s' ∧ Good S consts st' ∧ SmcFits S consts s' := by
  have saved : ∀ past cur wts (l : List (Smc.Out (List (Option α)) Y)), (∀ o ∈ l, Fits S consts o.θ) → SmcFits S consts (Smc.save c t s past cur wts l) := by
    intro past cur wts l hl p hp θ hθ
    simp only [Smc.save, Option.some.injEq] at hp
    subst hp
    obtain ⟨o, ho, rfl⟩ := List.mem_map.1 hθ
    exact hl o ho
  unfold smcStep Smc.smcStep
  cases hlast : s.last with
  | none =>
    simp only
    obtain ⟨m1, m2, m3⟩ := seedMap_spec S consts _ (fun _ => smcFirst S) (fun _ p => some (Smc.initial (smcEnv S R consts req around kern dists) p))
      (fun _ w hw => smcFirst_same S R hS consts hd hin req around kern dists w hw) seeds schedule hc st hst
    rw [zipIdx_const (f := fun p => some (Smc.initial (smcEnv S R consts req around kern dists) p))] at m1
    generalize runMap (runTask fun _ => smcFirst S) seeds.zipIdx schedule st = m at m1 m2 m3
    obtain ⟨st1, out1⟩ := m
    simp only at m1 m2 m3 ⊢
    have hcol : collect out1 = some ((starts seeds).map (Smc.initial (smcEnv S R consts req around kern dists))) := by
      rw [collect_eq_some, m1, starts, List.map_map, List.map_map, List.map_map]; rfl
    rw [hcol]
    exact .inr ⟨_, _, rfl, rfl, m2, saved _ _ _ _ (m3 _ hcol)⟩
  | some p =>
    simp only
    cases Smc.newEps (smcEnv S R consts req around kern dists) c dr fuel s.cur p with
    | none => exact .inl ⟨rfl, rfl⟩
    | some eps =>
      simp only
      cases Smc.newWeights (smcEnv S R consts req around kern dists) c s.cur eps p with
      | none => exact .inl ⟨rfl, rfl⟩
      | some wts =>
        simp only
        cases hq : Smc.resampled c dr t p.params wts with
        | none => exact .inl ⟨rfl, rfl⟩
        | some q =>
          simp only
          have hfit : ∀ θ ∈ q.params, Fits S consts θ := by
            unfold Smc.resampled at hq
            split at hq
            · rw [Option.map_eq_some_iff] at hq
              obtain ⟨l, hl, rfl⟩ := hq
              intro θ hθ
              obtain ⟨i, -, hi⟩ := List.mem_map.1 (collect_mem _ _ hl θ hθ)
              exact hs p hlast θ (List.mem_of_getElem? hi)
            · simp only [Option.some.injEq] at hq
              subst hq
              exact hs p hlast
          obtain ⟨m1, m2, m3⟩ := seedMap_spec S consts (fun o => Fits S consts o.θ) (smcTask S R req around kern dists c.which (if c.which = 1 then c.r.getD 3 else c.r.getD 2) fuel eps q p.sims)
            (fun i r => (q.params[i]?).bind fun θ => (q.weights[i]?).bind fun wt => (p.sims[i]?).bind fun y => Smc.mcmc (smcEnv S R consts req around kern dists) c.which c.r fuel eps q i θ wt y r)
            (fun i w hw' => by
              unfold smcTask
              cases hp : q.params[i]? with
              | none => exact .inl ⟨rfl, rfl⟩
              | some θ =>
                cases q.weights[i]? with
                | none => exact .inl ⟨rfl, rfl⟩
                | some wt =>
                  cases p.sims[i]? with
                  | none => exact .inl ⟨rfl, rfl⟩
                  | some y =>
                    simp only [Option.bind_some]
                    have hθ := hfit θ (List.mem_of_getElem? hp)
                    unfold Smc.mcmc
                    by_cases h0 : c.which = 0
                    · simp only [h0, if_true]
                      exact smc0_same S R hS consts req around kern dists fuel eps q i θ hθ wt y w hw'
                    · by_cases h1 : c.which = 1
                      · simp only [h1, if_true]
                        exact smc1_same S R hS consts req around kern dists _ fuel eps q i θ hθ wt y w hw'
                      · have h2 : c.which = 2 := by omega
                        simp only [h2, if_true]
                        exact smc2_same S R hS consts req around kern dists _ fuel eps q i θ hθ wt y w hw') seeds schedule hc st hst
          generalize runMap (runTask (smcTask S R req around kern dists c.which (if c.which = 1 then c.r.getD 3 else c.r.getD 2) fuel eps q p.sims)) seeds.zipIdx schedule st = m at m1 m2 m3
          obtain ⟨st1, out1⟩ := m
          simp only at m1 m2 m3 ⊢
          have hmoved : Smc.moved (smcEnv S R consts req around kern dists) c fuel eps q p.sims (starts seeds) = collect out1 := by rw [m1]; rfl
          rw [hmoved]
          cases hcol : collect out1 with
          | none => exact .inl ⟨rfl, rfl⟩
          | some l => exact .inr ⟨_, _, rfl, rfl, m2, saved _ _ _ _ (m3 _ hcol)⟩

/-- C146 for `SMCABC`, with each of its three kernels. -/
theorem C146_smcabc (S : Site α Y K) (R : Rng) (hS : Plain S) (consts : Nat → Option α) (hd : Draws S consts) (hin : Inside S consts) (req : Pmc.Pop (List (Option α)) → Nat → K)
    (around : Pmc.Pop (List (Option α)) → List (Option α) → K) (kern : Pmc.Pop (List (Option α)) → List (Option α) → List (Option α) → ℝ) (dists : Y → List ℝ) (c : Smc.Config) (dr : Smc.Draws)
    (fuel : Nat) (seeds : Nat → List Nat) (schedule : Nat → Option (List (Nat × Nat))) (hc : ∀ t, Scheduled (seeds t).length (schedule t)) (st : St α) (hst : Good S consts st) :
    (smcRun S R consts req around kern dists c dr fuel seeds schedule st).map Prod.snd = Smc.smcRun (smcEnv S R consts req around kern dists) c dr S.distMax fuel fun t => starts (seeds t) := by
  unfold smcRun Smc.smcRun
  by_cases hcond : c.which ≤ 2 ∧ ¬ (c.bernton = true ∧ c.which = 0) ∧ ∀ t, (seeds t).length = c.n
  · rw [if_pos hcond, if_pos (by simp only [starts_length]; exact hcond)]
    have loop : ∀ (k t : Nat) (st : St α) (s : Smc.State (List (Option α)) Y), Good S consts st → SmcFits S consts s →
        (smcLoop S R consts req around kern dists c dr fuel seeds schedule k t st s).map Prod.snd = Smc.smcLoop (smcEnv S R consts req around kern dists) c dr fuel (fun t => starts (seeds t)) k t s := by
      intro k
      induction k with
      | zero => intro t st s _ _; rfl
      | succ k ih =>
        intro t st s hst hs
        rw [smcLoop, Smc.smcLoop]
        split
        · rfl
        · rcases smcStep_same S R hS consts hd hin req around kern dists c hcond.1 dr fuel t (seeds t) (schedule t) (hc t) st hst s hs with ⟨h1, h2⟩ | ⟨st', s', h1, h2, h3, h4⟩
          · rw [h1, h2]; rfl
          · rw [h1, h2]; exact ih (t + 1) st' s' h3 h4
    exact loop _ _ _ _ hst fun p hp => by simp at hp
  · rw [if_neg hcond, if_neg (by simp only [starts_length]; exact hcond)]; rfl

/-! ### RSMCABC -/

theorem rsmc_distance (env : Rsmc.Env (Nat × Nat) (List (Option α)) Y) (fuel : Nat) (eps : ℝ) (pop : Option (Pmc.Pop (List (Option α)) × List ℝ)) (r : Nat) (hr : 0 < r) (p : Nat × Nat) (held : List (Option α))
    (o : Rsmc.Out (List (Option α))) (h : Rsmc.accept env fuel eps pop r p held = some o) (x : ℝ) (hx : o.d = some x) : x ≤ eps ∨ ∃ q, pop = some q ∧ x ∈ q.2 := by
  cases pop with
  | none =>
    left
    have loop : ∀ (n : Nat) (p : Nat × Nat) (θ : List (Option α)) (d : Option ℝ) (c : Nat) e, Rsmc.priorLoop env eps n p θ d c = some e → Pmc.above e.2.1 eps = false := by
      intro n
      induction n with
      | zero => intro p θ d c e h; simp [Rsmc.priorLoop] at h
      | succ n ih =>
        intro p θ d c e h
        rw [Rsmc.priorLoop] at h
        split at h
        · exact ih _ _ _ _ e h
        · rename_i hd
          simp only [Option.some.injEq] at h
          rw [← h]; simpa using hd
    unfold Rsmc.accept at h
    simp only [Option.map_eq_some_iff] at h
    obtain ⟨e, he, rfl⟩ := h
    have := loop _ _ _ _ _ e he
    simp only at hx
    rw [hx] at this
    simpa [Pmc.above] using this
  | some q =>
    obtain ⟨q, ds⟩ := q
    unfold Rsmc.accept at h
    simp only [Option.bind_eq_some_iff] at h
    obtain ⟨θ, -, dθ, hdθ, h⟩ := h
    have loop : ∀ (n : Nat) (i : Nat) (p : Nat × Nat) (held : List (Option α)) (d : Option ℝ) (acc c : Nat), (n = 0 → ∀ x, d = some x → x ≤ eps ∨ x = dθ) →
        Rsmc.moveLoop env fuel eps q i θ dθ n p held d acc c = some o → x ≤ eps ∨ x = dθ := by
      intro n
      induction n with
      | zero =>
        intro i p held d acc c hd h
        simp only [Rsmc.moveLoop, Option.some.injEq] at h
        rw [← h] at hx
        exact hd rfl x hx
      | succ n ih =>
        intro i p held d acc c _ h
        rw [Rsmc.moveLoop] at h
        split at h
        · cases h
        · simp only at h
          split at h
          · rename_i hlt
            split at h
            · exact ih i _ _ _ _ _ (fun _ y hy => by cases hy; exact .inl hlt.le) h
            · exact ih i _ _ _ _ _ (fun _ y hy => by cases hy; exact .inr rfl) h
          · exact ih i _ _ _ _ _ (fun _ y hy => by cases hy; exact .inr rfl) h
    rcases loop r _ _ _ _ _ _ (fun h0 => by omega) h with h1 | h1
    · exact .inl h1
    · exact .inr ⟨_, rfl, by rw [h1]; exact List.mem_of_getElem? hdθ⟩

/-- What is needed of a state of `RSMCABC`: the kept vectors fit, and their distances are below the maximum of the distance. -/
structure RsmcFits (S : Site α Y K) (consts : Nat → Option α) (s : Rsmc.State (List (Option α))) : Prop where
  fits : ∀ k, s.kept = some k → ∀ θ ∈ k.1, Fits S consts θ
  low : ∀ k, s.kept = some k → ∀ d ∈ k.2, Pmc.above S.distMax d = true

theorem trim_mem {Θ : Type} (c : Rsmc.Config) (params : List Θ) (distances : List ℝ) : (∀ θ ∈ (Rsmc.trim c params distances).1, θ ∈ params) ∧ ∀ d ∈ (Rsmc.trim c params distances).2, d ∈ distances := by
  unfold Rsmc.trim
  refine ⟨fun θ h => ?_, fun d h => ?_⟩
  · obtain ⟨e, he, rfl⟩ := List.mem_map.1 (List.mem_of_mem_take h)
    exact (List.of_mem_zip ((List.perm_insertionSort _ _).mem_iff.1 he)).2
  · obtain ⟨e, he, rfl⟩ := List.mem_map.1 (List.mem_of_mem_take h)
    exact (List.of_mem_zip ((List.perm_insertionSort _ _).mem_iff.1 he)).1

theorem rsmcStep_same (S : Site α Y K) (R : Rng) (hS : Plain S) (consts : Nat → Option α) (hd : Draws S consts) (hin : Inside S consts) (req : Pmc.Pop (List (Option α)) → Nat → K)
    (kern : Pmc.Pop (List (Option α)) → List (Option α) → List (Option α) → ℝ) (c : Rsmc.Config) (hmax : Pmc.above S.distMax c.epsInit = true) (held : List (Option α))
    (fuel t : Nat) (seeds : List Nat) (schedule : Option (List (Nat × Nat))) (hc : Scheduled seeds.length schedule) (st : St α) (hst : Good S consts st) (s : Rsmc.State (List (Option α)))
    (hs : RsmcFits S consts s) (hm : 0 ≤ s.moves) :
    (∃ e, rsmcStep S R req kern c fuel t seeds schedule st s = .error e ∧ Rsmc.step (rsmcEnv S R consts req kern) c fuel t ((starts seeds).map fun p => (p, held)) s = .error e) ∨
    ∃ st' s', rsmcStep S R req kern c fuel t seeds schedule st s = .ok (st', s') ∧
      Rsmc.step (rsmcEnv S R consts req kern) c fuel t ((starts seeds).map fun p => (p, held)) s = .ok s' ∧ Good S consts st' ∧ RsmcFits S consts s' := by
  unfold rsmcStep Rsmc.step
  cases hthr : Rsmc.threshold c s with
  | none => exact .inl ⟨_, rfl, rfl⟩
  | some eps =>
    simp only
    by_cases hstop : eps < c.epsFinal
    · rw [if_pos hstop, if_pos hstop]; exact .inl ⟨_, rfl, rfl⟩
    rw [if_neg hstop, if_neg hstop]
    have hnil : ((starts seeds).map fun p => (p, held)) = [] ↔ seeds = [] := by rw [List.map_eq_nil_iff, starts_nil]
    have hlen : ((starts seeds).map fun p => (p, held)).length = seeds.length := by rw [List.length_map, starts_length]
    by_cases hg : seeds.length ≠ Rsmc.wanted c s ∨ seeds = []
    · rw [if_pos hg, if_pos (by rw [hlen, hnil]; exact hg)]; exact .inl ⟨_, rfl, rfl⟩
    rw [if_neg hg, if_neg (by rw [hlen, hnil]; exact hg), hlen]
    have hlow : Pmc.above S.distMax eps = true := by
      unfold Rsmc.threshold at hthr
      split at hthr
      · simp only [Option.some.injEq] at hthr; rw [← hthr]; exact hmax
      · rename_i k hk
        exact hs.low k hk eps (List.mem_of_getLast? hthr)
    have hseen : ∀ p, Rsmc.seen s = some p → ∃ k, s.kept = some k ∧ p.1.params = k.1 ∧ p.2 = k.2 := by
      intro p hp
      unfold Rsmc.seen at hp
      rw [Option.map_eq_some_iff] at hp
      obtain ⟨k, hk, rfl⟩ := hp
      exact ⟨k, hk, rfl, rfl⟩
    rcases hm.eq_or_lt with h0 | h0
    · left
      refine ⟨.other, ?_, ?_⟩
      · split
        · rfl
        · split
          · rfl
          · rw [← h0]; simp [Rsmc.nextMoves]
      · split
        · rfl
        · split
          · rfl
          · rw [← h0]; simp [Rsmc.nextMoves]
    · have hr : 0 < s.moves.toNat := by omega
      obtain ⟨m1, m2, m3⟩ := seedMap_spec S consts (fun o => Fits S consts o.θ) (fun _ => rsmcTask S R req kern fuel eps (Rsmc.seen s) s.moves.toNat)
        (fun _ p => Rsmc.accept (rsmcEnv S R consts req kern) fuel eps (Rsmc.seen s) s.moves.toNat p held)
        (fun _ w hw => by
          rw [rsmc_held (rsmcEnv S R consts req kern) fuel eps (Rsmc.seen s) s.moves.toNat hr hlow w.pos held ((order S.g S.roots).map w.st.value)]
          exact rsmc_same S R hS consts hd hin req kern fuel eps (Rsmc.seen s) hlow (fun p hp => by
            obtain ⟨k, hk, h1, -⟩ := hseen p hp
            rw [h1]; exact hs.fits k hk) s.moves.toNat hr w hw) seeds schedule hc st hst
      rw [zipIdx_const (f := fun p => Rsmc.accept (rsmcEnv S R consts req kern) fuel eps (Rsmc.seen s) s.moves.toNat p held)] at m1
      generalize runMap (runTask fun _ => rsmcTask S R req kern fuel eps (Rsmc.seen s) s.moves.toNat) seeds.zipIdx schedule st = m at m1 m2 m3
      obtain ⟨st1, out1⟩ := m
      simp only at m1 m2 m3 ⊢
      have e : ((starts seeds).map fun p => (p, held)).map (fun e => Rsmc.accept (rsmcEnv S R consts req kern) fuel eps (Rsmc.seen s) s.moves.toNat e.1 e.2) = out1 := by
        rw [m1, List.map_map]; rfl
      rw [e]
      cases hcol : collect out1 with
      | none => exact .inl ⟨_, rfl, rfl⟩
      | some out =>
        simp only
        cases hds : collect (out.map Rsmc.Out.d) with
        | none => exact .inl ⟨_, rfl, rfl⟩
        | some ds =>
          simp only
          cases hmv : Rsmc.nextMoves c s.moves seeds.length (out.map Rsmc.Out.accepted).sum with
          | none => exact .inl ⟨_, rfl, rfl⟩
          | some moves =>
            refine .inr ⟨_, _, rfl, rfl, m2, ?_, ?_⟩
            · intro k hk θ hθ
              simp only [Option.some.injEq] at hk
              subst hk
              rcases List.mem_append.1 ((trim_mem c _ _).1 θ hθ) with h | h
              · unfold Rsmc.base at h
                split at h
                · cases h
                · cases hk : s.kept with
                  | none => rw [hk] at h; cases h
                  | some k => rw [hk] at h; exact hs.fits k hk θ h
              · obtain ⟨o, ho, rfl⟩ := List.mem_map.1 h
                exact m3 _ hcol o ho
            · intro k hk d hd'
              simp only [Option.some.injEq] at hk
              subst hk
              rcases List.mem_append.1 ((trim_mem c _ _).2 d hd') with h | h
              · unfold Rsmc.base at h
                split at h
                · cases h
                · cases hk : s.kept with
                  | none => rw [hk] at h; cases h
                  | some k => rw [hk] at h; exact hs.low k hk d h
              · obtain ⟨o, ho, hod⟩ := List.mem_map.1 (collect_mem _ _ hds d h)
                have hoc := collect_mem _ _ hcol o ho
                rw [m1] at hoc
                obtain ⟨p, -, hp⟩ := List.mem_map.1 hoc
                rcases rsmc_distance _ fuel eps _ _ hr p held o hp d hod with h1 | ⟨q, hq, h1⟩
                · exact above_mono _ _ _ h1 hlow
                · obtain ⟨k, hk, -, h2⟩ := hseen q hq
                  rw [h2] at h1
                  exact hs.low k hk d h1

/-- C146 for `RSMCABC`, for a constant of the number of moves in its range and an initial threshold below the maximum of the distance; what the graphs hold at the start of the tasks does not matter. -/
theorem C146_rsmcabc (S : Site α Y K) (R : Rng) (hS : Plain S) (consts : Nat → Option α) (hd : Draws S consts) (hin : Inside S consts) (req : Pmc.Pop (List (Option α)) → Nat → K)
    (kern : Pmc.Pop (List (Option α)) → List (Option α) → List (Option α) → ℝ) (c : Rsmc.Config) (hc0 : 0 < c.const) (hc1 : c.const ≤ 1) (hmax : Pmc.above S.distMax c.epsInit = true) (held : List (Option α))
    (fuel : Nat) (seeds : Nat → List Nat) (schedule : Nat → Option (List (Nat × Nat))) (hc : ∀ t, Scheduled (seeds t).length (schedule t)) (st : St α) (hst : Good S consts st) :
    (rsmcRun S R req kern c fuel seeds schedule st).map Prod.snd = Rsmc.run (rsmcEnv S R consts req kern) c fuel fun t => (starts (seeds t)).map fun p => (p, held) := by
  have loop : ∀ (k t : Nat) (st : St α) (s : Rsmc.State (List (Option α))), Good S consts st → RsmcFits S consts s → Rsmc.Inv c s →
      (rsmcLoop S R req kern c fuel seeds schedule k t st s).map Prod.snd = Rsmc.loop (rsmcEnv S R consts req kern) c fuel (fun t => (starts (seeds t)).map fun p => (p, held)) k t s := by
    intro k
    induction k with
    | zero => intro t st s _ _ _; rfl
    | succ k ih =>
      intro t st s hst hs hI
      rw [rsmcLoop, Rsmc.loop]
      rcases rsmcStep_same S R hS consts hd hin req kern c hmax held fuel t (seeds t) (schedule t) (hc t) st hst s hs hI.moves with ⟨e, h1, h2⟩ | ⟨st', s', h1, h2, h3, h4⟩
      · rw [h1, h2]; rfl
      · have hI' := Rsmc.inv_step _ c hc0 hc1 fuel t _ s s' hI h2
        rw [h1, h2]; exact ih (t + 1) st' s' h3 h4 hI'
  exact loop _ _ _ _ hst ⟨fun k hk => by simp at hk, fun k hk => by simp at hk⟩ ⟨by simp, by simp, by simp, by simp, by simp, by simp, by simp⟩

end Verif.Site
