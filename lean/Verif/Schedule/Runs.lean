import Verif.Pmc.Model
import Verif.Smc.Model
import Verif.Rsmc.Model
import Verif.Apmc.Model
import Verif.Sabc.Model
import Verif.Subsim.Model
/-
C123 for whole runs: the result of a run of a sampler depends on the states in which workers start their tasks only through what the environment can observe of them. `R` relates
states of workers that nothing the tasks do can tell apart: with a task's seed in the state, the same seed, and whatever graph earlier tasks left (`Verif.Schedule.Alike`).
-/
namespace Verif.Schedule

variable {W Θ Y M A : Type}

/-- Specification: `f` gives the same for states that cannot be told apart, and leaves them so. -/
def Blind (R : W → W → Prop) (f : W → W × A) : Prop := ∀ w w', R w w' → R (f w).1 (f w').1 ∧ (f w).2 = (f w').2

/-- The same for a procedure that may fail. -/
def BlindE (R : W → W → Prop) (f : W → Option (W × A)) : Prop := ∀ w w', R w w' → Option.Rel (fun a b => R a.1 b.1 ∧ a.2 = b.2) (f w) (f w')

variable {R : W → W → Prop}

theorem BlindE.cases {f : W → Option (W × A)} (h : BlindE R f) {w w' : W} (hw : R w w') :
    (f w = none ∧ f w' = none) ∨ ∃ v v' a, f w = some (v, a) ∧ f w' = some (v', a) ∧ R v v' := by
  have := h w w' hw
  cases h1 : f w with
  | none =>
    cases h2 : f w' with
    | none => exact .inl ⟨rfl, rfl⟩
    | some b => rw [h1, h2] at this; cases this
  | some a =>
    cases h2 : f w' with
    | none => rw [h1, h2] at this; cases this
    | some b =>
      rw [h1, h2] at this
      cases this with
      | some k =>
        obtain ⟨a1, a2⟩ := a
        obtain ⟨b1, b2⟩ := b
        obtain ⟨k1, k2⟩ := k
        simp only at k1 k2
        subst k2
        exact .inr ⟨a1, b1, a2, rfl, rfl, k1⟩

theorem Blind.toE {f : W → W × A} (h : Blind R f) : BlindE R fun w => some (f w) := fun _ _ hw => .some (h _ _ hw)

theorem propose_blind (pdf : Θ → ℝ) {perturb : W → W × Option Θ} (h : Blind R perturb) (fuel : Nat) : BlindE R (Smc.propose pdf perturb fuel) := by
  classical
  induction fuel with
  | zero => intro w w' _; exact .none
  | succ fuel ih =>
    intro w w' hw
    obtain ⟨h1, h2⟩ := h w w' hw
    rw [Smc.propose, Smc.propose]
    simp only [← h2]
    cases (perturb w).2 with
    | none => exact ih _ _ h1
    | some θ =>
      simp only
      split
      · exact .some ⟨h1, rfl⟩
      · exact ih _ _ h1

theorem hitLoop_blind {gen : W → Option (W × A)} (h : BlindE R gen) (hit : A → Bool) (r fuel : Nat) : ∀ out, BlindE R fun w => Smc.hitLoop gen hit r fuel w out := by
  induction fuel with
  | zero => intro out w w' _; exact .none
  | succ fuel ih =>
    intro out w w' hw
    simp only
    rw [Smc.hitLoop, Smc.hitLoop]
    split
    · rcases h.cases hw with ⟨e, e'⟩ | ⟨v, v', a, e, e', hv⟩
      · rw [e, e']; exact .none
      · rw [e, e']
        exact ih _ _ _ hv
    · exact .some ⟨hw, rfl⟩

theorem map_congr_rel {B : Type} {f : W → B} (h : ∀ w w', R w w' → f w = f w') {l l' : List W} (hl : List.Forall₂ R l l') : l.map f = l'.map f := by
  induction hl with
  | nil => rfl
  | cons h1 _ ih => rw [List.map_cons, List.map_cons, h _ _ h1, ih]

theorem zipIdx_congr_rel {B : Type} {f : W × Nat → B} (h : ∀ w w' i, R w w' → f (w, i) = f (w', i)) {l l' : List W} (hl : List.Forall₂ R l l') (k : Nat) :
    (l.zipIdx k).map f = (l'.zipIdx k).map f := by
  induction hl generalizing k with
  | nil => rfl
  | cons h1 _ ih => rw [List.zipIdx_cons, List.zipIdx_cons, List.map_cons, List.map_cons, h _ _ _ h1, ih]

/-- Specification: in every step, the tasks start from states that cannot be told apart. -/
def SameStarts (R : W → W → Prop) (start start' : Nat → List W) : Prop := ∀ t, List.Forall₂ R (start t) (start' t)

/-! ### PMCABC -/

structure PmcBlind (R : W → W → Prop) (env : Pmc.Env W Θ Y) : Prop where
  prior : Blind R env.prior
  choose : ∀ l, Blind R (env.choose l)
  perturb : ∀ p i, Blind R (env.perturb p i)
  sim : ∀ θ, Blind R (env.sim θ)

theorem pmc_propose_eq (env : Pmc.Env W Θ Y) (p : Pmc.Pop Θ) (i fuel : Nat) (w : W) : Pmc.proposeLoop env p i fuel w = Smc.propose env.pdf (env.perturb p i) fuel w := by
  classical
  induction fuel generalizing w with
  | zero => rfl
  | succ fuel ih =>
    rw [Pmc.proposeLoop, Smc.propose]
    rcases h : env.perturb p i w with ⟨v, o⟩
    cases o with
    | none => exact ih _
    | some θ => simp only [ih]

theorem pmc_loop (env : Pmc.Env W Θ Y) (h : PmcBlind R env) (eps : ℝ) (pop : Option (Pmc.Pop Θ)) (fuel : Nat) : ∀ (w w' : W) (θ θ' : Θ) (d : Option ℝ) (c : Nat), R w w' →
    (Pmc.above d eps = false → θ = θ') → Pmc.resampleLoop env eps pop fuel w θ d c = Pmc.resampleLoop env eps pop fuel w' θ' d c := by
  induction fuel with
  | zero => intros; rfl
  | succ fuel ih =>
    intro w w' θ θ' d c hw hθ
    rw [Pmc.resampleLoop.eq_def, Pmc.resampleLoop.eq_def env eps pop (fuel + 1) w']
    simp only
    split
    · cases pop with
      | none =>
        simp only
        obtain ⟨h1, h2⟩ := h.prior w w' hw
        obtain ⟨h3, h4⟩ := h.sim (env.prior w).2 _ _ h1
        rw [← h2, ← h4]
        exact ih _ _ _ _ _ _ h3 fun _ => rfl
      | some p =>
        simp only
        obtain ⟨h1, h2⟩ := h.choose p.weights w w' hw
        rw [← h2, pmc_propose_eq, pmc_propose_eq]
        rcases (propose_blind env.pdf (h.perturb p (env.choose p.weights w).2) fuel).cases h1 with ⟨e, e'⟩ | ⟨v, v', a, e, e', hv⟩
        · rw [e, e']
        · rw [e, e']
          obtain ⟨h3, h4⟩ := h.sim a _ _ hv
          simp only
          rw [← h4]
          exact ih _ _ _ _ _ _ h3 fun _ => rfl
    · rename_i hd
      rw [hθ (by simpa using hd)]

/-- C123 for `PMCABC` with a distance without maximum: a run depends on the seeds of its tasks only. -/
theorem C123_pmcabc (env : Pmc.Env W Θ Y) (h : PmcBlind R env) (hmax : env.distMax = none) (steps : Nat) (epsInit : List ℝ) (pct : ℝ) (fuel : Nat) (start start' : Nat → List W)
    (hs : SameStarts R start start') (before : Option (Pmc.Pop Θ)) (counter : Nat) :
    Pmc.pmcRun env steps epsInit pct fuel start before counter = Pmc.pmcRun env steps epsInit pct fuel start' before counter := by
  have htask : ∀ eps pop w w', R w w' → Pmc.resampleTask env eps pop fuel w = Pmc.resampleTask env eps pop fuel w' := by
    intro eps pop w w' hw
    unfold Pmc.resampleTask
    rw [pmc_loop env h eps pop fuel w w' _ (env.held w') env.distMax 0 hw (by rw [hmax]; simp [Pmc.above])]
  have hstep : ∀ t s, Pmc.pmcStep env steps pct fuel t (start t) s = Pmc.pmcStep env steps pct fuel t (start' t) s := by
    intro t s
    unfold Pmc.pmcStep
    rw [(hs t).length_eq]
    simp only [fun eps => map_congr_rel (fun w w' => htask eps s.pop w w') (hs t)]
  have hloop : ∀ k t s, Pmc.pmcLoop env steps pct fuel start k t s = Pmc.pmcLoop env steps pct fuel start' k t s := by
    intro k
    induction k with
    | zero => intros; rfl
    | succ k ih =>
      intro t s
      rw [Pmc.pmcLoop, Pmc.pmcLoop, hstep]
      cases Pmc.pmcStep env steps pct fuel t (start' t) s with
      | none => rfl
      | some s' => exact ih _ _
  unfold Pmc.pmcRun
  cases Pmc.initEps epsInit steps with
  | none => rfl
  | some arr => exact hloop _ _ _

/-! ### SMCABC -/

structure SmcBlind (R : W → W → Prop) (env : Smc.Env W Θ Y) : Prop where
  prior : Blind R env.prior
  perturb : ∀ p i, Blind R (env.perturb p i)
  around : ∀ p θ, Blind R (env.around p θ)
  sim : ∀ θ, Blind R (env.sim θ)
  bern : ∀ a, Blind R (env.bern a)
  pick : ∀ l, Blind R (env.pick l)

theorem smc_accept0 (env : Smc.Env W Θ Y) (h : SmcBlind R env) (fuel : Nat) (eps : ℝ) (p : Pmc.Pop Θ) (i : Nat) (θ : Θ) (wt : ℝ) (y : Y) (w w' : W) (hw : R w w') :
    Smc.accept0 env fuel eps p i θ wt y w = Smc.accept0 env fuel eps p i θ wt y w' := by
  unfold Smc.accept0
  split
  · rcases (propose_blind env.pdf (h.perturb p i) fuel).cases hw with ⟨e, e'⟩ | ⟨v, v', a, e, e', hv⟩
    · rw [e, e']
    · rw [e, e']
      obtain ⟨h3, h4⟩ := h.sim a _ _ hv
      simp only [← h4, ← (h.bern _ _ _ h3).2]
  · rfl

theorem smc_accept1 (env : Smc.Env W Θ Y) (h : SmcBlind R env) (r fuel : Nat) (eps : ℝ) (p : Pmc.Pop Θ) (i : Nat) (θ : Θ) (wt : ℝ) (y : Y) (w w' : W) (hw : R w w') :
    Smc.accept1 env r fuel eps p i θ wt y w = Smc.accept1 env r fuel eps p i θ wt y w' := by
  unfold Smc.accept1
  split
  · rcases (hitLoop_blind (h.sim θ).toE (fun y => decide (env.dist y < eps)) (r - 1) fuel []).cases hw with ⟨e, e'⟩ | ⟨v, v', old, e, e', hv⟩
    · simp only [e, e']
    · simp only [e, e']
      rcases (propose_blind env.pdf (h.perturb p i) fuel).cases hv with ⟨e, e'⟩ | ⟨v, v', a, e, e', hv⟩
      · rw [e, e']
      · simp only [e, e']
        rcases (hitLoop_blind (h.sim a).toE (fun y => decide (env.dist y < eps)) r fuel []).cases hv with ⟨e, e'⟩ | ⟨v, v', new, e, e', hv⟩
        · simp only [e, e']
        · simp only [e, e']
          split
          · rfl
          · obtain ⟨h3, h4⟩ := h.bern (min 1 ((old.length : ℝ) / (new.length - 1) * Smc.ratio env p θ a)) _ _ hv
            rw [← h4]
            simp only [fun l => (h.pick l _ _ h3).2]
  · rfl

theorem smc_accept2 (env : Smc.Env W Θ Y) (h : SmcBlind R env) (r fuel : Nat) (eps : ℝ) (p : Pmc.Pop Θ) (i : Nat) (θ : Θ) (wt : ℝ) (y : Y) (w w' : W) (hw : R w w') :
    Smc.accept2 env r fuel eps p i θ wt y w = Smc.accept2 env r fuel eps p i θ wt y w' := by
  have g1 : BlindE R fun w => (Smc.propose env.pdf (env.perturb p i) fuel w).map fun e => ((env.sim e.2 e.1).1, e.2, (env.sim e.2 e.1).2) := by
    intro w w' hw
    rcases (propose_blind env.pdf (h.perturb p i) fuel).cases hw with ⟨e, e'⟩ | ⟨v, v', a, e, e', hv⟩
    · simp only [e, e']; exact .none
    · simp only [e, e']
      obtain ⟨h3, h4⟩ := h.sim a _ _ hv
      exact .some ⟨h3, by simp only [h4]⟩
  have g2 : ∀ θ', BlindE R fun w => (Smc.propose env.pdf (env.around p θ') fuel w).map fun e => env.sim e.2 e.1 := by
    intro θ' w w' hw
    rcases (propose_blind env.pdf (h.around p θ') fuel).cases hw with ⟨e, e'⟩ | ⟨v, v', a, e, e', hv⟩
    · simp only [e, e']; exact .none
    · simp only [e, e']
      exact .some (h.sim a _ _ hv)
  unfold Smc.accept2
  split
  · rcases (hitLoop_blind g1 (fun a => decide (env.dist a.2 < eps)) r fuel []).cases hw with ⟨e, e'⟩ | ⟨v, v', prime, e, e', hv⟩
    · simp only [e, e']
    · simp only [e, e']
      generalize (Smc.hits (fun a : Θ × Y => decide (env.dist a.2 < eps)) prime).dropLast = first
      cases first with
      | nil => rfl
      | cons x l =>
        simp only
        obtain ⟨h3, h4⟩ := h.pick (x :: l) _ _ hv
        rw [← h4]
        cases prime[(env.pick (x :: l) v).2]? with
        | none => rfl
        | some e =>
          obtain ⟨θ', y'⟩ := e
          simp only
          rcases (hitLoop_blind (g2 θ') (fun y => decide (env.dist y < eps)) (r - 1) fuel []).cases h3 with ⟨e, e'⟩ | ⟨v, v', back, e, e', hv⟩
          · simp only [e, e']
          · simp only [e, e']
            rw [(h.bern _ _ _ hv).2]
  · rfl

/-- C123 for `SMCABC`. -/
theorem C123_smcabc (env : Smc.Env W Θ Y) (h : SmcBlind R env) (c : Smc.Config) (dr : Smc.Draws) (distMax : Option ℝ) (fuel : Nat) (start start' : Nat → List W)
    (hs : SameStarts R start start') : Smc.smcRun env c dr distMax fuel start = Smc.smcRun env c dr distMax fuel start' := by
  have hstep : ∀ t s, Smc.smcStep env c dr fuel t (start t) s = Smc.smcStep env c dr fuel t (start' t) s := by
    intro t s
    have h1 : (start t).map (Smc.initial env) = (start' t).map (Smc.initial env) := map_congr_rel (fun w w' hw => by
      obtain ⟨h1, h2⟩ := h.prior w w' hw
      obtain ⟨h3, h4⟩ := h.sim (env.prior w).2 _ _ h1
      simp only [Smc.initial, ← h2, ← h4]) (hs t)
    have h2 : ∀ eps q ys, Smc.moved env c fuel eps q ys (start t) = Smc.moved env c fuel eps q ys (start' t) := by
      intro eps q ys
      unfold Smc.moved
      congr 1
      refine zipIdx_congr_rel (fun w w' i hw => ?_) (hs t) 0
      simp only [Smc.mcmc, smc_accept0 env h _ _ _ _ _ _ _ _ _ hw, smc_accept1 env h _ _ _ _ _ _ _ _ _ _ hw, smc_accept2 env h _ _ _ _ _ _ _ _ _ _ hw]
    unfold Smc.smcStep
    simp only [h1, h2]
  have hloop : ∀ k t s, Smc.smcLoop env c dr fuel start k t s = Smc.smcLoop env c dr fuel start' k t s := by
    intro k
    induction k with
    | zero => intros; rfl
    | succ k ih =>
      intro t s
      rw [Smc.smcLoop, Smc.smcLoop, hstep]
      simp only [ih]
  unfold Smc.smcRun
  have hlen : (∀ t, (start t).length = c.n) ↔ ∀ t, (start' t).length = c.n := forall_congr' fun t => by rw [(hs t).length_eq]
  by_cases hc : c.which ≤ 2 ∧ ¬ (c.bernton = true ∧ c.which = 0) ∧ ∀ t, (start t).length = c.n
  · rw [if_pos hc, if_pos ⟨hc.1, hc.2.1, hlen.1 hc.2.2⟩, hloop]
  · rw [if_neg hc, if_neg fun k => hc ⟨k.1, k.2.1, hlen.2 k.2.2⟩]

/-! ### RSMCABC -/

structure RsmcBlind (R : W → W → Prop) (env : Rsmc.Env W Θ Y) : Prop where
  prior : Blind R env.prior
  choose : ∀ n, Blind R (env.choose n)
  perturb : ∀ p i, Blind R (env.perturb p i)
  sim : ∀ θ, Blind R (env.sim θ)
  bern : ∀ a, Blind R (env.bern a)

theorem rsmc_prior (env : Rsmc.Env W Θ Y) (h : RsmcBlind R env) (eps : ℝ) (fuel : Nat) : ∀ (w w' : W) (θ θ' : Θ) (d : Option ℝ) (c : Nat), R w w' →
    (Pmc.above d eps = false → θ = θ') → Rsmc.priorLoop env eps fuel w θ d c = Rsmc.priorLoop env eps fuel w' θ' d c := by
  induction fuel with
  | zero => intros; rfl
  | succ fuel ih =>
    intro w w' θ θ' d c hw hθ
    rw [Rsmc.priorLoop, Rsmc.priorLoop]
    split
    · simp only
      obtain ⟨h1, h2⟩ := h.prior w w' hw
      obtain ⟨h3, h4⟩ := h.sim (env.prior w).2 _ _ h1
      rw [← h2, ← h4]
      exact ih _ _ _ _ _ _ h3 fun _ => rfl
    · rename_i hd
      rw [hθ (by simpa using hd)]

theorem rsmc_moves (env : Rsmc.Env W Θ Y) (h : RsmcBlind R env) (fuel : Nat) (eps : ℝ) (p : Pmc.Pop Θ) (i : Nat) (θ : Θ) (dθ : ℝ) (r : Nat) :
    ∀ (w w' : W) (held held' : Θ) (d : Option ℝ) (acc c : Nat), R w w' → (r = 0 → held = held') →
    Rsmc.moveLoop env fuel eps p i θ dθ r w held d acc c = Rsmc.moveLoop env fuel eps p i θ dθ r w' held' d acc c := by
  induction r with
  | zero => intro w w' held held' d acc c _ hh; rw [hh rfl]; rfl
  | succ r ih =>
    intro w w' held held' d acc c hw _
    rw [Rsmc.moveLoop, Rsmc.moveLoop]
    rcases (propose_blind env.pdf (h.perturb p i) fuel).cases hw with ⟨e, e'⟩ | ⟨v, v', a, e, e', hv⟩
    · rw [e, e']
    · simp only [e, e']
      obtain ⟨h3, h4⟩ := h.sim a _ _ hv
      obtain ⟨h5, h6⟩ := h.bern (Rsmc.prob env p θ a) _ _ h3
      rw [← h4, ← h6]
      simp only [ih _ _ θ θ _ _ _ h5 fun _ => rfl, ih _ _ θ θ _ _ _ h3 fun _ => rfl]

/-- C123 for `RSMCABC` with a distance without maximum, as long as every particle is moved at least once (line 2700 can give zero or a negative number of moves). The contents of the graphs at the
start of the tasks are arbitrary. -/
theorem C123_rsmcabc (env : Rsmc.Env W Θ Y) (h : RsmcBlind R env) (hmax : env.distMax = none) (c : Rsmc.Config) (fuel : Nat) (start start' : Nat → List (W × Θ))
    (hs : SameStarts (fun a b => R a.1 b.1) start start')
    (hmoves : ∀ k s, k ≤ c.steps → Rsmc.loop env c fuel start k 0 ⟨[], none, 1, [], [], 0⟩ = .ok s → 0 < s.moves) :
    Rsmc.run env c fuel start = Rsmc.run env c fuel start' := by
  have hacc : ∀ eps pop r (e e' : W × Θ), 0 < r → R e.1 e'.1 → Rsmc.accept env fuel eps pop r e.1 e.2 = Rsmc.accept env fuel eps pop r e'.1 e'.2 := by
    intro eps pop r e e' hr he
    unfold Rsmc.accept
    cases pop with
    | none =>
      simp only
      rw [rsmc_prior env h eps fuel e.1 e'.1 e.2 e'.2 env.distMax 0 he (by rw [hmax]; simp [Pmc.above])]
    | some q =>
      obtain ⟨p, ds⟩ := q
      simp only
      obtain ⟨h1, h2⟩ := h.choose p.params.length _ _ he
      rw [← h2]
      simp only [fun θ dθ => rsmc_moves env h fuel eps p (env.choose p.params.length e.1).2 θ dθ r _ _ e.2 e'.2 env.distMax 0 0 h1 (by omega)]
  have hstep : ∀ t s, 0 < s.moves → Rsmc.step env c fuel t (start t) s = Rsmc.step env c fuel t (start' t) s := by
    intro t s hm
    unfold Rsmc.step
    have hnil : (start t = []) = (start' t = []) := by
      rw [← List.length_eq_zero_iff, ← List.length_eq_zero_iff, (hs t).length_eq]
    simp only [(hs t).length_eq, hnil, fun eps => map_congr_rel (f := fun e : W × Θ => Rsmc.accept env fuel eps (Rsmc.seen s) s.moves.toNat e.1 e.2)
      (fun e e' he => hacc eps (Rsmc.seen s) s.moves.toNat e e' (by omega) he) (hs t)]
  have hsucc : ∀ k t s, Rsmc.loop env c fuel start (k + 1) t s = match Rsmc.loop env c fuel start k t s with
      | .error e => .error e
      | .ok s => Rsmc.step env c fuel (t + k) (start (t + k)) s := by
    intro k
    induction k with
    | zero =>
      intro t s
      rw [Rsmc.loop]
      simp only [Rsmc.loop, Nat.add_zero]
      cases Rsmc.step env c fuel t (start t) s <;> rfl
    | succ k ih =>
      intro t s
      rw [Rsmc.loop, Rsmc.loop]
      cases Rsmc.step env c fuel t (start t) s with
      | error e => rfl
      | ok s' =>
        simp only
        rw [ih]
        have : t + 1 + k = t + (k + 1) := by omega
        rw [this]
  have hsucc' : ∀ k t s, Rsmc.loop env c fuel start' (k + 1) t s = match Rsmc.loop env c fuel start' k t s with
      | .error e => .error e
      | .ok s => Rsmc.step env c fuel (t + k) (start' (t + k)) s := by
    intro k
    induction k with
    | zero =>
      intro t s
      rw [Rsmc.loop]
      simp only [Rsmc.loop, Nat.add_zero]
      cases Rsmc.step env c fuel t (start' t) s <;> rfl
    | succ k ih =>
      intro t s
      rw [Rsmc.loop, Rsmc.loop]
      cases Rsmc.step env c fuel t (start' t) s with
      | error e => rfl
      | ok s' =>
        simp only
        rw [ih]
        have : t + 1 + k = t + (k + 1) := by omega
        rw [this]
  have hloop : ∀ k, k ≤ c.steps → Rsmc.loop env c fuel start k 0 ⟨[], none, 1, [], [], 0⟩ = Rsmc.loop env c fuel start' k 0 ⟨[], none, 1, [], [], 0⟩ := by
    intro k
    induction k with
    | zero => intro _; rfl
    | succ k ih =>
      intro hk
      rw [hsucc, hsucc', ← ih (by omega)]
      cases hl : Rsmc.loop env c fuel start k 0 ⟨[], none, 1, [], [], 0⟩ with
      | error e => rfl
      | ok s => exact hstep _ _ (hmoves k s (by omega) hl)
  exact hloop _ le_rfl

/-! ### APMCABC -/

structure ApmcBlind (R : W → W → Prop) (env : Apmc.Env W Θ Y) : Prop where
  prior : Blind R env.prior
  choose : ∀ l, Blind R (env.choose l)
  perturb : ∀ p i, Blind R (env.perturb p i)
  sim : ∀ θ, Blind R (env.sim θ)

/-- C123 for `APMCABC`. -/
theorem C123_apmcabc (env : Apmc.Env W Θ Y) (h : ApmcBlind R env) (c : Apmc.Config) (fuel : Nat) (start start' : Nat → List W) (hs : SameStarts R start start') :
    Apmc.run env c fuel start = Apmc.run env c fuel start' := by
  have hacc : ∀ pop w w', R w w' → Apmc.accept env fuel pop w = Apmc.accept env fuel pop w' := by
    intro pop w w' hw
    unfold Apmc.accept
    cases pop with
    | none =>
      obtain ⟨h1, h2⟩ := h.prior w w' hw
      simp only [← h2, (h.sim (env.prior w).2 _ _ h1).2]
    | some p =>
      simp only
      obtain ⟨h1, h2⟩ := h.choose p.weights _ _ hw
      rw [← h2]
      rcases (propose_blind env.pdf (h.perturb p (env.choose p.weights w).2) fuel).cases h1 with ⟨e, e'⟩ | ⟨v, v', a, e, e', hv⟩
      · rw [e, e']
      · rw [e, e']
        simp only [Option.map_some, (h.sim a _ _ hv).2]
  have hstep : ∀ t s, Apmc.step env c fuel t (start t) s = Apmc.step env c fuel t (start' t) s := by
    intro t s
    unfold Apmc.step
    have hnil : (start t = []) = (start' t = []) := by
      rw [← List.length_eq_zero_iff, ← List.length_eq_zero_iff, (hs t).length_eq]
    simp only [(hs t).length_eq, hnil, map_congr_rel (f := fun w => Apmc.accept env fuel (Apmc.seen s) w) (fun w w' hw => hacc _ w w' hw) (hs t)]
  have hloop : ∀ k t s, Apmc.loop env c fuel start k t s = Apmc.loop env c fuel start' k t s := by
    intro k
    induction k with
    | zero => intros; rfl
    | succ k ih =>
      intro t s
      rw [Apmc.loop, Apmc.loop, hstep]
      simp only [ih]
  exact hloop _ _ _

/-! ### SABC -/

structure SabcBlind (R : W → W → Prop) (env : Sabc.Env W Θ Y) : Prop where
  prior : Blind R env.prior
  choose : ∀ n, Blind R (env.choose n)
  perturb : ∀ p i, Blind R (env.perturb p i)
  sim : ∀ θ, Blind R (env.sim θ)
  bern : ∀ a, Blind R (env.bern a)
  unif : Blind R env.unif

/-- C123 for `SABC`. -/
theorem C123_sabc (env : Sabc.Env W Θ Y) (h : SabcBlind R env) (c : Sabc.Config) (fuel : Nat) (start start' : Nat → List W) (hs : SameStarts R start start') :
    Sabc.run env c fuel start = Sabc.run env c fuel start' := by
  have hfirst : ∀ (n : Nat) w w' all k, R w w' → Sabc.first env c.eps 0 n w all k = Sabc.first env c.eps 0 n w' all k := by
    intro n
    induction n with
    | zero => intros; rfl
    | succ n ih =>
      intro w w' all k hw
      rw [Sabc.first, Sabc.first]
      obtain ⟨h1, h2⟩ := h.prior w w' hw
      obtain ⟨h3, h4⟩ := h.sim (env.prior w).2 _ _ h1
      simp only [← h2, ← h4]
      obtain ⟨h5, h6⟩ := h.bern (Real.exp (-env.dist (env.sim (env.prior w).2 (env.prior w).1).2 / c.eps)) _ _ h3
      rw [← h6, ih _ _ _ _ h5]
  have hmove : ∀ s w w', R w w' → Sabc.move env fuel c.n s w = Sabc.move env fuel c.n s w' := by
    intro s w w' hw
    unfold Sabc.move
    obtain ⟨h1, h2⟩ := h.choose c.n _ _ hw
    simp only [← h2]
    rcases (propose_blind env.pdf (h.perturb ⟨s.params, List.replicate c.n 1⟩ (env.choose c.n w).2) fuel).cases h1 with ⟨e, e'⟩ | ⟨v, v', a, e, e', hv⟩
    · rw [e, e']
    · rw [e, e']
      obtain ⟨h3, h4⟩ := h.sim a _ _ hv
      simp only [Option.bind_some, ← h4, ← (h.unif _ _ h3).2]
  have hstep : ∀ t s, Sabc.step env c fuel t (start t) s = Sabc.step env c fuel t (start' t) s := by
    intro t s
    unfold Sabc.step
    have hnil : (start t = []) = (start' t = []) := by
      rw [← List.length_eq_zero_iff, ← List.length_eq_zero_iff, (hs t).length_eq]
    simp only [(hs t).length_eq, hnil, map_congr_rel (f := fun w => if t = 0 then Sabc.first env c.eps 0 fuel w [] 0 else Sabc.move env fuel c.n s w)
      (fun w w' hw => by rw [hfirst _ _ _ _ _ hw, hmove _ _ _ hw]) (hs t)]
  have hloop : ∀ k t s, Sabc.loop env c fuel start k t s = Sabc.loop env c fuel start' k t s := by
    intro k
    induction k with
    | zero => intros; rfl
    | succ k ih =>
      intro t s
      rw [Sabc.loop, Sabc.loop, hstep]
      simp only [ih]
  exact hloop _ _ _

/-! ### ABCsubsim -/

structure SubsimBlind (R : W → W → Prop) (env : Subsim.Env W Θ Y M) : Prop where
  prior : Blind R env.prior
  perturb : ∀ m θ, Blind R (env.perturb m θ)
  sim : ∀ θ, Blind R (env.sim θ)
  bern : ∀ a, Blind R (env.bern a)

/-- C123 for `ABCsubsim`. -/
theorem C123_subsim (env : Subsim.Env W Θ Y M) (h : SubsimBlind R env) (c : Subsim.Config) (fuel : Nat) (start start' tuneStart tuneStart' : Nat → List W)
    (hs : SameStarts R start start') (ht : SameStarts R tuneStart tuneStart') : Subsim.run env c fuel start tuneStart = Subsim.run env c fuel start' tuneStart' := by
  have hfirst : ∀ w w', R w w' → Subsim.first env w = Subsim.first env w' := by
    intro w w' hw
    obtain ⟨h1, h2⟩ := h.prior w w' hw
    simp only [Subsim.first, ← h2, (h.sim (env.prior w).2 _ _ h1).2]
  have hchain : ∀ covs anneal base k w w' θ d, R w w' → Subsim.chain env fuel covs anneal base k w θ d = Subsim.chain env fuel covs anneal base k w' θ d := by
    intro covs anneal base k
    induction k with
    | zero => intros; rfl
    | succ k ih =>
      intro w w' θ d hw
      rw [Subsim.chain, Subsim.chain]
      rcases (propose_blind env.pdf (h.perturb covs base) fuel).cases hw with ⟨e, e'⟩ | ⟨v, v', a, e, e', hv⟩
      · rw [e, e']
      · simp only [e, e']
        obtain ⟨h3, h4⟩ := h.sim a _ _ hv
        rw [← h4]
        obtain ⟨h5, h6⟩ := h.bern (Subsim.prob env covs anneal θ a (env.dist (env.sim a v).2)) _ _ h3
        simp only [← h6, ih _ _ _ _ h5]
  have htrials : ∀ covs anneal base k w w' θ, R w w' → Subsim.trials env fuel covs anneal base k w θ = Subsim.trials env fuel covs anneal base k w' θ := by
    intro covs anneal base k
    induction k with
    | zero => intros; rfl
    | succ k ih =>
      intro w w' θ hw
      rw [Subsim.trials, Subsim.trials]
      rcases (propose_blind env.pdf (h.perturb covs base) fuel).cases hw with ⟨e, e'⟩ | ⟨v, v', a, e, e', hv⟩
      · rw [e, e']
      · simp only [e, e']
        obtain ⟨h3, h4⟩ := h.sim a _ _ hv
        rw [← h4]
        obtain ⟨h5, h6⟩ := h.bern (Subsim.prob env covs anneal θ a (env.dist (env.sim a v).2)) _ _ h3
        simp only [← h6, ih _ _ _ h5]
  have hacc : ∀ covs anneal base pop i w w', R w w' → Subsim.accept env fuel c.length covs anneal base pop i w = Subsim.accept env fuel c.length covs anneal base pop i w' := by
    intro covs anneal base pop i w w' hw
    unfold Subsim.accept
    simp only [fun θ => (h.sim θ _ _ hw).2, fun base k θ d => hchain covs anneal base k _ _ θ d (h.sim θ _ _ hw).1]
  have htune : ∀ covs anneal base pop i w w', R w w' → Subsim.tune env fuel c.length covs anneal base pop i w = Subsim.tune env fuel c.length covs anneal base pop i w' := by
    intro covs anneal base pop i w w' hw
    unfold Subsim.tune
    simp only [fun base k θ => htrials covs anneal base k w w' θ hw]
  have hstep : ∀ t s, Subsim.step env c fuel t (start t) (tuneStart t) s = Subsim.step env c fuel t (start' t) (tuneStart' t) s := by
    intro t s
    unfold Subsim.step
    have hnil : (start t = []) = (start' t = []) := by
      rw [← List.length_eq_zero_iff, ← List.length_eq_zero_iff, (hs t).length_eq]
    simp only [(hs t).length_eq, (ht t).length_eq, hnil, map_congr_rel hfirst (hs t)]
    have e1 : ∀ covs anneal base pop, (start t).zipIdx.map (fun (e : W × Nat) => Subsim.accept env fuel c.length covs anneal base pop e.2 e.1) =
        (start' t).zipIdx.map (fun (e : W × Nat) => Subsim.accept env fuel c.length covs anneal base pop e.2 e.1) := fun covs anneal base pop =>
      zipIdx_congr_rel (fun w w' i hw => hacc covs anneal base pop i w w' hw) (hs t) 0
    have e2 : ∀ covs anneal base pop, (tuneStart t).zipIdx.map (fun (e : W × Nat) => Subsim.tune env fuel c.length covs anneal base pop e.2 e.1) =
        (tuneStart' t).zipIdx.map (fun (e : W × Nat) => Subsim.tune env fuel c.length covs anneal base pop e.2 e.1) := fun covs anneal base pop =>
      zipIdx_congr_rel (fun w w' i hw => htune covs anneal base pop i w w' hw) (ht t) 0
    simp only [e1, e2]
  have hloop : ∀ k t s, Subsim.loop env c fuel start tuneStart k t s = Subsim.loop env c fuel start' tuneStart' k t s := by
    intro k
    induction k with
    | zero => intros; rfl
    | succ k ih =>
      intro t s
      rw [Subsim.loop, Subsim.loop, hstep]
      simp only [ih]
  unfold Subsim.run
  rw [hloop]

/-! ### Cases

A worker is a position in its stream of random numbers, and what its graph holds. Nothing but the position matters, and the graph holds the last parameter used. -/

/-- A step that uses the stream, and leaves something in the graph. -/
def uses {A : Type} (f : Nat → A) (left : Nat × ℤ → ℤ) (w : Nat × ℤ) : (Nat × ℤ) × A := ((w.1 + 1, left w), f w.1)

theorem uses_blind {A : Type} (f : Nat → A) (left : Nat × ℤ → ℤ) : Blind (fun a b : Nat × ℤ => a.1 = b.1) (uses f left) := by
  intro w w' h
  simp only [uses, h, and_self]

/-- Draws of the prior alternate between 0 and 1, perturbations add 1, -1 or 0, and some are refused; the simulator returns the parameter. -/
noncomputable def pmcLine (distMax : Option ℝ) : Pmc.Env (Nat × ℤ) ℤ ℤ where
  distMax := distMax
  dist y := |(y : ℝ)|
  pdf θ := if |θ| ≤ 5 then 1 else 0
  kernel _ a b := if |a - b| ≤ 1 then 1 else 0
  held w := w.2
  prior := uses (fun t => (t % 2 : ℤ)) fun w => (w.1 % 2 : ℤ)
  choose l := uses (fun t => t % l.length) (·.2)
  perturb p i := uses (fun t => if t % 7 = 6 then none else (p.params[i]?).map fun θ => θ + (t % 3 : ℤ) - 1) fun w => w.1
  sim θ := uses (fun _ => θ) fun _ => θ

example (m : Option ℝ) : PmcBlind (fun a b : Nat × ℤ => a.1 = b.1) (pmcLine m) :=
  ⟨uses_blind _ _, fun _ => uses_blind _ _, fun _ _ => uses_blind _ _, fun _ => uses_blind _ _⟩

example : SameStarts (fun a b : Nat × ℤ => a.1 = b.1) (fun t => [(10 * t, 0), (10 * t + 5, 3)]) (fun t => [(10 * t, 7), (10 * t + 5, -2)]) :=
  fun _ => .cons rfl (.cons rfl .nil)

/-- C123 fails for `PMCABC` if the first threshold is not below the maximum of the distance: a task returns what its graph happens to hold, without a simulation (lines 990-998, where only a warning is logged). -/
theorem C123_held_violated :
    SameStarts (fun a b : Nat × ℤ => a.1 = b.1) (fun _ => [(0, 0)]) (fun _ => [(0, 7)]) ∧
    Pmc.pmcRun (pmcLine (some 1)) 1 [1] 10 1 (fun _ => [(0, 0)]) none 0 ≠ Pmc.pmcRun (pmcLine (some 1)) 1 [1] 10 1 (fun _ => [(0, 7)]) none 0 := by
  refine ⟨fun _ => .cons rfl .nil, ?_⟩
  intro h
  have := congrArg (Option.map fun s => s.hist.map (·.params)) h
  simp [Pmc.pmcRun, Pmc.initEps, Pmc.pmcLoop, Pmc.pmcStep, Pmc.resampleTask, Pmc.resampleLoop, Pmc.above, pmcLine, Pmc.nextEps, collect] at this

noncomputable def smcLine : Smc.Env (Nat × ℤ) ℤ ℤ where
  dist y := |(y : ℝ)|
  dists y := [|(y : ℝ)|]
  pdf := (pmcLine none).pdf
  kernel := (pmcLine none).kernel
  prior := (pmcLine none).prior
  perturb := (pmcLine none).perturb
  around _ θ := uses (fun t => some (θ + (t % 3 : ℤ) - 1)) fun w => w.1
  sim := (pmcLine none).sim
  bern a := uses (fun t => decide (((t % 4 : ℕ) : ℝ) / 4 < a)) (·.2)
  pick l := uses (fun t => t % l.length) (·.2)

example : SmcBlind (fun a b : Nat × ℤ => a.1 = b.1) smcLine :=
  ⟨uses_blind _ _, fun _ _ => uses_blind _ _, fun _ _ => uses_blind _ _, fun _ => uses_blind _ _, fun _ => uses_blind _ _, fun _ => uses_blind _ _⟩

noncomputable def rsmcLine : Rsmc.Env (Nat × ℤ) ℤ ℤ where
  distMax := none
  dist := smcLine.dist
  pdf := smcLine.pdf
  kernel := smcLine.kernel
  prior := smcLine.prior
  choose n := uses (fun t => t % n) (·.2)
  perturb := smcLine.perturb
  sim := smcLine.sim
  bern := smcLine.bern

example : RsmcBlind (fun a b : Nat × ℤ => a.1 = b.1) rsmcLine :=
  ⟨uses_blind _ _, fun _ => uses_blind _ _, fun _ _ => uses_blind _ _, fun _ => uses_blind _ _, fun _ => uses_blind _ _⟩

noncomputable def apmcLine : Apmc.Env (Nat × ℤ) ℤ ℤ where
  dist := smcLine.dist
  pdf := smcLine.pdf
  kernel := smcLine.kernel
  prior := smcLine.prior
  choose := (pmcLine none).choose
  perturb := smcLine.perturb
  sim := smcLine.sim

example : ApmcBlind (fun a b : Nat × ℤ => a.1 = b.1) apmcLine :=
  ⟨uses_blind _ _, fun _ => uses_blind _ _, fun _ _ => uses_blind _ _, fun _ => uses_blind _ _⟩

noncomputable def sabcLine : Sabc.Env (Nat × ℤ) ℤ ℤ where
  dist := smcLine.dist
  pdf := smcLine.pdf
  prior := smcLine.prior
  choose := rsmcLine.choose
  perturb := smcLine.perturb
  sim := smcLine.sim
  bern := smcLine.bern
  unif := uses (fun t => ((t % 4 : ℕ) : ℝ) / 4) (·.2)
  schedule x := x / 2
  pick n _ := List.range n

example : SabcBlind (fun a b : Nat × ℤ => a.1 = b.1) sabcLine :=
  ⟨uses_blind _ _, fun _ => uses_blind _ _, fun _ _ => uses_blind _ _, fun _ => uses_blind _ _, fun _ => uses_blind _ _, uses_blind _ _⟩

noncomputable def subsimLine : Subsim.Env (Nat × ℤ) ℤ ℤ Nat where
  dist := smcLine.dist
  pdf := smcLine.pdf
  kernel _ a b := if |a - b| ≤ 1 then 1 else 0
  prior := smcLine.prior
  perturb _ θ := uses (fun t => some (θ + (t % 3 : ℤ) - 1)) fun w => w.1
  sim := smcLine.sim
  bern := smcLine.bern
  cov p := [p.params.length]
  scale _ m := m

example : SubsimBlind (fun a b : Nat × ℤ => a.1 = b.1) subsimLine :=
  ⟨uses_blind _ _, fun _ _ => uses_blind _ _, fun _ => uses_blind _ _, fun _ => uses_blind _ _⟩

end Verif.Schedule
