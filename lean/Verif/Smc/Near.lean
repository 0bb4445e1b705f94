import Verif.Smc.Props
/-
C233: data of the particles of `SMCABC` and the threshold.
-/
namespace Verif.Smc

open Verif.Pmc (Pop normalise)

variable {W Θ Y : Type}

/-- Specification: every particle of positive weight has a simulated data set that is nearer than `eps`. -/
def Near (env : Env W Θ Y) (eps : ℝ) (r : Rec Θ Y) : Prop :=
  ∀ (i : Nat) (wt : ℝ) (y : Y), r.weights[i]? = some wt → 0 < wt → r.sims[i]? = some y → ∃ d ∈ env.dists y, d < eps

theorem below_ne_zero (eps : ℝ) (l : List ℝ) : below eps l ≠ 0 ↔ ∃ d ∈ l, d < eps := by
  simp [below, List.countP_eq_zero]

theorem hits_near {A : Type} (hit : A → Bool) (l : List A) (j : Nat) (hj : j ∈ (hits hit l).dropLast) (y : A) (hy : l[j]? = some y) : hit y = true := by
  have := List.mem_of_mem_dropLast hj
  simp only [hits, List.mem_filter] at this
  rw [hy] at this
  exact this.2

/-- What the moves need of the random generator: with probability zero nothing is accepted, and a random choice is one of the given. For the r-hit kernels a data set whose distance is below a threshold has a part below it, as is the case with one simulation per parameter. -/
structure Fair (env : Env W Θ Y) (which : Nat) : Prop where
  bern : ∀ w, (env.bern 0 w).2 = false
  pick : which ≠ 0 → ∀ l w, l ≠ [] → (env.pick l w).2 ∈ l
  parts : which ≠ 0 → ∀ y e, env.dist y < e → ∃ d ∈ env.dists y, d < e

theorem mcmc_near (env : Env W Θ Y) (which : Nat) (hf : Fair env which) (r : Option Nat) (fuel : Nat) (eps : ℝ) (p : Pop Θ) (i : Nat) (θ : Θ) (wt : ℝ) (y : Y) (w : W) (hy : ∃ d ∈ env.dists y, d < eps) (o : Out Θ Y)
    (h : mcmc env which r fuel eps p i θ wt y w = some o) : ∃ d ∈ env.dists o.y, d < eps := by
  unfold mcmc at h
  split at h
  · unfold accept0 at h
    split at h
    · split at h
      · cases h
      · rename_i w1 θ' hpr
        simp only at h
        split at h
        · rename_i hb
          cases h
          simp only
          by_contra hn
          rw [← below_ne_zero, not_not] at hn
          have : prob0 env eps p θ y θ' (env.sim θ' w1).2 = 0 := by
            rw [prob0, if_neg ((below_ne_zero _ _).2 hy), hn]
            simp
          rw [this, hf.bern] at hb
          cases hb
        · cases h; exact hy
    · cases h; exact hy
  · rename_i hw0
    split at h
    · unfold accept1 at h
      split at h
      · split at h
        · cases h
        · split at h
          · cases h
          · split at h
            · cases h
            · split at h
              · cases h
              · simp only at h
                split at h
                · split at h
                  · cases h
                  · rename_i first hfirst
                    split at h
                    · cases h
                    · rename_i y' hy'
                      cases h
                      have := hits_near _ _ _ (hf.pick hw0 _ _ hfirst) _ hy'
                      exact hf.parts hw0 _ _ (by simpa using this)
                · cases h; exact hy
      · cases h; exact hy
    · split at h
      · unfold accept2 at h
        split at h
        · split at h
          · cases h
          · split at h
            · cases h
            · rename_i first hfirst
              simp only at h
              split at h
              · cases h
              · rename_i θ' y' hy'
                split at h
                · cases h
                · split at h
                  · cases h
                    have := hits_near _ _ _ (hf.pick hw0 _ _ hfirst) _ hy'
                    exact hf.parts hw0 _ _ (by simpa using this)
                  · cases h; exact hy
        · cases h; exact hy
      · cases h

theorem weights_near (env : Env W Θ Y) (c : Config) (hb : c.bernton = false) (old eps : ℝ) (p : Rec Θ Y) (wts : List ℝ) (h : newWeights env c old eps p = some wts) (i : Nat) (wt : ℝ) (y : Y) (hw : wts[i]? = some wt) (hpos : 0 < wt) (hy : p.sims[i]? = some y) :
    ∃ d ∈ env.dists y, d < eps := by
  simp only [newWeights, hb, Bool.false_eq_true, if_false] at h
  split at h
  · cases h
  · cases h
    simp only [normalise, List.getElem?_map, Option.map_eq_some_iff] at hw
    obtain ⟨x, hx, rfl⟩ := hw
    rw [← below_ne_zero]
    intro h0
    simp only [dmWeights, List.getElem?_zipWith, List.getElem?_map, hy, Option.map_some] at hx
    cases hp : p.weights[i]? with
    | none => rw [hp] at hx; cases hx
    | some v =>
      rw [hp] at hx
      simp only [h0, zero_div, mul_zero, ite_self, Option.some.injEq] at hx
      rw [← hx, zero_div] at hpos
      exact lt_irrefl _ hpos

theorem moved_near (env : Env W Θ Y) (c : Config) (hf : Fair env c.which) (fuel : Nat) (eps : ℝ) (q : Pop Θ) (ys : List Y) (start : List W) (l : List (Out Θ Y)) (h : moved env c fuel eps q ys start = some l)
    (hq : ∀ (i : Nat) (wt : ℝ) (y : Y), q.weights[i]? = some wt → 0 < wt → ys[i]? = some y → ∃ d ∈ env.dists y, d < eps) : Near env eps (outRec q.weights l) := by
  intro i wt y hw hpos hy
  simp only [outRec, List.getElem?_map, Option.map_eq_some_iff] at hw hy
  obtain ⟨o, ho, rfl⟩ := hy
  unfold moved at h
  rw [collect_eq_some] at h
  have hi := congrArg (fun x => x[i]?) h
  simp only [List.getElem?_map, List.getElem?_zipIdx, ho, Option.map_some, Option.map_map] at hi
  rw [Option.map_eq_some_iff] at hi
  obtain ⟨w, -, hm⟩ := hi
  simp only [Function.comp, Nat.zero_add, Option.bind_eq_some_iff] at hm
  obtain ⟨θ, -, wt', h1, y, h2, h3⟩ := hm
  rw [hw, Option.some.injEq] at h1
  subst h1
  exact mcmc_near env c.which hf c.r fuel eps q i θ wt y w (hq i wt y hw hpos h2) o h3

/-- C233 for runs that never resample (the version of Del Moral et al. with `resample ≤ 0`): after the first step, every particle of positive weight has a simulated data set nearer than the threshold. Missing: runs that resample, for which it is false. -/
theorem C233_near_partial (env : Env W Θ Y) (c : Config) (hf : Fair env c.which) (hb : c.bernton = false) (hr : c.resample ≤ 0) (dr : Draws) (distMax : Option ℝ) (fuel : Nat) (start : Nat → List W) (s : State Θ Y) (h : smcRun env c dr distMax fuel start = some s)
    (r : Rec Θ Y) (hlast : s.last = some r) (hpast : s.past ≠ []) : Near env s.cur r := by
  unfold smcRun at h
  split at h
  swap
  · cases h
  obtain ⟨_, _, hI, _⟩ := smcLoop_inv env c dr fuel start (fun _ s => (s.last = none → s.past = []) ∧ (s.past ≠ [] → ∀ r, s.last = some r → Near env s.cur r))
    (fun t s s' hI _ hs => by
      unfold smcStep at hs
      split at hs
      · rename_i hn
        cases hs
        exact ⟨fun _ => hI.1 hn, fun hp => absurd (hI.1 hn) hp⟩
      · rename_i p hp
        split at hs
        · cases hs
        · rename_i eps _
          split at hs
          · cases hs
          · rename_i wts hw
            split at hs
            · cases hs
            · rename_i q hq
              split at hs
              · cases hs
              · rename_i l hl
                cases hs
                refine ⟨fun h => (by cases h), fun _ r hr' => ?_⟩
                cases hr'
                unfold resampled at hq
                rw [if_neg (by rw [hb]; simpa using hr.trans (ess_nonneg wts)), Option.some.injEq] at hq
                subst hq
                exact moved_near env c hf fuel eps _ _ _ l hl fun i wt y h1 h2 h3 => weights_near env c hb _ _ p wts hw i wt y h1 h2 h3)
    c.steps 0 _ s ⟨fun _ => rfl, fun h => absurd rfl h⟩ h
  exact hI.2 hpast r hlast

/-- C233 fails when the population is resampled: with threshold 0.9995 the particle whose data have distance 2 has weight 1/2 at the end, in the journal that is returned. -/
theorem C233_near_violated : ∃ s r, smcRun exEnv (exConfig 2) ⟨fun _ _ => [0, 0], fun _ => 1⟩ (some 1) 1 (fun _ => [0, 1]) = some s ∧
    s.last = some r ∧ s.journal.getLast? = some r ∧ s.epsilons = [1, 0.9995] ∧ r.weights = [1 / 2, 1 / 2] ∧ r.distances = [0, 2] ∧ ¬ Near exEnv 0.9995 r := by
  obtain ⟨s, h1, h2, -, h3, h4⟩ := exRun 2 ⟨[0, 0], [1 / 2, 1 / 2]⟩ (by norm_num [resampled, exConfig, ess, collect, equalWeights, List.replicate]) _ _ _ _ rfl
  refine ⟨s, _, h1, h2, h4.trans h2, h3, rfl, rfl, fun hn => ?_⟩
  obtain ⟨d, hd, hlt⟩ := hn 1 (1 / 2) 1 rfl (by norm_num) rfl
  simp only [exEnv, one_ne_zero, if_false, List.mem_singleton] at hd
  rw [hd] at hlt
  norm_num at hlt

/-- The hypotheses of `C233_near_partial` hold for the same run without resampling, where the far particle has weight zero. -/
example : Fair exEnv 0 ∧ ∃ s, smcRun exEnv (exConfig 0) ⟨fun _ _ => [0, 0], fun _ => 1⟩ (some 1) 1 (fun _ => [0, 1]) = some s ∧ s.epsilons = [1, 0.9995] ∧
    s.last = some ⟨[0, 1], [0, 1], [0, 2], [1, 0]⟩ := by
  obtain ⟨s, h1, h2, -, h3, -⟩ := exRun 0 ⟨[0, 1], [1, 0]⟩ (by norm_num [resampled, exConfig, ess]) _ _ _ _ rfl
  exact ⟨⟨fun _ => rfl, fun h => absurd rfl h, fun h => absurd rfl h⟩, s, h1, h3, h2⟩

/-- And `Fair` holds for an r-hit kernel that takes the first of the choices. -/
example : Fair { exEnv with pick := fun l w => (w, l.headD 0) } 1 :=
  ⟨fun _ => rfl, fun _ l w hl => by cases l <;> simp_all, fun _ y e h => ⟨_, List.mem_singleton.2 rfl, h⟩⟩

end Verif.Smc
