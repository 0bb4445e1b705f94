import Verif.Smc.Lemmas
import Mathlib.Data.List.Pairwise
/-
Property theorems C42 - C46 and C78 (`SMCABC`).
-/
namespace Verif.Smc

open Verif.Pmc (Pop normalise)

/-! ### C43 -/

/-- C43. For a positive tolerance and `low ≤ high` the bisection needs at most `N` halvings as soon as `(high - low) / 2 ≤ 2 ^ N * tol`, i.e. for
`N = ⌈log2 ((high - low) / (2 tol))⌉` (fuel `N + 1`: one more look at the condition); its result lies in `[low, high]`; and if the function changes sign between the ends, the result is a zero
or the middle of an interval of half-width at most `tol`, inside of `[low, high]`, at whose ends the function has opposite signs. -/
theorem C43_bisection (f : ℝ → ℝ) (tol low high : ℝ) (hlh : low ≤ high) :
    (∀ N fuel : Nat, (high - low) / 2 ≤ 2 ^ N * tol → N < fuel → ∃ x, bisection f tol fuel low high = some x) ∧
    (∀ fuel x, bisection f tol fuel low high = some x → low ≤ x ∧ x ≤ high) ∧
    (f low * f high < 0 → ∀ fuel x, bisection f tol fuel low high = some x → f x = 0 ∨
      ∃ a b, low ≤ a ∧ b ≤ high ∧ a ≤ x ∧ x ≤ b ∧ x = (a + b) / 2 ∧ (b - a) / 2 ≤ tol ∧ f a * f b < 0) := by
  refine ⟨?_, ?_, ?_⟩
  · intro N
    induction N generalizing low high with
    | zero =>
      intro fuel h hf
      obtain ⟨k, rfl⟩ : ∃ k, fuel = k + 1 := ⟨fuel - 1, by omega⟩
      rw [bisection, if_neg (by simpa using h)]
      exact ⟨_, rfl⟩
    | succ N ih =>
      intro fuel h hf
      obtain ⟨k, rfl⟩ : ∃ k, fuel = k + 1 := ⟨fuel - 1, by omega⟩
      rw [bisection]
      have e : (2 : ℝ) ^ (N + 1) * tol = 2 * (2 ^ N * tol) := by ring
      rw [e] at h
      split
      · split
        · exact ⟨_, rfl⟩
        · split
          · exact ih low _ (by linarith) k (by linarith) (by omega)
          · exact ih _ high (by linarith) k (by linarith) (by omega)
      · exact ⟨_, rfl⟩
  · intro fuel
    induction fuel generalizing low high with
    | zero => intro x h; simp [bisection] at h
    | succ fuel ih =>
      intro x h
      rw [bisection] at h
      split at h
      · split at h
        · simp only [Option.some.injEq] at h; subst h; constructor <;> linarith
        · split at h
          · obtain ⟨a, b⟩ := ih _ _ (by linarith) _ h; constructor <;> linarith
          · obtain ⟨a, b⟩ := ih _ _ (by linarith) _ h; constructor <;> linarith
      · simp only [Option.some.injEq] at h; subst h; constructor <;> linarith
  · intro hs fuel
    induction fuel generalizing low high with
    | zero => intro x h; simp [bisection] at h
    | succ fuel ih =>
      intro x h
      rw [bisection] at h
      split at h
      · split at h
        · rename_i hz
          simp only [Option.some.injEq] at h; subst h; exact .inl hz
        · rename_i hz
          split at h
          · rename_i hneg
            rcases ih low _ (by linarith) hneg x h with h | ⟨a, b, h1, h2, h3⟩
            · exact .inl h
            · exact .inr ⟨a, b, h1, by linarith, h3⟩
          · rename_i hneg
            have hl : f low ≠ 0 := fun hl => by rw [hl, zero_mul] at hs; exact lt_irrefl _ hs
            have hpos : 0 < f low * f ((low + high) / 2) :=
              lt_of_le_of_ne (not_lt.1 hneg) (Ne.symm (mul_ne_zero hl hz))
            have : f ((low + high) / 2) * f high < 0 := by
              rcases lt_or_gt_of_ne hl with hl | hl
              · have hm : f ((low + high) / 2) < 0 := by nlinarith
                have hh : 0 < f high := by nlinarith
                exact mul_neg_of_neg_of_pos hm hh
              · have hm : 0 < f ((low + high) / 2) := by nlinarith
                have hh : f high < 0 := by nlinarith
                exact mul_neg_of_pos_of_neg hm hh
            rcases ih _ high (by linarith) this x h with h | ⟨a, b, h1, h2, h3⟩
            · exact .inl h
            · exact .inr ⟨a, b, by linarith, h2, h3⟩
      · rename_i ht
        simp only [Option.some.injEq] at h
        exact .inr ⟨low, high, le_rfl, le_rfl, by linarith, by linarith, h.symm, not_lt.1 ht, hs⟩

/-- A sign change between 0 and 2, found after two halvings. -/
example : (fun x : ℝ => x - 0.6) 0 * (fun x : ℝ => x - 0.6) 2 < 0 ∧ bisection (fun x => x - 0.6) 0.3 3 0 2 = some 0.75 := by
  constructor
  · norm_num
  · norm_num [bisection]

/-! ### C42 -/

variable {W Θ Y : Type} (env : Env W Θ Y) (c : Config) (dr : Draws)

/-- The list `epsilon` of the run. -/
def State.epsilons (s : State Θ Y) : List ℝ := s.past ++ [s.cur]

/-- C42. The thresholds of a run decrease, those after the first are at least `epsilon_final`, and a run whose threshold has reached `epsilon_final` does no further step.
The first threshold is the maximal distance, or 10 ^ 5 if that is infinite. -/
theorem C42_thresholds (distMax : Option ℝ) (fuel : Nat) (start : Nat → List W) (s : State Θ Y)
    (h : smcRun env c dr distMax fuel start = some s) :
    s.epsilons.head? = some (distMax.getD (10 ^ 5)) ∧ s.epsilons.Pairwise (· > ·) ∧ (∀ e ∈ s.epsilons.tail, c.final ≤ e) ∧
      (∀ k t (s' : State Θ Y), s'.cur ≤ c.final → smcLoop env c dr fuel start k t s' = some s') := by
  unfold smcRun at h
  split at h
  swap
  · cases h
  refine ⟨?_, ?_, ?_, fun k t s' hs' => by cases k <;> simp [smcLoop, hs']⟩
  all_goals
    obtain ⟨-, -, hI, -⟩ := smcLoop_inv env c dr fuel start
      (fun _ s => s.epsilons.head? = some (distMax.getD (10 ^ 5)) ∧ s.epsilons.Pairwise (· > ·) ∧ (∀ e ∈ s.epsilons.tail, c.final ≤ e))
      (fun t s s' hI hc hs => by
        rcases smcStep_spec env c dr fuel t (start t) s s' hs with ⟨-, rfl⟩ | ⟨p, eps, wts, q, l, hp, he, hw, hq, hl, rfl⟩
        · exact hI
        · obtain ⟨a, b, d⟩ := hI
          obtain ⟨e1, e2⟩ := newEps_spec env c dr fuel s.cur eps p he hc
          simp only [save, State.epsilons] at a b d ⊢
          refine ⟨?_, ?_, ?_⟩
          · rw [List.head?_append, a]; rfl
          · rw [List.pairwise_append]
            refine ⟨b, by simp, ?_⟩
            intro x hx y hy
            simp only [List.mem_singleton] at hy; subst hy
            rcases List.mem_append.1 hx with hx | hx
            · have := (List.pairwise_append.1 b).2.2 x hx s.cur (by simp)
              linarith
            · simp only [List.mem_singleton] at hx; subst hx; exact e2
          · intro e he
            rw [List.tail_append_of_ne_nil (by simp)] at he
            rcases List.mem_append.1 he with he | he
            · exact d e he
            · simp only [List.mem_singleton] at he; subst he; exact e1.le) _ _ _ _ (by simp [State.epsilons]) h
  · exact hI.1
  · exact hI.2.1
  · exact hI.2.2

/-- A remark on C42. With exact arithmetic `epsilon_final` is never reached: each new threshold is the middle of an interval to the right of it. A run that starts above `epsilon_final`
does all of its steps and stays above it; a run that starts at or below `epsilon_final` does nothing. -/
theorem C42_never_reached (distMax : Option ℝ) (fuel : Nat) (start : Nat → List W) (s : State Θ Y)
    (h : smcRun env c dr distMax fuel start = some s) :
    (c.final < distMax.getD (10 ^ 5) → s.done = c.steps ∧ ∀ e ∈ s.epsilons, c.final < e) ∧
    (distMax.getD (10 ^ 5) ≤ c.final → s.done = 0 ∧ s.last = none ∧ s.journal = [] ∧ s.counter = 0) := by
  unfold smcRun at h
  split at h
  swap
  · cases h
  constructor
  · intro hf
    obtain ⟨t', ht, ⟨hI, hJ⟩, hlt⟩ := smcLoop_inv env c dr fuel start (fun t s => s.done = t ∧ ∀ e ∈ s.epsilons, c.final < e)
      (fun t s s' hI hc hs => by
        rcases smcStep_spec env c dr fuel t (start t) s s' hs with ⟨-, rfl⟩ | ⟨p, eps, wts, q, l, hp, he, hw, hq, hl, rfl⟩
        · exact ⟨by simp [save, hI.1], hI.2⟩
        · refine ⟨by simp [save, hI.1], ?_⟩
          intro e hm
          simp only [save, State.epsilons] at hm
          rcases List.mem_append.1 hm with hm | hm
          · exact hI.2 e hm
          · simp only [List.mem_singleton] at hm; subst hm
            exact (newEps_spec env c dr fuel s.cur e p he hc).1) _ _ _ _ (by simpa [State.epsilons] using hf) h
    have hcur := hJ s.cur (by simp [State.epsilons])
    have : ¬ t' < 0 + c.steps := fun hlt' => absurd (hlt hlt') (not_le.2 hcur)
    exact ⟨by omega, hJ⟩
  · intro hf
    have : smcLoop env c dr fuel start c.steps 0 ⟨[], distMax.getD (10 ^ 5), none, [], 0, 0⟩ =
        some (⟨[], distMax.getD (10 ^ 5), none, [], 0, 0⟩ : State Θ Y) := by
      cases c.steps <;> simp [smcLoop, hf]
    rw [this] at h
    simp only [Option.some.injEq] at h
    subst h; exact ⟨rfl, rfl, rfl, rfl⟩

/-! ### C46 -/

/-- C46 for `SMCABC`, with exact arithmetic: if at least one step was carried out, the last population in the journal is that of the last step.
Missing: the other samplers, for which it is false (`Verif.Apmc`, `Verif.Sabc`). -/
theorem C46_smc_partial (distMax : Option ℝ) (fuel : Nat) (start : Nat → List W) (s : State Θ Y)
    (h : smcRun env c dr distMax fuel start = some s) (hd : 1 ≤ s.done) : s.last ≠ none ∧ s.journal.getLast? = s.last := by
  have h2 := C42_never_reached env c dr distMax fuel start s h
  unfold smcRun at h
  split at h
  swap
  · cases h
  obtain ⟨t', ht, ⟨h0, h1, hI⟩, hlt⟩ := smcLoop_inv env c dr fuel start
    (fun t s => s.done = t ∧ (1 ≤ t → s.last ≠ none) ∧ (1 ≤ t → (c.full = true ∨ t = c.steps) → t ≤ c.steps → s.journal.getLast? = s.last))
      (fun t s s' hI hc hs => by
        rcases smcStep_spec env c dr fuel t (start t) s s' hs with ⟨-, rfl⟩ | ⟨p, eps, wts, q, l, hp, he, hw, hq, hl, rfl⟩
        all_goals
          refine ⟨by simp [save, hI.1], fun _ => by simp [save], fun _ hft hle => ?_⟩
          simp only [save]
          rcases hft with hf | hf
          · rw [if_pos (.inl ⟨hf, by omega⟩), if_pos hf]; simp
          · by_cases hfull : c.full = true
            · rw [if_pos (.inl ⟨hfull, by omega⟩), if_pos hfull]; simp
            · rw [if_pos (.inr ⟨by simpa using hfull, by omega⟩), if_neg hfull]; simp) _ _ _ _ (by simp) h
  have hf : c.final < distMax.getD (10 ^ 5) := by
    by_contra hf
    have := (h2.2 (not_lt.1 hf)).1
    omega
  have h3 := (h2.1 hf).1
  have ht1 : 1 ≤ t' := by omega
  exact ⟨h1 ht1, hI ht1 (.inr (by omega)) (by omega)⟩

/-! ### C44 -/

/-- What is known of a population in a run. -/
structure Good (cur : ℝ) (p : Rec Θ Y) : Prop where
  params : p.params.length = c.n
  sims : p.sims.length = c.n
  distances : p.distances.length = c.n
  weights : p.weights.length = c.n
  nonneg : ∀ x ∈ p.weights, 0 ≤ x
  sum : p.weights.sum = 1
  zero : c.bernton = false → ∀ (i : Nat) (wt : ℝ) (y : Y), p.weights[i]? = some wt → p.sims[i]? = some y → wt = 0 → below cur (env.dists y) = 0

theorem dm_getElem (old : List ℝ) (rows : List (List ℝ)) (a b : ℝ) (i : Nat) (w : ℝ) (row : List ℝ) (h1 : old[i]? = some w) (h2 : rows[i]? = some row) :
    (dmWeights old rows a b)[i]? = some (if below a row = 0 then 0 else w * (below b row / below a row)) := by
  unfold dmWeights
  rw [List.getElem?_zipWith, h1, h2]

theorem dm_nonneg (old : List ℝ) (rows : List (List ℝ)) (a b : ℝ) (h : ∀ x ∈ old, 0 ≤ x) : ∀ x ∈ dmWeights old rows a b, 0 ≤ x := by
  intro x hx
  unfold dmWeights at hx
  rw [List.zipWith_eq_zipWith_take_min, List.mem_iff_getElem?] at hx
  obtain ⟨i, hi⟩ := hx
  rw [List.getElem?_zipWith] at hi
  split at hi
  · rename_i w row hw _
    simp only [Option.some.injEq] at hi
    subst hi
    split
    · exact le_rfl
    · have := h w (List.mem_of_mem_take (List.mem_of_getElem? hw))
      exact mul_nonneg this (div_nonneg (below_nonneg _ _) (below_nonneg _ _))
  · cases hi

theorem raw_nonneg (old new : ℝ) (p : Rec Θ Y) (h : ∀ x ∈ p.weights, 0 ≤ x) :
    ∀ x ∈ (if c.bernton then berntonWeights p.distances new else dmWeights p.weights (p.sims.map env.dists) old new), 0 ≤ x := by
  intro x hx
  split at hx
  · unfold berntonWeights at hx
    obtain ⟨d, -, rfl⟩ := List.mem_map.1 hx
    split <;> norm_num
  · exact dm_nonneg _ _ _ _ h x hx

theorem newWeights_spec (old new : ℝ) (p : Rec Θ Y) (hg : Good env c old p) (wts : List ℝ) (h : newWeights env c old new p = some wts) :
    wts.length = c.n ∧ (∀ x ∈ wts, 0 ≤ x) ∧ wts.sum = 1 := by
  unfold newWeights at h
  simp only at h
  by_cases hne : (if c.bernton then berntonWeights p.distances new else dmWeights p.weights (p.sims.map env.dists) old new).sum = 0
  · rw [if_pos hne] at h; cases h
  · rw [if_neg hne, Option.some.injEq] at h
    subst h
    refine ⟨?_, normalise_nonneg _ (raw_nonneg env c old new p hg.nonneg), normalise_sum _ hne⟩
    unfold normalise
    rw [List.length_map]
    split
    · simp [berntonWeights, hg.distances]
    · simp [dmWeights, hg.weights, hg.sims]

theorem good_step (hn : 0 < c.n) (fuel t : Nat) (start : List W) (hstart : start.length = c.n) (s s' : State Θ Y)
    (hg : ∀ p, s.last = some p → Good env c s.cur p) (hc : c.final < s.cur) (h : smcStep env c dr fuel t start s = some s') :
    ∀ p, s'.last = some p → Good env c s'.cur p := by
  rcases smcStep_spec env c dr fuel t start s s' h with ⟨-, rfl⟩ | ⟨p, eps, wts, q, l, hp, he, hw, hq, hl, rfl⟩
  · intro p hp
    simp only [save, outRec, Option.some.injEq] at hp
    subst hp
    obtain ⟨a, b, d⟩ := equalWeights_spec c.n hn
    refine ⟨by simp [hstart], by simp [hstart], by simp [hstart], a, fun x hx => (b x hx).le, d, ?_⟩
    intro _ i wt y hi _ hz
    have := b wt (List.mem_of_getElem? hi)
    linarith
  · have hgp := hg p hp
    obtain ⟨e1, e2⟩ := newEps_spec env c dr fuel s.cur eps p he hc
    obtain ⟨w1, w2, w3⟩ := newWeights_spec env c s.cur eps p hgp wts hw
    obtain ⟨m1, m2⟩ := moved_spec env c fuel eps q p.sims start l hl
    intro p' hp'
    simp only [save, outRec, Option.some.injEq] at hp'
    subst hp'
    simp only [save]
    have hlen : l.length = c.n := by rw [m1, hstart]
    have hq' : q.weights.length = c.n ∧ (∀ x ∈ q.weights, 0 ≤ x) ∧ q.weights.sum = 1 ∧
        ((∀ x ∈ q.weights, 0 < x) ∨ (c.bernton = false ∧ q.weights = wts)) := by
      unfold resampled at hq
      split at hq
      · rw [Option.map_eq_some_iff] at hq
        obtain ⟨l', -, hq⟩ := hq
        subst hq
        obtain ⟨a, b, d⟩ := equalWeights_spec c.n hn
        exact ⟨a, fun x hx => (b x hx).le, d, .inl b⟩
      · rename_i hb
        simp only [Option.some.injEq] at hq
        subst hq
        exact ⟨w1, w2, w3, .inr ⟨by simpa using fun hb' => hb (.inl hb'), rfl⟩⟩
    obtain ⟨q1, q2, q3, q4⟩ := hq'
    refine ⟨by simp [hlen], by simp [hlen], by simp [hlen], q1, q2, q3, ?_⟩
    intro hb i wt y hi hy hz
    rcases q4 with q4 | ⟨-, rfl⟩
    · have := q4 wt (List.mem_of_getElem? hi); linarith
    · simp only [List.getElem?_map, Option.map_eq_some_iff] at hy
      obtain ⟨o, ho, rfl⟩ := hy
      obtain ⟨θ, wt', y', hθ, hwt, hy', hmove⟩ := m2 i o ho
      rw [hwt, Option.some.injEq] at hi
      subst hi
      have hstay := hmove.2.1 (by rw [hz]; exact lt_irrefl _)
      rw [hstay.2.1]
      -- the weight was zero before, or the particle had no simulation below
      unfold newWeights at hw
      simp only [hb, Bool.false_eq_true, if_false] at hw
      split at hw
      · cases hw
      · rename_i hne
        simp only [Option.some.injEq] at hw
        have hlw : i < p.weights.length := by
          rw [hgp.weights, ← q1]
          exact (List.getElem?_eq_some_iff.1 hwt).1
        have hrow : (p.sims.map env.dists)[i]? = some (env.dists y') := by rw [List.getElem?_map, hy']; rfl
        have hd := dm_getElem p.weights (p.sims.map env.dists) s.cur eps i _ _ (List.getElem?_eq_getElem hlw) hrow
        have hwt2 := hwt
        rw [← hw, normalise, List.getElem?_map, hd, Option.map_some, Option.some.injEq, hz, div_eq_zero_iff] at hwt2
        rcases hwt2 with hwt2 | hwt2
        · split at hwt2
          · rename_i hb0
            exact below_mono e2.le _ hb0
          · rename_i hb0
            rcases mul_eq_zero.1 hwt2 with h0 | h0
            · have := hgp.zero hb i _ y' (List.getElem?_eq_getElem hlw) hy' h0
              exact absurd this hb0
            · rcases div_eq_zero_iff.1 h0 with h0 | h0
              · exact h0
              · exact absurd h0 hb0
        · exact absurd hwt2 hne

/-- C44. In a run with at least one particle the weights of every population are non-negative and sum to one. Moreover, for the last population
and every smaller threshold `e`, if at least one particle has a simulation (Bernton: a distance) below `e`, then the new weights exist, are non-negative and sum to one; a particle with no
simulation below `e` gets weight zero; the others get the old weight times the fraction of simulations that stay (Bernton: the same weight), up to normalisation; and after
resampling all weights are `1 / n_samples`. -/
theorem C44_weights (distMax : Option ℝ) (fuel : Nat) (start : Nat → List W) (s : State Θ Y) (hn : 0 < c.n)
    (h : smcRun env c dr distMax fuel start = some s) :
    (∀ r ∈ s.journal, (∀ x ∈ r.weights, 0 ≤ x) ∧ r.weights.sum = 1 ∧ r.weights.length = c.n) ∧
    ∀ p, s.last = some p →
      ((∀ x ∈ p.weights, 0 ≤ x) ∧ p.weights.sum = 1) ∧
      ∀ e < s.cur,
        ((c.bernton = true ∧ ∃ d ∈ p.distances, d < e) ∨ (c.bernton = false ∧ ∃ y ∈ p.sims, ∃ d ∈ env.dists y, d < e)) →
        ∃ w Z, newWeights env c s.cur e p = some w ∧ w.length = c.n ∧ (∀ x ∈ w, 0 ≤ x) ∧ w.sum = 1 ∧ 0 < Z ∧
          (c.bernton = true → ∀ (i : Nat) (d : ℝ), p.distances[i]? = some d → w[i]? = some (if d < e then 1 / Z else 0)) ∧
          (c.bernton = false → ∀ (i : Nat) (y : Y) (wt : ℝ), p.sims[i]? = some y → p.weights[i]? = some wt →
            ((∀ d ∈ env.dists y, ¬ d < e) → w[i]? = some 0) ∧
            ((∃ d ∈ env.dists y, d < e) → w[i]? = some (wt * (below e (env.dists y) / below s.cur (env.dists y)) / Z))) ∧
          ∀ t q, resampled c dr t p.params w = some q → (c.bernton = true ∨ ess w < c.resample) →
            q.weights = List.replicate c.n (1 / (c.n : ℝ)) := by
  unfold smcRun at h
  split at h
  swap
  · cases h
  rename_i hcond
  obtain ⟨-, -, ⟨hgood, hjour⟩, -⟩ := smcLoop_inv env c dr fuel start
    (fun _ s => (∀ p, s.last = some p → Good env c s.cur p) ∧
      ∀ r ∈ s.journal, (∀ x ∈ r.weights, 0 ≤ x) ∧ r.weights.sum = 1 ∧ r.weights.length = c.n)
      (fun t s s' hI hc hs => by
        have hg := good_step env c dr hn fuel t (start t) (hcond.2.2 t) s s' hI.1 hc hs
        refine ⟨hg, ?_⟩
        have key : ∀ r ∈ s'.journal, r ∈ s.journal ∨ s'.last = some r := by
          intro r hr
          rcases smcStep_spec env c dr fuel t (start t) s s' hs with ⟨-, rfl⟩ | ⟨p, eps, wts, q, l, hp, he, hw, hq, hl, rfl⟩
          all_goals
            simp only [save] at hr ⊢
            split at hr
            · split at hr
              · rcases List.mem_append.1 hr with hr | hr
                · exact .inl hr
                · simp only [List.mem_singleton] at hr; exact .inr (by rw [hr])
              · simp only [List.mem_singleton] at hr; exact .inr (by rw [hr])
            · exact .inl hr
        intro r hr
        rcases key r hr with hr | hr
        · exact hI.2 r hr
        · exact ⟨(hg r hr).nonneg, (hg r hr).sum, (hg r hr).weights⟩) _ _ _ _ ⟨by simp, by simp⟩ h
  refine ⟨hjour, ?_⟩
  intro p hp
  have hg := hgood p hp
  refine ⟨⟨hg.nonneg, hg.sum⟩, ?_⟩
  intro e he hex
  have hraw := raw_nonneg env c s.cur e p hg.nonneg
  have hpos : 0 < (if c.bernton then berntonWeights p.distances e else dmWeights p.weights (p.sims.map env.dists) s.cur e).sum := by
    rcases hex with ⟨hb, d, hd, hlt⟩ | ⟨hb, y, hy, d, hd, hlt⟩
    · refine sum_pos_of_mem _ hraw 1 ?_ one_pos
      rw [if_pos hb, berntonWeights, List.mem_map]
      exact ⟨d, hd, by rw [if_pos hlt]⟩
    · obtain ⟨i, hi⟩ := List.mem_iff_getElem?.1 hy
      have hil := (List.getElem?_eq_some_iff.1 hi).1
      rw [hg.sims, ← hg.weights] at hil
      have hw := List.getElem?_eq_getElem hil
      have hb1 : 0 < below e (env.dists y) := (below_pos _ _).2 ⟨d, hd, hlt⟩
      have hb2 : 0 < below s.cur (env.dists y) := (below_pos _ _).2 ⟨d, hd, by linarith⟩
      have hwpos : 0 < p.weights[i] := by
        refine lt_of_le_of_ne (hg.nonneg _ (List.getElem_mem _)) fun h0 => ?_
        have := hg.zero hb i _ y hw hi h0.symm
        linarith
      have := dm_getElem p.weights (p.sims.map env.dists) s.cur e i _ (env.dists y) hw (by rw [List.getElem?_map, hi]; rfl)
      rw [if_neg hb2.ne'] at this
      rw [hb] at hraw ⊢
      simp only [Bool.false_eq_true, if_false] at hraw ⊢
      exact sum_pos_of_mem _ hraw _ (List.mem_of_getElem? this) (by positivity)
  have hnw : newWeights env c s.cur e p =
      some (normalise (if c.bernton then berntonWeights p.distances e else dmWeights p.weights (p.sims.map env.dists) s.cur e)) := by
    unfold newWeights
    simp only
    rw [if_neg hpos.ne']
  obtain ⟨n1, n2, n3⟩ := newWeights_spec env c s.cur e p hg _ hnw
  refine ⟨_, _, hnw, n1, n2, n3, hpos, ?_, ?_, ?_⟩
  · intro hb i d hd
    simp only [hb, if_true, normalise, berntonWeights, List.getElem?_map, hd, Option.map_some]
    split
    · rfl
    · simp
  · intro hb i y wt hy hwt
    have hdm := dm_getElem p.weights (p.sims.map env.dists) s.cur e i wt (env.dists y) hwt (by rw [List.getElem?_map, hy]; rfl)
    simp only [hb, Bool.false_eq_true, if_false, normalise, List.getElem?_map, hdm, Option.map_some]
    constructor
    · intro hno
      have hz := (below_zero e (env.dists y)).2 hno
      rw [hz]
      split <;> simp
    · rintro ⟨d, hd, hlt⟩
      have hb2 : 0 < below s.cur (env.dists y) := (below_pos _ _).2 ⟨d, hd, by linarith⟩
      rw [if_neg hb2.ne']
  · intro t q hq hcnd
    unfold resampled at hq
    rw [if_pos hcnd, Option.map_eq_some_iff] at hq
    obtain ⟨l, -, rfl⟩ := hq
    simp [equalWeights]

/-! ### C45 -/

/-- Every simulation of the population was made from the parameters next to it, where `From y θ` says that `y` was simulated from `θ`. -/
def Aligned (From : Y → Θ → Prop) (r : Rec Θ Y) : Prop :=
  ∀ (i : Nat) (θ : Θ) (y : Y), r.params[i]? = some θ → r.sims[i]? = some y → From y θ

/-- Every distance of the population is that of the simulation next to it. -/
def OwnDistance (r : Rec Θ Y) : Prop := ∀ (i : Nat) (y : Y) (d : ℝ), r.sims[i]? = some y → r.distances[i]? = some d → d = env.dist y

/-- A property of populations that holds for the first one and is kept by every step holds for all populations of the run. -/
theorem run_all (P : Rec Θ Y → Prop) (distMax : Option ℝ) (fuel : Nat) (start : Nat → List W) (s : State Θ Y)
    (h0 : ∀ start : List W, P (outRec (equalWeights c.n) (start.map (initial env))))
    (hstep : ∀ (p : Rec Θ Y) t eps cur wts q start l, P p → c.final < cur → newWeights env c cur eps p = some wts → resampled c dr t p.params wts = some q →
      moved env c fuel eps q p.sims start = some l → P (outRec q.weights l))
    (h : smcRun env c dr distMax fuel start = some s) : ∀ r ∈ s.journal ++ s.last.toList, P r := by
  unfold smcRun at h
  split at h
  swap
  · cases h
  obtain ⟨-, -, hI, -⟩ := smcLoop_inv env c dr fuel start (fun _ s => ∀ r ∈ s.journal ++ s.last.toList, P r)
      (fun t s s' hI hc hs => by
        rcases smcStep_spec env c dr fuel t (start t) s s' hs with ⟨-, rfl⟩ | ⟨p, eps, wts, q, l, hp, he, hw, hq, hl, rfl⟩
        · have hnew := h0 (start t)
          intro r hr
          simp only [save, Option.toList_some, List.mem_append, List.mem_singleton] at hr
          rcases hr with hr | rfl
          · split at hr
            · split at hr
              · rcases List.mem_append.1 hr with hr | hr
                · exact hI r (by simp [hr])
                · simp only [List.mem_singleton] at hr; subst hr; exact hnew
              · simp only [List.mem_singleton] at hr; subst hr; exact hnew
            · exact hI r (by simp [hr])
          · exact hnew
        · have hnew := hstep p t eps s.cur wts q (start t) l (hI p (by simp [hp])) hc hw hq hl
          intro r hr
          simp only [save, Option.toList_some, List.mem_append, List.mem_singleton] at hr
          rcases hr with hr | rfl
          · split at hr
            · split at hr
              · rcases List.mem_append.1 hr with hr | hr
                · exact hI r (by simp [hr])
                · simp only [List.mem_singleton] at hr; subst hr; exact hnew
              · simp only [List.mem_singleton] at hr; subst hr; exact hnew
            · exact hI r (by simp [hr])
          · exact hnew) _ _ _ _ (by simp) h
  exact hI

/-- C45, part one: in every population of a run the recorded distance of a particle is that of its recorded simulation. -/
theorem C45_distances (distMax : Option ℝ) (fuel : Nat) (start : Nat → List W) (s : State Θ Y)
    (h : smcRun env c dr distMax fuel start = some s) : ∀ r ∈ s.journal ++ s.last.toList, OwnDistance env r := by
  refine run_all env c dr (OwnDistance env) distMax fuel start s ?_ ?_ h
  · intro start i y d hy hd
    simp only [outRec, List.getElem?_map, Option.map_map, Option.map_eq_some_iff] at hy hd
    obtain ⟨o, ho, rfl⟩ := hy
    obtain ⟨o', ho', rfl⟩ := hd
    rw [ho, Option.some.injEq] at ho'
    subst ho'; rfl
  · intro p t eps cur wts q start l _ _ _ _ hl i y d hy hd
    simp only [outRec, List.getElem?_map, Option.map_eq_some_iff] at hy hd
    obtain ⟨o, ho, rfl⟩ := hy
    obtain ⟨o', ho', rfl⟩ := hd
    rw [ho, Option.some.injEq] at ho'
    subst ho'
    obtain ⟨θ, wt, y, -, -, -, hm⟩ := (moved_spec env c fuel eps q p.sims start l hl).2 i o ho
    exact hm.1

theorem ess_nonneg (w : List ℝ) : 0 ≤ ess w := by
  unfold ess
  refine div_nonneg zero_le_one (List.sum_nonneg ?_)
  intro x hx
  obtain ⟨y, -, rfl⟩ := List.mem_map.1 hx
  positivity

/-- C45, part two, for runs that never resample (the version of Del Moral et al. with `resample ≤ 0`): every recorded simulation was made from the parameters of its particle.
Missing: runs that resample, for which it is false. -/
theorem C45_simulations_partial (From : Y → Θ → Prop) (hsim : ∀ θ w, From (env.sim θ w).2 θ) (hb : c.bernton = false) (hr : c.resample ≤ 0)
    (distMax : Option ℝ) (fuel : Nat) (start : Nat → List W) (s : State Θ Y) (h : smcRun env c dr distMax fuel start = some s) :
    ∀ r ∈ s.journal ++ s.last.toList, Aligned From r := by
  refine run_all env c dr (Aligned From) distMax fuel start s ?_ ?_ h
  · intro start i θ y hθ hy
    simp only [outRec, List.getElem?_map, Option.map_map, Option.map_eq_some_iff] at hy hθ
    obtain ⟨w, hw, rfl⟩ := hy
    obtain ⟨w', hw', rfl⟩ := hθ
    rw [hw, Option.some.injEq] at hw'
    subst hw'
    exact hsim _ _
  · intro p t eps cur wts q start l hp _ _ hq hl i θ y hθ hy
    unfold resampled at hq
    rw [if_neg (by rw [hb]; simpa using hr.trans (ess_nonneg wts)), Option.some.injEq] at hq
    subst hq
    simp only [outRec, List.getElem?_map, Option.map_eq_some_iff] at hy hθ
    obtain ⟨o, ho, rfl⟩ := hy
    obtain ⟨o', ho', rfl⟩ := hθ
    rw [ho, Option.some.injEq] at ho'
    subst ho'
    obtain ⟨θ, wt, y, h1, -, h3, hm⟩ := (moved_spec env c fuel eps _ p.sims start l hl).2 i o ho
    rcases hm.2.2 with ⟨a, b⟩ | ⟨θ', w, a, b, -⟩
    · rw [a, b]; exact hp i θ y h1 h3
    · rw [a, b]; exact hsim _ _

/-- Parameters and data are numbers, a data set is equal to the parameter it was simulated from; data 0 is close to the observation, all others are not. The proposals of the kernel are
never accepted. -/
noncomputable def exEnv : Env Nat Nat Nat where
  dist y := if y = 0 then 0 else 2
  dists y := [if y = 0 then 0 else 2]
  pdf _ := 1
  kernel _ _ _ := 1
  prior w := (w, w)
  perturb _ _ w := (w, some 5)
  around _ _ w := (w, some 5)
  sim θ w := (w, θ)
  bern _ w := (w, false)
  pick _ w := (w, 0)

/-- Two particles, two steps; `resample` is the effective sample size below which resampling takes place. -/
noncomputable def exConfig (resample : ℝ) : Config := ⟨2, false, 2, 0.999, 0.95, resample, 0, none, true⟩

theorem exRun (resample : ℝ) (q : Pop Nat) (hq : resampled (exConfig resample) ⟨fun _ _ => [0, 0], fun _ => 1⟩ 1 [0, 1] [1, 0] = some q)
    (a b : Nat) (x y : ℝ) (hq' : q = ⟨[a, b], [x, y]⟩) :
    ∃ s, smcRun exEnv (exConfig resample) ⟨fun _ _ => [0, 0], fun _ => 1⟩ (some 1) 1 (fun _ => [0, 1]) = some s ∧
      s.last = some ⟨[a, b], [0, 1], [0, 2], [x, y]⟩ ∧ s.done = 2 ∧ s.epsilons = [1, 0.9995] ∧ s.journal.getLast? = s.last := by
  have hcond : (exConfig resample).which ≤ 2 ∧ ¬ ((exConfig resample).bernton = true ∧ (exConfig resample).which = 0) ∧
      ∀ t : Nat, ((fun _ => [0, 1] : Nat → List Nat) t).length = (exConfig resample).n := by simp [exConfig]
  have s0 : smcStep exEnv (exConfig resample) ⟨fun _ _ => [0, 0], fun _ => 1⟩ 1 0 [0, 1] ⟨[], 1, none, [], 0, 0⟩ =
      some ⟨[], 1, some ⟨[0, 1], [0, 1], [0, 2], [1 / 2, 1 / 2]⟩, [⟨[0, 1], [0, 1], [0, 2], [1 / 2, 1 / 2]⟩], 1, 2⟩ := by
    simp [smcStep, save, exConfig, equalWeights, initial, exEnv, outRec]
  have e1 : newEps exEnv (exConfig resample) ⟨fun _ _ => [0, 0], fun _ => 1⟩ 1 1 ⟨[0, 1], [0, 1], [0, 2], [1 / 2, 1 / 2]⟩ = some 0.9995 := by
    unfold newEps exConfig
    rw [bisection, if_neg (by norm_num)]
    norm_num
  have e2 : newWeights exEnv (exConfig resample) 1 0.9995 ⟨[0, 1], [0, 1], [0, 2], [1 / 2, 1 / 2]⟩ = some [1, 0] := by
    norm_num [newWeights, exConfig, dmWeights, exEnv, below, normalise]
  have e3 : moved exEnv (exConfig resample) 1 0.9995 q [0, 1] [0, 1] = some [⟨a, 0, 0, if 0 < x then 1 else 0⟩, ⟨b, 1, 2, if 0 < y then 1 else 0⟩] := by
    subst hq'
    by_cases hx : 0 < x <;> by_cases hy : 0 < y <;>
      simp [moved, mcmc, exConfig, accept0, exEnv, propose, stay, hx, hy, collect]
  have s1 : smcStep exEnv (exConfig resample) ⟨fun _ _ => [0, 0], fun _ => 1⟩ 1 1 [0, 1]
      ⟨[], 1, some ⟨[0, 1], [0, 1], [0, 2], [1 / 2, 1 / 2]⟩, [⟨[0, 1], [0, 1], [0, 2], [1 / 2, 1 / 2]⟩], 1, 2⟩ =
      some (save (exConfig resample) 1 ⟨[], 1, some ⟨[0, 1], [0, 1], [0, 2], [1 / 2, 1 / 2]⟩, [⟨[0, 1], [0, 1], [0, 2], [1 / 2, 1 / 2]⟩], 1, 2⟩ [1] 0.9995 q.weights
        [⟨a, 0, 0, if 0 < x then 1 else 0⟩, ⟨b, 1, 2, if 0 < y then 1 else 0⟩]) := by
    unfold smcStep
    simp only [e1, e2, hq, e3, List.nil_append]
  refine ⟨save (exConfig resample) 1 ⟨[], 1, some ⟨[0, 1], [0, 1], [0, 2], [1 / 2, 1 / 2]⟩, [⟨[0, 1], [0, 1], [0, 2], [1 / 2, 1 / 2]⟩], 1, 2⟩ [1] 0.9995 q.weights
        [⟨a, 0, 0, if 0 < x then 1 else 0⟩, ⟨b, 1, 2, if 0 < y then 1 else 0⟩], ?_, ?_⟩
  · unfold smcRun
    rw [if_pos hcond]
    show smcLoop _ _ _ _ _ 2 0 _ = _
    rw [smcLoop, if_neg (by simp [exConfig]; norm_num)]
    simp only [Option.getD_some, s0]
    rw [smcLoop, if_neg (by simp [exConfig]; norm_num)]
    simp only [Nat.zero_add, s1, smcLoop]
  · subst hq'
    simp [save, outRec, State.epsilons, exConfig]

/-- Hypotheses of C42 - C46 are met by a run with two particles and two steps. -/
example : ∃ s, smcRun exEnv (exConfig 0) ⟨fun _ _ => [0, 0], fun _ => 1⟩ (some 1) 1 (fun _ => [0, 1]) = some s ∧
    s.last = some ⟨[0, 1], [0, 1], [0, 2], [1, 0]⟩ ∧ s.done = 2 ∧ s.epsilons = [1, 0.9995] ∧ s.journal.getLast? = s.last :=
  exRun 0 ⟨[0, 1], [1, 0]⟩ (by norm_num [resampled, exConfig, ess]) _ _ _ _ rfl

/-- C45 fails when the population is resampled: the parameters are resampled (3500), the simulations are not. Here both particles get parameter 0, the second one with the data
simulated from parameter 1. -/
theorem C45_simulations_violated :
    (∀ θ w, (exEnv.sim θ w).2 = θ) ∧
    ∃ s r, smcRun exEnv (exConfig 2) ⟨fun _ _ => [0, 0], fun _ => 1⟩ (some 1) 1 (fun _ => [0, 1]) = some s ∧
      s.last = some r ∧ ¬ Aligned (fun y θ => y = θ) r := by
  obtain ⟨s, h1, h2, -⟩ := exRun 2 ⟨[0, 0], [1 / 2, 1 / 2]⟩ (by norm_num [resampled, exConfig, ess, collect, equalWeights, List.replicate]) _ _ _ _ rfl
  refine ⟨fun _ _ => rfl, s, _, h1, h2, fun hal => ?_⟩
  have := hal 1 0 1 rfl rfl
  simp at this

/-! ### C78 -/

/-- C78. Detailed balance of the standard kernel: with the target density `π(θ) · g(y | θ) · #{parts of y closer than ε}` and the proposal density `K(θ → θ') · g(y' | θ')`, the flow from `(θ, y)` to
`(θ', y')` equals the flow back, for the acceptance probability of line 3798. `kernel p a b` is the density of proposing `b` from `a`; `g` is any density of simulated data. -/
theorem C78_detailed_balance (eps : ℝ) (p : Pop Θ) (g : Y → Θ → ℝ) (θ θ' : Θ) (y y' : Y) (h1 : 0 < env.pdf θ) (h2 : 0 < env.pdf θ')
    (k1 : 0 < env.kernel p θ θ') (k2 : 0 < env.kernel p θ' θ) :
    (env.pdf θ * g y θ * below eps (env.dists y)) * (env.kernel p θ θ' * g y' θ') * prob0 env eps p θ y θ' y' =
    (env.pdf θ' * g y' θ' * below eps (env.dists y')) * (env.kernel p θ' θ * g y θ) * prob0 env eps p θ' y' θ y := by
  unfold prob0 ratio
  have n1 := below_nonneg eps (env.dists y)
  have n2 := below_nonneg eps (env.dists y')
  generalize below eps (env.dists y) = a at *
  generalize below eps (env.dists y') = b at *
  generalize env.pdf θ = u at *
  generalize env.pdf θ' = v at *
  generalize env.kernel p θ θ' = s at *
  generalize env.kernel p θ' θ = t at *
  rcases n1.eq_or_lt with rfl | n1
  · rcases n2.eq_or_lt with rfl | n2
    · simp
    · rw [if_neg n2.ne']; simp
  · rcases n2.eq_or_lt with rfl | n2
    · rw [if_neg n1.ne']; simp
    · rw [if_neg n1.ne', if_neg n2.ne']
      have e1 : b / a * (v / u * (t / s)) = (b * v * t) / (a * u * s) := by field_simp
      have e2 : a / b * (u / v * (s / t)) = (a * u * s) / (b * v * t) := by field_simp
      rw [e1, e2]
      have p1 : 0 < a * u * s := by positivity
      have p2 : 0 < b * v * t := by positivity
      have q1 : a * u * s * min 1 (b * v * t / (a * u * s)) = min (a * u * s) (b * v * t) := by
        rw [mul_min_of_nonneg _ _ p1.le, mul_one, mul_div_cancel₀ _ p1.ne']
      have q2 : b * v * t * min 1 (a * u * s / (b * v * t)) = min (a * u * s) (b * v * t) := by
        rw [mul_min_of_nonneg _ _ p2.le, mul_one, mul_div_cancel₀ _ p2.ne', min_comm]
      linear_combination (g y θ * g y' θ') * (q1 - q2)

/-- A case in which the acceptance probability is less than one. -/
example : prob0 (⟨fun _ => 0, fun y => if y then [0, 0] else [0, 2], fun _ => 1, fun _ _ _ => 1, fun w => (w, ()), fun _ _ w => (w, none),
    fun _ _ w => (w, none), fun _ w => (w, true), fun _ w => (w, true), fun _ w => (w, 0)⟩ : Env Unit Unit Bool) 1 ⟨[], []⟩ () true () false = 1 / 2 := by
  norm_num [prob0, ratio, below]

end Verif.Smc
