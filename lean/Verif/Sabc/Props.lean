import Verif.Sabc.Lemmas
/-
Property theorems C51, C79 and the part of C46 about `SABC`.
-/
namespace Verif.Sabc

open Verif.Pmc (Pop)
open Verif.Smc (propose)

/-! ### C51 -/

/-- C51, what holds of the redefined distance for non-negative distances: it exists, lies in [0, 1], is the fraction of old distances below `d` from the smallest old distance on (hence monotone there),
and is strictly monotone and below one over their number up to the smallest old distance. Missing: monotonicity across the smallest old distance, which
fails. -/
theorem C51_smooth_partial (old : List ℝ) (hne : old ≠ []) (hold : ∀ x ∈ old, 0 ≤ x) :
    ∃ m ∈ old, (∀ x ∈ old, m ≤ x) ∧
      (∀ d, 0 ≤ d → ∃ x, smooth old d = some x ∧ 0 ≤ x ∧ x ≤ 1 ∧ (m ≤ d → x = (old.countP fun y => y < d) / (old.length : ℝ)) ∧ (d < m → x < 1 / (old.length : ℝ))) ∧
      (∀ d d' x x', smooth old d = some x → smooth old d' = some x' → d ≤ d' →
        (m ≤ d → x ≤ x') ∧ (0 ≤ d → d' < m → x ≤ x' ∧ (d < d' → x < x'))) := by
  obtain ⟨m, hm⟩ : ∃ m, old.min? = some m := by
    rcases List.exists_cons_of_ne_nil hne with ⟨a, l, rfl⟩
    exact ⟨_, rfl⟩
  obtain ⟨hmem, hle⟩ := List.min?_eq_some_iff.1 hm
  have hlen : (0 : ℝ) < old.length := by
    have := List.length_pos_iff.2 hne
    exact_mod_cast this
  refine ⟨m, hmem, hle, ?_, ?_⟩
  · intro d hd
    refine ⟨smoothAt m old d, by simp [smooth, hm], ?_⟩
    unfold smoothAt
    split
    · rename_i hlt
      have hmpos : 0 < m := lt_of_le_of_lt hd hlt
      have h1 : d / m < 1 := (div_lt_one hmpos).2 hlt
      have h2 : d / m / old.length < 1 / old.length := div_lt_div_of_pos_right h1 hlen
      have h3 : 1 / (old.length : ℝ) ≤ 1 := by
        rw [div_le_one hlen]
        exact_mod_cast List.length_pos_iff.2 hne
      exact ⟨by positivity, by linarith, fun h => absurd hlt (not_lt.2 h), fun _ => h2⟩
    · rename_i hlt
      refine ⟨by positivity, ?_, fun _ => rfl, fun h => absurd h hlt⟩
      rw [div_le_one hlen]
      exact_mod_cast List.countP_le_length
  · intro d d' x x' hx hx' hdd
    simp only [smooth, hm, Option.map_some, Option.some.injEq] at hx hx'
    subst hx hx'
    unfold smoothAt
    constructor
    · intro hmd
      rw [if_neg (not_lt.2 hmd), if_neg (not_lt.2 (hmd.trans hdd))]
      refine div_le_div_of_nonneg_right ?_ hlen.le
      have : (old.countP fun x => decide (x < d)) ≤ old.countP fun x => decide (x < d') :=
        List.countP_mono_left fun y _ hy => by
          simp only [decide_eq_true_eq] at hy ⊢
          exact lt_of_lt_of_le hy hdd
      exact_mod_cast this
    · intro h0 hd'
      have hmpos : 0 < m := by linarith
      rw [if_pos (by linarith), if_pos hd']
      refine ⟨div_le_div_of_nonneg_right (div_le_div_of_nonneg_right hdd hmpos.le) hlen.le, fun h => ?_⟩
      exact div_lt_div_of_pos_right (div_lt_div_of_pos_right h hmpos) hlen

/-- C51 is violated: the redefined distance is not monotone at the smallest old distance. With old distances 1 and 2 the distance 1/2 is redefined to 1/4, the
larger distance 1 to 0. -/
theorem C51_monotone_violated : smooth [1, 2] (1 / 2) = some (1 / 4) ∧ smooth [1, 2] 1 = some 0 := by
  constructor
  · norm_num [smooth, smoothAt, List.min?]
  · norm_num [smooth, smoothAt, List.min?]

variable {W Θ Y : Type} (env : Env W Θ Y) (c : Config)

theorem run_all (fuel : Nat) (start : Nat → List W) (s : State Θ) (hs : 0 < c.steps) (h : run env c fuel start = some s) :
    Ok env c s.all s.params s.distances s.smooths ∧ s.all ≠ [] ∧ (∀ d ∈ s.all, ∃ θ, Own env θ d) ∧
    (∀ r ∈ s.journal, r.1.length = c.n ∧ r.2.length = c.n ∧ ∀ (i : Nat) (θ : Θ) (d : ℝ), r.1[i]? = some θ → r.2[i]? = some d → Own env θ d) ∧
    (s.stopped = false → s.journal.getLast? = some (s.params, s.distances)) := by
  unfold run at h
  obtain ⟨t', h1, h2, hI, h3⟩ := loop_inv env c fuel start
    (fun t s => (t ≠ 0 → Ok env c s.all s.params s.distances s.smooths ∧ s.all ≠ [] ∧ (∀ d ∈ s.all, ∃ θ, Own env θ d)) ∧
      (t = 0 → s.stopped = false) ∧
      (∀ r ∈ s.journal, r.1.length = c.n ∧ r.2.length = c.n ∧ ∀ (i : Nat) (θ : Θ) (d : ℝ), r.1[i]? = some θ → r.2[i]? = some d → Own env θ d) ∧
      (t ≠ 0 → s.stopped = false → s.journal.getLast? = some (s.params, s.distances)))
    (fun t s s' hI _ hst => by
      obtain ⟨a, b, d, e, f⟩ := step_spec env c fuel t (start t) s s' (fun ht => (hI.1 ht).1) hst
      refine ⟨fun _ => ⟨a, ?_, ?_⟩, by simp, ?_, ?_⟩
      · by_cases ht : t = 0
        · exact (d ht).1
        · rw [b ht]; exact (hI.1 ht).2.1
      · by_cases ht : t = 0
        · exact (d ht).2
        · rw [b ht]; exact (hI.1 ht).2.2
      · intro r hr
        have hnew : (s'.params, s'.distances).1.length = c.n ∧ (s'.params, s'.distances).2.length = c.n ∧
            ∀ (i : Nat) (θ : Θ) (d : ℝ), (s'.params, s'.distances).1[i]? = some θ → (s'.params, s'.distances).2[i]? = some d → Own env θ d :=
          ⟨a.params, a.distances, a.own⟩
        cases hstop : s'.stopped with
        | true => rw [(e hstop).2] at hr; exact hI.2.2.1 r hr
        | false =>
          rw [f hstop] at hr
          split at hr
          · rcases List.mem_append.1 hr with hr | hr
            · exact hI.2.2.1 r hr
            · simp only [List.mem_singleton] at hr; rw [hr]; exact hnew
          · simp only [List.mem_singleton] at hr; rw [hr]; exact hnew
      · intro _ hstop
        rw [f hstop]
        split <;> simp) c.steps 0 _ s ⟨by simp, by simp, by simp, by simp⟩ h
  have ht : t' ≠ 0 := by
    rintro rfl
    have := h3 (by omega)
    rw [hI.2.1 rfl] at this
    cases this
  exact ⟨(hI.1 ht).1, (hI.1 ht).2.1, (hI.1 ht).2.2, hI.2.2.1, hI.2.2.2 ht⟩

/-- C51, the population. In every run with at least one step all populations in the journal have `n_samples` particles and distances, and so has the population at the
end of the run; if distances are not negative, its redefined distances are in [0, 1]. -/
theorem C51_population (fuel : Nat) (start : Nat → List W) (s : State Θ) (hs : 0 < c.steps) (hd : ∀ y, 0 ≤ env.dist y) (h : run env c fuel start = some s) :
    (∀ r ∈ s.journal, r.1.length = c.n ∧ r.2.length = c.n) ∧ s.params.length = c.n ∧ s.distances.length = c.n ∧ s.smooths.length = c.n ∧
    ∀ x ∈ s.smooths, 0 ≤ x ∧ x ≤ 1 := by
  obtain ⟨a, b, d, e, -⟩ := run_all env c fuel start s hs h
  refine ⟨fun r hr => ⟨(e r hr).1, (e r hr).2.1⟩, a.params, a.distances, a.smooths, ?_⟩
  intro x hx
  have hnn : ∀ x ∈ s.all, 0 ≤ x := by
    intro x hx
    obtain ⟨θ, w, hw⟩ := d x hx
    rw [hw]; exact hd _
  obtain ⟨i, hi⟩ := List.mem_iff_getElem?.1 hx
  have hil := (List.getElem?_eq_some_iff.1 hi).1
  rw [a.smooths, ← a.distances] at hil
  have hi' := List.getElem?_eq_getElem hil
  have hred := a.redefined i _ x hi' hi
  have hpl : i < s.params.length := by rw [a.params, ← a.distances]; exact hil
  obtain ⟨w, hw⟩ := a.own i _ _ (List.getElem?_eq_getElem hpl) hi'
  obtain ⟨m, -, -, h1, -⟩ := C51_smooth_partial s.all b hnn
  obtain ⟨x', h2, h3, h4, -⟩ := h1 (s.distances[i]) (by rw [hw]; exact hd _)
  rw [hred, Option.some.injEq] at h2
  rw [h2]; exact ⟨h3, h4⟩

/-- C79. In `SABC` the distance recorded with each particle, in all populations of the journal and at the end of the run, is the distance of a data set simulated from that particle's
value, also after moves that hit the same particle twice and after resampling; and its redefined distance is computed from this distance and the
distances of the first step. -/
theorem C79_own_distances (fuel : Nat) (start : Nat → List W) (s : State Θ) (hs : 0 < c.steps) (h : run env c fuel start = some s) :
    (∀ r ∈ s.journal, ∀ (i : Nat) (θ : Θ) (d : ℝ), r.1[i]? = some θ → r.2[i]? = some d → ∃ w, d = env.dist (env.sim θ w).2) ∧
    (∀ (i : Nat) (θ : Θ) (d : ℝ), s.params[i]? = some θ → s.distances[i]? = some d → ∃ w, d = env.dist (env.sim θ w).2) ∧
    ∀ (i : Nat) (d x : ℝ), s.distances[i]? = some d → s.smooths[i]? = some x → smooth s.all d = some x := by
  obtain ⟨a, -, -, e, -⟩ := run_all env c fuel start s hs h
  exact ⟨fun r hr => (e r hr).2.2, a.own, a.redefined⟩

/-! ### C46 -/

/-- C46 for `SABC`, what holds: a run that is not stopped by the acceptance rate has its last population at the end of the journal. -/
theorem C46_sabc_partial (fuel : Nat) (start : Nat → List W) (s : State Θ) (hs : 0 < c.steps) (h : run env c fuel start = some s) (hstop : s.stopped = false) :
    s.journal.getLast? = some (s.params, s.distances) :=
  (run_all env c fuel start s hs h).2.2.2.2 hstop

/-- The state of a worker is the next value it produces; data are the value itself, the distance is that to zero; moves to values below 1 are accepted. -/
noncomputable def exEnv : Env ℝ ℝ ℝ where
  dist y := |y|
  pdf _ := 1
  prior w := (w, w)
  choose _ w := (w, 0)
  perturb _ _ w := (w, some w)
  sim θ w := (w, θ)
  bern _ w := (w, true)
  unif w := (w, if w < 1 then 0 else 2)
  schedule _ := 1
  pick _ _ := [0]

noncomputable def exStart (t : Nat) : List ℝ := if t = 0 then [1] else [1 / 2, 3]

/-- C46 is violated: the second step replaces the particle by an accepted move; the run then stops because only half of the moves were accepted, and the journal has the
population before this step. -/
theorem C46_sabc_violated : ∃ s, run exEnv ⟨1, 2, 2, 10, 1 / 10, 1, 6 / 10, true⟩ 1 exStart = some s ∧ s.stopped = true ∧
    s.params = [1 / 2] ∧ s.distances = [1 / 2] ∧ s.journal = [([1], [1])] := by
  have h1 : step exEnv ⟨1, 2, 2, 10, 1 / 10, 1, 6 / 10, true⟩ 1 0 (exStart 0) ⟨[], [], [], [], 1, 0, 0, [], 0, false⟩ =
      some ⟨[1], [1], [0], [1], 1, 0, 0, [([1], [1])], 1, false⟩ := by
    norm_num [step, exStart, first, exEnv, collect, begin_, smooth, smoothAt, List.min?, finish]
  have he : Real.exp (-1) < 2 := by
    have : Real.exp (-1) ≤ Real.exp 0 := Real.exp_le_exp.2 (by norm_num)
    rw [Real.exp_zero] at this
    linarith
  have h2 : ∃ s, step exEnv ⟨1, 2, 2, 10, 1 / 10, 1, 6 / 10, true⟩ 1 1 (exStart 1) ⟨[1], [1], [0], [1], 1, 0, 0, [([1], [1])], 1, false⟩ = some s ∧ s.stopped = true ∧
      s.params = [1 / 2] ∧ s.distances = [1 / 2] ∧ s.journal = [([1], [1])] := by
    have hp := Real.exp_pos (-(1 / 2))
    have he' : ¬ (2 : ℝ) < Real.exp (-1) := not_lt.2 he.le
    norm_num [step, exStart, move, exEnv, propose, collect, replace, smooth, smoothAt, List.min?, finish, assign, mean, he', hp, abs_of_pos]
    exact ⟨_, ⟨by simp, rfl⟩, rfl, rfl, rfl, rfl⟩
  obtain ⟨s, h2, h3, h4⟩ := h2
  refine ⟨s, ?_, h3, h4⟩
  unfold run
  simp only
  rw [loop, h1]
  simp only [Bool.false_eq_true, if_false]
  rw [loop, h2]
  simp only [Bool.false_eq_true, if_false, loop]

end Verif.Sabc
