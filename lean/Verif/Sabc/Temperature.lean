import Verif.Sabc.Props
import Mathlib.Analysis.SpecialFunctions.Pow.Continuity
import Mathlib.Topology.Order.IntermediateValue
/-
C229: the threshold of `SABC` as a function of the mean redefined distance, and what becomes of the moves when it is zero.
-/
namespace Verif.Sabc

open Verif.Smc (propose)

/-- `_schedule`, lines 1913-1920, as a relation: below 1e-100 the threshold is zero, else it is a root that `fsolve` finds. That `fsolve` ends at a root is trusted. A power 3/2 of a negative number is NaN, so that a root is not negative. -/
def Schedule (v : ℝ) (f : ℝ → ℝ) : Prop :=
  ∀ ρ, (ρ < 1 / 10 ^ 100 → f ρ = 0) ∧ (1 / 10 ^ 100 ≤ ρ → 0 ≤ f ρ ∧ f ρ ^ 2 + v * f ρ ^ (3 / 2 : ℝ) - ρ ^ 2 = 0)

theorem root_mono {v a b : ℝ} (hv : 0 ≤ v) (ha : 0 ≤ a) (h : a < b) : a ^ 2 + v * a ^ (3 / 2 : ℝ) < b ^ 2 + v * b ^ (3 / 2 : ℝ) := by
  have h1 : a ^ 2 < b ^ 2 := by nlinarith
  have h2 : a ^ (3 / 2 : ℝ) ≤ b ^ (3 / 2 : ℝ) := Real.rpow_le_rpow ha h.le (by norm_num)
  nlinarith [mul_le_mul_of_nonneg_left h2 hv]

/-- C229 for the equation of the threshold: it has exactly one root that is not negative, and this lies between 0 and the mean redefined distance `ρ`. -/
theorem C229_root (v ρ : ℝ) (hv : 0 ≤ v) (hρ : 0 < ρ) : ∃ e, 0 < e ∧ e ≤ ρ ∧ e ^ 2 + v * e ^ (3 / 2 : ℝ) - ρ ^ 2 = 0 ∧ ∀ e', 0 ≤ e' → e' ^ 2 + v * e' ^ (3 / 2 : ℝ) - ρ ^ 2 = 0 → e' = e := by
  have hc : ContinuousOn (fun e : ℝ => e ^ 2 + v * e ^ (3 / 2 : ℝ) - ρ ^ 2) (Set.Icc 0 ρ) := by
    refine ((continuousOn_id.pow 2).add (continuousOn_const.mul ?_)).sub continuousOn_const
    exact fun x _ => (Real.continuousAt_rpow_const x _ (Or.inr (by norm_num))).continuousWithinAt
  have h0 : (fun e : ℝ => e ^ 2 + v * e ^ (3 / 2 : ℝ) - ρ ^ 2) 0 ≤ 0 := by
    simp only [Real.zero_rpow (by norm_num : (3 / 2 : ℝ) ≠ 0)]
    nlinarith [sq_nonneg ρ]
  have h1 : 0 ≤ (fun e : ℝ => e ^ 2 + v * e ^ (3 / 2 : ℝ) - ρ ^ 2) ρ := by
    have := mul_nonneg hv (Real.rpow_nonneg hρ.le (3 / 2 : ℝ))
    simp only
    linarith
  obtain ⟨e, ⟨he0, he1⟩, he⟩ := intermediate_value_Icc hρ.le hc ⟨h0, h1⟩
  simp only at he
  refine ⟨e, ?_, he1, he, ?_⟩
  · rcases he0.lt_or_eq with h | h
    · exact h
    · rw [← h, Real.zero_rpow (by norm_num)] at he
      nlinarith
  · intro e' h' he'
    rcases lt_trichotomy e' e with h | h | h
    · have := root_mono hv h' h; linarith
    · exact h
    · have := root_mono hv he0 h; linarith

/-- C229 for the thresholds of a run: with `v` not negative the threshold is determined by the mean redefined distance, grows with it, is at most equal to it, and is positive unless the mean is below 1e-100. -/
theorem C229_temperature (v : ℝ) (hv : 0 ≤ v) (f : ℝ → ℝ) (hf : Schedule v f) :
    Monotone f ∧ (∀ ρ, 0 ≤ ρ → 0 ≤ f ρ ∧ f ρ ≤ ρ) ∧ (∀ ρ, 1 / 10 ^ 100 ≤ ρ → 0 < f ρ) ∧ ∀ g, Schedule v g → g = f := by
  have hp : ∀ ρ : ℝ, 1 / 10 ^ 100 ≤ ρ → 0 < ρ := fun ρ h => lt_of_lt_of_le (by positivity) h
  have hroot : ∀ ρ, 1 / 10 ^ 100 ≤ ρ → 0 < f ρ ∧ f ρ ≤ ρ := by
    intro ρ h
    obtain ⟨e, h1, h2, -, h4⟩ := C229_root v ρ hv (hp ρ h)
    have := h4 (f ρ) ((hf ρ).2 h).1 ((hf ρ).2 h).2
    rw [this]; exact ⟨h1, h2⟩
  refine ⟨?_, ?_, fun ρ h => (hroot ρ h).1, ?_⟩
  · intro a b hab
    by_cases ha : a < 1 / 10 ^ 100
    · rw [(hf a).1 ha]
      by_cases hb : b < 1 / 10 ^ 100
      · rw [(hf b).1 hb]
      · exact ((hf b).2 (not_lt.1 hb)).1
    · have ha' := not_lt.1 ha
      have hb' := ha'.trans hab
      by_contra hn
      have h1 := root_mono hv ((hf b).2 hb').1 (not_le.1 hn)
      have h2 := ((hf a).2 ha').2
      have h3 := ((hf b).2 hb').2
      have h4 := hp a ha'
      nlinarith
  · intro ρ h
    by_cases hρ : ρ < 1 / 10 ^ 100
    · rw [(hf ρ).1 hρ]; exact ⟨le_rfl, h⟩
    · exact ⟨(hroot ρ (not_lt.1 hρ)).1.le, (hroot ρ (not_lt.1 hρ)).2⟩
  · intro g hg
    funext ρ
    by_cases hρ : ρ < 1 / 10 ^ 100
    · rw [(hf ρ).1 hρ, (hg ρ).1 hρ]
    · have hρ := not_lt.1 hρ
      obtain ⟨e, -, -, -, h4⟩ := C229_root v ρ hv (hp ρ hρ)
      rw [h4 _ ((hf ρ).2 hρ).1 ((hf ρ).2 hρ).2, h4 _ ((hg ρ).2 hρ).1 ((hg ρ).2 hρ).2]

/-- Such thresholds exist for every `v` that is not negative. -/
theorem schedule_exists (v : ℝ) (hv : 0 ≤ v) : ∃ f, Schedule v f := by
  have : ∀ ρ : ℝ, ∃ e : ℝ, (ρ < 1 / 10 ^ 100 → e = 0) ∧ (1 / 10 ^ 100 ≤ ρ → 0 ≤ e ∧ e ^ 2 + v * e ^ (3 / 2 : ℝ) - ρ ^ 2 = 0) := by
    intro ρ
    by_cases hρ : ρ < 1 / 10 ^ 100
    · exact ⟨0, fun _ => rfl, fun h => absurd hρ (not_lt.2 h)⟩
    · obtain ⟨e, h1, -, h3, -⟩ := C229_root v ρ hv (lt_of_lt_of_le (by positivity) (not_lt.1 hρ))
      exact ⟨e, fun h => absurd h hρ, fun _ => ⟨h1.le, h3⟩⟩
  choose f hf using this
  exact ⟨f, hf⟩

/-- With `v = 3/2` the threshold for the mean redefined distance 1/2 is 1/4: 1/16 + 3/2 · 1/8 = 1/4. -/
example (f : ℝ → ℝ) (hf : Schedule (3 / 2) f) : f (1 / 2) = 1 / 4 := by
  have h : (1 / 10 ^ 100 : ℝ) ≤ 1 / 2 := by norm_num
  obtain ⟨e, -, -, -, h4⟩ := C229_root (3 / 2) (1 / 2) (by norm_num) (by norm_num)
  rw [h4 _ ((hf _).2 h).1 ((hf _).2 h).2]
  refine (h4 _ (by norm_num) ?_).symm
  have : (1 / 4 : ℝ) ^ (3 / 2 : ℝ) = 1 / 8 := by
    rw [show (1 / 4 : ℝ) = (1 / 2) ^ (2 : ℝ) by norm_num, ← Real.rpow_mul (by norm_num)]
    norm_num
  rw [this]; norm_num

variable {W Θ Y : Type}

/-! ### Moves -/

/-- C229 for moves, what holds: while the threshold is not zero, a proposal with at least the prior density and at most the redefined distance of its particle is accepted. `hu`: `rng.rand` is below 1. -/
theorem C229_move_partial (env : Env W Θ Y) (hu : ∀ w, (env.unif w).2 < 1) (fuel n : Nat) (s : State Θ) (he : 0 < s.eps) (w : W) (o : Out Θ) (h : move env fuel n s w = some o) (θ : Θ) (hθ : s.params[o.index]? = some θ) (hp : 0 < env.pdf θ)
    (hpdf : env.pdf θ ≤ env.pdf o.θ) (sθ sd : ℝ) (hsθ : s.smooths[o.index]? = some sθ) (hsd : smooth s.all o.d = some sd) (hle : sd ≤ sθ) : o.accepted = true := by
  unfold move at h
  simp only [Option.bind_eq_some_iff, Option.map_eq_some_iff] at h
  obtain ⟨θ1, h1, sθ1, h2, a, ha, sd1, h3, rfl⟩ := h
  simp only at hθ hsθ hsd hpdf
  rw [h1] at hθ; cases hθ
  rw [h2] at hsθ; cases hsθ
  rw [h3] at hsd; cases hsd
  simp only [if_neg he.ne', decide_eq_true_eq]
  refine lt_of_lt_of_le (hu _) ?_
  have e1 : 1 ≤ env.pdf a.2 / env.pdf θ := (one_le_div hp).2 hpdf
  have e2 : 1 ≤ Real.exp ((sθ - sd) / s.eps) := Real.one_le_exp (div_nonneg (sub_nonneg.2 hle) he.le)
  exact one_le_mul_of_one_le_of_one_le e1 e2

/-! ### Threshold zero -/

theorem smooth_nonneg {old : List ℝ} (hold : ∀ x ∈ old, 0 ≤ x) {d x : ℝ} (hd : 0 ≤ d) (h : smooth old d = some x) : 0 ≤ x := by
  have hne : old ≠ [] := by rintro rfl; simp [smooth] at h
  obtain ⟨m, -, -, h1, -⟩ := C51_smooth_partial old hne hold
  obtain ⟨y, h2, h3, -⟩ := h1 d hd
  rw [h] at h2; cases h2; exact h3

/-- All particles have redefined distance zero, and the threshold is zero. -/
structure Cold (s : State Θ) : Prop where
  smooths : ∀ x ∈ s.smooths, x = 0
  all : ∀ x ∈ s.all, 0 ≤ x
  eps : s.eps = 0

theorem move_cold (env : Env W Θ Y) (hd : ∀ y, 0 ≤ env.dist y) (fuel n : Nat) (s : State Θ) (hs : Cold s) (w : W) (o : Out Θ) (h : move env fuel n s w = some o) : o.accepted = false := by
  unfold move at h
  simp only [Option.bind_eq_some_iff, Option.map_eq_some_iff] at h
  obtain ⟨θ, -, sθ, h2, a, -, sd, h3, rfl⟩ := h
  simp only [if_pos hs.eps, decide_eq_false_iff_not, not_lt]
  rw [hs.smooths sθ (List.mem_of_getElem? h2)]
  exact smooth_nonneg hs.all (hd _) h3

theorem mean_zero {l : List ℝ} (h : ∀ x ∈ l, x = 0) : mean l = 0 := by
  rw [mean, List.sum_eq_zero h, zero_div]

theorem step_cold (env : Env W Θ Y) (hd : ∀ y, 0 ≤ env.dist y) (h0 : env.schedule 0 = 0) (c : Config) (fuel t : Nat) (ht : t ≠ 0) (start : List W) (s s' : State Θ) (hs : Cold s) (h : step env c fuel t start s = some s') :
    Cold s' ∧ s'.params = s.params ∧ s'.distances = s.distances := by
  unfold step at h
  simp only [if_neg ht] at h
  split at h
  · cases h
  · split at h
    · cases h
    · rename_i out hout
      have hacc : ∀ o ∈ out, o.accepted = false := by
        intro o ho
        have := (collect_eq_some _ _).1 hout
        have hm : some o ∈ out.map some := List.mem_map.2 ⟨o, ho, rfl⟩
        rw [← this] at hm
        obtain ⟨w, -, hw⟩ := List.mem_map.1 hm
        exact move_cold env hd fuel c.n s hs w o hw
      have hfil : out.filter Out.accepted = [] := List.filter_eq_nil_iff.2 fun o ho => by simp [hacc o ho]
      have hr : replace s out = some (s.params, s.distances, s.smooths, s.all) := by simp [replace, hfil, collect, assign]
      simp only [hr, mean_zero hs.smooths, h0] at h
      split at h
      · cases h
        exact ⟨⟨hs.smooths, hs.all, rfl⟩, rfl, rfl⟩
      · unfold finish at h
        rw [if_neg (by rintro ⟨-, h⟩; exact absurd h (not_lt.2 (by positivity)))] at h
        cases h
        exact ⟨⟨hs.smooths, hs.all, rfl⟩, rfl, rfl⟩

theorem loop_cold (env : Env W Θ Y) (hd : ∀ y, 0 ≤ env.dist y) (h0 : env.schedule 0 = 0) (c : Config) (fuel : Nat) (start : Nat → List W) (k : Nat) : ∀ (t : Nat), t ≠ 0 → ∀ (s s' : State Θ), Cold s → loop env c fuel start k t s = some s' →
    s'.params = s.params ∧ s'.distances = s.distances := by
  induction k with
  | zero => intro t _ s s' _ h; cases h; exact ⟨rfl, rfl⟩
  | succ k ih =>
    intro t ht s s' hs h
    rw [loop] at h
    split at h
    · cases h; exact ⟨rfl, rfl⟩
    · split at h
      · cases h
      · rename_i s1 h1
        obtain ⟨hc, h2, h3⟩ := step_cold env hd h0 c fuel t ht (start t) s s1 hs h1
        obtain ⟨h4, h5⟩ := ih (t + 1) (Nat.succ_ne_zero t) s1 s' hc h
        exact ⟨h4.trans h2, h5.trans h3⟩

theorem smooth_const {l : List ℝ} {m : ℝ} (hne : l ≠ []) (h : ∀ x ∈ l, x = m) : smooth l m = some 0 := by
  have hmin : l.min? = some m := by
    cases hl : l.min? with
    | none => exact absurd (List.min?_eq_none_iff.1 hl) hne
    | some a => rw [h a (List.min?_mem hl)]
  have hc : l.countP (fun x => decide (x < m)) = 0 := List.countP_eq_zero.2 fun x hx => by simp [h x hx]
  simp [smooth, hmin, smoothAt, hc]

theorem first_mem (env : Env W Θ Y) (eps : ℝ) (index fuel : Nat) (w : W) (all : List ℝ) (n : Nat) (o : Out Θ) (h : first env eps index fuel w all n = some o) : o.d ∈ o.all := by
  induction fuel generalizing w all n with
  | zero => simp [first] at h
  | succ fuel ih =>
    rw [first] at h
    split at h
    · cases h; simp
    · exact ih _ _ _ h

theorem finish_all (env : Env W Θ Y) (c : Config) (t : Nat) (u : ℝ) (s s' : State Θ) (h : finish env c t u s = some s') : s'.all = s.all := by
  unfold finish at h
  cases hf : c.full <;> simp only [hf, if_true, Bool.false_eq_true, if_false] at h <;>
  · split at h
    · split at h
      · split at h
        · cases h; rfl
        · cases h
      · cases h
    · cases h; rfl

theorem first_cold (env : Env W Θ Y) (h0 : env.schedule 0 = 0) (c : Config) (fuel : Nat) (start : List W) (s s' : State Θ) (m : ℝ) (hm : 0 ≤ m) (h : step env c fuel 0 start s = some s') (hall : ∀ x ∈ s'.all, x = m) : Cold s' := by
  unfold step at h
  simp only [if_true] at h
  split at h
  · cases h
  · split at h
    · cases h
    · rename_i out hout
      split at h
      · cases h
      · rename_i p hp
        split at h
        · cases h
        · rename_i l hl
          have ha := finish_all env c _ _ _ _ h
          simp only at ha
          simp only [begin_, Option.map_eq_some_iff] at hp
          obtain ⟨sm, hsm, rfl⟩ := hp
          simp only at ha hl h
          rw [ha] at hall
          have hne : ∀ d ∈ (out.map Out.all).flatten, smooth (out.map Out.all).flatten d = some 0 := by
            intro d hd
            rw [hall d hd]
            exact smooth_const (List.ne_nil_of_mem hd) hall
          have hd : ∀ o ∈ out, o.d ∈ (out.map Out.all).flatten := by
            intro o ho
            have := (collect_eq_some _ _).1 hout
            have hmm : some o ∈ out.map some := List.mem_map.2 ⟨o, ho, rfl⟩
            rw [← this] at hmm
            obtain ⟨w, -, hw⟩ := List.mem_map.1 hmm
            exact List.mem_flatten.2 ⟨o.all, List.mem_map.2 ⟨o, ho, rfl⟩, first_mem env _ _ _ _ _ _ _ hw⟩
          have hs0 : ∀ x ∈ sm, x = 0 := by
            intro x hx
            have := (collect_eq_some _ _).1 hsm
            have hmm : some x ∈ sm.map some := List.mem_map.2 ⟨x, hx, rfl⟩
            rw [← this] at hmm
            obtain ⟨o, ho, hw⟩ := List.mem_map.1 hmm
            rw [hne _ (hd o ho)] at hw
            cases hw; rfl
          have hl0 : ∀ x ∈ l, x = 0 := by
            intro x hx
            have := (collect_eq_some _ _).1 hl
            have hmm : some x ∈ l.map some := List.mem_map.2 ⟨x, hx, rfl⟩
            rw [← this] at hmm
            obtain ⟨d, hd', hw⟩ := List.mem_map.1 hmm
            rw [hne _ hd'] at hw
            cases hw; rfl
          have hu : average l c.eps = 0 := by
            unfold average
            split
            · rfl
            · rw [List.sum_eq_zero, zero_div]
              intro x hx
              obtain ⟨y, hy, rfl⟩ := List.mem_map.1 hx
              rw [hl0 y hy, zero_mul]
          rw [hu, h0] at h
          unfold finish at h
          rw [if_neg (by rintro ⟨-, h⟩; exact absurd h (not_lt.2 (by positivity)))] at h
          cases h
          exact ⟨hs0, fun x hx => by rw [hall x hx]; exact hm, rfl⟩

/-- C229 fails when the threshold is zero. If all first tries have the same distance `m`, the population of the first step is never changed: no proposal is accepted in any later step, whatever its prior density and its distance, which may be smaller. -/
theorem C229_stuck_violated (env : Env W Θ Y) (v : ℝ) (hsch : Schedule v env.schedule) (hd : ∀ y, 0 ≤ env.dist y) (c : Config) (fuel : Nat) (start : Nat → List W) (s1 s : State Θ) (m : ℝ) (hm : 0 ≤ m) (hc : 0 < c.steps)
    (h1 : run env { c with steps := 1 } fuel start = some s1) (hall : ∀ x ∈ s1.all, x = m) (h : run env c fuel start = some s) : s.params = s1.params ∧ s.distances = s1.distances := by
  have h0 : env.schedule 0 = 0 := (hsch 0).1 (by positivity)
  obtain ⟨k, hk⟩ : ∃ k, c.steps = k + 1 := ⟨c.steps - 1, by omega⟩
  unfold run at h1 h
  rw [hk, loop] at h
  rw [loop] at h1
  simp only [Bool.false_eq_true, if_false] at h h1
  have hsame : step env { c with steps := 1 } fuel 0 (start 0) ⟨[], [], [], [], c.eps, 0, 0, [], 0, false⟩ = step env c fuel 0 (start 0) ⟨[], [], [], [], c.eps, 0, 0, [], 0, false⟩ := rfl
  rw [hsame] at h1
  cases hst : step env c fuel 0 (start 0) ⟨[], [], [], [], c.eps, 0, 0, [], 0, false⟩ with
  | none => rw [hst] at h1; cases h1
  | some s2 =>
    rw [hst] at h h1
    simp only [loop, Option.some.injEq] at h1
    subst h1
    exact loop_cold env hd h0 c fuel start k 1 one_ne_zero s2 s (first_cold env h0 c fuel _ _ _ m hm hst hall) h

/-! ### Populations with the smallest distance of the first tries -/

theorem loop_stopped (env : Env W Θ Y) (c : Config) (fuel : Nat) (start : Nat → List W) (k t : Nat) (s : State Θ) (h : s.stopped = true) : loop env c fuel start k t s = some s := by
  cases k with
  | zero => rfl
  | succ k => rw [loop, if_pos h]

theorem loop_add (env : Env W Θ Y) (c : Config) (fuel : Nat) (start : Nat → List W) (m : Nat) : ∀ (k t : Nat) (s : State Θ), loop env c fuel start (k + m) t s = (loop env c fuel start k t s).bind fun s => loop env c fuel start m (t + k) s
  | 0, t, s => by rw [Nat.zero_add, loop]; rfl
  | k + 1, t, s => by
    rw [show k + 1 + m = (k + m) + 1 by omega, loop, loop]
    split
    · rename_i h
      exact (loop_stopped env c fuel start m _ s h).symm
    · split
      · rfl
      · rw [loop_add env c fuel start m k (t + 1) _, show t + (k + 1) = t + 1 + k by omega]

theorem loop_steps (env : Env W Θ Y) (c : Config) (fuel : Nat) (start : Nat → List W) (n : Nat) : ∀ (k t : Nat) (s : State Θ), loop env { c with steps := n } fuel start k t s = loop env c fuel start k t s
  | 0, _, _ => rfl
  | k + 1, t, s => by
    rw [loop, loop, show step env { c with steps := n } fuel t (start t) s = step env c fuel t (start t) s from rfl]
    split
    · rfl
    · split
      · rfl
      · exact loop_steps env c fuel start n k (t + 1) _

/-- After the first step the threshold is that of the mean redefined distance of the population. -/
theorem step_eps (env : Env W Θ Y) (c : Config) (fuel t : Nat) (ht : t ≠ 0) (start : List W) (s s' : State Θ) (h : step env c fuel t start s = some s') : s'.eps = env.schedule (mean s'.smooths) := by
  unfold step at h
  simp only [if_neg ht] at h
  split at h
  · cases h
  · split at h
    · cases h
    · split at h
      · cases h
      · split at h
        · cases h; rfl
        · unfold finish at h
          simp only at h
          split at h
          · split at h
            · split at h
              · cases h; rfl
              · cases h
            · cases h
          · cases h; rfl

/-- C229 fails in every run that reaches the smallest distance of the first tries: if after two or more steps all particles have this distance, no proposal is accepted in any later step, also none with a smaller distance. -/
theorem C229_minimum_violated (env : Env W Θ Y) (v : ℝ) (hsch : Schedule v env.schedule) (hd : ∀ y, 0 ≤ env.dist y) (c : Config) (fuel : Nat) (start : Nat → List W) (k : Nat) (hk : 2 ≤ k) (hkc : k ≤ c.steps) (s1 s : State Θ)
    (h1 : run env { c with steps := k } fuel start = some s1) (hmin : ∀ x ∈ s1.distances, x ∈ s1.all ∧ ∀ y ∈ s1.all, x ≤ y) (h : run env c fuel start = some s) : s.params = s1.params ∧ s.distances = s1.distances := by
  have h0 : env.schedule 0 = 0 := (hsch 0).1 (by positivity)
  obtain ⟨hok, hne, hown, -, -⟩ := run_all env { c with steps := k } fuel start s1 (by simp only; omega) h1
  have hs0 : ∀ x ∈ s1.smooths, x = 0 := by
    intro x hx
    obtain ⟨i, hi, rfl⟩ := List.mem_iff_getElem.1 hx
    have hi' : i < s1.distances.length := by rw [hok.distances, ← hok.smooths]; exact hi
    have hr := hok.redefined i _ _ (List.getElem?_eq_getElem hi') (List.getElem?_eq_getElem hi)
    obtain ⟨hm1, hm2⟩ := hmin _ (List.getElem_mem hi')
    have hmn : s1.all.min? = some s1.distances[i] := by
      cases hl : s1.all.min? with
      | none => exact absurd (List.min?_eq_none_iff.1 hl) hne
      | some a => exact congrArg some (le_antisymm ((List.min?_eq_some_iff.1 hl).2 _ hm1) (hm2 _ (List.min?_mem hl)))
    have hc : s1.all.countP (fun x => decide (x < s1.distances[i])) = 0 := List.countP_eq_zero.2 fun x hx => by simpa using hm2 x hx
    simp only [smooth, hmn, Option.map_some, smoothAt, lt_irrefl, if_false, hc, Nat.cast_zero, zero_div, Option.some.injEq] at hr
    exact hr.symm
  have hall : ∀ x ∈ s1.all, 0 ≤ x := by
    intro x hx
    obtain ⟨θ, w, rfl⟩ := hown x hx
    exact hd _
  unfold run at h1 h
  simp only [loop_steps] at h1
  obtain ⟨m, hm⟩ := Nat.exists_eq_add_of_le hkc
  rw [hm, loop_add, h1, Option.bind_some] at h
  by_cases hst : s1.stopped = true
  · rw [loop_stopped _ _ _ _ _ _ _ hst] at h
    cases h; exact ⟨rfl, rfl⟩
  · obtain ⟨t', -, ht2, hI, ht⟩ := loop_inv env c fuel start (fun t s => 2 ≤ t → s.eps = env.schedule (mean s.smooths)) (fun t s s' _ _ hstep h2 => step_eps env c fuel t (by omega) _ s s' hstep) k 0 _ s1 (by simp) h1
    have : t' = 0 + k := by
      by_contra hn
      exact hst (ht (by omega))
    have he := hI (by omega)
    rw [mean_zero hs0, h0] at he
    exact loop_cold env hd h0 c fuel start m (0 + k) (by omega) s1 s ⟨hs0, hall, he⟩ h

/-- A run that meets the hypothesis of `C229_minimum_violated`: the first tries have distances 1 and 2, and in the second step the particle with distance 2 moves to one with distance 1. -/
example (f : ℝ → ℝ) (hf : Schedule 1 f) : ∃ s, run { exEnv with schedule := f, choose := fun _ w => (w, 1), unif := fun w => (w, 0) } ⟨2, 2, 1, 10, 1 / 10, 1, 0, false⟩ 1 (fun t => if t = 0 then [1, 2] else [1]) = some s ∧
    s.params = [1, 1] ∧ s.distances = [1, 1] ∧ s.all = [1, 2] ∧ ∀ x ∈ s.distances, x ∈ s.all ∧ ∀ y ∈ s.all, x ≤ y := by
  set env : Env ℝ ℝ ℝ := { exEnv with schedule := f, choose := fun _ w => (w, 1), unif := fun w => (w, 0) } with henv
  set c : Config := ⟨2, 2, 1, 10, 1 / 10, 1, 0, false⟩ with hc
  have hs1 : smooth [1, 2] 1 = some 0 := by norm_num [smooth, smoothAt, List.min?]
  have hs2 : smooth [1, 2] 2 = some (1 / 2) := by norm_num [smooth, smoothAt, List.min?]
  have ha : 1 / 10 ^ 100 ≤ average [0, 1 / 2] 1 := by
    have h1 : (1 / 2 : ℝ) ≤ Real.exp (-(1 / 2)) := by linarith [Real.add_one_le_exp (-(1 / 2 : ℝ))]
    have h2 : Real.exp (-(1 / 2)) ≤ 1 := Real.exp_le_one_iff.2 (by norm_num)
    have : (1 / 8 : ℝ) ≤ average [0, 1 / 2] 1 := by
      simp only [average, one_ne_zero, if_false, List.map_cons, List.map_nil, List.sum_cons, List.sum_nil, zero_mul, zero_add, add_zero, div_one, neg_zero, Real.exp_zero]
      rw [le_div_iff₀ (by linarith)]
      linarith
    exact le_trans (by norm_num) this
  have he : f (average [0, 1 / 2] 1) ≠ 0 := ((C229_temperature 1 zero_le_one f hf).2.2.1 _ ha).ne'
  have h0 : f 0 = 0 := (hf 0).1 (by positivity)
  have first : step env c 1 0 [1, 2] ⟨[], [], [], [], 1, 0, 0, [], 0, false⟩ = some ⟨[1, 2], [1, 2], [0, 1 / 2], [1, 2], f (average [0, 1 / 2] 1), 0, 0, [([1, 2], [1, 2])], 2, false⟩ := by
    simp [step, hc, henv, Sabc.first, exEnv, collect, begin_, hs1, hs2, finish]
  have later : step env c 1 1 [1] ⟨[1, 2], [1, 2], [0, 1 / 2], [1, 2], f (average [0, 1 / 2] 1), 0, 0, [([1, 2], [1, 2])], 2, false⟩ = some ⟨[1, 1], [1, 1], [0, 0], [1, 2], 0, 1, 1, [([1, 1], [1, 1])], 3, false⟩ := by
    simp only [step, hc, henv, move, exEnv, propose, collect, List.map_cons, List.map_nil, hs1, he, if_false]
    simp [replace, Real.exp_pos, collect, assign, hs1, mean, h0, finish]
  unfold run
  rw [show c.steps = 0 + 1 + 1 from rfl, loop]
  simp only [Bool.false_eq_true, if_false, if_true, show c.eps = 1 from rfl, first]
  rw [loop]
  simp only [Bool.false_eq_true, if_false, Nat.zero_add, one_ne_zero, later, loop]
  exact ⟨_, rfl, rfl, rfl, rfl, by simp⟩

/-- A run in which all proposals match the observation exactly and have the prior density of the particles, and all first tries have distance 1: whatever the number of steps, the run returns, and the particles stay where they are. -/
example (f : ℝ → ℝ) (hf : Schedule 1 f) (k : Nat) : ∃ s, run { exEnv with schedule := f, perturb := fun _ _ w => (w, some 0) } ⟨2, k + 1, 2, 2, 1 / 10, 1, 0, false⟩ 1 (fun _ => [1, 1]) = some s ∧
    s.params = [1, 1] ∧ s.distances = [1, 1] := by
  set env : Env ℝ ℝ ℝ := { exEnv with schedule := f, perturb := fun _ _ w => (w, some 0) } with henv
  set c : Config := ⟨2, k + 1, 2, 2, 1 / 10, 1, 0, false⟩ with hc
  have h0 : f 0 = 0 := (hf 0).1 (by positivity)
  have hs0 : smooth [1, 1] 1 = some 0 := smooth_const (by simp) (by simp)
  have hs1 : smooth [1, 1] 0 = some 0 := by norm_num [smooth, smoothAt, List.min?]
  have first : step env c 1 0 [1, 1] ⟨[], [], [], [], 1, 0, 0, [], 0, false⟩ = some ⟨[1, 1], [1, 1], [0, 0], [1, 1], 0, 0, 0, [([1, 1], [1, 1])], 2, false⟩ := by
    simp [step, hc, henv, Sabc.first, exEnv, collect, begin_, hs0, average, h0, finish]
  have later : ∀ t u j n, ∃ j' n', step env c 1 (t + 1) [1, 1] ⟨[1, 1], [1, 1], [0, 0], [1, 1], 0, 0, u, j, n, false⟩ = some ⟨[1, 1], [1, 1], [0, 0], [1, 1], 0, 0, u + 2, j', n', false⟩ := by
    intro t u j n
    refine ⟨[([1, 1], [1, 1])], n + 2, ?_⟩
    simp [step, hc, henv, move, exEnv, propose, collect, replace, hs1, mean, h0, finish, assign]
  have all : ∀ k t u j n, ∃ s, loop env c 1 (fun _ => [1, 1]) k (t + 1) ⟨[1, 1], [1, 1], [0, 0], [1, 1], 0, 0, u, j, n, false⟩ = some s ∧ s.params = [1, 1] ∧ s.distances = [1, 1] := by
    intro k
    induction k with
    | zero => intro t u j n; exact ⟨_, rfl, rfl, rfl⟩
    | succ k ih =>
      intro t u j n
      obtain ⟨j', n', h⟩ := later t u j n
      rw [loop]
      simp only [Bool.false_eq_true, if_false, h]
      exact ih _ _ _ _
  unfold run
  rw [show c.steps = k + 1 from rfl, loop]
  simp only [Bool.false_eq_true, if_false, show c.eps = 1 from rfl, first]
  exact all k 0 _ _ _

/-- The hypotheses of `C229_move_partial` hold for a particle at threshold 1: a proposal with the same redefined distance as its particle is accepted. -/
example : ∃ o, move { exEnv with unif := fun w => (w, 0) } 1 1 ⟨[1 / 2], [1 / 2], [1 / 2], [1], 1, 0, 0, [], 0, false⟩ (1 / 2) = some o ∧ o.accepted = true := by
  have hs : smooth [1] (1 / 2) = some (1 / 2) := by norm_num [smooth, smoothAt, List.min?]
  have hex : ∃ o, move { exEnv with unif := fun w => (w, 0) } 1 1 ⟨[1 / 2], [1 / 2], [1 / 2], [1], 1, 0, 0, [], 0, false⟩ (1 / 2) = some o ∧ o.index = 0 ∧ o.θ = 1 / 2 ∧ o.d = 1 / 2 := by
    have ha : |(1 / 2 : ℝ)| = 1 / 2 := abs_of_pos (by norm_num)
    simp only [move, exEnv, propose, List.getElem?_cons_zero, Option.bind_some, ne_eq, one_ne_zero, not_false_eq_true, if_true, ha, hs, Option.map_some]
    exact ⟨_, rfl, rfl, rfl, rfl⟩
  obtain ⟨o, h, h1, h2, h3⟩ := hex
  exact ⟨o, h, C229_move_partial _ (fun _ => one_pos) 1 1 _ one_pos _ o h (1 / 2) (by rw [h1]; rfl) one_pos le_rfl (1 / 2) (1 / 2) (by rw [h1]; rfl) (by rw [h3]; exact hs) le_rfl⟩

end Verif.Sabc
