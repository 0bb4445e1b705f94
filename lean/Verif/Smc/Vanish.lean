import Verif.Smc.Truncated
/-
C168: does the next threshold of `SMCABC` leave a particle with a positive weight? If not, `new_weights / sum(new_weights)` (abcpy/inferences.py 3487) is a division by zero: all weights are NaN, and the run ends with an
exception of `rng.choice` or of the kernel.
-/
namespace Verif.Smc

open Verif.Pmc (Pop normalise)
open Spec

variable {W Θ Y : Type} (env : Env W Θ Y) (c : Config) (dr : Draws)

/-- If nothing is left at a threshold, nothing is left at a smaller one. -/
theorem raw_zero_mono {e x x' : ℝ} (p : Rec Θ Y) (hw : ∀ a ∈ p.weights, 0 ≤ a) (hx : x' ≤ x) (h : (rawOf env c e x p).sum = 0) : (rawOf env c e x' p).sum = 0 := by
  have hz : ∀ a ∈ rawOf env c e x p, a = 0 := by
    intro a ha
    by_contra hne
    have hpos : 0 < a := lt_of_le_of_ne (raw_nonneg env c e x p hw a ha) (Ne.symm hne)
    exact (sum_pos_of_mem _ (raw_nonneg env c e x p hw) a ha hpos).ne' h
  refine List.sum_eq_zero fun a ha => ?_
  unfold rawOf at hz ha
  split at ha
  · rename_i hb
    rw [if_pos hb] at hz
    rw [berntonWeights] at ha
    obtain ⟨d, hd, rfl⟩ := List.mem_map.1 ha
    have := hz (if d < x then 1 else 0) (List.mem_map.2 ⟨d, hd, rfl⟩)
    split
    · rename_i hlt
      rw [if_pos (lt_of_lt_of_le hlt hx)] at this
      exact this
    · rfl
  · rename_i hb
    rw [if_neg hb] at hz
    rw [dmWeights] at ha
    obtain ⟨i, hi, rfl⟩ := List.getElem_of_mem ha
    have h2 := hz _ (List.getElem_mem (l := dmWeights p.weights (p.sims.map env.dists) e x) (n := i) (by simpa [dmWeights] using hi))
    simp only [dmWeights, List.getElem_zipWith] at h2 ⊢
    split
    · rfl
    · rename_i hne
      rw [if_neg hne] at h2
      rcases mul_eq_zero.1 h2 with h2 | h2
      · rw [h2, zero_mul]
      · have h3 := (div_eq_zero_iff.1 h2).resolve_right hne
        rw [below_mono hx _ h3, zero_div, mul_zero]

/-- **C168 (partial).** The new threshold leaves a particle with positive weight, so that the run can go on, if more than the fraction `alpha` of the population is left at the old threshold, and at most `alpha` at every threshold that
is less than 0.001 above one at which nothing is left. Missing: the other populations, see below. -/
theorem C168_partial (fuel : Nat) (e e' v : ℝ) (p : Rec Θ Y) (hg : Good env c e p) (hc : c.final < e) (ha : 0 < c.alpha) (h : newEps env c dr fuel e p = some e')
    (hv : Kept env c dr e p e v) (hv' : c.alpha < v)
    (hk : ∀ x b vb, Kept env c dr e p x 0 → x < b → b ≤ x + 0.001 → Kept env c dr e p b vb → vb ≤ c.alpha) :
    ∃ ws, newWeights env c e e' p = some ws := by
  have hp : Even p := ⟨by rw [hg.sims, hg.params], by rw [hg.distances, hg.params], by rw [hg.weights, hg.params]⟩
  obtain ⟨h1, h2, h3⟩ := C96_partial env c dr fuel e e' p hg hc h
  by_cases hz : (rawOf env c e e' p).sum = 0
  · exfalso
    have kz : ∀ x, (rawOf env c e x p).sum = 0 → Kept env c dr e p x 0 := fun x hx => (kept_iff env c dr e x 0 p hp).2 (by rw [kept, if_pos hx])
    have hf := raw_zero_mono env c p hg.nonneg h1 hz
    rcases h3 0 v (kz _ hf) hv ha hv' with h4 | ⟨a, b, va, vb, q1, q2, q3, q4, q5, q6, q7, q8, q9, q10⟩
    · rw [kept_iff env c dr e e' _ p hp, kept, if_pos hz] at h4
      exact ha.ne' h4
    · have hne : e' < b := by
        rcases lt_or_eq_of_le q3 with h5 | h5
        · exact h5
        · exfalso
          rw [← h5, kept_iff env c dr e e' _ p hp, kept, if_pos hz] at q9
          linarith
      exact absurd (hk e' b vb (kz _ hz) hne (by linarith) q9) (not_le.2 q10)
  · exact ⟨normalise (rawOf env c e e' p), by unfold newWeights; simp only; exact if_neg hz⟩

/-- The hypotheses are met: two particles at distances 1 and 2, threshold 3, `epsilon_final` 0, `alpha` 3/4, and a bisection that ends. -/
example : let env : Env Unit Unit ℝ := ⟨id, fun y => [y], fun _ => 1, fun _ _ _ => 1, fun w => (w, ()), fun _ _ w => (w, some ()), fun _ _ w => (w, some ()), fun _ w => (w, 1), fun _ w => (w, false), fun _ w => (w, 0)⟩
    let c : Config := ⟨2, false, 3, 0, 3 / 4, 1, 0, none, true⟩
    let p : Rec Unit ℝ := ⟨[(), ()], [1, 2], [1, 2], [1 / 2, 1 / 2]⟩
    let dr : Draws := ⟨fun _ _ => [0, 1], fun _ => 1⟩
    Good env c 3 p ∧ Kept env c dr 3 p 3 1 ∧ (∀ x b vb, Kept env c dr 3 p x 0 → x < b → b ≤ x + 0.001 → Kept env c dr 3 p b vb → vb ≤ c.alpha) ∧
      ∃ e', newEps env c dr 30 3 p = some e' := by
  intro env c p dr
  have hE : Even p := ⟨rfl, rfl, rfl⟩
  have hraw : ∀ x, rawOf env c 3 x p = [1 / 2 * (if 1 < x then 1 else 0), 1 / 2 * (if 2 < x then 1 else 0)] := by
    intro x
    have h1 : ∀ a : ℝ, below x [a] = if a < x then 1 else 0 := by intro a; by_cases h : a < x <;> simp [below, h]
    have h2 : below 3 [1] = 1 := by norm_num [below]
    have h3 : below 3 [2] = 1 := by norm_num [below]
    simp [rawOf, c, p, dmWeights, env, h1, h2, h3]
  refine ⟨⟨rfl, rfl, rfl, rfl, by simp [p], by norm_num [p], ?_⟩, ?_, ?_, ?_⟩
  · intro _ i wt y h _ h0
    subst h0
    rcases i with _ | _ | i <;> simp [p] at h
  · rw [kept_iff env c dr 3 3 1 p hE, hraw]
    norm_num [kept, essRaw, c, p]
  · intro x b vb h0 hxb hbx hv
    rw [kept_iff env c dr 3 x 0 p hE, hraw] at h0
    rw [kept_iff env c dr 3 b vb p hE, hraw] at hv
    have hx : x ≤ 1 := by
      by_contra hx
      push Not at hx
      by_cases h2 : 2 < x
      · norm_num [kept, essRaw, c, p, hx, h2] at h0
      · norm_num [kept, essRaw, c, p, hx, h2] at h0
    have hb : ¬ 2 < b := by norm_num at hbx; linarith
    rw [hv]
    by_cases h1 : 1 < b <;> norm_num [kept, essRaw, c, p, h1, hb]
  · obtain ⟨x, hx⟩ := (C43_bisection (dmFun p.weights (p.sims.map env.dists) 3 c.alpha) 0.001 c.final 3 (by norm_num [c])).1 20 30 (by norm_num [c]) (by norm_num)
    refine ⟨if x < c.final then c.final else x, ?_⟩
    unfold newEps
    rw [if_neg (by simp [c]), hx]
    rfl

/-! ### The scale of the distances -/

theorem weights_none {e e' : ℝ} (p : Rec Θ Y) (hd : ∀ d ∈ p.distances, e' ≤ d) (hy : ∀ y ∈ p.sims, ∀ d ∈ env.dists y, e' ≤ d) : newWeights env c e e' p = none := by
  unfold newWeights
  rw [if_pos]
  refine List.sum_eq_zero fun a ha => ?_
  split at ha
  · rw [berntonWeights] at ha
    obtain ⟨d, h, rfl⟩ := List.mem_map.1 ha
    rw [if_neg (not_lt.2 (hd d h))]
  · rw [dmWeights] at ha
    obtain ⟨i, hi, rfl⟩ := List.getElem_of_mem ha
    rw [List.getElem_zipWith]
    split
    · rfl
    · rw [(below_zero e' _).2, zero_div, mul_zero]
      intro d hd
      rw [List.getElem_map] at hd
      exact not_lt.2 (hy _ (List.getElem_mem _) d hd)

/-- A run whose second step fails. -/
theorem run_none (distMax : Option ℝ) (fuel : Nat) (start : Nat → List W) (h2 : 2 ≤ c.steps) (hf : c.final < distMax.getD (10 ^ 5))
    (h : ∀ l, smcStep env c dr fuel 1 (start 1) ⟨[], distMax.getD (10 ^ 5), some (outRec (equalWeights c.n) ((start 0).map (initial env))), l, 1, (((start 0).map (initial env)).map Out.count).sum⟩ = none) :
    smcRun env c dr distMax fuel start = none := by
  unfold smcRun
  split
  · obtain ⟨k, hk⟩ := Nat.exists_eq_add_of_le h2
    rw [hk, show 2 + k = (k + 1) + 1 by ring, smcLoop, if_neg (not_le.2 hf)]
    simp only [smcStep]
    rw [smcLoop, if_neg (by simpa [save] using hf)]
    have h' := h (save c 0 (⟨[], distMax.getD (10 ^ 5), none, [], 0, 0⟩ : State Θ Y) [] (distMax.getD (10 ^ 5)) (equalWeights c.n) ((start 0).map (initial env))).journal
    have : save c 0 (⟨[], distMax.getD (10 ^ 5), none, [], 0, 0⟩ : State Θ Y) [] (distMax.getD (10 ^ 5)) (equalWeights c.n) ((start 0).map (initial env)) =
      ⟨[], distMax.getD (10 ^ 5), some (outRec (equalWeights c.n) ((start 0).map (initial env))),
        (save c 0 (⟨[], distMax.getD (10 ^ 5), none, [], 0, 0⟩ : State Θ Y) [] (distMax.getD (10 ^ 5)) (equalWeights c.n) ((start 0).map (initial env))).journal, 1,
        (((start 0).map (initial env)).map Out.count).sum⟩ := by simp [save]
    rw [this, Nat.zero_add, h']
  · rfl

/-- C168 fails: if the distance has no maximum and all simulations are at distance 100000 or more, whatever the unit of the data, the second step has no weight left, and no run with two or more steps ends
normally. -/
theorem C168_units_violated (fuel : Nat) (start : Nat → List W) (h2 : 2 ≤ c.steps) (hf : c.final < 10 ^ 5) (hd : ∀ y, 10 ^ 5 ≤ env.dist y) (hds : ∀ y, ∀ d ∈ env.dists y, 10 ^ 5 ≤ d) :
    (∀ (p : Rec Θ Y) e', (∀ d ∈ p.distances, ∃ y, d = env.dist y) → newEps env c dr fuel (10 ^ 5) p = some e' → newWeights env c (10 ^ 5) e' p = none) ∧
    smcRun env c dr none fuel start = none := by
  have key : ∀ (p : Rec Θ Y) e', (∀ d ∈ p.distances, ∃ y, d = env.dist y) → newEps env c dr fuel (10 ^ 5) p = some e' → newWeights env c (10 ^ 5) e' p = none := by
    intro p e' hp he
    have hlt := (newEps_spec env c dr fuel _ e' p he hf).2
    refine weights_none env c p (fun d h => ?_) fun y _ d h => hlt.le.trans (hds y d h)
    obtain ⟨y, rfl⟩ := hp d h
    exact hlt.le.trans (hd y)
  refine ⟨key, run_none env c dr none fuel start h2 hf fun l => ?_⟩
  simp only [smcStep, Option.getD_none]
  cases he : newEps env c dr fuel (10 ^ 5) (outRec (equalWeights c.n) ((start 0).map (initial env))) with
  | none => rfl
  | some e' =>
    simp only
    rw [key _ e' _ he]
    intro d h
    simp only [outRec, List.map_map, List.mem_map, Function.comp_def] at h
    obtain ⟨w, -, rfl⟩ := h
    exact ⟨_, rfl⟩

/-! ### Ties -/

/-- A bisection between 0 and 3 for a function that changes its sign right after 1. -/
theorem bisection_one (f : ℝ → ℝ) (fuel : Nat) (h1 : ∀ x, x ≤ 1 → 0 < f x) (h2 : ∀ x, 1 < x → f x < 0) : bisection f 0.001 (fuel + 12) 0 3 = some (4095 / 4096) := by
  have up : ∀ (k : Nat) (l h m : ℝ), m = (l + h) / 2 → 0.001 < (h - l) / 2 → 1 < m → l ≤ 1 → bisection f 0.001 (k + 1) l h = bisection f 0.001 k l m := by
    intro k l h m hm hw hgt hl
    subst hm
    rw [bisection, if_pos hw, if_neg (h2 _ hgt).ne, if_pos (mul_neg_of_pos_of_neg (h1 _ hl) (h2 _ hgt))]
  have dn : ∀ (k : Nat) (l h m : ℝ), m = (l + h) / 2 → 0.001 < (h - l) / 2 → m ≤ 1 → l ≤ 1 → bisection f 0.001 (k + 1) l h = bisection f 0.001 k m h := by
    intro k l h m hm hw hgt hl
    subst hm
    rw [bisection, if_pos hw, if_neg (h1 _ hgt).ne', if_neg (not_lt.2 (mul_pos (h1 _ hl) (h1 _ hgt)).le)]
  rw [up (fuel + 11) 0 3 (3 / 2) (by norm_num) (by norm_num) (by norm_num) (by norm_num),
    dn (fuel + 10) 0 (3 / 2) (3 / 4) (by norm_num) (by norm_num) (by norm_num) (by norm_num),
    up (fuel + 9) (3 / 4) (3 / 2) (9 / 8) (by norm_num) (by norm_num) (by norm_num) (by norm_num),
    dn (fuel + 8) (3 / 4) (9 / 8) (15 / 16) (by norm_num) (by norm_num) (by norm_num) (by norm_num),
    up (fuel + 7) (15 / 16) (9 / 8) (33 / 32) (by norm_num) (by norm_num) (by norm_num) (by norm_num),
    dn (fuel + 6) (15 / 16) (33 / 32) (63 / 64) (by norm_num) (by norm_num) (by norm_num) (by norm_num),
    up (fuel + 5) (63 / 64) (33 / 32) (129 / 128) (by norm_num) (by norm_num) (by norm_num) (by norm_num),
    dn (fuel + 4) (63 / 64) (129 / 128) (255 / 256) (by norm_num) (by norm_num) (by norm_num) (by norm_num),
    up (fuel + 3) (255 / 256) (129 / 128) (513 / 512) (by norm_num) (by norm_num) (by norm_num) (by norm_num),
    dn (fuel + 2) (255 / 256) (513 / 512) (1023 / 1024) (by norm_num) (by norm_num) (by norm_num) (by norm_num),
    up (fuel + 1) (1023 / 1024) (513 / 512) (2049 / 2048) (by norm_num) (by norm_num) (by norm_num) (by norm_num),
    bisection, if_neg (by norm_num)]
  norm_num

/-- C168 fails also for distances of the order of the thresholds: if all simulations are at distance 1, the maximal distance is 3, `epsilon_final` is zero and `alpha` lies between zero and one, the next threshold is
4095/4096. It is below every distance, the weights vanish, and no run with two or more steps ends normally. -/
theorem C168_ties_violated (fuel : Nat) (start : Nat → List W) (h2 : 2 ≤ c.steps) (hb : c.bernton = false) (hf : c.final = 0) (ha : 0 < c.alpha) (ha1 : c.alpha < 1) (hn : 0 < c.n)
    (hds : ∀ y, env.dists y = [1]) (hd : ∀ y, env.dist y = 1) :
    (∀ p : Rec Θ Y, Good env c 3 p → newEps env c dr (fuel + 12) 3 p = some (4095 / 4096)) ∧ smcRun env c dr (some 3) (fuel + 12) start = none := by
  have key : ∀ p : Rec Θ Y, Good env c 3 p → newEps env c dr (fuel + 12) 3 p = some (4095 / 4096) := by
    intro p hg
    have hlen : p.weights.length = p.sims.length := by rw [hg.weights, hg.sims]
    have hpos : 0 < ess p.weights := by
      have := essRaw_pos p.weights hg.nonneg hg.sum
      rw [essRaw, hg.sum, one_pow] at this
      exact this
    have hraw : ∀ x, dmWeights p.weights (p.sims.map env.dists) 3 x = p.weights.map fun w => w * (if 1 < x then 1 else 0) := by
      intro x
      have h3 : below 3 [1] = 1 := by norm_num [below]
      have h1 : below x [1] = if 1 < x then 1 else 0 := by by_cases h : 1 < x <;> simp [below, h]
      apply List.ext_getElem
      · simp [dmWeights, hlen]
      · intro i h _
        simp only [dmWeights, List.getElem_zipWith, List.getElem_map, hds, h3, h1]
        norm_num
    unfold newEps
    rw [hb, hf]
    simp only [Bool.false_eq_true, if_false]
    rw [bisection_one]
    · norm_num
    · intro x hx
      unfold dmFun
      rw [hraw, if_pos]
      · positivity
      · simp [not_lt.2 hx]
    · intro x hx
      have hid : dmWeights p.weights (p.sims.map env.dists) 3 x = p.weights := by rw [hraw]; simp [hx]
      unfold dmFun
      rw [hid, if_neg (by rw [hg.sum]; norm_num)]
      have : normalise p.weights = p.weights := by simp [normalise, hg.sum]
      rw [this]
      nlinarith
  refine ⟨key, ?_⟩
  by_cases hs : (start 0).length = c.n
  · refine run_none env c dr (some 3) (fuel + 12) start h2 (by rw [hf]; norm_num) fun l => ?_
    have hg : Good env c 3 (outRec (equalWeights c.n) ((start 0).map (initial env))) := by
      have hn' : (c.n : ℝ) ≠ 0 := by positivity
      refine ⟨by simp [outRec, hs], by simp [outRec, hs], by simp [outRec, hs], by simp [outRec, equalWeights], ?_, ?_, ?_⟩
      · intro x hx
        simp only [outRec, equalWeights, List.mem_replicate] at hx
        rw [hx.2]; positivity
      · simp [outRec, equalWeights, hn']
      · intro _ i wt y hw _ h0
        have := List.mem_of_getElem? hw
        simp only [outRec, equalWeights, List.mem_replicate] at this
        rw [h0] at this
        have h' : (0 : ℝ) < 1 * (1 / (c.n : ℝ)) := by positivity
        rw [← this.2] at h'
        exact absurd h' (lt_irrefl 0)
    simp only [smcStep, Option.getD_some]
    rw [key _ hg]
    simp only
    rw [weights_none]
    · intro d h
      simp only [outRec, List.map_map, List.mem_map, Function.comp_def] at h
      obtain ⟨w, -, rfl⟩ := h
      simp only [initial, hd]
      norm_num
    · intro y _ d h
      rw [hds, List.mem_singleton] at h
      rw [h]; norm_num
  · unfold smcRun
    rw [if_neg]
    rintro ⟨-, -, h⟩
    exact hs (h 0)

/-- The hypotheses of both are met, with any number of particles. -/
example : let env (a : ℝ) : Env Unit Unit Unit := ⟨fun _ => a, fun _ => [a], fun _ => 1, fun _ _ _ => 1, fun w => (w, ()), fun _ _ w => (w, some ()), fun _ _ w => (w, some ()), fun _ w => (w, ()), fun _ w => (w, false), fun _ w => (w, 0)⟩
    let c : Config := ⟨10, false, 5, 0, 1 / 2, 1, 0, none, true⟩
    2 ≤ c.steps ∧ c.bernton = false ∧ c.final = 0 ∧ 0 < c.alpha ∧ c.alpha < 1 ∧ 0 < c.n ∧ (∀ y, (env 1).dists y = [1]) ∧ (∀ y, (env 1).dist y = 1) ∧
    (∀ y, 10 ^ 5 ≤ (env (10 ^ 6)).dist y) ∧ (∀ y, ∀ d ∈ (env (10 ^ 6)).dists y, 10 ^ 5 ≤ d) := by
  norm_num

end Verif.Smc
