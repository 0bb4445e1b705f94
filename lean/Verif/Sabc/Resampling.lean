import Verif.Sabc.Run
import Mathlib.Algebra.Order.Chebyshev
import Mathlib.Algebra.BigOperators.Fin
import Mathlib.Algebra.BigOperators.Field
/-
C230: the probabilities that `SABC` resamples its population with.
-/
namespace Verif.Sabc

open Verif.Pmc (Pop)
open Verif.Smc (propose)
open Spec (Probabilities Particle meanX)

/-! ### Draws with given probabilities -/

/-- One of the independent draws, on average. -/
theorem draws_one {n : Nat} (p x : Fin n → ℝ) (hp : ∑ i, p i = 1) (k : Fin n) : ∑ f : Fin n → Fin n, (∏ i, p (f i)) * x (f k) = ∑ j, p j * x j := by
  have h := Finset.sum_prod_piFinset (Finset.univ : Finset (Fin n)) (fun i j => if i = k then p j * x j else p j)
  rw [Fintype.piFinset_univ] at h
  have h1 : ∀ f : Fin n → Fin n, (∏ i, p (f i)) * x (f k) = ∏ i, if i = k then p (f i) * x (f i) else p (f i) := by
    intro f
    rw [← Finset.mul_prod_erase _ _ (Finset.mem_univ k), ← Finset.mul_prod_erase Finset.univ (fun i => if i = k then p (f i) * x (f i) else p (f i)) (Finset.mem_univ k), if_pos rfl,
      Finset.prod_congr rfl (fun i hi => if_neg (Finset.ne_of_mem_erase hi))]
    ring
  simp only [h1, h]
  rw [← Finset.mul_prod_erase _ _ (Finset.mem_univ k), Finset.prod_eq_one]
  · simp
  · intro i hi
    simp only [Finset.ne_of_mem_erase hi, if_false, hp]

theorem draws_mean {n : Nat} (hn : 0 < n) (p x : Fin n → ℝ) (hp : ∑ i, p i = 1) : ∑ f : Fin n → Fin n, (∏ i, p (f i)) * ((∑ k, x (f k)) / n) = ∑ j, p j * x j := by
  have h : ∀ f : Fin n → Fin n, (∏ i, p (f i)) * ((∑ k, x (f k)) / n) = (∑ k, (∏ i, p (f i)) * x (f k)) / n := by
    intro f
    rw [← Finset.mul_sum, mul_div_assoc]
  simp only [h]
  rw [← Finset.sum_div, Finset.sum_comm, Finset.sum_congr rfl (fun k _ => draws_one p x hp k), Finset.sum_const, Finset.card_univ, Fintype.card_fin, nsmul_eq_mul]
  have : (n : ℝ) ≠ 0 := by positivity
  field_simp

/-! ### The probabilities -/

variable {Θ : Type}

theorem prob_get {delta u : ℝ} {pop : List (Particle Θ)} {ps : List ℝ} (h : Probabilities delta u pop ps) (i : Fin pop.length) :
    ps[i.1]'(by rw [h.1]; exact i.2) = Real.exp (-(delta * pop[i.1].x / u)) / ∑ j : Fin pop.length, Real.exp (-(delta * pop[j.1].x / u)) := by
  rw [h.2 i _ _ (List.getElem?_eq_getElem i.2) (List.getElem?_eq_getElem _), Fin.sum_univ_fun_getElem pop (fun b => Real.exp (-(delta * b.x / u)))]

theorem total_pos {delta u : ℝ} {pop : List (Particle Θ)} (hne : pop ≠ []) : 0 < ∑ j : Fin pop.length, Real.exp (-(delta * pop[j.1].x / u)) := by
  have : Nonempty (Fin pop.length) := ⟨⟨0, List.length_pos_iff.2 hne⟩⟩
  exact Finset.sum_pos (fun _ _ => Real.exp_pos _) Finset.univ_nonempty

theorem sum_get {delta u : ℝ} {pop : List (Particle Θ)} (hne : pop ≠ []) {ps : List ℝ} (h : Probabilities delta u pop ps) : ∑ i : Fin pop.length, ps[i.1]'(by rw [h.1]; exact i.2) = 1 := by
  simp only [prob_get h]
  rw [← Finset.sum_div, div_self (total_pos hne).ne']

/-- C230 for the probabilities with which a population is resampled, as they are in every run by C102: they are positive, their sum is one, and a particle with a smaller redefined distance does not have a smaller probability. -/
theorem C230_probabilities (delta u : ℝ) (hd : 0 ≤ delta) (hu : 0 < u) (pop : List (Particle Θ)) (hne : pop ≠ []) (ps : List ℝ) (h : Probabilities delta u pop ps) :
    (∀ p ∈ ps, 0 < p) ∧ ps.sum = 1 ∧
    ∀ (i j : Nat) (a b : Particle Θ) (p q : ℝ), pop[i]? = some a → pop[j]? = some b → ps[i]? = some p → ps[j]? = some q → a.x ≤ b.x → q ≤ p := by
  have hs : ps.sum = 1 := by
    rw [← sum_get hne h, ← Fin.sum_univ_getElem ps]
    exact Fintype.sum_equiv (finCongr h.1) _ _ fun i => rfl
  refine ⟨?_, hs, ?_⟩
  · intro p hp
    obtain ⟨i, hi, rfl⟩ := List.mem_iff_getElem.1 hp
    rw [prob_get h ⟨i, by rw [← h.1]; exact hi⟩]
    exact div_pos (Real.exp_pos _) (total_pos hne)
  · intro i j a b p q ha hb hp hq hab
    rw [h.2 i a p ha hp, h.2 j b q hb hq]
    refine div_le_div_of_nonneg_right (Real.exp_le_exp.2 ?_) ?_
    · have := div_le_div_of_nonneg_right (mul_le_mul_of_nonneg_left hab hd) hu.le
      linarith
    · rw [← Fin.sum_univ_fun_getElem pop (fun b => Real.exp (-(delta * b.x / u)))]
      exact (total_pos hne).le

/-- C230 for the effect of resampling: if the particles are drawn independently with these probabilities, as many as there were, their mean redefined distance is on average at most that before. The sum is over all possible outcomes `f` of the draws. -/
theorem C230_mean (delta u : ℝ) (hd : 0 ≤ delta) (hu : 0 < u) (pop : List (Particle Θ)) (hne : pop ≠ []) (ps : List ℝ) (h : Probabilities delta u pop ps) :
    ∑ f : Fin pop.length → Fin pop.length, (∏ i, ps[(f i).1]'(by rw [h.1]; exact (f i).2)) * meanX (List.ofFn fun i => pop[(f i).1]) ≤ meanX pop := by
  have hn : 0 < pop.length := List.length_pos_iff.2 hne
  have hm : ∀ f : Fin pop.length → Fin pop.length, meanX (List.ofFn fun i => pop[(f i).1]) = (∑ k, pop[(f k).1].x) / pop.length := by
    intro f
    rw [meanX, List.map_ofFn, List.sum_ofFn, List.length_ofFn]
    rfl
  simp only [hm]
  rw [draws_mean hn (fun i : Fin pop.length => ps[i.1]'(by rw [h.1]; exact i.2)) (fun i => pop[i.1].x) (sum_get hne h)]
  have hanti : Antivary (fun i : Fin pop.length => ps[i.1]'(by rw [h.1]; exact i.2)) (fun i => pop[i.1].x) := by
    intro i j hij
    exact (C230_probabilities delta u hd hu pop hne ps h).2.2 i j _ _ _ _ (List.getElem?_eq_getElem i.2) (List.getElem?_eq_getElem j.2) (List.getElem?_eq_getElem _) (List.getElem?_eq_getElem _) hij.le
  have := hanti.card_mul_sum_le_sum_mul_sum
  rw [sum_get hne h, one_mul, Fintype.card_fin] at this
  rw [meanX, ← Fin.sum_univ_fun_getElem pop Particle.x, le_div_iff₀ (by exact_mod_cast hn), mul_comm]
  exact this

/-- C230 for underflow: after the first step, where `u` is the mean redefined distance of the population, the probabilities do not all come from numbers that are too small for floating-point numbers: there is a
particle whose weight before normalising is at least `exp (- delta)`, and whose probability is at least `exp (- delta) / n`. -/
theorem C230_large (delta : ℝ) (hd : 0 ≤ delta) (pop : List (Particle Θ)) (hne : pop ≠ []) (hx : ∀ a ∈ pop, 0 ≤ a.x) (hu : 0 < meanX pop) (ps : List ℝ) (h : Probabilities delta (meanX pop) pop ps) :
    (∃ a ∈ pop, Real.exp (-delta) ≤ Real.exp (-(delta * a.x / meanX pop))) ∧ ∃ p ∈ ps, Real.exp (-delta) / pop.length ≤ p := by
  have hn : (0 : ℝ) < pop.length := by exact_mod_cast List.length_pos_iff.2 hne
  have hex : ∃ i : Fin pop.length, pop[i.1].x ≤ meanX pop := by
    by_contra hc
    push Not at hc
    have : Nonempty (Fin pop.length) := ⟨⟨0, List.length_pos_iff.2 hne⟩⟩
    have h1 : ∑ _i : Fin pop.length, meanX pop < ∑ i : Fin pop.length, pop[i.1].x := Finset.sum_lt_sum_of_nonempty Finset.univ_nonempty fun i _ => hc i
    rw [Finset.sum_const, Finset.card_univ, Fintype.card_fin, nsmul_eq_mul, Fin.sum_univ_fun_getElem pop Particle.x, meanX, mul_div_cancel₀ _ hn.ne'] at h1
    exact lt_irrefl _ h1
  obtain ⟨i, hi⟩ := hex
  have hle : Real.exp (-delta) ≤ Real.exp (-(delta * pop[i.1].x / meanX pop)) := by
    refine Real.exp_le_exp.2 (neg_le_neg ?_)
    rw [div_le_iff₀ hu]
    exact mul_le_mul_of_nonneg_left hi hd
  refine ⟨⟨_, List.getElem_mem i.2, hle⟩, _, List.getElem_mem (by rw [h.1]; exact i.2), ?_⟩
  rw [prob_get h i]
  refine div_le_div₀ (Real.exp_pos _).le hle (total_pos hne) ?_
  calc ∑ j : Fin pop.length, Real.exp (-(delta * pop[j.1].x / meanX pop)) ≤ ∑ _j : Fin pop.length, (1 : ℝ) :=
        Finset.sum_le_sum fun j _ => Real.exp_le_one_iff.2 (neg_nonpos.2 (div_nonneg (mul_nonneg hd (hx _ (List.getElem_mem j.2))) hu.le))
    _ = pop.length := by simp

/-! ### Runs -/

variable {W Y : Type}

theorem weights_valid (delta u : ℝ) (sm : List ℝ) (hne : sm ≠ []) : (weights delta u sm).length = sm.length ∧ (∀ p ∈ weights delta u sm, 0 < p) ∧ (weights delta u sm).sum = 1 := by
  have hpos : 0 < (sm.map fun x => Real.exp (-x * delta / u)).sum := by
    refine List.sum_pos _ ?_ (by simpa using hne)
    intro x hx
    obtain ⟨y, -, rfl⟩ := List.mem_map.1 hx
    exact Real.exp_pos _
  refine ⟨by simp [weights], ?_, ?_⟩
  · intro p hp
    simp only [weights, List.mem_map] at hp
    obtain ⟨x, ⟨y, -, rfl⟩, rfl⟩ := hp
    exact div_pos (Real.exp_pos _) hpos
  · simp only [weights]
    simp only [div_eq_mul_inv]
    rw [List.sum_map_mul_right, List.map_id', mul_inv_cancel₀]
    simpa only [div_eq_mul_inv] using hpos.ne'

theorem first_pick (env : Env W Θ Y) (q : Nat → List ℝ → List Nat) (eps : ℝ) (i : Nat) : ∀ (fuel : Nat) (w : W) (all : List ℝ) (k : Nat), first { env with pick := q } eps i fuel w all k = first env eps i fuel w all k
  | 0, _, _, _ => rfl
  | fuel + 1, w, all, k => by
    rw [first, first]
    simp only
    split
    · rfl
    · exact first_pick env q eps i fuel _ _ _

theorem finish_pick (env : Env W Θ Y) (c : Config) (q : Nat → List ℝ → List Nat) (hq : ∀ t ps, ps.length = c.n → (∀ p ∈ ps, 0 < p) → ps.sum = 1 → q t ps = env.pick t ps) (t : Nat) (u : ℝ) (s : State Θ) (hs : s.smooths.length = c.n) (hn : 0 < c.n) :
    finish { env with pick := q } c t u s = finish env c t u s := by
  obtain ⟨h1, h2, h3⟩ := weights_valid c.delta u s.smooths (List.ne_nil_of_length_pos (by omega))
  unfold finish
  simp only [hq t _ (h1.trans hs) h2 h3]

theorem step_pick (env : Env W Θ Y) (c : Config) (q : Nat → List ℝ → List Nat) (hq : ∀ t ps, ps.length = c.n → (∀ p ∈ ps, 0 < p) → ps.sum = 1 → q t ps = env.pick t ps) (fuel t : Nat) (start : List W) (s : State Θ)
    (hs : t ≠ 0 → s.smooths.length = c.n ∧ 0 < c.n) : step { env with pick := q } c fuel t start s = step env c fuel t start s := by
  unfold step
  by_cases ht : t = 0
  · simp only [if_pos ht, first_pick]
    split
    · rfl
    · rename_i hst
      push Not at hst
      split
      · rfl
      · rename_i out hout
        have hlen : out.length = start.length := by
          have := congrArg List.length ((collect_eq_some _ _).1 hout)
          simpa using this.symm
        split
        · rfl
        · rename_i p hp
          split
          · rfl
          · refine finish_pick env c q hq _ _ _ ?_ ?_
            · simp only [begin_, Option.map_eq_some_iff] at hp
              obtain ⟨sm, hsm, rfl⟩ := hp
              have := congrArg List.length ((collect_eq_some _ _).1 hsm)
              simp only [List.length_map] at this
              simp only
              omega
            · have := List.length_pos_iff.2 hst.2
              omega
  · simp only [if_neg ht, show (fun w => move { env with pick := q } fuel c.n s w) = fun w => move env fuel c.n s w from rfl]
    split
    · rfl
    · split
      · rfl
      · split
        · rfl
        · rename_i p hp
          split
          · rfl
          · refine finish_pick env c q hq _ _ _ ?_ (hs ht).2
            simp only [replace, Option.map_eq_some_iff] at hp
            obtain ⟨m, -, rfl⟩ := hp
            simp only [assign_length]
            exact (hs ht).1

theorem loop_pick (env : Env W Θ Y) (c : Config) (q : Nat → List ℝ → List Nat) (hq : ∀ t ps, ps.length = c.n → (∀ p ∈ ps, 0 < p) → ps.sum = 1 → q t ps = env.pick t ps) (fuel : Nat) (start : Nat → List W) :
    ∀ (k t : Nat) (s : State Θ), (t ≠ 0 → Ok env c s.all s.params s.distances s.smooths ∧ 0 < c.n) → loop { env with pick := q } c fuel start k t s = loop env c fuel start k t s
  | 0, _, _, _ => rfl
  | k + 1, t, s, hs => by
    rw [loop, loop, step_pick env c q hq fuel t (start t) s fun ht => ⟨(hs ht).1.smooths, (hs ht).2⟩]
    split
    · rfl
    · cases hst : step env c fuel t (start t) s with
      | none => rfl
      | some s' =>
        refine loop_pick env c q hq fuel start k (t + 1) s' fun _ => ⟨(step_spec env c fuel t (start t) s s' (fun ht => (hs ht).1) hst).1, ?_⟩
        by_cases ht : t = 0
        · unfold step at hst
          simp only [if_pos ht] at hst
          split at hst
          · cases hst
          · rename_i h
            push Not at h
            have := List.length_pos_iff.2 h.2
            omega
        · exact (hs ht).2

/-- C230 for runs: the random choice of resampling is made only with as many probabilities as there are samples, all positive and with sum one. What it would do with anything else (`rng.choice` raises) does not matter for any run. -/
theorem C230_run (env : Env W Θ Y) (c : Config) (q : Nat → List ℝ → List Nat) (hq : ∀ t ps, ps.length = c.n → (∀ p ∈ ps, 0 < p) → ps.sum = 1 → q t ps = env.pick t ps) (fuel : Nat) (start : Nat → List W) :
    run { env with pick := q } c fuel start = run env c fuel start :=
  loop_pick env c q hq fuel start c.steps 0 _ (by simp)

/-- Two particles with redefined distances 0 and 1/2, `delta` 1 and mean 1/4: the first has the larger probability. -/
example : ∃ ps, Probabilities 1 (1 / 4) [⟨(), 1, 0⟩, ⟨(), 2, 1 / 2⟩] ps ∧ meanX [(⟨(), 1, 0⟩ : Particle Unit), ⟨(), 2, 1 / 2⟩] = 1 / 4 ∧ ∃ p q, ps = [p, q] ∧ q < p := by
  refine ⟨[1 / (1 + Real.exp (-2)), Real.exp (-2) / (1 + Real.exp (-2))], ⟨rfl, ?_⟩, by norm_num [meanX], _, _, rfl, ?_⟩
  · intro i a p ha hp
    match i with
    | 0 => cases ha; cases hp; norm_num
    | 1 => cases ha; cases hp; norm_num
  · exact div_lt_div_of_pos_right (Real.exp_lt_one_iff.2 (by norm_num)) (by positivity)

open Classical in
/-- A run with resampling: the particle 3 moves to 2, then the particles 1, 2, 2 are resampled to 1, 1, 2, by a random choice that returns nothing unless the sum of the probabilities is one. -/
example : ∃ s, run { exEnv with choose := fun _ w => (w, 2), unif := fun w => (w, 0), pick := fun _ ps => if ps.sum = 1 then [0, 0, 1] else [] } ⟨3, 2, 1, 1, 1 / 10, 1, 0, false⟩ 1 (fun t => if t = 0 then [1, 2, 3] else [2]) = some s ∧
    s.params = [1, 1, 2] ∧ s.distances = [1, 1, 2] ∧ s.accept = 0 := by
  have key := C230_run { exEnv with choose := fun _ w => (w, 2), unif := fun w => (w, 0), pick := fun _ _ => [0, 0, 1] } ⟨3, 2, 1, 1, 1 / 10, 1, 0, false⟩ (fun _ ps => if ps.sum = 1 then [0, 0, 1] else [])
    (fun t ps _ _ h => if_pos h) 1 (fun t => if t = 0 then [1, 2, 3] else [2])
  simp only at key
  rw [key]
  set env : Env ℝ ℝ ℝ := { exEnv with choose := fun _ w => (w, 2), unif := fun w => (w, 0), pick := fun _ _ => [0, 0, 1] } with henv
  set c : Config := ⟨3, 2, 1, 1, 1 / 10, 1, 0, false⟩ with hc
  have hs1 : smooth [1, 2, 3] 1 = some 0 := by norm_num [smooth, smoothAt, List.min?]
  have hs2 : smooth [1, 2, 3] 2 = some (1 / 3) := by norm_num [smooth, smoothAt, List.min?]
  have hs3 : smooth [1, 2, 3] 3 = some (2 / 3) := by norm_num [smooth, smoothAt, List.min?]
  have first : step env c 1 0 [1, 2, 3] ⟨[], [], [], [], 1, 0, 0, [], 0, false⟩ = some ⟨[1, 2, 3], [1, 2, 3], [0, 1 / 3, 2 / 3], [1, 2, 3], 1, 0, 0, [([1, 2, 3], [1, 2, 3])], 3, false⟩ := by
    simp [step, hc, henv, Sabc.first, exEnv, collect, begin_, hs1, hs2, hs3, finish]
  have later : step env c 1 1 [2] ⟨[1, 2, 3], [1, 2, 3], [0, 1 / 3, 2 / 3], [1, 2, 3], 1, 0, 0, [([1, 2, 3], [1, 2, 3])], 3, false⟩ = some ⟨[1, 1, 2], [1, 1, 2], [0, 0, 1 / 3], [1, 2, 3], 1, 0, 0, [([1, 1, 2], [1, 1, 2])], 4, false⟩ := by
    simp [step, hc, henv, move, exEnv, propose, collect, replace, Real.exp_pos, assign, hs2, finish]
    norm_num [mean]
  unfold run
  rw [show c.steps = 0 + 1 + 1 from rfl, loop]
  simp only [Bool.false_eq_true, if_false, if_true, show c.eps = 1 from rfl, first]
  rw [loop]
  simp only [Bool.false_eq_true, if_false, Nat.zero_add, one_ne_zero, later, loop]
  exact ⟨_, rfl, rfl, rfl, rfl⟩

end Verif.Sabc
