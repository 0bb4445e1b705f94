import Verif.Journal.Model
import Mathlib.Algebra.BigOperators.Fin
import Mathlib.Algebra.BigOperators.Field
import Mathlib.Algebra.BigOperators.Ring.Finset
import Mathlib.Tactic.FieldSimp
import Mathlib.Data.Fintype.CardEmbedding
/-
C231: averages over a journal made by `Journal.resample`.
-/
namespace Verif.Journal.Bootstrap

variable {α : Type}

/-- Specification: the average of `h` over weighted particles; `h` is a component for the posterior mean. -/
noncomputable def Average (particles : List (List α)) (weights : List ℝ) (h : List α → ℝ) : ℝ :=
  (List.zipWith (fun w p => w * h p) weights particles).sum / weights.sum

/-! ### Independent draws -/

theorem draws_one {m n : Nat} (p x : Fin n → ℝ) (hp : ∑ i, p i = 1) (k : Fin m) : ∑ f : Fin m → Fin n, (∏ i, p (f i)) * x (f k) = ∑ j, p j * x j := by
  have h := Finset.sum_prod_piFinset (Finset.univ : Finset (Fin n)) (fun (i : Fin m) j => if i = k then p j * x j else p j)
  rw [Fintype.piFinset_univ] at h
  have h1 : ∀ f : Fin m → Fin n, (∏ i, p (f i)) * x (f k) = ∏ i, if i = k then p (f i) * x (f i) else p (f i) := by
    intro f
    rw [← Finset.mul_prod_erase _ _ (Finset.mem_univ k), ← Finset.mul_prod_erase Finset.univ (fun i => if i = k then p (f i) * x (f i) else p (f i)) (Finset.mem_univ k), if_pos rfl,
      Finset.prod_congr rfl (fun i hi => if_neg (Finset.ne_of_mem_erase hi))]
    ring
  simp only [h1, h]
  rw [← Finset.mul_prod_erase _ _ (Finset.mem_univ k), Finset.prod_eq_one]
  · simp
  · intro i hi
    simp only [Finset.ne_of_mem_erase hi, if_false, hp]

theorem draws_mean {m n : Nat} (hm : 0 < m) (p x : Fin n → ℝ) (hp : ∑ i, p i = 1) : ∑ f : Fin m → Fin n, (∏ i, p (f i)) * ((∑ k, x (f k)) / m) = ∑ j, p j * x j := by
  have h : ∀ f : Fin m → Fin n, (∏ i, p (f i)) * ((∑ k, x (f k)) / m) = (∑ k, (∏ i, p (f i)) * x (f k)) / m := by
    intro f
    rw [← Finset.mul_sum, mul_div_assoc]
  simp only [h]
  rw [← Finset.sum_div, Finset.sum_comm, Finset.sum_congr rfl (fun k _ => draws_one p x hp k), Finset.sum_const, Finset.card_univ, Fintype.card_fin, nsmul_eq_mul]
  have : (m : ℝ) ≠ 0 := by positivity
  field_simp

/-! ### Journals -/

theorem slices_some (boot : List (List α)) : ∀ (named : List (String × List (List α))) (start : Nat), (∀ e ∈ named, e.2 ≠ []) → ∃ l, renameSlices boot named start = some l
  | [], _, _ => ⟨[], rfl⟩
  | (name, col) :: rest, start, h => by
    cases hc : col with
    | nil => exact absurd hc (h (name, col) (by simp))
    | cons v col' =>
      obtain ⟨l, hl⟩ := slices_some boot rest (start + v.length) fun e he => h e (by simp [he])
      refine ⟨(name, boot.map fun p => (p.drop start).take v.length) :: l, ?_⟩
      simp only [renameSlices, List.head?_cons, hl]

/-- What `resample` returns for indices in the range. -/
theorem resample_ok (particles : List (List α)) (named : List (String × List (List α))) (hnamed : ∀ e ∈ named, e.2 ≠ []) (m : Nat) (replace : Bool) (hm : replace = false → m ≤ particles.length) (f : Fin m → Fin particles.length) :
    ∃ r, resample true (some particles.length) particles particles.length named (some m) replace (List.ofFn fun i => (f i).1) = .ok r ∧ r.particles = (List.ofFn fun i => particles[(f i).1]) ∧ r.weights = List.replicate m 1 := by
  have hc : collect ((List.ofFn fun i => (f i).1).map fun i => particles[i]?) = some (List.ofFn fun i => particles[(f i).1]) := by
    rw [collect_eq_some, List.map_ofFn, List.map_ofFn]
    congr 1
    funext i
    exact List.getElem?_eq_getElem (f i).2
  obtain ⟨l, hl⟩ := slices_some (List.ofFn fun i => particles[(f i).1]) named 0 hnamed
  refine ⟨⟨List.ofFn fun i => particles[(f i).1], List.replicate m 1, pyDict l⟩, ?_, rfl, rfl⟩
  simp only [resample, Option.getD_some, hc, hl]
  rw [if_neg (by rintro ⟨h1, h2⟩; have := hm h2; omega), if_neg (by simp), if_neg (by simp)]

theorem average_equal {m : Nat} (g : Fin m → List α) (h : List α → ℝ) : Average (List.ofFn g) ((List.replicate m 1).map fun k : Nat => (k : ℝ)) h = (∑ k, h (g k)) / m := by
  have : List.zipWith (fun w p => w * h p) ((List.replicate m 1).map fun k : Nat => (k : ℝ)) (List.ofFn g) = List.ofFn fun k => h (g k) := by
    apply List.ext_getElem
    · simp
    · intro i h1 h2
      simp
  rw [Average, this, List.sum_ofFn]
  simp

/-- C231 for resampling with replacement, to any number `m` of samples: on average over all outcomes `f` of the independent draws with the normalised weights, the average of `h` over the new, unweighted journal is the weighted average over the old one. -/
theorem C231_bootstrap_partial (particles : List (List α)) (weights : List ℝ) (hw : weights.length = particles.length) (hsum : weights.sum ≠ 0) (named : List (String × List (List α))) (hnamed : ∀ e ∈ named, e.2 ≠ []) (m : Nat) (hm : 0 < m)
    (h : List α → ℝ) : ∃ r : (Fin m → Fin particles.length) → Resampled α,
      (∀ f, resample true (some particles.length) particles weights.length named (some m) true (List.ofFn fun i => (f i).1) = .ok (r f)) ∧
      ∑ f : Fin m → Fin particles.length, (∏ i, weights[(f i).1]'(by rw [hw]; exact (f i).2) / weights.sum) * Average (r f).particles ((r f).weights.map fun k : Nat => (k : ℝ)) h = Average particles weights h := by
  have hr := fun f => resample_ok particles named hnamed m true (by simp) f
  choose r h1 h2 h3 using hr
  refine ⟨r, fun f => by rw [hw]; exact h1 f, ?_⟩
  simp only [h2, h3, average_equal]
  have hp : ∑ i : Fin particles.length, weights[i.1]'(by rw [hw]; exact i.2) / weights.sum = 1 := by
    rw [← Finset.sum_div]
    have : ∑ i : Fin particles.length, weights[i.1]'(by rw [hw]; exact i.2) = weights.sum := by
      rw [← Fin.sum_univ_getElem weights]
      exact (Fintype.sum_equiv (finCongr hw) _ _ fun i => rfl).symm
    rw [this, div_self hsum]
  rw [draws_mean hm (fun i : Fin particles.length => weights[i.1]'(by rw [hw]; exact i.2) / weights.sum) (fun i => h particles[i.1]) hp, Average]
  have hz : List.zipWith (fun w p => w * h p) weights particles = List.ofFn fun i : Fin particles.length => weights[i.1]'(by rw [hw]; exact i.2) * h particles[i.1] := by
    apply List.ext_getElem
    · simp [hw]
    · intro i h1 h2
      simp
  rw [hz, List.sum_ofFn, Finset.sum_div]
  exact Finset.sum_congr rfl fun i _ => by ring

/-- C231 fails for resampling without replacement: with as many samples as there are, every outcome of the draws has the unweighted average, whatever the weights. -/
theorem C231_subsample_violated (particles : List (List α)) (named : List (String × List (List α))) (hnamed : ∀ e ∈ named, e.2 ≠ []) (h : List α → ℝ) (f : Fin particles.length → Fin particles.length) (hf : Function.Injective f) :
    ∃ r, resample true (some particles.length) particles particles.length named (some particles.length) false (List.ofFn fun i => (f i).1) = .ok r ∧
      Average r.particles (r.weights.map fun k : Nat => (k : ℝ)) h = (particles.map h).sum / particles.length := by
  obtain ⟨r, h1, h2, h3⟩ := resample_ok particles named hnamed particles.length false (fun _ => le_rfl) f
  refine ⟨r, h1, ?_⟩
  rw [h2, h3, average_equal, ← Fin.sum_univ_fun_getElem particles h]
  congr 1
  exact Fintype.sum_bijective f (Finite.injective_iff_bijective.1 hf) _ _ fun i => rfl

/-- Two particles 0 and 1 with weights 3/4 and 1/4 have the average 1/4, and after resampling without replacement the average 1/2, in every case. -/
example (f : Fin 2 → Fin 2) (hf : Function.Injective f) : Average [[(0 : ℝ)], [1]] [3 / 4, 1 / 4] List.sum = 1 / 4 ∧
    ∃ r, resample true (some 2) [[(0 : ℝ)], [1]] 2 [("a", [[0], [1]])] (some 2) false (List.ofFn fun i => (f i).1) = .ok r ∧ Average r.particles (r.weights.map fun k : Nat => (k : ℝ)) List.sum = 1 / 2 := by
  refine ⟨by norm_num [Average], ?_⟩
  obtain ⟨r, h1, h2⟩ := C231_subsample_violated [[(0 : ℝ)], [1]] [("a", [[0], [1]])] (by simp) List.sum f hf
  exact ⟨r, h1, by rw [h2]; norm_num⟩

/-! ### The size of the error -/

theorem draws_two {m n : Nat} (p x : Fin n → ℝ) (hp : ∑ i, p i = 1) (k l : Fin m) (hkl : k ≠ l) : ∑ f : Fin m → Fin n, (∏ i, p (f i)) * (x (f k) * x (f l)) = (∑ j, p j * x j) ^ 2 := by
  have h := Finset.sum_prod_piFinset (Finset.univ : Finset (Fin n)) (fun (i : Fin m) j => p j * (if i = k then x j else 1) * (if i = l then x j else 1))
  rw [Fintype.piFinset_univ] at h
  have h1 : ∀ f : Fin m → Fin n, (∏ i, p (f i)) * (x (f k) * x (f l)) = ∏ i, p (f i) * (if i = k then x (f i) else 1) * (if i = l then x (f i) else 1) := by
    intro f
    rw [Finset.prod_mul_distrib, Finset.prod_mul_distrib, Finset.prod_ite_eq' Finset.univ k (fun i => x (f i)), Finset.prod_ite_eq' Finset.univ l (fun i => x (f i))]
    simp [mul_assoc]
  simp only [h1, h]
  rw [← Finset.mul_prod_erase _ _ (Finset.mem_univ k), ← Finset.mul_prod_erase _ _ (Finset.mem_erase.2 ⟨hkl.symm, Finset.mem_univ l⟩), Finset.prod_eq_one]
  · simp [hkl, hkl.symm, sq]
  · intro i hi
    simp only [Finset.mem_erase, Finset.mem_univ, and_true] at hi
    simp [hi.1, hi.2, hp]

/-- The mean of `m` independent draws has the variance of one draw, divided by `m`. -/
theorem draws_variance {m n : Nat} (hm : 0 < m) (p x : Fin n → ℝ) (hp : ∑ i, p i = 1) : ∑ f : Fin m → Fin n, (∏ i, p (f i)) * ((∑ k, x (f k)) / m - ∑ j, p j * x j) ^ 2 = (∑ j, p j * (x j - ∑ j, p j * x j) ^ 2) / m := by
  set μ := ∑ j, p j * x j with hμ
  have hm' : (m : ℝ) ≠ 0 := by positivity
  have hz : ∑ j, p j * (x j - μ) = 0 := by
    simp only [mul_sub, Finset.sum_sub_distrib, ← Finset.sum_mul, hp, one_mul]
    rw [← hμ, sub_self]
  have h1 : ∀ f : Fin m → Fin n, (∏ i, p (f i)) * ((∑ k, x (f k)) / m - μ) ^ 2 = (∑ k, ∑ l, (∏ i, p (f i)) * ((x (f k) - μ) * (x (f l) - μ))) / (m : ℝ) ^ 2 := by
    intro f
    have h2 : (∑ k, x (f k)) / m - μ = (∑ k, (x (f k) - μ)) / m := by
      rw [Finset.sum_sub_distrib, Finset.sum_const, Finset.card_univ, Fintype.card_fin, nsmul_eq_mul]
      field_simp
    simp only [← Finset.mul_sum]
    rw [h2, ← Finset.sum_mul, div_pow, sq (∑ k, (x (f k) - μ))]
    ring
  simp only [h1]
  rw [← Finset.sum_div, Finset.sum_comm]
  have h3 : ∀ k : Fin m, ∑ f : Fin m → Fin n, ∑ l, (∏ i, p (f i)) * ((x (f k) - μ) * (x (f l) - μ)) = ∑ j, p j * (x j - μ) ^ 2 := by
    intro k
    rw [Finset.sum_comm, Finset.sum_eq_single k]
    · rw [← draws_one p (fun j => (x j - μ) ^ 2) hp k]
      exact Finset.sum_congr rfl fun f _ => by rw [sq]
    · intro l _ hl
      rw [draws_two p (fun j => x j - μ) hp k l hl.symm, hz]
      norm_num
    · intro h
      exact absurd (Finset.mem_univ k) h
  rw [Finset.sum_congr rfl (fun k _ => h3 k), Finset.sum_const, Finset.card_univ, Fintype.card_fin, nsmul_eq_mul]
  field_simp

/-- C231 for the error of resampling with replacement: the mean squared difference between the average over the new journal and that over the old one is the weighted variance over the old journal, divided by the number of new samples. -/
theorem C231_error (particles : List (List α)) (weights : List ℝ) (hw : weights.length = particles.length) (hsum : weights.sum ≠ 0) (named : List (String × List (List α))) (hnamed : ∀ e ∈ named, e.2 ≠ []) (m : Nat) (hm : 0 < m)
    (h : List α → ℝ) : ∃ r : (Fin m → Fin particles.length) → Resampled α,
      (∀ f, resample true (some particles.length) particles weights.length named (some m) true (List.ofFn fun i => (f i).1) = .ok (r f)) ∧
      ∑ f : Fin m → Fin particles.length, (∏ i, weights[(f i).1]'(by rw [hw]; exact (f i).2) / weights.sum) * (Average (r f).particles ((r f).weights.map fun k : Nat => (k : ℝ)) h - Average particles weights h) ^ 2 =
        Average particles weights (fun p => (h p - Average particles weights h) ^ 2) / m := by
  have hr := fun f => resample_ok particles named hnamed m true (by simp) f
  choose r h1 h2 h3 using hr
  refine ⟨r, fun f => by rw [hw]; exact h1 f, ?_⟩
  have hp : ∑ i : Fin particles.length, weights[i.1]'(by rw [hw]; exact i.2) / weights.sum = 1 := by
    rw [← Finset.sum_div]
    have : ∑ i : Fin particles.length, weights[i.1]'(by rw [hw]; exact i.2) = weights.sum := by
      rw [← Fin.sum_univ_getElem weights]
      exact (Fintype.sum_equiv (finCongr hw) _ _ fun i => rfl).symm
    rw [this, div_self hsum]
  have hav : ∀ g : List α → ℝ, Average particles weights g = ∑ i : Fin particles.length, weights[i.1]'(by rw [hw]; exact i.2) / weights.sum * g particles[i.1] := by
    intro g
    have hz : List.zipWith (fun w p => w * g p) weights particles = List.ofFn fun i : Fin particles.length => weights[i.1]'(by rw [hw]; exact i.2) * g particles[i.1] := by
      apply List.ext_getElem
      · simp [hw]
      · intro i h1 h2
        simp
    rw [Average, hz, List.sum_ofFn, Finset.sum_div]
    exact Finset.sum_congr rfl fun i _ => by ring
  simp only [h2, h3, average_equal]
  rw [hav (fun p => (h p - Average particles weights h) ^ 2), hav h]
  exact draws_variance hm (fun i : Fin particles.length => weights[i.1]'(by rw [hw]; exact i.2) / weights.sum) (fun i => h particles[i.1]) hp

/-- The hypotheses of `C231_error` hold for the particles 0 and 1 with weights 3/4 and 1/4: with three new samples the mean squared error is (3/16) / 3. -/
example : ∃ r : (Fin 3 → Fin 2) → Resampled ℝ, ∑ f : Fin 3 → Fin 2, (∏ i, [3 / 4, 1 / 4][(f i).1] / (3 / 4 + 1 / 4 : ℝ)) * (Average (r f).particles ((r f).weights.map fun k : Nat => (k : ℝ)) List.sum - 1 / 4) ^ 2 = 1 / 16 := by
  obtain ⟨r, -, h⟩ := C231_error [[(0 : ℝ)], [1]] [3 / 4, 1 / 4] rfl (by norm_num) [("a", [[0], [1]])] (by simp) 3 (by norm_num) List.sum
  refine ⟨r, ?_⟩
  have h4 : Average [[(0 : ℝ)], [1]] [3 / 4, 1 / 4] List.sum = 1 / 4 := by norm_num [Average]
  have h5 : Average [[(0 : ℝ)], [1]] [3 / 4, 1 / 4] (fun p => (List.sum p - 1 / 4) ^ 2) / (3 : Nat) = 1 / 16 := by norm_num [Average]
  rw [h4, h5] at h
  simp only [List.sum_cons, List.sum_nil, add_zero] at h
  exact h

/-! ### Without replacement, equal weights -/

theorem embeddings_count {m n : Nat} (k : Fin m) (i j : Fin n) : (Finset.univ.filter fun f : Fin m ↪ Fin n => f k = i).card = (Finset.univ.filter fun f : Fin m ↪ Fin n => f k = j).card := by
  refine Finset.card_bij' (fun f _ => f.trans (Equiv.swap i j).toEmbedding) (fun f _ => f.trans (Equiv.swap i j).toEmbedding) ?_ ?_ ?_ ?_
  · intro f hf
    simp only [Finset.mem_filter, Finset.mem_univ, true_and] at hf
    simp [hf]
  · intro f hf
    simp only [Finset.mem_filter, Finset.mem_univ, true_and] at hf
    simp [hf]
  · intro f _
    ext l
    simp
  · intro f _
    ext l
    simp

theorem embeddings_one {m n : Nat} (x : Fin n → ℝ) (k : Fin m) (hn : 0 < n) : ∑ f : Fin m ↪ Fin n, x (f k) = (Fintype.card (Fin m ↪ Fin n) : ℝ) * ((∑ j, x j) / n) := by
  set c := (Finset.univ.filter fun f : Fin m ↪ Fin n => f k = ⟨0, hn⟩).card with hc
  have h1 : ∀ j, (Finset.univ.filter fun f : Fin m ↪ Fin n => f k = j).card = c := fun j => embeddings_count k j _
  have h2 : ∀ y : Fin n → ℝ, ∑ f : Fin m ↪ Fin n, y (f k) = c * ∑ j, y j := by
    intro y
    rw [← Finset.sum_fiberwise_of_maps_to (t := Finset.univ) (g := fun f : Fin m ↪ Fin n => f k) (fun f _ => Finset.mem_univ _), Finset.mul_sum]
    refine Finset.sum_congr rfl fun j _ => ?_
    rw [Finset.sum_congr rfl (fun f hf => by rw [(Finset.mem_filter.1 hf).2] : ∀ f ∈ Finset.univ.filter (fun f : Fin m ↪ Fin n => f k = j), y (f k) = y j), Finset.sum_const, h1, nsmul_eq_mul]
  have h3 := h2 fun _ => 1
  simp only [Finset.sum_const, Finset.card_univ, Fintype.card_fin, nsmul_eq_mul, mul_one] at h3
  have hn' : (n : ℝ) ≠ 0 := by positivity
  rw [h2 x, h3]
  field_simp

/-- C231 for resampling without replacement from a journal with equal weights, as those of RejectionABC and MCMC: on average over all outcomes, which are equally likely, the average of `h` over the new journal is that over the old one. -/
theorem C231_subsample_partial (particles : List (List α)) (w : ℝ) (hw : w ≠ 0) (named : List (String × List (List α))) (hnamed : ∀ e ∈ named, e.2 ≠ []) (m : Nat) (hm : 0 < m) (hmn : m ≤ particles.length)
    (h : List α → ℝ) : ∃ r : (Fin m ↪ Fin particles.length) → Resampled α,
      (∀ f, resample true (some particles.length) particles particles.length named (some m) false (List.ofFn fun i => (f i).1) = .ok (r f)) ∧
      (∑ f : Fin m ↪ Fin particles.length, Average (r f).particles ((r f).weights.map fun k : Nat => (k : ℝ)) h) / Fintype.card (Fin m ↪ Fin particles.length) = Average particles (List.replicate particles.length w) h := by
  have hr := fun f : Fin m ↪ Fin particles.length => resample_ok particles named hnamed m false (fun _ => hmn) f
  choose r h1 h2 h3 using hr
  refine ⟨r, h1, ?_⟩
  simp only [h2, h3, average_equal]
  have hn : 0 < particles.length := by omega
  rw [← Finset.sum_div, Finset.sum_comm, Finset.sum_congr rfl (fun k _ => embeddings_one (fun i : Fin particles.length => h particles[i.1]) k hn), Finset.sum_const, Finset.card_univ, Fintype.card_fin, nsmul_eq_mul,
    Fin.sum_univ_fun_getElem particles h]
  have hc : (Fintype.card (Fin m ↪ Fin particles.length) : ℝ) ≠ 0 := by
    have : Nonempty (Fin m ↪ Fin particles.length) := ⟨Fin.castLEEmb hmn⟩
    exact_mod_cast Fintype.card_ne_zero
  have hz : List.zipWith (fun w p => w * h p) (List.replicate particles.length w) particles = particles.map fun p => w * h p := by
    apply List.ext_getElem
    · simp
    · intro i h1 h2
      simp
  have hm' : (m : ℝ) ≠ 0 := by positivity
  have hn' : (particles.length : ℝ) ≠ 0 := by positivity
  rw [Average, hz, List.sum_map_mul_left, List.sum_replicate, nsmul_eq_mul]
  field_simp

/-- The hypotheses of `C231_bootstrap_partial` and `C231_subsample_partial` hold for the particles 0 and 1 with weights 3/4 and 1/4, and with equal weights, to one new sample. -/
example : (∃ r : (Fin 1 → Fin 2) → Resampled ℝ, ∑ f : Fin 1 → Fin 2, (∏ i, [3 / 4, 1 / 4][(f i).1] / (3 / 4 + 1 / 4 : ℝ)) * Average (r f).particles ((r f).weights.map fun k : Nat => (k : ℝ)) List.sum = 1 / 4) ∧
    ∃ r : (Fin 1 ↪ Fin 2) → Resampled ℝ, (∑ f : Fin 1 ↪ Fin 2, Average (r f).particles ((r f).weights.map fun k : Nat => (k : ℝ)) List.sum) / Fintype.card (Fin 1 ↪ Fin 2) = 1 / 2 := by
  constructor
  · obtain ⟨r, -, h⟩ := C231_bootstrap_partial [[(0 : ℝ)], [1]] [3 / 4, 1 / 4] rfl (by norm_num) [("a", [[0], [1]])] (by simp) 1 one_pos List.sum
    refine ⟨r, ?_⟩
    have h4 : Average [[(0 : ℝ)], [1]] [3 / 4, 1 / 4] List.sum = 1 / 4 := by norm_num [Average]
    rw [h4] at h
    simp only [List.sum_cons, List.sum_nil, add_zero] at h
    exact h
  · obtain ⟨r, -, h⟩ := C231_subsample_partial [[(0 : ℝ)], [1]] 1 one_ne_zero [("a", [[0], [1]])] (by simp) 1 one_pos (by simp) List.sum
    refine ⟨r, ?_⟩
    have h4 : Average [[(0 : ℝ)], [1]] (List.replicate 2 1) List.sum = 1 / 2 := by norm_num [Average, List.replicate]
    exact h.trans h4

end Verif.Journal.Bootstrap
