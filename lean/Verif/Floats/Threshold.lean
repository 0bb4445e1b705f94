import Verif.Floats.Summary
import Verif.Pmc.Model
/-
C219: the next threshold of PMCABC in floating-point arithmetic. As in `Verif.Floats.Basic`, overflow and underflow are left out.
-/
namespace Verif.Floats

open Verif.Pmc (Pop above)

variable (R : Rounding)

/-- How `np.percentile` interpolates since numpy 1.20: from the nearer one of the two numbers. -/
noncomputable def lerp (a b t : ℝ) : ℝ :=
  let d := R.r (b - a)
  if t < 1 / 2 then R.r (a + R.r (d * t)) else R.r (b - R.r (d * R.r (1 - t)))

/-- How `np.percentile` interpolated before numpy 1.20: the sum of the two numbers with weights. -/
noncomputable def lerpOld (a b t : ℝ) : ℝ := R.r (R.r (a * R.r (1 - t)) + R.r (b * t))

/-- `np.percentile(l, q)` (abcpy/inferences.py 904 and 907, 3029 and 3037) with the interpolation `interp`, every operation rounded. As `Verif.Pmc.percentile` otherwise. -/
noncomputable def percentileFl (interp : ℝ → ℝ → ℝ → ℝ) (l : List ℝ) (q : ℝ) : Option ℝ :=
  if q < 0 ∨ 100 < q then none
  else
    let s := l.insertionSort (· ≤ ·)
    let v := R.r (R.r (q / 100) * ((l.length : ℝ) - 1))
    let k := ⌊v⌋₊
    match s[k]?, s[k + 1]? with
    | none, _ => none
    | some a, none => some a
    | some a, some b => some (interp a b (R.r (v - k)))

theorem r_zero : R.r 0 = 0 := by have := R.err 0; simpa using this
theorem r_nonneg {x : ℝ} (h : 0 ≤ x) : 0 ≤ R.r x := by have := R.mono 0 x h; rwa [r_zero] at this

theorem lerp_between (h1 : R.Float 1) (a b t : ℝ) (ha : R.Float a) (hb : R.Float b) (hab : a ≤ b) (h0 : 0 ≤ t) (ht : t ≤ 1) : a ≤ lerp R a b t ∧ lerp R a b t ≤ b := by
  have u0 := u_nonneg R
  have us := R.small
  have d0 : 0 ≤ R.r (b - a) := r_nonneg R (by linarith)
  have dle : R.r (b - a) / 2 ≤ b - a := by
    have := R.err (b - a)
    rw [abs_of_nonneg (by linarith : 0 ≤ b - a)] at this
    have := (abs_le.1 this).2
    nlinarith
  have hhalf : R.r (R.r (b - a) / 2) = R.r (b - a) / 2 := by rw [half, R.idem]
  unfold lerp
  simp only
  split
  · rename_i hlt
    have p0 : 0 ≤ R.r (R.r (b - a) * t) := r_nonneg R (mul_nonneg d0 h0)
    have p1 : R.r (R.r (b - a) * t) ≤ R.r (b - a) / 2 := by
      rw [← hhalf]; exact R.mono _ _ (by nlinarith)
    constructor
    · have := R.mono a (a + R.r (R.r (b - a) * t)) (by linarith); rwa [ha] at this
    · have := R.mono (a + R.r (R.r (b - a) * t)) b (by linarith); rwa [hb] at this
  · rename_i hge
    have s0 : 0 ≤ R.r (1 - t) := r_nonneg R (by linarith)
    have s1 : R.r (1 - t) ≤ 1 / 2 := by
      have := R.mono (1 - t) (1 / 2) (by linarith)
      rwa [half, h1] at this
    have p0 : 0 ≤ R.r (R.r (b - a) * R.r (1 - t)) := r_nonneg R (mul_nonneg d0 s0)
    have p1 : R.r (R.r (b - a) * R.r (1 - t)) ≤ R.r (b - a) / 2 := by
      rw [← hhalf]; exact R.mono _ _ (by nlinarith)
    constructor
    · have := R.mono a (b - R.r (R.r (b - a) * R.r (1 - t))) (by linarith); rwa [ha] at this
    · have := R.mono (b - R.r (R.r (b - a) * R.r (1 - t))) b (by linarith); rwa [hb] at this

/-- C219, for one population: the threshold is a float between two of the distances. -/
theorem C219_between_partial (h1 : R.Float 1) (l : List ℝ) (hl : ∀ d ∈ l, R.Float d) (q x : ℝ) (h : percentileFl R (lerp R) l q = some x) :
    R.Float x ∧ (∃ d ∈ l, d ≤ x) ∧ ∃ d ∈ l, x ≤ d := by
  unfold percentileFl at h
  split at h
  · cases h
  rename_i hq
  rw [not_or, not_lt, not_lt] at hq
  simp only at h
  have hmem : ∀ y, y ∈ l.insertionSort (· ≤ ·) → y ∈ l := fun y hy => (List.perm_insertionSort (· ≤ ·) l).mem_iff.1 hy
  generalize hv : R.r (R.r (q / 100) * ((l.length : ℝ) - 1)) = v at h
  rcases ha : (l.insertionSort (· ≤ ·))[⌊v⌋₊]? with _ | a
  · rw [ha] at h; cases h
  rw [ha] at h
  have ma := hmem a (List.mem_of_getElem? ha)
  rcases hb : (l.insertionSort (· ≤ ·))[⌊v⌋₊ + 1]? with _ | b
  · rw [hb] at h
    simp only [Option.some.injEq] at h
    subst h
    exact ⟨hl a ma, ⟨a, ma, le_rfl⟩, a, ma, le_rfl⟩
  rw [hb] at h
  simp only [Option.some.injEq] at h
  have mb := hmem b (List.mem_of_getElem? hb)
  have hab : a ≤ b := by
    have hs := List.pairwise_insertionSort (· ≤ ·) l
    obtain ⟨i1, e1⟩ := List.getElem?_eq_some_iff.1 ha
    obtain ⟨i2, e2⟩ := List.getElem?_eq_some_iff.1 hb
    rw [← e1, ← e2]
    exact List.pairwise_iff_getElem.1 hs _ _ i1 i2 (Nat.lt_succ_self _)
  have hv0 : 0 ≤ v := by
    rw [← hv]
    refine r_nonneg R (mul_nonneg (r_nonneg R (by linarith [hq.1])) ?_)
    have : 1 ≤ l.length := List.length_pos_of_mem ma
    have : (1 : ℝ) ≤ l.length := by exact_mod_cast this
    linarith
  have t0 : 0 ≤ R.r (v - ⌊v⌋₊) := r_nonneg R (by linarith [Nat.floor_le hv0])
  have t1 : R.r (v - ⌊v⌋₊) ≤ 1 := by
    have := R.mono (v - ⌊v⌋₊) 1 (by linarith [Nat.lt_floor_add_one v]); rwa [h1] at this
  obtain ⟨l1, l2⟩ := lerp_between R h1 a b _ (hl a ma) (hl b mb) hab t0 t1
  rw [h] at l1 l2
  refine ⟨?_, ⟨a, ma, l1⟩, b, mb, l2⟩
  rw [← h]
  unfold lerp Rounding.Float
  simp only
  split <;> exact R.idem _

/-- C219, for runs: if the distances of every population are at most its threshold, and every later threshold is the percentile of the distances before, then the thresholds do not increase,
and every threshold has been met by one of the particles of the population before. -/
theorem C219_run_partial (h1 : R.Float 1) (q : ℝ) (eps : Nat → ℝ) (D : Nat → List ℝ) (hD : ∀ t, ∀ d ∈ D t, R.Float d ∧ d ≤ eps t)
    (h : ∀ t, percentileFl R (lerp R) (D t) q = some (eps (t + 1))) : Antitone eps ∧ ∀ t, ∃ d ∈ D t, d ≤ eps (t + 1) := by
  constructor
  · refine antitone_nat_of_succ_le fun t => ?_
    obtain ⟨-, -, d, hd, hx⟩ := C219_between_partial R h1 (D t) (fun d hd => (hD t d hd).1) q _ (h t)
    exact hx.trans (hD t d hd).2
  · intro t
    exact (C219_between_partial R h1 (D t) (fun d hd => (hD t d hd).1) q _ (h t)).2.1

theorem binary64_one : binary64.Float 1 := by
  have := fl_small 1 (by norm_num) (by norm_num)
  show fl 1 = 1
  simpa using this

theorem fl_three : fl 3 = 3 := by have := fl_small 3 (by norm_num) (by norm_num); simpa using this

/-- Equal distances give this distance. -/
theorem C219_equal_partial (l : List ℝ) (m : ℝ) (hm : fl m = m) (hl : ∀ d ∈ l, d = m) (q x : ℝ) (h : percentileFl binary64 (lerp binary64) l q = some x) : x = m := by
  obtain ⟨-, ⟨d, hd, h1⟩, d', hd', h2⟩ := C219_between_partial binary64 binary64_one l (fun d hd => by rw [hl d hd]; exact hm) q x h
  rw [hl d hd] at h1
  rw [hl d' hd'] at h2
  exact le_antisymm h2 h1

theorem sort_three : [(3 : ℝ), 3].insertionSort (· ≤ ·) = [3, 3] := by simp [List.insertionSort, List.orderedInsert]

/-- The number 0.3. -/
theorem fl_percent : fl (30 / 100) = 5404319552844595 * 2 ^ (-54 : ℤ) := by
  rw [fl_round (-54) 5404319552844595]
  · norm_num
  · norm_num
  · norm_num
  · apply nearest_of <;> norm_num

theorem fl_fixed (k : Nat) (h0 : 0 < k) (h2 : k ≤ 2 ^ 53) (e : ℤ) : fl (k * 2 ^ e) = k * 2 ^ e := fl_of k h0 h2 e

/-- The percentile of two equal distances in the interpolation before numpy 1.20. -/
theorem old_three : percentileFl binary64 (lerpOld binary64) [3, 3] 30 = some (6755399441055743 * 2 ^ (-51 : ℤ)) := by
  have hv : fl (5404319552844595 * 2 ^ (-54 : ℤ)) = 5404319552844595 * 2 ^ (-54 : ℤ) := by
    have := fl_of 5404319552844595 (by norm_num) (by norm_num) (-54); exact_mod_cast this
  have hfloor : ⌊(5404319552844595 * 2 ^ (-54 : ℤ) : ℝ)⌋₊ = 0 := Nat.floor_eq_zero.2 (by norm_num)
  have e1 : fl (1 - 5404319552844595 * 2 ^ (-54 : ℤ)) = 6305039478318694 * 2 ^ (-53 : ℤ) := by
    rw [fl_round (-53) 6305039478318694]
    · norm_num
    · norm_num
    · norm_num
    · unfold nearest
      have hf : ⌊((1 : ℝ) - 5404319552844595 * 2 ^ (-54 : ℤ)) / 2 ^ (-53 : ℤ)⌋ = 6305039478318694 := Int.floor_eq_iff.2 (by norm_num)
      rw [hf]; norm_num
  have e2 : fl (3 * (6305039478318694 * 2 ^ (-53 : ℤ))) = 4728779608739020 * 2 ^ (-51 : ℤ) := by
    rw [fl_round (-51) 4728779608739020]
    · norm_num
    · norm_num
    · norm_num
    · unfold nearest
      have hf : ⌊((3 : ℝ) * (6305039478318694 * 2 ^ (-53 : ℤ))) / 2 ^ (-51 : ℤ)⌋ = 4728779608739020 := Int.floor_eq_iff.2 (by norm_num)
      rw [hf]; norm_num
  have e3 : fl (3 * (5404319552844595 * 2 ^ (-54 : ℤ))) = 8106479329266892 * 2 ^ (-53 : ℤ) := by
    rw [fl_round (-53) 8106479329266892]
    · norm_num
    · norm_num
    · norm_num
    · unfold nearest
      have hf : ⌊((3 : ℝ) * (5404319552844595 * 2 ^ (-54 : ℤ))) / 2 ^ (-53 : ℤ)⌋ = 8106479329266892 := Int.floor_eq_iff.2 (by norm_num)
      rw [hf]; norm_num
  have e4 : fl (4728779608739020 * 2 ^ (-51 : ℤ) + 8106479329266892 * 2 ^ (-53 : ℤ)) = 6755399441055743 * 2 ^ (-51 : ℤ) := by
    have := fl_of 6755399441055743 (by norm_num) (by norm_num) (-51)
    norm_num at this ⊢; exact this
  unfold percentileFl
  rw [if_neg (by norm_num)]
  simp only [sort_three, show binary64.r = fl from rfl, fl_percent, List.length_cons, List.length_nil]
  norm_num only [Nat.cast_ofNat, Nat.cast_add, Nat.cast_one]
  rw [show ((5404319552844595 / 18014398509481984 : ℝ)) = 5404319552844595 * 2 ^ (-54 : ℤ) by norm_num, hv, hfloor]
  simp only [List.getElem?_cons_zero, List.getElem?_cons_succ, Nat.cast_zero, sub_zero, hv, lerpOld, show binary64.r = fl from rfl, e1, e2, e3, e4, zero_add]
  norm_num

theorem far_off {W Θ Y : Type} (env : Pmc.Env W Θ Y) (eps : ℝ) (pop : Option (Pop Θ)) (hd : ∀ y, eps < env.dist y) (fuel : Nat) (w : W) (θ : Θ) (d : Option ℝ) (c : Nat)
    (h : above d eps = true) : Pmc.resampleLoop env eps pop fuel w θ d c = none := by
  induction fuel generalizing w θ d c with
  | zero => rfl
  | succ fuel ih =>
    cases pop with
    | none => rw [Pmc.resampleLoop, if_pos h]; exact ih _ _ _ _ (by simp [above, hd])
    | some p =>
      rw [Pmc.resampleLoop, if_pos h]
      simp only
      split
      · rfl
      · exact ih _ _ _ _ (by simp [above, hd])

/-- C219 is violated with versions of numpy before 1.20, which `requirements.txt` does not exclude: two particles at distance 3 and the percentile 30 give a threshold less than 3. If all data
sets have distance 3, then no worker ever returns from the next step. -/
theorem C219_old_violated : ∃ x, percentileFl binary64 (lerpOld binary64) [3, 3] 30 = some x ∧ x < 3 ∧
    ∀ (W Θ Y : Type) (env : Pmc.Env W Θ Y), env.distMax = none → (∀ y, env.dist y = 3) → ∀ pop fuel w, Pmc.resampleTask env x pop fuel w = none := by
  refine ⟨_, old_three, by norm_num, ?_⟩
  intro W Θ Y env hmax hd pop fuel w
  unfold Pmc.resampleTask
  rw [far_off env _ pop (fun y => by rw [hd]; norm_num) fuel w _ _ 0 (by rw [hmax]; rfl)]

/-- With the interpolation of later versions the threshold is 3. -/
example (x : ℝ) (h : percentileFl binary64 (lerp binary64) [3, 3] 30 = some x) : x = 3 :=
  C219_equal_partial _ 3 fl_three (by simp) 30 x h

/-- And there is a threshold. -/
example : ∃ x, percentileFl binary64 (lerp binary64) [3, 3] 30 = some x := by
  have hv : fl (5404319552844595 * 2 ^ (-54 : ℤ)) = 5404319552844595 * 2 ^ (-54 : ℤ) := by
    have := fl_of 5404319552844595 (by norm_num) (by norm_num) (-54); exact_mod_cast this
  have hfloor : ⌊(5404319552844595 * 2 ^ (-54 : ℤ) : ℝ)⌋₊ = 0 := Nat.floor_eq_zero.2 (by norm_num)
  unfold percentileFl
  rw [if_neg (by norm_num)]
  simp only [sort_three, show binary64.r = fl from rfl, fl_percent, List.length_cons, List.length_nil]
  norm_num only [Nat.cast_ofNat, Nat.cast_add, Nat.cast_one]
  rw [show ((5404319552844595 / 18014398509481984 : ℝ)) = 5404319552844595 * 2 ^ (-54 : ℤ) by norm_num, hv, hfloor]
  exact ⟨_, rfl⟩

theorem fl_two_pow (e : ℤ) : fl (2 ^ e) = 2 ^ e := by have := fl_of 1 (by norm_num) (by norm_num) e; simpa using this

/-- Half of the particles meet the next threshold in every step: the distances 1, 2 and 3 in units of `2 ^ e` have the median 2. -/
theorem median_three (e : ℤ) : percentileFl binary64 (lerp binary64) [3 * 2 ^ e, 1 * 2 ^ e, 2 * 2 ^ e] 50 = some (2 * 2 ^ e) := by
  have hp : (0 : ℝ) < 2 ^ e := by positivity
  have hs : [3 * (2 : ℝ) ^ e, 1 * 2 ^ e, 2 * 2 ^ e].insertionSort (· ≤ ·) = [1 * 2 ^ e, 2 * 2 ^ e, 3 * 2 ^ e] := by
    simp [List.insertionSort, List.orderedInsert, hp]
    norm_num [hp.not_ge, mul_le_mul_iff_left₀ hp]
  have hh : fl (50 / 100) = 1 / 2 := by
    rw [show (50 / 100 : ℝ) = 2 ^ (-1 : ℤ) by norm_num, fl_two_pow]; norm_num
  have h1 : fl 1 = 1 := binary64_one
  have h0 : fl 0 = 0 := r_zero binary64
  have h2 : fl (2 * 2 ^ e) = 2 * 2 ^ e := by have := fl_of 2 (by norm_num) (by norm_num) e; exact_mod_cast this
  unfold percentileFl
  rw [if_neg (by norm_num)]
  simp only [hs, show binary64.r = fl from rfl, hh, List.length_cons, List.length_nil]
  norm_num [h1, h0, lerp, show binary64.r = fl from rfl, h2]

example : Antitone (fun t : Nat => 2 * (2 : ℝ) ^ (1 - t : ℤ)) ∧ ∀ t : Nat, ∃ d ∈ [3 * (2 : ℝ) ^ (-t : ℤ), 1 * 2 ^ (-t : ℤ), 2 * 2 ^ (-t : ℤ)], d ≤ 2 * (2 : ℝ) ^ (1 - ((t + 1 : Nat) : ℤ)) := by
  refine C219_run_partial binary64 binary64_one 50 _ (fun t : Nat => [3 * (2 : ℝ) ^ (-t : ℤ), 1 * 2 ^ (-t : ℤ), 2 * 2 ^ (-t : ℤ)]) ?_ ?_
  · intro t d hd
    have hp : (0 : ℝ) < 2 ^ (-t : ℤ) := by positivity
    have he : (2 : ℝ) * 2 ^ (1 - t : ℤ) = 4 * 2 ^ (-t : ℤ) := by
      rw [sub_eq_add_neg, zpow_add₀ (by norm_num)]; norm_num; ring
    simp only [List.mem_cons, List.not_mem_nil, or_false] at hd
    rw [he]
    rcases hd with rfl | rfl | rfl
    · have := fl_of 3 (by norm_num) (by norm_num) (-t)
      exact ⟨by exact_mod_cast this, by linarith⟩
    · have := fl_of 1 (by norm_num) (by norm_num) (-t)
      exact ⟨by exact_mod_cast this, by linarith⟩
    · have := fl_of 2 (by norm_num) (by norm_num) (-t)
      exact ⟨by exact_mod_cast this, by linarith⟩
  · intro t
    rw [median_three]
    congr 3
    push_cast
    ring

end Verif.Floats
