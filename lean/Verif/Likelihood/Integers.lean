import Verif.Likelihood.Model
import Mathlib.Data.Real.Archimedean
/-
C150: statistics that are stored as integers. `np.zeros_like` of an array of integers is an array of integers, and a number written into it loses its fractional part. `SemiParametricSynLikelihood`
keeps the densities, the values of the distribution functions and the ranks in such arrays (approx_lhd.py 242, 243, 291). The statistics are integers if the data are, as for
`Identity` without rescaling and degree one (statistics.py 196-220, 231-255).
-/
namespace Verif.Likelihood

open Matrix

/-- A number after it has been written into an array of integers (`true`) or of floating point numbers: the integer part towards zero. -/
noncomputable def kept (ints : Bool) (r : ℝ) : ℝ := if ints then (if 0 ≤ r then (⌊r⌋ : ℝ) else (⌈r⌉ : ℝ)) else r

/-- `rqnorm` (291-295); `ints`: the simulated statistics are integers. -/
noncomputable def scoreKept {d : Nat} (ints : Bool) (ppf : ℝ → ℝ) (x : List (Vec d)) (r : Vec d) : Vec d := fun j =>
  ppf (kept ints (rank (x.map fun q => q j) (r j)) / ((x.length : ℝ) + 1))

/-- `_estimate_gaussian_correlation` (276-304), as `correlation`, with the array of ranks as it is stored. -/
noncomputable def correlationKept {d : Nat} (ints : Bool) (ppf : ℝ → ℝ) (dict : Denominators) (x : List (Vec d)) :
    Option (Matrix (Fin d) (Fin d) ℝ) × Denominators :=
  let dict := match dict.lookup x.length with
    | some _ => dict
    | none => (x.length, denominator ppf x.length) :: dict
  match dict.lookup x.length with
  | none => (none, dict)
  | some den =>
    if den = 0 then (none, dict)
    else (some fun i j => (x.map fun r => scoreKept ints ppf x r i * scoreKept ints ppf x r j).sum / den, dict)

/-- `SemiParametricSynLikelihood.loglikelihood` (219-274), as `semiparametric`, with the arrays of densities, of values of the distribution functions and of ranks as they are stored. -/
noncomputable def semiparametricKept {d : Nat} (obsInts simInts : Bool) (ppf : ℝ → ℝ) (kde : Marginal) (dict : Denominators) (obs sim : List (Vec d)) :
    Option ℝ × Denominators :=
  open Classical in
  if d < 2 then (none, dict)
  else
    let u := fun (x : Vec d) (j : Fin d) => kept obsInts (kde.cdf (sim.map fun r => r j) (x j))
    if ∃ x ∈ obs, ∃ j, u x j ≤ 0 ∨ 1 ≤ u x j then (none, dict)
    else
      match correlationKept simInts ppf dict sim with
      | (none, dict) => (none, dict)
      | (some R, dict) =>
        if R.det = 0 then (none, dict)
        else
          let eta := fun (x : Vec d) (j : Fin d) => ppf (u x j)
          let marginals := (obs.map fun x => ∑ j, kept obsInts (kde.logpdf (sim.map fun r => r j) (x j))).sum
          let copula := (obs.map fun x => -(1 / 2) * quad (R⁻¹ - 1) (eta x)).sum
          (some (marginals + (copula + 1 / 2 * obs.length * Real.log R⁻¹.det)), dict)

/-- What an array of integers keeps of a number: the integer between zero and the number that is nearest to the number. -/
theorem C150_truncated (r : ℝ) : ∃ k : ℤ, kept true r = k ∧ |r - k| < 1 ∧ ((0 ≤ r ∧ 0 ≤ k ∧ (k : ℝ) ≤ r) ∨ (r < 0 ∧ k ≤ 0 ∧ r ≤ k)) := by
  by_cases h : 0 ≤ r
  · refine ⟨⌊r⌋, by simp [kept, h], ?_, .inl ⟨h, Int.floor_nonneg.2 h, Int.floor_le r⟩⟩
    rw [abs_lt]
    constructor <;> linarith [Int.floor_le r, Int.lt_floor_add_one r]
  · have h' : r < 0 := not_le.1 h
    refine ⟨⌈r⌉, by simp [kept, h], ?_, .inr ⟨h', Int.ceil_le.2 (by simpa using h'.le), Int.le_ceil r⟩⟩
    rw [abs_lt]
    constructor <;> linarith [Int.le_ceil r, Int.ceil_lt_add_one r]

theorem kept_nat (ints : Bool) (n : Nat) : kept ints n = n := by
  cases ints <;> simp [kept]

theorem filter_eq_single {x : List ℝ} (hx : x.Nodup) {v : ℝ} (hv : v ∈ x) (p : ℝ → Bool) (hp : ∀ u, p u = true ↔ u = v) : x.filter p = [v] := by
  induction x with
  | nil => cases hv
  | cons a x ih =>
    rw [List.nodup_cons] at hx
    by_cases ha : a = v
    · subst ha
      rw [List.filter_cons_of_pos ((hp _).2 rfl), List.filter_eq_nil_iff.2]
      intro u hu hpu
      rw [(hp u).1 hpu] at hu
      exact hx.1 hu
    · rw [List.filter_cons_of_neg (by rw [hp]; exact ha), ih hx.2]
      rcases List.mem_cons.1 hv with h | h
      · exact absurd h.symm ha
      · exact h

/-- Without ties the ranks are whole numbers, which an array of integers can hold. -/
theorem kept_rank (ints : Bool) (x : List ℝ) (hx : x.Nodup) (v : ℝ) (hv : v ∈ x) : kept ints (rank x v) = rank x v := by
  classical
  have h1 : (x.filter fun u => decide (u = v)) = [v] := filter_eq_single hx hv _ (by simp)
  have h2 : rank x v = (((x.filter fun u => decide (u < v)).length + 1 : ℕ) : ℝ) := by
    unfold rank
    rw [show (x.filter fun u => @decide (u = v) (Classical.propDecidable _)) = [v] from filter_eq_single hx hv _ (by simp)]
    simp only [List.length_singleton]
    push_cast
    congr 1
    norm_num
  rw [h2, kept_nat]

theorem correlationKept_eq {d : Nat} (ints : Bool) (ppf : ℝ → ℝ) (dict : Denominators) (x : List (Vec d))
    (h : ints = true → ∀ j, (x.map fun r => r j).Nodup) : correlationKept ints ppf dict x = correlation ppf dict x := by
  have hs : ∀ r ∈ x, ∀ j, scoreKept ints ppf x r j = normalScore ppf x r j := by
    intro r hr j
    unfold scoreKept normalScore
    cases ints with
    | false => simp [kept]
    | true => rw [kept_rank true _ (h rfl j) _ (List.mem_map.2 ⟨r, hr, rfl⟩)]
  have hm : (fun i j => (x.map fun r => scoreKept ints ppf x r i * scoreKept ints ppf x r j).sum) =
      fun i j => (x.map fun r => normalScore ppf x r i * normalScore ppf x r j).sum := by
    funext i j
    congr 1
    exact List.map_congr_left fun r hr => by rw [hs r hr i, hs r hr j]
  have hm' : ∀ i j, (x.map fun r => scoreKept ints ppf x r i * scoreKept ints ppf x r j).sum =
      (x.map fun r => normalScore ppf x r i * normalScore ppf x r j).sum := fun i j => congrFun (congrFun hm i) j
  unfold correlationKept correlation
  simp only [hm']
  rfl

/-- C150, if the observed statistics are floating point numbers, and the simulated ones are too or have no ties: the value is that of the formula. -/
theorem C150_partial {d : Nat} (simInts : Bool) (ppf : ℝ → ℝ) (kde : Marginal) (dict : Denominators) (obs sim : List (Vec d))
    (h : simInts = true → ∀ j, (sim.map fun r => r j).Nodup) :
    semiparametricKept false simInts ppf kde dict obs sim = semiparametric ppf kde dict obs sim := by
  unfold semiparametricKept semiparametric
  rw [correlationKept_eq simInts ppf dict sim h]
  simp only [kept, Bool.false_eq_true, if_false]
  rfl

theorem kept_unit (r : ℝ) (h0 : 0 ≤ r) (h1 : r < 1) : kept true r = 0 := by
  simp only [kept, if_true, h0]
  have : ⌊r⌋ = 0 := Int.floor_eq_zero_iff.2 ⟨h0, h1⟩
  simp [this]

/-- C150 fails for observed statistics that are integers: there is no finite value, whatever the simulations are, although distribution functions have values between zero and one. -/
theorem C150_violated {d : Nat} (simInts : Bool) (ppf : ℝ → ℝ) (kde : Marginal) (hk : ∀ c x, 0 < kde.cdf c x ∧ kde.cdf c x < 1) (dict : Denominators) (obs sim : List (Vec d)) (hobs : obs ≠ []) :
    (semiparametricKept true simInts ppf kde dict obs sim).1 = none := by
  unfold semiparametricKept
  by_cases hd : d < 2
  · rw [if_pos hd]
  · rw [if_neg hd]
    simp only
    rw [if_pos]
    obtain ⟨x, hx⟩ := List.exists_mem_of_ne_nil obs hobs
    exact ⟨x, hx, ⟨0, by omega⟩, .inl (by rw [kept_unit _ (hk _ _).1.le (hk _ _).2])⟩

/-- C150 fails for simulated statistics that are integers with ties: two equal simulations should have the scores of the rank 3/2, the median, and have those of the rank 1. -/
theorem C150_ties_violated {d : Nat} (ppf : ℝ → ℝ) (hp : StrictMono ppf) (r : Vec d) (j : Fin d) :
    scoreKept false ppf [r, r] r j = ppf (1 / 2) ∧ scoreKept true ppf [r, r] r j = ppf (1 / 3) ∧ scoreKept true ppf [r, r] r j < scoreKept false ppf [r, r] r j := by
  have hr : rank ([r, r].map fun q => q j) (r j) = 3 / 2 := by
    simp [rank]
    norm_num
  have h1 : scoreKept false ppf [r, r] r j = ppf (1 / 2) := by
    unfold scoreKept
    rw [hr]
    simp only [kept, Bool.false_eq_true, if_false]
    norm_num
  have h2 : scoreKept true ppf [r, r] r j = ppf (1 / 3) := by
    unfold scoreKept
    rw [hr]
    have : ⌊(3 / 2 : ℝ)⌋ = 1 := by rw [Int.floor_eq_iff]; norm_num
    simp only [kept, if_true, this]
    norm_num
  exact ⟨h1, h2, by rw [h1, h2]; exact hp (by norm_num)⟩

/-- The hypotheses can hold: a kernel estimate with values strictly between zero and one, and simulations without ties. -/
example : (∀ (c : List ℝ) (x : ℝ), 0 < (⟨fun _ _ => 0, fun _ _ => 1 / 2⟩ : Marginal).cdf c x ∧ (⟨fun _ _ => 0, fun _ _ => 1 / 2⟩ : Marginal).cdf c x < 1) ∧
    ∀ j, (([![0, 1], ![1, 0], ![2, 5]] : List (Vec 2)).map fun r => r j).Nodup := by
  refine ⟨fun _ _ => by norm_num, fun j => ?_⟩
  fin_cases j <;> simp

end Verif.Likelihood
