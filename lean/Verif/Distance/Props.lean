import Verif.Distance.Lemmas
import Verif.Distance.CacheProps
import Mathlib.Tactic.NormNum

/-!
# C59, C60: the Euclidean, MMD and energy distances

Data sets are given by their arrays of summary statistics, of any size and width.
-/

namespace Verif.Distance

open Classical

/-! ## Specification -/

/-- Two arrays that a distance can be computed for: the same width and at least one row each. -/
structure Pair (s1 s2 : Stats) : Prop where
  rect1 : s1.Rect
  rect2 : s2.Rect
  width : s1.width = s2.width
  ne1 : s1.rows ≠ []
  ne2 : s2.rows ≠ []

/-- The Euclidean metric of ℝ^d between row `i` of one array and row `j` of another. -/
noncomputable def rowDist (s1 s2 : Stats) (i : Fin s1.rows.length) (j : Fin s2.rows.length) : ℝ :=
  dist (WithLp.toLp 2 fun l : Fin s1.width => (s1.rows[i.1]).getD l 0 : EuclideanSpace ℝ (Fin s1.width))
    (WithLp.toLp 2 fun l : Fin s1.width => (s2.rows[j.1]).getD l 0)

/-- A kernel is positive semi-definite on rows of length `d`. -/
def PosSemi (d : Nat) (k : Row → Row → ℝ) : Prop :=
  ∀ (N : Nat) (x : Fin N → Row) (c : Fin N → ℝ), (∀ i, (x i).length = d) →
    0 ≤ ∑ i, ∑ j, c i * c j * k (x i) (x j)

/-- A kernel is symmetric on rows of length `d`. -/
def Symm (d : Nat) (k : Row → Row → ℝ) : Prop :=
  ∀ a b : Row, a.length = d → b.length = d → k a b = k b a

/-! ## C59 -/

/-- C59, the value: the mean over all pairs of rows of their Euclidean distance. -/
theorem C59_mean (s1 s2 : Stats) (h : Pair s1 s2) :
    euclidean s1 s2 = some ((∑ i, ∑ j, rowDist s1 s2 i j) / (s1.rows.length * s2.rows.length)) := by
  have l1 : s1.rows.length ≠ 0 := by simpa using h.ne1
  have l2 : s2.rows.length ≠ 0 := by simpa using h.ne2
  rw [euclidean, if_neg (by simp [h.ne1, h.ne2]), total_fin]
  congr 2
  · refine Finset.sum_congr rfl fun i _ => Finset.sum_congr rfl fun j _ => ?_
    exact euclid_eq_dist s1.width _ _ (h.rect1 _ (List.getElem_mem _)) (h.width ▸ h.rect2 _ (List.getElem_mem _))
  · push_cast; rfl

/-- C59: the Euclidean distance between two data sets exists, is non-negative, symmetric and at most
the declared maximum; it is zero exactly when every row of one equals every row of the other. In
particular it is zero when all statistics coincide and positive when they never do. -/
theorem C59 (s1 s2 : Stats) (h : Pair s1 s2) : ∃ v : ℝ,
    euclidean s1 s2 = some v ∧ euclidean s2 s1 = some v ∧ 0 ≤ v ∧ (v : EReal) ≤ distMaxInfinite ∧
    (v = 0 ↔ ∀ a ∈ s1.rows, ∀ b ∈ s2.rows, a = b) := by
  have l1 : s1.rows.length ≠ 0 := by simpa using h.ne1
  have l2 : s2.rows.length ≠ 0 := by simpa using h.ne2
  have hpos : (0 : ℝ) < ((s1.rows.length * s2.rows.length : Nat) : ℝ) := by
    exact_mod_cast Nat.mul_pos (Nat.pos_of_ne_zero l1) (Nat.pos_of_ne_zero l2)
  refine ⟨total (s1.rows.map fun a => s2.rows.map fun b => euclid a b) / ((s1.rows.length * s2.rows.length : Nat) : ℝ),
    ?_, ?_, ?_, le_top, ?_⟩
  · rw [euclidean, if_neg (by simp [h.ne1, h.ne2])]
  · rw [euclidean, if_neg (by simp [h.ne1, h.ne2]), total_comm]
    simp only [euclid_comm]
    rw [mul_comm s1.rows.length]
  · apply div_nonneg _ hpos.le
    rw [total_fin]
    exact Finset.sum_nonneg fun _ _ => Finset.sum_nonneg fun _ _ => euclid_nonneg _ _
  · rw [div_eq_zero_iff, or_iff_left hpos.ne', total_fin,
      Finset.sum_eq_zero_iff_of_nonneg fun _ _ => Finset.sum_nonneg fun _ _ => euclid_nonneg _ _]
    have hz : ∀ a ∈ s1.rows, ∀ b ∈ s2.rows, (euclid a b = 0 ↔ a = b) := fun a ha b hb =>
      euclid_eq_zero s1.width a b (h.rect1 a ha) (h.width ▸ h.rect2 b hb)
    constructor
    · intro hall a ha b hb
      obtain ⟨i, hi, rfl⟩ := List.mem_iff_getElem.1 ha
      obtain ⟨j, hj, rfl⟩ := List.mem_iff_getElem.1 hb
      have h1 := hall ⟨i, hi⟩ (Finset.mem_univ _)
      rw [Finset.sum_eq_zero_iff_of_nonneg fun _ _ => euclid_nonneg _ _] at h1
      exact (hz _ ha _ hb).1 (h1 ⟨j, hj⟩ (Finset.mem_univ _))
    · intro hall i _
      exact Finset.sum_eq_zero fun j _ =>
        (hz _ (List.getElem_mem _) _ (List.getElem_mem _)).2 (hall _ (List.getElem_mem _) _ (List.getElem_mem _))

/-- C59, empty data: the mean over pairs of rows is a number exactly when both data sets have a row. -/
theorem C59_exists (s1 s2 : Stats) : (euclidean s1 s2).isSome ↔ s1.rows ≠ [] ∧ s2.rows ≠ [] := by
  rw [euclidean]
  split <;> rename_i h <;> simp_all <;> tauto

/-- Two arrays with two and one rows of width two. -/
example : Pair ⟨2, [[0, 0], [3, 4]]⟩ ⟨2, [[0, 0]]⟩ ∧ euclidean ⟨2, [[0, 0], [3, 4]]⟩ ⟨2, [[0, 0]]⟩ = some (5 / 2) := by
  refine ⟨⟨by simp [Stats.Rect], by simp [Stats.Rect], rfl, by simp, by simp⟩, ?_⟩
  have h : Real.sqrt 25 = 5 := by rw [show (25 : ℝ) = 5 ^ 2 by norm_num]; exact Real.sqrt_sq (by norm_num)
  simp [euclidean, total, euclid]
  norm_num [h]

/-! ## C60 -/

theorem PosSemi.any {d : Nat} {k : Row → Row → ℝ} (h : PosSemi d k) {ι : Type} [Fintype ι] (x : ι → Row) (c : ι → ℝ)
    (hx : ∀ i, (x i).length = d) : 0 ≤ form k x c := by
  have e := Fintype.equivFin ι
  have := h (Fintype.card ι) (fun i => x (e.symm i)) (fun i => c (e.symm i)) fun i => hx _
  rw [form]
  refine this.trans_eq ?_
  refine Fintype.sum_equiv e.symm _ _ fun i => ?_
  exact Fintype.sum_equiv e.symm _ _ fun j => rfl

theorem self_eq_gram (k : KernelArg) (s : Stats) (hs : s.Rect) (hk : Symm s.width k.fn) :
    k.self s.rows = gram k.fn s.rows s.rows := by
  cases k with
  | gaussian sigma => rfl
  | callable k => exact gramSelf_eq k _ fun a ha b hb => hk a b (hs a ha) (hs b hb)

theorem mmd_biased_form (k : KernelArg) (s1 s2 : Stats) (h : Pair s1 s2) (hk : Symm s1.width k.fn) :
    mmd k true s1 s2 = some (form k.fn (pooled s1.rows s2.rows) (vweights s1.rows.length s2.rows.length)) := by
  rw [mmd]
  simp only [if_true]
  rw [self_eq_gram k s1 h.rect1 hk, self_eq_gram k s2 h.rect2 (h.width ▸ hk)]
  exact mmdV_form k.fn _ _ h.ne1 h.ne2 fun a ha b hb => hk a b (h.rect1 a ha) (h.width ▸ h.rect2 b hb)

theorem pooled_length {s1 s2 : Stats} (h : Pair s1 s2) (p) : (pooled s1.rows s2.rows p).length = s1.width := by
  cases p with
  | inl i => exact h.rect1 _ (List.getElem_mem _)
  | inr j => exact h.width ▸ h.rect2 _ (List.getElem_mem _)

/-- C60, the biased estimate: for every symmetric positive semi-definite kernel it exists and is
never negative. Missing: the flag also holds for kernels given as functions that are not of this kind
(`C60_callable_violated`) and for the Hellinger estimate (`C60_hellinger_violated`). -/
theorem C60_biased_partial (k : KernelArg) (s1 s2 : Stats) (h : Pair s1 s2)
    (hs : Symm s1.width k.fn) (hp : PosSemi s1.width k.fn) :
    ∃ v, mmd k true s1 s2 = some v ∧ 0 ≤ v :=
  ⟨_, mmd_biased_form k s1 s2 h hs, hp.any _ _ (pooled_length h)⟩

/-- C60, what the estimates are: the biased one is the average of the kernel over pairs within the
first sample, plus that within the second, minus twice the average between the samples; the unbiased
one leaves out the pairs of a row with itself. -/
theorem C60_value (k : KernelArg) (s1 s2 : Stats) (h : Pair s1 s2) (hs : Symm s1.width k.fn) :
    let m := s1.rows.length
    let n := s2.rows.length
    let between := (∑ i : Fin m, ∑ j : Fin n, k.fn s1.rows[i.1] s2.rows[j.1]) / (m * n)
    (mmd k true s1 s2 = some ((∑ i : Fin m, ∑ j : Fin m, k.fn s1.rows[i.1] s1.rows[j.1]) / (m * m)
      + (∑ i : Fin n, ∑ j : Fin n, k.fn s2.rows[i.1] s2.rows[j.1]) / (n * n) - 2 * between)) ∧
    (2 ≤ m → 2 ≤ n → mmd k false s1 s2 = some (
      (∑ i : Fin m, ∑ j : Fin m, if j = i then 0 else k.fn s1.rows[i.1] s1.rows[j.1]) / (m * (m - 1))
      + (∑ i : Fin n, ∑ j : Fin n, if j = i then 0 else k.fn s2.rows[i.1] s2.rows[j.1]) / (n * (n - 1))
      - 2 * between)) ∧
    (m < 2 ∨ n < 2 → mmd k false s1 s2 = none) := by
  intro m n between
  have l1 : s1.rows.length ≠ 0 := by simpa using h.ne1
  have l2 : s2.rows.length ≠ 0 := by simpa using h.ne2
  have e11 : total (gram k.fn s1.rows s1.rows) = _ := total_fin k.fn _ _
  have e22 : total (gram k.fn s2.rows s2.rows) = _ := total_fin k.fn _ _
  have e12 : total (gram k.fn s1.rows s2.rows) = _ := total_fin k.fn _ _
  refine ⟨?_, ?_, ?_⟩
  · rw [mmd]
    simp only [if_true]
    rw [self_eq_gram k s1 h.rect1 hs, self_eq_gram k s2 h.rect2 (h.width ▸ hs), mmdV]
    simp only [gram_length]
    rw [if_neg (by simp [h.ne1, h.ne2]), e11, e22, e12]
    congr 1
    ring
  · intro hm hn
    rw [mmd]
    simp only [Bool.false_eq_true, if_false]
    rw [self_eq_gram k s1 h.rect1 hs, self_eq_gram k s2 h.rect2 (h.width ▸ hs), mmdUnbiased]
    simp only [gram_length]
    have hm' : s1.rows.length - 1 ≠ 0 := by omega
    have hn' : s2.rows.length - 1 ≠ 0 := by omega
    rw [if_neg (by simp only [Nat.mul_eq_zero]; omega), offDiagonal_gram, offDiagonal_gram, e12]
    congr 1
    ring
  · intro hlt
    rw [mmd]
    simp only [Bool.false_eq_true, if_false]
    rw [self_eq_gram k s1 h.rect1 hs, self_eq_gram k s2 h.rect2 (h.width ▸ hs), mmdUnbiased]
    simp only [gram_length]
    rw [if_pos]
    simp only [Nat.mul_eq_zero]
    omega

/-- C60, symmetry: both estimates are the same for the exchanged data sets (also when they do not
exist), for every symmetric kernel. -/
theorem C60_symmetric (k : KernelArg) (biased : Bool) (s1 s2 : Stats) (h : Pair s1 s2)
    (hs : Symm s1.width k.fn) : mmd k biased s1 s2 = mmd k biased s2 s1 := by
  have e12 : total (gram k.fn s1.rows s2.rows) = total (gram k.fn s2.rows s1.rows) := by
    rw [gram, gram, total_comm]
    congr 1
    apply List.map_congr_left
    intro b hb
    apply List.map_congr_left
    intro a ha
    exact hs a b (h.rect1 a ha) (h.width ▸ h.rect2 b hb)
  rw [mmd, mmd]
  simp only [self_eq_gram k s1 h.rect1 hs, self_eq_gram k s2 h.rect2 (h.width ▸ hs)]
  cases biased with
  | true =>
    simp only [if_true, mmdV, gram_length, e12]
    refine if_congr or_comm rfl ?_
    congr 1; ring
  | false =>
    simp only [Bool.false_eq_true, if_false, mmdUnbiased, gram_length, e12]
    refine if_congr or_comm rfl ?_
    congr 1; ring

/-- C60, equal samples: the biased estimate vanishes. -/
theorem C60_equal (k : KernelArg) (s : Stats) (hr : s.Rect) (hn : s.rows ≠ []) (hs : Symm s.width k.fn) :
    mmd k true s s = some 0 := by
  rw [(C60_value k s s ⟨hr, hr, rfl, hn, hn⟩ hs).1]
  congr 1
  ring

/-- The Gaussian kernel is symmetric and positive semi-definite for every bandwidth (other than zero,
where numpy divides by zero), so the theorems above apply to it. -/
theorem C60_gaussian_kernel (sigma : ℝ) (_hs : sigma ≠ 0) (d : Nat) :
    Symm d (KernelArg.gaussian sigma).fn ∧ PosSemi d (KernelArg.gaussian sigma).fn := by
  refine ⟨fun a b _ _ => gaussian_comm sigma a b, fun N x c hx => ?_⟩
  have h := gaussian_form (1 / (2 * sigma ^ 2)) (by positivity) (fun i => pt d (x i)) c
  refine h.trans_eq ?_
  rw [form]
  refine Finset.sum_congr rfl fun i _ => Finset.sum_congr rfl fun j _ => ?_
  rw [← gaussian_eq sigma d _ _ (hx i) (hx j)]; rfl

/-- C60, the flag of the MMD with the Gaussian kernel: when `_estimate_always_positive` is true, no
estimate is negative. -/
theorem C60_gaussian (sigma : ℝ) (hs : sigma ≠ 0) (biased : Bool) (s1 s2 : Stats) (h : Pair s1 s2)
    (hf : (Kind.mmd (.gaussian sigma) biased).alwaysPositive = true) :
    ∃ v, mmd (.gaussian sigma) biased s1 s2 = some v ∧ 0 ≤ v := by
  obtain rfl : biased = true := hf
  exact C60_biased_partial _ s1 s2 h (C60_gaussian_kernel sigma hs _).1 (C60_gaussian_kernel sigma hs _).2

/-- C60, the flag of the energy distance: for every admissible power of the Euclidean distance, when
`_estimate_always_positive` is true, no estimate is negative. -/
theorem C60_energy (beta : ℝ) (base : Row → Row → ℝ) (hb : baseDistance beta = some base) (biased : Bool)
    (s1 s2 : Stats) (h : Pair s1 s2) (hf : (Kind.energy base biased).alwaysPositive = true) :
    ∃ v, energy base biased s1 s2 = some v ∧ 0 ≤ v := by
  obtain rfl : biased = true := hf
  have hbase : 0 < beta ∧ beta ≤ 2 ∧ ∀ a b, base a b = euclid a b ^ beta := by
    rw [baseDistance] at hb
    by_cases h1 : beta ≤ 0 ∨ beta > 2
    · rw [if_pos h1] at hb; cases hb
    · rw [if_neg h1] at hb
      push Not at h1
      by_cases h2 : beta = 1
      · rw [if_pos h2] at hb
        refine ⟨h1.1, h1.2, fun a b => ?_⟩
        rw [← Option.some.inj hb, h2, Real.rpow_one]
      · rw [if_neg h2] at hb
        exact ⟨h1.1, h1.2, fun a b => by rw [← Option.some.inj hb]⟩
  obtain ⟨h0, h2, hbase⟩ := hbase
  have hs : Symm s1.width (KernelArg.callable fun a b => -base a b).fn := by
    intro a b _ _
    simp only [KernelArg.fn, hbase, euclid_comm a b]
  refine ⟨_, mmd_biased_form _ s1 s2 h hs, ?_⟩
  have l1 : s1.rows.length ≠ 0 := by simpa using h.ne1
  have l2 : s2.rows.length ≠ 0 := by simpa using h.ne2
  have hd := dist_form beta h0 h2 (fun p => pt s1.width (pooled s1.rows s2.rows p))
    (vweights s1.rows.length s2.rows.length) (vweights_sum _ _ l1 l2)
  have e : form (KernelArg.callable fun a b => -base a b).fn (pooled s1.rows s2.rows)
      (vweights s1.rows.length s2.rows.length) = -form (fun a b => dist a b ^ beta)
      (fun p => pt s1.width (pooled s1.rows s2.rows p)) (vweights s1.rows.length s2.rows.length) := by
    rw [form, form, ← Finset.sum_neg_distrib]
    refine Finset.sum_congr rfl fun i _ => ?_
    rw [← Finset.sum_neg_distrib]
    refine Finset.sum_congr rfl fun j _ => ?_
    rw [← euclid_eq_dist s1.width _ _ (pooled_length h i) (pooled_length h j)]
    simp only [KernelArg.fn, hbase]
    ring
  rw [e]
  linarith

/-- The constructor accepts exactly the powers in (0, 2]. -/
theorem C60_energy_powers (beta : ℝ) : (baseDistance beta).isSome ↔ 0 < beta ∧ beta ≤ 2 := by
  rw [baseDistance]
  by_cases h1 : beta ≤ 0 ∨ beta > 2
  · rw [if_pos h1]
    simp only [Option.isSome_none, Bool.false_eq_true, false_iff, not_and, not_le]
    intro h; rcases h1 with h1 | h1 <;> linarith
  · rw [if_neg h1]
    push Not at h1
    split <;> simp [h1]

/-- Two different samples of width one; the biased MMD of them with the Gaussian kernel is positive. -/
example : Pair ⟨1, [[0], [1]]⟩ ⟨1, [[1]]⟩ ∧
    mmd (.gaussian 1) true ⟨1, [[0], [1]]⟩ ⟨1, [[1]]⟩ = some (1 / 2 - Real.exp (-(1 / 2)) / 2) := by
  refine ⟨⟨by simp [Stats.Rect], by simp [Stats.Rect], rfl, by simp, by simp⟩, ?_⟩
  simp [mmd, mmdV, KernelArg.self, KernelArg.fn, gram, total, gaussian]
  norm_num
  ring

/-- The unbiased estimate can be negative, as its flag `false` says: here it is for two equal
samples. -/
theorem C60_unbiased_negative : (Kind.mmd (.gaussian 1) false).alwaysPositive = false ∧
    ∃ s v, mmd (.gaussian 1) false s s = some v ∧ v < 0 := by
  refine ⟨rfl, ⟨1, [[0], [1]]⟩, Real.exp (-(1 / 2)) - 1, ?_, ?_⟩
  · simp [mmd, mmdUnbiased, KernelArg.self, KernelArg.fn, gram, total, gaussian, offDiagonal]
    norm_num
    ring
  · have : Real.exp (-(1 / 2)) < 1 := Real.exp_lt_one_iff.2 (by norm_num)
    linarith

/-- The flag is not right for every function a caller may pass: with a base distance that is not of
negative type (here the square of the Euclidean distance with the sign exchanged) the biased energy
estimate is declared positive and is negative. -/
theorem C60_callable_violated : ∃ (base : Row → Row → ℝ) (s1 s2 : Stats) (v : ℝ), Pair s1 s2 ∧
    (Kind.energy base true).alwaysPositive = true ∧ energy base true s1 s2 = some v ∧ v < 0 := by
  refine ⟨fun a b => -(euclid a b), ⟨1, [[0]]⟩, ⟨1, [[1]]⟩, -2,
    ⟨by simp [Stats.Rect], by simp [Stats.Rect], rfl, by simp, by simp⟩, rfl, ?_, by norm_num⟩
  simp [energy, mmd, mmdV, KernelArg.self, KernelArg.fn, gram, gramSelf, total, euclid]

end Verif.Distance
