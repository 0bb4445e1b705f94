import Verif.Distance.NeighbourProps
import Verif.Distance.Props
import Verif.Wasserstein.Props

/-!
# C134: the nearest-neighbour estimators are plug-in estimates; C60: the flags
-/

namespace Verif.Distance

/-! ## Specification -/

/-- The nearest-neighbour estimate of a density at a point: `k` of `total` points lie within distance `r`, in a ball of volume
`V r ^ d`, where `V` is the volume of the unit ball. -/
noncomputable def nnDensity (k : Nat) (total : ℝ) (d : Nat) (V r : ℝ) : ℝ := k / total / (V * r ^ d)

/-- The average of a function over the rows of a data set. -/
noncomputable def average (rows : List Row) (f : Row → ℝ) : ℝ := (rows.map f).sum / rows.length

/-- Distances to nearest neighbours: `R` within the rows themselves (not counting the point), `N` to the rows of the other
data set; all are positive. -/
structure Neighbours (s t : List Row) (k : Nat) (R N : Row → ℝ) : Prop where
  own : ∀ p ∈ s, IsKth s (k + 1) p (R p)
  other : ∀ p ∈ s, IsKth t k p (N p)
  ownPos : ∀ p ∈ s, 0 < R p
  otherPos : ∀ p ∈ s, 0 < N p

/-! ## Lemmas -/

theorem IsKth.unique {pts : List Row} {k : Nat} {p : Row} {v w : ℝ} (hv : IsKth pts k p v) (hw : IsKth pts k p w) : v = w := by
  have key : ∀ {a b : ℝ}, IsKth pts k p a → IsKth pts k p b → ¬ a < b := by
    intro a b ha hb hab
    have h1 := ha.2
    have h2 := hb.1
    have h3 : (pts.filter fun q => decide (euclid p q ≤ a)).length ≤ (pts.filter fun q => decide (euclid p q < b)).length := by
      rw [← List.countP_eq_length_filter, ← List.countP_eq_length_filter]
      refine List.countP_mono_left fun q _ hq => ?_
      simp only [decide_eq_true_eq] at hq ⊢
      linarith
    omega
  rcases lt_trichotomy v w with h | h | h
  · exact absurd h (key hv hw)
  · exact h
  · exact absurd h (key hw hv)

theorem kth_of {pts : List Row} {k : Nat} {p : Row} {v : ℝ} (hk : 0 < k) (hn : k ≤ pts.length) (h : IsKth pts k p v) :
    kth pts k p = some v := by
  obtain ⟨h1, h2⟩ := C82_neighbour pts k p
  obtain ⟨w, hw⟩ := Option.isSome_iff_exists.1 (h2.2 ⟨hk, hn⟩)
  rw [hw, (h1 w hw).unique h]

theorem rho_of {s t : List Row} {k : Nat} {R N : Row → ℝ} (hn : k + 1 ≤ s.length) (h : Neighbours s t k R N) :
    rho s k = some (s.map R) := by
  have : s.map (kth s (k + 1)) = s.map fun p => some (R p) :=
    List.map_congr_left fun p hp => kth_of (Nat.succ_pos k) hn (h.own p hp)
  rw [rho, this]
  exact (collect_eq_some _ _).2 (by simp)

theorem nu_of {s t : List Row} {k : Nat} {R N : Row → ℝ} (hk : 0 < k) (hm : k ≤ t.length) (h : Neighbours s t k R N) :
    nu s t k = some (s.map N) := by
  have : s.map (kth t k) = s.map fun p => some (N p) :=
    List.map_congr_left fun p hp => kth_of hk hm (h.other p hp)
  rw [nu, this]
  exact (collect_eq_some _ _).2 (by simp)

theorem zero_notMem {s : List Row} {f : Row → ℝ} (h : ∀ p ∈ s, 0 < f p) : 0 ∉ s.map f := by
  intro hm
  obtain ⟨p, hp, e⟩ := List.mem_map.1 hm
  exact absurd e (h p hp).ne'

theorem average_congr {s : List Row} {f g : Row → ℝ} (h : ∀ p ∈ s, f p = g p) : average s f = average s g := by
  rw [average, average, List.map_congr_left h]

theorem average_mul {s : List Row} (c : ℝ) (f : Row → ℝ) : average s (fun p => c * f p) = c * average s f := by
  rw [average, average, ← mul_div_assoc]
  congr 1
  induction s with
  | nil => simp
  | cons a s ih => simp only [List.map_cons, List.sum_cons, ih]; ring

theorem average_add {s : List Row} (hs : s ≠ []) (c : ℝ) (f : Row → ℝ) : average s (fun p => f p + c) = average s f + c := by
  have hl : (s.length : ℝ) ≠ 0 := by simpa using hs
  have : (s.map fun p => f p + c).sum = (s.map f).sum + s.length * c := by
    clear hl hs
    induction s with
    | nil => simp
    | cons a s ih => simp only [List.map_cons, List.sum_cons, ih, List.length_cons]; push_cast; ring
  rw [average, average, this]
  field_simp

theorem average_pos {s : List Row} (hs : s ≠ []) {f : Row → ℝ} (h : ∀ p ∈ s, 0 < f p) : 0 < average s f := by
  have hl : 0 < (s.length : ℝ) := by exact_mod_cast List.length_pos_iff.2 hs
  refine div_pos ?_ hl
  exact List.sum_pos _ (by intro x hx; obtain ⟨p, hp, rfl⟩ := List.mem_map.1 hx; exact h p hp) (by simpa using hs)

/-! ## C134 -/

/-- C134, Kullback-Leibler: the estimate is the average over the first data set of the logarithm of the ratio of the two
nearest-neighbour density estimates. -/
theorem C134_kl (s1 s2 : Stats) (k : Nat) (R N : Row → ℝ) (hk : 0 < k) (hn : k + 1 ≤ s1.rows.length) (hm : k ≤ s2.rows.length)
    (h : Neighbours s1.rows s2.rows k R N) (V : ℝ) (hV : 0 < V) :
    klEst s1 s2 k = some (average s1.rows fun p =>
      Real.log (nnDensity k (s1.rows.length - 1) s1.width V (R p) / nnDensity k s2.rows.length s1.width V (N p))) := by
  have hne : s1.rows ≠ [] := by intro e; rw [e] at hn; simp at hn
  have hn2 : (2 : ℝ) ≤ s1.rows.length := by exact_mod_cast (by omega : 2 ≤ s1.rows.length)
  have hm1 : (1 : ℝ) ≤ s2.rows.length := by exact_mod_cast (by omega : 1 ≤ s2.rows.length)
  have hk0 : (0 : ℝ) < k := by exact_mod_cast hk
  rw [klEst, rho_of hn h, nu_of hk hm h]
  simp only
  rw [if_neg (by push Not; exact ⟨zero_notMem h.ownPos, zero_notMem h.otherPos⟩), if_neg (by push Not; exact ⟨by linarith, by linarith⟩)]
  congr 1
  have hpt : ∀ p ∈ s1.rows, Real.log (nnDensity k (s1.rows.length - 1) s1.width V (R p) / nnDensity k s2.rows.length s1.width V (N p))
      = s1.width * Real.log (N p / R p) + Real.log (s2.rows.length / (s1.rows.length - 1)) := by
    intro p hp
    have hR := h.ownPos p hp
    have hN := h.otherPos p hp
    have e : nnDensity k (s1.rows.length - 1) s1.width V (R p) / nnDensity k s2.rows.length s1.width V (N p)
        = (N p / R p) ^ s1.width * (s2.rows.length / (s1.rows.length - 1)) := by
      have : (0 : ℝ) < s1.rows.length - 1 := by linarith
      rw [nnDensity, nnDensity, div_pow]
      field_simp
    rw [e, Real.log_mul (pow_pos (div_pos hN hR) _).ne' (div_pos (by linarith) (by linarith)).ne', Real.log_pow]
  rw [average_congr hpt, average_add hne, average_mul, zip_map, average]
  ring

/-- C134, gamma divergence: the estimate is the divergence formula with averages of powers of the nearest-neighbour density
estimates. -/
theorem C134_gamma (s1 s2 : Stats) (k : Nat) (gam : ℝ) (hg : 0 < gam) (R N R2 N2 : Row → ℝ) (hk : 0 < k)
    (hn : k + 1 ≤ s1.rows.length) (hm : k + 1 ≤ s2.rows.length) (hw : s1.width = s2.width)
    (h : Neighbours s1.rows s2.rows k R N) (h2 : Neighbours s2.rows s1.rows k R2 N2) (V : ℝ) (hV : 0 < V) :
    gammaEst s1 s2 k gam = some (1 / (gam * (gam + 1)) * Real.log (
      average s1.rows (fun p => nnDensity k (s1.rows.length - 1) s1.width V (R p) ^ gam)
      * average s2.rows (fun p => nnDensity k (s2.rows.length - 1) s2.width V (R2 p) ^ gam) ^ gam
      / average s1.rows (fun p => nnDensity k s2.rows.length s1.width V (N p) ^ gam) ^ (1 + gam))) := by
  have hne1 : s1.rows ≠ [] := by intro e; rw [e] at hn; simp at hn
  have hne2 : s2.rows ≠ [] := by intro e; rw [e] at hm; simp at hm
  have hn2 : (2 : ℝ) ≤ s1.rows.length := by exact_mod_cast (by omega : 2 ≤ s1.rows.length)
  have hm2 : (2 : ℝ) ≤ s2.rows.length := by exact_mod_cast (by omega : 2 ≤ s2.rows.length)
  have hk0 : (0 : ℝ) < k := by exact_mod_cast hk
  rw [gammaEst, rho_of hn h, nu_of hk (by omega) h, rho_of hm h2]
  simp only
  have hgg : gam * (gam + 1) ≠ 0 := by positivity
  rw [if_neg (by push Not; exact ⟨zero_notMem h.ownPos, zero_notMem h.otherPos, zero_notMem h2.ownPos, hgg⟩),
    if_neg (by push Not; exact ⟨by linarith, by linarith, by linarith, by linarith⟩)]
  congr 3
  set c : ℝ := (k / V) ^ gam with hc
  have hc0 : 0 < c := by positivity
  -- one average
  have key : ∀ (s : List Row) (f : Row → ℝ) (total : ℝ), s ≠ [] → 0 < total → (∀ p ∈ s, 0 < f p) →
      average s (fun p => nnDensity k total s1.width V (f p) ^ gam)
        = c * ((s.map f).map (fun x => 1 / x ^ ((s1.width : ℝ) * gam))).sum / (s.length * total ^ gam) := by
    intro s f total hs ht hf
    have e : ∀ p ∈ s, nnDensity k total s1.width V (f p) ^ gam
        = (c / total ^ gam) * (1 / f p ^ ((s1.width : ℝ) * gam)) := by
      intro p hp
      have := hf p hp
      rw [nnDensity, hc, Real.rpow_mul this.le, Real.rpow_natCast,
        show (k : ℝ) / total / (V * f p ^ s1.width) = (k / V) * (1 / total) * (1 / f p ^ s1.width) by field_simp,
        Real.mul_rpow (by positivity) (by positivity), Real.mul_rpow (by positivity) (by positivity),
        Real.div_rpow zero_le_one ht.le, Real.div_rpow zero_le_one (by positivity), Real.one_rpow]
      ring
    rw [average_congr e, average_mul, average, List.map_map]
    have : 0 < total ^ gam := by positivity
    have hl : (s.length : ℝ) ≠ 0 := by simpa using hs
    simp only [Function.comp_def]
    field_simp
  rw [← hw]
  rw [key s1.rows R _ hne1 (by linarith) h.ownPos, key s2.rows R2 _ hne2 (by linarith) h2.ownPos,
    key s1.rows N _ hne1 (by linarith) h.otherPos]
  have sum_nn : ∀ (s : List Row) (f : Row → ℝ), s ≠ [] → (∀ p ∈ s, 0 < f p) →
      0 < ((s.map f).map (fun x => 1 / x ^ ((s1.width : ℝ) * gam))).sum := by
    intro s f hs hf
    refine List.sum_pos _ ?_ (by simpa using hs)
    intro x hx
    simp only [List.map_map, List.mem_map] at hx
    obtain ⟨p, hp, rfl⟩ := hx
    have := hf p hp
    simp only [Function.comp_apply]
    positivity
  have p1 := sum_nn s1.rows R hne1 h.ownPos
  have p2 := sum_nn s2.rows R2 hne2 h2.ownPos
  have p3 := sum_nn s1.rows N hne1 h.otherPos
  generalize ((s1.rows.map R).map (fun x => 1 / x ^ ((s1.width : ℝ) * gam))).sum = A at p1 ⊢
  generalize ((s2.rows.map R2).map (fun x => 1 / x ^ ((s1.width : ℝ) * gam))).sum = B at p2 ⊢
  generalize ((s1.rows.map N).map (fun x => 1 / x ^ ((s1.width : ℝ) * gam))).sum = C at p3 ⊢
  generalize (s1.rows.length : ℝ) = n at hn2 ⊢
  generalize (s2.rows.length : ℝ) = m at hm2 ⊢
  have hn1 : 0 < (n - 1) ^ gam := Real.rpow_pos_of_pos (by linarith) _
  have hm1 : 0 < (m - 1) ^ gam := Real.rpow_pos_of_pos (by linarith) _
  have hm0 : 0 < m ^ gam := Real.rpow_pos_of_pos (by linarith) _
  have hn0 : 0 < n := by linarith
  have hm00 : 0 < m := by linarith
  rw [mul_div_assoc c A, mul_div_assoc c B, mul_div_assoc c C]
  have q2 : 0 < B / (m * (m - 1) ^ gam) := by positivity
  have q3 : 0 < C / (n * m ^ gam) := by positivity
  generalize B / (m * (m - 1) ^ gam) = B' at q2 ⊢
  generalize C / (n * m ^ gam) = C' at q3 ⊢
  rw [Real.mul_rpow hc0.le q2.le, Real.mul_rpow hc0.le q3.le, Real.rpow_add hc0, Real.rpow_one]
  have hcg : 0 < c ^ gam := by positivity
  have hC' : 0 < C' ^ (1 + gam) := by positivity
  field_simp

/-- One half of the squared Hellinger distance: twice the sum, not the average, of the square roots of the ratios is subtracted. -/
theorem hellingerHalf_of (s1 s2 : Stats) (k : Nat) (R N : Row → ℝ) (hk : 0 < k) (hn : k + 1 ≤ s1.rows.length)
    (hm : k ≤ s2.rows.length) (h : Neighbours s1.rows s2.rows k R N) (V : ℝ) (hV : 0 < V) :
    hellingerHalf s1 s2 k = some (2 - 2 * (s1.rows.length * average s1.rows fun p =>
      Real.sqrt (nnDensity k s2.rows.length s1.width V (N p) / nnDensity k (s1.rows.length - 1) s1.width V (R p)))) := by
  have hne : s1.rows ≠ [] := by intro e; rw [e] at hn; simp at hn
  have hn2 : (2 : ℝ) ≤ s1.rows.length := by exact_mod_cast (by omega : 2 ≤ s1.rows.length)
  have hm1 : (1 : ℝ) ≤ s2.rows.length := by exact_mod_cast (by omega : 1 ≤ s2.rows.length)
  have hk0 : (0 : ℝ) < k := by exact_mod_cast hk
  rw [hellingerHalf, rho_of hn h, nu_of hk hm h]
  simp only
  rw [if_neg (zero_notMem h.otherPos), if_neg (by linarith)]
  congr 1
  have hpt : ∀ p ∈ s1.rows, Real.sqrt (nnDensity k s2.rows.length s1.width V (N p) / nnDensity k (s1.rows.length - 1) s1.width V (R p))
      = Real.sqrt ((s1.rows.length - 1) / s2.rows.length) * (R p / N p) ^ ((s1.width : ℝ) / 2) := by
    intro p hp
    have hR := h.ownPos p hp
    have hN := h.otherPos p hp
    have hq : 0 < R p / N p := div_pos hR hN
    have e : nnDensity k s2.rows.length s1.width V (N p) / nnDensity k (s1.rows.length - 1) s1.width V (R p)
        = ((s1.rows.length - 1) / s2.rows.length) * (R p / N p) ^ s1.width := by
      have : (0 : ℝ) < s1.rows.length - 1 := by linarith
      rw [nnDensity, nnDensity, div_pow]
      field_simp
    rw [e, Real.sqrt_mul (div_nonneg (by linarith) (by linarith)), Real.sqrt_eq_rpow (_ ^ _), ← Real.rpow_natCast,
      ← Real.rpow_mul hq.le]
    congr 2; ring
  rw [average_congr hpt, average_mul, zip_map, average]
  have hl : (s1.rows.length : ℝ) ≠ 0 := by simpa using hne
  field_simp

/-- The squared Hellinger distance with nearest-neighbour density estimates: the average of the two one-sided estimates
`2 - 2 E sqrt (q / p)`. -/
noncomputable def plugInHellinger (s1 s2 : Stats) (k : Nat) (V : ℝ) (R N R2 N2 : Row → ℝ) : ℝ :=
  ((2 - 2 * average s1.rows fun p =>
      Real.sqrt (nnDensity k s2.rows.length s1.width V (N p) / nnDensity k (s1.rows.length - 1) s1.width V (R p)))
  + (2 - 2 * average s2.rows fun p =>
      Real.sqrt (nnDensity k s1.rows.length s2.width V (N2 p) / nnDensity k (s2.rows.length - 1) s2.width V (R2 p)))) / 2

/-- C134 fails for the squared Hellinger distance, for all data: the estimate is always smaller than the plug-in estimate, because the sums are
not divided by the numbers of points. -/
theorem C134_hellinger_violated (s1 s2 : Stats) (k : Nat) (R N R2 N2 : Row → ℝ) (hk : 0 < k)
    (hn : k + 1 ≤ s1.rows.length) (hm : k + 1 ≤ s2.rows.length)
    (h : Neighbours s1.rows s2.rows k R N) (h2 : Neighbours s2.rows s1.rows k R2 N2) (V : ℝ) (hV : 0 < V) :
    ∃ v, hellinger s1 s2 k = some v ∧ v < plugInHellinger s1 s2 k V R N R2 N2 := by
  have hne1 : s1.rows ≠ [] := by intro e; rw [e] at hn; simp at hn
  have hne2 : s2.rows ≠ [] := by intro e; rw [e] at hm; simp at hm
  have hn2 : (2 : ℝ) ≤ s1.rows.length := by exact_mod_cast (by omega : 2 ≤ s1.rows.length)
  have hm2 : (2 : ℝ) ≤ s2.rows.length := by exact_mod_cast (by omega : 2 ≤ s2.rows.length)
  have hk0 : (0 : ℝ) < k := by exact_mod_cast hk
  refine ⟨_, by rw [hellinger, hellingerHalf_of s1 s2 k R N hk hn (by omega) h V hV,
    hellingerHalf_of s2 s1 k R2 N2 hk hm (by omega) h2 V hV], ?_⟩
  have nnp : ∀ (total : ℝ) (d : Nat) (r : ℝ), 0 < total → 0 < r → 0 < nnDensity k total d V r := by
    intro total d r ht hr; unfold nnDensity; positivity
  have a1 := average_pos hne1 (f := fun p => Real.sqrt (nnDensity k s2.rows.length s1.width V (N p)
      / nnDensity k (s1.rows.length - 1) s1.width V (R p))) fun p hp => Real.sqrt_pos.2
    (div_pos (nnp _ _ _ (by linarith) (h.otherPos p hp)) (nnp _ _ _ (by linarith) (h.ownPos p hp)))
  have a2 := average_pos hne2 (f := fun p => Real.sqrt (nnDensity k s1.rows.length s2.width V (N2 p)
      / nnDensity k (s2.rows.length - 1) s2.width V (R2 p))) fun p hp => Real.sqrt_pos.2
    (div_pos (nnp _ _ _ (by linarith) (h2.otherPos p hp)) (nnp _ _ _ (by linarith) (h2.ownPos p hp)))
  rw [plugInHellinger]
  nlinarith

/-- The hypotheses are met by two samples of two points on the line. -/
example : Neighbours [[0], [1]] [[1 / 4], [3 / 4]] 1 (fun _ => 1) (fun _ => 1 / 4)
    ∧ Neighbours [[1 / 4], [3 / 4]] [[0], [1]] 1 (fun _ => 1 / 2) (fun _ => 1 / 4) := by
  have e : ∀ a b : ℝ, euclid [a] [b] = |a - b| := by
    intro a b; simp [euclid, Real.sqrt_sq_eq_abs]
  constructor
  · constructor <;> intro p hp <;> simp only [List.mem_cons, List.not_mem_nil, or_false] at hp <;> rcases hp with rfl | rfl <;>
      norm_num [IsKth, e, abs_of_pos, abs_of_neg]
  · constructor <;> intro p hp <;> simp only [List.mem_cons, List.not_mem_nil, or_false] at hp <;> rcases hp with rfl | rfl <;>
      norm_num [IsKth, e, abs_of_pos, abs_of_neg]

/-! ## C60: the flags -/

/-- C60, transport distances: flagged as never negative, and never negative. -/
theorem C60_transport : Kind.wasserstein.alwaysPositive = true ∧ Kind.slicedWasserstein.alwaysPositive = true ∧
    (∀ (emd : Wasserstein.Emd) (s1 s2 : Stats) (v : ℝ), Wasserstein.wasserstein emd s1 s2 = .ok v → 0 ≤ v) ∧
    (∀ (emd1 : Wasserstein.Emd1) (normals : List Row) (s1 s2 : Stats) (v : ℝ),
      Wasserstein.sliced emd1 normals s1 s2 = .ok v → 0 ≤ v) := by
  refine ⟨rfl, rfl, fun emd s1 s2 v h => ?_, fun emd1 normals s1 s2 v h => ?_⟩
  · unfold Wasserstein.wasserstein Wasserstein.wass at h
    split at h
    · cases h
    · split at h
      · cases h
      · split at h
        · cases h
        · rw [← Except.ok.inj h]; exact Real.sqrt_nonneg _
  · unfold Wasserstein.sliced at h
    split at h
    · cases h
    · split at h
      · cases h
      · rw [← Except.ok.inj h]; exact Real.sqrt_nonneg _

open Wasserstein in
/-- C82, order, for the transport distances: with solvers that find the cheapest plans, permuting the rows of either data set changes neither the Wasserstein distance nor, for the same directions, the sliced one. -/
theorem C82_transport (emd : Emd) (he : Solves emd) (emd1 : Emd1) (he1 : Solves1 emd1) (normals : List Row) (s1 s1' s2 s2' : Stats) (h1 : s1.Reorder s1') (h2 : s2.Reorder s2')
    (a1 : Sample s1) (a2 : Sample s2) (hw : s1.width = s2.width) (hne : normals ≠ []) (hn : ∀ g ∈ normals, g.length = s1.width) :
    wasserstein emd s1 s2 = wasserstein emd s1' s2' ∧ sliced emd1 normals s1 s2 = sliced emd1 normals s1' s2' := by
  have smp : ∀ {s s' : Stats}, s.Reorder s' → Sample s → Sample s' := by
    rintro s s' ⟨w, p⟩ ⟨r, n⟩
    exact ⟨fun q hq => by rw [← w]; exact r q (p.mem_iff.2 hq), fun h => n (by rw [h] at p; exact p.eq_nil)⟩
  have shr : ∀ {s s' : Stats}, s.Reorder s' → ∀ q, share s none q = share s' none q := by
    rintro s s' ⟨w, p⟩ q
    simp only [share]
    rw [(p.filter _).length_eq, p.length_eq]
  have b1 := smp h1 a1
  have b2 := smp h2 a2
  have u : ∀ n, Usable n none := fun n v h => by cases h
  have w1 := h1.1
  have w2 := h2.1
  constructor
  · obtain ⟨x, y, z, ex, ey, ez, -, -, t, zx⟩ := C87 emd he s1 s1' s2' a1 b1 b2 w1 (by omega) none none none (u _) (u _) (u _)
    obtain ⟨x', y', z', ex', ey', ez', -, sx', t', zx'⟩ := C87 emd he s1' s1 s2' b1 a1 b2 w1.symm (by omega) none none none (u _) (u _) (u _)
    obtain ⟨p, q, r, ep, eq, er, -, -, t2, -⟩ := C87 emd he s1 s2 s2' a1 a2 b2 hw w2 none none none (u _) (u _) (u _)
    obtain ⟨p', q', r', ep', eq', er', -, -, t2', -⟩ := C87 emd he s1 s2' s2 a1 b2 a2 (by omega) w2.symm none none none (u _) (u _) (u _)
    obtain ⟨m, -, -, em, -, -, -, em', -, zm⟩ := C87 emd he s2 s2' s2' a2 b2 b2 w2 rfl none none none (u _) (u _) (u _)
    have hx : x = 0 := zx.2 (shr h1)
    have hm : m = 0 := zm.2 (shr h2)
    rw [sx'] at ex
    rw [ey'] at ez
    rw [ez'] at ey
    rw [em] at eq
    rw [em'] at eq'
    rw [er] at ep'
    rw [er'] at ep
    rw [ey'] at er
    cases ex; cases ez; cases ey; cases eq; cases eq'; cases ep'; cases ep; cases er
    unfold wasserstein
    rw [er', ez']
    congr 1
    linarith
  · obtain ⟨x, y, z, -, ex, ey, ez, -, -, -, t, -, zx⟩ := C87_sliced emd he emd1 he1 normals s1 s1' s2' a1 b1 b2 w1 (by omega) hne hn
    obtain ⟨x', y', z', -, ex', ey', ez', -, -, sx', t', -, zx'⟩ := C87_sliced emd he emd1 he1 normals s1' s1 s2' b1 a1 b2 w1.symm (by omega) hne (by rw [← w1]; exact hn)
    obtain ⟨p, q, r, -, ep, eq, er, -, -, -, t2, -, -⟩ := C87_sliced emd he emd1 he1 normals s1 s2 s2' a1 a2 b2 hw w2 hne hn
    obtain ⟨p', q', r', -, ep', eq', er', -, -, -, t2', -, -⟩ := C87_sliced emd he emd1 he1 normals s1 s2' s2 a1 b2 a2 (by omega) w2.symm hne hn
    obtain ⟨m, -, -, -, em, -, -, -, -, em', -, -, zm⟩ := C87_sliced emd he emd1 he1 normals s2 s2' s2' a2 b2 b2 w2 rfl hne (by rw [← hw]; exact hn)
    have hx : x = 0 := zx (shr h1)
    have hm : m = 0 := zm (shr h2)
    rw [sx'] at ex
    rw [ey'] at ez
    rw [ez'] at ey
    rw [em] at eq
    rw [em'] at eq'
    rw [er] at ep'
    rw [er'] at ep
    rw [ey'] at er
    cases ex; cases ez; cases ey; cases eq; cases eq'; cases ep'; cases ep; cases er
    rw [er', ez']
    congr 1
    linarith

/-- C60, divergences: flagged as possibly negative, and they can be. -/
theorem C60_divergences_negative : Kind.kl.alwaysPositive = false ∧ Kind.gamma.alwaysPositive = false ∧
    (∃ s1 s2 : Stats, Pair s1 s2 ∧ ∃ v, klEst s1 s2 1 = some v ∧ v < 0) ∧
    (∃ s1 s2 : Stats, Pair s1 s2 ∧ ∃ v, gammaEst s1 s2 1 1 = some v ∧ v < 0) := by
  have e : ∀ a b : ℝ, euclid [a] [b] = |a - b| := by
    intro a b; simp [euclid, Real.sqrt_sq_eq_abs]
  have h1 : Neighbours [[0], [1]] [[1 / 2]] 1 (fun _ => 1) (fun _ => 1 / 2) := by
    constructor <;> intro p hp <;> simp only [List.mem_cons, List.not_mem_nil, or_false] at hp <;> rcases hp with rfl | rfl <;>
      norm_num [IsKth, e, abs_of_pos, abs_of_neg]
  have h2 : Neighbours [[0], [1]] [[1 / 4], [3 / 4]] 1 (fun _ => 1) (fun _ => 1 / 4) := by
    constructor <;> intro p hp <;> simp only [List.mem_cons, List.not_mem_nil, or_false] at hp <;> rcases hp with rfl | rfl <;>
      norm_num [IsKth, e, abs_of_pos, abs_of_neg]
  have h3 : Neighbours [[1 / 4], [3 / 4]] [[0], [1]] 1 (fun _ => 1 / 2) (fun _ => 1 / 4) := by
    constructor <;> intro p hp <;> simp only [List.mem_cons, List.not_mem_nil, or_false] at hp <;> rcases hp with rfl | rfl <;>
      norm_num [IsKth, e, abs_of_pos, abs_of_neg]
  refine ⟨rfl, rfl, ⟨⟨1, [[0], [1]]⟩, ⟨1, [[1 / 2]]⟩, ⟨by simp [Stats.Rect], by simp [Stats.Rect], rfl, by simp, by simp⟩, _,
    C134_kl ⟨1, [[0], [1]]⟩ ⟨1, [[1 / 2]]⟩ 1 _ _ one_pos (by simp) (by simp) h1 1 one_pos, ?_⟩,
    ⟨1, [[0], [1]]⟩, ⟨1, [[1 / 4], [3 / 4]]⟩, ⟨by simp [Stats.Rect], by simp [Stats.Rect], rfl, by simp, by simp⟩, _,
    C134_gamma ⟨1, [[0], [1]]⟩ ⟨1, [[1 / 4], [3 / 4]]⟩ 1 1 one_pos _ _ _ _ one_pos (by simp) (by simp) rfl h2 h3 1 one_pos, ?_⟩
  · norm_num [average, nnDensity]
    exact Real.log_neg (by norm_num) (by norm_num)
  · norm_num [average, nnDensity]
    have := Real.log_neg (x := 1 / 2) (by norm_num) (by norm_num)
    linarith

end Verif.Distance
