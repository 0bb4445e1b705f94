import Verif.Wasserstein.Model
import Verif.Wasserstein.Transport
import Verif.Distance.Lemmas

/-!
# C69 and C87: Wasserstein distances
-/

namespace Verif.Wasserstein

open Verif.Distance Finset

/-! ## Specification -/

/-- The solver returns the cost of a cheapest transport plan, for non-negative weights with sum one. -/
def Solves (emd : Emd) : Prop :=
  ∀ {n m : Nat} (a : Fin n → ℝ) (b : Fin m → ℝ) (M : Fin n → Fin m → ℝ), (∀ i, 0 ≤ a i) → (∀ j, 0 ≤ b j) →
    ∑ i, a i = 1 → ∑ j, b j = 1 → IsOptimal a b M (emd a b M)

/-- The same for the solver on the line. -/
def Solves1 (emd1 : Emd1) : Prop :=
  ∀ {n m : Nat} (x : Fin n → ℝ) (y : Fin m → ℝ) (a : Fin n → ℝ) (b : Fin m → ℝ), (∀ i, 0 ≤ a i) → (∀ j, 0 ≤ b j) →
    ∑ i, a i = 1 → ∑ j, b j = 1 → IsOptimal a b (sqDist x y) (emd1 x y a b)

/-- A sample that can be compared: at least one row, all of the declared length. -/
structure Sample (s : Stats) : Prop where
  rect : s.Rect
  ne : s.rows ≠ []

/-- Weights that can be normalised: one for each sample, non-negative, not all zero. -/
structure Weighting (n : Nat) (w : List ℝ) : Prop where
  length : w.length = n
  nonneg : ∀ x ∈ w, 0 ≤ x
  pos : 0 < w.sum

/-- `w` is missing or a weighting. -/
def Usable (n : Nat) (w : Option (List ℝ)) : Prop := ∀ v, w = some v → Weighting n v

open Classical in
/-- The share of the total weight carried by the rows equal to `p`; every row counts the same when no
weights are given. -/
noncomputable def share (s : Stats) (w : Option (List ℝ)) (p : Row) : ℝ :=
  match w with
  | none => ((s.rows.filter fun r => decide (r = p)).length : ℝ) / s.rows.length
  | some v => (((s.rows.zip v).filter fun q => decide (q.1 = p)).map Prod.snd).sum / v.sum

/-! ## Weights -/

theorem weights_ok (n : Nat) (hn : 0 < n) (w : Option (List ℝ)) (h : Usable n w) :
    ∃ a, weights n w = .ok a ∧ (∀ i, 0 ≤ a i) ∧ ∑ i, a i = 1 := by
  cases w with
  | none =>
    refine ⟨_, rfl, fun i => by positivity, ?_⟩
    have : (n : ℝ) ≠ 0 := by exact_mod_cast hn.ne'
    simp [this]
  | some v =>
    obtain ⟨h1, h2, h3⟩ := h v rfl
    subst h1
    refine ⟨fun i => v[i.1] / v.sum, ?_, fun i => div_nonneg (h2 _ (List.getElem_mem _)) h3.le, ?_⟩
    · rw [weights, dif_pos rfl, if_neg h3.ne']
    · rw [← Finset.sum_div, div_eq_one_iff_eq h3.ne']
      exact Fin.sum_univ_getElem v

/-- C69: without weights all samples count the same; given weights are divided by their sum, so that
they are non-negative and sum to one; a wrong number of weights is refused, before anything else for
the first sample and after the first for the second. -/
theorem C69 (emd : Emd) (s1 s2 : Stats) :
    (∀ n : Nat, 0 < n → weights n none = .ok fun _ => 1 / (n : ℝ)) ∧
    (∀ (n : Nat) (v : List ℝ), Weighting n v → ∃ a, weights n (some v) = .ok a ∧ (∀ i, 0 ≤ a i) ∧ ∑ i, a i = 1 ∧
      ∀ i (h : i.1 < v.length), a i * v.sum = v[i.1]) ∧
    (∀ v w2, v.length ≠ s1.rows.length → wass emd s1 s2 (some v) w2 = .error .length) ∧
    (∀ w1 v, Usable s1.rows.length w1 → v.length ≠ s2.rows.length → 0 < s1.rows.length →
      wass emd s1 s2 w1 (some v) = .error .length) ∧
    (∀ w1 v w2 u, wass emd s1 s2 w1 w2 = .ok v → (w1 = some u → u.length = s1.rows.length) ∧
      (w2 = some u → u.length = s2.rows.length)) := by
  refine ⟨fun n _ => rfl, ?_, ?_, ?_, ?_⟩
  · intro n v h
    obtain ⟨h1, h2, h3⟩ := h
    subst h1
    refine ⟨fun i => v[i.1] / v.sum, ?_, fun i => div_nonneg (h2 _ (List.getElem_mem _)) h3.le, ?_,
      fun i h => div_mul_cancel₀ _ h3.ne'⟩
    · rw [weights, dif_pos rfl, if_neg h3.ne']
    · rw [← Finset.sum_div, div_eq_one_iff_eq h3.ne']
      exact Fin.sum_univ_getElem v
  · intro v w2 h
    rw [wass, weights, dif_neg h]
  · intro w1 v hu h hp
    obtain ⟨a, ha, -⟩ := weights_ok _ hp w1 hu
    rw [wass, ha, weights, dif_neg h]
  · intro w1 v w2 u h
    rw [wass] at h
    constructor
    · rintro rfl
      by_contra hne
      rw [weights, dif_neg hne] at h
      cases h
    · rintro rfl
      by_contra hne
      cases h1 : weights s1.rows.length w1 with
      | error e => rw [h1] at h; cases h
      | ok a =>
        rw [h1, weights, dif_neg hne] at h
        cases h

/-- C69, scale: multiplying all weights of a sample by a positive number changes nothing. -/
theorem C69_scale (n : Nat) (c : ℝ) (hc : 0 < c) (v : List ℝ) (h : Weighting n v) :
    weights n (some (v.map (c * ·))) = weights n (some v) := by
  obtain ⟨h1, h2, h3⟩ := h
  have hs : (v.map (c * ·)).sum = c * v.sum := by rw [List.sum_map_mul_left]; simp
  rw [weights, weights, dif_pos h1, dif_pos (by simpa using h1), if_neg h3.ne', hs, if_neg (mul_pos hc h3).ne']
  congr 1
  funext i
  simp only [List.getElem_map]
  rw [mul_div_mul_left _ _ hc.ne']

/-- Two samples, the second one with weights 1 and 3. -/
example : Weighting 2 [1, 3] ∧ ∃ a, weights 2 (some [1, 3]) = .ok a ∧ a 0 = 1 / 4 ∧ a 1 = 3 / 4 := by
  refine ⟨⟨rfl, by simp, by norm_num⟩, fun i => [(1 : ℝ), 3][i.1] / [(1 : ℝ), 3].sum, ?_, by norm_num, by norm_num⟩
  simp only [weights]
  rw [dif_pos (show ([1, 3] : List ℝ).length = 2 from rfl), if_neg (by norm_num)]

/-! ## C87 -/

theorem cost_eq (s1 s2 : Stats) (h1 : s1.Rect) (h2 : s2.Rect) (d : Nat) (e1 : s1.width = d) (e2 : s2.width = d) :
    (fun (i : Fin s1.rows.length) (j : Fin s2.rows.length) => euclid s1.rows[i] s2.rows[j] ^ 2)
      = sqDist (fun i => pt d s1.rows[i]) fun j => pt d s2.rows[j] := by
  funext i j
  rw [sqDist, euclid_eq_dist d s1.rows[i] s2.rows[j] ((h1 _ (List.getElem_mem _)).trans e1) ((h2 _ (List.getElem_mem _)).trans e2)]

theorem length_pos {s : Stats} (h : Sample s) : 0 < s.rows.length := List.length_pos_iff.2 h.ne

/-- The value of `wass_dist`: the square root of the cost of a cheapest plan for the squared distances. -/
theorem wass_value (emd : Emd) (he : Solves emd) (s1 s2 : Stats) (h1 : Sample s1) (h2 : Sample s2)
    (hw : s1.width = s2.width) (w1 w2 : Option (List ℝ)) (u1 : Usable s1.rows.length w1) (u2 : Usable s2.rows.length w2) :
    ∃ a b v, weights s1.rows.length w1 = .ok a ∧ weights s2.rows.length w2 = .ok b ∧ (∀ i, 0 ≤ a i) ∧ (∀ j, 0 ≤ b j) ∧
      IsOptimal a b (sqDist (fun i : Fin s1.rows.length => pt s1.width s1.rows[i])
        fun j : Fin s2.rows.length => pt s1.width s2.rows[j]) v ∧ wass emd s1 s2 w1 w2 = .ok (Real.sqrt v) := by
  obtain ⟨a, ha, a0, sa⟩ := weights_ok _ (length_pos h1) w1 u1
  obtain ⟨b, hb, b0, sb⟩ := weights_ok _ (length_pos h2) w2 u2
  refine ⟨a, b, _, ha, hb, a0, b0, he a b _ a0 b0 sa sb, ?_⟩
  rw [wass, ha, hb]
  simp only
  rw [if_neg (by simpa using hw), cost_eq s1 s2 h1.rect h2.rect s1.width rfl hw.symm]

theorem filter_fin_sum {α : Type} (l : List α) (f : α → Prop) [DecidablePred f] (g : α → ℝ) :
    ((l.filter fun a => decide (f a)).map g).sum = ∑ i : Fin l.length, if f l[i] then g l[i] else 0 := by
  induction l with
  | nil => simp
  | cons a l ih =>
    rw [List.filter_cons]
    have e : (∑ i : Fin (a :: l).length, if f (a :: l)[i] then g (a :: l)[i] else 0)
        = (if f a then g a else 0) + ∑ i : Fin l.length, if f l[i] then g l[i] else 0 :=
      Fin.sum_univ_succ (n := l.length) (fun i => if f (a :: l)[i] then g (a :: l)[i] else 0)
    rw [e]
    by_cases h : f a
    · rw [if_pos (by simpa using h), if_pos h, List.map_cons, List.sum_cons, ih]
    · rw [if_neg (by simpa using h), if_neg h, zero_add, ih]

open Classical in
/-- The mass of a row under the normalised weights is its share. -/
theorem mass_share (s : Stats) (w : Option (List ℝ)) (hw : Usable s.rows.length w) (a : Fin s.rows.length → ℝ)
    (ha : weights s.rows.length w = .ok a) (p : Row) : mass a (fun i : Fin s.rows.length => s.rows[i]) p = share s w p := by
  cases w with
  | none =>
    rw [weights] at ha
    obtain rfl := Except.ok.inj ha
    have h := filter_fin_sum s.rows (fun r => r = p) fun _ => (1 : ℝ)
    rw [share, mass]
    simp only [List.map_const', List.sum_replicate, nsmul_eq_mul, mul_one] at h
    rw [h, Finset.sum_div]
    refine sum_congr rfl fun i _ => ?_
    split <;> simp
  | some v =>
    obtain ⟨h1, h2, h3⟩ := hw v rfl
    rw [weights, dif_pos h1, if_neg h3.ne'] at ha
    obtain rfl := Except.ok.inj ha
    have h := filter_fin_sum (s.rows.zip v) (fun q => q.1 = p) Prod.snd
    rw [share, mass, h, Finset.sum_div]
    have hl : (s.rows.zip v).length = s.rows.length := by simp [h1]
    refine Fintype.sum_equiv (finCongr hl.symm) _ _ fun i => ?_
    simp only [finCongr_apply, Fin.getElem_fin, Fin.val_cast, List.getElem_zip]
    by_cases hi : s.rows[i.1] = p <;> simp [hi]

theorem mass_pt (s : Stats) (hs : s.Rect) (a : Fin s.rows.length → ℝ) (d : Nat) (hd : s.width = d) (p : Row)
    (hp : p.length = d) : mass a (fun i : Fin s.rows.length => pt d s.rows[i]) (pt d p) = mass a (fun i : Fin s.rows.length => s.rows[i]) p := by
  classical
  rw [mass, mass]
  refine sum_congr rfl fun i _ => ?_
  by_cases h : s.rows[i] = p
  · rw [if_pos h, if_pos (by rw [h])]
  · rw [if_neg h, if_neg fun e => h (pt_inj d _ _ ((hs _ (List.getElem_mem _)).trans hd) hp e)]

theorem mass_none {ι F : Type} [Fintype ι] (a : ι → ℝ) (x : ι → F) (p : F) (h : ∀ i, x i ≠ p) : mass a x p = 0 := by
  classical
  rw [mass]
  exact sum_eq_zero fun i _ => if_neg (h i)

/-- C87: `wass_dist` is a metric on weighted empirical distributions. It succeeds, is non-negative,
symmetric and satisfies the triangle inequality; it is zero exactly when every row has the same share of
the weight in both samples. -/
theorem C87 (emd : Emd) (he : Solves emd) (s1 s2 s3 : Stats) (h1 : Sample s1) (h2 : Sample s2) (h3 : Sample s3)
    (hw : s1.width = s2.width) (hw' : s2.width = s3.width) (w1 w2 w3 : Option (List ℝ))
    (u1 : Usable s1.rows.length w1) (u2 : Usable s2.rows.length w2) (u3 : Usable s3.rows.length w3) :
    ∃ d12 d23 d13 : ℝ, wass emd s1 s2 w1 w2 = .ok d12 ∧ wass emd s2 s3 w2 w3 = .ok d23 ∧ wass emd s1 s3 w1 w3 = .ok d13 ∧
      0 ≤ d12 ∧ wass emd s2 s1 w2 w1 = .ok d12 ∧ d13 ≤ d12 + d23 ∧
      (d12 = 0 ↔ ∀ p : Row, share s1 w1 p = share s2 w2 p) := by
  obtain ⟨a, b, v12, ha, hb, a0, b0, o12, e12⟩ := wass_value emd he s1 s2 h1 h2 hw w1 w2 u1 u2
  obtain ⟨b', c, v23, hb', hc, -, -, o23, e23⟩ := wass_value emd he s2 s3 h2 h3 hw' w2 w3 u2 u3
  obtain ⟨a', c', v13, ha', hc', -, -, o13, e13⟩ := wass_value emd he s1 s3 h1 h3 (hw.trans hw') w1 w3 u1 u3
  obtain ⟨b'', a'', v21, hb'', ha'', -, -, o21, e21⟩ := wass_value emd he s2 s1 h2 h1 hw.symm w2 w1 u2 u1
  obtain rfl := Except.ok.inj (hb.symm.trans hb')
  obtain rfl := Except.ok.inj (ha.symm.trans ha')
  obtain rfl := Except.ok.inj (hc.symm.trans hc')
  obtain rfl := Except.ok.inj (hb.symm.trans hb'')
  obtain rfl := Except.ok.inj (ha.symm.trans ha'')
  rw [← hw] at o23 o21
  refine ⟨_, _, _, e12, e23, e13, Real.sqrt_nonneg _, ?_, optimal_triangle o12 o23 o13, ?_⟩
  · rw [e21]
    have hs : IsOptimal b a (sqDist (fun j : Fin s2.rows.length => pt s1.width s2.rows[j])
        fun i : Fin s1.rows.length => pt s1.width s1.rows[i]) v12 := by
      have := o12.symm
      have e : (fun j i => sqDist (fun i : Fin s1.rows.length => pt s1.width s1.rows[i])
          (fun j : Fin s2.rows.length => pt s1.width s2.rows[j]) i j)
          = sqDist (fun j : Fin s2.rows.length => pt s1.width s2.rows[j])
            fun i : Fin s1.rows.length => pt s1.width s1.rows[i] := by
        funext j i; rw [sqDist, sqDist, dist_comm]
      rwa [e] at this
    rw [o21.unique hs]
  · have hv0 : 0 ≤ v12 := o12.nonneg fun i j => sq_nonneg _
    rw [Real.sqrt_eq_zero hv0, optimal_zero_iff a0 b0 o12]
    have key : ∀ p : Row, p.length = s1.width →
        (mass a (fun i : Fin s1.rows.length => pt s1.width s1.rows[i]) (pt s1.width p) = share s1 w1 p ∧
        mass b (fun i : Fin s2.rows.length => pt s1.width s2.rows[i]) (pt s1.width p) = share s2 w2 p) := by
      intro p hp
      rw [mass_pt s1 h1.rect a _ rfl p hp, mass_pt s2 h2.rect b _ hw.symm p hp, mass_share s1 w1 u1 a ha,
        mass_share s2 w2 u2 b hb]
      exact ⟨rfl, rfl⟩
    constructor
    · intro h p
      by_cases hp : p.length = s1.width
      · obtain ⟨k1, k2⟩ := key p hp
        rw [← k1, ← k2, h]
      · rw [← mass_share s1 w1 u1 a ha, ← mass_share s2 w2 u2 b hb,
          mass_none _ _ _ fun i e => hp (by rw [← e]; exact h1.rect _ (List.getElem_mem _)),
          mass_none _ _ _ fun i e => hp (by rw [← e, hw]; exact h2.rect _ (List.getElem_mem _))]
    · intro h q
      obtain ⟨p, hp, rfl⟩ : ∃ p : Row, p.length = s1.width ∧ pt s1.width p = q := by
        refine ⟨List.ofFn fun i => q i, by simp, ?_⟩
        ext i
        simp [pt]
      obtain ⟨k1, k2⟩ := key p hp
      rw [k1, k2, h]

open Classical in
/-- A solver as assumed in C87 exists. -/
noncomputable def ideal : Emd := fun a b M => if h : ∃ v, IsOptimal a b M v then h.choose else 0

theorem ideal_solves : Solves ideal := by
  intro n m a b M ha hb sa sb
  have h := exists_optimal a b M ha hb sa sb
  unfold ideal
  beta_reduce
  rw [dif_pos h]
  exact h.choose_spec

theorem ideal_solves1 : Solves1 fun x y a b => ideal a b (sqDist x y) :=
  fun x y a b ha hb sa sb => ideal_solves a b (sqDist x y) ha hb sa sb

/-- The hypotheses of C87 can be met: samples on the line, one with weights. -/
example : Solves ideal ∧ Sample ⟨1, [[0], [3]]⟩ ∧ Sample ⟨1, [[1]]⟩ ∧ Usable 2 (some [1, 3]) ∧
    share ⟨1, [[0], [3]]⟩ (some [1, 3]) [3] = 3 / 4 := by
  refine ⟨ideal_solves, ⟨by simp [Stats.Rect], by simp⟩, ⟨by simp [Stats.Rect], by simp⟩, ?_, ?_⟩
  · rintro v hv
    obtain rfl := Option.some.inj hv
    exact ⟨rfl, by simp, by norm_num⟩
  · norm_num [share]

/-! ### Sliced Wasserstein -/

theorem project_eq (d : Nat) (p r : Row) (hp : p.length = d) (hr : r.length = d) :
    project p r = inner ℝ (pt d r) (pt d p) := by
  rw [project, zipWith_sum _ d p r hp hr, PiLp.inner_apply]
  refine sum_congr rfl fun i _ => ?_
  simp only [pt, RCLike.inner_apply, conj_trivial]

theorem normalise_norm (d : Nat) (g : Row) (hg : g.length = d) : ‖pt d (normalise g)‖ ≤ 1 := by
  have hsq : (g.map (· ^ 2)).sum = ∑ i : Fin d, (g.getD i 0) ^ 2 := by
    have := zipWith_sum (fun x _ => x ^ 2) d g g hg hg
    rw [← this]
    congr 1
    clear this hg
    induction g with
    | nil => rfl
    | cons a l ih => rw [List.map_cons, List.zipWith_cons_cons, ← ih]
  have hl : (normalise g).length = d := by simp [normalise, hg]
  have hget : ∀ i : Fin d, (normalise g).getD i 0 = g.getD i 0 / Real.sqrt (g.map (· ^ 2)).sum := by
    intro i
    have hi : i.1 < g.length := hg ▸ i.2
    simp [normalise, List.getD_eq_getElem?_getD, hi]
  rw [EuclideanSpace.norm_eq]
  apply Real.sqrt_le_one.2
  have : ∑ i : Fin d, ‖pt d (normalise g) i‖ ^ 2 = (∑ i : Fin d, (g.getD i 0) ^ 2) / (g.map (· ^ 2)).sum := by
    rw [Finset.sum_div]
    refine sum_congr rfl fun i _ => ?_
    show ‖(normalise g).getD i 0‖ ^ 2 = _
    rw [hget i, Real.norm_eq_abs, sq_abs, div_pow, Real.sq_sqrt]
    rw [hsq]
    exact sum_nonneg fun i _ => sq_nonneg _
  rw [this, hsq]
  exact div_self_le_one _

/-- Projecting on a normalised direction does not increase distances. -/
theorem project_le (d : Nat) (g a b : Row) (hg : g.length = d) (ha : a.length = d) (hb : b.length = d) :
    dist (project (normalise g) a) (project (normalise g) b) ≤ dist (pt d a) (pt d b) := by
  have hl : (normalise g).length = d := by simp [normalise, hg]
  rw [project_eq d _ a hl ha, project_eq d _ b hl hb, Real.dist_eq, ← inner_sub_left, dist_eq_norm]
  refine (abs_real_inner_le_norm _ _).trans ?_
  exact mul_le_of_le_one_right (norm_nonneg _) (normalise_norm d g hg)

/-- Squared one-dimensional costs summed over the directions. -/
theorem sliced_value (emd1 : Emd1) (normals : List Row) (s1 s2 : Stats) (hw : s1.width = s2.width) (hne : normals ≠ []) :
    sliced emd1 normals s1 s2 = .ok (Real.sqrt ((normals.map fun g => emd1 (fun i : Fin s1.rows.length => project (normalise g) s1.rows[i])
      (fun j : Fin s2.rows.length => project (normalise g) s2.rows[j])
      (fun _ => 1 / (s1.rows.length : ℝ)) (fun _ => 1 / (s2.rows.length : ℝ))).sum / normals.length)) := by
  rw [sliced, if_neg (by simpa using hw), if_neg hne]

theorem uniform (n : Nat) (hn : 0 < n) : (∀ _ : Fin n, 0 ≤ 1 / (n : ℝ)) ∧ ∑ _i : Fin n, 1 / (n : ℝ) = 1 := by
  have : (n : ℝ) ≠ 0 := by exact_mod_cast hn.ne'
  exact ⟨fun _ => by positivity, by simp [this]⟩

/-- Minkowski for square roots of sums over a list. -/
theorem sqrt_sum_triangle {α : Type} (l : List α) (u v w : α → ℝ) (hu : ∀ x ∈ l, 0 ≤ u x) (hv : ∀ x ∈ l, 0 ≤ v x)
    (hw : ∀ x ∈ l, 0 ≤ w x) (h : ∀ x ∈ l, Real.sqrt (w x) ≤ Real.sqrt (u x) + Real.sqrt (v x)) :
    Real.sqrt (l.map w).sum ≤ Real.sqrt (l.map u).sum + Real.sqrt (l.map v).sum := by
  induction l with
  | nil => simp
  | cons a l ih =>
    have ih' := ih (fun x hx => hu x (by simp [hx])) (fun x hx => hv x (by simp [hx])) (fun x hx => hw x (by simp [hx]))
      fun x hx => h x (by simp [hx])
    have ha := h a (by simp)
    have u0 := hu a (by simp)
    have v0 := hv a (by simp)
    have w0 := hw a (by simp)
    simp only [List.map_cons, List.sum_cons]
    have U : 0 ≤ (l.map u).sum := List.sum_nonneg (by intro y hy; obtain ⟨x, hx, rfl⟩ := List.mem_map.1 hy; exact hu x (by simp [hx]))
    have V : 0 ≤ (l.map v).sum := List.sum_nonneg (by intro y hy; obtain ⟨x, hx, rfl⟩ := List.mem_map.1 hy; exact hv x (by simp [hx]))
    have W : 0 ≤ (l.map w).sum := List.sum_nonneg (by intro y hy; obtain ⟨x, hx, rfl⟩ := List.mem_map.1 hy; exact hw x (by simp [hx]))
    generalize (l.map u).sum = U' at *
    generalize (l.map v).sum = V' at *
    generalize (l.map w).sum = W' at *
    apply Real.sqrt_le_iff.2
    refine ⟨by positivity, ?_⟩
    have q1 : w a ≤ (Real.sqrt (u a) + Real.sqrt (v a)) ^ 2 := by
      rw [← Real.sq_sqrt w0]; exact pow_le_pow_left₀ (Real.sqrt_nonneg _) ha 2
    have q2 : W' ≤ (Real.sqrt U' + Real.sqrt V') ^ 2 := by
      rw [← Real.sq_sqrt W]; exact pow_le_pow_left₀ (Real.sqrt_nonneg _) ih' 2
    have cs : Real.sqrt (u a) * Real.sqrt (v a) + Real.sqrt U' * Real.sqrt V' ≤ Real.sqrt (u a + U') * Real.sqrt (v a + V') := by
      rw [← Real.sqrt_mul (by linarith : 0 ≤ u a + U') (v a + V')]
      apply Real.le_sqrt_of_sq_le
      have e1 := Real.sq_sqrt u0
      have e2 := Real.sq_sqrt v0
      have e3 := Real.sq_sqrt U
      have e4 := Real.sq_sqrt V
      rw [show (u a + U') * (v a + V') = (Real.sqrt (u a) ^ 2 + Real.sqrt U' ^ 2) * (Real.sqrt (v a) ^ 2 + Real.sqrt V' ^ 2) by
        rw [e1, e2, e3, e4]]
      nlinarith [sq_nonneg (Real.sqrt (u a) * Real.sqrt V' - Real.sqrt U' * Real.sqrt (v a))]
    rw [add_sq, Real.sq_sqrt (by linarith), Real.sq_sqrt (by linarith)]
    have r1 : (Real.sqrt (u a) + Real.sqrt (v a)) ^ 2 = u a + 2 * (Real.sqrt (u a) * Real.sqrt (v a)) + v a := by
      rw [add_sq, Real.sq_sqrt u0, Real.sq_sqrt v0, mul_assoc]
    have r2 : (Real.sqrt U' + Real.sqrt V') ^ 2 = U' + 2 * (Real.sqrt U' * Real.sqrt V') + V' := by
      rw [add_sq, Real.sq_sqrt U, Real.sq_sqrt V, mul_assoc]
    rw [r1] at q1
    rw [r2] at q2
    linarith [cs]

/-- C87, sliced distance for given directions: it succeeds, is non-negative, symmetric, satisfies the
triangle inequality, does not exceed the Wasserstein distance, and is zero for samples in which every row
has the same share. -/
theorem C87_sliced (emd : Emd) (he : Solves emd) (emd1 : Emd1) (he1 : Solves1 emd1) (normals : List Row)
    (s1 s2 s3 : Stats) (h1 : Sample s1) (h2 : Sample s2) (h3 : Sample s3) (hw : s1.width = s2.width) (hw' : s2.width = s3.width)
    (hne : normals ≠ []) (hn : ∀ g ∈ normals, g.length = s1.width) :
    ∃ d12 d23 d13 w12 : ℝ, sliced emd1 normals s1 s2 = .ok d12 ∧ sliced emd1 normals s2 s3 = .ok d23 ∧
      sliced emd1 normals s1 s3 = .ok d13 ∧ wasserstein emd s1 s2 = .ok w12 ∧
      0 ≤ d12 ∧ sliced emd1 normals s2 s1 = .ok d12 ∧ d13 ≤ d12 + d23 ∧ d12 ≤ w12 ∧
      ((∀ p : Row, share s1 none p = share s2 none p) → d12 = 0) := by
  have hlen : (0 : ℝ) < normals.length := by
    exact_mod_cast List.length_pos_iff.2 hne
  obtain ⟨p1, q1⟩ := uniform _ (length_pos h1)
  obtain ⟨p2, q2⟩ := uniform _ (length_pos h2)
  obtain ⟨p3, q3⟩ := uniform _ (length_pos h3)
  -- the optimal costs along one direction
  have o12 := fun g => he1 (fun i : Fin s1.rows.length => project (normalise g) s1.rows[i])
    (fun j : Fin s2.rows.length => project (normalise g) s2.rows[j]) _ _ p1 p2 q1 q2
  have o21 := fun g => he1 (fun i : Fin s2.rows.length => project (normalise g) s2.rows[i])
    (fun j : Fin s1.rows.length => project (normalise g) s1.rows[j]) _ _ p2 p1 q2 q1
  have o23 := fun g => he1 (fun i : Fin s2.rows.length => project (normalise g) s2.rows[i])
    (fun j : Fin s3.rows.length => project (normalise g) s3.rows[j]) _ _ p2 p3 q2 q3
  have o13 := fun g => he1 (fun i : Fin s1.rows.length => project (normalise g) s1.rows[i])
    (fun j : Fin s3.rows.length => project (normalise g) s3.rows[j]) _ _ p1 p3 q1 q3
  have u1 : Usable s1.rows.length none := fun v h => by cases h
  have u2 : Usable s2.rows.length none := fun v h => by cases h
  obtain ⟨a, b, v, ha, hb, a0, b0, ov, ev⟩ := wass_value emd he s1 s2 h1 h2 hw none none u1 u2
  obtain rfl := Except.ok.inj ha
  obtain rfl := Except.ok.inj hb
  have v0 : 0 ≤ v := ov.nonneg fun i j => sq_nonneg _
  have hle : ∀ g ∈ normals, emd1 (fun i : Fin s1.rows.length => project (normalise g) s1.rows[i])
      (fun j : Fin s2.rows.length => project (normalise g) s2.rows[j]) (fun _ => 1 / (s1.rows.length : ℝ))
      (fun _ => 1 / (s2.rows.length : ℝ)) ≤ v := by
    intro g hg
    refine optimal_mono (fun i j => ?_) (o12 g) ov
    exact pow_le_pow_left₀ dist_nonneg (project_le s1.width g _ _ (hn g hg) (h1.rect _ (List.getElem_mem _))
      ((h2.rect _ (List.getElem_mem _)).trans hw.symm)) 2
  have hbound : Real.sqrt ((normals.map fun g => emd1 (fun i : Fin s1.rows.length => project (normalise g) s1.rows[i])
      (fun j : Fin s2.rows.length => project (normalise g) s2.rows[j])
      (fun _ => 1 / (s1.rows.length : ℝ)) (fun _ => 1 / (s2.rows.length : ℝ))).sum / normals.length) ≤ Real.sqrt v := by
    apply Real.sqrt_le_sqrt
    rw [div_le_iff₀ hlen]
    have := List.sum_le_card_nsmul (normals.map fun g => emd1 (fun i : Fin s1.rows.length => project (normalise g) s1.rows[i])
      (fun j : Fin s2.rows.length => project (normalise g) s2.rows[j])
      (fun _ => 1 / (s1.rows.length : ℝ)) (fun _ => 1 / (s2.rows.length : ℝ))) v (by
        intro x hx
        obtain ⟨g, hg, rfl⟩ := List.mem_map.1 hx
        exact hle g hg)
    rw [List.length_map, nsmul_eq_mul] at this
    linarith
  refine ⟨_, _, _, _, sliced_value emd1 normals s1 s2 hw hne, sliced_value emd1 normals s2 s3 hw' hne,
    sliced_value emd1 normals s1 s3 (hw.trans hw') hne, ev, Real.sqrt_nonneg _, ?_, ?_, hbound, ?_⟩
  · rw [sliced_value emd1 normals s2 s1 hw.symm hne]
    congr 4
    apply List.map_congr_left
    intro g hg
    apply (o21 g).unique
    have := (o12 g).symm
    have e : (fun j i => sqDist (fun i : Fin s1.rows.length => project (normalise g) s1.rows[i])
        (fun j : Fin s2.rows.length => project (normalise g) s2.rows[j]) i j)
        = sqDist (fun j : Fin s2.rows.length => project (normalise g) s2.rows[j])
          fun i : Fin s1.rows.length => project (normalise g) s1.rows[i] := by
      funext j i; rw [sqDist, sqDist, dist_comm]
    rwa [e] at this
  · rw [Real.sqrt_div' _ hlen.le, Real.sqrt_div' _ hlen.le, Real.sqrt_div' _ hlen.le, ← add_div]
    refine div_le_div_of_nonneg_right ?_ (Real.sqrt_nonneg _)
    refine sqrt_sum_triangle normals _ _ _ ?_ ?_ ?_ ?_
    · exact fun g _ => (o12 g).nonneg fun i j => sq_nonneg _
    · exact fun g _ => (o23 g).nonneg fun i j => sq_nonneg _
    · exact fun g _ => (o13 g).nonneg fun i j => sq_nonneg _
    · exact fun g _ => optimal_triangle (o12 g) (o23 g) (o13 g)
  · intro hs
    obtain ⟨d12, -, -, e12, -, -, -, -, -, hz⟩ := C87 emd he s1 s2 s2 h1 h2 h2 hw rfl none none none u1 u2 u2
    have : d12 = 0 := hz.2 hs
    rw [ev] at e12
    have e0 : Real.sqrt v = 0 := (Except.ok.inj e12).trans this
    exact le_antisymm (hbound.trans_eq e0) (Real.sqrt_nonneg _)

/-- C87, convergence list of a journal: one distance for each pair of consecutive iterations, in order;
journals without history, or with a single iteration, are refused. -/
theorem C87_convergence (emd : Emd) (he : Solves emd) (iterations : List (Stats × List ℝ)) (d : Nat)
    (hs : ∀ p ∈ iterations, Sample p.1 ∧ p.1.width = d ∧ Weighting p.1.rows.length p.2) :
    convergence emd false iterations = .error .journal ∧
    (∀ p, convergence emd true [p] = .error .journal) ∧
    (iterations.length ≠ 1 → ∃ out, convergence emd true iterations = .ok out ∧ out.length = iterations.length - 1 ∧
      ∀ i (h : i < out.length) (h0 : i < iterations.length) (h1 : i + 1 < iterations.length),
        wass emd iterations[i].1 iterations[i + 1].1 (some iterations[i].2) (some iterations[i + 1].2) = .ok out[i]) := by
  refine ⟨rfl, fun p => rfl, fun hl => ?_⟩
  have hval : ∀ p ∈ iterations, ∀ q ∈ iterations, ∃ v, wass emd p.1 q.1 (some p.2) (some q.2) = .ok v := by
    intro p hp q hq
    obtain ⟨sp, wp, up⟩ := hs p hp
    obtain ⟨sq, wq, uq⟩ := hs q hq
    obtain ⟨_, _, v, _, _, _, _, _, e⟩ := wass_value emd he p.1 q.1 sp sq (wp.trans wq.symm) (some p.2) (some q.2)
      (fun v h => Option.some.inj h ▸ up) (fun v h => Option.some.inj h ▸ uq)
    exact ⟨_, e⟩
  have hmap : ∀ l : List ((Stats × List ℝ) × (Stats × List ℝ)), (∀ p ∈ l, p.1 ∈ iterations ∧ p.2 ∈ iterations) →
      ∃ out, (l.mapM fun p => wass emd p.1.1 p.2.1 (some p.1.2) (some p.2.2)) = .ok out ∧ out.length = l.length ∧
        ∀ i (h : i < out.length) (h' : i < l.length),
          wass emd l[i].1.1 l[i].2.1 (some l[i].1.2) (some l[i].2.2) = .ok out[i] := by
    intro l
    induction l with
    | nil => intro _; exact ⟨[], rfl, rfl, fun i h => by simp at h⟩
    | cons p l ih =>
      intro hl
      obtain ⟨v, hv⟩ := hval p.1 (hl p (by simp)).1 p.2 (hl p (by simp)).2
      obtain ⟨out, h1, h2, h3⟩ := ih fun q hq => hl q (by simp [hq])
      refine ⟨v :: out, ?_, by simp [h2], ?_⟩
      · rw [List.mapM_cons, hv, h1]; rfl
      · intro i h h'
        cases i with
        | zero => exact hv
        | succ i => simpa using h3 i (by simpa using h) (by simpa using h')
  obtain ⟨out, h1, h2, h3⟩ := hmap (iterations.zip iterations.tail) fun p hp =>
    ⟨(List.of_mem_zip hp).1, List.mem_of_mem_tail (List.of_mem_zip hp).2⟩
  refine ⟨out, ?_, by rw [h2]; simp, ?_⟩
  · rw [convergence, if_neg (by simp), if_neg hl, h1]
  · intro i h h0 h1'
    have := h3 i h (by rw [← h2]; exact h)
    simpa using this

end Verif.Wasserstein
