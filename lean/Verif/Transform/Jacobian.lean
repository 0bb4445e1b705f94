import Verif.Transform.Props
import Mathlib.Analysis.Calculus.FDeriv.Pi
import Mathlib.Analysis.Calculus.Deriv.Comp
import Mathlib.Analysis.Calculus.FDeriv.Mul
import Mathlib.LinearAlgebra.Determinant
/-
C56: `jac_log_det` is the logarithm of the Jacobian determinant of `transform`.
-/
namespace Verif.Transform

open Filter Topology

theorem inside_nhds {b : Bound} {v : ℝ} (h : Inside b v) : ∀ᶠ t in 𝓝 v, Inside b t := by
  obtain ⟨l, u⟩ := b
  have h1 : ∀ᶠ t in 𝓝 v, ∀ l', l = some l' → l' < t := by
    cases l with
    | none => simp
    | some l => filter_upwards [lt_mem_nhds (h.1 l rfl)] with t ht; rintro _ ⟨⟩; exact ht
  have h2 : ∀ᶠ t in 𝓝 v, ∀ u', u = some u' → t < u' := by
    cases u with
    | none => simp
    | some u => filter_upwards [gt_mem_nhds (h.2 u rfl)] with t ht; rintro _ ⟨⟩; exact ht
  filter_upwards [h1, h2] with t a b using ⟨a, b⟩

/-- The derivative of one coordinate, and its logarithm as `_jac_log_det` computes it. -/
theorem coordinate_deriv {f32 : ℝ → ℝ} {b : Bound} (hb : Proper f32 b) {v : ℝ} (hv : Inside b v) :
    ∃ d, 0 < d ∧ HasDerivAt (fun t => (fwd f32 b t).getD 0) d v ∧ jacAt f32 b v = some (Real.log d) := by
  have hnear := inside_nhds hv
  obtain ⟨h0, h1, h2, h3⟩ := hb
  obtain ⟨l, u⟩ := b
  cases l with
  | none =>
    have := h0 rfl
    simp only at this
    subst this
    exact ⟨1, one_pos, hasDerivAt_id v, by simp [jacAt]⟩
  | some l =>
    have e1 := h1 l rfl
    have lv : l < v := hv.1 l rfl
    cases u with
    | none =>
      have p : 0 < v - l := by linarith
      refine ⟨(v - l)⁻¹, inv_pos.2 p, ?_, ?_⟩
      · have hd : HasDerivAt (fun t => Real.log (t - l)) (v - l)⁻¹ v := by
          have := (hasDerivAt_id v).sub_const l
          simpa using this.log p.ne'
        refine hd.congr_of_eventuallyEq ?_
        filter_upwards [hnear] with t ht
        have : 0 < t - l := by have := ht.1 l rfl; linarith
        simp [fwd, e1, this]
      · simp only [jacAt, e1]; rw [if_pos p, Real.log_inv]
    | some u =>
      have e2 := h2 u rfl
      have vu : v < u := hv.2 u rfl
      have p1 : 0 < v - l := by linarith
      have p2 : 0 < u - v := by linarith
      have p3 : 0 < u - l := by linarith
      refine ⟨(u - l) / ((v - l) * (u - v)), by positivity, ?_, ?_⟩
      · have hd : HasDerivAt (fun t => Real.log ((t - l) / (u - l)) - Real.log (1 - (t - l) / (u - l))) ((u - l) / ((v - l) * (u - v))) v := by
          have a : HasDerivAt (fun t => (t - l) / (u - l)) (1 / (u - l)) v := ((hasDerivAt_id v).sub_const l).div_const (u - l)
          have b : HasDerivAt (fun t => 1 - (t - l) / (u - l)) (-(1 / (u - l))) v := a.const_sub 1
          have q : 1 - (v - l) / (u - l) = (u - v) / (u - l) := by field_simp; ring
          have c := (a.log (div_pos p1 p3).ne').sub (b.log (by rw [q]; exact (div_pos p2 p3).ne'))
          have e : (u - l) / ((v - l) * (u - v)) = 1 / (u - l) / ((v - l) / (u - l)) - -(1 / (u - l)) / (1 - (v - l) / (u - l)) := by
            rw [q]
            field_simp
            ring
          rw [e]
          exact c
        refine hd.congr_of_eventuallyEq ?_
        filter_upwards [hnear] with t ht
        have t1 : 0 < t - l := by have := ht.1 l rfl; linarith
        have t2 : 0 < u - t := by have := ht.2 u rfl; linarith
        have q : 1 - (t - l) / (u - l) = (u - t) / (u - l) := by field_simp; ring
        have hc : u - l ≠ 0 ∧ 0 < (t - l) / (u - l) ∧ 0 < 1 - (t - l) / (u - l) :=
          ⟨p3.ne', div_pos t1 p3, by rw [q]; exact div_pos t2 p3⟩
        simp only [fwd, e1, e2]
        rw [if_pos hc]
        rfl
      · simp only [jacAt, e1, e2]
        rw [if_pos ⟨by positivity, by positivity⟩]

/-- What a caller sees: entry `i` of the transform of a vector of floats (zero if the call fails). -/
noncomputable def out (f32 : ℝ → ℝ) (bs : List Bound) (v : Fin bs.length → ℝ) (i : Fin bs.length) : ℝ :=
  match transform f32 bs (List.ofFn fun i => .real (v i)) with
  | .ok l => ((l[i]?).map Num.val).getD 0
  | .error _ => 0

theorem ofFn_real {n : Nat} (v : Fin n → ℝ) : (List.ofFn fun i => Num.real (v i)).map Num.val = List.ofFn v := by
  rw [List.map_ofFn]; rfl

theorem allInside_ofFn (bs : List Bound) (v : Fin bs.length → ℝ) : AllInside bs (List.ofFn v) ↔ ∀ i, Inside bs[i] (v i) := by
  rw [AllInside, List.forall₂_iff_get]
  constructor
  · intro h i
    have := h.2 i.1 i.2 (by simp)
    simpa using this
  · intro h
    exact ⟨by simp, fun i h1 h2 => by simpa using h ⟨i, h1⟩⟩

theorem out_inside {f32 : ℝ → ℝ} {bs : List Bound} (hb : ∀ b ∈ bs, Proper f32 b) (h2 : 2 ≤ bs.length) {v : Fin bs.length → ℝ}
    (hv : ∀ i, Inside bs[i] (v i)) (i : Fin bs.length) : out f32 bs v i = (fwd f32 bs[i] (v i)).getD 0 := by
  have hin : AllInside bs ((List.ofFn fun i => Num.real (v i)).map Num.val) := by rw [ofFn_real]; exact (allInside_ofFn bs v).2 hv
  obtain ⟨ys, t1, t2, -, t4⟩ := transform_ok hb (by omega) hin ⟨.real (v ⟨0, by omega⟩), by simp [List.mem_ofFn], rfl⟩
  rw [out, t1]
  simp only
  have hm := (collect_eq_some _ _).1 t4
  have hi : i.1 < ys.length := by rw [t2]; exact i.2
  have := congrArg (fun l => l[i.1]?) hm
  simp only [ofFn_real, List.getElem?_map, List.getElem?_eq_getElem hi, Option.map_some] at this
  rw [List.getElem?_eq_getElem (by simp), Option.map_some, Option.some.injEq] at this
  simp only [List.getElem_zip, List.getElem_ofFn] at this
  rw [show bs[i] = bs[i.1] from rfl, this, Fin.getElem?_fin, List.getElem?_map, List.getElem?_eq_getElem hi]
  rfl

/-- **C56.** Inside the bounds `transform` is differentiable, and `jac_log_det` returns the logarithm of the determinant of its derivative, which is positive. For
two or more variables, vectors of floats and bounds that are single precision numbers. -/
theorem C56_partial (f32 : ℝ → ℝ) (bs : List Bound) (hb : ∀ b ∈ bs, Proper f32 b) (h2 : 2 ≤ bs.length) (v : Fin bs.length → ℝ)
    (hv : ∀ i, Inside bs[i] (v i)) :
    ∃ D : (Fin bs.length → ℝ) →L[ℝ] (Fin bs.length → ℝ), HasFDerivAt (out f32 bs) D v ∧ 0 < LinearMap.det (D : (Fin bs.length → ℝ) →ₗ[ℝ] (Fin bs.length → ℝ)) ∧
      jac f32 bs (List.ofFn fun i => .real (v i)) = .ok (Real.log (LinearMap.det (D : (Fin bs.length → ℝ) →ₗ[ℝ] (Fin bs.length → ℝ)))) := by
  choose d d1 d2 d3 using fun i : Fin bs.length => coordinate_deriv (hb bs[i] (List.getElem_mem i.2)) (hv i)
  refine ⟨ContinuousLinearMap.pi fun i => d i • ContinuousLinearMap.proj (R := ℝ) (φ := fun _ : Fin bs.length => ℝ) i, ?_, ?_⟩
  · have hev : ∀ᶠ w in 𝓝 v, ∀ i, Inside bs[i] (w i) := by
      rw [eventually_all]
      intro i
      exact (continuous_apply i).continuousAt.eventually (inside_nhds (hv i))
    have hd : HasFDerivAt (fun (w : Fin bs.length → ℝ) i => (fwd f32 bs[i] (w i)).getD 0)
        (ContinuousLinearMap.pi fun i => d i • ContinuousLinearMap.proj (R := ℝ) (φ := fun _ : Fin bs.length => ℝ) i) v := by
      rw [hasFDerivAt_pi]
      intro i
      have h1 : HasFDerivAt (fun w : Fin bs.length → ℝ => w i) (ContinuousLinearMap.proj (R := ℝ) (φ := fun _ : Fin bs.length => ℝ) i) v := hasFDerivAt_apply i v
      exact (d2 i).comp_hasFDerivAt v h1
    refine hd.congr_of_eventuallyEq ?_
    filter_upwards [hev] with w hw
    funext i
    exact out_inside hb h2 hw i
  · have hdet : LinearMap.det ((ContinuousLinearMap.pi fun i => d i • ContinuousLinearMap.proj (R := ℝ) (φ := fun _ : Fin bs.length => ℝ) i : (Fin bs.length → ℝ) →L[ℝ] (Fin bs.length → ℝ)) :
        (Fin bs.length → ℝ) →ₗ[ℝ] (Fin bs.length → ℝ)) = ∏ i, d i := by
      rw [← Matrix.det_diagonal, ← LinearMap.det_toLin']
      congr 1
      refine LinearMap.ext fun w => ?_
      funext i
      simp [Matrix.mulVec_diagonal]
    rw [hdet]
    refine ⟨Finset.prod_pos fun i _ => d1 i, ?_⟩
    have hin : AllInside bs ((List.ofFn fun i => Num.real (v i)).map Num.val) := by rw [ofFn_real]; exact (allInside_ofFn bs v).2 hv
    have hc : collect ((bs.zip (List.ofFn v)).map fun e => jacAt f32 e.1 e.2) = some (List.ofFn fun i => Real.log (d i)) := by
      rw [collect_eq_some]
      apply List.ext_getElem (by simp)
      intro n a b
      simp only [List.length_map, List.length_zip, List.length_ofFn, Nat.min_self] at a
      simp only [List.getElem_map, List.getElem_zip, List.getElem_ofFn]
      exact d3 ⟨n, a⟩
    rw [jac, if_neg (by simp), any_refused_num, if_neg (by rw [any_refused hb (by simp)]; simpa using hin), map_fwd_num (jacAt f32) bs, ofFn_real, hc]
    simp only
    rw [notAllInt (x := List.ofFn fun i => Num.real (v i)) ⟨.real (v ⟨0, by omega⟩), by simp [List.mem_ofFn], rfl⟩]
    simp only [store_real, Num.val, List.map_id']
    rw [List.sum_ofFn, Real.log_prod fun i _ => (d1 i).ne']

/-- A point that meets the hypotheses. -/
example : ∀ i : Fin 2, Inside ([((some 0, none) : Bound), (some 1, some 3)])[i] (![1, 2] i) := by
  intro i
  fin_cases i <;> simp [Inside]
  norm_num

theorem jacInv_coordinate {f32 : ℝ → ℝ} {b : Bound} (hb : Proper f32 b) (y : ℝ) :
    ∃ j, jacAt f32 b (bwd f32 b y) = some j ∧ |jacInvAt f32 b y - j| ≤ Real.exp (-100) ∧ (|y| < 100 → jacInvAt f32 b y = j) := by
  obtain ⟨h0, h1, h2, h3⟩ := hb
  obtain ⟨l, u⟩ := b
  have ey := Real.exp_pos y
  cases l with
  | none => exact ⟨0, by simp [jacAt], by simp [jacInvAt]; exact (Real.exp_pos _).le, by simp [jacInvAt]⟩
  | some l =>
    have e1 := h1 l rfl
    cases u with
    | none =>
      refine ⟨-y, ?_, by simp [jacInvAt]; exact (Real.exp_pos _).le, by simp [jacInvAt]⟩
      simp [jacAt, bwd, e1, ey]
    | some u =>
      have e2 := h2 u rfl
      have lu := h3 l u rfl rfl
      have p3 : 0 < u - l := by linarith
      have p4 : 0 < 1 + Real.exp y := by linarith
      have a1 : (u - l) / (((u - l) * Real.exp y / (1 + Real.exp y) + l - l) * (u - ((u - l) * Real.exp y / (1 + Real.exp y) + l))) =
          (1 + Real.exp y) * (1 + Real.exp y) / ((u - l) * Real.exp y) := by
        have : u - ((u - l) * Real.exp y / (1 + Real.exp y) + l) = (u - l) / (1 + Real.exp y) := by field_simp; ring
        rw [this, add_sub_cancel_right]
        field_simp
      have a2 : (((u - l) * Real.exp y / (1 + Real.exp y) + l - l) * (u - ((u - l) * Real.exp y / (1 + Real.exp y) + l))) ≠ 0 := by
        have : u - ((u - l) * Real.exp y / (1 + Real.exp y) + l) = (u - l) / (1 + Real.exp y) := by field_simp; ring
        rw [this, add_sub_cancel_right]
        positivity
      have hy : 1 + Real.exp (-y) = (1 + Real.exp y) / Real.exp y := by rw [Real.exp_neg]; field_simp; ring
      have hn : Real.log (1 + Real.exp (-y)) = Real.log (1 + Real.exp y) - y := by
        rw [hy, Real.log_div p4.ne' ey.ne', Real.log_exp]
      have hp : 0 < Real.log (1 + Real.exp y) := Real.log_pos (by linarith)
      have hm : 0 < Real.log (1 + Real.exp (-y)) := Real.log_pos (by have := Real.exp_pos (-y); linarith)
      have bp : Real.log (1 + Real.exp y) ≤ Real.exp y := by have := Real.log_le_sub_one_of_pos p4; linarith
      have bm : Real.log (1 + Real.exp (-y)) ≤ Real.exp (-y) := by
        have := Real.log_le_sub_one_of_pos (show 0 < 1 + Real.exp (-y) by have := Real.exp_pos (-y); linarith); linarith
      refine ⟨-Real.log (u - l) + Real.log (1 + Real.exp y) + Real.log (1 + Real.exp (-y)), ?_, ?_, ?_⟩
      · simp only [jacAt, bwd, e1, e2]
        rw [if_pos ⟨a2, by rw [a1]; positivity⟩, a1, Real.log_div (by positivity) (by positivity), Real.log_mul p4.ne' p4.ne',
          Real.log_mul p3.ne' ey.ne', Real.log_exp, hn]
        congr 1; ring
      · simp only [jacInvAt, e1, e2]
        by_cases c1 : y < 100
        · by_cases c2 : y > -100
          · rw [if_pos c1, if_pos c2, sub_self, abs_zero]; exact (Real.exp_pos _).le
          · rw [if_pos c1, if_neg c2]
            have : Real.exp y ≤ Real.exp (-100) := Real.exp_le_exp.2 (by linarith)
            rw [hn, abs_le]
            constructor <;> linarith [Real.exp_pos (-100)]
        · have c2 : y > -100 := by linarith
          rw [if_neg c1, if_pos c2]
          have : Real.exp (-y) ≤ Real.exp (-100) := Real.exp_le_exp.2 (by linarith)
          rw [abs_le]
          constructor <;> linarith [Real.exp_pos (-100)]
      · intro h
        rw [abs_lt] at h
        simp only [jacInvAt, e1, e2]
        rw [if_pos h.2, if_pos h.1]

/-- **C56, second half.** Transforming `y` back gives a vector whose `jac_log_det` agrees with `jac_log_det_inverse_transform(y)`: exactly if no entry of `y` is as large
as 100 in absolute value, and up to `exp(-100)` per variable in any case. -/
theorem C56_inverse (f32 : ℝ → ℝ) (bs : List Bound) (hb : ∀ b ∈ bs, Proper f32 b) (h1 : bs.length ≠ 1) (y : List ℝ) (hl : y.length = bs.length) :
    ∃ x j j', inverse f32 bs (y.map .real) = .ok x ∧ jac f32 bs x = .ok j ∧ jacInv f32 bs (y.map .real) = .ok j' ∧
      |j' - j| ≤ bs.length * Real.exp (-100) ∧ ((∀ t ∈ y, |t| < 100) → j' = j) := by
  obtain ⟨-, hinv, -⟩ := C55_partial f32 bs hb
  obtain ⟨x, x1, x2, x3⟩ := hinv h1 y hl
  have hx : x = List.zipWith (bwd f32) bs y := by
    have hxl : x.length = bs.length := (List.Forall₂.length_eq x2).symm
    rw [inverse, if_neg (by simpa using hl), unsqueeze, if_neg (by simpa [hl] using h1)] at x1
    simp only [Except.ok.injEq] at x1
    have := congrArg (List.map Num.val) x1
    rw [val_real] at this
    rw [← this, map_fwd_num (fun b v => store ((y.map Num.real).all Num.isInt) (bwd f32 b v)) bs, val_real, List.map_map, List.zip, List.map_zipWith]
    by_cases hy : y = []
    · subst hy; simp
    · rw [reals_notAllInt hy]; rfl
  have key : ∀ (bs : List Bound), (∀ b ∈ bs, Proper f32 b) → ∀ y : List ℝ, y.length = bs.length →
      ∃ js, collect ((bs.zip (List.zipWith (bwd f32) bs y)).map fun e => jacAt f32 e.1 e.2) = some js ∧
        |((bs.zip y).map fun e => jacInvAt f32 e.1 e.2).sum - js.sum| ≤ bs.length * Real.exp (-100) ∧
        ((∀ t ∈ y, |t| < 100) → ((bs.zip y).map fun e => jacInvAt f32 e.1 e.2).sum = js.sum) := by
    intro bs
    induction bs with
    | nil => intro _ y hy; exact ⟨[], by simp [collect], by simp, by simp⟩
    | cons b bs ih =>
      intro hb y hy
      cases y with
      | nil => simp at hy
      | cons a y =>
        obtain ⟨js, k1, k2, k3⟩ := ih (fun b h => hb b (by simp [h])) y (by simpa using hy)
        obtain ⟨j, m1, m2, m3⟩ := jacInv_coordinate (hb b (by simp)) a
        refine ⟨j :: js, by simp [collect, k1, m1], ?_, ?_⟩
        · simp only [List.zip_cons_cons, List.map_cons, List.sum_cons, List.length_cons, Nat.cast_add, Nat.cast_one]
          rw [abs_le] at *
          constructor <;> linarith [k2.1, k2.2, m2.1, m2.2]
        · intro h
          simp only [List.zip_cons_cons, List.map_cons, List.sum_cons]
          rw [k3 fun t ht => h t (by simp [ht]), m3 (h a (by simp))]
  obtain ⟨js, k1, k2, k3⟩ := key bs hb y hl
  refine ⟨_, js.sum, _, x1, ?_, ?_, k2, k3⟩
  · rw [jac, if_neg (by simp [hx, hl]), any_refused_num, val_real, if_neg (by rw [any_refused hb (by simp [hx, hl])]; simpa using x2),
      map_fwd_num (jacAt f32) bs, val_real, hx, k1]
    simp only
    by_cases hy : y = []
    · subst hy
      simp only [List.zipWith_nil_right, List.zip_nil_right, List.map_nil, collect, Option.some.injEq] at k1
      subst k1
      simp
    · rw [reals_notAllInt (by
        intro h
        have := congrArg List.length h
        simp [hl] at this
        exact hy (List.eq_nil_of_length_eq_zero (by rw [hl, this]; rfl)))]
      simp [store_real, Num.val]
  · rw [jacInv, if_neg (by simpa using hl), map_fwd_num (jacInvAt f32) bs, val_real]

end Verif.Transform
