import Verif.Transform.Lemmas
import Mathlib.Analysis.SpecialFunctions.Log.Deriv
import Mathlib.Analysis.SpecialFunctions.ExpDeriv
import Mathlib.Analysis.Complex.ExponentialBounds
import Mathlib.LinearAlgebra.Matrix.Determinant.Basic
/-
C55 (the transformation is a bijection), C56 (its Jacobian) and C80 (the scaler).
-/
namespace Verif.Transform

/-- All entries strictly inside their bounds. -/
def AllInside (bs : List Bound) (x : List ℝ) : Prop := List.Forall₂ Inside bs x

theorem any_refused {f32 : ℝ → ℝ} {bs : List Bound} (hb : ∀ b ∈ bs, Proper f32 b) {x : List ℝ} (hl : x.length = bs.length) :
    (bs.zip x).any (fun e => refused f32 e.1 e.2) = true ↔ ¬ AllInside bs x := by
  induction bs generalizing x with
  | nil => cases x with
    | nil => simp [AllInside]
    | cons a x => simp at hl
  | cons b bs ih => cases x with
    | nil => simp at hl
    | cons a x =>
      have := ih (fun b h => hb b (by simp [h])) (x := x) (by simpa using hl)
      simp only [List.zip_cons_cons, List.any_cons, Bool.or_eq_true, this, refused_iff (hb b (by simp)), AllInside, List.forall₂_cons]
      tauto

theorem collect_fwd {f32 : ℝ → ℝ} {bs : List Bound} (hb : ∀ b ∈ bs, Proper f32 b) {x : List ℝ} (hx : AllInside bs x) :
    ∃ ys, collect ((bs.zip x).map fun e => fwd f32 e.1 e.2) = some ys ∧ ys.length = bs.length ∧ List.zipWith (bwd f32) bs ys = x := by
  induction hx with
  | nil => exact ⟨[], rfl, rfl, rfl⟩
  | @cons b a bs x h1 h2 ih =>
    obtain ⟨ys, e1, e2, e3⟩ := ih fun b h => hb b (by simp [h])
    obtain ⟨y, f1, f2⟩ := fwd_inside (hb b (by simp)) h1
    exact ⟨y :: ys, by simp [collect, e1, f1], by simp [e2], by simp [e3, f2]⟩

theorem collect_bwd {f32 : ℝ → ℝ} {bs : List Bound} (hb : ∀ b ∈ bs, Proper f32 b) {y : List ℝ} (hl : y.length = bs.length) :
    AllInside bs (List.zipWith (bwd f32) bs y) ∧
      collect ((bs.zip (List.zipWith (bwd f32) bs y)).map fun e => fwd f32 e.1 e.2) = some y := by
  induction bs generalizing y with
  | nil => cases y with
    | nil => exact ⟨.nil, rfl⟩
    | cons a y => simp at hl
  | cons b bs ih => cases y with
    | nil => simp at hl
    | cons a y =>
      obtain ⟨h1, h2⟩ := ih (fun b h => hb b (by simp [h])) (y := y) (by simpa using hl)
      obtain ⟨g1, g2⟩ := bwd_inside (hb b (by simp)) a
      exact ⟨.cons g1 h1, by simp [collect, h2, g2]⟩

theorem zip_val (bs : List Bound) (x : List Num) : (bs.zip x).map (fun e => (e.1, e.2.val)) = bs.zip (x.map Num.val) := by
  rw [List.zip_map_right]; rfl

/-- The bounds are checked on the values, whatever their type. -/
theorem any_refused_num (f32 : ℝ → ℝ) (bs : List Bound) (x : List Num) :
    (bs.zip x).any (fun e => refused f32 e.1 e.2.val) = (bs.zip (x.map Num.val)).any (fun e => refused f32 e.1 e.2) := by
  rw [← zip_val, List.any_map]; rfl

theorem map_fwd_num {β : Type} (f : Bound → ℝ → β) (bs : List Bound) (x : List Num) :
    ((bs.zip x).map fun e => f e.1 e.2.val) = (bs.zip (x.map Num.val)).map fun e => f e.1 e.2 := by
  rw [← zip_val, List.map_map]; rfl

theorem notAllInt {x : List Num} (h : ∃ e ∈ x, e.isInt = false) : x.all Num.isInt = false := by
  obtain ⟨e, h1, h2⟩ := h
  rw [Bool.eq_false_iff, ne_eq, List.all_eq_true]
  intro h
  rw [h e h1] at h2
  exact absurd h2 (by simp)

/-- A vector of floats of length at least two has a float. -/
theorem reals_notAllInt {x : List ℝ} (h : x ≠ []) : (x.map Num.real).all Num.isInt = false := by
  cases x with
  | nil => exact absurd rfl h
  | cons a x => simp [Num.isInt]

theorem map_store (x : List ℝ) (b : Bool) (h : x = [] ∨ b = false) : x.map (store b) = x.map Num.real := by
  rcases h with rfl | rfl
  · rfl
  · exact List.map_congr_left fun r _ => store_real r

theorem val_real (x : List ℝ) : (x.map Num.real).map Num.val = x := by
  rw [List.map_map]
  induction x with
  | nil => rfl
  | cons a x ih => simp [ih, Num.val]

/-- `transform` of a vector inside the bounds, when not all of its entries are integers. -/
theorem transform_ok {f32 : ℝ → ℝ} {bs : List Bound} (hb : ∀ b ∈ bs, Proper f32 b) (h1 : bs.length ≠ 1) {x : List Num}
    (hx : AllInside bs (x.map Num.val)) (hf : ∃ e ∈ x, e.isInt = false) :
    ∃ ys : List ℝ, transform f32 bs x = .ok (ys.map Num.real) ∧ ys.length = bs.length ∧ List.zipWith (bwd f32) bs ys = x.map Num.val ∧
      collect ((bs.zip (x.map Num.val)).map fun e => fwd f32 e.1 e.2) = some ys := by
  obtain ⟨ys, e1, e2, e3⟩ := collect_fwd hb hx
  have hl : (x.map Num.val).length = bs.length := (List.Forall₂.length_eq hx).symm
  have hl' : x.length = bs.length := by simpa using hl
  refine ⟨ys, ?_, e2, e3, e1⟩
  rw [transform, if_neg (by simpa using hl'), any_refused_num, if_neg (by rw [any_refused hb hl]; simpa using hx),
    map_fwd_num (fwd f32) bs x, e1]
  simp only
  rw [unsqueeze, if_neg (by simpa [e2] using h1), map_store _ _ (.inr (notAllInt hf))]

/-- **C55, what holds.** For any number of variables other than one, bounds that are single precision numbers and vectors that are not all integers: a
vector strictly inside is transformed, and transforming back returns its values; transforming back any vector gives one strictly inside, and transforming that returns
the vector. Vectors of any kind with an entry on or outside a bound are refused. -/
theorem C55_partial (f32 : ℝ → ℝ) (bs : List Bound) (hb : ∀ b ∈ bs, Proper f32 b) :
    (bs.length ≠ 1 → ∀ x : List Num, AllInside bs (x.map Num.val) → (∃ e ∈ x, e.isInt = false) →
      ∃ y, transform f32 bs x = .ok y ∧ ∃ x', inverse f32 bs y = .ok x' ∧ x'.map Num.val = x.map Num.val) ∧
    (bs.length ≠ 1 → ∀ y : List ℝ, y.length = bs.length →
      ∃ x : List ℝ, inverse f32 bs (y.map .real) = .ok (x.map .real) ∧ AllInside bs x ∧
        transform f32 bs (x.map .real) = .ok (y.map .real)) ∧
    (∀ x : List Num, x.length = bs.length → ¬ AllInside bs (x.map Num.val) →
      transform f32 bs x = .error .outOfBounds ∧ jac f32 bs x = .error .outOfBounds) := by
  refine ⟨?_, ?_, ?_⟩
  · intro h1 x hx hf
    obtain ⟨ys, t1, t2, t3, -⟩ := transform_ok hb h1 hx hf
    refine ⟨_, t1, (x.map Num.val).map Num.real, ?_, val_real _⟩
    have hne : ys ≠ [] := by
      rintro rfl
      obtain ⟨e, he, -⟩ := hf
      have := List.Forall₂.length_eq hx
      simp at t2
      simp [← t2] at this
      have := List.eq_nil_of_length_eq_zero this.symm
      subst this
      simp at he
    rw [inverse, if_neg (by simpa using t2), map_fwd_num (fun b v => store ((ys.map Num.real).all Num.isInt) (bwd f32 b v)) bs,
      val_real, reals_notAllInt hne]
    rw [show (fun e : Bound × ℝ => store false (bwd f32 e.1 e.2)) = Num.real ∘ (fun e : Bound × ℝ => bwd f32 e.1 e.2) from
      funext fun e => store_real _, ← List.map_map]
    rw [show (bs.zip ys).map (fun e => bwd f32 e.1 e.2) = x.map Num.val by rw [← t3, List.zip, List.map_zipWith], unsqueeze, if_neg]
    have := List.Forall₂.length_eq hx
    simp at this ⊢
    omega
  · intro h1 y hl
    obtain ⟨i1, i2⟩ := collect_bwd hb hl
    refine ⟨List.zipWith (bwd f32) bs y, ?_, i1, ?_⟩
    · rw [inverse, if_neg (by simpa using hl)]
      rw [map_fwd_num (fun b v => store ((y.map Num.real).all Num.isInt) (bwd f32 b v)) bs, val_real]
      rw [show (bs.zip y).map (fun e => store ((y.map Num.real).all Num.isInt) (bwd f32 e.1 e.2)) =
        ((bs.zip y).map (fun e => bwd f32 e.1 e.2)).map (store ((y.map Num.real).all Num.isInt)) by rw [List.map_map]; rfl]
      rw [show (bs.zip y).map (fun e => bwd f32 e.1 e.2) = List.zipWith (bwd f32) bs y by rw [List.zip, List.map_zipWith]]
      rw [map_store, unsqueeze, if_neg (by simpa [hl] using h1)]
      by_cases hy : y = []
      · left; subst hy; simp
      · right; exact reals_notAllInt hy
    · rw [transform, if_neg (by simp [hl]), any_refused_num, val_real,
        if_neg (by rw [any_refused hb (by simp [hl])]; simpa using i1), map_fwd_num (fwd f32) bs, val_real, i2]
      simp only
      rw [map_store, unsqueeze, if_neg (by simpa [hl] using h1)]
      by_cases hy : y = []
      · exact .inl hy
      · right
        refine reals_notAllInt fun h => hy ?_
        have := congrArg List.length h
        simp [hl] at this
        exact List.eq_nil_of_length_eq_zero (by rw [hl, this]; rfl)
  · intro x hl hx
    have := (any_refused hb (x := x.map Num.val) (by simpa using hl)).2 hx
    constructor
    · rw [transform, if_neg (by simpa using hl), any_refused_num, if_pos this]
    · rw [jac, if_neg (by simpa using hl), any_refused_num, if_pos this]

/-- The hypotheses are met by a free, a lower bounded and a two-sided variable. -/
example : ∀ b ∈ [((none, none) : Bound), (some 0, none), (some 1, some 3)], Proper id b := by
  simp only [List.mem_cons, List.not_mem_nil, or_false, forall_eq_or_imp, forall_eq]
  exact ⟨⟨by simp, by simp, by simp, by simp⟩, ⟨by simp, by simp, by simp, by simp⟩,
    ⟨by simp, by simp, by simp, by rintro l u ⟨⟩ ⟨⟩; norm_num⟩⟩

example : AllInside [((none, none) : Bound), (some 0, none), (some 1, some 3)] (([.int 5, .real 2, .int 2] : List Num).map Num.val) := by
  simp only [AllInside, List.map_cons, List.map_nil, List.forall₂_cons, Num.val, Inside]
  simp
  norm_num

/-- **C55 is violated for one variable.** Whatever the bounds, a vector with one entry strictly inside them cannot be transformed, nor can any vector be
transformed back: both calls raise an `IndexError`. -/
theorem C55_single_violated (f32 : ℝ → ℝ) (b : Bound) (hb : Proper f32 b) (x : Num) :
    (Inside b x.val → transform f32 [b] [x] = .error .index) ∧ inverse f32 [b] [x] = .error .index := by
  constructor
  · intro hx
    obtain ⟨y, h1, -⟩ := fwd_inside hb hx
    have : refused f32 b x.val = false := by
      rw [Bool.eq_false_iff, ne_eq, refused_iff hb]; simpa using hx
    simp [transform, this, h1, collect, unsqueeze]
  · simp [inverse, unsqueeze]

theorem log_two_floor : ⌊Real.log 2⌋ = 0 := by
  rw [Int.floor_eq_iff]
  have := Real.log_two_gt_d9
  have := Real.log_two_lt_d9
  constructor <;> push_cast <;> linarith

theorem log_three_floor : ⌊Real.log 3⌋ = 1 := by
  rw [Int.floor_eq_iff]
  have h1 := Real.exp_one_lt_d9
  have h2 := Real.exp_one_gt_d9
  constructor
  · push_cast
    rw [Real.le_log_iff_exp_le (by norm_num)]
    linarith
  · rw [Real.log_lt_iff_lt_exp (by norm_num)]
    have : Real.exp (((1 : ℤ) : ℝ) + 1) = Real.exp 1 * Real.exp 1 := by rw [← Real.exp_add]; norm_num
    rw [this]
    nlinarith

theorem exp_one_floor : ⌊Real.exp 1⌋ = 2 := by
  rw [Int.floor_eq_iff]
  have h1 := Real.exp_one_lt_d9
  have h2 := Real.exp_one_gt_d9
  constructor <;> push_cast <;> linarith

/-- **C55 is violated for integers.** The vector `[2, 3]` lies inside the bounds "larger than zero", is transformed to `[0, 1]`, and comes back as `[1, 2]`. -/
theorem C55_integers_violated (f32 : ℝ → ℝ) (h0 : f32 0 = 0) :
    let bs : List Bound := [(some 0, none), (some 0, none)]
    AllInside bs (([.int 2, .int 3] : List Num).map Num.val) ∧
    transform f32 bs [.int 2, .int 3] = .ok [.int 0, .int 1] ∧ inverse f32 bs [.int 0, .int 1] = .ok [.int 1, .int 2] := by
  refine ⟨?_, ?_, ?_⟩
  · simp only [AllInside, List.map_cons, List.map_nil, List.forall₂_cons, Num.val, Inside]
    simp
  · have l2 : (0 : ℝ) ≤ Real.log 2 := Real.log_nonneg (by norm_num)
    have l3 : (0 : ℝ) ≤ Real.log 3 := Real.log_nonneg (by norm_num)
    norm_num [transform, refused, fwd, h0, Num.val, Num.isInt, collect, unsqueeze, store, l2, l3, log_two_floor, log_three_floor]
  · have e1 : (0 : ℝ) ≤ Real.exp 1 := (Real.exp_pos 1).le
    norm_num [inverse, bwd, h0, Num.val, Num.isInt, unsqueeze, store, e1, exp_one_floor]

/-- **C55 is violated when a bound is not a single precision number.** If rounding moves the upper bound up, some vector is transformed back to
one that lies on the bound; `transform` would not refuse it. -/
theorem C55_rounding_violated (f32 : ℝ → ℝ) (l u : ℝ) (hl : f32 l = l) (hlu : l < u) (hu : u < f32 u) :
    let bs : List Bound := [(some l, some u), (some l, some u)]
    ∃ t : ℝ, inverse f32 bs [.real t, .real t] = .ok [.real u, .real u] ∧ ¬ AllInside bs [u, u] ∧
      transform f32 bs [.real u, .real u] = .ok [.real t, .real t] := by
  have hp : Proper id (some l, some (f32 u)) := ⟨by simp, by simp, by simp, by rintro a b ⟨⟩ ⟨⟩; linarith⟩
  obtain ⟨t, h1, h2⟩ := fwd_inside hp (v := u) ⟨by rintro a ⟨⟩; exact hlu, by rintro a ⟨⟩; exact hu⟩
  have hb : bwd f32 (some l, some u) t = u := by simpa [bwd, hl] using h2
  have hf : fwd f32 (some l, some u) u = some t := by simpa [fwd, hl] using h1
  have hr : refused f32 (some l, some u) u = false := by simp [refused, hlu, hu]
  refine ⟨t, ?_, ?_, ?_⟩
  · simp [inverse, Num.val, Num.isInt, hb, store, unsqueeze]
  · simp [AllInside, Inside]
  · simp [transform, Num.val, Num.isInt, hf, hr, store, unsqueeze, collect]

/-- Such a rounding function exists. -/
example : ∃ f32 : ℝ → ℝ, f32 0 = 0 ∧ (0 : ℝ) < 0.1 ∧ (0.1 : ℝ) < f32 0.1 :=
  ⟨fun x => if x = 0.1 then 0.125 else x, by norm_num, by norm_num, by norm_num⟩

/-- **Bounds of the constructor**: a variable with an upper bound only is not supported, arrays of different sizes are refused, everything else is accepted. -/
theorem C55_constructor (lower upper : List (Option ℝ)) :
    (lower.length ≠ upper.length → new lower upper = .error .shape) ∧
    (lower.length = upper.length → (∃ b ∈ lower.zip upper, b.1 = none ∧ b.2 ≠ none) → new lower upper = .error .notImplemented) ∧
    (lower.length = upper.length → (∀ b ∈ lower.zip upper, b.1 = none → b.2 = none) → new lower upper = .ok (lower.zip upper)) := by
  refine ⟨fun h => by simp [new, h], fun h hb => ?_, fun h hb => ?_⟩
  · obtain ⟨b, m, h1, h2⟩ := hb
    rw [new, if_neg (by simpa using h), if_pos]
    rw [List.any_eq_true]
    exact ⟨b, m, by simp [h1, Option.isSome_iff_ne_none, h2]⟩
  · rw [new, if_neg (by simpa using h), if_neg]
    rw [List.any_eq_true]
    rintro ⟨b, m, h1⟩
    simp only [Bool.and_eq_true, Option.isNone_iff_eq_none] at h1
    have := hb b m h1.1
    rw [this] at h1
    simp at h1

end Verif.Transform
