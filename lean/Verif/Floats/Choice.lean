import Verif.Floats.Bisection
import Mathlib.Algebra.Order.Ring.Pow
import Mathlib.Algebra.BigOperators.Group.List.Basic
import Mathlib.Algebra.Order.BigOperators.Group.List
import Mathlib.Algebra.BigOperators.Ring.List
/-
C170: the weights that the samplers normalise are probabilities for `choice` of numpy, in floating-point arithmetic.
-/
namespace Verif.Floats

/-- The order in which numbers are added: Python's `sum` adds from the left to the right, `np.sum` in pairs of blocks. -/
inductive Order where
  | leaf : ℝ → Order
  | add : Order → Order → Order

/-- The numbers that are added, from left to right. -/
def Order.terms : Order → List ℝ
  | leaf x => [x]
  | add a b => a.terms ++ b.terms

/-- The sum in floating-point arithmetic. -/
noncomputable def Order.sum (R : Rounding) : Order → ℝ
  | leaf x => x
  | add a b => R.r (a.sum R + b.sum R)

/-- `new_weights / sum(new_weights)`: abcpy/inferences.py 916-917, 1339-1340, 1768, 3042, 3487, 3694; abcpy/output.py 1074 and 1200; abcpy/perturbationkernel.py 686, 706. `o` is the order in which the sum adds the weights. -/
noncomputable def normaliseFl (R : Rounding) (o : Order) : List ℝ := o.terms.map fun w => R.r (w / o.sum R)

/-- `choice` of numpy refuses probabilities that are negative or whose sum, added up in the order `o`, is not one up to 2^-26, the square root of the precision. Modelled here although it is part of numpy: its documentation asks for
probabilities that sum to one, and its source has this tolerance. -/
def Accepted (R : Rounding) (o : Order) : Prop := (∀ p ∈ o.terms, 0 ≤ p) ∧ |o.sum R - 1| ≤ 2⁻¹ ^ 26

variable (R : Rounding)

theorem terms_pos : ∀ o : Order, 0 < o.terms.length
  | .leaf _ => by simp [Order.terms]
  | .add a b => by have := terms_pos a; simp [Order.terms]; omega

/-- A sum of numbers that are not negative is right up to one error for each addition. -/
theorem sum_bounds (o : Order) (h : ∀ x ∈ o.terms, 0 ≤ x) :
    (1 - R.u) ^ (o.terms.length - 1) * o.terms.sum ≤ o.sum R ∧ o.sum R * (1 - R.u) ^ (o.terms.length - 1) ≤ o.terms.sum := by
  have u0 := u_nonneg R
  have us := R.small
  have hq0 : 0 ≤ 1 - R.u := by linarith
  have hq1 : 1 - R.u ≤ 1 := by linarith
  induction o with
  | leaf x => simp [Order.terms, Order.sum]
  | add a b iha ihb =>
    have ha : ∀ x ∈ a.terms, 0 ≤ x := fun x hx => h x (by simp [Order.terms, hx])
    have hb : ∀ x ∈ b.terms, 0 ≤ x := fun x hx => h x (by simp [Order.terms, hx])
    obtain ⟨a1, a2⟩ := iha ha
    obtain ⟨b1, b2⟩ := ihb hb
    have sa := List.sum_nonneg ha
    have sb := List.sum_nonneg hb
    have pa := terms_pos a
    have pb := terms_pos b
    set m := a.terms.length with hm
    set n := b.terms.length with hn
    have hA : 0 ≤ a.sum R := le_trans (by positivity) a1
    have hB : 0 ≤ b.sum R := le_trans (by positivity) b1
    have e := R.err (a.sum R + b.sum R)
    rw [abs_of_nonneg (by linarith : 0 ≤ a.sum R + b.sum R)] at e
    obtain ⟨e1, e2⟩ := abs_le.1 e
    have hlen : (Order.add a b).terms.length - 1 = (m + n - 2) + 1 := by simp [Order.terms, ← hm, ← hn]; omega
    rw [hlen]
    simp only [Order.terms, List.sum_append, Order.sum]
    have qa : (1 - R.u) ^ (m + n - 2) ≤ (1 - R.u) ^ (m - 1) := pow_le_pow_of_le_one hq0 hq1 (by omega)
    have qb : (1 - R.u) ^ (m + n - 2) ≤ (1 - R.u) ^ (n - 1) := pow_le_pow_of_le_one hq0 hq1 (by omega)
    have qp : 0 ≤ (1 - R.u) ^ (m + n - 2) := pow_nonneg hq0 _
    constructor
    · have l1 : (1 - R.u) ^ (m + n - 2) * (a.terms.sum + b.terms.sum) ≤ a.sum R + b.sum R := by nlinarith
      calc (1 - R.u) ^ (m + n - 2 + 1) * (a.terms.sum + b.terms.sum) = (1 - R.u) * ((1 - R.u) ^ (m + n - 2) * (a.terms.sum + b.terms.sum)) := by ring
        _ ≤ (1 - R.u) * (a.sum R + b.sum R) := mul_le_mul_of_nonneg_left l1 hq0
        _ ≤ _ := by linarith
    · have l1 : (a.sum R + b.sum R) * (1 - R.u) ^ (m + n - 2) ≤ a.terms.sum + b.terms.sum := by nlinarith
      have l2 : R.r (a.sum R + b.sum R) * (1 - R.u) ≤ a.sum R + b.sum R := by nlinarith
      calc R.r (a.sum R + b.sum R) * (1 - R.u) ^ (m + n - 2 + 1) = R.r (a.sum R + b.sum R) * (1 - R.u) * (1 - R.u) ^ (m + n - 2) := by ring
        _ ≤ (a.sum R + b.sum R) * (1 - R.u) ^ (m + n - 2) := mul_le_mul_of_nonneg_right l2 qp
        _ ≤ _ := l1

theorem map_div_sum (l : List ℝ) (s : ℝ) : (l.map fun w => w / s).sum = l.sum / s := by
  induction l with
  | nil => simp
  | cons a l ih => simp only [List.map_cons, List.sum_cons, ih]; ring

theorem map_bounds {l : List ℝ} {f g : ℝ → ℝ} {e : ℝ} (h : ∀ x ∈ l, f x ≤ g x + e) : (l.map f).sum ≤ (l.map g).sum + l.length * e := by
  induction l with
  | nil => simp
  | cons a l ih =>
    have h1 := h a (by simp)
    have h2 := ih fun x hx => h x (by simp [hx])
    simp only [List.map_cons, List.sum_cons, List.length_cons]
    push_cast
    linarith

/-- The quotients may have an absolute error `η` in addition to the relative one: underflow. -/
theorem accepted_of (D : ℝ → ℝ) (η : ℝ) (hη : 0 ≤ η) (hD : ∀ x, 0 ≤ x → 0 ≤ D x ∧ |D x - x| ≤ R.u * x + η) (o o' : Order) (h : ∀ x ∈ o.terms, 0 ≤ x) (hpos : ∃ x ∈ o.terms, 0 < x)
    (hn : 4 * o.terms.length * R.u + 2 * o.terms.length * η ≤ 2⁻¹ ^ 26) (ho : o'.terms = o.terms.map fun w => D (w / o.sum R)) : 0 < o.sum R ∧ Accepted R o' := by
  have u0 := u_nonneg R
  have us := R.small
  have hq0 : 0 < 1 - R.u := by linarith
  have hq1 : 1 - R.u ≤ 1 := by linarith
  obtain ⟨s1, s2⟩ := sum_bounds R o h
  have hS : 0 < o.terms.sum := by
    obtain ⟨x, hx, hx0⟩ := hpos
    exact lt_of_lt_of_le hx0 (List.single_le_sum h x hx)
  have hs : 0 < o.sum R := lt_of_lt_of_le (by positivity) s1
  have hlen : o'.terms.length = o.terms.length := by rw [ho]; simp
  have hp0 : ∀ p ∈ o'.terms, 0 ≤ p := by
    rw [ho]
    intro p hp
    obtain ⟨w, hw, rfl⟩ := List.mem_map.1 hp
    exact (hD _ (div_nonneg (h w hw) hs.le)).1
  refine ⟨hs, hp0, ?_⟩
  obtain ⟨t1, t2⟩ := sum_bounds R o' hp0
  rw [hlen] at t1 t2
  -- the exact sum of the probabilities
  have p1 : (1 - R.u) * (o.terms.sum / o.sum R) ≤ o'.terms.sum + o.terms.length * η := by
    rw [ho, ← map_div_sum, ← List.sum_map_mul_left]
    refine map_bounds fun w hw => ?_
    have := (abs_le.1 (hD _ (div_nonneg (h w hw) hs.le)).2).1
    linarith
  have p2 : o'.terms.sum ≤ (1 + R.u) * (o.terms.sum / o.sum R) + o.terms.length * η := by
    rw [ho, ← map_div_sum, ← List.sum_map_mul_left]
    refine map_bounds fun w hw => ?_
    have := (abs_le.1 (hD _ (div_nonneg (h w hw) hs.le)).2).2
    linarith
  set n := o.terms.length with hnd
  have hn1 : 1 ≤ n := terms_pos o
  set q := (1 - R.u) ^ (n - 1) with hq
  have hqp : 0 < q := pow_pos hq0 _
  have hql : q ≤ 1 := pow_le_one₀ hq0.le hq1
  set T := o.terms.sum / o.sum R with hT
  have d1 : q ≤ T := by rw [hT, le_div_iff₀ hs]; linarith
  have d2 : T * q ≤ 1 := by rw [hT, div_mul_eq_mul_div, div_le_one hs]; linarith
  have hn0 : (0 : ℝ) ≤ n := by positivity
  have hnu : 0 ≤ n * R.u := mul_nonneg hn0 u0
  have hne : 0 ≤ n * η := mul_nonneg hn0 hη
  -- the bounds for the sum that is checked
  have hbern : 1 - 2 * n * R.u ≤ (1 - R.u) ^ (2 * n) := by
    have := one_add_mul_le_pow (a := -R.u) (by linarith) (2 * n)
    push_cast at this
    rw [← sub_eq_add_neg] at this
    linarith
  have hpw : (1 - R.u) ^ (2 * n) ≤ q * ((1 - R.u) * q) := by
    rw [hq, ← pow_succ', ← pow_add]
    exact pow_le_pow_of_le_one hq0.le hq1 (by omega)
  have low : 1 - 2 * n * R.u - n * η ≤ o'.sum R := by
    have h1 : (1 - R.u) * q - n * η ≤ o'.terms.sum := by
      have := mul_le_mul_of_nonneg_left d1 hq0.le
      linarith
    have h2 := mul_le_mul_of_nonneg_left h1 hqp.le
    have h3 : q * (n * η) ≤ n * η := mul_le_of_le_one_left hne hql
    linarith
  have hO : 0 ≤ o'.sum R := by
    have : 0 ≤ o'.terms.sum := List.sum_nonneg hp0
    exact le_trans (by positivity) t1
  have hi : o'.sum R * (1 - 2 * n * R.u) ≤ 1 + n * η := by
    have hr : (1 - R.u) * q ≤ 1 := by nlinarith
    have hr0 : 0 ≤ (1 - R.u) * q := by positivity
    calc o'.sum R * (1 - 2 * n * R.u) ≤ o'.sum R * (q * ((1 - R.u) * q)) := mul_le_mul_of_nonneg_left (hbern.trans hpw) hO
      _ = o'.sum R * q * ((1 - R.u) * q) := by ring
      _ ≤ o'.terms.sum * ((1 - R.u) * q) := mul_le_mul_of_nonneg_right t2 hr0
      _ ≤ ((1 + R.u) * T + n * η) * ((1 - R.u) * q) := mul_le_mul_of_nonneg_right p2 hr0
      _ = (1 - R.u ^ 2) * (T * q) + n * η * ((1 - R.u) * q) := by ring
      _ ≤ 1 + n * η := by
        have hTq : 0 ≤ T * q := mul_nonneg (hqp.le.trans d1) hqp.le
        have a1 : (1 - R.u ^ 2) * (T * q) ≤ T * q := mul_le_of_le_one_left hTq (by nlinarith)
        have a2 : n * η * ((1 - R.u) * q) ≤ n * η := mul_le_of_le_one_right hne hr
        linarith
  have hb : (2⁻¹ : ℝ) ^ 26 ≤ 1 / 2 := by norm_num
  rw [abs_le]
  constructor
  · nlinarith
  · have hsmall : 2 * (n * R.u) ≤ 1 / 4 := by nlinarith
    have : o'.sum R ≤ 2 := by
      by_contra hc
      push Not at hc
      nlinarith
    nlinarith

/-- **C170.** Let weights that are not negative, and not all zero, be normalised in floating-point arithmetic, with a sum in any order. Then `choice` accepts the results, in whatever order it adds them up, if there are few enough weights in
comparison with the precision. -/
theorem C170_accepted (o o' : Order) (h : ∀ x ∈ o.terms, 0 ≤ x) (hpos : ∃ x ∈ o.terms, 0 < x) (hn : 4 * o.terms.length * R.u ≤ 2⁻¹ ^ 26) (ho : o'.terms = normaliseFl R o) : Accepted R o' := by
  have us := R.small
  refine (accepted_of R R.r 0 le_rfl (fun x hx => ?_) o o' h hpos (by linarith) ho).2
  have e := R.err x
  rw [abs_of_nonneg hx] at e
  exact ⟨by nlinarith [(abs_le.1 e).1], by linarith⟩

/-- Each probability is at most one, if the weights are floats. -/
theorem C170_le_one (h1 : R.Float 1) (o : Order) (h : ∀ x ∈ o.terms, 0 ≤ x ∧ R.Float x) (hs : 0 < o.sum R) : ∀ p ∈ normaliseFl R o, p ≤ 1 := by
  have nonneg : ∀ o : Order, (∀ x ∈ o.terms, 0 ≤ x ∧ R.Float x) → R.Float (o.sum R) ∧ 0 ≤ o.sum R ∧ ∀ x ∈ o.terms, x ≤ o.sum R := by
    intro o
    induction o with
    | leaf x => intro h; simpa [Order.terms, Order.sum, and_comm] using h
    | add a b iha ihb =>
      intro h
      obtain ⟨a1, a2, a3⟩ := iha fun x hx => h x (by simp [Order.terms, hx])
      obtain ⟨b1, b2, b3⟩ := ihb fun x hx => h x (by simp [Order.terms, hx])
      have la : a.sum R ≤ R.r (a.sum R + b.sum R) := by
        have := R.mono _ _ (by linarith : a.sum R ≤ a.sum R + b.sum R)
        rwa [a1] at this
      have lb : b.sum R ≤ R.r (a.sum R + b.sum R) := by
        have := R.mono _ _ (by linarith : b.sum R ≤ a.sum R + b.sum R)
        rwa [b1] at this
      refine ⟨R.idem _, a2.trans la, fun x hx => ?_⟩
      rcases List.mem_append.1 hx with hx | hx
      · exact (a3 x hx).trans la
      · exact (b3 x hx).trans lb
  intro p hp
  obtain ⟨w, hw, rfl⟩ := List.mem_map.1 hp
  have := R.mono (w / o.sum R) 1 ((div_le_one hs).2 ((nonneg o h).2.2 w hw))
  rwa [h1] at this

/-- With Python's floats this holds for up to 2^25, more than 33 million, weights. -/
theorem C170_python (o o' : Order) (h : ∀ x ∈ o.terms, 0 ≤ x) (hpos : ∃ x ∈ o.terms, 0 < x) (hn : o.terms.length ≤ 2 ^ 25) (ho : o'.terms = normaliseFl binary64 o) : Accepted binary64 o' := by
  refine C170_accepted binary64 o o' h hpos ?_ ho
  have : (o.terms.length : ℝ) ≤ 2 ^ 25 := by exact_mod_cast hn
  show 4 * (o.terms.length : ℝ) * 2⁻¹ ^ 53 ≤ 2⁻¹ ^ 26
  calc 4 * (o.terms.length : ℝ) * 2⁻¹ ^ 53 ≤ 4 * 2 ^ 25 * 2⁻¹ ^ 53 := by gcongr
    _ = 2⁻¹ ^ 26 := by norm_num

/-- The weights of a first population, `np.ones(...) * (1.0 / n_samples)` (abcpy/inferences.py 2676-2680, 2716, 3489, 3502), or with the same values `np.ones(...) / n_samples` (1226-1229), are accepted as well. -/
theorem C170_equal (n : Nat) (o' : Order) (hn0 : 0 < n) (hn : 4 * n * R.u ≤ 2⁻¹ ^ 26) (ho : o'.terms = List.replicate n (R.r (1 * R.r (1 / n)))) : Accepted R o' := by
  have u0 := u_nonneg R
  have us := R.small
  have hq0 : 0 < 1 - R.u := by linarith
  have hn' : (0 : ℝ) < n := by exact_mod_cast hn0
  rw [one_mul, R.idem] at ho
  have e := R.err (1 / (n : ℝ))
  rw [abs_of_pos (by positivity : (0 : ℝ) < 1 / n)] at e
  obtain ⟨e1, e2⟩ := abs_le.1 e
  have f1 : (1 - R.u) ≤ n * R.r (1 / n) := by
    have : (n : ℝ) * ((1 - R.u) * (1 / n)) = 1 - R.u := by field_simp
    rw [← this]
    exact mul_le_mul_of_nonneg_left (by linarith) hn'.le
  have f2 : n * R.r (1 / n) ≤ 1 + R.u := by
    have : (n : ℝ) * ((1 + R.u) * (1 / n)) = 1 + R.u := by field_simp
    rw [← this]
    exact mul_le_mul_of_nonneg_left (by linarith) hn'.le
  have hp : 0 ≤ R.r (1 / (n : ℝ)) := by
    have : 0 ≤ (1 - R.u) * (1 / n) := by positivity
    linarith
  have hp0 : ∀ p ∈ o'.terms, 0 ≤ p := by
    rw [ho]; intro p h; rw [(List.mem_replicate.1 h).2]; exact hp
  refine ⟨hp0, ?_⟩
  obtain ⟨t1, t2⟩ := sum_bounds R o' hp0
  have hsum : o'.terms.sum = n * R.r (1 / n) := by rw [ho]; simp
  have hlen : o'.terms.length = n := by rw [ho]; simp
  rw [hsum, hlen] at t1 t2
  have hb : 1 - (n : ℝ) * R.u ≤ (1 - R.u) ^ (n - 1) * (1 - R.u) := by
    rw [← pow_succ, Nat.sub_add_cancel hn0]
    have := one_add_mul_le_pow (a := -R.u) (by linarith) n
    rw [← sub_eq_add_neg] at this
    linarith
  have hq : 0 < (1 - R.u) ^ (n - 1) := pow_pos hq0 _
  have hqn : (1 - R.u) ^ (n - 1) * (1 - R.u) ≤ (1 - R.u) ^ (n - 1) := mul_le_of_le_one_right hq.le (by linarith)
  have low : 1 - n * R.u ≤ o'.sum R := by nlinarith
  have hO : 0 ≤ o'.sum R := le_trans (by positivity) t1
  have hi : o'.sum R * (1 - n * R.u) ≤ 1 + R.u := by nlinarith
  have hn1 : (1 : ℝ) ≤ n := by exact_mod_cast hn0
  have hnu : R.u ≤ n * R.u := by nlinarith
  have hsmall : n * R.u ≤ 1 / 4 := by
    have : (2⁻¹ : ℝ) ^ 26 ≤ 1 := by norm_num
    linarith
  rw [abs_le]
  constructor
  · nlinarith
  · have : o'.sum R ≤ 2 := by nlinarith
    nlinarith

/-- Three weights, added from the left to the right. -/
example : let o : Order := .add (.add (.leaf 1) (.leaf 3)) (.leaf 0)
    (∀ x ∈ o.terms, 0 ≤ x) ∧ (∃ x ∈ o.terms, 0 < x) ∧ o.terms.length ≤ 2 ^ 25 ∧ ∃ o' : Order, o'.terms = normaliseFl binary64 o := by
  refine ⟨by simp [Order.terms], ⟨1, by simp [Order.terms]⟩, by simp [Order.terms], ?_⟩
  exact ⟨.add (.add (.leaf _) (.leaf _)) (.leaf _), rfl⟩

end Verif.Floats
