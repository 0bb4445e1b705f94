import Verif.Floats.Choice
import Verif.Journal.Props
import Mathlib.Algebra.Order.BigOperators.Ring.List
/-
C217: the posterior mean and the effective sample size of a journal in floating-point arithmetic. As in `Verif.Floats.Basic`, overflow and underflow are left out.
-/
namespace Verif.Floats

open Verif.Journal (essOf npAverage)

variable (R : Rounding)

/-! ### Model -/

/-- The products that `np.average(x, weights=w)` adds up (abcpy/output.py 413): `np.multiply(x, w)`. -/
noncomputable def products (x w : List ℝ) : List ℝ := List.zipWith (fun a b => R.r (a * b)) x w

/-- `np.average(x, weights=w)` (abcpy/output.py 413) for one parameter: `np.multiply(x, w).sum() / w.sum()`. The products are added in the order `p`, the weights in the order `o`. -/
noncomputable def meanFl (p o : Order) : ℝ := R.r (p.sum R / o.sum R)

/-- The squares that `add_ESS_estimate` adds up (abcpy/output.py 206-208): `pow(weights / np.sum(weights), 2)`; `o` is the order in which `np.sum` adds. -/
noncomputable def squares (o : Order) : List ℝ := (normaliseFl R o).map fun q => R.r (q ^ 2)

/-- The effective sample size of `add_ESS_estimate` (abcpy/output.py 206-208); `s` is the order in which the squares are added (from left to right in Python's `sum`, but the results hold for every order). -/
noncomputable def essFl (s : Order) : ℝ := R.r (1 / s.sum R)

/-! ### Sums of numbers of any sign -/

theorem q_pos : 0 < 1 - R.u := by have := R.small; linarith
theorem q_le : 1 - R.u ≤ 1 := by have := u_nonneg R; linarith

theorem abs_sum_le (l : List ℝ) : |l.sum| ≤ (l.map fun x => |x|).sum := by
  induction l with
  | nil => simp
  | cons a l ih => simp only [List.sum_cons, List.map_cons]; exact (abs_add_le _ _).trans (by linarith)

theorem absum_nonneg (l : List ℝ) : 0 ≤ (l.map fun x => |x|).sum :=
  List.sum_nonneg fun x hx => by obtain ⟨a, -, rfl⟩ := List.mem_map.1 hx; exact abs_nonneg a

/-- A factor of a rounding error is less than one over `1 - u`. -/
theorem one_add_le (k : Nat) : (1 + R.u) * (1 / (1 - R.u) ^ k) ≤ 1 / (1 - R.u) ^ (k + 1) := by
  have hq := q_pos R
  have u0 := u_nonneg R
  rw [pow_succ, mul_one_div, div_le_div_iff₀ (by positivity) (by positivity)]
  have : (1 + R.u) * (1 - R.u) ≤ 1 := by nlinarith
  have hk : 0 < (1 - R.u) ^ k := by positivity
  nlinarith

theorem pow_ge (m n : Nat) (h : m ≤ n) : 1 / (1 - R.u) ^ m ≤ 1 / (1 - R.u) ^ n :=
  one_div_le_one_div_of_le (pow_pos (q_pos R) _) (pow_le_pow_of_le_one (q_pos R).le (q_le R) h)

theorem one_le_pow (n : Nat) : 1 ≤ 1 / (1 - R.u) ^ n := by simpa using pow_ge R 0 n (Nat.zero_le _)

/-- The error of a sum, in any order of addition, relative to the sum of the absolute values. -/
theorem sum_error (o : Order) :
    |o.sum R - o.terms.sum| ≤ (1 / (1 - R.u) ^ (o.terms.length - 1) - 1) * (o.terms.map fun x => |x|).sum := by
  induction o with
  | leaf x => simp [Order.terms, Order.sum]
  | add a b iha ihb =>
    have pa := terms_pos a
    have pb := terms_pos b
    have u0 := u_nonneg R
    have sa := absum_nonneg a.terms
    have sb := absum_nonneg b.terms
    have ta := abs_sum_le a.terms
    have tb := abs_sum_le b.terms
    simp only [Order.terms, Order.sum, List.sum_append, List.map_append, List.length_append]
    generalize hm : a.terms.length = m at *
    generalize hn : b.terms.length = n at *
    generalize hSa : (a.terms.map fun x => |x|).sum = Sa at *
    generalize hSb : (b.terms.map fun x => |x|).sum = Sb at *
    generalize a.terms.sum = A at *
    generalize b.terms.sum = B at *
    generalize a.sum R = A' at *
    generalize b.sum R = B' at *
    have g1 := pow_ge R (m - 1) (m + n - 2) (by omega)
    have g2 := pow_ge R (n - 1) (m + n - 2) (by omega)
    have g3 := one_add_le R (m + n - 2)
    rw [show m + n - 2 + 1 = m + n - 1 by omega] at g3
    generalize 1 / (1 - R.u) ^ (m - 1) = P at *
    generalize 1 / (1 - R.u) ^ (n - 1) = Q at *
    generalize 1 / (1 - R.u) ^ (m + n - 2) = G at *
    generalize 1 / (1 - R.u) ^ (m + n - 1) = G' at *
    have ia : |A' - A| ≤ (G - 1) * Sa := iha.trans (by nlinarith)
    have ib : |B' - B| ≤ (G - 1) * Sb := ihb.trans (by nlinarith)
    have e := R.err (A' + B')
    have h1 : |A' + B'| ≤ G * (Sa + Sb) := by
      have : A' + B' = (A' - A) + (B' - B) + (A + B) := by ring
      rw [this]
      refine (abs_add_le _ _).trans ?_
      have := abs_add_le (A' - A) (B' - B)
      have := abs_add_le A B
      nlinarith
    have h2 : R.r (A' + B') - (A + B) = (R.r (A' + B') - (A' + B')) + ((A' - A) + (B' - B)) := by ring
    rw [h2]
    refine (abs_add_le _ _).trans ?_
    have h3 := abs_add_le (A' - A) (B' - B)
    have h4 : R.u * |A' + B'| ≤ R.u * (G * (Sa + Sb)) := mul_le_mul_of_nonneg_left h1 u0
    have h5 : (1 + R.u) * G * (Sa + Sb) ≤ G' * (Sa + Sb) := mul_le_mul_of_nonneg_right g3 (by linarith)
    nlinarith

/-! ### The mean -/

theorem products_error (x w : List ℝ) (hw : ∀ a ∈ w, 0 ≤ a) :
    |(products R x w).sum - (List.zipWith (· * ·) x w).sum| ≤ R.u * (List.zipWith (fun a b => |a| * b) x w).sum ∧
    ((products R x w).map fun y => |y|).sum ≤ (1 + R.u) * (List.zipWith (fun a b => |a| * b) x w).sum ∧
    |(List.zipWith (· * ·) x w).sum| ≤ (List.zipWith (fun a b => |a| * b) x w).sum := by
  induction x generalizing w with
  | nil => simp [products]
  | cons a x ih =>
    cases w with
    | nil => simp [products]
    | cons b w =>
      obtain ⟨h1, h2, h3⟩ := ih w fun c hc => hw c (by simp [hc])
      have hb := hw b (by simp)
      have e := R.err (a * b)
      have hab : |a * b| = |a| * b := by rw [abs_mul, abs_of_nonneg hb]
      simp only [products] at h1 h2
      simp only [products, List.zipWith_cons_cons, List.sum_cons, List.map_cons]
      rw [hab] at e
      refine ⟨?_, ?_, ?_⟩
      · rw [add_sub_add_comm]
        exact (abs_add_le _ _).trans (by linarith)
      · have : |R.r (a * b)| ≤ |R.r (a * b) - a * b| + |a * b| := by
          have := abs_add_le (R.r (a * b) - a * b) (a * b); simpa using this
        rw [hab] at this
        linarith
      · exact (abs_add_le _ _).trans (by rw [hab]; linarith)

/-- The error of the mean with all roundings: one over `(1 - u) ^ (2 n)`, less one. -/
theorem mean_error (x : List ℝ) (p o : Order) (hp : p.terms = products R x o.terms) (hl : x.length = o.terms.length) (hw : ∀ a ∈ o.terms, 0 ≤ a) (hs : 0 < o.terms.sum) :
    |meanFl R p o - (List.zipWith (· * ·) x o.terms).sum / o.terms.sum| ≤
      (1 / (1 - R.u) ^ (2 * x.length) - 1) * ((List.zipWith (fun a b => |a| * b) x o.terms).sum / o.terms.sum) := by
  have hq := q_pos R
  have u0 := u_nonneg R
  obtain ⟨e1, e2, e3⟩ := products_error R x o.terms hw
  have e4 := sum_error R p
  obtain ⟨w1, w2⟩ := sum_bounds R o hw
  have hn : p.terms.length = x.length := by rw [hp]; simp [products, hl]
  have hpos := terms_pos o
  rw [← hl] at w1 w2 hpos
  rw [hn] at e4
  rw [hp] at e4
  generalize hS : (List.zipWith (· * ·) x o.terms).sum = S at *
  generalize hA : (List.zipWith (fun a b => |a| * b) x o.terms).sum = A at *
  generalize hT : (products R x o.terms).sum = T at *
  generalize hB : ((products R x o.terms).map fun y => |y|).sum = B at *
  generalize hW : o.terms.sum = W at *
  unfold meanFl
  generalize p.sum R = S' at *
  generalize o.sum R = W' at *
  obtain ⟨n, hxn⟩ : ∃ n, x.length = n + 1 := ⟨x.length - 1, by omega⟩
  rw [hxn] at w1 w2 e4 ⊢
  rw [Nat.add_sub_cancel] at w1 w2 e4
  have hqn : 0 < (1 - R.u) ^ n := by positivity
  have hW' : 0 < W' := lt_of_lt_of_le (by positivity) w1
  have hA0 : 0 ≤ A := (abs_nonneg S).trans e3
  -- the sum of the products
  have g1 := one_add_le R n
  have k1 : |S' - S| ≤ (1 / (1 - R.u) ^ (n + 1) - 1) * A := by
    have h1 : S' - S = (S' - T) + (T - S) := by ring
    rw [h1]
    refine (abs_add_le _ _).trans ?_
    have h2 : (1 / (1 - R.u) ^ n - 1) * B ≤ (1 / (1 - R.u) ^ n - 1) * ((1 + R.u) * A) :=
      mul_le_mul_of_nonneg_left e2 (by have := one_le_pow R n; linarith)
    have h3 : (1 + R.u) * (1 / (1 - R.u) ^ n) * A ≤ 1 / (1 - R.u) ^ (n + 1) * A := mul_le_mul_of_nonneg_right g1 hA0
    nlinarith
  -- the quotient of the exact and the computed sum of the weights
  have k2 : W / W' ≤ 1 / (1 - R.u) ^ n := by rw [div_le_div_iff₀ hW' hqn]; linarith
  have k3 : (1 - R.u) ^ n ≤ W / W' := by rw [le_div_iff₀ hW']; linarith
  have k4 : |W / W' - 1| ≤ 1 / (1 - R.u) ^ n - 1 := by
    rw [abs_le]
    refine ⟨?_, by linarith⟩
    have : 2 ≤ (1 - R.u) ^ n + 1 / (1 - R.u) ^ n := by
      have hz : (1 - R.u) ^ n + 1 / (1 - R.u) ^ n - 2 = ((1 - R.u) ^ n - 1) ^ 2 / (1 - R.u) ^ n := by field_simp; ring
      have : 0 ≤ ((1 - R.u) ^ n - 1) ^ 2 / (1 - R.u) ^ n := by positivity
      linarith
    linarith
  have hM : 0 ≤ A / W := by positivity
  have k5 : |S' / W' - S / W| ≤ (1 / (1 - R.u) ^ (2 * n + 1) - 1) * (A / W) := by
    have h1 : S' / W' - S / W = (S' - S) / W * (W / W') + S / W * (W / W' - 1) := by field_simp; ring
    rw [h1]
    refine (abs_add_le _ _).trans ?_
    rw [abs_mul, abs_mul, abs_of_pos (div_pos hs hW'), abs_div, abs_div S, abs_of_pos hs]
    have h2 : |S' - S| / W * (W / W') ≤ (1 / (1 - R.u) ^ (n + 1) - 1) * (A / W) * (1 / (1 - R.u) ^ n) := by
      refine mul_le_mul ?_ k2 (div_pos hs hW').le ?_
      · rw [← mul_div_assoc]; exact div_le_div_of_nonneg_right k1 hs.le
      · have := one_le_pow R (n + 1); exact mul_nonneg (by linarith) hM
    have h3 : |S| / W * |W / W' - 1| ≤ A / W * (1 / (1 - R.u) ^ n - 1) :=
      mul_le_mul (div_le_div_of_nonneg_right e3 hs.le) k4 (abs_nonneg _) hM
    have h4 : 1 / (1 - R.u) ^ (2 * n + 1) = 1 / (1 - R.u) ^ (n + 1) * (1 / (1 - R.u) ^ n) := by
      rw [one_div_mul_one_div, ← pow_add]; congr 2; omega
    rw [h4]
    nlinarith
  have g2 := one_add_le R (2 * n + 1)
  rw [show 2 * n + 1 + 1 = 2 * (n + 1) by ring] at g2
  have e := R.err (S' / W')
  have h1 : R.r (S' / W') - S / W = (R.r (S' / W') - S' / W') + (S' / W' - S / W) := by ring
  rw [h1]
  refine (abs_add_le _ _).trans ?_
  have h2 : |S' / W'| ≤ 1 / (1 - R.u) ^ (2 * n + 1) * (A / W) := by
    have h3 : |S / W| ≤ A / W := by rw [abs_div, abs_of_pos hs]; exact div_le_div_of_nonneg_right e3 hs.le
    have h4 := abs_add_le (S' / W' - S / W) (S / W)
    rw [sub_add_cancel] at h4
    linarith
  have h5 := mul_le_mul_of_nonneg_left h2 u0
  have h6 := mul_le_mul_of_nonneg_right g2 hM
  nlinarith

theorem pow_small (k : Nat) (h : 2 * k * R.u ≤ 1) : 1 / (1 - R.u) ^ k - 1 ≤ 2 * k * R.u := by
  have hq := q_pos R
  have u0 := u_nonneg R
  have hb : 1 - k * R.u ≤ (1 - R.u) ^ k := by
    have := one_add_mul_le_pow (a := -R.u) (by linarith [R.small]) k
    rw [← sub_eq_add_neg] at this
    linarith
  have ht : 0 ≤ k * R.u := by positivity
  have h1 : 1 / (1 - R.u) ^ k ≤ 1 / (1 - k * R.u) := one_div_le_one_div_of_le (by linarith) hb
  have h2 : 1 / (1 - k * R.u) ≤ 1 + 2 * k * R.u := by
    rw [div_le_iff₀ (by linarith)]
    nlinarith
  linarith

/-- The property for the mean: what `posterior_mean` returns for a parameter with values `x` and weights `o.terms` differs from the weighted mean by at most `4 n u` times the weighted mean of the absolute
values, in whatever order the numbers are added. -/
theorem C217_mean_partial (x : List ℝ) (p o : Order) (hp : p.terms = products R x o.terms) (hl : x.length = o.terms.length) (hw : ∀ a ∈ o.terms, 0 ≤ a) (hs : 0 < o.terms.sum)
    (hn : 4 * x.length * R.u ≤ 1) :
    ∃ m, npAverage x o.terms = some m ∧ |meanFl R p o - m| ≤ 4 * x.length * R.u * ((List.zipWith (fun a b => |a| * b) x o.terms).sum / o.terms.sum) := by
  refine ⟨_, by rw [npAverage, if_neg (by rw [not_or]; exact ⟨by simpa using hl, hs.ne'⟩)], ?_⟩
  refine (mean_error R x p o hp hl hw hs).trans ?_
  have h1 := pow_small R (2 * x.length) (by push_cast; linarith)
  have h2 := (products_error R x o.terms hw).2.2
  refine mul_le_mul_of_nonneg_right ?_ (div_nonneg ((abs_nonneg _).trans h2) hs.le)
  push_cast at h1
  linarith

theorem weighted_le (x w : List ℝ) (M : ℝ) (hM : ∀ a ∈ x, |a| ≤ M) (hM0 : 0 ≤ M) (hw : ∀ a ∈ w, 0 ≤ a) : (List.zipWith (fun a b => |a| * b) x w).sum ≤ M * w.sum := by
  induction x generalizing w with
  | nil => simpa using mul_nonneg hM0 (List.sum_nonneg hw)
  | cons a x ih =>
    cases w with
    | nil => simp
    | cons b w =>
      have h1 := ih w (fun c hc => hM c (by simp [hc])) fun c hc => hw c (by simp [hc])
      have h2 := mul_le_mul_of_nonneg_right (hM a (by simp)) (hw b (by simp))
      simp only [List.zipWith_cons_cons, List.sum_cons]
      linarith

/-- What is left of C32 in floating-point arithmetic: the mean is in the range of the samples up to `4 n u` times their largest absolute value. -/
theorem C217_range_partial (x : List ℝ) (p o : Order) (hp : p.terms = products R x o.terms) (hl : x.length = o.terms.length) (hw : ∀ a ∈ o.terms, 0 ≤ a) (hs : 0 < o.terms.sum)
    (hn : 4 * x.length * R.u ≤ 1) (lo hi M : ℝ) (h1 : ∀ a ∈ x, lo ≤ a ∧ a ≤ hi) (hM : ∀ a ∈ x, |a| ≤ M) :
    lo - 4 * x.length * R.u * M ≤ meanFl R p o ∧ meanFl R p o ≤ hi + 4 * x.length * R.u * M := by
  obtain ⟨m, h2, h3⟩ := C217_mean_partial R x p o hp hl hw hs hn
  obtain ⟨m', h4, h5, -⟩ := Journal.C32_average x o.terms hl hw hs
  rw [h2, Option.some.injEq] at h4
  subst h4
  obtain ⟨h6, h7⟩ := h5 lo hi (fun a ha => (h1 a ha).1) fun a ha => (h1 a ha).2
  have hM0 : 0 ≤ M := by
    have := terms_pos o
    obtain ⟨a, ha⟩ := List.exists_mem_of_length_pos (l := x) (by omega)
    exact (abs_nonneg a).trans (hM a ha)
  have h8 : (List.zipWith (fun a b => |a| * b) x o.terms).sum / o.terms.sum ≤ M := (div_le_iff₀ hs).2 (weighted_le x o.terms M hM hM0 hw)
  have u0 := u_nonneg R
  have h9 : 4 * x.length * R.u * ((List.zipWith (fun a b => |a| * b) x o.terms).sum / o.terms.sum) ≤ 4 * x.length * R.u * M :=
    mul_le_mul_of_nonneg_left h8 (by positivity)
  obtain ⟨h10, h11⟩ := abs_le.1 (h3.trans h9)
  constructor <;> linarith

/-! ### The effective sample size -/

/-- `b` is `a` up to `k` rounding errors. -/
def Near (k : Nat) (a b : ℝ) : Prop := (1 - R.u) ^ k * a ≤ b ∧ b * (1 - R.u) ^ k ≤ a

variable {R}

theorem Near.round {k : Nat} {a b : ℝ} (h : Near R k a b) (hb : 0 ≤ b) : Near R (k + 1) a (R.r b) := by
  have hq := q_pos R
  have u0 := u_nonneg R
  have hk : 0 < (1 - R.u) ^ k := by positivity
  have e := R.err b
  rw [abs_of_nonneg hb] at e
  obtain ⟨e1, e2⟩ := abs_le.1 e
  have h1 : (1 - R.u) * b ≤ R.r b := by linarith
  have h2 : R.r b * (1 - R.u) ≤ b := by nlinarith
  constructor
  · rw [pow_succ', mul_assoc]
    exact (mul_le_mul_of_nonneg_left h.1 hq.le).trans h1
  · rw [pow_succ', ← mul_assoc]
    exact (mul_le_mul_of_nonneg_right h2 hk.le).trans h.2

theorem Near.pos {k : Nat} {a b : ℝ} (h : Near R k a b) (ha : 0 < a) : 0 < b := lt_of_lt_of_le (mul_pos (pow_pos (q_pos R) _) ha) h.1
theorem Near.nonneg {k : Nat} {a b : ℝ} (h : Near R k a b) (ha : 0 ≤ a) : 0 ≤ b := (mul_nonneg (pow_pos (q_pos R) _).le ha).trans h.1

theorem Near.div {k : Nat} {a b c : ℝ} (h : Near R k a b) (ha : 0 < a) (hc : 0 ≤ c) : Near R k (c / a) (c / b) := by
  have hb := h.pos ha
  have hk := pow_pos (q_pos R) k
  constructor
  · rw [← mul_div_assoc, div_le_div_iff₀ ha hb]
    nlinarith [h.2]
  · rw [div_mul_eq_mul_div, div_le_div_iff₀ hb ha]
    nlinarith [h.1]

theorem Near.sq {k : Nat} {a b : ℝ} (h : Near R k a b) (ha : 0 ≤ a) : Near R (2 * k) (a ^ 2) (b ^ 2) := by
  have hb := h.nonneg ha
  have hk := pow_pos (q_pos R) k
  rw [Near, mul_comm 2 k, pow_mul]
  constructor
  · rw [← mul_pow]; exact pow_le_pow_left₀ (by positivity) h.1 2
  · rw [← mul_pow]; exact pow_le_pow_left₀ (by positivity) h.2 2

theorem Near.sum {k : Nat} {l : List ℝ} {f g : ℝ → ℝ} (h : ∀ x ∈ l, Near R k (f x) (g x)) : Near R k (l.map f).sum (l.map g).sum := by
  induction l with
  | nil => simp [Near]
  | cons a l ih =>
    have h1 := h a (by simp)
    have h2 := ih fun x hx => h x (by simp [hx])
    simp only [Near, List.map_cons, List.sum_cons] at *
    constructor
    · rw [mul_add]; linarith [h1.1, h2.1]
    · rw [add_mul]; linarith [h1.2, h2.2]

theorem Near.trans {k j : Nat} {a b c : ℝ} (h1 : Near R k a b) (h2 : Near R j b c) : Near R (k + j) a c := by
  have hk := pow_pos (q_pos R) k
  have hj := pow_pos (q_pos R) j
  constructor
  · rw [pow_add, mul_comm ((1 - R.u) ^ k), mul_assoc]
    exact (mul_le_mul_of_nonneg_left h1.1 hj.le).trans h2.1
  · rw [pow_add, mul_comm ((1 - R.u) ^ k), ← mul_assoc]
    exact (mul_le_mul_of_nonneg_right h2.2 hk.le).trans h1.2

variable (R)

/-- The effective sample size has at most `3 n + 1` rounding errors. -/
theorem ess_near (o s : Order) (ho : s.terms = squares R o) (hw : ∀ a ∈ o.terms, 0 ≤ a) (hs : 0 < o.terms.sum) : Near R (3 * o.terms.length + 1) (essOf o.terms) (essFl R s) := by
  have hpos := terms_pos o
  obtain ⟨n, hn⟩ : ∃ n, o.terms.length = n + 1 := ⟨o.terms.length - 1, by omega⟩
  have h1 : Near R n o.terms.sum (o.sum R) := by have := sum_bounds R o hw; rw [hn] at this; simpa [Near] using this
  have h2 : Near R (2 * (n + 1) + 1) ((o.terms.map fun x => x / o.terms.sum).map fun x => x ^ 2).sum s.terms.sum := by
    rw [ho, squares, normaliseFl, List.map_map, List.map_map]
    refine Near.sum fun x hx => ?_
    have hx0 := hw x hx
    have a1 := h1.div hs hx0
    have a2 := a1.round (div_nonneg hx0 (h1.pos hs).le)
    exact (a2.sq (div_nonneg hx0 hs.le)).round (sq_nonneg _)
  have hq0 : ∀ y ∈ s.terms, 0 ≤ y := by
    rw [ho, squares, normaliseFl, List.map_map]
    intro y hy
    obtain ⟨x, hx, rfl⟩ := List.mem_map.1 hy
    have hx0 := hw x hx
    have a2 := (h1.div hs hx0).round (div_nonneg hx0 (h1.pos hs).le)
    exact ((a2.sq (div_nonneg hx0 hs.le)).round (sq_nonneg _)).nonneg (sq_nonneg _)
  have hsl : s.terms.length = n + 1 := by rw [ho]; simp [squares, normaliseFl, hn]
  have h3 : Near R n s.terms.sum (s.sum R) := by have := sum_bounds R s hq0; rw [hsl] at this; simpa [Near] using this
  have hE : 0 < ((o.terms.map fun x => x / o.terms.sum).map fun x => x ^ 2).sum := by
    have := (Journal.C31_ess o.terms hw hs).1
    unfold essOf at this
    by_contra hc
    have : 1 / ((o.terms.map fun x => x / o.terms.sum).map fun x => x ^ 2).sum ≤ 0 := one_div_nonpos.2 (not_lt.1 hc)
    linarith
  have h4 := h2.trans h3
  have h5 := (h4.div hE zero_le_one).round (div_nonneg zero_le_one (h4.pos hE).le)
  unfold essOf essFl
  rw [hn, show 3 * (n + 1) + 1 = 2 * (n + 1) + 1 + n + 1 by ring]
  exact h5

/-- The property for the effective sample size: what the journal stores differs from the effective sample size by at most the fraction `8 (n + 1) u`; it is positive, and between one and the
number of particles up to this fraction. -/
theorem C217_ess_partial (o s : Order) (ho : s.terms = squares R o) (hw : ∀ a ∈ o.terms, 0 ≤ a) (hs : 0 < o.terms.sum) (hn : 8 * (o.terms.length + 1) * R.u ≤ 1) :
    |essFl R s - essOf o.terms| ≤ 8 * (o.terms.length + 1) * R.u * essOf o.terms ∧
    1 - 8 * (o.terms.length + 1) * R.u ≤ essFl R s ∧ essFl R s ≤ o.terms.length * (1 + 8 * (o.terms.length + 1) * R.u) := by
  obtain ⟨h1, h2⟩ := ess_near R o s ho hw hs
  obtain ⟨e1, e2, -⟩ := Journal.C31_ess o.terms hw hs
  have u0 := u_nonneg R
  have hk := pow_pos (q_pos R) (3 * o.terms.length + 1)
  have hb : 2 * ((3 * o.terms.length + 1 : ℕ) : ℝ) * R.u ≤ 8 * (o.terms.length + 1) * R.u := by
    push_cast
    refine mul_le_mul_of_nonneg_right ?_ u0
    have : (0 : ℝ) ≤ o.terms.length := by positivity
    linarith
  have h3 := pow_small R (3 * o.terms.length + 1) (hb.trans hn)
  have h4 : essFl R s ≤ 1 / (1 - R.u) ^ (3 * o.terms.length + 1) * essOf o.terms := by
    rw [one_div, ← div_eq_inv_mul, le_div_iff₀ hk]; exact h2
  have h5 : 1 - (1 - R.u) ^ (3 * o.terms.length + 1) ≤ 1 / (1 - R.u) ^ (3 * o.terms.length + 1) - 1 := by
    generalize (1 - R.u) ^ (3 * o.terms.length + 1) = z at *
    have hz : z + 1 / z - 2 = (z - 1) ^ 2 / z := by field_simp; ring
    have : 0 ≤ (z - 1) ^ 2 / z := by positivity
    linarith
  generalize (1 - R.u) ^ (3 * o.terms.length + 1) = z at *
  generalize 1 / z = z' at *
  generalize 8 * ((o.terms.length : ℝ) + 1) * R.u = t at *
  have ht : 0 ≤ t := le_trans (by positivity) hb
  have main : |essFl R s - essOf o.terms| ≤ t * essOf o.terms := by
    rw [abs_le]
    constructor <;> nlinarith
  refine ⟨main, ?_, ?_⟩
  · have := (abs_le.1 main).1
    nlinarith
  · have := (abs_le.1 main).2
    nlinarith

/-! ### Python's floats -/

theorem fl_round {x : ℝ} (e k : ℤ) (h1 : 2 ^ 52 * 2 ^ e ≤ x) (h2 : x < 2 ^ 53 * 2 ^ e) (hk : nearest (x / 2 ^ e) = k) : fl x = k * 2 ^ e := by
  have hp : (0 : ℝ) < 2 ^ e := zpow_pos (by norm_num) _
  have hx : 0 < x := lt_of_lt_of_le (by positivity) h1
  have e1 : (2 : ℝ) ^ 52 * 2 ^ e = 2 ^ (52 + e) := by rw [← zpow_natCast, ← zpow_add₀ (by norm_num)]; norm_num
  have e2 : (2 : ℝ) ^ 53 * 2 ^ e = 2 ^ (52 + e + 1) := by
    rw [← zpow_natCast, ← zpow_add₀ (by norm_num)]; congr 1; push_cast; ring
  have hl : Int.log 2 x = 52 + e := by
    apply le_antisymm
    · have := (Int.lt_zpow_iff_log_lt (b := 2) (by norm_num) hx (x := 52 + e + 1)).1 (by push_cast; rw [← e2]; exact h2)
      omega
    · refine (Int.zpow_le_iff_le_log (b := 2) (by norm_num) hx).1 ?_
      push_cast; rw [← e1]; exact h1
  have hb : lastBit x = e := by unfold lastBit; rw [hl]; ring
  unfold fl
  rw [if_pos hx]
  unfold flPos
  rw [hb, hk]

theorem nearest_of {y : ℝ} (k : ℤ) (h1 : (k : ℝ) - 1 / 2 < y) (h2 : y < k + 1 / 2) : nearest y = k := by
  by_cases hk : (k : ℝ) ≤ y
  · have hf : ⌊y⌋ = k := Int.floor_eq_iff.2 ⟨hk, by linarith⟩
    unfold nearest
    rw [hf, if_pos (by linarith)]
  · have hf : ⌊y⌋ = k - 1 := Int.floor_eq_iff.2 ⟨by push_cast; linarith, by push_cast; linarith⟩
    unfold nearest
    rw [hf]
    push_cast
    rw [if_neg (by linarith), if_pos (by linarith)]
    ring

theorem nearest_tie {y : ℝ} (k : ℤ) (h : y = k - 1 / 2) (he : k % 2 = 0) : nearest y = k := by
  have hf : ⌊y⌋ = k - 1 := Int.floor_eq_iff.2 ⟨by push_cast; linarith, by push_cast; linarith⟩
  unfold nearest
  rw [hf]
  push_cast
  rw [if_neg (by linarith), if_neg (by linarith), if_neg (by omega)]
  ring

/-- The float 0.1. -/
noncomputable def tenth : ℝ := 7205759403792794 * 2 ^ (-56 : ℤ)

/-- The mean of three samples with equal weights, added from left to right. -/
noncomputable def threeTenths : Order := .add (.add (.leaf tenth) (.leaf tenth)) (.leaf tenth)
noncomputable def threeOnes : Order := .add (.add (.leaf 1) (.leaf 1)) (.leaf 1)

theorem fl_tenth : fl tenth = tenth := by
  have := fl_of 7205759403792794 (by norm_num) (by norm_num) (-56)
  unfold tenth
  exact_mod_cast this

theorem fl_small (k : Nat) (h0 : 0 < k) (h2 : k ≤ 2 ^ 53) : fl (k : ℝ) = k := by simpa using fl_of k h0 h2 0

/-- C217, and C32 in floating-point arithmetic, is violated: the mean of three samples that are all equal to 0.1 is the float after 0.1, larger than all samples. -/
theorem C217_range_violated : threeTenths.terms = products binary64 [tenth, tenth, tenth] threeOnes.terms ∧ threeOnes.terms = [1, 1, 1] ∧
    meanFl binary64 threeTenths threeOnes = 7205759403792795 * 2 ^ (-56 : ℤ) ∧ tenth < meanFl binary64 threeTenths threeOnes := by
  have h2 : fl (tenth + tenth) = 2 * tenth := by rw [← two_mul]; have := binary64.double tenth; rw [show binary64.r = fl from rfl, fl_tenth] at this; exact this
  have h3 : fl (2 * tenth + tenth) = 5404319552844596 * 2 ^ (-54 : ℤ) := by
    rw [fl_round (-54) 5404319552844596]
    · norm_num
    · norm_num [tenth]
    · norm_num [tenth]
    · apply nearest_tie
      · norm_num [tenth]
      · norm_num
  have h4 : fl (5404319552844596 * 2 ^ (-54 : ℤ) / 3) = 7205759403792795 * 2 ^ (-56 : ℤ) := by
    rw [fl_round (-56) 7205759403792795]
    · norm_num
    · norm_num
    · norm_num
    · apply nearest_of <;> norm_num
  have h5 : fl (1 + 1) = 2 := by have := fl_small 2 (by norm_num) (by norm_num); norm_num at this ⊢; exact this
  have h6 : fl (2 + 1) = 3 := by have := fl_small 3 (by norm_num) (by norm_num); norm_num at this ⊢; exact this
  have hm : meanFl binary64 threeTenths threeOnes = 7205759403792795 * 2 ^ (-56 : ℤ) := by
    unfold meanFl
    simp only [threeTenths, threeOnes, Order.sum, show binary64.r = fl from rfl, h2, h3, h5, h6, h4]
  refine ⟨?_, rfl, hm, ?_⟩
  · simp [threeTenths, threeOnes, products, Order.terms, show binary64.r = fl from rfl, fl_tenth]
  · rw [hm]; norm_num [tenth]

/-- C217, and C31 in floating-point arithmetic, is violated: the effective sample size of two particles with weights 1 and 1 - 2^-53 is the float after 2. -/
theorem C217_ess_violated : ∃ o s : Order, o.terms = [1, 1 - 2 ^ (-53 : ℤ)] ∧ s.terms = squares binary64 o ∧ essFl binary64 s = 2 + 2 ^ (-51 : ℤ) := by
  have h1 : fl (1 + (1 - 2 ^ (-53 : ℤ))) = 2 := by
    rw [fl_round (-52) (2 ^ 53)]
    · norm_num
    · norm_num
    · norm_num
    · apply nearest_tie
      · norm_num
      · norm_num
  have h2 : fl (1 / 2) = 1 / 2 := by have := fl_of 1 (by norm_num) (by norm_num) (-1); norm_num at this ⊢; exact this
  have h3 : fl ((1 - 2 ^ (-53 : ℤ)) / 2) = (2 ^ 53 - 1) * 2 ^ (-54 : ℤ) := by
    have := fl_of (2 ^ 53 - 1) (by norm_num) (by norm_num) (-54)
    norm_num at this ⊢; exact this
  have h4 : fl ((1 / 2) ^ 2) = 1 / 4 := by have := fl_of 1 (by norm_num) (by norm_num) (-2); norm_num at this ⊢; exact this
  have h5 : fl (((2 ^ 53 - 1) * 2 ^ (-54 : ℤ)) ^ 2) = (2 ^ 53 - 2) * 2 ^ (-55 : ℤ) := by
    rw [fl_round (-55) (2 ^ 53 - 2)]
    · norm_num
    · norm_num
    · norm_num
    · apply nearest_of <;> norm_num
  have h6 : fl (1 / 4 + (2 ^ 53 - 2) * 2 ^ (-55 : ℤ)) = (2 ^ 53 - 1) * 2 ^ (-54 : ℤ) := by
    have := fl_of (2 ^ 53 - 1) (by norm_num) (by norm_num) (-54)
    norm_num at this ⊢; exact this
  have h7 : fl (1 / ((2 ^ 53 - 1) * 2 ^ (-54 : ℤ))) = 2 + 2 ^ (-51 : ℤ) := by
    rw [fl_round (-51) (2 ^ 52 + 1)]
    · norm_num
    · norm_num
    · norm_num
    · apply nearest_of <;> norm_num
  refine ⟨.add (.leaf 1) (.leaf (1 - 2 ^ (-53 : ℤ))), .add (.leaf (1 / 4)) (.leaf ((2 ^ 53 - 2) * 2 ^ (-55 : ℤ))), rfl, ?_, ?_⟩
  · simp only [squares, normaliseFl, Order.terms, Order.sum, show binary64.r = fl from rfl, h1, List.cons_append, List.nil_append, List.map_cons, List.map_nil, h2, h3, h4, h5]
  · simp only [essFl, Order.sum, show binary64.r = fl from rfl, h6, h7]

/-- The hypotheses can be met: three particles and Python's floats. -/
example : ∃ m, npAverage [tenth, tenth, tenth] threeOnes.terms = some m ∧
    |meanFl binary64 threeTenths threeOnes - m| ≤ 4 * ([tenth, tenth, tenth] : List ℝ).length * binary64.u *
      ((List.zipWith (fun a b => |a| * b) [tenth, tenth, tenth] threeOnes.terms).sum / threeOnes.terms.sum) :=
  C217_mean_partial binary64 _ _ _ C217_range_violated.1 rfl (by simp [threeOnes, Order.terms]) (by simp [threeOnes, Order.terms]; norm_num)
    (by simp [binary64]; norm_num)

/-- Two particles of nearly equal weight: the effective sample size is right up to the fraction 24 / 2^53. -/
example : ∃ o s : Order, s.terms = squares binary64 o ∧ |essFl binary64 s - essOf o.terms| ≤ 8 * (o.terms.length + 1) * binary64.u * essOf o.terms := by
  obtain ⟨o, s, h1, h2, -⟩ := C217_ess_violated
  refine ⟨o, s, h2, (C217_ess_partial binary64 o s h2 ?_ ?_ ?_).1⟩
  · rw [h1]; norm_num
  · rw [h1]; norm_num
  · rw [h1]; norm_num [binary64]

end Verif.Floats
