import Verif.Joint.Model
import Mathlib.Algebra.Order.BigOperators.Group.List
import Mathlib.Algebra.BigOperators.Fin
import Mathlib.Tactic.Linarith
import Mathlib.Tactic.FieldSimp
import Mathlib.Tactic.NormNum
import Mathlib.Tactic.IntervalCases
import Mathlib.Data.EReal.Inv
import Mathlib.Analysis.SpecialFunctions.Log.Basic

/-!
# C58 and C61: combined distances and combined likelihoods
-/

namespace Verif.Joint

open Classical

/-! ## Specification -/

/-- One data set per model on both sides, and `v` are the individual distances in order. -/
structure Individual {D : Type} (ds : List (Dist D)) (d1 d2 : List D) (v : List ℝ) : Prop where
  len1 : d1.length = ds.length
  len2 : d2.length = ds.length
  lenv : v.length = ds.length
  value : ∀ i (h : i < ds.length), (ds[i]).distance (d1[i]'(by omega)) (d2[i]'(by omega)) = some (v[i]'(by omega))

/-- The weighted mean. -/
noncomputable def weightedMean (w v : List ℝ) : ℝ := (List.zipWith (· * ·) w v).sum / w.sum

/-! ## Lemmas -/

theorem Individual.tail {D : Type} {d : Dist D} {ds : List (Dist D)} {x y : D} {xs ys : List D} {a : ℝ} {v : List ℝ}
    (h : Individual (d :: ds) (x :: xs) (y :: ys) (a :: v)) : d.distance x y = some a ∧ Individual ds xs ys v := by
  refine ⟨h.value 0 (by simp), by simpa using h.len1, by simpa using h.len2, by simpa using h.lenv, ?_⟩
  intro i hi
  exact h.value (i + 1) (by simpa using hi)

theorem terms_eq {D : Type} (ws : List ℝ) (ds : List (Dist D)) (d1 d2 : List D) (v : List ℝ)
    (h : Individual ds d1 d2 v) (hw : ws.length = ds.length) :
    terms ws ds d1 d2 = (List.zipWith (· * ·) ws v).map some := by
  induction ds generalizing ws d1 d2 v with
  | nil =>
    have := List.eq_nil_of_length_eq_zero hw
    subst this
    simp [terms]
  | cons d ds ih =>
    obtain ⟨w, ws, rfl⟩ := List.exists_cons_of_length_eq_add_one hw
    obtain ⟨x, xs, rfl⟩ := List.exists_cons_of_length_eq_add_one h.len1
    obtain ⟨y, ys, rfl⟩ := List.exists_cons_of_length_eq_add_one h.len2
    obtain ⟨a, v, rfl⟩ := List.exists_cons_of_length_eq_add_one h.lenv
    obtain ⟨h1, h2⟩ := h.tail
    rw [terms, h1, ih ws xs ys v h2 (by simpa using hw)]
    rfl

theorem zipWith_div (w v : List ℝ) (s : ℝ) :
    (List.zipWith (· * ·) (w.map (· / s)) v).sum = (List.zipWith (· * ·) w v).sum / s := by
  induction w generalizing v with
  | nil => simp
  | cons a w ih =>
    cases v with
    | nil => simp
    | cons b v =>
      simp only [List.map_cons, List.zipWith_cons_cons, List.sum_cons, ih v]
      ring

theorem zipWith_le (w v : List ℝ) (hi : ℝ) (hw : ∀ x ∈ w, 0 ≤ x) (hl : w.length = v.length)
    (hv : ∀ i (h1 : i < w.length) (h2 : i < v.length), 0 < w[i] → v[i] ≤ hi) :
    (List.zipWith (· * ·) w v).sum ≤ hi * w.sum := by
  induction w generalizing v with
  | nil => simp
  | cons a w ih =>
    obtain ⟨b, v, rfl⟩ := List.exists_cons_of_length_eq_add_one hl.symm
    have h1 := ih v (fun x hx => hw x (by simp [hx])) (by simpa using hl)
      fun i h1 h2 hp => hv (i + 1) (by simpa using h1) (by simpa using h2) hp
    have ha := hw a (by simp)
    have h2 : a * b ≤ a * hi := by
      rcases ha.eq_or_lt with h | h
      · rw [← h]; simp
      · exact mul_le_mul_of_nonneg_left (hv 0 (by simp) (by simp) h) ha
    simp only [List.zipWith_cons_cons, List.sum_cons]
    nlinarith

theorem zipWith_ge (w v : List ℝ) (lo : ℝ) (hw : ∀ x ∈ w, 0 ≤ x) (hl : w.length = v.length)
    (hv : ∀ i (h1 : i < w.length) (h2 : i < v.length), 0 < w[i] → lo ≤ v[i]) :
    lo * w.sum ≤ (List.zipWith (· * ·) w v).sum := by
  induction w generalizing v with
  | nil => simp
  | cons a w ih =>
    obtain ⟨b, v, rfl⟩ := List.exists_cons_of_length_eq_add_one hl.symm
    have h1 := ih v (fun x hx => hw x (by simp [hx])) (by simpa using hl)
      fun i h1 h2 hp => hv (i + 1) (by simpa using h1) (by simpa using h2) hp
    have ha := hw a (by simp)
    have h2 : a * lo ≤ a * b := by
      rcases ha.eq_or_lt with h | h
      · rw [← h]; simp
      · exact mul_le_mul_of_nonneg_left (hv 0 (by simp) (by simp) h) ha
    simp only [List.zipWith_cons_cons, List.sum_cons]
    nlinarith

/-! ## C58 -/

/-- C58, the value and its bounds: with non-negative weights of positive sum, one per distance, the
object exists, the combined distance is the weighted mean of the individual ones, and lies between
any two bounds of the individual distances that have positive weight. -/
theorem C58_mean {D : Type} (ds : List (Dist D)) (w : List ℝ) (d1 d2 : List D) (v : List ℝ)
    (hw : w.length = ds.length) (hpos : ∀ x ∈ w, 0 ≤ x) (hsum : 0 < w.sum) (hv : Individual ds d1 d2 v) :
    ∃ c, new ds.length ds (some w) = some c ∧ c.distance d1 d2 = some (weightedMean w v) ∧
      (∀ hi, (∀ i (h : i < ds.length), 0 < w[i]'(by omega) → v[i]'(by have := hv.lenv; omega) ≤ hi) → weightedMean w v ≤ hi) ∧
      (∀ lo, (∀ i (h : i < ds.length), 0 < w[i]'(by omega) → lo ≤ v[i]'(by have := hv.lenv; omega)) → lo ≤ weightedMean w v) := by
  have hlv := hv.lenv
  refine ⟨⟨w.map (· / w.sum), ds⟩, ?_, ?_, ?_, ?_⟩
  · rw [new, if_neg (by simp)]
    rw [if_neg (by simp [hw]), if_neg hsum.ne']
  · rw [Combination.distance, if_neg (by rw [hv.len1, hv.len2]; simp), terms_eq _ _ _ _ v hv (by simpa using hw), collect_map_some,
      Option.map_some, zipWith_div]
    rfl
  · intro hi h
    rw [weightedMean, div_le_iff₀ hsum]
    exact zipWith_le w v hi hpos (by omega) fun i h1 h2 hp => h i (by omega) hp
  · intro lo h
    rw [weightedMean, le_div_iff₀ hsum]
    exact zipWith_ge w v lo hpos (by omega) fun i h1 h2 hp => h i (by omega) hp

/-- C58, no weights: the combined distance is the mean. -/
theorem C58_unweighted {D : Type} (ds : List (Dist D)) (d1 d2 : List D) (v : List ℝ)
    (_hne : ds ≠ []) (hv : Individual ds d1 d2 v) :
    ∃ c, new ds.length ds none = some c ∧ c.distance d1 d2 = some (v.sum / v.length) := by
  refine ⟨⟨List.replicate ds.length (1 / (ds.length : ℝ)), ds⟩, by rw [new, if_neg (by simp)], ?_⟩
  rw [Combination.distance, if_neg (by rw [hv.len1, hv.len2]; simp), terms_eq _ _ _ _ v hv (by simp), collect_map_some, Option.map_some]
  congr 1
  have h : ∀ (n : Nat) (a : ℝ) (v : List ℝ), v.length = n → (List.zipWith (· * ·) (List.replicate n a) v).sum = a * v.sum := by
    intro n a
    induction n with
    | zero => intro v hv; simp [List.eq_nil_of_length_eq_zero hv]
    | succ n ih =>
      intro v hv
      obtain ⟨b, v, rfl⟩ := List.exists_cons_of_length_eq_add_one hv
      simp only [List.length_cons, Nat.add_right_cancel_iff] at hv
      simp only [List.replicate_succ, List.zipWith_cons_cons, List.sum_cons, ih v hv]
      ring
  rw [h _ _ v hv.lenv, hv.lenv]
  ring

/-- Zero-weight distances with an infinite maximum make the combined maximum undefined; the
condition under which it exists. -/
def MaxDefined {D : Type} (ds : List (Dist D)) (w : List ℝ) : Prop :=
  ∀ i (h1 : i < ds.length) (h2 : i < w.length), (ds[i]).distMax ≠ ⊥ ∧ ((ds[i]).distMax = ⊤ → 0 < w[i])

theorem maxTerms {D : Type} (ds : List (Dist D)) (w : List ℝ) (hw : w.length = ds.length)
    (hpos : ∀ x ∈ w, 0 ≤ x) (hm : MaxDefined ds w) :
    ∃ l, collect (List.zipWith (fun w (d : Dist D) => maxTerm w d.distMax) w ds) = some l ∧ ⊥ ∉ l ∧
      l = List.zipWith (fun (w : ℝ) (d : Dist D) => (w : EReal) * d.distMax) w ds := by
  induction ds generalizing w with
  | nil =>
    have := List.eq_nil_of_length_eq_zero hw
    subst this
    exact ⟨[], rfl, by simp, rfl⟩
  | cons d ds ih =>
    obtain ⟨a, w, rfl⟩ := List.exists_cons_of_length_eq_add_one hw
    obtain ⟨l, h1, h2, h3⟩ := ih w (by simpa using hw) (fun x hx => hpos x (by simp [hx]))
      fun i h1 h2 => hm (i + 1) (by simpa using h1) (by simpa using h2)
    obtain ⟨hb, ht⟩ := hm 0 (by simp) (by simp)
    simp only [List.getElem_cons_zero] at hb ht
    have ha := hpos a (by simp)
    refine ⟨((a : EReal) * d.distMax) :: l, ?_, ?_, ?_⟩
    · rw [List.zipWith_cons_cons, maxTerm, if_neg, collect, h1]
      rintro ⟨h0, h | h⟩
      · exact absurd (ht h) (by rw [h0]; simp)
      · exact hb h
    · simp only [List.mem_cons, not_or]
      refine ⟨fun hc => ?_, h2⟩
      have hc := hc.symm
      induction hd : d.distMax with
      | bot => exact hb hd
      | coe m => rw [hd, ← EReal.coe_mul] at hc; exact EReal.coe_ne_bot _ hc
      | top => rw [hd, EReal.coe_mul_top_of_pos (ht hd)] at hc; cases hc
    · rw [List.zipWith_cons_cons, h3]

/-- C58, the declared maximum: where it is defined and no individual distance exceeds its own
declared maximum, the combined distance does not exceed the combined one. Missing from C58: with a
zero weight on a distance whose maximum is infinite (which most distances have) the combined maximum
is not a number, see the next theorem. -/
theorem C58_max_partial {D : Type} (ds : List (Dist D)) (w : List ℝ) (d1 d2 : List D) (v : List ℝ)
    (hw : w.length = ds.length) (hpos : ∀ x ∈ w, 0 ≤ x) (hsum : 0 < w.sum) (hv : Individual ds d1 d2 v)
    (hm : MaxDefined ds w)
    (hle : ∀ i (h : i < ds.length), ((v[i]'(by have := hv.lenv; omega) : ℝ) : EReal) ≤ (ds[i]).distMax) :
    ∃ c M, new ds.length ds (some w) = some c ∧ c.distMax = some M ∧
      ∃ x : ℝ, c.distance d1 d2 = some x ∧ (x : EReal) ≤ M := by
  obtain ⟨c, h1, h2, -⟩ := C58_mean ds w d1 d2 v hw hpos hsum hv
  have hc : c = ⟨w.map (· / w.sum), ds⟩ := by
    rw [new, if_neg (by simp)] at h1
    rw [if_neg (by simp [hw]), if_neg hsum.ne'] at h1
    exact (Option.some.inj h1).symm
  have hpos' : ∀ x ∈ w.map (· / w.sum), 0 ≤ x := by
    intro x hx
    obtain ⟨y, hy, rfl⟩ := List.mem_map.1 hx
    exact div_nonneg (hpos y hy) hsum.le
  have hm' : MaxDefined ds (w.map (· / w.sum)) := by
    intro i i1 i2
    obtain ⟨b, t⟩ := hm i i1 (by simpa using i2)
    refine ⟨b, fun h => ?_⟩
    rw [List.getElem_map]
    exact div_pos (t h) hsum
  obtain ⟨l, l1, l2, l3⟩ := maxTerms ds (w.map (· / w.sum)) (by simpa using hw) hpos' hm'
  refine ⟨c, l.sum, h1, ?_, _, h2, ?_⟩
  · rw [hc, Combination.distMax]
    simp only [l1]
    rw [if_neg (fun h => l2 h.2)]
  · rw [weightedMean, ← zipWith_div, l3]
    have hlen : (w.map (· / w.sum)).length = ds.length := by simpa using hw
    revert hpos' hlen
    generalize w.map (· / w.sum) = u
    intro hpos' hlen
    clear hm' l1 l2 l3 h1 h2 hc hm hw hpos hsum
    induction ds generalizing u d1 d2 v with
    | nil =>
      have := List.eq_nil_of_length_eq_zero hlen
      subst this
      simp
    | cons d ds ih =>
      obtain ⟨a, u, rfl⟩ := List.exists_cons_of_length_eq_add_one hlen
      obtain ⟨x, xs, rfl⟩ := List.exists_cons_of_length_eq_add_one hv.len1
      obtain ⟨y, ys, rfl⟩ := List.exists_cons_of_length_eq_add_one hv.len2
      obtain ⟨b, v, rfl⟩ := List.exists_cons_of_length_eq_add_one hv.lenv
      obtain ⟨-, t2⟩ := hv.tail
      have h0 := hle 0 (by simp)
      simp only [List.getElem_cons_zero] at h0
      have hrec := ih xs ys v t2 (fun i h => hle (i + 1) (by simpa using h)) u
        (fun x hx => hpos' x (by simp [hx])) (by simpa using hlen)
      simp only [List.zipWith_cons_cons, List.sum_cons, EReal.coe_add, EReal.coe_mul]
      exact add_le_add (mul_le_mul_of_nonneg_left h0 (EReal.coe_nonneg.2 (hpos' a (by simp)))) hrec

/-- Two distances on numbers, the second with a declared maximum of 1. -/
noncomputable def exDists : List (Dist ℝ) := [⟨fun x y => some |x - y|, ⊤⟩, ⟨fun _ _ => some (1 / 2), 1⟩]

/-- A concrete case: weights 1 and 3 on distances 2 and 1/2. -/
example : Individual exDists [3, 0] [1, 0] [2, 1 / 2] ∧ MaxDefined exDists [1, 3] ∧
    weightedMean [1, 3] [2, 1 / 2] = 7 / 8 := by
  refine ⟨⟨rfl, rfl, rfl, ?_⟩, ?_, by norm_num [weightedMean]⟩
  · intro i hi
    have : i < 2 := hi
    interval_cases i
    · simp [exDists]; norm_num
    · simp [exDists]
  · intro i hi h2
    have : i < 2 := hi
    interval_cases i
    · simp [exDists]
    · refine ⟨?_, ?_⟩
      · show (1 : EReal) ≠ ⊥
        exact EReal.coe_ne_bot 1
      · show (1 : EReal) = ⊤ → _
        intro h
        exact absurd h (EReal.coe_ne_top 1)

/-- C58 fails for the declared maximum: with weights 1 and 0 on two distances without an upper limit
the combined object is accepted and returns distances, but its maximum is not a number. -/
theorem C58_zero_weight_violated : ∃ (ds : List (Dist ℝ)) (c : Combination ℝ),
    new ds.length ds (some [1, 0]) = some c ∧ (∀ d ∈ ds, d.distMax = ⊤) ∧
    (∀ x y, (c.distance [x, x] [y, y]).isSome) ∧ c.distMax = none := by
  refine ⟨[⟨fun x y => some |x - y|, ⊤⟩, ⟨fun x y => some |x - y|, ⊤⟩], ⟨[1, 0], [⟨fun x y => some |x - y|, ⊤⟩, ⟨fun x y => some |x - y|, ⊤⟩]⟩, ?_, ?_, ?_, ?_⟩
  · simp [new]
  · simp
  · intro x y
    simp [Combination.distance, terms, collect]
  · simp [Combination.distMax, maxTerm, collect]

/-! ## C61 -/

/-- One data set per model on both sides, and `v` are the individual log-likelihoods in order. -/
structure IndividualLhd {D : Type} (ls : List (Lhd D)) (d1 d2 : List D) (v : List ℝ) : Prop where
  len1 : d1.length = ls.length
  len2 : d2.length = ls.length
  lenv : v.length = ls.length
  value : ∀ i (h : i < ls.length), (ls[i]).loglikelihood (d1[i]'(by omega)) (d2[i]'(by omega)) = some (v[i]'(by omega))

theorem values_eq {D : Type} (ls : List (Lhd D)) (d1 d2 : List D) (v : List ℝ) (h : IndividualLhd ls d1 d2 v) :
    values Lhd.loglikelihood ls d1 d2 = v.map some ∧
    values Lhd.likelihood ls d1 d2 = (v.map Real.exp).map some := by
  induction ls generalizing d1 d2 v with
  | nil =>
    have := List.eq_nil_of_length_eq_zero h.lenv
    subst this
    simp [values]
  | cons l ls ih =>
    obtain ⟨x, xs, rfl⟩ := List.exists_cons_of_length_eq_add_one h.len1
    obtain ⟨y, ys, rfl⟩ := List.exists_cons_of_length_eq_add_one h.len2
    obtain ⟨a, v, rfl⟩ := List.exists_cons_of_length_eq_add_one h.lenv
    obtain ⟨h1, h2⟩ := ih xs ys v ⟨by simpa using h.len1, by simpa using h.len2, by simpa using h.lenv,
      fun i hi => h.value (i + 1) (by simpa using hi)⟩
    have h0 := h.value 0 (by simp)
    simp only [List.getElem_cons_zero] at h0
    constructor
    · rw [values, h0, h1]; rfl
    · rw [values, h2, Lhd.likelihood, h0]; rfl

theorem foldl_add (l : List ℝ) (a : ℝ) : l.foldl (· + ·) a = a + l.sum := by
  induction l generalizing a with
  | nil => simp
  | cons x l ih => rw [List.foldl_cons, ih, List.sum_cons, add_assoc]

theorem foldl_mul (l : List ℝ) (a : ℝ) : l.foldl (· * ·) a = a * l.prod := by
  induction l generalizing a with
  | nil => simp
  | cons x l ih => rw [List.foldl_cons, ih, List.prod_cons, mul_assoc]

theorem prod_exp (v : List ℝ) : (v.map Real.exp).prod = Real.exp v.sum := by
  induction v with
  | nil => simp
  | cons a v ih => rw [List.map_cons, List.prod_cons, ih, List.sum_cons, Real.exp_add]

/-- C61: for any number of models, the sum combination's log-likelihood is the sum of the individual
ones; the product combination's likelihood is the product of the individual likelihoods; it equals
the sum combination's likelihood, and its logarithm is the sum combination's log-likelihood. -/
theorem C61 {D : Type} (ls : List (Lhd D)) (d1 d2 : List D) (v : List ℝ) (h : IndividualLhd ls d1 d2 v) :
    accepts ls.length ls = true ∧
    sumLoglikelihood ls d1 d2 = some v.sum ∧
    productLikelihood ls d1 d2 = some ((v.map Real.exp).prod) ∧
    sumLikelihood ls d1 d2 = productLikelihood ls d1 d2 ∧
    (productLikelihood ls d1 d2).map Real.log = sumLoglikelihood ls d1 d2 := by
  obtain ⟨h1, h2⟩ := values_eq ls d1 d2 v h
  have e1 : sumLoglikelihood ls d1 d2 = some v.sum := by
    rw [sumLoglikelihood, if_neg (by rw [h.len1, h.len2]; simp), h1, collect_map_some, Option.map_some, foldl_add, zero_add]
  have e2 : productLikelihood ls d1 d2 = some ((v.map Real.exp).prod) := by
    rw [productLikelihood, if_neg (by rw [h.len1, h.len2]; simp), h2, collect_map_some, Option.map_some, foldl_mul, one_mul]
  refine ⟨by simp [accepts], e1, e2, ?_, ?_⟩
  · rw [sumLikelihood, e1, e2, prod_exp]; rfl
  · rw [e1, e2, prod_exp, Option.map_some, Real.log_exp]

/-- C61, errors: both combinations refuse data with different numbers of data sets, too few data
sets, and an individual likelihood that raises, in the same cases. -/
theorem C61_errors {D : Type} (ls : List (Lhd D)) (d1 d2 : List D) :
    (sumLoglikelihood ls d1 d2 = none ↔ productLikelihood ls d1 d2 = none) ∧
    (d1.length ≠ d2.length ∨ d1.length < ls.length → sumLoglikelihood ls d1 d2 = none) := by
  have key : ∀ (ls : List (Lhd D)) (d1 d2 : List D),
      (collect (values Lhd.loglikelihood ls d1 d2) = none ↔ collect (values Lhd.likelihood ls d1 d2) = none) ∧
      (d1.length < ls.length → collect (values Lhd.loglikelihood ls d1 d2) = none) := by
    intro ls
    induction ls with
    | nil => intro d1 d2; simp [values, collect]
    | cons l ls ih =>
      intro d1 d2
      cases d1 with
      | nil => simp [values, collect]
      | cons x xs =>
        cases d2 with
        | nil => simp [values, collect]
        | cons y ys =>
          obtain ⟨i1, i2⟩ := ih xs ys
          rw [values, values, Lhd.likelihood]
          cases l.loglikelihood x y with
          | none => simp [collect]
          | some a =>
            simp only [Option.map_some, collect]
            refine ⟨?_, fun hlt => ?_⟩
            · cases h1 : collect (values Lhd.loglikelihood ls xs ys) with
              | none => rw [i1.1 h1]
              | some r =>
                cases h2 : collect (values Lhd.likelihood ls xs ys) with
                | none => rw [i1.2 h2] at h1; cases h1
                | some q => simp
            · rw [i2 (by simpa using hlt)]
  obtain ⟨k1, k2⟩ := key ls d1 d2
  refine ⟨?_, ?_⟩
  · rw [sumLoglikelihood, productLikelihood]
    by_cases hl : d1.length ≠ d2.length
    · rw [if_pos hl, if_pos hl]
    · rw [if_neg hl, if_neg hl, Option.map_eq_none_iff, Option.map_eq_none_iff, k1]
  · intro h
    rw [sumLoglikelihood]
    by_cases hl : d1.length ≠ d2.length
    · rw [if_pos hl]
    · rw [if_neg hl, k2 (h.resolve_left hl), Option.map_none]

/-- Two likelihoods on numbers. -/
example : IndividualLhd [⟨fun x y => some (-(x - y) ^ 2)⟩, ⟨fun x y => some (-|x - y|)⟩] [1, 2] [(3 : ℝ), 5] [-4, -3] := by
  refine ⟨rfl, rfl, rfl, ?_⟩
  intro i hi
  have : i < 2 := hi
  interval_cases i
  · norm_num
  · simp; norm_num

theorem terms_none {D : Type} (ws : List ℝ) (ds : List (Dist D)) (d1 d2 : List D) (hw : ws.length = ds.length) (hl : d1.length = d2.length) :
    collect (terms ws ds d1 d2) = none ↔
      d1.length < ds.length ∨ ∃ (i : Nat) (d : Dist D) (x y : D), ds[i]? = some d ∧ d1[i]? = some x ∧ d2[i]? = some y ∧ d.distance x y = none := by
  induction ds generalizing ws d1 d2 with
  | nil =>
    have := List.eq_nil_of_length_eq_zero hw
    subst this
    simp [terms, collect]
  | cons d ds ih =>
    obtain ⟨w, ws, rfl⟩ := List.exists_cons_of_length_eq_add_one hw
    cases d1 with
    | nil => simp [terms, collect]
    | cons x xs =>
      obtain ⟨y, ys, rfl⟩ := List.exists_cons_of_length_eq_add_one (l := d2) (by rw [← hl]; rfl)
      have i1 := ih ws xs ys (by simpa using hw) (by simpa using hl)
      have e : (∃ (i : Nat) (d' : Dist D) (x' y' : D), (d :: ds)[i]? = some d' ∧ (x :: xs)[i]? = some x' ∧ (y :: ys)[i]? = some y' ∧ d'.distance x' y' = none) ↔
          d.distance x y = none ∨ ∃ (i : Nat) (d' : Dist D) (x' y' : D), ds[i]? = some d' ∧ xs[i]? = some x' ∧ ys[i]? = some y' ∧ d'.distance x' y' = none := by
        constructor
        · rintro ⟨i, d', x', y', h1, h2, h3, h4⟩
          cases i with
          | zero => simp at h1 h2 h3; subst h1 h2 h3; exact .inl h4
          | succ i => exact .inr ⟨i, d', x', y', by simpa using h1, by simpa using h2, by simpa using h3, h4⟩
        · rintro (h | ⟨i, d', x', y', h1, h2, h3, h4⟩)
          · exact ⟨0, d, x, y, rfl, rfl, rfl, h⟩
          · exact ⟨i + 1, d', x', y', by simpa using h1, by simpa using h2, by simpa using h3, h4⟩
      rw [e, terms]
      cases hd : d.distance x y with
      | none => simp [collect]
      | some a =>
        simp only [Option.map_some, collect, reduceCtorEq, false_or, List.length_cons, Nat.add_lt_add_iff_right]
        rw [← i1]
        cases collect (terms ws ds xs ys) <;> simp

/-- C58, errors: a combination is refused exactly if the number of distances is not that of the models, the number of given weights is not that of the distances, or the
weights sum to zero. A distance is refused exactly if the two sides have different numbers of data sets, there are fewer data sets than models, or an individual distance
is refused for its pair of data sets. -/
theorem C58_errors {D : Type} (models : Nat) (ds : List (Dist D)) (weights : Option (List ℝ)) :
    (new models ds weights = none ↔ models ≠ ds.length ∨ ∃ w, weights = some w ∧ (w.length ≠ ds.length ∨ w.sum = 0)) ∧
    ∀ c, new models ds weights = some c → ∀ d1 d2 : List D,
      (c.distance d1 d2 = none ↔ d1.length ≠ d2.length ∨ d1.length < ds.length ∨
        ∃ (i : Nat) (d : Dist D) (x y : D), ds[i]? = some d ∧ d1[i]? = some x ∧ d2[i]? = some y ∧ d.distance x y = none) := by
  constructor
  · unfold new
    by_cases h1 : models ≠ ds.length
    · simp [h1]
    · rw [if_neg h1]
      cases weights with
      | none => simp only [reduceCtorEq, false_and, exists_false, or_false, false_iff]; exact h1
      | some w =>
        simp only [Option.some.injEq, exists_eq_left']
        by_cases h2 : ds.length ≠ w.length
        · rw [if_pos h2]; simp [Ne.symm h2]
        · rw [if_neg h2]
          by_cases h3 : w.sum = 0
          · simp [h3]
          · rw [if_neg h3]; push Not at h1 h2; simp [h1, h2, h3]
  · intro c hc d1 d2
    have hcl : c.weights.length = ds.length ∧ c.distances = ds := by
      unfold new at hc
      split at hc
      · simp at hc
      · split at hc
        · obtain rfl := Option.some.inj hc; exact ⟨by simp, rfl⟩
        · split at hc
          · simp at hc
          · rename_i h2
            split at hc
            · simp at hc
            · obtain rfl := Option.some.inj hc; push Not at h2; exact ⟨by simp [h2], rfl⟩
    rw [Combination.distance, hcl.2]
    by_cases hl : d1.length ≠ d2.length
    · simp [hl]
    · rw [if_neg hl, Option.map_eq_none_iff, terms_none _ _ _ _ hcl.1 (not_not.mp hl)]
      simp [hl]

/-- Three models and two data sets on each side. -/
example (d : Dist ℝ) : ∃ c, new 3 [d, d, d] none = some c ∧ c.distance [1, 2] [3, 4] = none := by
  have h := C58_errors 3 [d, d, d] none
  cases hc : new 3 [d, d, d] none with
  | none => simp [hc] at h
  | some c => exact ⟨c, rfl, (h.2 c hc [1, 2] [3, 4]).2 (.inr (.inl (by simp)))⟩

end Verif.Joint
