import Verif.Graph.Attempt
import Verif.Graph.Law
import Mathlib.MeasureTheory.Integral.Marginal
import Mathlib.MeasureTheory.Measure.GiryMonad
/-
The draws of one attempt of `sample_from_prior` for random variables with densities.
-/
namespace Verif.Graph

open MeasureTheory ENNReal

variable {A X : Type} [MeasurableSpace A] [MeasurableSpace X] [Inhabited X]

/-- Random variables over a measurable space of values: for given values of all nodes and a random number `a`, `ok` says whether node `v` accepts its inputs and `val` what it
draws then; both look at the inputs of `v` only. `okOut` is `_check_output`. -/
structure MVars (A X : Type) where
  ok : Nat → (Nat → X) → A → Bool
  val : Nat → (Nat → X) → A → X
  okOut : (Nat → Option X) → Nat → X → Bool

/-- Nodes without a stored value have none of their users drawn; what is read in their place does not matter. -/
def filled (vals : Nat → Option X) : Nat → X := fun u => (vals u).getD default

def MVars.toVars (V : MVars A X) : Vars A X := ⟨fun vals v a => if V.ok v (filled vals) a then some (V.val v (filled vals) a) else none, V.okOut⟩

/-- The average of a quantity over `n` independent draws from `μ`. -/
noncomputable def average (μ : Measure A) : Nat → (List A → ℝ≥0∞) → ℝ≥0∞
  | 0, F => F []
  | n + 1, F => ∫⁻ a, average μ n (fun l => F (a :: l)) ∂μ

/-- Specification. The random variables draw from densities: node `v` draws with density `p τ v` with respect to `lam v` when the values of the nodes are `τ` (a density with
total mass less than one if inputs are refused with positive probability). -/
structure MVars.Densities (V : MVars A X) (g : G) (μ : Measure A) (lam : Nat → Measure X) (p : (Nat → X) → Nat → X → ℝ≥0∞) : Prop where
  inputs : ∀ v τ τ', (∀ u ∈ g.parents v, τ u = τ' u) → ∀ a, V.ok v τ a = V.ok v τ' a ∧ V.val v τ a = V.val v τ' a
  inputs' : ∀ v τ τ', (∀ u ∈ g.parents v, τ u = τ' u) → ∀ x, p τ v x = p τ' v x
  support : ∀ vals v a, V.ok v (filled vals) a = true → V.okOut vals v (V.val v (filled vals) a) = true
  meas_ok : ∀ v, Measurable fun e : (Nat → X) × A => V.ok v e.1 e.2
  meas_val : ∀ v, Measurable fun e : (Nat → X) × A => V.val v e.1 e.2
  meas_p : ∀ v, Measurable fun e : (Nat → X) × X => p e.1 v e.2
  law : ∀ v, (g.kind v).isFree = true → ∀ τ (h : X → ℝ≥0∞), Measurable h → ∫⁻ a, (if V.ok v τ a then h (V.val v τ a) else 0) ∂μ = ∫⁻ x, p τ v x * h x ∂lam v

variable (g : G) (μ : Measure A)

theorem average_const [IsProbabilityMeasure μ] (n : Nat) (c : ℝ≥0∞) : average μ n (fun _ => c) = c := by
  induction n with
  | zero => rfl
  | succ n ih => simp [average, ih]

omit [MeasurableSpace X] [Inhabited X] in
theorem average_congr (n : Nat) (F F' : List A → ℝ≥0∞) (h : ∀ l, F l = F' l) : average μ n F = average μ n F' := by
  rw [funext h]

/-- The average of `h` over the values after all nodes of a list were drawn, where attempts that fail count `0`. -/
noncomputable def meanOver (V : MVars A X) (h : (Nat → X) → ℝ≥0∞) : List Nat → (Nat → X) → ℝ≥0∞
  | [], τ => h τ
  | v :: l, τ => if g.kind v = .hyper then meanOver V h l τ else ∫⁻ a, (if V.ok v τ a then meanOver V h l (Function.update τ v (V.val v τ a)) else 0) ∂μ

/-- The probability that some draw of a list fails. -/
noncomputable def failOver (V : MVars A X) : List Nat → (Nat → X) → ℝ≥0∞
  | [], _ => 0
  | v :: l, τ => if g.kind v = .hyper then failOver V l τ else ∫⁻ a, (if V.ok v τ a then failOver V l (Function.update τ v (V.val v τ a)) else 1) ∂μ

variable {g μ}
variable {V : MVars A X} {lam : Nat → Measure X} {p : (Nat → X) → Nat → X → ℝ≥0∞}

omit [Inhabited X] in
theorem measurable_move (V : MVars A X) (v : Nat) (hval : Measurable fun e : (Nat → X) × A => V.val v e.1 e.2) :
    Measurable fun e : (Nat → X) × A => Function.update e.1 v (V.val v e.1 e.2) := by
  rw [measurable_pi_iff]
  intro u
  by_cases hu : u = v
  · subst hu; simpa using hval
  · simp only [Function.update_of_ne hu]
    exact (measurable_pi_apply u).comp measurable_fst

theorem measurable_meanOver [SFinite μ] (hV : V.Densities g μ lam p) (h : (Nat → X) → ℝ≥0∞) (hh : Measurable h) (l : List Nat) : Measurable (meanOver g μ V h l) := by
  induction l with
  | nil => exact hh
  | cons v l ih =>
    by_cases hk : g.kind v = .hyper
    · have : meanOver g μ V h (v :: l) = meanOver g μ V h l := by funext τ; simp [meanOver, hk]
      rw [this]; exact ih
    · have : meanOver g μ V h (v :: l) = fun τ => ∫⁻ a, (if V.ok v τ a then meanOver g μ V h l (Function.update τ v (V.val v τ a)) else 0) ∂μ := by
        funext τ; simp [meanOver, hk]
      rw [this]
      refine Measurable.lintegral_prod_right' (f := fun e : (Nat → X) × A => if V.ok v e.1 e.2 then meanOver g μ V h l (Function.update e.1 v (V.val v e.1 e.2)) else 0) ?_
      exact Measurable.ite ((hV.meas_ok v) (measurableSet_singleton true)) (ih.comp (measurable_move V v (hV.meas_val v))) measurable_const

theorem measurable_failOver [SFinite μ] (hV : V.Densities g μ lam p) (l : List Nat) : Measurable (failOver g μ V l) := by
  induction l with
  | nil => exact measurable_const
  | cons v l ih =>
    by_cases hk : g.kind v = .hyper
    · have : failOver g μ V (v :: l) = failOver g μ V l := by funext τ; simp [failOver, hk]
      rw [this]; exact ih
    · have : failOver g μ V (v :: l) = fun τ => ∫⁻ a, (if V.ok v τ a then failOver g μ V l (Function.update τ v (V.val v τ a)) else 1) ∂μ := by
        funext τ; simp [failOver, hk]
      rw [this]
      refine Measurable.lintegral_prod_right' (f := fun e : (Nat → X) × A => if V.ok v e.1 e.2 then failOver g μ V l (Function.update e.1 v (V.val v e.1 e.2)) else 1) ?_
      exact Measurable.ite ((hV.meas_ok v) (measurableSet_singleton true)) (ih.comp (measurable_move V v (hV.meas_val v))) measurable_const

/-- The product of the densities of the free nodes of a list. -/
noncomputable def product (g : G) (p : (Nat → X) → Nat → X → ℝ≥0∞) (l : List Nat) (τ : Nat → X) : ℝ≥0∞ :=
  ((l.filter fun v => (g.kind v).isFree).map fun v => p τ v (τ v)).prod

theorem measurable_product (hV : V.Densities g μ lam p) (l : List Nat) : Measurable (product g p l) := by
  unfold product
  induction l.filter fun v => (g.kind v).isFree with
  | nil => simp
  | cons v l ih =>
    simp only [List.map_cons, List.prod_cons]
    exact ((hV.meas_p v).comp (measurable_id.prodMk (measurable_pi_apply v))).mul ih

/-- The average over the draws is the integral over the values of the free nodes, weighted with the product of the densities. -/
theorem meanOver_eq [IsProbabilityMeasure μ] [∀ v, SigmaFinite (lam v)] (hV : V.Densities g μ lam p) (h : (Nat → X) → ℝ≥0∞) (hh : Measurable h)
    (hinv : ∀ v, g.kind v = .op → ∀ τ x, h (Function.update τ v x) = h τ) (l : List Nat) (hl : Listed g l)
    (hop : ∀ v ∈ l, g.kind v = .op → ∀ τ a, V.ok v τ a = true)
    (hfeed : ∀ v ∈ l, (g.kind v).isFree = true → ∀ u ∈ g.parents v, g.kind u ≠ .op) (τ : Nat → X) :
    meanOver g μ V h l τ = (∫⋯∫⁻_(l.filter fun v => (g.kind v).isFree).toFinset, (fun τ => h τ * product g p l τ) ∂lam) τ := by
  have hm : ∀ l, Measurable fun τ => h τ * product g p l τ := fun l => hh.mul (measurable_product hV l)
  induction l generalizing τ with
  | nil => simp [meanOver, product]
  | cons v l ih =>
    have ih' := ih hl.2.2 (fun u hu => hop u (by simp [hu])) (fun u hu => hfeed u (by simp [hu]))
    simp only [meanOver]
    by_cases hk : g.kind v = .hyper
    · rw [if_pos hk, ih' τ]
      have hnf : (g.kind v).isFree = false := by simp [hk, Kind.isFree]
      simp [product, List.filter_cons, hnf]
    · rw [if_neg hk]
      cases hfr : (g.kind v).isFree with
      | false =>
        have hkop : g.kind v = .op := by
          cases h : g.kind v <;> simp_all [Kind.isFree]
        have hprod : product g p (v :: l) = product g p l := by funext τ; simp [product, List.filter_cons, hfr]
        rw [hprod]
        simp only [List.filter_cons, hfr, Bool.false_eq_true, if_false]
        have hcase : ∀ a, (if V.ok v τ a then meanOver g μ V h l (Function.update τ v (V.val v τ a)) else 0) =
            (∫⋯∫⁻_(l.filter fun v => (g.kind v).isFree).toFinset, (fun τ => h τ * product g p l τ) ∂lam) τ := by
          intro a
          rw [if_pos (hop v (by simp) hkop τ a), ih',
            lmarginal_update_of_notMem (hm l) (by simp [hfr])]
          congr 1
          congr 1
          funext y
          simp only [Function.comp]
          rw [hinv v hkop]
          congr 1
          unfold product
          congr 1
          apply List.map_congr_left
          intro u hu
          rw [List.mem_filter] at hu
          have huv : u ≠ v := by rintro rfl; rw [hfr] at hu; cases hu.2
          rw [Function.update_of_ne huv]
          refine hV.inputs' u _ _ (fun w hw => Function.update_of_ne ?_ _ _) _
          rintro rfl
          exact hfeed u (by simp [hu.1]) hu.2 w hw hkop
        rw [lintegral_congr hcase]
        simp
      | true =>
        have hset : (List.filter (fun v => (g.kind v).isFree) (v :: l)).toFinset = insert v (l.filter fun v => (g.kind v).isFree).toFinset := by
          simp [List.filter_cons, hfr]
        have hnot : v ∉ (l.filter fun v => (g.kind v).isFree).toFinset := by
          simp [hl.2.1]
        rw [hset, lmarginal_insert _ (hm (v :: l)) hnot]
        have hmeas : Measurable fun x : X => meanOver g μ V h l (Function.update τ v x) :=
          (measurable_meanOver hV h hh l).comp (measurable_update τ)
        rw [hV.law v hfr τ (fun x => meanOver g μ V h l (Function.update τ v x)) hmeas]
        refine lintegral_congr fun x => ?_
        rw [ih', lmarginal, lmarginal]
        refine (lintegral_const_mul _ ((hm l).comp measurable_updateFinset)).symm.trans ?_
        simp only [Function.comp]
        refine lintegral_congr fun y => ?_
        have hpv : product g p (v :: l) (Function.updateFinset (Function.update τ v x) _ y) =
            p τ v x * product g p l (Function.updateFinset (Function.update τ v x) (l.filter fun v => (g.kind v).isFree).toFinset y) := by
          unfold product
          simp only [List.filter_cons, hfr, if_true, List.map_cons, List.prod_cons]
          congr 1
          have hv : Function.updateFinset (Function.update τ v x) (l.filter fun v => (g.kind v).isFree).toFinset y v = x := by
            simp [Function.updateFinset, hl.2.1]
          rw [hv]
          refine hV.inputs' v _ _ (fun u hu => ?_) x
          have h1 := hl.1 u hu
          have hul : u ∉ l := fun hm => h1 (by simp [hm])
          have huv : u ≠ v := fun e => h1 (by simp [e])
          simp [Function.updateFinset, hul, huv]
        rw [hpv]
        ring

end Verif.Graph
