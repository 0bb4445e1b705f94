import Verif.Graph.RejectLaw
import Mathlib.Analysis.SpecificLimits.Basic
/-
C212 without bounds on the number of trials: the limit of `C212_abc_density_partial`.
-/
namespace Verif.Graph

open MeasureTheory ENNReal Filter Topology

/-- The factor of `C212_abc_density_partial` for `m` trials with `m` attempts each. -/
noncomputable def rounds (f r : ℝ≥0∞) (m : Nat) : ℝ≥0∞ :=
  ((List.range m).map fun j => f ^ j).sum * ((List.range m).map fun k => (((List.range m).map fun j => f ^ j).sum * r) ^ k).sum

theorem sum_range_list (u : Nat → ℝ≥0∞) (m : Nat) : ((List.range m).map u).sum = ∑ j ∈ Finset.range m, u j := by
  induction m with
  | zero => rfl
  | succ m ih => rw [List.range_succ, List.map_append, List.sum_append, ih, Finset.sum_range_succ]; simp

theorem rounds_limit (a r f : ℝ≥0∞) (h : a + r + f = 1) (ha : a ≠ 0) : Tendsto (rounds f r) atTop (𝓝 a⁻¹) := by
  have hale : a ≤ 1 := by rw [← h, add_assoc]; exact le_self_add
  have hat : a ≠ ⊤ := ne_top_of_le_ne_top one_ne_top hale
  have hrt : r ≠ ⊤ := ne_top_of_le_ne_top one_ne_top (by rw [← h, add_comm a r, add_assoc]; exact le_self_add)
  have hft : f ≠ ⊤ := ne_top_of_le_ne_top one_ne_top (by rw [← h]; exact le_add_self)
  have hf : 1 - f = a + r := by rw [← h]; exact ENNReal.add_sub_cancel_right hft
  have har0 : a + r ≠ 0 := fun e => ha (add_eq_zero.1 e).1
  have hart : a + r ≠ ⊤ := add_ne_top.2 ⟨hat, hrt⟩
  set q : ℝ≥0∞ := (a + r)⁻¹ with hq
  have hqt : q ≠ ⊤ := inv_ne_top.2 har0
  have hS : Tendsto (fun m => ∑ j ∈ Finset.range m, f ^ j) atTop (𝓝 q) := by
    have := ENNReal.tendsto_nat_tsum fun j => f ^ j
    rwa [ENNReal.tsum_geometric, hf] at this
  have hSle : ∀ m, ∑ j ∈ Finset.range m, f ^ j ≤ q := by
    intro m
    have := ENNReal.sum_le_tsum (f := fun j => f ^ j) (Finset.range m)
    rwa [ENNReal.tsum_geometric, hf] at this
  have hqr : 1 - q * r = q * a := by
    have e : q * a + q * r = 1 := by rw [← mul_add, hq]; exact ENNReal.inv_mul_cancel har0 hart
    rw [← e]
    exact ENNReal.add_sub_cancel_right (mul_ne_top hqt hrt)
  have hT : q * ∑' k, (q * r) ^ k = a⁻¹ := by
    rw [ENNReal.tsum_geometric, hqr, ENNReal.mul_inv (Or.inr hat) (Or.inr ha), ← mul_assoc, ENNReal.mul_inv_cancel (ENNReal.inv_ne_zero.2 hart) hqt, one_mul]
  have hr : rounds f r = fun m => (∑ j ∈ Finset.range m, f ^ j) * ∑ k ∈ Finset.range m, ((∑ j ∈ Finset.range m, f ^ j) * r) ^ k := by
    funext m
    unfold rounds
    simp only [sum_range_list]
  rw [hr]
  refine tendsto_order.2 ⟨fun b hb => ?_, fun b hb => Filter.Eventually.of_forall fun m => lt_of_le_of_lt ?_ hb⟩
  · have h1 : Tendsto (fun K => q * ∑ k ∈ Finset.range K, (q * r) ^ k) atTop (𝓝 a⁻¹) := by
      rw [← hT]
      exact ENNReal.Tendsto.const_mul (ENNReal.tendsto_nat_tsum _) (Or.inr hqt)
    obtain ⟨K, hK⟩ := ((tendsto_order.1 h1).1 b hb).exists
    have h2 : Tendsto (fun m => (∑ j ∈ Finset.range m, f ^ j) * ∑ k ∈ Finset.range K, ((∑ j ∈ Finset.range m, f ^ j) * r) ^ k) atTop
        (𝓝 (q * ∑ k ∈ Finset.range K, (q * r) ^ k)) := by
      have hp : ∀ k, Tendsto (fun m => ((∑ j ∈ Finset.range m, f ^ j) * r) ^ k) atTop (𝓝 ((q * r) ^ k)) := fun k =>
        ENNReal.Tendsto.pow (ENNReal.Tendsto.mul_const hS (Or.inr hrt))
      refine ENNReal.Tendsto.mul hS (Or.inr ?_) (tendsto_finset_sum _ fun k _ => hp k) (Or.inr hqt)
      exact (ENNReal.sum_lt_top.2 fun k _ => (pow_ne_top (mul_ne_top hqt hrt)).lt_top).ne
    filter_upwards [(tendsto_order.1 h2).1 b hK, eventually_ge_atTop K] with m h3 h4
    refine lt_of_lt_of_le h3 ?_
    gcongr
  · rw [← hT]
    refine mul_le_mul' (hSle m) (le_trans (Finset.sum_le_sum fun k _ => ?_) (ENNReal.sum_le_tsum (f := fun k => (q * r) ^ k) (Finset.range m)))
    exact pow_le_pow_left' (mul_le_mul_left (hSle m) r) k

variable {A X Y : Type} [MeasurableSpace A] [MeasurableSpace X] [Inhabited X] {g : G} {μ : Measure A} {lam : Nat → Measure X} {V : MVars A X} {p : (Nat → X) → Nat → X → ℝ≥0∞}

/-- C212 without bounds, for the graphs of `C212_abc_density_partial`. Let `z` be the probability that the first trial is accepted, and not zero. With growing numbers of trials and attempts the average of a
quantity `h` of the parameters that are returned converges to the integral of `h` against the prior density times the probability of acceptance, divided by `z`. If `set_parameters` accepts all
vectors, `z` is the integral of the prior density times the probability of acceptance, and the probability that the call returns converges to one. -/
theorem C212_posterior_partial [IsProbabilityMeasure μ] [∀ v, SigmaFinite (lam v)] (hV : V.Densities g μ lam p) (roots : List Nat) (hap : RootsApart g roots)
    (hop : ∀ v, g.kind v = .op → ∀ τ a, V.ok v τ a = true)
    (hfeed : ∀ v, (g.kind v).isFree = true → (∃ r ∈ roots, Anc g v r) → ∀ u ∈ g.parents v, g.kind u ≠ .op)
    (hdisc : ∀ v, g.kind v = .disc → (above g roots).count v ≤ 1) (s : Smp X) (hs : Clean s.st) (hclock : s.clock = 0) (τ0 : Nat → X)
    (hconst : ∀ v, (∃ r ∈ roots, Anc g v r) → g.kind v = .hyper → s.st.value v = some (τ0 v))
    (chk : (Nat → Option X) → Nat → X → Verdict)
    (data : (Nat → X) → A → Option Y) (hdata : ∀ τ τ', (∀ v, (∃ r ∈ roots, Anc g v r) → g.kind v ≠ .op → τ v = τ' v) → data τ = data τ')
    (dist : Y → ℝ) (distMax eps : ℝ) (hmax : eps < distMax) (hnear : MeasurableSet {e : (Nat → X) × A | near dist eps (data e.1 e.2)})
    (z : ℝ≥0∞) (hz : z = average μ ((above g roots).length + 1) (returnedOn g V data dist distMax eps roots s 1 1 fun _ => 1)) (hz0 : z ≠ 0) :
    (∀ (h : List X → ℝ≥0∞), Measurable (fun τ : Nat → X => h ((order g roots).map τ)) →
      (∀ τ : Nat → X, h ((order g roots).map τ) ≠ 0 → (setParameters g chk roots ((order g roots).map τ) s.st).2 = .ok (order g roots).length) →
      Tendsto (fun m => average μ (m * (m * (above g roots).length + 1)) (returnedOn g V data dist distMax eps roots s m m h)) atTop
        (𝓝 ((∫⋯∫⁻_(order g roots).toFinset, (fun τ => h ((order g roots).map τ) * acceptance μ data dist eps τ *
          (pdfOfPrior g chk (reported p) roots ((order g roots).map τ) s.st).2.getD 0) ∂lam) τ0 / z))) ∧
    ((∀ τ : Nat → X, (setParameters g chk roots ((order g roots).map τ) s.st).2 = .ok (order g roots).length) →
      z = (∫⋯∫⁻_(order g roots).toFinset, (fun τ => acceptance μ data dist eps τ * (pdfOfPrior g chk (reported p) roots ((order g roots).map τ) s.st).2.getD 0) ∂lam) τ0 ∧
      Tendsto (fun m => average μ (m * (m * (above g roots).length + 1)) (returnedOn g V data dist distMax eps roots s m m fun _ => 1)) atTop (𝓝 1)) := by
  obtain ⟨a, r, f, h1, -, h3, h4⟩ := C212_abc_density_partial hV roots hap hop hfeed hdisc s hs hclock τ0 hconst chk data hdata dist distMax eps hmax hnear
  have ha : z = a := hz.trans (h3 _ le_rfl)
  have hlim : ∀ (h : List X → ℝ≥0∞), Measurable (fun τ : Nat → X => h ((order g roots).map τ)) →
      (∀ τ : Nat → X, h ((order g roots).map τ) ≠ 0 → (setParameters g chk roots ((order g roots).map τ) s.st).2 = .ok (order g roots).length) →
      Tendsto (fun m => average μ (m * (m * (above g roots).length + 1)) (returnedOn g V data dist distMax eps roots s m m h)) atTop
        (𝓝 ((∫⋯∫⁻_(order g roots).toFinset, (fun τ => h ((order g roots).map τ) * acceptance μ data dist eps τ *
          (pdfOfPrior g chk (reported p) roots ((order g roots).map τ) s.st).2.getD 0) ∂lam) τ0 / z)) := by
    intro h hh hok
    have e : ∀ m, average μ (m * (m * (above g roots).length + 1)) (returnedOn g V data dist distMax eps roots s m m h) =
        (∫⋯∫⁻_(order g roots).toFinset, (fun τ => h ((order g roots).map τ) * acceptance μ data dist eps τ *
          (pdfOfPrior g chk (reported p) roots ((order g roots).map τ) s.st).2.getD 0) ∂lam) τ0 * rounds f r m := by
      intro m
      rw [h4 h hh hok m m _ le_rfl, mul_assoc]
      rfl
    simp only [e]
    rw [ENNReal.div_eq_inv_mul, mul_comm, ha]
    have hat : a ≠ ⊤ := ne_top_of_le_ne_top one_ne_top (by rw [← h1, add_assoc]; exact le_self_add)
    exact ENNReal.Tendsto.const_mul (rounds_limit a r f h1 (ha ▸ hz0)) (Or.inl (ENNReal.inv_ne_zero.2 hat))
  refine ⟨hlim, fun hall => ?_⟩
  have hz1 : z = (∫⋯∫⁻_(order g roots).toFinset, (fun τ => acceptance μ data dist eps τ * (pdfOfPrior g chk (reported p) roots ((order g roots).map τ) s.st).2.getD 0) ∂lam) τ0 := by
    rw [hz, h4 (fun _ => 1) measurable_const (fun τ _ => hall τ) 1 1 _ (by omega)]
    simp
  refine ⟨hz1, ?_⟩
  have := hlim (fun _ => 1) measurable_const fun τ _ => hall τ
  simp only [one_mul] at this
  rw [← hz1] at this
  have hzt : z ≠ ⊤ := by rw [ha]; exact ne_top_of_le_ne_top one_ne_top (by rw [← h1, add_assoc]; exact le_self_add)
  rwa [ENNReal.div_self hz0 hzt] at this

/-! ### The concrete graph of `RejectLaw` -/

theorem shifts_draw (x y w : ℝ) : ∃ t, sampleFromPrior chainG (shifts.toVars.sim [x, y, w]) [2] 1 ⟨St.blank, 0, []⟩ = some t ∧ t.clock = 2 ∧ t.st.value 0 = some x ∧ t.st.value 1 = some (x + y) := by
  have h2 : chainG.parents 2 = [1] := rfl
  have h1 : chainG.parents 1 = [0] := rfl
  have h0 : chainG.parents 0 = [] := rfl
  have k1 : chainG.kind 1 = .cont := rfl
  have k0 : chainG.kind 0 = .cont := rfl
  simp [sampleFromPrior, sampleAttempt, forMemE, sampleRoot_unfold, sampleNode_unfold, sampleStep, loopE, drawNode, h0, h1, h2, k0, k1, mark, store, St.blank, Vars.sim, MVars.toVars, shifts, filled,
    resetFlags_eq]

theorem shifts_returned (x y w : ℝ) (h : |x + y + w - 2| ≤ 1 / 2) :
    returnedOn chainG shifts addition (fun y => |y - 2|) 10 (1 / 2) [2] ⟨St.blank, 0, []⟩ 1 1 (fun _ => 1) [x, y, w] = 1 := by
  obtain ⟨t, t1, t2, t3, t4⟩ := shifts_draw x y w
  have hcl := sampleFromPrior_clean _ _ _ chainG_apart _ _ _ blank_clean t1
  obtain ⟨e1, e2, e3⟩ := getParameters_eq chainG [2] t.st hcl
  unfold returnedOn
  rw [rejectOn, if_pos (by norm_num), t1]
  simp only [e1, e3, simulators, t2, chainG_order, List.map_cons, List.map_nil, t3, t4]
  simp only [List.getElem?_cons_succ, List.getElem?_cons_zero, Option.bind_some, Option.elim_some]
  have hd : (addition (filled t.st.value) w).elim 10 (fun y => |y - 2|) = |x + y + w - 2| := by simp [addition, filled, t4]
  rw [hd, rejectOn, if_neg (not_lt.2 h)]
  rfl

/-- The hypothesis `z ≠ 0` of `C212_posterior_partial`. -/
theorem shifts_accepted :
    average (volume.restrict (Set.Icc (0 : ℝ) 1)) 3 (returnedOn chainG shifts addition (fun y => |y - 2|) 10 (1 / 2) [2] ⟨St.blank, 0, []⟩ 1 1 fun _ => 1) ≠ 0 := by
  set μ := volume.restrict (Set.Icc (0 : ℝ) 1) with hμ
  set I : ℝ → ℝ≥0∞ := (Set.Icc (1 / 2 : ℝ) (5 / 6)).indicator fun _ => 1 with hI
  have hm : Measurable I := measurable_const.indicator measurableSet_Icc
  have hint : ∫⁻ x, I x ∂μ ≠ 0 := by
    rw [hI, lintegral_indicator_const measurableSet_Icc, hμ, Measure.restrict_apply measurableSet_Icc, Set.inter_eq_left.2 (Set.Icc_subset_Icc (by norm_num) (by norm_num)), Real.volume_Icc]
    norm_num
  have hle : ∫⁻ x, ∫⁻ y, ∫⁻ w, I x * (I y * I w) ∂μ ∂μ ∂μ ≤
      average μ 3 (returnedOn chainG shifts addition (fun y => |y - 2|) 10 (1 / 2) [2] ⟨St.blank, 0, []⟩ 1 1 fun _ => 1) := by
    refine lintegral_mono fun x => lintegral_mono fun y => lintegral_mono fun w => ?_
    by_cases hx : x ∈ Set.Icc (1 / 2 : ℝ) (5 / 6)
    · by_cases hy : y ∈ Set.Icc (1 / 2 : ℝ) (5 / 6)
      · by_cases hw : w ∈ Set.Icc (1 / 2 : ℝ) (5 / 6)
        · have : |x + y + w - 2| ≤ 1 / 2 := by
            obtain ⟨x1, x2⟩ := hx
            obtain ⟨y1, y2⟩ := hy
            obtain ⟨w1, w2⟩ := hw
            rw [abs_le]
            constructor <;> linarith
          simp only [average]
          rw [shifts_returned x y w this, hI, Set.indicator_of_mem hx, Set.indicator_of_mem hy, Set.indicator_of_mem hw]
          simp
        · rw [show I w = 0 from Set.indicator_of_notMem hw _]; simp
      · rw [show I y = 0 from Set.indicator_of_notMem hy _]; simp
    · rw [show I x = 0 from Set.indicator_of_notMem hx _]; simp
  have heq : ∫⁻ x, ∫⁻ y, ∫⁻ w, I x * (I y * I w) ∂μ ∂μ ∂μ = (∫⁻ x, I x ∂μ) * ((∫⁻ x, I x ∂μ) * ∫⁻ x, I x ∂μ) := by
    simp only [lintegral_const_mul _ hm, lintegral_mul_const _ hm, lintegral_const_mul _ (hm.const_mul _), ← mul_assoc]
    simp only [mul_assoc, lintegral_const_mul _ hm, lintegral_mul_const _ hm, lintegral_const_mul _ (hm.mul_const _)]
  intro h0
  rw [h0, heq] at hle
  have := le_antisymm hle bot_le
  simp [hint] at this

/-- A uniform parameter, one that is uniform above it, and data that are uniform above that. The parameters accepted with data near 2 follow, in the limit, the prior density times the probability of acceptance,
divided by its integral; and the call returns. -/
example : ∃ z : ℝ≥0∞, z ≠ 0 ∧
    z = (∫⋯∫⁻_(order chainG [2]).toFinset, (fun τ : Nat → ℝ => acceptance (volume.restrict (Set.Icc (0 : ℝ) 1)) addition (fun y => |y - 2|) (1 / 2) τ *
        (pdfOfPrior chainG (fun _ _ _ => .accept) (reported shiftDensity) [2] ((order chainG [2]).map τ) St.blank).2.getD 0) ∂fun _ => volume) (fun _ => 0) ∧
    Tendsto (fun m => average (volume.restrict (Set.Icc (0 : ℝ) 1)) (m * (m * 2 + 1)) (returnedOn chainG shifts addition (fun y => |y - 2|) 10 (1 / 2) [2] ⟨St.blank, 0, []⟩ m m
        fun l => if 3 / 2 < l.headD 0 then 1 else 0)) atTop
      (𝓝 ((∫⋯∫⁻_(order chainG [2]).toFinset, (fun τ : Nat → ℝ => (if 3 / 2 < ((order chainG [2]).map τ).headD 0 then (1 : ℝ≥0∞) else 0) *
        acceptance (volume.restrict (Set.Icc (0 : ℝ) 1)) addition (fun y => |y - 2|) (1 / 2) τ *
        (pdfOfPrior chainG (fun _ _ _ => .accept) (reported shiftDensity) [2] ((order chainG [2]).map τ) St.blank).2.getD 0) ∂fun _ => volume) (fun _ => 0) / z)) := by
  have : IsProbabilityMeasure (volume.restrict (Set.Icc (0 : ℝ) 1)) := ⟨by simp⟩
  have hok : ∀ τ : Nat → ℝ, (setParameters chainG (fun _ _ _ => .accept) [2] ((order chainG [2]).map τ) (St.blank : St ℝ)).2 = .ok (order chainG [2]).length := by
    intro τ
    rw [chainG_order]
    have key := setParameters_eq chainG (fun _ _ _ => .accept) [τ 1, τ 0] [2] chainG_apart (St.blank : St ℝ) blank_clean
    rw [chainG_order] at key
    simp [assignInOrder] at key
    exact key.1
  obtain ⟨h1, h2⟩ := C212_posterior_partial shifts_densities [2] chainG_apart (fun _ _ _ _ => rfl) (fun v _ _ u _ => (chainG_kind u).1)
    (fun v hv => absurd hv (chainG_kind v).2) ⟨St.blank, 0, []⟩ blank_clean rfl (fun _ => 0) (fun v hv hk => by
      have := (mem_above chainG [2] v).2 hv
      rw [chainG_above] at this
      have h : v = 1 ∨ v = 0 := by simpa using this
      rcases h with e | e <;> subst e <;> simp [chainG, G.ofTable] at hk)
    (fun _ _ _ => .accept) addition (fun τ τ' e => by
      funext a
      have h1 : (∃ r ∈ [2], Anc chainG 1 r) := (mem_above chainG [2] 1).1 (by rw [chainG_above]; simp)
      rw [addition, addition, e 1 h1 (chainG_kind 1).1]) (fun y => |y - 2|) 10 (1 / 2) (by norm_num) addition_near _ rfl (by rw [chainG_above]; exact shifts_accepted)
  refine ⟨_, by rw [chainG_above]; exact shifts_accepted, (h2 hok).1, ?_⟩
  have := h1 (fun l => if 3 / 2 < l.headD 0 then 1 else 0) ?_ fun τ _ => hok τ
  · rw [chainG_above] at this ⊢
    exact this
  · rw [chainG_order]
    simp only [List.map_cons, List.headD_cons]
    exact Measurable.ite (measurableSet_lt measurable_const (measurable_pi_apply 1)) measurable_const measurable_const

end Verif.Graph
