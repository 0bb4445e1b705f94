import Verif.Expr.Values
import Verif.Rejection.Averages
import Mathlib.Probability.ProductMeasure
import Mathlib.Probability.Independence.InfinitePi
/-
C190: what `RejectionABC` samples from when parameters reach the simulator through expressions.
-/
namespace Verif.Expr

open Graph Rejection MeasureTheory ProbabilityTheory Set

variable {U α Y : Type} (N : Net U α Y) (dist : Y → ℝ) (distMax eps : ℝ)

/-- A task on the graph is a task whose trials use the outcomes of a sequence. -/
theorem rejectLoop_graph (hap : RootsApart N.g N.roots) (fuel : Nat) (st : St α) (hc : Clean st) (hk : ∀ v, N.g.kind v = .hyper → st.value v = some (N.const v)) (s : Nat → Nat → U)
    (θ : Option (List (Option α))) (d : ℝ) (c : Nat) :
    (∀ θ' d' c' w', rejectLoop (graphTrial N) dist distMax eps fuel (st, s) θ d c = .done (θ', d', c', w') →
      rejectLoop (trialStream (param N) (data N)) dist distMax eps fuel s θ d c = .done (θ', d', c', w'.2)) ∧
    (∀ θ' d' c' w', rejectLoop (trialStream (param N) (data N)) dist distMax eps fuel s θ d c = .done (θ', d', c', w') →
      ∃ st', rejectLoop (graphTrial N) dist distMax eps fuel (st, s) θ d c = .done (θ', d', c', (st', w'))) := by
  induction fuel generalizing st s θ d c with
  | zero => simp [rejectLoop]
  | succ fuel ih =>
    obtain ⟨st', k1, k2, k3⟩ := graphTrial_eq N hap st hc hk s
    simp only [rejectLoop]
    by_cases hd : d > eps
    · simp only [if_pos hd, k3, trialStream]
      exact ih st' k1 k2 _ _ _ _
    · simp only [if_neg hd]
      cases θ with
      | none => simp
      | some θ =>
        simp only [Task.done.injEq, Prod.mk.injEq]
        refine ⟨?_, ?_⟩
        · rintro θ' d' c' w' ⟨rfl, rfl, rfl, rfl⟩
          simp
        · rintro θ' d' c' w' ⟨rfl, rfl, rfl, rfl⟩
          exact ⟨st, rfl, rfl, rfl, rfl, rfl⟩

/-- What a task returns. -/
theorem returns_iff (hap : RootsApart N.g N.roots) (hmax : eps < distMax) (s : Nat → Nat → U) (h : ∃ k, s k ∈ acceptedSet (data N) dist eps) (θ : List (Option α)) :
    Returns N dist distMax eps s θ ↔ θ = param N (hit (acceptedSet (data N) dist eps) s) := by
  have htask := C177_task (param N) (data N) dist distMax eps hmax s h
  constructor
  · rintro ⟨fuel, d, c, w, hw⟩
    have h1 := (rejectLoop_graph N dist distMax eps hap fuel (start N) (start_clean N) (start_const N) s none distMax 0).1 _ _ _ _ hw
    obtain ⟨c1, -, -⟩ := C36_task (trialStream (param N) (data N)) dist distMax eps hmax fuel s
    obtain ⟨k1, -, k3, ⟨y', k4, k5⟩, k6, k7⟩ := c1 _ _ _ _ h1
    have hdata : ∀ j, (trialStream (param N) (data N) (after (trialStream (param N) (data N)) s j)).2 = (param N (s j), data N (s j)) := by
      intro j
      rw [after_stream]
      simp [trialStream]
    rw [hdata] at k3 k4
    have : firstAt (acceptedSet (data N) dist eps) s = c - 1 := by
      refine firstAt_eq ⟨y', k4, by rw [← k5]; exact k6⟩ ?_
      rintro j hj ⟨y'', e1, e2⟩
      exact absurd (k7 j hj y'' (by rw [hdata]; exact e1)) (not_lt.2 e2)
    rw [hit, this, k3]
  · rintro rfl
    obtain ⟨d, c, w, hw⟩ := htask _ le_rfl
    obtain ⟨st', h2⟩ := (rejectLoop_graph N dist distMax eps hap _ (start N) (start_clean N) (start_const N) s none distMax 0).2 _ _ _ _ hw
    exact ⟨_, d, c, _, h2⟩

open Classical in
/-- The nodes of hidden parameters. -/
noncomputable def hiddenNodes : Finset ℕ := ((order N.g N.roots).filter fun v => Hidden N v).toFinset

open Classical in
/-- All other nodes. -/
noncomputable def otherNodes : Finset ℕ := (above N.g N.roots ++ N.roots).toFinset \ hiddenNodes N

open Classical in
theorem hiddenPart_map (f : Nat → Option α) : hiddenPart N ((order N.g N.roots).map f) = (((order N.g N.roots).filter fun v => Hidden N v).map f) := by
  classical
  unfold hiddenPart
  generalize order N.g N.roots = l
  induction l with
  | nil => rfl
  | cons a l ih =>
    rw [List.map_cons, List.zip_cons_cons, List.filter_cons, List.filter_cons]
    by_cases h : Hidden N a
    · simp only [h, decide_true, if_true, List.map_cons]
      rw [ih]
    · simp only [h, decide_false, Bool.false_eq_true, if_false]
      exact ih

theorem hiddenPart_param (hap : RootsApart N.g N.roots) (ω : ℕ → U) : hiddenPart N (param N ω) = hiddenPart N (trueParams N ω) := by
  classical
  rw [param, trueParams, hiddenPart_map, hiddenPart_map]
  refine List.map_congr_left fun v hv => ?_
  rw [List.mem_filter] at hv
  exact (sampled_spec N hap (start N) (start_clean N) (start_const N) ω).2.hidden N v (mem_above_order N hv.1) (by simpa using hv.2)

theorem hiddenPart_depends {ω ω' : ℕ → U} (h : ∀ v ∈ hiddenNodes N, ω v = ω' v) : hiddenPart N (trueParams N ω) = hiddenPart N (trueParams N ω') := by
  classical
  rw [trueParams, trueParams, hiddenPart_map, hiddenPart_map]
  refine List.map_congr_left fun v hv => ?_
  have hv' := List.mem_filter.1 hv
  rw [truth_hidden N v (by simpa using hv'.2) (h v (by unfold hiddenNodes; rw [List.mem_toFinset]; convert hv))]

theorem data_depends (hap : RootsApart N.g N.roots) (hr : ∀ r ∈ N.roots, N.g.kind r ≠ .op) {ω ω' : ℕ → U} (h : ∀ v ∈ otherNodes N, ω v = ω' v) : data N ω = data N ω' := by
  classical
  have h1 := (sampled_spec N hap (start N) (start_clean N) (start_const N) ω).2
  have h2 := (sampled_spec N hap (start N) (start_clean N) (start_const N) ω').2
  have hω : ∀ v ∈ above N.g N.roots, ¬ Hidden N v → ω v = ω' v := by
    intro v hv hh
    refine h v ?_
    unfold otherNodes hiddenNodes
    simp only [Finset.mem_sdiff, List.mem_toFinset, List.mem_append, List.mem_filter, decide_eq_true_eq, not_and]
    exact ⟨Or.inl hv, fun _ => hh⟩
  unfold data
  congr 1
  refine List.map_congr_left fun r hrr => ?_
  rw [Prod.mk.injEq]
  refine ⟨List.map_congr_left fun p hp => h1.agree N h2 hω p (mem_above_parent N hrr hp) fun hh => hr r hrr (hh.uses r hp), h r ?_⟩
  unfold otherNodes hiddenNodes
  simp only [Finset.mem_sdiff, List.mem_toFinset, List.mem_append, List.mem_filter, decide_eq_true_eq, not_and]
  refine ⟨Or.inr hrr, fun ho _ => ?_⟩
  obtain ⟨-, r', hr', ha⟩ := (mem_order _ _ _).1 ho
  exact hap r hrr r' hr' ha

section Law

variable [MeasurableSpace U] (ν : Measure U) [IsProbabilityMeasure ν]

/-- The random numbers of a trial: those of different calls are independent. -/
noncomputable def trialLaw : Measure (ℕ → U) := Measure.infinitePi fun _ => ν

instance : IsProbabilityMeasure (trialLaw ν) := by unfold trialLaw; infer_instance

/-- **C190, what a task samples from**, for every graph. The parameters are returned with the probabilities that they have in a trial whose data are accepted, where "data" are those that the code computed. -/
theorem C190_law (hap : RootsApart N.g N.roots) (hmax : eps < distMax) (C : Set (List (Option α))) (hA : MeasurableSet (acceptedSet (data N) dist eps)) (h0 : trialLaw ν (acceptedSet (data N) dist eps) ≠ 0)
    (hC : MeasurableSet {ω | param N ω ∈ C}) :
    stream (trialLaw ν) {s | ∃ θ, Returns N dist distMax eps s θ ∧ θ ∈ C} = cond (trialLaw ν) (acceptedSet (data N) dist eps) {ω | param N ω ∈ C} := by
  rw [← C177_law (trialLaw ν) hA h0, Measure.map_apply (measurable_hit hA) hC]
  refine measure_congr ?_
  filter_upwards [ae_hit (trialLaw ν) hA h0] with s hs
  refine propext ⟨?_, fun h => ?_⟩
  · rintro ⟨θ, h1, h2⟩
    rw [returns_iff N dist distMax eps hap hmax s hs] at h1
    subst h1
    exact h2
  · exact ⟨_, (returns_iff N dist distMax eps hap hmax s hs _).2 rfl, h⟩

/-- A set of random numbers of a trial that depends on the numbers of finitely many nodes only. -/
def DependsOn (A : Set (ℕ → U)) (T : Finset ℕ) : Prop := ∀ ω ω' : ℕ → U, (∀ v ∈ T, ω v = ω' v) → (ω ∈ A ↔ ω' ∈ A)

theorem indep_of_dependsOn {A B : Set (ℕ → U)} {S T : Finset ℕ} (hA : MeasurableSet A) (hB : MeasurableSet B) (hST : Disjoint S T) (hdA : DependsOn A S) (hdB : DependsOn B T) :
    trialLaw ν (A ∩ B) = trialLaw ν A * trialLaw ν B := by
  have hne : Nonempty U := by
    by_contra hU
    rw [not_nonempty_iff] at hU
    have := measure_univ (μ := ν)
    rw [Set.univ_eq_empty_iff.2 hU, measure_empty] at this
    exact zero_ne_one this
  obtain ⟨u0⟩ := hne
  classical
  have hind : iIndepFun (fun (i : ℕ) (ω : ℕ → U) => ω i) (trialLaw ν) := by
    have := iIndepFun_infinitePi (P := fun _ : ℕ => ν) (X := fun _ u => u) (fun _ => measurable_id)
    exact this
  have h2 := hind.indepFun_finset S T hST fun i => measurable_pi_apply i
  have hext : ∀ T : Finset ℕ, Measurable fun (x : T → U) (i : ℕ) => if h : i ∈ T then x ⟨i, h⟩ else u0 := by
    intro T
    refine measurable_pi_lambda _ fun i => ?_
    by_cases h : i ∈ T
    · simp only [h, dite_true]
      exact measurable_pi_apply _
    · simp only [h, dite_false]
      exact measurable_const
  have hpre : ∀ (A : Set (ℕ → U)) (T : Finset ℕ), DependsOn A T → A = (fun (ω : ℕ → U) (i : T) => ω i) ⁻¹' ((fun (x : T → U) (i : ℕ) => if h : i ∈ T then x ⟨i, h⟩ else u0) ⁻¹' A) := by
    intro A T hd
    ext ω
    simp only [Set.mem_preimage]
    exact hd _ _ fun v hv => by simp [hv]
  have h3 := h2.measure_inter_preimage_eq_mul _ _ (hext S hA) (hext T hB)
  rw [← hpre A S hdA, ← hpre B T hdB] at h3
  exact h3

/-- **C190 is violated**, for every graph: parameters whose inputs are constants and that the model uses in expressions only are returned with their prior probabilities, whatever the observed data, the distance and the threshold are. -/
theorem C190_prior_violated (hap : RootsApart N.g N.roots) (hr : ∀ r ∈ N.roots, N.g.kind r ≠ .op) (hmax : eps < distMax) (C : Set (List (Option α)))
    (hA : MeasurableSet (acceptedSet (data N) dist eps)) (h0 : trialLaw ν (acceptedSet (data N) dist eps) ≠ 0) (hC : MeasurableSet {ω : ℕ → U | hiddenPart N (trueParams N ω) ∈ C}) :
    stream (trialLaw ν) {s | ∃ θ, Returns N dist distMax eps s θ ∧ hiddenPart N θ ∈ C} = trialLaw ν {ω | hiddenPart N (trueParams N ω) ∈ C} := by
  have e : {ω : ℕ → U | param N ω ∈ {θ | hiddenPart N θ ∈ C}} = {ω | hiddenPart N (trueParams N ω) ∈ C} := by
    ext ω
    simp only [Set.mem_ofPred_eq, hiddenPart_param N hap]
  have key := C190_law N dist distMax eps ν hap hmax {θ | hiddenPart N θ ∈ C} hA h0 (by rw [e]; exact hC)
  rw [e] at key
  refine key.trans ?_
  rw [cond_apply hA, indep_of_dependsOn ν hA hC (S := otherNodes N) (T := hiddenNodes N) ?_ ?_ ?_, ← mul_assoc, ENNReal.inv_mul_cancel h0 (measure_ne_top _ _), one_mul]
  · unfold otherNodes
    exact Finset.sdiff_disjoint
  · intro ω ω' h
    unfold acceptedSet accepted
    simp only [Set.mem_ofPred_eq, data_depends N hap hr h]
  · intro ω ω' h
    simp only [Set.mem_ofPred_eq, hiddenPart_depends N h]

/-- **C190, what holds**: when expressions are used with constants only, the parameters are returned with the probabilities that they have given that the data of the composed model are accepted.
Missing: expressions of parameters. -/
theorem C190_partial (hap : RootsApart N.g N.roots) (hce : ConstantExpressions N) (hmax : eps < distMax) (C : Set (List (Option α)))
    (hA : MeasurableSet (acceptedSet (trueData N) dist eps)) (h0 : trialLaw ν (acceptedSet (trueData N) dist eps) ≠ 0) (hC : MeasurableSet {ω : ℕ → U | trueParams N ω ∈ C}) :
    stream (trialLaw ν) {s | ∃ θ, Returns N dist distMax eps s θ ∧ θ ∈ C} = cond (trialLaw ν) (acceptedSet (trueData N) dist eps) {ω | trueParams N ω ∈ C} := by
  have h1 : ∀ ω : ℕ → U, Drawn N ω (sampled N (start N) ω).value := fun ω => (sampled_spec N hap (start N) (start_clean N) (start_const N) ω).2
  have ep : param N = trueParams N := by
    funext ω
    exact List.map_congr_left fun v hv => (h1 ω).truth N hce v (mem_above_order N hv)
  have ed : data N = trueData N := by
    funext ω
    unfold data trueData
    congr 1
    refine List.map_congr_left fun r hr => ?_
    rw [Prod.mk.injEq]
    exact ⟨List.map_congr_left fun p hp => (h1 ω).truth N hce p (mem_above_parent N hr hp), rfl⟩
  have := C190_law N dist distMax eps ν hap hmax C (by rw [ed]; exact hA) (by rw [ed]; exact h0) (by rw [ep]; exact hC)
  rwa [ed, ep] at this

end Law

end Verif.Expr
