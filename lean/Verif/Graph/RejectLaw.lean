import Verif.Graph.DensityLaw
/-
C212: the parameters that `RejectionABC` accepts have the density of the prior times the probability of acceptance, on the graph of models.
-/
namespace Verif.Graph

open MeasureTheory ENNReal

variable {A X Y : Type}

/-- `_sample_parameter` of RejectionABC on the graph of models, inferences.py 668-706. `simulate vals c` runs the simulators at the stored values `vals` with the random numbers from position
`c` on: the new position and the data, `none` if nothing was simulated. `dist` is the distance to the observations, `distMax` its maximum. `sample_from_prior` makes at most `tries`
attempts and the loop runs at most `fuel - 1` times, `none` if that is not enough (or if the loop is never entered: `theta` is undefined then). -/
noncomputable def rejectOn (g : G) (sm : Sim X) (roots : List Nat) (tries : Nat) (simulate : (Nat → Option X) → Nat → Nat × Option Y) (dist : Y → ℝ) (distMax eps : ℝ) :
    Nat → Smp X → Option (List (Option X)) → ℝ → Nat → Option (List (Option X) × ℝ × Nat)
  | 0, _, _, _, _ => none
  | fuel + 1, s, θ, d, c =>
    if eps < d then
      match sampleFromPrior g sm roots tries s with
      | none => none
      | some s' =>
        let r := getParameters g roots s'.st
        let y := simulate r.1.value s'.clock
        rejectOn g sm roots tries simulate dist distMax eps fuel ⟨r.1, y.1, s'.log⟩ (some r.2) (y.2.elim distMax dist) (c + 1)
    else θ.map fun θ => (θ, d, c)

/-- Simulators that use one element of the stream (which may hold as many random numbers as they like) and look at values of the models only. -/
def simulators [Inhabited X] (data : (Nat → X) → A → Option Y) (stream : List A) (vals : Nat → Option X) (c : Nat) : Nat × Option Y :=
  (c + 1, (stream[c]?).bind (data (filled vals)))

/-- Specification: there are data and they are near enough. -/
def near (dist : Y → ℝ) (eps : ℝ) (y : Option Y) : Prop := ∃ z, y = some z ∧ dist z ≤ eps

/-- A quantity `h` of the parameters that a call with the given random numbers returns; `0` if it does not return within the bounds on trials and attempts. -/
noncomputable def returnedOn [Inhabited X] (g : G) (V : MVars A X) (data : (Nat → X) → A → Option Y) (dist : Y → ℝ) (distMax eps : ℝ) (roots : List Nat) (s : Smp X)
    (trials tries : Nat) (h : List X → ℝ≥0∞) (stream : List A) : ℝ≥0∞ :=
  (rejectOn g (V.toVars.sim stream) roots tries (simulators data stream) dist distMax eps (trials + 1) s none distMax 0).elim 0 fun r => (collect r.1).elim 0 h

open Classical in
/-- The loop in terms of the stored values: at most `m` trials. -/
noncomputable def trialsWorth (g : G) (sm : Sim X) (L ord : List Nat) (n : Nat) (simulate : (Nat → Option X) → Nat → Nat × Option Y) (dist : Y → ℝ) (eps : ℝ) (h : List X → ℝ≥0∞) :
    Nat → (Nat → Option X) → Nat → ℝ≥0∞
  | 0, _, _ => 0
  | m + 1, vals, clock => worth g sm L (fun vals' clock' => if near dist eps (simulate vals' clock').2 then (collect (ord.map vals')).elim 0 h
      else trialsWorth g sm L ord n simulate dist eps h m vals' (simulate vals' clock').1) n vals clock

theorem rejectOn_worth (g : G) (sm : Sim X) (roots : List Nat) (hap : RootsApart g roots) (L : List Nat)
    (hL : ∀ s : Smp X, Clean s.st → s.log = [] → ∃ vis, Follows g sm L vis s (sampleAttempt g sm roots s)) (n : Nat)
    (simulate : (Nat → Option X) → Nat → Nat × Option Y) (dist : Y → ℝ) (distMax eps : ℝ) (hmax : eps < distMax) (h : List X → ℝ≥0∞) (m : Nat) :
    ∀ (s : Smp X) (θ : Option (List (Option X))) (d : ℝ) (c : Nat), Clean s.st → eps < d →
      ((rejectOn g sm roots n simulate dist distMax eps (m + 1) s θ d c).elim 0 fun r => (collect r.1).elim 0 h) =
        trialsWorth g sm L (order g roots) n simulate dist eps h m s.st.value s.clock := by
  induction m with
  | zero =>
    intro s θ d c hs hd
    rw [rejectOn, if_pos hd]
    cases sampleFromPrior g sm roots n s <;> rfl
  | succ m ih =>
    intro s θ d c hs hd
    rw [rejectOn, if_pos hd, trialsWorth, ← sampleFromPrior_worth g sm roots hap L hL _ n s hs]
    cases hr : sampleFromPrior g sm roots n s with
    | none => rfl
    | some s' =>
      have hcl := sampleFromPrior_clean g sm roots hap n s s' hs hr
      obtain ⟨e1, e2, e3⟩ := getParameters_eq g roots s'.st hcl
      simp only [Option.elim_some]
      rw [e3]
      by_cases hn : near dist eps (simulate s'.st.value s'.clock).2
      · rw [if_pos hn]
        obtain ⟨z, hz, hle⟩ := hn
        rw [hz, Option.elim_some, rejectOn, if_neg (not_lt.2 hle), Option.map_some, Option.elim_some, e1]
      · rw [if_neg hn, ih _ _ _ _ e2, e3]
        cases hz : (simulate s'.st.value s'.clock).2 with
        | none => exact hmax
        | some z => exact lt_of_not_ge fun hle => hn ⟨z, hz, hle⟩

variable [MeasurableSpace A] [MeasurableSpace X] [Inhabited X]
variable {g : G} {μ : Measure A} {V : MVars A X} {lam : Nat → Measure X} {p : (Nat → X) → Nat → X → ℝ≥0∞}

theorem meanOver_linear [SFinite μ] (hV : V.Densities g μ lam p) (h k : (Nat → X) → ℝ≥0∞) (hh : Measurable h) (hk : Measurable k) (c : ℝ≥0∞) (l : List Nat) (τ : Nat → X) :
    meanOver g μ V (fun τ => h τ + k τ * c) l τ = meanOver g μ V h l τ + meanOver g μ V k l τ * c := by
  induction l generalizing τ with
  | nil => rfl
  | cons v l ih =>
    simp only [meanOver]
    by_cases hv : g.kind v = .hyper
    · simp only [hv, if_true, ih]
    · simp only [hv, if_false, ih]
      have hm : ∀ f : (Nat → X) → ℝ≥0∞, Measurable f → Measurable fun a => if V.ok v τ a then meanOver g μ V f l (Function.update τ v (V.val v τ a)) else 0 := fun f hf =>
        Measurable.ite (((hV.meas_ok v).comp measurable_prodMk_left) (measurableSet_singleton true))
          ((measurable_meanOver hV f hf l).comp ((measurable_move V v (hV.meas_val v)).comp measurable_prodMk_left)) measurable_const
      rw [← lintegral_mul_const _ (hm k hk), ← lintegral_add_left (hm h hh)]
      refine lintegral_congr fun a => ?_
      cases V.ok v τ a <;> simp

/-- Specification: the probability that data simulated at the values `τ` are near enough. -/
noncomputable def acceptance (μ : Measure A) (data : (Nat → X) → A → Option Y) (dist : Y → ℝ) (eps : ℝ) (τ : Nat → X) : ℝ≥0∞ := μ {a | near dist eps (data τ a)}

open Classical in
theorem average_trials [IsProbabilityMeasure μ] (hV : V.Densities g μ lam p) (L ord : List Nat) (hL : Listed g L) (hLp : ∀ v ∈ L, ∀ u ∈ g.parents v, u ∈ L) (hord : ∀ v ∈ ord, v ∈ L)
    (data : (Nat → X) → A → Option Y) (hdata : ∀ τ τ', (∀ v ∈ L, τ v = τ' v) → data τ = data τ') (dist : Y → ℝ) (eps : ℝ)
    (hnear : MeasurableSet {e : (Nat → X) × A | near dist eps (data e.1 e.2)}) (h : List X → ℝ≥0∞) (hh : Measurable fun τ : Nat → X => h (ord.map τ)) (τ0 : Nat → X) (n m : Nat) :
    ∀ (vals : Nat → Option X) (pre : List A) (N : Nat), (∀ x ∈ L, g.kind x = .hyper → vals x = some (τ0 x)) → m * (n * L.length + 1) ≤ N →
      average μ N (fun w => trialsWorth g (V.toVars.sim (pre ++ w)) L ord n (simulators data (pre ++ w)) dist eps h m vals pre.length) =
        meanOver g μ V (fun τ => h (ord.map τ) * acceptance μ data dist eps τ) L τ0 * ((List.range n).map fun j => failOver g μ V L τ0 ^ j).sum *
          ((List.range m).map fun k => (((List.range n).map fun j => failOver g μ V L τ0 ^ j).sum * meanOver g μ V (fun τ => 1 - acceptance μ data dist eps τ) L τ0) ^ k).sum := by
  have hmacc : Measurable (acceptance μ data dist eps) := measurable_measure_prodMk_left hnear
  induction m with
  | zero =>
    intro vals pre N _ _
    simp only [trialsWorth, average_const]
    simp
  | succ m ih =>
    intro vals pre N hv hN
    simp only [trialsWorth]
    generalize hC : (meanOver g μ V (fun τ => h (ord.map τ) * acceptance μ data dist eps τ) L τ0 * ((List.range n).map fun j => failOver g μ V L τ0 ^ j).sum *
          ((List.range m).map fun k => (((List.range n).map fun j => failOver g μ V L τ0 ^ j).sum * meanOver g μ V (fun τ => 1 - acceptance μ data dist eps τ) L τ0) ^ k).sum) = C at ih
    have key := average_tries hV L hL hLp (fun τ => h (ord.map τ) * acceptance μ data dist eps τ + (1 - acceptance μ data dist eps τ) * C)
      ((hh.mul hmacc).add ((measurable_const.sub hmacc).mul_const C))
      (fun stream vals' clock' => if near dist eps (simulators data stream vals' clock').2 then (collect (ord.map vals')).elim 0 h
        else trialsWorth g (V.toVars.sim stream) L ord n (simulators data stream) dist eps h m vals' (simulators data stream vals' clock').1)
      (m * (n * L.length + 1) + 1) τ0 ?_ n vals pre N hv (by rw [Nat.succ_mul] at hN; omega)
    · rw [key, meanOver_linear hV (fun τ => h (ord.map τ) * acceptance μ data dist eps τ) (fun τ => 1 - acceptance μ data dist eps τ) (hh.mul hmacc) (measurable_const.sub hmacc), ← hC]
      generalize ((List.range n).map fun j => failOver g μ V L τ0 ^ j).sum = G
      generalize meanOver g μ V (fun τ => h (ord.map τ) * acceptance μ data dist eps τ) L τ0 = I
      generalize meanOver g μ V (fun τ => 1 - acceptance μ data dist eps τ) L τ0 = R
      rw [List.range_succ_eq_map, List.map_cons, List.sum_cons, pow_zero, List.map_map]
      have : (List.map ((fun k => (G * R) ^ k) ∘ Nat.succ) (List.range m)).sum = G * R * ((List.range m).map fun k => (G * R) ^ k).sum := by
        rw [← List.sum_map_mul_left]
        congr 1
        apply List.map_congr_left
        intro j _
        simp [pow_succ, mul_comm]
      rw [this]
      ring
    · intro vals τ pre N e1 e2 hK
      obtain ⟨N, rfl⟩ : ∃ N', N = N' + 1 := ⟨N - 1, by omega⟩
      rw [average]
      have hdat : ∀ a (w : List A), (simulators data (pre ++ a :: w) vals pre.length).2 = data τ a := by
        intro a w
        have := hdata (filled vals) τ fun v hv => by rw [filled, e1 v hv]; rfl
        simp [simulators, this]
      have hcol : collect (ord.map vals) = some (ord.map τ) := by
        rw [List.map_congr_left fun v hv => e1 v (hord v hv), show ord.map (fun v => some (τ v)) = (ord.map τ).map some by simp, collect_map_some]
      have hcase : ∀ a, average μ N (fun w => if near dist eps (simulators data (pre ++ a :: w) vals pre.length).2 then (collect (ord.map vals)).elim 0 h
          else trialsWorth g (V.toVars.sim (pre ++ a :: w)) L ord n (simulators data (pre ++ a :: w)) dist eps h m vals (simulators data (pre ++ a :: w) vals pre.length).1) =
          {a | near dist eps (data τ a)}.indicator (fun _ => h (ord.map τ)) a + {a | near dist eps (data τ a)}ᶜ.indicator (fun _ => C) a := by
        intro a
        simp only [hdat, hcol, Option.elim_some]
        by_cases hn : near dist eps (data τ a)
        · simp only [hn, if_true, average_const]
          rw [Set.indicator_of_mem (show a ∈ {a | near dist eps (data τ a)} from hn), Set.indicator_of_notMem (by simpa using hn), add_zero]
        · simp only [hn, if_false]
          rw [Set.indicator_of_notMem (show a ∉ {a | near dist eps (data τ a)} from hn), Set.indicator_of_mem (by simpa using hn), zero_add]
          refine Eq.trans (average_congr μ N _ (fun w => trialsWorth g (V.toVars.sim ((pre ++ [a]) ++ w)) L ord n (simulators data ((pre ++ [a]) ++ w)) dist eps h m vals (pre ++ [a]).length)
            fun w => ?_) (ih vals (pre ++ [a]) N (fun x hx hk => by rw [e1 x hx, e2 x hx hk]) (by omega))
          rw [show pre ++ a :: w = (pre ++ [a]) ++ w by simp]
          simp [simulators]
      have hset : MeasurableSet {a | near dist eps (data τ a)} := measurable_prodMk_left hnear
      rw [lintegral_congr hcase, lintegral_add_left (measurable_const.indicator hset), lintegral_indicator_const hset, lintegral_indicator_const hset.compl, prob_compl_eq_one_sub hset]
      simp only [acceptance]
      ring

/-- C212, for graphs in which no discrete parameter is reached along two paths and no arithmetic node feeds a parameter or the simulators. One attempt to sample from the prior and to
simulate is accepted with probability `a`, rejected with probability `r`, and refused with probability `f`. The average of a quantity `h` of the parameters that are returned, over
calls with at most `m` trials and `n` attempts to sample in each, is a factor that does not depend on `h` times the integral of `h` against the prior density times the probability of
acceptance. The prior density is the value that `pdf_of_prior` returns; `h` vanishes at vectors that `set_parameters` refuses. -/
theorem C212_abc_density_partial [IsProbabilityMeasure μ] [∀ v, SigmaFinite (lam v)] (hV : V.Densities g μ lam p) (roots : List Nat) (hap : RootsApart g roots)
    (hop : ∀ v, g.kind v = .op → ∀ τ a, V.ok v τ a = true)
    (hfeed : ∀ v, (g.kind v).isFree = true → (∃ r ∈ roots, Anc g v r) → ∀ u ∈ g.parents v, g.kind u ≠ .op)
    (hdisc : ∀ v, g.kind v = .disc → (above g roots).count v ≤ 1) (s : Smp X) (hs : Clean s.st) (hclock : s.clock = 0) (τ0 : Nat → X)
    (hconst : ∀ v, (∃ r ∈ roots, Anc g v r) → g.kind v = .hyper → s.st.value v = some (τ0 v))
    (chk : (Nat → Option X) → Nat → X → Verdict)
    (data : (Nat → X) → A → Option Y) (hdata : ∀ τ τ', (∀ v, (∃ r ∈ roots, Anc g v r) → g.kind v ≠ .op → τ v = τ' v) → data τ = data τ')
    (dist : Y → ℝ) (distMax eps : ℝ) (hmax : eps < distMax) (hnear : MeasurableSet {e : (Nat → X) × A | near dist eps (data e.1 e.2)}) :
    ∃ a r f : ℝ≥0∞, a + r + f = 1 ∧ ((∀ v τ b, V.ok v τ b = true) → f = 0) ∧
      (∀ N, (above g roots).length + 1 ≤ N → average μ N (returnedOn g V data dist distMax eps roots s 1 1 fun _ => 1) = a) ∧
      ∀ (h : List X → ℝ≥0∞), Measurable (fun τ : Nat → X => h ((order g roots).map τ)) →
        (∀ τ : Nat → X, h ((order g roots).map τ) ≠ 0 → (setParameters g chk roots ((order g roots).map τ) s.st).2 = .ok (order g roots).length) →
        ∀ m n N, m * (n * (above g roots).length + 1) ≤ N → average μ N (returnedOn g V data dist distMax eps roots s m n h) =
          (∫⋯∫⁻_(order g roots).toFinset, (fun τ => h ((order g roots).map τ) * acceptance μ data dist eps τ *
            (pdfOfPrior g chk (reported p) roots ((order g roots).map τ) s.st).2.getD 0) ∂lam) τ0 *
          ((List.range n).map fun j => f ^ j).sum * ((List.range m).map fun k => (((List.range n).map fun j => f ^ j).sum * r) ^ k).sum := by
  obtain ⟨L, hnd, hif, hmem, hfol⟩ := attempt_list (α := X) g roots hap
  have hlisted := listed_of g L [] L rfl hnd hif
  have hLlen : L.length ≤ (above g roots).length := (hnd.subperm fun v hv => (hmem v).1 hv).length_le
  have hord : ∀ v, v ∈ order g roots ↔ (g.kind v).isFree = true ∧ v ∈ L := fun v => by rw [mem_order, hmem, mem_above]
  have hanc : ∀ v ∈ L, ∃ r ∈ roots, Anc g v r := fun v hv => (mem_above g roots v).1 ((hmem v).1 hv)
  have hLp : ∀ v ∈ L, ∀ u ∈ g.parents v, u ∈ L := by
    intro v hv u hu
    rw [hmem, mem_above]
    obtain ⟨r, hr, ha⟩ := hanc v hv
    exact ⟨r, hr, (Anc.input hu).trans ha⟩
  have hhyp : ∀ x ∈ L, g.kind x = .hyper → s.st.value x = some (τ0 x) := fun x hx hk => hconst x (hanc x hx) hk
  have hmacc : Measurable (acceptance μ data dist eps) := measurable_measure_prodMk_left hnear
  have main : ∀ (h : List X → ℝ≥0∞), Measurable (fun τ : Nat → X => h ((order g roots).map τ)) → ∀ m n N, m * (n * L.length + 1) ≤ N →
      average μ N (returnedOn g V data dist distMax eps roots s m n h) =
        meanOver g μ V (fun τ => h ((order g roots).map τ) * acceptance μ data dist eps τ) L τ0 * ((List.range n).map fun j => failOver g μ V L τ0 ^ j).sum *
          ((List.range m).map fun k => (((List.range n).map fun j => failOver g μ V L τ0 ^ j).sum * meanOver g μ V (fun τ => 1 - acceptance μ data dist eps τ) L τ0) ^ k).sum := by
    intro h hh m n N hN
    have := average_trials hV L (order g roots) hlisted hLp (fun v hv => ((hord v).1 hv).2) data
      (fun τ τ' e => hdata τ τ' fun v hv _ => e v ((hmem v).2 ((mem_above g roots v).2 hv))) dist eps hnear h hh τ0 n m s.st.value [] N hhyp hN
    rw [← this]
    refine average_congr μ N _ _ fun w => ?_
    have h1 := rejectOn_worth g (V.toVars.sim w) roots hap L (fun s hs hl => hfol (V.toVars.sim w) s hs hl) n (simulators data w) dist distMax eps hmax h m s none distMax 0 hs hmax
    rw [hclock] at h1
    exact h1
  refine ⟨meanOver g μ V (acceptance μ data dist eps) L τ0, meanOver g μ V (fun τ => 1 - acceptance μ data dist eps τ) L τ0, failOver g μ V L τ0, ?_,
    fun hd => failOver_zero hd L τ0, fun N hN => ?_, fun h hh hok m n N hN => ?_⟩
  · have h1 := meanOver_linear hV _ (fun τ => 1 - acceptance μ data dist eps τ) hmacc (measurable_const.sub hmacc) 1 L τ0
    have h2 : (fun τ => acceptance μ data dist eps τ + (1 - acceptance μ data dist eps τ) * 1) = fun _ => 1 := by
      funext τ
      rw [mul_one]
      exact add_tsub_cancel_of_le prob_le_one
    rw [h2, mul_one] at h1
    rw [← h1]
    exact mean_add_fail hV L τ0
  · rw [main _ measurable_const 1 1 N (by omega)]
    simp
  · rw [main h hh m n N (le_trans (Nat.mul_le_mul_left m (by gcongr)) hN)]
    congr 2
    refine meanOver_prior hV roots hap hop hfeed hdisc s.st hs τ0 hconst chk L hnd hif hmem (fun τ => h ((order g roots).map τ) * acceptance μ data dist eps τ) (hh.mul hmacc)
      (fun v hk τ x => ?_) fun τ hne => hok τ fun h0 => hne (by simp only [h0, zero_mul])
    have e1 : (order g roots).map (Function.update τ v x) = (order g roots).map τ := by
      refine List.map_congr_left fun u hu => Function.update_of_ne ?_ _ _
      rintro rfl
      have := ((hord u).1 hu).1
      simp [hk, Kind.isFree] at this
    have e2 : data (Function.update τ v x) = data τ := hdata _ _ fun u _ hu => Function.update_of_ne (by rintro rfl; exact hu hk) _ _
    simp only [e1, acceptance, e2]

/-! ### A concrete graph -/

/-- The simulator of the example adds a random number to the second parameter. -/
def addition (τ : Nat → ℝ) (a : ℝ) : Option ℝ := some (τ 1 + a)

theorem addition_near : MeasurableSet {e : (Nat → ℝ) × ℝ | near (fun y => |y - 2|) (1 / 2) (addition e.1 e.2)} := by
  have : {e : (Nat → ℝ) × ℝ | near (fun y => |y - 2|) (1 / 2) (addition e.1 e.2)} = {e | |e.1 1 + e.2 - 2| ≤ 1 / 2} := by
    ext e
    simp [near, addition]
  rw [this]
  have h : Measurable fun e : (Nat → ℝ) × ℝ => e.1 1 + e.2 - 2 := (((measurable_pi_apply 1).comp measurable_fst).add measurable_snd).sub_const 2
  exact measurableSet_le (continuous_abs.measurable.comp h) measurable_const

/-- A uniform parameter, one that is uniform above it, and data that are uniform above that: the parameters that are accepted with data near 2. -/
example : ∃ a r : ℝ≥0∞, a + r = 1 ∧ ∀ m N, m * 3 ≤ N →
    average (volume.restrict (Set.Icc (0 : ℝ) 1)) N (returnedOn chainG shifts addition (fun y => |y - 2|) 10 (1 / 2) [2] ⟨St.blank, 0, []⟩ m 1 fun l => if 3 / 2 < l.headD 0 then 1 else 0) =
      (∫⋯∫⁻_(order chainG [2]).toFinset, (fun τ : Nat → ℝ => (if 3 / 2 < ((order chainG [2]).map τ).headD 0 then (1 : ℝ≥0∞) else 0) *
        acceptance (volume.restrict (Set.Icc (0 : ℝ) 1)) addition (fun y => |y - 2|) (1 / 2) τ *
        (pdfOfPrior chainG (fun _ _ _ => .accept) (reported shiftDensity) [2] ((order chainG [2]).map τ) St.blank).2.getD 0) ∂fun _ => volume) (fun _ => 0) *
      ((List.range m).map fun k => r ^ k).sum := by
  have : IsProbabilityMeasure (volume.restrict (Set.Icc (0 : ℝ) 1)) := ⟨by simp⟩
  obtain ⟨a, r, f, h1, h2, -, h3⟩ := C212_abc_density_partial shifts_densities [2] chainG_apart (fun _ _ _ _ => rfl) (fun v _ _ u _ => (chainG_kind u).1)
    (fun v hv => absurd hv (chainG_kind v).2) ⟨St.blank, 0, []⟩ blank_clean rfl (fun _ => 0) (fun v hv hk => by
      have := (mem_above chainG [2] v).2 hv
      rw [chainG_above] at this
      have h : v = 1 ∨ v = 0 := by simpa using this
      rcases h with e | e <;> subst e <;> simp [chainG, G.ofTable] at hk)
    (fun _ _ _ => .accept) addition (fun τ τ' e => by
      funext a
      have h1 : (∃ r ∈ [2], Anc chainG 1 r) := (mem_above chainG [2] 1).1 (by rw [chainG_above]; simp)
      rw [addition, addition, e 1 h1 (chainG_kind 1).1]) (fun y => |y - 2|) 10 (1 / 2) (by norm_num) addition_near
  have h0 := h2 fun _ _ _ => rfl
  refine ⟨a, r, by rw [← h1, h0, add_zero], fun m N hN => ?_⟩
  rw [h3 _ ?_ (fun τ _ => ?_) m 1 N (by rw [chainG_above]; simpa using hN)]
  · simp
  · rw [chainG_order]
    simp only [List.map_cons, List.headD_cons]
    exact Measurable.ite (measurableSet_lt measurable_const (measurable_pi_apply 1)) measurable_const measurable_const
  · rw [chainG_order]
    have key := setParameters_eq chainG (fun _ _ _ => .accept) [τ 1, τ 0] [2] chainG_apart (St.blank : St ℝ) blank_clean
    rw [chainG_order] at key
    simp [assignInOrder] at key
    exact key.1

/-! ### The exception -/

/-- A coin that shows true with probability 1/3. -/
noncomputable def unfair (b : Bool) : ℝ := if b then 1 / 3 else 2 / 3

open Classical in
/-- The probability that one trial on `sharedDiscG` returns the vector `ps`, for a simulator whose data are always near enough. -/
noncomputable def chanceShared (ps : List Bool) : ℝ :=
  Chance.prob [true, false] unfair 3 fun w => decide ((rejectOn sharedDiscG (copies.sim w) [3] 1 (fun _ c => (c, some ())) (fun _ => 0) 1 0 2 ⟨St.blank, 0, []⟩ none 1 0).map (·.1) = some (ps.map some))

omit [MeasurableSpace A] [MeasurableSpace X] [Inhabited X] in
theorem rejectOn_all (g : G) (sm : Sim X) (roots : List Nat) (n : Nat) (s : Smp X) :
    (rejectOn g sm roots n (fun _ c => (c, some ())) (fun _ => 0) 1 0 2 s none 1 0).map (·.1) = (sampleFromPrior g sm roots n s).map fun s' => (getParameters g roots s'.st).2 := by
  rw [rejectOn, if_pos one_pos]
  cases sampleFromPrior g sm roots n s with
  | none => rfl
  | some s' => simp [rejectOn]

theorem sharedDensity (b : Bool) :
    (pdfOfPrior sharedDiscG (fun _ _ _ => .accept) (copies.chance [true, false] unfair) [3] [b, b, b] St.blank).2 = some (unfair b ^ 2) := by
  have key := setParameters_eq sharedDiscG (fun _ _ _ => .accept) [b, b, b] [3] sharedDiscG_apart (St.blank : St Bool) blank_clean
  rw [sharedDiscG_order] at key
  simp [assignInOrder] at key
  rcases pdfOfPrior_eq sharedDiscG (fun _ _ _ => .accept) (copies.chance [true, false] unfair) [3] sharedDiscG_apart [b, b, b] St.blank blank_clean with ⟨p1, -⟩ | ⟨-, p2, -⟩
  · rw [key.1] at p1; simp at p1
  · rw [p2, key.2.1, sharedDiscG_above, sharedDiscG_order]
    cases b <;> simp [pdfVal, prodOver, fresh, Vars.chance, copies, sharedDiscG, G.ofTable, List.filter_cons, unfair] <;> norm_num

/-- C212 fails for a discrete parameter that feeds two others: for a simulator whose data are always near enough, the vectors (true, true, true) and (false, false, false) are returned with
probabilities 1/3 and 2/3, while their prior densities are 1/9 and 4/9. -/
theorem C212_shared_discrete_violated (b : Bool) :
    chanceShared [b, b, b] = unfair b ∧
    (pdfOfPrior sharedDiscG (fun _ _ _ => .accept) (copies.chance [true, false] unfair) [3] [b, b, b] St.blank).2 = some (unfair b ^ 2) := by
  refine ⟨?_, sharedDensity b⟩
  have h3 : sharedDiscG.parents 3 = [1, 2] := rfl
  have h2 : sharedDiscG.parents 2 = [0] := rfl
  have h1 : sharedDiscG.parents 1 = [0] := rfl
  have h0 : sharedDiscG.parents 0 = [] := rfl
  have k2 : sharedDiscG.kind 2 = .cont := rfl
  have k1 : sharedDiscG.kind 1 = .cont := rfl
  have k0 : sharedDiscG.kind 0 = .disc := rfl
  have hy : ∀ x y z, (sampleFromPrior sharedDiscG (copies.sim [x, y, z]) [3] 1 ⟨St.blank, 0, []⟩).map (fun s' => (getParameters sharedDiscG [3] s'.st).2) = some [some x, some x, some x] := by
    intro x y z
    cases hr : sampleFromPrior sharedDiscG (copies.sim [x, y, z]) [3] 1 ⟨St.blank, 0, []⟩ with
    | none =>
      simp [sampleFromPrior, sampleAttempt, forMemE, sampleRoot_unfold, sampleNode_unfold, sampleStep, loopE, drawNode, h0, h1, h2, h3, k0, k1, k2, mark, store,
        St.blank, Vars.sim, copies] at hr
    | some s' =>
      have hc := sampleFromPrior_clean sharedDiscG _ [3] sharedDiscG_apart 1 _ s' blank_clean hr
      rw [Option.map_some, (getParameters_eq sharedDiscG [3] s'.st hc).1, sharedDiscG_order]
      simp [sampleFromPrior, sampleAttempt, forMemE, sampleRoot_unfold, sampleNode_unfold, sampleStep, loopE, drawNode, h0, h1, h2, h3, k0, k1, k2, mark, store,
        St.blank, Vars.sim, copies] at hr
      subst hr
      simp [resetFlags_eq]
  unfold chanceShared
  simp only [rejectOn_all]
  cases b <;> simp [Chance.prob, Chance.sequences, hy, unfair, -Option.map_eq_some_iff] <;> norm_num

end Verif.Graph
