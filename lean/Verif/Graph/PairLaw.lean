import Verif.Graph.RejectLaw
/-
C215: pairs of parameters and simulations drawn with `DrawFromPrior.sample_par_sim_pairs` have the density of the prior times the law of the simulator, on the graph of models.
-/
namespace Verif.Graph

open MeasureTheory ENNReal

variable {A X Y : Type}

/-- `_sample_parameter_simulation` of DrawFromPrior on the graph of models, inferences.py 376-405. `simulate` is as in `rejectOn`. `again y` says that simulations are checked (`discard_too_large_values`)
and that `y` holds a number that is infinite in single precision (400); data that were not simulated (`None`) become NaN there and are returned. The loop runs at most `fuel` times and
`sample_from_prior` makes at most `tries` attempts, `none` if that is not enough. -/
def pairOn (g : G) (sm : Sim X) (roots : List Nat) (tries : Nat) (simulate : (Nat → Option X) → Nat → Nat × Option Y) (again : Option Y → Bool) : Nat → Smp X → Option (List (Option X) × Option Y)
  | 0, _ => none
  | fuel + 1, s =>
    match sampleFromPrior g sm roots tries s with
    | none => none
    | some s' =>
      let r := getParameters g roots s'.st
      let y := simulate r.1.value s'.clock
      if again y.2 then pairOn g sm roots tries simulate again fuel ⟨r.1, y.1, s'.log⟩ else some (r.2, y.2)

/-- A quantity `h` of the pair that a call with the given random numbers returns; `0` if it does not return within the bounds. -/
noncomputable def pairWorth [Inhabited X] (g : G) (V : MVars A X) (data : (Nat → X) → A → Option Y) (again : Option Y → Bool) (roots : List Nat) (s : Smp X) (trials tries : Nat)
    (h : List X → Option Y → ℝ≥0∞) (stream : List A) : ℝ≥0∞ :=
  (pairOn g (V.toVars.sim stream) roots tries (simulators data stream) again trials s).elim 0 fun r => (collect r.1).elim 0 fun θ => h θ r.2

/-- The loop in terms of the stored values. -/
noncomputable def pairsWorth (g : G) (sm : Sim X) (L ord : List Nat) (n : Nat) (simulate : (Nat → Option X) → Nat → Nat × Option Y) (again : Option Y → Bool) (h : List X → Option Y → ℝ≥0∞) :
    Nat → (Nat → Option X) → Nat → ℝ≥0∞
  | 0, _, _ => 0
  | m + 1, vals, clock => worth g sm L (fun vals' clock' => if again (simulate vals' clock').2 then pairsWorth g sm L ord n simulate again h m vals' (simulate vals' clock').1
      else (collect (ord.map vals')).elim 0 fun θ => h θ (simulate vals' clock').2) n vals clock

theorem pairOn_worth (g : G) (sm : Sim X) (roots : List Nat) (hap : RootsApart g roots) (L : List Nat)
    (hL : ∀ s : Smp X, Clean s.st → s.log = [] → ∃ vis, Follows g sm L vis s (sampleAttempt g sm roots s)) (n : Nat)
    (simulate : (Nat → Option X) → Nat → Nat × Option Y) (again : Option Y → Bool) (h : List X → Option Y → ℝ≥0∞) (m : Nat) : ∀ s : Smp X, Clean s.st →
      ((pairOn g sm roots n simulate again m s).elim 0 fun r => (collect r.1).elim 0 fun θ => h θ r.2) = pairsWorth g sm L (order g roots) n simulate again h m s.st.value s.clock := by
  induction m with
  | zero => intro s hs; rfl
  | succ m ih =>
    intro s hs
    rw [pairOn, pairsWorth, ← sampleFromPrior_worth g sm roots hap L hL _ n s hs]
    cases hr : sampleFromPrior g sm roots n s with
    | none => rfl
    | some s' =>
      have hcl := sampleFromPrior_clean g sm roots hap n s s' hs hr
      obtain ⟨e1, e2, e3⟩ := getParameters_eq g roots s'.st hcl
      simp only [Option.elim_some]
      rw [e3]
      by_cases hn : again (simulate s'.st.value s'.clock).2 = true
      · rw [if_pos hn, if_pos hn, ih _ e2, e3]
      · rw [if_neg hn, if_neg hn, Option.elim_some, e1]

variable [MeasurableSpace A] [MeasurableSpace X] [Inhabited X]
variable {g : G} {μ : Measure A} {V : MVars A X} {lam : Nat → Measure X} {p : (Nat → X) → Nat → X → ℝ≥0∞}

/-- Specification: the average of `h` over the data simulated at given values, where data that are discarded count `0`. -/
noncomputable def expected (μ : Measure A) (data : (Nat → X) → A → Option Y) (again : Option Y → Bool) (ord : List Nat) (h : List X → Option Y → ℝ≥0∞) (τ : Nat → X) : ℝ≥0∞ :=
  ∫⁻ a, (if again (data τ a) then 0 else h (ord.map τ) (data τ a)) ∂μ

/-- Specification: the probability that data simulated at given values are discarded. -/
noncomputable def discarded (μ : Measure A) (data : (Nat → X) → A → Option Y) (again : Option Y → Bool) (τ : Nat → X) : ℝ≥0∞ := μ {a | again (data τ a) = true}

omit [MeasurableSpace X] [Inhabited X] in
theorem meanOver_zero (l : List Nat) (τ : Nat → X) : meanOver g μ V (fun _ => 0) l τ = 0 := by
  induction l generalizing τ with
  | nil => rfl
  | cons v l ih => simp [meanOver, ih]

theorem average_pairs [IsProbabilityMeasure μ] (hV : V.Densities g μ lam p) (L ord : List Nat) (hL : Listed g L) (hLp : ∀ v ∈ L, ∀ u ∈ g.parents v, u ∈ L) (hord : ∀ v ∈ ord, v ∈ L)
    (data : (Nat → X) → A → Option Y) (hdata : ∀ τ τ', (∀ v ∈ L, τ v = τ' v) → data τ = data τ') (again : Option Y → Bool)
    (hagain : MeasurableSet {e : (Nat → X) × A | again (data e.1 e.2) = true}) (h : List X → Option Y → ℝ≥0∞)
    (hh : Measurable fun e : (Nat → X) × A => h (ord.map e.1) (data e.1 e.2)) (τ0 : Nat → X) (n m : Nat) :
    ∀ (vals : Nat → Option X) (pre : List A) (N : Nat), (∀ x ∈ L, g.kind x = .hyper → vals x = some (τ0 x)) → m * (n * L.length + 1) ≤ N →
      average μ N (fun w => pairsWorth g (V.toVars.sim (pre ++ w)) L ord n (simulators data (pre ++ w)) again h m vals pre.length) =
        meanOver g μ V (expected μ data again ord h) L τ0 * ((List.range n).map fun j => failOver g μ V L τ0 ^ j).sum *
          ((List.range m).map fun k => (((List.range n).map fun j => failOver g μ V L τ0 ^ j).sum * meanOver g μ V (discarded μ data again) L τ0) ^ k).sum := by
  have hmd : Measurable (discarded μ data again) := measurable_measure_prodMk_left hagain
  have hme : Measurable (expected μ data again ord h) := by
    have : Measurable fun e : (Nat → X) × A => if again (data e.1 e.2) = true then 0 else h (ord.map e.1) (data e.1 e.2) := Measurable.ite hagain measurable_const hh
    exact this.lintegral_prod_right'
  induction m with
  | zero =>
    intro vals pre N _ _
    simp only [pairsWorth, average_const]
    simp
  | succ m ih =>
    intro vals pre N hv hN
    simp only [pairsWorth]
    generalize hC : (meanOver g μ V (expected μ data again ord h) L τ0 * ((List.range n).map fun j => failOver g μ V L τ0 ^ j).sum *
          ((List.range m).map fun k => (((List.range n).map fun j => failOver g μ V L τ0 ^ j).sum * meanOver g μ V (discarded μ data again) L τ0) ^ k).sum) = C at ih
    have key := average_tries hV L hL hLp (fun τ => expected μ data again ord h τ + discarded μ data again τ * C) (hme.add (hmd.mul_const C))
      (fun stream vals' clock' => if again (simulators data stream vals' clock').2 then
          pairsWorth g (V.toVars.sim stream) L ord n (simulators data stream) again h m vals' (simulators data stream vals' clock').1
        else (collect (ord.map vals')).elim 0 fun θ => h θ (simulators data stream vals' clock').2)
      (m * (n * L.length + 1) + 1) τ0 ?_ n vals pre N hv (by rw [Nat.succ_mul] at hN; omega)
    · rw [key, meanOver_linear hV (expected μ data again ord h) (discarded μ data again) hme hmd, ← hC]
      generalize ((List.range n).map fun j => failOver g μ V L τ0 ^ j).sum = G
      generalize meanOver g μ V (expected μ data again ord h) L τ0 = I
      generalize meanOver g μ V (discarded μ data again) L τ0 = R
      rw [List.range_succ_eq_map, List.map_cons, List.sum_cons, pow_zero, List.map_map]
      have : (List.map ((fun k => (G * R) ^ k) ∘ Nat.succ) (List.range m)).sum = G * R * ((List.range m).map fun k => (G * R) ^ k).sum := by
        rw [← List.sum_map_mul_left]
        congr 1
        apply List.map_congr_left
        intro j _
        simp [pow_succ, mul_comm]
      rw [this]
      ring
    · intro vals τ pre N e1 e2 hK
      obtain ⟨N, rfl⟩ : ∃ N', N = N' + 1 := ⟨N - 1, by omega⟩
      rw [average]
      have hdat : ∀ a (w : List A), (simulators data (pre ++ a :: w) vals pre.length).2 = data τ a := by
        intro a w
        have := hdata (filled vals) τ fun v hv => by rw [filled, e1 v hv]; rfl
        simp [simulators, this]
      have hcol : collect (ord.map vals) = some (ord.map τ) := by
        rw [List.map_congr_left fun v hv => e1 v (hord v hv), show ord.map (fun v => some (τ v)) = (ord.map τ).map some by simp, collect_map_some]
      have hcase : ∀ a, average μ N (fun w => if again (simulators data (pre ++ a :: w) vals pre.length).2 then
            pairsWorth g (V.toVars.sim (pre ++ a :: w)) L ord n (simulators data (pre ++ a :: w)) again h m vals (simulators data (pre ++ a :: w) vals pre.length).1
          else (collect (ord.map vals)).elim 0 fun θ => h θ (simulators data (pre ++ a :: w) vals pre.length).2) =
          (if again (data τ a) then 0 else h (ord.map τ) (data τ a)) + {a | again (data τ a) = true}.indicator (fun _ => C) a := by
        intro a
        simp only [hdat, hcol, Option.elim_some]
        by_cases hn : again (data τ a) = true
        · simp only [hn, if_true]
          rw [Set.indicator_of_mem (show a ∈ {a | again (data τ a) = true} from hn), zero_add]
          refine Eq.trans (average_congr μ N _ (fun w => pairsWorth g (V.toVars.sim ((pre ++ [a]) ++ w)) L ord n (simulators data ((pre ++ [a]) ++ w)) again h m vals (pre ++ [a]).length)
            fun w => ?_) (ih vals (pre ++ [a]) N (fun x hx hk => by rw [e1 x hx, e2 x hx hk]) (by omega))
          rw [show pre ++ a :: w = (pre ++ [a]) ++ w by simp]
          simp [simulators]
        · rw [Set.indicator_of_notMem (show a ∉ {a | again (data τ a) = true} from hn), add_zero]
          simp only [if_neg hn, average_const]
      have hset : MeasurableSet {a | again (data τ a) = true} := measurable_prodMk_left hagain
      rw [lintegral_congr hcase, lintegral_add_right _ (measurable_const.indicator hset), lintegral_indicator_const hset]
      simp only [expected, discarded]
      ring

/-- C215, for graphs in which no discrete parameter is reached along two paths and no arithmetic node feeds a parameter or the simulators. One attempt to sample from the prior and to
simulate is kept with probability `a`, discarded because of its data with probability `r`, and refused with probability `f`. The average of a quantity `h` of the pair that is returned,
over calls with at most `m` rounds and `n` attempts to sample in each, is a factor that does not depend on `h` times the integral of `h` over the data that are kept and against the prior
density. The prior density is the value that `pdf_of_prior` returns; `h` vanishes at vectors that `set_parameters` refuses. -/
theorem C215_pairs_partial [IsProbabilityMeasure μ] [∀ v, SigmaFinite (lam v)] (hV : V.Densities g μ lam p) (roots : List Nat) (hap : RootsApart g roots)
    (hop : ∀ v, g.kind v = .op → ∀ τ a, V.ok v τ a = true)
    (hfeed : ∀ v, (g.kind v).isFree = true → (∃ r ∈ roots, Anc g v r) → ∀ u ∈ g.parents v, g.kind u ≠ .op)
    (hdisc : ∀ v, g.kind v = .disc → (above g roots).count v ≤ 1) (s : Smp X) (hs : Clean s.st) (hclock : s.clock = 0) (τ0 : Nat → X)
    (hconst : ∀ v, (∃ r ∈ roots, Anc g v r) → g.kind v = .hyper → s.st.value v = some (τ0 v))
    (chk : (Nat → Option X) → Nat → X → Verdict)
    (data : (Nat → X) → A → Option Y) (hdata : ∀ τ τ', (∀ v, (∃ r ∈ roots, Anc g v r) → g.kind v ≠ .op → τ v = τ' v) → data τ = data τ')
    (again : Option Y → Bool) (hagain : MeasurableSet {e : (Nat → X) × A | again (data e.1 e.2) = true}) :
    ∃ a r f : ℝ≥0∞, a + r + f = 1 ∧ ((∀ v τ b, V.ok v τ b = true) → f = 0) ∧ ((∀ y, again y = false) → r = 0) ∧
      (∀ N, (above g roots).length + 1 ≤ N → average μ N (pairWorth g V data again roots s 1 1 fun _ _ => 1) = a) ∧
      ∀ (h : List X → Option Y → ℝ≥0∞), Measurable (fun e : (Nat → X) × A => h ((order g roots).map e.1) (data e.1 e.2)) →
        (∀ (τ : Nat → X) (y : Option Y), h ((order g roots).map τ) y ≠ 0 → (setParameters g chk roots ((order g roots).map τ) s.st).2 = .ok (order g roots).length) →
        ∀ m n N, m * (n * (above g roots).length + 1) ≤ N → average μ N (pairWorth g V data again roots s m n h) =
          (∫⋯∫⁻_(order g roots).toFinset, (fun τ => (∫⁻ a, (if again (data τ a) then 0 else h ((order g roots).map τ) (data τ a)) ∂μ) *
            (pdfOfPrior g chk (reported p) roots ((order g roots).map τ) s.st).2.getD 0) ∂lam) τ0 *
          ((List.range n).map fun j => f ^ j).sum * ((List.range m).map fun k => (((List.range n).map fun j => f ^ j).sum * r) ^ k).sum := by
  obtain ⟨L, hnd, hif, hmem, hfol⟩ := attempt_list (α := X) g roots hap
  have hlisted := listed_of g L [] L rfl hnd hif
  have hLlen : L.length ≤ (above g roots).length := (hnd.subperm fun v hv => (hmem v).1 hv).length_le
  have hord : ∀ v, v ∈ order g roots ↔ (g.kind v).isFree = true ∧ v ∈ L := fun v => by rw [mem_order, hmem, mem_above]
  have hanc : ∀ v ∈ L, ∃ r ∈ roots, Anc g v r := fun v hv => (mem_above g roots v).1 ((hmem v).1 hv)
  have hLp : ∀ v ∈ L, ∀ u ∈ g.parents v, u ∈ L := by
    intro v hv u hu
    rw [hmem, mem_above]
    obtain ⟨r, hr, ha⟩ := hanc v hv
    exact ⟨r, hr, (Anc.input hu).trans ha⟩
  have hhyp : ∀ x ∈ L, g.kind x = .hyper → s.st.value x = some (τ0 x) := fun x hx hk => hconst x (hanc x hx) hk
  have hmd : Measurable (discarded μ data again) := measurable_measure_prodMk_left hagain
  have hme : ∀ h : List X → Option Y → ℝ≥0∞, Measurable (fun e : (Nat → X) × A => h ((order g roots).map e.1) (data e.1 e.2)) → Measurable (expected μ data again (order g roots) h) :=
    fun h hh => (Measurable.ite hagain measurable_const hh).lintegral_prod_right'
  have main : ∀ (h : List X → Option Y → ℝ≥0∞), Measurable (fun e : (Nat → X) × A => h ((order g roots).map e.1) (data e.1 e.2)) → ∀ m n N, m * (n * L.length + 1) ≤ N →
      average μ N (pairWorth g V data again roots s m n h) =
        meanOver g μ V (expected μ data again (order g roots) h) L τ0 * ((List.range n).map fun j => failOver g μ V L τ0 ^ j).sum *
          ((List.range m).map fun k => (((List.range n).map fun j => failOver g μ V L τ0 ^ j).sum * meanOver g μ V (discarded μ data again) L τ0) ^ k).sum := by
    intro h hh m n N hN
    have := average_pairs hV L (order g roots) hlisted hLp (fun v hv => ((hord v).1 hv).2) data
      (fun τ τ' e => hdata τ τ' fun v hv _ => e v ((hmem v).2 ((mem_above g roots v).2 hv))) again hagain h hh τ0 n m s.st.value [] N hhyp hN
    rw [← this]
    refine average_congr μ N _ _ fun w => ?_
    have h1 := pairOn_worth g (V.toVars.sim w) roots hap L (fun s hs hl => hfol (V.toVars.sim w) s hs hl) n (simulators data w) again h m s hs
    rw [hclock] at h1
    exact h1
  refine ⟨meanOver g μ V (expected μ data again (order g roots) fun _ _ => 1) L τ0, meanOver g μ V (discarded μ data again) L τ0, failOver g μ V L τ0, ?_,
    fun hd => failOver_zero hd L τ0, fun h0 => ?_, fun N hN => ?_, fun h hh hok m n N hN => ?_⟩
  · have h1 := meanOver_linear hV _ (discarded μ data again) (hme (fun _ _ => 1) measurable_const) hmd 1 L τ0
    have h2 : (fun τ => expected μ data again (order g roots) (fun _ _ => 1) τ + discarded μ data again τ * 1) = fun _ => 1 := by
      funext τ
      have hset : MeasurableSet {a | again (data τ a) = true} := measurable_prodMk_left hagain
      have h3 : expected μ data again (order g roots) (fun _ _ => 1) τ = μ {a | again (data τ a) = true}ᶜ := by
        rw [expected, ← lintegral_indicator_one hset.compl]
        refine lintegral_congr fun a => ?_
        by_cases hn : again (data τ a) = true
        · rw [if_pos hn, Set.indicator_of_notMem (by simpa using hn)]
        · rw [if_neg hn, Set.indicator_of_mem (by simpa using hn)]; rfl
      rw [h3, mul_one, discarded, add_comm]
      exact prob_add_prob_compl hset
    rw [h2, mul_one] at h1
    rw [← h1]
    exact mean_add_fail hV L τ0
  · have h1 : discarded μ data again = fun _ => 0 := by
      funext τ
      simp [discarded, h0]
    rw [h1]
    exact meanOver_zero L τ0
  · rw [main _ measurable_const 1 1 N (by omega)]
    simp
  · rw [main h hh m n N (le_trans (Nat.mul_le_mul_left m (by gcongr)) hN)]
    congr 2
    refine meanOver_prior hV roots hap hop hfeed hdisc s.st hs τ0 hconst chk L hnd hif hmem (expected μ data again (order g roots) h) (hme h hh)
      (fun v hk τ x => ?_) fun τ hne => ?_
    · have e1 : (order g roots).map (Function.update τ v x) = (order g roots).map τ := by
        refine List.map_congr_left fun u hu => Function.update_of_ne ?_ _ _
        rintro rfl
        have := ((hord u).1 hu).1
        simp [hk, Kind.isFree] at this
      have e2 : data (Function.update τ v x) = data τ := hdata _ _ fun u _ hu => Function.update_of_ne (by rintro rfl; exact hu hk) _ _
      simp only [expected, e1, e2]
    · by_contra hno
      refine hne ?_
      have : ∀ y, h ((order g roots).map τ) y = 0 := fun y => by
        by_contra hy
        exact hno (hok τ y hy)
      simp [expected, this]

/-- C215 without discarding and refusals: the pairs have the density of the prior times the law of the simulator. -/
theorem C215_all_pairs_partial [IsProbabilityMeasure μ] [∀ v, SigmaFinite (lam v)] (hV : V.Densities g μ lam p) (roots : List Nat) (hap : RootsApart g roots)
    (hdraw : ∀ v τ a, V.ok v τ a = true)
    (hfeed : ∀ v, (g.kind v).isFree = true → (∃ r ∈ roots, Anc g v r) → ∀ u ∈ g.parents v, g.kind u ≠ .op)
    (hdisc : ∀ v, g.kind v = .disc → (above g roots).count v ≤ 1) (s : Smp X) (hs : Clean s.st) (hclock : s.clock = 0) (τ0 : Nat → X)
    (hconst : ∀ v, (∃ r ∈ roots, Anc g v r) → g.kind v = .hyper → s.st.value v = some (τ0 v))
    (chk : (Nat → Option X) → Nat → X → Verdict)
    (data : (Nat → X) → A → Option Y) (hdata : ∀ τ τ', (∀ v, (∃ r ∈ roots, Anc g v r) → g.kind v ≠ .op → τ v = τ' v) → data τ = data τ')
    (h : List X → Option Y → ℝ≥0∞) (hh : Measurable (fun e : (Nat → X) × A => h ((order g roots).map e.1) (data e.1 e.2)))
    (hok : ∀ (τ : Nat → X) (y : Option Y), h ((order g roots).map τ) y ≠ 0 → (setParameters g chk roots ((order g roots).map τ) s.st).2 = .ok (order g roots).length)
    (m n N : Nat) (hm : 0 < m) (hn : 0 < n) (hN : m * (n * (above g roots).length + 1) ≤ N) :
    average μ N (pairWorth g V data (fun _ => false) roots s m n h) =
      (∫⋯∫⁻_(order g roots).toFinset, (fun τ => (∫⁻ a, h ((order g roots).map τ) (data τ a) ∂μ) *
        (pdfOfPrior g chk (reported p) roots ((order g roots).map τ) s.st).2.getD 0) ∂lam) τ0 := by
  obtain ⟨a, r, f, -, hf, hr, -, h3⟩ := C215_pairs_partial hV roots hap (fun v _ => hdraw v) hfeed hdisc s hs hclock τ0 hconst chk data hdata (fun _ => false) (by simp)
  obtain ⟨m, rfl⟩ := Nat.exists_eq_succ_of_ne_zero hm.ne'
  obtain ⟨n, rfl⟩ := Nat.exists_eq_succ_of_ne_zero hn.ne'
  rw [h3 h hh hok _ _ N hN, hf hdraw, hr fun _ => rfl, List.range_succ_eq_map, List.range_succ_eq_map]
  simp [Function.comp_def]

/-! ### A concrete graph -/

theorem addition_measurable : Measurable fun e : (Nat → ℝ) × ℝ => e.1 1 + e.2 := ((measurable_pi_apply 1).comp measurable_fst).add measurable_snd

/-- A uniform parameter, one that is uniform above it, and data that are uniform above that: the probability that the data exceed 2. Parameters and data are drawn again if the data
exceed 5 / 2. -/
example : ∃ a r : ℝ≥0∞, a + r = 1 ∧ ∀ m N, m * 3 ≤ N →
    average (volume.restrict (Set.Icc (0 : ℝ) 1)) N (pairWorth chainG shifts addition (fun y => y.any fun z => decide (5 / 2 < z)) [2] ⟨St.blank, 0, []⟩ m 1 fun _ y => if 2 < y.getD 0 then 1 else 0) =
      (∫⋯∫⁻_(order chainG [2]).toFinset, (fun τ : Nat → ℝ => (∫⁻ a, (if (addition τ a).any (fun z => decide (5 / 2 < z)) then 0 else if 2 < (addition τ a).getD 0 then 1 else 0)
          ∂volume.restrict (Set.Icc (0 : ℝ) 1)) *
        (pdfOfPrior chainG (fun _ _ _ => .accept) (reported shiftDensity) [2] ((order chainG [2]).map τ) St.blank).2.getD 0) ∂fun _ => volume) (fun _ => 0) *
      ((List.range m).map fun k => r ^ k).sum := by
  have : IsProbabilityMeasure (volume.restrict (Set.Icc (0 : ℝ) 1)) := ⟨by simp⟩
  have hag : MeasurableSet {e : (Nat → ℝ) × ℝ | (addition e.1 e.2).any (fun z => decide (5 / 2 < z)) = true} := by
    have : {e : (Nat → ℝ) × ℝ | (addition e.1 e.2).any (fun z => decide (5 / 2 < z)) = true} = {e | 5 / 2 < e.1 1 + e.2} := by
      ext e
      simp [addition]
    rw [this]
    exact measurableSet_lt measurable_const addition_measurable
  obtain ⟨a, r, f, h1, h2, -, -, h3⟩ := C215_pairs_partial shifts_densities [2] chainG_apart (fun _ _ _ _ => rfl) (fun v _ _ u _ => (chainG_kind u).1)
    (fun v hv => absurd hv (chainG_kind v).2) ⟨St.blank, 0, []⟩ blank_clean rfl (fun _ => 0) (fun v hv hk => by
      have := (mem_above chainG [2] v).2 hv
      rw [chainG_above] at this
      have h : v = 1 ∨ v = 0 := by simpa using this
      rcases h with e | e <;> subst e <;> simp [chainG, G.ofTable] at hk)
    (fun _ _ _ => .accept) addition (fun τ τ' e => by
      funext a
      have h1 : (∃ r ∈ [2], Anc chainG 1 r) := (mem_above chainG [2] 1).1 (by rw [chainG_above]; simp)
      rw [addition, addition, e 1 h1 (chainG_kind 1).1]) (fun y => y.any fun z => decide (5 / 2 < z)) hag
  have h0 := h2 fun _ _ _ => rfl
  refine ⟨a, r, by rw [← h1, h0, add_zero], fun m N hN => ?_⟩
  rw [h3 _ ?_ (fun τ _ _ => ?_) m 1 N (by rw [chainG_above]; simpa using hN)]
  · simp
  · simp only [addition, Option.getD_some]
    exact Measurable.ite (measurableSet_lt measurable_const addition_measurable) measurable_const measurable_const
  · rw [chainG_order]
    have key := setParameters_eq chainG (fun _ _ _ => .accept) [τ 1, τ 0] [2] chainG_apart (St.blank : St ℝ) blank_clean
    rw [chainG_order] at key
    simp [assignInOrder] at key
    exact key.1

/-! ### The exception -/

open Classical in
/-- C215 fails for a discrete parameter that is reached along two paths: the probability that a pair has the parameters `[b, b, b]`, and the prior density there. -/
theorem C215_shared_discrete_violated (b : Bool) :
    Chance.prob [true, false] unfair 3 (fun w => decide ((pairOn sharedDiscG (copies.sim w) [3] 1 (fun _ c => (c, some ())) (fun _ => false) 1 ⟨St.blank, 0, []⟩).map (·.1) = some ([b, b, b].map some))) =
      unfair b ∧
    (pdfOfPrior sharedDiscG (fun _ _ _ => .accept) (copies.chance [true, false] unfair) [3] [b, b, b] St.blank).2 = some (unfair b ^ 2) := by
  refine ⟨?_, sharedDensity b⟩
  rw [← (C212_shared_discrete_violated b).1, chanceShared]
  congr 1
  funext w
  rw [rejectOn_all]
  have : (pairOn sharedDiscG (copies.sim w) [3] 1 (fun _ c => (c, some ())) (fun _ => false) 1 ⟨St.blank, 0, []⟩).map (·.1) =
      (sampleFromPrior sharedDiscG (copies.sim w) [3] 1 ⟨St.blank, 0, []⟩).map fun s' => (getParameters sharedDiscG [3] s'.st).2 := by
    rw [pairOn]
    cases sampleFromPrior sharedDiscG (copies.sim w) [3] 1 ⟨St.blank, 0, []⟩ <;> rfl
  rw [this]

end Verif.Graph
