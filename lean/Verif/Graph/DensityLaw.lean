import Verif.Graph.Densities
import Verif.Graph.LawProps
import Verif.Collect
import Mathlib.MeasureTheory.Measure.Lebesgue.Basic
/-
C211 for random variables with densities: averages over the parameters that `sample_from_prior` stores are integrals against the density that `pdf_of_prior` computes.
-/
namespace Verif.Graph

open MeasureTheory ENNReal

variable {A X : Type} [MeasurableSpace A] [MeasurableSpace X] [Inhabited X]

/-- Attempts on a list of nodes, at most `m`: the quantity `H` of the values that are stored in the end and the position in the stream, `0` without a success. -/
noncomputable def worth (g : G) (sm : Sim X) (L : List Nat) (H : (Nat → Option X) → Nat → ℝ≥0∞) : Nat → (Nat → Option X) → Nat → ℝ≥0∞
  | 0, _, _ => 0
  | m + 1, vals, clock =>
    if (drawUntil g sm L vals clock).1 then H (drawUntil g sm L vals clock).2.1 (drawUntil g sm L vals clock).2.2
    else worth g sm L H m (drawUntil g sm L vals clock).2.1 (drawUntil g sm L vals clock).2.2

omit [MeasurableSpace X] [Inhabited X] in
theorem sampleFromPrior_worth (g : G) (sm : Sim X) (roots : List Nat) (hap : RootsApart g roots) (L : List Nat)
    (hL : ∀ s : Smp X, Clean s.st → s.log = [] → ∃ vis, Follows g sm L vis s (sampleAttempt g sm roots s)) (H : (Nat → Option X) → Nat → ℝ≥0∞) (n : Nat) (s : Smp X)
    (hs : Clean s.st) : ((sampleFromPrior g sm roots n s).elim 0 fun s' => H s'.st.value s'.clock) = worth g sm L H n s.st.value s.clock := by
  induction n generalizing s with
  | zero => rfl
  | succ n ih =>
    obtain ⟨vis, h1, h2⟩ := hL { s with log := [] } hs rfl
    have hcl := sampleAttempt_spec g sm roots hap { s with log := [] } hs rfl
    simp only [sampleFromPrior, worth]
    cases hb : (drawUntil g sm L s.st.value s.clock).1 with
    | true =>
      obtain ⟨s', e, e1, e2⟩ := h1 hb
      rw [e]
      simp only [Option.elim_some, if_true, resetFlags_eq]
      rw [e1, e2.1]
    | false =>
      obtain ⟨s', e, e1, e2⟩ := h2 hb
      rw [e] at hcl ⊢
      simp only [Bool.false_eq_true, if_false]
      rw [ih { s' with st := resetFlags g roots s'.st } hcl.2.2]
      simp only [resetFlags_eq, e1, e2]

variable {g : G} {μ : Measure A} {V : MVars A X} {lam : Nat → Measure X} {p : (Nat → X) → Nat → X → ℝ≥0∞}

/-- The attempts from the draws of the nodes `l` on, when the attempts after them are worth `F` on average. -/
theorem average_from [IsProbabilityMeasure μ] (hV : V.Densities g μ lam p) (L : List Nat) (hLp : ∀ v ∈ L, ∀ u ∈ g.parents v, u ∈ L)
    (h : (Nat → X) → ℝ≥0∞) (hh : Measurable h) (H : List A → (Nat → Option X) → Nat → ℝ≥0∞) (m K : Nat) (τ0 : Nat → X) (F : ℝ≥0∞)
    (hH : ∀ vals τ (pre : List A) (N : Nat), (∀ v ∈ L, vals v = some (τ v)) → (∀ v ∈ L, g.kind v = .hyper → τ v = τ0 v) → K ≤ N →
      average μ N (fun w => H (pre ++ w) vals pre.length) = h τ)
    (hF : ∀ (vals : Nat → Option X) (pre : List A) (N : Nat), (∀ x ∈ L, g.kind x = .hyper → vals x = some (τ0 x)) → K ≤ N →
      average μ N (fun w => worth g (V.toVars.sim (pre ++ w)) L (H (pre ++ w)) m vals pre.length) = F)
    (l : List Nat) (hl : Listed g l) (hsub : ∀ v ∈ l, v ∈ L) (vals : Nat → Option X) (τ : Nat → X) (hτ : ∀ x ∈ L, g.kind x = .hyper → τ x = τ0 x)
    (hv : ∀ x ∈ L, x ∉ l ∨ g.kind x = .hyper → vals x = some (τ x)) (pre : List A) (N : Nat) (hN : l.length + K ≤ N) :
    average μ N (fun w => if (drawUntil g (V.toVars.sim (pre ++ w)) l vals pre.length).1 then H (pre ++ w) (drawUntil g (V.toVars.sim (pre ++ w)) l vals pre.length).2.1 (drawUntil g (V.toVars.sim (pre ++ w)) l vals pre.length).2.2
      else worth g (V.toVars.sim (pre ++ w)) L (H (pre ++ w)) m (drawUntil g (V.toVars.sim (pre ++ w)) l vals pre.length).2.1 (drawUntil g (V.toVars.sim (pre ++ w)) l vals pre.length).2.2)
    = meanOver g μ V h l τ + failOver g μ V l τ * F := by
  induction l generalizing vals τ pre N with
  | nil =>
    simp only [drawUntil, if_true, meanOver, failOver, zero_mul, add_zero]
    exact hH vals τ pre N (fun v hvL => hv v hvL (.inl (by simp))) hτ (by simpa using hN)
  | cons v l ih =>
    simp only [meanOver, failOver]
    by_cases hk : g.kind v = .hyper
    · simp only [drawUntil, hk, if_true]
      refine ih hl.2.2 (fun u hu => hsub u (by simp [hu])) vals τ hτ (fun x hx hx' => hv x hx ?_) pre N (by simp at hN; omega)
      by_cases hxv : x = v
      · exact .inr (hxv ▸ hk)
      · rcases hx' with h | h
        · exact .inl (by simp [hxv, h])
        · exact .inr h
    · simp only [hk, if_false]
      obtain ⟨N, rfl⟩ : ∃ N', N = N' + 1 := ⟨N - 1, by simp at hN; omega⟩
      have hN' : l.length + K ≤ N := by simp at hN; omega
      have hpar : ∀ u ∈ g.parents v, filled vals u = τ u := by
        intro u hu
        rw [filled, hv u (hLp v (hsub v (by simp)) u hu) (.inl (hl.1 u hu))]
        rfl
      have hstep : ∀ a w, (V.toVars.sim (pre ++ a :: w)).sim vals v pre.length = if V.ok v τ a then some (V.val v τ a) else none := by
        intro a w
        obtain ⟨e1, e2⟩ := hV.inputs v (filled vals) τ hpar a
        simp [Vars.sim, MVars.toVars, e1, e2]
      have hpre : ∀ a (w : List A), pre ++ a :: w = (pre ++ [a]) ++ w := by simp
      have hlen : ∀ a : A, pre.length + 1 = (pre ++ [a]).length := by simp
      have hhyp : ∀ x ∈ L, g.kind x = .hyper → vals x = some (τ0 x) := fun x hx hkx => by rw [hv x hx (.inr hkx), hτ x hx hkx]
      rw [average]
      have hcase : ∀ a, average μ N (fun w => if (drawUntil g (V.toVars.sim (pre ++ a :: w)) (v :: l) vals pre.length).1 then
            H (pre ++ a :: w) (drawUntil g (V.toVars.sim (pre ++ a :: w)) (v :: l) vals pre.length).2.1 (drawUntil g (V.toVars.sim (pre ++ a :: w)) (v :: l) vals pre.length).2.2
          else worth g (V.toVars.sim (pre ++ a :: w)) L (H (pre ++ a :: w)) m (drawUntil g (V.toVars.sim (pre ++ a :: w)) (v :: l) vals pre.length).2.1
            (drawUntil g (V.toVars.sim (pre ++ a :: w)) (v :: l) vals pre.length).2.2)
          = (if V.ok v τ a then meanOver g μ V h l (Function.update τ v (V.val v τ a)) else 0) +
            (if V.ok v τ a then failOver g μ V l (Function.update τ v (V.val v τ a)) else 1) * F := by
        intro a
        cases ho : V.ok v τ a with
        | false =>
          simp only [drawUntil, hk, if_false, hstep, ho, Bool.false_eq_true, zero_add, one_mul]
          rw [average_congr μ N _ (fun w => worth g (V.toVars.sim ((pre ++ [a]) ++ w)) L (H ((pre ++ [a]) ++ w)) m vals (pre ++ [a]).length) fun w => by rw [hpre a w, hlen a]]
          exact hF vals (pre ++ [a]) N hhyp (by omega)
        | true =>
          have hok' : ∀ w, (V.toVars.sim (pre ++ a :: w)).okOut vals v (V.val v τ a) = true := by
            intro w
            obtain ⟨e1, e2⟩ := hV.inputs v (filled vals) τ hpar a
            have := hV.support vals v a (by rw [e1, ho])
            rwa [e2] at this
          simp only [drawUntil, hk, if_false, hstep, ho, hok', if_true]
          refine Eq.trans (average_congr μ N _ (fun w => if (drawUntil g (V.toVars.sim ((pre ++ [a]) ++ w)) l (Function.update vals v (some (V.val v τ a))) (pre ++ [a]).length).1 then
              H ((pre ++ [a]) ++ w) (drawUntil g (V.toVars.sim ((pre ++ [a]) ++ w)) l (Function.update vals v (some (V.val v τ a))) (pre ++ [a]).length).2.1 (drawUntil g (V.toVars.sim ((pre ++ [a]) ++ w)) l (Function.update vals v (some (V.val v τ a))) (pre ++ [a]).length).2.2
            else worth g (V.toVars.sim ((pre ++ [a]) ++ w)) L (H ((pre ++ [a]) ++ w)) m (drawUntil g (V.toVars.sim ((pre ++ [a]) ++ w)) l (Function.update vals v (some (V.val v τ a))) (pre ++ [a]).length).2.1
              (drawUntil g (V.toVars.sim ((pre ++ [a]) ++ w)) l (Function.update vals v (some (V.val v τ a))) (pre ++ [a]).length).2.2) fun w => by rw [hpre a w, hlen a]) ?_
          refine ih hl.2.2 (fun u hu => hsub u (by simp [hu])) _ (Function.update τ v (V.val v τ a)) (fun x hx hkx => ?_) (fun x hx hx' => ?_) (pre ++ [a]) N hN'
          · rw [Function.update_of_ne (by rintro rfl; exact hk hkx)]
            exact hτ x hx hkx
          · by_cases hxv : x = v
            · subst hxv; simp
            · rw [Function.update_of_ne hxv, Function.update_of_ne hxv]
              refine hv x hx ?_
              rcases hx' with h | h
              · exact .inl (by simp [hxv, h])
              · exact .inr h
      rw [lintegral_congr hcase]
      have hmeas1 : Measurable fun a => if V.ok v τ a then meanOver g μ V h l (Function.update τ v (V.val v τ a)) else 0 :=
        Measurable.ite (((hV.meas_ok v).comp measurable_prodMk_left) (measurableSet_singleton true))
          ((measurable_meanOver hV h hh l).comp ((measurable_move V v (hV.meas_val v)).comp measurable_prodMk_left)) measurable_const
      have hmeas2 : Measurable fun a => if V.ok v τ a then failOver g μ V l (Function.update τ v (V.val v τ a)) else 1 :=
        Measurable.ite (((hV.meas_ok v).comp measurable_prodMk_left) (measurableSet_singleton true))
          ((measurable_failOver hV l).comp ((measurable_move V v (hV.meas_val v)).comp measurable_prodMk_left)) measurable_const
      rw [lintegral_add_left hmeas1, lintegral_mul_const _ hmeas2]

/-- The average over at most `m` attempts. -/
theorem average_tries [IsProbabilityMeasure μ] (hV : V.Densities g μ lam p) (L : List Nat) (hL : Listed g L) (hLp : ∀ v ∈ L, ∀ u ∈ g.parents v, u ∈ L)
    (h : (Nat → X) → ℝ≥0∞) (hh : Measurable h) (H : List A → (Nat → Option X) → Nat → ℝ≥0∞) (K : Nat) (τ0 : Nat → X)
    (hH : ∀ vals τ (pre : List A) (N : Nat), (∀ v ∈ L, vals v = some (τ v)) → (∀ v ∈ L, g.kind v = .hyper → τ v = τ0 v) → K ≤ N →
      average μ N (fun w => H (pre ++ w) vals pre.length) = h τ) (m : Nat) :
    ∀ (vals : Nat → Option X) (pre : List A) (N : Nat), (∀ x ∈ L, g.kind x = .hyper → vals x = some (τ0 x)) → m * L.length + K ≤ N →
      average μ N (fun w => worth g (V.toVars.sim (pre ++ w)) L (H (pre ++ w)) m vals pre.length) =
        meanOver g μ V h L τ0 * ((List.range m).map fun j => failOver g μ V L τ0 ^ j).sum := by
  induction m with
  | zero =>
    intro vals pre N _ _
    simp only [worth, average_const]
    simp
  | succ m ih =>
    intro vals pre N hv hN
    simp only [worth]
    rw [average_from hV L hLp h hh H m (m * L.length + K) τ0 _ (fun vals τ pre N h1 h2 h3 => hH vals τ pre N h1 h2 (by omega)) ih L hL (fun _ h => h) vals τ0 (fun _ _ _ => rfl)
      (fun x hx hx' => hv x hx (hx'.resolve_left (fun hn => hn hx))) pre N (by rw [Nat.succ_mul] at hN; omega)]
    rw [List.range_succ_eq_map, List.map_cons, List.sum_cons, pow_zero, List.map_map]
    have : (List.map ((fun j => failOver g μ V L τ0 ^ j) ∘ Nat.succ) (List.range m)).sum =
        failOver g μ V L τ0 * ((List.range m).map fun j => failOver g μ V L τ0 ^ j).sum := by
      rw [← List.sum_map_mul_left]
      congr 1
      apply List.map_congr_left
      intro j _
      simp [pow_succ, mul_comm]
    rw [this]
    ring

theorem mean_add_fail [IsProbabilityMeasure μ] (hV : V.Densities g μ lam p) (l : List Nat) (τ : Nat → X) : meanOver g μ V (fun _ => 1) l τ + failOver g μ V l τ = 1 := by
  induction l generalizing τ with
  | nil => simp [meanOver, failOver]
  | cons v l ih =>
    simp only [meanOver, failOver]
    by_cases hk : g.kind v = .hyper
    · rw [if_pos hk, if_pos hk]; exact ih τ
    · rw [if_neg hk, if_neg hk, ← lintegral_add_left]
      · have : ∀ a, ((if V.ok v τ a then meanOver g μ V (fun _ => 1) l (Function.update τ v (V.val v τ a)) else 0) +
            if V.ok v τ a then failOver g μ V l (Function.update τ v (V.val v τ a)) else 1) = 1 := by
          intro a
          cases V.ok v τ a with
          | true => simpa using ih _
          | false => simp
        rw [lintegral_congr this]
        simp
      · exact Measurable.ite (((hV.meas_ok v).comp measurable_prodMk_left) (measurableSet_singleton true))
          ((measurable_meanOver hV (fun _ => 1) measurable_const l).comp ((measurable_move V v (hV.meas_val v)).comp measurable_prodMk_left)) measurable_const

omit [MeasurableSpace X] [Inhabited X] in
theorem failOver_zero [IsProbabilityMeasure μ] (hdraw : ∀ v τ a, V.ok v τ a = true) (l : List Nat) (τ : Nat → X) : failOver g μ V l τ = 0 := by
  induction l generalizing τ with
  | nil => rfl
  | cons v l ih =>
    simp [failOver, hdraw, ih]

/-- What `pdf` of the random variables returns: their density at the values of their inputs. -/
noncomputable def reported (p : (Nat → X) → Nat → X → ℝ≥0∞) (vals : Nat → Option X) (v : Nat) (x : Option X) : ℝ≥0∞ := x.elim 0 (p (filled vals) v)

/-- The average over the draws of an attempt as an integral against the density that `pdf_of_prior` returns. -/
theorem meanOver_prior [IsProbabilityMeasure μ] [∀ v, SigmaFinite (lam v)] (hV : V.Densities g μ lam p) (roots : List Nat) (hap : RootsApart g roots)
    (hop : ∀ v, g.kind v = .op → ∀ τ a, V.ok v τ a = true)
    (hfeed : ∀ v, (g.kind v).isFree = true → (∃ r ∈ roots, Anc g v r) → ∀ u ∈ g.parents v, g.kind u ≠ .op)
    (hdisc : ∀ v, g.kind v = .disc → (above g roots).count v ≤ 1) (st : St X) (hs : Clean st) (τ0 : Nat → X)
    (hconst : ∀ v, (∃ r ∈ roots, Anc g v r) → g.kind v = .hyper → st.value v = some (τ0 v))
    (chk : (Nat → Option X) → Nat → X → Verdict) (L : List Nat) (hnd : L.Nodup) (hif : InputsFirst g L) (hmem : ∀ v, v ∈ L ↔ v ∈ above g roots)
    (k : (Nat → X) → ℝ≥0∞) (hk : Measurable k) (hinv : ∀ v, g.kind v = .op → ∀ τ x, k (Function.update τ v x) = k τ)
    (hok : ∀ τ : Nat → X, k τ ≠ 0 → (setParameters g chk roots ((order g roots).map τ) st).2 = .ok (order g roots).length) :
    meanOver g μ V k L τ0 =
      (∫⋯∫⁻_(order g roots).toFinset, (fun τ => k τ * (pdfOfPrior g chk (reported p) roots ((order g roots).map τ) st).2.getD 0) ∂lam) τ0 := by
  have hlisted := listed_of g L [] L rfl hnd hif
  have hord : ∀ v, v ∈ order g roots ↔ (g.kind v).isFree = true ∧ v ∈ L := fun v => by rw [mem_order, hmem, mem_above]
  have hanc : ∀ v ∈ L, ∃ r ∈ roots, Anc g v r := fun v hv => (mem_above g roots v).1 ((hmem v).1 hv)
  have hLp : ∀ v ∈ L, ∀ u ∈ g.parents v, u ∈ L := by
    intro v hv u hu
    rw [hmem, mem_above]
    obtain ⟨r, hr, ha⟩ := hanc v hv
    exact ⟨r, hr, (Anc.input hu).trans ha⟩
  have hhyp : ∀ x ∈ L, g.kind x = .hyper → st.value x = some (τ0 x) := fun x hx hk => hconst x (hanc x hx) hk
  rw [meanOver_eq hV k hk hinv L hlisted (fun v _ => hop v) (fun v hv hf => hfeed v hf (hanc v hv)) τ0]
  have hperm : (L.filter fun v => (g.kind v).isFree).Perm (order g roots) := by
    rw [List.perm_ext_iff_of_nodup (hnd.filter _) (order_nodup g roots)]
    intro v
    rw [hord, List.mem_filter, and_comm]
  rw [List.toFinset_eq_of_perm _ _ hperm]
  -- the integrands agree where the constants have their values
  simp only [lmarginal]
  refine lintegral_congr fun y => ?_
  generalize hτ : Function.updateFinset τ0 (order g roots).toFinset y = τ
  have hτh : ∀ x, g.kind x = .hyper → τ x = τ0 x := by
    intro x hx
    have hno : x ∉ order g roots := fun hm => by have := ((hord x).1 hm).1; simp [hx, Kind.isFree] at this
    rw [← hτ]
    simp [Function.updateFinset, hno]
  by_cases hz : k τ = 0
  · rw [hz, zero_mul, zero_mul]
  · congr 1
    have hset := hok τ hz
    obtain ⟨-, -, -, -, -, -, hC⟩ := C02_orders_agree g roots hap st hs
    obtain ⟨-, hval⟩ := hC chk _ _ hset
    rw [C07_prior_density_partial (M := ℝ≥0∞) g roots hap st hs chk (reported p) _ hset hdisc, Option.getD_some, product, (hperm.map _).prod_eq]
    have hother : ∀ x, x ∉ order g roots → (setParameters g chk roots ((order g roots).map τ) st).1.value x = st.value x := by
      have key := setParameters_eq g chk ((order g roots).map τ) roots hap st hs
      cases ha : assignInOrder chk ((order g roots).map τ) (order g roots) 0 st.value with
      | error e =>
        rw [ha] at key
        rcases e with ⟨i | _, val⟩
        · simp only [hset] at key; exact absurd key.1 (by simp)
        · simp only [hset] at key; exact absurd key.1 (by simp)
      | ok r =>
        obtain ⟨val, n⟩ := r
        rw [ha] at key
        simp only at key
        rw [key.2.1]
        exact assignInOrder_other chk _ _ 0 _ _ _ ha
    congr 1
    rw [List.zip_map_right, List.map_map]
    have hzip : (order g roots).zip (order g roots) = (order g roots).map fun v => (v, v) := by
      have := List.map_prod_left_eq_zip (l := order g roots) (f := id)
      rw [List.map_id] at this
      exact this.symm
    rw [hzip, List.map_map]
    refine List.map_congr_left fun v hv => ?_
    simp only [Function.comp, Prod.map, id, reported, Option.elim_some]
    refine hV.inputs' v _ _ (fun u hu => ?_) _
    have hvL := ((hord v).1 hv)
    have huL := hLp v hvL.2 u hu
    by_cases hk : g.kind u = .hyper
    · have hno : u ∉ order g roots := fun hm => by have := ((hord u).1 hm).1; simp [hk, Kind.isFree] at this
      rw [filled, hother u hno, hhyp u huL hk, hτh u hk]
      rfl
    · have hfr : (g.kind u).isFree = true := by
        have := hfeed v hvL.1 (hanc v hvL.2) u hu
        cases h : g.kind u <;> simp_all [Kind.isFree]
      obtain ⟨i, hi, rfl⟩ := List.getElem_of_mem ((hord u).2 ⟨hfr, huL⟩)
      rw [filled, (hval i hi).1]
      simp [hi]

/-- A quantity `h` of the parameters that `get_parameters` reads after a call of `sample_from_prior` with the given random numbers, which gives up after `m` attempts; `0` if it does. -/
noncomputable def outcome (g : G) (V : MVars A X) (roots : List Nat) (s : Smp X) (m : Nat) (h : List X → ℝ≥0∞) (stream : List A) : ℝ≥0∞ :=
  (sampleFromPrior g (V.toVars.sim stream) roots m s).elim 0 fun s' => (collect (getParameters g roots s'.st).2).elim 0 h

/-- C211 for random variables with densities with respect to any measures (Lebesgue measure for continuous ones, counting measure for discrete ones), in graphs in which no discrete
parameter is reached along two paths and no arithmetic node feeds a parameter. An attempt of `sample_from_prior` gets through with probability `S` and fails with probability `f`.
The average of a quantity `h` of the parameters over calls with at most `m` attempts is the integral of `h` times the prior density, times `1 + f + ... + f^(m-1)`.
The prior density is the value that `pdf_of_prior` returns; `h` vanishes at vectors that `set_parameters` refuses. -/
theorem C211_densities_partial [IsProbabilityMeasure μ] [∀ v, SigmaFinite (lam v)] (hV : V.Densities g μ lam p) (roots : List Nat) (hap : RootsApart g roots)
    (hop : ∀ v, g.kind v = .op → ∀ τ a, V.ok v τ a = true)
    (hfeed : ∀ v, (g.kind v).isFree = true → (∃ r ∈ roots, Anc g v r) → ∀ u ∈ g.parents v, g.kind u ≠ .op)
    (hdisc : ∀ v, g.kind v = .disc → (above g roots).count v ≤ 1) (s : Smp X) (hs : Clean s.st) (hclock : s.clock = 0) (τ0 : Nat → X)
    (hconst : ∀ v, (∃ r ∈ roots, Anc g v r) → g.kind v = .hyper → s.st.value v = some (τ0 v))
    (chk : (Nat → Option X) → Nat → X → Verdict) (h : List X → ℝ≥0∞) (hh : Measurable fun τ : Nat → X => h ((order g roots).map τ))
    (hok : ∀ τ : Nat → X, h ((order g roots).map τ) ≠ 0 → (setParameters g chk roots ((order g roots).map τ) s.st).2 = .ok (order g roots).length) :
    ∃ S f : ℝ≥0∞, S + f = 1 ∧ ((∀ v τ a, V.ok v τ a = true) → f = 0) ∧
      (∀ N, (above g roots).length ≤ N → average μ N (fun w => if (sampleFromPrior g (V.toVars.sim w) roots 1 s).isSome then 1 else 0) = S) ∧
      ∀ m N, m * (above g roots).length ≤ N → average μ N (outcome g V roots s m h) =
        (∫⋯∫⁻_(order g roots).toFinset, (fun τ => h ((order g roots).map τ) * (pdfOfPrior g chk (reported p) roots ((order g roots).map τ) s.st).2.getD 0) ∂lam) τ0 *
          ((List.range m).map fun j => f ^ j).sum := by
  obtain ⟨L, hnd, hif, hmem, hfol⟩ := attempt_list (α := X) g roots hap
  have hlisted := listed_of g L [] L rfl hnd hif
  have hLlen : L.length ≤ (above g roots).length := (hnd.subperm fun v hv => (hmem v).1 hv).length_le
  have hord : ∀ v, v ∈ order g roots ↔ (g.kind v).isFree = true ∧ v ∈ L := fun v => by rw [mem_order, hmem, mem_above]
  have hanc : ∀ v ∈ L, ∃ r ∈ roots, Anc g v r := fun v hv => (mem_above g roots v).1 ((hmem v).1 hv)
  have hLp : ∀ v ∈ L, ∀ u ∈ g.parents v, u ∈ L := by
    intro v hv u hu
    rw [hmem, mem_above]
    obtain ⟨r, hr, ha⟩ := hanc v hv
    exact ⟨r, hr, (Anc.input hu).trans ha⟩
  have hhyp : ∀ x ∈ L, g.kind x = .hyper → s.st.value x = some (τ0 x) := fun x hx hk => hconst x (hanc x hx) hk
  refine ⟨meanOver g μ V (fun _ => 1) L τ0, failOver g μ V L τ0, mean_add_fail hV L τ0, fun hd => failOver_zero hd L τ0, fun N hN => ?_, fun m N hN => ?_⟩
  · have h1 := average_tries hV L hlisted hLp (fun _ => 1) measurable_const (fun _ _ _ => 1) 0 τ0 (fun _ _ _ N _ _ _ => average_const μ N 1) 1
      s.st.value [] N hhyp (by omega)
    simp only [List.nil_append, List.length_nil] at h1
    rw [show (List.range 1) = [0] from rfl] at h1
    simp only [List.map_cons, List.map_nil, pow_zero, List.sum_cons, List.sum_nil, add_zero, mul_one] at h1
    rw [← h1]
    refine average_congr μ N _ _ fun w => ?_
    have := sampleFromPrior_worth g (V.toVars.sim w) roots hap L (fun s hs hl => hfol (V.toVars.sim w) s hs hl) (fun _ _ => 1) 1 s hs
    rw [hclock] at this
    rw [← this]
    cases sampleFromPrior g (V.toVars.sim w) roots 1 s <;> rfl
  · have h1 := average_tries hV L hlisted hLp (fun τ => h ((order g roots).map τ)) hh
      (fun _ vals _ => (collect ((order g roots).map vals)).elim 0 h) 0 τ0 (fun vals τ _ N e _ _ => by
        rw [average_const, List.map_congr_left fun v hv => e v ((hord v).1 hv).2, show (order g roots).map (fun v => some (τ v)) = ((order g roots).map τ).map some by simp, collect_map_some]
        rfl) m s.st.value [] N hhyp (le_trans (Nat.mul_le_mul_left m hLlen) hN)
    simp only [List.nil_append, List.length_nil] at h1
    have hleft : average μ N (outcome g V roots s m h) = average μ N fun w => worth g (V.toVars.sim w) L (fun vals _ => (collect ((order g roots).map vals)).elim 0 h) m s.st.value 0 := by
      refine average_congr μ N _ _ fun w => ?_
      have := sampleFromPrior_worth g (V.toVars.sim w) roots hap L (fun s hs hl => hfol (V.toVars.sim w) s hs hl) (fun vals _ => (collect ((order g roots).map vals)).elim 0 h) m s hs
      rw [hclock] at this
      rw [← this, outcome]
      cases hr : sampleFromPrior g (V.toVars.sim w) roots m s with
      | none => rfl
      | some s' =>
        simp only [Option.elim_some]
        rw [(getParameters_eq g roots s'.st (sampleFromPrior_clean g _ roots hap m s s' hs hr)).1]
    rw [hleft, h1]
    congr 1
    exact meanOver_prior hV roots hap hop hfeed hdisc s.st hs τ0 hconst chk L hnd hif hmem (fun τ => h ((order g roots).map τ)) hh (fun v hk τ x => by
      congr 1
      refine List.map_congr_left fun u hu => Function.update_of_ne ?_ _ _
      rintro rfl
      have := ((hord u).1 hu).1
      simp [hk, Kind.isFree] at this) hok

/-- C211 for densities, when no random variable refuses its inputs: whatever the limit on the number of attempts is, averages over the parameters are integrals against the prior density. -/
theorem C211_densities_no_refusal_partial [IsProbabilityMeasure μ] [∀ v, SigmaFinite (lam v)] (hV : V.Densities g μ lam p) (roots : List Nat) (hap : RootsApart g roots)
    (hdraw : ∀ v τ a, V.ok v τ a = true)
    (hfeed : ∀ v, (g.kind v).isFree = true → (∃ r ∈ roots, Anc g v r) → ∀ u ∈ g.parents v, g.kind u ≠ .op)
    (hdisc : ∀ v, g.kind v = .disc → (above g roots).count v ≤ 1) (s : Smp X) (hs : Clean s.st) (hclock : s.clock = 0) (τ0 : Nat → X)
    (hconst : ∀ v, (∃ r ∈ roots, Anc g v r) → g.kind v = .hyper → s.st.value v = some (τ0 v))
    (chk : (Nat → Option X) → Nat → X → Verdict) (h : List X → ℝ≥0∞) (hh : Measurable fun τ : Nat → X => h ((order g roots).map τ))
    (hok : ∀ τ : Nat → X, h ((order g roots).map τ) ≠ 0 → (setParameters g chk roots ((order g roots).map τ) s.st).2 = .ok (order g roots).length)
    (m N : Nat) (hm : 0 < m) (hN : m * (above g roots).length ≤ N) :
    average μ N (outcome g V roots s m h) =
      (∫⋯∫⁻_(order g roots).toFinset, (fun τ => h ((order g roots).map τ) * (pdfOfPrior g chk (reported p) roots ((order g roots).map τ) s.st).2.getD 0) ∂lam) τ0 := by
  obtain ⟨S, f, -, h0, -, h3⟩ := C211_densities_partial hV roots hap (fun v _ => hdraw v) hfeed hdisc s hs hclock τ0 hconst chk h hh hok
  obtain ⟨m, rfl⟩ := Nat.exists_eq_succ_of_ne_zero hm.ne'
  rw [h3 _ N hN, h0 hdraw, List.range_succ_eq_map]
  simp [Function.comp_def]

/-! ### A concrete graph -/

/-- Nodes that are uniform between 0 and 1, or between the value of their input and that value plus 1. -/
def shifts : MVars ℝ ℝ := ⟨fun _ _ _ => true, fun v τ a => (if v = 1 ∨ v = 2 then τ (v - 1) else 0) + a, fun _ _ _ => true⟩

noncomputable def shiftDensity (τ : Nat → ℝ) (v : Nat) (x : ℝ) : ℝ≥0∞ := (Set.Icc (0 : ℝ) 1).indicator (fun _ => 1) (x - if v = 1 ∨ v = 2 then τ (v - 1) else 0)

theorem shifts_measurable (v : Nat) : Measurable fun τ : Nat → ℝ => if v = 1 ∨ v = 2 then τ (v - 1) else 0 := by
  by_cases hv : v = 1 ∨ v = 2
  · simp only [hv, if_true]; exact measurable_pi_apply _
  · simp only [hv, if_false]; exact measurable_const

theorem shifts_inputs (v : Nat) (τ τ' : Nat → ℝ) (h : ∀ u ∈ chainG.parents v, τ u = τ' u) : (if v = 1 ∨ v = 2 then τ (v - 1) else 0) = if v = 1 ∨ v = 2 then τ' (v - 1) else 0 := by
  by_cases hv : v = 1 ∨ v = 2
  · rw [if_pos hv, if_pos hv]
    refine h _ ?_
    rcases hv with e | e <;> subst e <;> simp [chainG, G.ofTable]
  · rw [if_neg hv, if_neg hv]

theorem shifts_densities : shifts.Densities chainG (volume.restrict (Set.Icc (0 : ℝ) 1)) (fun _ => volume) shiftDensity where
  inputs v τ τ' h a := ⟨rfl, by simp only [shifts]; rw [shifts_inputs v τ τ' h]⟩
  inputs' v τ τ' h x := by simp only [shiftDensity]; rw [shifts_inputs v τ τ' h]
  support _ _ _ _ := rfl
  meas_ok _ := measurable_const
  meas_val v := ((shifts_measurable v).comp measurable_fst).add measurable_snd
  meas_p v := (measurable_const.indicator measurableSet_Icc).comp (measurable_snd.sub ((shifts_measurable v).comp measurable_fst))
  law v _ τ h _ := by
    simp only [shifts, if_true, shiftDensity]
    generalize (if v = 1 ∨ v = 2 then τ (v - 1) else 0) = c
    rw [← lintegral_indicator measurableSet_Icc, ← lintegral_sub_right_eq_self _ c]
    refine lintegral_congr fun x => ?_
    by_cases hx : x - c ∈ Set.Icc (0 : ℝ) 1
    · rw [Set.indicator_of_mem hx, Set.indicator_of_mem hx, one_mul, add_sub_cancel]
    · rw [Set.indicator_of_notMem hx, Set.indicator_of_notMem hx, zero_mul]

/-- A uniform parameter and one that is uniform above it: the probability that the second is above 3/2 is the integral of the prior density over these vectors. -/
example : average (volume.restrict (Set.Icc (0 : ℝ) 1)) 2 (outcome chainG shifts [2] ⟨St.blank, 0, []⟩ 1 fun l => if 3 / 2 < l.headD 0 then 1 else 0) =
    (∫⋯∫⁻_(order chainG [2]).toFinset, (fun τ : Nat → ℝ => (if 3 / 2 < ((order chainG [2]).map τ).headD 0 then (1 : ℝ≥0∞) else 0) *
      (pdfOfPrior chainG (fun _ _ _ => .accept) (reported shiftDensity) [2] ((order chainG [2]).map τ) St.blank).2.getD 0) ∂fun _ => volume) fun _ => 0 := by
  have : IsProbabilityMeasure (volume.restrict (Set.Icc (0 : ℝ) 1)) := ⟨by simp⟩
  refine C211_densities_no_refusal_partial shifts_densities [2] chainG_apart (fun _ _ _ => rfl) (fun v _ _ u _ => (chainG_kind u).1) (fun v hv => absurd hv (chainG_kind v).2)
    ⟨St.blank, 0, []⟩ blank_clean rfl (fun _ => 0) (fun v hv hk => ?_) (fun _ _ _ => .accept) _ ?_ (fun τ _ => ?_) 1 2 one_pos (by rw [chainG_above]; rfl)
  · have := (mem_above chainG [2] v).2 hv
    rw [chainG_above] at this
    have h : v = 1 ∨ v = 0 := by simpa using this
    rcases h with e | e <;> subst e <;> simp [chainG, G.ofTable] at hk
  · rw [chainG_order]
    simp only [List.map_cons, List.headD_cons]
    exact Measurable.ite (measurableSet_lt measurable_const (measurable_pi_apply 1)) measurable_const measurable_const
  · rw [chainG_order]
    have key := setParameters_eq chainG (fun _ _ _ => .accept) [τ 1, τ 0] [2] chainG_apart (St.blank : St ℝ) blank_clean
    rw [chainG_order] at key
    simp [assignInOrder] at key
    exact key.1

end Verif.Graph
