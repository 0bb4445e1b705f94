import Verif.Pmc.Run
import Verif.Rejection.Cost
/-!
# C226: how many simulations an iteration of `PMCABC` needs

The random numbers of a task are a sequence of independent outcomes, one for each attempt (`abcpy/inferences.py` 998-1020). An outcome determines the draw from the prior, the particle that is chosen, the sequence of its
perturbations, and the data simulated from given parameters.
-/

namespace Verif.Pmc

open MeasureTheory ProbabilityTheory Filter Topology Set Rejection
open scoped ENNReal

/-- What the outcome of an attempt determines. -/
structure Parts (Ω Θ Y : Type) where
  first : Ω → Θ
  index : List ℝ → Ω → Nat
  moved : Pop Θ → Nat → Ω → ℕ → Option Θ
  data : Ω → Θ → Y

variable {Ω Θ Y : Type} (a : Parts Ω Θ Y) (distMax : Option ℝ) (dist : Y → ℝ) (pdf : Θ → ℝ) (kernel : Pop Θ → Θ → Θ → ℝ) (held : Θ)

/-- Workers with a sequence of outcomes and the number of perturbations made in the present attempt: each perturbation takes the next one of the attempt, a simulation ends the attempt. -/
def attempts : Env ((ℕ → Ω) × ℕ) Θ Y where
  distMax := distMax
  dist := dist
  pdf := pdf
  kernel := kernel
  held := fun _ => held
  prior := fun w => (w, a.first (w.1 0))
  choose := fun l w => (w, a.index l (w.1 0))
  perturb := fun p i w => ((w.1, w.2 + 1), a.moved p i (w.1 0) w.2)
  sim := fun θ w => ((fun n => w.1 (n + 1), 0), a.data (w.1 0) θ)

/-! ### Specification -/

/-- A perturbation that the graph of models accepts, with positive prior density. -/
def Fits (x : Option Θ) : Prop := ∃ θ, x = some θ ∧ pdf θ ≠ 0

open Classical in
/-- The parameters of an attempt: a draw from the prior, or the first perturbation of the chosen particle that fits. -/
noncomputable def proposed (old : Option (Pop Θ)) (ω : Ω) : Option Θ := match old with
  | none => some (a.first ω)
  | some p => if h : ∃ k, Fits pdf (a.moved p (a.index p.weights ω) ω k) then a.moved p (a.index p.weights ω) ω (Nat.find h) else none

/-- The data of an attempt. -/
noncomputable def simulated (old : Option (Pop Θ)) (ω : Ω) : Option Y := (proposed a pdf old ω).map (a.data ω)

/-- Attempts whose data are near enough. -/
def near (old : Option (Pop Θ)) (eps : ℝ) : Set Ω := acceptedSet (simulated a pdf old) dist eps

/-- Attempts that never find a perturbation that fits. -/
def stuck (old : Option (Pop Θ)) : Set Ω := {ω | proposed a pdf old ω = none}

/-! ### Tasks -/

theorem propose_first (p : Pop Θ) (i : Nat) (s : ℕ → Ω) (θ : Θ) (m k : ℕ) (hθ : a.moved p i (s 0) (k + m) = some θ) (h0 : pdf θ ≠ 0) (hb : ∀ j, k ≤ j → j < k + m → ¬ Fits pdf (a.moved p i (s 0) j)) (fuel : Nat)
    (hf : m < fuel) : proposeLoop (attempts a distMax dist pdf kernel held) p i fuel (s, k) = some ((s, k + m + 1), θ) := by
  induction m generalizing k fuel with
  | zero =>
    obtain ⟨f, rfl⟩ : ∃ f, fuel = f + 1 := ⟨fuel - 1, by omega⟩
    simp only [Nat.add_zero] at hθ ⊢
    simp [proposeLoop, attempts, hθ, h0]
  | succ m ih =>
    obtain ⟨f, rfl⟩ : ∃ f, fuel = f + 1 := ⟨fuel - 1, by omega⟩
    have hk := hb k le_rfl (by omega)
    have := ih (k + 1) (by rw [show k + 1 + m = k + (m + 1) by omega]; exact hθ) (fun j h1 h2 => hb j (by omega) (by omega)) f (by omega)
    rw [show k + 1 + m + 1 = k + (m + 1) + 1 by omega] at this
    rw [proposeLoop]
    cases hx : a.moved p i (s 0) k with
    | none =>
      simp only [attempts, hx] at this ⊢
      exact this
    | some x =>
      have hx0 : pdf x = 0 := by
        by_contra h
        exact hk ⟨x, hx, h⟩
      simp only [attempts, hx, hx0, ne_eq, not_true_eq_false, if_false] at this ⊢
      exact this

theorem propose_never (p : Pop Θ) (i : Nat) (s : ℕ → Ω) (k : ℕ) (hb : ∀ j, ¬ Fits pdf (a.moved p i (s 0) j)) (fuel : Nat) :
    proposeLoop (attempts a distMax dist pdf kernel held) p i fuel (s, k) = none := by
  induction fuel generalizing k with
  | zero => rfl
  | succ f ih =>
    rw [proposeLoop]
    cases hx : a.moved p i (s 0) k with
    | none =>
      have := ih (k + 1)
      simp only [attempts, hx] at this ⊢
      exact this
    | some x =>
      have hx0 : pdf x = 0 := by
        by_contra h
        exact hb k ⟨x, hx, h⟩
      have := ih (k + 1)
      simp only [attempts, hx, hx0, ne_eq, not_true_eq_false, if_false] at this ⊢
      exact this

/-- One attempt. -/
theorem attempt_some (old : Option (Pop Θ)) (eps : ℝ) (s : ℕ → Ω) (θ θ' : Θ) (d : Option ℝ) (c : Nat) (hd : above d eps = true) (hp : proposed a pdf old (s 0) = some θ') :
    ∃ f0, ∀ fuel ≥ f0, resampleLoop (attempts a distMax dist pdf kernel held) eps old (fuel + 1) (s, 0) θ d c =
      resampleLoop (attempts a distMax dist pdf kernel held) eps old fuel (fun n => s (n + 1), 0) θ' (some (dist (a.data (s 0) θ'))) (c + 1) := by
  cases old with
  | none =>
    simp only [proposed, Option.some.injEq] at hp
    subst hp
    refine ⟨0, fun fuel _ => ?_⟩
    rw [resampleLoop, if_pos hd]
    rfl
  | some p =>
    simp only [proposed] at hp
    split at hp
    · rename_i h
      classical
      obtain ⟨x, hx, hx0⟩ := Nat.find_spec h
      have hxθ : x = θ' := by rw [hx] at hp; exact Option.some.inj hp
      subst hxθ
      refine ⟨Nat.find h + 1, fun fuel hf => ?_⟩
      have := propose_first a distMax dist pdf kernel held p (a.index p.weights (s 0)) s x (Nat.find h) 0 (by simpa using hp) hx0 (fun j _ hj => Nat.find_min h (by omega)) fuel (by omega)
      rw [resampleLoop, if_pos hd]
      simp only [show (attempts a distMax dist pdf kernel held).choose p.weights (s, 0) = ((s, 0), a.index p.weights (s 0)) from rfl, this]
      rfl
    · cases hp

/-- An attempt that is stuck. -/
theorem attempt_none (old : Option (Pop Θ)) (eps : ℝ) (s : ℕ → Ω) (θ : Θ) (d : Option ℝ) (c : Nat) (hd : above d eps = true) (hp : proposed a pdf old (s 0) = none) (fuel : Nat) :
    resampleLoop (attempts a distMax dist pdf kernel held) eps old fuel (s, 0) θ d c = none := by
  cases fuel with
  | zero => rfl
  | succ fuel =>
    cases old with
    | none => simp [proposed] at hp
    | some p =>
      simp only [proposed] at hp
      split at hp
      · rename_i h
        classical
        obtain ⟨x, hx, -⟩ := Nat.find_spec h
        rw [hx] at hp
        cases hp
      · rename_i h
        have := propose_never a distMax dist pdf kernel held p (a.index p.weights (s 0)) s 0 (fun j hj => h ⟨j, hj⟩) fuel
        rw [resampleLoop, if_pos hd]
        simp only [show (attempts a distMax dist pdf kernel held).choose p.weights (s, 0) = ((s, 0), a.index p.weights (s 0)) from rfl, this]

theorem loop_ends (old : Option (Pop Θ)) (eps : ℝ) (m : ℕ) (s : ℕ → Ω) (θ : Θ) (d : Option ℝ) (c : Nat) (hd : above d eps = true) (hm : s m ∈ near a dist pdf old eps) (hb : ∀ j < m, s j ∉ near a dist pdf old eps)
    (hs : ∀ j < m, s j ∉ stuck a pdf old) :
    ∃ θ', proposed a pdf old (s m) = some θ' ∧ ∃ f0, ∀ fuel ≥ f0, resampleLoop (attempts a distMax dist pdf kernel held) eps old fuel (s, 0) θ d c = some (θ', some (dist (a.data (s m) θ')), c + m + 1) := by
  induction m generalizing s θ d c with
  | zero =>
    obtain ⟨y, hy, hle⟩ := hm
    obtain ⟨θ', h1, rfl⟩ := Option.map_eq_some_iff.1 hy
    obtain ⟨f0, h2⟩ := attempt_some a distMax dist pdf kernel held old eps s θ θ' d c hd h1
    refine ⟨θ', h1, f0 + 2, fun fuel hf => ?_⟩
    obtain ⟨f, rfl⟩ : ∃ f, fuel = f + 1 + 1 := ⟨fuel - 2, by omega⟩
    rw [h2 (f + 1) (by omega), resampleLoop.eq_def]
    simp only
    rw [if_neg (by simpa [above] using hle)]
  | succ m ih =>
    obtain ⟨θ1, h1⟩ : ∃ θ1, proposed a pdf old (s 0) = some θ1 := by
      have := hs 0 (by omega)
      exact Option.ne_none_iff_exists'.1 this
    have hd1 : above (some (dist (a.data (s 0) θ1))) eps = true := by
      simp only [above, Option.elim_some, decide_eq_true_eq]
      by_contra hn
      exact hb 0 (by omega) ⟨_, by rw [simulated, h1]; rfl, not_lt.1 hn⟩
    obtain ⟨f0, h2⟩ := attempt_some a distMax dist pdf kernel held old eps s θ θ1 d c hd h1
    obtain ⟨θ', h3, f1, h4⟩ := ih (fun n => s (n + 1)) θ1 _ (c + 1) hd1 hm (fun j hj => hb (j + 1) (by omega)) fun j hj => hs (j + 1) (by omega)
    refine ⟨θ', h3, f0 + f1 + 1, fun fuel hf => ?_⟩
    obtain ⟨f, rfl⟩ : ∃ f, fuel = f + 1 := ⟨fuel - 1, by omega⟩
    rw [h2 f (by omega), h4 f (by omega)]
    simp only [Option.some.injEq, Prod.mk.injEq, true_and]
    omega

theorem loop_never (old : Option (Pop Θ)) (eps : ℝ) (fuel : Nat) (s : ℕ → Ω) (θ : Θ) (d : Option ℝ) (c : Nat) (hd : above d eps = true) (hb : ∀ j, s j ∉ near a dist pdf old eps) :
    resampleLoop (attempts a distMax dist pdf kernel held) eps old fuel (s, 0) θ d c = none := by
  induction fuel generalizing s θ d c with
  | zero => rfl
  | succ fuel ih =>
    cases h1 : proposed a pdf old (s 0) with
    | none => exact attempt_none a distMax dist pdf kernel held old eps s θ d c hd h1 _
    | some θ1 =>
      have hd1 : above (some (dist (a.data (s 0) θ1))) eps = true := by
        simp only [above, Option.elim_some, decide_eq_true_eq]
        by_contra hn
        exact hb 0 ⟨_, by rw [simulated, h1]; rfl, not_lt.1 hn⟩
      have key := ih (fun n => s (n + 1)) θ1 (some (dist (a.data (s 0) θ1))) (c + 1) hd1 fun j => hb (j + 1)
      rw [resampleLoop.eq_def]
      simp only [if_pos hd]
      cases old with
      | none =>
        simp only [proposed, Option.some.injEq] at h1
        subst h1
        exact key
      | some p =>
        simp only
        split
        · rfl
        · rename_i w θ2 hw
          simp only [proposed] at h1
          split at h1
          · rename_i h
            classical
            obtain ⟨x, hx, hx0⟩ := Nat.find_spec h
            have hxθ : x = θ1 := by rw [hx] at h1; exact Option.some.inj h1
            subst hxθ
            by_cases hf : Nat.find h < fuel
            · have := propose_first a distMax dist pdf kernel held p (a.index p.weights (s 0)) s x (Nat.find h) 0 (by simpa using h1) hx0 (fun j _ hj => Nat.find_min h (by omega)) fuel hf
              rw [show (attempts a distMax dist pdf kernel held).choose p.weights (s, 0) = ((s, 0), a.index p.weights (s 0)) from rfl, this] at hw
              simp only [Option.some.injEq, Prod.mk.injEq] at hw
              obtain ⟨rfl, rfl⟩ := hw
              exact key
            · exfalso
              -- with less fuel the loop of perturbations does not end
              have hno : ∀ f k, k + f ≤ Nat.find h → proposeLoop (attempts a distMax dist pdf kernel held) p (a.index p.weights (s 0)) f (s, k) = none := by
                intro f
                induction f with
                | zero => intro k _; rfl
                | succ f ihf =>
                  intro k hk
                  have hkb := Nat.find_min h (show k < Nat.find h by omega)
                  have hn := ihf (k + 1) (by omega)
                  rw [proposeLoop]
                  cases hx : a.moved p (a.index p.weights (s 0)) (s 0) k with
                  | none =>
                    simp only [attempts, hx] at hn ⊢
                    exact hn
                  | some x' =>
                    have hx0 : pdf x' = 0 := by
                      by_contra h'
                      exact hkb ⟨x', hx, h'⟩
                    simp only [attempts, hx, hx0, ne_eq, not_true_eq_false, if_false] at hn ⊢
                    exact hn
              rw [show (attempts a distMax dist pdf kernel held).choose p.weights (s, 0) = ((s, 0), a.index p.weights (s 0)) from rfl, hno fuel 0 (by omega)] at hw
              cases hw
          · cases h1

/-- **C226, one task.** If the sequence of attempts has one whose data are near enough, and no attempt is stuck, the task ends, given enough rounds: it returns the parameters and the distance of the first such attempt, and
the number of attempts up to it as its number of simulations. If there is none, it never ends. -/
theorem C226_task (old : Option (Pop Θ)) (eps : ℝ) (hmax : above distMax eps = true) (s : ℕ → Ω) :
    ((∃ k, s k ∈ near a dist pdf old eps) → (∀ k, s k ∉ stuck a pdf old) → ∃ θ, proposed a pdf old (hit (near a dist pdf old eps) s) = some θ ∧ ∃ f0, ∀ fuel ≥ f0,
      resampleTask (attempts a distMax dist pdf kernel held) eps old fuel (s, 0) = some (θ, dist (a.data (hit (near a dist pdf old eps) s) θ), needed (near a dist pdf old eps) s)) ∧
    ((∀ k, s k ∉ near a dist pdf old eps) → ∀ fuel, resampleTask (attempts a distMax dist pdf kernel held) eps old fuel (s, 0) = none) := by
  constructor
  · intro h hs
    classical
    have he : firstAt (near a dist pdf old eps) s = Nat.find h := by rw [firstAt, dif_pos h]
    obtain ⟨θ, h1, f0, h2⟩ := loop_ends a distMax dist pdf kernel held old eps (Nat.find h) s held distMax 0 hmax (Nat.find_spec h) (fun j hj => Nat.find_min h hj) fun j _ => hs j
    refine ⟨θ, by rw [hit, he]; exact h1, f0, fun fuel hf => ?_⟩
    have := h2 fuel hf
    unfold resampleTask
    rw [show resampleLoop (attempts a distMax dist pdf kernel held) eps old fuel (s, 0) ((attempts a distMax dist pdf kernel held).held (s, 0)) (attempts a distMax dist pdf kernel held).distMax 0 =
      resampleLoop (attempts a distMax dist pdf kernel held) eps old fuel (s, 0) held distMax 0 from rfl, this]
    simp only [hit, he, needed, Nat.zero_add]
  · intro h fuel
    unfold resampleTask
    rw [show resampleLoop (attempts a distMax dist pdf kernel held) eps old fuel (s, 0) ((attempts a distMax dist pdf kernel held).held (s, 0)) (attempts a distMax dist pdf kernel held).distMax 0 =
      resampleLoop (attempts a distMax dist pdf kernel held) eps old fuel (s, 0) held distMax 0 from rfl, loop_never a distMax dist pdf kernel held old eps fuel s held distMax 0 hmax h]

/-! ### Iterations -/

/-- An iteration that can go on: there is a threshold, the population has the size asked for, and the next threshold can be computed from any distances. -/
structure Ready (steps t n : Nat) (pct eps : ℝ) (s : State Θ) : Prop where
  eps : s.epsArr[t]? = some (some eps)
  size : ∀ p, s.pop = some p → p.weights.length = n ∧ p.params.length = n
  next : ∀ ds, ds.length = n → (nextEps steps t pct ds s.epsArr).isSome

/-- **C226, an iteration.** If no attempt is stuck and every task has an attempt that is near enough, the iteration returns, given enough rounds: its particles are those of the first near attempts, and the number of
simulations rises by the number of attempts up to these. -/
theorem C226_iteration (steps t n : Nat) (pct eps : ℝ) (hmax : above distMax eps = true) (s : State Θ) (hr : Ready steps t n pct eps s) (ω : ℕ → ℕ → Ω) (h : ∀ i < n, ∃ k, ω i k ∈ near a dist pdf s.pop eps)
    (hs : ∀ i < n, ∀ k, ω i k ∉ stuck a pdf s.pop) :
    ∃ f0, ∀ fuel ≥ f0, ∃ s' r, pmcStep (attempts a distMax dist pdf kernel held) steps pct fuel t ((List.range n).map fun i => (ω i, 0)) s = some s' ∧ s'.hist = s.hist ++ [r] ∧
      r.params.map some = (List.range n).map (fun i => proposed a pdf s.pop (hit (near a dist pdf s.pop eps) (ω i))) ∧
      s'.counter = s.counter + ∑ i ∈ Finset.range n, needed (near a dist pdf s.pop eps) (ω i) := by
  have ht : ∀ i < n, ∃ θ, proposed a pdf s.pop (hit (near a dist pdf s.pop eps) (ω i)) = some θ ∧ ∃ f0, ∀ fuel ≥ f0,
      resampleTask (attempts a distMax dist pdf kernel held) eps s.pop fuel (ω i, 0) = some (θ, dist (a.data (hit (near a dist pdf s.pop eps) (ω i)) θ), needed (near a dist pdf s.pop eps) (ω i)) :=
    fun i hi => (C226_task a distMax dist pdf kernel held s.pop eps hmax (ω i)).1 (h i hi) (hs i hi)
  have : Nonempty Θ := ⟨held⟩
  choose! θ h1 f h2 using ht
  refine ⟨∑ i ∈ Finset.range n, f i, fun fuel hf => ?_⟩
  have hfi : ∀ i < n, f i ≤ fuel := fun i hi => le_trans (Finset.single_le_sum (f := f) (fun _ _ => Nat.zero_le _) (Finset.mem_range.2 hi)) hf
  have e : (((List.range n).map fun i => (ω i, 0)).map (resampleTask (attempts a distMax dist pdf kernel held) eps s.pop fuel)) =
      ((List.range n).map fun i => (θ i, dist (a.data (hit (near a dist pdf s.pop eps) (ω i)) (θ i)), needed (near a dist pdf s.pop eps) (ω i))).map some := by
    rw [List.map_map, List.map_map]
    refine List.map_congr_left fun i hi => ?_
    have hi := List.mem_range.1 hi
    simp only [Function.comp_apply]
    exact h2 i hi fuel (hfi i hi)
  obtain ⟨arr, harr⟩ := Option.isSome_iff_exists.1 (hr.next (((List.range n).map fun i => (θ i, dist (a.data (hit (near a dist pdf s.pop eps) (ω i)) (θ i)), needed (near a dist pdf s.pop eps) (ω i))).map (·.2.1)) (by simp))
  have hall : (s.pop.all fun p => decide (p.weights.length = ((List.range n).map fun i => (ω i, 0)).length ∧ p.params.length = ((List.range n).map fun i => (ω i, 0)).length)) = true := by
    cases hp : s.pop with
    | none => rfl
    | some p => simpa using hr.size p hp
  unfold pmcStep
  rw [hr.eps]
  simp only
  rw [if_pos hall, e, collect_map_some]
  simp only [harr]
  refine ⟨_, _, rfl, rfl, ?_, ?_⟩
  · simp only [List.map_map]
    refine List.map_congr_left fun i hi => ?_
    simp only [Function.comp_apply]
    exact (h1 i (List.mem_range.1 hi)).symm
  · simp only [List.map_map]
    rw [Finset.sum_range, ← List.sum_ofFn, List.ofFn_eq_map, ← List.map_coe_finRange_eq_range, List.map_map]
    rfl

section Law

variable [MeasurableSpace Ω] (P : Measure Ω) [IsProbabilityMeasure P]

theorem streams_all {A : Set Ω} (hA : MeasurableSet A) (h0 : P A = 0) : ∀ᵐ ω ∂streams P, ∀ i k, ω i k ∉ A := by
  rw [ae_all_iff]
  intro i
  have h : ∀ᵐ s ∂stream P, ∀ k, s k ∉ A := by
    rw [ae_all_iff]
    intro k
    have hk : P = (stream P).map fun s => s k := (Measure.infinitePi_map_eval (fun _ : ℕ => P) k).symm
    rw [ae_iff]
    simp only [not_not]
    rw [hk, Measure.map_apply (measurable_pi_apply k) hA] at h0
    exact h0
  rw [show stream P = (streams P).map fun ω => ω i from (Measure.infinitePi_map_eval (fun _ : ℕ => stream P) i).symm] at h
  exact ae_of_ae_map (measurable_pi_apply i).aemeasurable h

theorem streams_some {A : Set Ω} (hA : MeasurableSet A) (h0 : P A ≠ 0) : ∀ᵐ ω ∂streams P, ∀ i, ∃ k, ω i k ∈ A := by
  rw [ae_all_iff]
  intro i
  have := ae_hit P hA h0
  rw [show stream P = (streams P).map fun ω => ω i from (Measure.infinitePi_map_eval (fun _ : ℕ => stream P) i).symm] at this
  exact ae_of_ae_map (measurable_pi_apply i).aemeasurable this

/-- **C226.** Let `p` be the probability that the data of an attempt are near enough. If it is positive, and particles can be perturbed with probability one, then with probability one the iteration returns, given enough
rounds, and the number of simulations that it adds to the counter has mean `n / p` and mean squared deviation `n * (1 - p) / p ^ 2` from there. -/
theorem C226_cost (steps t n : Nat) (pct eps : ℝ) (hmax : above distMax eps = true) (s : State Θ) (hr : Ready steps t n pct eps s) (hA : MeasurableSet (near a dist pdf s.pop eps))
    (hS : MeasurableSet (stuck a pdf s.pop)) (hs : P (stuck a pdf s.pop) = 0) (h0 : P (near a dist pdf s.pop eps) ≠ 0) :
    ∃ c : (ℕ → ℕ → Ω) → ℕ,
      (∀ᵐ ω ∂streams P, ∃ f0, ∀ fuel ≥ f0, ∃ s', pmcStep (attempts a distMax dist pdf kernel held) steps pct fuel t ((List.range n).map fun i => (ω i, 0)) s = some s' ∧ s'.counter = s.counter + c ω) ∧
      ∫ ω, (c ω : ℝ) ∂streams P = n / P.real (near a dist pdf s.pop eps) ∧
      ∫ ω, ((c ω : ℝ) - n / P.real (near a dist pdf s.pop eps)) ^ 2 ∂streams P = n * (1 - P.real (near a dist pdf s.pop eps)) / P.real (near a dist pdf s.pop eps) ^ 2 := by
  refine ⟨fun ω => ∑ i ∈ Finset.range n, needed (near a dist pdf s.pop eps) (ω i), ?_, ?_, ?_⟩
  · filter_upwards [streams_all P hS hs, streams_some P hA h0] with ω h1 h2
    obtain ⟨f0, h3⟩ := C226_iteration a distMax dist pdf kernel held steps t n pct eps hmax s hr ω (fun i _ => h2 i) fun i _ => h1 i
    refine ⟨f0, fun fuel hf => ?_⟩
    obtain ⟨s', r, h4, -, -, h5⟩ := h3 fuel hf
    exact ⟨s', h4, h5⟩
  · have := (C201_moments P (simulated a pdf s.pop) dist eps hA h0 n).1
    simpa only [Nat.cast_sum, near, acceptance] using this
  · have := (C201_moments P (simulated a pdf s.pop) dist eps hA h0 n).2
    simpa only [Nat.cast_sum, near, acceptance] using this

/-- **C226, no acceptance.** If the probability is zero, then with probability one an iteration with at least one particle never returns. -/
theorem C226_never (steps t n : Nat) (hn : 0 < n) (pct eps : ℝ) (hmax : above distMax eps = true) (s : State Θ) (he : s.epsArr[t]? = some (some eps)) (hA : MeasurableSet (near a dist pdf s.pop eps))
    (h0 : P (near a dist pdf s.pop eps) = 0) :
    ∀ᵐ ω ∂streams P, ∀ fuel, pmcStep (attempts a distMax dist pdf kernel held) steps pct fuel t ((List.range n).map fun i => (ω i, 0)) s = none := by
  filter_upwards [streams_all P hA h0] with ω h1 fuel
  have ht := (C226_task a distMax dist pdf kernel held s.pop eps hmax (ω 0)).2 (h1 0) fuel
  have hc : collect (((List.range n).map fun i => (ω i, 0)).map (resampleTask (attempts a distMax dist pdf kernel held) eps s.pop fuel)) = none := by
    rw [collect_eq_none]
    refine List.mem_map.2 ⟨(ω 0, 0), List.mem_map.2 ⟨0, List.mem_range.2 hn, rfl⟩, ht⟩
  unfold pmcStep
  rw [he]
  simp only [hc]
  split <;> rfl

end Law

/-! ### A concrete case -/

/-- The first perturbation is refused by the graph of models, the second is the outcome. -/
def coin : Parts Bool Bool ℝ := { first := id, index := fun _ _ => 0, moved := fun _ _ ω k => if k = 0 then none else some ω, data := fun _ θ => if θ then 0 else 5 }

/-- Two particles, in the second of two iterations. -/
noncomputable def coinState : State Bool := { epsArr := [some 5, some 1], pop := some { params := [false, true], weights := [1 / 2, 1 / 2] }, counter := 2, hist := [] }

theorem coin_proposed (ω : Bool) : proposed coin (fun _ => 1) coinState.pop ω = some ω := by
  have h : ∃ k, Fits (fun _ : Bool => (1 : ℝ)) (coin.moved { params := [false, true], weights := [1 / 2, 1 / 2] } (coin.index [1 / 2, 1 / 2] ω) ω k) := ⟨1, ω, rfl, one_ne_zero⟩
  classical
  have h1 : 0 < Nat.find h := (Nat.find_pos h).2 (by rintro ⟨θ, h, -⟩; cases h)
  simp only [proposed, coinState]
  rw [dif_pos h]
  exact if_neg h1.ne'

/-- The hypotheses hold for a fair coin: two particles at probability one half take four simulations in the mean, with mean squared deviation four. -/
example (P : Measure Bool) [IsProbabilityMeasure P] (h : P {true} = 1 / 2) :
    ∃ c : (ℕ → ℕ → Bool) → ℕ,
      (∀ᵐ ω ∂streams P, ∃ f0, ∀ fuel ≥ f0, ∃ s', pmcStep (attempts coin none id (fun _ => 1) (fun _ _ _ => 1) false) 2 50 fuel 1 ((List.range 2).map fun i => (ω i, 0)) coinState = some s' ∧ s'.counter = 2 + c ω) ∧
      ∫ ω, (c ω : ℝ) ∂streams P = 4 ∧ ∫ ω, ((c ω : ℝ) - 4) ^ 2 ∂streams P = 4 := by
  have e : near coin id (fun _ => 1) coinState.pop 1 = {true} := by
    ext b
    simp only [near, acceptedSet, accepted, simulated, coin_proposed]
    cases b <;> simp [coin]
  have es : stuck coin (fun _ => 1) coinState.pop = ∅ := by
    ext b
    simp [stuck, coin_proposed]
  have hr : Ready 2 1 2 50 1 coinState := ⟨rfl, by rintro p ⟨⟩; exact ⟨rfl, rfl⟩, fun ds _ => by simp [nextEps]⟩
  obtain ⟨c, h1, h2, h3⟩ := C226_cost coin none id (fun _ => 1) (fun _ _ _ => 1) false P 2 1 2 50 1 (by simp [above]) coinState hr (by rw [e]; exact measurableSet_singleton _)
    (by rw [es]; exact MeasurableSet.empty) (by rw [es]; exact measure_empty) (by rw [e, h]; simp)
  rw [e, measureReal_def, h] at h2 h3
  have e4 : (2 : ℕ) / (1 / 2 : ℝ≥0∞).toReal = 4 := by simp; norm_num
  rw [e4] at h2 h3
  refine ⟨c, h1, h2, h3.trans ?_⟩
  simp
  norm_num

/-- Below every distance the iteration never returns. -/
example (P : Measure Bool) [IsProbabilityMeasure P] :
    ∀ᵐ ω ∂streams P, ∀ fuel, pmcStep (attempts coin none id (fun _ => 1) (fun _ _ _ => 1) false) 2 50 fuel 1 ((List.range 2).map fun i => (ω i, 0)) { coinState with epsArr := [some 5, some (-1)] } = none := by
  have e : near coin id (fun _ => 1) coinState.pop (-1) = ∅ := by
    ext b
    simp only [near, acceptedSet, accepted, simulated, coin_proposed]
    cases b
    · simp [coin]
      norm_num
    · simp [coin]
  refine C226_never coin none id (fun _ => 1) (fun _ _ _ => 1) false P 2 1 2 (by norm_num) 50 (-1) (by simp [above]) { coinState with epsArr := [some 5, some (-1)] } rfl ?_ ?_
  · rw [show ({ coinState with epsArr := [some 5, some (-1)] } : State Bool).pop = coinState.pop from rfl, e]; exact MeasurableSet.empty
  · rw [show ({ coinState with epsArr := [some 5, some (-1)] } : State Bool).pop = coinState.pop from rfl, e]; exact measure_empty

end Verif.Pmc
