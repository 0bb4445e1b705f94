import Verif.Mcmc.Adapt
import Verif.Cov.Shape
import Verif.Transform.Props
/-!
# C188: what the adapted matrix of the Metropolis-Hastings sampler is the covariance of
-/
namespace Verif.Mcmc

open Cov Matrix

/-! ### Model -/

/-- `numpy.cov(x, rowvar=False)` for an array with a single row: numpy transposes arrays with more rows only, and takes the entries of the single row for observations of one variable; one entry gives `nan`. -/
noncomputable def singleRow (θ : List ℝ) : Option Arr :=
  if θ.length ≤ 1 then none
  else some ⟨1, fun _ _ => ((θ.map fun x => (x - θ.sum / θ.length) ^ 2).sum) / ((θ.length : ℝ) - 1), []⟩

/-- Lines 4417-4430 of `abcpy/inferences.py` for one continuous kernel on all parameters, each of which is a number: `calculate_cov` (perturbationkernel.py 262-278; no weights are set) of the burn-in states, and
`_compute_accepted_cov_mats`. `none` is a matrix that is not finite. -/
noncomputable def adaptArr (covFactor : ℝ) (states : List (List ℝ)) : Option Arr :=
  (match states with
    | [θ] => singleRow θ
    | _ => covArr (states.map fun (θ : List ℝ) => θ.map fun x => [x]) none).map (acceptedArr covFactor)

/-! ### Specification -/

/-- The sample variance. -/
noncomputable def sampleVar (l : List ℝ) : ℝ := (l.map fun x => (x - l.sum / l.length) ^ 2).sum / ((l.length : ℝ) - 1)

/-- The values of a linear combination of the parameters along a chain. -/
noncomputable def along {d : Nat} (a : Fin d → ℝ) (states : List (List ℝ)) : List ℝ := states.map fun θ => ∑ i, a i * θ.getD i 0

/-- `m` is a matrix for proposals in dimension `d` that gives every linear combination of the parameters `covFactor` times its sample variance along the chain, up to a stabilisation by `10⁻²⁰` times the sum of the variances of the
parameters. -/
def Fits (covFactor : ℝ) (d : Nat) (states : List (List ℝ)) (m : Arr) : Prop :=
  m.shape = [d, d] ∧ ∃ C : Matrix (Fin d) (Fin d) ℝ, m = ⟨d, C, m.shape⟩ ∧
    ∀ a : Fin d → ℝ, a ⬝ᵥ (C *ᵥ a) = covFactor * sampleVar (along a states) + 1 / 10 ^ 20 * (∑ i : Fin d, sampleVar (along (Pi.single i (1 : ℝ)) states)) * ∑ i, a i ^ 2

/-! ### Proofs -/

theorem variance_ones (l : List ℝ) (h : 2 ≤ l.length) : variance (l.map fun x => (1, x)) = sampleVar l := by
  have h0 : (l.length : ℝ) ≠ 0 := by
    have : l.length ≠ 0 := by omega
    exact_mod_cast this
  have hm : Cov.mean (l.map fun x => ((1 : ℝ), x)) = l.sum / l.length := by
    simp [Cov.mean, Function.comp_def]
  rw [variance, hm, sampleVar]
  simp only [List.map_map, Function.comp_def, one_mul, List.map_const', List.sum_replicate, nsmul_eq_mul, mul_one, one_pow, div_self h0]

theorem flatten_single (θ : List ℝ) : (θ.map fun x => [x]).flatten = θ := by
  induction θ <;> simp_all

theorem zip_replicate {β : Type} (l : List β) : (List.replicate l.length (1 : ℝ)).zip l = l.map fun x => (1, x) := by
  induction l with
  | nil => rfl
  | cons x l ih => simp [List.replicate_succ, ih]

theorem adaptArr_two (covFactor : ℝ) (states : List (List ℝ)) (h2 : 2 ≤ states.length) :
    adaptArr covFactor states = (covArr (states.map fun (θ : List ℝ) => θ.map fun x => [x]) none).map (acceptedArr covFactor) := by
  match states, h2 with
  | _ :: _ :: _, _ => rfl

theorem adaptArr_eq (covFactor : ℝ) (states : List (List ℝ)) (d : Nat) (hd : ∀ θ ∈ states, θ.length = d) (h2 : 2 ≤ states.length) :
    ∃ C : Matrix (Fin d) (Fin d) ℝ, adaptArr covFactor states = some (acceptedArr covFactor ⟨d, C, if d = 1 then [] else [d, d]⟩) ∧ ∀ a : Fin d → ℝ, a ⬝ᵥ (C *ᵥ a) = sampleVar (along a states) := by
  set table := states.map fun θ => θ.map fun x => [x] with ht
  have hlen : table.length = states.length := by simp [ht]
  have hd' : ∀ b ∈ table, b.flatten.length = d := by
    intro b hb
    obtain ⟨θ, h1, rfl⟩ := List.mem_map.1 hb
    rw [flatten_single]
    exact hd θ h1
  have hne : table ≠ [] := by
    intro h
    rw [h] at hlen
    simp at hlen
    omega
  obtain ⟨C, e1, -, e3⟩ := C121 table (List.replicate table.length 1) d hd' (by simp) (fun a ha => by rw [(List.mem_replicate.1 ha).2]; norm_num) (by
    rw [List.filter_eq_self.2 (fun a ha => by rw [(List.mem_replicate.1 ha).2]; norm_num)]
    simp [hlen, h2])
  refine ⟨C, ?_, fun a => ?_⟩
  · rw [adaptArr_two covFactor states h2, ← ht, covArr, C121_unweighted table d hne hd', e1]
    rfl
  · rw [e3, zip_replicate, List.map_map]
    have : (List.map ((fun p : ℝ × List (List ℝ) => (p.1, ∑ i : Fin d, a i * p.2.flatten.getD i 0)) ∘ fun x => (1, x)) table) = (along a states).map fun x => (1, x) := by
      rw [ht, along, List.map_map, List.map_map]
      refine List.map_congr_left fun θ _ => ?_
      simp only [Function.comp, flatten_single]
    rw [this, variance_ones _ (by simp [along, h2])]

theorem along_single {d : Nat} (i : Fin d) (states : List (List ℝ)) : along (Pi.single i (1 : ℝ)) states = states.map fun θ => θ.getD i 0 := by
  refine List.map_congr_left fun θ _ => ?_
  rw [Finset.sum_eq_single i (fun j _ hj => by simp [Pi.single_eq_of_ne hj]) (by simp)]
  simp

/-- **C188, partial.** Without bounds, from two states on: the matrix that later proposals are made with is the factor times the sample covariance of the chain, stabilised. Missing: bounds (`C188_bounds_violated`) and an adaptation
after the first step (`C188_first_violated`). -/
theorem C188_partial (covFactor : ℝ) (states : List (List ℝ)) (d : Nat) (hd : ∀ θ ∈ states, θ.length = d) (h2 : 2 ≤ states.length) :
    ∃ m, adaptArr covFactor states = some m ∧ Fits covFactor d states m := by
  obtain ⟨C, e1, e2⟩ := adaptArr_eq covFactor states d hd h2
  refine ⟨_, e1, ?_, acceptedCov covFactor C, rfl, fun a => ?_⟩
  · by_cases h : d = 1
    · simp [acceptedArr, h]
    · have : d * d ≠ 1 := fun h' => h (Nat.eq_one_of_mul_eq_one_left h')
      simp [acceptedArr, h, this]
  · have ht : C.trace = ∑ i : Fin d, sampleVar (along (Pi.single i (1 : ℝ)) states) := by
      rw [Matrix.trace]
      refine Finset.sum_congr rfl fun i _ => ?_
      rw [← e2]
      simp
    rw [acceptedCov_form, add_mulVec, dotProduct_add, smul_mulVec, dotProduct_smul, e2, smul_mulVec, one_mulVec, dotProduct_smul, smul_eq_mul, smul_eq_mul, ht]
    congr 2
    exact Finset.sum_congr rfl fun i _ => by ring

/-- **C188, partial, for a call.** In a call that returns (without bounds, `path` are the states of the chain in the space of the proposals): after every step of the schedule from the second one on whose proposal has positive prior
density, the matrix of the next proposals fits all the states so far. -/
theorem C188_call_partial {W T : Type} (env : Env W ℝ T (Option Arr)) (covFactor : ℝ) (ha : env.adapt = adaptArr covFactor) (a : Args ℝ (Option Arr)) (w w' : W) (counter : Nat) (j : Jrn ℝ (Option Arr))
    (h : fresh env a w counter = some (w', j)) :
    ∃ (r : Run ℝ) (c : Option Arr) (covs : List (Option Arr)), j.chain = r.states ∧ r.Ok env a ∧ Schedule env a.interval (fun m => env.pdf m.prop = 0) r c covs ∧
      ∀ d, (∀ θ ∈ path r, θ.length = d) → ∀ (k : Nat) (m : Move ℝ), r.moves[k]? = some m → AdaptsAt r.burnin a.interval k → env.pdf m.prop ≠ 0 → 1 ≤ k →
        ∃ M, covs[k + 1]? = some (some M) ∧ Fits covFactor d ((path r).take (k + 1)) M := by
  obtain ⟨r, c, h1, ⟨h2, covs, h3, -⟩, -⟩ := C135_fresh_partial env a w w' counter j h
  refine ⟨r, c, covs, h1, h2, h3, fun d hd k m hk had hz hk1 => ?_⟩
  have hlt : k < r.moves.length := by
    by_contra hge
    rw [List.getElem?_eq_none (by omega)] at hk
    cases hk
  obtain ⟨M, e1, e2⟩ := C188_partial covFactor ((path r).take (k + 1)) d (fun θ hθ => hd θ (List.mem_of_mem_take hθ)) (by rw [List.length_take, path_length]; omega)
  exact ⟨M, by rw [h3.adapted k m hk had hz, ha, e1], e2⟩

/-! ### Violations -/

theorem sampleVar_pair (x y : ℝ) : sampleVar [x, y] = (y - x) ^ 2 / 2 := by
  simp [sampleVar]
  ring

/-- A parameter above zero and one without bounds. -/
def half : List Transform.Bound := [(some 0, none), (none, none)]

theorem half_transform (f32 : ℝ → ℝ) (h0 : f32 0 = 0) (s : ℝ) : Transform.transform f32 half ([Real.exp s, 0].map .real) = .ok ([s, 0].map .real) := by
  have := Real.exp_pos s
  have hr : ¬ Real.exp s ≤ 0 := not_le.2 this
  simp [Transform.transform, half, Transform.refused, Transform.fwd, collect, Transform.unsqueeze, Transform.store, Transform.Num.isInt, Transform.Num.val, h0, this, hr]

/-- **C188, violated by bounds.** With bounds the proposals are made in the transformed space, but the matrix is computed from the states before the transformation: for every `R` there is a chain for which the matrix fits the
states, does not fit the transformed states, and the variance of the first parameter is more than `R` times its variance in the transformed space. -/
theorem C188_bounds_violated (f32 : ℝ → ℝ) (h0 : f32 0 = 0) (covFactor : ℝ) (hf : 0 < covFactor) (R : ℝ) :
    ∃ states ts : List (List ℝ), List.Forall₂ (fun θ t : List ℝ => Transform.transform f32 half (θ.map .real) = .ok (t.map .real)) states ts ∧
      ∃ m, adaptArr covFactor states = some m ∧ Fits covFactor 2 states m ∧ ¬ Fits covFactor 2 ts m ∧
        R * sampleVar (along (Pi.single (0 : Fin 2) (1 : ℝ)) ts) < sampleVar (along (Pi.single (0 : Fin 2) (1 : ℝ)) states) := by
  set r := max R 1 with hr
  have hr1 : 1 ≤ r := le_max_right _ _
  have hrR : R ≤ r := le_max_left _ _
  set s := 2 * r with hs
  have hexp := Real.quadratic_le_exp_of_nonneg (x := s) (by positivity)
  refine ⟨[[Real.exp 0, 0], [Real.exp s, 0]], [[0, 0], [s, 0]], .cons (half_transform f32 h0 0) (.cons (half_transform f32 h0 s) .nil), ?_⟩
  obtain ⟨m, e1, e2⟩ := C188_partial covFactor [[Real.exp 0, 0], [Real.exp s, 0]] 2 (by simp) (by simp)
  have v1 : sampleVar (along (Pi.single (0 : Fin 2) (1 : ℝ)) [[Real.exp 0, 0], [Real.exp s, 0]]) = (Real.exp s - 1) ^ 2 / 2 := by
    rw [along_single]; simp [sampleVar_pair]
  have v2 : sampleVar (along (Pi.single (0 : Fin 2) (1 : ℝ)) [[0, 0], [s, 0]]) = s ^ 2 / 2 := by
    rw [along_single]; simp [sampleVar_pair]
  have v3 : sampleVar (along (Pi.single (1 : Fin 2) (1 : ℝ)) [[Real.exp 0, 0], [Real.exp s, 0]]) = 0 := by
    rw [along_single]; simp [sampleVar_pair]
  have v4 : sampleVar (along (Pi.single (1 : Fin 2) (1 : ℝ)) [[0, 0], [s, 0]]) = 0 := by
    rw [along_single]; simp [sampleVar_pair]
  have hlt : r * (s ^ 2 / 2) < (Real.exp s - 1) ^ 2 / 2 := by
    have h1 : s * (1 + r) ≤ Real.exp s - 1 := by rw [hs] at hexp ⊢; nlinarith
    have h2 : (s * (1 + r)) ^ 2 ≤ (Real.exp s - 1) ^ 2 := pow_le_pow_left₀ (by positivity) h1 2
    have h3 : 0 < s ^ 2 := by positivity
    nlinarith
  have hV : s ^ 2 / 2 < (Real.exp s - 1) ^ 2 / 2 := lt_of_le_of_lt (by nlinarith [sq_nonneg s]) hlt
  refine ⟨m, e1, e2, ?_, ?_⟩
  · rintro ⟨-, C', hC', q'⟩
    obtain ⟨-, C, hC, q⟩ := e2
    rw [hC'] at hC
    obtain rfl : C' = C := by simpa using hC
    have h1 := q (Pi.single 0 1)
    rw [q' (Pi.single 0 1)] at h1
    simp only [Fin.sum_univ_two, v1, v2, v3, v4, add_zero] at h1
    simp at h1
    nlinarith
  · rw [v1, v2]
    exact lt_of_le_of_lt (mul_le_mul_of_nonneg_right hrR (by positivity)) hlt

theorem step_cur {W α T Cov : Type} {env : Env W α T Cov} {burnin k : Nat} {interval : Option Nat} {s s' : State W α T Cov} {θ : List α}
    (h : step env burnin interval k s = some s') (hp : env.inv (env.propose s.cov s.curT s.w).2 = some θ) : s'.cur = s.cur ∨ s'.cur = θ := by
  unfold step at h
  simp only [hp] at h
  by_cases hz : env.pdf θ = 0
  · rw [if_pos hz] at h
    simp only [Option.some.injEq] at h
    subst h
    left
    unfold State.record
    split <;> rfl
  · rw [if_neg hz] at h
    cases hj : env.jac θ with
    | none => simp [hj] at h
    | some lj =>
      simp only [hj] at h
      generalize hs : (if accepts _ _ _ _ _ _ _ = true then (_ : State W α T Cov) else _) = s1 at h
      have h1 : s1.cur = s.cur ∨ s1.cur = θ := by
        rw [← hs]; split
        · exact .inr rfl
        · exact .inl rfl
      have h2 : (s1.record burnin k).cur = s1.cur := by unfold State.record; split <;> rfl
      have h3 : s'.cur = (s1.record burnin k).cur := by
        unfold State.adaptCov at h
        split at h
        · simp only [Option.some.injEq] at h; rw [h]
        · split at h
          · simp only [Option.some.injEq] at h; rw [h]
          · split at h
            · simp at h
            · split at h <;> (simp only [Option.some.injEq] at h; rw [← h])
      rw [h3, h2]
      exact h1

/-- **C188, violated by an adaptation after the first step.** With the interval one and two or more parameters, a call raises unless its first proposal has prior density zero: the matrix computed from the first state has one row, and
the generator refuses to draw with it (`hr`). -/
theorem C188_first_violated {W T : Type} (env : Env W ℝ T (Option Arr)) (covFactor : ℝ) (d : Nat) (h2 : 2 ≤ d) (ha : env.adapt = adaptArr covFactor)
    (hr : ∀ c t w, (∀ m, c = some m → m.shape ≠ [d, d]) → env.inv (env.propose c t w).2 = none) (hd : ∀ t θ, env.inv t = some θ → θ.length = d)
    (a : Args ℝ (Option Arr)) (h1 : a.interval = some 1) (hb : 0 < a.burnin) (hn : 2 ≤ a.burnin + a.n) (w : W) (counter : Nat) (hini : (initial env a w).2.length = d)
    (hpos : ∀ θ t, env.tr (initial env a w).2 = some t →
      env.inv (env.propose (a.cov.getD (env.eye t)) t (env.loglik (initial env a w).2 (initial env a w).1).1).2 = some θ → env.pdf θ ≠ 0) :
    fresh env a w counter = none := by
  unfold fresh
  simp only
  cases hbeg : begin_ env (env.loglik (initial env a w).2 (initial env a w).1).1 (initial env a w).2 (env.loglik (initial env a w).2 (initial env a w).1).2 a.cov (if a.burnin = 0 then [(initial env a w).2] else []) 0 (counter + 1) with
  | none => rfl
  | some s0 =>
    simp only
    obtain ⟨n, hn'⟩ := Nat.exists_eq_add_of_le hn
    have hloop : loop env a.burnin a.interval (List.range (a.burnin + a.n)) s0 = none := by
      rw [hn', List.range_eq_range', show 2 + n = n + 1 + 1 by omega, List.range'_succ, List.range'_succ, loop]
      cases hs : step env a.burnin a.interval 0 s0 with
      | none => rfl
      | some s1 =>
        simp only [loop]
        have hs0 : s0.cur = (initial env a w).2 ∧ s0.burn = [] ∧ ∃ t, env.tr (initial env a w).2 = some t ∧ s0.curT = t ∧ s0.cov = a.cov.getD (env.eye t) ∧ s0.w = (env.loglik (initial env a w).2 (initial env a w).1).1 := by
          unfold begin_ at hbeg
          cases ht : env.tr (initial env a w).2 with
          | none => simp [ht] at hbeg
          | some t =>
            cases hj : env.jac (initial env a w).2 with
            | none => simp [ht, hj] at hbeg
            | some lj =>
              simp only [ht, hj, Option.some.injEq] at hbeg
              subst hbeg
              exact ⟨rfl, by simp; omega, t, rfl, rfl, rfl, rfl⟩
        obtain ⟨c1, c2, t, c3, c4, c5, c6⟩ := hs0
        cases hp : env.inv (env.propose s0.cov s0.curT s0.w).2 with
        | none => unfold step at hs; simp [hp] at hs
        | some θ =>
          have hz : env.pdf θ ≠ 0 := hpos θ t c3 (by rw [c5, c4, c6] at hp; exact hp)
          obtain ⟨b1, b2, -⟩ := step_cov hs hp
          rw [if_neg (by omega), c2, List.nil_append] at b1
          have hcov := b2 ⟨hb, 1, h1, by simp⟩ hz
          have hlen : s1.cur.length = d := by
            rcases step_cur hs hp with e | e
            · rw [e, c1]; exact hini
            · rw [e]; exact hd _ _ hp
          rw [ha, b1] at hcov
          have hnone : env.inv (env.propose s1.cov s1.curT s1.w).2 = none := by
            refine hr _ _ _ fun m hm => ?_
            rw [hcov, adaptArr, singleRow, if_neg (by omega)] at hm
            simp only [Option.map_some, Option.some.injEq] at hm
            subst hm
            simp [acceptedArr]
            omega
          have : step env a.burnin a.interval (0 + 1) s1 = none := by
            unfold step
            simp [hnone]
          rw [this]
    rw [hloop]

open Classical in
/-- A sampler for two parameters with a flat prior that proposes to stay where it is, if the matrix has the right shape. -/
noncomputable def stayEnv : Env Unit ℝ (Option (List ℝ)) (Option Arr) where
  names := ["a", "b"]
  prior w := (w, [0, 1])
  pdf _ := 1
  loglik _ w := (w, 0)
  tr θ := some (some θ)
  inv t := t.bind fun θ => if θ.length = 2 then some θ else none
  jac _ := some 0
  propose c t w := (w, if ∃ m, c = some m ∧ m.shape = [2, 2] then t else none)
  unif w := (w, 0)
  adapt := adaptArr 1
  eye _ := some ⟨2, 1, [2, 2]⟩

/-- A call with the interval two returns, the same call with the interval one does not. -/
example : (fresh stayEnv ⟨1, 2, none, none, some 2⟩ () 0).isSome ∧ fresh stayEnv ⟨1, 2, none, none, some 1⟩ () 0 = none := by
  constructor
  · have h2 : ∃ m, adaptArr 1 [[0, 1], [0, 1]] = some m ∧ m.shape = [2, 2] := by
      obtain ⟨m, e1, e2, -⟩ := C188_partial 1 [[0, 1], [0, 1]] 2 (by simp) (by simp)
      exact ⟨m, e1, e2⟩
    obtain ⟨m, e1, e2⟩ := h2
    norm_num [fresh, stayEnv, initial, begin_, loop, step, State.record, State.adaptCov, accepts, alpha, List.range_succ, e1, e2]
  · refine C188_first_violated stayEnv 1 2 le_rfl rfl (fun c t w h => ?_) (fun t θ h => ?_) _ rfl (by simp) (by simp) _ _ rfl (fun _ _ _ _ => one_ne_zero)
    · have : ¬ ∃ m, c = some m ∧ m.shape = [2, 2] := fun ⟨m, h1, h2⟩ => h m h1 h2
      simp [stayEnv, this]
    · simp only [stayEnv, Option.bind_eq_some_iff] at h
      obtain ⟨x, -, h⟩ := h
      split at h
      · rename_i hx; rw [← Option.some.inj h]; exact hx
      · cases h

end Verif.Mcmc
