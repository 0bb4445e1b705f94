import Verif.Nan.McmcProps
import Verif.PmcLik.Run
/-
`PMC` with log-likelihoods that may be infinite or NaN: C200. Proposals, priors, kernels and generators are those of `Verif.PmcLik`; their densities are real numbers.
-/
namespace Verif.Nan.PmcLik

open Verif.Pmc (Pop normalise)
open Verif.PmcLik (Env proposals mixture initial)

variable {M W Θ Y : Type}

/-- Particles with weights that may be NaN. -/
structure NPop (Θ : Type) where
  params : List Θ
  weights : List Num

/-! ### Arithmetic -/

/-- `np.maximum`. -/
noncomputable def max2 : Num → Num → Num
  | .nan, _ => .nan
  | _, .nan => .nan
  | .inf, _ => .inf
  | _, .inf => .inf
  | .num x, .num y => .num (max x y)
  | .negInf, b => b
  | a, .negInf => a

/-- `np.max` of an array that is not empty. -/
noncomputable def npMax (l : List Num) : Num := l.foldr max2 .negInf

/-- `np.sum`. -/
noncomputable def total (l : List Num) : Num := l.foldr Num.add (.num 0)

/-- `a / b` of numpy. -/
noncomputable def div : Num → Num → Num
  | a, .num p => a.divReal p
  | .num _, .inf => .num 0
  | .num _, .negInf => .num 0
  | _, _ => .nan

/-- The new weights, lines 1312-1340, as `Pmc.pmcWeights`. -/
noncomputable def weights (particles : List (Num × ℝ × ℝ)) : List Num :=
  let logw := particles.map fun e => (Num.num (Real.log (1 * e.2.1 / e.2.2))).add ((Num.num (Real.log e.2.1)).add e.1)
  let m := npMax logw
  let es := logw.map fun x => (x.add m.neg).exp
  es.map fun x => div x (total es)

/-! ### The run -/

/-- Weights that are numbers. -/
def reals (l : List Num) : Option (List ℝ) := collect (l.map fun x => match x with | .num x => some x | _ => none)

/-- An iteration, lines 1290-1370, as `PmcLik.step`. `rng.choice` (1292) raises if a weight is NaN. Weights that are infinite do not occur (`weights_cases`). -/
noncomputable def step (env : Env M W Θ Y) (loglik : Y → Num) (n fuel : Nat) (m : M) (p : NPop Θ) : Option (M × NPop Θ) :=
  if p.params.length = n ∧ p.weights.length = n then
    match reals p.weights with
    | none => none
    | some ws =>
      let c := env.choose ws n m
      match proposals env ⟨p.params, ws⟩ fuel c.2 c.1 with
      | none => none
      | some (m, l) =>
        let s := env.seeds n m
        some (s.1, ⟨l, weights (List.zipWith (fun θ w => (loglik (env.sim θ w), env.pdf θ, mixture env ⟨p.params, ws⟩ θ)) l s.2)⟩)
  else none

structure Journal (Θ : Type) where
  full : Bool
  pops : List (NPop Θ)
  sims : List Nat

/-- Lines 1375-1383. -/
def write (full : Bool) (steps t : Nat) (p : NPop Θ) (counter : Nat) (j : Journal Θ) : Journal Θ :=
  if full ∨ t + 1 = steps then { j with pops := if j.full then j.pops ++ [p] else [p], sims := j.sims ++ [counter] } else j

/-- Lines 1258-1386, as `PmcLik.loop`. The covariance matrices of a population whose weights are NaN (1363-1365) are NaN; computing them does not raise. -/
noncomputable def loop (env : Env M W Θ Y) (loglik : Y → Num) (n steps fuel : Nat) (full : Bool) : Nat → Nat → M → NPop Θ → Nat → Journal Θ → Option (M × List (NPop Θ) × Nat × Journal Θ)
  | 0, _, m, _, c, j => some (m, [], c, j)
  | k + 1, t, m, p, c, j => match step env loglik n fuel m p with
    | none => none
    | some (m, q) =>
      (loop env loglik n steps fuel full k (t + 1) m q (c + n * env.perParam) (write full steps t q (c + n * env.perParam) j)).map fun r => (r.1, q :: r.2.1, r.2.2.1, r.2.2.2)

/-- `PMC.sample` without initial points, lines 1190-1388, as `PmcLik.sample`. -/
noncomputable def sample (env : Env M W Θ Y) (loglik : Y → Num) (n steps fuel : Nat) (full : Bool) (m : M) (counter : Nat) (file : Option (Journal Θ)) : Option (M × List (NPop Θ) × Nat × Journal Θ) :=
  let r := initial env n (env.prior m).1
  match file with
  | none => loop env loglik n steps fuel full steps 0 r.1 ⟨r.2, List.replicate n (.num (1 / (n : ℝ)))⟩ counter ⟨full, [], []⟩
  | some j => if steps = 0 then some (r.1, [], counter, j) else match j.pops.getLast? with
    | none => none
    | some p => loop env loglik n steps fuel full steps 0 r.1 p counter j

/-! ### Specification -/

/-- The likelihood: zero for a log-likelihood of minus infinity. -/
noncomputable def likelihood : Num → ℝ
  | .num x => Real.exp x
  | _ => 0

/-- No log-likelihood is NaN or plus infinity, and one of them is a number: the likelihoods are numbers that are not all zero. -/
def Fine (l : List Num) : Prop := (∀ x ∈ l, x ≠ .nan ∧ x ≠ .inf) ∧ ∃ x, .num x ∈ l

/-! ### Weights -/

theorem npMax_nan (l : List Num) (h : .nan ∈ l) : npMax l = .nan := by
  induction l with
  | nil => simp at h
  | cons a l ih =>
    unfold npMax at ih ⊢
    rw [List.foldr_cons]
    rcases List.mem_cons.1 h with h | h
    · rw [← h]; generalize List.foldr _ _ _ = x; cases x <;> rfl
    · rw [ih h]; cases a <;> rfl

theorem npMax_inf (l : List Num) (h : .inf ∈ l) : npMax l = .inf ∨ npMax l = .nan := by
  induction l with
  | nil => simp at h
  | cons a l ih =>
    unfold npMax at ih ⊢
    rw [List.foldr_cons]
    rcases List.mem_cons.1 h with h | h
    · rw [← h]; generalize List.foldr _ _ _ = x; cases x <;> simp [max2]
    · rcases ih h with ih | ih <;> rw [ih] <;> cases a <;> simp [max2]

theorem npMax_negInf (l : List Num) (h : ∀ x ∈ l, x = .negInf) : npMax l = .negInf := by
  induction l with
  | nil => rfl
  | cons a l ih =>
    have h1 := h a (by simp)
    have h2 := ih fun x hx => h x (by simp [hx])
    unfold npMax at h2 ⊢
    rw [List.foldr_cons, h1, h2]
    rfl

theorem npMax_num (l : List Num) (h : Fine l) : ∃ m, npMax l = .num m := by
  suffices hh : ∀ l : List Num, (∀ x ∈ l, x ≠ .nan ∧ x ≠ .inf) → (∃ m, npMax l = .num m) ∨ (npMax l = .negInf ∧ ∀ x ∈ l, x = .negInf) by
    rcases hh l h.1 with h1 | ⟨-, h1⟩
    · exact h1
    · obtain ⟨x, hx⟩ := h.2
      cases h1 _ hx
  intro l hl
  induction l with
  | nil => exact Or.inr ⟨rfl, by simp⟩
  | cons a l ih =>
    obtain ⟨h1, h2⟩ := hl a (by simp)
    have ih := ih fun x hx => hl x (by simp [hx])
    unfold npMax at ih ⊢
    rw [List.foldr_cons]
    rcases ih with ⟨m, hm⟩ | ⟨hm, h3⟩
    · rw [hm]
      cases a with
      | num x => exact Or.inl ⟨_, rfl⟩
      | inf => exact absurd rfl h2
      | negInf => exact Or.inl ⟨_, rfl⟩
      | nan => exact absurd rfl h1
    · rw [hm]
      cases a with
      | num x => exact Or.inl ⟨_, rfl⟩
      | inf => exact absurd rfl h2
      | negInf => exact Or.inr ⟨rfl, by simpa using h3⟩
      | nan => exact absurd rfl h1

theorem total_nan (l : List Num) (h : .nan ∈ l) : total l = .nan := by
  induction l with
  | nil => simp at h
  | cons a l ih =>
    unfold total at ih ⊢
    rw [List.foldr_cons]
    rcases List.mem_cons.1 h with h | h
    · rw [← h]; generalize List.foldr _ _ _ = x; cases x <;> rfl
    · rw [ih h]; cases a <;> rfl

theorem total_num (l : List ℝ) : total (l.map .num) = .num l.sum := by
  induction l with
  | nil => rfl
  | cons a l ih =>
    unfold total at ih ⊢
    rw [List.map_cons, List.foldr_cons, ih, List.sum_cons]
    rfl

theorem div_nan (x : Num) : div x .nan = .nan := by cases x <;> rfl

theorem logw_cases (a b : ℝ) (x : Num) : ((Num.num a).add ((Num.num b).add x) = .nan ↔ x = .nan) ∧ ((Num.num a).add ((Num.num b).add x) = .inf ↔ x = .inf) ∧
    ((Num.num a).add ((Num.num b).add x) = .negInf ↔ x = .negInf) := by
  cases x <;> simp [Num.add]

/-- C200 fails: one particle whose log-likelihood is NaN or plus infinity makes all weights NaN; so do log-likelihoods that are all minus infinity. -/
theorem C200_weights_violated (particles : List (Num × ℝ × ℝ)) (h : ¬ Fine (particles.map Prod.fst)) : weights particles = List.replicate particles.length .nan := by
  have key : particles ≠ [] → .nan ∈ (particles.map fun e => (Num.num (Real.log (1 * e.2.1 / e.2.2))).add ((Num.num (Real.log e.2.1)).add e.1)).map
      (fun x => (x.add (npMax (particles.map fun e => (Num.num (Real.log (1 * e.2.1 / e.2.2))).add ((Num.num (Real.log e.2.1)).add e.1))).neg).exp) := by
    intro hne
    generalize hl : (particles.map fun e => (Num.num (Real.log (1 * e.2.1 / e.2.2))).add ((Num.num (Real.log e.2.1)).add e.1)) = l
    have hmem : ∀ e ∈ particles, (Num.num (Real.log (1 * e.2.1 / e.2.2))).add ((Num.num (Real.log e.2.1)).add e.1) ∈ l := fun e he => hl ▸ List.mem_map_of_mem he
    by_cases h1 : ∃ e ∈ particles, e.1 = .nan
    · obtain ⟨e, he, h1⟩ := h1
      have h2 := hmem e he
      rw [(logw_cases _ _ _).1.2 h1] at h2
      exact List.mem_map.2 ⟨_, h2, by simp [Num.add, Num.exp]⟩
    · by_cases h2 : ∃ e ∈ particles, e.1 = .inf
      · obtain ⟨e, he, h2⟩ := h2
        have h3 := hmem e he
        rw [(logw_cases _ _ _).2.1.2 h2] at h3
        refine List.mem_map.2 ⟨_, h3, ?_⟩
        rcases npMax_inf l h3 with hm | hm <;> rw [hm] <;> rfl
      · have h3 : ∀ e ∈ particles, e.1 = .negInf := by
          intro e he
          rcases he1 : e.1 with x | _ | _ | _
          · refine absurd ⟨?_, x, ?_⟩ h
            · intro y hy
              obtain ⟨e', he', rfl⟩ := List.mem_map.1 hy
              exact ⟨fun hh => h1 ⟨e', he', hh⟩, fun hh => h2 ⟨e', he', hh⟩⟩
            · exact List.mem_map.2 ⟨e, he, he1⟩
          · exact absurd ⟨e, he, he1⟩ h2
          · rfl
          · exact absurd ⟨e, he, he1⟩ h1
        obtain ⟨e, he⟩ := List.exists_mem_of_ne_nil _ hne
        have h4 : ∀ x ∈ l, x = .negInf := by
          intro x hx
          rw [← hl] at hx
          obtain ⟨e, he, rfl⟩ := List.mem_map.1 hx
          exact (logw_cases _ _ _).2.2.2 (h3 e he)
        refine List.mem_map.2 ⟨_, hmem e he, ?_⟩
        rw [npMax_negInf l h4, h4 _ (hmem e he)]
        rfl
  by_cases hne : particles = []
  · subst hne; rfl
  · unfold weights
    simp only
    rw [total_nan _ (key hne)]
    refine List.eq_replicate_iff.2 ⟨by simp, ?_⟩
    intro x hx
    obtain ⟨y, -, rfl⟩ := List.mem_map.1 hx
    exact div_nan y

/-- C200 holds for likelihoods that are zero: otherwise the weights are the ones that PMC uses (C41), with likelihood zero for particles whose log-likelihood is minus infinity. They are numbers and sum to one. -/
theorem C200_weights (particles : List (Num × ℝ × ℝ)) (hp : ∀ e ∈ particles, 0 < e.2.1 ∧ 0 < e.2.2) (h : Fine (particles.map Prod.fst)) :
    weights particles = (normalise (particles.map fun e => e.2.1 ^ 2 * likelihood e.1 / e.2.2)).map .num ∧ 0 < (particles.map fun e => e.2.1 ^ 2 * likelihood e.1 / e.2.2).sum := by
  have hnn : ∀ x ∈ particles.map (fun e => e.2.1 ^ 2 * likelihood e.1 / e.2.2), 0 ≤ x := by
    intro x hx
    obtain ⟨e, he, rfl⟩ := List.mem_map.1 hx
    obtain ⟨h1, h2⟩ := hp e he
    have : 0 ≤ likelihood e.1 := by unfold likelihood; split <;> positivity
    positivity
  have hs : 0 < (particles.map fun e => e.2.1 ^ 2 * likelihood e.1 / e.2.2).sum := by
    obtain ⟨x, hx⟩ := h.2
    obtain ⟨e, he, he1⟩ := List.mem_map.1 hx
    obtain ⟨h1, h2⟩ := hp e he
    refine lt_of_lt_of_le ?_ (List.single_le_sum hnn _ (List.mem_map.2 ⟨e, he, rfl⟩))
    rw [he1, likelihood]
    positivity
  refine ⟨?_, hs⟩
  obtain ⟨m, hm⟩ : ∃ m, npMax (particles.map fun e => (Num.num (Real.log (1 * e.2.1 / e.2.2))).add ((Num.num (Real.log e.2.1)).add e.1)) = .num m := by
    refine npMax_num _ ⟨?_, ?_⟩
    · intro x hx
      obtain ⟨e, he, rfl⟩ := List.mem_map.1 hx
      obtain ⟨h1, h2⟩ := h.1 e.1 (List.mem_map_of_mem he)
      exact ⟨fun hh => h1 ((logw_cases _ _ _).1.1 hh), fun hh => h2 ((logw_cases _ _ _).2.1.1 hh)⟩
    · obtain ⟨x, hx⟩ := h.2
      obtain ⟨e, he, he1⟩ := List.mem_map.1 hx
      exact ⟨_, List.mem_map.2 ⟨e, he, by rw [he1]; rfl⟩⟩
  have hes : ((particles.map fun e => (Num.num (Real.log (1 * e.2.1 / e.2.2))).add ((Num.num (Real.log e.2.1)).add e.1)).map fun x => (x.add (Num.num m).neg).exp) =
      ((particles.map fun e => e.2.1 ^ 2 * likelihood e.1 / e.2.2).map (· * Real.exp (-m))).map .num := by
    rw [List.map_map, List.map_map, List.map_map]
    refine List.map_congr_left fun e he => ?_
    obtain ⟨h1, h2⟩ := hp e he
    obtain ⟨g1, g2⟩ := h.1 e.1 (List.mem_map_of_mem he)
    simp only [Function.comp]
    rcases he1 : e.1 with x | _ | _ | _
    · simp only [Num.add, Num.neg, Num.exp, likelihood, Num.num.injEq]
      rw [show Real.log (1 * e.2.1 / e.2.2) + (Real.log e.2.1 + x) + -m = Real.log (1 * e.2.1 / e.2.2) + Real.log e.2.1 + x + -m by ring,
        Real.exp_add, Real.exp_add, Real.exp_add, Real.exp_log (by positivity), Real.exp_log h1]
      ring
    · exact absurd he1 g2
    · simp [Num.add, Num.neg, Num.exp, likelihood]
    · exact absurd he1 g1
  unfold weights
  simp only
  have h0 : ((particles.map fun e => e.2.1 ^ 2 * likelihood e.1 / e.2.2).map (· * Real.exp (-m))).sum ≠ 0 := by
    rw [List.sum_map_mul_right]
    simp only [List.map_id']
    exact (mul_pos hs (Real.exp_pos _)).ne'
  rw [hm, hes, total_num, ← Verif.Pmc.normalise_scale _ (Real.exp (-m)) (Real.exp_pos _).ne', normalise]
  generalize (particles.map fun e => e.2.1 ^ 2 * likelihood e.1 / e.2.2).map (· * Real.exp (-m)) = L at h0 ⊢
  rw [List.map_map, List.map_map]
  refine List.map_congr_left fun x _ => ?_
  simp only [Function.comp, div, Num.divReal]
  rw [if_neg h0]

/-! ### Whole runs -/

open Verif.PmcLik.Spec (Proposals proposalDensity ruleUsed Regular)

/-- One iteration, from the population `p` of `n` particles with weights that are numbers to the population `q`. If the likelihoods of the new particles are numbers that are not all zero, the weights are those of C115, with the likelihood zero
where the log-likelihood is minus infinity. Otherwise all weights are NaN. -/
def NStage (env : Env M W Θ Y) (loglik : Y → Num) (n : Nat) (m m' : M) (p : Pop Θ) (q : NPop Θ) : Prop :=
  ∃ m1 ws, Proposals env p (env.choose p.weights n m).1 m1 (env.choose p.weights n m).2 q.params ∧ env.seeds n m1 = (m', ws) ∧ q.params.length = n ∧
    (Fine (List.zipWith (fun θ w => loglik (env.sim θ w)) q.params ws) → ∃ rs : List ℝ, q.weights = rs.map .num ∧ rs.length = n ∧ rs.sum = 1 ∧ (∀ r ∈ rs, 0 ≤ r) ∧
      ∃ c, c ≠ 0 ∧ ∀ (i : Nat) (θ : Θ) (w : W), q.params[i]? = some θ → ws[i]? = some w →
        rs[i]? = some (ruleUsed (env.pdf θ) (likelihood (loglik (env.sim θ w))) (proposalDensity env p θ) / c)) ∧
    (¬ Fine (List.zipWith (fun θ w => loglik (env.sim θ w)) q.params ws) → q.weights = List.replicate n .nan)

/-- Iterations one after the other. All populations but the last one have weights that are numbers. -/
inductive NChain (env : Env M W Θ Y) (loglik : Y → Num) (n : Nat) : M → M → Pop Θ → List (NPop Θ) → Prop
  | nil (m : M) (p : Pop Θ) : NChain env loglik n m m p []
  | last (m m' : M) (p : Pop Θ) (q : NPop Θ) : NStage env loglik n m m' p q → NChain env loglik n m m' p [q]
  | cons (m m1 m' : M) (p : Pop Θ) (q q' : NPop Θ) (rs : List ℝ) (l : List (NPop Θ)) : NStage env loglik n m m1 p q → q.weights = rs.map .num → NChain env loglik n m1 m' ⟨q.params, rs⟩ (q' :: l) →
      NChain env loglik n m m' p (q :: q' :: l)

theorem reals_map (l : List ℝ) : reals (l.map .num) = some l := by
  unfold reals
  rw [List.map_map]
  exact collect_map_some l

/-- Weights that are not negative, with sum one. -/
structure Proper (n : Nat) (p : Pop Θ) : Prop where
  params : p.params.length = n
  weights : p.weights.length = n
  nonneg : ∀ w ∈ p.weights, 0 ≤ w
  sum : p.weights.sum = 1

theorem mixture_pos (env : Env M W Θ Y) (hR : Regular env) (n : Nat) (p : Pop Θ) (hp : Proper n p) (θ : Θ) : 0 < mixture env p θ := by
  unfold mixture
  have h1 : ∃ w ∈ p.weights, 0 < w := by
    by_contra h
    push Not at h
    have hz : ∀ w ∈ p.weights, w = 0 := fun w hw => le_antisymm (h w hw) (hp.nonneg w hw)
    have := hp.sum
    rw [List.sum_eq_zero hz] at this
    norm_num at this
  obtain ⟨w, hw, h1⟩ := h1
  obtain ⟨i, hi, rfl⟩ := List.mem_iff_getElem.1 hw
  have hi' : i < p.params.length := by rw [hp.params, ← hp.weights]; exact hi
  refine lt_of_lt_of_le (mul_pos h1 (hR.kernel p p.params[i] θ)) (List.single_le_sum ?_ _ ?_)
  · intro x hx
    obtain ⟨j, hj, rfl⟩ := List.mem_iff_getElem.1 hx
    rw [List.getElem_zipWith]
    exact mul_nonneg (hp.nonneg _ (List.getElem_mem _)) (hR.kernel _ _ _).le
  · exact List.mem_iff_getElem.2 ⟨i, by rw [List.length_zipWith]; omega, by rw [List.getElem_zipWith]⟩

theorem step_stage (env : Env M W Θ Y) (loglik : Y → Num) (hR : Regular env) (n fuel : Nat) (m m' : M) (p : Pop Θ) (q : NPop Θ) (hp : Proper n p)
    (h : step env loglik n fuel m ⟨p.params, p.weights.map .num⟩ = some (m', q)) : NStage env loglik n m m' p q ∧ q.weights.length = n ∧ ((∃ rs : List ℝ, q.weights = rs.map .num) → ∃ rs : List ℝ, q.weights = rs.map .num ∧ Proper n ⟨q.params, rs⟩) := by
  unfold step at h
  rw [if_pos ⟨hp.params, by simpa using hp.weights⟩, reals_map] at h
  simp only at h
  split at h
  · cases h
  · rename_i m1 l hl
    simp only [Option.some.injEq, Prod.mk.injEq] at h
    obtain ⟨rfl, rfl⟩ := h
    obtain ⟨e1, e2, e3⟩ := Verif.PmcLik.proposals_spec env p fuel _ _ m1 l hl
    rw [hR.choose] at e2
    have hs := hR.seeds n m1
    generalize hws : (env.seeds n m1).2 = ws at hs
    have hseeds : env.seeds n m1 = ((env.seeds n m1).1, ws) := by rw [← hws]
    have hfst : (List.zipWith (fun θ w => (loglik (env.sim θ w), env.pdf θ, mixture env p θ)) l ws).map Prod.fst = List.zipWith (fun θ w => loglik (env.sim θ w)) l ws := by
      rw [List.map_zipWith]
    have hlen : (List.zipWith (fun θ w => (loglik (env.sim θ w), env.pdf θ, mixture env p θ)) l ws).length = n := by
      rw [List.length_zipWith, e2, hs, Nat.min_self]
    have hpos : ∀ e ∈ List.zipWith (fun θ w => (loglik (env.sim θ w), env.pdf θ, mixture env p θ)) l ws, 0 < e.2.1 ∧ 0 < e.2.2 := by
      intro e he
      obtain ⟨i, hi, rfl⟩ := List.mem_iff_getElem.1 he
      simp only [List.getElem_zipWith]
      exact ⟨lt_of_le_of_ne (hR.pdf _) (e3 _ (List.getElem_mem _)).symm, mixture_pos env hR n p hp _⟩
    have hfine : Fine (List.zipWith (fun θ w => loglik (env.sim θ w)) l ws) → ∃ rs : List ℝ, weights (List.zipWith (fun θ w => (loglik (env.sim θ w), env.pdf θ, mixture env p θ)) l ws) = rs.map .num ∧ rs.length = n ∧ rs.sum = 1 ∧
        (∀ r ∈ rs, 0 ≤ r) ∧ ∃ c, c ≠ 0 ∧ ∀ (i : Nat) (θ : Θ) (w : W), l[i]? = some θ → ws[i]? = some w →
          rs[i]? = some (ruleUsed (env.pdf θ) (likelihood (loglik (env.sim θ w))) (proposalDensity env p θ) / c) := by
      intro hf
      rw [← hfst] at hf
      obtain ⟨w1, w2⟩ := C200_weights _ hpos hf
      have hnn : ∀ x ∈ (List.zipWith (fun θ w => (loglik (env.sim θ w), env.pdf θ, mixture env p θ)) l ws).map (fun e => e.2.1 ^ 2 * likelihood e.1 / e.2.2), 0 ≤ x := by
        intro x hx
        obtain ⟨e, he, rfl⟩ := List.mem_map.1 hx
        obtain ⟨h1, h2⟩ := hpos e he
        have : 0 ≤ likelihood e.1 := by unfold likelihood; split <;> positivity
        positivity
      obtain ⟨n1, n2, n3⟩ := Verif.Pmc.normalise_spec _ hnn w2
      refine ⟨_, w1, by rw [n3, List.length_map, hlen], n2, n1, _, w2.ne', ?_⟩
      intro i θ w hθ hw
      rw [normalise, List.getElem?_map, List.getElem?_map, List.getElem?_zipWith, hθ, hw]
      simp only [Option.map_some, ruleUsed, ← Verif.PmcLik.mixture_eq]
    have hbad : ¬ Fine (List.zipWith (fun θ w => loglik (env.sim θ w)) l ws) → weights (List.zipWith (fun θ w => (loglik (env.sim θ w), env.pdf θ, mixture env p θ)) l ws) = List.replicate n .nan := by
      intro hf
      rw [← hfst] at hf
      rw [C200_weights_violated _ hf, hlen]
    refine ⟨⟨m1, ws, e1, hseeds, e2, hfine, hbad⟩, ?_, ?_⟩
    · simp [weights, e2, hs]
    · rintro ⟨rs, hrs⟩
      by_cases hf : Fine (List.zipWith (fun θ w => loglik (env.sim θ w)) l ws)
      · obtain ⟨rs, a1, a2, a3, a4, -⟩ := hfine hf
        exact ⟨rs, a1, e2, a2, a4, a3⟩
      · have h1 : rs.map Num.num = List.replicate n .nan := hrs.symm.trans (hbad hf)
        have h2 : rs = [] ∧ n = 0 := by
          have hl := congrArg List.length h1
          simp at hl
          cases rs with
          | nil => exact ⟨rfl, by simpa using hl.symm⟩
          | cons a rs =>
            exfalso
            have : Num.num a ∈ List.replicate n Num.nan := by rw [← h1]; simp
            cases List.eq_of_mem_replicate this
        exfalso
        have := hp.sum
        have h3 := hp.weights
        rw [h2.2] at h3
        rw [List.length_eq_zero_iff.1 h3] at this
        norm_num at this

/-- The populations that a call hands to the journal. -/
def handed (full : Bool) (pops : List (NPop Θ)) : List (NPop Θ) := if full then pops else pops.drop (pops.length - 1)

/-- A step raises if a weight is not a number. -/
theorem step_none (env : Env M W Θ Y) (loglik : Y → Num) (n fuel : Nat) (m : M) (p : NPop Θ) (h : ∃ w ∈ p.weights, ∀ x, w ≠ .num x) : step env loglik n fuel m p = none := by
  unfold step
  split
  · have : reals p.weights = none := by
      unfold reals
      obtain ⟨w, hw, h⟩ := h
      refine (collect_eq_none _).2 (List.mem_map.2 ⟨w, hw, ?_⟩)
      cases w with
      | num x => exact absurd rfl (h x)
      | _ => rfl
    rw [this]
  · rfl

theorem weights_cases (l : List (Num × ℝ × ℝ)) (hp : ∀ e ∈ l, 0 < e.2.1 ∧ 0 < e.2.2) : (∃ rs : List ℝ, weights l = rs.map .num) ∨ weights l = List.replicate l.length .nan := by
  by_cases h : Fine (l.map Prod.fst)
  · exact Or.inl ⟨_, (C200_weights l hp h).1⟩
  · exact Or.inr (C200_weights_violated l h)

theorem loop_chain (env : Env M W Θ Y) (loglik : Y → Num) (hR : Regular env) (n steps fuel : Nat) (full : Bool) (k t : Nat) (hk : t + k = steps) : ∀ (m m' : M) (p : Pop Θ) (pops : List (NPop Θ)) (c c' : Nat) (j j' : Journal Θ), Proper n p →
    loop env loglik n steps fuel full k t m ⟨p.params, p.weights.map .num⟩ c j = some (m', pops, c', j') →
    NChain env loglik n m m' p pops ∧ pops.length = k ∧ c' = c + k * (n * env.perParam) ∧ (j.full = true → j'.pops = j.pops ++ handed full pops) ∧ (j.full = false → 0 < k → j'.pops = pops.drop (k - 1)) := by
  induction k generalizing t with
  | zero =>
    intro m m' p pops c c' j j' hp h
    simp only [loop, Option.some.injEq, Prod.mk.injEq] at h
    obtain ⟨rfl, rfl, rfl, rfl⟩ := h
    refine ⟨.nil _ _, rfl, by omega, ?_, by omega⟩
    intro _; unfold handed; split <;> simp
  | succ k ih =>
    intro m m' p pops c c' j j' hp h
    rw [loop] at h
    split at h
    · cases h
    · rename_i m1 q hq
      simp only [Option.map_eq_some_iff, Prod.mk.injEq] at h
      obtain ⟨⟨r1, r2, r3, r4⟩, hr, rfl, rfl, rfl, rfl⟩ := h
      obtain ⟨s1, s2, s3⟩ := step_stage env loglik hR n fuel m m1 p q hp hq
      have hwf : (write full steps t q (c + n * env.perParam) j).full = j.full := by unfold write; split <;> rfl
      cases k with
      | zero =>
        simp only [loop, Option.some.injEq, Prod.mk.injEq] at hr
        obtain ⟨rfl, rfl, rfl, rfl⟩ := hr
        have hw : write full steps t q (c + n * env.perParam) j = { j with pops := if j.full then j.pops ++ [q] else [q], sims := j.sims ++ [c + n * env.perParam] } := by
          unfold write; rw [if_pos (Or.inr (by omega))]
        refine ⟨.last _ _ _ _ s1, rfl, by ring, ?_, ?_⟩
        · intro hf
          rw [hw]
          cases full <;> simp [handed, hf]
        · intro hf _
          rw [hw]
          simp [hf]
      | succ k =>
        have hnum : ∃ rs : List ℝ, q.weights = rs.map .num := by
          by_contra hno
          have hex : ∃ w ∈ q.weights, ∀ x, w ≠ .num x := by
            by_contra hall
            push Not at hall
            apply hno
            refine ⟨q.weights.map fun w => match w with | .num x => x | _ => 0, ?_⟩
            rw [List.map_map]
            conv_lhs => rw [← List.map_id q.weights]
            refine List.map_congr_left fun w hw => ?_
            obtain ⟨x, rfl⟩ := hall w hw
            rfl
          rw [loop, step_none env loglik n fuel m1 q hex] at hr
          cases hr
        obtain ⟨rs, t1, t2⟩ := s3 hnum
        have hq' : q = ⟨q.params, rs.map .num⟩ := by cases q; simp only at t1; rw [t1]
        rw [hq'] at hr
        obtain ⟨i1, i2, i3, i4, i5⟩ := ih (t + 1) (by omega) m1 r1 ⟨q.params, rs⟩ r2 _ _ _ _ t2 hr
        rw [← hq', hwf] at i4 i5
        have hne : ∃ q' l, r2 = q' :: l := by
          cases r2 with
          | nil => simp at i2
          | cons q' l => exact ⟨q', l, rfl⟩
        refine ⟨?_, by simp [i2], by rw [i3]; ring, ?_, ?_⟩
        · obtain ⟨q', l, rfl⟩ := hne
          exact .cons _ _ _ _ _ _ rs _ s1 t1 i1
        · intro hf
          rw [i4 hf]
          unfold write
          by_cases hfl : full = true
          · rw [if_pos (Or.inl hfl)]
            simp [handed, hfl, hf]
          · rw [if_neg (by rw [not_or]; exact ⟨hfl, by omega⟩)]
            unfold handed
            rw [if_neg hfl, if_neg hfl, List.length_cons, Nat.add_sub_cancel, i2]
            rfl
        · intro hf _
          rw [i5 hf (by omega)]
          rfl

/-- **C200, what a run does.** A call without journal file draws `n` particles from the prior, with equal weights, and makes `steps` iterations; in all of them but the last one the likelihoods are numbers that are not all zero, and the weights
are numbers that sum to one. In the last one the weights may be NaN, which happens exactly if a log-likelihood is NaN or plus infinity, or if all are minus infinity. Missing: a particle whose likelihood is not a number does not change the weights
of others, and the run goes on. -/
theorem C200_partial (env : Env M W Θ Y) (loglik : Y → Num) (hR : Regular env) (n steps fuel : Nat) (full : Bool) (hn : 0 < n) (m m' : M) (counter c : Nat) (pops : List (NPop Θ)) (j : Journal Θ)
    (h : sample env loglik n steps fuel full m counter none = some (m', pops, c, j)) :
    ∃ m1 l, l.length = n ∧ Verif.PmcLik.Spec.Draws env (env.prior m).1 m1 l ∧ NChain env loglik n m1 m' ⟨l, List.replicate n (1 / (n : ℝ))⟩ pops ∧ pops.length = steps ∧ c = counter + steps * (n * env.perParam) ∧
      (0 < steps → j.pops = handed full pops) := by
  unfold sample at h
  simp only at h
  obtain ⟨d1, d2⟩ := Verif.PmcLik.initial_draws env n (env.prior m).1
  have hn' : (0 : ℝ) < n := by exact_mod_cast hn
  have hp : Proper n (⟨(initial env n (env.prior m).1).2, List.replicate n (1 / (n : ℝ))⟩ : Pop Θ) := by
    refine ⟨d2, by simp, ?_, ?_⟩
    · intro w hw
      rw [List.eq_of_mem_replicate hw]
      positivity
    · simp only [List.sum_replicate, nsmul_eq_mul]
      field_simp
  rw [show List.replicate n (Num.num (1 / (n : ℝ))) = (List.replicate n (1 / (n : ℝ))).map .num by simp] at h
  obtain ⟨i1, i2, i3, i4, i5⟩ := loop_chain env loglik hR n steps fuel full steps 0 (by omega) _ m' _ pops counter c _ j hp h
  refine ⟨_, _, d2, d1, i1, i2, i3, fun hs => ?_⟩
  cases full with
  | true => simpa using i4 rfl
  | false => rw [i5 rfl hs]; simp [handed, i2]

/-- C200 fails for runs: a run that goes on after an iteration in which one log-likelihood is NaN or plus infinity, or all are minus infinity, raises. Contrapositive: if it returns, the weights of all populations but the last one are numbers. -/
theorem C200_run_violated (env : Env M W Θ Y) (loglik : Y → Num) (hR : Regular env) (n steps fuel : Nat) (full : Bool) (hn : 0 < n) (m m' : M) (counter c : Nat) (pops : List (NPop Θ)) (j : Journal Θ)
    (h : sample env loglik n steps fuel full m counter none = some (m', pops, c, j)) (i : Nat) (q : NPop Θ) (hq : pops[i]? = some q) (hi : i + 1 < steps) : ∀ w ∈ q.weights, ∃ x, w = .num x := by
  obtain ⟨m1, l, -, -, hc, hl, -⟩ := C200_partial env loglik hR n steps fuel full hn m m' counter c pops j h
  rw [← hl] at hi
  clear h hl
  revert hc
  generalize (⟨l, List.replicate n (1 / (n : ℝ))⟩ : Pop Θ) = p
  intro hc
  induction hc generalizing i with
  | nil => simp at hq
  | last => simp at hi
  | cons m m1 m' p q1 q' rs l h1 h2 h3 ih =>
    cases i with
    | zero =>
      simp only [List.getElem?_cons_zero, Option.some.injEq] at hq
      subst hq
      rw [h2]
      intro w hw
      obtain ⟨x, -, rfl⟩ := List.mem_map.1 hw
      exact ⟨x, rfl⟩
    | succ i => exact ih i (by simpa using hq) (by simpa using hi)

/-- C200 fails for restarts: a journal whose last weights are NaN cannot be restarted from. -/
theorem C200_restart_violated (env : Env M W Θ Y) (loglik : Y → Num) (n steps fuel : Nat) (full : Bool) (m : M) (counter : Nat) (j : Journal Θ) (p : NPop Θ) (hs : 0 < steps) (hp : j.pops.getLast? = some p) (h : .nan ∈ p.weights) :
    sample env loglik n steps fuel full m counter (some j) = none := by
  obtain ⟨k, rfl⟩ : ∃ k, steps = k + 1 := ⟨steps - 1, by omega⟩
  unfold sample
  simp only [hp, if_neg (Nat.succ_ne_zero k)]
  rw [loop, step_none env loglik n fuel _ p ⟨.nan, h, by simp⟩]

/-! ### Log-likelihoods that are numbers -/

theorem npMax_map (l : List ℝ) (a : ℝ) : max2 (npMax (l.map .num)) (.num a) = .num (l.foldr max a) := by
  induction l generalizing a with
  | nil => rfl
  | cons b l ih =>
    have h1 : npMax ((b :: l).map .num) = max2 (.num b) (npMax (l.map .num)) := rfl
    have h2 := ih a
    rw [h1, List.foldr_cons]
    cases h : npMax (l.map .num) with
    | num x =>
      rw [h] at h2
      simp only [max2, Num.num.injEq] at h2 ⊢
      rw [← h2, max_assoc]
    | inf => rw [h] at h2; cases h2
    | nan => rw [h] at h2; cases h2
    | negInf =>
      rw [h] at h2
      simp only [max2, Num.num.injEq] at h2 ⊢
      rw [← h2]

theorem weights_of (l : List (ℝ × ℝ × ℝ)) : weights (l.map fun e => (.num e.1, e.2)) = (Verif.Pmc.pmcWeights l).map .num := by
  cases l with
  | nil => rfl
  | cons e l =>
    unfold weights Verif.Pmc.pmcWeights
    simp only
    have h1 : (((e :: l).map fun e => (Num.num e.1, e.2)).map fun e => (Num.num (Real.log (1 * e.2.1 / e.2.2))).add ((Num.num (Real.log e.2.1)).add e.1)) =
        ((e :: l).map fun x => Real.log (1 * x.2.1 / x.2.2) + (Real.log x.2.1 + x.1)).map .num := by
      rw [List.map_map, List.map_map]
      rfl
    have h2 : ((e :: l).map fun x => Real.log (1 * x.2.1 / x.2.2) + (Real.log x.2.1 + x.1)) ≠ [] := by simp
    rw [h1]
    change _ = List.map _ (normalise (List.map (fun x => Real.exp (x - List.foldr max (List.headD ((e :: l).map fun x => Real.log (1 * x.2.1 / x.2.2) + (Real.log x.2.1 + x.1)) 0)
      ((e :: l).map fun x => Real.log (1 * x.2.1 / x.2.2) + (Real.log x.2.1 + x.1)))) ((e :: l).map fun x => Real.log (1 * x.2.1 / x.2.2) + (Real.log x.2.1 + x.1))))
    generalize ((e :: l).map fun x => Real.log (1 * x.2.1 / x.2.2) + (Real.log x.2.1 + x.1)) = L at h2
    cases L with
    | nil => exact absurd rfl h2
    | cons a L =>
      have h3 : npMax ((a :: L).map .num) = .num ((a :: L).foldr max a) := by
        have h4 := npMax_map L a
        have h5 : npMax ((a :: L).map .num) = max2 (.num a) (npMax (L.map .num)) := rfl
        rw [h5, List.foldr_cons]
        cases h : npMax (L.map .num) with
        | num x =>
          rw [h] at h4
          simp only [max2, Num.num.injEq] at h4 ⊢
          rw [← h4, max_comm x a, ← max_assoc, max_self]
        | inf => rw [h] at h4; cases h4
        | nan => rw [h] at h4; cases h4
        | negInf =>
          rw [h] at h4
          simp only [max2, Num.num.injEq] at h4 ⊢
          rw [← h4, max_self]
      rw [h3, List.headD_cons]
      generalize (a :: L).foldr max a = mx
      have h6 : (((a :: L).map Num.num).map fun x => (x.add (Num.num mx).neg).exp) = ((a :: L).map fun x => Real.exp (x - mx)).map .num := by
        rw [List.map_map, List.map_map]
        refine List.map_congr_left fun x _ => ?_
        simp [Num.add, Num.neg, Num.exp, sub_eq_add_neg]
      rw [h6, total_num, normalise, List.map_map, List.map_map, List.map_map, List.map_map]
      refine List.map_congr_left fun x _ => ?_
      have h7 : ((a :: L).map fun x => Real.exp (x - mx)).sum ≠ 0 := by
        refine (Verif.Pmc.sum_pos_of_pos _ ?_ (by simp)).ne'
        intro y hy
        obtain ⟨z, -, rfl⟩ := List.mem_map.1 hy
        exact Real.exp_pos _
      simp only [Function.comp, div, Num.divReal]
      rw [if_neg h7]

def NPop.of (p : Pop Θ) : NPop Θ := ⟨p.params, p.weights.map .num⟩

def Journal.of (j : Verif.PmcLik.Journal Θ) : Journal Θ := ⟨j.full, j.pops.map NPop.of, j.sims⟩

theorem step_of (env : Env M W Θ Y) (n fuel : Nat) (m : M) (p : Pop Θ) : step env (fun y => .num (env.loglik y)) n fuel m (NPop.of p) = (Verif.PmcLik.step env n fuel m p).map fun r => (r.1, NPop.of r.2) := by
  unfold step Verif.PmcLik.step NPop.of
  simp only [List.length_map, reals_map]
  by_cases h : p.params.length = n ∧ p.weights.length = n
  · rw [if_pos h, if_pos h]
    cases proposals env p fuel (env.choose p.weights n m).2 (env.choose p.weights n m).1 with
    | none => rfl
    | some e =>
      simp only [Option.map_some, Verif.PmcLik.weights, ← weights_of, List.map_zipWith]
  · rw [if_neg h, if_neg h]; rfl

theorem write_of (full : Bool) (steps t : Nat) (p : Pop Θ) (counter : Nat) (j : Verif.PmcLik.Journal Θ) : write full steps t (NPop.of p) counter (Journal.of j) = Journal.of (Verif.PmcLik.write full steps t p counter j) := by
  unfold write Verif.PmcLik.write Journal.of
  by_cases h : full ∨ t + 1 = steps
  · rw [if_pos h, if_pos h]
    cases j.full <;> simp
  · rw [if_neg h, if_neg h]

theorem loop_of (env : Env M W Θ Y) (n steps fuel : Nat) (full : Bool) (k : Nat) : ∀ (t : Nat) (m : M) (p : Pop Θ) (c : Nat) (j : Verif.PmcLik.Journal Θ),
    loop env (fun y => .num (env.loglik y)) n steps fuel full k t m (NPop.of p) c (Journal.of j) =
      (Verif.PmcLik.loop env n steps fuel full k t m p c j).map fun r => (r.1, r.2.1.map NPop.of, r.2.2.1, Journal.of r.2.2.2) := by
  induction k with
  | zero => intros; rfl
  | succ k ih =>
    intro t m p c j
    rw [loop, Verif.PmcLik.loop, step_of]
    cases Verif.PmcLik.step env n fuel m p with
    | none => rfl
    | some e =>
      simp only [Option.map_some, write_of, ih, Option.map_map]
      rfl

/-- C200 if all log-likelihoods are numbers: the call is that of `Verif.PmcLik`. -/
theorem C200_numbers (env : Env M W Θ Y) (loglik : Y → Num) (n steps fuel : Nat) (full : Bool) (m : M) (counter : Nat) (file : Option (Verif.PmcLik.Journal Θ)) (hl : ∀ y, loglik y = .num (env.loglik y)) :
    sample env loglik n steps fuel full m counter (file.map Journal.of) =
      (Verif.PmcLik.sample env n steps fuel full none m counter file).map fun r => (r.1, r.2.1.map NPop.of, r.2.2.1, Journal.of r.2.2.2) := by
  obtain rfl : loglik = fun y => .num (env.loglik y) := funext hl
  unfold sample Verif.PmcLik.sample Verif.PmcLik.first
  have h1 : (⟨(initial env n (env.prior m).1).2, List.replicate n (.num (1 / (n : ℝ)))⟩ : NPop Θ) = NPop.of ⟨(initial env n (env.prior m).1).2, List.replicate n (1 / (n : ℝ))⟩ := by
    simp [NPop.of]
  cases file with
  | none =>
    simp only [Option.map_none, h1]
    exact loop_of env n steps fuel full steps 0 _ _ counter ⟨full, [], []⟩
  | some j =>
    simp only [Option.map_some]
    by_cases hs : steps = 0
    · rw [if_pos hs, if_pos hs]; rfl
    · rw [if_neg hs, if_neg hs]
      simp only [Journal.of, List.getLast?_map]
      cases j.pops.getLast? with
      | none => rfl
      | some p => exact loop_of env n steps fuel full steps 0 _ p counter j

/-! ### A run -/

/-- Two particles, at 0 and 1. The likelihood at 1 is not a number. -/
noncomputable def pair : Env Unit Unit Nat Nat :=
  ⟨fun _ => 1, fun _ _ _ => 1, fun m => (m, 0), fun _ n m => (m, List.range n), fun _ i m => (m, some i), fun n m => (m, List.replicate n ()), fun θ _ => θ, fun _ => 0, 5, 1⟩

noncomputable def spoiled (y : Nat) : Num := if y = 1 then .nan else .num 0

noncomputable def impossible (y : Nat) : Num := if y = 1 then .negInf else .num 0

theorem pair_regular : Regular pair := ⟨fun _ n _ => by simp [pair], fun n _ => by simp [pair], fun _ => by simp [pair], fun _ _ _ => by simp [pair]⟩

theorem pair_step (loglik : Nat → Num) (p : NPop Nat) (ws : List ℝ) (h1 : p.params.length = 2) (h2 : p.weights.length = 2) (h3 : reals p.weights = some ws) :
    ∃ a b, step pair loglik 2 1 () p = some ((), ⟨[0, 1], weights [(loglik 0, 1, a), (loglik 1, 1, b)]⟩) ∧ a = mixture pair ⟨p.params, ws⟩ 0 ∧ b = mixture pair ⟨p.params, ws⟩ 1 := by
  have h : proposals pair ⟨p.params, ws⟩ 1 [0, 1] () = some ((), [0, 1]) := by
    simp [proposals, Verif.PmcLik.proposeLoop, pair]
  refine ⟨_, _, ?_, rfl, rfl⟩
  unfold step
  rw [if_pos ⟨h1, h2⟩, h3]
  have hc : pair.choose ws 2 () = ((), [0, 1]) := rfl
  simp only [hc, h]
  rfl

/-- One step returns weights that are NaN for both particles; a call with two steps or more raises. -/
theorem C200_pair_violated : (∃ m' c j, sample pair spoiled 2 1 1 true () 0 none = some (m', [⟨[0, 1], [.nan, .nan]⟩], c, j)) ∧ ∀ k, sample pair spoiled 2 (k + 2) 1 true () 0 none = none := by
  have hnan : ∀ a b : ℝ, weights [(spoiled 0, 1, a), (spoiled 1, 1, b)] = [.nan, .nan] := by
    intro a b
    rw [C200_weights_violated]
    · rfl
    · intro h
      exact (h.1 .nan (by simp [spoiled])).1 rfl
  obtain ⟨a, b, hs, -⟩ := pair_step spoiled ⟨[0, 0], List.replicate 2 (.num (1 / (2 : ℝ)))⟩ [1 / 2, 1 / 2] rfl rfl (reals_map [1 / 2, 1 / 2])
  rw [hnan] at hs
  have hi : initial pair 2 (pair.prior ()).1 = ((), [0, 0]) := rfl
  constructor
  · unfold sample
    simp only [hi, loop, Nat.cast_ofNat, hs]
    exact ⟨_, _, _, rfl⟩
  · intro k
    unfold sample
    simp only [hi, loop, Nat.cast_ofNat, hs]
    rw [step_none pair spoiled 2 1 () ⟨[0, 1], [.nan, .nan]⟩ ⟨.nan, by simp, by simp⟩]
    rfl

/-- With likelihood zero instead, the weights are 1 and 0. -/
theorem pair_impossible : ∃ m' c j, sample pair impossible 2 1 1 true () 0 none = some (m', [⟨[0, 1], [.num 1, .num 0]⟩], c, j) := by
  obtain ⟨a, b, hs, ha, hb⟩ := pair_step impossible ⟨[0, 0], List.replicate 2 (.num (1 / (2 : ℝ)))⟩ [1 / 2, 1 / 2] rfl rfl (reals_map [1 / 2, 1 / 2])
  have ha : a = 1 := by rw [ha]; norm_num [mixture, pair]
  have hb : b = 1 := by rw [hb]; norm_num [mixture, pair]
  have hw : weights [(impossible 0, 1, a), (impossible 1, 1, b)] = [.num 1, .num 0] := by
    rw [(C200_weights _ (by simp [ha, hb]) ⟨by simp [impossible], 0, by simp [impossible]⟩).1]
    simp [normalise, likelihood, impossible, ha, hb]
  rw [hw] at hs
  have hi : initial pair 2 (pair.prior ()).1 = ((), [0, 0]) := rfl
  unfold sample
  simp only [hi, loop, Nat.cast_ofNat, hs]
  exact ⟨_, _, _, rfl⟩

end Verif.Nan.PmcLik
