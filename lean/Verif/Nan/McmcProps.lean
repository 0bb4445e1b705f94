import Verif.Nan.Mcmc
/-
C194: proposals whose likelihood is not a number.
-/
namespace Verif.Nan

open Mcmc (Env Args)

/-! ### Specification -/

/-- The likelihood that a log-likelihood stands for; a likelihood that is not a number counts as zero. The value for `inf` is not used. -/
noncomputable def lik : Num → ℝ
  | .num x => Real.exp x
  | .negInf => 0
  | .nan => 0
  | .inf => 0

/-- NaN replaced by the logarithm of zero. -/
def clean : Num → Num
  | .nan => .negInf
  | x => x

/-! ### The decision -/

theorem signedInf_pos {x : ℝ} (h : 0 < x) : signedInf x = .inf := by unfold signedInf; rw [if_pos h]

theorem alpha_nan_new (a b : ℝ) (l : Num) (p q : ℝ) : alpha a b .nan l p q = .nan := by cases l <;> rfl

theorem alpha_nan_acc (a b : ℝ) (l : Num) (p q : ℝ) : alpha a b l .nan p q = .nan := by cases l <;> rfl

/-- Metropolis-Hastings with likelihoods in place of log-likelihoods: a proposal is accepted exactly if the uniform number is below the ratio, where a likelihood that is not a number counts as zero. -/
theorem C194_decision (u a b : ℝ) (llNew llAcc : Num) (prNew prAcc : ℝ) (hu : 0 ≤ u) (hN : 0 < prNew) (hA : 0 < prAcc) (h1 : llNew ≠ .inf) (h2 : llAcc ≠ .inf) (h3 : llAcc ≠ .nan) :
    accepts u a b llNew llAcc prNew prAcc ↔ u * (lik llAcc * prAcc) < Real.exp (a - b) * (lik llNew * prNew) := by
  unfold accepts
  cases llAcc with
  | inf => exact absurd rfl h2
  | nan => exact absurd rfl h3
  | num y =>
    cases llNew with
    | inf => exact absurd rfl h1
    | nan =>
      rw [alpha_nan_new]
      simp only [Num.lt, lik, zero_mul, mul_zero, false_iff, not_lt]
      positivity
    | negInf =>
      simp only [alpha, Num.add, Num.neg, Num.exp, Num.mulReal, Num.divReal, if_neg hA.ne', Num.lt, lik, zero_mul, mul_zero, zero_div]
      constructor
      · intro h; linarith
      · intro h
        have : 0 ≤ u * (Real.exp y * prAcc) := by positivity
        linarith
    | num x =>
      simp only [alpha, Num.add, Num.neg, Num.exp, Num.mulReal, Num.divReal, if_neg hA.ne', Num.lt, lik]
      rw [lt_div_iff₀ hA, Real.exp_add, Real.exp_add, Real.exp_neg]
      have hy := Real.exp_pos y
      constructor
      · intro h
        have := mul_lt_mul_of_pos_right h hy
        calc u * (Real.exp y * prAcc) = u * prAcc * Real.exp y := by ring
          _ < _ := this
          _ = _ := by field_simp
      · intro h
        have := mul_lt_mul_of_pos_right h (inv_pos.2 hy)
        calc u * prAcc = u * (Real.exp y * prAcc) * (Real.exp y)⁻¹ := by field_simp
          _ < _ := this
          _ = _ := by ring
  | negInf =>
    cases llNew with
    | inf => exact absurd rfl h1
    | nan => simp [alpha_nan_new, Num.lt, lik]
    | negInf => simp [alpha, Num.add, Num.neg, Num.exp, Num.mulReal, Num.divReal, Num.lt, lik]
    | num x =>
      simp only [alpha, Num.add, Num.neg, Num.exp, Num.mulReal, Num.divReal, signedInf_pos hN, if_neg (not_lt.2 hA.le), Num.lt, lik, zero_mul, mul_zero, true_iff]
      positivity

/-- A proposal with likelihood zero or NaN is refused, whatever the current state. -/
theorem C194_refused (u a b : ℝ) (llNew llAcc : Num) (prNew prAcc : ℝ) (hu : 0 ≤ u) (h : llNew = .nan ∨ llNew = .negInf) : ¬ accepts u a b llNew llAcc prNew prAcc := by
  unfold accepts
  rcases h with rfl | rfl
  · rw [alpha_nan_new]; exact id
  · cases llAcc with
    | num y =>
      simp only [alpha, Num.add, Num.neg, Num.exp, Num.mulReal, Num.divReal, zero_mul, signedInf, lt_irrefl, if_false, zero_div]
      split
      · exact id
      · simp only [Num.lt]; linarith
    | inf =>
      simp only [alpha, Num.add, Num.neg, Num.exp, Num.mulReal, Num.divReal, zero_mul, signedInf, lt_irrefl, if_false, zero_div]
      split
      · exact id
      · simp only [Num.lt]; linarith
    | negInf => exact id
    | nan => exact id

/-- If the current log-likelihood is NaN or infinite, every proposal is refused. -/
theorem stuck_decision (u a b : ℝ) (llNew llAcc : Num) (prNew prAcc : ℝ) (hu : 0 ≤ u) (h : llAcc = .nan ∨ llAcc = .inf) : ¬ accepts u a b llNew llAcc prNew prAcc := by
  unfold accepts
  rcases h with rfl | rfl
  · rw [alpha_nan_acc]; exact id
  · cases llNew with
    | num y =>
      simp only [alpha, Num.add, Num.neg, Num.exp, Num.mulReal, Num.divReal, zero_mul, signedInf, lt_irrefl, if_false, zero_div]
      split
      · exact id
      · simp only [Num.lt]; linarith
    | inf => exact id
    | negInf =>
      simp only [alpha, Num.add, Num.neg, Num.exp, Num.mulReal, Num.divReal, zero_mul, signedInf, lt_irrefl, if_false, zero_div]
      split
      · exact id
      · simp only [Num.lt]; linarith
    | nan => exact id

/-! ### The chain -/

variable {W α T Cov : Type} (env : Env W α T Cov) (loglik : List α → W → W × Num)

/-- A round: the parameters are kept, or replaced by a proposal inside the prior with an accepted likelihood; the parameters after the round are recorded. -/
theorem step_cases (burnin : Nat) (interval : Option Nat) (k : Nat) (s s' : Chain W α T Cov) (h : mhStep env loglik burnin interval k s = some s') :
    s'.chain = s.chain ++ (if k ≥ burnin then [s'.cur] else []) ∧
    ((s'.cur = s.cur ∧ s'.ll = s.ll ∧ s'.pr = s.pr ∧ s'.accepted = s.accepted) ∨
      ∃ w lj, s'.ll = (loglik s'.cur w).2 ∧ s'.pr = env.pdf s'.cur ∧ env.pdf s'.cur ≠ 0 ∧ accepts (env.unif (loglik s'.cur w).1).2 s.lj lj (loglik s'.cur w).2 s.ll (env.pdf s'.cur) s.pr) := by
  classical
  unfold mhStep at h
  simp only at h
  split at h
  · cases h
  · rename_i θ hθ
    split at h
    · rw [Option.some.injEq] at h
      subst h
      unfold Chain.record
      split <;> simp_all
    · rename_i hpdf
      split at h
      · cases h
      · rename_i lj hlj
        have had : ∀ (x y : Chain W α T Cov), x.adaptCov env burnin k interval = some y → y.chain = x.chain ∧ y.cur = x.cur ∧ y.ll = x.ll ∧ y.pr = x.pr ∧ y.accepted = x.accepted := by
          intro x y hy
          unfold Chain.adaptCov at hy
          split at hy
          · cases hy; simp
          · split at hy
            · cases hy; simp
            · split at hy
              · cases hy
              · split at hy <;> cases hy <;> simp
        obtain ⟨q1, q2, q3, q4, q5⟩ := had _ _ h
        have hrec : ∀ x : Chain W α T Cov, (x.record burnin k).chain = x.chain ++ (if k ≥ burnin then [x.cur] else []) ∧ (x.record burnin k).cur = x.cur ∧ (x.record burnin k).ll = x.ll ∧
            (x.record burnin k).pr = x.pr ∧ (x.record burnin k).accepted = x.accepted := by
          intro x
          unfold Chain.record
          split <;> simp
        simp only [hrec] at q1 q2 q3 q4 q5
        by_cases hacc : accepts (env.unif (loglik θ (env.propose s.cov s.curT s.w).1).1).2 s.lj lj (loglik θ (env.propose s.cov s.curT s.w).1).2 s.ll (env.pdf θ) s.pr
        · rw [if_pos hacc] at q1 q2 q3 q4 q5
          simp only at q1 q2 q3 q4 q5
          rw [q1, q2, q3, q4]
          exact ⟨rfl, Or.inr ⟨_, lj, rfl, rfl, hpdf, hacc⟩⟩
        · rw [if_neg hacc] at q1 q2 q3 q4 q5
          simp only at q1 q2 q3 q4 q5
          rw [q1, q2, q3, q4, q5]
          exact ⟨rfl, Or.inl ⟨rfl, rfl, rfl, rfl⟩⟩

/-- C194, part that holds: whatever the log-likelihoods are, a run only visits its starting point and points whose computed log-likelihood is neither NaN nor minus infinity. -/
theorem C194_visits (hu : ∀ w, 0 ≤ (env.unif w).2) (burnin : Nat) (interval : Option Nat) (ks : List Nat) : ∀ (s s' : Chain W α T Cov), mhLoop env loglik burnin interval ks s = some s' →
    ∃ new, s'.chain = s.chain ++ new ∧ ∀ θ ∈ new, θ = s.cur ∨ ∃ w, (loglik θ w).2 ≠ .nan ∧ (loglik θ w).2 ≠ .negInf := by
  induction ks with
  | nil => intro s s' h; cases h; exact ⟨[], by simp, by simp⟩
  | cons k ks ih =>
    intro s s' h
    rw [mhLoop] at h
    cases hp : mhStep env loglik burnin interval k s with
    | none => rw [hp] at h; cases h
    | some s1 =>
      rw [hp] at h
      obtain ⟨new, n1, n2⟩ := ih s1 s' h
      obtain ⟨c1, c2⟩ := step_cases env loglik burnin interval k s s1 hp
      have hcur : s1.cur = s.cur ∨ ∃ w, (loglik s1.cur w).2 ≠ .nan ∧ (loglik s1.cur w).2 ≠ .negInf := by
        rcases c2 with ⟨c2, -⟩ | ⟨w, lj, -, -, -, c2⟩
        · exact Or.inl c2
        · refine Or.inr ⟨w, fun hn => ?_, fun hn => ?_⟩
          · exact C194_refused _ _ _ _ _ _ _ (hu _) (Or.inl hn) c2
          · exact C194_refused _ _ _ _ _ _ _ (hu _) (Or.inr hn) c2
      refine ⟨(if k ≥ burnin then [s1.cur] else []) ++ new, by rw [n1, c1, List.append_assoc], ?_⟩
      intro θ hθ
      rcases List.mem_append.1 hθ with hθ | hθ
      · split at hθ
        · rw [List.mem_singleton] at hθ; subst hθ; exact hcur
        · cases hθ
      · rcases n2 θ hθ with rfl | h
        · exact hcur
        · exact Or.inr h

/-- A chain whose current log-likelihood is NaN or infinite never moves again. -/
theorem loop_stuck (hu : ∀ w, 0 ≤ (env.unif w).2) (burnin : Nat) (interval : Option Nat) (ks : List Nat) : ∀ (s s' : Chain W α T Cov), (s.ll = .nan ∨ s.ll = .inf) → mhLoop env loglik burnin interval ks s = some s' →
    s'.chain = s.chain ++ List.replicate (ks.filter (· ≥ burnin)).length s.cur ∧ s'.accepted = s.accepted ∧ s'.cur = s.cur ∧ s'.ll = s.ll := by
  induction ks with
  | nil => intro s s' _ h; cases h; simp
  | cons k ks ih =>
    intro s s' hs h
    rw [mhLoop] at h
    cases hp : mhStep env loglik burnin interval k s with
    | none => rw [hp] at h; cases h
    | some s1 =>
      rw [hp] at h
      obtain ⟨c1, c2⟩ := step_cases env loglik burnin interval k s s1 hp
      rcases c2 with ⟨c2, c3, -, c4⟩ | ⟨w, lj, -, -, -, c2⟩
      · obtain ⟨d1, d2, d3, d4⟩ := ih s1 s' (by rw [c3]; exact hs) h
        refine ⟨?_, by rw [d2, c4], by rw [d3, c2], by rw [d4, c3]⟩
        rw [d1, c1, c2, List.append_assoc, List.filter_cons]
        by_cases hk : k ≥ burnin
        · simp [hk, List.replicate_succ]
        · simp [hk]
      · exact absurd c2 (stuck_decision _ _ _ _ _ _ _ (hu _) hs)

theorem range_filter (b n : Nat) : ((List.range (b + n)).filter (· ≥ b)).length = n := by
  rw [List.range_add, List.filter_append]
  have h1 : (List.range b).filter (· ≥ b) = [] := by
    rw [List.filter_eq_nil_iff]
    intro x hx
    have := List.mem_range.1 hx
    simp; omega
  have h2 : ((List.range n).map (b + ·)).filter (· ≥ b) = (List.range n).map (b + ·) := by
    rw [List.filter_eq_self]
    intro x hx
    obtain ⟨y, -, rfl⟩ := List.mem_map.1 hx
    simp
  rw [h1, h2]; simp

/-- C194 fails: if the log-likelihood computed at the starting point is NaN (or infinite), all samples are the starting point, whatever the likelihood elsewhere, the length of the run and the burn-in, and no proposal is
accepted. -/
theorem C194_start_violated (hu : ∀ w, 0 ≤ (env.unif w).2) (a : Args α Cov) (w : W) (counter : Nat) (s : Chain W α T Cov) (h : mhRun env loglik a w counter = some s)
    (hn : (loglik (Mcmc.initial env a w).2 (Mcmc.initial env a w).1).2 = .nan ∨ (loglik (Mcmc.initial env a w).2 (Mcmc.initial env a w).1).2 = .inf) :
    s.chain = List.replicate a.n (Mcmc.initial env a w).2 ∧ s.accepted = 0 := by
  unfold mhRun at h
  simp only at h
  split at h
  · cases h
  · split at h
    · cases h
    · obtain ⟨k1, k2, -, -⟩ := loop_stuck env loglik hu a.burnin a.interval _ _ _ hn h
      rw [k1, k2, range_filter]
      simp

/-! ### Runs in which NaN counts as zero -/

theorem clean_ne {x : Num} (h : x ≠ .nan) : clean x = x := by cases x <;> simp_all [clean]

theorem accepts_clean (u a b : ℝ) (l l' : Num) (p q : ℝ) (hu : 0 ≤ u) : accepts u a b (clean l) l' p q ↔ accepts u a b l l' p q := by
  cases l with
  | nan =>
    exact ⟨fun h => absurd h (C194_refused u a b .negInf l' p q hu (Or.inr rfl)), fun h => absurd h (C194_refused u a b .nan l' p q hu (Or.inl rfl))⟩
  | num x => rfl
  | inf => rfl
  | negInf => rfl

/-- C194 for runs: as long as the starting point has a log-likelihood that is not NaN, the run is the one in which a likelihood that is not a number is zero. Missing: a starting point with NaN, see `C194_start_violated`. -/
theorem C194_partial (hu : ∀ w, 0 ≤ (env.unif w).2) (a : Args α Cov) (w : W) (counter : Nat) (h0 : (loglik (Mcmc.initial env a w).2 (Mcmc.initial env a w).1).2 ≠ .nan) :
    mhRun env loglik a w counter = mhRun env (fun θ w => ((loglik θ w).1, clean (loglik θ w).2)) a w counter := by
  have hstep : ∀ k s, mhStep env loglik a.burnin a.interval k s = mhStep env (fun θ w => ((loglik θ w).1, clean (loglik θ w).2)) a.burnin a.interval k s := by
    intro k s
    unfold mhStep
    simp only
    split
    · rfl
    · rename_i θ hθ
      split
      · rfl
      · split
        · rfl
        · rename_i lj hlj
          by_cases hacc : accepts (env.unif (loglik θ (env.propose s.cov s.curT s.w).1).1).2 s.lj lj (loglik θ (env.propose s.cov s.curT s.w).1).2 s.ll (env.pdf θ) s.pr
          · have hne : (loglik θ (env.propose s.cov s.curT s.w).1).2 ≠ .nan := fun hn => C194_refused _ _ _ _ _ _ _ (hu _) (Or.inl hn) hacc
            rw [if_pos hacc, if_pos ((accepts_clean _ _ _ _ _ _ _ (hu _)).2 hacc), clean_ne hne]
          · rw [if_neg hacc, if_neg (fun h => hacc ((accepts_clean _ _ _ _ _ _ _ (hu _)).1 h))]
  have hloop : ∀ ks s, mhLoop env loglik a.burnin a.interval ks s = mhLoop env (fun θ w => ((loglik θ w).1, clean (loglik θ w).2)) a.burnin a.interval ks s := by
    intro ks
    induction ks with
    | nil => intro s; rfl
    | cons k ks ih =>
      intro s
      rw [mhLoop, mhLoop, hstep]
      split
      · rfl
      · exact ih _
  unfold mhRun
  simp only [hloop, clean_ne h0]

/-! ### Real log-likelihoods -/

/-- The state of `Verif.Mcmc`. -/
def ofReal (s : Mcmc.State W α T Cov) : Chain W α T Cov := ⟨s.w, s.cur, s.curT, .num s.ll, s.pr, s.lj, s.cov, s.chain, s.burn, s.accepted, s.sims⟩

theorem accepts_real (u a b x y p q : ℝ) (hp : 0 < p) : accepts u a b (.num x) (.num y) p q ↔ Mcmc.accepts u a b x y p q = true := by
  unfold accepts Mcmc.accepts alpha
  simp only [Num.add, Num.neg, Num.exp, Num.mulReal, Num.divReal]
  by_cases hq : q = 0
  · rw [if_pos hq, if_pos hq, signedInf_pos (by positivity)]
    simp [Num.lt]
  · rw [if_neg hq, if_neg hq]
    simp only [Num.lt, Mcmc.alpha]
    rw [show a - b + x + -y = a - b + x - y by ring]
    exact (decide_eq_true_iff).symm

/-- With log-likelihoods that are real numbers the run is that of `Verif.Mcmc`, so the theorems about it apply. -/
theorem C194_agrees (hpdf : ∀ θ, 0 ≤ env.pdf θ) (burnin : Nat) (interval : Option Nat) (ks : List Nat) : ∀ s : Mcmc.State W α T Cov,
    mhLoop env (fun θ w => ((env.loglik θ w).1, .num (env.loglik θ w).2)) burnin interval ks (ofReal s) = (Mcmc.loop env burnin interval ks s).map ofReal := by
  classical
  have hrec : ∀ (s : Mcmc.State W α T Cov) k, (ofReal s).record burnin k = ofReal (s.record burnin k) := by
    intro s k
    unfold Chain.record Mcmc.State.record
    split <;> rfl
  have had : ∀ (s : Mcmc.State W α T Cov) k, (ofReal s).adaptCov env burnin k interval = (s.adaptCov env burnin k interval).map ofReal := by
    intro s k
    unfold Chain.adaptCov Mcmc.State.adaptCov
    split
    · rfl
    · cases interval with
      | none => rfl
      | some i =>
        simp only
        split
        · rfl
        · split <;> rfl
  have hstep : ∀ k (s : Mcmc.State W α T Cov), mhStep env (fun θ w => ((env.loglik θ w).1, .num (env.loglik θ w).2)) burnin interval k (ofReal s) = (Mcmc.step env burnin interval k s).map ofReal := by
    intro k s
    unfold mhStep Mcmc.step
    have e1 : (ofReal s).cov = s.cov := rfl
    have e2 : (ofReal s).curT = s.curT := rfl
    have e3 : (ofReal s).w = s.w := rfl
    have e4 : (ofReal s).lj = s.lj := rfl
    have e5 : (ofReal s).ll = .num s.ll := rfl
    have e6 : (ofReal s).pr = s.pr := rfl
    simp only [e1, e2, e3, e4, e5, e6]
    cases hθ : env.inv (env.propose s.cov s.curT s.w).2 with
    | none => rfl
    | some θ =>
      simp only
      by_cases hz : env.pdf θ = 0
      · rw [if_pos hz, if_pos hz, Option.map_some]
        exact congrArg some (hrec { s with w := (env.propose s.cov s.curT s.w).1 } k)
      · rw [if_neg hz, if_neg hz]
        cases hlj : env.jac θ with
        | none => rfl
        | some lj =>
          simp only
          rw [← had, ← hrec]
          have hiff := accepts_real (env.unif (env.loglik θ (env.propose s.cov s.curT s.w).1).1).2 s.lj lj (env.loglik θ (env.propose s.cov s.curT s.w).1).2 s.ll (env.pdf θ) s.pr (lt_of_le_of_ne (hpdf θ) (Ne.symm hz))
          by_cases hacc : accepts (env.unif (env.loglik θ (env.propose s.cov s.curT s.w).1).1).2 s.lj lj (.num (env.loglik θ (env.propose s.cov s.curT s.w).1).2) (.num s.ll) (env.pdf θ) s.pr
          · rw [if_pos hacc, if_pos (hiff.1 hacc)]; rfl
          · rw [if_neg hacc, if_neg (fun h => hacc (hiff.2 h))]; rfl
  induction ks with
  | nil => intro s; rfl
  | cons k ks ih =>
    intro s
    rw [mhLoop, Mcmc.loop, hstep]
    cases Mcmc.step env burnin interval k s with
    | none => rfl
    | some s1 => exact ih s1

/-! ### A chain -/

/-- A chain on the integers that proposes the next integer; the prior density is 1, the uniform numbers are 1/2. -/
noncomputable def walk : Env Unit Int Int Unit :=
  ⟨["x"], fun w => (w, [0]), fun _ => 1, fun _ w => (w, 0), fun l => l.head?, fun x => some [x], fun _ => some 0, fun _ x w => (w, x + 1), fun w => (w, 1 / 2), fun _ => (), fun _ => ()⟩

/-- The log-likelihood is NaN at 0 and zero everywhere else. -/
noncomputable def nanAtZero (θ : List Int) (w : Unit) : Unit × Num := (w, if θ = [0] then .nan else .num 0)

/-- A run that starts at 0 stays there, although every proposal is as likely as any other; a run that starts at 1 moves. -/
example : (∃ s, mhRun walk nanAtZero ⟨3, 2, none, some [0], none⟩ () 0 = some s ∧ s.chain = [[0], [0], [0]]) ∧ ∃ s, mhRun walk nanAtZero ⟨3, 0, none, some [1], none⟩ () 0 = some s ∧ s.chain = [[2], [3], [4]] := by
  constructor
  · have hsome : ∃ s, mhRun walk nanAtZero ⟨3, 2, none, some [0], none⟩ () 0 = some s := by
      have hstep : ∀ k s, ∃ s', mhStep walk nanAtZero 2 none k s = some s' := by
        intro k s
        unfold mhStep walk
        simp only [one_ne_zero, if_false, Chain.adaptCov]
        split <;> exact ⟨_, rfl⟩
      have hloop : ∀ ks s, ∃ s', mhLoop walk nanAtZero 2 none ks s = some s' := by
        intro ks
        induction ks with
        | nil => intro s; exact ⟨s, rfl⟩
        | cons k ks ih =>
          intro s
          obtain ⟨s1, h1⟩ := hstep k s
          rw [mhLoop, h1]
          exact ih s1
      unfold mhRun Mcmc.initial
      exact hloop _ _
    obtain ⟨s, hs⟩ := hsome
    refine ⟨s, hs, ?_⟩
    exact (C194_start_violated walk nanAtZero (fun _ => by norm_num [walk]) ⟨3, 2, none, some [0], none⟩ () 0 s hs (Or.inl (by simp [Mcmc.initial, nanAtZero]))).1
  · have hstep : ∀ k (s : Chain Unit Int Int Unit), 0 < s.curT → s.ll = .num 0 → s.pr = 1 → s.lj = 0 →
        ∃ s', mhStep walk nanAtZero 0 none k s = some s' ∧ s'.curT = s.curT + 1 ∧ s'.ll = .num 0 ∧ s'.pr = 1 ∧ s'.lj = 0 ∧ s'.chain = s.chain ++ [[s.curT + 1]] := by
      classical
      intro k s h0 h1 h2 h3
      have hacc : accepts (1 / 2) s.lj 0 (nanAtZero [s.curT + 1] s.w).2 s.ll 1 s.pr := by
        rw [h1, h2, h3]
        have : (nanAtZero [s.curT + 1] s.w).2 = .num 0 := by
          unfold nanAtZero
          rw [if_neg]
          simp; omega
        rw [this, C194_decision _ _ _ _ _ _ _ (by norm_num) (by norm_num) (by norm_num) (by simp) (by simp) (by simp)]
        norm_num [lik]
      unfold mhStep walk
      simp only [one_ne_zero, if_false, Chain.adaptCov, ge_iff_le, Nat.zero_le, if_true, if_pos hacc, Chain.record]
      refine ⟨_, rfl, rfl, ?_, rfl, rfl, rfl⟩
      unfold nanAtZero
      simp only
      rw [if_neg]
      simp; omega
    obtain ⟨s1, a1, a2, a3, a4, a5, a6⟩ := hstep 0 ⟨(), [1], 1, .num 0, 1, 0, (), [], [[1]], 0, 1⟩ (by norm_num) rfl rfl rfl
    obtain ⟨s2, b1, b2, b3, b4, b5, b6⟩ := hstep 1 s1 (by rw [a2]; norm_num) a3 a4 a5
    obtain ⟨s3, c1, c2, c3, c4, c5, c6⟩ := hstep 2 s2 (by rw [b2, a2]; norm_num) b3 b4 b5
    refine ⟨s3, ?_, ?_⟩
    · unfold mhRun Mcmc.initial
      have e : (nanAtZero [1] ()).2 = .num 0 := by simp [nanAtZero]
      simp only [walk, List.head?_cons, e, List.range, List.range.loop, mhLoop, if_true, Option.getD_none]
      have : (nanAtZero [1] ()).1 = () := rfl
      simp only [walk] at a1 b1 c1
      rw [show 0 + 1 = 1 from rfl, a1]
      simp only
      rw [b1]
      simp only
      rw [c1]
    · rw [c6, b6, a6, b2, a2]; norm_num

end Verif.Nan
