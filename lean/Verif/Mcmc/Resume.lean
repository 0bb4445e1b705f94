import Verif.Mcmc.Props
/-
C54 (a restarted chain is the chain that an uninterrupted run would have produced), with examples.
-/
namespace Verif.Mcmc

variable {W α T Cov : Type}

/-- Two states of the loop that differ in what has been recorded before `pre`. -/
structure Same (pre : List (List α)) (s s' : State W α T Cov) : Prop where
  w : s.w = s'.w
  cur : s.cur = s'.cur
  curT : s.curT = s'.curT
  ll : s.ll = s'.ll
  pr : s.pr = s'.pr
  lj : s.lj = s'.lj
  cov : s.cov = s'.cov
  chain : s.chain = pre ++ s'.chain
  accepted : s.accepted = s'.accepted
  sims : s.sims = s'.sims

theorem adaptCov_after {env : Env W α T Cov} {s : State W α T Cov} {b k : Nat} {interval : Option Nat} (h : b ≤ k) : s.adaptCov env b k interval = some s := by
  simp [State.adaptCov, h]

/-- One step after burn-in does the same in both. -/
theorem same_step {env : Env W α T Cov} {pre : List (List α)} {s s' t : State W α T Cov} (h : Same pre s s') {b b' k k' : Nat} {i i' : Option Nat}
    (hk : b ≤ k) (hk' : b' ≤ k') (hs : step env b i k s = some t) : ∃ t', step env b' i' k' s' = some t' ∧ Same pre t t' := by
  obtain ⟨w, cur, curT, ll, pr, lj, cov, chain, burn, acc, sims⟩ := s
  obtain ⟨w', cur', curT', ll', pr', lj', cov', chain', burn', acc', sims'⟩ := s'
  obtain ⟨h1, h2, h3, h4, h5, h6, h7, h8, h9, h10⟩ := h
  simp only at h1 h2 h3 h4 h5 h6 h7 h8 h9 h10
  subst h1 h2 h3 h4 h5 h6 h7 h8 h9 h10
  unfold step at hs ⊢
  simp only at hs ⊢
  cases hp : env.inv (env.propose cov curT w).2 with
  | none => simp [hp] at hs
  | some θ =>
    simp only [hp] at hs ⊢
    by_cases hz : env.pdf θ = 0
    · rw [if_pos hz] at hs ⊢
      simp only [State.record, hk, hk', ge_iff_le, if_true, Option.some.injEq] at hs ⊢
      subst hs
      exact ⟨_, rfl, rfl, rfl, rfl, rfl, rfl, rfl, rfl, by simp, rfl, rfl⟩
    · rw [if_neg hz] at hs ⊢
      cases hj : env.jac θ with
      | none => simp [hj] at hs
      | some lj1 =>
        simp only [hj] at hs ⊢
        rw [adaptCov_after hk] at hs
        rw [adaptCov_after hk']
        simp only [Option.some.injEq] at hs ⊢
        subst hs
        by_cases ha : accepts (env.unif (env.loglik θ (env.propose cov curT w).1).1).2 lj lj1 (env.loglik θ (env.propose cov curT w).1).2 ll (env.pdf θ) pr = true
        · simp only [ha, if_true, State.record, hk, hk', ge_iff_le]
          exact ⟨_, rfl, rfl, rfl, rfl, rfl, rfl, rfl, rfl, by simp, rfl, rfl⟩
        · simp only [ha, State.record, hk, hk', ge_iff_le, if_true]
          exact ⟨_, rfl, rfl, rfl, rfl, rfl, rfl, rfl, rfl, by simp, rfl, rfl⟩

theorem same_loop {env : Env W α T Cov} {pre : List (List α)} {b : Nat} {i i' : Option Nat} (n : Nat) {k k' : Nat} {s s' t : State W α T Cov} (h : Same pre s s')
    (hk : b ≤ k) (hs : loop env b i (List.range' k n) s = some t) : ∃ t', loop env 0 i' (List.range' k' n) s' = some t' ∧ Same pre t t' := by
  induction n generalizing k k' s s' with
  | zero =>
    simp only [List.range'_zero, loop, Option.some.injEq] at hs ⊢
    subst hs
    exact ⟨s', rfl, h⟩
  | succ n ih =>
    rw [List.range'_succ, loop] at hs
    cases h1 : step env b i k s with
    | none => simp [h1] at hs
    | some u =>
      simp only [h1] at hs
      obtain ⟨u', g1, g2⟩ := same_step (b' := 0) (k' := k') (i' := i') h hk (Nat.zero_le _) h1
      obtain ⟨t', f1, f2⟩ := ih g2 (by omega) hs
      refine ⟨t', ?_, f2⟩
      rw [List.range'_succ, loop, g1]
      exact f1

theorem loop_append {env : Env W α T Cov} {b : Nat} {i : Option Nat} (a c : List Nat) (s : State W α T Cov) :
    loop env b i (a ++ c) s = (loop env b i a s).bind (loop env b i c) := by
  induction a generalizing s with
  | nil => rfl
  | cons k a ih =>
    simp only [List.cons_append, loop]
    cases h : step env b i k s with
    | none => rfl
    | some u => simp only; exact ih u

/-- **C54, nothing is lost by interrupting a run.** Asking for `n₁` states and then, with the journal written by that call and the generators as they were left, for `n₂` more
without burn-in gives the chain, the estimate of the likelihood, the last acceptance rate, the last number of simulations, the proposal covariance and the columns of one run
for `n₁ + n₂` states. It is assumed that `transform` undoes `inverse_transform` on proposals (C55). -/
theorem C54_resume (env : Env W α T Cov) (htr : ∀ cov t w θ, env.inv (env.propose cov t w).2 = some θ → env.tr θ = some (env.propose cov t w).2) (a : Args α Cov) (n₂ : Nat) (w w₁ w₂ : W) (counter : Nat)
    (j₁ j : Jrn α Cov) (interval : Option Nat) (ini : Option (List α))
    (h₁ : fresh env a w counter = some (w₁, j₁)) (h : fresh env { a with n := a.n + n₂ } w counter = some (w₂, j)) :
    ∃ j₂, restart env ⟨n₂, 0, none, ini, interval⟩ w₁ j₁ = some (w₂, j₂) ∧ j₂.chain = j.chain ∧ j₂.weights = j.weights ∧ j₂.user = j.user ∧ j₂.n = j.n ∧
      j₂.ll = j.ll ∧ j₂.cov = j.cov ∧ j₂.rates.getLast? = j.rates.getLast? ∧ j₂.sims.getLast? = j.sims.getLast? := by
  obtain ⟨r, -, -, -, hn, -, -, -, hr, -, -, -, -, hlast⟩ := C52_chain_partial env a w w₁ counter j₁ h₁
  have hj₁ := h₁
  unfold fresh at h₁ h
  simp only at h₁ h
  have hini : initial env { a with n := a.n + n₂ } w = initial env a w := rfl
  rw [hini] at h
  generalize initial env a w = x at h₁ h
  cases hb : begin_ env (env.loglik x.2 x.1).1 x.2 (env.loglik x.2 x.1).2 a.cov (if a.burnin = 0 then [x.2] else []) 0 (counter + 1) with
  | none => simp [hb] at h₁
  | some s0 =>
    simp only [hb] at h₁ h
    cases hl : loop env a.burnin a.interval (List.range (a.burnin + a.n)) s0 with
    | none => simp [hl] at h₁
    | some s₁ =>
      simp only [hl, if_neg hn.ne', Option.some.injEq, Prod.mk.injEq] at h₁
      obtain ⟨hw, hj⟩ := h₁
      have hsplit : List.range (a.burnin + (a.n + n₂)) = List.range (a.burnin + a.n) ++ List.range' (a.burnin + a.n) n₂ := by
        rw [← Nat.add_assoc, List.range_eq_range', List.range_eq_range', ← List.range'_append_1, Nat.zero_add]
      rw [hsplit, loop_append, hl, Option.bind_some] at h
      cases hl2 : loop env a.burnin a.interval (List.range' (a.burnin + a.n) n₂) s₁ with
      | none => simp [hl2] at h
      | some s₂ =>
        have hpos : a.n + n₂ ≠ 0 := by omega
        simp only [hl2, if_neg hpos, Option.some.injEq, Prod.mk.injEq] at h
        obtain ⟨hw2, rfl⟩ := h
        rw [List.range_eq_range'] at hl
        obtain ⟨ms, l, i⟩ := inv_loop (a.burnin + a.n) (inv_begin hb a.burnin) hl
        have hcur : s₁.cur = r.stop.θ := by
          subst hj
          simp only at hlast
          simp only [List.length_nil, Nat.zero_add] at l
          rw [i.states, List.getLast?_map, List.getLast?_drop, if_neg (by rw [positions_length, l]; omega), positions_getLast? _ _ (by rintro rfl; simp at l; omega)] at hlast
          simp only [Option.map_some, Option.some.injEq] at hlast
          rw [← hlast, ← i.pos]
        have hT : env.tr s₁.cur = some s₁.curT := by
          rcases i.curT with h | ⟨⟨cov, t, w, h1⟩, h2⟩
          · exact h
          · rw [h1] at h2 ⊢; exact htr cov t w _ h2
        have hne : (a.n : ℝ) ≠ 0 := by exact_mod_cast hn.ne'
        let s₀ : State W α T Cov := ⟨s₁.w, s₁.cur, s₁.curT, s₁.ll, env.pdf s₁.cur, s₁.lj, s₁.cov, [], [], s₁.accepted / a.n * a.n, s₁.sims⟩
        have hbeg : begin_ env w₁ r.stop.θ j₁.ll (some ((none : Option Cov).getD j₁.cov)) [] (s₁.accepted / a.n * a.n) s₁.sims = some s₀ := by
          rw [begin_, ← hcur, hT]
          simp only [i.lj]
          subst hj hw
          rfl
        have hsame : Same s₁.chain s₁ s₀ := ⟨rfl, rfl, rfl, rfl, i.pr, rfl, rfl, by simp [s₀], by simp [s₀, div_mul_cancel₀ _ hne], rfl⟩
        obtain ⟨t', g1, g2⟩ := same_loop (i' := interval) (k' := 0) n₂ hsame (Nat.le_add_right _ _) hl2
        obtain ⟨cols, c1, c2⟩ := columns_join env.names s₁.chain t'.chain
        have huser : j₁.user = columns env.names s₁.chain := by subst hj; exact asDict_namedColumns _ _
        have hres : restart env ⟨n₂, 0, none, ini, interval⟩ w₁ j₁ =
            some (t'.w, ⟨j₁.chain ++ t'.chain, asDict cols, List.replicate (j₁.n + n₂) 1, j₁.rates ++ [t'.accepted / (j₁.n + n₂ : Nat)], j₁.sims ++ [t'.sims], j₁.n + n₂, t'.ll, t'.cov⟩) := by
          unfold restart
          rw [hlast, huser]
          have hrates : j₁.rates = [s₁.accepted / a.n] := by subst hj; rfl
          have hsims : j₁.sims = [s₁.sims] := by subst hj; rfl
          have hjn : j₁.n = a.n := by subst hj; rfl
          rw [hrates, hsims, hjn]
          simp only [List.getLast?_singleton]
          rw [hbeg]
          simp only [Nat.zero_add, List.range_eq_range']
          rw [g1]
          simp only
          rw [if_neg (by omega), c1]
        have hjn : j₁.n = a.n := by subst hj; rfl
        have hjc : j₁.chain = s₁.chain := by subst hj; rfl
        refine ⟨_, by rw [hres, ← g2.w, hw2], ?_, ?_, ?_, ?_, g2.ll.symm, g2.cov.symm, ?_, ?_⟩
        · simp only [hjc, g2.chain]
        · simp only [hjn]
        · simp only [c2, asDict_namedColumns, g2.chain]
        · simp only [hjn]
        · simp only [List.getLast?_append, List.getLast?_singleton, Option.some_or, hjn, g2.accepted]
        · simp only [List.getLast?_append, List.getLast?_singleton, Option.some_or, g2.sims]

/-! ### A concrete sampler -/

/-- One parameter with prior density 1 at 1 and 1/2 at 2, flat likelihood; proposals and uniform numbers are read from two lists. -/
noncomputable def exEnv : Env (List Nat × List ℝ) Nat (List Nat) Unit where
  names := ["theta"]
  prior w := (w, [1])
  pdf θ := if θ = [1] then 1 else if θ = [2] then 1 / 2 else 0
  loglik _ w := (w, 0)
  tr θ := some θ
  inv t := some t
  jac _ := some 0
  propose _ _ w := ((w.1.tail, w.2), [w.1.headD 0])
  unif w := ((w.1, w.2.tail), w.2.headD 0)
  adapt _ := ()
  eye _ := ()

/-- Three steps, one of them burn-in: the first proposal is accepted, the second has prior density zero, the third is accepted. -/
theorem exFresh : ∃ u, fresh exEnv ⟨2, 1, none, none, none⟩ ([2, 5, 1, 2], [1 / 4, 9 / 10, 3 / 4]) 0 =
    some (([2], [3 / 4]), ⟨[[2], [1]], u, [1, 1], [1 / 2], [3], 2, 0, ()⟩) := by
  refine ⟨columns ["theta"] [[2], [1]], ?_⟩
  norm_num [fresh, exEnv, initial, begin_, loop, step, State.record, State.adaptCov, accepts, alpha, List.range_succ, asDict_namedColumns, List.replicate]

/-- A restart for one more state: the proposal 2 is rejected, because 3/4 is not below 1/2. The rate is that of all three states. -/
theorem exRestart : ∃ u, restart exEnv ⟨1, 0, none, none, none⟩ ([2], [3 / 4]) ⟨[[2], [1]], columns ["theta"] [[2], [1]], [1, 1], [1 / 2], [3], 2, 0, ()⟩ =
    some (([], []), ⟨[[2], [1], [1]], u, [1, 1, 1], [1 / 2, 1 / 3], [3, 4], 3, 0, ()⟩) := by
  obtain ⟨cols, c1, c2⟩ := columns_join (α := Nat) ["theta"] [[2], [1]] [[1]]
  refine ⟨asDict cols, ?_⟩
  norm_num [restart, exEnv, begin_, loop, step, State.record, State.adaptCov, accepts, alpha, List.range_succ, List.replicate]
  rw [c1]

end Verif.Mcmc
