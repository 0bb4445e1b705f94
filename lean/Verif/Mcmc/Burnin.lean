import Verif.Mcmc.Resume
/-!
# C202: burn-in drops the beginning of the chain

Two calls of `MCMCMetropoliHastings.sample` (inferences.py 4142-4459) that begin in the same way are compared: one with `burnin` steps of burn-in, and one that keeps all states.
-/
namespace Verif.Mcmc

variable {W α T Cov : Type}

/-- After `k` steps the run with burn-in `b` is where the run without is, and has kept the states of that run but the first `b`. -/
structure Behind (b k : Nat) (s s' : State W α T Cov) : Prop where
  w : s'.w = s.w
  cur : s'.cur = s.cur
  curT : s'.curT = s.curT
  ll : s'.ll = s.ll
  pr : s'.pr = s.pr
  lj : s'.lj = s.lj
  cov : s'.cov = s.cov
  sims : s'.sims = s.sims
  length : s.chain.length = k
  chain : s'.chain = s.chain.drop b
  acc : ∃ m m' : Nat, m ≤ b ∧ m ≤ k ∧ s.accepted = (m + m' : Nat) ∧ s'.accepted = m'

theorem adaptCov_zero {env : Env W α T Cov} (s : State W α T Cov) (k : Nat) (i : Option Nat) : s.adaptCov env 0 k i = some s := by
  unfold State.adaptCov
  rw [if_pos (Nat.zero_le _)]

theorem adaptCov_none {env : Env W α T Cov} (s : State W α T Cov) (b k : Nat) : s.adaptCov env b k none = some s := by
  unfold State.adaptCov
  split <;> rfl

theorem behind_record {b k : Nat} {s s' : State W α T Cov} (hw : s'.w = s.w) (hc : s'.cur = s.cur) (hT : s'.curT = s.curT) (hl : s'.ll = s.ll) (hp : s'.pr = s.pr)
    (hj : s'.lj = s.lj) (hv : s'.cov = s.cov) (hs : s'.sims = s.sims) (hn : s.chain.length = k) (hch : s'.chain = s.chain.drop b)
    (ha : ∃ m m' : Nat, m ≤ b ∧ m ≤ k + 1 ∧ s.accepted = (m + m' : Nat) ∧ s'.accepted = m') :
    Behind b (k + 1) (s.record 0 k) (s'.record b k) := by
  unfold State.record
  rw [if_pos (Nat.zero_le _)]
  by_cases hk : k ≥ b
  · rw [if_pos hk]
    refine ⟨hw, hc, hT, hl, hp, hj, hv, hs, by simp [hn], ?_, ha⟩
    simp only
    rw [hch, hc, List.drop_append_of_le_length (by omega)]
  · rw [if_neg hk]
    refine ⟨hw, hc, hT, hl, hp, hj, hv, hs, by simp [hn], ?_, ha⟩
    simp only
    rw [hch, List.drop_eq_nil_of_le (by omega), List.drop_eq_nil_of_le (by simp; omega)]

theorem behind_step {env : Env W α T Cov} {b k : Nat} {i : Option Nat} {s s' : State W α T Cov} (h : Behind b k s s') :
    (step env 0 i k s = none ∧ step env b none k s' = none) ∨
      ∃ t t', step env 0 i k s = some t ∧ step env b none k s' = some t' ∧ Behind b (k + 1) t t' := by
  obtain ⟨m, m', m1, m2, m3, m4⟩ := h.acc
  unfold step
  simp only [h.w, h.curT, h.cov, h.ll, h.pr, h.lj, h.sims, adaptCov_zero, adaptCov_none]
  cases hi : env.inv (env.propose s.cov s.curT s.w).2 with
  | none => exact Or.inl ⟨rfl, rfl⟩
  | some θ =>
    simp only
    by_cases h0 : env.pdf θ = 0
    · rw [if_pos h0, if_pos h0]
      exact Or.inr ⟨_, _, rfl, rfl, behind_record rfl h.cur rfl rfl rfl rfl rfl rfl h.length h.chain ⟨m, m', m1, by omega, m3, m4⟩⟩
    · rw [if_neg h0, if_neg h0]
      cases hj : env.jac θ with
      | none => exact Or.inl ⟨rfl, rfl⟩
      | some lj =>
        simp only
        refine Or.inr ⟨_, _, rfl, rfl, ?_⟩
        generalize accepts _ _ _ _ _ _ _ = c
        cases c with
        | false => exact behind_record rfl h.cur rfl rfl rfl rfl rfl rfl h.length h.chain ⟨m, m', m1, by omega, m3, m4⟩
        | true =>
          refine behind_record rfl rfl rfl rfl rfl rfl rfl rfl h.length h.chain ?_
          simp only [if_true, ge_iff_le, Nat.zero_le]
          by_cases hk : b ≤ k
          · rw [if_pos hk]
            exact ⟨m, m' + 1, m1, by omega, by rw [m3]; push_cast; ring, by rw [m4]; push_cast; ring⟩
          · rw [if_neg hk]
            exact ⟨m + 1, m', by omega, by omega, by rw [m3]; push_cast; ring, m4⟩

theorem behind_loop {env : Env W α T Cov} {b : Nat} {i : Option Nat} (n : Nat) {k : Nat} {s s' : State W α T Cov} (h : Behind b k s s') :
    (loop env 0 i (List.range' k n) s = none ∧ loop env b none (List.range' k n) s' = none) ∨
      ∃ t t', loop env 0 i (List.range' k n) s = some t ∧ loop env b none (List.range' k n) s' = some t' ∧ Behind b (k + n) t t' := by
  induction n generalizing k s s' with
  | zero => exact Or.inr ⟨s, s', rfl, rfl, h⟩
  | succ n ih =>
    rw [List.range'_succ, loop, loop]
    rcases behind_step (env := env) (i := i) h with ⟨h1, h2⟩ | ⟨t, t', h1, h2, h3⟩
    · rw [h1, h2]
      exact Or.inl ⟨rfl, rfl⟩
    · rw [h1, h2]
      rcases ih h3 with h4 | ⟨u, u', h4, h5, h6⟩
      · exact Or.inl h4
      · exact Or.inr ⟨u, u', h4, h5, by rw [show k + (n + 1) = k + 1 + n by omega]; exact h6⟩

/-- Specification: the journal `j'` is the journal `j` of a longer chain without its first `b` states. `m` is the number of moves in these. -/
structure Cut (b : Nat) (j j' : Jrn α Cov) (m : Nat) : Prop where
  chain : j'.chain = j.chain.drop b
  user : ∀ name, j'.user name = (j.user name).map fun column => column.drop b
  n : j'.n + b = j.n
  weights : j'.weights = j.weights.drop b
  sims : j'.sims = j.sims
  ll : j'.ll = j.ll
  cov : j'.cov = j.cov
  rates : ∃ m' : Nat, j.rates = [((m + m' : Nat) : ℝ) / j.n] ∧ j'.rates = [(m' : ℝ) / j'.n]

theorem columns_drop (names : List String) (b : Nat) (chain : List (List α)) (name : String) :
    columns names (chain.drop b) name = (columns names chain name).map fun c => c.drop b := by
  unfold columns
  rw [Option.map_map]
  congr 1
  funext e
  simp [List.map_drop]

/-- **C202.** Without adaptation, a call for `n` states after `b` steps of burn-in returns if and only if the call for `b + n` states without burn-in, from the same generators, does; it
leaves the generators in the same state, and its journal is the journal of that call without the first `b` states: the states, their columns and weights, the estimate of the
likelihood, the number of simulations and the proposal matrix agree, and the acceptance rate leaves out the moves among the first `b`. -/
theorem C202_fresh (env : Env W α T Cov) (n b : Nat) (hn : 0 < n) (cov : Option Cov) (ini : Option (List α)) (i : Option Nat) (w : W) (counter : Nat) :
    (fresh env ⟨b + n, 0, cov, ini, i⟩ w counter = none ∧ fresh env ⟨n, b, cov, ini, none⟩ w counter = none) ∨
      ∃ w' j j' m, fresh env ⟨b + n, 0, cov, ini, i⟩ w counter = some (w', j) ∧ fresh env ⟨n, b, cov, ini, none⟩ w counter = some (w', j') ∧ m ≤ b ∧ Cut b j j' m := by
  have hini : initial env ⟨n, b, cov, ini, none⟩ w = initial env ⟨b + n, 0, cov, ini, i⟩ w := rfl
  unfold fresh
  rw [hini]
  generalize initial env ⟨b + n, 0, cov, ini, i⟩ w = x
  simp only [begin_]
  cases ht : env.tr x.2 with
  | none => exact Or.inl ⟨rfl, rfl⟩
  | some t =>
    simp only
    cases hj : env.jac x.2 with
    | none => exact Or.inl ⟨rfl, rfl⟩
    | some lj =>
      simp only [Nat.zero_add, if_true]
      rw [List.range_eq_range']
      have h0 : Behind b 0 (⟨(env.loglik x.2 x.1).1, x.2, t, (env.loglik x.2 x.1).2, env.pdf x.2, lj, cov.getD (env.eye t), [], [x.2], 0, counter + 1⟩ : State W α T Cov)
          ⟨(env.loglik x.2 x.1).1, x.2, t, (env.loglik x.2 x.1).2, env.pdf x.2, lj, cov.getD (env.eye t), [], (if b = 0 then [x.2] else []), 0, counter + 1⟩ :=
        ⟨rfl, rfl, rfl, rfl, rfl, rfl, rfl, rfl, rfl, by simp, 0, 0, Nat.zero_le _, Nat.zero_le _, by simp, by simp⟩
      rcases behind_loop (env := env) (i := i) (b + n) h0 with ⟨h1, h2⟩ | ⟨u, u', h1, h2, h3⟩
      · rw [h1, h2]
        exact Or.inl ⟨rfl, rfl⟩
      · rw [h1, h2]
        simp only
        rw [if_neg hn.ne', if_neg (by omega)]
        obtain ⟨m, m', m1, -, m3, m4⟩ := h3.acc
        refine Or.inr ⟨_, _, _, m, rfl, by rw [h3.w], m1, h3.chain, ?_, Nat.add_comm _ _, ?_, by rw [h3.sims], h3.ll, h3.cov, m', by rw [m3], by rw [m4]⟩
        · intro name
          simp only [asDict_namedColumns, h3.chain]
          exact columns_drop _ _ _ _
        · simp only [List.drop_replicate]
          congr 1
          omega

/-- The run of `exFresh` against the run of three states without burn-in. -/
example : ∃ j j' w', fresh exEnv ⟨3, 0, none, none, none⟩ ([2, 5, 1, 2], [1 / 4, 9 / 10, 3 / 4]) 0 = some (w', j) ∧
    fresh exEnv ⟨2, 1, none, none, none⟩ ([2, 5, 1, 2], [1 / 4, 9 / 10, 3 / 4]) 0 = some (w', j') ∧ j.chain = [[2], [2], [1]] ∧ j'.chain = [[2], [1]] := by
  obtain ⟨u, hu⟩ := exFresh
  have e : fresh exEnv ⟨1 + 2, 0, none, none, none⟩ ([2, 5, 1, 2], [1 / 4, 9 / 10, 3 / 4]) 0 =
      some (([2], [3 / 4]), ⟨[[2], [2], [1]], columns ["theta"] [[2], [2], [1]], [1, 1, 1], [2 / 3], [3], 3, 0, ()⟩) := by
    norm_num [fresh, exEnv, initial, begin_, loop, step, State.record, State.adaptCov, accepts, alpha, List.range_succ, asDict_namedColumns, List.replicate]
  rcases C202_fresh exEnv 2 1 (by omega) none none none ([2, 5, 1, 2], [1 / 4, 9 / 10, 3 / 4]) 0 with ⟨h, -⟩ | ⟨w', j, j', m, h1, h2, -, h3⟩
  · rw [e] at h
    simp at h
  · refine ⟨j, j', w', h1, h2, ?_, ?_⟩
    · rw [e] at h1
      simp only [Option.some.injEq, Prod.mk.injEq] at h1
      rw [← h1.2]
    · rw [hu] at h2
      simp only [Option.some.injEq, Prod.mk.injEq] at h2
      rw [← h2.2]

end Verif.Mcmc
