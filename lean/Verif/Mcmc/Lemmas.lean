import Verif.Mcmc.Model
import Mathlib.Tactic.Linarith
import Mathlib.Tactic.Ring
/-
What a Metropolis-Hastings chain is, and the invariant of the loop.
-/
namespace Verif.Mcmc

variable {W α T Cov : Type}

/-! ### Specification -/

/-- One step of a chain: a proposal, the estimate of its log-likelihood, the uniform number, and whether the chain moved. -/
structure Move (α : Type) where
  prop : List α
  ll : ℝ
  u : ℝ
  moved : Bool

/-- The position of a chain: a parameter vector and the estimate of its log-likelihood made when the chain moved there. -/
structure Pos (α : Type) where
  θ : List α
  ll : ℝ

def next (x : Pos α) (m : Move α) : Pos α := if m.moved then ⟨m.prop, m.ll⟩ else x

/-- The positions after each of the steps. -/
def positions : Pos α → List (Move α) → List (Pos α)
  | _, [] => []
  | x, m :: ms => next x m :: positions (next x m) ms

def last (x : Pos α) (ms : List (Move α)) : Pos α := ms.foldl next x

/-- The Metropolis-Hastings rule: the chain moves exactly if the prior density of the proposal is not zero and the uniform number is smaller than the ratio of the
targets (on the transformed space), which is infinite at a state of prior density zero. -/
def Rule (env : Env W α T Cov) (x : Pos α) (m : Move α) : Prop :=
  m.moved = true ↔ env.pdf m.prop ≠ 0 ∧ ∃ j j', env.jac x.θ = some j ∧ env.jac m.prop = some j' ∧
    (env.pdf x.θ = 0 ∨ m.u < Real.exp (j - j') * Real.exp (m.ll - x.ll) * (env.pdf m.prop / env.pdf x.θ))

/-- The proposal is drawn by the kernel around the transformed position, and its likelihood is estimated at the proposal. -/
def Drawn (env : Env W α T Cov) (x : Pos α) (m : Move α) : Prop :=
  (∃ cov t w, (env.tr x.θ = some t ∨ env.inv t = some x.θ) ∧ env.inv (env.propose cov t w).2 = some m.prop) ∧
  (env.pdf m.prop ≠ 0 → ∃ w, m.ll = (env.loglik m.prop w).2 ∧ m.u = (env.unif (env.loglik m.prop w).1).2)

/-- A Metropolis-Hastings chain. -/
def IsChain (env : Env W α T Cov) : Pos α → List (Move α) → Prop
  | _, [] => True
  | x, m :: ms => Rule env x m ∧ Drawn env x m ∧ IsChain env (next x m) ms

theorem isChain_append (env : Env W α T Cov) (x : Pos α) (a b : List (Move α)) :
    IsChain env x (a ++ b) ↔ IsChain env x a ∧ IsChain env (last x a) b := by
  induction a generalizing x with
  | nil => simp [IsChain, last]
  | cons m a ih => simp [IsChain, ih, last, and_assoc]

theorem positions_append (x : Pos α) (a b : List (Move α)) : positions x (a ++ b) = positions x a ++ positions (last x a) b := by
  induction a generalizing x with
  | nil => simp [positions, last]
  | cons m a ih => simp [positions, ih, last]

theorem positions_length (x : Pos α) (a : List (Move α)) : (positions x a).length = a.length := by
  induction a generalizing x with
  | nil => rfl
  | cons m a ih => simp [positions, ih]

theorem positions_getLast? (x : Pos α) (a : List (Move α)) (h : a ≠ []) : (positions x a).getLast? = some (last x a) := by
  induction a generalizing x with
  | nil => exact absurd rfl h
  | cons m a ih =>
    cases a with
    | nil => rfl
    | cons m' a =>
      have := ih (next x m) (by simp)
      simp only [positions, last, List.foldl_cons] at this ⊢
      rw [List.getLast?_cons_cons]
      exact this

/-- Proposals of non-zero prior density: the ones that are simulated. -/
noncomputable def simulated (env : Env W α T Cov) (ms : List (Move α)) : Nat := by
  classical exact ms.countP fun m => decide (env.pdf m.prop ≠ 0)

/-! ### The invariant -/

/-- After the moves `ms` (of a run that started at `x`, with `acc0` and `sims0` in the counters). -/
structure Inv (env : Env W α T Cov) (burnin : Nat) (x : Pos α) (acc0 : ℝ) (sims0 : Nat) (ms : List (Move α)) (s : State W α T Cov) : Prop where
  chain : IsChain env x ms
  pos : (⟨s.cur, s.ll⟩ : Pos α) = last x ms
  pr : s.pr = env.pdf s.cur
  lj : env.jac s.cur = some s.lj
  curT : env.tr s.cur = some s.curT ∨ (∃ cov t w, s.curT = (env.propose cov t w).2) ∧ env.inv s.curT = some s.cur
  states : s.chain = ((positions x ms).drop burnin).map Pos.θ
  acc : s.accepted = acc0 + ((ms.drop burnin).countP fun m => m.moved : Nat)
  sims : s.sims = sims0 + simulated env ms

theorem adaptCov_some {env : Env W α T Cov} {s s' : State W α T Cov} {burnin k : Nat} {interval : Option Nat}
    (h : s.adaptCov env burnin k interval = some s') : ∃ cov, s' = { s with cov := cov } := by
  unfold State.adaptCov at h
  split at h
  · exact ⟨s.cov, by simpa using h.symm⟩
  · cases interval with
    | none => exact ⟨s.cov, by simpa using h.symm⟩
    | some i =>
      simp only at h
      split at h
      · simp at h
      · split at h
        · exact ⟨_, by simpa using h.symm⟩
        · exact ⟨s.cov, by simpa using h.symm⟩

theorem drop_snoc {β : Type} (l : List β) (a : β) (n : Nat) : (l ++ [a]).drop n = if l.length ≥ n then l.drop n ++ [a] else [] := by
  split
  · rename_i h; rw [List.drop_append_of_le_length h]
  · rename_i h; rw [List.drop_eq_nil_of_le]; simp; omega

theorem inv_step {env : Env W α T Cov} {burnin : Nat} {interval : Option Nat} {x : Pos α} {acc0 : ℝ} {sims0 : Nat} {ms : List (Move α)} {s s' : State W α T Cov}
    (hi : Inv env burnin x acc0 sims0 ms s) (h : step env burnin interval ms.length s = some s') :
    ∃ m, Inv env burnin x acc0 sims0 (ms ++ [m]) s' ∧ env.inv (env.propose s.cov s.curT s.w).2 = some m.prop := by
  unfold step at h
  cases hp : env.inv (env.propose s.cov s.curT s.w).2 with
  | none => simp [hp] at h
  | some θ =>
    have hlast : last x ms = ⟨s.cur, s.ll⟩ := hi.pos.symm
    simp only [hp] at h
    by_cases hz : env.pdf θ = 0
    · rw [if_pos hz] at h
      simp only [Option.some.injEq] at h
      let m : Move α := ⟨θ, 0, 0, false⟩
      have hn : next (⟨s.cur, s.ll⟩ : Pos α) m = ⟨s.cur, s.ll⟩ := by simp [next, m]
      have e : last x (ms ++ [m]) = ⟨s.cur, s.ll⟩ := by rw [last, List.foldl_append]; change next (last x ms) m = _; rw [hlast, hn]
      refine ⟨m, ?_, rfl⟩
      have hc : IsChain env x (ms ++ [m]) := by
        rw [isChain_append, hlast]
        refine ⟨hi.chain, ?_, ?_, trivial⟩
        · simp only [Rule, m, hz]; simp
        · exact ⟨⟨s.cov, s.curT, s.w, hi.curT.imp_right And.right, hp⟩, fun h => absurd hz h⟩
      have hs : simulated env (ms ++ [m]) = simulated env ms := by simp [simulated, List.countP_append, m, hz]
      have hacc : ((ms ++ [m]).drop burnin).countP (fun m => m.moved) = (ms.drop burnin).countP (fun m => m.moved) := by
        rw [drop_snoc]
        split
        · simp [List.countP_append, m]
        · rename_i h; rw [List.drop_eq_nil_of_le (by omega)]
      have hst : ((positions x (ms ++ [m])).drop burnin).map Pos.θ = if ms.length ≥ burnin then s.chain ++ [s.cur] else s.chain := by
        rw [positions_append, hlast]
        simp only [positions, hn]
        rw [drop_snoc, positions_length]
        split
        · rw [List.map_append, ← hi.states]; rfl
        · rename_i h
          rw [hi.states, List.drop_eq_nil_of_le (by rw [positions_length]; omega)]
      subst h
      unfold State.record
      split
      · rename_i hk
        exact ⟨hc, e.symm, hi.pr, hi.lj, hi.curT, by rw [hst, if_pos hk], by rw [hacc]; exact hi.acc, by rw [hs]; exact hi.sims⟩
      · rename_i hk
        exact ⟨hc, e.symm, hi.pr, hi.lj, hi.curT, by rw [hst, if_neg hk], by rw [hacc]; exact hi.acc, by rw [hs]; exact hi.sims⟩
    · rw [if_neg hz] at h
      cases hj : env.jac θ with
      | none => simp [hj] at h
      | some lj =>
        simp only [hj] at h
        obtain ⟨cov, rfl⟩ := adaptCov_some h
        generalize hr : env.loglik θ (env.propose s.cov s.curT s.w).1 = r at h ⊢
        have hs : ∀ b, simulated env (ms ++ [⟨θ, r.2, (env.unif r.1).2, b⟩]) = simulated env ms + 1 := by
          intro b; simp [simulated, List.countP_append, hz]
        have hdr : ∀ b, Drawn env (⟨s.cur, s.ll⟩ : Pos α) ⟨θ, r.2, (env.unif r.1).2, b⟩ := by
          intro b
          exact ⟨⟨s.cov, s.curT, s.w, hi.curT.imp_right And.right, hp⟩, fun _ => ⟨(env.propose s.cov s.curT s.w).1, by rw [hr], by rw [hr]⟩⟩
        have hal : Real.exp (s.lj - lj + r.2 - s.ll) * env.pdf θ / env.pdf s.cur = Real.exp (s.lj - lj) * Real.exp (r.2 - s.ll) * (env.pdf θ / env.pdf s.cur) := by
          rw [← Real.exp_add]; rw [show s.lj - lj + r.2 - s.ll = s.lj - lj + (r.2 - s.ll) by ring]; ring
        by_cases ha : accepts (env.unif r.1).2 s.lj lj r.2 s.ll (env.pdf θ) s.pr = true
        · rw [if_pos ha]
          let m : Move α := ⟨θ, r.2, (env.unif r.1).2, true⟩
          have hn : next (⟨s.cur, s.ll⟩ : Pos α) m = ⟨θ, r.2⟩ := by simp [next, m]
          have e : last x (ms ++ [m]) = ⟨θ, r.2⟩ := by rw [last, List.foldl_append]; change next (last x ms) m = _; rw [hlast, hn]
          have hc : IsChain env x (ms ++ [m]) := by
            rw [isChain_append, hlast]
            refine ⟨hi.chain, ?_, hdr true, trivial⟩
            simp only [Rule, m]
            refine iff_of_true trivial ⟨hz, s.lj, lj, hi.lj, hj, ?_⟩
            rw [accepts, hi.pr] at ha
            by_cases h0 : env.pdf s.cur = 0
            · exact .inl h0
            · right
              rw [if_neg h0, decide_eq_true_eq, alpha, hal] at ha
              exact ha
          have hacc : (((ms ++ [m]).drop burnin).countP (fun m => m.moved) : ℝ) =
              (ms.drop burnin).countP (fun m => m.moved) + if ms.length ≥ burnin then 1 else 0 := by
            rw [drop_snoc]
            split
            · simp [List.countP_append, m]
            · rename_i h; rw [List.drop_eq_nil_of_le (by omega)]; simp
          have hst : ((positions x (ms ++ [m])).drop burnin).map Pos.θ = if ms.length ≥ burnin then s.chain ++ [θ] else s.chain := by
            rw [positions_append, hlast]
            simp only [positions, hn]
            rw [drop_snoc, positions_length]
            split
            · rw [List.map_append, ← hi.states]; rfl
            · rename_i h
              rw [hi.states, List.drop_eq_nil_of_le (by rw [positions_length]; omega)]
          refine ⟨m, ?_, rfl⟩
          unfold State.record
          split
          · rename_i hk
            refine ⟨hc, e.symm, rfl, hj, .inr ⟨⟨_, _, _, rfl⟩, hp⟩, by rw [hst, if_pos hk], ?_, ?_⟩
            · rw [hacc, if_pos hk]; simp only [hk, if_true]; rw [hi.acc]; ring
            · simp only; rw [hs true, hi.sims]; ring
          · rename_i hk
            refine ⟨hc, e.symm, rfl, hj, .inr ⟨⟨_, _, _, rfl⟩, hp⟩, by rw [hst, if_neg hk], ?_, ?_⟩
            · rw [hacc, if_neg hk]; simp only [hk, if_false]; rw [hi.acc]; ring
            · simp only; rw [hs true, hi.sims]; ring
        · rw [if_neg ha]
          let m : Move α := ⟨θ, r.2, (env.unif r.1).2, false⟩
          have hn : next (⟨s.cur, s.ll⟩ : Pos α) m = ⟨s.cur, s.ll⟩ := by simp [next, m]
          have e : last x (ms ++ [m]) = ⟨s.cur, s.ll⟩ := by rw [last, List.foldl_append]; change next (last x ms) m = _; rw [hlast, hn]
          have hc : IsChain env x (ms ++ [m]) := by
            rw [isChain_append, hlast]
            refine ⟨hi.chain, ?_, hdr false, trivial⟩
            simp only [Rule, m]
            refine iff_of_false (by simp) ?_
            rintro ⟨-, j, j', e1, e2, e3⟩
            rw [hi.lj] at e1
            rw [hj] at e2
            obtain rfl := Option.some.inj e1
            obtain rfl := Option.some.inj e2
            apply ha
            rw [accepts, hi.pr]
            by_cases h0 : env.pdf s.cur = 0
            · rw [if_pos h0]
            · rw [if_neg h0, decide_eq_true_eq, alpha, hal]
              exact e3.resolve_left h0
          have hacc : ((ms ++ [m]).drop burnin).countP (fun m => m.moved) = (ms.drop burnin).countP (fun m => m.moved) := by
            rw [drop_snoc]
            split
            · simp [List.countP_append, m]
            · rename_i h; rw [List.drop_eq_nil_of_le (by omega)]
          have hst : ((positions x (ms ++ [m])).drop burnin).map Pos.θ = if ms.length ≥ burnin then s.chain ++ [s.cur] else s.chain := by
            rw [positions_append, hlast]
            simp only [positions, hn]
            rw [drop_snoc, positions_length]
            split
            · rw [List.map_append, ← hi.states]; rfl
            · rename_i h
              rw [hi.states, List.drop_eq_nil_of_le (by rw [positions_length]; omega)]
          refine ⟨m, ?_, rfl⟩
          unfold State.record
          split
          · rename_i hk
            refine ⟨hc, e.symm, hi.pr, hi.lj, hi.curT, by rw [hst, if_pos hk], by rw [hacc]; exact hi.acc, ?_⟩
            simp only; rw [hs false, hi.sims]; ring
          · rename_i hk
            refine ⟨hc, e.symm, hi.pr, hi.lj, hi.curT, by rw [hst, if_neg hk], by rw [hacc]; exact hi.acc, ?_⟩
            simp only; rw [hs false, hi.sims]; ring

theorem inv_loop {env : Env W α T Cov} {burnin : Nat} {interval : Option Nat} {x : Pos α} {acc0 : ℝ} {sims0 : Nat} (n : Nat) {ms : List (Move α)} {s s' : State W α T Cov}
    (hi : Inv env burnin x acc0 sims0 ms s) (h : loop env burnin interval (List.range' ms.length n) s = some s') :
    ∃ ms', ms'.length = ms.length + n ∧ Inv env burnin x acc0 sims0 ms' s' := by
  induction n generalizing ms s with
  | zero => simp [loop] at h; subst h; exact ⟨ms, rfl, hi⟩
  | succ n ih =>
    rw [List.range'_succ, loop] at h
    cases hs : step env burnin interval ms.length s with
    | none => simp [hs] at h
    | some s1 =>
      simp only [hs] at h
      obtain ⟨m, hm, -⟩ := inv_step hi hs
      obtain ⟨ms', l, i⟩ := ih hm (by simpa using h)
      exact ⟨ms', by simp at l; omega, i⟩

theorem inv_begin {env : Env W α T Cov} {w : W} {θ : List α} {ll : ℝ} {cov : Option Cov} {burn : List (List α)} {acc : ℝ} {sims : Nat} {s : State W α T Cov}
    (h : begin_ env w θ ll cov burn acc sims = some s) (burnin : Nat) : Inv env burnin ⟨θ, ll⟩ acc sims [] s := by
  unfold begin_ at h
  cases ht : env.tr θ with
  | none => simp [ht] at h
  | some t =>
    cases hj : env.jac θ with
    | none => simp [ht, hj] at h
    | some lj =>
      simp only [ht, hj, Option.some.injEq] at h
      subst h
      exact ⟨trivial, rfl, rfl, hj, .inl ht, by simp [positions], by simp, by simp [simulated]⟩

end Verif.Mcmc
