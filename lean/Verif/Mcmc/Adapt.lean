import Verif.Mcmc.Resume
import Mathlib.Data.List.GetD
/-
C135: with which covariance the proposals of the chain are made.
-/
namespace Verif.Mcmc

variable {W α T Cov : Type}

/-! ### Specification -/

/-- The covariance is recomputed after step `k` (counted from 0). -/
def AdaptsAt (burnin : Nat) (interval : Option Nat) (k : Nat) : Prop := k < burnin ∧ ∃ i, interval = some i ∧ i ∣ k + 1

/-- The parameter vectors of the chain after each step. -/
def path (r : Run α) : List (List α) := (positions r.start r.moves).map Pos.θ

/-- `covs` lists the covariance used for each of the proposals, and the one left at the end: it starts with `c`, proposal `k` is drawn with the covariance number
`k` around the state of the chain before it, and after step `k` the covariance is computed from all the states so far if the schedule asks for it and `k` is not among the
exceptions; otherwise it stays. -/
structure Schedule (env : Env W α T Cov) (interval : Option Nat) (skip : Move α → Prop) (r : Run α) (c : Cov) (covs : List Cov) : Prop where
  length : covs.length = r.moves.length + 1
  start : covs[0]? = some c
  drawn : ∀ (k : Nat) (m : Move α) (c : Cov) (x : List α), r.moves[k]? = some m → covs[k]? = some c → (r.start.θ :: path r)[k]? = some x →
    ∃ t w, (env.tr x = some t ∨ env.inv t = some x) ∧ env.inv (env.propose c t w).2 = some m.prop
  adapted : ∀ (k : Nat) (m : Move α), r.moves[k]? = some m → AdaptsAt r.burnin interval k → ¬ skip m → covs[k + 1]? = some (env.adapt ((path r).take (k + 1)))
  kept : ∀ (k : Nat) (m : Move α), r.moves[k]? = some m → ¬ AdaptsAt r.burnin interval k ∨ skip m → covs[k + 1]? = covs[k]?

/-! ### Proof -/

theorem step_cov {env : Env W α T Cov} {burnin k : Nat} {interval : Option Nat} {s s' : State W α T Cov} {θ : List α}
    (h : step env burnin interval k s = some s') (hp : env.inv (env.propose s.cov s.curT s.w).2 = some θ) :
    s'.burn = (if k ≥ burnin then s.burn else s.burn ++ [s'.cur]) ∧
    (AdaptsAt burnin interval k → env.pdf θ ≠ 0 → s'.cov = env.adapt s'.burn) ∧
    (¬ AdaptsAt burnin interval k ∨ env.pdf θ = 0 → s'.cov = s.cov) := by
  unfold step at h
  simp only [hp] at h
  by_cases hz : env.pdf θ = 0
  · rw [if_pos hz] at h
    simp only [Option.some.injEq] at h
    subst h
    refine ⟨?_, fun _ h => absurd hz h, fun _ => ?_⟩ <;> unfold State.record <;> split <;> rfl
  · rw [if_neg hz] at h
    cases hj : env.jac θ with
    | none => simp [hj] at h
    | some lj =>
      simp only [hj] at h
      generalize hs : (if accepts _ _ _ _ _ _ _ = true then (_ : State W α T Cov) else _) = s1 at h
      have hb : s1.burn = s.burn ∧ s1.cov = s.cov := by
        rw [← hs]; split <;> exact ⟨rfl, rfl⟩
      unfold State.adaptCov at h
      by_cases hk : k ≥ burnin
      · rw [if_pos hk] at h
        have hn : ¬ AdaptsAt burnin interval k := fun h => by have := h.1; omega
        simp only [Option.some.injEq, State.record, if_pos hk] at h
        subst h
        exact ⟨by rw [if_pos hk]; exact hb.1, fun h => absurd h hn, fun _ => hb.2⟩
      · rw [if_neg hk] at h
        have hr : s1.record burnin k = { s1 with burn := s1.burn ++ [s1.cur] } := by rw [State.record, if_neg hk]
        rw [hr] at h
        rw [if_neg hk]
        cases interval with
        | none =>
          simp only [Option.some.injEq] at h
          subst h
          exact ⟨by simp [hb.1], fun h => by obtain ⟨-, i, hi, -⟩ := h; simp at hi, fun _ => hb.2⟩
        | some i =>
          simp only at h
          by_cases h0 : i = 0
          · simp [h0] at h
          · rw [if_neg h0] at h
            have hiff : AdaptsAt burnin (some i) k ↔ (k + 1) % i = 0 := by
              constructor
              · rintro ⟨-, i', e, hd⟩
                obtain rfl := Option.some.inj e
                exact Nat.mod_eq_zero_of_dvd hd
              · intro h; exact ⟨by omega, i, rfl, Nat.dvd_of_mod_eq_zero h⟩
            rw [hiff]
            by_cases hm : (k + 1) % i = 0
            · rw [if_pos hm] at h
              simp only [Option.some.injEq] at h
              subst h
              exact ⟨by simp [hb.1], fun _ _ => rfl, fun h => by rcases h with h | h <;> contradiction⟩
            · rw [if_neg hm] at h
              simp only [Option.some.injEq] at h
              subst h
              exact ⟨by simp [hb.1], fun h => absurd h hm, fun _ => hb.2⟩

/-- The invariant of the loop. -/
structure CovInv (env : Env W α T Cov) (interval : Option Nat) (r : Run α) (c : Cov) (covs : List Cov) (s : State W α T Cov) : Prop where
  sched : Schedule env interval (fun m => env.pdf m.prop = 0) r c covs
  last : covs.getLast? = some s.cov
  burn : 0 < r.burnin → s.burn = (path r).take r.burnin

theorem path_length (r : Run α) : (path r).length = r.moves.length := by rw [path, List.length_map, positions_length]

theorem covInv_step {env : Env W α T Cov} {burnin : Nat} {interval : Option Nat} {x : Pos α} {acc0 : ℝ} {sims0 : Nat} {ms : List (Move α)} {s s' : State W α T Cov}
    {c : Cov} {covs : List Cov}
    (hi : Inv env burnin x acc0 sims0 ms s) (hc : CovInv env interval ⟨burnin, x, ms⟩ c covs s) (h : step env burnin interval ms.length s = some s') :
    ∃ m, Inv env burnin x acc0 sims0 (ms ++ [m]) s' ∧ CovInv env interval ⟨burnin, x, ms ++ [m]⟩ c (covs ++ [s'.cov]) s' := by
  obtain ⟨m, hm, hp⟩ := inv_step hi h
  obtain ⟨b1, b2, b3⟩ := step_cov h hp
  refine ⟨m, hm, ?_⟩
  have hpath : path (⟨burnin, x, ms ++ [m]⟩ : Run α) = path (⟨burnin, x, ms⟩ : Run α) ++ [s'.cur] := by
    rw [path, path]
    simp only
    rw [positions_append, List.map_append]
    congr 1
    have e := hm.pos
    rw [last, List.foldl_append] at e
    simp only [positions, List.map_cons, List.map_nil]
    have e' : (⟨s'.cur, s'.ll⟩ : Pos α) = next (last x ms) m := e
    rw [← e']
  have hl := path_length (⟨burnin, x, ms⟩ : Run α)
  have hcl := hc.sched.length
  simp only at hl hcl
  have hburn : 0 < burnin → s'.burn = (path (⟨burnin, x, ms ++ [m]⟩ : Run α)).take burnin := by
    intro hpos
    rw [b1, hpath]
    by_cases hk : ms.length ≥ burnin
    · rw [if_pos hk, hc.burn hpos, List.take_append_of_le_length (by omega)]
    · rw [if_neg hk, hc.burn hpos, List.take_of_length_le (by simp only; omega), List.take_of_length_le (by simp; omega)]
  have hcov : covs[ms.length]? = some s.cov := by
    have := hc.last
    rw [List.getLast?_eq_getElem?, hcl] at this
    exact this
  have hlow : ∀ k, k ≤ ms.length → (covs ++ [s'.cov])[k]? = covs[k]? := fun k hk => List.getElem?_append_left (by omega)
  have htop : (covs ++ [s'.cov])[ms.length + 1]? = some s'.cov := by rw [List.getElem?_append_right (by omega), hcl]; simp
  have split : ∀ {k m'}, (ms ++ [m])[k]? = some m' → ms[k]? = some m' ∧ k < ms.length ∨ k = ms.length ∧ m' = m := by
    intro k m' hk
    rcases Nat.lt_trichotomy k ms.length with hlt | heq | hgt
    · left; exact ⟨by rwa [List.getElem?_append_left hlt] at hk, hlt⟩
    · right; subst heq; simp at hk; exact ⟨rfl, hk.symm⟩
    · rw [List.getElem?_eq_none (by simp; omega)] at hk; simp at hk
  refine ⟨⟨by simp [hcl], ?_, ?_, ?_, ?_⟩, by simp, hburn⟩
  · rw [hlow 0 (by omega)]; exact hc.sched.start
  · intro k m' c' y hk hck hy
    simp only at hk
    rcases split hk with ⟨h1, hlt⟩ | ⟨rfl, rfl⟩
    · refine hc.sched.drawn k m' c' y h1 (by rw [hlow k (by omega)] at hck; exact hck) ?_
      rw [hpath, ← List.cons_append, List.getElem?_append_left (by simp; omega)] at hy
      exact hy
    · rw [hlow _ (le_refl _), hcov] at hck
      obtain rfl := Option.some.inj hck
      have hpos : y = s.cur := by
        rw [hpath, ← List.cons_append, List.getElem?_append_left (by simp; omega)] at hy
        have e := hi.pos
        rcases List.eq_nil_or_concat ms with rfl | ⟨ms', m0, rfl⟩
        · simp at hy; rw [← hy]; exact (congrArg Pos.θ e).symm
        · rw [path] at hy
          rw [List.concat_eq_append] at e
          have hne : ms' ++ [m0] ≠ [] := by simp
          have e2 := positions_getLast? x (ms' ++ [m0]) hne
          rw [← e, List.getLast?_eq_getElem?, positions_length] at e2
          simp only [List.length_append, List.length_singleton, Nat.add_sub_cancel, List.concat_eq_append] at e2 hy
          rw [List.getElem?_cons_succ, List.getElem?_map, e2] at hy
          simpa using hy.symm
      subst hpos
      exact ⟨s.curT, s.w, hi.curT.imp_right And.right, hp⟩
  · intro k m' hk had hz
    simp only at hk had
    rcases split hk with ⟨h1, hlt⟩ | ⟨rfl, rfl⟩
    · rw [hlow _ (by omega), hc.sched.adapted k m' h1 had hz, hpath, List.take_append_of_le_length (by omega)]
    · rw [htop, b2 had hz, hburn (by have := had.1; omega), List.take_of_length_le (by rw [hpath]; have := had.1; simp; omega),
        List.take_of_length_le (by rw [hpath]; simp; omega)]
  · intro k m' hk hz
    simp only at hk hz
    rcases split hk with ⟨h1, hlt⟩ | ⟨rfl, rfl⟩
    · rw [hlow _ (by omega), hlow _ (by omega)]
      exact hc.sched.kept k m' h1 hz
    · rw [htop, hlow _ (le_refl _), hcov, b3 hz]

theorem covInv_loop {env : Env W α T Cov} {burnin : Nat} {interval : Option Nat} {x : Pos α} {acc0 : ℝ} {sims0 : Nat} (n : Nat) {ms : List (Move α)}
    {s s' : State W α T Cov} {c : Cov} {covs : List Cov}
    (hi : Inv env burnin x acc0 sims0 ms s) (hc : CovInv env interval ⟨burnin, x, ms⟩ c covs s)
    (h : loop env burnin interval (List.range' ms.length n) s = some s') :
    ∃ ms' covs', ms'.length = ms.length + n ∧ Inv env burnin x acc0 sims0 ms' s' ∧ CovInv env interval ⟨burnin, x, ms'⟩ c covs' s' := by
  induction n generalizing ms s covs with
  | zero => simp [loop] at h; subst h; exact ⟨ms, covs, rfl, hi, hc⟩
  | succ n ih =>
    rw [List.range'_succ, loop] at h
    cases hs : step env burnin interval ms.length s with
    | none => simp [hs] at h
    | some s1 =>
      simp only [hs] at h
      obtain ⟨m, hm, hc1⟩ := covInv_step hi hc hs
      obtain ⟨ms', covs', l, i, c'⟩ := ih hm hc1 (by simpa using h)
      exact ⟨ms', covs', by simp at l; omega, i, c'⟩

theorem covInv_begin {env : Env W α T Cov} {w : W} {θ : List α} {ll : ℝ} {cov : Option Cov} {burn : List (List α)} {acc : ℝ} {sims burnin : Nat} {s : State W α T Cov}
    {interval : Option Nat} (h : begin_ env w θ ll cov burn acc sims = some s) (hb : 0 < burnin → burn = []) :
    CovInv env interval ⟨burnin, ⟨θ, ll⟩, []⟩ s.cov [s.cov] s ∧ (cov = some s.cov ∨ cov = none ∧ ∃ t, env.tr θ = some t ∧ s.cov = env.eye t) := by
  unfold begin_ at h
  cases ht : env.tr θ with
  | none => simp [ht] at h
  | some t =>
    cases hj : env.jac θ with
    | none => simp [ht, hj] at h
    | some lj =>
      simp only [ht, hj, Option.some.injEq] at h
      subst h
      refine ⟨⟨⟨rfl, rfl, by simp, by simp, by simp⟩, rfl, ?_⟩, ?_⟩
      · intro h; rw [hb h]; simp [path, positions]
      · cases cov with
        | none => right; exact ⟨rfl, t, rfl, rfl⟩
        | some c => left; rfl

/-- After the burn-in the covariance stays. -/
theorem Schedule.constant {env : Env W α T Cov} {interval : Option Nat} {skip : Move α → Prop} {r : Run α} {c d : Cov} {covs : List Cov}
    (h : Schedule env interval skip r c covs) (hl : covs.getLast? = some d) (k : Nat) (h1 : r.burnin ≤ k) (h2 : k ≤ r.moves.length) : covs[k]? = some d := by
  obtain ⟨n, hn⟩ := Nat.exists_eq_add_of_le h2
  induction n generalizing k with
  | zero =>
    rw [List.getLast?_eq_getElem?, h.length] at hl
    rw [← hl]; congr 1; omega
  | succ n ih =>
    have e := ih (k + 1) (by omega) (by omega) (by omega)
    have hm : r.moves[k]? = some (r.moves[k]'(by omega)) := List.getElem?_eq_getElem (by omega)
    rw [← h.kept k _ hm (.inl fun h => by have := h.1; omega), e]

/-- What a call does with the covariances: `c` is the first one, `d` the one it stores. -/
structure Adapts (env : Env W α T Cov) (a : Args α Cov) (skip : Move α → Prop) (r : Run α) (c d : Cov) : Prop where
  ok : r.Ok env a
  covs : ∃ covs, Schedule env a.interval skip r c covs ∧ ∀ k, a.burnin ≤ k → k ≤ a.burnin + a.n → covs[k]? = some d

/-- **C135.** A call that returns, without a journal file: the chain of C52, and the covariances its proposals are made with. They start at the given covariance (or
the default one at the transformed start), change only after steps of the burn-in whose number is a multiple of the interval, and are then computed from all the states of the
chain so far; so all the states in the journal are made with the same covariance, which is also the one stored. Missing: at a step whose proposal has prior density zero the
covariance is not recomputed (`C135_violated`). -/
theorem C135_fresh_partial (env : Env W α T Cov) (a : Args α Cov) (w w' : W) (counter : Nat) (j : Jrn α Cov) (h : fresh env a w counter = some (w', j)) :
    ∃ (r : Run α) (c : Cov), j.chain = r.states ∧ Adapts env a (fun m => env.pdf m.prop = 0) r c j.cov ∧
      (a.cov = some c ∨ a.cov = none ∧ ∃ t, env.tr r.start.θ = some t ∧ c = env.eye t) := by
  unfold fresh at h
  simp only at h
  generalize hx : initial env a w = x at h
  cases hb : begin_ env (env.loglik x.2 x.1).1 x.2 (env.loglik x.2 x.1).2 a.cov (if a.burnin = 0 then [x.2] else []) 0 (counter + 1) with
  | none => simp [hb] at h
  | some s0 =>
    simp only [hb] at h
    cases hl : loop env a.burnin a.interval (List.range (a.burnin + a.n)) s0 with
    | none => simp [hl] at h
    | some s =>
      simp only [hl] at h
      by_cases hn : a.n = 0
      · rw [if_pos hn] at h; simp at h
      · rw [if_neg hn] at h
        simp only [Option.some.injEq, Prod.mk.injEq] at h
        obtain ⟨-, rfl⟩ := h
        rw [List.range_eq_range'] at hl
        obtain ⟨c0, c1⟩ := covInv_begin (interval := a.interval) (burnin := a.burnin) hb (fun h => by rw [if_neg (by omega)])
        obtain ⟨ms, covs, l, i, c⟩ := covInv_loop (a.burnin + a.n) (inv_begin hb a.burnin) c0 hl
        simp only [List.length_nil, Nat.zero_add] at l
        refine ⟨⟨a.burnin, ⟨x.2, (env.loglik x.2 x.1).2⟩, ms⟩, s0.cov, i.states, ⟨⟨rfl, l, i.chain⟩, covs, c.sched, ?_⟩, c1⟩
        intro k h1 h2
        exact c.sched.constant c.last k h1 (by simp only; omega)

/-- **C135, restarts.** The same for a call with a journal file: the covariances start at the given one, or at the stored one. -/
theorem C135_restart_partial (env : Env W α T Cov) (a : Args α Cov) (w w' : W) (j j' : Jrn α Cov) (h : restart env a w j = some (w', j')) :
    ∃ (r : Run α), j'.chain = j.chain ++ r.states ∧ j.chain.getLast? = some r.start.θ ∧
      Adapts env a (fun m => env.pdf m.prop = 0) r (a.cov.getD j.cov) j'.cov := by
  unfold restart at h
  split at h
  · rename_i rate θ sims h1 h2 h3
    cases hb : begin_ env w θ j.ll (some (a.cov.getD j.cov)) [] (rate * j.n) sims with
    | none => simp [hb] at h
    | some s0 =>
      simp only [hb] at h
      cases hl : loop env a.burnin a.interval (List.range (a.burnin + a.n)) s0 with
      | none => simp [hl] at h
      | some s =>
        simp only [hl] at h
        split at h
        · simp at h
        · cases hjc : joinColumns j.user (Journal.namedColumns env.names s.chain) with
          | none => simp [hjc] at h
          | some cols =>
            simp only [hjc, Option.some.injEq, Prod.mk.injEq] at h
            obtain ⟨-, rfl⟩ := h
            rw [List.range_eq_range'] at hl
            obtain ⟨c0, c1⟩ := covInv_begin (interval := a.interval) (burnin := a.burnin) hb (fun _ => rfl)
            obtain ⟨ms, covs, l, i, c⟩ := covInv_loop (a.burnin + a.n) (inv_begin hb a.burnin) c0 hl
            simp only [List.length_nil, Nat.zero_add] at l
            have e : a.cov.getD j.cov = s0.cov := by
              rcases c1 with c1 | c1
              · exact Option.some.inj c1
              · simp at c1
            refine ⟨⟨a.burnin, ⟨θ, j.ll⟩, ms⟩, by simp only; rw [i.states]; rfl, h2, ⟨⟨rfl, l, i.chain⟩, covs, e ▸ c.sched, ?_⟩⟩
            intro k h1 h2
            exact c.sched.constant c.last k h1 (by simp only; omega)
  · simp at h

/-- A sampler like `exEnv` whose covariances are the lists of the states they are computed from. -/
noncomputable def covEnv : Env (List Nat × List ℝ) Nat (List Nat) (List (List Nat)) :=
  { exEnv with propose := fun _ => exEnv.propose (), adapt := id, eye := fun t => [t] }

/-- Two steps of burn-in, after which the covariance should be computed from both states: the second proposal is inside the prior, and it is. -/
theorem covRun : ∃ u, fresh covEnv ⟨1, 2, none, none, some 2⟩ ([2, 1, 5], [1 / 4, 9 / 10]) 0 =
    some (([], []), ⟨[[1]], u, [1], [0], [3], 1, 0, [[2], [1]]⟩) := by
  refine ⟨columns ["theta"] [[1]], ?_⟩
  norm_num [fresh, covEnv, exEnv, initial, begin_, loop, step, State.record, State.adaptCov, accepts, alpha, List.range_succ, asDict_namedColumns, List.replicate]

/-- **C135, violated.** The same call with a second proposal outside the prior: the covariance is still the default one, so no run without exceptions explains the journal. -/
theorem C135_violated : ∃ w w' j, fresh covEnv ⟨1, 2, none, none, some 2⟩ w 0 = some (w', j) ∧ j.chain = [[2]] ∧ j.cov = [[1]] ∧
    ¬ ∃ r c, j.chain = r.states ∧ Adapts covEnv ⟨1, 2, none, none, some 2⟩ (fun _ => False) r c j.cov := by
  refine ⟨([2, 5, 5], [1 / 4, 9 / 10]), ([], [9 / 10]), ⟨[[2]], columns ["theta"] [[2]], [1], [0], [2], 1, 0, [[1]]⟩, ?_, rfl, rfl, ?_⟩
  · norm_num [fresh, covEnv, exEnv, initial, begin_, loop, step, State.record, State.adaptCov, accepts, alpha, List.range_succ, asDict_namedColumns, List.replicate]
  · rintro ⟨r, c, -, hr, covs, hs, hd⟩
    have hl := hr.length
    have hb := hr.burnin
    simp only at hl hb
    have h1 := hs.adapted 1 (r.moves[1]'(by omega)) (List.getElem?_eq_getElem (by omega)) ⟨by omega, 2, rfl, by norm_num⟩ id
    have h2 := hd 2 (le_refl _) (by norm_num)
    rw [h1] at h2
    have h3 := congrArg List.length (Option.some.inj h2)
    simp [covEnv, path_length] at h3
    omega

end Verif.Mcmc
