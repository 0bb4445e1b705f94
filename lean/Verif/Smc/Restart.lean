import Verif.Smc.Run
/-
C118: restarts of `SMCABC` continue the run.
-/
namespace Verif.Smc

variable {W Θ Y : Type} (env : Env W Θ Y)

/-- What the journal file holds that a restart uses: the populations, the thresholds (`past ++ [cur]` is `configuration["epsilon_arr"]`), and whether the simulations were stored. -/
structure File (Θ Y : Type) where
  pops : List (Rec Θ Y)
  past : List ℝ
  cur : ℝ
  stored : Bool

/-- The file that a call leaves that ends in state `s`; `stored` is `store_simulations_in_journal` (3563-3571). -/
def State.file (s : State Θ Y) (stored : Bool) : File Θ Y := ⟨s.journal, s.past, s.cur, stored⟩

open Classical in
/-- `SMCABC.sample` with a journal file, lines 3349-3576, for the same type of journal: the last population, its simulations and the thresholds are those of the file (3409-3435). `counter`: simulations of
earlier calls of the same sampler. `none`: an exception (no population or no simulations in the file), or the run does not end. -/
noncomputable def smcRestart (c : Config) (dr : Draws) (fuel : Nat) (start : Nat → List W) (counter : Nat) (f : File Θ Y) : Option (State Θ Y) :=
  if c.which ≤ 2 ∧ ¬ (c.bernton = true ∧ c.which = 0) ∧ ∀ t, (start t).length = c.n then
    if c.steps = 0 then some ⟨f.past, f.cur, none, f.pops, 0, counter⟩
    else match f.pops.getLast?, f.stored with
      | some p, true => smcLoop env c dr fuel start c.steps 0 ⟨f.past, f.cur, some p, f.pops, 0, counter⟩
      | _, _ => none
  else none

/-- `s'` is `s` with `a` steps and `b` simulations counted less. -/
structure Same (a b : Nat) (s s' : State Θ Y) : Prop where
  past : s.past = s'.past
  cur : s.cur = s'.cur
  last : s.last = s'.last
  journal : s.journal = s'.journal
  done : s.done = s'.done + a
  counter : s.counter = s'.counter + b

theorem save_same (c c' : Config) (hf : c.full = true) (hf' : c'.full = true) (t t' : Nat) (ht : t < c.steps) (ht' : t' < c'.steps) (a b : Nat) (s s' : State Θ Y)
    (h : Same a b s s') (past : List ℝ) (cur : ℝ) (wts : List ℝ) (l : List (Out Θ Y)) : Same a b (save c t s past cur wts l) (save c' t' s' past cur wts l) := by
  unfold save
  rw [if_pos (Or.inl ⟨hf, by omega⟩), if_pos (Or.inl ⟨hf', by omega⟩), if_pos hf, if_pos hf', h.journal]
  exact ⟨rfl, rfl, rfl, rfl, by simp only [h.done]; omega, by simp only [h.counter]; omega⟩

theorem step_same (c : Config) (m k : Nat) (hf : c.full = true) (dr : Draws) (fuel t : Nat) (start : List W) (ht : t < k) (a b : Nat) (s s' : State Θ Y) (h : Same a b s s') :
    Option.Rel (Same a b) (smcStep env { c with steps := m + k } dr fuel (m + t) start s)
      (smcStep env { c with steps := k } ⟨fun t => dr.choice (m + t), dr.unique⟩ fuel t start s') := by
  have hs : ∀ past cur wts (l : List (Out Θ Y)), Same a b (save { c with steps := m + k } (m + t) s past cur wts l) (save { c with steps := k } t s' past cur wts l) := by
    intro past cur wts l
    exact save_same { c with steps := m + k } { c with steps := k } hf hf (m + t) t (by show m + t < m + k; omega) ht a b s s' h past cur wts l
  unfold smcStep
  rw [h.last]
  cases s'.last with
  | none =>
    simp only
    rw [h.past, h.cur]
    exact .some (hs _ _ _ _)
  | some p =>
    simp only
    rw [h.cur]
    have e1 : newEps env { c with steps := m + k } dr fuel s'.cur p = newEps env { c with steps := k } ⟨fun t => dr.choice (m + t), dr.unique⟩ fuel s'.cur p := rfl
    rw [e1]
    cases newEps env { c with steps := k } ⟨fun t => dr.choice (m + t), dr.unique⟩ fuel s'.cur p with
    | none => exact .none
    | some eps =>
      simp only
      have e2 : newWeights env { c with steps := m + k } s'.cur eps p = newWeights env { c with steps := k } s'.cur eps p := rfl
      rw [e2]
      cases newWeights env { c with steps := k } s'.cur eps p with
      | none => exact .none
      | some wts =>
        simp only
        have e3 : resampled { c with steps := m + k } dr (m + t) p.params wts = resampled { c with steps := k } ⟨fun t => dr.choice (m + t), dr.unique⟩ t p.params wts := rfl
        rw [e3]
        cases resampled { c with steps := k } ⟨fun t => dr.choice (m + t), dr.unique⟩ t p.params wts with
        | none => exact .none
        | some q =>
          simp only
          have e4 : moved env { c with steps := m + k } fuel eps q p.sims start = moved env { c with steps := k } fuel eps q p.sims start := rfl
          rw [e4]
          cases moved env { c with steps := k } fuel eps q p.sims start with
          | none => exact .none
          | some l => simp only; rw [h.past]; exact .some (hs _ _ _ _)

theorem loop_same (c : Config) (m n : Nat) (hf : c.full = true) (dr : Draws) (fuel : Nat) (start : Nat → List W) (k t : Nat) (ht : t + k ≤ n) (a b : Nat) (s s' : State Θ Y)
    (h : Same a b s s') :
    Option.Rel (Same a b) (smcLoop env { c with steps := m + n } dr fuel start k (m + t) s)
      (smcLoop env { c with steps := n } ⟨fun t => dr.choice (m + t), dr.unique⟩ fuel (fun t => start (m + t)) k t s') := by
  induction k generalizing t s s' with
  | zero => exact .some h
  | succ k ih =>
    rw [smcLoop, smcLoop, h.cur]
    by_cases hc : s'.cur ≤ c.final
    · rw [if_pos hc, if_pos hc]; exact .some h
    · rw [if_neg hc, if_neg hc]
      have := step_same env c m n hf dr fuel t (start (m + t)) (by omega) a b s s' h
      revert this
      generalize smcStep env { c with steps := m + n } dr fuel (m + t) (start (m + t)) s = x
      generalize smcStep env { c with steps := n } ⟨fun t => dr.choice (m + t), dr.unique⟩ fuel t (start (m + t)) s' = y
      intro hxy
      cases hxy with
      | none => exact .none
      | some h1 => exact ih (t + 1) (by omega) _ _ h1

/-- The first `m` steps of a longer run are those of a run of `m` steps. -/
theorem loop_prefix (c : Config) (m n : Nat) (hf : c.full = true) (dr : Draws) (fuel : Nat) (start : Nat → List W) (k t : Nat) (ht : t + k ≤ m) (s : State Θ Y) :
    smcLoop env { c with steps := m + n } dr fuel start k t s = smcLoop env { c with steps := m } dr fuel start k t s := by
  induction k generalizing t s with
  | zero => rfl
  | succ k ih =>
    rw [smcLoop, smcLoop]
    have hsv : ∀ (s : State Θ Y) past cur wts (l : List (Out Θ Y)), save { c with steps := m + n } t s past cur wts l = save { c with steps := m } t s past cur wts l := by
      intro s past cur wts l
      unfold save
      rw [if_pos (Or.inl ⟨hf, by simp only; omega⟩), if_pos (Or.inl ⟨hf, by simp only; omega⟩)]
    have : smcStep env { c with steps := m + n } dr fuel t (start t) s = smcStep env { c with steps := m } dr fuel t (start t) s := by
      unfold smcStep
      cases s.last with
      | none => simp only [hsv]
      | some p => simp only [hsv]; rfl
    rw [this]
    split
    · rfl
    · split
      · rfl
      · exact ih (t + 1) (by omega) _

theorem loop_split (c : Config) (dr : Draws) (fuel : Nat) (start : Nat → List W) (k l t : Nat) (s : State Θ Y) :
    smcLoop env c dr fuel start (k + l) t s = (smcLoop env c dr fuel start k t s).bind (smcLoop env c dr fuel start l (t + k)) := by
  induction k generalizing t s with
  | zero => simp [smcLoop]
  | succ k ih =>
    rw [show k + 1 + l = (k + l) + 1 by omega, smcLoop, smcLoop]
    split
    · rename_i hc
      simp only [Option.bind_some]
      cases l with
      | zero => rfl
      | succ l => rw [smcLoop, if_pos hc]
    · split
      · rfl
      · rw [ih]; congr 2; omega

theorem smcLoop_done (c : Config) (hf : c.full = true) (dr : Draws) (fuel : Nat) (start : Nat → List W) (k t : Nat) (ht : t + k ≤ c.steps) (s s' : State Θ Y)
    (hs : s.journal.getLast? = s.last) (h : smcLoop env c dr fuel start k t s = some s') : s'.journal.getLast? = s'.last := by
  induction k generalizing t s with
  | zero => simp only [smcLoop, Option.some.injEq] at h; rw [← h]; exact hs
  | succ k ih =>
    rw [smcLoop] at h
    split at h
    · simp only [Option.some.injEq] at h; rw [← h]; exact hs
    · split at h
      · cases h
      · rename_i s1 h1
        refine ih (t + 1) (by omega) s1 ?_ h
        have hsv : ∀ past cur wts (l : List (Out Θ Y)), (save c t s past cur wts l).journal.getLast? = (save c t s past cur wts l).last := by
          intro past cur wts l
          unfold save
          rw [if_pos (Or.inl ⟨hf, by omega⟩), if_pos hf]
          simp
        unfold smcStep at h1
        split at h1
        · simp only [Option.some.injEq] at h1; rw [← h1]; exact hsv _ _ _ _
        · split at h1
          · cases h1
          · split at h1
            · cases h1
            · split at h1
              · cases h1
              · split at h1
                · cases h1
                · simp only [Option.some.injEq] at h1; rw [← h1]; exact hsv _ _ _ _

/-- **C118.** A call of `SMCABC` with `m` steps, full output and stored simulations, and a restart from its journal with `n` more steps, are one call with `m + n` steps: the restart raises or does not end if the
long run does, and otherwise leaves the same thresholds and populations; the steps and simulations of both add up. -/
theorem C118 (c : Config) (hf : c.full = true) (m n : Nat) (hn : 0 < n) (dr : Draws) (distMax : Option ℝ) (fuel : Nat) (start : Nat → List W) (s : State Θ Y) (p : Rec Θ Y)
    (h1 : smcRun env { c with steps := m } dr distMax fuel start = some s) (hp : s.last = some p) :
    Option.Rel (Same s.done s.counter) (smcRun env { c with steps := m + n } dr distMax fuel start)
      (smcRestart env { c with steps := n } ⟨fun t => dr.choice (m + t), dr.unique⟩ fuel (fun t => start (m + t)) 0 (s.file true)) := by
  unfold smcRun at h1 ⊢
  unfold smcRestart
  split at h1
  · rename_i hc
    rw [if_pos hc, if_pos ⟨hc.1, hc.2.1, fun t => hc.2.2 (m + t)⟩, if_neg (show ¬ n = 0 by omega)]
    have hl := smcLoop_done env { c with steps := m } hf dr fuel start m 0 (by simp) _ s rfl h1
    simp only [State.file]
    rw [hl, hp]
    simp only
    rw [loop_split, loop_prefix env c m n hf dr fuel start m 0 (by omega), h1, Option.bind_some, Nat.zero_add]
    have := loop_same env c m n hf dr fuel start n 0 (by omega) s.done s.counter s ⟨s.past, s.cur, some p, s.journal, 0, 0⟩ ⟨rfl, rfl, hp, rfl, by simp, by simp⟩
    exact this
  · cases h1

/-- A journal without the simulations cannot be restarted; nor can one without a population (which a call without full output leaves that stops early, see C46). -/
theorem C118_refused (c : Config) (hn : 0 < c.steps) (dr : Draws) (fuel : Nat) (start : Nat → List W) (counter : Nat) (f : File Θ Y) (h : f.stored = false ∨ f.pops = []) :
    smcRestart env c dr fuel start counter f = none := by
  unfold smcRestart
  split
  · rw [if_neg (by omega)]
    rcases h with h | h
    · rw [h]; cases f.pops.getLast? <;> rfl
    · rw [h]; rfl
  · rfl

/-- The hypotheses are met: one step and a restart with one more step; the long run, and so the restart, lowers the threshold from 1 to 0.9995. -/
example : ∃ s p s', smcRun exEnv { exConfig 0 with steps := 1 } ⟨fun _ _ => [0, 0], fun _ => 1⟩ (some 1) 1 (fun _ => [0, 1]) = some s ∧ s.last = some p ∧
    smcRestart exEnv { exConfig 0 with steps := 1 } ⟨fun _ _ => [0, 0], fun _ => 1⟩ 1 (fun _ => [0, 1]) 0 (s.file true) = some s' ∧ s'.epsilons = [1, 0.9995] := by
  have s0 : smcStep exEnv { exConfig 0 with steps := 1 } ⟨fun _ _ => [0, 0], fun _ => 1⟩ 1 0 [0, 1] ⟨[], 1, none, [], 0, 0⟩ =
      some ⟨[], 1, some ⟨[0, 1], [0, 1], [0, 2], [1 / 2, 1 / 2]⟩, [⟨[0, 1], [0, 1], [0, 2], [1 / 2, 1 / 2]⟩], 1, 2⟩ := by
    simp [smcStep, save, exConfig, equalWeights, initial, exEnv, outRec]
  have h1 : smcRun exEnv { exConfig 0 with steps := 1 } ⟨fun _ _ => [0, 0], fun _ => 1⟩ (some 1) 1 (fun _ => [0, 1]) =
      some ⟨[], 1, some ⟨[0, 1], [0, 1], [0, 2], [1 / 2, 1 / 2]⟩, [⟨[0, 1], [0, 1], [0, 2], [1 / 2, 1 / 2]⟩], 1, 2⟩ := by
    unfold smcRun
    rw [if_pos (by simp [exConfig])]
    show smcLoop _ _ _ _ _ 1 0 _ = _
    rw [smcLoop, if_neg (by simp [exConfig]; norm_num)]
    simp only [Option.getD_some, s0, smcLoop]
  have h := C118 exEnv (exConfig 0) rfl 1 1 (by omega) ⟨fun _ _ => [0, 0], fun _ => 1⟩ (some 1) 1 (fun _ => [0, 1]) _ _ h1 rfl
  obtain ⟨s2, h2, -, -, h3, -⟩ := exRun 0 ⟨[0, 1], [1, 0]⟩ (by norm_num [resampled, exConfig, ess]) _ _ _ _ rfl
  have h2' : smcRun exEnv { exConfig 0 with steps := 1 + 1 } ⟨fun _ _ => [0, 0], fun _ => 1⟩ (some 1) 1 (fun _ => [0, 1]) = some s2 := h2
  rw [h2'] at h
  generalize hr : smcRestart exEnv { exConfig 0 with steps := 1 } _ _ _ _ _ = r at h
  cases h with
  | some hs => exact ⟨_, _, _, h1, rfl, hr, by rw [← h3]; simp only [State.epsilons, hs.past, hs.cur]⟩

end Verif.Smc
