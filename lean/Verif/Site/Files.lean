import Verif.Apmc.Run
import Verif.PmcLik.Run
import Verif.Rsmc.Props
import Verif.Sabc.Props
import Verif.Smc.Props
import Verif.Subsim.Props
/-
C189: what a process that dies in the course of `sample` leaves at `path_to_save_journal`, and C120, what is there when the call returns, for the samplers other than `PMCABC` (`Verif.Pmc.Restart`).
-/
namespace Verif.Files

variable {S J : Type}

/-- The loop of a sampler: `stop` is tested at the beginning of an iteration, `step t` is iteration `t` (`none`: an exception, or an inner loop that does not end), `skip` tells that the iteration ended with `break`
before the journal was saved. -/
structure Loop (S J : Type) where
  stop : S → Prop
  step : Nat → S → Option S
  skip : S → Prop
  journal : S → J

open Classical in
/-- Iterations `t` to `t + k - 1`. -/
noncomputable def Loop.run (l : Loop S J) : Nat → Nat → S → Option S
  | 0, _, s => some s
  | k + 1, t, s => if l.stop s then some s else match l.step t s with
    | none => none
    | some s => l.run k (t + 1) s

open Classical in
/-- The journals that are saved in the course of the iterations `t` to `t + k - 1`, also if one of them raises. -/
noncomputable def Loop.saves (l : Loop S J) : Nat → Nat → S → List J
  | 0, _, _ => []
  | k + 1, t, s => if l.stop s then [] else match l.step t s with
    | none => []
    | some s => (if l.skip s then [] else [l.journal s]) ++ l.saves k (t + 1) s

/-- What the file holds one after the other, if `found` is there first: `Journal.save` (output.py 217-228) opens the file for writing, which empties it (`none`: nothing that can be read), and then writes the
journal. A process that dies leaves one of these. -/
def contents (found : Option J) (saves : List J) : List (Option J) := found :: saves.flatMap fun j => [none, some j]

theorem mem_contents (found left : Option J) (saves : List J) (h : left ∈ contents found saves) : left = found ∨ left = none ∨ ∃ j ∈ saves, left = some j := by
  unfold contents at h
  rw [List.mem_cons, List.mem_flatMap] at h
  rcases h with h | ⟨j, hj, h⟩
  · exact .inl h
  · simp only [List.mem_cons, List.not_mem_nil, or_false] at h
    exact h.elim (fun h => .inr (.inl h)) fun h => .inr (.inr ⟨j, hj, h⟩)

theorem contents_last (found : Option J) (saves : List J) : (contents found saves).getLast? = some (saves.getLast?.elim found some) := by
  unfold contents
  rcases List.eq_nil_or_concat saves with rfl | ⟨l, j, rfl⟩
  · rfl
  · simp [List.getLast?_cons]

/-- Every saved journal is the one after some of the iterations. -/
theorem Loop.saves_run (l : Loop S J) (k t : Nat) (s : S) (j : J) (h : j ∈ l.saves k t s) : ∃ i, 0 < i ∧ i ≤ k ∧ ∃ s', l.run i t s = some s' ∧ ¬ l.skip s' ∧ j = l.journal s' := by
  induction k generalizing t s with
  | zero => simp [Loop.saves] at h
  | succ k ih =>
    rw [Loop.saves] at h
    split at h
    · simp at h
    · rename_i hst
      split at h
      · simp at h
      · rename_i s1 h1
        rw [List.mem_append] at h
        rcases h with h | h
        · split at h
          · simp at h
          · rename_i hsk
            rw [List.mem_singleton] at h
            refine ⟨1, by omega, by omega, s1, ?_, hsk, h⟩
            rw [Loop.run, if_neg hst, h1]
            rfl
        · obtain ⟨i, i1, i2, s', i3, i4, i5⟩ := ih (t + 1) s1 h
          refine ⟨i + 1, by omega, by omega, s', ?_, i4, i5⟩
          rw [Loop.run, if_neg hst, h1]
          exact i3

/-- When the loop ends without `break` before a save, the last save, if there is one, is that of the journal. -/
theorem Loop.saves_last (l : Loop S J) (k t : Nat) (s s' : S) (h : l.run k t s = some s') (hs : ∀ t s s', l.step t s = some s' → l.skip s' → l.journal s' = l.journal s) (j0 : J)
    (h0 : l.journal s = j0) : (l.saves k t s).getLast?.getD j0 = l.journal s' := by
  induction k generalizing t s j0 with
  | zero =>
    simp only [Loop.run, Option.some.injEq] at h
    rw [← h, ← h0]
    rfl
  | succ k ih =>
    rw [Loop.run] at h
    rw [Loop.saves]
    split at h
    · rename_i hst
      rw [if_pos hst]
      simp only [Option.some.injEq] at h
      rw [← h, ← h0]
      rfl
    · rename_i hst
      rw [if_neg hst]
      split at h
      · cases h
      · rename_i s1 h1
        split
        · rename_i hsk
          rw [List.nil_append]
          exact ih _ _ h _ ((hs _ _ _ h1 hsk).trans h0)
        · have := ih _ _ h _ rfl
          rw [List.getLast?_append]
          rw [← this]
          cases (l.saves k (t + 1) s1).getLast? <;> rfl

/-- A loop that carries out an iteration without `break` has saved something. -/
theorem Loop.saves_ne (l : Loop S J) (k t : Nat) (s s1 : S) (hst : ¬ l.stop s) (h1 : l.step t s = some s1) (hsk : ¬ l.skip s1) : l.saves (k + 1) t s ≠ [] := by
  rw [Loop.saves, if_neg hst, h1]
  simp [hsk]

theorem files_last (l : Loop S J) (k : Nat) (hk : 0 < k) (t : Nat) (s s' : S) (h : l.run k t s = some s')
    (hs : ∀ t s s', l.step t s = some s' → l.skip s' → l.journal s' = l.journal s) (hst : ¬ l.stop s) (hsk : ∀ s1, l.step t s = some s1 → ¬ l.skip s1) (found : Option J) :
    (contents found (l.saves k t s)).getLast? = some (some (l.journal s')) := by
  rw [contents_last]
  have hl := Loop.saves_last l _ _ _ _ h hs _ rfl
  obtain ⟨k, rfl⟩ : ∃ i, k = i + 1 := ⟨k - 1, by omega⟩
  have hne : l.saves (k + 1) t s ≠ [] := by
    rw [Loop.run, if_neg hst] at h
    split at h
    · cases h
    · rename_i s1 h1
      exact Loop.saves_ne l _ _ _ _ hst h1 (hsk _ h1)
  rw [List.getLast?_eq_some_getLast hne] at hl ⊢
  simp only [Option.getD_some] at hl
  rw [Option.elim_some, hl]

/-- Nothing is saved after an iteration that raises. -/
theorem Loop.saves_raise (l : Loop S J) (k m t : Nat) (hk : k < m) (s s' : S) (h : l.run k t s = some s') (he : l.step (t + k) s' = none) (hst : ∀ s, ¬ l.stop s) :
    l.saves m t s = l.saves k t s := by
  induction k generalizing t s m with
  | zero =>
    obtain ⟨m, rfl⟩ : ∃ i, m = i + 1 := ⟨m - 1, by omega⟩
    simp only [Loop.run, Option.some.injEq] at h
    rw [← h] at he
    rw [Loop.saves, Loop.saves, if_neg (hst s), show l.step t s = none from he]
  | succ k ih =>
    obtain ⟨m, rfl⟩ : ∃ i, m = i + 1 := ⟨m - 1, by omega⟩
    rw [Loop.run, if_neg (hst s)] at h
    rw [Loop.saves, Loop.saves, if_neg (hst s), if_neg (hst s)]
    split at h
    · cases h
    · rename_i s1 h1
      rw [ih m (t + 1) (by omega) s1 h (by rw [← he]; congr 1; omega)]

theorem Loop.run_congr (l l' : Loop S J) (k t : Nat) (s : S) (hst : ∀ s, l.stop s ↔ l'.stop s) (hs : ∀ i, t ≤ i → i < t + k → ∀ s, l.step i s = l'.step i s) : l.run k t s = l'.run k t s := by
  induction k generalizing t s with
  | zero => rfl
  | succ k ih =>
    rw [Loop.run, Loop.run, hs t le_rfl (by omega)]
    by_cases h : l.stop s
    · rw [if_pos h, if_pos ((hst s).1 h)]
    · rw [if_neg h, if_neg fun h' => h ((hst s).2 h')]
      cases l'.step t s with
      | none => rfl
      | some s1 => exact ih (t + 1) s1 fun i h1 h2 => hs i (by omega) (by omega)

/-! ### SMCABC -/

section Smc
variable {W Θ Y : Type} (env : Smc.Env W Θ Y) (c : Smc.Config) (dr : Smc.Draws) (fuel : Nat) (start : Nat → List W)

/-- Lines 3406-3574 of inferences.py: the test of 3438 comes first, and every iteration that is carried out saves the journal (3573). -/
noncomputable def smcLoop : Loop (Smc.State Θ Y) (List (Smc.Rec Θ Y)) := ⟨fun s => s.cur ≤ c.final, fun t s => Smc.smcStep env c dr fuel t (start t) s, fun _ => False, Smc.State.journal⟩

open Classical in
/-- What the file holds in the course of `SMCABC.sample` without a journal file (`Smc.smcRun`). -/
noncomputable def smcFiles (distMax : Option ℝ) (found : Option (List (Smc.Rec Θ Y))) : List (Option (List (Smc.Rec Θ Y))) :=
  contents found (if c.which ≤ 2 ∧ ¬ (c.bernton = true ∧ c.which = 0) ∧ ∀ t, (start t).length = c.n then
    (smcLoop env c dr fuel start).saves c.steps 0 ⟨[], distMax.getD (10 ^ 5), none, [], 0, 0⟩ else [])

theorem smcLoop_run (k t : Nat) (s : Smc.State Θ Y) : Smc.smcLoop env c dr fuel start k t s = (smcLoop env c dr fuel start).run k t s := by
  induction k generalizing t s with
  | zero => rfl
  | succ k ih =>
    rw [Smc.smcLoop, Loop.run]
    by_cases h : s.cur ≤ c.final
    · rw [if_pos h, if_pos (show (smcLoop env c dr fuel start).stop s from h)]
    · rw [if_neg h, if_neg (show ¬ (smcLoop env c dr fuel start).stop s from h)]
      rw [show (smcLoop env c dr fuel start).step t s = Smc.smcStep env c dr fuel t (start t) s from rfl]
      cases Smc.smcStep env c dr fuel t (start t) s with
      | none => rfl
      | some s1 => exact ih _ _

/-- **C189 for `SMCABC`.** If the process dies in a call with full output, the file holds what it held before, or nothing that can be read, or the populations that the same call with fewer steps returns. -/
theorem C189_smcabc_partial (hf : c.full = true) (distMax : Option ℝ) (found left : Option (List (Smc.Rec Θ Y))) (h : left ∈ smcFiles env c dr fuel start distMax found) :
    left = found ∨ left = none ∨ ∃ k s, 0 < k ∧ k ≤ c.steps ∧ Smc.smcRun env { c with steps := k } dr distMax fuel start = some s ∧ left = some s.journal := by
  unfold smcFiles at h
  rcases mem_contents _ _ _ h with h1 | h1 | ⟨j, hj, hl⟩
  · exact .inl h1
  · exact .inr (.inl h1)
  · right; right
    split at hj
    · rename_i hc
      obtain ⟨k, k1, k2, s, k3, -, k5⟩ := Loop.saves_run _ _ _ _ _ hj
      refine ⟨k, s, k1, k2, ?_, by rw [hl, k5]; rfl⟩
      unfold Smc.smcRun
      rw [if_pos hc, smcLoop_run, ← k3]
      refine Loop.run_congr _ _ _ _ _ (fun s => Iff.rfl) fun i _ hi s => ?_
      replace hi : i < 0 + k := hi
      have hsave : ∀ past cur wts l, Smc.save { c with steps := k } i s past cur wts l = Smc.save c i s past cur wts l := by
        intro past cur wts l
        unfold Smc.save
        rw [if_pos (Or.inl ⟨hf, by show i ≤ k - 1; omega⟩), if_pos (Or.inl ⟨hf, by omega⟩)]
      simp only [smcLoop, Smc.smcStep]
      split
      · rw [hsave]
      · simp only [hsave]
        rfl
    · simp at hj

/-- **C120 for `SMCABC`.** When a call returns, the file holds the populations of the journal, unless no step was carried out. -/
theorem C120_smcabc (distMax : Option ℝ) (found : Option (List (Smc.Rec Θ Y))) (s : Smc.State Θ Y) (h : Smc.smcRun env c dr distMax fuel start = some s) (hd : 0 < s.done) :
    (smcFiles env c dr fuel start distMax found).getLast? = some (some s.journal) := by
  unfold Smc.smcRun at h
  unfold smcFiles
  split at h
  · rename_i hc
    rw [if_pos hc, contents_last]
    rw [smcLoop_run] at h
    have hl := Loop.saves_last _ _ _ _ _ h (fun _ _ _ _ h => h.elim) _ rfl
    cases hk : c.steps with
    | zero => rw [hk] at h; simp only [Loop.run, Option.some.injEq] at h; rw [← h] at hd; simp at hd
    | succ k =>
      rw [hk] at h hl
      have hne : (smcLoop env c dr fuel start).saves (k + 1) 0 ⟨[], distMax.getD (10 ^ 5), none, [], 0, 0⟩ ≠ [] := by
        rw [Loop.run] at h
        split at h
        · simp only [Option.some.injEq] at h; rw [← h] at hd; simp at hd
        · rename_i hst
          split at h
          · cases h
          · rename_i s1 h1
            exact Loop.saves_ne _ _ _ _ _ hst h1 fun h => h
      rw [List.getLast?_eq_some_getLast hne] at hl ⊢
      simp only [Option.getD_some] at hl
      rw [Option.elim_some, hl]
      rfl
  · cases h

/-- **C189 fails without full output.** After its first step a call of `SMCABC` with two or more steps has emptied the file and saved a journal without any population: a process that dies then loses the step
and what the file held before. -/
theorem C189_smcabc_violated (hf : c.full = false) (hs : 1 < c.steps) (hw : c.which ≤ 2 ∧ ¬ (c.bernton = true ∧ c.which = 0) ∧ ∀ t, (start t).length = c.n) (distMax : Option ℝ)
    (hd : c.final < distMax.getD (10 ^ 5)) (found : Option (List (Smc.Rec Θ Y))) : ∃ l, smcFiles env c dr fuel start distMax found = found :: none :: some [] :: l := by
  obtain ⟨k, hk⟩ : ∃ k, c.steps = k + 2 := ⟨c.steps - 2, by omega⟩
  unfold smcFiles
  rw [if_pos hw, hk, Loop.saves, if_neg (show ¬ (smcLoop env c dr fuel start).stop (⟨[], distMax.getD (10 ^ 5), none, [], 0, 0⟩ : Smc.State Θ Y) from not_le.2 hd)]
  simp only [smcLoop, Smc.smcStep, if_false, Smc.save, hf, hk]
  exact ⟨_, rfl⟩

/-- The hypotheses are met: a run of two steps. -/
example : ∃ s, Smc.smcRun Smc.exEnv (Smc.exConfig 0) ⟨fun _ _ => [0, 0], fun _ => 1⟩ (some 1) 1 (fun _ => [0, 1]) = some s ∧ 0 < s.done ∧ (Smc.exConfig 0).full = true := by
  obtain ⟨s, h1, -, h2, -⟩ := Smc.exRun 0 ⟨[0, 1], [1, 0]⟩ (by norm_num [Smc.resampled, Smc.exConfig, Smc.ess]) _ _ _ _ rfl
  exact ⟨s, h1, by omega, rfl⟩

end Smc

/-! ### RSMCABC -/

section Rsmc
variable {W Θ Y : Type} (env : Rsmc.Env W Θ Y) (c : Rsmc.Config) (fuel : Nat) (start : Nat → List (W × Θ))

/-- Lines 2590-2725: every iteration that ends saves the journal (2724); the `break` of line 2643 is never reached, since line 2641 raises. -/
noncomputable def rsmcLoop : Loop (Rsmc.State Θ) (List (Rsmc.Rec Θ)) := ⟨fun _ => False, fun t s => (Rsmc.step env c fuel t (start t) s).toOption, fun _ => False, Rsmc.State.journal⟩

/-- What the file holds in the course of `RSMCABC.sample` without a journal file (`Rsmc.run`). -/
noncomputable def rsmcFiles (found : Option (List (Rsmc.Rec Θ))) : List (Option (List (Rsmc.Rec Θ))) := contents found ((rsmcLoop env c fuel start).saves c.steps 0 ⟨[], none, 1, [], [], 0⟩)

theorem rsmcLoop_run (k t : Nat) (s : Rsmc.State Θ) : (Rsmc.loop env c fuel start k t s).toOption = (rsmcLoop env c fuel start).run k t s := by
  induction k generalizing t s with
  | zero => rfl
  | succ k ih =>
    rw [Rsmc.loop, Loop.run, if_neg (show ¬ (rsmcLoop env c fuel start).stop s from fun h => h), show (rsmcLoop env c fuel start).step t s = (Rsmc.step env c fuel t (start t) s).toOption from rfl]
    cases Rsmc.step env c fuel t (start t) s with
    | error e => rfl
    | ok s1 => exact ih _ _

/-- **C189 for `RSMCABC`.** If the process dies or raises in a call with full output, the file holds what it held before, or nothing that can be read, or the populations that the same call with fewer steps
returns. -/
theorem C189_rsmcabc_partial (hf : c.full = true) (found left : Option (List (Rsmc.Rec Θ))) (h : left ∈ rsmcFiles env c fuel start found) :
    left = found ∨ left = none ∨ ∃ k s, 0 < k ∧ k ≤ c.steps ∧ Rsmc.run env { c with steps := k } fuel start = .ok s ∧ left = some s.journal := by
  rcases mem_contents _ _ _ h with h1 | h1 | ⟨j, hj, hl⟩
  · exact .inl h1
  · exact .inr (.inl h1)
  · right; right
    obtain ⟨k, k1, k2, s, k3, -, k5⟩ := Loop.saves_run _ _ _ _ _ hj
    refine ⟨k, s, k1, k2, ?_, by rw [hl, k5]; rfl⟩
    have : (Rsmc.run env { c with steps := k } fuel start).toOption = some s := by
      unfold Rsmc.run
      rw [rsmcLoop_run, ← k3]
      refine Loop.run_congr _ _ _ _ _ (fun s => Iff.rfl) fun i _ hi s => ?_
      simp only [rsmcLoop, Rsmc.step, hf, if_true]
      rfl
    cases hr : Rsmc.run env { c with steps := k } fuel start with
    | error e => rw [hr] at this; cases this
    | ok s1 => rw [hr] at this; simp only [Except.toOption, Option.some.injEq] at this; rw [this]

/-- **C120 for `RSMCABC`.** When a call returns, the file holds the populations of the journal. -/
theorem C120_rsmcabc (hs : 0 < c.steps) (found : Option (List (Rsmc.Rec Θ))) (s : Rsmc.State Θ) (h : Rsmc.run env c fuel start = .ok s) :
    (rsmcFiles env c fuel start found).getLast? = some (some s.journal) := by
  unfold Rsmc.run at h
  replace h := (rsmcLoop_run env c fuel start c.steps 0 ⟨[], none, 1, [], [], 0⟩).symm.trans (congrArg Except.toOption h)
  exact files_last _ _ hs _ _ _ h (fun _ _ _ _ h => h.elim) (fun h => h) (fun _ _ h => h) found

/-- The iterations that ended before line 2641 raised are in the file: if the same call with `k` steps returns, then the call with more steps and full output that raises in step `k` leaves its journal. -/
theorem C189_rsmcabc_stopped (hf : c.full = true) (k : Nat) (hk : 0 < k) (hk' : k < c.steps) (found : Option (List (Rsmc.Rec Θ))) (s : Rsmc.State Θ) (e : Rsmc.Fail)
    (h : Rsmc.run env { c with steps := k } fuel start = .ok s) (he : Rsmc.step env c fuel k (start k) s = .error e) :
    (rsmcFiles env c fuel start found).getLast? = some (some s.journal) := by
  unfold Rsmc.run at h
  replace h := (rsmcLoop_run env { c with steps := k } fuel start k 0 ⟨[], none, 1, [], [], 0⟩).symm.trans (congrArg Except.toOption h)
  have hc : (rsmcLoop env c fuel start).run k 0 ⟨[], none, 1, [], [], 0⟩ = some s := by
    refine .trans (Loop.run_congr _ (rsmcLoop env { c with steps := k } fuel start) _ _ _ (fun s => Iff.rfl) fun i _ hi s => ?_) h
    simp only [rsmcLoop, Rsmc.step, hf, if_true]
    rfl
  have := files_last _ _ hk _ _ _ hc (fun _ _ _ _ h => h.elim) (fun h => h) (fun _ _ h => h) found
  refine .trans ?_ this
  unfold rsmcFiles
  rw [Loop.saves_raise _ k c.steps 0 hk' _ s hc (by rw [Nat.zero_add]; show (Rsmc.step env c fuel k (start k) s).toOption = none; rw [he]; rfl) (fun _ h => h)]

/-- **C189 fails without full output.** If line 2641 raises because the threshold has fallen below `epsilon_final`, or if the process dies before the last step, no population is in the file, however many
steps have ended. -/
theorem C189_rsmcabc_violated (hf : c.full = false) (found : Option (List (Rsmc.Rec Θ))) (e : Rsmc.Fail) (h : Rsmc.run env c fuel start = .error e)
    (left : Option (List (Rsmc.Rec Θ))) (hl : left ∈ rsmcFiles env c fuel start found) : left = found ∨ left = none ∨ left = some [] := by
  rcases mem_contents _ _ _ hl with h1 | h1 | ⟨j, hj, h1⟩
  · exact .inl h1
  · exact .inr (.inl h1)
  · right; right
    obtain ⟨k, k1, k2, s, k3, -, k5⟩ := Loop.saves_run _ _ _ _ _ hj
    have hk : k ≠ c.steps := by
      rintro rfl
      unfold Rsmc.run at h
      have := rsmcLoop_run env c fuel start c.steps 0 ⟨[], none, 1, [], [], 0⟩
      rw [k3, h] at this
      cases this
    have key : ∀ i t (a b : Rsmc.State Θ), t + i < c.steps → a.journal = [] → (rsmcLoop env c fuel start).run i t a = some b → b.journal = [] := by
      intro i
      induction i with
      | zero => intro t a b _ ha hr; simp only [Loop.run, Option.some.injEq] at hr; rw [← hr]; exact ha
      | succ i ih =>
        intro t a b hi ha hr
        rw [Loop.run, if_neg (show ¬ (rsmcLoop env c fuel start).stop a from fun h => h)] at hr
        split at hr
        · cases hr
        · rename_i a1 h1
          refine ih (t + 1) a1 b (by omega) ?_ hr
          have h2 : (Rsmc.step env c fuel t (start t) a).toOption = some a1 := h1
          cases hst : Rsmc.step env c fuel t (start t) a with
          | error e => rw [hst] at h2; cases h2
          | ok a2 =>
            rw [hst] at h2
            simp only [Except.toOption, Option.some.injEq] at h2
            subst h2
            obtain ⟨eps, out, ds, r, m, -, -, -, -, -, -, -, -, rfl⟩ := Rsmc.step_spec env c fuel t (start t) a a2 hst
            simp only [hf, Bool.false_eq_true, if_false]
            rw [if_neg (by omega)]
            exact ha
    rw [h1, k5]
    exact congrArg some (key k 0 _ s (by omega) rfl k3)

/-- The hypotheses are met: a run of two steps returns, and one that falls below `epsilon_final` after its first step raises. -/
example : (∃ s, Rsmc.run Rsmc.exEnv (Rsmc.exConfig 0) 2 Rsmc.exStart = .ok s) ∧ (∃ e, Rsmc.run Rsmc.exEnv ⟨2, 2, 1 / 2, 2, 3 / 2, 1 / 100, true⟩ 2 Rsmc.exStart = .error e) :=
  ⟨⟨_, Rsmc.exRun⟩, ⟨_, Rsmc.C46_rsmc_run_violated⟩⟩

end Rsmc

/-! ### SABC -/

section Sabc
variable {W Θ Y : Type} (env : Sabc.Env W Θ Y) (c : Sabc.Config) (fuel : Nat) (start : Nat → List W)

/-- Lines 1686-1857: the journal is saved at the end of an iteration (1856), but not if it ends with the `break` of line 1762; that comes before the population is added to the journal. -/
noncomputable def sabcLoop : Loop (Sabc.State Θ) (List (List Θ × List ℝ)) := ⟨fun s => s.stopped = true, fun t s => Sabc.step env c fuel t (start t) s, fun s => s.stopped = true, Sabc.State.journal⟩

/-- What the file holds in the course of `SABC.sample` without a journal file (`Sabc.run`). -/
noncomputable def sabcFiles (found : Option (List (List Θ × List ℝ))) : List (Option (List (List Θ × List ℝ))) :=
  contents found ((sabcLoop env c fuel start).saves c.steps 0 ⟨[], [], [], [], c.eps, 0, 0, [], 0, false⟩)

theorem sabcLoop_run (k t : Nat) (s : Sabc.State Θ) : Sabc.loop env c fuel start k t s = (sabcLoop env c fuel start).run k t s := by
  induction k generalizing t s with
  | zero => rfl
  | succ k ih =>
    rw [Sabc.loop, Loop.run]
    by_cases h : s.stopped = true
    · rw [if_pos h, if_pos (show (sabcLoop env c fuel start).stop s from h)]
    · rw [if_neg h, if_neg (show ¬ (sabcLoop env c fuel start).stop s from h), show (sabcLoop env c fuel start).step t s = Sabc.step env c fuel t (start t) s from rfl]
      cases Sabc.step env c fuel t (start t) s with
      | none => rfl
      | some s1 => exact ih _ _

/-- **C189 for `SABC`.** If the process dies in a call, with or without full output, the file holds what it held before, or nothing that can be read, or the populations that the same call with fewer steps
returns. -/
theorem C189_sabc_partial (found left : Option (List (List Θ × List ℝ))) (h : left ∈ sabcFiles env c fuel start found) :
    left = found ∨ left = none ∨ ∃ k s, 0 < k ∧ k ≤ c.steps ∧ Sabc.run env { c with steps := k } fuel start = some s ∧ left = some s.journal := by
  rcases mem_contents _ _ _ h with h1 | h1 | ⟨j, hj, hl⟩
  · exact .inl h1
  · exact .inr (.inl h1)
  · right; right
    obtain ⟨k, k1, k2, s, k3, -, k5⟩ := Loop.saves_run _ _ _ _ _ hj
    refine ⟨k, s, k1, k2, ?_, by rw [hl, k5]; rfl⟩
    unfold Sabc.run
    rw [sabcLoop_run, ← k3]
    exact Loop.run_congr _ _ _ _ _ (fun s => Iff.rfl) fun i _ hi s => rfl

theorem sabc_stopped (t : Nat) (s s' : Sabc.State Θ) (h : Sabc.step env c fuel t (start t) s = some s') (hs : s'.stopped = true) : t ≠ 0 ∧ s'.journal = s.journal := by
  have hfin : ∀ u (a a' : Sabc.State Θ), Sabc.finish env c t u a = some a' → a'.stopped = a.stopped := by
    intro u a a' h
    unfold Sabc.finish at h
    simp only at h
    split at h
    · split at h
      · split at h
        · simp only [Option.some.injEq] at h; rw [← h]
        · cases h
      · cases h
    · simp only [Option.some.injEq] at h; rw [← h]
  unfold Sabc.step at h
  by_cases ht : t = 0
  · exfalso
    subst ht
    simp only [if_true] at h
    split at h
    · cases h
    · split at h
      · cases h
      · split at h
        · cases h
        · split at h
          · cases h
          · have := hfin _ _ _ h; rw [hs] at this; cases this
  · refine ⟨ht, ?_⟩
    simp only [if_neg ht] at h
    split at h
    · cases h
    · split at h
      · cases h
      · split at h
        · cases h
        · split at h
          · simp only [Option.some.injEq] at h; rw [← h]
          · have := hfin _ _ _ h; rw [hs] at this; cases this

/-- **C120 for `SABC`.** When a call returns, the file holds the populations of the journal, also if the call stopped early. -/
theorem C120_sabc (hs : 0 < c.steps) (found : Option (List (List Θ × List ℝ))) (s : Sabc.State Θ) (h : Sabc.run env c fuel start = some s) :
    (sabcFiles env c fuel start found).getLast? = some (some s.journal) := by
  unfold Sabc.run at h
  rw [sabcLoop_run] at h
  refine files_last _ _ hs _ _ _ h (fun t s s' h1 h2 => (sabc_stopped env c fuel start t s s' h1 h2).2) (fun h => by cases h) (fun s' h1 h2 => ?_) found
  · exact (sabc_stopped env c fuel start 0 _ s' h1 h2).1 rfl

/-- The hypotheses are met, by a run that stops early. -/
example : ∃ s, Sabc.run Sabc.exEnv ⟨1, 2, 2, 10, 1 / 10, 1, 6 / 10, true⟩ 1 Sabc.exStart = some s ∧ s.stopped = true :=
  let ⟨s, h1, h2, _⟩ := Sabc.C46_sabc_violated
  ⟨s, h1, h2⟩

end Sabc

/-! ### APMCABC -/

section Apmc
variable {W Θ Y : Type} (env : Apmc.Env W Θ Y) (c : Apmc.Config) (fuel : Nat) (start : Nat → List W)

/-- Lines 2962-3083: the journal is saved at the end of an iteration (3082), but not if it ends with the `break` of line 3077. -/
noncomputable def apmcLoop : Loop (Apmc.State Θ) (List (Apmc.Rec Θ)) := ⟨fun s => s.stopped = true, fun t s => Apmc.step env c fuel t (start t) s, fun s => s.stopped = true, Apmc.State.journal⟩

/-- What the file holds in the course of `APMCABC.sample` without a journal file (`Apmc.run`). -/
noncomputable def apmcFiles (found : Option (List (Apmc.Rec Θ))) : List (Option (List (Apmc.Rec Θ))) := contents found ((apmcLoop env c fuel start).saves c.steps 0 ⟨[], [], [], false⟩)

theorem apmcLoop_run (k t : Nat) (s : Apmc.State Θ) : Apmc.loop env c fuel start k t s = (apmcLoop env c fuel start).run k t s := by
  induction k generalizing t s with
  | zero => rfl
  | succ k ih =>
    rw [Apmc.loop, Loop.run]
    by_cases h : s.stopped = true
    · rw [if_pos h, if_pos (show (apmcLoop env c fuel start).stop s from h)]
    · rw [if_neg h, if_neg (show ¬ (apmcLoop env c fuel start).stop s from h), show (apmcLoop env c fuel start).step t s = Apmc.step env c fuel t (start t) s from rfl]
      cases Apmc.step env c fuel t (start t) s with
      | none => rfl
      | some s1 => exact ih _ _

/-- **C189 for `APMCABC`.** If the process dies in a call with full output, the file holds what it held before, or nothing that can be read, or the populations that the same call with fewer steps returns
(without stopping early). -/
theorem C189_apmcabc_partial (hf : c.full = true) (found left : Option (List (Apmc.Rec Θ))) (h : left ∈ apmcFiles env c fuel start found) :
    left = found ∨ left = none ∨ ∃ k s, 0 < k ∧ k ≤ c.steps ∧ Apmc.run env { c with steps := k } fuel start = some s ∧ s.stopped = false ∧ left = some s.journal := by
  rcases mem_contents _ _ _ h with h1 | h1 | ⟨j, hj, hl⟩
  · exact .inl h1
  · exact .inr (.inl h1)
  · right; right
    obtain ⟨k, k1, k2, s, k3, k4, k5⟩ := Loop.saves_run _ _ _ _ _ hj
    refine ⟨k, s, k1, k2, ?_, by simpa [apmcLoop] using k4, by rw [hl, k5]; rfl⟩
    unfold Apmc.run
    rw [apmcLoop_run, ← k3]
    refine Loop.run_congr _ _ _ _ _ (fun s => Iff.rfl) fun i _ hi s => ?_
    simp only [apmcLoop, Apmc.step, hf, if_true]
    rfl

end Apmc

/-! ### ABCsubsim -/

section Subsim
variable {W Θ Y M : Type} (env : Subsim.Env W Θ Y M) (c : Subsim.Config) (fuel : Nat) (start tuneStart : Nat → List W)

/-- Lines 2162-2282: the journal is saved at the end of an iteration (2281), but not if it ends with the `break` of line 2280. -/
noncomputable def subsimLoop : Loop (Subsim.State Θ M) (List (Subsim.Rec Θ M)) :=
  ⟨fun s => s.stopped = true, fun t s => Subsim.step env c fuel t (start t) (tuneStart t) s, fun s => s.stopped = true, Subsim.State.journal⟩

/-- What the file holds in the course of `ABCsubsim.sample` without a journal file (`Subsim.run`): after the loop the journal is saved once more (2301). -/
noncomputable def subsimFiles (found : Option (List (Subsim.Rec Θ M))) : List (Option (List (Subsim.Rec Θ M))) :=
  contents found ((subsimLoop env c fuel start tuneStart).saves c.steps 0 ⟨[], [], [], false⟩ ++ ((Subsim.run env c fuel start tuneStart).map Subsim.State.journal).toList)

theorem subsimLoop_run (k t : Nat) (s : Subsim.State Θ M) : Subsim.loop env c fuel start tuneStart k t s = (subsimLoop env c fuel start tuneStart).run k t s := by
  induction k generalizing t s with
  | zero => rfl
  | succ k ih =>
    rw [Subsim.loop, Loop.run]
    by_cases h : s.stopped = true
    · rw [if_pos h, if_pos (show (subsimLoop env c fuel start tuneStart).stop s from h)]
    · rw [if_neg h, if_neg (show ¬ (subsimLoop env c fuel start tuneStart).stop s from h),
        show (subsimLoop env c fuel start tuneStart).step t s = Subsim.step env c fuel t (start t) (tuneStart t) s from rfl]
      cases Subsim.step env c fuel t (start t) (tuneStart t) s with
      | none => rfl
      | some s1 => exact ih _ _

/-- **C189 for `ABCsubsim`.** If the process dies in a call with full output, the file holds what it held before, or nothing that can be read, or the populations that the same call with fewer steps (or the
call itself) returns. -/
theorem C189_subsim_partial (hf : c.full = true) (hs : 0 < c.steps) (found left : Option (List (Subsim.Rec Θ M))) (h : left ∈ subsimFiles env c fuel start tuneStart found) :
    left = found ∨ left = none ∨ ∃ k s, 0 < k ∧ k ≤ c.steps ∧ Subsim.run env { c with steps := k } fuel start tuneStart = some s ∧ left = some s.journal := by
  rcases mem_contents _ _ _ h with h1 | h1 | ⟨j, hj, hl⟩
  · exact .inl h1
  · exact .inr (.inl h1)
  · right; right
    rw [List.mem_append] at hj
    rcases hj with hj | hj
    · obtain ⟨k, k1, k2, s, k3, k4, k5⟩ := Loop.saves_run _ _ _ _ _ hj
      refine ⟨k, s, k1, k2, ?_, by rw [hl, k5]; rfl⟩
      unfold Subsim.run
      rw [subsimLoop_run]
      rw [show (subsimLoop env { c with steps := k } fuel start tuneStart).run k 0 ⟨[], [], [], false⟩ = some s from
        .trans (Loop.run_congr _ (subsimLoop env c fuel start tuneStart) _ _ _ (fun s => Iff.rfl) fun i _ hi s => rfl) k3]
      simp only [hf, if_true, Option.map_some]
    · rw [Option.mem_toList, Option.map_eq_some_iff] at hj
      obtain ⟨s, h1, h2⟩ := hj
      exact ⟨c.steps, s, hs, le_rfl, h1, by rw [hl, h2]⟩

/-- **C120 for `ABCsubsim`.** When a call returns, the file holds the populations of the journal, also if the call stopped early. -/
theorem C120_subsim (found : Option (List (Subsim.Rec Θ M))) (s : Subsim.State Θ M) (h : Subsim.run env c fuel start tuneStart = some s) :
    (subsimFiles env c fuel start tuneStart found).getLast? = some (some s.journal) := by
  unfold subsimFiles
  rw [contents_last, h]
  simp

/-- The hypotheses are met. -/
example : ∃ s, Subsim.run Subsim.exEnv ⟨5, 2, 2, 0, true⟩ 1 Subsim.exStart Subsim.exTune = some s :=
  let ⟨s, h, _⟩ := Subsim.exRun
  ⟨s, h⟩

end Subsim

/-! ### PMC -/

section PmcLik
open PmcLik
variable {M W Θ Y : Type} (env : Env M W Θ Y) (n fuel : Nat)

/-- Lines 1258-1386: every iteration saves the journal (1385). The state: the generator, the population, the number of simulations, the journal. -/
noncomputable def pmcLoop (steps : Nat) (full : Bool) : Loop (M × Pmc.Pop Θ × Nat × Journal Θ) (Journal Θ) :=
  ⟨fun _ => False, fun t s => (step env n fuel s.1 s.2.1).map fun r => (r.1, r.2, s.2.2.1 + n * env.perParam, write full steps t r.2 (s.2.2.1 + n * env.perParam) s.2.2.2), fun _ => False, fun s => s.2.2.2⟩

/-- What the file holds in the course of `PMC.sample` (`PmcLik.sample`). -/
noncomputable def pmcFiles (steps : Nat) (full : Bool) (ini : Option (List Θ)) (m : M) (counter : Nat) (file found : Option (Journal Θ)) : List (Option (Journal Θ)) :=
  contents found (match first env n ini (env.prior m).1, file with
    | none, _ => []
    | some (m, p), none => (pmcLoop env n fuel steps full).saves steps 0 (m, p, counter, ⟨full, [], []⟩)
    | some (m, _), some j => match j.pops.getLast? with
      | none => []
      | some p => (pmcLoop env n fuel steps full).saves steps 0 (m, p, counter, j))

theorem pmcLoop_run (steps : Nat) (full : Bool) (k t : Nat) (m : M) (p : Pmc.Pop Θ) (c : Nat) (j : Journal Θ) :
    (loop env n steps fuel full k t m p c j).map (fun r => (r.1, r.2.2)) = ((pmcLoop env n fuel steps full).run k t (m, p, c, j)).map fun s => (s.1, s.2.2) := by
  induction k generalizing t m p c j with
  | zero => rfl
  | succ k ih =>
    rw [loop, Loop.run, if_neg (show ¬ (pmcLoop env n fuel steps full).stop (m, p, c, j) from fun h => h)]
    simp only [pmcLoop]
    cases step env n fuel m p with
    | none => rfl
    | some r =>
      have := ih (t + 1) r.1 r.2 (c + n * env.perParam) (write full steps t r.2 (c + n * env.perParam) j)
      simp only [Option.map_some, Option.map_map] at this ⊢
      exact this

theorem pmcLoop_out (steps : Nat) (full : Bool) (k t : Nat) (m : M) (p : Pmc.Pop Θ) (c : Nat) (j : Journal Θ) (s : M × Pmc.Pop Θ × Nat × Journal Θ)
    (h : (pmcLoop env n fuel steps full).run k t (m, p, c, j) = some s) : ∃ pops, loop env n steps fuel full k t m p c j = some (s.1, pops, s.2.2) := by
  have := pmcLoop_run env n fuel steps full k t m p c j
  rw [h] at this
  simp only [Option.map_some, Option.map_eq_some_iff] at this
  obtain ⟨a, h1, h2⟩ := this
  refine ⟨a.2.1, ?_⟩
  rw [h1, ← (Prod.mk.inj h2).1, ← (Prod.mk.inj h2).2]

theorem pmcLoop_shorter (steps k : Nat) (s0 s : M × Pmc.Pop Θ × Nat × Journal Θ) (h : (pmcLoop env n fuel steps true).run k 0 s0 = some s) :
    (pmcLoop env n fuel k true).run k 0 s0 = some s := by
  rw [← h]
  refine Loop.run_congr _ _ _ _ _ (fun s => Iff.rfl) fun i _ hi s => ?_
  simp only [pmcLoop, write, true_or, if_true]

/-- **C189 for `PMC`.** If the process dies in a call with full output, also one with a journal file, the file at the path holds what it held before, or nothing that can be read, or the journal that the same
call with fewer steps returns. -/
theorem C189_pmc_partial (steps : Nat) (ini : Option (List Θ)) (m : M) (counter : Nat) (file found left : Option (Journal Θ)) (h : left ∈ pmcFiles env n fuel steps true ini m counter file found) :
    left = found ∨ left = none ∨ ∃ k m' pops c j, 0 < k ∧ k ≤ steps ∧ sample env n k fuel true ini m counter file = some (m', pops, c, j) ∧ left = some j := by
  rcases mem_contents _ _ _ h with h1 | h1 | ⟨j, hj, hl⟩
  · exact .inl h1
  · exact .inr (.inl h1)
  · right; right
    unfold sample
    rcases hf : first env n ini (env.prior m).1 with _ | ⟨m1, p1⟩
    · rw [hf] at hj; simp at hj
    · rw [hf] at hj
      rcases file with _ | j1
      · obtain ⟨k, k1, k2, s, k3, -, k5⟩ := Loop.saves_run _ _ _ _ _ hj
        obtain ⟨pops, hp⟩ := pmcLoop_out env n fuel _ _ _ _ _ _ _ _ _ (pmcLoop_shorter env n fuel _ _ _ _ k3)
        exact ⟨k, s.1, pops, s.2.2.1, s.2.2.2, k1, k2, hp, by rw [hl, k5]; rfl⟩
      · simp only at hj
        split at hj
        · simp at hj
        · rename_i p hp1
          obtain ⟨k, k1, k2, s, k3, -, k5⟩ := Loop.saves_run _ _ _ _ _ hj
          obtain ⟨pops, hp⟩ := pmcLoop_out env n fuel _ _ _ _ _ _ _ _ _ (pmcLoop_shorter env n fuel _ _ _ _ k3)
          exact ⟨k, s.1, pops, s.2.2.1, s.2.2.2, k1, k2, by simp only [hp1, if_neg (show ¬ k = 0 by omega)]; exact hp, by rw [hl, k5]; rfl⟩

/-- **C120 for `PMC`.** When a call returns, with or without a journal file and full output, the file at the path holds the journal. -/
theorem C120_pmc (steps : Nat) (full : Bool) (hs : 0 < steps) (ini : Option (List Θ)) (m m' : M) (counter c : Nat) (file found : Option (Journal Θ)) (pops : List (Pmc.Pop Θ)) (j : Journal Θ)
    (h : sample env n steps fuel full ini m counter file = some (m', pops, c, j)) : (pmcFiles env n fuel steps full ini m counter file found).getLast? = some (some j) := by
  have key : ∀ (m1 : M) (p : Pmc.Pop Θ) (j0 : Journal Θ), loop env n steps fuel full steps 0 m1 p counter j0 = some (m', pops, c, j) →
      (contents found ((pmcLoop env n fuel steps full).saves steps 0 (m1, p, counter, j0))).getLast? = some (some j) := by
    intro m1 p j0 hl
    have := pmcLoop_run env n fuel steps full steps 0 m1 p counter j0
    rw [hl, Option.map_some, eq_comm, Option.map_eq_some_iff] at this
    obtain ⟨s, h1, h2⟩ := this
    rw [files_last _ _ hs _ _ _ h1 (fun _ _ _ _ h => h.elim) (fun h => h) (fun _ _ h => h) found]
    rw [show (pmcLoop env n fuel steps full).journal s = s.2.2.2 from rfl, (Prod.mk.inj h2).2]
  unfold sample at h
  unfold pmcFiles
  rcases hf : first env n ini (env.prior m).1 with _ | ⟨m1, p1⟩
  · rw [hf] at h; cases h
  · rw [hf] at h
    rcases file with _ | j1
    · exact key _ _ _ h
    · simp only [if_neg (show ¬ steps = 0 by omega)] at h ⊢
      split at h
      · cases h
      · rename_i p hp
        simp only [hp]
        exact key _ _ _ h

/-- The hypotheses are met: runs of any length. -/
example (n steps : Nat) : ∃ r, sample easy n steps 1 true none () 0 none = some r := by
  unfold sample first
  exact easy_loop n steps steps 0 0 true _ _ (initial_draws easy n _).2 (by simp)

end PmcLik

end Verif.Files
