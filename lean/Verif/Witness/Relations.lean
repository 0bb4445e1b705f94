import Verif.Witness.Samplers
import Verif.Scale.Mcmc
import Verif.Scale.Pmc
import Verif.Scale.Ratio
import Verif.Scale.Apmc
import Verif.Units.Basic
import Verif.Units.Rsmc
import Verif.Units.Apmc
import Verif.Units.Subsim
import Verif.Units.Sabc
import Verif.Units.Smc
import Verif.Smc.Run
import Verif.Subsim.Run
import Verif.Mcmc.Stuck
import Verif.PmcLik.Run
/-
C203 and C204 compare two runs: here both of them exist. The runs are those of `Witness/Samplers`, with densities three and five times as large or distances in centimetres. C92 and C104 on the same runs.
-/
namespace Verif.Witness

/-! ### Runs that return something -/

/-- C92. -/
example : ∃ s ps, Smc.smcRun Smc.exEnv (Smc.exConfig 0) ⟨fun _ _ => [0, 0], fun _ => 1⟩ (some 1) 1 (fun _ => [0, 1]) = some s ∧ s.done = 2 ∧
    Smc.Spec.History Smc.exEnv (Smc.exConfig 0) ⟨fun _ _ => [0, 0], fun _ => 1⟩ (fun _ => [0, 1]) 1 s.epsilons ps s.counter ∧ ps.length = 2 := by
  obtain ⟨s, h, -, hd, -⟩ : ∃ s, Smc.smcRun Smc.exEnv (Smc.exConfig 0) ⟨fun _ _ => [0, 0], fun _ => 1⟩ (some 1) 1 (fun _ => [0, 1]) = some s ∧
    s.last = some ⟨[0, 1], [0, 1], [0, 2], [1, 0]⟩ ∧ s.done = 2 ∧ s.epsilons = [1, 0.9995] ∧ s.journal.getLast? = s.last :=
    Smc.exRun 0 ⟨[0, 1], [1, 0]⟩ (by norm_num [Smc.resampled, Smc.exConfig, Smc.ess]) _ _ _ _ rfl
  rcases Smc.C92_run _ _ _ _ _ _ s (by norm_num [Smc.exConfig]) h with ⟨h0, -⟩ | ⟨ps, h1, h2, -⟩
  · omega
  · exact ⟨s, ps, h, hd, h1, h2.trans hd⟩

/-- C104. -/
example : ∃ s, Subsim.run Subsim.exEnv ⟨5, 2, 2, 0, true⟩ 1 Subsim.exStart Subsim.exTune = some s ∧
    Subsim.Spec.History Subsim.exEnv ⟨5, 2, 2, 0, true⟩ Subsim.exStart Subsim.exTune s.base (s.hist.map Subsim.stageOf) s.stopped := by
  obtain ⟨s, h, -⟩ := Subsim.exRun
  exact ⟨s, h, (Subsim.C104_run _ _ _ _ _ s (by norm_num) h).1⟩

/-- C135: the chain of `C152_run`, whose covariance is computed anew in the burn-in. -/
example : ∃ j r c, Mcmc.fresh Mcmc.exNormal.env ⟨1, 2, some (some ⟨1, 1, [1, 1]⟩), some [[0]], some 2⟩ () 0 = some ((), j) ∧ j.chain = r.states ∧
    Mcmc.Adapts Mcmc.exNormal.env ⟨1, 2, some (some ⟨1, 1, [1, 1]⟩), some [[0]], some 2⟩ (fun m => Mcmc.exNormal.env.pdf m.prop = 0) r c j.cov := by
  obtain ⟨j, h, -⟩ := Mcmc.C152_run
  obtain ⟨r, c, h1, h2, -⟩ := Mcmc.C135_fresh_partial _ _ _ _ _ _ h
  exact ⟨j, r, c, h, h1, h2⟩

/-! ### Constant factors of densities (C203) -/

/-- PMCABC. -/
example : ∃ s, Pmc.pmcRun (Scale.abcEnv 3 5 Pmc.easy) 2 [1] 50 3 (fun _ => [(), ()]) none 0 = some s := by
  obtain ⟨s, h, -⟩ := Pmc.easy_run
  exact ⟨s, by rw [Scale.C203_pmcabc (by norm_num) (by norm_num)]; exact h⟩

/-- PMC. -/
example (n steps : Nat) (hn : 0 < n) (hker : ∀ p x y, 0 < PmcLik.easy.kernel p x y) :
    PmcLik.sample (Scale.pmcEnv 3 5 7 PmcLik.easy) n steps 1 true none () 0 none = PmcLik.sample PmcLik.easy n steps 1 true none () 0 none :=
  Scale.C203_pmc (by norm_num) (by norm_num) 7 PmcLik.easy hker hn steps 1 true none () 0 none (by simp)

example : ∀ p x y, 0 < PmcLik.easy.kernel p x y := by simp [PmcLik.easy]

/-- SMCABC. -/
example : ∃ s, Smc.smcRun (Scale.smcEnv 3 5 Smc.exEnv) (Smc.exConfig 0) ⟨fun _ _ => [0, 0], fun _ => 1⟩ (some 1) 1 (fun _ => [0, 1]) = some s ∧ s.epsilons = [1, 0.9995] := by
  obtain ⟨s, h, -, -, he, -⟩ : ∃ s, Smc.smcRun Smc.exEnv (Smc.exConfig 0) ⟨fun _ _ => [0, 0], fun _ => 1⟩ (some 1) 1 (fun _ => [0, 1]) = some s ∧
    s.last = some ⟨[0, 1], [0, 1], [0, 2], [1, 0]⟩ ∧ s.done = 2 ∧ s.epsilons = [1, 0.9995] ∧ s.journal.getLast? = s.last :=
    Smc.exRun 0 ⟨[0, 1], [1, 0]⟩ (by norm_num [Smc.resampled, Smc.exConfig, Smc.ess]) _ _ _ _ rfl
  exact ⟨s, by rw [Scale.C203_smc (by norm_num) (by norm_num)]; exact h, he⟩

/-- RSMCABC, SABC and ABCsubsim. -/
example : ∃ s, Rsmc.run (Scale.rsmcEnv 3 5 Rsmc.exEnv) (Rsmc.exConfig 0) 2 Rsmc.exStart = .ok s :=
  ⟨_, by rw [Scale.C203_rsmc (by norm_num) (by norm_num)]; exact Rsmc.exRun⟩

example : ∃ s, Sabc.run (Scale.sabcEnv 3 Sabc.exEnv) ⟨1, 2, 2, 10, 1 / 10, 1, 6 / 10, true⟩ 1 Sabc.exStart = some s := by
  obtain ⟨s, h, -⟩ := Sabc.C46_sabc_violated
  exact ⟨s, by rw [Scale.C203_sabc (by norm_num)]; exact h⟩

example : ∃ s, Subsim.run (Scale.subsimEnv 3 5 Subsim.exEnv) ⟨5, 2, 2, 0, true⟩ 1 Subsim.exStart Subsim.exTune = some s := by
  obtain ⟨s, h, -⟩ := Subsim.exRun
  exact ⟨s, by rw [Scale.C203_subsim (by norm_num) (by norm_num)]; exact h⟩

/-! ### Units of distances (C204) -/

/-- RejectionABC. -/
example : Rejection.rejectRound (fun w : Nat => (w - 1, w, some w)) (fun y => 100 * y) (100 * 100) (100 * 3) 10 0 [5, 2] =
    (Rejection.rejectRound (fun w : Nat => (w - 1, w, some w)) id 100 3 10 0 [5, 2]).map (Units.roundIn fun x => 100 * x) :=
  Units.C204_rejection (f := fun x : Nat => 100 * x) (fun a b h => by simpa using h) _ id 100 3 10 0 [5, 2]

/-- PMCABC. -/
example : ∃ s, Pmc.pmcRun (Units.pmcIn 100 Pmc.easy) 2 [100] 50 3 (fun _ => [(), ()]) none 0 = some s := by
  obtain ⟨s, h, -⟩ := Pmc.easy_run
  have := Units.C204_pmcabc (u := 100) (by norm_num) Pmc.easy 2 [1] 50 3 (fun _ => [(), ()]) none 0
  rw [h] at this
  exact ⟨Units.stateIn 100 s, by simpa using this⟩

/-- RSMCABC, APMCABC and ABCsubsim. -/
example : ∃ s, Rsmc.run (Units.rsmcIn 100 Rsmc.exEnv) (Units.rsmcConfigIn 100 (Rsmc.exConfig 0)) 2 Rsmc.exStart = .ok s := by
  rw [Units.C204_rsmcabc (by norm_num), Rsmc.exRun]
  exact ⟨_, rfl⟩

example : ∃ s, Apmc.run (Units.apmcIn 100 Apmc.exEnv) ⟨3, 2, 1 / 2, 0, true⟩ 1 Apmc.threeStart = some s := by
  obtain ⟨-, -, s, h, -⟩ := Apmc.C49_size_violated
  rw [Units.C204_apmcabc (by norm_num), h]
  exact ⟨_, rfl⟩

example : ∃ s, Subsim.run (Units.subsimIn 100 Subsim.exEnv) ⟨5, 2, 2, 0, true⟩ 1 Subsim.exStart Subsim.exTune = some s := by
  obtain ⟨s, h, -⟩ := Subsim.exRun
  rw [Units.C204_subsim (by norm_num), h]
  exact ⟨_, rfl⟩

end Verif.Witness
