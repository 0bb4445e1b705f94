import Verif.Witness.Relations
import Verif.Mcmc.Resume
import Verif.Selection.Props
import Verif.Nan.PmcReal
import Verif.Nan.Rsmc
import Verif.Nan.PmcLik
import Verif.Expr.Examples
import Verif.Embedding.Examples
/-
More theorems applied to concrete runs: their hypotheses are met.
-/
namespace Verif.Witness

/-! ### ABCsubsim: the run `Subsim.exRun` -/

/-- C46, C50. -/
example : ∃ s e, Subsim.run Subsim.exEnv ⟨5, 2, 2, 0, true⟩ 1 Subsim.exStart Subsim.exTune = some s ∧ s.hist.getLast? = some e ∧ s.journal.getLast? = some e.1 ∧ e.1.distances.Pairwise (· ≤ ·) := by
  obtain ⟨s, h, he⟩ := Subsim.exRun
  obtain ⟨e, h1, h2⟩ := Subsim.C46_subsim _ _ _ _ _ s h (by norm_num)
  refine ⟨s, e, h, h1, h2, ?_⟩
  rw [List.getLast?_eq_getElem?] at h1
  exact (Subsim.C50_partial _ _ _ _ _ s h _ e.1 e.2 h1).2.1

/-! ### APMCABC -/

/-- C49: the run of `Apmc.C49_size_violated`. -/
example : ∃ s, Apmc.run Apmc.exEnv ⟨3, 2, 1 / 2, 0, true⟩ 1 Apmc.threeStart = some s ∧ ∀ (k : Nat) r, s.hist[k]? = some r → (∀ x ∈ r.keptWeights, 0 < x) ∧ (r.keptParams ≠ [] → r.keptWeights.sum = 1) := by
  obtain ⟨-, -, s, h, -⟩ := Apmc.C49_size_violated
  refine ⟨s, h, fun k r hr => ?_⟩
  have := Apmc.C49_partial Apmc.exEnv _ (by simp [Apmc.exEnv]) (by simp [Apmc.exEnv]) 1 Apmc.threeStart s h k r hr
  exact ⟨this.2.2.2.1, this.2.2.2.2.1⟩

/-! ### SABC -/

/-- C51: three old distances. -/
example : ∃ x, Sabc.smooth [2, 1, 4] 3 = some x ∧ 0 ≤ x ∧ x ≤ 1 := by
  obtain ⟨m, -, -, h, -⟩ := Sabc.C51_smooth_partial [2, 1, 4] (by simp) (by norm_num)
  obtain ⟨x, h1, h2, h3, -⟩ := h 3 (by norm_num)
  exact ⟨x, h1, h2, h3⟩

/-! ### Metropolis-Hastings: a chain that climbs and stops at a wall -/

/-- Proposals are one larger than the current value; the prior density is zero from 2 on. -/
noncomputable def climb : Mcmc.Env Nat Int (List Int) Unit where
  names := ["x"]
  prior w := (w + 1, [0])
  pdf θ := if θ = [2] then 0 else 1
  loglik θ w := (w + 1, 0)
  tr := some
  inv := some
  jac _ := some 0
  propose _ t w := (w + 1, t.map (· + 1))
  unif w := (w + 1, 1 / 2)
  adapt _ := ()
  eye _ := ()

theorem climb_accepts : Mcmc.accepts (1 / 2) 0 0 0 0 1 1 = true := by norm_num [Mcmc.accepts, Mcmc.alpha]

theorem climb_up (k sims : Nat) (burn chain : List (List Int)) (w : Nat) (acc : ℝ) :
    Mcmc.step climb 0 none k ⟨w, [0], [0], 0, 1, 0, (), chain, burn, acc, sims⟩ = some ⟨w + 1 + 1 + 1, [1], [1], 0, 1, 0, (), chain ++ [[1]], burn, acc + 1, sims + 1⟩ := by
  have := climb_accepts
  simp only [one_div] at this
  simp [Mcmc.step, climb, this, Mcmc.State.record, Mcmc.State.adaptCov]

theorem climb_wall (k sims : Nat) (burn chain : List (List Int)) (w : Nat) (acc : ℝ) :
    Mcmc.step climb 0 none k ⟨w, [1], [1], 0, 1, 0, (), chain, burn, acc, sims⟩ = some ⟨w + 1, [1], [1], 0, 1, 0, (), chain ++ [[1]], burn, acc, sims⟩ := by
  simp [Mcmc.step, climb, Mcmc.State.record]

theorem climb_begin : Mcmc.begin_ climb 2 [0] 0 none [[0]] 0 1 = some ⟨2, [0], [0], 0, 1, 0, (), [], [[0]], 0, 1⟩ := by simp [Mcmc.begin_, climb]

theorem climb_again : Mcmc.begin_ climb 5 [1] 0 (some ()) [] (1 * 1) 2 = some ⟨5, [1], [1], 0, 1, 0, (), [], [], 1, 2⟩ := by simp [Mcmc.begin_, climb]

/-- A call for one state, which is an accepted proposal. -/
theorem climb_fresh : Mcmc.fresh climb ⟨1, 0, none, none, none⟩ 0 0 = some (5, ⟨[[1]], Mcmc.asDict (Journal.namedColumns ["x"] [[1]]), [1], [1], [2], 1, 0, ()⟩) := by
  rw [Mcmc.fresh]
  simp only [show Mcmc.initial climb ⟨1, 0, none, none, none⟩ 0 = (1, [0]) from rfl, show climb.loglik [0] 1 = (2, 0) from rfl, if_true, zero_add, climb_begin, show List.range 1 = [0] from rfl, Mcmc.loop, climb_up]
  simp [climb]

/-- A call for three states: the second and the third proposal are outside the prior. -/
theorem climb_three : ∃ j, Mcmc.fresh climb ⟨3, 0, none, none, none⟩ 0 0 = some (7, j) ∧ j.chain = [[1], [1], [1]] ∧ j.rates = [1 / 3] ∧ j.sims = [2] := by
  rw [Mcmc.fresh]
  simp only [show Mcmc.initial climb ⟨3, 0, none, none, none⟩ 0 = (1, [0]) from rfl, show climb.loglik [0] 1 = (2, 0) from rfl, if_true, zero_add, climb_begin, show List.range 3 = [0, 1, 2] from rfl, Mcmc.loop, climb_up,
    climb_wall]
  simp

/-- C52. -/
example : ∃ (j : Mcmc.Jrn Int Unit) (r : Mcmc.Run Int), Mcmc.fresh climb ⟨3, 0, none, none, none⟩ 0 0 = some (7, j) ∧ r.Ok climb ⟨3, 0, none, none, none⟩ ∧ j.chain = r.states ∧ r.accepted = 1 := by
  obtain ⟨j, h, -, hr, -⟩ := climb_three
  obtain ⟨r, h1, -, -, -, h2, -, -, h3, -⟩ := Mcmc.C52_chain_partial _ _ _ _ _ _ h
  refine ⟨j, r, h, h1, h2, ?_⟩
  rw [hr] at h3
  have h4 : (r.accepted : ℝ) = 1 := by
    simp only [List.cons.injEq, and_true] at h3
    field_simp at h3
    push_cast at h3
    linarith
  exact_mod_cast h4

/-- C52, states. -/
example : ∃ r : Mcmc.Run Int, r.Ok climb ⟨3, 0, none, none, none⟩ ∧ ∀ (k : Nat) m, r.moves[k]? = some m → ∃ before after, (r.start :: Mcmc.positions r.start r.moves)[k]? = some before ∧
    (Mcmc.positions r.start r.moves)[k]? = some after ∧ (m.moved = false ∧ after = before ∨ m.moved = true ∧ after = ⟨m.prop, m.ll⟩ ∧ climb.pdf m.prop ≠ 0) := by
  obtain ⟨j, h, -⟩ := climb_three
  obtain ⟨r, h1, -⟩ := Mcmc.C52_chain_partial _ _ _ _ _ _ h
  exact ⟨r, h1, fun k m hm => Mcmc.C52_states climb r.start r.moves h1.chain k m hm⟩

/-- C54: stopping after one state and going on for two more gives the chain of three states. -/
example : ∃ j₁ j j₂, Mcmc.fresh climb ⟨1, 0, none, none, none⟩ 0 0 = some (5, j₁) ∧ Mcmc.fresh climb ⟨3, 0, none, none, none⟩ 0 0 = some (7, j) ∧
    Mcmc.restart climb ⟨2, 0, none, none, none⟩ 5 j₁ = some (7, j₂) ∧ j₂.chain = j.chain ∧ j.chain = [[1], [1], [1]] := by
  obtain ⟨j, h, hc, -⟩ := climb_three
  obtain ⟨j₂, h1, h2, -⟩ := Mcmc.C54_resume climb (fun _ _ _ _ he => by simpa [climb, eq_comm] using he) ⟨1, 0, none, none, none⟩ 2 0 5 7 0 _ j none none climb_fresh h
  exact ⟨_, j, j₂, climb_fresh, h, h1, h2, hc⟩

/-- C54, sessions. -/
example : ∃ j runs, Mcmc.Session climb 0 [⟨1, 0, none, none, none⟩, ⟨2, 0, none, none, none⟩] runs j := by
  obtain ⟨j, h, -⟩ := climb_three
  obtain ⟨j₂, h1, -⟩ := Mcmc.C54_resume climb (fun _ _ _ _ he => by simpa [climb, eq_comm] using he) ⟨1, 0, none, none, none⟩ 2 0 5 7 0 _ j none none climb_fresh h
  obtain ⟨runs, h2⟩ := Mcmc.C54_restarts climb ⟨1, 0, none, none, none⟩ 0 5 0 _ j₂ [(⟨2, 0, none, none, none⟩, 5)] (by simp) climb_fresh (by simp [Mcmc.restarts, h1])
  exact ⟨j₂, runs, h2⟩

/-- C135, restarts. -/
example : ∃ (j j' : Mcmc.Jrn Int Unit) (r : Mcmc.Run Int), Mcmc.restart climb ⟨2, 0, none, none, none⟩ 5 j = some (7, j') ∧ j'.chain = j.chain ++ r.states := by
  obtain ⟨j, h, -⟩ := climb_three
  obtain ⟨j₂, h1, -⟩ := Mcmc.C54_resume climb (fun _ _ _ _ he => by simpa [climb, eq_comm] using he) ⟨1, 0, none, none, none⟩ 2 0 5 7 0 _ j none none climb_fresh h
  obtain ⟨r, h2, -⟩ := Mcmc.C135_restart_partial climb _ _ _ _ _ h1
  exact ⟨_, j₂, r, h1, h2⟩

/-- C203: prior densities three times as large, log-likelihoods larger by 2. -/
example : ∃ j, Mcmc.fresh (Scale.mcmcEnv 3 2 climb) ⟨3, 0, none, none, none⟩ 0 0 = some (7, j) ∧ j.chain = [[1], [1], [1]] := by
  obtain ⟨j, h, hc, -⟩ := climb_three
  refine ⟨Scale.shifted 2 j, ?_, hc⟩
  rw [Scale.C203_mcmc (by norm_num), h]; rfl

/-! ### RSMCABC -/

/-- C47: a worker that accepts its move. -/
example : ∃ (θ dθ : ℝ), [(1 : ℝ)][0]? = some θ ∧ [(1 : ℝ)][0]? = some dθ ∧ ∃ o, Rsmc.accept Rsmc.exEnv 1 1 (some (⟨[1], [1]⟩, [1])) 1 () 1 = some o ∧ o.accepted = 1 ∧
    (o.d = some dθ ∨ ∃ θ' w, Rsmc.exEnv.pdf θ' ≠ 0 ∧ o.d = some (Rsmc.exEnv.dist (Rsmc.exEnv.sim θ' w).2)) := by
  have h := Rsmc.C47_distance_violated.2
  obtain ⟨i, θ, dθ, hi, h1, h2, -, h3⟩ := (Rsmc.C47_rejected_partial Rsmc.exEnv 1 1 1 () 1 _).2 _ _ h le_rfl
  obtain rfl : i = 0 := hi
  refine ⟨θ, dθ, h1, h2, _, h, rfl, h3.imp id ?_⟩
  rintro ⟨θ', w, a, b, -⟩
  exact ⟨θ', w, a, b⟩

/-- C48: three of four moves were accepted, more than 1 - const = 1/2. -/
example (start : List (Unit × ℝ)) (s : Rsmc.State ℝ) (hs : s.moves = 0) (s' : Rsmc.State ℝ) : Rsmc.step Rsmc.exEnv ⟨2, 2, 1 / 2, 1, 0, 1 / 2, true⟩ 2 1 start s ≠ .ok s' := by
  have hm : Rsmc.nextMoves ⟨2, 2, 1 / 2, 1, 0, 1 / 2, true⟩ 1 4 3 = some 0 := by
    have hl : Real.log (1 / 2) / Real.log (1 - 3 / 4) = 1 / 2 := by
      rw [show (1 - 3 / 4 : ℝ) = (1 / 2) ^ 2 by norm_num, Real.log_pow]
      have : Real.log (1 / 2) ≠ 0 := by
        rw [Real.log_ne_zero]; norm_num
      field_simp
      push_cast
      ring
    simp only [Rsmc.nextMoves]
    rw [if_neg (by norm_num), if_neg (by norm_num)]
    norm_num at hl ⊢
    rw [hl]
    norm_num [Rsmc.pyInt]
  exact (Rsmc.C48_no_moves_raises Rsmc.exEnv ⟨2, 2, 1 / 2, 1, 0, 1 / 2, true⟩ 2 1 start s 4 3 1 (by norm_num) (by norm_num) (by norm_num) (by norm_num) (by rw [hm, hs])).2 s'

/-! ### Model selection -/

/-- C70: two calls. -/
example : ∀ set ∈ [[([(0 : ℝ)], 0), ([1], 1)], [([0], 0), ([1], 1)]], set.length = 2 :=
  fun set hset => ((Selection.C70_partial (Selection.toy true) (· % 2) Selection.toy_local 1 List.range (by simp) 2 [4] _ Selection.C70_violated).2 set hset).1

/-! ### Rejection -/

open MeasureTheory in
theorem fair_true : Expr.fair {true} = 1 / 2 := by
  rw [Expr.fair, PMF.toMeasure_apply_singleton _ _ (measurableSet_singleton _)]
  simp

/-- C177: the first head of a fair coin. -/
example : (Rejection.stream Expr.fair).map (Rejection.hit {true}) = ProbabilityTheory.cond Expr.fair {true} :=
  Rejection.C177_law Expr.fair (measurableSet_singleton _) (by rw [fair_true]; simp)

/-! ### NaN -/

/-- C200: a likelihood that is zero. -/
example : ∃ m1 l, l.length = 2 ∧ PmcLik.Spec.Draws Nan.PmcLik.pair () m1 l := by
  obtain ⟨m', c, j, h⟩ := Nan.PmcLik.pair_impossible
  obtain ⟨m1, l, h1, h2, -⟩ := Nan.PmcLik.C200_partial _ _ Nan.PmcLik.pair_regular 2 1 1 true (by norm_num) _ _ _ _ _ _ h
  exact ⟨m1, l, h1, h2⟩

/-- C198: the run `Rsmc.exRun`, with numbers that may be NaN. -/
example : ∃ s, Nan.Rsmc.run Rsmc.exEnv (fun y => .num y) Nan.Rsmc.exSort (Rsmc.exConfig 0) 2 Rsmc.exStart = .ok s :=
  ⟨_, Nan.Rsmc.C198_partial Rsmc.exEnv _ _ Nan.Rsmc.exSort_sorts _ _ _ (fun _ => rfl) _ Rsmc.exRun⟩

/-- C192: the run `Pmc.easy_run`. -/
example : ∃ hist, Nan.pmcRun Pmc.easy (fun y => .num (Pmc.easy.dist y)) (Nan.ofOption Pmc.easy.distMax) 2 [1] 50 3 (fun _ => [(), ()]) none = some hist ∧
    ∀ r ∈ hist, ∃ x, r.eps = .num x ∧ ∀ d ∈ r.distances, ∃ y, d = .num y ∧ y ≤ x := by
  have hex : ∃ hist, Nan.pmcRun Pmc.easy (fun y => .num (Pmc.easy.dist y)) (Nan.ofOption Pmc.easy.distMax) 2 [1] 50 3 (fun _ => [(), ()]) none = some hist := by
    obtain ⟨s, h, -⟩ := Pmc.easy_run
    have he : Pmc.initEps [1] 2 = some [some 1, none] := by simp [Pmc.initEps]
    rw [Pmc.pmcRun, he] at h
    simp only at h
    have := Nan.C192_agrees Pmc.easy 0 2 50 3 (fun _ => [(), ()]) 2 0 ⟨[some (.num 1), none], none, []⟩ ⟨[some 1, none], none, 0, []⟩ (by constructor <;> simp)
    rw [h] at this
    obtain ⟨s', h', -⟩ := this
    rw [Nan.pmcRun, he]
    simp only [List.map_cons, List.map_nil, Option.map_some, Option.map_none, h']
    exact ⟨_, rfl⟩
  obtain ⟨hist, h⟩ := hex
  exact ⟨hist, h, Nan.C192_run_partial _ _ _ _ _ _ _ (by simp) (by cases Pmc.easy.distMax <;> simp [Nan.ofOption]) _ _ hist h⟩

/-! ### Factors and units -/

/-- C203: one step of APMCABC. -/
example (c k : ℝ) (hc : 0 < c) (hk : 0 < k) : Apmc.run (Scale.apmcEnv c k Apmc.exEnv) ⟨3, 1, 1 / 2, 0, true⟩ 1 Apmc.threeStart = Apmc.run Apmc.exEnv ⟨3, 1, 1 / 2, 0, true⟩ 1 Apmc.threeStart :=
  Scale.C203_apmc_first _ _ (by norm_num) _ _

/-- C204: a later step of SABC, distances in centimetres. -/
example (fuel : Nat) (start : List _) (s : Sabc.State ℝ) (c : Sabc.Config) : Sabc.step (Units.sabcIn 100 Sabc.exEnv) (Units.sabcConfigIn 100 c) fuel 1 start (Units.sabcStateIn 100 s) =
    (Sabc.step Sabc.exEnv c fuel 1 start s).map (Units.sabcStateIn 100) :=
  Units.C204_sabc_step (by norm_num) _ c fuel 1 one_ne_zero start s

/-- C204: the particles that RejectionABC keeps at the median, distances in centimetres. -/
example (named : List (String × List Int)) : (Pmc.percentile ([3, 1, 2].map fun x : ℝ => 100 * x) 50).bind (fun cut => Rejection.cleanup [[1], [2], [3]] ([3, 1, 2].map fun x : ℝ => 100 * x) named cut) =
    ((Pmc.percentile [3, 1, 2] 50).bind fun cut => Rejection.cleanup [[1], [2], [3]] [3, 1, 2] named cut).map (Units.keptIn fun x => 100 * x) :=
  Units.C204_quantile (by norm_num) _ _ _ _

/-! ### Learned statistics -/

section Learned

open Embedding Embedding.Props Embedding.Examples

/-- C142: the statistics `learned` are read with the class of the network that was trained. -/
example (fs : Files) : ∃ history fs' e', learned.save "net.pth" none fs = .ok history ∧ history.getLast? = some fs' ∧
    fromFile fs' "net.pth" ⟨some (defaultNet softplus 1 2 (some [1])), none, none, none⟩ none 1 false none [] = .ok e' ∧ e'.statistics 0 [[7]] = some ⟨1, [[softplus 0]]⟩ := by
  have hp : Proper (defaultNet softplus 1 2 (some [1])) := by simp [Proper, defaultNet, defaultEntries, hiddenEntries, layerEntries]
  obtain ⟨history, fs', h1, h2, h3⟩ := C142_partial (defaultNet softplus 1 2 (some [1])) hp learned (Or.inr rfl) (learned_declared softplus) (Or.inl rfl) none rfl "net.pth" none fs rfl
  obtain ⟨e', h4, h5⟩ := h3 fs' rfl (by simp)
  refine ⟨history, fs', e', h1, h2, h4, ?_⟩
  rw [h5 0 0 [[7]]]
  exact wrapped_value softplus 7

/-- C143: the network does not distinguish the modes. -/
example (m n : Nat) (data : List (List ℝ)) : learned.statistics m data = learned.statistics n data :=
  C143_partial learned true 1 .train (Or.inr (Or.inr fun _ => rfl)) m n data

end Learned

/-! ### Adapted covariances -/

/-- C152: two states that differ. -/
example : ∃ c, Mcmc.exNormal.adapt [[[0]], [[1]]] = some c ∧ c.mat.PosDef := by
  obtain ⟨c, h1, -, -, h2⟩ := (Mcmc.C152_partial Mcmc.exNormal (by norm_num [Mcmc.exNormal]) [[[0]], [[1]]] 1 one_pos (by simp)).2 ⟨[[0]], by simp, [[1]], by simp, by simp⟩
  exact ⟨c, h1, h2⟩

end Verif.Witness
