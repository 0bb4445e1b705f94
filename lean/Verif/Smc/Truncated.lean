import Verif.Smc.Balance
/-
C95: proposals that are drawn again when the prior excludes them. C96: where the threshold goes when it could go down to `epsilon_final` at once.
-/
namespace Verif.Smc

open Verif.Pmc (Pop normalise)
open Spec
open Verif.Chance

variable {W Θ Y A : Type} (env : Env W Θ Y) (c : Config) (dr : Draws)

/-! ### C95 -/

/-- A perturbation that takes its result from a list of random draws. -/
def draw (l : List (Option Θ)) : List (Option Θ) × Option Θ := (l.tail, l.headD none)

/-- The draw is refused: the graph refuses the values, or the prior density is zero. -/
def Refused (pdf : Θ → ℝ) (a : Option Θ) : Prop := ∀ θ, a = some θ → pdf θ = 0

open Classical in
/-- The probability that a draw is refused. -/
noncomputable def refusal (pdf : Θ → ℝ) (outcomes : List (Option Θ)) (q : Option Θ → ℝ) : ℝ :=
  (outcomes.map fun a => if Refused pdf a then q a else 0).sum

open Classical in
/-- The probability that a draw is `θ`. -/
noncomputable def mass (outcomes : List (Option Θ)) (q : Option Θ → ℝ) (θ : Θ) : ℝ := (outcomes.map fun a => if a = some θ then q a else 0).sum

theorem prob_true (outcomes : List A) (q : A → ℝ) (hq : (outcomes.map q).sum = 1) (n : Nat) : prob outcomes q n (fun _ => true) = 1 := by
  induction n with
  | zero => simp [prob_zero]
  | succ n ih => rw [prob_succ]; simp only [ih, mul_one, hq]

theorem sum_add_map {B : Type} (l : List B) (f g : B → ℝ) : (l.map fun b => f b + g b).sum = (l.map f).sum + (l.map g).sum := by
  induction l with
  | nil => simp
  | cons b l ih => simp only [List.map_cons, List.sum_cons, ih]; ring

open Classical in
/-- The law of the values proposed within `N` draws: the loop that draws again makes every possible value more likely by the same factor. -/
theorem propose_law (pdf : Θ → ℝ) (outcomes : List (Option Θ)) (q : Option Θ → ℝ) (hq : (outcomes.map q).sum = 1) (θ : Θ) (hθ : pdf θ ≠ 0) (N : Nat) :
    prob outcomes q N (fun l => (propose pdf draw N l).any fun e => decide (e.2 = θ)) =
      mass outcomes q θ * ((List.range N).map fun k => refusal pdf outcomes q ^ k).sum := by
  induction N with
  | zero => simp [prob_zero, propose]
  | succ N ih =>
    rw [prob_succ]
    have : ∀ a, q a * prob outcomes q N (fun l => (propose pdf draw (N + 1) (a :: l)).any fun e => decide (e.2 = θ)) =
        (if a = some θ then q a else 0) +
          prob outcomes q N (fun l => (propose pdf draw N l).any fun e => decide (e.2 = θ)) * (if Refused pdf a then q a else 0) := by
      intro a
      by_cases hr : Refused pdf a
      · have hne : a ≠ some θ := fun h => hθ (hr θ h)
        rw [if_pos hr, if_neg hne, zero_add, mul_comm]
        congr 1
        apply prob_congr
        intro l _
        rw [propose]
        cases a with
        | none => simp [draw]
        | some θ' => simp [draw, hr θ' rfl]
      · rw [if_neg hr, mul_zero, add_zero]
        cases a with
        | none => exact absurd (fun θ h => by cases h) hr
        | some θ' =>
          have hp : pdf θ' ≠ 0 := fun h => hr (fun t ht => by cases ht; exact h)
          by_cases he : θ' = θ
          · subst he
            rw [if_pos rfl, prob_congr _ _ _ _ (fun _ => true), prob_true _ _ hq, mul_one]
            intro l _; simp [propose, draw, hp]
          · rw [if_neg (by simpa using he), prob_congr _ _ _ _ (fun _ => false), prob_false, mul_zero]
            intro l _; simp [propose, draw, hp, he]
    simp only [this]
    rw [sum_add_map, map_mul_sum, ih, List.range_succ_eq_map]
    simp only [List.map_cons, List.sum_cons, pow_zero, List.map_map, Function.comp_def, pow_succ]
    have h2 : ((List.range N).map fun k => refusal pdf outcomes q ^ k * refusal pdf outcomes q).sum =
        refusal pdf outcomes q * ((List.range N).map fun k => refusal pdf outcomes q ^ k).sum := by
      rw [← map_mul_sum]; congr 1; apply List.map_congr_left; intro k _; ring
    rw [h2]
    unfold mass refusal
    ring

open Classical in
/-- In the limit, the value proposed is `θ` with the probability of `θ` divided by the probability that a draw is not refused. -/
theorem propose_limit (pdf : Θ → ℝ) (outcomes : List (Option Θ)) (q : Option Θ → ℝ) (hq : (outcomes.map q).sum = 1) (θ : Θ) (hθ : pdf θ ≠ 0)
    (h0 : 0 ≤ refusal pdf outcomes q) (h1 : refusal pdf outcomes q < 1) :
    Filter.Tendsto (fun N => prob outcomes q N (fun l => (propose pdf draw N l).any fun e => decide (e.2 = θ))) Filter.atTop
      (nhds (mass outcomes q θ / (1 - refusal pdf outcomes q))) := by
  simp only [propose_law pdf outcomes q hq θ hθ]
  rw [div_eq_mul_inv]
  have hs := (hasSum_geometric_of_lt_one h0 h1).tendsto_sum_nat
  have he : ∀ N, ((List.range N).map fun k => refusal pdf outcomes q ^ k).sum = ∑ k ∈ Finset.range N, refusal pdf outcomes q ^ k := by
    intro N
    induction N with
    | zero => simp
    | succ N ih => rw [List.range_succ, List.map_append, List.sum_append, ih, Finset.sum_range_succ]; simp
  simp only [he]
  exact hs.const_mul _

/-- What a move with the standard kernel contributes to the flow between two states when proposals from `θ` are refused and drawn again with probability `R θ`: the target density of `C78`, the
density of the proposals (`propose_limit`), the density of the simulation and the acceptance probability of `C92`. -/
noncomputable def flow (eps : ℝ) (p : Pop Θ) (g : Y → Θ → ℝ) (R : Θ → ℝ) (θ : Θ) (y : Y) (θ' : Θ) (y' : Y) : ℝ :=
  (env.pdf θ * g y θ * closer env eps y) * (env.kernel p θ θ' / (1 - R θ) * g y' θ') * acceptance0 env eps p θ y θ' y'

/-- **C95 (partial).** If proposals are refused with the same probability everywhere, in particular if they are never refused, the moves leave the target invariant: the flows are balanced. Missing: the case
of different probabilities, where this is false as soon as there is any flow. -/
theorem C95_partial (eps : ℝ) (p : Pop Θ) (g : Y → Θ → ℝ) (R : Θ → ℝ) (hR : ∀ θ, R θ < 1) (θ θ' : Θ) (y y' : Y) (h1 : 0 < env.pdf θ) (h2 : 0 < env.pdf θ')
    (k1 : 0 < env.kernel p θ θ') (k2 : 0 < env.kernel p θ' θ) :
    flow env eps p g R θ y θ' y' = flow env eps p g R θ' y' θ y ↔ R θ = R θ' ∨ flow env eps p g R θ y θ' y' = 0 := by
  have hb := C78_detailed_balance env eps p g θ θ' y y' h1 h2 k1 k2
  have e1 : flow env eps p g R θ y θ' y' = ((env.pdf θ * g y θ * below eps (env.dists y)) * (env.kernel p θ θ' * g y' θ') * prob0 env eps p θ y θ' y') / (1 - R θ) := by
    unfold flow; rw [closer_eq, prob0_eq]; ring
  have e2 : flow env eps p g R θ' y' θ y = ((env.pdf θ * g y θ * below eps (env.dists y)) * (env.kernel p θ θ' * g y' θ') * prob0 env eps p θ y θ' y') / (1 - R θ') := by
    unfold flow; rw [closer_eq, hb, prob0_eq]; ring
  rw [e1, e2]
  generalize (env.pdf θ * g y θ * below eps (env.dists y)) * (env.kernel p θ θ' * g y' θ') * prob0 env eps p θ y θ' y' = F
  have r1 : 1 - R θ ≠ 0 := by linarith [hR θ]
  have r2 : 1 - R θ' ≠ 0 := by linarith [hR θ']
  constructor
  · intro h
    rw [div_eq_div_iff r1 r2] at h
    by_cases hF : F = 0
    · right; simp [hF]
    · left
      have := mul_left_cancel₀ hF h
      linarith
  · rintro (h | h)
    · rw [h]
    · rw [div_eq_zero_iff] at h
      rcases h with h | h
      · simp [h]
      · exact absurd h r1

/-- Two values; from `false` half of the proposals are refused, from `true` none. -/
noncomputable def cutLaw : Bool → Option Bool → ℝ
  | false, none => 1 / 2
  | true, none => 0
  | false, some _ => 1 / 4
  | true, some true => 3 / 4
  | true, some false => 1 / 4

/-- A model with these proposals, the same prior density for both values and data that are always close. -/
noncomputable def cutEnv : Env (List (Option Bool)) Bool Unit :=
  ⟨fun _ => 0, fun _ => [0], fun _ => 1 / 2, fun _ a b => cutLaw a (some b), fun l => (l, false), fun _ _ l => draw l, fun _ _ l => draw l, fun _ l => (l, ()), fun _ l => (l, true), fun _ l => (l, 0)⟩

/-- C95 fails. In `cutEnv`, `kernel` is the probability of a single proposal; the probability with which `true` is proposed from `false` tends to 1/2, that of `false` from `true` to 1/4; the
moves between both are always accepted. The flows are 1/4 and 1/8: the moves do not leave the target invariant. -/
theorem C95_violated : let outcomes := [none, some false, some true]
    (∀ a b p, cutEnv.kernel p a b = mass outcomes (cutLaw a) b) ∧
    Filter.Tendsto (fun N => prob outcomes (cutLaw false) N (fun l => (propose cutEnv.pdf draw N l).any fun e => decide (e.2 = true))) Filter.atTop (nhds (1 / 2)) ∧
    Filter.Tendsto (fun N => prob outcomes (cutLaw true) N (fun l => (propose cutEnv.pdf draw N l).any fun e => decide (e.2 = false))) Filter.atTop (nhds (1 / 4)) ∧
    let R := fun a => refusal cutEnv.pdf outcomes (cutLaw a)
    ∀ p, acceptance0 cutEnv 1 p false () true () = 1 ∧ acceptance0 cutEnv 1 p true () false () = 1 ∧
      flow cutEnv 1 p (fun _ _ => 1) R false () true () = 1 / 4 ∧ flow cutEnv 1 p (fun _ _ => 1) R true () false () = 1 / 8 := by
  intro outcomes
  have hn : Refused cutEnv.pdf (none : Option Bool) := fun θ h => by cases h
  have hs : ∀ b, ¬ Refused cutEnv.pdf (some b) := fun b h => by have := h b rfl; norm_num [cutEnv] at this
  have R0 : refusal cutEnv.pdf outcomes (cutLaw false) = 1 / 2 := by simp [refusal, outcomes, hn, hs, cutLaw]
  have R1 : refusal cutEnv.pdf outcomes (cutLaw true) = 0 := by simp [refusal, outcomes, hn, hs, cutLaw]
  have hm : ∀ a b, mass outcomes (cutLaw a) b = cutLaw a (some b) := by
    intro a b; cases b <;> simp [mass, outcomes]
  refine ⟨fun a b p => (hm a b).symm, ?_, ?_, ?_⟩
  · have := propose_limit cutEnv.pdf outcomes (cutLaw false) (by norm_num [outcomes, cutLaw]) true (by norm_num [cutEnv]) (by rw [R0]; norm_num) (by rw [R0]; norm_num)
    rw [hm, R0] at this
    convert this using 2
    · congr; funext l; congr!
    · norm_num [cutLaw]
  · have := propose_limit cutEnv.pdf outcomes (cutLaw true) (by norm_num [outcomes, cutLaw]) false (by norm_num [cutEnv]) (by rw [R1]) (by rw [R1]; norm_num)
    rw [hm, R1] at this
    convert this using 2
    · congr; funext l; congr!
    · norm_num [cutLaw]
  · intro R p
    have hc : closer cutEnv 1 () = 1 := by simp [closer, hitCount, cutEnv]
    have a1 : acceptance0 cutEnv 1 p false () true () = 1 := by
      unfold acceptance0; rw [if_neg (by rw [hc]; norm_num), hc]; norm_num [mh, cutEnv, cutLaw]
    have a2 : acceptance0 cutEnv 1 p true () false () = 1 := by
      unfold acceptance0; rw [if_neg (by rw [hc]; norm_num), hc]; norm_num [mh, cutEnv, cutLaw]
    refine ⟨a1, a2, ?_, ?_⟩
    · unfold flow; rw [a1, hc]; simp only [R, R0]; norm_num [cutEnv, cutLaw]
    · unfold flow; rw [a2, hc]; simp only [R, R1]; norm_num [cutEnv, cutLaw]

/-! ### C96 -/

/-- **C96 (partial).** The threshold after `e` lies between `epsilon_final` and `e`; if less than the fraction `alpha` of the population is left at `epsilon_final` and more at `e`, it is up to 0.001 a point where
this changes (`Spec.Threshold`). Missing: if at least `alpha` is left even at `epsilon_final`, it should be `epsilon_final`. -/
theorem C96_partial (fuel : Nat) (e e' : ℝ) (p : Rec Θ Y) (hg : Good env c e p) (hc : c.final < e) (h : newEps env c dr fuel e p = some e') : Threshold env c dr e p e' :=
  threshold_spec env c dr fuel e e' p hg hc h

/-- C96 fails: if at every threshold from `epsilon_final` on more than `alpha` of the population is left, the next threshold is at most 0.001 below the last one; it is never `epsilon_final`. -/
theorem C96_violated (fuel : Nat) (e e' : ℝ) (p : Rec Θ Y) (hg : Good env c e p) (hc : c.final < e) (h : newEps env c dr fuel e p = some e')
    (hk : ∀ x v, c.final ≤ x → x ≤ e → Kept env c dr e p x v → c.alpha < v) : e - 0.001 ≤ e' ∧ c.final < e' := by
  have hp : Even p := ⟨by rw [hg.sims, hg.params], by rw [hg.distances, hg.params], by rw [hg.weights, hg.params]⟩
  obtain ⟨h1, h2⟩ := newEps_spec env c dr fuel e e' p h hc
  refine ⟨?_, h1⟩
  obtain ⟨σ, hσ, hf⟩ := fun_eq env c dr e 0 p (by rw [hg.distances]) hg.sum (essRaw_pos _ hg.nonneg hg.sum)
  unfold newEps at h
  rw [Option.map_eq_some_iff] at h
  obtain ⟨x, hx, rfl⟩ := h
  have := bisection_stuck _ 0.001 σ fuel c.final e x hc.le ?_ hx
  · split
    · linarith
    · exact this
  · intro z hz1 hz2
    rw [(hf z).1, ← mul_assoc]
    have := hk z _ hz1 hz2 ((kept_iff env c dr e z _ p hp).2 rfl)
    have hs : 0 < σ * σ := mul_self_pos.2 hσ
    exact mul_pos hs (by linarith)

/-- The hypotheses are met: one particle at distance zero, thresholds 1 and 1/10, `alpha` 1/2, and a bisection that ends. The next threshold is at least 0.999. -/
example : let c : Config := ⟨1, false, 3, 1 / 10, 1 / 2, 1, 0, none, true⟩
    let p : Rec Bool Unit := ⟨[true], [()], [0], [1]⟩
    let dr : Draws := ⟨fun _ _ => [0], fun _ => 1⟩
    Good cutEnv c 1 p ∧ (∀ x v, c.final ≤ x → x ≤ 1 → Kept cutEnv c dr 1 p x v → c.alpha < v) ∧ ∃ e', newEps cutEnv c dr 30 1 p = some e' := by
  intro c p dr
  have hE : Even p := ⟨rfl, rfl, rfl⟩
  refine ⟨⟨rfl, rfl, rfl, rfl, by simp [p], by simp [p], ?_⟩, ?_, ?_⟩
  · intro _ i wt y h _ h0
    subst h0
    rcases i with _ | i <;> simp [p] at h
  · intro x v hx hx1 hv
    rw [kept_iff cutEnv c dr 1 x v p hE] at hv
    have hx' : (0 : ℝ) < x := by simp only [c] at hx; linarith
    have : rawOf cutEnv c 1 x p = [1] := by simp [rawOf, c, p, dmWeights, below, cutEnv, hx']
    rw [hv, this]
    norm_num [kept, essRaw, c, p]
  · obtain ⟨x, hx⟩ := (C43_bisection (dmFun p.weights (p.sims.map cutEnv.dists) 1 c.alpha) 0.001 c.final 1 (by norm_num [c])).1 20 30 (by norm_num [c]) (by norm_num)
    refine ⟨if x < c.final then c.final else x, ?_⟩
    unfold newEps
    rw [if_neg (by simp [c]), hx]
    rfl

end Verif.Smc
