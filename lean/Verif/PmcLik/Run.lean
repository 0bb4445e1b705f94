import Verif.PmcLik.Spec
import Verif.Pmc.Props
/-
C115: runs of `PMC`. C116: restarts. C117: given initial points.
-/
namespace Verif.PmcLik

open Verif.Pmc (Pop pmcWeights pmcWeights_eq normalise normalise_spec sum_pos_of_pos)
open Verif.Smc.Spec (Proposal)
open Spec

variable {M W Θ Y : Type} (env : Env M W Θ Y)

theorem initial_draws (n : Nat) (m : M) : Draws env m (initial env n m).1 (initial env n m).2 ∧ (initial env n m).2.length = n := by
  induction n generalizing m with
  | zero => exact ⟨.nil m, rfl⟩
  | succ n ih =>
    obtain ⟨h1, h2⟩ := ih (env.prior m).1
    exact ⟨.cons _ _ _ _ _ rfl h1, by simp [initial, h2]⟩

theorem proposeLoop_proposal (p : Pop Θ) (i fuel : Nat) (w w' : M) (θ : Θ) (h : proposeLoop env p i fuel w = some (w', θ)) :
    Proposal env.pdf (env.perturb p i) w w' θ ∧ env.pdf θ ≠ 0 := by
  induction fuel generalizing w with
  | zero => simp [proposeLoop] at h
  | succ fuel ih =>
    unfold proposeLoop at h
    split at h
    · rename_i w1 h1
      obtain ⟨e1, e2⟩ := ih _ h
      exact ⟨.refused _ _ _ (by rw [h1]) (by rw [h1]; exact e1), e2⟩
    · rename_i w1 θ1 h1
      split at h
      · rename_i hp
        simp only [Option.some.injEq, Prod.mk.injEq] at h
        obtain ⟨rfl, rfl⟩ := h
        have := Proposal.take (pdf := env.pdf) (perturb := env.perturb p i) w θ1 (by rw [h1]) hp
        rw [h1] at this
        exact ⟨this, hp⟩
      · rename_i hp
        obtain ⟨e1, e2⟩ := ih _ h
        exact ⟨.impossible _ _ _ _ (by rw [h1]) (not_not.1 hp) (by rw [h1]; exact e1), e2⟩

theorem proposals_spec (p : Pop Θ) (fuel : Nat) (is : List Nat) (m m' : M) (l : List Θ) (h : proposals env p fuel is m = some (m', l)) :
    Proposals env p m m' is l ∧ l.length = is.length ∧ ∀ θ ∈ l, env.pdf θ ≠ 0 := by
  induction is generalizing m l with
  | nil =>
    simp only [proposals, Option.some.injEq, Prod.mk.injEq] at h
    obtain ⟨rfl, rfl⟩ := h
    exact ⟨.nil _, rfl, by simp⟩
  | cons i is ih =>
    rw [proposals] at h
    split at h
    · cases h
    · rename_i m1 θ h1
      simp only [Option.map_eq_some_iff, Prod.mk.injEq] at h
      obtain ⟨r, hr, rfl, rfl⟩ := h
      obtain ⟨e1, e2, e3⟩ := ih m1 r.2 (by rw [hr])
      obtain ⟨f1, f2⟩ := proposeLoop_proposal env p i fuel m m1 θ h1
      refine ⟨.cons _ _ _ _ _ _ _ f1 e1, by simp [e2], ?_⟩
      intro x hx
      rcases List.mem_cons.1 hx with rfl | hx
      · exact f2
      · exact e3 x hx

/-- A population of `n` particles with positive weights. -/
structure Positive (n : Nat) (p : Pop Θ) : Prop where
  params : p.params.length = n
  weights : p.weights.length = n
  pos : ∀ w ∈ p.weights, 0 < w

theorem mixture_eq (p : Pop Θ) (θ : Θ) : mixture env p θ = proposalDensity env p θ := by
  rw [mixture, proposalDensity, List.zip, List.map_zipWith]

theorem mixture_pos (hR : Regular env) (n : Nat) (hn : 0 < n) (p : Pop Θ) (hp : Positive n p) (θ : Θ) : 0 < mixture env p θ := by
  apply sum_pos_of_pos
  · intro x hx
    rw [List.zipWith_eq_zipWith_take_min] at hx
    obtain ⟨i, hi, rfl⟩ := List.mem_iff_getElem.1 hx
    simp only [List.getElem_zipWith, List.getElem_take]
    exact mul_pos (hp.pos _ (List.getElem_mem _)) (hR.kernel _ _ _)
  · intro h0
    have := congrArg List.length h0
    rw [List.length_zipWith, hp.params, hp.weights] at this
    simp at this
    omega

/-- One step of the code is one stage of the specification, and its weights are positive again. -/
theorem step_stage (hR : Regular env) (n fuel : Nat) (hn : 0 < n) (m m' : M) (p q : Pop Θ) (hp : Positive n p) (h : step env n fuel m p = some (m', q)) :
    Stage env n ruleUsed m m' p q ∧ Positive n q ∧ ∀ θ ∈ q.params, env.pdf θ ≠ 0 := by
  unfold step at h
  rw [if_pos ⟨hp.params, hp.weights⟩] at h
  simp only at h
  split at h
  · cases h
  · rename_i m1 l hl
    simp only [Option.some.injEq, Prod.mk.injEq] at h
    obtain ⟨rfl, rfl⟩ := h
    obtain ⟨e1, e2, e3⟩ := proposals_spec env p fuel _ _ m1 l hl
    rw [hR.choose] at e2
    have hs := hR.seeds n m1
    have hpart : ∀ e ∈ List.zipWith (fun θ w => (env.loglik (env.sim θ w), env.pdf θ, mixture env p θ)) l (env.seeds n m1).2, 0 < e.2.1 ∧ 0 < e.2.2 := by
      intro e he
      obtain ⟨i, hi, rfl⟩ := List.mem_iff_getElem.1 he
      simp only [List.getElem_zipWith]
      exact ⟨lt_of_le_of_ne (hR.pdf _) (e3 _ (List.getElem_mem _)).symm, mixture_pos env hR n hn p hp _⟩
    have hlen : (List.zipWith (fun θ w => (env.loglik (env.sim θ w), env.pdf θ, mixture env p θ)) l (env.seeds n m1).2).length = n := by
      rw [List.length_zipWith, e2, hs, Nat.min_self]
    have hw : weights env p l (env.seeds n m1).2 = normalise (List.zipWith (fun θ w => ruleUsed (env.pdf θ) (Real.exp (env.loglik (env.sim θ w))) (proposalDensity env p θ)) l (env.seeds n m1).2) := by
      rw [weights, pmcWeights_eq _ hpart, List.map_zipWith]
      simp only [mixture_eq, ruleUsed]
    generalize hraw : List.zipWith (fun θ w => ruleUsed (env.pdf θ) (Real.exp (env.loglik (env.sim θ w))) (proposalDensity env p θ)) l (env.seeds n m1).2 = raw at hw
    have hrl : raw.length = n := by rw [← hraw, List.length_zipWith, e2, hs, Nat.min_self]
    have hpos : ∀ x ∈ raw, 0 < x := by
      intro x hx
      rw [← hraw] at hx
      obtain ⟨i, hi, rfl⟩ := List.mem_iff_getElem.1 hx
      simp only [List.getElem_zipWith, ruleUsed]
      have h1 : 0 < env.pdf (l[i]'(by rw [List.length_zipWith] at hi; omega)) := lt_of_le_of_ne (hR.pdf _) (e3 _ (List.getElem_mem _)).symm
      have h2 := mixture_pos env hR n hn p hp (l[i]'(by rw [List.length_zipWith] at hi; omega))
      rw [mixture_eq] at h2
      have h3 := Real.exp_pos (env.loglik (env.sim (l[i]'(by rw [List.length_zipWith] at hi; omega)) ((env.seeds n m1).2[i]'(by rw [List.length_zipWith] at hi; omega))))
      exact div_pos (mul_pos (pow_pos h1 2) h3) h2
    have hsum : 0 < raw.sum := sum_pos_of_pos _ hpos (by intro h0; rw [h0] at hrl; simp at hrl; omega)
    refine ⟨⟨hp.params, hp.weights, m1, (env.seeds n m1).2, e1, rfl, e2, ?_, ?_, raw.sum, hsum.ne', ?_⟩, ⟨e2, ?_, ?_⟩, e3⟩
    · rw [hw]; simp [normalise, hrl]
    · rw [hw]; exact (normalise_spec raw (fun x hx => (hpos x hx).le) hsum).2.1
    · intro i θ w hθ hww
      rw [hw, normalise, List.getElem?_map, ← hraw, List.getElem?_zipWith, hθ, hww]
      rfl
    · rw [hw]; simp [normalise, hrl]
    · intro x hx
      rw [hw] at hx
      obtain ⟨y, hy, rfl⟩ := List.mem_map.1 hx
      exact div_pos (hpos y hy) hsum

/-- The populations that a call hands to the journal. -/
def handed (full : Bool) (pops : List (Pop Θ)) : List (Pop Θ) := if full then pops else pops.drop (pops.length - 1)

theorem loop_spec (hR : Regular env) (n steps fuel : Nat) (full : Bool) (hn : 0 < n) (k t : Nat) (hk : t + k = steps) (m m' : M) (p : Pop Θ) (pops : List (Pop Θ)) (c c' : Nat) (j j' : Journal Θ)
    (hp : Positive n p) (h : loop env n steps fuel full k t m p c j = some (m', pops, c', j')) :
    Chain env n ruleUsed m m' p pops ∧ pops.length = k ∧ c' = c + k * (n * env.perParam) ∧ (∀ q ∈ pops, Positive n q ∧ ∀ θ ∈ q.params, env.pdf θ ≠ 0) ∧ j'.full = j.full ∧
      (j.full = true → j'.pops = j.pops ++ handed full pops) ∧ (j.full = false → 0 < k → j'.pops = pops.drop (k - 1)) ∧
      (0 < k → j'.sims.getLast? = some c') := by
  induction k generalizing t m p pops c j with
  | zero =>
    simp only [loop, Option.some.injEq, Prod.mk.injEq] at h
    obtain ⟨rfl, rfl, rfl, rfl⟩ := h
    refine ⟨.nil _ _, rfl, by omega, by simp, rfl, ?_, by omega, by omega⟩
    intro _; unfold handed; split <;> simp
  | succ k ih =>
    rw [loop] at h
    split at h
    · cases h
    · rename_i m1 q hq
      simp only [Option.map_eq_some_iff, Prod.mk.injEq] at h
      obtain ⟨⟨r1, r2, r3, r4⟩, hr, rfl, rfl, rfl, rfl⟩ := h
      obtain ⟨s1, s2, s3⟩ := step_stage env hR n fuel hn m m1 p q hp hq
      obtain ⟨i1, i2, i3, i4, i5, i6, i7, i8⟩ := ih (t + 1) (by omega) m1 q r2 _ _ s2 hr
      have hwf : (write full steps t q (c + n * env.perParam) j).full = j.full := by unfold write; split <;> rfl
      rw [hwf] at i5 i6 i7
      refine ⟨.cons _ _ _ _ _ _ s1 i1, by simp [i2], by rw [i3]; ring, ?_, i5, ?_, ?_, ?_⟩
      · intro x hx
        rcases List.mem_cons.1 hx with rfl | hx
        · exact ⟨s2, s3⟩
        · exact i4 x hx
      · intro hf
        rw [i6 hf]
        unfold write
        by_cases hfl : full = true
        · rw [if_pos (Or.inl hfl)]
          simp [handed, hfl, hf]
        · by_cases hlast : t + 1 = steps
          · have : k = 0 := by omega
            subst this
            have hr2 : r2 = [] := by simpa using i2
            subst hr2
            rw [if_pos (Or.inr hlast)]
            simp [handed, hfl, hf]
          · rw [if_neg (by rw [not_or]; exact ⟨hfl, hlast⟩)]
            have hk0 : 0 < k := by omega
            unfold handed
            rw [if_neg hfl, if_neg hfl, List.length_cons, Nat.add_sub_cancel]
            congr 1
            rw [i2]
            obtain ⟨k', rfl⟩ : ∃ k', k = k' + 1 := ⟨k - 1, by omega⟩
            rfl
      · intro hf _
        rcases Nat.eq_zero_or_pos k with rfl | hk0
        · simp only [loop, Option.some.injEq, Prod.mk.injEq] at hr
          obtain ⟨-, rfl, -, rfl⟩ := hr
          unfold write
          rw [if_pos (Or.inr (by omega))]
          simp [hf]
        · rw [i7 hf hk0]
          obtain ⟨k', rfl⟩ : ∃ k', k = k' + 1 := ⟨k - 1, by omega⟩
          rfl
      · intro _
        rcases Nat.eq_zero_or_pos k with rfl | hk0
        · simp only [loop, Option.some.injEq, Prod.mk.injEq] at hr
          obtain ⟨-, -, rfl, rfl⟩ := hr
          unfold write
          rw [if_pos (Or.inr (by omega))]
          simp
        · exact i8 hk0

theorem equal_positive (n : Nat) (hn : 0 < n) (l : List Θ) (hl : l.length = n) : Positive n (⟨l, List.replicate n (1 / (n : ℝ))⟩ : Pop Θ) := by
  refine ⟨hl, by simp, ?_⟩
  intro w hw
  rw [List.eq_of_mem_replicate hw]
  have : (0 : ℝ) < n := by exact_mod_cast hn
  positivity

/-- **C115, with the weights that the code uses.** A call without journal file and initial points draws `n` particles from the prior, with equal weights, and makes `steps` iterations; the journal has all their
populations or the last one; the number of simulations is that of all particles. Missing: the weights count the prior density twice. -/
theorem C115_partial (hR : Regular env) (n steps fuel : Nat) (full : Bool) (hn : 0 < n) (m m' : M) (counter c : Nat) (pops : List (Pop Θ)) (j : Journal Θ)
    (h : sample env n steps fuel full none m counter none = some (m', pops, c, j)) :
    ∃ m1 l, l.length = n ∧ Draws env (env.prior m).1 m1 l ∧ Chain env n ruleUsed m1 m' ⟨l, List.replicate n (1 / (n : ℝ))⟩ pops ∧ pops.length = steps ∧
      (0 < steps → j.pops = handed full pops ∧ j.sims.getLast? = some c) ∧ c = counter + steps * (n * env.perParam) := by
  unfold sample first at h
  simp only at h
  obtain ⟨d1, d2⟩ := initial_draws env n (env.prior m).1
  obtain ⟨i1, i2, i3, -, i5, i6, i7, i8⟩ := loop_spec env hR n steps fuel full hn steps 0 (by omega) _ m' _ pops counter c _ j (equal_positive n hn _ d2) h
  refine ⟨_, _, d2, d1, i1, i2, fun hs => ⟨?_, i8 hs⟩, i3⟩
  cases full with
  | true => rw [i6 rfl]; rfl
  | false => rw [i7 rfl hs]; simp [handed, i2]

theorem chain_flat (n : Nat) (c : ℝ) (hc : c ≠ 0) (m m' : M) (p : Pop Θ) (pops : List (Pop Θ)) (h : Chain env n ruleUsed m m' p pops)
    (hflat : ∀ q ∈ pops, ∀ θ ∈ q.params, env.pdf θ = c) : Chain env n rule m m' p pops := by
  induction h with
  | nil m p => exact .nil m p
  | cons m m1 m' p q l h1 _ ih =>
    refine .cons m m1 m' p q l ?_ (ih fun x hx => hflat x (List.mem_cons_of_mem _ hx))
    obtain ⟨a1, a2, m2, ws, a3, a4, a5, a6, a7, s, a8, a9⟩ := h1
    refine ⟨a1, a2, m2, ws, a3, a4, a5, a6, a7, s / c, div_ne_zero a8 hc, ?_⟩
    intro i θ w hθ hw
    rw [a9 i θ w hθ hw, hflat q (by simp) θ (List.mem_of_getElem? hθ)]
    simp only [ruleUsed, rule, Option.some.injEq]
    field_simp

/-- **C115 for uniform priors.** If the prior density has one value on its support, the run is one of population Monte Carlo. -/
theorem C115_flat (hR : Regular env) (n steps fuel : Nat) (full : Bool) (hn : 0 < n) (m m' : M) (counter c : Nat) (pops : List (Pop Θ)) (j : Journal Θ) (v : ℝ)
    (hflat : ∀ θ, env.pdf θ ≠ 0 → env.pdf θ = v) (hv : v ≠ 0)
    (h : sample env n steps fuel full none m counter none = some (m', pops, c, j)) :
    ∃ m1 l, l.length = n ∧ Draws env (env.prior m).1 m1 l ∧ Chain env n rule m1 m' ⟨l, List.replicate n (1 / (n : ℝ))⟩ pops ∧ pops.length = steps := by
  unfold sample first at h
  simp only at h
  obtain ⟨d1, d2⟩ := initial_draws env n (env.prior m).1
  obtain ⟨i1, i2, -, i4, -⟩ := loop_spec env hR n steps fuel full hn steps 0 (by omega) _ m' _ pops counter c _ j (equal_positive n hn _ d2) h
  exact ⟨_, _, d2, d1, chain_flat env n v hv _ _ _ _ i1 fun q hq θ hθ => hflat θ ((i4 q hq).2 θ hθ), i2⟩

/-- **C116.** A restart from the journal of an earlier call makes its iterations from the last population of that call on; with full output in both calls the journal has the populations of both. The numbers of
simulations are those of the second sampler (as in C112). -/
theorem C116 (hR : Regular env) (n steps steps' fuel fuel' : Nat) (full full' : Bool) (hn : 0 < n) (hs : 0 < steps) (hs' : 0 < steps') (m m' a a' : M) (counter c counter' c' : Nat)
    (pops pops' : List (Pop Θ)) (j j' : Journal Θ) (h : sample env n steps fuel full none m counter none = some (m', pops, c, j))
    (h' : sample env n steps' fuel' full' none a counter' (some j) = some (a', pops', c', j')) :
    ∃ last a1, pops.getLast? = some last ∧ Chain env n ruleUsed a1 a' last pops' ∧ pops'.length = steps' ∧ (full = true → full' = true → j'.pops = pops ++ pops') ∧
      j'.pops.getLast? = pops'.getLast? ∧ c' = counter' + steps' * (n * env.perParam) := by
  obtain ⟨m1, l, l1, l2, l3, l4, l5, -⟩ := C115_partial env hR n steps fuel full hn m m' counter c pops j h
  obtain ⟨l6, -⟩ := l5 hs
  have hpos : ∀ q ∈ pops, Positive n q := by
    unfold sample first at h
    simp only at h
    obtain ⟨-, -, -, i4, -⟩ := loop_spec env hR n steps fuel full hn steps 0 (by omega) _ m' _ pops counter c _ j (equal_positive n hn _ (initial_draws env n (env.prior m).1).2) h
    exact fun q hq => (i4 q hq).1
  have hkind : j.full = full := by
    unfold sample first at h
    simp only at h
    exact (loop_spec env hR n steps fuel full hn steps 0 (by omega) _ m' _ pops counter c _ j (equal_positive n hn _ (initial_draws env n (env.prior m).1).2) h).2.2.2.2.1
  obtain ⟨b, last, hb⟩ : ∃ b last, pops = b ++ [last] := by
    rcases pops.eq_nil_or_concat with h0 | ⟨b, last, h0⟩
    · rw [h0] at l4; simp at l4; omega
    · exact ⟨b, last, by simpa using h0⟩
  have hjl : j.pops.getLast? = some last := by
    rw [l6, hb]; unfold handed; split <;> simp
  unfold sample first at h'
  simp only [if_neg (show ¬ steps' = 0 by omega), hjl] at h'
  obtain ⟨i1, i2, i3, -, i5, i6, i7, -⟩ := loop_spec env hR n steps' fuel' full' hn steps' 0 (by omega) _ a' last pops' counter' c' j j' (hpos last (by rw [hb]; simp)) h'
  refine ⟨last, _, by rw [hb]; simp, i1, i2, ?_, ?_, i3⟩
  · intro f1 f2
    rw [i6 (by rw [hkind, f1]), l6, f1, f2]
    simp [handed]
  · obtain ⟨b', last', hb'⟩ : ∃ b' last', pops' = b' ++ [last'] := by
      rcases pops'.eq_nil_or_concat with h0 | ⟨b, last, h0⟩
      · rw [h0] at i2; simp at i2; omega
      · exact ⟨b, last, by simpa using h0⟩
    cases hf : j.full with
    | true => rw [i6 hf, hb']; unfold handed; split <;> simp
    | false => rw [i7 hf hs', ← i2, hb']; simp

/-- **C117 fails.** A call with two or more initial points raises: whether points are given is asked of every number in the array. -/
theorem C117_violated (n steps fuel : Nat) (full : Bool) (l : List Θ) (m : M) (counter : Nat) (file : Option (Journal Θ)) (hl : 2 ≤ l.length) (hd : 0 < env.dim) :
    sample env n steps fuel full (some l) m counter file = none := by
  have ht : truth (List.replicate (l.length * env.dim) false) = none := by
    obtain ⟨k, hk⟩ : ∃ k, l.length * env.dim = k + 2 := ⟨l.length * env.dim - 2, by have := Nat.mul_le_mul hl hd; omega⟩
    rw [hk]; rfl
  unfold sample first
  simp only [ht]

/-- **C117.** One point with one parameter does work: the run starts from it with weight one. -/
theorem C117_partial (hR : Regular env) (steps fuel : Nat) (full : Bool) (θ : Θ) (m m' : M) (counter c : Nat) (pops : List (Pop Θ)) (j : Journal Θ) (hd : env.dim = 1)
    (h : sample env 1 steps fuel full (some [θ]) m counter none = some (m', pops, c, j)) :
    Chain env 1 ruleUsed (env.prior m).1 m' ⟨[θ], [1]⟩ pops ∧ pops.length = steps := by
  unfold sample first at h
  simp only [hd, List.length_singleton, Nat.one_mul, List.replicate_one, truth, Nat.cast_one, ne_eq, one_ne_zero, not_false_eq_true, div_self] at h
  obtain ⟨i1, i2, -⟩ := loop_spec env hR 1 steps fuel full (by norm_num) steps 0 (by omega) _ m' _ pops counter c _ j ⟨rfl, rfl, by simp⟩ h
  exact ⟨i1, i2⟩

/-! ### A prior that is not flat -/

/-- Two particles, at 0 and 1, with prior densities 1 and 2 and the same likelihood. -/
noncomputable def steep : Env Unit Unit Nat Unit :=
  ⟨fun θ => θ + 1, fun _ _ _ => 1, fun m => (m, 0), fun _ n m => (m, List.range n), fun _ i m => (m, some i), fun n m => (m, List.replicate n ()), fun _ _ => (), fun _ => 0, 5, 1⟩

theorem steep_regular : Regular steep := ⟨fun _ n _ => by simp [steep], fun n _ => by simp [steep], fun _ => by simp only [steep]; positivity, fun _ _ _ => by simp [steep]⟩

theorem steep_step (p : Pop Nat) (h1 : p.params.length = 2) (h2 : p.weights.length = 2) : step steep 2 1 () p = some ((), ⟨[0, 1], weights steep p [0, 1] [(), ()]⟩) := by
  have h : proposals steep p 1 [0, 1] () = some ((), [0, 1]) := by
    have h1 : (1 : ℝ) + 1 ≠ 0 := by norm_num
    simp [proposals, proposeLoop, steep, h1]
  unfold step
  rw [if_pos ⟨h1, h2⟩]
  have hc : steep.choose p.weights 2 () = ((), [0, 1]) := rfl
  simp only [hc, h]
  rfl

/-- **C115 fails.** A run in which two particles with the prior densities 1 and 2 and equal likelihoods get weights in the ratio 1 : 4: it is not a run of population Monte Carlo. -/
theorem C115_violated : ∃ (m' : Unit) (pops : List (Pop Nat)) (c : Nat) (j : Journal Nat), sample steep 2 1 1 true none () 0 none = some (m', pops, c, j) ∧
    ¬ ∃ m1 l, Chain steep 2 rule m1 m' ⟨l, List.replicate 2 (1 / (2 : ℝ))⟩ pops := by
  have hp : ∀ p : Pop Nat, p.params.length = 2 → p.weights = List.replicate 2 (1 / (2 : ℝ)) → weights steep p [0, 1] [(), ()] = [1 / 5, 4 / 5] := by
    intro p h1 h2
    obtain ⟨a, b, h3⟩ := List.length_eq_two.1 h1
    simp [weights, pmcWeights, Pmc.normalise, mixture, steep, h2, h3, List.replicate]
    have hl : 0 ≤ Real.log 2 := Real.log_nonneg (by norm_num)
    norm_num
    rw [max_eq_left (by linarith), sub_self, Real.exp_zero, Real.exp_neg, Real.exp_add, Real.exp_log (by norm_num)]
    norm_num
  refine ⟨(), [⟨[0, 1], [1 / 5, 4 / 5]⟩], 10, ⟨true, [⟨[0, 1], [1 / 5, 4 / 5]⟩], [10]⟩, ?_, ?_⟩
  · unfold sample first
    simp only [loop]
    rw [steep_step _ rfl rfl, hp _ rfl (by norm_num)]
    rfl
  · rintro ⟨m1, l, h⟩
    cases h with
    | cons _ _ _ _ _ _ hs _ =>
      obtain ⟨h1, -, m2, ws, -, hw, -, -, -, c, hc, h5⟩ := hs
      have hws : ws = [(), ()] := by
        have := congrArg Prod.snd hw
        exact this.symm
      have e0 := h5 0 0 () rfl (by rw [hws]; rfl)
      have e1 := h5 1 1 () rfl (by rw [hws]; rfl)
      obtain ⟨a, b, hl⟩ := List.length_eq_two.1 h1
      simp only at hl
      subst hl
      simp [rule, proposalDensity, steep] at e0 e1
      field_simp at e0 e1
      norm_num at e0 e1
      linarith

/-! ### The hypotheses are met -/

/-- A setting in which every perturbation succeeds at once. -/
noncomputable def easy : Env Unit Unit Nat Unit :=
  ⟨fun _ => 2, fun _ _ _ => 1, fun m => (m, 1), fun _ n m => (m, List.replicate n 0), fun _ _ m => (m, some 2), fun n m => (m, List.replicate n ()), fun _ _ => (), fun _ => 0, 5, 1⟩

theorem easy_regular : Regular easy := ⟨fun _ n _ => by simp [easy], fun n _ => by simp [easy], fun _ => by simp [easy], fun _ _ _ => by simp [easy]⟩

theorem easy_proposals (p : Pop Nat) (is : List Nat) : proposals easy p 1 is () = some ((), List.replicate is.length 2) := by
  induction is with
  | nil => rfl
  | cons i is ih =>
    have : proposeLoop easy p i 1 () = some ((), 2) := by
      simp [proposeLoop, easy]
    rw [proposals, this]
    simp only [ih, Option.map_some]
    rfl

theorem easy_loop (n steps k t c : Nat) (full : Bool) (p : Pop Nat) (j : Journal Nat) (h1 : p.params.length = n) (h2 : p.weights.length = n) :
    ∃ r, loop easy n steps 1 full k t () p c j = some r := by
  induction k generalizing t p c j with
  | zero => exact ⟨_, rfl⟩
  | succ k ih =>
    have hs : ∃ q, step easy n 1 () p = some ((), q) ∧ q.params.length = n ∧ q.weights.length = n := by
      unfold step
      rw [if_pos ⟨h1, h2⟩]
      have h3 := easy_proposals p (easy.choose p.weights n ()).2
      have h4 : (easy.choose p.weights n ()).1 = () := rfl
      simp only
      rw [h4, h3]
      exact ⟨_, rfl, by simp [easy], by simp [weights, pmcWeights, normalise, easy]⟩
    obtain ⟨q, q1, q2, q3⟩ := hs
    obtain ⟨r, hr⟩ := ih (t + 1) (c + n * easy.perParam) q (write full steps t q (c + n * easy.perParam) j) q2 q3
    rw [loop, q1]
    simp only [hr]
    exact ⟨_, rfl⟩

/-- Calls of any length with any number of particles return, the prior is flat, and a journal with one population can be restarted. -/
example (n steps : Nat) : ∃ r, sample easy n steps 1 true none () 0 none = some r := by
  unfold sample first
  exact easy_loop n steps steps 0 0 true _ _ (initial_draws easy n _).2 (by simp)

example : (∀ θ, easy.pdf θ ≠ 0 → easy.pdf θ = 2) ∧
    ∃ r, sample easy 2 3 1 true none () 0 (some ⟨true, [⟨[1, 1], [1 / 2, 1 / 2]⟩], [10]⟩) = some r := by
  refine ⟨fun _ _ => rfl, ?_⟩
  unfold sample first
  exact easy_loop 2 3 3 0 0 true _ _ rfl rfl

example : ∃ r, sample easy 1 3 1 true (some [7]) () 0 none = some r := by
  unfold sample first
  simp only [easy, List.length_singleton, Nat.one_mul, List.replicate_one, truth]
  exact easy_loop 1 3 3 0 0 true _ _ rfl rfl

end Verif.PmcLik
