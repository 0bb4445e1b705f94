import Verif.Mcmc.Adapt
import Verif.Cov.Shape
/-
C152: what the adaptation of the proposal covariance does to a chain with a normal kernel.
-/
namespace Verif.Mcmc

open Cov

variable {W : Type}

/-- What a chain with one normal kernel works with, without bounds. A state lists the values of the parameters, each an array; the models of the kernel are taken in the order of the graph. `draw c x` is
`rng.multivariate_normal` with mean `x` and covariance matrix `c`. -/
structure Normal (W : Type) where
  names : List String
  prior : W → W × List (List ℝ)
  pdf : List (List ℝ) → ℝ
  loglik : List (List ℝ) → W → W × ℝ
  unif : W → W × ℝ
  draw : Arr → List ℝ → W → W × List ℝ
  covFactor : ℝ

/-- The covariance matrix computed from the states of the burn-in (inferences.py 4417-4430, perturbationkernel.py 246-278): there are no weights; `none` if there is none, see `Cov.npCov`. -/
noncomputable def Normal.adapt (N : Normal W) (burn : List (List (List ℝ))) : Option Arr := (covArr burn none).map (acceptedArr N.covFactor)

/-- The environment of the chain (inferences.py 4232-4234, `DummyTransformer`). A transformed state is `none` if the proposal raised (a covariance matrix of the wrong shape, or one that is not finite, for
which `multivariate_normal` raises `LinAlgError`). -/
noncomputable def Normal.env (N : Normal W) : Env W (List ℝ) (Option (List (List ℝ))) (Option Arr) where
  names := N.names
  prior := N.prior
  pdf := N.pdf
  loglik := N.loglik
  tr := fun x => some (some x)
  inv := id
  jac := fun _ => some 0
  propose := fun c t w => match c, t with
    | some c, some x => ((N.draw c x.flatten w).1, update x c (N.draw c x.flatten w).2)
    | _, _ => (w, none)
  unif := N.unif
  adapt := N.adapt
  eye := fun t => t.map fun x => ⟨x.length, 1, [x.length, x.length]⟩

/-- C152: the matrix a chain of `d` parameters starts with is that of independent standard normal proposals, which is positive definite. -/
theorem C152_start (N : Normal W) (x : List (List ℝ)) : ∃ c, N.env.eye (some x) = some c ∧ c.d = x.length ∧ c.shape = [x.length, x.length] ∧ c.mat.PosDef ∧
    ∀ i j, c.mat i j = if i = j then 1 else 0 :=
  ⟨_, rfl, rfl, rfl, Matrix.PosDef.one, fun i j => Matrix.one_apply⟩

/-- C152: for states of `d > 0` numbers each, the adapted covariance matrix exists and is positive definite if and only if two of the states differ. -/
theorem C152_partial (N : Normal W) (hf : 0 ≤ N.covFactor) (burn : List (List (List ℝ))) (d : Nat) (h0 : 0 < d) (hd : ∀ x ∈ burn, x.flatten.length = d) :
    (∃ c, N.adapt burn = some c ∧ c.d = d ∧ c.shape = [d, d] ∧ c.mat.PosDef) ↔ ∃ x ∈ burn, ∃ y ∈ burn, x.flatten ≠ y.flatten := by
  have hnone : burn.length ≤ 1 → N.adapt burn = none := by
    intro hl
    have : calculateCov burn none = none := by
      by_cases hne : burn = []
      · rw [hne]; rfl
      · rw [C121_unweighted burn d hne hd]
        exact C121_violated burn _ (by refine (List.length_filter_le _ _).trans ?_; simpa using hl)
    simp [Normal.adapt, covArr, this]
  by_cases hl : burn.length ≤ 1
  · constructor
    · rintro ⟨c, hc, -⟩; rw [hnone hl] at hc; cases hc
    · rintro ⟨x, hx, y, hy, hxy⟩
      rcases burn with _ | ⟨a, _ | ⟨b, l⟩⟩
      · cases hx
      · rw [List.mem_singleton] at hx hy
        rw [hx, hy] at hxy
        exact absurd rfl hxy
      · simp at hl
  · have hne : burn ≠ [] := by rintro rfl; simp at hl
    have hfil : (List.replicate burn.length (1 : ℝ)).filter (0 < ·) = List.replicate burn.length 1 := by
      rw [List.filter_eq_self]
      intro a ha
      rw [(List.mem_replicate.1 ha).2]; simp
    obtain ⟨C, hC, hiff⟩ := C121_accepted burn (List.replicate burn.length 1) d hd (by simp) (fun a ha => by rw [(List.mem_replicate.1 ha).2]; norm_num)
      (by rw [hfil]; simp; omega) N.covFactor hf
    rw [← C121_unweighted burn d hne hd] at hC
    have had : N.adapt burn = some (acceptedArr N.covFactor ⟨d, C, if d = 1 then [] else [d, d]⟩) := by simp [Normal.adapt, covArr, hC]
    have hshape : (acceptedArr N.covFactor ⟨d, C, if d = 1 then [] else [d, d]⟩).shape = [d, d] := by
      simp only [acceptedArr]
      by_cases h1 : d = 1
      · simp [h1]
      · rw [if_neg (by intro hc; exact h1 (Nat.eq_one_of_mul_eq_one_right hc)), if_neg h1]
    constructor
    · rintro ⟨c, hc, -, -, hpd⟩
      rw [had, Option.some.injEq] at hc
      subst hc
      obtain ⟨p, hp, q, hq, -, -, hpq⟩ := hiff.1 ⟨h0, hpd⟩
      exact ⟨p.2, (List.of_mem_zip hp).2, q.2, (List.of_mem_zip hq).2, hpq⟩
    · rintro ⟨x, hx, y, hy, hxy⟩
      refine ⟨_, had, rfl, hshape, ?_⟩
      have hz : ∀ x ∈ burn, ((1 : ℝ), x) ∈ (List.replicate burn.length (1 : ℝ)).zip burn := by
        intro x hx
        obtain ⟨i, hi, rfl⟩ := List.mem_iff_getElem.1 hx
        refine List.mem_iff_getElem.2 ⟨i, by simpa using hi, by simp⟩
      exact (hiff.2 ⟨_, hz x hx, _, hz y hy, by norm_num, by norm_num, hxy⟩).2

theorem npCov_const {d n : Nat} (v : Fin d → ℝ) (hn : 2 ≤ n) : npCov (List.replicate n v) none = some 0 := by
  have hpos : (0 : ℝ) < n := by exact_mod_cast (by omega : 0 < n)
  unfold npCov
  simp only [Option.getD_none, List.length_replicate, List.map_replicate]
  have h1 : ¬ ((List.replicate n (1 : ℝ)).length ≠ n ∨ (∃ a ∈ List.replicate n (1 : ℝ), a < 0) ∨ (List.replicate n (1 : ℝ)).sum = 0) := by
    rintro (h | ⟨a, ha, h⟩ | h)
    · simp at h
    · rw [(List.mem_replicate.1 ha).2] at h; norm_num at h
    · simp at h; omega
  have h2 : ¬ ((n : ℝ) - 1 ≤ 0) := by
    have : (2 : ℝ) ≤ n := by exact_mod_cast hn
    linarith
  rw [List.length_replicate] at h1
  rw [if_neg (by simpa using h1), if_neg h2]
  congr 1
  ext i j
  have havg : ∀ c : ℝ, average (List.replicate n 1) (List.replicate n c) = c := by
    intro c
    rw [average]
    simp [List.zipWith_replicate]
    field_simp
  simp [havg, List.zipWith_replicate]

theorem adapt_const (N : Normal W) (x : List (List ℝ)) (n : Nat) (hn : 2 ≤ n) :
    ∃ c, N.adapt (List.replicate n x) = some c ∧ c.mat = 0 ∧ c.shape = [x.flatten.length, x.flatten.length] := by
  have hne : List.replicate n x ≠ [] := by intro h; have := congrArg List.length h; simp at this; omega
  have hC : calculateCov (List.replicate n x) none = some ⟨x.flatten.length, 0⟩ := by
    rw [calculateCov_eq _ _ x.flatten.length hne (fun b hb => by rw [(List.mem_replicate.1 hb).2]), List.map_replicate, npCov_const _ hn]
    rfl
  refine ⟨acceptedArr N.covFactor ⟨x.flatten.length, 0, if x.flatten.length = 1 then [] else [x.flatten.length, x.flatten.length]⟩, by simp [Normal.adapt, covArr, hC], ?_, ?_⟩
  · show acceptedCov N.covFactor 0 = 0
    rw [acceptedCov_form]
    simp
  · simp only [acceptedArr]
    by_cases h1 : x.flatten.length = 1
    · simp [h1]
    · rw [if_neg (by intro hc; exact h1 (Nat.eq_one_of_mul_eq_one_right hc)), if_neg h1]

theorem propose_zero (N : Normal W) (hdeg : ∀ c x w, c.mat = 0 → (N.draw c x w).2 = x) (c : Arr) (hc : c.mat = 0) (x y : List (List ℝ)) (t : Option (List (List ℝ))) (w : W)
    (ht : N.env.tr x = some t ∨ N.env.inv t = some x) (h : N.env.inv (N.env.propose (some c) t w).2 = some y) : y = x := by
  have ht : t = some x := by
    rcases ht with h | h
    · exact (Option.some.inj h).symm
    · exact h
  subst ht
  have h : update x c (N.draw c x.flatten w).2 = some y := h
  rw [hdeg c _ w hc, update] at h
  split at h
  · obtain ⟨a1, a2⟩ := Kernel.C26_blocks (x.map List.length) x.flatten (by rw [List.length_flatten])
    rw [← Option.some.inj h]
    exact List.eq_iff_flatten_eq.2 ⟨a1, a2⟩
  · cases h

/-- The state before step `k` of a run. -/
theorem states_stay {α : Type} (r : Run α) (x : List α) (k : Nat) (m : Move α) (hx : (r.start.θ :: path r)[k]? = some x) (hm : r.moves[k]? = some m) (hp : m.moved = true → m.prop = x) :
    (r.start.θ :: path r)[k + 1]? = some x := by
  rcases r with ⟨b, start, moves⟩
  simp only [path] at hx ⊢
  simp only at hm
  induction moves generalizing start k with
  | nil => simp at hm
  | cons m0 ms ih =>
    cases k with
    | zero =>
      simp only [List.getElem?_cons_zero, Option.some.injEq] at hx hm
      subst hx hm
      simp only [positions, List.map_cons, List.getElem?_cons_succ, List.getElem?_cons_zero, Option.some.injEq, next]
      split
      · rename_i h; exact hp h
      · rfl
    | succ k =>
      simp only [positions, List.map_cons, List.getElem?_cons_succ] at hx hm ⊢
      exact ih k (next start m0) hx hm

/-- C152 fails: if the chain has not moved before the first adaptation (after step `i`, whose proposal is in the support of the prior), the covariance matrix becomes zero and the chain never moves
again. Every state in the journal is the starting point, whatever the model, the data and the random numbers are. The hypothesis says that a normal distribution with covariance zero is its mean. -/
theorem C152_stuck_violated (N : Normal W) (hdeg : ∀ c x w, c.mat = 0 → (N.draw c x w).2 = x) (a : Args (List ℝ) (Option Arr)) (i : Nat) (hi : a.interval = some i) (h2 : 2 ≤ i)
    (hb : i ≤ a.burnin) (r : Run (List ℝ)) (c d : Option Arr) (h : Adapts N.env a (fun m => N.pdf m.prop = 0) r c d)
    (hstay : ∀ k < i, ∀ m, r.moves[k]? = some m → m.moved = false) (hlast : ∀ m, r.moves[i - 1]? = some m → N.pdf m.prop ≠ 0) :
    (∀ x ∈ path r, x = r.start.θ) ∧ ∃ z, d = some z ∧ z.mat = 0 := by
  obtain ⟨covs, hs, hend⟩ := h.covs
  have hbr : r.burnin = a.burnin := h.ok.burnin
  have hlen : r.moves.length = a.burnin + a.n := h.ok.length
  -- the states up to the first adaptation
  have hfirst : ∀ k, k ≤ i → (r.start.θ :: path r)[k]? = some r.start.θ := by
    intro k
    induction k with
    | zero => simp
    | succ k ih =>
      intro hk
      have hm : r.moves[k]? = some (r.moves[k]'(by omega)) := List.getElem?_eq_getElem (by omega)
      refine states_stay r r.start.θ k _ (ih (by omega)) hm ?_
      intro h
      rw [hstay k (by omega) _ hm] at h
      cases h
  have htake : ∀ n, (∀ k, k ≤ n → (r.start.θ :: path r)[k]? = some r.start.θ) → n ≤ r.moves.length → (path r).take n = List.replicate n r.start.θ := by
    intro n hn hl
    apply List.ext_getElem?
    intro k
    by_cases hk : k < n
    · rw [List.getElem?_take_of_lt hk, List.getElem?_replicate, if_pos hk]
      have := hn (k + 1) (by omega)
      simpa using this
    · rw [List.getElem?_eq_none (by simp; omega), List.getElem?_eq_none (by simp; omega)]
  -- from then on
  have hmain : ∀ k, i ≤ k → k ≤ r.moves.length → (∀ l, l ≤ k → (r.start.θ :: path r)[l]? = some r.start.θ) ∧ ∃ z, covs[k]? = some (some z) ∧ z.mat = 0 := by
    intro k hik
    induction k, hik using Nat.le_induction with
    | base =>
      intro hl
      refine ⟨hfirst, ?_⟩
      have hm : r.moves[i - 1]? = some (r.moves[i - 1]'(by omega)) := List.getElem?_eq_getElem (by omega)
      have had : AdaptsAt r.burnin a.interval (i - 1) := ⟨by omega, i, hi, by rw [Nat.sub_add_cancel (by omega)]⟩
      have := hs.adapted (i - 1) _ hm had (hlast _ hm)
      rw [Nat.sub_add_cancel (by omega), htake i hfirst hl] at this
      obtain ⟨z, hz, hz0, -⟩ := adapt_const N r.start.θ i h2
      exact ⟨z, by rw [this]; exact congrArg some hz, hz0⟩
    | succ k hik ih =>
      intro hl
      obtain ⟨h1, z, hz, hz0⟩ := ih (by omega)
      have hm : r.moves[k]? = some (r.moves[k]'(by omega)) := List.getElem?_eq_getElem (by omega)
      obtain ⟨t, w, ht, hp⟩ := hs.drawn k _ _ _ hm hz (h1 k le_rfl)
      have hprop := propose_zero N hdeg z hz0 _ _ t w ht hp
      have hnext := states_stay r r.start.θ k _ (h1 k le_rfl) hm fun _ => hprop
      have hall : ∀ l, l ≤ k + 1 → (r.start.θ :: path r)[l]? = some r.start.θ := by
        intro l hlk
        rcases Nat.lt_or_ge l (k + 1) with h | h
        · exact h1 l (by omega)
        · rw [show l = k + 1 by omega]; exact hnext
      refine ⟨hall, ?_⟩
      by_cases had : AdaptsAt r.burnin a.interval k ∧ N.pdf (r.moves[k]'(by omega)).prop ≠ 0
      · have := hs.adapted k _ hm had.1 had.2
        rw [htake (k + 1) hall hl] at this
        obtain ⟨z', hz', hz0', -⟩ := adapt_const N r.start.θ (k + 1) (by omega)
        exact ⟨z', by rw [this]; exact congrArg some hz', hz0'⟩
      · have := hs.kept k _ hm (by
          by_cases ha : AdaptsAt r.burnin a.interval k
          · exact .inr (not_not.1 fun hne => had ⟨ha, hne⟩)
          · exact .inl ha)
        exact ⟨z, by rw [this, hz], hz0⟩
  obtain ⟨h1, z, hz, hz0⟩ := hmain r.moves.length (by omega) le_rfl
  refine ⟨?_, ?_⟩
  · intro x hx
    obtain ⟨k, hk, rfl⟩ := List.mem_iff_getElem.1 hx
    have hk' : k < r.moves.length := by rw [← path_length r]; exact hk
    have := h1 (k + 1) (by omega)
    rw [List.getElem?_cons_succ, List.getElem?_eq_getElem hk, Option.some.injEq] at this
    exact this
  · have := hend r.moves.length (by omega) (by omega)
    rw [hz, Option.some.injEq] at this
    exact ⟨z, this.symm, hz0⟩

/-- The same for a call of `sample` that returns: it makes a run as in C52, and if all proposals before the first adaptation are rejected and the last of them is in the support of the prior, all states in the
journal are equal. -/
theorem C152_journal_violated (N : Normal W) (hdeg : ∀ c x w, c.mat = 0 → (N.draw c x w).2 = x) (a : Args (List ℝ) (Option Arr)) (i : Nat) (hi : a.interval = some i) (h2 : 2 ≤ i) (hb : i ≤ a.burnin)
    (w w' : W) (counter : Nat) (j : Jrn (List ℝ) (Option Arr)) (h : fresh N.env a w counter = some (w', j)) :
    ∃ r : Run (List ℝ), r.Ok N.env a ∧ j.chain = r.states ∧
      ((∀ k < i, ∀ m, r.moves[k]? = some m → m.moved = false) → (∀ m, r.moves[i - 1]? = some m → N.pdf m.prop ≠ 0) → ∀ x ∈ j.chain, x = r.start.θ) := by
  obtain ⟨r, c, h1, h3, -⟩ := C135_fresh_partial N.env a w w' counter j h
  refine ⟨r, h3.ok, h1, fun hs hl x hx => ?_⟩
  refine (C152_stuck_violated N hdeg a i hi h2 hb r c j.cov h3 hs hl).1 x ?_
  rw [h1, Run.states, List.map_drop] at hx
  exact List.mem_of_mem_drop hx

/-- C152 fails with `adapt_proposal_cov_interval=1`: a call with two or more steps can only return if its first proposal is outside of the support of the prior, since there is no covariance matrix of one state. -/
theorem C152_interval_violated (N : Normal W) (a : Args (List ℝ) (Option Arr)) (hi : a.interval = some 1) (hb : 0 < a.burnin) (h2 : 2 ≤ a.burnin + a.n) (r : Run (List ℝ)) (c d : Option Arr)
    (h : Adapts N.env a (fun m => N.pdf m.prop = 0) r c d) : ∃ m, r.moves[0]? = some m ∧ N.pdf m.prop = 0 := by
  obtain ⟨covs, hs, -⟩ := h.covs
  have hbr : r.burnin = a.burnin := h.ok.burnin
  have hlen : r.moves.length = a.burnin + a.n := h.ok.length
  have hm : r.moves[0]? = some (r.moves[0]'(by omega)) := List.getElem?_eq_getElem (by omega)
  refine ⟨_, hm, ?_⟩
  by_contra hne
  have had : AdaptsAt r.burnin a.interval 0 := ⟨by omega, 1, hi, by simp⟩
  have h1 := hs.adapted 0 _ hm had hne
  have hpl : (path r).length = r.moves.length := path_length r
  obtain ⟨x, l, hx⟩ := List.exists_cons_of_ne_nil (List.ne_nil_of_length_pos (by omega : 0 < (path r).length))
  have hnone : N.env.adapt ((path r).take 1) = none := by
    have : calculateCov [x] none = none := by
      rw [C121_unweighted [x] x.flatten.length (by simp) (by simp)]
      exact C121_violated [x] _ (by refine (List.length_filter_le _ _).trans ?_; simp)
    simp [Normal.env, hx, Normal.adapt, covArr, this]
  rw [hnone] at h1
  have hm1 : r.moves[1]? = some (r.moves[1]'(by omega)) := List.getElem?_eq_getElem (by omega)
  obtain ⟨t, w, -, hp⟩ := hs.drawn 1 _ _ x hm1 h1 (by simp [hx])
  have : N.env.propose none t w = (w, none) := rfl
  rw [this] at hp
  cases hp

/-! ### A run -/

open Classical in
/-- A sampler whose proposals are one larger than the state, unless the covariance is zero; the starting point is much more likely than anything else. -/
noncomputable def exNormal : Normal Unit where
  names := ["theta"]
  prior := fun w => (w, [[0]])
  pdf := fun _ => 1
  loglik := fun x w => (w, if x = [[0]] then 0 else -1)
  unif := fun w => (w, 1 / 2)
  draw := fun c x w => (w, if c.mat = 0 then x else x.map (· + 1))
  covFactor := 1

theorem exNormal_rejects : accepts (1 / 2) 0 0 (-1) 0 1 1 = false := by
  have h : Real.exp (-1) ≤ 1 / 2 := by
    rw [Real.exp_neg]
    have : (2 : ℝ) ≤ Real.exp 1 := by have := Real.add_one_le_exp (1 : ℝ); linarith
    rw [one_div]
    exact inv_anti₀ (by norm_num) this
  simp only [accepts, alpha, if_neg (one_ne_zero : (1 : ℝ) ≠ 0)]
  simp only [sub_self, zero_add, sub_zero, mul_one, div_one]
  exact decide_eq_false (not_lt.2 h)

theorem exNormal_accepts : accepts (1 / 2) 0 0 0 0 1 1 = true := by
  simp [accepts, alpha]
  norm_num

/-- One state of the run below: everything so far was rejected. -/
noncomputable def exState (c : Option Arr) (burn : List (List (List ℝ))) (sims : Nat) : State Unit (List ℝ) (Option (List (List ℝ))) (Option Arr) :=
  ⟨(), [[0]], some [[0]], 0, 1, 0, c, [], burn, 0, sims⟩

theorem exNormal_step (c : Arr) (hc : c.mat ≠ 0) (hs : c.shape = [1, 1]) (k : Nat) (hk : k < 2) (burn : List (List (List ℝ))) (sims : Nat) :
    step exNormal.env 2 (some 2) k (exState (some c) burn sims) =
      some (exState (if (k + 1) % 2 = 0 then exNormal.adapt (burn ++ [[[0]]]) else some c) (burn ++ [[[0]]]) (sims + 1)) := by
  have hp : exNormal.env.propose (some c) (some [[0]]) () = ((), some [[1]]) := by
    show ((), update [[0]] c (exNormal.draw c [0] ()).2) = _
    have : (exNormal.draw c [0] ()).2 = [1] := by simp [exNormal, hc]
    rw [this, update, if_pos ⟨by simp, by simpa using hs⟩]
    rfl
  have hne : ¬ ([[1]] : List (List ℝ)) = [[0]] := by simp
  unfold step
  simp only [exState, hp]
  show (if (1 : ℝ) = 0 then _ else _) = _
  rw [if_neg one_ne_zero]
  have hll : exNormal.env.loglik [[1]] () = ((), -1) := by simp [Normal.env, exNormal]
  have hu : exNormal.env.unif () = ((), 1 / 2) := rfl
  have hpdf : exNormal.env.pdf [[1]] = 1 := rfl
  have hj : exNormal.env.jac [[1]] = some 0 := rfl
  simp only [hll, hu, hpdf, hj, exNormal_rejects]
  simp only [Bool.false_eq_true, if_false, State.record, if_neg (by omega : ¬ k ≥ 2), State.adaptCov, if_neg (by norm_num : ¬ (2 = 0))]
  split <;> rfl

/-- A call with a burn-in of two steps and adaptation after two steps: both proposals are rejected, and from then on the chain stays where it is; every later "move" is accepted, so that the journal reports
an acceptance rate of one. -/
theorem C152_run : ∃ j, fresh exNormal.env ⟨1, 2, some (some ⟨1, 1, [1, 1]⟩), some [[0]], some 2⟩ () 0 = some ((), j) ∧ j.chain = [[[0]]] ∧ j.rates = [1] ∧ ∃ z, j.cov = some z ∧ z.mat = 0 := by
  obtain ⟨z, hz, hz0, hzs⟩ := adapt_const exNormal [[0]] 2 le_rfl
  have hstart : begin_ exNormal.env () [[0]] 0 (some (some ⟨1, 1, [1, 1]⟩)) [] 0 1 = some (exState (some ⟨1, 1, [1, 1]⟩) [] 1) := rfl
  have h0 := exNormal_step ⟨1, 1, [1, 1]⟩ one_ne_zero rfl 0 (by omega) [] 1
  have h1 := exNormal_step ⟨1, 1, [1, 1]⟩ one_ne_zero rfl 1 (by omega) [[[0]]] 2
  have e : ([[[0]]] ++ [[[0]]] : List (List (List ℝ))) = List.replicate 2 [[0]] := rfl
  rw [if_neg (by norm_num)] at h0
  rw [if_pos (by norm_num), e, hz] at h1
  have h2 : ∃ s : State Unit (List ℝ) (Option (List (List ℝ))) (Option Arr), step exNormal.env 2 (some 2) 2 (exState (some z) (List.replicate 2 [[0]]) 3) = some s ∧ s.chain = [[[0]]] ∧ s.accepted = 1 ∧
      s.cov = some z := by
    have hp : exNormal.env.propose (some z) (some [[0]]) () = ((), some [[0]]) := by
      show ((), update [[0]] z (exNormal.draw z [0] ()).2) = _
      have : (exNormal.draw z [0] ()).2 = [0] := by simp [exNormal, hz0]
      rw [this, update, if_pos ⟨by simp, by simpa using hzs⟩]
      rfl
    unfold step
    simp only [exState, hp]
    refine ⟨⟨(), [[0]], some [[0]], 0, 1, 0, some z, [[[0]]], List.replicate 2 [[0]], 0 + 1, 3 + 1⟩, ?_, ?_⟩
    · show (if (1 : ℝ) = 0 then _ else _) = some _
      rw [if_neg one_ne_zero]
      have hll : exNormal.env.loglik [[0]] () = ((), 0) := by simp [Normal.env, exNormal]
      have hu : exNormal.env.unif () = ((), 1 / 2) := rfl
      have hpdf : exNormal.env.pdf [[0]] = 1 := rfl
      have hj : exNormal.env.jac [[0]] = some 0 := rfl
      simp only [hll, hu, hpdf, hj, exNormal_accepts]
      simp only [if_true, State.record, if_pos (le_refl 2 : 2 ≥ 2), State.adaptCov]
      rfl
    · exact ⟨rfl, by simp, rfl⟩
  obtain ⟨s, h2, hs1, hs2, hs3⟩ := h2
  have hw : s.w = () := rfl
  have hll : exNormal.env.loglik [[0]] () = ((), 0) := by simp [Normal.env, exNormal]
  have hr : List.range (2 + 1) = [0, 1, 2] := rfl
  refine ⟨⟨s.chain, asDict (Journal.namedColumns ["theta"] s.chain), List.replicate 1 1, [s.accepted / (1 : Nat)], [s.sims], 1, s.ll, s.cov⟩, ?_, hs1, ?_, ?_⟩
  · unfold fresh
    simp only [initial, hll, if_neg (by norm_num : ¬ (2 = 0))]
    rw [hstart]
    simp only [hr, loop, h0, List.nil_append, h1, h2, if_neg (one_ne_zero : (1 : Nat) ≠ 0)]
    rfl
  · simp [hs2]
  · exact ⟨z, hs3, hz0⟩

end Verif.Mcmc
