import Verif.Subsim.Props
import Mathlib.Tactic.IntervalCases
/-
C105-C109: where `ABCsubsim` departs from subset simulation.
-/
namespace Verif.Subsim

open Verif.Pmc (Pop)
open Verif.Smc (propose)
open Verif.Smc.Spec (Proposal)
open Verif.Rsmc.Spec (metropolis)
open Verif.Subsim.Spec

variable {W Θ Y M : Type} (env : Env W Θ Y M) (c : Config)

/-! ### C105: proposals and detailed balance -/

/-- Probability flow of a move from `θ` to `θ'` in a chain that proposes from `base`: prior density at `θ`, density of the proposal, probability of acceptance. The distances at both ends are below the
annealing parameter. -/
noncomputable def flow (pdf : Θ → ℝ) (q : Θ → Θ → ℝ) (base θ θ' : Θ) : ℝ := pdf θ * q base θ' * metropolis pdf q θ θ'

/-- C105, what holds: the flows of a move and of the move back agree exactly if the kernel satisfies this equation; it does if proposals are made from the current state, whatever the kernel. -/
theorem C105_partial (pdf : Θ → ℝ) (q : Θ → Θ → ℝ) (base θ θ' : Θ) (hp : 0 < pdf θ) (hp' : 0 < pdf θ') (hq : 0 < q θ θ') (hq' : 0 < q θ' θ) :
    (flow pdf q base θ θ' = flow pdf q base θ' θ ↔ q base θ' * q θ' θ = q base θ * q θ θ') ∧ flow pdf q θ θ θ' = flow pdf q θ' θ' θ := by
  have key : ∀ a b : Θ, 0 < pdf a → 0 < q a b → ∀ z, pdf a * z * metropolis pdf q a b = z / q a b * min (pdf a * q a b) (pdf b * q b a) := by
    intro a b h1 h2 z
    unfold metropolis
    have : min (pdf a * q a b) (pdf b * q b a) = pdf a * q a b * min 1 (pdf b * q b a / (pdf a * q a b)) := by
      rw [mul_min_of_nonneg _ _ (by positivity), mul_one]
      congr 1
      field_simp
    rw [this]
    field_simp
  have hm : 0 < min (pdf θ * q θ θ') (pdf θ' * q θ' θ) := lt_min (by positivity) (by positivity)
  constructor
  · unfold flow
    rw [key θ θ' hp hq, key θ' θ hp' hq', min_comm (pdf θ' * _) _, mul_left_inj' hm.ne', div_eq_div_iff hq.ne' hq'.ne']
  · unfold flow
    rw [key θ θ' hp hq, key θ' θ hp' hq', min_comm (pdf θ' * _) _, div_self hq.ne', div_self hq'.ne']

/-- C105 is violated: for symmetric kernels the flows agree only if both states are proposed with the same density from `base`. -/
theorem C105_violated (pdf : Θ → ℝ) (q : Θ → Θ → ℝ) (base θ θ' : Θ) (hp : 0 < pdf θ) (hp' : 0 < pdf θ') (hq : 0 < q θ θ') (hsymm : q θ θ' = q θ' θ) (hne : q base θ ≠ q base θ') :
    flow pdf q base θ θ' ≠ flow pdf q base θ' θ := by
  rw [ne_eq, (C105_partial pdf q base θ θ' hp hp' hq (by rwa [← hsymm])).1, ← hsymm, mul_left_inj' hq.ne']
  exact fun h => hne h.symm

/-- A case of C105_violated: two values, a symmetric kernel that stays with probability 3/4, and proposals from the value where the chain has started. -/
example : flow (fun _ : Bool => 1 / 2) (fun a b => if a = b then 3 / 4 else 1 / 4) false false true ≠ flow (fun _ => 1 / 2) (fun a b => if a = b then 3 / 4 else 1 / 4) false true false :=
  C105_violated _ _ _ _ _ (by norm_num) (by norm_num) (by norm_num) (by norm_num) (by norm_num)

/-- The proposals of a run: in every step after the first, the chain that starts from particle `i` makes all its proposals from particle `i` of the first population, whatever that particle and the current
state of the chain are now. -/
theorem C105_base (fuel : Nat) (start tuneStart : Nat → List W) (s : State Θ M) (hs : 0 < c.steps) (h : run env c fuel start tuneStart = some s) (k : Nat) (o a : Rec Θ M × ℝ)
    (ho : s.hist[k]? = some o) (ha : s.hist[k + 1]? = some a) : ∃ (r0 : Rec Θ M × ℝ) (chains : List (List (Θ × ℝ))), s.hist[0]? = some r0 ∧ chains.length = c.n / c.length ∧
      (chains.flatten.Perm (a.1.params.zip a.1.distances)) ∧
      ∀ (i : Nat) (out : List (Θ × ℝ)), chains[i]? = some out → ∃ b θ w, r0.1.params[i]? = some b ∧ o.1.params[i]? = some θ ∧ ChainTask env o.1.covs o.2 c.length b θ w out := by
  obtain ⟨h1, -, -, h2, -⟩ := C104_run env c fuel start tuneStart s hs h
  have gen : ∀ (base : List Θ) (l : List (Stage Θ M)) (stop : Bool), History env c start tuneStart base l stop →
      (∃ x, l[0]? = some x ∧ base = x.pop.map Prod.fst) ∧ ∀ k o a, l[k]? = some o → l[k + 1]? = some a → ∃ chains : List (List (Θ × ℝ)), chains.length = c.n / c.length ∧ (chains.flatten.Perm a.pop) ∧
        ∀ (i : Nat) (out : List (Θ × ℝ)), chains[i]? = some out → ∃ b θ w, base[i]? = some b ∧ (o.pop.map Prod.fst)[i]? = some θ ∧ ChainTask env o.covs o.anneal c.length b θ w out := by
    intro base l stop hH
    induction hH with
    | first outs a x stop h1 h2 h3 h4 h5 h6 h7 h8 h9 h10 h11 =>
      refine ⟨⟨a, rfl, rfl⟩, ?_⟩
      intro k o b _ hb
      simp at hb
    | step base h o a chains θ0 x stop h0 h1 h2 h3 h4 h5 h6 h7 h8 h9 h10 ih =>
      obtain ⟨⟨x, hx, hb⟩, ih⟩ := ih
      refine ⟨⟨x, by rw [List.getElem?_append_left (by simp)]; exact hx, hb⟩, ?_⟩
      intro k o' a' ho' ha'
      rcases Nat.lt_trichotomy (k + 1) (h ++ [o]).length with hlt | heq | hgt
      · rw [List.getElem?_append_left (by omega)] at ho' ha'
        exact ih k o' a' ho' ha'
      · have hk : k = h.length := by simpa using heq
        subst hk
        rw [heq, List.getElem?_concat_length, Option.some.injEq] at ha'
        rw [List.getElem?_append_left (by simp), List.getElem?_concat_length, Option.some.injEq] at ho'
        subst ha' ho'
        refine ⟨chains, h1, h4.1.symm, ?_⟩
        intro i out hi
        have hil : i < (start (h.length + 1)).length := by
          have := (List.getElem?_eq_some_iff.1 hi).1
          omega
        obtain ⟨b, e, p1, p2, p3⟩ := h3 i out _ hi (List.getElem?_eq_getElem hil)
        exact ⟨b, e.1, _, p1, by rw [List.getElem?_map, p2]; rfl, p3⟩
      · rw [List.getElem?_eq_none (by simp at hgt ⊢; omega)] at ha'; cases ha'
  obtain ⟨⟨x, hx, hb⟩, hg⟩ := gen _ _ _ h1
  rw [List.getElem?_map, Option.map_eq_some_iff] at hx
  obtain ⟨r0, hr0, rfl⟩ := hx
  obtain ⟨chains, q1, q2, q3⟩ := hg k (stageOf o) (stageOf a) (by rw [List.getElem?_map, ho]; rfl) (by rw [List.getElem?_map, ha]; rfl)
  have hfst : ∀ e ∈ s.hist, (stageOf e).pop.map Prod.fst = e.1.params := fun e he => List.map_fst_zip (by rw [(h2 e he).1])
  rw [hfst r0 (List.mem_of_getElem? hr0)] at hb
  rw [hfst o (List.mem_of_getElem? ho), hb] at q3
  exact ⟨r0, chains, hr0, q1, q2, q3⟩

/-! ### C106: the covariance matrices in the journal -/

theorem history_covs (start tuneStart : Nat → List W) (base : List Θ) (h : List (Stage Θ M)) (stop : Bool) (hH : History env c start tuneStart base h stop) :
    ∃ x, h[0]? = some x ∧ ∀ k a, h[k]? = some a → ∃ f : M → M,
      a.covs = (List.replicate (2 ^ k) ((env.cov ⟨x.pop.map Prod.fst, List.replicate c.n 1⟩).map f)).flatten := by
  have tuned : ∀ (covs covs' : List M) (an : ℝ) (b θ : Θ) (st : List W), Tuned env c covs an b θ st covs' → ∃ f : M → M, covs' = covs.map f := by
    rintro covs covs' an b θ st ⟨-, ⟨i, w, -, -, -, h⟩ | ⟨-, h⟩⟩
    · exact ⟨_, h⟩
    · exact ⟨id, by simp [h]⟩
  induction hH with
  | first outs a x stop h1 h2 h3 h4 h5 h6 h7 h8 h9 h10 h11 =>
    refine ⟨a, rfl, ?_⟩
    intro k b hb
    match k with
    | 0 =>
      simp only [List.getElem?_cons_zero, Option.some.injEq] at hb
      subst hb
      obtain ⟨f, hf⟩ := tuned _ _ _ _ _ _ h9
      exact ⟨f, by simp [hf]⟩
    | k + 1 => simp at hb
  | step base h o a chains θ0 x stop h0 h1 h2 h3 h4 h5 h6 h7 h8 h9 h10 ih =>
    obtain ⟨x, hx, ih⟩ := ih
    refine ⟨x, by rw [List.getElem?_append_left (by simp)]; exact hx, ?_⟩
    intro k b hb
    rcases Nat.lt_trichotomy k (h ++ [o]).length with hlt | heq | hgt
    · rw [List.getElem?_append_left hlt] at hb; exact ih k b hb
    · subst heq
      rw [List.getElem?_concat_length, Option.some.injEq] at hb
      subst hb
      obtain ⟨f, hf⟩ := ih h.length o (by simp)
      obtain ⟨g, hg⟩ := tuned _ _ _ _ _ _ h8
      refine ⟨g ∘ f, ?_⟩
      have : (List.replicate (2 ^ (h ++ [o]).length) ((env.cov ⟨x.pop.map Prod.fst, List.replicate c.n 1⟩).map (g ∘ f))).flatten =
          ((List.replicate (2 ^ h.length) ((env.cov ⟨x.pop.map Prod.fst, List.replicate c.n 1⟩).map f)).flatten ++
            (List.replicate (2 ^ h.length) ((env.cov ⟨x.pop.map Prod.fst, List.replicate c.n 1⟩).map f)).flatten).map g := by
        rw [← List.flatten_append, List.replicate_append_replicate, List.map_flatten, List.map_replicate, List.map_map, List.length_append, List.length_singleton]
        congr 2
        ring
      rw [this, hg, hf]
    · rw [List.getElem?_eq_none (by simp at hgt ⊢; omega)] at hb; cases hb

/-- C106, what holds: the first population comes with one covariance matrix for each kernel. -/
theorem C106_partial (fuel : Nat) (start tuneStart : Nat → List W) (s : State Θ M) (hs : 0 < c.steps) (h : run env c fuel start tuneStart = some s) (K : Nat) (hK : ∀ p, (env.cov p).length = K)
    (r : Rec Θ M) (anneal : ℝ) (hr : s.hist[0]? = some (r, anneal)) : r.covs.length = K := by
  obtain ⟨h1, -, -, -, -⟩ := C104_run env c fuel start tuneStart s hs h
  obtain ⟨x, hx, hk⟩ := history_covs env c start tuneStart _ _ _ h1
  obtain ⟨f, hf⟩ := hk 0 (stageOf (r, anneal)) (by rw [List.getElem?_map, hr]; rfl)
  simp only [stageOf] at hf
  rw [hf]
  simp [hK]

/-- C106 is violated in every run of more than one step: population `k`, counting from zero, comes with `2 ^ k` times as many matrices as there are kernels. -/
theorem C106_violated (fuel : Nat) (start tuneStart : Nat → List W) (s : State Θ M) (hs : 0 < c.steps) (h : run env c fuel start tuneStart = some s) (K : Nat) (hK : ∀ p, (env.cov p).length = K)
    (k : Nat) (r : Rec Θ M) (anneal : ℝ) (hr : s.hist[k]? = some (r, anneal)) : r.covs.length = 2 ^ k * K ∧ (0 < K → 0 < k → r.covs.length ≠ K) := by
  obtain ⟨h1, -, -, -, -⟩ := C104_run env c fuel start tuneStart s hs h
  obtain ⟨x, hx, hk⟩ := history_covs env c start tuneStart _ _ _ h1
  obtain ⟨f, hf⟩ := hk k (stageOf (r, anneal)) (by rw [List.getElem?_map, hr]; rfl)
  simp only [stageOf] at hf
  have hl : r.covs.length = 2 ^ k * K := by rw [hf]; simp [hK]
  refine ⟨hl, fun h1 h2 h3 => ?_⟩
  rw [hl] at h3
  have : 2 ≤ 2 ^ k := by
    calc 2 = 2 ^ 1 := rfl
      _ ≤ 2 ^ k := Nat.pow_le_pow_right (by norm_num) h2
  nlinarith

/-! ### C107: the choice of the covariance matrices -/

/-- The rate of accepted moves that the matrices `covs` give in this chain is between 30 and 50 per cent. -/
def RateOk (covs : List M) (anneal : ℝ) (base θ : Θ) (w : W) : Prop :=
  ∃ l, Chain env covs anneal base w θ l ∧ l.length = c.length ∧ (3 / 10 : ℝ) ≤ (l.filter (·.ok)).length / (l.length : ℝ) ∧ ((l.filter (·.ok)).length : ℝ) / (l.length : ℝ) ≤ 5 / 10

/-- C107, what holds: with chains of length ten, if the first worker's matrices, those with scale one, are chosen, then they have an acceptable rate. -/
theorem C107_partial (hc : c.length = 10) (hscale : ∀ m, env.scale 0 m = m) (covs : List M) (anneal : ℝ) (base θ : Θ) (w : W) (st : List W) (covs' : List M)
    (h : Tuned env c covs anneal base θ (w :: st) covs') (hw : Acceptable env c covs anneal base θ w) : covs' = covs ∧ RateOk env c covs' anneal base θ w := by
  have hcovs : covs' = covs := by
    obtain ⟨-, ⟨i, v, h1, h2, h3, h4⟩ | ⟨h1, h2⟩⟩ := h
    · match i with
      | 0 => rw [h4, show env.scale 0 = id from funext hscale, List.map_id]
      | i + 1 => exact absurd hw (h3 0 w (by omega) rfl)
    · exact absurd hw (h1 w (by simp))
  refine ⟨hcovs, ?_⟩
  obtain ⟨l, h1, h2, h3, h4⟩ := hw
  refine ⟨l, by rw [hcovs]; exact h1, h2, ?_⟩
  rw [h2, hc, Nat.cast_ofNat]
  have h3' : (3 : ℝ) ≤ ((l.filter (·.ok)).length : ℝ) := by exact_mod_cast h3
  have h4' : ((l.filter (·.ok)).length : ℝ) ≤ 5 := by exact_mod_cast h4
  constructor
  · rw [div_le_div_iff_of_pos_right (by norm_num)]; exact h3'
  · rw [div_le_div_iff_of_pos_right (by norm_num)]; exact h4'

/-- C107 is violated for chains shorter than three: no scale is ever chosen, whatever the rates are, even 50 per cent of two moves. -/
theorem C107_short_violated (hc : c.length < 3) (covs : List M) (anneal : ℝ) (base θ : Θ) (st : List W) (covs' : List M) (h : Tuned env c covs anneal base θ st covs') : covs' = covs := by
  obtain ⟨-, ⟨i, v, h1, ⟨l, h2, h3, h4, h5⟩, -⟩ | ⟨h1, h2⟩⟩ := h
  · have := List.length_filter_le (·.ok) l
    omega
  · exact h2

/-- A sampler whose proposals with the matrix `1` are good in the first four moves only, and which makes only good proposals with smaller matrices. -/
noncomputable def tuneEnv : Env Nat ℝ ℝ ℝ where
  dist y := y
  pdf _ := 1
  kernel _ _ _ := 1
  prior w := (w, 0)
  perturb covs _ w := (w + 1, some (if covs = [1] ∧ 4 ≤ w then 2 else 0))
  sim θ w := (w, θ)
  bern p w := (w, decide (0 < p))
  cov _ := [1]
  scale k m := (1 / 4) ^ k * m

theorem tuneEnv_move (covs : List ℝ) (w : Nat) : Moves tuneEnv covs 1 0 0 w (w + 1) ⟨if covs = [1] ∧ 4 ≤ w then 2 else 0, if covs = [1] ∧ 4 ≤ w then 2 else 0, decide ¬ (covs = [1] ∧ 4 ≤ w)⟩ := by
  refine ⟨w + 1, w + 1, if covs = [1] ∧ 4 ≤ w then 2 else 0, ?_, rfl, rfl, ?_⟩
  · exact Proposal.take w _ rfl (by simp [tuneEnv])
  · by_cases h : covs = [1] ∧ 4 ≤ w
    · simp only [if_pos h]
      norm_num [tuneEnv, h]
    · simp only [if_neg h]
      norm_num [tuneEnv, metropolis, h]

/-- The moves of the chain. -/
noncomputable def tuneMoves (covs : List ℝ) : Nat → Nat → List (Move ℝ)
  | 0, _ => []
  | k + 1, w => ⟨if covs = [1] ∧ 4 ≤ w then 2 else 0, if covs = [1] ∧ 4 ≤ w then 2 else 0, decide ¬ (covs = [1] ∧ 4 ≤ w)⟩ :: tuneMoves covs k (w + 1)

theorem tuneMoves_length (covs : List ℝ) (k w : Nat) : (tuneMoves covs k w).length = k := by
  induction k generalizing w with
  | zero => rfl
  | succ k ih => rw [tuneMoves, List.length_cons, ih]

theorem tuneEnv_chain (covs : List ℝ) (k w : Nat) : Chain tuneEnv covs 1 0 w 0 (tuneMoves covs k w) := by
  induction k generalizing w with
  | zero => exact .nil _ _
  | succ k ih =>
    refine .cons w (w + 1) 0 _ _ (tuneEnv_move covs w) ?_
    have : (if (decide ¬ (covs = [1] ∧ 4 ≤ w)) = true then (if covs = [1] ∧ 4 ≤ w then (2 : ℝ) else 0) else 0) = 0 := by
      by_cases h : covs = [1] ∧ 4 ≤ w <;> simp [h]
    simp only
    rw [this]
    exact ih (w + 1)

theorem tuneMoves_ok (covs : List ℝ) (h : covs ≠ [1]) (k w : Nat) : (tuneMoves covs k w).filter (·.ok) = tuneMoves covs k w := by
  induction k generalizing w with
  | zero => rfl
  | succ k ih => simp [tuneMoves, h, ih]

theorem tuneMoves_bad (k w : Nat) (hw : 4 ≤ w) : (tuneMoves [1] k w).filter (·.ok) = [] := by
  induction k generalizing w with
  | zero => rfl
  | succ k ih =>
    rw [tuneMoves, List.filter_cons_of_neg (by simp [hw])]
    exact ih (w + 1) (by omega)

/-- C107 is violated: the rates are measured with the old matrices, not with the scaled ones. Here the second worker finds four of ten moves accepted, so the matrices are divided by four; with them
every move of every worker is accepted, and no worker has an acceptable rate. -/
theorem C107_violated : ∃ (covs' : List ℝ) (st : List Nat), Tuned tuneEnv ⟨5, 2, 10, 0, true⟩ [1] 1 0 0 st covs' ∧ covs' ≠ [1] ∧ ∀ w, ¬ RateOk tuneEnv ⟨5, 2, 10, 0, true⟩ covs' 1 0 0 w := by
  refine ⟨[1 / 4], [10, 0, 0, 0, 0, 0, 0, 0, 0, 0], ⟨rfl, .inl ⟨1, 0, rfl, ?_, ?_, by norm_num [tuneEnv]⟩⟩, by norm_num, ?_⟩
  · refine ⟨_, tuneEnv_chain [1] 10 0, tuneMoves_length _ _ _, ?_⟩
    simp [tuneMoves]
  · rintro j v hj hv ⟨l, h1, h2, h3, -⟩
    obtain rfl : j = 0 := by omega
    simp only [List.getElem?_cons_zero, Option.some.injEq] at hv
    subst hv
    rw [chain_unique tuneEnv _ _ _ _ _ _ _ h1 (tuneEnv_chain [1] 10 10) (by rw [h2, tuneMoves_length]), tuneMoves_bad 10 10 (by omega)] at h3
    simp at h3
  · rintro w ⟨l, h1, h2, -, h4⟩
    rw [chain_unique tuneEnv _ _ _ _ _ _ _ h1 (tuneEnv_chain [1 / 4] 10 w) (by rw [h2, tuneMoves_length]), tuneMoves_ok _ (by norm_num), tuneMoves_length] at h4
    norm_num at h4

/-! ### C108: distances and the annealing parameter of the step before -/

theorem states_below (hb : ∀ w, (env.bern 0 w).2 = false) (covs : List M) (anneal : ℝ) (base : Θ) (w : W) (θ : Θ) (d : ℝ) (l : List (Move Θ)) (h : Chain env covs anneal base w θ l) :
    ∀ e ∈ states (θ, d) l, e.2 < anneal ∨ e = (θ, d) := by
  have gen : ∀ (z s : Θ × ℝ) (w : W) (l : List (Move Θ)), Chain env covs anneal base w s.1 l → (s.2 < anneal ∨ s = z) → ∀ e ∈ states s l, e.2 < anneal ∨ e = z := by
    intro z s w l h hs
    generalize hθ : s.1 = θ at h
    induction h generalizing s with
    | nil => simp [states]
    | cons w w' θ a l h1 h2 ih =>
      obtain ⟨w1, w2, y, -, -, -, p4⟩ := h1
      have hs' : (if a.ok then (a.θ, a.d) else s).2 < anneal ∨ (if a.ok then (a.θ, a.d) else s) = z := by
        cases hok : a.ok with
        | false => simpa using hs
        | true =>
          left
          simp only [if_true]
          by_contra hlt
          rw [if_neg hlt, hok] at p4
          have := hb w2
          rw [p4] at this
          cases this
      intro e he
      simp only [states, List.mem_cons] at he
      rcases he with rfl | he
      · exact hs'
      · exact ih _ hs' (by split <;> simp [hθ]) e he
  exact gen (θ, d) (θ, d) w l h (.inr rfl)

/-- C108, what holds: of the particles of a step after the first, those that are not at the start of their chain have moved to a distance below the annealing parameter of the step before. The others carry
the new distance of a particle of the step before. -/
theorem C108_partial (hb : ∀ w, (env.bern 0 w).2 = false) (fuel : Nat) (start tuneStart : Nat → List W) (s : State Θ M) (hs : 0 < c.steps) (h : run env c fuel start tuneStart = some s) (k : Nat)
    (o a : Rec Θ M × ℝ) (ho : s.hist[k]? = some o) (ha : s.hist[k + 1]? = some a) (e : Θ × ℝ) (he : e ∈ a.1.params.zip a.1.distances) :
    e.2 < o.2 ∨ ∃ i w, i < c.n / c.length ∧ o.1.params[i]? = some e.1 ∧ e.2 = env.dist (env.sim e.1 w).2 := by
  obtain ⟨r0, chains, -, h1, h2, h3⟩ := C105_base env c fuel start tuneStart s hs h k o a ho ha
  obtain ⟨r, hr, her⟩ := List.mem_flatten.1 (h2.mem_iff.2 he)
  obtain ⟨i, hi⟩ := List.mem_iff_getElem?.1 hr
  obtain ⟨b, θ, w, -, p2, w1, y, l, q1, q2, -, rfl⟩ := h3 i r hi
  have hs' : e.2 < o.2 ∨ e = (θ, env.dist y) := by
    rcases List.mem_cons.1 her with rfl | her
    · exact .inr rfl
    · exact states_below env hb _ _ _ _ _ _ l q2 e her
  rcases hs' with hlt | rfl
  · exact .inl hlt
  · exact .inr ⟨i, w, by rw [← h1]; exact (List.getElem?_eq_some_iff.1 hi).1, p2, by rw [q1]⟩

/-- C108 is violated: in this run no particle of the second population is below the first annealing parameter, and the annealing parameter doubles. -/
theorem C108_violated : ∃ (s : State ℝ ℝ) (o a : Rec ℝ ℝ × ℝ), run exEnv ⟨5, 2, 2, 0, true⟩ 1 exStart exTune = some s ∧ s.hist = [o, a] ∧ a.1.distances ≠ [] ∧ (∀ d ∈ a.1.distances, o.2 < d) ∧
    a.2 = 2 * o.2 ∧ (∀ w, (exEnv.bern 0 w).2 = false) := by
  obtain ⟨s, h1, h2⟩ := exRun
  match hs : s.hist with
  | [o, a] =>
    rw [hs] at h2
    simp only [List.map_cons, List.map_nil, List.cons.injEq, Prod.mk.injEq, and_true] at h2
    obtain ⟨⟨-, -, -, -, h3⟩, -, h4, -, -, h5⟩ := h2
    refine ⟨s, o, a, h1, hs, by rw [h4]; simp, ?_, by rw [h3, h5]; norm_num, by simp [exEnv]⟩
    rw [h4, h3]
    intro d hd
    simp only [List.mem_cons, List.not_mem_nil, or_false] at hd
    rcases hd with rfl | rfl | rfl | rfl <;> norm_num
  | [] => rw [hs] at h2; simp at h2
  | [_] => rw [hs] at h2; simp at h2
  | _ :: _ :: _ :: _ => rw [hs] at h2; simp at h2

/-! ### C109: the annealing parameter and the particles that go on -/

theorem count_below (l : List ℝ) (h : l.Pairwise (· < ·)) (m : Nat) (a b x : ℝ) (ha : l[m]? = some a) (hb : l[m + 1]? = some b) (h1 : a < x) (h2 : x < b) :
    (l.filter fun d => d < x).length = m + 1 := by
  induction l generalizing m with
  | nil => simp at ha
  | cons d l ih =>
    obtain ⟨hd, hl⟩ := List.pairwise_cons.1 h
    match m with
    | 0 =>
      simp only [List.getElem?_cons_zero, Option.some.injEq] at ha
      subst ha
      rw [List.filter_cons_of_pos (by simpa using h1)]
      have : l.filter (fun d => d < x) = [] := by
        rw [List.filter_eq_nil_iff]
        intro y hy
        simp only [decide_eq_true_eq, not_lt]
        simp only [Nat.zero_add, List.getElem?_cons_succ] at hb
        obtain ⟨j, hj⟩ := List.mem_iff_getElem?.1 hy
        rcases Nat.eq_zero_or_pos j with rfl | hj0
        · rw [hb, Option.some.injEq] at hj; subst hj; exact h2.le
        · obtain ⟨i1, e1⟩ := List.getElem?_eq_some_iff.1 hb
          obtain ⟨i2, e2⟩ := List.getElem?_eq_some_iff.1 hj
          have := List.pairwise_iff_getElem.1 hl 0 j i1 i2 hj0
          rw [e1, e2] at this
          linarith
      rw [this]; rfl
    | m + 1 =>
      simp only [List.getElem?_cons_succ] at ha hb
      have hdx : d < x := lt_trans (hd a (List.mem_of_getElem? ha)) h1
      rw [List.filter_cons_of_pos (by simpa using hdx), List.length_cons, ih hl m ha hb]

/-- C109 is violated in every step in which the distances differ: one particle more than the number of chains of the next step is below the annealing parameter. So in the next step a particle that meets
the threshold is dropped. -/
theorem C109_violated (fuel : Nat) (start tuneStart : Nat → List W) (s : State Θ M) (h : run env c fuel start tuneStart = some s) (k : Nat) (r : Rec Θ M) (anneal : ℝ)
    (hr : s.hist[k]? = some (r, anneal)) (hd : r.distances.Nodup) : (r.distances.filter fun d => d < anneal).length = c.n / c.length + 1 := by
  obtain ⟨-, hsorted, -, -, -⟩ := C50_partial env c fuel start tuneStart s h k r anneal hr
  obtain ⟨hg, hlen, -⟩ := run_good env c fuel start tuneStart s h k r anneal hr
  obtain ⟨x, y, h1, h2, h3, -⟩ := hg.anneal
  simp only [stageOf, List.getElem?_zip_eq_some] at h1 h2 h3
  have hstrict : r.distances.Pairwise (· < ·) := by
    have := hsorted.and hd
    exact this.imp fun h => lt_of_le_of_ne h.1 h.2
  have hxy : x.2 < y.2 := by
    obtain ⟨i1, e1⟩ := List.getElem?_eq_some_iff.1 h1.2
    obtain ⟨i2, e2⟩ := List.getElem?_eq_some_iff.1 h2.2
    rw [← e1, ← e2]
    exact List.pairwise_iff_getElem.1 hstrict _ _ i1 i2 (by omega)
  exact count_below r.distances hstrict _ x.2 y.2 anneal h1.2 h2.2 (by rw [h3]; linarith) (by rw [h3]; linarith)

/-- C109, what holds: the particles that go on, the first `n_samples / chain_length` ones, are not above the annealing parameter, and no other particle is closer than they are. -/
theorem C109_partial (fuel : Nat) (start tuneStart : Nat → List W) (s : State Θ M) (h : run env c fuel start tuneStart = some s) (k : Nat) (r : Rec Θ M) (anneal : ℝ)
    (hr : s.hist[k]? = some (r, anneal)) (i j : Nat) (di dj : ℝ) (hi : i < c.n / c.length) (hj : c.n / c.length ≤ j) (h1 : r.distances[i]? = some di) (h2 : r.distances[j]? = some dj) :
    di ≤ anneal ∧ di ≤ dj := by
  obtain ⟨-, hsorted, -, -, a, b, ha, -, hle, -⟩ := C50_partial env c fuel start tuneStart s h k r anneal hr
  have mono : ∀ (p q : Nat) (x y : ℝ), p < q → r.distances[p]? = some x → r.distances[q]? = some y → x ≤ y := by
    intro p q x y hpq hx hy
    obtain ⟨i1, e1⟩ := List.getElem?_eq_some_iff.1 hx
    obtain ⟨i2, e2⟩ := List.getElem?_eq_some_iff.1 hy
    rw [← e1, ← e2]
    exact List.pairwise_iff_getElem.1 hsorted _ _ i1 i2 hpq
  exact ⟨(mono i _ di a hi h1 ha).trans hle, mono i j di dj (by omega) h1 h2⟩

/-- With chains of length one, or with fewer than three samples, `ABCsubsim` never returns a journal. -/
theorem C109_crash (fuel : Nat) (start tuneStart : Nat → List W) (hs : 0 < c.steps) (hc : c.n ≤ c.n / c.length + 1) : run env c fuel start tuneStart = none := by
  by_contra hne
  obtain ⟨s, hsome⟩ := Option.ne_none_iff_exists'.1 hne
  obtain ⟨e, he, -⟩ := C46_subsim env c fuel start tuneStart s hsome hs
  have h0 : ∃ e, s.hist[0]? = some e := by
    cases hh : s.hist with
    | nil => rw [hh] at he; simp at he
    | cons x l => exact ⟨x, rfl⟩
  obtain ⟨⟨r, anneal⟩, hr⟩ := h0
  obtain ⟨h1, -, -, -, a, b, -, hb, -⟩ := C50_partial env c fuel start tuneStart s hsome 0 r anneal hr
  have := (h1 (.inl rfl)).2.1
  have := (List.getElem?_eq_some_iff.1 hb).1
  omega

/-- The run of C50 meets the hypotheses of C105 to C109: two populations, one kernel, distinct distances in the first. -/
example : ∃ (s : State ℝ ℝ) (o a : Rec ℝ ℝ × ℝ), run exEnv ⟨5, 2, 2, 0, true⟩ 1 exStart exTune = some s ∧ s.hist[0]? = some o ∧ s.hist[1]? = some a ∧ o.1.distances.Nodup ∧
    a.1.covs.length = 2 ∧ (o.1.distances.filter fun d => d < o.2).length = 3 := by
  obtain ⟨s, h1, h2⟩ := exRun
  match hs : s.hist with
  | [o, a] =>
    rw [hs] at h2
    simp only [List.map_cons, List.map_nil, List.cons.injEq, Prod.mk.injEq, and_true] at h2
    have hn : o.1.distances.Nodup := by rw [h2.1.2.1]; norm_num
    refine ⟨s, o, a, h1, by rw [hs]; rfl, by rw [hs]; rfl, hn, by rw [h2.2.2.2.2.1]; rfl, ?_⟩
    rw [C109_violated exEnv _ 1 exStart exTune s h1 0 o.1 o.2 (by rw [hs]; rfl) hn]
    rfl
  | [] => rw [hs] at h2; simp at h2
  | [_] => rw [hs] at h2; simp at h2
  | _ :: _ :: _ :: _ => rw [hs] at h2; simp at h2

end Verif.Subsim
