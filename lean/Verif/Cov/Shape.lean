import Verif.Cov.Props
import Verif.Kernel.Props
/-
C149: the shapes of the covariance matrices. `numpy.cov` removes dimensions of size one, so that the covariance matrix of one component is an array without dimensions, and
`multivariate_normal` of the random generator refuses such an array.
-/
namespace Verif.Cov

/-- A covariance matrix of `d` components as numpy holds it: the numbers, and the shape of the array. -/
structure Arr where
  d : Nat
  mat : Matrix (Fin d) (Fin d) ℝ
  shape : List Nat

/-- `calculate_cov` (perturbationkernel.py 246-278, 375-407) with the shape of its result: `numpy.cov` ends with `squeeze()`. -/
noncomputable def covArr (table : List (List (List ℝ))) (weights : Option (List ℝ)) : Option Arr :=
  (calculateCov table weights).map fun m => ⟨m.1, m.2, if m.1 = 1 then [] else [m.1, m.1]⟩

/-- `_compute_accepted_cov_mats` (inferences.py 1076-1083): an array of size one is reshaped to `(1, 1)`, to others a square array is added. -/
noncomputable def acceptedArr (covFactor : ℝ) (a : Arr) : Arr :=
  ⟨a.d, acceptedCov covFactor a.mat, if a.d * a.d = 1 then [1, 1] else a.shape⟩

/-- `cov_mat * pow(2.0, -2.0 * t)` (inferences.py 2405). -/
noncomputable def scaleArr (t : Nat) (a : Arr) : Arr := ⟨a.d, ((1 / 4 : ℝ) ^ t) • a.mat, a.shape⟩

/-- `update` of the normal and of the Student kernel (perturbationkernel.py 280-328, 409-473): `blocks` are the values of the particle, `draw` what the generator returns. `none` is the `ValueError`
that `multivariate_normal` raises unless the matrix is a square array with one row for every component of the mean, and the `IndexError` of lines 304 and 434 for a kernel without models. -/
def update (blocks : List (List ℝ)) (cov : Arr) (draw : List ℝ) : Option (List (List ℝ)) :=
  if blocks ≠ [] ∧ cov.shape = [blocks.flatten.length, blocks.flatten.length] then some (Kernel.splitBlocks (blocks.map List.length) draw) else none

/-- The covariance matrices (of one kernel) that ABCsubsim proposes with in the course of a run: `calculate_cov` in the first step (2231), the list repeated in a later step (2233), scaled
by one of the workers (2405, 2254). -/
inductive SubsimCovs (a : Arr) : List Arr → Prop
  | first : SubsimCovs a [a]
  | again {l : List Arr} : SubsimCovs a l → SubsimCovs a (l ++ l)
  | tuned {l : List Arr} (t : Nat) : SubsimCovs a l → SubsimCovs a (l.map (scaleArr t))

theorem covArr_some {table : List (List (List ℝ))} {w : Option (List ℝ)} {a : Arr} (h : covArr table w = some a) :
    a.shape = (if a.d = 1 then [] else [a.d, a.d]) ∧ ∀ b ∈ table, b.flatten.length = a.d := by
  unfold covArr at h
  obtain ⟨m, hm, rfl⟩ := Option.map_eq_some_iff.1 h
  refine ⟨rfl, ?_⟩
  unfold calculateCov at hm
  cases htab : table.map List.flatten with
  | nil => rw [htab] at hm; cases hm
  | cons r rows =>
    rw [htab] at hm
    simp only at hm
    split at hm
    · rename_i hall
      obtain ⟨c, -, rfl⟩ := Option.map_eq_some_iff.1 hm
      intro b hb
      have hb' : b.flatten ∈ r :: rows := by rw [← htab]; exact List.mem_map.2 ⟨b, hb, rfl⟩
      rcases List.mem_cons.1 hb' with h1 | h1
      · simp [h1]
      · have := List.all_eq_true.1 hall _ h1
        simpa using this
    · cases hm

theorem subsim_shape {a : Arr} {l : List Arr} (h : SubsimCovs a l) : ∀ c ∈ l, c.shape = a.shape ∧ c.d = a.d := by
  induction h with
  | first => simp
  | again _ ih =>
    intro c hc
    rcases List.mem_append.1 hc with h | h <;> exact ih c h
  | tuned t _ ih =>
    intro c hc
    obtain ⟨b, hb, rfl⟩ := List.mem_map.1 hc
    exact ih b hb

theorem subsim_ne {a : Arr} {l : List Arr} (h : SubsimCovs a l) : l ≠ [] := by
  induction h with
  | first => simp
  | again _ ih => simpa using ih
  | tuned t _ ih => simpa using ih

/-- C149 for all samplers that use `_compute_accepted_cov_mats`: whatever the particles are, if there is a covariance matrix of the particles at all, the kernel can use the matrix that the sampler computes
from it, for every particle; the new values have the sizes of the old ones and are the drawn numbers in order. -/
theorem C149_partial (table : List (List (List ℝ))) (w : Option (List ℝ)) (covFactor : ℝ) (a : Arr) (h : covArr table w = some a) (blocks : List (List ℝ)) (hb : blocks ∈ table) (hne : blocks ≠ [])
    (draw : List ℝ) (hd : draw.length = blocks.flatten.length) :
    ∃ new, update blocks (acceptedArr covFactor a) draw = some new ∧ new.flatten = draw ∧ new.map List.length = blocks.map List.length := by
  obtain ⟨h1, h2⟩ := covArr_some h
  have hs : (acceptedArr covFactor a).shape = [blocks.flatten.length, blocks.flatten.length] := by
    rw [h2 blocks hb]
    simp only [acceptedArr]
    by_cases h0 : a.d = 1
    · simp [h0]
    · rw [if_neg (by intro hc; exact h0 (Nat.eq_one_of_mul_eq_one_right hc)), h1, if_neg h0]
  refine ⟨_, by rw [update, if_pos ⟨hne, hs⟩], ?_⟩
  exact Kernel.C26_blocks (blocks.map List.length) draw (by rw [hd, List.length_flatten])

/-- There is a covariance matrix whenever two particles have positive weight. -/
theorem covArr_exists (table : List (List (List ℝ))) (w : List ℝ) (d : Nat) (hd : ∀ b ∈ table, b.flatten.length = d) (hl : w.length = table.length) (hn : ∀ a ∈ w, 0 ≤ a)
    (h2 : 2 ≤ (w.filter (0 < ·)).length) : ∃ a, covArr table (some w) = some a ∧ a.d = d := by
  obtain ⟨C, hC, -⟩ := C121 table w d hd hl hn h2
  exact ⟨_, by rw [covArr, hC]; rfl, rfl⟩

example : ∃ a, covArr [[[1], [2, 3]], [[4], [5, 7]]] (some [1, 3]) = some a ∧
    ∃ new, update [[1], [2, 3]] (acceptedArr 2 a) [8, 9, 10] = some new ∧ new.flatten = [8, 9, 10] ∧ new.map List.length = [1, 2] := by
  obtain ⟨a, ha, -⟩ := covArr_exists [[[1], [2, 3]], [[4], [5, 7]]] [1, 3] 3 (by simp) (by simp) (by simp) (by simp [List.filter])
  exact ⟨a, ha, C149_partial _ _ 2 a ha [[1], [2, 3]] (by simp) (by simp) [8, 9, 10] (by simp)⟩

/-- C149 for ABCsubsim if the kernel has more than one component. -/
theorem C149_subsim_partial (table : List (List (List ℝ))) (w : Option (List ℝ)) (a : Arr) (h : covArr table w = some a) (h1 : a.d ≠ 1) (l : List Arr) (hl : SubsimCovs a l)
    (blocks : List (List ℝ)) (hb : blocks ∈ table) (hne : blocks ≠ []) (draw : List ℝ) (hd : draw.length = blocks.flatten.length) :
    ∃ c rest new, l = c :: rest ∧ update blocks c draw = some new ∧ new.flatten = draw ∧ new.map List.length = blocks.map List.length := by
  obtain ⟨g1, g2⟩ := covArr_some h
  obtain ⟨c, rest, rfl⟩ := List.exists_cons_of_ne_nil (subsim_ne hl)
  have hs : c.shape = [blocks.flatten.length, blocks.flatten.length] := by
    rw [(subsim_shape hl c (by simp)).1, g1, if_neg h1, g2 blocks hb]
  refine ⟨c, rest, _, rfl, by rw [update, if_pos ⟨hne, hs⟩], ?_⟩
  exact Kernel.C26_blocks (blocks.map List.length) draw (by rw [hd, List.length_flatten])

/-- C149, the values for ABCsubsim: every matrix that is used is that of the particles, scaled by a power of one quarter, with the same shape. -/
theorem C149_subsim_values (a : Arr) (l : List Arr) (hl : SubsimCovs a l) (c : Arr) (hc : c ∈ l) : ∃ k : Nat, c = ⟨a.d, (2 : ℝ) ^ (-2 * (k : ℤ)) • a.mat, a.shape⟩ := by
  induction hl generalizing c with
  | first => rw [List.mem_singleton] at hc; subst hc; exact ⟨0, by simp⟩
  | again _ ih => exact ih c ((List.mem_append.1 hc).elim id id)
  | tuned t _ ih =>
    obtain ⟨b, hb, rfl⟩ := List.mem_map.1 hc
    obtain ⟨k, rfl⟩ := ih b hb
    refine ⟨t + k, ?_⟩
    unfold scaleArr
    simp only [smul_smul]
    have h4 : ∀ k : Nat, (2 : ℝ) ^ (-2 * (k : ℤ)) = (1 / 4 : ℝ) ^ k := by
      intro k
      rw [zpow_mul, zpow_natCast]
      norm_num
    rw [h4, h4, pow_add]

/-- C149 fails for ABCsubsim with a kernel for one component, as for a model with one continuous parameter: in every step every proposal raises, whatever the particles, weights and draws are. -/
theorem C149_subsim_violated (table : List (List (List ℝ))) (w : Option (List ℝ)) (a : Arr) (h : covArr table w = some a) (h1 : ∀ b ∈ table, b.flatten.length = 1)
    (l : List Arr) (hl : SubsimCovs a l) (c : Arr) (hc : c ∈ l) (blocks : List (List ℝ)) (draw : List ℝ) : update blocks c draw = none := by
  obtain ⟨g1, g2⟩ := covArr_some h
  have hne : table ≠ [] := by
    rintro rfl
    simp [covArr, calculateCov] at h
  obtain ⟨b, hb⟩ := List.exists_mem_of_ne_nil table hne
  have hd : a.d = 1 := by rw [← g2 b hb]; exact h1 b hb
  rw [update, if_neg]
  intro hcon
  have hcon := hcon.2
  revert hcon
  rw [(subsim_shape hl c hc).1, g1, if_pos hd]
  simp

/-- Particles with one number each: ABCsubsim cannot make a proposal. -/
example : ∃ a, covArr [[[1]], [[4]]] (some [1, 1]) = some a ∧ ∀ draw, update [[1]] a draw = none := by
  obtain ⟨a, ha, -⟩ := covArr_exists [[[1]], [[4]]] [1, 1] 1 (by simp) (by simp) (by simp) (by simp [List.filter])
  exact ⟨a, ha, fun draw => C149_subsim_violated _ _ a ha (by simp) [a] .first a (by simp) _ draw⟩

end Verif.Cov
