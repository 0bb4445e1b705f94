import Verif.Cov.Shape
import Verif.Collect
/-
C183: every kernel of a joint kernel proposes with the matrix of its own parameters.
-/
namespace Verif.Cov

/-! ### Model -/

/-- The kernels of perturbationkernel.py: normal and Student kernels use a covariance matrix, random walks do not. -/
inductive Kind where
  | continuous
  | walk
  deriving DecidableEq

/-- A kernel of the joint kernel: its kind, and its entry of `kernel_parameters_bds`, the values of its models for every particle. -/
structure Part where
  kind : Kind
  table : List (List (List ℝ))

/-- `calculate_cov` of a kernel: perturbationkernel.py 246-278 and 375-407, and 602 and 720 for random walks. -/
noncomputable def partCov (weights : Option (List ℝ)) (p : Part) : Option Arr :=
  match p.kind with
  | .continuous => covArr p.table weights
  | .walk => some ⟨1, discreteCov, [1]⟩

/-- `JointPerturbationKernel.calculate_cov`, lines 142-145. -/
noncomputable def jointCov (parts : List Part) (weights : Option (List ℝ)) : Option (List Arr) := collect (parts.map (partCov weights))

/-- `_compute_accepted_cov_mats` with one factor, inferences.py 1076-1083 (PMCABC), 2024-2031 (SABC) and the same in RSMCABC (2799), APMCABC (3151), SMCABC (4046) and MCMCMetropoliHastings (4581). -/
noncomputable def acceptedMats (covFactor : ℝ) (mats : List Arr) : List Arr := mats.map (acceptedArr covFactor)

/-- `_compute_accepted_cov_mats` of PMC, inferences.py 1481-1488: factors and matrices are taken together as long as there are both. -/
noncomputable def acceptedMatsPmc (covFactors : List ℝ) (mats : List Arr) : List Arr := List.zipWith acceptedArr covFactors mats

/-- Lines 1231-1232: the factors of PMC if the user gives none. -/
noncomputable def pmcFactors (given : Option (List ℝ)) (parts : List Part) : List ℝ :=
  match given with
  | none => List.replicate parts.length 1
  | some l => l

/-- `update` of kernel number `i` (lines 280-328, 409-473, 541-594, 661-712): random walks do not look at the matrices, for other kernels `accepted_cov_mats_bds.value()[kernel_index]` raises if there is no such entry.
`draw` is what the generator returns. -/
noncomputable def partUpdate (mats : List Arr) (row : Nat) (draws : List (List ℝ)) (i : Nat) (p : Part) : Option (List (List ℝ)) :=
  match p.table[row]? with
  | none => none
  | some blocks =>
    match p.kind with
    | .walk => some (Kernel.splitBlocks (blocks.map List.length) (draws.getD i []))
    | .continuous =>
      match mats[i]? with
      | none => none
      | some c => update blocks c (draws.getD i [])

/-- `JointPerturbationKernel.update`, lines 172-175: the new values of all kernels. -/
noncomputable def jointUpdate (parts : List Part) (mats : List Arr) (row : Nat) (draws : List (List ℝ)) : Option (List (List (List ℝ))) :=
  collect (parts.zipIdx.map fun p => partUpdate mats row draws p.2 p.1)

/-! ### Specification -/

/-- Every kernel has its own matrix: matrix `i` comes from the particles' values of kernel `i` with factor `f i`, and is a square array of the right size. -/
def OwnMatrices (parts : List Part) (weights : Option (List ℝ)) (f : Nat → ℝ) (mats : List Arr) : Prop :=
  mats.length = parts.length ∧ ∀ (i : Nat) (p : Part), parts[i]? = some p → ∃ c : Arr, mats[i]? = some c ∧ c.shape = [c.d, c.d] ∧
    match p.kind with
    | .walk => c.d = 1 ∧ c.mat = 0
    | .continuous => ∃ C, calculateCov p.table weights = some ⟨c.d, C⟩ ∧ c.mat = f i • C + ((1 / 10 ^ 20 : ℝ) * C.trace) • (1 : Matrix (Fin c.d) (Fin c.d) ℝ)

/-- The proposal has for every kernel the drawn numbers of that kernel, in blocks of the sizes that the particle has. -/
def Proposes (parts : List Part) (row : Nat) (draws : List (List ℝ)) (new : List (List (List ℝ))) : Prop :=
  new.length = parts.length ∧ ∀ (i : Nat) (p : Part) (blocks : List (List ℝ)), parts[i]? = some p → p.table[row]? = some blocks → ∃ b : List (List ℝ), new[i]? = some b ∧ b.flatten = draws.getD i [] ∧ b.map List.length = blocks.map List.length

/-! ### Properties -/

theorem partCov_some {w : Option (List ℝ)} {p : Part} {a : Arr} (h : partCov w p = some a) (f : ℝ) :
    (acceptedArr f a).shape = [a.d, a.d] ∧
    match p.kind with
    | .walk => a.d = 1 ∧ (acceptedArr f a).mat = 0
    | .continuous => ∃ C, calculateCov p.table w = some ⟨a.d, C⟩ ∧ (acceptedArr f a).mat = f • C + ((1 / 10 ^ 20 : ℝ) * C.trace) • (1 : Matrix (Fin a.d) (Fin a.d) ℝ) := by
  obtain ⟨kind, table⟩ := p
  cases kind with
  | walk =>
    simp only [partCov, Option.some.injEq] at h
    subst h
    refine ⟨by simp [acceptedArr], rfl, ?_⟩
    simp [acceptedArr, acceptedCov, discreteCov]
    rfl
  | continuous =>
    simp only [partCov] at h
    obtain ⟨hs, -⟩ := covArr_some h
    refine ⟨?_, ?_⟩
    · simp only [acceptedArr]
      by_cases h0 : a.d = 1
      · simp [h0]
      · rw [if_neg (by intro hc; exact h0 (Nat.eq_one_of_mul_eq_one_right hc)), hs, if_neg h0]
    · unfold covArr at h
      obtain ⟨m, hm, rfl⟩ := Option.map_eq_some_iff.1 h
      exact ⟨m.2, hm, acceptedCov_form f m.2⟩

theorem jointCov_some {parts : List Part} {w : Option (List ℝ)} {mats : List Arr} (h : jointCov parts w = some mats) :
    mats.length = parts.length ∧ ∀ (i : Nat) (p : Part), parts[i]? = some p → ∃ a : Arr, mats[i]? = some a ∧ partCov w p = some a := by
  have h := (collect_eq_some _ _).1 h
  have hl : mats.length = parts.length := by simpa using (congrArg List.length h).symm
  refine ⟨hl, fun i p hp => ?_⟩
  have hi := congrArg (fun l => l[i]?) h
  simp only [List.getElem?_map, hp, Option.map_some] at hi
  cases hm : mats[i]? with
  | none => rw [hm] at hi; simp at hi
  | some a => rw [hm] at hi; exact ⟨a, rfl, by simpa using hi⟩

/-- **C183, matrices.** With one factor for all kernels, every kernel has its own matrix. -/
theorem C183_matrices (parts : List Part) (w : Option (List ℝ)) (f : ℝ) (mats : List Arr) (h : jointCov parts w = some mats) : OwnMatrices parts w (fun _ => f) (acceptedMats f mats) := by
  obtain ⟨hl, hm⟩ := jointCov_some h
  refine ⟨by simp [acceptedMats, hl], fun i p hp => ?_⟩
  obtain ⟨a, ha, hc⟩ := hm i p hp
  exact ⟨acceptedArr f a, by simp [acceptedMats, ha], partCov_some hc f⟩

/-- **C183, matrices of PMC.** The same with a factor for each kernel, if there are enough of them. -/
theorem C183_pmc_partial (parts : List Part) (w : Option (List ℝ)) (given : Option (List ℝ)) (mats : List Arr) (h : jointCov parts w = some mats) (hf : ∀ l, given = some l → parts.length ≤ l.length) :
    OwnMatrices parts w (fun i => given.elim 1 fun l => l.getD i 0) (acceptedMatsPmc (pmcFactors given parts) mats) := by
  obtain ⟨hl, hm⟩ := jointCov_some h
  have hlen : parts.length ≤ (pmcFactors given parts).length := by
    cases given with
    | none => simp [pmcFactors]
    | some l => exact hf l rfl
  refine ⟨by simp only [acceptedMatsPmc, List.length_zipWith]; omega, fun i p hp => ?_⟩
  obtain ⟨a, ha, hc⟩ := hm i p hp
  have hi : i < parts.length := (List.getElem?_eq_some_iff.1 hp).1
  have hg : (pmcFactors given parts)[i]? = some (given.elim 1 fun l => l.getD i 0) := by
    cases given with
    | none => simp [pmcFactors, hi]
    | some l =>
      have := hf l rfl
      simp [pmcFactors, List.getD_eq_getElem?_getD, List.getElem?_eq_getElem (show i < l.length by omega)]
  exact ⟨acceptedArr _ a, by rw [acceptedMatsPmc, List.getElem?_zipWith, hg, ha], partCov_some hc _⟩

/-- **C183.** With such matrices the joint kernel can propose from every particle, and the drawn numbers go to the parameters of the kernel that drew them. -/
theorem C183_propose (parts : List Part) (w : Option (List ℝ)) (f : Nat → ℝ) (mats : List Arr) (h : OwnMatrices parts w f mats) (row : Nat) (draws : List (List ℝ))
    (hrow : ∀ (i : Nat) (p : Part), parts[i]? = some p → ∃ blocks, p.table[row]? = some blocks ∧ blocks ≠ [] ∧ (draws.getD i []).length = blocks.flatten.length) :
    ∃ new, jointUpdate parts mats row draws = some new ∧ Proposes parts row draws new := by
  have each : ∀ (i : Nat) (p : Part), parts[i]? = some p → ∃ b, partUpdate mats row draws i p = some b ∧ ∀ blocks, p.table[row]? = some blocks → b.flatten = draws.getD i [] ∧ b.map List.length = blocks.map List.length := by
    intro i p hp
    obtain ⟨blocks, hb, hne, hd⟩ := hrow i p hp
    obtain ⟨c, hc, hs, hk⟩ := h.2 i p hp
    have hsplit := Kernel.C26_blocks (blocks.map List.length) (draws.getD i []) (by rw [hd, List.length_flatten])
    refine ⟨Kernel.splitBlocks (blocks.map List.length) (draws.getD i []), ?_, fun b' hb' => ?_⟩
    · unfold partUpdate
      rw [hb]
      obtain ⟨kind, table⟩ := p
      cases kind with
      | walk => rfl
      | continuous =>
        simp only at hk ⊢
        rw [hc]
        obtain ⟨C, hC, -⟩ := hk
        have hca : covArr table w = some ⟨c.d, C, if c.d = 1 then [] else [c.d, c.d]⟩ := by rw [covArr, hC]; rfl
        have := (covArr_some hca).2 blocks (List.mem_of_getElem? hb)
        simp only at this ⊢
        rw [update, if_pos ⟨hne, by rw [hs, this]⟩]
    · rw [hb] at hb'
      cases hb'
      exact hsplit
  obtain ⟨new, h1, h2⟩ := collect_isSome (parts.zipIdx.map fun p => partUpdate mats row draws p.2 p.1) (by
    intro x hx
    obtain ⟨⟨p, i⟩, hp, rfl⟩ := List.mem_map.1 hx
    obtain ⟨b, hb, -⟩ := each i p (List.mem_zipIdx_iff_getElem?.1 hp)
    simp [hb])
  refine ⟨new, h1, by simpa using (congrArg List.length h2).symm, fun i p blocks hp hb => ?_⟩
  obtain ⟨b, hb1, hb2⟩ := each i p hp
  have := congrArg (fun l => l[i]?) h2
  simp only [List.getElem?_map, List.getElem?_zipIdx, hp, Option.map_some, Nat.zero_add, hb1] at this
  cases hn : new[i]? with
  | none => rw [hn] at this; simp at this
  | some b' =>
    rw [hn] at this
    simp only [Option.map_some, Option.some.injEq] at this
    subst this
    exact ⟨b, rfl, hb2 blocks hb⟩

/-- **C183 is violated** by PMC if the user gives fewer factors than there are kernels and a kernel without factor is not a random walk: no proposal can be made, from any particle. -/
theorem C183_pmc_violated (parts : List Part) (covFactors : List ℝ) (mats : List Arr) (i : Nat) (p : Part) (hp : parts[i]? = some p) (hk : p.kind = .continuous) (hi : covFactors.length ≤ i)
    (row : Nat) (draws : List (List ℝ)) : jointUpdate parts (acceptedMatsPmc (pmcFactors (some covFactors) parts) mats) row draws = none := by
  unfold jointUpdate
  rw [collect_eq_none]
  refine List.mem_map.2 ⟨(p, i), List.mem_zipIdx_iff_getElem?.2 hp, ?_⟩
  simp only [partUpdate]
  cases p.table[row]? with
  | none => rfl
  | some blocks =>
    have : (acceptedMatsPmc (pmcFactors (some covFactors) parts) mats)[i]? = none := by
      rw [List.getElem?_eq_none_iff]
      simp only [acceptedMatsPmc, pmcFactors, List.length_zipWith]
      omega
    simp only [hk, this]

/-! ### Examples -/

/-- A random walk and a normal kernel. -/
def two : List Part := [⟨.walk, [[[1]], [[4]]]⟩, ⟨.continuous, [[[1], [2, 3]], [[4], [5, 7]]]⟩]

theorem two_cov : ∃ mats, jointCov two (some [1, 3]) = some mats := by
  obtain ⟨a, ha, -⟩ := covArr_exists [[[1], [2, 3]], [[4], [5, 7]]] [1, 3] 3 (by simp) (by simp) (by simp) (by simp [List.filter])
  exact ⟨[⟨1, discreteCov, [1]⟩, a], by simp [jointCov, two, partCov, ha, collect]⟩

theorem two_row (i : Nat) (p : Part) (h : two[i]? = some p) :
    ∃ blocks, p.table[1]? = some blocks ∧ blocks ≠ [] ∧ (([[9], [6, 7, 8]] : List (List ℝ)).getD i []).length = blocks.flatten.length := by
  match i with
  | 0 => simp only [two, List.getElem?_cons_zero, Option.some.injEq] at h; subst h; simp
  | 1 => simp only [two, List.getElem?_cons_succ, List.getElem?_cons_zero, Option.some.injEq] at h; subst h; simp
  | i + 2 => simp [two] at h

example : ∃ mats new, jointCov two (some [1, 3]) = some mats ∧ jointUpdate two (acceptedMats 2 mats) 1 [[9], [6, 7, 8]] = some new ∧ Proposes two 1 [[9], [6, 7, 8]] new := by
  obtain ⟨mats, h⟩ := two_cov
  obtain ⟨new, h1, h2⟩ := C183_propose two _ _ _ (C183_matrices two _ 2 mats h) 1 [[9], [6, 7, 8]] two_row
  exact ⟨mats, new, h, h1, h2⟩

example : ∃ mats new, jointCov two (some [1, 3]) = some mats ∧ jointUpdate two (acceptedMatsPmc (pmcFactors none two) mats) 1 [[9], [6, 7, 8]] = some new ∧ Proposes two 1 [[9], [6, 7, 8]] new := by
  obtain ⟨mats, h⟩ := two_cov
  obtain ⟨new, h1, h2⟩ := C183_propose two _ _ _ (C183_pmc_partial two _ none mats h (by simp)) 1 [[9], [6, 7, 8]] two_row
  exact ⟨mats, new, h, h1, h2⟩

/-- One factor for two kernels. -/
example : ∃ mats, jointCov two (some [1, 3]) = some mats ∧ ∀ draws, jointUpdate two (acceptedMatsPmc (pmcFactors (some [2]) two) mats) 1 draws = none := by
  obtain ⟨mats, h⟩ := two_cov
  exact ⟨mats, h, fun draws => C183_pmc_violated two [2] mats 1 _ rfl rfl (by simp) 1 draws⟩

end Verif.Cov
