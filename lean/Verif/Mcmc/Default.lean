import Verif.Cov.Shape
import Verif.Collect
import Verif.Graph.Examples
/-
C151: the covariance matrices with which `MCMCMetropoliHastings.sample` proposes if it is not given any.
-/
namespace Verif.Mcmc

open Graph Cov

/-- `_update_kernel_parameters` (inferences.py 4562-4578): for every kernel the table of the values of its models, with one row, for the current state of the chain. `kernels` lists for every kernel if it is a normal
or Student kernel (`true`) or a random walk (`false`), and its models. -/
def chainTables (g : G) (roots : List Nat) (s : St (List ℝ)) (kernels : List (Bool × List Nat)) (θ : List (List ℝ)) : List (List (List (Option (List ℝ)))) :=
  kernels.map fun k => (acceptedValues g roots s k.2 [θ]).2

/-- The identity matrix, `np.eye(n)`. -/
def eyeArr (n : Nat) : Arr := ⟨n, 1, [n, n]⟩

/-- Lines 4340-4341: `[np.eye(len(kernel_parameters_bds.value()[0][kernel_index])) for kernel_index in range(len(self.kernel.kernels))]`. `none` is an `IndexError`. -/
def defaultCovs (kernels : List (Bool × List Nat)) (tables : List (List (List (Option (List ℝ))))) : Option (List Arr) :=
  collect ((List.range kernels.length).map fun i => (tables[0]?.bind fun t => t[i]?).map fun row => eyeArr row.length)

/-- The proposals of all the kernels with the default matrices (4340-4343, 4357): `draw i` are the numbers that kernel `i` draws. A random walk does not use its matrix (perturbationkernel.py 550-594);
its result is not modelled here. `none` is an exception. -/
def firstProposal (g : G) (roots : List Nat) (s : St (List ℝ)) (kernels : List (Bool × List Nat)) (θ : List (List ℝ)) (draw : Nat → List ℝ) : Option (List (Option (List (List ℝ)))) :=
  (defaultCovs kernels (chainTables g roots s kernels θ)).bind fun covs =>
    collect ((kernels.zip covs).zipIdx.map fun p =>
      if p.1.1.1 then ((chainTables g roots s kernels θ)[p.2]?.bind fun t => t[0]?.bind fun row => collect row).bind fun blocks => (update blocks p.1.2 (draw p.2)).map some
      else some none)

theorem chain_row (g : G) (roots : List Nat) (hap : RootsApart g roots) (s : St (List ℝ)) (hs : Clean s) (ms : List Nat) (hin : ∀ m ∈ ms, m ∈ order g roots) (θ : List (List ℝ)) :
    (acceptedValues g roots s ms [θ]).2 = [ms.map fun m => θ[(order g roots).idxOf m]?] := by
  have h := Kernel.kernelTables_get (Ω := Unit) (M := Unit) g roots hap s hs [θ] [⟨ms, fun _ _ => [], fun _ _ => ()⟩] (by simpa using hin) 0 0 θ rfl ⟨ms, fun _ _ => [], fun _ _ => ()⟩ rfl
    (acceptedValues g roots s ms [θ]).2 _ (by simp [Kernel.kernelTables]) rfl
  have hl : (acceptedValues g roots s ms [θ]).2 = [ms.flatMap fun v => ((mgetMapping g roots s).2.1.filter fun e => e.1 == v).map fun e => θ[e.2]?] := rfl
  rw [hl]
  exact congrArg (fun r => [r]) h

theorem collect_blocks (l : List Nat) (f : Nat → Option (List ℝ)) (h : ∀ m ∈ l, ∃ x, f m = some x) : ∃ bs, collect (l.map f) = some bs ∧ bs.length = l.length ∧ bs.map some = l.map f := by
  have hex : ∃ bs : List (List ℝ), l.map f = bs.map some := by
    induction l with
    | nil => exact ⟨[], rfl⟩
    | cons a l ih =>
      obtain ⟨x, hx⟩ := h a (by simp)
      obtain ⟨bs, hbs⟩ := ih fun m hm => h m (by simp [hm])
      exact ⟨x :: bs, by simp [hx, hbs]⟩
  obtain ⟨bs, hbs⟩ := hex
  refine ⟨bs, by rw [hbs]; exact collect_map_some bs, ?_, hbs.symm⟩
  have := congrArg List.length hbs
  simpa using this.symm

/-- C151 for one kernel, for parameters that are numbers: whatever the graph, the starting point and the draws are, the kernel can be used with the default matrix, the identity matrix of the number of its
parameters, and the new values are the drawn numbers in the order of the models. -/
theorem C151_partial (g : G) (roots : List Nat) (hap : RootsApart g roots) (s : St (List ℝ)) (hs : Clean s) (ms : List Nat) (hms : ms ≠ []) (hin : ∀ m ∈ ms, m ∈ order g roots) (θ : List (List ℝ))
    (hlen : θ.length = (order g roots).length) (h1 : ∀ x ∈ θ, x.length = 1) (draw : Nat → List ℝ) (hd : (draw 0).length = ms.length) :
    defaultCovs [(true, ms)] (chainTables g roots s [(true, ms)] θ) = some [⟨ms.length, 1, [ms.length, ms.length]⟩] ∧
    firstProposal g roots s [(true, ms)] θ draw = some [some ((draw 0).map fun x => [x])] := by
  have ht : chainTables g roots s [(true, ms)] θ = [[ms.map fun m => θ[(order g roots).idxOf m]?]] := by
    simp [chainTables, chain_row g roots hap s hs ms hin θ]
  have hc : defaultCovs [(true, ms)] (chainTables g roots s [(true, ms)] θ) = some [⟨ms.length, 1, [ms.length, ms.length]⟩] := by
    rw [ht]
    have e : defaultCovs [(true, ms)] [[ms.map fun m => θ[(order g roots).idxOf m]?]] = some [eyeArr (ms.map fun m => θ[(order g roots).idxOf m]?).length] := rfl
    rw [e, List.length_map]
    rfl
  refine ⟨hc, ?_⟩
  obtain ⟨bs, hb1, hb2, hb3⟩ := collect_blocks ms (fun m => θ[(order g roots).idxOf m]?) (fun m hm => by
    have : (order g roots).idxOf m < θ.length := by rw [hlen]; exact List.idxOf_lt_length_of_mem (hin m hm)
    exact ⟨_, List.getElem?_eq_getElem this⟩)
  have hone : ∀ b ∈ bs, b.length = 1 := by
    intro b hb
    have : some b ∈ ms.map fun m => θ[(order g roots).idxOf m]? := by rw [← hb3]; exact List.mem_map.2 ⟨b, hb, rfl⟩
    obtain ⟨m, -, hm⟩ := List.mem_map.1 this
    exact h1 b (List.mem_of_getElem? hm)
  have hrep : bs.map List.length = List.replicate ms.length 1 := by
    rw [← hb2]; exact List.eq_replicate_iff.2 ⟨by simp, by simpa using hone⟩
  have hflat : bs.flatten.length = ms.length := by rw [List.length_flatten, hrep]; simp
  have hup : update bs ⟨ms.length, 1, [ms.length, ms.length]⟩ (draw 0) = some ((draw 0).map fun x => [x]) := by
    rw [update, if_pos ⟨by rintro rfl; exact hms (List.length_eq_zero_iff.1 hb2.symm), by rw [hflat]⟩]
    obtain ⟨a1, a2⟩ := Kernel.C26_blocks (bs.map List.length) (draw 0) (by rw [hrep]; simpa using hd)
    congr 1
    rw [hrep] at a2
    have hsing : ∀ (L : List (List ℝ)), (∀ b ∈ L, b.length = 1) → L = L.flatten.map fun x => [x] := by
      intro L
      induction L with
      | nil => simp
      | cons a L ih =>
        intro h
        obtain ⟨x, rfl⟩ := List.length_eq_one_iff.1 (h a (by simp))
        rw [List.flatten_cons, List.map_append, ← ih fun b hb => h b (by simp [hb])]
        simp
    have := hsing (Kernel.splitBlocks (bs.map List.length) (draw 0)) (fun b hb => by
      have : b.length ∈ (Kernel.splitBlocks (bs.map List.length) (draw 0)).map List.length := List.mem_map.2 ⟨b, hb, rfl⟩
      rw [hrep, a2] at this
      exact (List.mem_replicate.1 this).2)
    rw [this, a1]
  rw [firstProposal, hc, ht]
  simp only [Option.bind_some, List.zip_cons_cons, List.zip_nil_right, List.zipIdx_cons, List.zipIdx_nil, List.map_cons, List.map_nil, if_true, List.getElem?_cons_zero, hb1, hup, Option.map_some]
  rfl

theorem clean_blank : Clean (St.blank : St (List ℝ)) := fun _ => rfl

/-- Two parameters in a chain of dependent models, one kernel for both. -/
example : firstProposal chainG [2] St.blank [(true, [0, 1])] [[3], [5]] (fun _ => [7, 8]) = some [some [[7], [8]]] :=
  (C151_partial chainG [2] chainG_apart St.blank clean_blank [0, 1] (by simp) (by simp [chainG_order]) [[3], [5]] (by simp [chainG_order]) (by simp) (fun _ => [7, 8]) rfl).2

/-- C151 fails with two or more kernels, such as a default kernel for continuous and discrete parameters: the matrices cannot be made, whatever the graph, the models of the kernels and the starting point are
(`IndexError`). -/
theorem C151_kernels_violated (g : G) (roots : List Nat) (s : St (List ℝ)) (kernels : List (Bool × List Nat)) (h2 : 2 ≤ kernels.length) (θ : List (List ℝ)) (draw : Nat → List ℝ) :
    firstProposal g roots s kernels θ draw = none := by
  have hn : defaultCovs kernels (chainTables g roots s kernels θ) = none := by
    unfold defaultCovs
    rw [collect_eq_none]
    refine List.mem_map.2 ⟨1, List.mem_range.2 (by omega), ?_⟩
    obtain ⟨k, ks, rfl⟩ := List.exists_cons_of_ne_nil (List.ne_nil_of_length_pos (by omega : 0 < kernels.length))
    simp [chainTables, acceptedValues]
  rw [firstProposal, hn]; rfl

/-- In particular for the default kernel whenever there are parameters of both kinds. -/
theorem C151_mixed_violated (g : G) (roots : List Nat) (s : St (List ℝ)) (kind : Nat → Kind) (ms : List Nat) (c d : Nat) (hc : c ∈ ms) (hd : d ∈ ms) (hkc : kind c = .cont) (hkd : kind d ≠ .cont)
    (θ : List (List ℝ)) (draw : Nat → List ℝ) : firstProposal g roots s (Kernel.defaultKernel kind ms) θ draw = none := by
  apply C151_kernels_violated
  obtain ⟨h1, h2, h3⟩ := Kernel.C28_default_kernel kind ms
  by_contra hlt
  have : ∃ b l, Kernel.defaultKernel kind ms = [(b, l)] ∨ Kernel.defaultKernel kind ms = [] := by
    rcases hk : Kernel.defaultKernel kind ms with _ | ⟨⟨b, l⟩, _ | ⟨q, rest⟩⟩
    · exact ⟨true, [], .inr rfl⟩
    · exact ⟨b, l, .inl rfl⟩
    · rw [hk] at hlt; simp at hlt
  obtain ⟨b, l, hk | hk⟩ := this
  · rw [hk] at h1 h2
    have hp : l.Perm ms := by simpa using h2
    rcases h1 (b, l) (by simp) with h | h
    · have : d ∈ l := hp.mem_iff.2 hd
      rw [(Prod.mk.inj h).2] at this
      simp [hkd] at this
    · have : c ∈ l := hp.mem_iff.2 hc
      rw [(Prod.mk.inj h).2] at this
      simp [hkc] at this
  · rw [hk] at h2
    have : c ∈ ([] : List Nat) := (h2.mem_iff).2 hc
    cases this

/-- C151 fails for a kernel with parameters that are vectors: if its models together do not have as many components as there are models, the default matrix has the wrong size and the first proposal raises. -/
theorem C151_vectors_violated (g : G) (roots : List Nat) (hap : RootsApart g roots) (s : St (List ℝ)) (hs : Clean s) (ms : List Nat) (hin : ∀ m ∈ ms, m ∈ order g roots) (θ : List (List ℝ))
    (blocks : List (List ℝ)) (hb : (ms.map fun m => θ[(order g roots).idxOf m]?) = blocks.map some) (hne : blocks.flatten.length ≠ ms.length) (draw : Nat → List ℝ) :
    firstProposal g roots s [(true, ms)] θ draw = none := by
  have ht : chainTables g roots s [(true, ms)] θ = [[ms.map fun m => θ[(order g roots).idxOf m]?]] := by
    simp [chainTables, chain_row g roots hap s hs ms hin θ]
  have hc : defaultCovs [(true, ms)] (chainTables g roots s [(true, ms)] θ) = some [⟨ms.length, 1, [ms.length, ms.length]⟩] := by
    rw [ht]
    have e : defaultCovs [(true, ms)] [[ms.map fun m => θ[(order g roots).idxOf m]?]] = some [eyeArr (ms.map fun m => θ[(order g roots).idxOf m]?).length] := rfl
    rw [e, List.length_map]
    rfl
  rw [firstProposal, hc, ht]
  have hup : update blocks ⟨ms.length, 1, [ms.length, ms.length]⟩ (draw 0) = none := by
    rw [update, if_neg]
    intro h
    have h := h.2
    simp only [List.cons.injEq, and_true] at h
    exact hne h.1.symm
  simp only [Option.bind_some, List.zip_cons_cons, List.zip_nil_right, List.zipIdx_cons, List.zipIdx_nil, List.map_cons, List.map_nil, if_true, List.getElem?_cons_zero, hb, collect_map_some, hup,
    Option.map_none]
  rfl

/-- A model with one parameter of two components. -/
example (draw : Nat → List ℝ) : firstProposal chainG [2] St.blank [(true, [0, 1])] [[3, 4], [5]] draw = none :=
  C151_vectors_violated chainG [2] chainG_apart St.blank clean_blank [0, 1] (by simp [chainG_order]) [[3, 4], [5]] [[5], [3, 4]] (by simp [chainG_order, List.idxOf_cons]) (by simp) draw

/-- The default kernel for the graph of the examples, which has a discrete parameter. -/
example (θ : List (List ℝ)) (draw : Nat → List ℝ) : firstProposal exG [5, 6] St.blank (Kernel.defaultKernel exG.kind [4, 1, 2]) θ draw = none :=
  C151_mixed_violated exG [5, 6] St.blank exG.kind [4, 1, 2] 4 2 (by simp) (by simp) rfl (by decide) θ draw

end Verif.Mcmc
