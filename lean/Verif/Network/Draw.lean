import Verif.Network.Props
import Verif.Nn.Props
/-
C158: draws that do not use the generator they are given. `NetworkRandomWalkKernel.update` (`abcpy/perturbationkernel.py` 651-712) takes a generator `rng`, but calls `np.random.choice` (lines 687, 707): the generator that all of a
process shares, whose state does not depend on any seed given to the library. The data sets of pairs and triplets (`abcpy/NN_utilities/datasets.py` 54-127) do the same.
-/
namespace Verif.Network

variable {W G : Type}

/-- The generator of the process, with state `W`: `np.random.choice(nodes, 1, p=weight)[0]`. -/
structure Shared (W : Type) where
  choice : List (Int × ℝ) → W → Int × W

/-- The loops 701-707 (`src v = v`) and 681-687 (`src v = 1`). `none` is an exception. -/
noncomputable def walk (R : Shared W) (net : Net) (src : Int → Int) : List Int → W → Option (List Int) × W
  | [], w => (some [], w)
  | v :: vs, w => match moves net (src v) v with
    | none => (none, w)
    | some d =>
      let r := R.choice d w
      let q := walk R net src vs r.2
      (q.1.map (r.1 :: ·), q.2)

/-- `update` for numbers, lines 673-688, with the generator `rng` that is passed and the shared one: the values, and both generators afterwards. -/
noncomputable def drawNumbers (R : Shared W) (net : Net) (values : List Int) (rng : G) (w : W) : Option (List Int) × G × W :=
  let q := walk R net (fun _ => 1) values w
  (q.1, rng, q.2)

/-- `update` for arrays, lines 689-710. -/
noncomputable def drawArrays (R : Shared W) (net : Net) (blocks : List (List Int)) (rng : G) (w : W) : Option (List (List Int)) × G × W :=
  let q := walk R net id blocks.flatten w
  (q.1.map fun l => Kernel.splitBlocks (blocks.map List.length) l, rng, q.2)

/-! ### Specification -/

/-- The generator chooses nodes of positive probability. -/
def Fair (R : Shared W) : Prop := ∀ d w, (∃ p ∈ d, 0 < p.2) → ∃ p ∈ d, 0 < p.2 ∧ (R.choice d w).1 = p.1

/-- Every node of positive probability is chosen in some state of the generator. -/
def Rich (R : Shared W) : Prop := ∀ d, ∀ p ∈ d, 0 < p.2 → ∃ w, (R.choice d w).1 = p.1

/-! ### Theorems -/

theorem walk_spec (R : Shared W) (hR : Fair R) (net : Net) (weight : Int → Int → ℝ) (vs : List Int) (h : ∀ v ∈ vs, Connected net weight v) (w : W) :
    ∃ out, (walk R net id vs w).1 = some out ∧ List.Forall₂ (fun v x => x ∈ net.nbrs v) vs out := by
  induction vs generalizing w with
  | nil => exact ⟨[], rfl, .nil⟩
  | cons v vs ih =>
    have hv := h v (by simp)
    obtain ⟨a, ha⟩ := List.exists_mem_of_ne_nil _ hv.nonempty
    have hs := sum_pos hv.nonempty hv.pos
    set d := (net.nbrs v).map fun x => (x, weight v x / ((net.nbrs v).map (weight v)).sum) with hd
    obtain ⟨p, hp, _, hp2⟩ := hR d w ⟨_, List.mem_map_of_mem ha, div_pos (hv.pos a ha) hs⟩
    obtain ⟨x, hx, rfl⟩ := List.mem_map.1 hp
    obtain ⟨out, h1, h2⟩ := ih (fun u hu => h u (by simp [hu])) (R.choice d w).2
    refine ⟨x :: out, ?_, .cons hx h2⟩
    rw [walk, id_eq, moves_eq hv]
    simp only
    rw [← hd, h1, hp2]
    rfl

/-- C158, what holds: `update` moves every entry to a neighbour, and leaves the generator it is given as it was; the result does not depend on that generator at all. -/
theorem C158_partial (R : Shared W) (hR : Fair R) (net : Net) (weight : Int → Int → ℝ) (blocks : List (List Int)) (h : ∀ v ∈ blocks.flatten, Connected net weight v) (rng rng' : G) (w : W) :
    (∃ out, (drawArrays R net blocks rng w).1 = some out ∧ List.Forall₂ (fun v x => x ∈ net.nbrs v) blocks.flatten out.flatten ∧ out.map List.length = blocks.map List.length) ∧
    (drawArrays R net blocks rng w).2.1 = rng ∧ (drawArrays R net blocks rng' w).1 = (drawArrays R net blocks rng w).1 := by
  obtain ⟨out, h1, h2⟩ := walk_spec R hR net weight blocks.flatten h w
  refine ⟨⟨Kernel.splitBlocks (blocks.map List.length) out, ?_, ?_⟩, rfl, rfl⟩
  · unfold drawArrays
    simp only [h1, Option.map_some]
  · have hl : out.length = (blocks.map List.length).sum := by rw [← h2.length_eq, List.length_flatten]
    obtain ⟨h3, h4⟩ := Kernel.C26_blocks (blocks.map List.length) out hl
    exact ⟨by rw [h3]; exact h2, h4⟩

/-- C158 is violated: for every generator that is passed, so for every seed, there are two states of the shared generator with which the same call proposes different values. -/
theorem C158_violated (R : Shared W) (hF : Fair R) (hR : Rich R) (net : Net) (weight : Int → Int → ℝ) (v a b : Int) (vs : List Int) (blocks : List (List Int)) (hbl : blocks.flatten = v :: vs)
    (h : ∀ u ∈ blocks.flatten, Connected net weight u) (ha : a ∈ net.nbrs v)
    (hb : b ∈ net.nbrs v) (hab : a ≠ b) (rng : G) : ∃ w w', (drawArrays R net blocks rng w).1 ≠ (drawArrays R net blocks rng w').1 := by
  rw [hbl] at h
  have hv := h v (by simp)
  have hs := sum_pos hv.nonempty hv.pos
  set d := (net.nbrs v).map fun x => (x, weight v x / ((net.nbrs v).map (weight v)).sum) with hd
  have key : ∀ x ∈ net.nbrs v, ∃ w l, (walk R net id (v :: vs) w).1 = some (x :: l) ∧ l.length = vs.length := by
    intro x hx
    obtain ⟨w, hw⟩ := hR d _ (List.mem_map_of_mem hx) (div_pos (hv.pos x hx) hs)
    obtain ⟨out, h1, h2⟩ := walk_spec R hF net weight vs (fun u hu => h u (by simp [hu])) (R.choice d w).2
    refine ⟨w, out, ?_, h2.length_eq.symm⟩
    rw [walk, id_eq, moves_eq hv]
    simp only
    rw [← hd, h1, hw]
    rfl
  obtain ⟨w, l, hw, hl⟩ := key a ha
  obtain ⟨w', l', hw', hl'⟩ := key b hb
  refine ⟨w, w', ?_⟩
  unfold drawArrays
  simp only [hbl, hw, hw', Option.map_some, ne_eq, Option.some.injEq]
  intro he
  have hsum : (blocks.map List.length).sum = vs.length + 1 := by rw [← List.length_flatten, hbl, List.length_cons]
  have := congrArg List.flatten he
  rw [(Kernel.C26_blocks _ _ (by simp [hl, hsum])).1, (Kernel.C26_blocks _ _ (by simp [hl', hsum])).1] at this
  simp only [List.cons.injEq] at this
  exact hab this.1

/-! ### Numbers -/

/-- A node of positive probability, if `moves` does not raise. -/
theorem moves_pos (net : Net) (src v : Int) (d : List (Int × ℝ)) (h : moves net src v = some d) : ∃ p ∈ d, 0 < p.2 := by
  unfold moves at h
  split at h
  · cases h
  · rename_i ws hws
    split at h
    · cases h
    · rename_i hc
      push Not at hc
      obtain ⟨h1, h2, h3⟩ := hc
      rw [Option.some.injEq] at h
      have hlen : (normalise ws).length = (net.nbrs v).length := by
        have := congrArg List.length ((collect_eq_some _ _).1 hws)
        unfold normalise
        simpa using this.symm
      have hd : d.map Prod.snd = normalise ws := by rw [← h, List.map_snd_zip (by omega)]
      have hsum : (normalise ws).sum = 1 := by
        unfold normalise
        simp only [div_eq_mul_inv]
        rw [List.sum_map_mul_right, List.map_id']
        exact mul_inv_cancel₀ h2
      by_contra hno
      push Not at hno
      have hall : ∀ x ∈ normalise ws, x = 0 := by
        intro x hx
        rw [← hd] at hx
        obtain ⟨p, hp, rfl⟩ := List.mem_map.1 hx
        exact le_antisymm (hno p hp) (h3 _ (by rw [← hd]; exact List.mem_map_of_mem hp))
      rw [List.sum_eq_zero hall] at hsum
      exact zero_ne_one hsum

/-- C158 for numbers: `update` raises exactly if the distribution of C122 does not exist; otherwise it returns an outcome of positive probability, with the weights of the edges of node 1. The generator passed is not used. -/
theorem C158_numbers (R : Shared W) (hR : Fair R) (net : Net) (values : List Int) (rng : G) (w : W) :
    ((drawNumbers R net values rng w).1 = none ↔ updateNumbers net values = none) ∧ (drawNumbers R net values rng w).2.1 = rng ∧
    ∀ out, (drawNumbers R net values rng w).1 = some out → ∃ law p, updateNumbers net values = some law ∧ (out, p) ∈ law ∧ 0 < p := by
  have key : ∀ (vs : List Int) (w : W), match collect (vs.map (moves net 1)) with
      | none => (walk R net (fun _ => 1) vs w).1 = none
      | some ds => ∃ out p, (walk R net (fun _ => 1) vs w).1 = some out ∧ (out, p) ∈ joint ds ∧ 0 < p := by
    intro vs
    induction vs with
    | nil => intro w; exact ⟨[], 1, rfl, by simp [joint], one_pos⟩
    | cons v vs ih =>
      intro w
      simp only [List.map_cons, walk]
      cases hm : moves net 1 v with
      | none => simp [collect]
      | some d =>
        obtain ⟨q, hq, hq0, hq1⟩ := hR d w (moves_pos net 1 v d hm)
        have := ih (R.choice d w).2
        simp only [collect]
        cases hc : collect (vs.map (moves net 1)) with
        | none => rw [hc] at this; simp only at this ⊢; rw [this]; rfl
        | some ds =>
          rw [hc] at this
          obtain ⟨out, p, h1, h2, h3⟩ := this
          refine ⟨(R.choice d w).1 :: out, q.2 * p, by rw [h1]; rfl, ?_, mul_pos hq0 h3⟩
          rw [joint, List.mem_flatMap]
          exact ⟨q, hq, List.mem_map.2 ⟨(out, p), h2, by rw [hq1]⟩⟩
  have := key values w
  unfold drawNumbers updateNumbers
  cases hc : collect (values.map (moves net 1)) with
  | none =>
    rw [hc] at this
    simp only at this ⊢
    refine ⟨by simp [this], trivial, ?_⟩
    intro out ho
    rw [this] at ho
    cases ho
  | some ds =>
    rw [hc] at this
    obtain ⟨out, p, h1, h2, h3⟩ := this
    refine ⟨by simp [h1], rfl, ?_⟩
    intro out' ho
    simp only [h1, Option.some.injEq] at ho
    subst ho
    exact ⟨joint ds, p, rfl, h2, h3⟩

/-! ### A concrete case -/

open Classical in
/-- A shared generator that counts: state `w` chooses the node number `w` of those with positive probability, over and over. -/
noncomputable def counting : Shared Nat := ⟨fun d w => let l := d.filter fun p => 0 < p.2; ((l.getD (w % l.length) (0, 0)).1, w + 1)⟩

theorem counting_mem (d : List (Int × ℝ)) (w : Nat) (h : ∃ p ∈ d, 0 < p.2) : ∃ p ∈ d, 0 < p.2 ∧ (counting.choice d w).1 = p.1 := by
  classical
  obtain ⟨p, hp, h0⟩ := h
  have hl : 0 < (d.filter fun p => 0 < p.2).length := List.length_pos_of_mem (List.mem_filter.2 ⟨hp, by simpa using h0⟩)
  have hw := Nat.mod_lt w hl
  have hm : (d.filter fun p => 0 < p.2)[w % (d.filter fun p => 0 < p.2).length] ∈ d.filter fun p => 0 < p.2 := List.getElem_mem hw
  obtain ⟨h1, h2⟩ := List.mem_filter.1 hm
  refine ⟨_, h1, by simpa using h2, ?_⟩
  unfold counting
  simp only
  rw [List.getD_eq_getElem?_getD, List.getElem?_eq_getElem hw]
  rfl

theorem counting_rich : Rich counting := by
  classical
  intro d p hp h0
  have hm : p ∈ d.filter fun p => 0 < p.2 := List.mem_filter.2 ⟨hp, by simpa using h0⟩
  obtain ⟨i, hi, he⟩ := List.getElem_of_mem hm
  refine ⟨i, ?_⟩
  unfold counting
  simp only
  rw [Nat.mod_eq_of_lt hi, List.getD_eq_getElem?_getD, List.getElem?_eq_getElem hi, he]
  rfl

/-- A line of nodes, all edges with weight one: the walk from node 5 goes to 4 or 6, with any generator passed. -/
example : Fair counting ∧ Rich counting ∧ ∃ w w', (drawArrays counting ⟨fun v => [v - 1, v + 1], fun _ _ => some 1⟩ [[5], [7, 2]] () w).1 ≠
    (drawArrays counting ⟨fun v => [v - 1, v + 1], fun _ _ => some 1⟩ [[5], [7, 2]] () w').1 := by
  refine ⟨fun d w h => counting_mem d w h, counting_rich, ?_⟩
  have hc : ∀ v : Int, Connected ⟨fun v => [v - 1, v + 1], fun _ _ => some 1⟩ (fun _ _ => 1) v := fun v =>
    ⟨by simp, by simp; omega, fun _ _ => rfl, fun _ _ => one_pos⟩
  exact C158_violated counting (fun d w h => counting_mem d w h) counting_rich _ (fun _ _ => 1) 5 4 6 [7, 2] _ rfl (fun u _ => hc u) (by simp) (by simp) (by norm_num) ()

/-- On the same line the numbers 5 and 7 can move: a distribution exists. -/
example : ∃ law, updateNumbers ⟨fun v => [v - 1, v + 1], fun _ _ => some 1⟩ [5, 7] = some law := by
  have hm : ∀ v : Int, moves ⟨fun v => [v - 1, v + 1], fun _ _ => some 1⟩ 1 v = some [(v - 1, 1 / 2), (v + 1, 1 / 2)] := by
    intro v
    norm_num [moves, collect, normalise]
    intro h
    simp at h
  unfold updateNumbers
  simp only [List.map_cons, List.map_nil, hm, collect]
  exact ⟨_, rfl⟩

end Verif.Network

namespace Verif.Nn

/-- Specification: every index can be chosen, in some state of the generator of the process. -/
def Rich {W : Type} (R : Random W) : Prop := ∀ l, ∀ i ∈ l, ∃ w, (R.choice l w).1 = i

/-- C158 is violated for the data sets of pairs: no seed goes in, and with three samples or more the partner of a sample depends on the state of the generator of the process. -/
theorem C158_pairs_violated {W : Type} (R : Random W) (hR : Rich R) (m : Matrix) (hm : 3 ≤ m.size) (index fuel : Nat) :
    ∃ w w' j j' b b' v v', pair R m none (fuel + 1) index w = some ((j, b), v) ∧ pair R m none (fuel + 1) index w' = some ((j', b'), v') ∧ j ≠ j' := by
  obtain ⟨a, c, ha, hc, hac, ha', hc'⟩ : ∃ a c, a < m.size ∧ c < m.size ∧ a ≠ c ∧ a ≠ index ∧ c ≠ index := by
    by_cases h0 : index = 0
    · exact ⟨1, 2, by omega, by omega, by omega, by omega, by omega⟩
    · by_cases h1 : index = 1
      · exact ⟨0, 2, by omega, by omega, by omega, by omega, by omega⟩
      · exact ⟨0, 1, by omega, by omega, by omega, by omega, by omega⟩
  have key : ∀ i < m.size, i ≠ index → ∃ w v, pair R m none (fuel + 1) index w = some ((i, m.entry index i), v) := by
    intro i hi hne
    obtain ⟨w, hw⟩ := hR (List.range m.size) i (List.mem_range.2 hi)
    refine ⟨w, (R.choice (List.range m.size) w).2, ?_⟩
    unfold pair another
    have : List.range m.size ≠ [] := by
      intro h
      rw [List.range_eq_nil] at h
      omega
    simp only [if_neg this, hw, if_neg hne, Option.map_some]
  obtain ⟨w, v, h1⟩ := key a ha ha'
  obtain ⟨w', v', h2⟩ := key c hc hc'
  exact ⟨w, w', a, c, _, _, v, v', h1, h2, hac⟩

/-- The generator that counts. -/
example : ∃ R : Random Nat, Rich R := by
  refine ⟨⟨fun l w => (l.getD (w % l.length) 0, w + 1), ?_, fun w => (0, w)⟩, ?_⟩
  · intro l w h
    have hw := Nat.mod_lt w (List.length_pos_of_ne_nil h)
    simp only
    rw [List.getD_eq_getElem?_getD, List.getElem?_eq_getElem hw]
    exact List.getElem_mem hw
  · intro l i hi
    obtain ⟨k, hk, he⟩ := List.getElem_of_mem hi
    refine ⟨k, ?_⟩
    simp only
    rw [Nat.mod_eq_of_lt hk, List.getD_eq_getElem?_getD, List.getElem?_eq_getElem hk, he]
    rfl

end Verif.Nn
