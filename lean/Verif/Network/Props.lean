import Verif.Network.Model
import Verif.Kernel.Props
import Verif.Chance
import Mathlib.Tactic.Ring
import Mathlib.Tactic.NormNum
import Mathlib.Tactic.Linarith
/-
C122: the random walk on a network moves to neighbours in proportion to the weights of the edges, and its mass function says so.
-/
namespace Verif.Network

/-! ### Specification -/

/-- The probability with which a list of outcomes with probabilities gives `b`. -/
noncomputable def mass {B : Type} [DecidableEq B] (l : List (B × ℝ)) (b : B) : ℝ := (l.map fun p => if p.1 = b then p.2 else 0).sum

/-- The transition probabilities of the random walk on the network: from `v` to the neighbour `x` in proportion to the weight of the edge. -/
noncomputable def transition (nbrs : Int → List Int) (weight : Int → Int → ℝ) (v x : Int) : ℝ :=
  if x ∈ nbrs v then weight v x / ((nbrs v).map (weight v)).sum else 0

/-- Node `v` has neighbours, each listed once, all joined to it by edges with positive weights. -/
structure Connected (net : Net) (weight : Int → Int → ℝ) (v : Int) : Prop where
  nonempty : net.nbrs v ≠ []
  nodup : (net.nbrs v).Nodup
  edge : ∀ x ∈ net.nbrs v, net.weight v x = some (weight v x)
  pos : ∀ x ∈ net.nbrs v, 0 < weight v x

/-! ### Lemmas -/

theorem weights_collect {net : Net} {weight : Int → Int → ℝ} {v : Int} (h : Connected net weight v) :
    collect ((net.nbrs v).map (net.weight v)) = some ((net.nbrs v).map (weight v)) := by
  rw [collect_eq_some, List.map_map]
  exact List.map_congr_left h.edge

theorem sum_pos {l : List Int} {f : Int → ℝ} (hne : l ≠ []) (h : ∀ x ∈ l, 0 < f x) : 0 < (l.map f).sum := by
  cases l with
  | nil => exact absurd rfl hne
  | cons a l =>
    have h1 := h a (by simp)
    have : 0 ≤ (l.map f).sum := List.sum_nonneg fun y hy => by
      obtain ⟨x, hx, rfl⟩ := List.mem_map.mp hy
      exact (h x (by simp [hx])).le
    simp only [List.map_cons, List.sum_cons]
    linarith

theorem moves_eq {net : Net} {weight : Int → Int → ℝ} {v : Int} (h : Connected net weight v) :
    moves net v v = some ((net.nbrs v).map fun x => (x, weight v x / ((net.nbrs v).map (weight v)).sum)) := by
  have hs := sum_pos h.nonempty h.pos
  unfold moves
  rw [weights_collect h]
  simp only
  rw [if_neg]
  · rw [normalise, List.map_map]
    congr 1
    generalize ((net.nbrs v).map (weight v)).sum = c
    generalize net.nbrs v = l
    induction l with
    | nil => rfl
    | cons a l ih => simpa using ih
  · rw [not_or, not_or]
    refine ⟨by simpa using h.nonempty, hs.ne', ?_⟩
    rintro ⟨p, hp, hlt⟩
    simp only [normalise, List.mem_map] at hp
    obtain ⟨_, ⟨x, hx, rfl⟩, rfl⟩ := hp
    exact absurd hlt (not_lt.mpr (div_nonneg (h.pos x hx).le hs.le))

theorem mass_cons {B : Type} [DecidableEq B] (p : B × ℝ) (l : List (B × ℝ)) (b : B) : mass (p :: l) b = (if p.1 = b then p.2 else 0) + mass l b := by
  simp [mass]

theorem mass_map_nodup (l : List Int) (f : Int → ℝ) (hl : l.Nodup) (x : Int) : mass (l.map fun y => (y, f y)) x = if x ∈ l then f x else 0 := by
  induction l with
  | nil => simp [mass]
  | cons a l ih =>
    rw [List.nodup_cons] at hl
    rw [List.map_cons, mass_cons, ih hl.2]
    by_cases h : a = x
    · subst h; simp [hl.1]
    · simp [h, Ne.symm h]

theorem joint_length (ds : List (List (Int × ℝ))) : ∀ p ∈ joint ds, p.1.length = ds.length := by
  induction ds with
  | nil => simp [joint]
  | cons d ds ih =>
    intro p hp
    simp only [joint, List.mem_flatMap, List.mem_map] at hp
    obtain ⟨a, _, q, hq, rfl⟩ := hp
    simp [ih q hq]

theorem mass_joint_cons (d : List (Int × ℝ)) (ds : List (List (Int × ℝ))) (y : Int) (ys : List Int) : mass (joint (d :: ds)) (y :: ys) = mass d y * mass (joint ds) ys := by
  unfold mass
  rw [joint, List.map_flatMap, Chance.sum_flatMap, mul_comm, ← Chance.map_mul_sum]
  congr 1
  apply List.map_congr_left
  intro a _
  rw [List.map_map, mul_comm, ← Chance.map_mul_sum]
  congr 1
  apply List.map_congr_left
  intro q _
  simp only [Function.comp, List.cons.injEq]
  by_cases h1 : a.1 = y <;> by_cases h2 : q.1 = ys <;> simp [h1, h2]

theorem mass_joint (f : Int → List (Int × ℝ)) (vs ys : List Int) (hl : ys.length = vs.length) :
    mass (joint (vs.map f)) ys = (List.zipWith (fun v y => mass (f v) y) vs ys).prod := by
  induction vs generalizing ys with
  | nil =>
    have : ys = [] := by simpa using hl
    subst this
    simp [joint, mass]
  | cons v vs ih => cases ys with
    | nil => simp at hl
    | cons y ys => rw [List.map_cons, mass_joint_cons, ih ys (by simpa using hl)]; simp

theorem joint_total (ds : List (List (Int × ℝ))) (h : ∀ d ∈ ds, (d.map (·.2)).sum = 1) : ((joint ds).map (·.2)).sum = 1 := by
  induction ds with
  | nil => simp [joint]
  | cons d ds ih =>
    rw [joint, List.map_flatMap, Chance.sum_flatMap]
    have : (d.map fun b => ((List.map (fun q => (b.1 :: q.1, b.2 * q.2)) (joint ds)).map (·.2)).sum) = d.map fun b => b.2 := by
      apply List.map_congr_left
      intro b _
      rw [List.map_map]
      have := Chance.map_mul_sum (joint ds) (fun q => q.2) b.2
      rw [ih fun d hd => h d (by simp [hd]), mul_one] at this
      exact this
    rw [this]
    exact h d (by simp)

theorem joint_mem (ds : List (List (Int × ℝ))) : ∀ p ∈ joint ds, List.Forall₂ (fun (d : List (Int × ℝ)) x => ∃ r, (x, r) ∈ d) ds p.1 := by
  induction ds with
  | nil => simp [joint]
  | cons d ds ih =>
    intro p hp
    simp only [joint, List.mem_flatMap, List.mem_map] at hp
    obtain ⟨a, ha, q, hq, rfl⟩ := hp
    exact .cons ⟨a.2, ha⟩ (ih q hq)

theorem map_div_sum (l : List Int) (f : Int → ℝ) (h : (l.map f).sum ≠ 0) : (l.map fun x => f x / (l.map f).sum).sum = 1 := by
  have : ∀ c : ℝ, (l.map fun x => f x / c).sum = (l.map f).sum / c := by
    intro c
    clear h
    induction l with
    | nil => simp
    | cons a l ih => simp [ih, add_div]
  rw [this, div_self h]

theorem updateArrays_eq {net : Net} {weight : Int → Int → ℝ} {blocks : List (List Int)} (h : ∀ v ∈ blocks.flatten, Connected net weight v) :
    updateArrays net blocks = some ((joint (blocks.flatten.map fun v => (net.nbrs v).map fun x => (x, weight v x / ((net.nbrs v).map (weight v)).sum))).map fun p =>
      (Kernel.splitBlocks (blocks.map List.length) p.1, p.2)) := by
  unfold updateArrays
  have : collect (blocks.flatten.map fun v => moves net v v) =
      some (blocks.flatten.map fun v => (net.nbrs v).map fun x => (x, weight v x / ((net.nbrs v).map (weight v)).sum)) := by
    rw [collect_eq_some, List.map_map]
    exact List.map_congr_left fun v hv => moves_eq (h v hv)
  rw [this]
  rfl

theorem flatten_inj {A : Type} (a b : List (List A)) (h1 : a.map List.length = b.map List.length) (h2 : a.flatten = b.flatten) : a = b := by
  induction a generalizing b with
  | nil => cases b with
    | nil => rfl
    | cons _ _ => simp at h1
  | cons x a ih => cases b with
    | nil => simp at h1
    | cons y b =>
      simp only [List.map_cons, List.cons.injEq] at h1
      simp only [List.flatten_cons] at h2
      obtain ⟨e1, e2⟩ := List.append_inj h2 h1.1
      rw [e1, ih b h1.2 e2]

/-! ### Properties -/

/-- C122: `update` of the network kernel, for parameters given as arrays: every result has blocks of the old sizes, all entries of the result are neighbours of the current ones, the probability of each
result is the product of the transition probabilities, and the probabilities of all results sum to one. -/
theorem C122_update (net : Net) (weight : Int → Int → ℝ) (blocks : List (List Int)) (h : ∀ v ∈ blocks.flatten, Connected net weight v) :
    ∃ outs, updateArrays net blocks = some outs ∧ (outs.map (·.2)).sum = 1 ∧
      (∀ o ∈ outs, o.1.map List.length = blocks.map List.length ∧ List.Forall₂ (fun v x => x ∈ net.nbrs v) blocks.flatten o.1.flatten) ∧
      ∀ y : List (List Int), y.map List.length = blocks.map List.length → mass outs y = (List.zipWith (transition net.nbrs weight) blocks.flatten y.flatten).prod := by
  refine ⟨_, updateArrays_eq h, ?_, ?_, ?_⟩
  · rw [List.map_map]
    apply joint_total
    intro d hd
    obtain ⟨v, hv, rfl⟩ := List.mem_map.mp hd
    rw [List.map_map]
    exact map_div_sum _ _ (sum_pos (h v hv).nonempty (h v hv).pos).ne'
  · intro o ho
    obtain ⟨p, hp, rfl⟩ := List.mem_map.mp ho
    have hl := joint_length _ p hp
    rw [List.length_map] at hl
    have hb := Kernel.C26_blocks (blocks.map List.length) p.1 (by rw [hl, List.length_flatten])
    refine ⟨hb.2, ?_⟩
    simp only
    rw [hb.1]
    have := joint_mem _ p hp
    rw [List.forall₂_map_left_iff] at this
    refine this.imp ?_
    rintro v x ⟨r, hr⟩
    obtain ⟨z, hz, e⟩ := List.mem_map.mp hr
    have : z = x := (Prod.mk.inj e).1
    exact this ▸ hz
  · intro y hy
    have hyl : y.flatten.length = blocks.flatten.length := by rw [List.length_flatten, List.length_flatten, hy]
    have e1 : mass ((joint (blocks.flatten.map fun v => (net.nbrs v).map fun x => (x, weight v x / ((net.nbrs v).map (weight v)).sum))).map fun p =>
        (Kernel.splitBlocks (blocks.map List.length) p.1, p.2)) y =
        mass (joint (blocks.flatten.map fun v => (net.nbrs v).map fun x => (x, weight v x / ((net.nbrs v).map (weight v)).sum))) y.flatten := by
      unfold mass
      rw [List.map_map]
      congr 1
      apply List.map_congr_left
      intro p hp
      have hl := joint_length _ p hp
      rw [List.length_map] at hl
      have hb := Kernel.C26_blocks (blocks.map List.length) p.1 (by rw [hl, List.length_flatten])
      simp only [Function.comp]
      have : Kernel.splitBlocks (blocks.map List.length) p.1 = y ↔ p.1 = y.flatten := by
        constructor
        · intro e; rw [← e, hb.1]
        · intro e
          exact flatten_inj _ _ (hb.2.trans hy.symm) (hb.1.trans e)
      by_cases hc : p.1 = y.flatten
      · rw [if_pos hc, if_pos (this.mpr hc)]
      · rw [if_neg hc, if_neg (mt this.mp hc)]
    rw [e1, mass_joint _ _ _ hyl]
    have : ∀ (vs ys : List Int), (∀ v ∈ vs, Connected net weight v) →
        (List.zipWith (fun v y => mass ((net.nbrs v).map fun x => (x, weight v x / ((net.nbrs v).map (weight v)).sum)) y) vs ys) = List.zipWith (transition net.nbrs weight) vs ys := by
      intro vs
      induction vs with
      | nil => simp
      | cons v vs ih =>
        intro ys hv
        cases ys with
        | nil => simp
        | cons y ys =>
          simp only [List.zipWith_cons_cons]
          rw [ih ys fun u hu => hv u (by simp [hu]), mass_map_nodup _ (fun x => weight v x / ((net.nbrs v).map (weight v)).sum) (hv v (by simp)).nodup y]
          rfl
    rw [this _ _ h]

theorem factor_eq {net : Net} {weight : Int → Int → ℝ} {v : Int} (h : Connected net weight v) (x : Int) : factor net v x = some (transition net.nbrs weight v x) := by
  unfold factor transition
  rw [weights_collect h]
  simp only
  by_cases hx : x ∈ net.nbrs v
  · rw [if_pos hx, if_pos hx, if_neg (sum_pos h.nonempty h.pos).ne', normalise]
    have hi : (net.nbrs v).idxOf x < (net.nbrs v).length := List.idxOf_lt_length_of_mem hx
    rw [List.getElem?_eq_getElem (by simpa using hi)]
    simp
  · rw [if_neg hx, if_neg hx]

theorem pmfNumbers_eq {net : Net} {weight : Int → Int → ℝ} (mean x : List Int) (h : ∀ v ∈ mean, Connected net weight v) (hl : mean.length ≤ x.length) :
    pmfNumbers net mean x = some (List.zipWith (transition net.nbrs weight) mean x).prod := by
  induction mean generalizing x with
  | nil => simp [pmfNumbers]
  | cons v mean ih => cases x with
    | nil => simp at hl
    | cons y x =>
      rw [pmfNumbers, factor_eq (h v (by simp)), ih x (fun u hu => h u (by simp [hu])) (by simpa using hl)]
      simp

/-- C122: for models with one output each, the mass function at `y` is the product of the transition probabilities. -/
theorem C122_pmf (net : Net) (weight : Int → Int → ℝ) (mean y : List Int) (h : ∀ v ∈ mean, Connected net weight v) (hl : y.length = mean.length) :
    pmfArrays net (mean.map fun v => [v]) (y.map fun v => [v]) = some (List.zipWith (transition net.nbrs weight) mean y).prod := by
  have e : ∀ l : List Int, (l.map fun v => [v]).flatten = l := by
    intro l
    induction l with
    | nil => rfl
    | cons a l ih => simp [ih]
  unfold pmfArrays
  rw [e, List.take_of_length_le (by simp [hl]), List.map_map]
  have : collect (y.map (single ∘ fun v => [v])) = some y := by
    rw [collect_eq_some]; rfl
  rw [this]
  exact pmfNumbers_eq mean y h (by omega)

/-- C122: for models with one output each, the mass function gives the probability with which `update` returns `y`. -/
theorem C122_partial (net : Net) (weight : Int → Int → ℝ) (values y : List Int) (h : ∀ v ∈ values, Connected net weight v) (hl : y.length = values.length) :
    ∃ outs, updateArrays net (values.map fun v => [v]) = some outs ∧ pmfArrays net (values.map fun v => [v]) (y.map fun v => [v]) = some (mass outs (y.map fun v => [v])) := by
  have e : ∀ l : List Int, (l.map fun v => [v]).flatten = l := by
    intro l
    induction l with
    | nil => rfl
    | cons a l ih => simp [ih]
  obtain ⟨outs, h1, -, -, h4⟩ := C122_update net weight (values.map fun v => [v]) (by rw [e]; exact h)
  refine ⟨outs, h1, ?_⟩
  rw [C122_pmf net weight values y h hl, h4 _ (by rw [List.map_map, List.map_map]; exact List.ext_getElem (by simp [hl]) (by simp)), e, e]

/-- C122, violated part: if the current values are numbers, the weights are read from node 1. If node 1 is not joined to one of the neighbours of a value, `update` raises an exception; so it does for
every neighbour of node 1, unless node 1 is joined to itself. -/
theorem C122_numbers_violated (net : Net) (values : List Int) (v x : Int) (hv : v ∈ values) (hx : x ∈ net.nbrs v) (h1 : net.weight 1 x = none) : updateNumbers net values = none := by
  unfold updateNumbers
  have hm : moves net 1 v = none := by
    unfold moves
    have : collect ((net.nbrs v).map (net.weight 1)) = none := by
      rw [collect_eq_none]
      exact List.mem_map.mpr ⟨x, hx, h1⟩
    rw [this]
  have : collect (values.map (moves net 1)) = none := by
    rw [collect_eq_none]
    exact List.mem_map.mpr ⟨v, hv, hm⟩
  rw [this]
  rfl

/-- C122, violated part: where `update` does not raise for numbers, it can have probabilities that the mass function does not have. -/
theorem C122_weights_violated : ∃ (net : Net) (weight : Int → Int → ℝ), (∀ v, Connected net weight v) ∧
    ∃ outs, updateNumbers net [2] = some outs ∧ mass outs [1] = 1/2 ∧ pmfNumbers net [2] [1] = some (1/4) := by
  let wt : Int → Int → ℝ := fun u x => if u = 2 ∧ x = 2 then 3 else 1
  have hc : ∀ v, Connected ⟨fun _ => [1, 2], fun u x => some (wt u x)⟩ wt v := by
    intro v
    refine ⟨by simp, by simp, fun _ _ => rfl, fun x _ => ?_⟩
    simp only [wt]
    split <;> norm_num
  refine ⟨⟨fun _ => [1, 2], fun u x => some (wt u x)⟩, wt, hc, ?_⟩
  have hm : moves ⟨fun _ => [1, 2], fun u x => some (wt u x)⟩ 1 2 = some [(1, 1/2), (2, 1/2)] := by
    unfold moves
    have : collect (([1, 2] : List Int).map fun x => some (wt 1 x)) = some [1, 1] := by
      rw [collect_eq_some]; simp [wt]
    simp only [this]
    rw [if_neg]
    · norm_num [normalise]
    · norm_num [normalise]
      simp
  refine ⟨joint [[(1, 1/2), (2, 1/2)]], ?_, ?_, ?_⟩
  · unfold updateNumbers
    simp [hm, collect]
  · norm_num [joint, mass]
  · rw [pmfNumbers_eq [2] [1] (fun v _ => hc v) (by simp)]
    norm_num [transition, wt]

/-- C122, violated part: for a model with two or more outputs the mass function raises an exception, whatever the values are. -/
theorem C122_dimension_violated (net : Net) (mean x : List (List Int)) (b : List Int) (hm : mean.flatten ≠ []) (hx : x.head? = some b) (hb : 2 ≤ b.length) : pmfArrays net mean x = none := by
  cases x with
  | nil => simp at hx
  | cons a x =>
    have : a = b := by simpa using hx
    subst this
    unfold pmfArrays
    have : mean.flatten.length = mean.flatten.length - 1 + 1 := by
      have : 0 < mean.flatten.length := List.length_pos_iff.mpr hm
      omega
    rw [this, List.take_succ_cons]
    have hs : single a = none := by
      match a, hb with
      | _ :: _ :: _, _ => rfl
    have : collect ((a :: List.take (mean.flatten.length - 1) x).map single) = none := by
      rw [collect_eq_none]; simp [hs]
    rw [this]

/-- The hypotheses can be met: a triangle with different weights. -/
example : Connected ⟨fun v => if v = 1 then [2, 3] else if v = 2 then [1, 3] else [1, 2], fun u x => some (u + x)⟩ (fun u x => u + x) 2 :=
  ⟨by simp, by decide, by simp, by intro x hx; simp at hx; rcases hx with rfl | rfl <;> norm_num⟩

end Verif.Network
