import Verif.Graph.Props
import Verif.Graph.LawProps
/-
C221: the order in which the observed models are handed to a sampler. A vector of parameters belongs to an assignment `x` of values to parameters; it lists them in the order of the graph,
which depends on the order of the models.
-/
namespace Verif.Graph

variable {α M : Type} [CommMonoid M] (g : G)

/-! ### Specification -/

/-- The vector that gives every parameter its value under `x`, for this order of the models. -/
def vectorOf (roots : List Nat) (x : Nat → α) : List α := (order g roots).map x

/-! ### Proofs -/

omit [CommMonoid M] in
/-- C221: whatever the order of the models, the parameters are the same. -/
theorem C221_parameters (roots roots' : List Nat) (hp : roots.Perm roots') : (order g roots).Perm (order g roots') := by
  rw [List.perm_ext_iff_of_nodup (order_nodup g roots) (order_nodup g roots')]
  intro v
  rw [mem_order, mem_order]
  simp only [hp.mem_iff]

theorem apart_perm {roots roots' : List Nat} (hp : roots.Perm roots') (hap : RootsApart g roots) : RootsApart g roots' :=
  fun r hr r' hr' => hap r (hp.mem_iff.2 hr) r' (hp.mem_iff.2 hr')

theorem stored (roots : List Nat) (hap : RootsApart g roots) (s : St α) (hs : Clean s) (chk : (Nat → Option α) → Nat → α → Verdict) (x : Nat → α) (k : Nat)
    (hok : (setParameters g chk roots (vectorOf g roots x) s).2 = .ok k) :
    (setParameters g chk roots (vectorOf g roots x) s).1.value = fun v => if v ∈ order g roots then some (x v) else s.value v := by
  have key := setParameters_eq g chk (vectorOf g roots x) roots hap s hs
  revert key
  split
  · rename_i val k' he
    rintro ⟨-, hv, -⟩
    obtain ⟨-, -, h3, h4⟩ := assign_ok chk (vectorOf g roots x) _ _ _ _ _ (order_nodup g roots) he
    funext v
    rw [hv]
    by_cases hm : v ∈ order g roots
    · rw [if_pos hm]
      obtain ⟨i, hi, rfl⟩ := List.getElem_of_mem hm
      have := congrArg (fun l => l[i]?) h3
      simp only [vectorOf, List.drop_zero, List.getElem?_map, List.getElem?_eq_getElem hi, Option.map_some] at this
      rw [List.take_of_length_le (by simp)] at this
      simpa [hi] using this
    · rw [if_neg hm, h4 v hm]
  · rintro ⟨h, -⟩; rw [h] at hok; cases hok
  · rintro ⟨h, -⟩; rw [h] at hok; cases hok

theorem above_perm (roots roots' : List Nat) (hp : roots.Perm roots') : (above g roots).Perm (above g roots') := hp.flatMap_right _

/-- C221: the prior density of an assignment of values does not depend on the order of the models, as long as both orders accept its vector; after both calls the models hold the same values. -/
theorem C221_density (roots roots' : List Nat) (hp : roots.Perm roots') (hap : RootsApart g roots) (s : St α) (hs : Clean s)
    (chk : (Nat → Option α) → Nat → α → Verdict) (dens : (Nat → Option α) → Nat → Option α → M) (x : Nat → α) (k k' : Nat)
    (hok : (setParameters g chk roots (vectorOf g roots x) s).2 = .ok k) (hok' : (setParameters g chk roots' (vectorOf g roots' x) s).2 = .ok k') :
    (pdfOfPrior g chk dens roots (vectorOf g roots x) s).2 = (pdfOfPrior g chk dens roots' (vectorOf g roots' x) s).2 ∧
    (setParameters g chk roots (vectorOf g roots x) s).1.value = (setParameters g chk roots' (vectorOf g roots' x) s).1.value := by
  have hap' := apart_perm g hp hap
  have ho := C221_parameters g roots roots' hp
  have hv : (setParameters g chk roots (vectorOf g roots x) s).1.value = (setParameters g chk roots' (vectorOf g roots' x) s).1.value := by
    rw [stored g roots hap s hs chk x k hok, stored g roots' hap' s hs chk x k' hok']
    funext v
    simp only [ho.mem_iff]
  refine ⟨?_, hv⟩
  rcases pdfOfPrior_eq g chk dens roots hap (vectorOf g roots x) s hs with ⟨p1, -⟩ | ⟨-, p2, -⟩
  · rw [hok] at p1; cases p1
  rcases pdfOfPrior_eq g chk dens roots' hap' (vectorOf g roots' x) s hs with ⟨q1, -⟩ | ⟨-, q2, -⟩
  · rw [hok'] at q1; cases q1
  rw [p2, q2, hv]
  have hx : ∀ (L : List Nat), L.Nodup → ∀ v, (if v ∈ L then (L.map x)[L.idxOf v]? else none) = if v ∈ L then some (x v) else none := by
    intro L hL v
    by_cases h : v ∈ L
    · rw [if_pos h, if_pos h, List.getElem?_map, List.getElem?_idxOf h]; rfl
    · rw [if_neg h, if_neg h]
  have hd : ∀ v, (if v ∈ order g roots then (vectorOf g roots x)[(order g roots).idxOf v]? else none) =
      if v ∈ order g roots' then (vectorOf g roots' x)[(order g roots').idxOf v]? else none := by
    intro v
    rw [vectorOf, vectorOf, hx _ (order_nodup g roots), hx _ (order_nodup g roots')]
    simp only [ho.mem_iff]
  simp only [hd]
  congr 1
  have ha := above_perm g roots roots' hp
  unfold pdfVal
  congr 1
  · unfold prodOver
    refine (List.Perm.map _ ?_).prod_eq
    rw [List.perm_ext_iff_of_nodup nodup_fresh nodup_fresh]
    intro v
    rw [mem_fresh, mem_fresh, (ha.filter _).mem_iff]
  · exact ((ha.filter _).map _).prod_eq

/-- C221: if the checks of values do not look at other stored values, an assignment of values is accepted in one order exactly if it is in the other. -/
theorem C221_acceptance_partial (roots roots' : List Nat) (hp : roots.Perm roots') (hap : RootsApart g roots) (s : St α) (hs : Clean s) (inSupport : Nat → α → Bool) (x : Nat → α) :
    (∃ k, (setParameters g (fun _ v x => if inSupport v x then .accept else .reject) roots (vectorOf g roots x) s).2 = .ok k) ↔
      ∃ k, (setParameters g (fun _ v x => if inSupport v x then .accept else .reject) roots' (vectorOf g roots' x) s).2 = .ok k := by
  have hall : ∀ L : List Nat, (∀ i (hi : i < L.length), inSupport L[i] ((L.map x)[i]'(by simpa using hi)) = true) ↔ ∀ v ∈ L, inSupport v (x v) = true := by
    intro L
    simp only [List.getElem_map]
    constructor
    · intro h v hv
      obtain ⟨i, hi, rfl⟩ := List.getElem_of_mem hv
      exact h i hi
    · intro h i hi
      exact h _ (List.getElem_mem hi)
  rw [C06_acceptance_partial g roots hap s hs inSupport (vectorOf g roots x) (by simp [vectorOf]),
    C06_acceptance_partial g roots' (apart_perm g hp hap) s hs inSupport (vectorOf g roots' x) (by simp [vectorOf])]
  refine (hall _).trans (Iff.trans ?_ (hall _).symm)
  simp only [(C221_parameters g roots roots' hp).mem_iff]

/-! ### Two models -/

/-- A length 0, a position 1 between zero and the length, one model observing the position (2) and one observing the length (3). -/
def pairG : G := G.ofTable [(.cont, []), (.cont, [0]), (.cont, [1]), (.cont, [0])] (by decide)

theorem pairG_orders : order pairG [2, 3] = [1, 0] ∧ order pairG [3, 2] = [0, 1] := by
  constructor <;> simp [order, above, unfold_eq, pairG, G.ofTable, List.eraseDups_cons, Kind.isFree]

theorem pairG_apart : RootsApart pairG [2, 3] := by
  have h : ∀ a v, Anc pairG a v → a < 2 := by
    intro a v h
    induction h with
    | @input v hp =>
      simp only [pairG, G.ofTable] at hp
      split at hp
      · rename_i hv
        simp only [List.length_cons, List.length_nil] at hv
        rcases (by omega : v = 0 ∨ v = 1 ∨ v = 2 ∨ v = 3) with rfl | rfl | rfl | rfl <;> simp at hp <;> omega
      · simp at hp
    | step _ _ ih => exact ih
  intro r hr r' _ ha
  have := h r r' ha
  simp at hr
  omega

/-- C221 fails for the acceptance of parameters: the length 10 and the position 5 are accepted if the model observing the length comes first; if it comes last, the position is compared with the length of before and
refused. -/
theorem C221_acceptance_violated :
    let chk : (Nat → Option Int) → Nat → Int → Verdict := fun val v x =>
      if v = 1 then (match val 0 with | some u => if 0 ≤ x ∧ x ≤ u then .accept else .reject | none => .raise) else .accept
    let x : Nat → Int := fun v => if v = 0 then 10 else 5
    ∃ s : St Int, Clean s ∧ (setParameters pairG chk [3, 2] (vectorOf pairG [3, 2] x) s).2 = .ok 2 ∧
      (setParameters pairG chk [2, 3] (vectorOf pairG [2, 3] x) s).2 = .error (.rejected 0) := by
  intro chk x
  refine ⟨⟨fun _ => false, fun _ => false, fun v => if v = 0 then some 1 else none⟩, fun _ => rfl, ?_, ?_⟩
  · have key := setParameters_eq pairG chk (vectorOf pairG [3, 2] x) [3, 2] (apart_perm _ (List.Perm.swap _ _ _) pairG_apart)
      (⟨fun _ => false, fun _ => false, fun v => if v = 0 then some 1 else none⟩ : St Int) (fun _ => rfl)
    rw [pairG_orders.2] at key
    simp [assignInOrder, chk, vectorOf, pairG_orders.2, x] at key ⊢
    exact key.1
  · have key := setParameters_eq pairG chk (vectorOf pairG [2, 3] x) [2, 3] pairG_apart
      (⟨fun _ => false, fun _ => false, fun v => if v = 0 then some 1 else none⟩ : St Int) (fun _ => rfl)
    rw [pairG_orders.1] at key
    simp [assignInOrder, chk, vectorOf, pairG_orders.1, x] at key ⊢
    exact key.1

/-- The density of an assignment on `pairG`, with a check that accepts everything and densities that depend on the inputs. -/
example (dens : (Nat → Option Int) → Nat → Option Int → ℚ) (x : Nat → Int) :
    (pdfOfPrior pairG (fun _ _ _ => .accept) dens [2, 3] [x 1, x 0] St.blank).2 = (pdfOfPrior pairG (fun _ _ _ => .accept) dens [3, 2] [x 0, x 1] St.blank).2 := by
  have h1 := setParameters_eq pairG (fun _ _ _ => .accept) (vectorOf pairG [2, 3] x) [2, 3] pairG_apart (St.blank : St Int) blank_clean
  have h2 := setParameters_eq pairG (fun _ _ _ => .accept) (vectorOf pairG [3, 2] x) [3, 2] (apart_perm _ (List.Perm.swap _ _ _) pairG_apart) (St.blank : St Int) blank_clean
  rw [pairG_orders.1] at h1
  rw [pairG_orders.2] at h2
  simp [assignInOrder, vectorOf, pairG_orders.1] at h1
  simp [assignInOrder, vectorOf, pairG_orders.2] at h2
  have := (C221_density pairG [2, 3] [3, 2] (List.Perm.swap _ _ _) pairG_apart St.blank blank_clean (fun _ _ _ => .accept) dens x 2 2
    (by simpa [vectorOf, pairG_orders.1] using h1.1) (by simpa [vectorOf, pairG_orders.2] using h2.1)).1
  simpa [vectorOf, pairG_orders.1, pairG_orders.2] using this

end Verif.Graph
