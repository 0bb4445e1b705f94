import Verif.Graph.Props
/-
`simulate` (graphtools.py 396-420) after `set_parameters`: property C72.
-/
namespace Verif.Models

open Verif.Graph

variable {α R : Type}

/-- `model.get_input_values()` (probabilisticmodels.py 303-313) as the stored outputs of the inputs, in order. (Which components of
them are used is fixed by the connector, see `Verif.Models.C12_flatten`.) -/
def inputValues (g : G) (s : St α) (v : Nat) : List (Option α) := (g.parents v).map s.value

/-- `simulate`, graphtools.py 396-420, without nested MPI: `check v inputs` is `_check_input`, `sim n v inputs` what the `n`-th call of
`forward_simulate` returns. `none` is the result `None`. -/
def simulate (g : G) (check : Nat → List (Option α) → Bool) (sim : Nat → Nat → List (Option α) → R) (s : St α) :
    List Nat → Nat → Option (List R)
  | [], _ => some []
  | v :: vs, n =>
    if check v (inputValues g s v) then
      match simulate g check sim s vs (n + 1) with
      | none => none
      | some rs => some (sim n v (inputValues g s v) :: rs)
    else none

theorem simulate_spec (g : G) (check : Nat → List (Option α) → Bool) (sim : Nat → Nat → List (Option α) → R) (s : St α)
    (roots : List Nat) (n : Nat) :
    ((∀ v ∈ roots, check v (inputValues g s v) = true) → ∃ rs, simulate g check sim s roots n = some rs ∧ rs.length = roots.length ∧
      ∀ (i v : Nat), roots[i]? = some v → rs[i]? = some (sim (n + i) v (inputValues g s v))) ∧
    ((∃ v ∈ roots, check v (inputValues g s v) = false) → simulate g check sim s roots n = none) := by
  induction roots generalizing n with
  | nil => simp [simulate]
  | cons v vs ih =>
    obtain ⟨h1, h2⟩ := ih (n + 1)
    constructor
    · intro h
      obtain ⟨rs, a, b, c⟩ := h1 fun w hw => h w (by simp [hw])
      refine ⟨sim n v (inputValues g s v) :: rs, by simp [simulate, h v (by simp), a], by simp [b], ?_⟩
      intro i w hi
      cases i with
      | zero => simp only [List.getElem?_cons_zero, Option.some.injEq] at hi; subst hi; simp
      | succ i =>
        have := c i w (by simpa using hi)
        rw [List.getElem?_cons_succ, this, show n + 1 + i = n + (i + 1) by omega]
    · rintro ⟨w, hw, hf⟩
      rw [simulate]
      split
      · rename_i hv
        rcases List.mem_cons.1 hw with rfl | hw
        · rw [hf] at hv; simp at hv
        · rw [h2 ⟨w, hw, hf⟩]
      · rfl

/-- What the code does: after a successful `set_parameters(ps)`, `simulate` calls every simulator once, in order, with the entries of `ps` that belong to its inputs (at the
position of that input in the parameter order), the fixed values of its constants, and for arithmetic nodes the value stored before the call; it returns the results in the order of the
simulators, and `None` exactly if some simulator's own input check refuses. -/
theorem C72_exact (g : G) (roots : List Nat) (hap : RootsApart g roots) (s : St α) (hs : Clean s)
    (chk : (Nat → Option α) → Nat → α → Verdict) (ps : List α) (k : Nat) (hok : (setParameters g chk roots ps s).2 = .ok k)
    (check : Nat → List (Option α) → Bool) (sim : Nat → Nat → List (Option α) → R) :
    ∃ input : Nat → List (Option α),
      (∀ r, input r = (g.parents r).map fun p => if (g.kind p).isFree then ps[(order g roots).idxOf p]? else s.value p) ∧
      (∀ r ∈ roots, ∀ p ∈ g.parents r, (g.kind p).isFree = true → ps[(order g roots).idxOf p]? ≠ none) ∧
      ((∀ r ∈ roots, check r (input r) = true) →
        ∃ rs, simulate g check sim (setParameters g chk roots ps s).1 roots 0 = some rs ∧ rs.length = roots.length ∧
          ∀ (i r : Nat), roots[i]? = some r → rs[i]? = some (sim i r (input r))) ∧
      ((∃ r ∈ roots, check r (input r) = false) →
        simulate g check sim (setParameters g chk roots ps s).1 roots 0 = none) := by
  have key := setParameters_eq g chk ps roots hap s hs
  cases ha : assignInOrder chk ps (order g roots) 0 s.value with
  | error e =>
    rw [ha] at key
    rcases e with ⟨i | _, val⟩
    · simp only [hok] at key; exact absurd key.1 (by simp)
    · simp only [hok] at key; exact absurd key.1 (by simp)
  | ok r =>
    obtain ⟨val, k'⟩ := r
    rw [ha] at key
    simp only [hok, Except.ok.injEq] at key
    obtain ⟨rfl, hval, -⟩ := key
    obtain ⟨h1, h2, h3, h4⟩ := assign_ok chk ps (order g roots) 0 s.value val k (order_nodup g roots) ha
    have hk := h2 (Nat.zero_le _)
    have hfree : ∀ p ∈ order g roots, val p = ps[(order g roots).idxOf p]? ∧ ps[(order g roots).idxOf p]? ≠ none := by
      intro p hp
      have hi := List.idxOf_lt_length_of_mem hp
      have := congrArg (fun l : List (Option α) => l[(order g roots).idxOf p]?) h3
      simp only [List.getElem?_map, List.drop_zero, List.getElem?_take, if_pos hi] at this
      rw [List.getElem?_eq_getElem hi, List.getElem_idxOf hi, Option.map_some] at this
      have hi' : (order g roots).idxOf p < ps.length := by omega
      rw [List.getElem?_eq_getElem hi'] at this ⊢
      simp only [Option.map_some, Option.some.injEq] at this
      exact ⟨this, by simp⟩
    have hmem : ∀ r ∈ roots, ∀ p ∈ g.parents r, (g.kind p).isFree = true → p ∈ order g roots := by
      intro r hr p hp hf
      rw [mem_order]
      exact ⟨hf, r, hr, .input hp⟩
    refine ⟨_, fun r => rfl, fun r hr p hp hf => (hfree p (hmem r hr p hp hf)).2, ?_⟩
    have hin : ∀ r ∈ roots, inputValues g (setParameters g chk roots ps s).1 r =
        (g.parents r).map fun p => if (g.kind p).isFree then ps[(order g roots).idxOf p]? else s.value p := by
      intro r hr
      unfold inputValues
      apply List.map_congr_left
      intro p hp
      rw [hval]
      split
      · rename_i hf; exact (hfree p (hmem r hr p hp hf)).1
      · rename_i hf
        exact h4 p fun hm => hf ((mem_order g roots p).1 hm).1
    obtain ⟨s1, s2⟩ := simulate_spec g check sim (setParameters g chk roots ps s).1 roots 0
    constructor
    · intro h
      obtain ⟨rs, a, b, c⟩ := s1 fun v hv => by rw [hin v hv]; exact h v hv
      refine ⟨rs, a, b, fun i r hi => ?_⟩
      rw [c i r hi, hin r (List.mem_of_getElem? hi), Nat.zero_add]
    · rintro ⟨r, hr, h⟩
      exact s2 ⟨r, hr, by rw [hin r hr]; exact h⟩

/-- The values that follow from the vector `ps`: its entries for free parameters, the fixed values of constants, and for an arithmetic node the result `arith` of its operation on the values of its inputs. -/
structure Computed (g : G) (roots : List Nat) (ps : List α) (fixed : Nat → Option α) (arith : Nat → List (Option α) → Option α) (val : Nat → Option α) : Prop where
  free : ∀ p ∈ order g roots, val p = ps[(order g roots).idxOf p]?
  const : ∀ p, g.kind p = .hyper → val p = fixed p
  op : ∀ p, g.kind p = .op → val p = arith p ((g.parents p).map val)

/-- C72 if every arithmetic node among the inputs of the simulators already stores the value that follows from `ps` (in particular if there is none): after a successful
`set_parameters(ps)`, `simulate` calls every simulator once, in order, with the values that follow from `ps`.
Missing: arithmetic nodes that store another value, where it is false (`C72_stale_violated`). -/
theorem C72_simulate_at_parameters_partial (g : G) (roots : List Nat) (hap : RootsApart g roots) (s : St α) (hs : Clean s)
    (chk : (Nat → Option α) → Nat → α → Verdict) (ps : List α) (k : Nat) (hok : (setParameters g chk roots ps s).2 = .ok k)
    (arith : Nat → List (Option α) → Option α) (val : Nat → Option α) (hval : Computed g roots ps s.value arith val)
    (hop : ∀ r ∈ roots, ∀ p ∈ g.parents r, g.kind p = .op → s.value p = val p)
    (check : Nat → List (Option α) → Bool) (sim : Nat → Nat → List (Option α) → R) :
    ((∀ r ∈ roots, check r ((g.parents r).map val) = true) →
      ∃ rs, simulate g check sim (setParameters g chk roots ps s).1 roots 0 = some rs ∧ rs.length = roots.length ∧
        ∀ (i r : Nat), roots[i]? = some r → rs[i]? = some (sim i r ((g.parents r).map val))) ∧
    ((∃ r ∈ roots, check r ((g.parents r).map val) = false) →
      simulate g check sim (setParameters g chk roots ps s).1 roots 0 = none) := by
  obtain ⟨input, h1, -, h2, h3⟩ := C72_exact g roots hap s hs chk ps k hok check sim
  have he : ∀ r ∈ roots, input r = (g.parents r).map val := by
    intro r hr
    rw [h1 r]
    refine List.map_congr_left fun p hp => ?_
    cases hk : g.kind p with
    | hyper => rw [hval.const p hk]; rfl
    | op => rw [← hop r hr p hp hk]; rfl
    | _ => rw [hval.free p ((mem_order g roots p).2 ⟨by rw [hk]; rfl, r, hr, .input hp⟩)]; rfl
  constructor
  · intro h
    obtain ⟨rs, a, b, c⟩ := h2 fun r hr => by rw [he r hr]; exact h r hr
    exact ⟨rs, a, b, fun i r hi => by rw [c i r hi, he r (List.mem_of_getElem? hi)]⟩
  · rintro ⟨r, hr, h⟩
    exact h3 ⟨r, hr, by rw [he r hr]; exact h⟩

/-- C72 fails, in every graph, for every simulator one of whose inputs is an arithmetic node that stores a value other than the one that follows from `ps`: it is called with
something else than the values that follow from `ps`. -/
theorem C72_stale_violated (g : G) (roots : List Nat) (hap : RootsApart g roots) (s : St α) (hs : Clean s)
    (chk : (Nat → Option α) → Nat → α → Verdict) (ps : List α) (k : Nat) (hok : (setParameters g chk roots ps s).2 = .ok k)
    (arith : Nat → List (Option α) → Option α) (val : Nat → Option α) (_hval : Computed g roots ps s.value arith val)
    (i r p : Nat) (hi : roots[i]? = some r) (hp : p ∈ g.parents r) (hk : g.kind p = .op) (hst : s.value p ≠ val p) :
    ∃ ins, ins ≠ (g.parents r).map val ∧
      simulate g (fun _ _ => true) (fun i r x => (i, r, x)) (setParameters g chk roots ps s).1 roots 0 ≠ none ∧
      ∀ rs, simulate g (fun _ _ => true) (fun i r x => (i, r, x)) (setParameters g chk roots ps s).1 roots 0 = some rs → rs[i]? = some (i, r, ins) := by
  obtain ⟨input, h1, -, h2, -⟩ := C72_exact g roots hap s hs chk ps k hok (fun _ _ => true) (fun i r x => (i, r, x))
  obtain ⟨rs, a, b, c⟩ := h2 fun _ _ => rfl
  refine ⟨input r, fun he => ?_, by rw [a]; simp, fun rs' h => ?_⟩
  · rw [h1 r] at he
    have := List.map_inj_left.1 he p hp
    rw [hk] at this
    exact hst (by simpa [Kind.isFree] using this)
  · rw [a] at h
    cases h
    exact c i r hi

example : RootsApart exG [5, 6] ∧ Clean (St.blank : St Int) ∧
    (setParameters exG (fun _ _ _ => .accept) [5, 6] [10, 20, 30, 40] (St.blank : St Int)).2 = .ok 3 := by
  refine ⟨exG_apart, blank_clean, ?_⟩
  have key := setParameters_eq exG (fun _ _ _ => .accept) [10, 20, 30, 40] [5, 6] exG_apart (St.blank : St Int) blank_clean
  rw [exG_order] at key
  simp [assignInOrder] at key
  exact key.1

/-- A parameter (node 0), an arithmetic node on it (node 1, say `X + X`), a simulator using the arithmetic node (node 2). -/
def opG : G := G.ofTable [(.cont, []), (.op, [0, 0]), (.cont, [1])] (by decide)

/-- The values that follow from the vector `[50]` here: 50 for X and 100 for `X + X`. -/
example : Computed opG [2] [(50 : Int)] (fun _ => none) (fun _ l => match l with | [some a, some b] => some (a + b) | _ => none)
    (fun p => if p = 0 then some (50 : Int) else if p = 1 then some 100 else none) := by
  have hord : order opG [2] = [0] := by
    simp [order, above, unfold_eq, opG, G.ofTable, List.eraseDups_cons, Kind.isFree]
  refine ⟨fun p hp => ?_, fun p hp => ?_, fun p hp => ?_⟩
  · rw [hord] at hp ⊢
    obtain rfl : p = 0 := by simpa using hp
    rfl
  · match p with
    | 0 => simp [opG, G.ofTable] at hp
    | 1 => simp [opG, G.ofTable] at hp
    | 2 => simp [opG, G.ofTable] at hp
    | p + 3 => simp
  · match p with
    | 0 => simp [opG, G.ofTable] at hp
    | 1 => simp [opG, G.ofTable]
    | 2 => simp [opG, G.ofTable] at hp
    | p + 3 => simp [opG, G.ofTable] at hp

/-- C72 fails with arithmetic nodes: X was 1 and `X + X` was 2; after `set_parameters([50])` the simulator is still run at 2. -/
theorem C72_arithmetic_violated :
    ∃ s : St Int, Clean s ∧ s.value 0 = some 1 ∧ s.value 1 = some 2 ∧
      (setParameters opG (fun _ _ _ => .accept) [2] [50] s).2 = .ok 1 ∧
      (setParameters opG (fun _ _ _ => .accept) [2] [50] s).1.value 0 = some 50 ∧
      ∀ sim : Nat → Nat → List (Option Int) → R,
        simulate opG (fun _ _ => true) sim (setParameters opG (fun _ _ _ => .accept) [2] [50] s).1 [2] 0 = some [sim 0 2 [some 2]] := by
  have hap : RootsApart opG [2] := by
    intro r hr r' hr' hanc
    simp only [List.mem_singleton] at hr hr'
    subst hr; subst hr'
    obtain ⟨w, hw⟩ := hanc.exists_parent
    match w with
    | 0 => simp [opG, G.ofTable] at hw
    | 1 => simp [opG, G.ofTable] at hw
    | 2 => simp [opG, G.ofTable] at hw
    | w + 3 => simp [opG, G.ofTable] at hw
  have hord : order opG [2] = [0] := by
    simp [order, above, unfold_eq, opG, G.ofTable, List.eraseDups_cons, Kind.isFree]
  let s : St Int := ⟨fun _ => false, fun _ => false, fun v => if v = 0 then some 1 else if v = 1 then some 2 else none⟩
  have hs : Clean s := fun v => rfl
  have key := setParameters_eq opG (fun _ _ _ => .accept) [50] [2] hap s hs
  rw [hord] at key
  simp only [assignInOrder, List.getElem?_cons_zero] at key
  obtain ⟨k1, k2, -⟩ := key
  refine ⟨s, hs, rfl, rfl, k1, by rw [k2]; simp, fun sim => ?_⟩
  have : inputValues opG (setParameters opG (fun _ _ _ => .accept) [2] [50] s).1 2 = [some 2] := by
    unfold inputValues
    rw [k2]
    simp [opG, G.ofTable, s]
  simp [simulate, this]

end Verif.Models
