import Verif.Graph.PropsLemmas
/-
Concrete graphs used to show that the hypotheses of the property theorems can be met, and as counterexamples.
-/
namespace Verif.Graph

/-- A graph given by a table: kind and inputs of node 0, 1, 2, ... -/
def G.ofTable (t : List (Kind × List Nat))
    (h : ∀ i (hi : i < t.length), (∀ p ∈ (t[i]).2, p < i) ∧ ((t[i]).1 = .hyper → (t[i]).2 = [])) : G where
  kind v := if hv : v < t.length then (t[v]).1 else .hyper
  parents v := if hv : v < t.length then (t[v]).2 else []
  lt_of_parent := by
    intro v p hp
    by_cases hv : v < t.length
    · simp only [hv, dite_true] at hp; exact (h v hv).1 p hp
    · simp [hv] at hp
  hyper_leaf := by
    intro v hk
    by_cases hv : v < t.length
    · simp only [hv, dite_true] at hk ⊢; exact (h v hv).2 hk
    · simp [hv]

/-- Hyperparameter 0; 1 continuous with a repeated input; 2 discrete; 3 = 1 + 2; 4 continuous with inputs 3 and 1;
roots 5 (inputs 4, 1, 2) and 6 (inputs 1, 0). -/
def exG : G := G.ofTable
  [(.hyper, []), (.cont, [0, 0]), (.disc, [0]), (.op, [1, 2]), (.cont, [3, 1]), (.cont, [4, 1, 2]), (.cont, [1, 0])]
  (by decide)

theorem exG_order : order exG [5, 6] = [4, 1, 2] := by
  simp [order, above, unfold_eq, exG, G.ofTable]
  decide

theorem exG_mem {a v : Nat} (h : a ∈ exG.parents v) : a ≤ 4 := by
  by_cases hv : v < 7
  · have : v = 0 ∨ v = 1 ∨ v = 2 ∨ v = 3 ∨ v = 4 ∨ v = 5 ∨ v = 6 := by omega
    rcases this with e | e | e | e | e | e | e <;> subst e <;> simp [exG, G.ofTable] at h <;> omega
  · simp [exG, G.ofTable, hv] at h

theorem Anc.exists_parent {g : G} {a v : Nat} (h : Anc g a v) : ∃ w, a ∈ g.parents w := by
  induction h with
  | input h => exact ⟨_, h⟩
  | step _ _ ih => exact ih

theorem exG_apart : RootsApart exG [5, 6] := by
  intro r hr r' _ h
  obtain ⟨w, hw⟩ := h.exists_parent
  have := exG_mem hw
  simp at hr; omega

/-- Nothing stored, nothing pending. -/
def St.blank {α} : St α := ⟨fun _ => false, fun _ => false, fun _ => none⟩

theorem blank_clean {α} : Clean (St.blank : St α) := fun _ => rfl

/-- Node 1 uses node 0, root 2 uses node 1 (a uniform prior whose upper bound is another parameter). -/
def chainG : G := G.ofTable [(.cont, []), (.cont, [0]), (.cont, [1])] (by decide)

theorem chainG_order : order chainG [2] = [1, 0] := by
  simp [order, above, unfold_eq, chainG, G.ofTable]
  decide

theorem chainG_apart : RootsApart chainG [2] := by
  intro r hr r' hr' h
  simp at hr hr'; subst hr; subst hr'
  exact absurd h.lt (by omega)

/-- A discrete parameter 0 shared by parameters 1 and 2 of the root 3. -/
def sharedDiscG : G := G.ofTable [(.disc, []), (.cont, [0]), (.cont, [0]), (.cont, [1, 2])] (by decide)

theorem sharedDiscG_order : order sharedDiscG [3] = [1, 0, 2] := by
  simp [order, above, unfold_eq, sharedDiscG, G.ofTable]
  decide

theorem sharedDiscG_above : above sharedDiscG [3] = [1, 0, 2, 0] := by
  simp [above, unfold_eq, sharedDiscG, G.ofTable]

theorem sharedDiscG_apart : RootsApart sharedDiscG [3] := by
  intro r hr r' hr' h
  simp at hr hr'; subst hr; subst hr'
  exact absurd h.lt (by omega)

/-- Root 0 is an input of root 1. -/
def nestedG : G := G.ofTable [(.cont, []), (.cont, [0])] (by decide)

/-! ### Equations for evaluating traversals on concrete graphs -/

def setStep {α} (g : G) (chk : (Nat → Option α) → Nat → α → Verdict) (ps : List α) (p : Nat) (x : St α × Nat) :
    Except (SetFail × St α) (St α × Nat) :=
  if x.1.visited p || decide (g.kind p = .hyper) then .ok (x.1, x.2) else setNode g chk ps p x.1 x.2

theorem setNode_unfold {α} (g : G) (chk : (Nat → Option α) → Nat → α → Verdict) (ps : List α) (v : Nat) (s : St α)
    (idx : Nat) : setNode g chk ps v s idx =
  (let first : Except (SetFail × St α) (St α × Nat) :=
    if g.kind v = .op then .ok (s, idx)
    else match ps[idx]? with
      | none => .error (.raised, s)
      | some x => match chk s.value v x with
        | .raise => .error (.raised, s)
        | .reject => .error (.rejected idx, s)
        | .accept => .ok (mark (store s v x) v, idx + 1)
  match first with
  | .error e => .error e
  | .ok s0 =>
    match loopE (setStep g chk ps) (g.parents v) s0 with
    | .error e => .error e
    | .ok (s, idx) => .ok (mark s v, idx)) := by
  rw [setNode]
  have : ∀ s0, forMemE (ε := SetFail × St α) (g.parents v) (fun p _ (x : St α × Nat) =>
        match x with
        | (s, idx) => if s.visited p || decide (g.kind p = .hyper) then .ok (s, idx) else setNode g chk ps p s idx)
          s0 = loopE (setStep g chk ps) (g.parents v) s0 := fun s0 => forMemE_eq_loopE (g.parents v) _ s0
  simp only [this]
  rfl

theorem setRoot_unfold {α} (g : G) (chk : (Nat → Option α) → Nat → α → Verdict) (ps : List α) (r : Nat) (s : St α)
    (idx : Nat) : setRoot g chk ps r s idx =
    match loopE (setStep g chk ps) (g.parents r) (s, idx) with
    | .error e => .error e
    | .ok (s, idx) => .ok (mark s r, idx) := by
  rw [setRoot]
  have : ∀ s0, forMemE (ε := SetFail × St α) (g.parents r) (fun p _ (x : St α × Nat) =>
        match x with
        | (s, idx) => if s.visited p || decide (g.kind p = .hyper) then .ok (s, idx) else setNode g chk ps p s idx)
          s0 = loopE (setStep g chk ps) (g.parents r) s0 := fun s0 => forMemE_eq_loopE (g.parents r) _ s0
  simp only [this]
  rfl

def getStep {α} (g : G) (x : St α × List (Option α)) (p : Nat) : St α × List (Option α) :=
  if x.1.visited p then (x.1, x.2) else (mark (getNode g p x.1).1 p, x.2 ++ (getNode g p x.1).2)

theorem getNode_unfold {α} (g : G) (v : Nat) (s : St α) : getNode g v s =
    (g.parents v).foldl (getStep g) (if (g.kind v).isFree then (mark s v, [s.value v]) else (s, [])) := by
  rw [getNode]
  exact forMem_eq_foldl (g.parents v) (fun p x => getStep g x p) _

theorem getRoot_unfold {α} (g : G) (v : Nat) (s : St α) (out : List (Option α)) : getRoot g v s out =
    (g.parents v).foldl (getStep g) (s, out) := by
  rw [getRoot]
  exact forMem_eq_foldl (g.parents v) (fun p x => getStep g x p) _

end Verif.Graph
