import Verif.Graph.Model
/-
Specification side of the graph properties. Nothing here mentions flags or traversals.
-/
namespace Verif.Graph

/-- Tree unfolding of a node: the node, then the unfoldings of its inputs from left to right. A node that can be
reached along several paths occurs once per path. -/
def unfold (g : G) (v : Nat) : List Nat :=
  v :: (g.parents v).attach.flatMap fun ⟨p, _⟩ => unfold g p
termination_by v
decreasing_by exact g.lt_of_parent (by assumption)

/-- Everything strictly above the roots, path by path, left to right. -/
def above (g : G) (roots : List Nat) : List Nat :=
  roots.flatMap fun r => (g.parents r).flatMap (unfold g)

/-- The parameter order of a graph: free random variables above the roots, by first occurrence. -/
def order (g : G) (roots : List Nat) : List Nat :=
  (above g roots).eraseDups.filter fun v => (g.kind v).isFree

/-- `Anc g a v`: `a` is an input of `v`, or an input of an input, and so on. -/
inductive Anc (g : G) : Nat → Nat → Prop
  | input {a v} : a ∈ g.parents v → Anc g a v
  | step {a p v} : Anc g a p → p ∈ g.parents v → Anc g a v

/-- No root is an input (direct or indirect) of a root. -/
def RootsApart (g : G) (roots : List Nat) : Prop :=
  ∀ r ∈ roots, ∀ r' ∈ roots, ¬ Anc g r r'

/-- The nodes an operation on the graph can touch: the roots and everything above them. -/
def InGraph (g : G) (roots : List Nat) (v : Nat) : Prop :=
  v ∈ roots ∨ ∃ r ∈ roots, Anc g v r

/-- No operation is pending: no node carries a traversal mark. -/
def Clean {α} (s : St α) : Prop := ∀ v, s.visited v = false

/-- Assign the entries of `ps` from position `i` on to the nodes of a list, one after the other, each checked
against the values stored so far; stop at the first refusal. -/
def assignInOrder {α} (chk : (Nat → Option α) → Nat → α → Verdict) (ps : List α) :
    List Nat → Nat → (Nat → Option α) → Except (SetFail × (Nat → Option α)) ((Nat → Option α) × Nat)
  | [], i, val => .ok (val, i)
  | v :: l, i, val =>
    match ps[i]? with
    | none => .error (.raised, val)
    | some x => match chk val v x with
      | .raise => .error (.raised, val)
      | .reject => .error (.rejected i, val)
      | .accept => assignInOrder chk ps l (i + 1) (fun y => if y = v then some x else val y)

end Verif.Graph
