import Verif.Graph.Props
/-
C04, second part: the values after `sample_from_prior` are those of the draws, made one after the other.
-/
namespace Verif.Graph

variable {α : Type} (g : G) (sm : Sim α)

/-- Specification. Drawing the nodes of a list one after the other: the `j`-th draw that needs randomness uses the values stored by the draws before it and the
position `clock + j` of the random stream; a value outside of the declared support of the node is not stored. Constants are not drawn. -/
def drawAll : List Nat → (Nat → Option α) → Nat → (Nat → Option α) × Nat
  | [], vals, clock => (vals, clock)
  | v :: l, vals, clock =>
    if g.kind v = .hyper then drawAll l vals clock
    else match sm.sim vals v clock with
      | none => drawAll l vals (clock + 1)
      | some x => drawAll l (if sm.okOut vals v x then Function.update vals v (some x) else vals) (clock + 1)

theorem drawAll_append (a b : List Nat) (vals : Nat → Option α) (clock : Nat) :
    drawAll g sm (a ++ b) vals clock = drawAll g sm b (drawAll g sm a vals clock).1 (drawAll g sm a vals clock).2 := by
  induction a generalizing vals clock with
  | nil => rfl
  | cons v a ih =>
    simp only [List.cons_append, drawAll]
    split
    · exact ih _ _
    · split <;> exact ih _ _

/-- `s'` comes from `s` by the draws that were added to the log. -/
def Replays (s s' : Smp α) : Prop :=
  ∃ l : List (Nat × Bool), s'.log = s.log ++ l ∧ (s'.st.value, s'.clock) = drawAll g sm (l.map Prod.fst) s.st.value s.clock

def both (P : Smp α → Prop) : Except (Smp α) (Smp α) → Prop
  | .ok s => P s
  | .error s => P s

theorem Replays.refl (s : Smp α) : Replays g sm s s := ⟨[], by simp, rfl⟩

theorem Replays.trans {s t u : Smp α} (h : Replays g sm s t) (h' : Replays g sm t u) : Replays g sm s u := by
  obtain ⟨l, a, b⟩ := h
  obtain ⟨l', a', b'⟩ := h'
  refine ⟨l ++ l', by rw [a', a, List.append_assoc], ?_⟩
  rw [List.map_append, drawAll_append, ← b, b']

theorem Replays.mark_right {s t : Smp α} (h : Replays g sm s t) (v : Nat) : Replays g sm s { t with st := mark t.st v } := h

theorem Replays.mark_left {s t : Smp α} {v : Nat} (h : Replays g sm { s with st := mark s.st v } t) : Replays g sm s t := h

theorem drawNode_replays (v : Nat) (s : Smp α) : Replays g sm s (drawNode g sm v s).1 := by
  unfold drawNode
  by_cases hk : g.kind v = .hyper
  · simp only [hk, if_true]
    exact ⟨[(v, true)], rfl, by simp [drawAll, hk, mark]⟩
  · simp only [hk, if_false]
    cases hx : sm.sim s.st.value v s.clock with
    | none => exact ⟨[(v, false)], rfl, by simp [drawAll, hk, hx]⟩
    | some x =>
      refine ⟨[(v, true)], rfl, ?_⟩
      simp only [List.map_cons, List.map_nil, drawAll, hk, if_false, hx, Prod.mk.injEq, and_true]
      split
      · funext y; simp only [store, Function.update_apply]
      · rfl

theorem loopE_replays (f : Nat → Smp α → Except (Smp α) (Smp α)) (l : List Nat)
    (hf : ∀ p ∈ l, ∀ s, both (Replays g sm s) (f p s)) (s : Smp α) : both (Replays g sm s) (loopE f l s) := by
  induction l generalizing s with
  | nil => exact Replays.refl g sm s
  | cons p l ih =>
    rw [loopE]
    have h1 := hf p (by simp) s
    cases hr : f p s with
    | error s' => rw [hr] at h1; exact h1
    | ok s' =>
      rw [hr] at h1
      have h2 := ih (fun q hq => hf q (by simp [hq])) s'
      cases hr2 : loopE f l s' with
      | error s'' => rw [hr2] at h2; simp only [hr2]; exact Replays.trans g sm h1 h2
      | ok s'' => rw [hr2] at h2; simp only [hr2]; exact Replays.trans g sm h1 h2

theorem sampleNode_replays (v : Nat) (s : Smp α) : both (Replays g sm s) (sampleNode g sm v s) := by
  induction v using Nat.strong_induction_on generalizing s with
  | _ v ih =>
    rw [sampleNode_unfold]
    have h1 := loopE_replays g sm (sampleStep g sm) (g.parents v) (fun p hp s => by
      simp only [sampleStep]
      split
      · exact Replays.refl g sm s
      · exact ih p (g.lt_of_parent hp) { s with st := mark s.st p }) s
    cases hr : loopE (sampleStep g sm) (g.parents v) s with
    | error s' => rw [hr] at h1; exact h1
    | ok s' =>
      rw [hr] at h1
      have h2 := drawNode_replays g sm v s'
      simp only
      rcases hd : drawNode g sm v s' with ⟨s'', _ | _⟩
      · rw [hd] at h2; exact Replays.trans g sm h1 h2
      · rw [hd] at h2; exact Replays.mark_right g sm (Replays.trans g sm h1 h2) v

theorem sampleAttempt_replays (roots : List Nat) (s : Smp α) : both (Replays g sm s) (sampleAttempt g sm roots s) := by
  have e : sampleAttempt g sm roots s = loopE (sampleRoot g sm) roots s := forMemE_eq_loopE roots _ _
  rw [e]
  refine loopE_replays g sm _ roots (fun r _ s => ?_) s
  rw [sampleRoot_unfold]
  have h1 := loopE_replays g sm (sampleStep g sm) (g.parents r) (fun p hp s => by
      simp only [sampleStep]
      split
      · exact Replays.refl g sm s
      · exact sampleNode_replays g sm p { s with st := mark s.st p }) s
  cases hr : loopE (sampleStep g sm) (g.parents r) s with
  | error s' => rw [hr] at h1; exact h1
  | ok s' => rw [hr] at h1; exact Replays.mark_right g sm h1 r

/-- C04, second part. The values stored after a call of `sample_from_prior` that succeeded are the result of making all draws of all attempts one after the other, each with
the values stored before it and at a position of the random stream of its own. -/
theorem C04_values (roots : List Nat) (n : Nat) (s s' : Smp α) (h : sampleFromPrior g sm roots n s = some s') :
    (s'.st.value, s'.clock) = drawAll g sm ((attemptLogs g sm roots n s).1.flatten.map Prod.fst) s.st.value s.clock := by
  induction n generalizing s with
  | zero => simp [sampleFromPrior] at h
  | succ n ih =>
    have key := sampleAttempt_replays g sm roots { s with log := [] }
    simp only [sampleFromPrior] at h
    simp only [attemptLogs]
    cases hr : sampleAttempt g sm roots { s with log := [] } with
    | ok s1 =>
      rw [hr] at h key
      obtain ⟨l, a, b⟩ := key
      simp only [Option.some.injEq] at h
      subst h
      simp only [List.nil_append] at a
      simp only [List.flatten_cons, List.flatten_nil, List.append_nil, a]
      rw [← b, resetFlags_eq]
    | error s1 =>
      rw [hr] at h key
      obtain ⟨l, a, b⟩ := key
      simp only [List.nil_append] at a
      have := ih _ h
      rw [this]
      simp only [List.flatten_cons, List.map_append, drawAll_append, a]
      rw [← b]
      simp only [resetFlags_eq]

/-- Two attempts on `chainG`: the first fails at its second draw, the second uses positions 2 and 3 of the stream. -/
example : drawAll chainG ⟨fun _ _ t => if t = 1 then none else some (t : Int), fun _ _ _ => true⟩ ([[(0, true), (1, false)],
    [(0, true), (1, true)]].flatten.map Prod.fst) (fun _ => none) 0 =
    (Function.update (Function.update (Function.update (fun _ => none) 0 (some 0)) 0 (some 2)) 1 (some 3), 4) := by
  have k1 : chainG.kind 1 = .cont := rfl
  have k0 : chainG.kind 0 = .cont := rfl
  simp [drawAll, k1, k0]

end Verif.Graph
