import Verif.Graph.Replay
/-
One attempt of `sample_from_prior` draws the nodes of one list, which depends on the graph only, in its order, up to the first draw that fails.
-/
namespace Verif.Graph

variable {α : Type} (g : G)

/-- Specification. Drawing the nodes of a list one after the other up to the first draw that fails: whether all succeeded, the values stored and the position of the
random stream. -/
def drawUntil (sm : Sim α) : List Nat → (Nat → Option α) → Nat → Bool × (Nat → Option α) × Nat
  | [], vals, clock => (true, vals, clock)
  | v :: l, vals, clock =>
    if g.kind v = .hyper then drawUntil sm l vals clock
    else match sm.sim vals v clock with
      | none => (false, vals, clock + 1)
      | some x => drawUntil sm l (if sm.okOut vals v x then Function.update vals v (some x) else vals) (clock + 1)

theorem drawUntil_append (sm : Sim α) (a b : List Nat) (vals : Nat → Option α) (clock : Nat) :
    drawUntil g sm (a ++ b) vals clock = if (drawUntil g sm a vals clock).1 then
      drawUntil g sm b (drawUntil g sm a vals clock).2.1 (drawUntil g sm a vals clock).2.2 else drawUntil g sm a vals clock := by
  induction a generalizing vals clock with
  | nil => simp [drawUntil]
  | cons v a ih =>
    simp only [List.cons_append, drawUntil]
    split
    · exact ih _ _
    · split
      · simp
      · exact ih _ _

/-- `r` is what comes out of drawing the nodes of `L` from `s` on. -/
def Follows (sm : Sim α) (L : List Nat) (vis : Nat → Bool) (s : Smp α) (r : Except (Smp α) (Smp α)) : Prop :=
  ((drawUntil g sm L s.st.value s.clock).1 = true → ∃ s', r = .ok s' ∧ s'.st.value = (drawUntil g sm L s.st.value s.clock).2.1 ∧
    s'.clock = (drawUntil g sm L s.st.value s.clock).2.2 ∧ s'.st.visited = vis ∧ s'.log = s.log ++ L.map (·, true)) ∧
  ((drawUntil g sm L s.st.value s.clock).1 = false → ∃ s', r = .error s' ∧ s'.st.value = (drawUntil g sm L s.st.value s.clock).2.1 ∧
    s'.clock = (drawUntil g sm L s.st.value s.clock).2.2)

theorem Follows.then {sm : Sim α} {L L' : List Nat} {vis vis' : Nat → Bool} {s : Smp α} {r : Except (Smp α) (Smp α)}
    {f : Smp α → Except (Smp α) (Smp α)} (h : Follows g sm L vis s r) (hf : ∀ s, s.st.visited = vis → Follows g sm L' vis' s (f s)) :
    Follows g sm (L ++ L') vis' s (match (generalizing := false) r with | .error e => .error e | .ok s => f s) := by
  obtain ⟨h1, h2⟩ := h
  unfold Follows
  rw [drawUntil_append]
  cases hb : (drawUntil g sm L s.st.value s.clock).1 with
  | true =>
    obtain ⟨s', rfl, e1, e2, e3, e4⟩ := h1 hb
    obtain ⟨k1, k2⟩ := hf s' e3
    simp only [if_true]
    rw [← e1, ← e2]
    refine ⟨fun hc => ?_, fun hc => k2 hc⟩
    obtain ⟨s'', r1, r2, r3, r4, r5⟩ := k1 hc
    exact ⟨s'', r1, r2, r3, r4, by rw [r5, e4, List.map_append, List.append_assoc]⟩
  | false =>
    obtain ⟨s', rfl, e1, e2⟩ := h2 hb
    simp only [Bool.false_eq_true, if_false]
    exact ⟨fun hc => (by rw [hb] at hc; cases hc), fun _ => ⟨s', rfl, e1, e2⟩⟩

theorem Follows.mark {sm : Sim α} {L : List Nat} {vis : Nat → Bool} {s : Smp α} {r : Except (Smp α) (Smp α)} (h : Follows g sm L vis s r) (v : Nat) :
    Follows g sm L (fun y => y == v || vis y) s (match (generalizing := false) r with | .error e => .error e | .ok s => .ok { s with st := mark s.st v }) := by
  obtain ⟨h1, h2⟩ := h
  refine ⟨fun hc => ?_, fun hc => ?_⟩
  · obtain ⟨s', rfl, e1, e2, e3, e4⟩ := h1 hc
    exact ⟨_, rfl, e1, e2, by simp [Graph.mark, e3], e4⟩
  · obtain ⟨s', rfl, e1, e2⟩ := h2 hc
    exact ⟨_, rfl, e1, e2⟩

theorem Follows.nil (sm : Sim α) (s : Smp α) : Follows g sm [] s.st.visited s (.ok s) :=
  ⟨fun _ => ⟨s, rfl, rfl, rfl, rfl, by simp⟩, fun h => by simp [drawUntil] at h⟩

theorem drawNode_follows (sm : Sim α) (v : Nat) (s : Smp α) :
    Follows g sm [v] (fun y => y == v || s.st.visited y) s (match drawNode g sm v s with
      | (s, false) => .error s
      | (s, true) => .ok { s with st := mark s.st v }) := by
  unfold drawNode Follows
  by_cases hk : g.kind v = .hyper
  · simp [drawUntil, hk, mark]
  · cases hx : sm.sim s.st.value v s.clock with
    | none => simp [drawUntil, hk, hx]
    | some x =>
      by_cases ho : sm.okOut s.st.value v x = true
      · simp only [drawUntil, hk, hx, ho, if_false, if_true]
        refine ⟨fun _ => ⟨_, rfl, ?_, rfl, ?_, rfl⟩, fun h => by simp at h⟩
        · funext y; simp only [mark, store, Function.update_apply]
        · funext y; simp only [mark, store]
      · simp [drawUntil, hk, hx, ho, mark]

/-- One loop over inputs follows a list if every pass does. -/
theorem loop_follows (f : Sim α → Nat → Smp α → Except (Smp α) (Smp α)) (l : List Nat)
    (hf : ∀ p ∈ l, ∀ vis, ∃ L vis', ∀ sm (s : Smp α), s.st.visited = vis → Follows g sm L vis' s (f sm p s)) (vis : Nat → Bool) :
    ∃ L vis', ∀ sm (s : Smp α), s.st.visited = vis → Follows g sm L vis' s (loopE (f sm) l s) := by
  induction l generalizing vis with
  | nil => exact ⟨[], vis, fun sm s h => h ▸ Follows.nil g sm s⟩
  | cons p l ih =>
    obtain ⟨L, vis1, h1⟩ := hf p (by simp) vis
    obtain ⟨L', vis2, h2⟩ := ih (fun q hq => hf q (by simp [hq])) vis1
    exact ⟨L ++ L', vis2, fun sm s hs => by
      rw [loopE]
      have key := (h1 sm s hs).then g (f := loopE (f sm) l) (fun s hs => h2 sm s hs)
      cases hr : f sm p s <;> rw [hr] at key <;> exact key⟩

theorem step_follows (p : Nat) (hp : ∀ vis, ∃ L vis', ∀ sm (s : Smp α), s.st.visited = vis → Follows g sm L vis' s (sampleNode g sm p s)) (vis : Nat → Bool) :
    ∃ L vis', ∀ sm (s : Smp α), s.st.visited = vis → Follows g sm L vis' s (sampleStep g sm p s) := by
  cases hv : vis p with
  | true =>
    refine ⟨[], vis, fun sm s hs => ?_⟩
    simp only [sampleStep, hs, hv, if_true]
    exact hs ▸ Follows.nil g sm s
  | false =>
    obtain ⟨L, vis', h⟩ := hp (fun y => y == p || vis y)
    refine ⟨L, vis', fun sm s hs => ?_⟩
    simp only [sampleStep, hs, hv, Bool.false_eq_true, if_false]
    exact h sm { s with st := mark s.st p } (by simp [mark, hs])

theorem sampleNode_follows (v : Nat) : ∀ vis, ∃ L vis', ∀ sm (s : Smp α), s.st.visited = vis → Follows g sm L vis' s (sampleNode g sm v s) := by
  induction v using Nat.strong_induction_on with
  | _ v ih =>
    intro vis
    obtain ⟨L, vis1, h1⟩ := loop_follows g (fun sm : Sim α => sampleStep g sm) (g.parents v) (fun p hp vis => step_follows g p (ih p (g.lt_of_parent hp)) vis) vis
    refine ⟨L ++ [v], fun y => y == v || vis1 y, fun sm s hs => ?_⟩
    rw [sampleNode_unfold]
    refine (h1 sm s hs).then g fun s1 hs1 => ?_
    have := drawNode_follows g sm v s1
    rwa [hs1] at this

theorem sampleAttempt_follows (roots : List Nat) : ∃ L, ∀ (sm : Sim α) (s : Smp α), Clean s.st → ∃ vis, Follows g sm L vis s (sampleAttempt g sm roots s) := by
  obtain ⟨L, vis', h⟩ := loop_follows g (fun sm : Sim α => sampleRoot g sm) roots (fun r _ vis => by
    obtain ⟨L, vis1, h1⟩ := loop_follows g (fun sm : Sim α => sampleStep g sm) (g.parents r) (fun p _ vis => step_follows g p (sampleNode_follows g p) vis) vis
    refine ⟨L, fun y => y == r || vis1 y, fun sm s hs => ?_⟩
    rw [sampleRoot_unfold]
    exact (h1 sm s hs).mark g r) (fun _ => false)
  refine ⟨L, fun sm s hs => ⟨vis', ?_⟩⟩
  have e : sampleAttempt g sm roots s = loopE (sampleRoot g sm) roots s := forMemE_eq_loopE roots _ _
  rw [e]
  exact h sm s hs.visited_eq

/-- An attempt of `sample_from_prior` draws the nodes above the roots in an order that depends on the graph only, each once and after its inputs, up to the first draw
that fails; nothing is pending after the call of `_reset_flags` that ends the attempt. -/
theorem attempt_list [Nonempty α] (roots : List Nat) (hap : RootsApart g roots) : ∃ L : List Nat, L.Nodup ∧ InputsFirst g L ∧ (∀ v, v ∈ L ↔ v ∈ above g roots) ∧
    ∀ (sm : Sim α) (s : Smp α), Clean s.st → s.log = [] → ∃ vis, Follows g sm L vis s (sampleAttempt g sm roots s) := by
  obtain ⟨L, hL⟩ := sampleAttempt_follows (α := α) g roots
  obtain ⟨x⟩ := ‹Nonempty α›
  let sm : Sim α := ⟨fun _ _ _ => some x, fun _ _ _ => true⟩
  let s : Smp α := ⟨⟨fun _ => false, fun _ => false, fun _ => none⟩, 0, []⟩
  have hall : ∀ (l : List Nat) vals clock, (drawUntil g sm l vals clock).1 = true := by
    intro l
    induction l with
    | nil => intro _ _; rfl
    | cons v l ih =>
      intro vals clock
      simp only [drawUntil, sm]
      split
      · exact ih _ _
      · exact ih _ _
  obtain ⟨vis, h1, -⟩ := hL sm s (fun _ => rfl)
  obtain ⟨s', e, -, -, -, hlog⟩ := h1 (hall _ _ _)
  have key := sampleAttempt_spec g sm roots hap s (fun _ => rfl) rfl
  rw [e] at key
  obtain ⟨ok, hmem, -⟩ := key
  have hd : drawn s' = L := by simp [drawn, hlog, s, Function.comp_def]
  exact ⟨L, hd ▸ ok.nodup, hd ▸ ok.topo, fun v => by rw [← hd]; exact hmem v, fun sm s hs _ => hL sm s hs⟩

end Verif.Graph
