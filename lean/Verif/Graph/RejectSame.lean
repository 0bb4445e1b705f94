import Verif.Graph.RejectLaw
import Verif.Rejection.Props
/-
C212: one call on the graph of models. The loop of `RejectLaw` is that of `Rejection.Model` for workers whose state is a graph, so what is proved there holds for it.
-/
namespace Verif.Graph

variable {A X Y : Type}

/-- Lines 694-702 of inferences.py: draw from the prior, read the parameters, simulate. If `sample_from_prior` does not end nothing is drawn. -/
def trialOn (g : G) (sm : Sim X) (roots : List Nat) (tries : Nat) (simulate : (Nat → Option X) → Nat → Nat × Option Y) (s : Smp X) : Smp X × List (Option X) × Option Y :=
  match sampleFromPrior g sm roots tries s with
  | none => (s, [], none)
  | some s' =>
    let r := getParameters g roots s'.st
    let y := simulate r.1.value s'.clock
    (⟨r.1, y.1, s'.log⟩, r.2, y.2)

/-- What the loop returns is what the loop of `Rejection.Model` returns. -/
theorem rejectOn_loop (g : G) (sm : Sim X) (roots : List Nat) (tries : Nat) (simulate : (Nat → Option X) → Nat → Nat × Option Y) (dist : Y → ℝ) (distMax eps : ℝ) (fuel : Nat) :
    ∀ (s : Smp X) (θ : Option (List (Option X))) (d : ℝ) (c : Nat) (r : List (Option X) × ℝ × Nat), rejectOn g sm roots tries simulate dist distMax eps fuel s θ d c = some r →
      ∃ w, Rejection.rejectLoop (trialOn g sm roots tries simulate) dist distMax eps fuel s θ d c = .done (r.1, r.2.1, r.2.2, w) := by
  induction fuel with
  | zero => intro s θ d c r h; cases h
  | succ fuel ih =>
    intro s θ d c r h
    unfold rejectOn at h
    unfold Rejection.rejectLoop
    by_cases hd : eps < d
    · rw [if_pos hd] at h
      rw [if_pos hd]
      cases hp : sampleFromPrior g sm roots tries s with
      | none => rw [hp] at h; cases h
      | some s' =>
        rw [hp] at h
        simp only [trialOn, hp]
        exact ih _ _ _ _ r h
    · rw [if_neg hd] at h
      rw [if_neg hd]
      cases θ with
      | none => cases h
      | some θ => cases h; exact ⟨s, rfl⟩

/-- If every call of `sample_from_prior` ends, the two loops are the same. -/
theorem rejectOn_eq (g : G) (sm : Sim X) (roots : List Nat) (tries : Nat) (htries : ∀ s : Smp X, (sampleFromPrior g sm roots tries s).isSome)
    (simulate : (Nat → Option X) → Nat → Nat × Option Y) (dist : Y → ℝ) (distMax eps : ℝ) (fuel : Nat) : ∀ (s : Smp X) (θ : Option (List (Option X))) (d : ℝ) (c : Nat),
    rejectOn g sm roots tries simulate dist distMax eps fuel s θ d c =
      (Rejection.rejectLoop (trialOn g sm roots tries simulate) dist distMax eps fuel s θ d c).result.map fun r => (r.1, r.2.1, r.2.2.1) := by
  induction fuel with
  | zero => intro s θ d c; rfl
  | succ fuel ih =>
    intro s θ d c
    unfold rejectOn Rejection.rejectLoop
    by_cases hd : eps < d
    · rw [if_pos hd, if_pos hd]
      obtain ⟨s', hp⟩ := Option.isSome_iff_exists.1 (htries s)
      simp only [trialOn, hp]
      exact ih _ _ _ _
    · rw [if_neg hd, if_neg hd]
      cases θ <;> rfl

/-- Specification: `k` trials from `s` end in `s'`; each draws from the prior, simulates at the stored values, and its data, if there are any, are not near enough. -/
inductive Missed (g : G) (sm : Sim X) (roots : List Nat) (tries : Nat) (simulate : (Nat → Option X) → Nat → Nat × Option Y) (dist : Y → ℝ) (eps : ℝ) : Nat → Smp X → Smp X → Prop
  | none (s) : Missed g sm roots tries simulate dist eps 0 s s
  | more {k : Nat} {s t u t' : Smp X} (hd : sampleFromPrior g sm roots tries s = some t) (hfar : ∀ y, (simulate t.st.value t.clock).2 = some y → eps < dist y)
      (hv : t'.st.value = t.st.value) (hcl : Clean t'.st) (hc : t'.clock = (simulate t.st.value t.clock).1)
      (rest : Missed g sm roots tries simulate dist eps k t' u) : Missed g sm roots tries simulate dist eps (k + 1) s u

/-- C212: a call that returns. It has made `c` trials, the first `c - 1` of which missed the threshold. The last one drew a state from the prior; the parameters returned are the values of this state, and the
distance returned is the one of the data simulated at them, which is at most the threshold. -/
theorem C212_call (g : G) (sm : Sim X) (roots : List Nat) (hap : RootsApart g roots) (tries : Nat) (simulate : (Nat → Option X) → Nat → Nat × Option Y) (dist : Y → ℝ) (distMax eps : ℝ)
    (hmax : eps < distMax) (fuel : Nat) (s : Smp X) (hs : Clean s.st) (θ : List (Option X)) (d : ℝ) (c : Nat)
    (h : rejectOn g sm roots tries simulate dist distMax eps fuel s none distMax 0 = some (θ, d, c)) :
    ∃ k u t y, c = k + 1 ∧ Missed g sm roots tries simulate dist eps k s u ∧ sampleFromPrior g sm roots tries u = some t ∧ θ = (order g roots).map t.st.value ∧
      (simulate t.st.value t.clock).2 = some y ∧ d = dist y ∧ dist y ≤ eps := by
  have key : ∀ (fuel : Nat) (s : Smp X) (hs : Clean s.st) (θ0 : Option (List (Option X))) (d0 : ℝ) (hd0 : eps < d0) (c0 : Nat),
      rejectOn g sm roots tries simulate dist distMax eps fuel s θ0 d0 c0 = some (θ, d, c) →
      ∃ k u t y, c = c0 + k + 1 ∧ Missed g sm roots tries simulate dist eps k s u ∧ sampleFromPrior g sm roots tries u = some t ∧ θ = (order g roots).map t.st.value ∧
        (simulate t.st.value t.clock).2 = some y ∧ d = dist y ∧ dist y ≤ eps := by
    intro fuel
    induction fuel with
    | zero => intro s hs θ0 d0 hd0 c0 h; cases h
    | succ fuel ih =>
      intro s hs θ0 d0 hd0 c0 h
      rw [rejectOn, if_pos hd0] at h
      cases hp : sampleFromPrior g sm roots tries s with
      | none => rw [hp] at h; cases h
      | some t =>
        rw [hp] at h
        have hcl := sampleFromPrior_clean g sm roots hap tries s t hs hp
        obtain ⟨e1, e2, e3⟩ := getParameters_eq g roots t.st hcl
        simp only at h
        rw [e1, e3] at h
        by_cases hfar : eps < (simulate t.st.value t.clock).2.elim distMax dist
        · obtain ⟨k, u, t2, y, h1, h2, h3⟩ := ih _ e2 _ _ hfar _ h
          refine ⟨k + 1, u, t2, y, by omega, .more hp ?_ e3 e2 rfl h2, h3⟩
          intro y hy
          rwa [hy] at hfar
        · cases hy : (simulate t.st.value t.clock).2 with
          | none => rw [hy] at hfar; exact absurd hmax hfar
          | some y =>
            rw [hy] at h hfar
            cases fuel with
            | zero => cases h
            | succ fuel =>
              rw [rejectOn, if_neg hfar] at h
              simp only [Option.map_some, Option.some.injEq, Prod.mk.injEq, Option.elim_some] at h
              obtain ⟨h1, h2, h3⟩ := h
              exact ⟨0, s, t, y, by omega, .none s, hp, h1.symm, hy, h2.symm, not_lt.1 hfar⟩
  obtain ⟨k, u, t, y, h1, h2⟩ := key fuel s hs none distMax hmax 0 h
  exact ⟨k, u, t, y, by omega, h2⟩

/-- The simulator copies the first parameter, and `true` is near enough. -/
def first (vals : Nat → Option Bool) (c : Nat) : Nat × Option Bool := (c, vals 0)

theorem copies_draw (w : List Bool) (s : Smp Bool) (hs : Clean s.st) (x y z : Bool) (h : w[s.clock]? = some x) (h' : w[s.clock + 1]? = some y) (h'' : w[s.clock + 2]? = some z) :
    ∃ t, sampleFromPrior sharedDiscG (copies.sim w) [3] 1 s = some t ∧ t.clock = s.clock + 3 ∧ t.st.value 0 = some x := by
  have h3 : sharedDiscG.parents 3 = [1, 2] := rfl
  have h2 : sharedDiscG.parents 2 = [0] := rfl
  have h1 : sharedDiscG.parents 1 = [0] := rfl
  have h0 : sharedDiscG.parents 0 = [] := rfl
  have k2 : sharedDiscG.kind 2 = .cont := rfl
  have k1 : sharedDiscG.kind 1 = .cont := rfl
  have k0 : sharedDiscG.kind 0 = .disc := rfl
  unfold Clean at hs
  simp [sampleFromPrior, sampleAttempt, forMemE, sampleRoot_unfold, sampleNode_unfold, sampleStep, loopE, drawNode, h0, h1, h2, h3, k0, k1, k2, mark, store, Vars.sim, copies, hs, h, h', h'',
    resetFlags_eq]

/-- The hypotheses of `C212_call`: the first trial draws `false` and misses, the second one draws `true`. -/
example : ∃ θ, RootsApart sharedDiscG [3] ∧ Clean (St.blank : St Bool) ∧
    rejectOn sharedDiscG (copies.sim [false, false, false, true, true, true]) [3] 1 first (fun b => if b then 0 else 1) 2 0 3 ⟨St.blank, 0, []⟩ none 2 0 = some (θ, 0, 2) := by
  obtain ⟨t, t1, t2, t3⟩ := copies_draw [false, false, false, true, true, true] ⟨St.blank, 0, []⟩ blank_clean _ _ _ rfl rfl rfl
  have hcl := sampleFromPrior_clean _ _ _ sharedDiscG_apart _ _ _ blank_clean t1
  obtain ⟨e1, e2, e3⟩ := getParameters_eq sharedDiscG [3] t.st hcl
  obtain ⟨u, u1, u2, u3⟩ := copies_draw [false, false, false, true, true, true] ⟨(getParameters sharedDiscG [3] t.st).1, t.clock, t.log⟩ e2 true true true (by rw [t2]; rfl) (by rw [t2]; rfl) (by rw [t2]; rfl)
  have hcl' := sampleFromPrior_clean _ _ _ sharedDiscG_apart _ _ _ e2 u1
  obtain ⟨f1, f2, f3⟩ := getParameters_eq sharedDiscG [3] u.st hcl'
  refine ⟨(getParameters sharedDiscG [3] u.st).2, sharedDiscG_apart, blank_clean, ?_⟩
  rw [rejectOn, if_pos (by norm_num), t1]
  simp only [first, e3, t3, Option.elim_some]
  rw [rejectOn, if_pos (by norm_num), u1]
  simp only [f3, first, u3, Option.elim_some]
  rw [rejectOn, if_neg (by norm_num)]
  simp

end Verif.Graph
