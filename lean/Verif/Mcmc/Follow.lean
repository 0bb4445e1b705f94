import Verif.Mcmc.Model
/-
The chain of `MCMCMetropoliHastings` on an object with a state of its own (the graph of models): every operation may change the object or raise. And what it takes for such a chain to be a chain of `Verif.Mcmc`, in
which densities are functions of parameter vectors.
-/
namespace Verif.Mcmc

variable {W V α T Cov : Type}

/-- As `Env`; `none` is an exception, and `loglik` is told the number of the call. -/
structure Obj (W α T Cov : Type) where
  names : List String
  prior : W → Option (W × List α)
  pdf : List α → W → Option (W × ℝ)
  loglik : Nat → List α → W → Option (W × ℝ)
  tr : List α → Option T
  inv : T → Option (List α)
  jac : List α → Option ℝ
  propose : Cov → T → W → Option (W × T)
  unif : W → W × ℝ
  adapt : List (List α) → Cov
  eye : T → Cov

/-- Lines 4412-4433. -/
def Obj.adaptCov (G : Obj W α T Cov) (s : State W α T Cov) (burnin k : Nat) (interval : Option Nat) : Option (State W α T Cov) :=
  if k ≥ burnin then some s
  else match interval with
    | none => some s
    | some i => if i = 0 then none else if (k + 1) % i = 0 then some { s with cov := G.adapt s.burn } else some s

open Classical in
/-- The last part of a round, lines 4382-4433. -/
noncomputable def Obj.decide (G : Obj W α T Cov) (burnin : Nat) (interval : Option Nat) (k : Nat) (s : State W α T Cov) (t : T) (θ : List α) (d : ℝ) (r : W × ℝ) : Option (State W α T Cov) :=
  match G.jac θ with
  | none => none
  | some lj =>
    let u := G.unif r.1
    let s' : State W α T Cov := { s with w := u.1, sims := s.sims + 1 }
    let s'' : State W α T Cov :=
      if accepts u.2 s.lj lj r.2 s.ll d s.pr then
        { s' with cur := θ, curT := t, ll := r.2, pr := d, lj := lj, accepted := if k ≥ burnin then s.accepted + 1 else s.accepted }
      else s'
    G.adaptCov (s''.record burnin k) burnin k interval

open Classical in
/-- One round, lines 4347-4433: proposal, its prior density, its likelihood, and the decision. -/
noncomputable def Obj.step (G : Obj W α T Cov) (burnin : Nat) (interval : Option Nat) (k : Nat) (s : State W α T Cov) : Option (State W α T Cov) :=
  (G.propose s.cov s.curT s.w).bind fun p => (G.inv p.2).bind fun θ => (G.pdf θ p.1).bind fun d =>
    if d.2 = 0 then some ({ s with w := d.1 }.record burnin k)
    else (G.loglik s.sims θ d.1).bind fun r => G.decide burnin interval k s p.2 θ d.2 r

/-- The loop of line 4347. -/
noncomputable def Obj.loop (G : Obj W α T Cov) (burnin : Nat) (interval : Option Nat) : List Nat → State W α T Cov → Option (State W α T Cov)
  | [], s => some s
  | k :: ks, s => (G.step burnin interval k s).bind (G.loop burnin interval ks)

/-- Lines 4323-4343. -/
def Obj.begin_ (G : Obj W α T Cov) (w : W) (θ : List α) (ll : ℝ) (cov : Option Cov) (burn : List (List α)) (accepted : ℝ) (sims : Nat) : Option (State W α T Cov) :=
  (G.pdf θ w).bind fun d => (G.tr θ).bind fun t => (G.jac θ).bind fun lj => some ⟨d.1, θ, t, ll, d.2, lj, cov.getD (G.eye t), [], burn, accepted, sims⟩

/-- Lines 4282-4290. -/
def Obj.initial (G : Obj W α T Cov) (a : Args α Cov) (w : W) : Option (W × List α) :=
  match a.ini with
  | none => G.prior w
  | some θ => some (w, θ)

/-- `sample` without a journal file, lines 4260-4298 and 4435-4459. -/
noncomputable def Obj.fresh (G : Obj W α T Cov) (a : Args α Cov) (w : W) (counter : Nat) : Option (W × Jrn α Cov) :=
  (G.initial a w).bind fun x => (G.loglik counter x.2 x.1).bind fun r =>
    (G.begin_ r.1 x.2 r.2 a.cov (if a.burnin = 0 then [x.2] else []) 0 (counter + 1)).bind fun s =>
      (G.loop a.burnin a.interval (List.range (a.burnin + a.n)) s).bind fun s =>
        if a.n = 0 then none
        else some (s.w, ⟨s.chain, asDict (Journal.namedColumns G.names s.chain), List.replicate a.n 1, [s.accepted / a.n], [s.sims], a.n, s.ll, s.cov⟩)

/-- `sample` with a journal file, lines 4299-4318 and 4435-4459. -/
noncomputable def Obj.restart (G : Obj W α T Cov) (a : Args α Cov) (w : W) (j : Jrn α Cov) : Option (W × Jrn α Cov) :=
  match j.rates.getLast?, j.chain.getLast?, j.sims.getLast? with
  | some rate, some θ, some sims =>
    (G.begin_ w θ j.ll (some (a.cov.getD j.cov)) [] (rate * j.n) sims).bind fun s =>
      (G.loop a.burnin a.interval (List.range (a.burnin + a.n)) s).bind fun s =>
        if j.n + a.n = 0 then none
        else (joinColumns j.user (Journal.namedColumns G.names s.chain)).bind fun cols =>
          some (s.w, ⟨j.chain ++ s.chain, asDict cols, List.replicate (j.n + a.n) 1, j.rates ++ [s.accepted / (j.n + a.n : Nat)], j.sims ++ [s.sims], j.n + a.n, s.ll, s.cov⟩)
  | _, _, _ => none

/-! ### Following -/

/-- The operations on the object are those of an environment over parameter vectors. `rel` relates objects and generators; `len` are vectors of the right form, `ok` those for which the likelihood can be asked. -/
structure Follows (G : Obj W α T Cov) (E : Env V α T Cov) (rel : W → V → Prop) (len ok : List α → Prop) : Prop where
  names : G.names = E.names
  tr : G.tr = E.tr
  inv : G.inv = E.inv
  jac : G.jac = E.jac
  adapt : G.adapt = E.adapt
  eye : G.eye = E.eye
  prior : ∀ w v, rel w v → ∃ w', G.prior w = some (w', (E.prior v).2) ∧ rel w' (E.prior v).1 ∧ ok (E.prior v).2
  pdf : ∀ w v θ, rel w v → len θ → ∃ w', G.pdf θ w = some (w', E.pdf θ) ∧ rel w' v ∧ (E.pdf θ ≠ 0 → ok θ)
  loglik : ∀ i w v θ, rel w v → ok θ → ∃ w', G.loglik i θ w = some (w', (E.loglik θ v).2) ∧ rel w' (E.loglik θ v).1
  propose : ∀ c t w v, rel w v → ∃ w', G.propose c t w = some (w', (E.propose c t v).2) ∧ rel w' (E.propose c t v).1 ∧ ∀ θ, E.inv (E.propose c t v).2 = some θ → len θ
  unif : ∀ w v, rel w v → (G.unif w).2 = (E.unif v).2 ∧ rel (G.unif w).1 (E.unif v).1
  lenOk : ∀ θ, ok θ → len θ

/-- A state of the chain with another object. -/
def State.withW (s : State W α T Cov) (v : V) : State V α T Cov := ⟨v, s.cur, s.curT, s.ll, s.pr, s.lj, s.cov, s.chain, s.burn, s.accepted, s.sims⟩

/-- Both raise, or both go on with the same local variables and related objects. -/
def Both (rel : W → V → Prop) (x : Option (State W α T Cov)) (y : Option (State V α T Cov)) : Prop :=
  (x = none ∧ y = none) ∨ ∃ s v, x = some s ∧ y = some (s.withW v) ∧ rel s.w v

theorem record_withW (s : State W α T Cov) (v : V) (burnin k : Nat) : (s.withW v).record burnin k = (s.record burnin k).withW v ∧ (s.record burnin k).w = s.w := by
  unfold State.record
  split <;> exact ⟨rfl, rfl⟩

theorem adapt_both (G : Obj W α T Cov) (E : Env V α T Cov) (rel : W → V → Prop) (h : G.adapt = E.adapt) (s : State W α T Cov) (v : V) (hv : rel s.w v) (burnin k : Nat) (interval : Option Nat) :
    Both rel (G.adaptCov s burnin k interval) ((s.withW v).adaptCov E burnin k interval) := by
  unfold Obj.adaptCov State.adaptCov
  split
  · exact .inr ⟨s, v, rfl, rfl, hv⟩
  · cases interval with
    | none => exact .inr ⟨s, v, rfl, rfl, hv⟩
    | some i =>
      simp only
      split
      · exact .inl ⟨rfl, rfl⟩
      · split
        · exact .inr ⟨{ s with cov := G.adapt s.burn }, v, rfl, by rw [h]; rfl, hv⟩
        · exact .inr ⟨s, v, rfl, rfl, hv⟩

theorem decide_both (G : Obj W α T Cov) (E : Env V α T Cov) (rel : W → V → Prop) (len ok : List α → Prop) (h : Follows G E rel len ok) (burnin : Nat) (interval : Option Nat) (k : Nat) (s : State W α T Cov)
    (t : T) (θ : List α) (r : W × ℝ) (r' : V × ℝ) (h2 : r.2 = r'.2) (h1 : rel r.1 r'.1) :
    Both rel (G.decide burnin interval k s t θ (E.pdf θ) r) (match E.jac θ with
      | none => none
      | some lj =>
        let u := E.unif r'.1
        let s' : State V α T Cov := { s.withW r'.1 with w := u.1, sims := s.sims + 1 }
        let s'' : State V α T Cov :=
          if accepts u.2 s.lj lj r'.2 s.ll (E.pdf θ) s.pr then
            { s' with cur := θ, curT := t, ll := r'.2, pr := E.pdf θ, lj := lj, accepted := if k ≥ burnin then s.accepted + 1 else s.accepted }
          else s'
        (s''.record burnin k).adaptCov E burnin k interval) := by
  unfold Obj.decide
  rw [h.jac]
  cases E.jac θ with
  | none => exact .inl ⟨rfl, rfl⟩
  | some lj =>
    simp only
    obtain ⟨u1, u2⟩ := h.unif r.1 r'.1 h1
    rw [u1, h2]
    split
    · obtain ⟨e1, e2⟩ := record_withW ({ { s with w := (G.unif r.1).1, sims := s.sims + 1 } with cur := θ, curT := t, ll := r'.2, pr := E.pdf θ, lj := lj, accepted := if k ≥ burnin then s.accepted + 1 else s.accepted } : State W α T Cov) (E.unif r'.1).1 burnin k
      have := adapt_both G E rel h.adapt _ (E.unif r'.1).1 (by rw [e2]; exact u2) burnin k interval
      rw [← e1] at this
      exact this
    · obtain ⟨e1, e2⟩ := record_withW ({ s with w := (G.unif r.1).1, sims := s.sims + 1 } : State W α T Cov) (E.unif r'.1).1 burnin k
      have := adapt_both G E rel h.adapt _ (E.unif r'.1).1 (by rw [e2]; exact u2) burnin k interval
      rw [← e1] at this
      exact this

theorem step_both (G : Obj W α T Cov) (E : Env V α T Cov) (rel : W → V → Prop) (len ok : List α → Prop) (h : Follows G E rel len ok) (burnin : Nat) (interval : Option Nat) (k : Nat) (s : State W α T Cov) (v : V)
    (hv : rel s.w v) : Both rel (G.step burnin interval k s) (step E burnin interval k (s.withW v)) := by
  classical
  obtain ⟨w1, p1, p2, p3⟩ := h.propose s.cov s.curT s.w v hv
  have hE : (s.withW v).cov = s.cov ∧ (s.withW v).curT = s.curT ∧ (s.withW v).w = v := ⟨rfl, rfl, rfl⟩
  unfold Obj.step step
  rw [hE.1, hE.2.1, hE.2.2, p1, Option.bind_some, h.inv]
  simp only
  cases hi : E.inv (E.propose s.cov s.curT v).2 with
  | none => exact .inl ⟨rfl, rfl⟩
  | some θ =>
    obtain ⟨w2, d1, d2, d3⟩ := h.pdf w1 _ θ p2 (p3 θ hi)
    rw [Option.bind_some, d1, Option.bind_some]
    simp only
    by_cases h0 : E.pdf θ = 0
    · rw [if_pos h0, if_pos h0]
      obtain ⟨e1, e2⟩ := record_withW ({ s with w := w2 } : State W α T Cov) (E.propose s.cov s.curT v).1 burnin k
      exact .inr ⟨_, (E.propose s.cov s.curT v).1, rfl, by rw [← e1]; rfl, by rw [e2]; exact d2⟩
    · rw [if_neg h0, if_neg h0]
      obtain ⟨w3, l1, l2⟩ := h.loglik s.sims w2 _ θ d2 (d3 h0)
      rw [l1, Option.bind_some]
      exact decide_both G E rel len ok h burnin interval k s _ θ (w3, _) _ rfl l2

theorem loop_both (G : Obj W α T Cov) (E : Env V α T Cov) (rel : W → V → Prop) (len ok : List α → Prop) (h : Follows G E rel len ok) (burnin : Nat) (interval : Option Nat) (ks : List Nat) :
    ∀ (s : State W α T Cov) (v : V), rel s.w v → Both rel (G.loop burnin interval ks s) (loop E burnin interval ks (s.withW v)) := by
  induction ks with
  | nil => intro s v hv; exact .inr ⟨s, v, rfl, rfl, hv⟩
  | cons k ks ih =>
    intro s v hv
    rw [Obj.loop, loop]
    rcases step_both G E rel len ok h burnin interval k s v hv with ⟨a, b⟩ | ⟨s', v', a, b, c⟩
    · rw [a, b]; exact .inl ⟨rfl, rfl⟩
    · rw [a, b, Option.bind_some]
      exact ih s' v' c

theorem begin_both (G : Obj W α T Cov) (E : Env V α T Cov) (rel : W → V → Prop) (len ok : List α → Prop) (h : Follows G E rel len ok) (w : W) (v : V) (hv : rel w v) (θ : List α) (hθ : len θ) (ll : ℝ) (cov : Option Cov)
    (burn : List (List α)) (accepted : ℝ) (sims : Nat) : Both rel (G.begin_ w θ ll cov burn accepted sims) (begin_ E v θ ll cov burn accepted sims) := by
  obtain ⟨w1, d1, d2, -⟩ := h.pdf w v θ hv hθ
  unfold Obj.begin_ begin_
  rw [d1, Option.bind_some, h.tr, h.jac, h.eye]
  cases E.tr θ with
  | none => exact .inl ⟨rfl, rfl⟩
  | some t =>
    rw [Option.bind_some]
    cases E.jac θ with
    | none => exact .inl ⟨rfl, rfl⟩
    | some lj => exact .inr ⟨_, v, rfl, rfl, d2⟩

/-- A call without a journal file. -/
theorem fresh_follows (G : Obj W α T Cov) (E : Env V α T Cov) (rel : W → V → Prop) (len ok : List α → Prop) (h : Follows G E rel len ok) (a : Args α Cov) (hini : ∀ θ, a.ini = some θ → ok θ) (w : W) (v : V)
    (hv : rel w v) (counter : Nat) :
    (G.fresh a w counter = none ∧ fresh E a v counter = none) ∨ ∃ w' v' j, G.fresh a w counter = some (w', j) ∧ fresh E a v counter = some (v', j) ∧ rel w' v' := by
  have hinit : ∃ w1, G.initial a w = some (w1, (initial E a v).2) ∧ rel w1 (initial E a v).1 ∧ ok (initial E a v).2 := by
    unfold Obj.initial initial
    cases ha : a.ini with
    | none => exact h.prior w v hv
    | some θ => exact ⟨w, rfl, hv, hini θ ha⟩
  obtain ⟨w1, i1, i2, i3⟩ := hinit
  obtain ⟨w2, l1, l2⟩ := h.loglik counter w1 _ _ i2 i3
  unfold Obj.fresh fresh
  rw [i1, Option.bind_some]
  simp only
  rw [l1, Option.bind_some]
  rcases begin_both G E rel len ok h w2 _ l2 (initial E a v).2 (h.lenOk _ i3) (E.loglik (initial E a v).2 (initial E a v).1).2 a.cov (if a.burnin = 0 then [(initial E a v).2] else []) 0 (counter + 1) with
    ⟨b1, b2⟩ | ⟨s, v', b1, b2, b3⟩
  · rw [b1, b2]; exact .inl ⟨rfl, rfl⟩
  · rw [b1, b2, Option.bind_some]
    simp only
    rcases loop_both G E rel len ok h a.burnin a.interval (List.range (a.burnin + a.n)) s v' b3 with ⟨c1, c2⟩ | ⟨s', v'', c1, c2, c3⟩
    · rw [c1, c2]; exact .inl ⟨rfl, rfl⟩
    · rw [c1, c2, Option.bind_some, h.names]
      simp only
      by_cases hn : a.n = 0
      · rw [if_pos hn, if_pos hn]; exact .inl ⟨rfl, rfl⟩
      · rw [if_neg hn, if_neg hn]; exact .inr ⟨_, _, _, rfl, rfl, c3⟩

/-- A call with a journal file. -/
theorem restart_follows (G : Obj W α T Cov) (E : Env V α T Cov) (rel : W → V → Prop) (len ok : List α → Prop) (h : Follows G E rel len ok) (a : Args α Cov) (w : W) (v : V) (hv : rel w v) (j : Jrn α Cov)
    (hj : ∀ θ ∈ j.chain, len θ) :
    (G.restart a w j = none ∧ restart E a v j = none) ∨ ∃ w' v' j', G.restart a w j = some (w', j') ∧ restart E a v j = some (v', j') ∧ rel w' v' := by
  unfold Obj.restart restart
  cases hr : j.rates.getLast? with
  | none => exact .inl ⟨rfl, rfl⟩
  | some rate =>
    cases hc : j.chain.getLast? with
    | none => exact .inl ⟨rfl, rfl⟩
    | some θ =>
      cases hs : j.sims.getLast? with
      | none => exact .inl ⟨rfl, rfl⟩
      | some sims =>
        simp only
        rcases begin_both G E rel len ok h w v hv θ (hj θ (List.mem_of_getLast? hc)) j.ll (some (a.cov.getD j.cov)) [] (rate * j.n) sims with ⟨b1, b2⟩ | ⟨s, v', b1, b2, b3⟩
        · rw [b1, b2]; exact .inl ⟨rfl, rfl⟩
        · rw [b1, b2, Option.bind_some]
          simp only
          rcases loop_both G E rel len ok h a.burnin a.interval (List.range (a.burnin + a.n)) s v' b3 with ⟨c1, c2⟩ | ⟨s', v'', c1, c2, c3⟩
          · rw [c1, c2]; exact .inl ⟨rfl, rfl⟩
          · rw [c1, c2, Option.bind_some, h.names]
            simp only
            by_cases hn : j.n + a.n = 0
            · rw [if_pos hn, if_pos hn]; exact .inl ⟨rfl, rfl⟩
            · rw [if_neg hn, if_neg hn]
              have e : (s'.withW v'').chain = s'.chain := rfl
              rw [e]
              cases joinColumns j.user (Journal.namedColumns E.names s'.chain) with
              | none => exact .inl ⟨rfl, rfl⟩
              | some cols => exact .inr ⟨_, _, _, rfl, rfl, c3⟩

end Verif.Mcmc
