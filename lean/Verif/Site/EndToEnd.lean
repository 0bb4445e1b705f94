import Verif.Rsmc.Run
import Verif.Site.RunExamples
import Verif.Pmc.Run
import Verif.Apmc.Run
import Verif.Sabc.Run
import Verif.Subsim.Run
import Verif.Smc.Run
import Verif.Smc.Props
/-
C147: what whole runs on the graph of models report about their particles.
-/
namespace Verif.Site

open Graph

variable {α Y K M : Type}

/-- Specification: the values `θ` are accepted by `set_parameters`, and `d` is the distance of data that the simulator returned when its inputs had these values. -/
def Backed (S : Site α Y K) (consts : Nat → Option α) (θ : List (Option α)) (d : ℝ) : Prop := Fits S consts θ ∧ ∃ y, From S consts θ y ∧ d = S.dist y

/-- Specification: in lists of values and distances, entries at the same position belong together. -/
def AllBacked (S : Site α Y K) (consts : Nat → Option α) (params : List (List (Option α))) (distances : List ℝ) : Prop :=
  params.length = distances.length ∧ ∀ (i : Nat) θ d, params[i]? = some θ → distances[i]? = some d → Backed S consts θ d

theorem proposal_fits (S : Site α Y K) (hS : Plain S) (consts : Nat → Option α) (k : K) (p p' : Nat × Nat) (θ : List (Option α))
    (h : Smc.Spec.Proposal (aPdf S consts) (aPerturb S consts k) p p' θ) : Fits S consts θ := by
  induction h with
  | take w θ h1 h2 =>
    apply propose_is_fit S hS consts k 1 w (aPerturb S consts k w).1 θ
    rw [Smc.propose]
    rcases hq : aPerturb S consts k w with ⟨a, b⟩
    rw [hq] at h1
    simp only at h1
    subst h1
    simp only [if_pos h2]
  | refused _ _ _ _ _ ih => exact ih
  | impossible _ _ _ _ _ _ _ ih => exact ih

theorem backed_sim (S : Site α Y K) (consts : Nat → Option α) (θ : List (Option α)) (hθ : Fits S consts θ) (p q : Nat × Nat) (y : Y) (h : aSim S consts θ p = (q, y)) : Backed S consts θ (S.dist y) :=
  ⟨hθ, y, by have := from_sim S consts θ p; rw [h] at this; exact this, rfl⟩

theorem inside_prior (S : Site α Y K) (consts : Nat → Option α) (hin : Inside S consts) (p q : Nat × Nat) (θ : List (Option α)) (h : aPrior S consts p = (q, θ)) : Fits S consts θ := by
  have := hin p
  rw [h] at this
  exact this

theorem allBacked_of {A : Type} (S : Site α Y K) (consts : Nat → Option α) (f : A → List (Option α)) (g : A → ℝ) (l : List A) (h : ∀ a ∈ l, Backed S consts (f a) (g a)) : AllBacked S consts (l.map f) (l.map g) := by
  refine ⟨by simp, fun i θ d h1 h2 => ?_⟩
  rw [List.getElem?_map, Option.map_eq_some_iff] at h1 h2
  obtain ⟨a, ha, rfl⟩ := h1
  obtain ⟨b, hb, rfl⟩ := h2
  rw [ha, Option.some.injEq] at hb
  subst hb
  exact h a (List.mem_of_getElem? ha)

/-! ### PMCABC -/

theorem attempts_backed (S : Site α Y (Pmc.Pop (List (Option α)) × Nat)) (hS : Plain S) (consts : Nat → Option α) (hin : Inside S consts) (kern : Pmc.Pop (List (Option α)) → List (Option α) → List (Option α) → ℝ)
    (old : Option (Pmc.Pop (List (Option α)))) (eps : ℝ) (w : Nat × Nat) (θ : List (Option α)) (d : ℝ) (k : Nat) (h : Pmc.Spec.Attempts (pmcEnv S consts kern) old eps w θ d k) : Backed S consts θ d ∧ d ≤ eps := by
  induction h with
  | hit w w1 w2 θ y h1 h2 h3 =>
    refine ⟨backed_sim S consts θ ?_ w1 w2 y h2, h3⟩
    unfold Pmc.Spec.Draw at h1
    cases old with
    | none => exact inside_prior S consts hin w w1 θ h1
    | some p => exact proposal_fits S hS consts _ _ _ θ h1
  | miss _ _ _ _ _ _ _ _ _ _ _ _ ih => exact ih

theorem pmc_history (S : Site α Y (Pmc.Pop (List (Option α)) × Nat)) (hS : Plain S) (consts : Nat → Option α) (hin : Inside S consts) (kern : Pmc.Pop (List (Option α)) → List (Option α) → List (Option α) → ℝ)
    (pct : ℝ) (given : Nat → Option ℝ) (hg : ∀ t e, given t = some e → Pmc.above S.distMax e = true) (start : Nat → List (Nat × Nat)) (before : Option (Pmc.Pop (List (Option α))))
    (h : List (ℝ × List (Pmc.Spec.Particle (List (Option α))))) (k : Nat) (hh : Pmc.Spec.History (pmcEnv S consts kern) pct given start before h k) :
    ∀ x ∈ h, Pmc.above S.distMax x.1 = true ∧ ∀ a ∈ x.2, Backed S consts a.θ a.d ∧ a.d ≤ x.1 := by
  have stage : ∀ old eps st new tries, Pmc.above S.distMax eps = true → Pmc.Spec.Stage (pmcEnv S consts kern) old eps st new tries → ∀ a ∈ new, Backed S consts a.θ a.d ∧ a.d ≤ eps := by
    intro old eps st new tries hlow hst a ha
    obtain ⟨i, hi⟩ := List.mem_iff_getElem?.1 ha
    have hil := (List.getElem?_eq_some_iff.1 hi).1
    have h1 : i < st.length := by rw [← hst.size]; exact hil
    have h2 : i < tries.length := by rw [hst.size_tries]; exact h1
    rcases hst.task i _ a _ (List.getElem?_eq_getElem h1) hi (List.getElem?_eq_getElem h2) with ⟨m, hm, hle, -⟩ | ⟨-, hat⟩
    · have hm' : S.distMax = some m := hm
      rw [hm'] at hlow
      simp only [Pmc.above, Option.elim_some, decide_eq_true_eq] at hlow
      exact absurd hlow (not_lt.2 hle)
    · exact attempts_backed S hS consts hin kern old eps _ _ _ _ hat
  induction hh with
  | first eps new tries h1 h2 =>
    intro x hx
    rw [List.mem_singleton] at hx
    subst hx
    exact ⟨hg 0 eps h1, stage _ _ _ _ _ (hg 0 eps h1) h2⟩
  | step h e last k eps new tries hh h1 h2 ih =>
    intro x hx
    rcases List.mem_append.1 hx with hx | hx
    · exact ih x hx
    · rw [List.mem_singleton] at hx
      subst hx
      obtain ⟨i1, i2⟩ := ih (e, last) (by simp)
      have hlow : Pmc.above S.distMax eps = true := by
        obtain ⟨q, hq, rfl⟩ := h1
        have hqe : q ≤ e := Pmc.percentile_le _ _ _ _ hq (fun y hy => by
          obtain ⟨a, ha, rfl⟩ := List.mem_map.1 hy
          exact (i2 a ha).2)
        cases hgi : given (h.length + 1) with
        | none => exact above_mono _ _ _ hqe i1
        | some e' =>
          simp only [Option.elim_some]
          rcases le_total q e' with hle | hle
          · rw [max_eq_right hle]; exact hg _ _ hgi
          · rw [max_eq_left hle]; exact above_mono _ _ _ hqe i1
      exact ⟨hlow, stage _ _ _ _ _ hlow h2⟩

/-- **C147 for `PMCABC`.** In every run on the graph that returns, with any backend and schedule, there is one population for each step; the values of each particle are accepted by `set_parameters`, and its distance is that of
data simulated from these values, and at most the threshold of the step. -/
theorem C147_pmcabc (S : Site α Y (Pmc.Pop (List (Option α)) × Nat)) (hS : Plain S) (consts : Nat → Option α) (hd : Draws S consts) (hin : Inside S consts)
    (kern : Pmc.Pop (List (Option α)) → List (Option α) → List (Option α) → ℝ) (steps : Nat) (hs : 0 < steps) (epsInit : List ℝ) (hmax : ∀ e ∈ epsInit, Pmc.above S.distMax e = true) (pct : ℝ) (fuel : Nat)
    (seeds : Nat → List Nat) (schedule schedule' : Nat → Option (List (Nat × Nat))) (hc : ∀ t, Scheduled (seeds t).length (schedule t)) (hc' : ∀ t, Scheduled (seeds t).length (schedule' t))
    (before : Option (Pmc.Pop (List (Option α)))) (counter : Nat) (st : St α) (hst : Good S consts st) (st' : St α) (s : Pmc.State (List (Option α)))
    (h : pmcRun S kern steps epsInit pct fuel seeds schedule schedule' before counter st = some (st', s)) :
    s.hist.length = steps ∧ ∀ r ∈ s.hist, AllBacked S consts r.params r.distances ∧ ∀ d ∈ r.distances, d ≤ r.eps := by
  have key := C146_pmcabc S hS consts hd hin kern steps epsInit hmax pct fuel seeds schedule schedule' hc hc' before counter st hst
  rw [h] at key
  obtain ⟨l, k, h1, h2, h3, -⟩ := Pmc.C110_run _ steps epsInit pct fuel _ before counter s hs key.symm
  have hall := pmc_history S hS consts hin kern pct _ (fun t e he => by
    unfold Pmc.Spec.asked at he
    split at he
    · exact hmax e (List.mem_of_getElem? he)
    · cases he) _ before l k h1
  refine ⟨by rw [h3.length_eq, h2], fun r hr => ?_⟩
  obtain ⟨i, hi⟩ := List.mem_iff_getElem?.1 hr
  obtain ⟨hil, rfl⟩ := List.getElem?_eq_some_iff.1 hi
  have hil' : i < l.length := by rw [← h3.length_eq]; exact hil
  have hold := h3.get hil hil'
  rw [List.get_eq_getElem, List.get_eq_getElem] at hold
  have hb := (hall _ (List.getElem_mem hil')).2
  refine ⟨?_, ?_⟩
  · rw [hold.params, hold.distances]
    exact allBacked_of S consts _ _ _ fun a ha => (hb a ha).1
  · intro d hd'
    rw [hold.distances] at hd'
    obtain ⟨a, ha, rfl⟩ := List.mem_map.1 hd'
    rw [hold.eps]
    exact (hb a ha).2

/-! ### APMCABC -/

theorem apmc_history (S : Site α Y K) (R : Plain S) (consts : Nat → Option α) (hin : Inside S consts) (req : Pmc.Pop (List (Option α)) → Nat → K) (kern : Pmc.Pop (List (Option α)) → List (Option α) → List (Option α) → ℝ)
    (c : Apmc.Config) (start : Nat → List (Nat × Nat)) (es : List ℝ) (pops : List (List (Apmc.Out (List (Option α))))) (kept : List (Apmc.Out (List (Option α)))) (b : Bool)
    (h : Apmc.Spec.History (apmcEnv S consts req kern) c start es pops kept b) :
    (∀ p ∈ pops, ∀ o ∈ p, Backed S consts o.θ o.d) ∧ ∀ o ∈ kept, Backed S consts o.θ o.d := by
  have carry : ∀ (e : ℝ) (pop : List (Apmc.Out (List (Option α)))), (∀ o ∈ pop, Backed S consts o.θ o.d) → ∀ o ∈ Apmc.Spec.carried e pop, Backed S consts o.θ o.d := by
    intro e pop hp o ho
    unfold Apmc.Spec.carried at ho
    obtain ⟨a, ha, rfl⟩ := List.mem_map.1 ho
    unfold Apmc.Spec.closer at ha
    exact hp a (List.mem_filter.1 ha).1
  have task : ∀ (t : Nat) (kept new : List (Apmc.Out (List (Option α)))), (start t).length = new.length →
      (∀ (i : Nat) o w, new[i]? = some o → (start t)[i]? = some w → Apmc.Spec.Task (apmcEnv S consts req kern) kept w o) → ∀ o ∈ new, Backed S consts o.θ o.d := by
    intro t kept new hl ht o ho
    obtain ⟨i, hi⟩ := List.mem_iff_getElem?.1 ho
    have hil := (List.getElem?_eq_some_iff.1 hi).1
    obtain ⟨-, w1, w2, y, q1, q2, q3, -⟩ := ht i o _ hi (List.getElem?_eq_getElem (by rw [hl]; exact hil))
    rw [q3]
    exact backed_sim S consts _ (proposal_fits S R consts _ _ _ _ q1) _ _ _ q2
  induction h with
  | first pop e stop h1 h2 h3 h4 h5 =>
    have hp : ∀ o ∈ pop, Backed S consts o.θ o.d := by
      intro o ho
      obtain ⟨i, hi⟩ := List.mem_iff_getElem?.1 ho
      have hil := (List.getElem?_eq_some_iff.1 hi).1
      obtain ⟨w1, w2, y, q1, q2, q3, -⟩ := h3 i o _ hi (List.getElem?_eq_getElem (by rw [h2, ← h1]; exact hil))
      rw [q3]
      exact backed_sim S consts _ (inside_prior S consts hin _ _ _ q1) _ _ _ q2
    exact ⟨fun p hp' => by rw [List.mem_singleton] at hp'; subst hp'; exact hp, carry e pop hp⟩
  | replace es pops kept new e stop _ h1 h2 h3 h4 h5 h6 ih =>
    have hn := task _ kept new (by rw [h3, h2]) h4
    refine ⟨fun p hp => ?_, carry e new hn⟩
    rcases List.mem_append.1 hp with hp | hp
    · exact ih.1 p hp
    · rw [List.mem_singleton] at hp; subst hp; exact hn
  | step es e pops kept new e' stop _ h1 h2 h3 h4 h5 h6 ih =>
    have hn : ∀ o ∈ kept ++ new, Backed S consts o.θ o.d := by
      intro o ho
      rcases List.mem_append.1 ho with ho | ho
      · exact ih.2 o ho
      · exact task _ kept new h3 h4 o ho
    refine ⟨fun p hp => ?_, carry e' _ hn⟩
    rcases List.mem_append.1 hp with hp | hp
    · exact ih.1 p hp
    · rw [List.mem_singleton] at hp; subst hp; exact hn

/-- C147 for `APMCABC`. -/
theorem C147_apmcabc (S : Site α Y K) (hS : Plain S) (consts : Nat → Option α) (hd : Draws S consts) (hin : Inside S consts) (req : Pmc.Pop (List (Option α)) → Nat → K)
    (kern : Pmc.Pop (List (Option α)) → List (Option α) → List (Option α) → ℝ) (c : Apmc.Config) (hs : 0 < c.steps) (fuel : Nat) (seeds : Nat → List Nat) (schedule : Nat → Option (List (Nat × Nat)))
    (hc : ∀ t, Scheduled (seeds t).length (schedule t)) (st : St α) (hst : Good S consts st) (st' : St α) (s : Apmc.State (List (Option α)))
    (h : apmcRun S req kern c fuel seeds schedule st = some (st', s)) :
    (∀ r ∈ s.hist, AllBacked S consts r.params r.distances) ∧ ∀ r ∈ s.journal, AllBacked S consts r.params r.distances := by
  have key := C146_apmcabc S hS consts hd hin req kern c fuel seeds schedule hc st hst
  rw [h] at key
  obtain ⟨pops, kept, h1, h2, -, -, hj⟩ := Apmc.C100_run _ c fuel _ s hs key.symm
  have hall := (apmc_history S hS consts hin req kern c _ _ pops kept _ h1).1
  have hist : ∀ r ∈ s.hist, AllBacked S consts r.params r.distances := by
    intro r hr
    obtain ⟨i, hi⟩ := List.mem_iff_getElem?.1 hr
    obtain ⟨hil, rfl⟩ := List.getElem?_eq_some_iff.1 hi
    have hil' : i < pops.length := by rw [← h2.length_eq]; exact hil
    have hold := h2.get hil hil'
    rw [List.get_eq_getElem, List.get_eq_getElem] at hold
    rw [hold.params, hold.distances]
    exact allBacked_of S consts _ _ _ (hall _ (List.getElem_mem hil'))
  refine ⟨hist, fun r hr => ?_⟩
  rw [hj] at hr
  split at hr
  · exact hist r hr
  · split at hr
    · exact hist r (List.mem_of_mem_drop hr)
    · cases hr

/-! ### SABC -/

theorem sabc_history (S : Site α Y K) (R : Rng) (hS : Plain S) (consts : Nat → Option α) (hin : Inside S consts) (req : Pmc.Pop (List (Option α)) → Nat → K) (temper : ℝ → ℝ) (pick : Nat → List ℝ → List Nat)
    (c : Sabc.Config) (start : Nat → List (Nat × Nat)) (pops : List (List (Sabc.Spec.Particle (List (Option α))))) (st : Sabc.Spec.Stage (List (Option α))) (k : Nat) (b : Bool)
    (h : Sabc.Spec.History (sabcEnv S R consts req temper pick) c start pops st k b) :
    (∀ p ∈ pops, ∀ a ∈ p, Backed S consts a.θ a.d) ∧ ∀ a ∈ st.pop, Backed S consts a.θ a.d := by
  have fin : ∀ (t : Nat) (u : ℝ) (a b : Sabc.Spec.Stage (List (Option α))), Sabc.Spec.Finished (sabcEnv S R consts req temper pick) c t u a b → (∀ x ∈ a.pop, Backed S consts x.θ x.d) →
      ∀ x ∈ b.pop, Backed S consts x.θ x.d := by
    intro t u a b h ha x hx
    obtain ⟨-, h⟩ := h
    split at h
    · obtain ⟨ps, -, -, h3, -⟩ := h
      have : some x ∈ b.pop.map some := List.mem_map_of_mem hx
      rw [← h3] at this
      obtain ⟨i, -, hi⟩ := List.mem_map.1 this
      exact ha x (List.mem_of_getElem? hi)
    · rw [h.1] at hx; exact ha x hx
  have move : ∀ (t : Nat) (all : List ℝ) (eps : ℝ) (pop pop' : List (Sabc.Spec.Particle (List (Option α)))) (outs : List (Sabc.Out (List (Option α)))), (start t).length = outs.length →
      (∀ (i : Nat) o w, outs[i]? = some o → (start t)[i]? = some w → Sabc.Spec.MoveTask (sabcEnv S R consts req temper pick) all eps pop w o) → Sabc.Spec.Replaced all outs pop pop' →
      (∀ x ∈ pop, Backed S consts x.θ x.d) → ∀ x ∈ pop', Backed S consts x.θ x.d := by
    intro t all eps pop pop' outs hl ht hr hp x hx
    have hb : ∀ o ∈ outs, Backed S consts o.θ o.d := by
      intro o ho
      obtain ⟨i, hi⟩ := List.mem_iff_getElem?.1 ho
      have hil := (List.getElem?_eq_some_iff.1 hi).1
      obtain ⟨w0, a, w1, w2, w3, y, x, u, -, -, q1, q2, q3, -⟩ := ht i o _ hi (List.getElem?_eq_getElem (by rw [hl]; exact hil))
      rw [q3]
      exact backed_sim S consts _ (proposal_fits S hS consts _ _ _ _ q1) _ _ _ q2
    obtain ⟨k, hk⟩ := List.mem_iff_getElem?.1 hx
    obtain ⟨-, r2, r3⟩ := hr
    by_cases hno : ∀ o ∈ outs, o.accepted = true → o.index ≠ k
    · rw [r2 k hno] at hk
      exact hp x (List.mem_of_getElem? hk)
    · -- the last accepted move from `k`
      push Not at hno
      obtain ⟨l1, o, l2, e1, e2, e3, e4⟩ : ∃ l1 o l2, outs = l1 ++ o :: l2 ∧ o.accepted = true ∧ o.index = k ∧ ∀ o' ∈ l2, o'.accepted = true → o'.index ≠ k := by
        clear r2 r3 ht hl hb
        induction outs with
        | nil => obtain ⟨o, ho, -⟩ := hno; cases ho
        | cons a l ih =>
          by_cases hl : ∃ o ∈ l, o.accepted = true ∧ o.index = k
          · obtain ⟨l1, o, l2, e1, e2⟩ := ih hl
            exact ⟨a :: l1, o, l2, by rw [e1]; rfl, e2⟩
          · push Not at hl
            obtain ⟨o, ho, h1, h2⟩ := hno
            rcases List.mem_cons.1 ho with rfl | ho
            · exact ⟨[], o, l, rfl, h1, h2, hl⟩
            · exact absurd h2 (hl o ho h1)
      obtain ⟨x', -, hx'⟩ := r3 l1 o l2 e1 e2 (by rw [e3]; exact e4)
      rw [e3, hk, Option.some.injEq] at hx'
      subst hx'
      exact hb o (by rw [e1]; simp)
  induction h with
  | first outs xs a b h1 h2 h3 h4 h5 h6 h7 h8 h9 h10 =>
    have ha : ∀ x ∈ a.pop, Backed S consts x.θ x.d := by
      intro x hx
      obtain ⟨i, hi⟩ := List.mem_iff_getElem?.1 hx
      have hil := (List.getElem?_eq_some_iff.1 hi).1
      have hil' : i < outs.length := by rw [← h6.1]; exact hil
      obtain ⟨q1, q2, -⟩ := h6.2 i _ x (List.getElem?_eq_getElem hil') hi
      obtain ⟨w', l, d, t1, t2, t3, t4, t5, -⟩ := h4 i _ _ (List.getElem?_eq_getElem hil') (List.getElem?_eq_getElem (by rw [h3, ← h2]; exact hil'))
      rw [q1, q2, t4, t5]
      have last : ∀ (l : List (Sabc.Spec.Draw (List (Option α)))) (w : Nat × Nat), Smc.Spec.Trials (Sabc.Spec.PriorTry (sabcEnv S R consts req temper pick) c.eps) w w' (l ++ [d]) → Backed S consts d.θ d.d := by
        intro l
        induction l with
        | nil =>
          intro w ht
          cases ht with
          | cons _ w1 _ _ _ h _ =>
            obtain ⟨v1, v2, y, p1, p2, p3, -⟩ := h
            rw [p3]
            exact backed_sim S consts _ (inside_prior S consts hin _ _ _ p1) _ _ _ p2
        | cons b l ih =>
          intro w ht
          cases ht with
          | cons _ w1 _ _ _ _ h => exact ih w1 h
      exact last l _ t1
    have hb := fin _ _ _ _ h10 ha
    exact ⟨fun p hp => by rw [List.mem_singleton] at hp; subst hp; exact hb, hb⟩
  | step pops s a b count outs _ h1 h2 h3 h4 h5 h6 h7 h8 h9 h10 ih =>
    have hb := fin _ _ _ _ h10 (move _ _ _ _ _ outs (by rw [h3, h2]) h4 h6 ih.2)
    refine ⟨fun p hp => ?_, hb⟩
    rcases List.mem_append.1 hp with hp | hp
    · exact ih.1 p hp
    · rw [List.mem_singleton] at hp; subst hp; exact hb
  | stop pops s a count outs _ h1 h2 h3 h4 h5 h6 h7 h8 h9 h10 ih =>
    have hb := move _ _ _ _ _ outs (by rw [h3, h2]) h4 h6 ih.2
    refine ⟨fun p hp => ?_, hb⟩
    rcases List.mem_append.1 hp with hp | hp
    · exact ih.1 p hp
    · rw [List.mem_singleton] at hp; subst hp; exact hb

/-- C147 for `SABC`. -/
theorem C147_sabc (S : Site α Y K) (R : Rng) (hS : Plain S) (consts : Nat → Option α) (hd : Draws S consts) (hin : Inside S consts) (req : Pmc.Pop (List (Option α)) → Nat → K) (temper : ℝ → ℝ)
    (pick : Nat → List ℝ → List Nat) (c : Sabc.Config) (hs : 0 < c.steps) (fuel : Nat) (seeds : Nat → List Nat) (schedule : Nat → Option (List (Nat × Nat))) (hc : ∀ t, Scheduled (seeds t).length (schedule t)) (st : St α)
    (hst : Good S consts st) (st' : St α) (s : Sabc.State (List (Option α))) (h : sabcRun S R consts req temper pick c fuel seeds schedule st = some (st', s)) :
    ∀ r ∈ s.journal, AllBacked S consts r.1 r.2 := by
  have key := C146_sabc S R hS consts hd hin req temper pick c fuel seeds schedule hc st hst
  rw [h] at key
  obtain ⟨pops, h1, -, -, hj⟩ := Sabc.C102_run _ c fuel _ s hs key.symm
  have hall := (sabc_history S R hS consts hin req temper pick c _ pops _ _ _ h1).1
  intro r hr
  rw [hj] at hr
  obtain ⟨p, hp, rfl⟩ := List.mem_map.1 hr
  have hp' : p ∈ pops := by
    split at hp
    · split at hp
      · exact List.mem_of_mem_dropLast hp
      · exact hp
    · have := List.mem_of_mem_drop hp
      split at this
      · exact List.mem_of_mem_dropLast this
      · exact this
  exact allBacked_of S consts _ _ _ (hall p hp')

/-! ### ABCsubsim -/

theorem subsim_history (S : Site α Y K) (R : Rng) (hS : Plain S) (consts : Nat → Option α) (hin : Inside S consts) (req : List M → List (Option α) → K) (kern : List M → List (Option α) → List (Option α) → ℝ)
    (cov : Pmc.Pop (List (Option α)) → List M) (scale : Nat → M → M) (c : Subsim.Config) (start tuneStart : Nat → List (Nat × Nat)) (base : List (List (Option α))) (h : List (Subsim.Spec.Stage (List (Option α)) M)) (b : Bool)
    (hh : Subsim.Spec.History (subsimEnv S R consts req kern cov scale) c start tuneStart base h b) : ∀ a ∈ h, ∀ e ∈ a.pop, Backed S consts e.1 e.2 := by
  have chain : ∀ (covs : List M) (anneal : ℝ) (b : List (Option α)) (w : Nat × Nat) (θ : List (Option α)) (l : List (Subsim.Spec.Move (List (Option α)))),
      Subsim.Spec.Chain (subsimEnv S R consts req kern cov scale) covs anneal b w θ l → ∀ m ∈ l, Backed S consts m.θ m.d := by
    intro covs anneal b w θ l h
    induction h with
    | nil => intro m hm; cases hm
    | cons w w' θ a l h1 _ ih =>
      intro m hm
      rcases List.mem_cons.1 hm with rfl | hm
      · obtain ⟨w1, w2, y, q1, q2, q3, -⟩ := h1
        rw [q3]
        exact backed_sim S consts _ (proposal_fits S hS consts _ _ _ _ q1) _ _ _ q2
      · exact ih m hm
  have states : ∀ (l : List (Subsim.Spec.Move (List (Option α)))) (s : List (Option α) × ℝ), Backed S consts s.1 s.2 → (∀ m ∈ l, Backed S consts m.θ m.d) →
      ∀ e ∈ Subsim.Spec.states s l, Backed S consts e.1 e.2 := by
    intro l
    induction l with
    | nil => intro s _ _ e he; cases he
    | cons a l ih =>
      intro s hs hl e he
      have hn : Backed S consts (if a.ok then (a.θ, a.d) else s).1 (if a.ok then (a.θ, a.d) else s).2 := by
        split
        · exact hl a (List.mem_cons_self ..)
        · exact hs
      rcases List.mem_cons.1 he with rfl | he
      · exact hn
      · exact ih _ hn (fun m hm => hl m (List.mem_cons_of_mem _ hm)) e he
  induction hh with
  | first outs a x stop h1 h2 h3 h4 h5 h6 h7 h8 h9 h10 h11 =>
    intro a' ha' e he
    rw [List.mem_singleton] at ha'
    subst ha'
    have ho := h6.1.mem_iff.1 he
    obtain ⟨i, hi⟩ := List.mem_iff_getElem?.1 ho
    have hil := (List.getElem?_eq_some_iff.1 hi).1
    obtain ⟨w1, w2, y, q1, q2, q3⟩ := h5 i e _ hi (List.getElem?_eq_getElem (by rw [h4, ← h3]; exact hil))
    rw [q3]
    exact backed_sim S consts _ (inside_prior S consts hin _ _ _ q1) _ _ _ q2
  | step base h o a chains θ0 x stop _ h1 h2 h3 h4 h5 h6 h7 h8 h9 h10 ih =>
    intro a' ha' e he
    rcases List.mem_append.1 ha' with ha' | ha'
    · exact ih a' ha' e he
    · rw [List.mem_singleton] at ha'
      subst ha'
      obtain ⟨out, hout, heo⟩ := List.mem_flatten.1 (h4.1.mem_iff.1 he)
      obtain ⟨i, hi⟩ := List.mem_iff_getElem?.1 hout
      have hil := (List.getElem?_eq_some_iff.1 hi).1
      obtain ⟨b, e0, -, he0, w1, y, l, q1, q2, -, rfl⟩ := h3 i out _ hi (List.getElem?_eq_getElem (by rw [h2, ← h1]; exact hil))
      have hfit : Fits S consts e0.1 := (ih o (by simp) e0 (List.mem_of_getElem? he0)).1
      have hb0 := backed_sim S consts e0.1 hfit _ _ _ q1
      rcases List.mem_cons.1 heo with rfl | heo
      · exact hb0
      · exact states l _ hb0 (chain _ _ _ _ _ _ q2) e heo

/-- C147 for `ABCsubsim`. -/
theorem C147_subsim (S : Site α Y K) (R : Rng) (hS : Plain S) (consts : Nat → Option α) (hd : Draws S consts) (hin : Inside S consts) (req : List M → List (Option α) → K)
    (kern : List M → List (Option α) → List (Option α) → ℝ) (cov : Pmc.Pop (List (Option α)) → List M) (scale : Nat → M → M) (c : Subsim.Config) (hs : 0 < c.steps) (fuel : Nat) (seeds seeds' : Nat → List Nat)
    (schedule schedule' : Nat → Option (List (Nat × Nat))) (hc : ∀ t, Scheduled (seeds t).length (schedule t)) (hc' : ∀ t, Scheduled (seeds' t).length (schedule' t)) (st : St α) (hst : Good S consts st) (st' : St α)
    (s : Subsim.State (List (Option α)) M) (h : subsimRun S R req kern cov scale c fuel seeds seeds' schedule schedule' st = some (st', s)) :
    (∀ e ∈ s.hist, AllBacked S consts e.1.params e.1.distances) ∧ ∀ r ∈ s.journal, AllBacked S consts r.params r.distances := by
  have key := C146_subsim S R hS consts hd hin req kern cov scale c fuel seeds seeds' schedule schedule' hc hc' st hst
  rw [h] at key
  obtain ⟨h1, -, -, h2, hj⟩ := Subsim.C104_run _ c fuel _ _ s hs key.symm
  have hall := subsim_history S R hS consts hin req kern cov scale c _ _ _ _ _ h1
  have hist : ∀ e ∈ s.hist, AllBacked S consts e.1.params e.1.distances := by
    intro e he
    refine ⟨(h2 e he).1, fun i θ d hθ hd' => ?_⟩
    refine hall (Subsim.stageOf e) (List.mem_map_of_mem he) (θ, d) ?_
    apply List.mem_of_getElem? (i := i)
    simp only [Subsim.stageOf, List.getElem?_zip_eq_some]
    exact ⟨hθ, hd'⟩
  refine ⟨hist, fun r hr => ?_⟩
  rw [hj] at hr
  obtain ⟨e, he, rfl⟩ := List.mem_map.1 hr
  apply hist
  split at he
  · exact he
  · exact List.mem_of_mem_drop he

/-! ### SMCABC -/

/-- One step of `SMCABC` keeps the values inside the prior. -/
theorem smc_step_fits (S : Site α Y K) (R : Rng) (hS : Plain S) (consts : Nat → Option α) (req : Pmc.Pop (List (Option α)) → Nat → K)
    (around : Pmc.Pop (List (Option α)) → List (Option α) → K) (kern : Pmc.Pop (List (Option α)) → List (Option α) → List (Option α) → ℝ) (dists : Y → List ℝ) (c : Smc.Config) (dr : Smc.Draws) (fuel : Nat)
    (p : Smc.Rec (List (Option α)) Y) (t : Nat) (eps : ℝ) (wts : List ℝ) (q : Pmc.Pop (List (Option α))) (start : List (Nat × Nat)) (l : List (Smc.Out (List (Option α)) Y)) (hp : ∀ θ ∈ p.params, Fits S consts θ)
    (hq : Smc.resampled c dr t p.params wts = some q) (hl : Smc.moved (smcEnv S R consts req around kern dists) c fuel eps q p.sims start = some l) :
    ∀ θ ∈ (Smc.outRec q.weights l).params, Fits S consts θ := by
  intro θ hθ
  have hq' : ∀ θ ∈ q.params, Fits S consts θ := by
    unfold Smc.resampled at hq
    split at hq
    · rw [Option.map_eq_some_iff] at hq
      obtain ⟨l', hl', rfl⟩ := hq
      intro θ hθ
      obtain ⟨i, -, hi⟩ := List.mem_map.1 (collect_mem _ _ hl' θ hθ)
      exact hp θ (List.mem_of_getElem? hi)
    · simp only [Option.some.injEq] at hq
      subst hq
      exact hp
  simp only [Smc.outRec] at hθ
  obtain ⟨o, ho, rfl⟩ := List.mem_map.1 hθ
  obtain ⟨i, hi⟩ := List.mem_iff_getElem?.1 ho
  obtain ⟨θ, wt, y, w, a1, -, -, -, hm⟩ := (Smc.moved_move _ c fuel eps q p.sims start l hl).2 i o hi
  have hθ := hq' θ (List.mem_of_getElem? a1)
  unfold Smc.Spec.Move at hm
  split at hm
  · rcases hm with ⟨-, w1, w2, θ', y', q1, -, ho⟩ | ⟨-, w1, w2, w3, θ', old, new, -, -, q1, -, -, ho⟩ | ⟨-, w1, w2, θ', y', prime, back, q1, -, q2, -, -, ho⟩
    · rw [ho]
      split
      · exact proposal_fits S hS consts _ _ _ _ q1
      · exact hθ
    · simp only at ho
      split at ho
      · obtain ⟨y', -, ho⟩ := ho
        rw [ho]
        exact proposal_fits S hS consts _ _ _ _ q1
      · rw [ho]; exact hθ
    · rw [ho]
      split
      · have hall : ∀ (w w1 : Nat × Nat) (l : List (List (Option α) × Y)), Smc.Spec.Trials (Smc.Spec.ProposeSim (smcEnv S R consts req around kern dists) ((smcEnv S R consts req around kern dists).perturb q i)) w w1 l →
            ∀ a ∈ l, Fits S consts a.1 := by
          intro w w1 l ht
          induction ht with
          | nil => intro a ha; cases ha
          | cons w w1 w' a l h1 _ ih =>
            intro b hb
            rcases List.mem_cons.1 hb with rfl | hb
            · obtain ⟨v, p1, -⟩ := h1
              exact proposal_fits S hS consts _ _ _ _ p1
            · exact ih b hb
        exact hall _ _ _ q1 _ (List.mem_of_getElem? q2)
      · exact hθ
  · rw [hm]; exact hθ

/-- The values of all particles of a run of `SMCABC` are inside the prior. -/
theorem smc_fits (S : Site α Y K) (R : Rng) (hS : Plain S) (consts : Nat → Option α) (hin : Inside S consts) (req : Pmc.Pop (List (Option α)) → Nat → K)
    (around : Pmc.Pop (List (Option α)) → List (Option α) → K) (kern : Pmc.Pop (List (Option α)) → List (Option α) → List (Option α) → ℝ) (dists : Y → List ℝ) (c : Smc.Config) (dr : Smc.Draws) (fuel : Nat)
    (start : Nat → List (Nat × Nat)) (s : Smc.State (List (Option α)) Y) (h : Smc.smcRun (smcEnv S R consts req around kern dists) c dr S.distMax fuel start = some s) :
    ∀ r ∈ s.journal ++ s.last.toList, ∀ θ ∈ r.params, Fits S consts θ :=
  Smc.run_all _ c dr (fun r => ∀ θ ∈ r.params, Fits S consts θ) S.distMax fuel _ s
    (by
      intro start θ hθ
      simp only [Smc.outRec, List.map_map] at hθ
      obtain ⟨w, -, rfl⟩ := List.mem_map.1 hθ
      exact hin w)
    (by
      intro p t eps cur wts q start l hp _ _ hq hl
      exact smc_step_fits S R hS consts req around kern dists c dr fuel p t eps wts q start l hp hq hl) h

/-- Each stored data set of a run of `SMCABC` was simulated with some values inside the prior. -/
theorem smc_sims (S : Site α Y K) (R : Rng) (hS : Plain S) (consts : Nat → Option α) (hin : Inside S consts) (req : Pmc.Pop (List (Option α)) → Nat → K)
    (around : Pmc.Pop (List (Option α)) → List (Option α) → K) (kern : Pmc.Pop (List (Option α)) → List (Option α) → List (Option α) → ℝ) (dists : Y → List ℝ) (c : Smc.Config) (dr : Smc.Draws) (fuel : Nat)
    (start : Nat → List (Nat × Nat)) (s : Smc.State (List (Option α)) Y) (h : Smc.smcRun (smcEnv S R consts req around kern dists) c dr S.distMax fuel start = some s) :
    ∀ r ∈ s.journal ++ s.last.toList, ∀ y ∈ r.sims, ∃ θ, Fits S consts θ ∧ From S consts θ y := by
  have key := Smc.run_all (smcEnv S R consts req around kern dists) c dr (fun r => (∀ θ ∈ r.params, Fits S consts θ) ∧ ∀ y ∈ r.sims, ∃ θ, Fits S consts θ ∧ From S consts θ y) S.distMax fuel _ s
    (by
      intro start
      constructor
      · intro θ hθ
        simp only [Smc.outRec, List.map_map] at hθ
        obtain ⟨w, -, rfl⟩ := List.mem_map.1 hθ
        exact hin w
      · intro y hy
        simp only [Smc.outRec, List.map_map] at hy
        obtain ⟨w, -, rfl⟩ := List.mem_map.1 hy
        exact ⟨_, hin w, from_sim S consts _ _⟩)
    (by
      intro p t eps cur wts q start l hp _ _ hq hl
      have hf := smc_step_fits S R hS consts req around kern dists c dr fuel p t eps wts q start l hp.1 hq hl
      refine ⟨hf, fun y hy => ?_⟩
      obtain ⟨o, ho, rfl⟩ := List.mem_map.1 hy
      obtain ⟨i, hi⟩ := List.mem_iff_getElem?.1 ho
      obtain ⟨θ, wt, y, -, -, h3, hm⟩ := (Smc.moved_spec _ c fuel eps q p.sims start l hl).2 i o hi
      rcases hm.2.2 with ⟨-, b⟩ | ⟨θ', w, a, b, -⟩
      · rw [b]; exact hp.2 y (List.mem_of_getElem? h3)
      · refine ⟨o.θ, hf _ (List.mem_map.2 ⟨o, ho, rfl⟩), ?_⟩
        rw [a, b]
        exact from_sim S consts _ _) h
  exact fun r hr => (key r hr).2

/-- C147 for `SMCABC` that never resamples (the version of Del Moral et al. with `resample ≤ 0`); otherwise C45 has counterexamples. -/
theorem C147_smcabc (S : Site α Y K) (R : Rng) (hS : Plain S) (consts : Nat → Option α) (hd : Draws S consts) (hin : Inside S consts) (req : Pmc.Pop (List (Option α)) → Nat → K)
    (around : Pmc.Pop (List (Option α)) → List (Option α) → K) (kern : Pmc.Pop (List (Option α)) → List (Option α) → List (Option α) → ℝ) (dists : Y → List ℝ) (c : Smc.Config) (hb : c.bernton = false)
    (hr : c.resample ≤ 0) (dr : Smc.Draws) (fuel : Nat) (seeds : Nat → List Nat) (schedule : Nat → Option (List (Nat × Nat))) (hc : ∀ t, Scheduled (seeds t).length (schedule t)) (st : St α) (hst : Good S consts st)
    (st' : St α) (s : Smc.State (List (Option α)) Y) (h : smcRun S R consts req around kern dists c dr fuel seeds schedule st = some (st', s)) :
    ∀ r ∈ s.journal ++ s.last.toList, ∀ (i : Nat) θ y d, r.params[i]? = some θ → r.sims[i]? = some y → r.distances[i]? = some d → Fits S consts θ ∧ From S consts θ y ∧ d = S.dist y := by
  have key := C146_smcabc S R hS consts hd hin req around kern dists c dr fuel seeds schedule hc st hst
  rw [h] at key
  have k1 := Smc.C45_distances _ c dr S.distMax fuel _ s key.symm
  have k2 := Smc.C45_simulations_partial _ c dr (fun y θ => From S consts θ y) (fun θ w => from_sim S consts θ w) hb hr S.distMax fuel _ s key.symm
  have k3 := smc_fits S R hS consts hin req around kern dists c dr fuel _ s key.symm
  intro r hr' i θ y d h1 h2 h3
  exact ⟨k3 r hr' θ (List.mem_of_getElem? h1), k2 r hr' i θ y h1 h2, k1 r hr' i y d h2 h3⟩

/-- C147 for every `SMCABC`, also with resampling and in the version of Bernton et al.: values are inside the prior, each distance is that of the stored data of the particle, and these were simulated with values
inside the prior. Missing: that these are the values of the particle, which fails after resampling (C45). -/
theorem C147_smcabc_partial (S : Site α Y K) (R : Rng) (hS : Plain S) (consts : Nat → Option α) (hd : Draws S consts) (hin : Inside S consts) (req : Pmc.Pop (List (Option α)) → Nat → K)
    (around : Pmc.Pop (List (Option α)) → List (Option α) → K) (kern : Pmc.Pop (List (Option α)) → List (Option α) → List (Option α) → ℝ) (dists : Y → List ℝ) (c : Smc.Config)
    (dr : Smc.Draws) (fuel : Nat) (seeds : Nat → List Nat) (schedule : Nat → Option (List (Nat × Nat))) (hc : ∀ t, Scheduled (seeds t).length (schedule t)) (st : St α) (hst : Good S consts st)
    (st' : St α) (s : Smc.State (List (Option α)) Y) (h : smcRun S R consts req around kern dists c dr fuel seeds schedule st = some (st', s)) :
    ∀ r ∈ s.journal ++ s.last.toList, (∀ θ ∈ r.params, Fits S consts θ) ∧ ∀ (i : Nat) y d, r.sims[i]? = some y → r.distances[i]? = some d → d = S.dist y ∧ ∃ θ, Fits S consts θ ∧ From S consts θ y := by
  have key := C146_smcabc S R hS consts hd hin req around kern dists c dr fuel seeds schedule hc st hst
  rw [h] at key
  have k1 := Smc.C45_distances _ c dr S.distMax fuel _ s key.symm
  have k2 := smc_fits S R hS consts hin req around kern dists c dr fuel _ s key.symm
  have k3 := smc_sims S R hS consts hin req around kern dists c dr fuel _ s key.symm
  exact fun r hr => ⟨k2 r hr, fun i y d h1 h2 => ⟨k1 r hr i y d h1 h2, k3 r hr y (List.mem_of_getElem? h1)⟩⟩

/-! ### RSMCABC -/

theorem rsmc_trials {W A : Type} (T : W → W → A → Prop) (P : A → Prop) (hT : ∀ w w' a, T w w' a → P a) (w w' : W) (l : List A) (h : Smc.Spec.Trials T w w' l) : ∀ a ∈ l, P a := by
  induction h with
  | nil => intro a ha; cases ha
  | cons w w1 w' a l h1 _ ih =>
    intro b hb
    rcases List.mem_cons.1 hb with rfl | hb
    · exact hT _ _ _ h1
    · exact ih b hb

/-- What the populations of a run of `RSMCABC` are: the first is backed, every later value is one of the first, and every distance is that of data simulated at some vector of values inside the prior. -/
theorem rsmc_history (S : Site α Y K) (R : Rng) (hS : Plain S) (consts : Nat → Option α) (hin : Inside S consts) (req : Pmc.Pop (List (Option α)) → Nat → K)
    (kern : Pmc.Pop (List (Option α)) → List (Option α) → List (Option α) → ℝ) (c : Rsmc.Config) (hmax : Pmc.above S.distMax c.epsInit = true) (start : Nat → List ((Nat × Nat) × List (Option α))) (es : List ℝ)
    (pops : List (List (List (Option α) × ℝ))) (kept : List (List (Option α) × ℝ)) (r : Int) (k : Nat) (h : Rsmc.Spec.History (rsmcEnv S R consts req kern) c start es pops kept r k) :
    (∀ p, pops.head? = some p → ∀ a ∈ p, Backed S consts a.1 a.2) ∧
    (∀ p ∈ pops, ∀ a ∈ p, Fits S consts a.1 ∧ ∃ θ', Backed S consts θ' a.2) ∧ pops ≠ [] ∧ ∀ a ∈ kept, Fits S consts a.1 ∧ ∃ θ', Backed S consts θ' a.2 := by
  have best : ∀ (n : Nat) (pop kept : List (List (Option α) × ℝ)), Rsmc.Spec.Best n pop kept → ∀ a ∈ kept, a ∈ pop := by
    rintro n pop kept ⟨-, -, rest, hp, -⟩ a ha
    exact hp.subset (List.mem_append_left _ ha)
  have result : ∀ (outs : List (Rsmc.Out (List (Option α)))) (pop : List (List (Option α) × ℝ)), Rsmc.Spec.Results outs pop →
      ∀ a ∈ pop, ∃ (i : Nat) (o : Rsmc.Out (List (Option α))), outs[i]? = some o ∧ o.θ = a.1 ∧ o.d = some a.2 := by
    intro outs pop hr a ha
    have h1 : (a.1, some a.2) ∈ outs.map fun o => (o.θ, o.d) := by
      rw [hr]; exact List.mem_map.2 ⟨a, ha, rfl⟩
    obtain ⟨o, ho, he⟩ := List.mem_map.1 h1
    obtain ⟨i, hi⟩ := List.mem_iff_getElem?.1 ho
    simp only [Prod.mk.injEq] at he
    exact ⟨i, o, hi, he.1, he.2⟩
  induction h with
  | first outs pop kept r' h1 h2 h3 h4 h5 h6 h7 =>
    have hall : ∀ a ∈ pop, Backed S consts a.1 a.2 := by
      intro a ha
      obtain ⟨i, o, hi, ho1, ho2⟩ := result _ _ h5 a ha
      have hl := (List.getElem?_eq_some_iff.1 hi).1
      obtain ⟨⟨w, held⟩, hw⟩ : ∃ q, (start 0)[i]? = some q := ⟨_, List.getElem?_eq_getElem (by omega)⟩
      obtain ⟨w', l, t1, -, -, -, t2, t3⟩ := h4 i o w held hi hw
      rcases List.eq_nil_or_concat l with rfl | ⟨l', b, rfl⟩
      · obtain ⟨-, -, x, hx, hle⟩ := t3 rfl
        have : S.distMax = some x := hx
        simp only [this, Pmc.above, Option.elim_some, decide_eq_true_eq] at hmax
        exact absurd hle (not_le.2 hmax)
      · obtain ⟨-, e1, e2⟩ := t2 b (by simp)
        have := rsmc_trials _ (fun a => Backed S consts a.1 a.2) (fun w w' a ⟨w1, y, q1, q2, q3⟩ => by
          rw [q3]
          exact backed_sim S consts _ (inside_prior S consts hin _ _ _ q1) _ _ _ q2) _ _ _ t1 b (by simp)
        rw [← ho1, e1]
        rw [e2, Option.some.injEq] at ho2
        rw [← ho2]; exact this
    refine ⟨fun p hp => ?_, fun p hp a ha => ?_, by simp, fun a ha => ?_⟩
    · simp only [List.head?_cons, Option.some.injEq] at hp
      subst hp; exact hall
    · simp only [List.mem_singleton] at hp
      subst hp
      exact ⟨(hall a ha).1, _, hall a ha⟩
    · have := hall a (best _ _ _ h6 a ha)
      exact ⟨this.1, _, this⟩
  | step es pops kept r k e outs new kept' r' hh h1 h2 h3 h4 h5 h6 h7 h8 ih =>
    obtain ⟨i1, i2, i3, i4⟩ := ih
    have hr : 0 < r := by
      have := h8.1
      rcases lt_trichotomy r 0 with hr | hr | hr
      · exact absurd this (not_lt.2 (mul_nonpos_of_nonpos_of_nonneg hr.le (by positivity)))
      · subst hr; simp at this
      · exact hr
    have hnew : ∀ a ∈ new, Fits S consts a.1 ∧ ∃ θ', Backed S consts θ' a.2 := by
      intro a ha
      obtain ⟨i, o, hi, ho1, ho2⟩ := result _ _ h6 a ha
      have hl := (List.getElem?_eq_some_iff.1 hi).1
      obtain ⟨⟨w, held⟩, hw⟩ : ∃ q, (start pops.length)[i]? = some q := ⟨_, List.getElem?_eq_getElem (by omega)⟩
      obtain ⟨w', l, θ, dθ, m1, m2, m3, m4, -, -, m5⟩ := h5 i o w held hi hw
      have hl0 : l ≠ [] := by
        rintro rfl
        simp only [List.length_nil] at m4
        omega
      obtain ⟨l', b, rfl⟩ := (List.eq_nil_or_concat l).resolve_left hl0
      obtain ⟨e1, e2⟩ := m5 b (by simp)
      have hb := rsmc_trials _ (fun a : Rsmc.Spec.Round (List (Option α)) => Backed S consts a.θ a.d) (fun w w' a ⟨w1, q1, q2, _⟩ => by
          rw [q2]
          exact backed_sim S consts _ (proposal_fits S hS consts _ _ _ _ q1) _ _ _ rfl) _ _ _ m3 b (by simp)
      rw [← ho1, e1]
      rw [e2, Option.some.injEq] at ho2
      rw [← ho2]
      have hθ : ∃ q ∈ kept, q.1 = θ := by
        have := List.mem_of_getElem? m1
        obtain ⟨q, hq, he⟩ := List.mem_map.1 this
        exact ⟨q, hq, he⟩
      obtain ⟨q, hq, rfl⟩ := hθ
      refine ⟨(i4 q hq).1, ?_⟩
      split
      · exact ⟨_, hb⟩
      · obtain ⟨q', hq', he⟩ := List.mem_map.1 (List.mem_of_getElem? m2)
        rw [← he]
        exact (i4 q' hq').2
    have hall : ∀ a ∈ kept ++ new, Fits S consts a.1 ∧ ∃ θ', Backed S consts θ' a.2 := by
      intro a ha
      rcases List.mem_append.1 ha with ha | ha
      · exact i4 a ha
      · exact hnew a ha
    refine ⟨fun p hp => ?_, fun p hp => ?_, by simp, fun a ha => hall a (best _ _ _ h7 a ha)⟩
    · rw [List.head?_append_of_ne_nil _ i3] at hp
      exact i1 p hp
    · rcases List.mem_append.1 hp with hp | hp
      · exact i2 p hp
      · simp only [List.mem_singleton] at hp
        subst hp; exact hall

/-- C147 for `RSMCABC`. In the first population the distance of each particle is that of data simulated with its values. In later populations the values are still inside the prior, and each distance is that of
data simulated with some values inside the prior; but they need not be the values of the particle (see `C147_rsmcabc_violated`). -/
theorem C147_rsmcabc_partial (S : Site α Y K) (R : Rng) (hS : Plain S) (consts : Nat → Option α) (hd : Draws S consts) (hin : Inside S consts) (req : Pmc.Pop (List (Option α)) → Nat → K)
    (kern : Pmc.Pop (List (Option α)) → List (Option α) → List (Option α) → ℝ) (c : Rsmc.Config) (hc0 : 0 < c.const) (hc1 : c.const ≤ 1) (hs : 0 < c.steps) (hmax : Pmc.above S.distMax c.epsInit = true)
    (fuel : Nat) (seeds : Nat → List Nat) (schedule : Nat → Option (List (Nat × Nat))) (hc : ∀ t, Scheduled (seeds t).length (schedule t)) (st : St α) (hst : Good S consts st)
    (st' : St α) (s : Rsmc.State (List (Option α))) (h : rsmcRun S R req kern c fuel seeds schedule st = .ok (st', s)) :
    (∃ r0, s.hist.head? = some r0 ∧ AllBacked S consts r0.params r0.distances) ∧
    ∀ r ∈ s.hist, r.params.length = r.distances.length ∧ (∀ θ ∈ r.params, Fits S consts θ) ∧ ∀ d ∈ r.distances, ∃ θ, Backed S consts θ d := by
  have key := C146_rsmcabc S R hS consts hd hin req kern c hc0 hc1 hmax [] fuel seeds schedule hc st hst
  rw [h] at key
  obtain ⟨kept, h1, h2, h3, -⟩ := Rsmc.C98_run _ c hc0 hc1 hs fuel _ s key.symm
  obtain ⟨k1, k2, -, -⟩ := rsmc_history S R hS consts hin req kern c hmax _ _ _ _ _ _ h1
  have hzip : ∀ r ∈ s.hist, (∀ θ ∈ r.params, Fits S consts θ) ∧ ∀ d ∈ r.distances, ∃ θ, Backed S consts θ d := by
    intro r hr
    have hl := h3 r hr
    have hp := k2 _ (List.mem_map.2 ⟨r, hr, rfl⟩)
    constructor
    · intro θ hθ
      obtain ⟨i, hi⟩ := List.mem_iff_getElem?.1 hθ
      have hil := (List.getElem?_eq_some_iff.1 hi).1
      exact (hp (θ, r.distances[i]'(by omega)) (List.mem_iff_getElem?.2 ⟨i, List.getElem?_zip_eq_some.2 ⟨hi, List.getElem?_eq_getElem (by omega)⟩⟩)).1
    · intro d hd
      obtain ⟨i, hi⟩ := List.mem_iff_getElem?.1 hd
      have hil := (List.getElem?_eq_some_iff.1 hi).1
      exact (hp (r.params[i]'(by omega), d) (List.mem_iff_getElem?.2 ⟨i, List.getElem?_zip_eq_some.2 ⟨List.getElem?_eq_getElem (by omega), hi⟩⟩)).2
  refine ⟨?_, fun r hr => ⟨h3 r hr, hzip r hr⟩⟩
  cases hh : s.hist with
  | nil => rw [hh] at h2; simp at h2; omega
  | cons r0 rest =>
    refine ⟨r0, rfl, h3 r0 (by simp [hh]), fun i θ d a1 a2 => ?_⟩
    exact k1 (r0.params.zip r0.distances) (by simp [hh]) (θ, d) (List.mem_iff_getElem?.2 ⟨i, List.getElem?_zip_eq_some.2 ⟨a1, a2⟩⟩)

/-- C147 does not hold of `RSMCABC`: in every run on a graph that returns, no value enters after the first population, whatever distances are reported. -/
theorem C147_rsmcabc_no_new_values (S : Site α Y K) (R : Rng) (hS : Plain S) (consts : Nat → Option α) (hd : Draws S consts) (hin : Inside S consts) (req : Pmc.Pop (List (Option α)) → Nat → K)
    (kern : Pmc.Pop (List (Option α)) → List (Option α) → List (Option α) → ℝ) (c : Rsmc.Config) (hc0 : 0 < c.const) (hc1 : c.const ≤ 1) (hmax : Pmc.above S.distMax c.epsInit = true)
    (fuel : Nat) (seeds : Nat → List Nat) (schedule : Nat → Option (List (Nat × Nat))) (hc : ∀ t, Scheduled (seeds t).length (schedule t)) (st : St α) (hst : Good S consts st)
    (st' : St α) (s : Rsmc.State (List (Option α))) (h : rsmcRun S R req kern c fuel seeds schedule st = .ok (st', s)) (r0 : Rsmc.Rec (List (Option α))) (h0 : s.hist.head? = some r0) :
    ∀ r ∈ s.hist, ∀ θ ∈ r.params, θ ∈ r0.params := by
  have key := C146_rsmcabc S R hS consts hd hin req kern c hc0 hc1 hmax [] fuel seeds schedule hc st hst
  rw [h] at key
  exact Rsmc.C47_no_new_values_violated _ c hc0 hc1 fuel _ s key.symm r0 h0

end Verif.Site
