import Verif.Site.Refine
import Verif.Site.Samplers
/-
C139 for SMCABC, RSMCABC, APMCABC, SABC and ABCsubsim.
-/
namespace Verif.Site

open Graph

variable {α Y K M : Type}

/-- Specification: a particle with a value for each parameter that `set_parameters` accepts on a graph that was not used yet. -/
def Fits (S : Site α Y K) (consts : Nat → Option α) (θ : List (Option α)) : Prop :=
  ∃ ps, θ = ps.map some ∧ ps.length = (order S.g S.roots).length ∧ ∃ k, (setParameters S.g S.chk S.roots ps (fresh consts)).2 = .ok k

/-- Specification: draws of the prior are such particles. -/
def Inside (S : Site α Y K) (consts : Nat → Option α) : Prop := ∀ p, Fits S consts (aPrior S consts p).2

/-- A result on the graph and one without graph are the same, and the graph is left in order; the result has the property `P`. -/
def Agrees {A : Type} (S : Site α Y K) (consts : Nat → Option α) (P : A → Prop) (x : Option (Worker α × A)) (y : Option A) : Prop :=
  (x = none ∧ y = none) ∨ ∃ w a, x = some (w, a) ∧ y = some a ∧ Good S consts w.st ∧ P a

theorem store_same (S : Site α Y K) (hS : Plain S) (consts : Nat → Option α) (θ : List (Option α)) (hθ : Fits S consts θ) (w : Worker α) (hw : Good S consts w.st) :
    ∃ s, store S θ w = some ⟨w.seed, s, w.clock⟩ ∧ Good S consts s ∧ Holds S s θ := by
  obtain ⟨ps, rfl, hlen, k, hk⟩ := hθ
  obtain ⟨e1, -⟩ := set_same S hS consts ps hlen w.st (fresh consts) hw (fresh_good S consts)
  rw [hk] at e1
  have c1 := set_cases S hS.apart consts ps w.st hw
  unfold store
  rw [reduce_map_some]
  generalize setParameters S.g S.chk S.roots ps w.st = sp at e1 c1 ⊢
  obtain ⟨s, o⟩ := sp
  simp only at e1 c1
  subst e1
  rcases c1 with h | ⟨hg, ⟨j, -, -, h3⟩ | ⟨i, h1, -⟩⟩
  · cases h
  · refine ⟨s, rfl, hg, ?_⟩
    unfold Holds
    rw [h3, List.take_of_length_le hlen.le]
  · cases h1

theorem density_same (S : Site α Y K) (hS : Plain S) (consts : Nat → Option α) (θ : List (Option α)) (hθ : Fits S consts θ) (w : Worker α) (hw : Good S consts w.st) :
    ∃ s, density S θ w = some (⟨w.seed, s, w.clock⟩, aPdf S consts θ) ∧ Good S consts s ∧ Holds S s θ := by
  obtain ⟨ps, rfl, hlen, k, hk⟩ := hθ
  obtain ⟨s, p1, p2, -⟩ := pdf_same S hS consts ps hlen w.st hw
  unfold density
  rw [reduce_map_some, p1]
  refine ⟨s, rfl, p2, ?_⟩
  obtain ⟨e1, e2⟩ := set_same S hS consts ps hlen w.st (fresh consts) hw (fresh_good S consts)
  rcases pdfOfPrior_eq S.g S.chk S.dens S.roots hS.apart ps w.st hw.clean with ⟨q1, -⟩ | ⟨-, -, q3, -⟩
  · exact absurd q1 e2
  · rw [p1] at q3
    rcases set_cases S hS.apart consts ps w.st hw with h | ⟨-, ⟨j, -, -, h3⟩ | ⟨i, h1, -⟩⟩
    · exact absurd h e2
    · unfold Holds
      simp only at q3
      rw [q3, h3, List.take_of_length_le hlen.le]
    · rw [e1, hk] at h1
      cases h1

theorem read_same (S : Site α Y K) (consts : Nat → Option α) (θ : List (Option α)) (w : Worker α) (hw : Good S consts w.st) (hθ : Holds S w.st θ) :
    (readOut S w).2 = θ ∧ (readOut S w).1.pos = w.pos ∧ Good S consts (readOut S w).1.st := by
  obtain ⟨g1, g2, g3⟩ := getParameters_eq S.g S.roots w.st hw.clean
  exact ⟨g1.trans hθ, rfl, g2, fun q hq => by unfold readOut; simp only; rw [g3]; exact hw.consts q hq⟩

/-- A vector whose density is not zero is accepted. -/
theorem fits_of_pdf (S : Site α Y K) (hS : Plain S) (consts : Nat → Option α) (ps : List α) (hlen : ps.length = (order S.g S.roots).length) (hd : aPdf S consts (ps.map some) ≠ 0) :
    Fits S consts (ps.map some) := by
  refine ⟨ps, rfl, hlen, ?_⟩
  obtain ⟨-, e2⟩ := set_same S hS consts ps hlen (fresh consts) (fresh consts) (fresh_good S consts) (fresh_good S consts)
  rcases set_cases S hS.apart consts ps (fresh consts) (fresh_good S consts) with h | ⟨-, ⟨j, h1, -⟩ | ⟨i, h1, hi, x, hx, hc⟩⟩
  · exact absurd h e2
  · exact ⟨j, h1⟩
  · exfalso
    apply hd
    unfold aPdf
    rw [reduce_map_some]
    rcases pdfOfPrior_eq S.g S.chk S.dens S.roots hS.apart ps (fresh consts) (fresh_good S consts).clean with ⟨q1, -⟩ | ⟨-, q2, -⟩
    · exact absurd q1 e2
    · rw [q2, Option.getD_some]
      apply pdfVal_zero S.g _ S.roots (order S.g S.roots)[i] (List.getElem_mem hi)
      rw [if_pos (List.getElem_mem hi), (order_nodup S.g S.roots).idxOf_getElem i hi, hx]
      exact hS.refused _ _ _ hc

/-- The loop of proposals, with what is needed afterwards. -/
theorem propose_fits (S : Site α Y K) (hS : Plain S) (consts : Nat → Option α) (k : K) (fuel : Nat) (w : Worker α) (hw : Good S consts w.st) :
    (propose S k fuel w = none ∧ Smc.propose (aPdf S consts) (aPerturb S consts k) fuel w.pos = none) ∨
    ∃ w' ps, propose S k fuel w = some (w', ps) ∧ Smc.propose (aPdf S consts) (aPerturb S consts k) fuel w.pos = some (w'.pos, ps.map some) ∧
      Good S consts w'.st ∧ Holds S w'.st (ps.map some) ∧ Fits S consts (ps.map some) := by
  rcases propose_same S hS consts k fuel w hw with h | ⟨w', ps, h1, h2, h3, -, h5, h6, h7⟩
  · exact .inl h
  · exact .inr ⟨w', ps, h1, h2, h3, h5, fits_of_pdf S hS consts ps h6 h7⟩

/-- A use of the stream of random numbers by seed and position. -/
def aAdvance {A : Type} (f : Nat → Nat → Nat × A) (p : Nat × Nat) : (Nat × Nat) × A := ((p.1, (f p.1 p.2).1), (f p.1 p.2).2)

theorem advance_same {A : Type} (f : Nat → Nat → Nat × A) (w : Worker α) : aAdvance f w.pos = ((advance f w).1.pos, (advance f w).2) := rfl

/-! ### Environments without stored values -/

noncomputable def apmcEnv (S : Site α Y K) (consts : Nat → Option α) (req : Pmc.Pop (List (Option α)) → Nat → K) (kern : Pmc.Pop (List (Option α)) → List (Option α) → List (Option α) → ℝ) :
    Apmc.Env (Nat × Nat) (List (Option α)) Y where
  dist := S.dist
  pdf := aPdf S consts
  kernel := kern
  prior := aPrior S consts
  choose l := aAdvance fun seed => S.choice seed l
  perturb p i := aPerturb S consts (req p i)
  sim := aSim S consts

noncomputable def rsmcEnv (S : Site α Y K) (R : Rng) (consts : Nat → Option α) (req : Pmc.Pop (List (Option α)) → Nat → K)
    (kern : Pmc.Pop (List (Option α)) → List (Option α) → List (Option α) → ℝ) : Rsmc.Env (Nat × Nat) (List (Option α)) Y where
  distMax := S.distMax
  dist := S.dist
  pdf := aPdf S consts
  kernel := kern
  prior := aPrior S consts
  choose n := aAdvance (R.index n)
  perturb p i := aPerturb S consts (req p i)
  sim := aSim S consts
  bern a := aAdvance (R.flip a)

noncomputable def smcEnv (S : Site α Y K) (R : Rng) (consts : Nat → Option α) (req : Pmc.Pop (List (Option α)) → Nat → K) (around : Pmc.Pop (List (Option α)) → List (Option α) → K)
    (kern : Pmc.Pop (List (Option α)) → List (Option α) → List (Option α) → ℝ) (dists : Y → List ℝ) : Smc.Env (Nat × Nat) (List (Option α)) Y where
  dist := S.dist
  dists := dists
  pdf := aPdf S consts
  kernel := kern
  prior := aPrior S consts
  perturb p i := aPerturb S consts (req p i)
  around p θ := aPerturb S consts (around p θ)
  sim := aSim S consts
  bern a := aAdvance (R.flip a)
  pick l := aAdvance (R.pick l)

noncomputable def sabcEnv (S : Site α Y K) (R : Rng) (consts : Nat → Option α) (req : Pmc.Pop (List (Option α)) → Nat → K) (schedule : ℝ → ℝ) (pick : Nat → List ℝ → List Nat) :
    Sabc.Env (Nat × Nat) (List (Option α)) Y where
  dist := S.dist
  pdf := aPdf S consts
  prior := aPrior S consts
  choose n := aAdvance (R.index n)
  perturb p i := aPerturb S consts (req p i)
  sim := aSim S consts
  bern a := aAdvance (R.flip a)
  unif := aAdvance R.uniform
  schedule := schedule
  pick := pick

noncomputable def subsimEnv (S : Site α Y K) (R : Rng) (consts : Nat → Option α) (req : List M → List (Option α) → K) (kern : List M → List (Option α) → List (Option α) → ℝ)
    (cov : Pmc.Pop (List (Option α)) → List M) (scale : Nat → M → M) : Subsim.Env (Nat × Nat) (List (Option α)) Y M where
  dist := S.dist
  pdf := aPdf S consts
  kernel := kern
  prior := aPrior S consts
  perturb covs base := aPerturb S consts (req covs base)
  sim := aSim S consts
  bern a := aAdvance (R.flip a)
  cov := cov
  scale := scale

/-! ### APMCABC -/

theorem apmc_same (S : Site α Y K) (hS : Plain S) (consts : Nat → Option α) (hd : Draws S consts) (hin : Inside S consts) (req : Pmc.Pop (List (Option α)) → Nat → K)
    (kern : Pmc.Pop (List (Option α)) → List (Option α) → List (Option α) → ℝ) (fuel : Nat) (pop : Option (Pmc.Pop (List (Option α)))) (w : Worker α) (hw : Good S consts w.st) :
    Agrees S consts (fun o => Fits S consts o.θ) (apmcTask S req kern fuel pop w) (Apmc.accept (apmcEnv S consts req kern) fuel pop w.pos) := by
  cases pop with
  | none =>
    obtain ⟨v, θ, p1, p2, p3, -, p5⟩ := prior_same S hS consts hd w hw
    have e2 := simulate_same S hS.toSound consts v θ p3 p5
    have e3 := read_same S consts θ (simulate S v).1 p3 p5
    unfold apmcTask Apmc.accept apmcEnv
    simp only
    rw [p1, p2]
    simp only
    rw [e2]
    exact .inr ⟨_, _, rfl, by rw [e3.1], e3.2.2, by rw [e3.1]; have := hin w.pos; rw [p2] at this; exact this⟩
  | some p =>
    unfold apmcTask Apmc.accept apmcEnv
    simp only
    rw [advance_same]
    have hg : Good S consts (advance (fun seed => S.choice seed p.weights) w).1.st := hw
    generalize advance (fun seed => S.choice seed p.weights) w = i at hg ⊢
    simp only
    cases p.params[i.2]? with
    | none => exact .inl ⟨rfl, rfl⟩
    | some θ0 =>
      simp only [Option.bind_some]
      rcases propose_fits S hS consts (req p i.2) fuel i.1 hg with ⟨a1, a2⟩ | ⟨v, ps, a1, a2, a3, a4, a5⟩
      · rw [a1, a2]
        exact .inl ⟨rfl, rfl⟩
      · rw [a1, a2]
        simp only [Option.map_some]
        have e2 := simulate_same S hS.toSound consts v _ a3 a4
        rw [e2]
        obtain ⟨s, d1, d2, d3⟩ := density_same S hS consts _ a5 (simulate S v).1 a3
        rw [d1]
        have e3 := read_same S consts _ (⟨(simulate S v).1.seed, s, (simulate S v).1.clock⟩ : Worker α) d2 d3
        exact .inr ⟨_, _, rfl, by rw [e3.1]; rfl, e3.2.2, by rw [e3.1]; exact a5⟩

/-! ### RSMCABC -/

theorem rsmcPrior_same (S : Site α Y K) (R : Rng) (hS : Plain S) (consts : Nat → Option α) (hd : Draws S consts) (hin : Inside S consts) (req : Pmc.Pop (List (Option α)) → Nat → K)
    (kern : Pmc.Pop (List (Option α)) → List (Option α) → List (Option α) → ℝ) (eps : ℝ) (n : Nat) : ∀ (w : Worker α) (held : List (Option α)) (d : Option ℝ) (c : Nat), Good S consts w.st → Holds S w.st held →
    (Pmc.above d eps = false → Fits S consts held) → (rsmcPrior S eps n w d c = none ∧ Rsmc.priorLoop (rsmcEnv S R consts req kern) eps n w.pos held d c = none) ∨
    ∃ w' θ d' c', rsmcPrior S eps n w d c = some (w', d', c') ∧ Rsmc.priorLoop (rsmcEnv S R consts req kern) eps n w.pos held d c = some (θ, d', c') ∧ Good S consts w'.st ∧ Holds S w'.st θ ∧ Fits S consts θ := by
  induction n with
  | zero => intro w held d c _ _ _; exact .inl ⟨rfl, rfl⟩
  | succ n ih =>
    intro w held d c hw hh hf
    rw [rsmcPrior, Rsmc.priorLoop]
    by_cases hab : Pmc.above d eps = true
    · rw [if_pos hab, if_pos hab]
      obtain ⟨v, θ, p1, p2, p3, -, p5⟩ := prior_same S hS consts hd w hw
      have e1 : (rsmcEnv S R consts req kern).prior w.pos = (v.pos, θ) := p2
      have e2 : (rsmcEnv S R consts req kern).sim θ v.pos = ((simulate S v).1.pos, (simulate S v).2) := simulate_same S hS.toSound consts v θ p3 p5
      rw [p1, e1]
      simp only
      rw [e2]
      exact ih (simulate S v).1 θ _ _ p3 p5 fun _ => by have := hin w.pos; rw [p2] at this; exact this
    · rw [if_neg hab, if_neg hab]
      exact .inr ⟨w, held, d, c, rfl, rfl, hw, hh, hf (by simpa using hab)⟩

theorem rsmcMoves_same (S : Site α Y K) (R : Rng) (hS : Plain S) (consts : Nat → Option α) (req : Pmc.Pop (List (Option α)) → Nat → K)
    (kern : Pmc.Pop (List (Option α)) → List (Option α) → List (Option α) → ℝ) (fuel : Nat) (eps : ℝ) (p : Pmc.Pop (List (Option α))) (i : Nat) (θ : List (Option α)) (hθ : Fits S consts θ) (dθ : ℝ) (n : Nat) :
    ∀ (w : Worker α) (held : List (Option α)) (d : Option ℝ) (acc c : Nat), Good S consts w.st → Holds S w.st held → (n = 0 → Fits S consts held) →
    (rsmcMoves S R req kern fuel eps p i θ dθ n w d acc c = none ∧ Rsmc.moveLoop (rsmcEnv S R consts req kern) fuel eps p i θ dθ n w.pos held d acc c = none) ∨
    ∃ w' θ' d' acc' c', rsmcMoves S R req kern fuel eps p i θ dθ n w d acc c = some (w', d', acc', c') ∧
      Rsmc.moveLoop (rsmcEnv S R consts req kern) fuel eps p i θ dθ n w.pos held d acc c = some ⟨θ', d', acc', c'⟩ ∧ Good S consts w'.st ∧ Holds S w'.st θ' ∧ Fits S consts θ' := by
  induction n with
  | zero => intro w held d acc c hw hh hf; exact .inr ⟨w, held, d, acc, c, rfl, rfl, hw, hh, hf rfl⟩
  | succ n ih =>
    intro w held d acc c hw hh _
    rw [rsmcMoves, Rsmc.moveLoop]
    have e0 : Smc.propose (rsmcEnv S R consts req kern).pdf ((rsmcEnv S R consts req kern).perturb p i) fuel w.pos = Smc.propose (aPdf S consts) (aPerturb S consts (req p i)) fuel w.pos := rfl
    rw [e0]
    rcases propose_fits S hS consts (req p i) fuel w hw with ⟨a1, a2⟩ | ⟨v, ps, a1, a2, a3, a4, a5⟩
    · rw [a1, a2]
      exact .inl ⟨rfl, rfl⟩
    · rw [a1, a2]
      simp only
      have e2 : (rsmcEnv S R consts req kern).sim (ps.map some) v.pos = ((simulate S v).1.pos, (simulate S v).2) := simulate_same S hS.toSound consts v _ a3 a4
      rw [e2]
      simp only
      obtain ⟨s, d1, d2, -⟩ := density_same S hS consts _ a5 (simulate S v).1 a3
      rw [d1]
      simp only
      obtain ⟨s', f1, f2, f3⟩ := density_same S hS consts θ hθ ⟨(simulate S v).1.seed, s, (simulate S v).1.clock⟩ d2
      rw [f1]
      simp only
      have e3 : (rsmcEnv S R consts req kern).bern (Rsmc.prob (rsmcEnv S R consts req kern) p θ (ps.map some)) (simulate S v).1.pos =
          ((advance (R.flip (min 1 (aPdf S consts (ps.map some) / aPdf S consts θ * (kern p (ps.map some) θ / kern p θ (ps.map some))))) (⟨(simulate S v).1.seed, s', (simulate S v).1.clock⟩ : Worker α)).1.pos,
            (advance (R.flip (min 1 (aPdf S consts (ps.map some) / aPdf S consts θ * (kern p (ps.map some) θ / kern p θ (ps.map some))))) (⟨(simulate S v).1.seed, s', (simulate S v).1.clock⟩ : Worker α)).2) := rfl
      rw [e3]
      have e4 : (rsmcEnv S R consts req kern).dist (simulate S v).2 = S.dist (simulate S v).2 := rfl
      rw [e4]
      have hu : (advance (R.flip (min 1 (aPdf S consts (ps.map some) / aPdf S consts θ * (kern p (ps.map some) θ / kern p θ (ps.map some))))) (⟨(simulate S v).1.seed, s', (simulate S v).1.clock⟩ : Worker α)).1.st = s' := rfl
      generalize advance (R.flip (min 1 (aPdf S consts (ps.map some) / aPdf S consts θ * (kern p (ps.map some) θ / kern p θ (ps.map some))))) (⟨(simulate S v).1.seed, s', (simulate S v).1.clock⟩ : Worker α) = u at hu ⊢
      obtain ⟨uw, ub⟩ := u
      simp only at hu ⊢
      by_cases hlt : S.dist (simulate S v).2 < eps
      · rw [if_pos hlt, if_pos hlt]
        cases ub with
        | true => exact ih uw θ _ _ _ (by rw [hu]; exact f2) (by rw [hu]; exact f3) fun _ => hθ
        | false =>
          simp only [Bool.false_eq_true, if_false]
          obtain ⟨t, g1, g2, g3⟩ := store_same S hS consts θ hθ uw (by rw [hu]; exact f2)
          rw [g1]
          exact ih ⟨uw.seed, t, uw.clock⟩ θ _ _ _ g2 g3 fun _ => hθ
      · rw [if_neg hlt, if_neg hlt]
        obtain ⟨t, g1, g2, g3⟩ := store_same S hS consts θ hθ ⟨(simulate S v).1.seed, s', (simulate S v).1.clock⟩ f2
        rw [g1]
        exact ih ⟨(simulate S v).1.seed, t, (simulate S v).1.clock⟩ θ _ _ _ g2 g3 fun _ => hθ

theorem rsmc_same (S : Site α Y K) (R : Rng) (hS : Plain S) (consts : Nat → Option α) (hd : Draws S consts) (hin : Inside S consts) (req : Pmc.Pop (List (Option α)) → Nat → K)
    (kern : Pmc.Pop (List (Option α)) → List (Option α) → List (Option α) → ℝ) (fuel : Nat) (eps : ℝ) (pop : Option (Pmc.Pop (List (Option α)) × List ℝ))
    (hmax : Pmc.above S.distMax eps = true) (hpop : ∀ p, pop = some p → ∀ θ ∈ p.1.params, Fits S consts θ) (r : Nat) (hr : 0 < r) (w : Worker α) (hw : Good S consts w.st) :
    Agrees S consts (fun o => Fits S consts o.θ) (rsmcTask S R req kern fuel eps pop r w) (Rsmc.accept (rsmcEnv S R consts req kern) fuel eps pop r w.pos ((order S.g S.roots).map w.st.value)) := by
  cases pop with
  | none =>
    unfold rsmcTask Rsmc.accept
    simp only
    have e : (rsmcEnv S R consts req kern).distMax = S.distMax := rfl
    rw [e]
    rcases rsmcPrior_same S R hS consts hd hin req kern eps fuel w _ S.distMax 0 hw rfl (by rw [hmax]; simp) with ⟨a1, a2⟩ | ⟨w', θ, d', c', a1, a2, a3, a4, a5⟩
    · rw [a1, a2]
      exact .inl ⟨rfl, rfl⟩
    · rw [a1, a2]
      have e3 := read_same S consts θ w' a3 a4
      exact .inr ⟨_, _, rfl, by simp only [Option.map_some, e3.1], e3.2.2, by simp only [e3.1]; exact a5⟩
  | some p =>
    obtain ⟨p, ds⟩ := p
    unfold rsmcTask Rsmc.accept
    simp only
    have e0 : (rsmcEnv S R consts req kern).choose p.params.length w.pos = ((advance (R.index p.params.length) w).1.pos, (advance (R.index p.params.length) w).2) := rfl
    rw [e0]
    have hg : (advance (R.index p.params.length) w).1.st = w.st := rfl
    generalize advance (R.index p.params.length) w = i at hg ⊢
    simp only
    cases hp : p.params[i.2]? with
    | none => exact .inl ⟨rfl, rfl⟩
    | some θ =>
      cases ds[i.2]? with
      | none => exact .inl ⟨rfl, rfl⟩
      | some dθ =>
        simp only [Option.bind_some]
        have e : (rsmcEnv S R consts req kern).distMax = S.distMax := rfl
        rw [e]
        rcases rsmcMoves_same S R hS consts req kern fuel eps p i.2 θ (hpop _ rfl θ (List.mem_of_getElem? hp)) dθ r i.1 ((order S.g S.roots).map w.st.value) S.distMax 0 0 (by rw [hg]; exact hw)
          (by rw [hg]; rfl) (by omega) with ⟨a1, a2⟩ | ⟨w', θ', d', acc', c', a1, a2, a3, a4, a5⟩
        · rw [a1, a2]
          exact .inl ⟨rfl, rfl⟩
        · rw [a1, a2]
          have e3 := read_same S consts θ' w' a3 a4
          exact .inr ⟨_, _, rfl, by rw [e3.1], e3.2.2, by rw [e3.1]; exact a5⟩

/-! ### SMCABC -/

theorem smcEnd_same (S : Site α Y K) (hS : Plain S) (consts : Nat → Option α) (θ : List (Option α)) (hθ : Fits S consts θ) (y : Y) (c : Nat) (w : Worker α) (hw : Good S consts w.st) :
    Agrees S consts (fun o => Fits S consts o.θ) (smcEnd S θ y c w) (some ⟨θ, y, S.dist y, c⟩) := by
  obtain ⟨s, h1, h2, h3⟩ := store_same S hS consts θ hθ w hw
  unfold smcEnd
  rw [h1]
  have e3 := read_same S consts θ (⟨w.seed, s, w.clock⟩ : Worker α) h2 h3
  exact .inr ⟨_, _, rfl, by rw [e3.1], e3.2.2, by rw [e3.1]; exact hθ⟩

theorem smcFirst_same (S : Site α Y K) (R : Rng) (hS : Plain S) (consts : Nat → Option α) (hd : Draws S consts) (hin : Inside S consts) (req : Pmc.Pop (List (Option α)) → Nat → K)
    (around : Pmc.Pop (List (Option α)) → List (Option α) → K) (kern : Pmc.Pop (List (Option α)) → List (Option α) → List (Option α) → ℝ) (dists : Y → List ℝ) (w : Worker α) (hw : Good S consts w.st) :
    Agrees S consts (fun o => Fits S consts o.θ) (smcFirst S w) (some (Smc.initial (smcEnv S R consts req around kern dists) w.pos)) := by
  obtain ⟨v, θ, p1, p2, p3, -, p5⟩ := prior_same S hS consts hd w hw
  have e2 := simulate_same S hS.toSound consts v θ p3 p5
  have e3 := read_same S consts θ (simulate S v).1 p3 p5
  unfold smcFirst Smc.initial smcEnv
  rw [p1]
  simp only
  rw [p2]
  simp only
  rw [e2]
  exact .inr ⟨_, _, rfl, by rw [e3.1], e3.2.2, by rw [e3.1]; have := hin w.pos; rw [p2] at this; exact this⟩

theorem smc0_same (S : Site α Y K) (R : Rng) (hS : Plain S) (consts : Nat → Option α) (req : Pmc.Pop (List (Option α)) → Nat → K)
    (around : Pmc.Pop (List (Option α)) → List (Option α) → K) (kern : Pmc.Pop (List (Option α)) → List (Option α) → List (Option α) → ℝ) (dists : Y → List ℝ) (fuel : Nat) (eps : ℝ)
    (p : Pmc.Pop (List (Option α))) (i : Nat) (θ : List (Option α)) (hθ : Fits S consts θ) (wt : ℝ) (y : Y) (w : Worker α) (hw : Good S consts w.st) :
    Agrees S consts (fun o => Fits S consts o.θ) (smcTask0 S R req kern dists fuel eps p i θ wt y w) (Smc.accept0 (smcEnv S R consts req around kern dists) fuel eps p i θ wt y w.pos) := by
  unfold smcTask0 Smc.accept0
  by_cases hwt : 0 < wt
  · rw [if_pos hwt, if_pos hwt]
    have e0 : Smc.propose (smcEnv S R consts req around kern dists).pdf ((smcEnv S R consts req around kern dists).perturb p i) fuel w.pos =
      Smc.propose (aPdf S consts) (aPerturb S consts (req p i)) fuel w.pos := rfl
    rw [e0]
    rcases propose_fits S hS consts (req p i) fuel w hw with ⟨a1, a2⟩ | ⟨v, ps, a1, a2, a3, a4, a5⟩
    · rw [a1, a2]
      exact .inl ⟨rfl, rfl⟩
    · rw [a1, a2]
      simp only
      have e2 : (smcEnv S R consts req around kern dists).sim (ps.map some) v.pos = ((simulate S v).1.pos, (simulate S v).2) := simulate_same S hS.toSound consts v _ a3 a4
      rw [e2]
      simp only
      obtain ⟨s, d1, d2, -⟩ := density_same S hS consts _ a5 (simulate S v).1 a3
      rw [d1]
      simp only
      obtain ⟨s', f1, f2, -⟩ := density_same S hS consts θ hθ ⟨(simulate S v).1.seed, s, (simulate S v).1.clock⟩ d2
      rw [f1]
      simp only
      have e3 : ((smcEnv S R consts req around kern dists).bern (Smc.prob0 (smcEnv S R consts req around kern dists) eps p θ y (ps.map some) (simulate S v).2) (simulate S v).1.pos).2 =
        (advance (R.flip (min 1 ((if Smc.below eps (dists y) = 0 then 1 else Smc.below eps (dists (simulate S v).2) / Smc.below eps (dists y)) *
            (aPdf S consts (ps.map some) / aPdf S consts θ * (kern p (ps.map some) θ / kern p θ (ps.map some)))))) (⟨(simulate S v).1.seed, s', (simulate S v).1.clock⟩ : Worker α)).2 := rfl
      rw [e3]
      generalize hq : (min 1 ((if Smc.below eps (dists y) = 0 then 1 else Smc.below eps (dists (simulate S v).2) / Smc.below eps (dists y)) *
            (aPdf S consts (ps.map some) / aPdf S consts θ * (kern p (ps.map some) θ / kern p θ (ps.map some))))) = q
      split
      · exact smcEnd_same S hS consts _ a5 _ _ _ f2
      · exact smcEnd_same S hS consts _ hθ _ _ _ f2
  · rw [if_neg hwt, if_neg hwt]
    exact smcEnd_same S hS consts _ hθ _ _ _ hw

theorem hit_same {A : Type} (Inv : Worker α → Prop) (P : A → Prop) (gen : Worker α → Option (Worker α × A)) (gen' : Nat × Nat → Option ((Nat × Nat) × A)) (hit : A → Bool) (r : Nat)
    (h : ∀ w, Inv w → (gen w = none ∧ gen' w.pos = none) ∨ ∃ w' a, gen w = some (w', a) ∧ gen' w.pos = some (w'.pos, a) ∧ Inv w' ∧ P a) (n : Nat) : ∀ (w : Worker α) (out : List A), Inv w → (∀ a ∈ out, P a) →
    (Smc.hitLoop gen hit r n w out = none ∧ Smc.hitLoop gen' hit r n w.pos out = none) ∨
    ∃ w' l, Smc.hitLoop gen hit r n w out = some (w', l) ∧ Smc.hitLoop gen' hit r n w.pos out = some (w'.pos, l) ∧ Inv w' ∧ ∀ a ∈ l, P a := by
  induction n with
  | zero => intro w out _ _; exact .inl ⟨rfl, rfl⟩
  | succ n ih =>
    intro w out hw ho
    rw [Smc.hitLoop, Smc.hitLoop]
    split
    · rcases h w hw with ⟨a1, a2⟩ | ⟨w', a, a1, a2, a3, a4⟩
      · rw [a1, a2]
        exact .inl ⟨rfl, rfl⟩
      · rw [a1, a2]
        exact ih w' _ a3 fun b hb => by
          rcases List.mem_append.1 hb with hb | hb
          · exact ho b hb
          · rw [List.mem_singleton.1 hb]; exact a4
    · exact .inr ⟨w, out, rfl, rfl, hw, ho⟩

/-- Hits while the nodes hold a vector. -/
theorem hits_at (S : Site α Y K) (hS : Sound S) (consts : Nat → Option α) (θ : List (Option α)) (hit : Y → Bool) (r n : Nat) (w : Worker α) (hw : Good S consts w.st) (hθ : Holds S w.st θ) :
    (Smc.hitLoop (fun w => some (simulate S w)) hit r n w [] = none ∧ Smc.hitLoop (fun p => some (aSim S consts θ p)) hit r n w.pos [] = none) ∨
    ∃ w' l, Smc.hitLoop (fun w => some (simulate S w)) hit r n w [] = some (w', l) ∧ Smc.hitLoop (fun p => some (aSim S consts θ p)) hit r n w.pos [] = some (w'.pos, l) ∧ Good S consts w'.st := by
  rcases hit_same (fun w : Worker α => Good S consts w.st ∧ Holds S w.st θ) (fun _ : Y => True) (fun w => some (simulate S w)) (fun p => some (aSim S consts θ p)) hit r
    (fun w hw => .inr ⟨_, _, rfl, by rw [simulate_same S hS consts w θ hw.1 hw.2]; rfl, hw, trivial⟩) n w [] ⟨hw, hθ⟩ (by simp) with h | ⟨w', l, h1, h2, h3, -⟩
  · exact .inl h
  · exact .inr ⟨w', l, h1, h2, h3.1⟩

theorem smc1_same (S : Site α Y K) (R : Rng) (hS : Plain S) (consts : Nat → Option α) (req : Pmc.Pop (List (Option α)) → Nat → K)
    (around : Pmc.Pop (List (Option α)) → List (Option α) → K) (kern : Pmc.Pop (List (Option α)) → List (Option α) → List (Option α) → ℝ) (dists : Y → List ℝ) (r fuel : Nat) (eps : ℝ)
    (p : Pmc.Pop (List (Option α))) (i : Nat) (θ : List (Option α)) (hθ : Fits S consts θ) (wt : ℝ) (y : Y) (w : Worker α) (hw : Good S consts w.st) :
    Agrees S consts (fun o => Fits S consts o.θ) (smcTask1 S R req kern r fuel eps p i θ wt y w) (Smc.accept1 (smcEnv S R consts req around kern dists) r fuel eps p i θ wt y w.pos) := by
  unfold smcTask1 Smc.accept1
  by_cases hwt : 0 < wt
  · rw [if_pos hwt, if_pos hwt]
    obtain ⟨t, t1, t2, t3⟩ := store_same S hS consts θ hθ w hw
    rw [t1]
    simp only
    have e1 : ∀ (θ : List (Option α)) (k : Nat) (q : Nat × Nat), Smc.hitLoop (fun w => some ((smcEnv S R consts req around kern dists).sim θ w)) (fun y => decide ((smcEnv S R consts req around kern dists).dist y < eps)) k fuel q [] =
      Smc.hitLoop (fun q => some (aSim S consts θ q)) (fun y => decide (S.dist y < eps)) k fuel q [] := fun _ _ _ => rfl
    rw [e1]
    have hpos : w.pos = (⟨w.seed, t, w.clock⟩ : Worker α).pos := rfl
    rw [hpos]
    rcases hits_at S hS.toSound consts θ (fun y => decide (S.dist y < eps)) (r - 1) fuel ⟨w.seed, t, w.clock⟩ t2 t3 with ⟨b1, b2⟩ | ⟨w1, old, b1, b2, b3⟩
    · rw [b1, b2]
      exact .inl ⟨rfl, rfl⟩
    rw [b1, b2]
    simp only
    have e0 : Smc.propose (smcEnv S R consts req around kern dists).pdf ((smcEnv S R consts req around kern dists).perturb p i) fuel w1.pos =
      Smc.propose (aPdf S consts) (aPerturb S consts (req p i)) fuel w1.pos := rfl
    rw [e0]
    rcases propose_fits S hS consts (req p i) fuel w1 b3 with ⟨a1, a2⟩ | ⟨v, ps, a1, a2, a3, a4, a5⟩
    · rw [a1, a2]
      exact .inl ⟨rfl, rfl⟩
    rw [a1, a2]
    simp only
    rw [e1]
    rcases hits_at S hS.toSound consts (ps.map some) (fun y => decide (S.dist y < eps)) r fuel v a3 a4 with ⟨b1, b2⟩ | ⟨w2, new, b1, b2, b3⟩
    · rw [b1, b2]
      exact .inl ⟨rfl, rfl⟩
    rw [b1, b2]
    simp only
    obtain ⟨s, d1, d2, -⟩ := density_same S hS consts _ a5 w2 b3
    rw [d1]
    simp only
    obtain ⟨s', f1, f2, -⟩ := density_same S hS consts θ hθ ⟨w2.seed, s, w2.clock⟩ d2
    rw [f1]
    simp only
    by_cases hl : new.length = 1
    · rw [if_pos hl, if_pos hl]
      exact .inl ⟨rfl, rfl⟩
    rw [if_neg hl, if_neg hl]
    have e3 : (smcEnv S R consts req around kern dists).bern (min 1 ((old.length : ℝ) / (new.length - 1) * Smc.ratio (smcEnv S R consts req around kern dists) p θ (ps.map some))) w2.pos =
        ((advance (R.flip (min 1 ((old.length : ℝ) / (new.length - 1) * (aPdf S consts (ps.map some) / aPdf S consts θ * (kern p (ps.map some) θ / kern p θ (ps.map some))))))
            (⟨w2.seed, s', w2.clock⟩ : Worker α)).1.pos,
          (advance (R.flip (min 1 ((old.length : ℝ) / (new.length - 1) * (aPdf S consts (ps.map some) / aPdf S consts θ * (kern p (ps.map some) θ / kern p θ (ps.map some))))))
            (⟨w2.seed, s', w2.clock⟩ : Worker α)).2) := rfl
    rw [e3]
    have hu : (advance (R.flip (min 1 ((old.length : ℝ) / (new.length - 1) * (aPdf S consts (ps.map some) / aPdf S consts θ * (kern p (ps.map some) θ / kern p θ (ps.map some))))))
            (⟨w2.seed, s', w2.clock⟩ : Worker α)).1.st = s' := rfl
    generalize advance (R.flip (min 1 ((old.length : ℝ) / (new.length - 1) * (aPdf S consts (ps.map some) / aPdf S consts θ * (kern p (ps.map some) θ / kern p θ (ps.map some))))))
            (⟨w2.seed, s', w2.clock⟩ : Worker α) = u at hu ⊢
    obtain ⟨uw, ub⟩ := u
    simp only at hu ⊢
    have hgu : Good S consts uw.st := by rw [hu]; exact f2
    cases ub with
    | false =>
      simp only [Bool.false_eq_true, if_false]
      exact smcEnd_same S hS consts _ hθ _ _ _ hgu
    | true =>
      simp only [if_true]
      obtain ⟨z, z1, z2, z3⟩ := store_same S hS consts _ a5 uw hgu
      rw [z1]
      simp only
      have e5 : (fun y => decide ((smcEnv S R consts req around kern dists).dist y < eps)) = fun y => decide (S.dist y < eps) := rfl
      rw [e5]
      cases hh : (Smc.hits (fun y => decide (S.dist y < eps)) new).dropLast with
      | nil => exact .inl ⟨rfl, rfl⟩
      | cons j l =>
        simp only
        have e6 : (smcEnv S R consts req around kern dists).pick (j :: l) uw.pos = ((advance (R.pick (j :: l)) (⟨uw.seed, z, uw.clock⟩ : Worker α)).1.pos, (advance (R.pick (j :: l)) (⟨uw.seed, z, uw.clock⟩ : Worker α)).2) := rfl
        rw [e6]
        have hj : (advance (R.pick (j :: l)) (⟨uw.seed, z, uw.clock⟩ : Worker α)).1.st = z := rfl
        generalize advance (R.pick (j :: l)) (⟨uw.seed, z, uw.clock⟩ : Worker α) = jj at hj ⊢
        simp only
        cases new[jj.2]? with
        | none => exact .inl ⟨rfl, rfl⟩
        | some y' =>
          simp only
          have e7 := read_same S consts _ jj.1 (by rw [hj]; exact z2) (by rw [hj]; exact z3)
          exact .inr ⟨_, _, rfl, by rw [e7.1]; rfl, e7.2.2, by rw [e7.1]; exact a5⟩
  · rw [if_neg hwt, if_neg hwt]
    exact smcEnd_same S hS consts _ hθ _ _ _ hw

theorem smc2_same (S : Site α Y K) (R : Rng) (hS : Plain S) (consts : Nat → Option α) (req : Pmc.Pop (List (Option α)) → Nat → K)
    (around : Pmc.Pop (List (Option α)) → List (Option α) → K) (kern : Pmc.Pop (List (Option α)) → List (Option α) → List (Option α) → ℝ) (dists : Y → List ℝ) (r fuel : Nat) (eps : ℝ)
    (p : Pmc.Pop (List (Option α))) (i : Nat) (θ : List (Option α)) (hθ : Fits S consts θ) (wt : ℝ) (y : Y) (w : Worker α) (hw : Good S consts w.st) :
    Agrees S consts (fun o => Fits S consts o.θ) (smcTask2 S R req around kern r fuel eps p i θ wt y w) (Smc.accept2 (smcEnv S R consts req around kern dists) r fuel eps p i θ wt y w.pos) := by
  unfold smcTask2 Smc.accept2
  by_cases hwt : 0 < wt
  · rw [if_pos hwt, if_pos hwt]
    have e1 : Smc.hitLoop (fun w => (Smc.propose (smcEnv S R consts req around kern dists).pdf ((smcEnv S R consts req around kern dists).perturb p i) fuel w).map
          fun e => (((smcEnv S R consts req around kern dists).sim e.2 e.1).1, e.2, ((smcEnv S R consts req around kern dists).sim e.2 e.1).2))
        (fun a => decide ((smcEnv S R consts req around kern dists).dist a.2 < eps)) r fuel w.pos [] =
      Smc.hitLoop (fun q => (Smc.propose (aPdf S consts) (aPerturb S consts (req p i)) fuel q).map fun e => ((aSim S consts e.2 e.1).1, e.2, (aSim S consts e.2 e.1).2))
        (fun a => decide (S.dist a.2 < eps)) r fuel w.pos [] := rfl
    rw [e1]
    rcases hit_same (fun w : Worker α => Good S consts w.st) (fun a : List (Option α) × Y => Fits S consts a.1)
      (fun w => (propose S (req p i) fuel w).map fun e => ((simulate S e.1).1, e.2.map some, (simulate S e.1).2))
      (fun q => (Smc.propose (aPdf S consts) (aPerturb S consts (req p i)) fuel q).map fun e => ((aSim S consts e.2 e.1).1, e.2, (aSim S consts e.2 e.1).2))
      (fun a => decide (S.dist a.2 < eps)) r
      (fun w hw => by
        rcases propose_fits S hS consts (req p i) fuel w hw with ⟨a1, a2⟩ | ⟨v, ps, a1, a2, a3, a4, a5⟩
        · rw [a1, a2]; exact .inl ⟨rfl, rfl⟩
        · rw [a1, a2]
          refine .inr ⟨_, _, rfl, ?_, a3, a5⟩
          simp only [Option.map_some]
          rw [simulate_same S hS.toSound consts v _ a3 a4]) fuel w [] hw (by simp) with ⟨b1, b2⟩ | ⟨w1, prime, b1, b2, b3, b4⟩
    · rw [b1, b2]
      exact .inl ⟨rfl, rfl⟩
    rw [b1, b2]
    simp only
    have e5 : (fun a : List (Option α) × Y => decide ((smcEnv S R consts req around kern dists).dist a.2 < eps)) = fun a => decide (S.dist a.2 < eps) := rfl
    rw [e5]
    cases hh : (Smc.hits (fun a : List (Option α) × Y => decide (S.dist a.2 < eps)) prime).dropLast with
    | nil => exact .inl ⟨rfl, rfl⟩
    | cons j l =>
      simp only
      have e6 : (smcEnv S R consts req around kern dists).pick (j :: l) w1.pos = ((advance (R.pick (j :: l)) w1).1.pos, (advance (R.pick (j :: l)) w1).2) := rfl
      rw [e6]
      have hj : (advance (R.pick (j :: l)) w1).1.st = w1.st := rfl
      generalize advance (R.pick (j :: l)) w1 = jj at hj ⊢
      simp only
      cases hpj : prime[jj.2]? with
      | none => exact .inl ⟨rfl, rfl⟩
      | some a =>
        obtain ⟨θ', y'⟩ := a
        have hfit : Fits S consts θ' := b4 _ (List.mem_of_getElem? hpj)
        simp only
        have e7 : Smc.hitLoop (fun w => (Smc.propose (smcEnv S R consts req around kern dists).pdf ((smcEnv S R consts req around kern dists).around p θ') fuel w).map
              fun e => (smcEnv S R consts req around kern dists).sim e.2 e.1)
            (fun y => decide ((smcEnv S R consts req around kern dists).dist y < eps)) (r - 1) fuel jj.1.pos [] =
          Smc.hitLoop (fun q => (Smc.propose (aPdf S consts) (aPerturb S consts (around p θ')) fuel q).map fun e => aSim S consts e.2 e.1)
            (fun y => decide (S.dist y < eps)) (r - 1) fuel jj.1.pos [] := rfl
        rw [e7]
        rcases hit_same (fun w : Worker α => Good S consts w.st) (fun _ : Y => True)
          (fun w => (propose S (around p θ') fuel w).map fun e => simulate S e.1)
          (fun q => (Smc.propose (aPdf S consts) (aPerturb S consts (around p θ')) fuel q).map fun e => aSim S consts e.2 e.1)
          (fun y => decide (S.dist y < eps)) (r - 1)
          (fun w hw => by
            rcases propose_fits S hS consts (around p θ') fuel w hw with ⟨a1, a2⟩ | ⟨v, ps, a1, a2, a3, a4, a5⟩
            · rw [a1, a2]; exact .inl ⟨rfl, rfl⟩
            · rw [a1, a2]
              refine .inr ⟨_, _, rfl, ?_, a3, trivial⟩
              simp only [Option.map_some]
              rw [simulate_same S hS.toSound consts v _ a3 a4]
              rfl) fuel jj.1 [] (by rw [hj]; exact b3) (by simp) with ⟨c1, c2⟩ | ⟨w2, back, c1, c2, c3, -⟩
        · rw [c1, c2]
          exact .inl ⟨rfl, rfl⟩
        rw [c1, c2]
        simp only
        obtain ⟨s, d1, d2, -⟩ := density_same S hS consts _ hfit w2 c3
        rw [d1]
        simp only
        obtain ⟨s', f1, f2, -⟩ := density_same S hS consts θ hθ ⟨w2.seed, s, w2.clock⟩ d2
        rw [f1]
        simp only
        have e3 : ((smcEnv S R consts req around kern dists).bern (min 1 ((back.length : ℝ) / (prime.length - 1) * Smc.ratio (smcEnv S R consts req around kern dists) p θ θ')) w2.pos).2 =
          (advance (R.flip (min 1 ((back.length : ℝ) / (prime.length - 1) * (aPdf S consts θ' / aPdf S consts θ * (kern p θ' θ / kern p θ θ'))))) (⟨w2.seed, s', w2.clock⟩ : Worker α)).2 := rfl
        rw [e3]
        split
        · exact smcEnd_same S hS consts _ hfit _ _ _ (by exact f2)
        · exact smcEnd_same S hS consts _ hθ _ _ _ (by exact f2)
  · rw [if_neg hwt, if_neg hwt]
    exact smcEnd_same S hS consts _ hθ _ _ _ hw

/-! ### SABC -/

theorem sabcFirst_same (S : Site α Y K) (R : Rng) (hS : Plain S) (consts : Nat → Option α) (hd : Draws S consts) (hin : Inside S consts) (req : Pmc.Pop (List (Option α)) → Nat → K) (schedule : ℝ → ℝ) (pick : Nat → List ℝ → List Nat)
    (eps : ℝ) (index n : Nat) : ∀ (w : Worker α) (all : List ℝ) (c : Nat), Good S consts w.st →
    Agrees S consts (fun o => Fits S consts o.θ) (sabcFirst S R eps index n w all c) (Sabc.first (sabcEnv S R consts req schedule pick) eps index n w.pos all c) := by
  induction n with
  | zero => intro w all c _; exact .inl ⟨rfl, rfl⟩
  | succ n ih =>
    intro w all c hw
    rw [sabcFirst, Sabc.first]
    obtain ⟨v, θ, p1, p2, p3, -, p5⟩ := prior_same S hS consts hd w hw
    have e1 : (sabcEnv S R consts req schedule pick).prior w.pos = (v.pos, θ) := p2
    have e2 : (sabcEnv S R consts req schedule pick).sim θ v.pos = ((simulate S v).1.pos, (simulate S v).2) := simulate_same S hS.toSound consts v θ p3 p5
    rw [p1, e1]
    simp only
    rw [e2]
    simp only
    have e3 : (sabcEnv S R consts req schedule pick).bern (Real.exp (-(sabcEnv S R consts req schedule pick).dist (simulate S v).2 / eps)) (simulate S v).1.pos =
      ((advance (R.flip (Real.exp (-S.dist (simulate S v).2 / eps))) (simulate S v).1).1.pos, (advance (R.flip (Real.exp (-S.dist (simulate S v).2 / eps))) (simulate S v).1).2) := rfl
    rw [e3]
    have hu : (advance (R.flip (Real.exp (-S.dist (simulate S v).2 / eps))) (simulate S v).1).1.st = v.st := rfl
    generalize advance (R.flip (Real.exp (-S.dist (simulate S v).2 / eps))) (simulate S v).1 = u at hu ⊢
    simp only
    split
    · exact .inr ⟨_, _, rfl, rfl, by rw [hu]; exact p3, by have := hin w.pos; rw [p2] at this; exact this⟩
    · exact ih u.1 _ _ (by rw [hu]; exact p3)

theorem sabcMove_same (S : Site α Y K) (R : Rng) (hS : Plain S) (consts : Nat → Option α) (req : Pmc.Pop (List (Option α)) → Nat → K) (schedule : ℝ → ℝ) (pick : Nat → List ℝ → List Nat)
    (fuel n : Nat) (s : Sabc.State (List (Option α))) (hpop : ∀ θ ∈ s.params, Fits S consts θ) (w : Worker α) (hw : Good S consts w.st) :
    Agrees S consts (fun o => Fits S consts o.θ) (sabcMove S R req fuel n s w) (Sabc.move (sabcEnv S R consts req schedule pick) fuel n s w.pos) := by
  unfold sabcMove Sabc.move
  simp only
  have e0 : (sabcEnv S R consts req schedule pick).choose n w.pos = ((advance (R.index n) w).1.pos, (advance (R.index n) w).2) := rfl
  rw [e0]
  have hg : (advance (R.index n) w).1.st = w.st := rfl
  generalize advance (R.index n) w = i at hg ⊢
  simp only
  cases hp : s.params[i.2]? with
  | none => exact .inl ⟨rfl, rfl⟩
  | some θ =>
    cases s.smooths[i.2]? with
    | none => exact .inl ⟨rfl, rfl⟩
    | some sθ =>
      simp only [Option.bind_some]
      have e0 : Smc.propose (sabcEnv S R consts req schedule pick).pdf ((sabcEnv S R consts req schedule pick).perturb ⟨s.params, List.replicate n 1⟩ i.2) fuel i.1.pos =
        Smc.propose (aPdf S consts) (aPerturb S consts (req ⟨s.params, List.replicate n 1⟩ i.2)) fuel i.1.pos := rfl
      rw [e0]
      rcases propose_fits S hS consts (req ⟨s.params, List.replicate n 1⟩ i.2) fuel i.1 (by rw [hg]; exact hw) with ⟨a1, a2⟩ | ⟨v, ps, a1, a2, a3, a4, a5⟩
      · rw [a1, a2]
        exact .inl ⟨rfl, rfl⟩
      rw [a1, a2]
      simp only [Option.bind_some]
      have e2 : (sabcEnv S R consts req schedule pick).sim (ps.map some) v.pos = ((simulate S v).1.pos, (simulate S v).2) := simulate_same S hS.toSound consts v _ a3 a4
      rw [e2]
      simp only
      have e4 : (sabcEnv S R consts req schedule pick).dist (simulate S v).2 = S.dist (simulate S v).2 := rfl
      rw [e4]
      cases Sabc.smooth s.all (S.dist (simulate S v).2) with
      | none => exact .inl ⟨rfl, rfl⟩
      | some sd =>
        simp only [Option.map_some]
        obtain ⟨t, d1, d2, -⟩ := density_same S hS consts _ a5 (simulate S v).1 a3
        rw [d1]
        simp only
        obtain ⟨t', f1, f2, -⟩ := density_same S hS consts θ (hpop θ (List.mem_of_getElem? hp)) ⟨(simulate S v).1.seed, t, (simulate S v).1.clock⟩ d2
        rw [f1]
        exact .inr ⟨_, _, rfl, rfl, f2, a5⟩

/-! ### ABCsubsim -/

theorem subsimChain_same (S : Site α Y K) (R : Rng) (hS : Plain S) (consts : Nat → Option α) (req : List M → List (Option α) → K) (kern : List M → List (Option α) → List (Option α) → ℝ)
    (cov : Pmc.Pop (List (Option α)) → List M) (scale : Nat → M → M) (fuel : Nat) (covs : List M) (anneal : ℝ) (base : List (Option α)) (n : Nat) :
    ∀ (w : Worker α) (θ : List (Option α)) (d : ℝ), Good S consts w.st → Fits S consts θ →
    Agrees S consts (fun o => ∀ θ ∈ o.1, Fits S consts θ) (subsimChain S R req kern fuel covs anneal base n w θ d) (Subsim.chain (subsimEnv S R consts req kern cov scale) fuel covs anneal base n w.pos θ d) := by
  induction n with
  | zero => intro w θ d hw _; exact .inr ⟨_, _, rfl, rfl, hw, by simp⟩
  | succ n ih =>
    intro w θ d hw hθ
    rw [subsimChain, Subsim.chain]
    have e0 : Smc.propose (subsimEnv S R consts req kern cov scale).pdf ((subsimEnv S R consts req kern cov scale).perturb covs base) fuel w.pos =
      Smc.propose (aPdf S consts) (aPerturb S consts (req covs base)) fuel w.pos := rfl
    rw [e0]
    rcases propose_fits S hS consts (req covs base) fuel w hw with ⟨a1, a2⟩ | ⟨v, ps, a1, a2, a3, a4, a5⟩
    · rw [a1, a2]
      exact .inl ⟨rfl, rfl⟩
    rw [a1, a2]
    simp only
    have e2 : (subsimEnv S R consts req kern cov scale).sim (ps.map some) v.pos = ((simulate S v).1.pos, (simulate S v).2) := simulate_same S hS.toSound consts v _ a3 a4
    rw [e2]
    simp only
    obtain ⟨t, d1, d2, -⟩ := density_same S hS consts _ a5 (simulate S v).1 a3
    rw [d1]
    simp only
    obtain ⟨t', f1, f2, -⟩ := density_same S hS consts θ hθ ⟨(simulate S v).1.seed, t, (simulate S v).1.clock⟩ d2
    rw [f1]
    simp only
    have e4 : (subsimEnv S R consts req kern cov scale).dist (simulate S v).2 = S.dist (simulate S v).2 := rfl
    rw [e4]
    have e3 : (subsimEnv S R consts req kern cov scale).bern (Subsim.prob (subsimEnv S R consts req kern cov scale) covs anneal θ (ps.map some) (S.dist (simulate S v).2)) (simulate S v).1.pos =
      ((advance (R.flip (subsimProb kern covs anneal (aPdf S consts (ps.map some)) (aPdf S consts θ) θ (ps.map some) (S.dist (simulate S v).2))) (⟨(simulate S v).1.seed, t', (simulate S v).1.clock⟩ : Worker α)).1.pos,
        (advance (R.flip (subsimProb kern covs anneal (aPdf S consts (ps.map some)) (aPdf S consts θ) θ (ps.map some) (S.dist (simulate S v).2))) (⟨(simulate S v).1.seed, t', (simulate S v).1.clock⟩ : Worker α)).2) := rfl
    rw [e3]
    have hu : (advance (R.flip (subsimProb kern covs anneal (aPdf S consts (ps.map some)) (aPdf S consts θ) θ (ps.map some) (S.dist (simulate S v).2))) (⟨(simulate S v).1.seed, t', (simulate S v).1.clock⟩ : Worker α)).1.st = t' := rfl
    generalize advance (R.flip (subsimProb kern covs anneal (aPdf S consts (ps.map some)) (aPdf S consts θ) θ (ps.map some) (S.dist (simulate S v).2))) (⟨(simulate S v).1.seed, t', (simulate S v).1.clock⟩ : Worker α) = u at hu ⊢
    have hgu : Good S consts u.1.st := by rw [hu]; exact f2
    simp only
    split
    · rcases ih u.1 (ps.map some) (S.dist (simulate S v).2) hgu a5 with ⟨b1, b2⟩ | ⟨w', a, b1, b2, b3, b4⟩
      · rw [b1, b2]; exact .inl ⟨rfl, rfl⟩
      · rw [b1, b2]; exact .inr ⟨_, _, rfl, rfl, b3, by simpa [a5] using b4⟩
    · rcases ih u.1 θ d hgu hθ with ⟨b1, b2⟩ | ⟨w', a, b1, b2, b3, b4⟩
      · rw [b1, b2]; exact .inl ⟨rfl, rfl⟩
      · rw [b1, b2]; exact .inr ⟨_, _, rfl, rfl, b3, by first | simpa [hθ] using b4 | simpa [hfit] using b4⟩

theorem subsim_same (S : Site α Y K) (R : Rng) (hS : Plain S) (consts : Nat → Option α) (req : List M → List (Option α) → K) (kern : List M → List (Option α) → List (Option α) → ℝ)
    (cov : Pmc.Pop (List (Option α)) → List M) (scale : Nat → M → M) (fuel length : Nat) (covs : List M) (anneal : ℝ) (base pop : List (List (Option α))) (hpop : ∀ θ ∈ pop, Fits S consts θ) (i : Nat)
    (w : Worker α) (hw : Good S consts w.st) :
    Agrees S consts (fun o => ∀ θ ∈ o.1, Fits S consts θ) (subsimTask S R req kern fuel length covs anneal base pop i w) (Subsim.accept (subsimEnv S R consts req kern cov scale) fuel length covs anneal base pop i w.pos) := by
  unfold subsimTask Subsim.accept
  cases hp : pop[i]? with
  | none => exact .inl ⟨rfl, rfl⟩
  | some θ =>
    cases base[i]? with
    | none => exact .inl ⟨rfl, rfl⟩
    | some θ0 =>
      simp only [Option.bind_some]
      have hfit := hpop θ (List.mem_of_getElem? hp)
      obtain ⟨t, h1, h2, h3⟩ := store_same S hS consts θ hfit w hw
      rw [h1]
      simp only
      have e2 : (subsimEnv S R consts req kern cov scale).sim θ w.pos = ((simulate S (⟨w.seed, t, w.clock⟩ : Worker α)).1.pos, (simulate S (⟨w.seed, t, w.clock⟩ : Worker α)).2) :=
        simulate_same S hS.toSound consts ⟨w.seed, t, w.clock⟩ θ h2 h3
      rw [e2]
      have hg : Good S consts (simulate S (⟨w.seed, t, w.clock⟩ : Worker α)).1.st := h2
      generalize simulate S (⟨w.seed, t, w.clock⟩ : Worker α) = r at hg ⊢
      have e4 : (subsimEnv S R consts req kern cov scale).dist r.2 = S.dist r.2 := rfl
      rw [e4]
      rcases subsimChain_same S R hS consts req kern cov scale fuel covs anneal θ0 (length - 1) r.1 θ (S.dist r.2) hg hfit with ⟨b1, b2⟩ | ⟨w', a, b1, b2, b3, b4⟩
      · rw [b1, b2]; exact .inl ⟨rfl, rfl⟩
      · rw [b1, b2]; exact .inr ⟨_, _, rfl, rfl, b3, by first | simpa [hθ] using b4 | simpa [hfit] using b4⟩

theorem subsimTrials_same (S : Site α Y K) (R : Rng) (hS : Plain S) (consts : Nat → Option α) (req : List M → List (Option α) → K) (kern : List M → List (Option α) → List (Option α) → ℝ)
    (cov : Pmc.Pop (List (Option α)) → List M) (scale : Nat → M → M) (fuel : Nat) (covs : List M) (anneal : ℝ) (base : List (Option α)) (n : Nat) :
    ∀ (w : Worker α) (θ : List (Option α)) (m : Nat), Good S consts w.st → Fits S consts θ →
    Agrees S consts (fun _ => True) (subsimTrials S R req kern fuel covs anneal base n w θ m)
      ((Subsim.trials (subsimEnv S R consts req kern cov scale) fuel covs anneal base n w.pos θ).map (· + m)) := by
  induction n with
  | zero => intro w θ m hw _; exact .inr ⟨_, _, rfl, by simp [Subsim.trials], hw, trivial⟩
  | succ n ih =>
    intro w θ m hw hθ
    rw [subsimTrials, Subsim.trials]
    have e0 : Smc.propose (subsimEnv S R consts req kern cov scale).pdf ((subsimEnv S R consts req kern cov scale).perturb covs base) fuel w.pos =
      Smc.propose (aPdf S consts) (aPerturb S consts (req covs base)) fuel w.pos := rfl
    rw [e0]
    rcases propose_fits S hS consts (req covs base) fuel w hw with ⟨a1, a2⟩ | ⟨v, ps, a1, a2, a3, a4, a5⟩
    · rw [a1, a2]
      exact .inl ⟨rfl, rfl⟩
    rw [a1, a2]
    simp only
    have e2 : (subsimEnv S R consts req kern cov scale).sim (ps.map some) v.pos = ((simulate S v).1.pos, (simulate S v).2) := simulate_same S hS.toSound consts v _ a3 a4
    rw [e2]
    simp only
    obtain ⟨t, d1, d2, -⟩ := density_same S hS consts _ a5 (simulate S v).1 a3
    rw [d1]
    simp only
    obtain ⟨t', f1, f2, -⟩ := density_same S hS consts θ hθ ⟨(simulate S v).1.seed, t, (simulate S v).1.clock⟩ d2
    rw [f1]
    simp only
    have e4 : (subsimEnv S R consts req kern cov scale).dist (simulate S v).2 = S.dist (simulate S v).2 := rfl
    rw [e4]
    have e3 : (subsimEnv S R consts req kern cov scale).bern (Subsim.prob (subsimEnv S R consts req kern cov scale) covs anneal θ (ps.map some) (S.dist (simulate S v).2)) (simulate S v).1.pos =
      ((advance (R.flip (subsimProb kern covs anneal (aPdf S consts (ps.map some)) (aPdf S consts θ) θ (ps.map some) (S.dist (simulate S v).2))) (⟨(simulate S v).1.seed, t', (simulate S v).1.clock⟩ : Worker α)).1.pos,
        (advance (R.flip (subsimProb kern covs anneal (aPdf S consts (ps.map some)) (aPdf S consts θ) θ (ps.map some) (S.dist (simulate S v).2))) (⟨(simulate S v).1.seed, t', (simulate S v).1.clock⟩ : Worker α)).2) := rfl
    rw [e3]
    have hu : (advance (R.flip (subsimProb kern covs anneal (aPdf S consts (ps.map some)) (aPdf S consts θ) θ (ps.map some) (S.dist (simulate S v).2))) (⟨(simulate S v).1.seed, t', (simulate S v).1.clock⟩ : Worker α)).1.st = t' := rfl
    generalize advance (R.flip (subsimProb kern covs anneal (aPdf S consts (ps.map some)) (aPdf S consts θ) θ (ps.map some) (S.dist (simulate S v).2))) (⟨(simulate S v).1.seed, t', (simulate S v).1.clock⟩ : Worker α) = u at hu ⊢
    have hgu : Good S consts u.1.st := by rw [hu]; exact f2
    simp only
    split
    · have := ih u.1 (ps.map some) (m + 1) hgu a5
      rw [Option.map_map]
      have hf : ((fun x => x + m) ∘ fun x => x + 1) = fun x : Nat => x + (m + 1) := by funext x; simp only [Function.comp]; omega
      rw [hf]
      exact this
    · exact ih u.1 θ m hgu hθ

theorem subsimTune_same (S : Site α Y K) (R : Rng) (hS : Plain S) (consts : Nat → Option α) (req : List M → List (Option α) → K) (kern : List M → List (Option α) → List (Option α) → ℝ)
    (cov : Pmc.Pop (List (Option α)) → List M) (scale : Nat → M → M) (fuel length : Nat) (covs : List M) (anneal : ℝ) (base pop : List (List (Option α))) (hpop : ∀ θ ∈ pop, Fits S consts θ) (i : Nat)
    (w : Worker α) (hw : Good S consts w.st) :
    Agrees S consts (fun _ => True) (subsimTune S R req kern scale fuel length covs anneal base pop i w) (Subsim.tune (subsimEnv S R consts req kern cov scale) fuel length covs anneal base pop i w.pos) := by
  unfold subsimTune Subsim.tune
  cases hp : pop[0]? with
  | none => exact .inl ⟨rfl, rfl⟩
  | some θ =>
    cases base[0]? with
    | none => exact .inl ⟨rfl, rfl⟩
    | some θ0 =>
      simp only [Option.bind_some]
      have := subsimTrials_same S R hS consts req kern cov scale fuel covs anneal θ0 length w θ 0 hw (hpop θ (List.mem_of_getElem? hp))
      have hf : (fun x : Nat => x + 0) = id := rfl
      rw [hf, Option.map_id, id] at this
      rcases this with ⟨b1, b2⟩ | ⟨w', a, b1, b2, b3, -⟩
      · rw [b1, b2]; exact .inl ⟨rfl, rfl⟩
      · rw [b1, b2]; exact .inr ⟨_, _, rfl, rfl, b3, trivial⟩

end Verif.Site
