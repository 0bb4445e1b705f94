import Verif.Pmc.Restart
import Verif.Journal.Props
/-
C225: `configuration["n_samples"]` of a journal of `PMCABC` after any number of calls, each restarting from the journal before, and `Journal.resample`, which relies on it (`abcpy/output.py` 1069-1083).
-/
namespace Verif.Pmc

variable {W Θ Y : Type} (env : Env W Θ Y)

/-! ### Model -/

/-- The arguments of a call, with `n` for `n_samples`, what the sampler holds before, and the states in which the workers start the tasks of each step, of which there are `n`. -/
structure Call (W Θ : Type) where
  steps : Nat
  epsInit : List ℝ
  pct : ℝ
  fuel : Nat
  full : Bool
  n : Nat
  start : Nat → List W
  before : Option (Pop Θ)
  counter : Nat
  tasks : ∀ t, (start t).length = n

/-- `PMCABC.sample`, inferences.py 810-965, with `configuration["n_samples"]`: a new journal gets it at line 824, a journal from a file keeps the one it has (830-831). -/
noncomputable def Call.run (c : Call W Θ) (file : Option (Journal Θ × Nat)) : Option (Journal Θ × Nat) :=
  (session env c.steps c.epsInit c.pct c.fuel c.full c.start c.before c.counter (file.map Prod.fst)).map fun r => (r.2, (file.map Prod.snd).getD c.n)

/-- Calls that restart from the journal of the call before. -/
noncomputable def calls (c : Call W Θ) : List (Call W Θ) → Option (Journal Θ × Nat)
  | [] => c.run env none
  | d :: ds => match calls c ds with
    | none => none
    | some f => d.run env (some f)

/-! ### Sizes -/

/-- Every population of a journal has `n` particles with as many weights and distances. -/
def OfSize (n : Nat) (l : List (Rec Θ)) : Prop := ∀ r ∈ l, r.params.length = n ∧ r.weights.length = n ∧ r.distances.length = n

theorem write_size (n : Nat) (full restarted : Bool) (steps t : Nat) (s : State Θ) (j : Journal Θ) (hj : OfSize n j.pops) (hs : ∀ r, s.hist.getLast? = some r → OfSize n [r]) :
    OfSize n (write full restarted steps t s j).pops := by
  have he : ∀ (b : Bool) (arr : List (Option ℝ)) (k : Journal Θ), (k.addEps b arr).pops = k.pops := by
    intro b arr k
    unfold Journal.addEps
    split <;> rfl
  unfold write
  simp only [he]
  split
  · split
    · rename_i r hr
      unfold Journal.add
      simp only
      split
      · intro a ha
        rcases List.mem_append.1 ha with ha | ha
        · exact hj a ha
        · exact hs r hr a ha
      · exact hs r hr
    · exact hj
  · exact hj

theorem loop_size (n steps : Nat) (pct : ℝ) (fuel : Nat) (full restarted : Bool) (start : Nat → List W) (hst : ∀ t, (start t).length = n) (k t : Nat) (s s' : State Θ) (j j' : Journal Θ) (hj : OfSize n j.pops)
    (hl : t + k = steps) (h : sessionLoop env steps pct fuel full restarted start k t s j = some (s', j')) :
    OfSize n j'.pops ∧ (0 < k → j'.pops ≠ []) := by
  induction k generalizing t s j with
  | zero =>
    simp only [sessionLoop, Option.some.injEq, Prod.mk.injEq] at h
    rw [← h.2]
    exact ⟨hj, by omega⟩
  | succ k ih =>
    rw [sessionLoop] at h
    split at h
    · cases h
    · rename_i s1 h1
      obtain ⟨eps, new, tries, r, -, r1, r2, r3, -⟩ := pmcStep_stage env steps pct fuel t (start t) s s1 h1
      have hr : OfSize n [r] := by
        intro a ha
        rw [List.mem_singleton.1 ha, r2.params, r2.weights, r2.distances]
        simp [r1.size, hst]
      have hw := write_size n full restarted steps t s1 j hj (fun a ha => by
        rw [r3] at ha
        simp only [List.getLast?_append, List.getLast?_singleton, Option.some_or, Option.some.injEq] at ha
        rw [← ha]; exact hr)
      obtain ⟨i1, i2⟩ := ih (t + 1) s1 _ hw (by omega) h
      refine ⟨i1, fun _ => ?_⟩
      rcases Nat.eq_zero_or_pos k with rfl | hk
      · simp only [sessionLoop, Option.some.injEq, Prod.mk.injEq] at h
        rw [← h.2]
        have he : ∀ (b : Bool) (arr : List (Option ℝ)) (k : Journal Θ), (k.addEps b arr).pops = k.pops := by
          intro b arr k
          unfold Journal.addEps
          split <;> rfl
        unfold write
        simp only [he]
        rw [if_pos (Or.inr (by omega)), r3]
        simp only [List.getLast?_append, List.getLast?_singleton, Option.some_or, Journal.add]
        split <;> simp
      · exact i2 hk

/-- A loop with at least one step starts from a population of the size asked for, if from any. -/
theorem loop_size_pop (n steps : Nat) (pct : ℝ) (fuel : Nat) (full restarted : Bool) (start : Nat → List W) (hst : ∀ t, (start t).length = n) (k t : Nat) (s s' : State Θ) (j j' : Journal Θ)
    (hl : t + k = steps) (hk : 0 < k) (h : sessionLoop env steps pct fuel full restarted start k t s j = some (s', j')) (p : Pop Θ) (hp : s.pop = some p) : p.params.length = n := by
  obtain ⟨k, rfl⟩ : ∃ m, k = m + 1 := ⟨k - 1, by omega⟩
  rw [sessionLoop] at h
  split at h
  · cases h
  · rename_i s1 h1
    obtain ⟨eps, new, tries, r, -, r1, -⟩ := pmcStep_stage env steps pct fuel t (start t) s s1 h1
    rw [(r1.size_old p hp).1, hst]

/-- What a restart finds. -/
theorem opening_restart (steps : Nat) (epsInit : List ℝ) (pct : ℝ) (full : Bool) (before : Option (Pop Θ)) (counter : Nat) (j j0 : Journal Θ) (s : State Θ)
    (h : opening steps epsInit pct full before counter (some j) = some (s, j0)) : j0 = j ∧ (0 < steps → ∃ r, j.pops.getLast? = some r ∧ s.pop = some ⟨r.params, r.weights⟩) := by
  unfold opening at h
  cases hi : initEps epsInit steps with
  | none => simp [hi] at h
  | some arr =>
    simp only [hi] at h
    split at h
    · simp only [Option.some.injEq, Prod.mk.injEq] at h
      exact ⟨h.2.symm, by omega⟩
    · obtain ⟨s', hs, hs'⟩ := Option.map_eq_some_iff.1 h
      simp only [Prod.mk.injEq] at hs'
      refine ⟨hs'.2.symm, fun _ => ?_⟩
      rw [← hs'.1]
      unfold resume at hs
      split at hs
      · rename_i r e hr _
        obtain ⟨q, -, rfl⟩ := Option.map_eq_some_iff.1 hs
        exact ⟨r, hr, rfl⟩
      · cases hs

/-- **C225, the number of samples.** After any number of calls, `configuration["n_samples"]` is the size of every population in the journal, and every call with at least one step was made with this number. -/
theorem C225_sizes (c : Call W Θ) (hc : 0 < c.steps) (ds : List (Call W Θ)) (j : Journal Θ) (n : Nat) (h : calls env c ds = some (j, n)) :
    n = c.n ∧ j.pops ≠ [] ∧ OfSize n j.pops ∧ ∀ d ∈ ds, 0 < d.steps → d.n = n := by
  induction ds generalizing j n with
  | nil =>
    simp only [calls, Call.run, Option.map_none, Option.getD_none] at h
    obtain ⟨r, hr, hr'⟩ := Option.map_eq_some_iff.1 h
    simp only [Prod.mk.injEq] at hr'
    obtain ⟨rfl, rfl⟩ := hr'
    unfold session at hr
    split at hr
    · cases hr
    · rename_i s0 j0 ho
      have hj0 : j0.pops = [] := by
        unfold opening at ho
        cases hi : initEps c.epsInit c.steps with
        | none => simp [hi] at ho
        | some arr =>
          simp only [hi, Option.some.injEq, Prod.mk.injEq] at ho
          rw [← ho.2]
      obtain ⟨l1, l2⟩ := loop_size env c.n c.steps c.pct c.fuel c.full false c.start c.tasks c.steps 0 s0 r.1 j0 r.2 (by rw [hj0]; intro r hr; cases hr) (by omega) hr
      exact ⟨rfl, l2 hc, l1, by simp⟩
  | cons d ds ih =>
    rw [calls] at h
    split at h
    · cases h
    · rename_i f hf
      obtain ⟨j1, n1⟩ := f
      obtain ⟨i1, i2, i3, i4⟩ := ih j1 n1 hf
      simp only [Call.run, Option.map_some, Option.getD_some] at h
      obtain ⟨r, hr, hr'⟩ := Option.map_eq_some_iff.1 h
      simp only [Prod.mk.injEq] at hr'
      obtain ⟨rfl, rfl⟩ := hr'
      unfold session at hr
      split at hr
      · cases hr
      · rename_i s0 j0 ho
        obtain ⟨rfl, o2⟩ := opening_restart d.steps d.epsInit d.pct d.full d.before d.counter j1 j0 s0 ho
        rcases Nat.eq_zero_or_pos d.steps with hz | hz
        · rw [hz] at hr
          simp only [sessionLoop, Option.some.injEq] at hr
          rw [← hr]
          refine ⟨i1, i2, i3, fun e he hpos => ?_⟩
          rcases List.mem_cons.1 he with rfl | he
          · omega
          · exact i4 e he hpos
        · obtain ⟨r1, hr1, hp⟩ := o2 hz
          have hsz := (i3 r1 (List.mem_of_getLast? hr1)).1
          have hd : d.n = n1 := by
            have := (loop_size_pop env d.n d.steps d.pct d.fuel d.full true d.start d.tasks d.steps 0 s0 r.1 j0 r.2 (by omega) hz hr) _ hp
            simp only at this
            omega
          obtain ⟨l1, l2⟩ := loop_size env d.n d.steps d.pct d.fuel d.full true d.start d.tasks d.steps 0 s0 r.1 j0 r.2 (by rw [hd]; exact i3) (by omega) hr
          refine ⟨i1, l2 hz, by rw [← hd]; exact l1, fun e he hpos => ?_⟩
          rcases List.mem_cons.1 he with rfl | he
          · exact hd
          · exact i4 e he hpos

/-- **C225, another number of samples.** A restart that asks for another number of samples than the journal has does not return: it raises in its first step. -/
theorem C225_other (c : Call W Θ) (hc : 0 < c.steps) (ds : List (Call W Θ)) (d : Call W Θ) (hd : 0 < d.steps) (hn : d.n ≠ c.n) : calls env c (d :: ds) = none := by
  cases h : calls env c (d :: ds) with
  | none => rfl
  | some f =>
    obtain ⟨h1, -, -, h4⟩ := C225_sizes env c hc (d :: ds) f.1 f.2 h
    exact absurd ((h4 d (by simp) hd).trans h1) hn

/-- **C225, the journal can be resampled.** After any number of calls, with pairwise different names for the parameters, `resample` draws as many particles as asked for out of the last population, or as many as there
are; only drawing more than there are without replacement is refused. -/
theorem C225_resample {α : Type} (env : Env W (List α) Y) (c : Call W (List α)) (hc : 0 < c.steps) (hpos : 0 < c.n) (ds : List (Call W (List α))) (j : Journal (List α)) (n : Nat)
    (h : calls env c ds = some (j, n)) (names : List String) (hnames : names.Nodup) (hl : ∀ r ∈ j.pops, ∀ p ∈ r.params, p.length = names.length) (nSamples : Option Nat) (replace : Bool) (indices : List Nat)
    (hi : ∀ i ∈ indices, i < n) (hin : indices.length = nSamples.getD n) :
    ∃ last, j.pops.getLast? = some last ∧ last.params.length = n ∧
    (nSamples.getD n > n → replace = false →
      Journal.resample true (some n) last.params last.weights.length (Journal.pyDict (Journal.namedColumns names last.params)) nSamples replace indices = .error .runtimeError) ∧
    (nSamples.getD n ≤ n ∨ replace = true →
      ∃ r, Journal.resample true (some n) last.params last.weights.length (Journal.pyDict (Journal.namedColumns names last.params)) nSamples replace indices = .ok r ∧
        r.particles.map some = indices.map (fun i => last.params[i]?) ∧ r.particles.length = nSamples.getD n ∧ r.named = Journal.namedColumns names r.particles) := by
  obtain ⟨h1, h2, h3, -⟩ := C225_sizes env c hc ds j n h
  obtain ⟨last, hlast⟩ : ∃ r, j.pops.getLast? = some r := by
    cases hp : j.pops.getLast? with
    | none => exact absurd (List.getLast?_eq_none_iff.1 hp) h2
    | some r => exact ⟨r, rfl⟩
  have hm := List.mem_of_getLast? hlast
  obtain ⟨s1, s2, -⟩ := h3 last hm
  have hne : last.params ≠ [] := by
    intro h0
    rw [h0] at s1
    simp only [List.length_nil] at s1
    omega
  obtain ⟨a, b⟩ := Journal.C33_resample_partial names hnames last.params (hl last hm) hne nSamples replace indices (by rw [s1]; exact hi) (by rw [s1]; exact hin)
  rw [s1] at a b
  refine ⟨last, hlast, s1, by rw [s2]; exact a, fun hor => ?_⟩
  rw [s2]
  obtain ⟨r, b1, b2, -, b4, -, b6⟩ := b hor
  exact ⟨r, b1, b2, b4, b6⟩

/-! ### The hypotheses are met -/

/-- A call in the simple setting, with two particles. -/
noncomputable def easyCall (e : ℝ) : Call Unit Nat := ⟨2, [e], 50, 3, true, 2, fun _ => [(), ()], none, 0, fun _ => rfl⟩

/-- A call and a restart: the populations have two particles each; a restart with three particles does not return. -/
example : ∃ j, calls easy (easyCall 1) [easyCall 0] = some (j, 2) ∧ j.pops ≠ [] ∧ OfSize 2 j.pops ∧
    calls easy (easyCall 1) [⟨2, [0], 50, 3, true, 3, fun _ => [(), (), ()], none, 0, fun _ => rfl⟩] = none := by
  obtain ⟨s, j, s', j', h1, -, h2, -⟩ := easy_restart
  have h : calls easy (easyCall 1) [easyCall 0] = some (j', 2) := by
    simp [calls, Call.run, easyCall, h1, h2]
  obtain ⟨-, a, b, -⟩ := C225_sizes easy (easyCall 1) (by simp [easyCall]) [easyCall 0] j' 2 h
  exact ⟨j', h, a, b, C225_other easy (easyCall 1) (by simp [easyCall]) [] _ (by simp) (by simp [easyCall])⟩

/-- A setting with two parameters. -/
noncomputable def easyPair : Env Unit (List Nat) Unit where
  distMax := none
  dist := fun _ => 0
  pdf := fun _ => 1
  kernel := fun _ _ _ => 1
  held := fun _ => []
  prior := fun w => (w, [1, 5])
  choose := fun _ w => (w, 0)
  perturb := fun _ _ w => (w, some [2, 6])
  sim := fun _ w => (w, ())

/-- A call whose journal is resampled: three draws out of two particles. -/
example : ∃ j last r, calls easyPair ⟨1, [1], 50, 3, true, 2, fun _ => [(), ()], none, 0, fun _ => rfl⟩ [] = some (j, 2) ∧ j.pops.getLast? = some last ∧
    Journal.resample true (some 2) last.params last.weights.length (Journal.pyDict (Journal.namedColumns ["a", "b"] last.params)) (some 3) true [0, 1, 1] = .ok r ∧ r.particles.length = 3 := by
  have hb : resampleTask easyPair 1 none 3 () = some ([1, 5], 0, 1) := by simp [resampleTask, resampleLoop, above, easyPair, show ¬ (1 : ℝ) < 0 by norm_num]
  obtain ⟨j, h, hj⟩ : ∃ j : Journal (List Nat), calls easyPair ⟨1, [1], 50, 3, true, 2, fun _ => [(), ()], none, 0, fun _ => rfl⟩ [] = some (j, 2) ∧ ∀ r ∈ j.pops, r.params = [[1, 5], [1, 5]] := by
    refine ⟨⟨true, [⟨1, [[1, 5], [1, 5]], [0, 0], normalise ([[1, 5], [1, 5]].map (rawWeight easyPair 2 none))⟩], [2], some [some 1]⟩, ?_, by simp⟩
    simp [calls, Call.run, session, opening, initEps, sessionLoop, pmcStep, hb, collect, nextEps, write, Journal.add, Journal.addEps]
  obtain ⟨last, h1, -, -, h4⟩ := C225_resample easyPair _ (by norm_num) (by norm_num) [] j 2 h ["a", "b"] (by simp) (by intro r hr p hp; rw [hj r hr] at hp; simp at hp; simp [hp]) (some 3) true [0, 1, 1] (by simp) rfl
  obtain ⟨r, r1, -, r3, -⟩ := h4 (Or.inr rfl)
  exact ⟨j, last, r, h, h1, r1, r3⟩

end Verif.Pmc
