import Verif.Site.RunOthers
/-
C146, continued: `SABC` and `ABCsubsim`.
-/
namespace Verif.Site

open Graph

variable {T A α Y K M : Type}

/-! ### SABC -/

theorem assign_mem {B : Type} (m : List (Nat × B)) : ∀ (l : List B) (x : B), x ∈ Sabc.assign l m → x ∈ l ∨ ∃ e ∈ m, x = e.2 := by
  induction m with
  | nil => intro l x hx; exact .inl hx
  | cons e m ih =>
    intro l x hx
    have hx' : x ∈ Sabc.assign (l.set e.1 e.2) m := hx
    rcases ih _ x hx' with h | ⟨e', he, h⟩
    · rcases List.mem_or_eq_of_mem_set h with h | h
      · exact .inl h
      · exact .inr ⟨e, List.mem_cons_self .., h⟩
    · exact .inr ⟨e', List.mem_cons_of_mem _ he, h⟩

theorem sabc_new (S : Site α Y K) (consts : Nat → Option α) (t : Nat) (s : Sabc.State (List (Option α))) (hs : ∀ θ ∈ s.params, Fits S consts θ) (out : List (Sabc.Out (List (Option α))))
    (hout : ∀ o ∈ out, Fits S consts o.θ) (p : List (List (Option α)) × List ℝ × List ℝ × List ℝ) (h : (if t = 0 then Sabc.begin_ out else Sabc.replace s out) = some p) : ∀ θ ∈ p.1, Fits S consts θ := by
  split at h
  · unfold Sabc.begin_ at h
    simp only [Option.map_eq_some_iff] at h
    obtain ⟨l, -, rfl⟩ := h
    intro θ hθ
    obtain ⟨o, ho, rfl⟩ := List.mem_map.1 hθ
    exact hout o ho
  · unfold Sabc.replace at h
    simp only [Option.map_eq_some_iff] at h
    obtain ⟨l, -, rfl⟩ := h
    intro θ hθ
    rcases assign_mem _ _ _ hθ with h | ⟨e, he, rfl⟩
    · exact hs θ h
    · obtain ⟨o, ho, rfl⟩ := List.mem_map.1 he
      exact hout o (List.mem_filter.1 ho).1

theorem finish_params {W Θ Z : Type} (P : Θ → Prop) (env : Sabc.Env W Θ Z) (c : Sabc.Config) (t : Nat) (u : ℝ) (s s' : Sabc.State Θ) (hs : ∀ θ ∈ s.params, P θ) (h : Sabc.finish env c t u s = some s') : ∀ θ ∈ s'.params, P θ := by
  unfold Sabc.finish at h
  simp only at h
  split at h
  · split at h
    · split at h
      · rename_i ps sm ds h1 h2 h3
        simp only [Option.some.injEq] at h
        subst h
        intro θ hθ
        obtain ⟨i, -, hi⟩ := List.mem_map.1 (collect_mem _ _ h1 θ hθ)
        exact hs θ (List.mem_of_getElem? hi)
      · cases h
    · cases h
  · simp only [Option.some.injEq] at h
    subst h
    exact hs

theorem sabcStep_same (S : Site α Y K) (R : Rng) (hS : Plain S) (consts : Nat → Option α) (hd : Draws S consts) (hin : Inside S consts) (req : Pmc.Pop (List (Option α)) → Nat → K) (temper : ℝ → ℝ)
    (pick : Nat → List ℝ → List Nat) (c : Sabc.Config) (fuel t : Nat) (seeds : List Nat) (schedule : Option (List (Nat × Nat))) (hc : Scheduled seeds.length schedule) (st : St α) (hst : Good S consts st)
    (s : Sabc.State (List (Option α))) (hs : ∀ θ ∈ s.params, Fits S consts θ) :
    (sabcStep S R consts req temper pick c fuel t seeds schedule st s = none ∧ Sabc.step (sabcEnv S R consts req temper pick) c fuel t (starts seeds) s = none) ∨
    ∃ st' s', sabcStep S R consts req temper pick c fuel t seeds schedule st s = some (st', s') ∧ Sabc.step (sabcEnv S R consts req temper pick) c fuel t (starts seeds) s = some s' ∧
      Good S consts st' ∧ ∀ θ ∈ s'.params, Fits S consts θ := by
  unfold sabcStep Sabc.step
  by_cases hcond : seeds.length ≠ (if t = 0 then c.n else c.nUpdate) ∨ seeds = []
  · rw [if_pos hcond, if_pos (by rw [starts_length, starts_nil]; exact hcond)]
    exact .inl ⟨rfl, rfl⟩
  · have hcond' : ¬ ((starts seeds).length ≠ (if t = 0 then c.n else c.nUpdate) ∨ starts seeds = []) := by rw [starts_length, starts_nil]; exact hcond
    rw [if_neg hcond, if_neg hcond']
    simp only
    have hm : ∃ st1 out1, (if t = 0 then runMap (runTask fun _ w => sabcFirst S R c.eps 0 fuel w [] 0) seeds.zipIdx schedule st else runMap (runTask fun _ => sabcMove S R req fuel c.n s) seeds.zipIdx schedule st) = (st1, out1) ∧
        out1 = ((starts seeds).map fun w => if t = 0 then Sabc.first (sabcEnv S R consts req temper pick) c.eps 0 fuel w [] 0 else Sabc.move (sabcEnv S R consts req temper pick) fuel c.n s w) ∧
        Good S consts st1 ∧ ∀ out, collect out1 = some out → ∀ o ∈ out, Fits S consts o.θ := by
      by_cases h0 : t = 0
      · rw [if_pos h0]
        obtain ⟨m1, m2, m3⟩ := seedMap_spec S consts (fun o => Fits S consts o.θ) (fun _ w => sabcFirst S R c.eps 0 fuel w [] 0) (fun _ p => Sabc.first (sabcEnv S R consts req temper pick) c.eps 0 fuel p [] 0)
          (fun _ w hw => sabcFirst_same S R hS consts hd hin req temper pick c.eps 0 fuel w [] 0 hw) seeds schedule hc st hst
        rw [zipIdx_const (f := fun p => Sabc.first (sabcEnv S R consts req temper pick) c.eps 0 fuel p [] 0)] at m1
        refine ⟨_, _, Prod.mk.eta.symm, ?_, m2, m3⟩
        rw [m1]; simp only [h0, if_true]; rfl
      · rw [if_neg h0]
        obtain ⟨m1, m2, m3⟩ := seedMap_spec S consts (fun o => Fits S consts o.θ) (fun _ => sabcMove S R req fuel c.n s) (fun _ p => Sabc.move (sabcEnv S R consts req temper pick) fuel c.n s p)
          (fun _ w hw => sabcMove_same S R hS consts req temper pick fuel c.n s hs w hw) seeds schedule hc st hst
        rw [zipIdx_const (f := fun p => Sabc.move (sabcEnv S R consts req temper pick) fuel c.n s p)] at m1
        refine ⟨_, _, Prod.mk.eta.symm, ?_, m2, m3⟩
        rw [m1]; simp only [h0, if_false]; rfl
    obtain ⟨st1, out1, hrun, ho, hg, hf⟩ := hm
    rw [hrun]
    simp only
    rw [← ho]
    cases hcol : collect out1 with
    | none => exact .inl ⟨rfl, rfl⟩
    | some out =>
      simp only
      cases hp : (if t = 0 then Sabc.begin_ out else Sabc.replace s out) with
      | none => exact .inl ⟨rfl, rfl⟩
      | some p =>
        have hfit := sabc_new S consts t s hs out (hf _ hcol) p hp
        simp only
        have fin : ∀ u (s' : Sabc.State (List (Option α))), s'.params = p.1 →
            ((Sabc.finish (sabcEnv S R consts req temper pick) c t u s').map (fun s => (st1, s)) = none ∧ Sabc.finish (sabcEnv S R consts req temper pick) c t u s' = none) ∨
            ∃ st' s'', (Sabc.finish (sabcEnv S R consts req temper pick) c t u s').map (fun s => (st1, s)) = some (st', s'') ∧ Sabc.finish (sabcEnv S R consts req temper pick) c t u s' = some s'' ∧
              Good S consts st' ∧ ∀ θ ∈ s''.params, Fits S consts θ := by
          intro u s' hs'
          cases hfin : Sabc.finish (sabcEnv S R consts req temper pick) c t u s' with
          | none => exact .inl ⟨rfl, rfl⟩
          | some s'' => exact .inr ⟨st1, s'', rfl, rfl, hg, finish_params _ _ c t u s' s'' (by rw [hs']; exact hfit) hfin⟩
        by_cases h0 : t = 0
        · rw [if_pos h0, if_pos h0]
          cases collect (p.2.2.2.map (Sabc.smooth p.2.2.2)) with
          | none => exact .inl ⟨rfl, rfl⟩
          | some l => exact fin _ _ rfl
        · rw [if_neg h0, if_neg h0]
          by_cases hcut : ((s.accept + out.countP Sabc.Out.accepted : ℕ) : ℝ) / (s.until_ + c.nUpdate : ℕ) < c.cutoff
          · rw [if_pos hcut, if_pos hcut]
            exact .inr ⟨_, _, rfl, rfl, hg, hfit⟩
          · rw [if_neg hcut, if_neg hcut]
            exact fin _ _ rfl

/-- C146 for `SABC`. -/
theorem C146_sabc (S : Site α Y K) (R : Rng) (hS : Plain S) (consts : Nat → Option α) (hd : Draws S consts) (hin : Inside S consts) (req : Pmc.Pop (List (Option α)) → Nat → K) (temper : ℝ → ℝ)
    (pick : Nat → List ℝ → List Nat) (c : Sabc.Config) (fuel : Nat) (seeds : Nat → List Nat) (schedule : Nat → Option (List (Nat × Nat))) (hc : ∀ t, Scheduled (seeds t).length (schedule t)) (st : St α)
    (hst : Good S consts st) :
    (sabcRun S R consts req temper pick c fuel seeds schedule st).map Prod.snd = Sabc.run (sabcEnv S R consts req temper pick) c fuel fun t => starts (seeds t) := by
  have loop : ∀ (k t : Nat) (st : St α) (s : Sabc.State (List (Option α))), Good S consts st → (∀ θ ∈ s.params, Fits S consts θ) →
      (sabcLoop S R consts req temper pick c fuel seeds schedule k t st s).map Prod.snd = Sabc.loop (sabcEnv S R consts req temper pick) c fuel (fun t => starts (seeds t)) k t s := by
    intro k
    induction k with
    | zero => intro t st s _ _; rfl
    | succ k ih =>
      intro t st s hst hs
      rw [sabcLoop, Sabc.loop]
      split
      · rfl
      · rcases sabcStep_same S R hS consts hd hin req temper pick c fuel t (seeds t) (schedule t) (hc t) st hst s hs with ⟨h1, h2⟩ | ⟨st', s', h1, h2, h3, h4⟩
        · rw [h1, h2]; rfl
        · rw [h1, h2]; exact ih (t + 1) st' s' h3 h4
  exact loop _ _ _ _ hst fun θ hθ => by simp at hθ

/-! ### ABCsubsim -/

theorem subsimFirst_same (S : Site α Y K) (R : Rng) (hS : Plain S) (consts : Nat → Option α) (hd : Draws S consts) (hin : Inside S consts) (req : List M → List (Option α) → K)
    (kern : List M → List (Option α) → List (Option α) → ℝ) (cov : Pmc.Pop (List (Option α)) → List M) (scale : Nat → M → M) (w : Worker α) (hw : Good S consts w.st) :
    Agrees S consts (fun o => ∀ θ ∈ o.1, Fits S consts θ) (subsimFirst S w) (some (Subsim.first (subsimEnv S R consts req kern cov scale) w.pos)) := by
  obtain ⟨v, θ, p1, p2, p3, -, p5⟩ := prior_same S hS consts hd w hw
  have e2 := simulate_same S hS.toSound consts v θ p3 p5
  have e3 := read_same S consts θ (simulate S v).1 p3 p5
  unfold subsimFirst Subsim.first subsimEnv
  rw [p1]
  simp only
  rw [p2]
  simp only
  rw [e2]
  refine .inr ⟨_, _, rfl, by rw [e3.1], e3.2.2, ?_⟩
  rw [e3.1]
  have := hin w.pos
  rw [p2] at this
  intro θ' hθ'
  rw [List.mem_singleton] at hθ'
  rw [hθ']; exact this

theorem sorted_mem {Θ : Type} (P : Θ → Prop) (params : List Θ) (distances : List ℝ) (h : ∀ θ ∈ params, P θ) : ∀ θ ∈ (Subsim.sorted params distances).map Prod.snd, P θ := by
  intro θ hθ
  obtain ⟨e, he, rfl⟩ := List.mem_map.1 hθ
  unfold Subsim.sorted at he
  rw [List.mem_insertionSort] at he
  exact h _ (List.of_mem_zip he).2

theorem subsimStep_same (S : Site α Y K) (R : Rng) (hS : Plain S) (consts : Nat → Option α) (hd : Draws S consts) (hin : Inside S consts) (req : List M → List (Option α) → K)
    (kern : List M → List (Option α) → List (Option α) → ℝ) (cov : Pmc.Pop (List (Option α)) → List M) (scale : Nat → M → M) (c : Subsim.Config) (fuel t : Nat) (seeds seeds' : List Nat)
    (schedule schedule' : Option (List (Nat × Nat))) (hc : Scheduled seeds.length schedule) (hc' : Scheduled seeds'.length schedule') (st : St α) (hst : Good S consts st)
    (s : Subsim.State (List (Option α)) M) (hs : ∀ o, s.hist.getLast? = some o → ∀ θ ∈ o.1.params, Fits S consts θ) :
    (subsimStep S R req kern cov scale c fuel t seeds seeds' schedule schedule' st s = none ∧ Subsim.step (subsimEnv S R consts req kern cov scale) c fuel t (starts seeds) (starts seeds') s = none) ∨
    ∃ st' s', subsimStep S R req kern cov scale c fuel t seeds seeds' schedule schedule' st s = some (st', s') ∧
      Subsim.step (subsimEnv S R consts req kern cov scale) c fuel t (starts seeds) (starts seeds') s = some s' ∧
      Good S consts st' ∧ ∀ o, s'.hist.getLast? = some o → ∀ θ ∈ o.1.params, Fits S consts θ := by
  unfold subsimStep Subsim.step
  by_cases hcond : seeds.length ≠ (if t = 0 then c.n else c.n / c.length) ∨ seeds = [] ∨ c.length = 0 ∨ seeds'.length ≠ 10
  · rw [if_pos hcond, if_pos (by rw [starts_length, starts_length, starts_nil]; exact hcond)]
    exact .inl ⟨rfl, rfl⟩
  · have hcond' : ¬ ((starts seeds).length ≠ (if t = 0 then c.n else c.n / c.length) ∨ starts seeds = [] ∨ c.length = 0 ∨ (starts seeds').length ≠ 10) := by
      rw [starts_length, starts_length, starts_nil]; exact hcond
    rw [if_neg hcond, if_neg hcond']
    simp only
    cases hl : s.hist.getLast? with
    | none =>
      simp only
      obtain ⟨m1, hg, hf⟩ := seedMap_spec S consts (fun o => ∀ θ ∈ o.1, Fits S consts θ) (fun _ => subsimFirst S) (fun _ p => some (Subsim.first (subsimEnv S R consts req kern cov scale) p))
        (fun _ w hw => subsimFirst_same S R hS consts hd hin req kern cov scale w hw) seeds schedule hc st hst
      rw [zipIdx_const (f := fun p => some (Subsim.first (subsimEnv S R consts req kern cov scale) p))] at m1
      generalize runMap (runTask fun _ => subsimFirst S) seeds.zipIdx schedule st = m at m1 hg hf
      obtain ⟨st1, out1⟩ := m
      simp only at m1 hg hf ⊢
      have ho : collect out1 = some ((starts seeds).map (Subsim.first (subsimEnv S R consts req kern cov scale))) := by
        rw [m1, collect_eq_some, starts, List.map_map, List.map_map, List.map_map]; rfl
      rw [ho]
      simp only
      have hf := hf _ ho
      generalize (starts seeds).map (Subsim.first (subsimEnv S R consts req kern cov scale)) = out at hf
      have hnew : ∀ θ ∈ (Subsim.sorted (out.map Prod.fst).flatten (out.map Prod.snd).flatten).map Prod.snd, Fits S consts θ :=
        sorted_mem _ _ _ fun θ hθ => by
          obtain ⟨l, hl, hθ⟩ := List.mem_flatten.1 hθ
          obtain ⟨o, ho, rfl⟩ := List.mem_map.1 hl
          exact hf o ho θ hθ
      generalize Subsim.sorted (out.map Prod.fst).flatten (out.map Prod.snd).flatten = l at hnew ⊢
      rcases ha : (l.map Prod.fst)[c.n / c.length]? with _ | a
      · exact .inl ⟨rfl, rfl⟩
      · rcases hb : (l.map Prod.fst)[c.n / c.length + 1]? with _ | b
        · exact .inl ⟨rfl, rfl⟩
        · simp only
          obtain ⟨m1, m2, -⟩ := seedMap_spec S consts (fun _ => True) (subsimTune S R req kern scale fuel c.length (cov ⟨l.map Prod.snd, List.replicate c.n 1⟩) (1 / 2 * (a + b)) (l.map Prod.snd) (l.map Prod.snd))
            (fun i p => Subsim.tune (subsimEnv S R consts req kern cov scale) fuel c.length (cov ⟨l.map Prod.snd, List.replicate c.n 1⟩) (1 / 2 * (a + b)) (l.map Prod.snd) (l.map Prod.snd) i p)
            (fun i w hw => subsimTune_same S R hS consts req kern cov scale fuel c.length _ (1 / 2 * (a + b)) _ _ (hnew) i w hw) seeds' schedule' hc' st1 hg
          have m1' : (runMap (runTask (subsimTune S R req kern scale fuel c.length (cov ⟨l.map Prod.snd, List.replicate c.n 1⟩) (1 / 2 * (a + b)) (l.map Prod.snd) (l.map Prod.snd))) seeds'.zipIdx schedule' st1).2 =
            (starts seeds').zipIdx.map fun e => Subsim.tune (subsimEnv S R consts req kern cov scale) fuel c.length ((subsimEnv S R consts req kern cov scale).cov ⟨l.map Prod.snd, List.replicate c.n 1⟩) (1 / 2 * (a + b)) (l.map Prod.snd) (l.map Prod.snd) e.2 e.1 := m1
          rw [← m1']
          cases collect (runMap (runTask (subsimTune S R req kern scale fuel c.length (cov ⟨l.map Prod.snd, List.replicate c.n 1⟩) (1 / 2 * (a + b)) (l.map Prod.snd) (l.map Prod.snd))) seeds'.zipIdx schedule' st1).2 with
          | none => exact .inl ⟨rfl, rfl⟩
          | some tuned =>
            simp only
            by_cases hz : 1 / 2 * (a + b) = 0
            · rw [if_pos hz, if_pos hz]; exact .inl ⟨rfl, rfl⟩
            · rw [if_neg hz, if_neg hz]
              refine .inr ⟨_, _, rfl, rfl, m2, ?_⟩
              intro o ho θ hθ
              simp only [List.getLast?_append, List.getLast?_singleton, Option.some_or, Option.some.injEq] at ho
              subst ho
              exact hnew θ hθ
    | some o =>
      simp only
      obtain ⟨m1, hg, hf⟩ := seedMap_spec S consts (fun o => ∀ θ ∈ o.1, Fits S consts θ) (subsimTask S R req kern fuel c.length o.1.covs o.2 s.base o.1.params)
        (fun i p => Subsim.accept (subsimEnv S R consts req kern cov scale) fuel c.length o.1.covs o.2 s.base o.1.params i p)
        (fun i w hw => subsim_same S R hS consts req kern cov scale fuel c.length o.1.covs o.2 s.base o.1.params (hs o hl) i w hw) seeds schedule hc st hst
      generalize runMap (runTask (subsimTask S R req kern fuel c.length o.1.covs o.2 s.base o.1.params)) seeds.zipIdx schedule st = m at m1 hg hf
      obtain ⟨st1, out1⟩ := m
      simp only at m1 hg hf ⊢
      have ho : collect ((starts seeds).zipIdx.map fun e => Subsim.accept (subsimEnv S R consts req kern cov scale) fuel c.length o.1.covs o.2 s.base o.1.params e.2 e.1) = collect out1 := by rw [m1]; rfl
      rw [ho]
      cases hcol : collect out1 with
      | none => exact .inl ⟨rfl, rfl⟩
      | some out =>
        simp only
        have hnew : ∀ θ ∈ (Subsim.sorted (out.map Prod.fst).flatten (out.map Prod.snd).flatten).map Prod.snd, Fits S consts θ :=
          sorted_mem _ _ _ fun θ hθ => by
            obtain ⟨l, hl, hθ⟩ := List.mem_flatten.1 hθ
            obtain ⟨o', ho, rfl⟩ := List.mem_map.1 hl
            exact hf _ hcol o' ho θ hθ
        generalize Subsim.sorted (out.map Prod.fst).flatten (out.map Prod.snd).flatten = l at hnew ⊢
        rcases ha : (l.map Prod.fst)[c.n / c.length]? with _ | a
        · exact .inl ⟨rfl, rfl⟩
        · rcases hb : (l.map Prod.fst)[c.n / c.length + 1]? with _ | b
          · exact .inl ⟨rfl, rfl⟩
          · simp only
            obtain ⟨m1, m2, -⟩ := seedMap_spec S consts (fun _ => True) (subsimTune S R req kern scale fuel c.length (o.1.covs ++ o.1.covs) (1 / 2 * (a + b)) (s.base) (o.1.params))
              (fun i p => Subsim.tune (subsimEnv S R consts req kern cov scale) fuel c.length (o.1.covs ++ o.1.covs) (1 / 2 * (a + b)) (s.base) (o.1.params) i p)
              (fun i w hw => subsimTune_same S R hS consts req kern cov scale fuel c.length _ (1 / 2 * (a + b)) _ _ (hs o hl) i w hw) seeds' schedule' hc' st1 hg
            have m1' : (runMap (runTask (subsimTune S R req kern scale fuel c.length (o.1.covs ++ o.1.covs) (1 / 2 * (a + b)) (s.base) (o.1.params))) seeds'.zipIdx schedule' st1).2 =
              (starts seeds').zipIdx.map fun e => Subsim.tune (subsimEnv S R consts req kern cov scale) fuel c.length (o.1.covs ++ o.1.covs) (1 / 2 * (a + b)) (s.base) (o.1.params) e.2 e.1 := m1
            rw [← m1']
            cases collect (runMap (runTask (subsimTune S R req kern scale fuel c.length (o.1.covs ++ o.1.covs) (1 / 2 * (a + b)) (s.base) (o.1.params))) seeds'.zipIdx schedule' st1).2 with
            | none => exact .inl ⟨rfl, rfl⟩
            | some tuned =>
              simp only
              by_cases hz : 1 / 2 * (a + b) = 0
              · rw [if_pos hz, if_pos hz]; exact .inl ⟨rfl, rfl⟩
              · rw [if_neg hz, if_neg hz]
                refine .inr ⟨_, _, rfl, rfl, m2, ?_⟩
                intro o' ho θ hθ
                simp only [List.getLast?_append, List.getLast?_singleton, Option.some_or, Option.some.injEq] at ho
                subst ho
                exact hnew θ hθ

/-- C146 for `ABCsubsim`. -/
theorem C146_subsim (S : Site α Y K) (R : Rng) (hS : Plain S) (consts : Nat → Option α) (hd : Draws S consts) (hin : Inside S consts) (req : List M → List (Option α) → K)
    (kern : List M → List (Option α) → List (Option α) → ℝ) (cov : Pmc.Pop (List (Option α)) → List M) (scale : Nat → M → M) (c : Subsim.Config) (fuel : Nat) (seeds seeds' : Nat → List Nat)
    (schedule schedule' : Nat → Option (List (Nat × Nat))) (hc : ∀ t, Scheduled (seeds t).length (schedule t)) (hc' : ∀ t, Scheduled (seeds' t).length (schedule' t)) (st : St α) (hst : Good S consts st) :
    (subsimRun S R req kern cov scale c fuel seeds seeds' schedule schedule' st).map Prod.snd =
      Subsim.run (subsimEnv S R consts req kern cov scale) c fuel (fun t => starts (seeds t)) fun t => starts (seeds' t) := by
  have loop : ∀ (k t : Nat) (st : St α) (s : Subsim.State (List (Option α)) M), Good S consts st → (∀ o, s.hist.getLast? = some o → ∀ θ ∈ o.1.params, Fits S consts θ) →
      (subsimLoop S R req kern cov scale c fuel seeds seeds' schedule schedule' k t st s).map Prod.snd =
        Subsim.loop (subsimEnv S R consts req kern cov scale) c fuel (fun t => starts (seeds t)) (fun t => starts (seeds' t)) k t s := by
    intro k
    induction k with
    | zero => intro t st s _ _; rfl
    | succ k ih =>
      intro t st s hst hs
      rw [subsimLoop, Subsim.loop]
      split
      · rfl
      · rcases subsimStep_same S R hS consts hd hin req kern cov scale c fuel t (seeds t) (seeds' t) (schedule t) (schedule' t) (hc t) (hc' t) st hst s hs with ⟨h1, h2⟩ | ⟨st', s', h1, h2, h3, h4⟩
        · rw [h1, h2]; rfl
        · rw [h1, h2]; exact ih (t + 1) st' s' h3 h4
  unfold subsimRun Subsim.run
  rw [← loop c.steps 0 st _ hst (by simp), Option.map_map, Option.map_map]
  rfl

end Verif.Site
