import Verif.Site.RunModel
import Verif.Pmc.Props
/-
C146: whole runs on the graph of models are runs of the samplers over parameter vectors.
-/
namespace Verif.Site

open Graph

variable {T A α Y K M : Type}

/-- Specification: the sequential backend, or the MPI backend with a schedule in which each of `n` tasks is run once. -/
def Scheduled (n : Nat) (schedule : Option (List (Nat × Nat))) : Prop := ∀ l, schedule = some l → Schedule.Complete n l

/-! ### Maps -/

theorem execute_spec {S O : Type} (run : T → S → S × O) (tasks : Nat → T) (P : S → Prop) (f : Nat → O) (l : List (Nat × Nat)) (h : ∀ e ∈ l, ∀ s, P s → (run (tasks e.2) s).2 = f e.2 ∧ P (run (tasks e.2) s).1) :
    ∀ objects : Nat → S, (∀ p, P (objects p)) → Schedule.execute run tasks l objects = l.map fun e => (e.2, f e.2) := by
  induction l with
  | nil => intro _ _; rfl
  | cons e l ih =>
    intro objects ho
    obtain ⟨p, i⟩ := e
    have hi := h (p, i) (List.mem_cons_self ..) (objects p) (ho p)
    rw [Schedule.execute, List.map_cons, ih (fun e he => h e (List.mem_cons_of_mem _ he))]
    · simp only [hi.1]
    · intro q
      by_cases hq : q = p
      · subst hq; simp only [Function.update_self]; exact hi.2
      · rw [Function.update_of_ne hq]; exact ho q

/-- A map of tasks that leave the objects in order gives what the tasks give, with every backend and schedule. -/
theorem runMap_spec {S : Type} (run : T → S → S × Option A) (tasks : List T) (P : S → Prop) (f : T → Option A) (h : ∀ t ∈ tasks, ∀ s, P s → (run t s).2 = f t ∧ P (run t s).1)
    (schedule : Option (List (Nat × Nat))) (hc : Scheduled tasks.length schedule) (s : S) (hs : P s) : (runMap run tasks schedule s).2 = tasks.map f ∧ P (runMap run tasks schedule s).1 := by
  have key : ∀ i < tasks.length, ∀ s, P s → (onTask run tasks[i]? s).2 = (tasks[i]?).bind f ∧ P (onTask run tasks[i]? s).1 := by
    intro i hi s hs
    rw [List.getElem?_eq_getElem hi]
    exact h _ (List.getElem_mem hi) s hs
  have hmap : (List.range tasks.length).map (fun i => (tasks[i]?).bind f) = tasks.map f := by
    apply List.ext_getElem
    · simp
    · intro i h1 h2
      simp only [List.length_map, List.length_range] at h1
      simp [h1]
  cases schedule with
  | none =>
    have fold : ∀ (l : List Nat) (s : S) (acc : List (Option A)), (∀ i ∈ l, i < tasks.length) → P s →
        (l.foldl (fun r i => let q := onTask run tasks[i]? r.1; (q.1, r.2 ++ [q.2])) (s, acc)).2 = acc ++ l.map (fun i => (tasks[i]?).bind f) ∧
        P (l.foldl (fun r i => let q := onTask run tasks[i]? r.1; (q.1, r.2 ++ [q.2])) (s, acc)).1 := by
      intro l
      induction l with
      | nil => intro s acc _ h; simp [h]
      | cons i l ih =>
        intro s acc hl h
        obtain ⟨k1, k2⟩ := key i (hl i (List.mem_cons_self ..)) s h
        simp only [List.foldl_cons, List.map_cons]
        obtain ⟨i1, i2⟩ := ih (onTask run tasks[i]? s).1 (acc ++ [(onTask run tasks[i]? s).2]) (fun j hj => hl j (List.mem_cons_of_mem _ hj)) k2
        refine ⟨?_, i2⟩
        rw [i1, k1]
        simp
    have := fold (List.range tasks.length) s [] (by simp) hs
    rw [List.nil_append, hmap] at this
    exact this
  | some l =>
    have hl := hc l rfl
    refine ⟨?_, hs⟩
    unfold runMap Schedule.mapMpi
    simp only
    rw [execute_spec (onTask run) (fun i => tasks[i]?) P (fun i => (tasks[i]?).bind f) l
      (fun e he => key e.2 (List.mem_range.1 (hl.mem_iff.1 (List.mem_map_of_mem (f := (·.2)) he)))) _ fun _ => hs]
    rw [← hmap, List.map_map]
    apply List.map_congr_left
    intro i hi
    have := Schedule.find_first tasks.length (fun i => (tasks[i]?).bind f) l i (hl.mem_iff.2 hi)
    simp only [Function.comp_apply]
    rw [this]
    rfl

theorem runTask_spec (S : Site α Y K) (consts : Nat → Option α) (P : A → Prop) (t : Nat → Worker α → Option (Worker α × A)) (spec : Nat → Nat × Nat → Option A)
    (h : ∀ i w, Good S consts w.st → Agrees S consts P (t i w) (spec i w.pos)) (task : Nat × Nat) (s : St α) (hs : Good S consts s) :
    (runTask t task s).2 = spec task.2 (task.1, 0) ∧ Good S consts (runTask t task s).1 := by
  have := h task.2 ⟨task.1, s, 0⟩ hs
  have e : Worker.pos (⟨task.1, s, 0⟩ : Worker α) = (task.1, 0) := rfl
  rw [e] at this
  unfold runTask
  rcases this with ⟨a1, a2⟩ | ⟨w, a, a1, a2, a3, -⟩
  · rw [a1, a2]; exact ⟨rfl, hs⟩
  · rw [a1, a2]; exact ⟨rfl, a3⟩

/-- Maps of the tasks of a sampler. -/
theorem seedMap_spec (S : Site α Y K) (consts : Nat → Option α) (P : A → Prop) (t : Nat → Worker α → Option (Worker α × A)) (spec : Nat → Nat × Nat → Option A)
    (h : ∀ i w, Good S consts w.st → Agrees S consts P (t i w) (spec i w.pos)) (seeds : List Nat) (schedule : Option (List (Nat × Nat))) (hc : Scheduled seeds.length schedule) (st : St α) (hst : Good S consts st) :
    (runMap (runTask t) seeds.zipIdx schedule st).2 = (seeds.map fun k => (k, 0)).zipIdx.map (fun e => spec e.2 e.1) ∧ Good S consts (runMap (runTask t) seeds.zipIdx schedule st).1 ∧
    ∀ out, collect (runMap (runTask t) seeds.zipIdx schedule st).2 = some out → ∀ a ∈ out, P a := by
  obtain ⟨h1, h2⟩ := runMap_spec (runTask t) seeds.zipIdx (Good S consts) (fun e => spec e.2 (e.1, 0)) (fun e _ s hs => runTask_spec S consts P t spec h e s hs) schedule
    (by rw [List.length_zipIdx]; exact hc) st hst
  refine ⟨?_, h2, fun out ho a ha => ?_⟩
  · rw [h1, List.zipIdx_map, List.map_map]; rfl
  · rw [h1, collect_eq_some] at ho
    have : some a ∈ out.map some := List.mem_map_of_mem ha
    rw [← ho] at this
    obtain ⟨e, -, he⟩ := List.mem_map.1 this
    rcases h e.2 ⟨e.1, st, 0⟩ hst with ⟨-, b2⟩ | ⟨w, b, -, b2, -, b4⟩
    · have b2' : spec e.2 (e.1, 0) = none := b2
      rw [b2'] at he; cases he
    · have b2' : spec e.2 (e.1, 0) = some b := b2
      rw [b2', Option.some.injEq] at he
      rw [← he]; exact b4

/-- If the number of the task is not used. -/
theorem zipIdx_const {B C : Type} (l : List B) (f : B → C) : l.zipIdx.map (fun e => f e.1) = l.map f := by
  have : (l.zipIdx.map Prod.fst).map f = l.map f := by rw [List.zipIdx_map_fst]
  rw [← this, List.map_map]; rfl

/-! ### PMCABC -/

theorem propose_is_fit (S : Site α Y K) (hS : Plain S) (consts : Nat → Option α) (k : K) (fuel : Nat) (p p' : Nat × Nat) (θ : List (Option α))
    (h : Smc.propose (aPdf S consts) (aPerturb S consts k) fuel p = some (p', θ)) : Fits S consts θ := by
  have e : Worker.pos (⟨p.1, fresh consts, p.2⟩ : Worker α) = p := rfl
  rcases propose_fits S hS consts k fuel ⟨p.1, fresh consts, p.2⟩ (fresh_good S consts) with ⟨-, h2⟩ | ⟨w, ps, -, h2, -, -, h5⟩
  · rw [e, h] at h2; cases h2
  · rw [e, h] at h2
    simp only [Option.some.injEq, Prod.mk.injEq] at h2
    rw [h2.2]; exact h5

theorem resample_fits (S : Site α Y (Pmc.Pop (List (Option α)) × Nat)) (hS : Plain S) (consts : Nat → Option α) (hin : Inside S consts) (kern : Pmc.Pop (List (Option α)) → List (Option α) → List (Option α) → ℝ)
    (eps : ℝ) (pop : Option (Pmc.Pop (List (Option α)))) (hmax : Pmc.above S.distMax eps = true) (fuel : Nat) (p : Nat × Nat) (θ : List (Option α)) (d : ℝ) (c : Nat)
    (h : Pmc.resampleTask (pmcEnv S consts kern) eps pop fuel p = some (θ, d, c)) : Fits S consts θ := by
  have loop : ∀ (n : Nat) (p : Nat × Nat) (θ : List (Option α)) (d : Option ℝ) (c : Nat) r, (Pmc.above d eps = false → Fits S consts θ) →
      Pmc.resampleLoop (pmcEnv S consts kern) eps pop n p θ d c = some r → Fits S consts r.1 := by
    intro n
    induction n with
    | zero => intro p θ d c r _ h; simp [Pmc.resampleLoop] at h
    | succ n ih =>
      intro p θ d c r hθ h
      rw [Pmc.resampleLoop.eq_def] at h
      simp only at h
      split at h
      · cases pop with
        | none => exact ih _ _ _ _ r (fun _ => hin p) h
        | some q =>
          simp only at h
          rw [Schedule.pmc_propose_eq] at h
          split at h
          · cases h
          · rename_i w1 θ1 hp
            exact ih _ _ _ _ r (fun _ => propose_is_fit S hS consts _ _ _ _ _ hp) h
      · rename_i hd
        simp only [Option.some.injEq] at h
        rw [← h]; exact hθ (by simpa using hd)
  unfold Pmc.resampleTask at h
  split at h
  · rename_i θ1 d1 c1 hr
    simp only [Option.some.injEq, Prod.mk.injEq] at h
    have e : (pmcEnv S consts kern).distMax = S.distMax := rfl
    rw [e] at hr
    have := loop fuel p _ S.distMax 0 _ (by rw [hmax]; simp) hr
    rw [← h.1]; exact this
  · cases h

theorem weight_same (S : Site α Y (Pmc.Pop (List (Option α)) × Nat)) (hS : Plain S) (consts : Nat → Option α) (kern : Pmc.Pop (List (Option α)) → List (Option α) → List (Option α) → ℝ) (n : Nat)
    (pop : Option (Pmc.Pop (List (Option α)))) (θ : List (Option α)) (hθ : Fits S consts θ) (st : St α) (hst : Good S consts st) :
    (weightTask S kern n pop θ st).2 = some (Pmc.rawWeight (pmcEnv S consts kern) n pop θ) ∧ Good S consts (weightTask S kern n pop θ st).1 := by
  cases pop with
  | none => exact ⟨rfl, hst⟩
  | some p =>
    obtain ⟨s, h1, h2, -⟩ := density_same S hS consts θ hθ ⟨0, st, 0⟩ hst
    unfold weightTask
    simp only
    rw [h1]
    exact ⟨rfl, h2⟩

theorem above_mono (m : Option ℝ) (a b : ℝ) (h : a ≤ b) (hb : Pmc.above m b = true) : Pmc.above m a = true := by
  cases m with
  | none => rfl
  | some m =>
    simp only [Pmc.above, Option.elim_some, decide_eq_true_eq] at hb ⊢
    linarith

/-- Thresholds below the maximum of the distance. -/
def Low (m : Option ℝ) (arr : List (Option ℝ)) : Prop := ∀ e, some e ∈ arr → Pmc.above m e = true

theorem low_next (m : Option ℝ) (steps t : Nat) (pct : ℝ) (ds : List ℝ) (arr arr' : List (Option ℝ)) (h : Pmc.nextEps steps t pct ds arr = some arr') (hl : Low m arr) (eps : ℝ) (he : Pmc.above m eps = true)
    (hd : ∀ d ∈ ds, d ≤ eps) : Low m arr' := by
  unfold Pmc.nextEps at h
  split at h
  · split at h
    · rename_i q hq _
      simp only [Option.some.injEq] at h
      subst h
      intro e hm
      rcases List.mem_or_eq_of_mem_set hm with hm | hm
      · exact hl e hm
      · cases hm
        exact above_mono m _ _ (Pmc.percentile_le ds pct _ eps hq hd) he
    · rename_i q e' hq he'
      simp only [Option.some.injEq] at h
      subst h
      intro e hm
      rcases List.mem_or_eq_of_mem_set hm with hm | hm
      · exact hl e hm
      · cases hm
        rcases max_choice q e' with hx | hx
        · rw [hx]; exact above_mono m _ _ (Pmc.percentile_le ds pct _ eps hq hd) he
        · rw [hx]; exact hl e' (List.mem_of_getElem? he')
    · cases h
  · simp only [Option.some.injEq] at h
    subst h; exact hl

theorem pmcStep_same (S : Site α Y (Pmc.Pop (List (Option α)) × Nat)) (hS : Plain S) (consts : Nat → Option α) (hd : Draws S consts) (hin : Inside S consts)
    (kern : Pmc.Pop (List (Option α)) → List (Option α) → List (Option α) → ℝ) (steps : Nat) (pct : ℝ) (fuel t : Nat) (seeds : List Nat) (schedule schedule' : Option (List (Nat × Nat)))
    (hc : Scheduled seeds.length schedule) (hc' : Scheduled seeds.length schedule') (st : St α) (hst : Good S consts st) (s : Pmc.State (List (Option α))) (hl : Low S.distMax s.epsArr) :
    (pmcStep S kern steps pct fuel t seeds schedule schedule' st s = none ∧ Pmc.pmcStep (pmcEnv S consts kern) steps pct fuel t (seeds.map fun k => (k, 0)) s = none) ∨
    ∃ st' s', pmcStep S kern steps pct fuel t seeds schedule schedule' st s = some (st', s') ∧ Pmc.pmcStep (pmcEnv S consts kern) steps pct fuel t (seeds.map fun k => (k, 0)) s = some s' ∧
      Good S consts st' ∧ Low S.distMax s'.epsArr := by
  unfold pmcStep Pmc.pmcStep
  rcases heps : s.epsArr[t]? with _ | _ | eps
  · exact .inl ⟨rfl, rfl⟩
  · exact .inl ⟨rfl, rfl⟩
  · simp only
    have hmax : Pmc.above S.distMax eps = true := hl eps (List.mem_of_getElem? heps)
    rw [List.length_map]
    split
    · obtain ⟨m1, m2⟩ := runMap_spec (resampleTask S eps s.pop fuel) seeds (Good S consts) (fun k => Pmc.resampleTask (pmcEnv S consts kern) eps s.pop fuel (k, 0))
        (fun k _ s' hs' => resample_same S hS consts hd kern eps s.pop fuel k s' hs' hmax) schedule hc st hst
      generalize runMap (resampleTask S eps s.pop fuel) seeds schedule st = m at m1 m2
      obtain ⟨st1, res1⟩ := m
      simp only at m1 m2 ⊢
      have hm : (seeds.map fun k => (k, 0)).map (Pmc.resampleTask (pmcEnv S consts kern) eps s.pop fuel) = res1 := by rw [m1, List.map_map]; rfl
      rw [hm]
      cases hres : collect res1 with
      | none => exact .inl ⟨rfl, rfl⟩
      | some res =>
        simp only
        rw [collect_eq_some, m1] at hres
        have hlen : (res.map (·.1)).length = seeds.length := by
          have := congrArg List.length hres
          simpa using this.symm
        have hfit : ∀ e ∈ res, Fits S consts e.1 ∧ e.2.1 ≤ eps := by
          intro e he
          have : some e ∈ res.map some := List.mem_map_of_mem he
          rw [← hres] at this
          obtain ⟨k, -, hk⟩ := List.mem_map.1 this
          obtain ⟨θ, d, c⟩ := e
          exact ⟨resample_fits S hS consts hin kern eps s.pop hmax fuel _ θ d c hk, (Pmc.resampleTask_spec _ _ _ _ _ _ _ _ hk).1⟩
        cases hn : Pmc.nextEps steps t pct (res.map (·.2.1)) s.epsArr with
        | none => exact .inl ⟨rfl, rfl⟩
        | some arr =>
          simp only
          obtain ⟨w1, w2⟩ := runMap_spec (weightTask S kern seeds.length s.pop) (res.map (·.1)) (Good S consts) (fun θ => some (Pmc.rawWeight (pmcEnv S consts kern) seeds.length s.pop θ))
            (fun θ hθ s' hs' => by
              obtain ⟨e, he, rfl⟩ := List.mem_map.1 hθ
              exact weight_same S hS consts kern seeds.length s.pop e.1 (hfit e he).1 s' hs') schedule' (by rw [hlen]; exact hc') st1 m2
          generalize runMap (weightTask S kern seeds.length s.pop) (res.map (·.1)) schedule' st1 = m' at w1 w2
          obtain ⟨st2, raw⟩ := m'
          simp only at w1 w2 ⊢
          have hw : collect raw = some ((res.map (·.1)).map (Pmc.rawWeight (pmcEnv S consts kern) seeds.length s.pop)) := by
            rw [collect_eq_some, w1, List.map_map, List.map_map, List.map_map]; rfl
          rw [hw]
          refine .inr ⟨st2, _, rfl, rfl, w2, ?_⟩
          exact low_next S.distMax steps t pct _ _ _ hn hl eps hmax fun d hd => by
            obtain ⟨e, he, rfl⟩ := List.mem_map.1 hd
            exact (hfit e he).2
    · exact .inl ⟨rfl, rfl⟩

theorem pmcLoop_same (S : Site α Y (Pmc.Pop (List (Option α)) × Nat)) (hS : Plain S) (consts : Nat → Option α) (hd : Draws S consts) (hin : Inside S consts)
    (kern : Pmc.Pop (List (Option α)) → List (Option α) → List (Option α) → ℝ) (steps : Nat) (pct : ℝ) (fuel : Nat) (seeds : Nat → List Nat) (schedule schedule' : Nat → Option (List (Nat × Nat)))
    (hc : ∀ t, Scheduled (seeds t).length (schedule t)) (hc' : ∀ t, Scheduled (seeds t).length (schedule' t)) (k : Nat) : ∀ (t : Nat) (st : St α) (s : Pmc.State (List (Option α))), Good S consts st →
    Low S.distMax s.epsArr →
    (pmcLoop S kern steps pct fuel seeds schedule schedule' k t st s).map Prod.snd = Pmc.pmcLoop (pmcEnv S consts kern) steps pct fuel (fun t => (seeds t).map fun k => (k, 0)) k t s ∧
    ∀ st' s', pmcLoop S kern steps pct fuel seeds schedule schedule' k t st s = some (st', s') → Good S consts st' := by
  induction k with
  | zero => intro t st s hst _; exact ⟨rfl, fun st' s' h => by simp only [pmcLoop, Option.some.injEq, Prod.mk.injEq] at h; rw [← h.1]; exact hst⟩
  | succ k ih =>
    intro t st s hst hl
    rw [pmcLoop, Pmc.pmcLoop]
    rcases pmcStep_same S hS consts hd hin kern steps pct fuel t (seeds t) (schedule t) (schedule' t) (hc t) (hc' t) st hst s hl with ⟨h1, h2⟩ | ⟨st', s', h1, h2, h3, h4⟩
    · rw [h1, h2]; exact ⟨rfl, fun _ _ h => by cases h⟩
    · rw [h1, h2]; exact ih (t + 1) st' s' h3 h4

/-- C146 for `PMCABC`: thresholds, populations, distances, weights and number of simulations of a run on the graph, with any backend and any schedule of each map, are those of the sampler over parameter vectors with the
same seeds. -/
theorem C146_pmcabc (S : Site α Y (Pmc.Pop (List (Option α)) × Nat)) (hS : Plain S) (consts : Nat → Option α) (hd : Draws S consts) (hin : Inside S consts)
    (kern : Pmc.Pop (List (Option α)) → List (Option α) → List (Option α) → ℝ) (steps : Nat) (epsInit : List ℝ) (hmax : ∀ e ∈ epsInit, Pmc.above S.distMax e = true) (pct : ℝ) (fuel : Nat) (seeds : Nat → List Nat)
    (schedule schedule' : Nat → Option (List (Nat × Nat))) (hc : ∀ t, Scheduled (seeds t).length (schedule t)) (hc' : ∀ t, Scheduled (seeds t).length (schedule' t))
    (before : Option (Pmc.Pop (List (Option α)))) (counter : Nat) (st : St α) (hst : Good S consts st) :
    (pmcRun S kern steps epsInit pct fuel seeds schedule schedule' before counter st).map Prod.snd =
      Pmc.pmcRun (pmcEnv S consts kern) steps epsInit pct fuel (fun t => (seeds t).map fun k => (k, 0)) before counter := by
  unfold pmcRun Pmc.pmcRun
  cases hi : Pmc.initEps epsInit steps with
  | none => rfl
  | some arr =>
    refine (pmcLoop_same S hS consts hd hin kern steps pct fuel seeds schedule schedule' hc hc' steps 0 st _ hst ?_).1
    intro e he
    apply hmax e
    unfold Pmc.initEps at hi
    simp only at he
    split at hi
    · simp only [Option.some.injEq] at hi
      subst hi
      simpa using he
    · split at hi
      · simp only [Option.some.injEq] at hi
        subst hi
        simpa using he
      · cases hi

end Verif.Site
