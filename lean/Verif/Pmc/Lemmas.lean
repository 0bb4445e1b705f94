import Verif.Pmc.Model
/-
Lemmas about runs of `PMCABC`.
-/
namespace Verif.Pmc

theorem percentile_some (l : List ℝ) (q x : ℝ) (h : percentile l q = some x) :
    ∀ lo hi : ℝ, (∀ y ∈ l, lo ≤ y ∧ y ≤ hi) → lo ≤ x ∧ x ≤ hi := by
  by_cases hl : l = []
  · subst hl
    unfold percentile at h
    split at h
    · simp at h
    · simp at h
  · have hq : 0 ≤ q ∧ q ≤ 100 := by
      unfold percentile at h
      split at h
      · simp at h
      · rename_i hh
        rw [not_or] at hh
        exact ⟨not_lt.1 hh.1, not_lt.1 hh.2⟩
    obtain ⟨y, hy1, hy2⟩ := percentile_between l q hl hq.1 hq.2
    rw [hy1] at h
    simp only [Option.some.injEq] at h
    subst h
    exact hy2

theorem proposeLoop_pdf {W Θ Y : Type} (env : Env W Θ Y) (p : Pop Θ) (i fuel : Nat) (w w' : W) (θ : Θ)
    (h : proposeLoop env p i fuel w = some (w', θ)) : env.pdf θ ≠ 0 := by
  induction fuel generalizing w with
  | zero => simp [proposeLoop] at h
  | succ fuel ih =>
    unfold proposeLoop at h
    split at h
    · exact ih _ h
    · split at h
      · simp only [Option.some.injEq, Prod.mk.injEq] at h
        obtain ⟨-, rfl⟩ := h
        assumption
      · exact ih _ h

theorem resampleLoop_spec {W Θ Y : Type} (env : Env W Θ Y) (eps : ℝ) (pop : Option (Pop Θ)) (fuel : Nat) (w : W) (θ : Θ) (d : Option ℝ)
    (c : Nat) (θ' : Θ) (d' : Option ℝ) (c' : Nat) (h : resampleLoop env eps pop fuel w θ d c = some (θ', d', c')) :
    above d' eps = false ∧ ((c' = c ∧ θ' = θ ∧ d' = d) ∨ (c < c' ∧ (∃ y, d' = some (env.dist y)) ∧ (pop.isSome → env.pdf θ' ≠ 0))) := by
  induction fuel generalizing w θ d c with
  | zero => simp [resampleLoop] at h
  | succ fuel ih =>
    unfold resampleLoop at h
    split at h
    · cases pop with
      | none =>
        simp only at h
        obtain ⟨h1, h2⟩ := ih _ _ _ _ h
        refine ⟨h1, Or.inr ?_⟩
        rcases h2 with ⟨rfl, -, rfl⟩ | ⟨h2, h3, -⟩
        · exact ⟨by omega, ⟨_, rfl⟩, by simp⟩
        · exact ⟨by omega, h3, by simp⟩
      | some p =>
        simp only at h
        split at h
        · simp at h
        · rename_i w1 θ1 hp
          obtain ⟨h1, h2⟩ := ih _ _ _ _ h
          refine ⟨h1, Or.inr ?_⟩
          rcases h2 with ⟨rfl, rfl, rfl⟩ | ⟨h2, h3, h4⟩
          · exact ⟨by omega, ⟨_, rfl⟩, fun _ => proposeLoop_pdf env p _ _ _ _ _ hp⟩
          · exact ⟨by omega, h3, h4⟩
    · rename_i hd
      simp only [Option.some.injEq, Prod.mk.injEq] at h
      obtain ⟨rfl, rfl, rfl⟩ := h
      exact ⟨by simpa using hd, Or.inl ⟨rfl, rfl, rfl⟩⟩

theorem resampleTask_spec {W Θ Y : Type} (env : Env W Θ Y) (eps : ℝ) (pop : Option (Pop Θ)) (fuel : Nat) (w : W) (θ : Θ) (d : ℝ) (c : Nat)
    (h : resampleTask env eps pop fuel w = some (θ, d, c)) :
    d ≤ eps ∧ (above env.distMax eps = true → 1 ≤ c ∧ (∃ y, d = env.dist y) ∧ (pop.isSome → env.pdf θ ≠ 0)) := by
  unfold resampleTask at h
  split at h
  · rename_i θ1 d1 c1 hr
    simp only [Option.some.injEq, Prod.mk.injEq] at h
    obtain ⟨rfl, rfl, rfl⟩ := h
    obtain ⟨h1, h2⟩ := resampleLoop_spec _ _ _ _ _ _ _ _ _ _ _ hr
    refine ⟨by simpa [above] using h1, fun hm => ?_⟩
    rcases h2 with ⟨-, -, h2⟩ | ⟨h2, ⟨y, h3⟩, h4⟩
    · rw [← h2, h1] at hm; simp at hm
    · exact ⟨by omega, ⟨y, by simpa using h3⟩, h4⟩
  · simp at h

/-- The threshold of step `t` given the percentile of the distances before. -/
noncomputable def comb (given : Option (Option ℝ)) (q : ℝ) : Option ℝ := given.map fun e => e.elim q (max q)

theorem nextEps_spec (steps t : Nat) (pct : ℝ) (ds : List ℝ) (arr arr' : List (Option ℝ)) (h : nextEps steps t pct ds arr = some arr') :
    (∀ j, t + 1 < j → arr'[j]? = arr[j]?) ∧
    (t + 1 < steps → ∃ q e, percentile ds pct = some q ∧ comb arr[t + 1]? q = some e ∧ arr'[t + 1]? = some (some e)) := by
  unfold nextEps at h
  split at h
  · split at h
    · rename_i q hq he
      simp only [Option.some.injEq] at h
      subst h
      have hlt := (List.getElem?_eq_some_iff.1 he).1
      refine ⟨fun j hj => by rw [List.getElem?_set_ne (by omega)], fun _ => ⟨q, q, hq, by rw [he]; simp [comb], ?_⟩⟩
      rw [List.getElem?_set_self hlt]
    · rename_i q e hq he
      simp only [Option.some.injEq] at h
      subst h
      have hlt := (List.getElem?_eq_some_iff.1 he).1
      refine ⟨fun j hj => by rw [List.getElem?_set_ne (by omega)], fun _ => ⟨q, max q e, hq, by rw [he]; simp [comb], ?_⟩⟩
      rw [List.getElem?_set_self hlt]
    · simp at h
  · simp only [Option.some.injEq] at h
    subst h
    exact ⟨fun _ _ => rfl, fun h => by contradiction⟩

/-- What one iteration does. -/
theorem pmcStep_spec {W Θ Y : Type} (env : Env W Θ Y) (steps : Nat) (pct : ℝ) (fuel t : Nat) (start : List W) (s s' : State Θ)
    (h : pmcStep env steps pct fuel t start s = some s') :
    ∃ r : Rec Θ, s.epsArr[t]? = some (some r.eps) ∧ s'.hist = s.hist ++ [r] ∧ s'.pop = some ⟨r.params, r.weights⟩ ∧
      r.params.length = start.length ∧ r.distances.length = start.length ∧
      r.weights = normalise (r.params.map (rawWeight env start.length s.pop)) ∧
      (∀ d ∈ r.distances, d ≤ r.eps) ∧
      (above env.distMax r.eps = true → s.pop.isSome → ∀ θ ∈ r.params, env.pdf θ ≠ 0) ∧
      (∀ p, s.pop = some p → p.weights.length = start.length ∧ p.params.length = start.length) ∧
      (∀ j, t + 1 < j → s'.epsArr[j]? = s.epsArr[j]?) ∧
      (t + 1 < steps → ∃ q e, percentile r.distances pct = some q ∧ comb s.epsArr[t + 1]? q = some e ∧ s'.epsArr[t + 1]? = some (some e)) := by
  unfold pmcStep at h
  split at h
  · rename_i eps heps
    split at h
    · rename_i hall
      split at h
      · simp at h
      · rename_i res hres
        simp only at h
        split at h
        · simp at h
        · rename_i arr harr
          simp only [Option.some.injEq] at h
          subst h
          rw [collect_eq_some] at hres
          have hlen : res.length = start.length := by have := congrArg List.length hres; simpa using this.symm
          have hres' : ∀ e ∈ res, ∃ w, resampleTask env eps s.pop fuel w = some e := by
            intro e he
            have : some e ∈ res.map some := List.mem_map.2 ⟨e, he, rfl⟩
            rw [← hres] at this
            obtain ⟨w, -, hw⟩ := List.mem_map.1 this
            exact ⟨w, hw⟩
          obtain ⟨n1, n2⟩ := nextEps_spec _ _ _ _ _ _ harr
          refine ⟨⟨eps, res.map (·.1), res.map (·.2.1), _⟩, heps, rfl, rfl, by simp [hlen], by simp [hlen], rfl, ?_, ?_, ?_, n1, n2⟩
          · intro d hd
            obtain ⟨e, he, rfl⟩ := List.mem_map.1 hd
            obtain ⟨w, hw⟩ := hres' e he
            exact (resampleTask_spec env eps s.pop fuel w e.1 e.2.1 e.2.2 hw).1
          · intro hm hp θ hθ
            obtain ⟨e, he, rfl⟩ := List.mem_map.1 hθ
            obtain ⟨w, hw⟩ := hres' e he
            exact ((resampleTask_spec env eps s.pop fuel w e.1 e.2.1 e.2.2 hw).2 hm).2.2 hp
          · intro p hp
            rw [hp] at hall
            simpa using hall
    · simp at h
  · simp at h

/-- The population a step starts from. -/
def popBefore {Θ : Type} (before : Option (Pop Θ)) (hist : List (Rec Θ)) : Nat → Option (Pop Θ)
  | 0 => before
  | t + 1 => (hist[t]?).map fun r => ⟨r.params, r.weights⟩

structure Inv {W Θ Y : Type} (env : Env W Θ Y) (steps : Nat) (pct : ℝ) (start : Nat → List W) (before : Option (Pop Θ))
    (arr : List (Option ℝ)) (t : Nat) (s : State Θ) : Prop where
  len : s.hist.length = t
  pop : s.pop = popBefore before s.hist t
  later : ∀ j, t < j → s.epsArr[j]? = arr[j]?
  first : t = 0 → s.epsArr[0]? = arr[0]?
  now : ∀ j, t = j + 1 → t < steps → ∃ r q e, s.hist[j]? = some r ∧ percentile r.distances pct = some q ∧ comb arr[t]? q = some e ∧
    s.epsArr[t]? = some (some e)
  link : ∀ j r r', s.hist[j]? = some r → s.hist[j + 1]? = some r' → ∃ q, percentile r.distances pct = some q ∧ comb arr[j + 1]? q = some r'.eps
  head : ∀ r, s.hist[0]? = some r → arr[0]? = some (some r.eps)
  recs : ∀ j r, s.hist[j]? = some r → r.params.length = (start j).length ∧ r.distances.length = (start j).length ∧
    r.weights = normalise (r.params.map (rawWeight env (start j).length (popBefore before s.hist j))) ∧ (∀ d ∈ r.distances, d ≤ r.eps) ∧
    (above env.distMax r.eps = true → (popBefore before s.hist j).isSome → ∀ θ ∈ r.params, env.pdf θ ≠ 0) ∧
    (∀ p, popBefore before s.hist j = some p → p.weights.length = (start j).length ∧ p.params.length = (start j).length)

theorem popBefore_append {Θ : Type} (before : Option (Pop Θ)) (hist l : List (Rec Θ)) (t : Nat) (h : t ≤ hist.length) :
    popBefore before (hist ++ l) t = popBefore before hist t := by
  cases t with
  | zero => rfl
  | succ t => simp only [popBefore]; rw [List.getElem?_append_left (by omega)]

theorem inv_step {W Θ Y : Type} (env : Env W Θ Y) (steps : Nat) (pct : ℝ) (fuel : Nat) (start : Nat → List W) (before : Option (Pop Θ))
    (arr : List (Option ℝ)) (t : Nat) (s s' : State Θ) (hi : Inv env steps pct start before arr t s) (ht : t < steps)
    (h : pmcStep env steps pct fuel t (start t) s = some s') : Inv env steps pct start before arr (t + 1) s' := by
  obtain ⟨r, r1, r2, r3, r4, r5, r6, r7, r8, r9, r10, r11⟩ := pmcStep_spec env steps pct fuel t (start t) s s' h
  have hget : ∀ j x, s'.hist[j]? = some x → (j < t ∧ s.hist[j]? = some x) ∨ (j = t ∧ x = r) := by
    intro j x hx
    rw [r2] at hx
    rcases Nat.lt_or_ge j s.hist.length with hlt | hge
    · rw [List.getElem?_append_left hlt] at hx
      exact Or.inl ⟨by rw [← hi.len]; exact hlt, hx⟩
    · rw [List.getElem?_append_right hge] at hx
      have : j - s.hist.length = 0 := by
        rcases Nat.eq_zero_or_pos (j - s.hist.length) with h0 | h0
        · exact h0
        · rw [List.getElem?_eq_none (by simp; omega)] at hx; simp at hx
      rw [this] at hx
      simp only [List.getElem?_cons_zero, Option.some.injEq] at hx
      exact Or.inr ⟨by rw [← hi.len]; omega, hx.symm⟩
  have hlast : s'.hist[t]? = some r := by
    rw [r2, List.getElem?_append_right (by rw [hi.len]), hi.len]; simp
  have hpb : ∀ j, j ≤ t → popBefore before s'.hist j = popBefore before s.hist j := by
    intro j hj; rw [r2]; exact popBefore_append _ _ _ _ (by rw [hi.len]; exact hj)
  refine ⟨by rw [r2]; simp [hi.len], ?_, ?_, by omega, ?_, ?_, ?_, ?_⟩
  · rw [r3]; simp only [popBefore]; rw [hlast]; rfl
  · intro j hj; rw [r10 j hj, hi.later j (by omega)]
  · intro j hj hlt
    have : j = t := by omega
    subst this
    obtain ⟨q, e, q1, q2, q3⟩ := r11 hlt
    exact ⟨r, q, e, hlast, q1, by rw [← hi.later (j + 1) (by omega)]; exact q2, q3⟩
  · intro j x x' hx hx'
    rcases hget _ _ hx with ⟨hj, hx⟩ | ⟨rfl, rfl⟩
    · rcases hget _ _ hx' with ⟨hj', hx'⟩ | ⟨hj', rfl⟩
      · exact hi.link j x x' hx hx'
      · obtain ⟨y, q, e, y1, y2, y3, y4⟩ := hi.now j hj'.symm ht
        rw [hx] at y1
        simp only [Option.some.injEq] at y1
        subst y1
        rw [y4] at r1
        simp only [Option.some.injEq] at r1
        subst r1
        exact ⟨q, y2, by rw [hj']; exact y3⟩
    · rcases hget _ _ hx' with ⟨hj', -⟩ | ⟨hj', -⟩ <;> omega
  · intro x hx
    rcases hget _ _ hx with ⟨hj, hx⟩ | ⟨hj, rfl⟩
    · exact hi.head x hx
    · rw [← hi.first hj.symm]; rw [← hj] at r1; exact r1
  · intro j x hx
    rcases hget _ _ hx with ⟨hj, hx⟩ | ⟨rfl, rfl⟩
    · rw [hpb j (by omega)]; exact hi.recs j x hx
    · rw [hpb j le_rfl, ← hi.pop]
      exact ⟨r4, r5, r6, r7, r8, r9⟩

theorem inv_loop {W Θ Y : Type} (env : Env W Θ Y) (steps : Nat) (pct : ℝ) (fuel : Nat) (start : Nat → List W) (before : Option (Pop Θ))
    (arr : List (Option ℝ)) (k t : Nat) (s s' : State Θ) (hi : Inv env steps pct start before arr t s) (ht : t + k = steps)
    (h : pmcLoop env steps pct fuel start k t s = some s') : Inv env steps pct start before arr steps s' := by
  induction k generalizing t s with
  | zero =>
    simp only [pmcLoop, Option.some.injEq] at h
    subst h
    have : t = steps := by omega
    subst this
    exact hi
  | succ k ih =>
    unfold pmcLoop at h
    split at h
    · simp at h
    · rename_i s1 hs1
      exact ih (t + 1) s1 (inv_step env steps pct fuel start before arr t s s1 hi (by omega) hs1) (by omega) h

theorem inv_run {W Θ Y : Type} (env : Env W Θ Y) (steps : Nat) (epsInit : List ℝ) (pct : ℝ) (fuel : Nat) (start : Nat → List W)
    (before : Option (Pop Θ)) (counter : Nat) (s : State Θ) (h : pmcRun env steps epsInit pct fuel start before counter = some s) :
    ∃ arr, initEps epsInit steps = some arr ∧ Inv env steps pct start before arr steps s := by
  unfold pmcRun at h
  split at h
  · simp at h
  · rename_i arr harr
    refine ⟨arr, harr, inv_loop env steps pct fuel start before arr steps 0 _ s ?_ (by omega) h⟩
    refine ⟨rfl, rfl, fun _ _ => rfl, fun _ => rfl, fun j hj => by omega, ?_, ?_, ?_⟩
    · intro j r r' h; simp at h
    · intro r h; simp at h
    · intro j r h; simp at h

end Verif.Pmc
