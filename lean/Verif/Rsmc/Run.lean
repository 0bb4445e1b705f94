import Verif.Rsmc.Spec
import Verif.Rsmc.Props
import Verif.Smc.Moves
import Mathlib.Tactic.IntervalCases
/-
C98: runs of `RSMCABC` are histories of the specification. C99: the number of attempts.
-/
namespace Verif.Rsmc

open Verif.Pmc (Pop above)
open Verif.Smc (propose propose_spec)
open Verif.Smc.Spec (Proposal Trials)
open Spec

variable {W Θ Y : Type} (env : Env W Θ Y) (c : Config)

theorem prob_eq (p : Pop Θ) (θ θ' : Θ) : prob env p θ θ' = metropolis env.pdf (env.kernel p) θ θ' := by
  unfold prob metropolis; rw [div_mul_div_comm]

theorem moveLoop_rounds (fuel : Nat) (eps : ℝ) (p : Pop Θ) (i : Nat) (θ : Θ) (dθ : ℝ) (r : Nat) (w : W) (held : Θ) (d : Option ℝ) (acc n : Nat) (o : Out Θ)
    (h : moveLoop env fuel eps p i θ dθ r w held d acc n = some o) :
    ∃ w' l, Trials (Try env eps p i θ) w w' l ∧ l.length = r ∧ o.accepted = acc + (l.filter (·.moved)).length ∧ o.count = n + r ∧
      (l = [] → o.θ = held ∧ o.d = d) ∧ ∀ a, l.getLast? = some a → o.θ = θ ∧ o.d = some (if a.moved then a.d else dθ) := by
  induction r generalizing w held d acc n with
  | zero =>
    simp only [moveLoop, Option.some.injEq] at h
    subst h
    exact ⟨w, [], .nil _, rfl, rfl, rfl, fun _ => ⟨rfl, rfl⟩, by simp⟩
  | succ r ih =>
    rw [moveLoop] at h
    cases hp : propose env.pdf (env.perturb p i) fuel w with
    | none => rw [hp] at h; cases h
    | some q =>
      obtain ⟨w1, θ'⟩ := q
      rw [hp] at h
      simp only at h
      have hprop := propose_spec _ _ _ _ _ _ hp
      have key : ∀ (m : Bool) (w2 : W) (d2 : Option ℝ) (acc' : Nat), d2 = some (if m then env.dist (env.sim θ' w1).2 else dθ) → acc' = acc + (if m then 1 else 0) →
          Try env eps p i θ w w2 ⟨θ', env.dist (env.sim θ' w1).2, m⟩ →
          moveLoop env fuel eps p i θ dθ r w2 θ d2 acc' (n + 1) = some o →
          ∃ w' l, Trials (Try env eps p i θ) w w' l ∧ l.length = r + 1 ∧ o.accepted = acc + (l.filter (·.moved)).length ∧ o.count = n + (r + 1) ∧
            (l = [] → o.θ = held ∧ o.d = d) ∧ ∀ a, l.getLast? = some a → o.θ = θ ∧ o.d = some (if a.moved then a.d else dθ) := by
        intro m w2 d2 acc' hd2 hacc ht hm
        obtain ⟨w', l, t, hl, ha, hn, he, hlast⟩ := ih _ _ _ _ _ hm
        refine ⟨w', _ :: l, .cons _ _ _ _ _ ht t, by simp [hl], ?_, by omega, by simp, ?_⟩
        · rw [ha, hacc]
          cases m
          · simp
          · simp; omega
        · intro a ha
          cases l with
          | nil =>
            simp only [List.getLast?_singleton, Option.some.injEq] at ha
            subst ha
            obtain ⟨h1, h2⟩ := he rfl
            exact ⟨h1, by rw [h2, hd2]⟩
          | cons b l =>
            rw [List.getLast?_cons_cons] at ha
            exact hlast a ha
      by_cases hd : env.dist (env.sim θ' w1).2 < eps
      · rw [if_pos hd] at h
        by_cases hu : (env.bern (prob env p θ θ') (env.sim θ' w1).1).2 = true
        · rw [if_pos hu] at h
          refine key true _ _ _ rfl rfl ⟨w1, hprop, rfl, ?_⟩ h
          simp only [hd, if_true, ← prob_eq]
          exact ⟨hu.symm, trivial⟩
        · rw [if_neg hu] at h
          refine key false _ _ _ rfl rfl ⟨w1, hprop, rfl, ?_⟩ h
          simp only [hd, if_true, ← prob_eq]
          exact ⟨by simpa using (by simpa using hu : _ = false).symm, trivial⟩
      · rw [if_neg hd] at h
        refine key false _ _ _ rfl rfl ⟨w1, hprop, rfl, ?_⟩ h
        simp only [hd, if_false]
        exact ⟨trivial, trivial⟩

theorem priorLoop_draws (eps : ℝ) (fuel : Nat) (w : W) (held : Θ) (d : Option ℝ) (n : Nat) (e : Θ × Option ℝ × Nat)
    (h : priorLoop env eps fuel w held d n = some e) :
    ∃ w' l, Trials (PriorDraw env) w w' l ∧ e.2.2 = n + l.length ∧ (∀ a ∈ l.dropLast, eps < a.2) ∧
      (∀ a, l.getLast? = some a → a.2 ≤ eps ∧ e.1 = a.1 ∧ e.2.1 = some a.2) ∧
      (l = [] → e.1 = held ∧ e.2.1 = d ∧ ∃ x, d = some x ∧ x ≤ eps) ∧ (l ≠ [] → above d eps = true) := by
  induction fuel generalizing w held d n with
  | zero => simp [priorLoop] at h
  | succ fuel ih =>
    rw [priorLoop] at h
    split at h
    · rename_i hab
      simp only at h
      obtain ⟨w', l, t, h1, h2, h3, h4, h5⟩ := ih _ _ _ _ h
      refine ⟨w', ((env.prior w).2, env.dist (env.sim (env.prior w).2 (env.prior w).1).2) :: l, .cons _ _ _ _ _ ⟨_, _, rfl, rfl, rfl⟩ t, ?_, ?_, ?_, by simp, fun _ => hab⟩
      · rw [h1, List.length_cons]; omega
      · intro a ha
        cases l with
        | nil => simp at ha
        | cons b l =>
          rw [List.dropLast_cons_cons, List.mem_cons] at ha
          rcases ha with rfl | ha
          · have := h5 (by simp)
            simpa [above] using this
          · exact h2 a ha
      · intro a ha
        cases l with
        | nil =>
          simp only [List.getLast?_singleton, Option.some.injEq] at ha
          subst ha
          obtain ⟨e1, e2, x, e3, e4⟩ := h4 rfl
          simp only [Option.some.injEq] at e3
          subst e3
          exact ⟨e4, e1, e2⟩
        | cons b l => rw [List.getLast?_cons_cons] at ha; exact h3 a ha
    · rename_i ha
      simp only [Option.some.injEq] at h
      subst h
      refine ⟨w, [], .nil _, rfl, by simp, by simp, fun _ => ⟨rfl, rfl, ?_⟩, by simp⟩
      cases d with
      | none => simp [above] at ha
      | some x => exact ⟨x, rfl, by simpa [above] using ha⟩

theorem accept_task (fuel : Nat) (eps : ℝ) (p : Pop Θ) (ds : List ℝ) (r : Nat) (w : W) (held : Θ) (o : Out Θ)
    (h : accept env fuel eps (some (p, ds)) r w held = some o) : Moves env eps p ds r w o := by
  simp only [accept] at h
  rw [Option.bind_eq_some_iff] at h
  obtain ⟨θ, h1, h⟩ := h
  rw [Option.bind_eq_some_iff] at h
  obtain ⟨dθ, h2, h⟩ := h
  obtain ⟨w', l, t, hl, ha, hn, -, hlast⟩ := moveLoop_rounds env _ _ _ _ _ _ _ _ _ _ _ _ _ h
  exact ⟨w', l, θ, dθ, h1, h2, t, hl, by rw [ha]; simp, by rw [hn]; simp, hlast⟩

theorem accept_first (fuel : Nat) (eps : ℝ) (r : Nat) (w : W) (held : Θ) (o : Out Θ) (h : accept env fuel eps none r w held = some o) : FirstTask env eps held w o := by
  simp only [accept] at h
  rw [Option.map_eq_some_iff] at h
  obtain ⟨e, he, rfl⟩ := h
  obtain ⟨w', l, t, h1, h2, h3, h4, -⟩ := priorLoop_draws env _ _ _ _ _ _ _ he
  exact ⟨w', l, t, rfl, by simpa using h1, h2, h3, h4⟩

theorem nextMoves_iff (hc0 : 0 < c.const) (hc1 : c.const ≤ 1) (r : Int) (k acc : Nat) (m : Int) (hr : 0 ≤ r) (hacc : (acc : Int) ≤ r * k)
    (h : nextMoves c r k acc = some m) : NextMoves c.const r k acc m := by
  have h00 := nextMoves_nonneg c hc0 hc1 r k acc m hr hacc h
  unfold nextMoves at h
  simp only at h
  by_cases h0 : r * (k : Int) = 0
  · rw [if_pos h0] at h; cases h
  rw [if_neg h0] at h
  have hposZ : (0 : Int) < r * k := lt_of_le_of_ne (by positivity) (Ne.symm h0)
  have hpos : (0 : ℝ) < (r * k : ℤ) := by exact_mod_cast hposZ
  have hle : (acc : ℝ) ≤ (r * k : ℤ) := by exact_mod_cast hacc
  have hp1 : (acc : ℝ) / (r * k : ℤ) ≤ 1 := (div_le_one hpos).2 hle
  have hp0 : 0 ≤ (acc : ℝ) / (r * k : ℤ) := by positivity
  refine ⟨hposZ, hp0, hp1, ?_⟩
  generalize (acc : ℝ) / (r * k : ℤ) = a at *
  by_cases ha : a = 1 ∨ a = 0
  · rw [if_pos ha, Option.some.injEq] at h
    rw [if_pos ha.symm]; exact h.symm
  · rw [if_neg ha, Option.some.injEq] at h
    rw [if_neg (fun h => ha h.symm)]
    refine ⟨h00.2, fun j => ?_⟩
    rw [not_or] at ha
    have hlt : a < 1 := lt_of_le_of_ne hp1 ha.1
    have hgt : 0 < a := lt_of_le_of_ne hp0 (Ne.symm ha.2)
    have h1 : Real.log c.const ≤ 0 := Real.log_nonpos hc0.le hc1
    have h2 : Real.log (1 - a) < 0 := Real.log_neg (by linarith) (by linarith)
    have h3 : 0 ≤ Real.log c.const / Real.log (1 - a) := div_nonneg_of_nonpos h1 h2.le
    rw [← h, pyInt, if_pos h3, Int.le_floor, le_div_iff_of_neg h2]
    have h4 : (0 : ℝ) < (1 - a) ^ j := pow_pos (by linarith) j
    rw [← Real.log_le_log_iff hc0 h4, Real.log_pow]
    norm_num

theorem trim_best (params : List Θ) (distances : List ℝ) (h1 : params.length = c.n) (h2 : distances.length = c.n) :
    Best (c.n - c.drop) (params.zip distances) ((trim c params distances).1.zip (trim c params distances).2) := by
  have hperm := List.perm_insertionSort (fun a b : ℝ × Θ => a.1 ≤ b.1) (distances.zip params)
  have : Std.Total (fun a b : ℝ × Θ => a.1 ≤ b.1) := ⟨fun a b => le_total _ _⟩
  have : IsTrans (ℝ × Θ) (fun a b => a.1 ≤ b.1) := ⟨fun a b e => le_trans⟩
  have hsort := List.pairwise_insertionSort (fun a b : ℝ × Θ => a.1 ≤ b.1) (distances.zip params)
  have hlen : ((distances.zip params).insertionSort (fun a b => a.1 ≤ b.1)).length = c.n := by
    rw [hperm.length_eq]; simp [h1, h2]
  have hswap : ∀ (a : List Θ) (b : List ℝ), a.zip b = (b.zip a).map Prod.swap := fun a b => (List.zip_swap b a).symm
  have hz : (trim c params distances).1.zip (trim c params distances).2 =
      (((distances.zip params).insertionSort (fun a b => a.1 ≤ b.1)).map Prod.swap).take (c.n - c.drop) := by
    simp only [trim]
    rw [List.zip, ← List.take_zipWith]
    congr 1
    exact List.zip_map'
  rw [hz]
  generalize hs : (distances.zip params).insertionSort (fun a b => a.1 ≤ b.1) = s at *
  have hsort' : (s.map Prod.swap).Pairwise (fun a b : Θ × ℝ => a.2 ≤ b.2) := by rw [List.pairwise_map]; exact hsort
  refine ⟨by simp [hlen], hsort'.sublist (List.take_sublist _ _), (s.map Prod.swap).drop (c.n - c.drop), ?_, ?_⟩
  · rw [List.take_append_drop, hswap]
    exact hperm.map _
  · rw [← List.take_append_drop (c.n - c.drop) (s.map Prod.swap), List.pairwise_append] at hsort'
    exact hsort'.2.2

theorem results_zip (out : List (Out Θ)) (ds : List ℝ) (h : out.map Out.d = ds.map some) : Results out ((out.map Out.θ).zip ds) := by
  unfold Results
  induction out generalizing ds with
  | nil => simp
  | cons o out ih =>
    cases ds with
    | nil => simp at h
    | cons d ds =>
      simp only [List.map_cons, List.cons.injEq] at h
      simp only [List.map_cons, List.zip_cons_cons, List.cons.injEq, Prod.mk.injEq, true_and]
      exact ⟨h.1, ih ds h.2⟩

/-- What a run knows about its history. -/
structure Follows (start : Nat → List (W × Θ)) (t : Nat) (s : State Θ) : Prop where
  inv : Inv c s
  count : s.hist.length = t
  empty : s.kept = none → s = ⟨[], none, 1, [], [], 0⟩
  some : ∀ k, s.kept = some k → History env c start s.epsilons (s.hist.map fun r => r.params.zip r.distances) (k.1.zip k.2) s.moves s.counter
  full : c.full = true → s.journal = s.hist
  last : c.full = false → s.journal = if t = c.steps ∧ 0 < t then s.hist.drop (t - 1) else []

theorem follows_step (hc0 : 0 < c.const) (hc1 : c.const ≤ 1) (fuel t : Nat) (start : Nat → List (W × Θ)) (s s' : State Θ) (hI : Follows env c start t s) (ht : t < c.steps)
    (h : step env c fuel t (start t) s = .ok s') : Follows env c start (t + 1) s' := by
  have hinv := inv_step env c hc0 hc1 fuel t (start t) s s' hI.inv h
  obtain ⟨eps, out, ds, r, m, heps, hfin, hne, hlen, hout, hds, hm, hr, hs'⟩ := step_spec env c fuel t (start t) s s' h
  have hol : out.length = (start t).length := by
    have := congrArg List.length hout; simpa using this.symm
  have hdl : ds.length = out.length := by
    have := congrArg List.length hds; simpa using this.symm
  have hres : Results out ((out.map Out.θ).zip ds) := results_zip out ds hds
  have htask : ∀ (i : Nat) (o : Out Θ) (w : W) (held : Θ), out[i]? = some o → (start t)[i]? = some (w, held) →
      accept env fuel eps (seen s) s.moves.toNat w held = some o := by
    intro i o w held ho hw
    have := congrArg (·[i]?) hout
    simp only [List.getElem?_map, ho, hw, Option.map_some, Option.some.injEq] at this
    exact this
  have hacc : ((out.map Out.accepted).sum : Int) ≤ s.moves * (start t).length := by
    have := sum_le_mul (out.map Out.accepted) s.moves (by
      intro x hx
      obtain ⟨o, ho, rfl⟩ := List.mem_map.1 hx
      obtain ⟨i, hi⟩ := List.mem_iff_getElem?.1 ho
      have hlt : i < (start t).length := by
        rw [← hol]; exact (List.getElem?_eq_some_iff.1 hi).1
      exact accepted_le env c fuel eps s _ _ o hI.inv (htask i o ((start t)[i]).1 ((start t)[i]).2 hi (by rw [List.getElem?_eq_getElem hlt])))
    simpa [hol] using this
  have hnm := nextMoves_iff c hc0 hc1 s.moves (start t).length _ m hI.inv.moves hacc hm
  have hhist := hinv.hist r (by rw [hs']; simp)
  have hbest := trim_best c r.params r.distances hhist.1 hhist.2.1
  have hjl : (s.hist ++ [r]).drop t = [r] := by rw [← hI.count]; simp
  refine ⟨hinv, by rw [hs']; simp [hI.count], by rw [hs']; simp, ?_, ?_, ?_⟩
  · intro k hk
    rw [hs'] at hk ⊢
    simp only [Option.some.injEq] at hk
    subst hk
    cases hkept : s.kept with
    | none =>
      have h0 := hI.empty hkept
      have ht0 : t = 0 := by rw [← hI.count, h0]; rfl
      subst ht0
      have hn : (start 0).length = c.n := by rw [hlen, wanted, hkept]; rfl
      have he : eps = c.epsInit := by rw [threshold, hkept] at heps; simpa using heps.symm
      have hb : base c s out.length = ([], []) := by rw [base, if_pos (by rw [hol, hn])]
      have hr' : r = ⟨eps, s.moves, out.map Out.θ, ds⟩ := by rw [hr, hb]; simp
      rw [h0] at hnm
      simp only [h0, List.nil_append, List.map_cons, List.map_nil, Nat.zero_add]
      rw [he]
      refine .first out (r.params.zip r.distances) _ m (he ▸ hfin) (by rw [hol, hn]) hn ?_ (by rw [hr']; exact hres) hbest (by rw [hn] at hnm; exact hnm)
      intro i o w held ho hw
      have := htask i o w held ho hw
      simp only [seen, hkept, Option.map_none] at this
      rw [he] at this
      exact accept_first env fuel _ _ w held o this
    | some k =>
      have hk := hI.inv.kept k hkept
      have hH := hI.some k hkept
      have hkl : k.1.length = k.2.length := by rw [hk.params, hk.distances]
      have hn : (start t).length = c.drop := by rw [hlen, wanted, hkept]; rfl
      rw [threshold, hkept] at heps
      simp only at heps
      obtain ⟨l, hl⟩ := List.getLast?_eq_some_iff.1 heps
      obtain ⟨l', b, hl'⟩ : ∃ l' b, k.1 = l' ++ [b] := by
        rcases k.1.eq_nil_or_concat with h | ⟨l', b, h⟩
        · rw [h, hl] at hkl; simp at hkl
        · exact ⟨l', b, by simpa using h⟩
      have hll : l'.length = l.length := by rw [hl, hl'] at hkl; simpa using hkl
      have hlast : (k.1.zip k.2).getLast? = some (b, eps) := by
        rw [hl, hl', List.zip_append hll]; simp
      have hb : base c s out.length = k := by
        rw [base, if_neg, hkept]; · rfl
        intro hh
        have := hk.distances
        rw [hl] at this
        simp at this
        omega
      have hr' : r = ⟨eps, s.moves, k.1 ++ out.map Out.θ, k.2 ++ ds⟩ := by rw [hr, hb]
      have hz : r.params.zip r.distances = k.1.zip k.2 ++ (out.map Out.θ).zip ds := by
        rw [hr']; exact List.zip_append hkl
      rw [hz] at hbest
      simp only [List.map_append, List.map_cons, List.map_nil, hz]
      have hcnt : (s.hist.map fun r => r.params.zip r.distances).length = t := by simp [hI.count]
      refine .step _ _ _ _ _ (b, eps) out _ _ m hH hlast hfin (by rw [hol, hn]) (by rw [hcnt, hn]) ?_ hres hbest (by rw [hn] at hnm; exact hnm)
      intro i o w held ho hw
      rw [hcnt] at hw
      have := htask i o w held ho hw
      simp only [seen, hkept, Option.map_some] at this
      have hm := accept_task env fuel eps _ _ _ w held o this
      have e1 : (k.1.zip k.2).map Prod.fst = k.1 := List.map_fst_zip hkl.le
      have e2 : (k.1.zip k.2).map Prod.snd = k.2 := List.map_snd_zip hkl.ge
      have e3 : (k.1.zip k.2).length = k.1.length := by simp [hkl]
      simp only [asPop, e1, e2, e3]
      exact hm
  · intro hf
    rw [hs']; simp only [hf, if_true, hI.full hf]
  · intro hf
    rw [hs']
    simp only [hf, Bool.false_eq_true, if_false, Nat.add_sub_cancel, hjl]
    by_cases hlast : t = c.steps - 1
    · rw [if_pos hlast, if_pos (by omega)]
    · rw [if_neg hlast, if_neg (by omega), hI.last hf, if_neg (by omega)]

/-- **C98.** Every run of `RSMCABC` with at least one step that returns is a history of the specification: thresholds, populations, number of attempts, number of simulations; the journal has all populations, or
the last one. -/
theorem C98_run (hc0 : 0 < c.const) (hc1 : c.const ≤ 1) (hs : 0 < c.steps) (fuel : Nat) (start : Nat → List (W × Θ)) (s : State Θ) (h : run env c fuel start = .ok s) :
    ∃ kept, History env c start s.epsilons (s.hist.map fun r => r.params.zip r.distances) kept s.moves s.counter ∧ s.hist.length = c.steps ∧
      (∀ r ∈ s.hist, r.params.length = r.distances.length) ∧
      s.journal = if c.full then s.hist else s.hist.drop (c.steps - 1) := by
  have key : ∀ k t (s s' : State Θ), Follows env c start t s → t + k = c.steps → loop env c fuel start k t s = .ok s' → Follows env c start c.steps s' := by
    intro k
    induction k with
    | zero => intro t s s' hI ht hl; simp only [loop, Except.ok.injEq] at hl; subst hl; rw [← ht]; exact hI
    | succ k ih =>
      intro t s s' hI ht hl
      rw [loop] at hl
      split at hl
      · cases hl
      · rename_i s1 h1
        exact ih (t + 1) s1 s' (follows_step env c hc0 hc1 fuel t start s s1 hI (by omega) h1) (by omega) hl
  have h0 : Follows env c start 0 (⟨[], none, 1, [], [], 0⟩ : State Θ) := by
    refine ⟨⟨by simp, by simp, by simp, rfl, by simp, by simp, by simp⟩, rfl, fun _ => rfl, by simp, fun _ => rfl, by simp⟩
  have hF := key c.steps 0 _ s h0 (by omega) h
  cases hk : s.kept with
  | none =>
    have := hF.count
    rw [hF.empty hk] at this
    simp at this; omega
  | some k =>
    refine ⟨_, hF.some k hk, hF.count, ?_, ?_⟩
    · intro r hr
      have := hF.inv.hist r hr
      rw [this.1, this.2.1]
    · by_cases hf : c.full = true
      · rw [if_pos hf, hF.full hf]
      · rw [if_neg hf, hF.last (by simpa using hf), if_pos ⟨rfl, hs⟩]

/-- The hypotheses are met by the run `exRun` of two steps. -/
example : ∃ s, run exEnv (exConfig 0) 2 exStart = .ok s ∧ 0 < (exConfig 0).const ∧ (exConfig 0).const ≤ 1 ∧ 0 < (exConfig 0).steps :=
  ⟨_, exRun, by norm_num [exConfig], by norm_num [exConfig], by norm_num [exConfig]⟩

/-! ### C99 -/

/-- **C99 (partial).** If of the attempts of a step a fraction `a` between 0 and 1, exclusive, was accepted, one attempt more than there are in the next step would leave a particle where it is with probability less than
`const`. Missing: the number of attempts itself, see below. -/
theorem C99_partial (const : ℝ) (r : Int) (k acc : Nat) (r' : Int) (h : NextMoves const r k acc r') (h0 : 0 < acc) (h1 : (acc : Int) < r * k) :
    (1 - (acc : ℝ) / (r * k : ℤ)) ^ (r'.toNat + 1) < const := by
  obtain ⟨hpos, -, -, h⟩ := h
  have hp : (0 : ℝ) < (r * k : ℤ) := by exact_mod_cast hpos
  have hacc : (acc : ℝ) < (r * k : ℤ) := by exact_mod_cast h1
  have ha0 : (acc : ℝ) / (r * k : ℤ) ≠ 0 := by
    have : (0 : ℝ) < acc := by exact_mod_cast h0
    positivity
  have ha1 : (acc : ℝ) / (r * k : ℤ) ≠ 1 := by
    intro h; rw [div_eq_one_iff_eq hp.ne'] at h; linarith
  rw [if_neg (not_or.2 ⟨ha0, ha1⟩)] at h
  by_contra hc
  have := (h.2 (r'.toNat + 1)).2 (not_lt.1 hc)
  push_cast at this
  omega

/-- C99 fails: with the number of attempts of the next step, particles stay where they are with probability at least `const`, in every case in which a fraction between 0 and 1, exclusive, was accepted. -/
theorem C99_violated (const : ℝ) (r : Int) (k acc : Nat) (r' : Int) (h : NextMoves const r k acc r') (h0 : 0 < acc) (h1 : (acc : Int) < r * k) :
    const ≤ (1 - (acc : ℝ) / (r * k : ℤ)) ^ r'.toNat := by
  obtain ⟨hpos, -, -, h⟩ := h
  have hp : (0 : ℝ) < (r * k : ℤ) := by exact_mod_cast hpos
  have hacc : (acc : ℝ) < (r * k : ℤ) := by exact_mod_cast h1
  have ha0 : (acc : ℝ) / (r * k : ℤ) ≠ 0 := by
    have : (0 : ℝ) < acc := by exact_mod_cast h0
    positivity
  have ha1 : (acc : ℝ) / (r * k : ℤ) ≠ 1 := by
    intro h; rw [div_eq_one_iff_eq hp.ne'] at h; linarith
  rw [if_neg (not_or.2 ⟨ha0, ha1⟩)] at h
  exact (h.2 r'.toNat).1 (by omega)

/-- A case: half of the attempts accepted, `const` 0.3. One attempt is made, and a particle stays where it is with probability 0.5. -/
theorem C99_example_violated : NextMoves 0.3 1 4 2 1 ∧ (0.3 : ℝ) < (1 - (2 : ℕ) / ((1 : ℤ) * (4 : ℕ) : ℤ)) ^ (1 : Int).toNat := by
  refine ⟨⟨by norm_num, by norm_num, by norm_num, ?_⟩, by norm_num⟩
  norm_num
  intro j
  constructor
  · intro h
    interval_cases j <;> norm_num
  · intro h
    by_contra hj
    have h2 : (1 / 2 : ℝ) ^ j ≤ (1 / 2) ^ 2 := pow_le_pow_of_le_one (by norm_num) (by norm_num) (by omega)
    norm_num at h h2 ⊢
    linarith

end Verif.Rsmc
