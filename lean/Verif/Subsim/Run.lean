import Verif.Subsim.Lemmas
/-
C104: runs of the model of `ABCsubsim` are histories.
-/
namespace Verif.Subsim

open Verif.Pmc (Pop)
open Verif.Subsim.Spec

variable {W Θ Y M : Type} (env : Env W Θ Y M) (c : Config)

theorem zip_map_fst_snd (l : List (Θ × ℝ)) : (l.map Prod.fst).zip (l.map Prod.snd) = l := by
  induction l with
  | nil => rfl
  | cons a l ih => simp [ih]

theorem annealed (l : List (ℝ × Θ)) (a b : ℝ) (covs : List M) (k : Nat) (ha : (l.map Prod.fst)[c.n / c.length]? = some a) (hb : (l.map Prod.fst)[c.n / c.length + 1]? = some b)
    (h : (1 / 2) * (a + b) ≠ 0) : Annealed c (⟨(l.map Prod.snd).zip (l.map Prod.fst), (1 / 2) * (a + b), covs, k⟩ : Stage Θ M) := by
  have hl := List.getElem?_eq_some_iff.1 ha
  have hl' := List.getElem?_eq_some_iff.1 hb
  obtain ⟨i1, -⟩ := hl
  obtain ⟨i2, -⟩ := hl'
  rw [List.length_map] at i1 i2
  refine ⟨((l[c.n / c.length]).2, a), ((l[c.n / c.length + 1]).2, b), ?_, ?_, by simp only; ring, h⟩
  · rw [List.getElem?_zip_eq_some]
    exact ⟨by simp [List.getElem?_eq_getElem i1], ha⟩
  · rw [List.getElem?_zip_eq_some]
    exact ⟨by simp [List.getElem?_eq_getElem i2], hb⟩

theorem follows_step (fuel t : Nat) (start tuneStart : Nat → List W) (s s' : State Θ M) (hI : Follows env c start tuneStart t s) (hst : s.stopped = false)
    (h : step env c fuel t (start t) (tuneStart t) s = some s') : Follows env c start tuneStart (t + 1) s' := by
  unfold step at h
  by_cases hs : (start t).length ≠ (if t = 0 then c.n else c.n / c.length) ∨ start t = [] ∨ c.length = 0 ∨ (tuneStart t).length ≠ 10
  · rw [if_pos hs] at h; cases h
  rw [if_neg hs] at h
  simp only [not_or, not_not] at hs
  obtain ⟨hlen, hne, hL, hten⟩ := hs
  have hpos : 0 < (start t).length := List.length_pos_iff.2 hne
  simp only at h
  split at h
  · cases h
  rename_i out hout
  split at h
  swap
  · cases h
  rename_i a b ha hb
  split at h
  · cases h
  rename_i tuned htuned
  by_cases hz : (1 / 2) * (a + b) = 0
  · rw [if_pos hz] at h; cases h
  rw [if_neg hz, Option.some.injEq] at h
  by_cases ht : t = 0
  · subst ht
    have hs0 := hI.init rfl
    subst hs0
    simp only [List.getLast?_nil, Option.some.injEq] at hout htuned h
    rw [if_pos rfl] at hlen
    have heq : ∀ r ∈ out, r.1.length = r.2.length := by
      intro r hr
      rw [← hout] at hr
      obtain ⟨w, -, rfl⟩ := List.mem_map.1 hr
      rfl
    obtain ⟨hz1, hz2⟩ := zip_flatten out heq
    have hord := sorted_ordered (out.map Prod.fst).flatten (out.map Prod.snd).flatten hz2
    rw [hz1] at hord
    have hsing : (out.map fun r => r.1.zip r.2).flatten = (start 0).map fun w => ((env.prior w).2, env.dist (env.sim (env.prior w).2 (env.prior w).1).2) := by
      rw [← hout]
      clear h htuned ha hb hz hord hz1 hz2 heq hout hlen hne hpos
      induction start 0 with
      | nil => rfl
      | cons w l ih =>
        simp only [List.map_cons, List.flatten_cons, ih]
        rfl
    obtain ⟨θ0, θ, h0, h1, hT⟩ := tuned_spec env c fuel _ _ _ _ (tuneStart 0) hten tuned htuned
    rw [h0, Option.some.injEq] at h1
    subst h1
    rw [← h]
    refine ⟨by simp, by simp, fun _ => ?_, ?_, ?_⟩
    · simp only [List.nil_append, List.map_cons, List.map_nil, Option.map_none, Option.getD_none, stageOf]
      have hx : ∃ x, (((sorted (out.map Prod.fst).flatten (out.map Prod.snd).flatten).map Prod.snd).zip ((sorted (out.map Prod.fst).flatten (out.map Prod.snd).flatten).map Prod.fst))[0]? = some x ∧
          x.1 = θ0 := by
        have hlt := (List.getElem?_eq_some_iff.1 h0).1
        rw [List.length_map] at hlt
        refine ⟨(θ0, ((sorted (out.map Prod.fst).flatten (out.map Prod.snd).flatten)[0]).1), ?_, rfl⟩
        rw [List.getElem?_zip_eq_some]
        exact ⟨h0, by simp [List.getElem?_eq_getElem hlt]⟩
      obtain ⟨x, hx0, hx1⟩ := hx
      have hb' : (((sorted (out.map Prod.fst).flatten (out.map Prod.snd).flatten).map Prod.snd).zip ((sorted (out.map Prod.fst).flatten (out.map Prod.snd).flatten).map Prod.fst)).map Prod.fst =
          (sorted (out.map Prod.fst).flatten (out.map Prod.snd).flatten).map Prod.snd := List.map_fst_zip (by simp)
      have := History.first (env := env) (c := c) (start := start) (tuneStart := tuneStart) (out.map fun r => r.1.zip r.2).flatten
        ⟨((sorted (out.map Prod.fst).flatten (out.map Prod.snd).flatten).map Prod.snd).zip ((sorted (out.map Prod.fst).flatten (out.map Prod.snd).flatten).map Prod.fst), (1 / 2) * (a + b),
          (match tuned.find? Prod.snd with
            | some m => m.1
            | none => env.cov ⟨(sorted (out.map Prod.fst).flatten (out.map Prod.snd).flatten).map Prod.snd, List.replicate c.n 1⟩), c.n + 10 * c.length⟩ x
        (decide (100 * |(0 : ℝ) - (1 / 2) * (a + b)| / |(1 / 2) * (a + b)| < c.cutoff)) (by omega) (by omega) (by rw [hsing]; simpa using hlen) hlen ?_ hord
        (annealed c _ a b _ _ ha hb hz) hx0 ?_ rfl ?_
      · simp only [hb'] at this
        exact this
      · intro i o w ho hw
        rw [hsing] at ho
        simp only [List.getElem?_map, hw, Option.map_some, Option.some.injEq] at ho
        subst ho
        exact ⟨_, _, _, rfl, rfl, rfl⟩
      · simp only [hb', hx1]
        exact hT
      · have habs : |(1 / 2) * (a + b)| ≠ 0 := abs_ne_zero.2 hz
        rw [zero_sub, abs_neg, mul_div_assoc, div_self habs, mul_one, decide_eq_true_eq]
    · simp
    · simp
  · obtain ⟨l, o, hlo⟩ : ∃ l o, s.hist = l ++ [o] := by
      have : s.hist ≠ [] := by
        intro h0
        have := hI.count
        rw [h0] at this
        exact ht this.symm
      exact ⟨_, _, (List.dropLast_append_getLast this).symm⟩
    have hlast : s.hist.getLast? = some o := by rw [hlo]; simp
    have htl : t = l.length + 1 := by rw [← hI.count, hlo]; simp
    simp only [hlast, Option.map_some, Option.getD_some] at hout htuned h
    rw [if_neg ht] at hlen
    rw [collect_eq_some] at hout
    have hol : out.length = c.n / c.length := by
      have := congrArg List.length hout
      simp only [List.length_map, List.length_zipIdx] at this
      omega
    have hsame := hI.lengths o (by rw [hlo]; simp)
    have htask : ∀ (i : Nat) (r : List Θ × List ℝ) (w : W), out[i]? = some r → (start t)[i]? = some w →
        ∃ b e, s.base[i]? = some b ∧ (o.1.params.zip o.1.distances)[i]? = some e ∧ ChainTask env o.1.covs o.2 c.length b e.1 w (r.1.zip r.2) ∧ r.1.length = r.2.length := by
      intro i r w hr hw
      have := congrArg (fun l => l[i]?) hout
      simp only [List.getElem?_map, List.getElem?_zipIdx, hw, hr, Option.map_some, Nat.zero_add, Option.some.injEq] at this
      simp only [accept, Option.bind_eq_some_iff, Option.map_eq_some_iff] at this
      obtain ⟨θ, hθ, θ0, hθ0, r', hr', rfl⟩ := this
      obtain ⟨mv, h1, h2, rfl⟩ := chain_chain env fuel _ _ _ _ _ _ _ _ hr'
      have hil : i < o.1.distances.length := by rw [← hsame.1]; exact (List.getElem?_eq_some_iff.1 hθ).1
      refine ⟨θ0, (θ, o.1.distances[i]), hθ0, ?_, ⟨_, _, mv, rfl, h1, by omega, ?_⟩, by simp⟩
      · rw [List.getElem?_zip_eq_some]
        exact ⟨hθ, List.getElem?_eq_getElem hil⟩
      · simp only [List.zip_cons_cons, zip_map_fst_snd]
    have heq : ∀ r ∈ out, r.1.length = r.2.length := by
      intro r hr
      obtain ⟨i, hi⟩ := List.mem_iff_getElem?.1 hr
      have hil : i < (start t).length := by
        have := (List.getElem?_eq_some_iff.1 hi).1
        omega
      obtain ⟨_, _, _, _, _, h⟩ := htask i r _ hi (List.getElem?_eq_getElem hil)
      exact h
    obtain ⟨hz1, hz2⟩ := zip_flatten out heq
    have hord := sorted_ordered (out.map Prod.fst).flatten (out.map Prod.snd).flatten hz2
    rw [hz1] at hord
    obtain ⟨θ0, θ, h0, h1, hT⟩ := tuned_spec env c fuel _ _ _ _ (tuneStart t) hten tuned htuned
    have hx : ∃ x, (o.1.params.zip o.1.distances)[0]? = some x ∧ x.1 = θ := by
      have hlt := (List.getElem?_eq_some_iff.1 h1).1
      rw [hsame.1] at hlt
      refine ⟨(θ, o.1.distances[0]), ?_, rfl⟩
      rw [List.getElem?_zip_eq_some]
      exact ⟨h1, List.getElem?_eq_getElem hlt⟩
    obtain ⟨x, hx0, hx1⟩ := hx
    have hH := hI.later ht
    rw [hst, hlo, List.map_append, List.map_cons, List.map_nil] at hH
    rw [← h]
    refine ⟨by simp [hI.count], by simp, fun _ => ?_, ?_, ?_⟩
    · simp only
      rw [hlo, List.map_append, List.map_append, List.map_cons, List.map_nil, List.map_cons, List.map_nil]
      refine History.step s.base (l.map stageOf) (stageOf o) _ (out.map fun r => r.1.zip r.2) θ0 x _ hH (by simpa using hol) (by rw [List.length_map, ← htl]; exact hlen) ?_ hord
        (annealed c _ a b _ _ ha hb hz) h0 hx0 ?_ rfl ?_
      · intro i r w hr hw
        rw [List.length_map, ← htl] at hw
        rw [List.getElem?_map, Option.map_eq_some_iff] at hr
        obtain ⟨r', hr', rfl⟩ := hr
        obtain ⟨b, e, e1, e2, e3, -⟩ := htask i r' w hr' hw
        exact ⟨b, e, e1, e2, e3⟩
      · rw [List.length_map, ← htl, hx1]
        exact hT
      · simp [stageOf]
    · intro e he
      simp only [List.mem_append, List.mem_singleton] at he
      rcases he with he | rfl
      · exact hI.lengths e he
      · simp
    · simp only
      rw [hI.journal]
      split <;> simp

/-- C104. Every run of `ABCsubsim` with at least one step is a history in the sense of the specification; it ends before its last step only if the annealing parameter changes by less than the cutoff. The
journal has all populations, or the last one. -/
theorem C104_run (fuel : Nat) (start tuneStart : Nat → List W) (s : State Θ M) (hs : 0 < c.steps) (h : run env c fuel start tuneStart = some s) :
    History env c start tuneStart s.base (s.hist.map stageOf) s.stopped ∧ s.hist.length ≤ c.steps ∧ (s.hist.length < c.steps → s.stopped = true) ∧
      (∀ e ∈ s.hist, e.1.params.length = e.1.distances.length ∧ e.1.weights = List.replicate c.n 1) ∧
      s.journal = (if c.full then s.hist else s.hist.drop (s.hist.length - 1)).map Prod.fst := by
  unfold run at h
  rw [Option.map_eq_some_iff] at h
  obtain ⟨s', h, rfl⟩ := h
  obtain ⟨t', h1, h2, hI, h3⟩ := loop_inv env c fuel start tuneStart (Follows env c start tuneStart)
    (fun t s s' hI hst h => follows_step env c fuel t start tuneStart s s' hI hst h) c.steps 0 _ s' ⟨rfl, fun _ => rfl, by simp, by simp, by simp⟩ h
  have ht : t' ≠ 0 := by
    intro h0
    have := h3 (by omega)
    rw [hI.init h0] at this
    cases this
  have hc := hI.count
  refine ⟨hI.later ht, by simp only; omega, fun hlt => h3 (by simp only at hlt; omega), hI.lengths, ?_⟩
  simp only
  by_cases hf : c.full = true
  · rw [if_pos hf, if_pos hf, hI.journal, if_pos hf]
  · rw [if_neg hf, if_neg hf]
    obtain ⟨l, o, hlo⟩ : ∃ l o, s'.hist = l ++ [o] := by
      have : s'.hist ≠ [] := by
        intro h0
        rw [h0] at hc
        exact ht hc.symm
      exact ⟨_, _, (List.dropLast_append_getLast this).symm⟩
    rw [hlo]; simp

end Verif.Subsim
