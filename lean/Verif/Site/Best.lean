import Verif.Rsmc.Props
import Verif.Apmc.Props
import Verif.Subsim.Props
/-
C234: the smallest distance of the populations of one run.
-/
namespace Verif.Best

/-- Specification: for every distance of the earlier population `a` the later one `b` has one that is not larger; so the smallest distance has not increased. -/
def NotWorse (a b : List ℝ) : Prop := ∀ d ∈ a, ∃ d' ∈ b, d' ≤ d

theorem NotWorse.trans {a b e : List ℝ} (h : NotWorse a b) (h' : NotWorse b e) : NotWorse a e := fun d hd => by
  obtain ⟨x, hx, h1⟩ := h d hd
  obtain ⟨y, hy, h2⟩ := h' x hx
  exact ⟨y, hy, h2.trans h1⟩

/-- In terms of minima. -/
theorem NotWorse.min {a b : List ℝ} (h : NotWorse a b) (x y : ℝ) (hx : x ∈ a) (hy : ∀ d ∈ b, y ≤ d) : y ≤ x := by
  obtain ⟨d, hd, h1⟩ := h x hx
  exact (hy d hd).trans h1

theorem pairwise_snoc (l : List (List ℝ)) (x : List ℝ) (h : l.Pairwise NotWorse) (hx : ∀ a, l.getLast? = some a → NotWorse a x) : (l ++ [x]).Pairwise NotWorse := by
  rw [List.pairwise_append]
  refine ⟨h, List.pairwise_singleton _ _, fun a ha b hb => ?_⟩
  rw [List.mem_singleton] at hb
  subst hb
  rcases List.eq_nil_or_concat l with rfl | ⟨l', z, rfl⟩
  · cases ha
  · rw [List.concat_eq_append] at *
    have hz := hx z (by simp)
    rcases List.mem_append.1 ha with ha | ha
    · exact ((List.pairwise_append.1 h).2.2 a ha z (by simp)).trans hz
    · rw [List.mem_singleton.1 ha]; exact hz

section Rsmc
open Verif.Rsmc
variable {W Θ Y : Type}

theorem trim_lengths (c : Config) (ps : List Θ) (ds : List ℝ) : (trim c ps ds).1.length = (trim c ps ds).2.length := by
  simp [trim]

theorem trim_best (c : Config) (ps : List Θ) (ds : List ℝ) (hl : ps.length = ds.length) (hne : (trim c ps ds).2 ≠ []) : NotWorse ds (trim c ps ds).2 := by
  intro d hd
  simp only [trim] at hne ⊢
  obtain ⟨i, hi⟩ := List.mem_iff_getElem?.1 hd
  have hi' : i < ps.length := hl ▸ (List.getElem?_eq_some_iff.1 hi).1
  have hm : (d, ps[i]) ∈ ds.zip ps := List.mem_iff_getElem?.2 ⟨i, List.getElem?_zip_eq_some.2 ⟨hi, List.getElem?_eq_getElem hi'⟩⟩
  rw [← (List.perm_insertionSort (fun a b : ℝ × Θ => a.1 ≤ b.1) (ds.zip ps)).mem_iff] at hm
  have : Std.Total (fun a b : ℝ × Θ => a.1 ≤ b.1) := ⟨fun a b => le_total _ _⟩
  have : IsTrans (ℝ × Θ) (fun a b => a.1 ≤ b.1) := ⟨fun a b e => le_trans⟩
  have hs := List.pairwise_insertionSort (fun a b : ℝ × Θ => a.1 ≤ b.1) (ds.zip ps)
  revert hm hs hne
  generalize (ds.zip ps).insertionSort (fun a b : ℝ × Θ => a.1 ≤ b.1) = l
  intro hne hm hs
  match l, hm with
  | x :: l, hm =>
    match hk : c.n - c.drop with
    | 0 => rw [hk] at hne; simp at hne
    | k + 1 =>
      refine ⟨x.1, by simp, ?_⟩
      rcases List.mem_cons.1 hm with rfl | hm
      · exact le_rfl
      · exact (List.pairwise_cons.1 hs).1 _ hm

/-- C234 for `RSMCABC`: over all populations of a run that returns, the smallest distance never increases. -/
theorem C234_rsmcabc (env : Env W Θ Y) (c : Config) (fuel : Nat) (start : Nat → List (W × Θ)) (s : State Θ) (h : run env c fuel start = .ok s) :
    (s.hist.map Rec.distances).Pairwise NotWorse :=
  (loop_inv env c fuel start (fun _ s => (s.hist.map Rec.distances).Pairwise NotWorse ∧
      ((s.kept = none ∧ s.hist = []) ∨ ∃ r, s.hist.getLast? = some r ∧ r.params.length = r.distances.length ∧ s.kept = some (trim c r.params r.distances)))
    (fun t s s' hI hs => by
      obtain ⟨eps, out, ds, r, m, h1, -, h3, h4, h5, h6, -, hr, rfl⟩ := step_spec env c fuel t (start t) s s' hs
      have hlen : (out.map Out.θ).length = ds.length := by simpa using congrArg List.length h6
      have hlo : (start t).length = out.length := by simpa using congrArg List.length h5
      have hb : (base c s out.length).1.length = (base c s out.length).2.length := by
        unfold base
        split
        · rfl
        · rcases hI.2 with ⟨h, -⟩ | ⟨r, -, -, h⟩
          · rw [h]; rfl
          · rw [h]; exact trim_lengths c _ _
      refine ⟨?_, .inr ⟨r, by simp, by rw [hr]; simp only [List.length_append, hb, hlen], rfl⟩⟩
      simp only [List.map_append, List.map_cons, List.map_nil]
      refine pairwise_snoc _ _ hI.1 fun a ha => ?_
      rcases hI.2 with ⟨-, h⟩ | ⟨r0, hr0, hl0, hk⟩
      · rw [h] at ha; cases ha
      · rw [List.getLast?_map, hr0, Option.map_some, Option.some.injEq] at ha
        subst ha
        have hne : (trim c r0.params r0.distances).2 ≠ [] := by
          intro hn
          rw [threshold, hk] at h1
          simp only [hn, List.getLast?_nil] at h1
          cases h1
        have hout : out.length ≠ c.n := by
          intro hn
          rw [← hlo, h4, wanted, hk] at hn
          simp only [Option.isNone_some, Bool.false_eq_true, if_false] at hn
          exact hne (by simp [trim, hn])
        refine (trim_best c _ _ hl0 hne).trans fun d hd => ⟨d, ?_, le_rfl⟩
        rw [hr]
        simp only [base, if_neg hout, hk, Option.getD_some]
        exact List.mem_append_left _ hd)
    c.steps 0 _ s ⟨List.Pairwise.nil, .inl ⟨rfl, rfl⟩⟩ h).1

/-- A run with two populations; in the second the smallest distance is 1/2 instead of 1. -/
example : ∃ s, run exEnv (exConfig 0) 2 exStart = .ok s ∧ s.hist.map Rec.distances = [[1, 1], [1, 1 / 2]] := ⟨_, exRun, rfl⟩

end Rsmc

section Apmc
open Verif.Apmc
variable {W Θ Y : Type}

theorem select_false {α : Type} (m : List Bool) (l : List α) (h : ∀ b ∈ m, b = false) : select m l = [] := by
  induction m generalizing l with
  | nil => cases l <;> rfl
  | cons b m ih =>
    obtain rfl := h b (by simp)
    cases l with
    | nil => rfl
    | cons x l => exact ih l fun b hb => h b (by simp [hb])

/-- C234 for `APMCABC` when at least one particle is to be carried over, that is when `n_samples * alpha` rounds to one or more. Missing: smaller `alpha`, for which it is false. -/
theorem C234_apmcabc_partial (env : Env W Θ Y) (c : Config) (hc : 1 ≤ Rsmc.pyRound (c.n * c.alpha)) (fuel : Nat) (start : Nat → List W) (s : State Θ) (h : run env c fuel start = some s) :
    (s.hist.map Rec.distances).Pairwise NotWorse := by
  obtain ⟨_, _, _, hI, _⟩ := loop_inv env c fuel start (fun t s => s.hist.length = t ∧ (s.hist.map Rec.distances).Pairwise NotWorse ∧
      ∀ r, s.hist.getLast? = some r → r.keptDistances = r.distances.filter (fun d => decide (d < r.eps)) ∧ (r.keptDistances = [] → r.keptParams = []))
    (fun t s s' hI _ hs => by
      obtain ⟨out, eps, h1, h2, h3, h4, rfl⟩ := step_spec env c fuel t (start t) s s' hs
      obtain ⟨ht, hp, hk⟩ := hI
      have hlo : (start t).length = out.length := by simpa using congrArg List.length h3
      refine ⟨by simp [ht], ?_, fun r hr => ?_⟩
      · simp only [List.map_append, List.map_cons, List.map_nil]
        refine pairwise_snoc _ _ hp fun a ha => ?_
        rw [List.getLast?_map, Option.map_eq_some_iff] at ha
        obtain ⟨r0, hr0, rfl⟩ := ha
        have ht0 : 0 < t := by
          rw [← ht]
          rcases hh : s.hist with _ | ⟨x, l⟩
          · rw [hh] at hr0; cases hr0
          · simp
        have hout : out.length ≠ c.n := by
          rw [← hlo, h2, wanted, if_pos ht0]
          have : 0 < (start t).length := List.length_pos_iff.2 h1
          rw [h2, wanted, if_pos ht0] at this
          omega
        have hne : r0.keptDistances ≠ [] := by
          intro hn
          have hps := (hk r0 hr0).2 hn
          obtain ⟨w, l, hw⟩ := List.exists_cons_of_ne_nil h1
          obtain ⟨o, l', ho⟩ := List.exists_cons_of_ne_nil (l := out) (by
            intro h; rw [h] at hlo; rw [hw] at hlo; simp at hlo)
          rw [hw, ho, List.map_cons, List.map_cons, List.cons.injEq] at h3
          have := h3.1
          simp [seen, hr0, accept, hps] at this
        have hd : (keep eps (merge c s out)).distances = r0.keptDistances ++ out.map Out.d := by
          simp [keep, merge, if_neg hout, hr0]
        rw [hd]
        obtain ⟨x, hx⟩ := List.exists_mem_of_ne_nil _ hne
        intro d hdm
        have hx' := hx
        rw [(hk r0 hr0).1, List.mem_filter, decide_eq_true_eq] at hx'
        by_cases hlt : d < r0.eps
        · exact ⟨d, List.mem_append_left _ (by rw [(hk r0 hr0).1, List.mem_filter, decide_eq_true_eq]; exact ⟨hdm, hlt⟩), le_rfl⟩
        · exact ⟨x, List.mem_append_left _ hx, hx'.2.le.trans (not_lt.1 hlt)⟩
      · simp only [List.getLast?_append, List.getLast?_singleton, Option.some_or, Option.some.injEq] at hr
        subst hr
        refine ⟨by simp only [keep]; exact select_filter _ _, fun hn => ?_⟩
        simp only [keep, select_filter, List.filter_eq_nil_iff] at hn ⊢
        exact select_false _ _ (by simpa using hn))
    c.steps 0 _ s ⟨rfl, List.Pairwise.nil, fun r hr => by cases hr⟩ h
  exact hI.2.1

/-- The hypothesis holds in a run with two populations. -/
example : 1 ≤ Rsmc.pyRound (((⟨3, 2, 1 / 2, 0, true⟩ : Config).n : ℝ) * (⟨3, 2, 1 / 2, 0, true⟩ : Config).alpha) ∧ ∃ s, run exEnv ⟨3, 2, 1 / 2, 0, true⟩ 1 threeStart = some s ∧ s.journal.length = 2 := by
  refine ⟨by simp only; rw [pyRound_three]; norm_num, ?_⟩
  obtain ⟨-, -, s, h1, h2, -⟩ := C49_size_violated
  exact ⟨s, h1, h2⟩

noncomputable def lostStart (t : Nat) : List ℝ := if t = 0 then [0, 1] else [1, 1]

/-- C234 fails for `APMCABC` with two samples and `alpha = 1/4`: the particle at distance 0 is below the threshold 1/4, but as round(0.5) is 0 two new particles are drawn and replace the population. The smallest distance
is 1 afterwards. -/
theorem C234_apmcabc_violated : ∃ s, run exEnv ⟨2, 2, 1 / 4, 0, true⟩ 1 lostStart = some s ∧ s.journal.map Rec.distances = [[0, 1], [1, 1]] ∧ ¬ (s.hist.map Rec.distances).Pairwise NotWorse := by
  have hr : Rsmc.pyRound ((2 : ℕ) * (1 / 4)) = 0 := by
    have h2 : ⌊(1 / 2 : ℝ)⌋ = 0 := Int.floor_eq_zero_iff.2 (by constructor <;> norm_num)
    have h1 : ((2 : ℕ) * (1 / 4) : ℝ) = 1 / 2 := by norm_num
    rw [h1, Rsmc.pyRound, Int.fract, h2]
    norm_num
  have hw : wanted ⟨2, 2, 1 / 4, 0, true⟩ 1 = 2 := by simp only [wanted]; rw [hr]; rfl
  have hf : ⌊(1 / 4 : ℝ)⌋₊ = 0 := Nat.floor_eq_zero.2 (by norm_num)
  have hp1 : Pmc.percentile [0, 1] 25 = some (1 / 4) := by
    norm_num [Pmc.percentile, List.insertionSort, List.orderedInsert, hf]
  have hp2 : Pmc.percentile [1, 1] 25 = some 1 := by
    norm_num [Pmc.percentile, List.insertionSort, List.orderedInsert, hf]
  have h1 : step exEnv ⟨2, 2, 1 / 4, 0, true⟩ 1 0 (lostStart 0) ⟨[], [], [], false⟩ =
      some ⟨[1 / 4], [⟨1 / 4, [0, 1], [0, 1], [1, 1], [0], [0], [1]⟩], [⟨1 / 4, [0, 1], [0, 1], [1, 1], [0], [0], [1]⟩], false⟩ := by
    norm_num [step, lostStart, wanted, seen, accept, exEnv, collect, merge, acceptance, keep, select, Pmc.normalise, hp1]
    simp
  have h2 : ∃ s, step exEnv ⟨2, 2, 1 / 4, 0, true⟩ 1 1 (lostStart 1) ⟨[1 / 4], [⟨1 / 4, [0, 1], [0, 1], [1, 1], [0], [0], [1]⟩], [⟨1 / 4, [0, 1], [0, 1], [1, 1], [0], [0], [1]⟩], false⟩ = some s ∧
      s.journal.map Rec.distances = [[0, 1], [1, 1]] ∧ s.hist.map Rec.distances = [[0, 1], [1, 1]] := by
    norm_num [step, lostStart, hw, seen, accept, Smc.propose, exEnv, collect, merge, acceptance, keep, select, Pmc.normalise, mixture, hp2]
    exact ⟨_, ⟨by simp, rfl⟩, by simp, by simp⟩
  obtain ⟨s, h2, h3, h4⟩ := h2
  refine ⟨s, ?_, h3, fun h => ?_⟩
  · unfold run
    simp only
    rw [loop, h1]
    simp only [Bool.false_eq_true, if_false]
    rw [loop, h2]
    simp only [Bool.false_eq_true, if_false, loop]
  · rw [h4, List.pairwise_cons] at h
    obtain ⟨d, hd, hle⟩ := h.1 _ (List.mem_singleton.2 rfl) 0 (by simp)
    simp only [List.mem_cons, List.not_mem_nil, or_false, or_self] at hd
    rw [hd] at hle
    norm_num at hle

end Apmc

section Subsim
open Verif.Subsim

/-- C234 fails for `ABCsubsim`: the particles at distances 1 and 2 are the heads of the chains and are simulated again, the smallest distance is 6 afterwards. -/
theorem C234_subsim_violated : ∃ s, run exEnv ⟨5, 2, 2, 0, true⟩ 1 exStart exTune = some s ∧ s.hist.map (fun e => e.1.distances) = [[1, 2, 3, 4, 5], [6, 6, 7, 7]] ∧
    ¬ (s.hist.map fun e => e.1.distances).Pairwise NotWorse := by
  obtain ⟨s, h1, h2⟩ := exRun
  have h3 : s.hist.map (fun e => e.1.distances) = [[1, 2, 3, 4, 5], [6, 6, 7, 7]] := by
    have := congrArg (List.map fun x => x.2.1) h2
    rw [List.map_map] at this
    exact this
  refine ⟨s, h1, h3, fun h => ?_⟩
  rw [h3, List.pairwise_cons] at h
  obtain ⟨d, hd, hle⟩ := h.1 _ (List.mem_singleton.2 rfl) 1 (by simp)
  simp only [List.mem_cons, List.not_mem_nil, or_false] at hd
  rcases hd with rfl | rfl | rfl | rfl <;> norm_num at hle

end Subsim

end Verif.Best
