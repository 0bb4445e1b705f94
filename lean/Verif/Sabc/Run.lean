import Verif.Sabc.Spec
import Verif.Sabc.Props
import Verif.Smc.RHit
/-
Runs of the model of `SABC` are histories in the sense of `Verif.Sabc.Spec`.
-/
namespace Verif.Sabc

open Verif.Pmc (Pop)
open Verif.Smc (propose propose_spec)
open Verif.Smc.Spec (Proposal Trials)
open Verif.Sabc.Spec

theorem smooth_redefined (all : List ℝ) (d x : ℝ) (h : smooth all d = some x) : Redefined all d x := by
  unfold smooth at h
  rw [Option.map_eq_some_iff] at h
  obtain ⟨m, hm, rfl⟩ := h
  obtain ⟨h1, h2⟩ := List.min?_eq_some_iff.1 hm
  refine ⟨m, h1, h2, ?_, ?_⟩
  · intro hd
    rw [smoothAt, if_pos hd]; ring
  · intro hd
    rw [smoothAt, if_neg (not_lt.2 hd), List.countP_eq_length_filter]

theorem assign_miss {α : Type} (l : List α) (m : List (Nat × α)) (k : Nat) (h : ∀ e ∈ m, e.1 ≠ k) : (assign l m)[k]? = l[k]? := by
  unfold assign
  induction m generalizing l with
  | nil => rfl
  | cons e m ih =>
    rw [List.foldl_cons, ih _ (fun e he => h e (by simp [he])), List.getElem?_set_ne (h e (by simp))]

theorem assign_last {α : Type} (l : List α) (m1 m2 : List (Nat × α)) (e : Nat × α) (h : ∀ f ∈ m2, f.1 ≠ e.1) (he : e.1 < l.length) :
    (assign l (m1 ++ e :: m2))[e.1]? = some e.2 := by
  unfold assign
  rw [List.foldl_append, List.foldl_cons]
  have := assign_miss ((m1.foldl (fun l e => l.set e.1 e.2) l).set e.1 e.2) m2 e.1 h
  unfold assign at this
  rw [this, List.getElem?_set_self]
  have hl := assign_length l m1
  unfold assign at hl
  rw [hl]; exact he

variable {W Θ Y : Type} (env : Env W Θ Y) (c : Config)

theorem first_task (eps : ℝ) (index fuel : Nat) (w : W) (all : List ℝ) (n : Nat) (o : Out Θ) (h : first env eps index fuel w all n = some o) :
    ∃ w' l a, Trials (PriorTry env eps) w w' (l ++ [a]) ∧ (∀ b ∈ l, b.ok = false) ∧ a.ok = true ∧
    o.θ = a.θ ∧ o.d = a.d ∧ o.all = all ++ (l ++ [a]).map Draw.d ∧ o.accepted = true ∧ o.count = n + (l.length + 1) := by
  induction fuel generalizing w all n with
  | zero => simp [first] at h
  | succ fuel ih =>
    rw [first] at h
    have htry : ∀ b, (env.bern (Real.exp (-env.dist (env.sim (env.prior w).2 (env.prior w).1).2 / eps)) (env.sim (env.prior w).2 (env.prior w).1).1).2 = b →
        PriorTry env eps w (env.bern (Real.exp (-env.dist (env.sim (env.prior w).2 (env.prior w).1).2 / eps)) (env.sim (env.prior w).2 (env.prior w).1).1).1
          ⟨(env.prior w).2, env.dist (env.sim (env.prior w).2 (env.prior w).1).2, b⟩ := by
      intro b hb
      refine ⟨_, _, _, rfl, rfl, rfl, ?_⟩
      rw [← hb, ← neg_div]
    split at h
    · rename_i hu
      simp only [Option.some.injEq] at h
      subst h
      exact ⟨_, [], _, .cons _ _ _ _ _ (htry true hu) (.nil _), by simp, rfl, rfl, rfl, rfl, rfl, rfl⟩
    · rename_i hu
      obtain ⟨w', l, a, h1, h2, h3, h4, h5, h6, h7, h8⟩ := ih _ _ _ h
      refine ⟨w', _ :: l, a, .cons _ _ _ _ _ (htry false (by simpa using hu)) h1, ?_, h3, h4, h5, ?_, h7, ?_⟩
      · intro b hb
        rcases List.mem_cons.1 hb with rfl | hb
        · rfl
        · exact h2 b hb
      · rw [h6]; simp
      · rw [h8]; simp; omega

/-- The population of a state. -/
def popOf (ps : List Θ) (ds sm : List ℝ) : List (Particle Θ) := (ps.zip (ds.zip sm)).map fun e => ⟨e.1, e.2.1, e.2.2⟩

theorem popOf_length (ps : List Θ) (ds sm : List ℝ) (n : Nat) (h1 : ps.length = n) (h2 : ds.length = n) (h3 : sm.length = n) : (popOf ps ds sm).length = n := by
  simp [popOf, h1, h2, h3]

theorem popOf_get (ps : List Θ) (ds sm : List ℝ) (k : Nat) (a : Particle Θ) :
    (popOf ps ds sm)[k]? = some a ↔ ps[k]? = some a.θ ∧ ds[k]? = some a.d ∧ sm[k]? = some a.x := by
  simp only [popOf, List.getElem?_map, Option.map_eq_some_iff, List.getElem?_zip_eq_some]
  constructor
  · rintro ⟨e, ⟨h1, h2, h3⟩, rfl⟩
    exact ⟨h1, h2, h3⟩
  · rintro ⟨h1, h2, h3⟩
    exact ⟨(a.θ, a.d, a.x), ⟨h1, h2, h3⟩, rfl⟩

theorem popOf_ext (ps ps' : List Θ) (ds sm ds' sm' : List ℝ) (k k' : Nat) (h1 : ps[k]? = ps'[k']?) (h2 : ds[k]? = ds'[k']?) (h3 : sm[k]? = sm'[k']?) :
    (popOf ps ds sm)[k]? = (popOf ps' ds' sm')[k']? := by
  ext a
  rw [popOf_get, popOf_get, h1, h2, h3]

theorem popOf_fields (ps : List Θ) (ds sm : List ℝ) (n : Nat) (h1 : ps.length = n) (h2 : ds.length = n) (h3 : sm.length = n) :
    (popOf ps ds sm).map Particle.θ = ps ∧ (popOf ps ds sm).map Particle.d = ds ∧ (popOf ps ds sm).map Particle.x = sm := by
  have hz : ds.length = sm.length := by omega
  refine ⟨?_, ?_, ?_⟩
  · have : (popOf ps ds sm).map Particle.θ = (ps.zip (ds.zip sm)).map Prod.fst := by simp [popOf]
    rw [this, List.map_fst_zip]
    simp [h1, h2, h3]
  · have : (popOf ps ds sm).map Particle.d = ((ps.zip (ds.zip sm)).map Prod.snd).map Prod.fst := by simp [popOf]
    rw [this, List.map_snd_zip (by simp [h1, h2, h3]), List.map_fst_zip (by omega)]
  · have : (popOf ps ds sm).map Particle.x = ((ps.zip (ds.zip sm)).map Prod.snd).map Prod.snd := by simp [popOf]
    rw [this, List.map_snd_zip (by simp [h1, h2, h3]), List.map_snd_zip (by omega)]

theorem move_task (fuel : Nat) (s : State Θ) (w : W) (o : Out Θ) (h1 : s.params.length = c.n) (h2 : s.distances.length = c.n) (h3 : s.smooths.length = c.n)
    (h : move env fuel c.n s w = some o) : MoveTask env s.all s.eps (popOf s.params s.distances s.smooths) w o := by
  simp only [move, Option.bind_eq_some_iff, Option.map_eq_some_iff] at h
  obtain ⟨θ, hθ, sθ, hsθ, a, ha, sd, hsd, rfl⟩ := h
  have hlt : (env.choose c.n w).2 < s.distances.length := by have := (List.getElem?_eq_some_iff.1 hθ).1; omega
  obtain ⟨w1, θ'⟩ := a
  have hp := propose_spec _ _ _ _ _ _ ha
  have hpop : asPop (popOf s.params s.distances s.smooths) = ⟨s.params, List.replicate c.n 1⟩ := by
    unfold asPop
    rw [(popOf_fields _ _ _ c.n h1 h2 h3).1, List.map_const', popOf_length _ _ _ c.n h1 h2 h3]
  refine ⟨(env.choose c.n w).1, ⟨θ, s.distances[(env.choose c.n w).2], sθ⟩, w1, (env.sim θ' w1).1, (env.unif (env.sim θ' w1).1).1, (env.sim θ' w1).2, sd, (env.unif (env.sim θ' w1).1).2,
    ?_, ?_, ?_, rfl, rfl, smooth_redefined _ _ _ hsd, rfl, rfl, ?_⟩
  · rw [popOf_length _ _ _ c.n h1 h2 h3]
  · exact (popOf_get _ _ _ _ _).2 ⟨hθ, List.getElem?_eq_getElem hlt, hsθ⟩
  · rw [hpop]; exact hp
  · simp only
    split <;> simp

theorem replaced (s : State Θ) (hok : Ok env c s.all s.params s.distances s.smooths) (out : List (Out Θ)) (hi : ∀ o ∈ out, o.index < c.n) (ho : ∀ o ∈ out, Own env o.θ o.d)
    (p : List Θ × List ℝ × List ℝ × List ℝ) (h : replace s out = some p) :
    Replaced s.all out (popOf s.params s.distances s.smooths) (popOf p.1 p.2.1 p.2.2.1) := by
  obtain ⟨hok', hall⟩ := replace_spec env c s hok out ho p h
  rw [hall] at hok'
  simp only [replace, Option.map_eq_some_iff] at h
  obtain ⟨m, hm, rfl⟩ := h
  rw [collect_eq_some] at hm
  simp only at hok' ⊢
  refine ⟨?_, ?_, ?_⟩
  · rw [popOf_length _ _ _ c.n hok'.params hok'.distances hok'.smooths, popOf_length _ _ _ c.n hok.params hok.distances hok.smooths]
  · intro k hk
    have hmiss : ∀ {α : Type} (f : Out Θ → α), ∀ e ∈ (out.filter Out.accepted).map (fun o => (o.index, f o)), e.1 ≠ k := by
      intro α f e he
      obtain ⟨o, ho', rfl⟩ := List.mem_map.1 he
      obtain ⟨ho1, ho2⟩ := List.mem_filter.1 ho'
      exact hk o ho1 ho2
    refine popOf_ext _ _ _ _ _ _ _ _ (assign_miss _ _ _ (hmiss _)) (assign_miss _ _ _ (hmiss _)) (assign_miss _ _ _ ?_)
    intro e he
    have : some e ∈ m.map some := List.mem_map.2 ⟨e, he, rfl⟩
    rw [← hm, List.mem_map] at this
    obtain ⟨o, ho1, ho2⟩ := this
    simp only [Option.bind_eq_some_iff, Option.map_eq_some_iff] at ho2
    obtain ⟨d', -, x', -, rfl⟩ := ho2
    obtain ⟨ho3, ho4⟩ := List.mem_filter.1 ho1
    exact hk o ho3 ho4
  · intro l1 o l2 hsplit hacc hlast
    have hin : o.index < c.n := hi o (by rw [hsplit]; simp)
    have hacc' : out.filter Out.accepted = l1.filter Out.accepted ++ o :: l2.filter Out.accepted := by
      rw [hsplit, List.filter_append, List.filter_cons_of_pos hacc]
    have hset : ∀ {α : Type} (l : List α) (f : Out Θ → α), l.length = c.n →
        (assign l ((out.filter Out.accepted).map fun o => (o.index, f o)))[o.index]? = some (f o) := by
      intro α l f hl
      rw [hacc', List.map_append, List.map_cons]
      refine assign_last l _ _ (o.index, f o) ?_ (by rw [hl]; exact hin)
      intro e he
      obtain ⟨o', ho', rfl⟩ := List.mem_map.1 he
      obtain ⟨ho1, ho2⟩ := List.mem_filter.1 ho'
      exact hlast o' ho1 ho2
    have hd := hset s.distances Out.d hok.distances
    have hp := hset s.params Out.θ hok.params
    have hxl : o.index < (assign s.smooths m).length := by rw [hok'.smooths]; exact hin
    have hx := List.getElem?_eq_getElem hxl
    exact ⟨_, smooth_redefined _ _ _ (hok'.redefined _ _ _ hd hx), (popOf_get _ _ _ _ _).2 ⟨hp, hd, hx⟩⟩

theorem mean_meanX (ps : List Θ) (ds sm : List ℝ) (n : Nat) (h1 : ps.length = n) (h2 : ds.length = n) (h3 : sm.length = n) :
    mean sm = meanX (popOf ps ds sm) := by
  rw [mean, meanX, (popOf_fields _ _ _ n h1 h2 h3).2.2, popOf_length _ _ _ n h1 h2 h3, h3]

theorem weights_probabilities (delta u : ℝ) (ps : List Θ) (ds sm : List ℝ) (n : Nat) (h1 : ps.length = n) (h2 : ds.length = n) (h3 : sm.length = n) :
    Probabilities delta u (popOf ps ds sm) (weights delta u sm) := by
  have hx := (popOf_fields _ _ _ n h1 h2 h3).2.2
  have he : ∀ x : ℝ, -x * delta / u = -(delta * x / u) := fun x => by ring
  refine ⟨?_, ?_⟩
  · rw [popOf_length _ _ _ n h1 h2 h3]
    simp [weights, h3]
  · intro i a p ha hp
    have h4 := ((popOf_get _ _ _ _ _).1 ha).2.2
    simp only [weights, List.map_map, List.getElem?_map, h4, Option.map_some, Option.some.injEq, Function.comp_apply, he] at hp
    rw [← hp]
    congr 2
    rw [← hx, List.map_map]; rw [hx]; rfl

/-- The stage that a state stands for. -/
def stage (s : State Θ) : Stage Θ := ⟨popOf s.params s.distances s.smooths, s.all, s.eps, s.accept, s.until_⟩

theorem finish_finished (t : Nat) (u : ℝ) (s s' : State Θ) (h : finish env c t u s = some s') (hok : Ok env c s.all s.params s.distances s.smooths) (he : s.eps = env.schedule u) :
    Finished env c t u (stage s) (stage s') ∧ s'.counter = s.counter ∧ s'.stopped = s.stopped := by
  have hok' := (finish_spec env c t u s s' h hok).1
  unfold finish at h
  simp only at h
  split at h
  · rename_i hc
    split at h
    swap
    · cases h
    rename_i hlen
    split at h
    swap
    · cases h
    rename_i ps sm ds e1 e2 e3
    simp only [Option.some.injEq] at h
    subst h
    simp only at hok'
    rw [collect_eq_some] at e1 e2 e3
    refine ⟨⟨rfl, ?_⟩, rfl, rfl⟩
    unfold stage
    simp only
    rw [if_pos hc]
    refine ⟨weights c.delta u s.smooths, weights_probabilities _ _ _ _ _ c.n hok.params hok.distances hok.smooths, hlen, ?_,
      by rw [mean_meanX _ _ _ c.n hok'.params hok'.distances hok'.smooths], trivial, trivial⟩
    apply List.ext_getElem?
    intro k
    have l1 := congrArg (fun l => l[k]?) e1
    have l2 := congrArg (fun l => l[k]?) e2
    have l3 := congrArg (fun l => l[k]?) e3
    simp only [List.getElem?_map] at l1 l2 l3 ⊢
    cases hk : (env.pick t (weights c.delta u s.smooths))[k]? with
    | none =>
      have : (popOf ps ds sm)[k]? = none := by
        rw [List.getElem?_eq_none_iff, popOf_length _ _ _ c.n hok'.params hok'.distances hok'.smooths, ← hlen]
        exact List.getElem?_eq_none_iff.1 hk
      rw [this]; rfl
    | some j =>
      rw [hk, Option.map_some] at l1 l2 l3
      have hkl : k < (popOf ps ds sm).length := by
        rw [popOf_length _ _ _ c.n hok'.params hok'.distances hok'.smooths, ← hlen]
        exact (List.getElem?_eq_some_iff.1 hk).1
      have hg := List.getElem?_eq_getElem hkl
      obtain ⟨g1, g2, g3⟩ := (popOf_get _ _ _ _ _).1 hg
      rw [hg, Option.map_some, Option.map_some, Option.some.injEq]
      rw [g1, Option.map_some, Option.some.injEq] at l1
      rw [g2, Option.map_some, Option.some.injEq] at l3
      rw [g3, Option.map_some, Option.some.injEq] at l2
      exact (popOf_get _ _ _ _ _).2 ⟨l1, l3, l2⟩
  · rename_i hc
    simp only [Option.some.injEq] at h
    subst h
    refine ⟨⟨rfl, ?_⟩, rfl, rfl⟩
    unfold stage
    simp only
    rw [if_neg hc]
    exact ⟨trivial, he, trivial, trivial⟩

theorem average_weighted (xs : List ℝ) (eps : ℝ) : average xs eps = weighted xs eps := by
  unfold average weighted
  congr 1
  simp only [neg_div, mul_comm]

/-- The invariant of the loop before iteration `t`. -/
def Follows (start : Nat → List W) (t : Nat) (s : State Θ) : Prop :=
  (t = 0 → s = ⟨[], [], [], [], c.eps, 0, 0, [], 0, false⟩) ∧
  (t ≠ 0 → Ok env c s.all s.params s.distances s.smooths ∧ ∃ pops, History env c start pops (stage s) s.counter s.stopped ∧ pops.length = t ∧
    s.journal = (let l := if s.stopped then pops.dropLast else pops
      (if c.full then l else l.drop (l.length - 1)).map fun pop => (pop.map Particle.θ, pop.map Particle.d)))

theorem index_lt (fuel : Nat) (s : State Θ) (h1 : s.params.length = c.n) (w : W) (o : Out Θ) (h : move env fuel c.n s w = some o) : o.index < c.n := by
  simp only [move, Option.bind_eq_some_iff, Option.map_eq_some_iff] at h
  obtain ⟨θ, hθ, sθ, -, a, -, sd, -, rfl⟩ := h
  rw [← h1]
  have := (List.getElem?_eq_some_iff.1 hθ).1
  rwa [h1] at this ⊢

theorem follows_step (fuel t : Nat) (start : Nat → List W) (s s' : State Θ) (hI : Follows env c start t s) (hst : s.stopped = false) (h : step env c fuel t (start t) s = some s') :
    Follows env c start (t + 1) s' := by
  obtain ⟨hokS, -, -, hj1, hj2⟩ := step_spec env c fuel t (start t) s s' (fun ht => (hI.2 ht).1) h
  refine ⟨by simp, fun _ => ⟨hokS, ?_⟩⟩
  unfold step at h
  by_cases hs : (start t).length ≠ (if t = 0 then c.n else c.nUpdate) ∨ start t = []
  · rw [if_pos hs] at h; cases h
  rw [if_neg hs] at h
  rw [not_or, not_not] at hs
  have hpos : 0 < (start t).length := List.length_pos_iff.2 hs.2
  split at h
  · cases h
  rename_i out hout
  rw [collect_eq_some] at hout
  have hol : out.length = (start t).length := by simpa using (congrArg List.length hout).symm
  have htask : ∀ (i : Nat) (o : Out Θ) (w : W), out[i]? = some o → (start t)[i]? = some w → (if t = 0 then first env c.eps 0 fuel w [] 0 else move env fuel c.n s w) = some o := by
    intro i o w ho hw
    have := congrArg (fun l => l[i]?) hout
    simpa only [List.getElem?_map, ho, hw, Option.map_some, Option.some.injEq] using this
  have hmem : ∀ o ∈ out, ∃ w, (if t = 0 then first env c.eps 0 fuel w [] 0 else move env fuel c.n s w) = some o := by
    intro o ho
    obtain ⟨i, hi⟩ := List.mem_iff_getElem?.1 ho
    have hil : i < (start t).length := by rw [← hol]; exact (List.getElem?_eq_some_iff.1 hi).1
    exact ⟨_, htask i o _ hi (List.getElem?_eq_getElem hil)⟩
  have hown : ∀ o ∈ out, Own env o.θ o.d := by
    intro o ho
    obtain ⟨w, hw⟩ := hmem o ho
    split at hw
    · exact (first_spec env _ _ _ _ _ _ o hw (by simp)).1
    · exact move_spec env _ _ _ _ o hw
  split at h
  · cases h
  rename_i p hp
  simp only at h
  by_cases ht : t = 0
  · subst ht
    have hs0 := hI.1 rfl
    rw [if_pos rfl] at h hp hs
    obtain ⟨hok', hall⟩ := begin_spec env c out (by omega) hown p hp
    split at h
    · cases h
    rename_i xs hxs
    obtain ⟨hfin, hcnt, hstp⟩ := finish_finished env c _ _ _ s' h hok' rfl
    simp only at hcnt hstp
    rw [hstp] at hj2 ⊢
    have hjr := hj2 rfl
    have hs0c : s.counter = 0 := by rw [hs0]
    have hs0j : s.journal = [] := by rw [hs0]
    rw [average_weighted] at hfin
    have hfields := popOf_fields _ _ _ c.n hokS.params hokS.distances hokS.smooths
    refine ⟨[popOf s'.params s'.distances s'.smooths], ?_, rfl, ?_⟩
    · rw [hcnt, hs0c, Nat.zero_add]
      refine History.first out xs _ (stage s') (by omega) (by omega) (by omega) ?_ hall ?_ rfl rfl ?_ hfin
      · intro i o w ho hw
        have := htask i o w ho hw
        rw [if_pos rfl] at this
        obtain ⟨w', l, a, h1, h2, h3, h4, h5, h6, h7, h8⟩ := first_task env _ _ _ _ _ _ o this
        exact ⟨w', l, a, h1, h2, h3, h4, h5, by simpa using h6, h7, by simpa using h8⟩
      · refine ⟨?_, ?_⟩
        · show (popOf _ _ _).length = _
          rw [popOf_length _ _ _ c.n hok'.params hok'.distances hok'.smooths]; omega
        · intro i o a ho ha
          have ha' := (popOf_get _ _ _ _ _).1 ha
          simp only [begin_, Option.map_eq_some_iff] at hp
          obtain ⟨sm, hsm, rfl⟩ := hp
          simp only [List.getElem?_map, ho, Option.map_some, Option.some.injEq] at ha'
          refine ⟨ha'.1.symm, ha'.2.1.symm, ?_⟩
          have := hok'.redefined i o.d a.x (by simp [ho]) ha'.2.2
          exact smooth_redefined _ _ _ this
      · show List.Forall₂ (Redefined p.2.2.2) p.2.2.2 xs
        rw [collect_eq_some] at hxs
        rw [List.forall₂_iff_get]
        have hl : p.2.2.2.length = xs.length := by simpa using congrArg List.length hxs
        refine ⟨hl, ?_⟩
        intro i h1 h2
        have := congrArg (fun l => l[i]?) hxs
        simp only [List.getElem?_map, List.getElem?_eq_getElem h1, List.getElem?_eq_getElem h2, Option.map_some, Option.some.injEq] at this
        exact smooth_redefined _ _ _ this
    · rw [hjr, hs0j]
      simp [hfields.1, hfields.2.1]
  · rw [if_neg ht] at h hp hs
    obtain ⟨hokI, pops, hH, hpl, hjI⟩ := hI.2 ht
    rw [hst] at hH hjI
    obtain ⟨hok', hall⟩ := replace_spec env c s hokI out hown p hp
    have hidx : ∀ o ∈ out, o.index < c.n := by
      intro o ho
      obtain ⟨w, hw⟩ := hmem o ho
      rw [if_neg ht] at hw
      exact index_lt env c fuel s hokI.params w o hw
    have hrep := replaced env c s hokI out hidx hown p hp
    have hmv : ∀ (i : Nat) (o : Out Θ) (w : W), out[i]? = some o → (start pops.length)[i]? = some w → MoveTask env (stage s).all (stage s).eps (stage s).pop w o := by
      intro i o w ho hw
      rw [hpl] at hw
      have := htask i o w ho hw
      rw [if_neg ht] at this
      exact move_task env c fuel s w o hokI.params hokI.distances hokI.smooths this
    have hfields := popOf_fields _ _ _ c.n hokS.params hokS.distances hokS.smooths
    simp only [List.countP_eq_length_filter] at h
    split at h
    · rename_i hcut
      simp only [Option.some.injEq] at h
      have e1 : s'.counter = s.counter + (out.map Out.count).sum := by rw [← h]
      have e2 : s'.stopped = true := by rw [← h]
      have e3 : stage s' = ⟨popOf p.1 p.2.1 p.2.2.1, p.2.2.2, env.schedule (mean p.2.2.1), s.accept + (out.filter Out.accepted).length, s.until_ + c.nUpdate⟩ := by rw [← h]; rfl
      refine ⟨pops ++ [(stage s').pop], ?_, by simp [hpl], ?_⟩
      · rw [e1, e2]
        refine History.stop pops (stage s) (stage s') s.counter out hH (by omega) (by omega) (by rw [hpl]; omega) hmv ?_ ?_ ?_ ?_ ?_ ?_
        · rw [e3]; exact hall
        · rw [e3]; exact hrep
        · rw [e3]; rfl
        · rw [e3]; rfl
        · rw [e3]; exact hcut
        · rw [e3, mean_meanX _ _ _ c.n hok'.params hok'.distances hok'.smooths]
      · rw [(hj1 e2).2, hjI, e2]
        simp
    · rename_i hcut
      obtain ⟨hfin, hcnt, hstp⟩ := finish_finished env c _ _ _ s' h hok' rfl
      simp only at hcnt hstp
      rw [hstp] at hj2 ⊢
      have hjr := hj2 rfl
      refine ⟨pops ++ [popOf s'.params s'.distances s'.smooths], ?_, by simp [hpl], ?_⟩
      · rw [hcnt]
        refine History.step pops (stage s) ⟨popOf p.1 p.2.1 p.2.2.1, p.2.2.2, env.schedule (mean p.2.2.1), s.accept + (out.filter Out.accepted).length, s.until_ + c.nUpdate⟩
          (stage s') s.counter out hH (by omega) (by omega) (by rw [hpl]; omega) hmv ?_ ?_ ?_ ?_ ?_ ?_
        · exact hall
        · exact hrep
        · rfl
        · rfl
        · exact not_lt.1 hcut
        · rw [hpl, ← mean_meanX _ _ _ c.n hok'.params hok'.distances hok'.smooths]
          exact hfin
      · rw [hjr, hjI]
        split <;> simp [hfields.1, hfields.2.1]

/-- C102. Every run of `SABC` with at least one step is a history in the sense of the specification: the populations, the distances of the first step, `epsilon`, the numbers of accepted and tried moves and
the number of simulations are those of the algorithm; the run ends before its last step only if the acceptance rate is below the cutoff. The journal has the populations of all steps, or the last one only; a step that
falls below the cutoff leaves nothing in the journal (C46). -/
theorem C102_run (fuel : Nat) (start : Nat → List W) (s : State Θ) (hs : 0 < c.steps) (h : run env c fuel start = some s) :
    ∃ pops, History env c start pops (stage s) s.counter s.stopped ∧ pops.length ≤ c.steps ∧ (pops.length < c.steps → s.stopped = true) ∧
      s.journal = (let l := if s.stopped then pops.dropLast else pops
        (if c.full then l else l.drop (l.length - 1)).map fun pop => (pop.map Particle.θ, pop.map Particle.d)) := by
  unfold run at h
  obtain ⟨t', h1, h2, hI, h3⟩ := loop_inv env c fuel start (Follows env c start) (fun t s s' hI hst h => follows_step env c fuel t start s s' hI hst h) c.steps 0 _ s
    ⟨fun _ => rfl, fun h => absurd rfl h⟩ h
  have ht : t' ≠ 0 := by
    intro h0
    have := h3 (by omega)
    rw [hI.1 h0] at this
    cases this
  obtain ⟨-, pops, hH, hl, hj⟩ := hI.2 ht
  exact ⟨pops, hH, by omega, fun hlt => h3 (by omega), hj⟩

/-- The hypotheses are met by the run of C46, which makes two steps and stops. -/
example : ∃ s, run exEnv ⟨1, 2, 2, 10, 1 / 10, 1, 6 / 10, true⟩ 1 exStart = some s ∧ s.stopped = true := by
  obtain ⟨s, h, h1, -⟩ := C46_sabc_violated
  exact ⟨s, h, h1⟩

end Verif.Sabc
