import Verif.Sabc.Model
import Verif.Smc.Lemmas
/-
Lemmas about the model of `SABC`.
-/
namespace Verif.Sabc

open Verif.Pmc (Pop)
open Verif.Smc (propose)

theorem assign_length {α : Type} (l : List α) (m : List (Nat × α)) : (assign l m).length = l.length := by
  unfold assign
  induction m generalizing l with
  | nil => rfl
  | cons e m ih => rw [List.foldl_cons, ih, List.length_set]

theorem assign_get {α : Type} (l : List α) (m : List (Nat × α)) (k : Nat) (x : α) (h : (assign l m)[k]? = some x) :
    (∃ e ∈ m, e.1 = k ∧ e.2 = x) ∨ ((∀ e ∈ m, e.1 ≠ k) ∧ l[k]? = some x) := by
  unfold assign at h
  induction m generalizing l with
  | nil => exact .inr ⟨by simp, h⟩
  | cons e m ih =>
    rw [List.foldl_cons] at h
    rcases ih _ h with ⟨e', he', h1⟩ | ⟨h1, h2⟩
    · exact .inl ⟨e', by simp [he'], h1⟩
    · rw [List.getElem?_set] at h2
      split at h2
      · rename_i hk
        split at h2
        · simp only [Option.some.injEq] at h2
          exact .inl ⟨e, by simp, hk, h2⟩
        · cases h2
      · rename_i hk
        refine .inr ⟨?_, h2⟩
        intro e' he'
        rcases List.mem_cons.1 he' with rfl | he'
        · exact hk
        · exact h1 e' he'

/-- Two arrays that are updated at the same places stay related. -/
theorem assign_rel {α β γ : Type} (R : α → β → Prop) (acc : List γ) (i : γ → Nat) (f : γ → α) (g : γ → β) (h : ∀ o ∈ acc, R (f o) (g o))
    (l : List α) (l' : List β) (hlen : l.length = l'.length) (hl : ∀ (k : Nat) (a : α) (b : β), l[k]? = some a → l'[k]? = some b → R a b) :
    ∀ (k : Nat) (a : α) (b : β), (assign l (acc.map fun o => (i o, f o)))[k]? = some a → (assign l' (acc.map fun o => (i o, g o)))[k]? = some b → R a b := by
  unfold assign
  induction acc generalizing l l' with
  | nil => exact hl
  | cons o acc ih =>
    simp only [List.map_cons, List.foldl_cons]
    refine ih (fun o ho => h o (by simp [ho])) _ _ (by simp [hlen]) ?_
    intro k a b ha hb
    rw [List.getElem?_set] at ha hb
    split at ha
    · rename_i hk
      rw [if_pos hk] at hb
      split at ha
      · rename_i h1
        rw [if_pos (by omega)] at hb
        simp only [Option.some.injEq] at ha hb
        rw [← ha, ← hb]
        exact h o (by simp)
      · cases ha
    · rename_i hk
      rw [if_neg hk] at hb
      exact hl k a b ha hb

variable {W Θ Y : Type} (env : Env W Θ Y) (c : Config)

/-- `d` is the distance of a data set simulated from `θ`. -/
def Own (θ : Θ) (d : ℝ) : Prop := ∃ w, d = env.dist (env.sim θ w).2

theorem first_spec (eps : ℝ) (index fuel : Nat) (w : W) (all : List ℝ) (n : Nat) (o : Out Θ) (h : first env eps index fuel w all n = some o)
    (hall : ∀ d ∈ all, ∃ θ, Own env θ d) : Own env o.θ o.d ∧ (∀ d ∈ o.all, ∃ θ, Own env θ d) ∧ o.all ≠ [] ∧ o.accepted = true := by
  induction fuel generalizing w all n with
  | zero => simp [first] at h
  | succ fuel ih =>
    rw [first] at h
    have hall' : ∀ d ∈ all ++ [env.dist (env.sim (env.prior w).2 (env.prior w).1).2], ∃ θ, Own env θ d := by
      intro d hd
      rcases List.mem_append.1 hd with hd | hd
      · exact hall d hd
      · simp only [List.mem_singleton] at hd; exact ⟨_, _, hd⟩
    split at h
    · simp only [Option.some.injEq] at h
      subst h
      exact ⟨⟨_, rfl⟩, hall', by simp, rfl⟩
    · exact ih _ _ _ h hall'

theorem move_spec (fuel n : Nat) (s : State Θ) (w : W) (o : Out Θ) (h : move env fuel n s w = some o) : Own env o.θ o.d := by
  simp only [move, Option.bind_eq_some_iff, Option.map_eq_some_iff] at h
  obtain ⟨θ, -, sθ, -, a, -, sd, -, rfl⟩ := h
  exact ⟨_, rfl⟩

/-- Lengths, distances and redefined distances of a population. -/
structure Ok (all : List ℝ) (ps : List Θ) (ds sm : List ℝ) : Prop where
  params : ps.length = c.n
  distances : ds.length = c.n
  smooths : sm.length = c.n
  own : ∀ (i : Nat) (θ : Θ) (d : ℝ), ps[i]? = some θ → ds[i]? = some d → Own env θ d
  redefined : ∀ (i : Nat) (d x : ℝ), ds[i]? = some d → sm[i]? = some x → smooth all d = some x

theorem finish_spec (t : Nat) (u : ℝ) (s s' : State Θ) (h : finish env c t u s = some s') (hok : Ok env c s.all s.params s.distances s.smooths) :
    Ok env c s'.all s'.params s'.distances s'.smooths ∧ s'.all = s.all ∧ s'.counter = s.counter ∧ s'.stopped = s.stopped ∧
    s'.journal = (if c.full then s.journal ++ [(s'.params, s'.distances)] else [(s'.params, s'.distances)]) := by
  unfold finish at h
  simp only at h
  split at h
  · split at h
    swap
    · cases h
    rename_i hlen
    split at h
    swap
    · cases h
    rename_i ps sm ds h1 h2 h3
    simp only [Option.some.injEq] at h
    subst h
    rw [collect_eq_some] at h1 h2 h3
    have l1 := congrArg List.length h1
    have l2 := congrArg List.length h2
    have l3 := congrArg List.length h3
    simp only [List.length_map] at l1 l2 l3
    have hget : ∀ {α : Type} (l out : List α) (_ : (env.pick t (weights c.delta u s.smooths)).map (fun i => l[i]?) = out.map some) (i : Nat) (a : α), out[i]? = some a →
        ∃ j, (env.pick t (weights c.delta u s.smooths))[i]? = some j ∧ l[j]? = some a := by
      intro α l out h i a ha
      have := congrArg (fun l => l[i]?) h
      simp only [List.getElem?_map, ha, Option.map_some] at this
      rw [Option.map_eq_some_iff] at this
      exact this
    refine ⟨⟨by simp only; omega, by simp only; omega, by simp only; omega, ?_, ?_⟩, rfl, rfl, rfl, rfl⟩
    · intro i θ d hi hd
      obtain ⟨j, hj, hj'⟩ := hget _ _ h1 i θ hi
      obtain ⟨k, hk, hk'⟩ := hget _ _ h3 i d hd
      rw [hj, Option.some.injEq] at hk
      subst hk
      exact hok.own j θ d hj' hk'
    · intro i d x hi hd
      obtain ⟨j, hj, hj'⟩ := hget _ _ h3 i d hi
      obtain ⟨k, hk, hk'⟩ := hget _ _ h2 i x hd
      rw [hj, Option.some.injEq] at hk
      subst hk
      exact hok.redefined j d x hj' hk'
  · simp only [Option.some.injEq] at h
    subst h
    exact ⟨⟨hok.params, hok.distances, hok.smooths, hok.own, hok.redefined⟩, rfl, rfl, rfl, rfl⟩

theorem begin_spec (out : List (Out Θ)) (hn : out.length = c.n) (ho : ∀ o ∈ out, Own env o.θ o.d) (p : List Θ × List ℝ × List ℝ × List ℝ)
    (h : begin_ out = some p) : Ok env c p.2.2.2 p.1 p.2.1 p.2.2.1 ∧ p.2.2.2 = (out.map Out.all).flatten := by
  simp only [begin_, Option.map_eq_some_iff] at h
  obtain ⟨sm, hsm, rfl⟩ := h
  rw [collect_eq_some] at hsm
  have hl := congrArg List.length hsm
  simp only [List.length_map] at hl
  refine ⟨⟨by simpa using hn, by simpa using hn, by simp only; omega, ?_, ?_⟩, rfl⟩
  · intro i θ d hi hd
    simp only [List.getElem?_map, Option.map_eq_some_iff] at hi hd
    obtain ⟨a, ha, rfl⟩ := hi
    obtain ⟨b, hb, rfl⟩ := hd
    rw [ha, Option.some.injEq] at hb
    subst hb
    exact ho a (List.mem_of_getElem? ha)
  · intro i d x hi hx
    simp only [List.getElem?_map, Option.map_eq_some_iff] at hi
    obtain ⟨a, ha, rfl⟩ := hi
    have := congrArg (fun l => l[i]?) hsm
    simp only [List.getElem?_map, ha, Option.map_some] at this
    rw [show sm[i]? = some x from hx, Option.map_some, Option.some.injEq] at this
    exact this

theorem replace_spec (s : State Θ) (hok : Ok env c s.all s.params s.distances s.smooths) (out : List (Out Θ)) (ho : ∀ o ∈ out, Own env o.θ o.d)
    (p : List Θ × List ℝ × List ℝ × List ℝ) (h : replace s out = some p) : Ok env c p.2.2.2 p.1 p.2.1 p.2.2.1 ∧ p.2.2.2 = s.all := by
  simp only [replace, Option.map_eq_some_iff] at h
  obtain ⟨m, hm, rfl⟩ := h
  rw [collect_eq_some] at hm
  refine ⟨⟨by simp only [assign_length]; exact hok.params, by simp only [assign_length]; exact hok.distances,
    by simp only [assign_length]; exact hok.smooths, ?_, ?_⟩, rfl⟩
  · exact assign_rel (Own env) (out.filter Out.accepted) Out.index Out.θ Out.d (fun o h => ho o (List.mem_filter.1 h).1) _ _ (by rw [hok.params, hok.distances]) hok.own
  · intro i d x hd hx
    simp only at hd hx
    have hfind : ∀ e ∈ m, ∃ d', (assign s.distances ((out.filter Out.accepted).map fun o => (o.index, o.d)))[e.1]? = some d' ∧ smooth s.all d' = some e.2 ∧
        ∃ o ∈ out.filter Out.accepted, o.index = e.1 := by
      intro e he
      have : some e ∈ m.map some := List.mem_map.2 ⟨e, he, rfl⟩
      rw [← hm, List.mem_map] at this
      obtain ⟨o, ho, ho'⟩ := this
      simp only [Option.bind_eq_some_iff, Option.map_eq_some_iff] at ho'
      obtain ⟨d', h1, x', h2, rfl⟩ := ho'
      exact ⟨d', h1, h2, o, ho, rfl⟩
    rcases assign_get _ _ _ _ hx with ⟨e, he, h1, h2⟩ | ⟨h1, h2⟩
    · obtain ⟨d', h3, h4, -⟩ := hfind e he
      rw [h1, hd, Option.some.injEq] at h3
      rw [h3, h4, h2]
    · -- the place was not touched
      rcases assign_get _ _ _ _ hd with ⟨e, he, h3, -⟩ | ⟨-, h3⟩
      · obtain ⟨o, ho', rfl⟩ := List.mem_map.1 he
        -- the result for this move is in `m`
        have : ∃ e ∈ m, e.1 = i := by
          obtain ⟨k, hk⟩ := List.mem_iff_getElem?.1 ho'
          have := congrArg (fun l => l[k]?) hm
          simp only [List.getElem?_map, hk, Option.map_some] at this
          cases hmk : m[k]? with
          | none => rw [hmk] at this; simp at this
          | some e =>
            rw [hmk, Option.map_some, Option.some.injEq, Option.bind_eq_some_iff] at this
            obtain ⟨d', -, h5⟩ := this
            rw [Option.map_eq_some_iff] at h5
            obtain ⟨x', -, rfl⟩ := h5
            exact ⟨_, List.mem_of_getElem? hmk, h3⟩
        obtain ⟨e, he, hei⟩ := this
        exact absurd hei (h1 e he)
      · exact hok.redefined i d x h3 h2

theorem step_spec (fuel t : Nat) (start : List W) (s s' : State Θ) (hok : t ≠ 0 → Ok env c s.all s.params s.distances s.smooths)
    (h : step env c fuel t start s = some s') :
    Ok env c s'.all s'.params s'.distances s'.smooths ∧ (t ≠ 0 → s'.all = s.all) ∧
    (t = 0 → s'.all ≠ [] ∧ ∀ d ∈ s'.all, ∃ θ, Own env θ d) ∧
    (s'.stopped = true → 0 < t ∧ s'.journal = s.journal) ∧
    (s'.stopped = false → s'.journal = (if c.full then s.journal ++ [(s'.params, s'.distances)] else [(s'.params, s'.distances)])) := by
  unfold step at h
  by_cases hst : start.length ≠ (if t = 0 then c.n else c.nUpdate) ∨ start = []
  · rw [if_pos hst] at h; cases h
  rw [if_neg hst] at h
  rw [not_or, not_not] at hst
  split at h
  · cases h
  rename_i out hout
  rw [collect_eq_some] at hout
  have hol : out.length = start.length := by simpa using (congrArg List.length hout).symm
  have hmem : ∀ o ∈ out, ∃ w, (if t = 0 then first env c.eps 0 fuel w [] 0 else move env fuel c.n s w) = some o := by
    intro o ho
    have : some o ∈ out.map some := List.mem_map.2 ⟨o, ho, rfl⟩
    rw [← hout, List.mem_map] at this
    obtain ⟨w, -, hw⟩ := this
    exact ⟨w, hw⟩
  have hown : ∀ o ∈ out, Own env o.θ o.d := by
    intro o ho
    obtain ⟨w, hw⟩ := hmem o ho
    split at hw
    · exact (first_spec env _ _ _ _ _ _ o hw (by simp)).1
    · exact move_spec env _ _ _ _ o hw
  split at h
  · cases h
  rename_i p hp
  simp only at h
  by_cases ht : t = 0
  · rw [if_pos ht] at h hp
    rw [if_pos ht] at hst
    obtain ⟨hok', hall⟩ := begin_spec env c out (by omega) hown p hp
    split at h
    · cases h
    rename_i l hl
    obtain ⟨a, b, -, d, e⟩ := finish_spec env c _ _ _ s' h hok'
    simp only at b d e
    refine ⟨a, fun h => absurd ht h, fun _ => ?_, fun h => ?_, fun _ => e⟩
    · rw [b, hall]
      constructor
      · intro hnil
        rw [List.flatten_eq_nil_iff] at hnil
        have hne : out ≠ [] := by
          intro h0
          rw [h0] at hol
          exact hst.2 (List.length_eq_zero_iff.1 hol.symm)
        obtain ⟨o, out', rfl⟩ := List.exists_cons_of_ne_nil hne
        obtain ⟨w, hw⟩ := hmem o (by simp)
        rw [if_pos ht] at hw
        exact (first_spec env _ _ _ _ _ _ o hw (by simp)).2.2.1 (hnil _ (by simp))
      · intro x hx
        obtain ⟨l', hl', hx⟩ := List.mem_flatten.1 hx
        obtain ⟨o, ho, rfl⟩ := List.mem_map.1 hl'
        obtain ⟨w, hw⟩ := hmem o ho
        rw [if_pos ht] at hw
        exact (first_spec env _ _ _ _ _ _ o hw (by simp)).2.1 x hx
    · rw [d] at h; cases h
  · rw [if_neg ht] at h hp
    obtain ⟨hok', hall⟩ := replace_spec env c s (hok ht) out hown p hp
    split at h
    · simp only [Option.some.injEq] at h
      subst h
      exact ⟨hok', fun _ => hall, fun h => absurd h ht, fun _ => ⟨by omega, rfl⟩, fun h => by cases h⟩
    · obtain ⟨a, b, -, d, e⟩ := finish_spec env c _ _ _ s' h hok'
      simp only at b d e
      exact ⟨a, fun _ => by rw [b, hall], fun h => absurd h ht, fun h => (by rw [d] at h; cases h), fun _ => e⟩

theorem loop_inv (fuel : Nat) (start : Nat → List W) (I : Nat → State Θ → Prop)
    (hstep : ∀ t s s', I t s → s.stopped = false → step env c fuel t (start t) s = some s' → I (t + 1) s')
    (k t : Nat) (s s' : State Θ) (h0 : I t s) (h : loop env c fuel start k t s = some s') :
    ∃ t', t ≤ t' ∧ t' ≤ t + k ∧ I t' s' ∧ (t' < t + k → s'.stopped = true) := by
  induction k generalizing t s with
  | zero => simp only [loop, Option.some.injEq] at h; subst h; exact ⟨t, le_rfl, le_rfl, h0, by simp⟩
  | succ k ih =>
    rw [loop] at h
    by_cases hd : s.stopped = true
    · rw [if_pos hd, Option.some.injEq] at h
      subst h; exact ⟨t, le_rfl, by omega, h0, fun _ => hd⟩
    · rw [if_neg hd] at h
      cases hs : step env c fuel t (start t) s with
      | none => rw [hs] at h; cases h
      | some s1 =>
        rw [hs] at h
        obtain ⟨t', a, b, e, f⟩ := ih (t + 1) s1 (hstep t s s1 h0 (by simpa using hd) hs) h
        exact ⟨t', by omega, by omega, e, fun h => f (by omega)⟩

end Verif.Sabc
