import Verif.Subsim.Spec
import Verif.Smc.Moves
/-
Runs of the model of `ABCsubsim` are histories in the sense of `Verif.Subsim.Spec`.
-/
namespace Verif.Subsim

open Verif.Pmc (Pop)
open Verif.Smc (propose propose_spec)
open Verif.Smc.Spec (Proposal)
open Verif.Rsmc.Spec (metropolis)
open Verif.Subsim.Spec

variable {W Θ Y M : Type} (env : Env W Θ Y M) (c : Config)

theorem prob_eq (covs : List M) (anneal : ℝ) (θ θ' : Θ) (d : ℝ) :
    prob env covs anneal θ θ' d = if d < anneal then metropolis env.pdf (env.kernel covs) θ θ' else 0 := by
  unfold prob metropolis
  rw [div_mul_div_comm]
  split <;> simp

theorem chain_chain (fuel : Nat) (covs : List M) (anneal : ℝ) (base : Θ) (k : Nat) (w : W) (θ : Θ) (d : ℝ) (r : List Θ × List ℝ)
    (h : chain env fuel covs anneal base k w θ d = some r) :
    ∃ l, Chain env covs anneal base w θ l ∧ l.length = k ∧ r = ((states (θ, d) l).map Prod.fst, (states (θ, d) l).map Prod.snd) := by
  induction k generalizing w θ d r with
  | zero =>
    simp only [chain, Option.some.injEq] at h
    subst h
    exact ⟨[], .nil _ _, rfl, rfl⟩
  | succ k ih =>
    rw [chain] at h
    split at h
    · cases h
    rename_i w' θ' hp
    have hp' := propose_spec _ _ _ _ _ _ hp
    simp only at h
    have hmv : ∀ b, (env.bern (prob env covs anneal θ θ' (env.dist (env.sim θ' w').2)) (env.sim θ' w').1).2 = b →
        Moves env covs anneal base θ w (env.bern (prob env covs anneal θ θ' (env.dist (env.sim θ' w').2)) (env.sim θ' w').1).1 ⟨θ', env.dist (env.sim θ' w').2, b⟩ := by
      intro b hb
      refine ⟨w', _, _, hp', rfl, rfl, ?_⟩
      rw [← hb, ← prob_eq]
    split at h
    · rename_i hu
      rw [Option.map_eq_some_iff] at h
      obtain ⟨r', hr', rfl⟩ := h
      obtain ⟨l, h1, h2, rfl⟩ := ih _ _ _ _ hr'
      exact ⟨⟨θ', env.dist (env.sim θ' w').2, true⟩ :: l, .cons _ _ _ _ _ (hmv true hu) (by simpa using h1), by simp [h2], by simp [states]⟩
    · rename_i hu
      rw [Option.map_eq_some_iff] at h
      obtain ⟨r', hr', rfl⟩ := h
      obtain ⟨l, h1, h2, rfl⟩ := ih _ _ _ _ hr'
      exact ⟨⟨θ', env.dist (env.sim θ' w').2, false⟩ :: l, .cons _ _ _ _ _ (hmv false (by simpa using hu)) (by simpa using h1), by simp [h2], by simp [states]⟩

theorem trials_chain (fuel : Nat) (covs : List M) (anneal : ℝ) (base : Θ) (k : Nat) (w : W) (θ : Θ) (n : Nat)
    (h : trials env fuel covs anneal base k w θ = some n) : ∃ l, Chain env covs anneal base w θ l ∧ l.length = k ∧ (l.filter (·.ok)).length = n := by
  induction k generalizing w θ n with
  | zero =>
    simp only [trials, Option.some.injEq] at h
    subst h
    exact ⟨[], .nil _ _, rfl, rfl⟩
  | succ k ih =>
    rw [trials] at h
    split at h
    · cases h
    rename_i w' θ' hp
    have hp' := propose_spec _ _ _ _ _ _ hp
    simp only at h
    have hmv : ∀ b, (env.bern (prob env covs anneal θ θ' (env.dist (env.sim θ' w').2)) (env.sim θ' w').1).2 = b →
        Moves env covs anneal base θ w (env.bern (prob env covs anneal θ θ' (env.dist (env.sim θ' w').2)) (env.sim θ' w').1).1 ⟨θ', env.dist (env.sim θ' w').2, b⟩ := by
      intro b hb
      refine ⟨w', _, _, hp', rfl, rfl, ?_⟩
      rw [← hb, ← prob_eq]
    split at h
    · rename_i hu
      rw [Option.map_eq_some_iff] at h
      obtain ⟨r', hr', rfl⟩ := h
      obtain ⟨l, h1, h2, h3⟩ := ih _ _ _ hr'
      exact ⟨⟨θ', env.dist (env.sim θ' w').2, true⟩ :: l, .cons _ _ _ _ _ (hmv true hu) (by simpa using h1), by simp [h2], by simp [h3]⟩
    · rename_i hu
      obtain ⟨l, h1, h2, h3⟩ := ih _ _ _ h
      exact ⟨⟨θ', env.dist (env.sim θ' w').2, false⟩ :: l, .cons _ _ _ _ _ (hmv false (by simpa using hu)) (by simpa using h1), by simp [h2], by simp [h3]⟩

theorem proposal_unique (pdf : Θ → ℝ) (perturb : W → W × Option Θ) (w w1 w2 : W) (θ1 θ2 : Θ) (h1 : Proposal pdf perturb w w1 θ1) (h2 : Proposal pdf perturb w w2 θ2) :
    w1 = w2 ∧ θ1 = θ2 := by
  induction h1 with
  | take w θ ha hb =>
    cases h2 with
    | take _ _ ha' hb' => rw [ha, Option.some.injEq] at ha'; exact ⟨rfl, ha'⟩
    | refused _ _ _ ha' _ => rw [ha] at ha'; cases ha'
    | impossible _ _ _ θ' ha' hb' _ => rw [ha, Option.some.injEq] at ha'; subst ha'; exact absurd hb' hb
  | refused w w' θ ha _ ih =>
    cases h2 with
    | take _ _ ha' hb' => rw [ha] at ha'; cases ha'
    | refused _ _ _ ha' h => exact ih h
    | impossible _ _ _ θ' ha' hb' _ => rw [ha] at ha'; cases ha'
  | impossible w w' θ θ' ha hb _ ih =>
    cases h2 with
    | take _ _ ha' hb' => rw [ha, Option.some.injEq] at ha'; subst ha'; exact absurd hb hb'
    | refused _ _ _ ha' h => rw [ha] at ha'; cases ha'
    | impossible _ _ _ θ' ha' hb' h => exact ih h

theorem chain_unique (covs : List M) (anneal : ℝ) (base : Θ) (w : W) (θ : Θ) (l l' : List (Move Θ)) (h : Chain env covs anneal base w θ l) (h' : Chain env covs anneal base w θ l')
    (hl : l.length = l'.length) : l = l' := by
  induction h generalizing l' with
  | nil w θ => simp only [List.length_nil] at hl; exact (List.length_eq_zero_iff.1 hl.symm).symm
  | cons w w' θ a l h1 h2 ih =>
    cases h' with
    | nil => simp at hl
    | cons _ v' _ b l' g1 g2 =>
      obtain ⟨w1, w2, y, p1, p2, p3, p4⟩ := h1
      obtain ⟨v1, v2, z, q1, q2, q3, q4⟩ := g1
      obtain ⟨rfl, e⟩ := proposal_unique _ _ _ _ _ _ _ p1 q1
      obtain ⟨aθ, ad, ao⟩ := a
      obtain ⟨bθ, bd, bo⟩ := b
      simp only at e p2 q2 p3 q3 p4 q4 h2 g2 ih
      subst e
      rw [p2, Prod.mk.injEq] at q2
      obtain ⟨rfl, rfl⟩ := q2
      rw [← p3] at q3
      subst q3
      rw [p4, Prod.mk.injEq] at q4
      obtain ⟨rfl, rfl⟩ := q4
      rw [ih l' g2 (by simpa using hl)]

theorem tune_acceptable (fuel : Nat) (covs : List M) (anneal : ℝ) (base pop : List Θ) (i : Nat) (w : W) (θ0 θ : Θ) (h0 : base[0]? = some θ0) (h1 : pop[0]? = some θ) (r : List M × Bool)
    (h : tune env fuel c.length covs anneal base pop i w = some r) :
    r.1 = covs.map (env.scale i) ∧ (r.2 = true ↔ Acceptable env c covs anneal θ0 θ w) := by
  simp only [tune, h0, h1, Option.bind_some, Option.map_eq_some_iff] at h
  obtain ⟨k, hk, rfl⟩ := h
  obtain ⟨l, a1, a2, a3⟩ := trials_chain env fuel covs anneal θ0 c.length w θ k hk
  refine ⟨rfl, ?_⟩
  have hcast : ((k : ℝ) / 10 ≤ 5 / 10 ∧ 3 / 10 ≤ (k : ℝ) / 10) ↔ 3 ≤ k ∧ k ≤ 5 := by
    rw [div_le_div_iff_of_pos_right (by norm_num), div_le_div_iff_of_pos_right (by norm_num), and_comm]
    norm_cast
  simp only [decide_eq_true_eq, hcast]
  constructor
  · intro hk'
    exact ⟨l, a1, a2, by rw [a3]; exact hk'.1, by rw [a3]; exact hk'.2⟩
  · rintro ⟨l', b1, b2, b3, b4⟩
    have := chain_unique env covs anneal θ0 w θ l l' a1 b1 (by omega)
    subst this
    rw [a3] at b3 b4
    exact ⟨b3, b4⟩

theorem tune_pop (fuel : Nat) (covs : List M) (anneal : ℝ) (base pop : List Θ) (i : Nat) (w : W) (r : List M × Bool)
    (h : tune env fuel c.length covs anneal base pop i w = some r) : ∃ θ0 θ, base[0]? = some θ0 ∧ pop[0]? = some θ := by
  simp only [tune, Option.bind_eq_some_iff] at h
  obtain ⟨θ, h1, θ0, h2, -⟩ := h
  exact ⟨θ0, θ, h2, h1⟩

theorem tuned_spec (fuel : Nat) (covs : List M) (anneal : ℝ) (base pop : List Θ) (tuneStart : List W) (hl : tuneStart.length = 10) (tuned : List (List M × Bool))
    (h : collect (tuneStart.zipIdx.map fun (e : W × Nat) => tune env fuel c.length covs anneal base pop e.2 e.1) = some tuned) :
    ∃ θ0 θ, base[0]? = some θ0 ∧ pop[0]? = some θ ∧
      Tuned env c covs anneal θ0 θ tuneStart (match tuned.find? Prod.snd with | some m => m.1 | none => covs) := by
  rw [collect_eq_some] at h
  have hlen : tuned.length = 10 := by
    have := congrArg List.length h
    simp only [List.length_map, List.length_zipIdx] at this
    omega
  have hget : ∀ (i : Nat) (w : W), tuneStart[i]? = some w → ∃ r, tuned[i]? = some r ∧ tune env fuel c.length covs anneal base pop i w = some r := by
    intro i w hw
    have := congrArg (fun l => l[i]?) h
    simp only [List.getElem?_map, List.getElem?_zipIdx, hw, Option.map_some, Nat.zero_add] at this
    cases hr : tuned[i]? with
    | none => rw [hr] at this; simp at this
    | some r => rw [hr, Option.map_some, Option.some.injEq] at this; exact ⟨r, rfl, this⟩
  have h00 : 0 < tuneStart.length := by omega
  obtain ⟨r0, -, hr0⟩ := hget 0 _ (List.getElem?_eq_getElem h00)
  obtain ⟨θ0, θ, e0, e1⟩ := tune_pop env c fuel covs anneal base pop _ _ r0 hr0
  refine ⟨θ0, θ, e0, e1, hl, ?_⟩
  have hacc : ∀ (i : Nat) (w : W) (r : List M × Bool), tuneStart[i]? = some w → tuned[i]? = some r →
      r.1 = covs.map (env.scale i) ∧ (r.2 = true ↔ Acceptable env c covs anneal θ0 θ w) := by
    intro i w r hw hr
    obtain ⟨r', hr', ht⟩ := hget i w hw
    rw [hr, Option.some.injEq] at hr'
    subst hr'
    exact tune_acceptable env c fuel covs anneal base pop i w θ0 θ e0 e1 r ht
  cases hf : tuned.find? Prod.snd with
  | none =>
    right
    refine ⟨?_, rfl⟩
    intro w hw
    obtain ⟨i, hi⟩ := List.mem_iff_getElem?.1 hw
    obtain ⟨r, hr, -⟩ := hget i w hi
    have := List.find?_eq_none.1 hf r (List.mem_of_getElem? hr)
    rw [(hacc i w r hi hr).2] at this
    exact this
  | some m =>
    left
    obtain ⟨hm, i, hi, hmi, hbefore⟩ := List.find?_eq_some_iff_getElem.1 hf
    have hi' : i < tuneStart.length := by omega
    have hmi' : tuned[i]? = some m := by rw [← hmi]; exact List.getElem?_eq_getElem hi
    have ha := hacc i _ m (List.getElem?_eq_getElem hi') hmi'
    refine ⟨i, _, List.getElem?_eq_getElem hi', ha.2.1 (by simpa using hm), ?_, ha.1⟩
    intro j v hj hv hA
    have hjl : j < tuned.length := by omega
    have := hbefore j hj
    have h2 := (hacc j v _ hv (List.getElem?_eq_getElem hjl)).2.2 hA
    simp [h2] at this

/-- The stage that a record stands for. -/
def stageOf (e : Rec Θ M × ℝ) : Stage Θ M := ⟨e.1.params.zip e.1.distances, e.2, e.1.covs, e.1.counter⟩

theorem sorted_ordered (ps : List Θ) (ds : List ℝ) (h : ps.length = ds.length) :
    Ordered (ps.zip ds) (((sorted ps ds).map Prod.snd).zip ((sorted ps ds).map Prod.fst)) := by
  have hperm := List.perm_insertionSort (fun a b : ℝ × Θ => a.1 ≤ b.1) (ds.zip ps)
  have hswap : ∀ l : List (ℝ × Θ), (l.map Prod.snd).zip (l.map Prod.fst) = l.map Prod.swap := by
    intro l
    induction l with
    | nil => rfl
    | cons a l ih => simp [ih, Prod.swap]
  have hz : ps.zip ds = (ds.zip ps).map Prod.swap := (List.zip_swap ds ps).symm
  refine ⟨?_, ?_⟩
  · rw [hswap, hz]
    exact hperm.map _
  · rw [hswap, List.pairwise_map]
    have : Std.Total (fun a b : ℝ × Θ => a.1 ≤ b.1) := ⟨fun a b => le_total _ _⟩
    have : IsTrans (ℝ × Θ) (fun a b => a.1 ≤ b.1) := ⟨fun a b e => le_trans⟩
    exact List.pairwise_insertionSort (fun a b : ℝ × Θ => a.1 ≤ b.1) _

theorem loop_inv (fuel : Nat) (start tuneStart : Nat → List W) (I : Nat → State Θ M → Prop)
    (hstep : ∀ t s s', I t s → s.stopped = false → step env c fuel t (start t) (tuneStart t) s = some s' → I (t + 1) s')
    (k t : Nat) (s s' : State Θ M) (h0 : I t s) (h : loop env c fuel start tuneStart k t s = some s') :
    ∃ t', t ≤ t' ∧ t' ≤ t + k ∧ I t' s' ∧ (t' < t + k → s'.stopped = true) := by
  induction k generalizing t s with
  | zero => simp only [loop, Option.some.injEq] at h; subst h; exact ⟨t, le_rfl, le_rfl, h0, by simp⟩
  | succ k ih =>
    rw [loop] at h
    by_cases hd : s.stopped = true
    · rw [if_pos hd, Option.some.injEq] at h
      subst h; exact ⟨t, le_rfl, by omega, h0, fun _ => hd⟩
    · rw [if_neg hd] at h
      cases hs : step env c fuel t (start t) (tuneStart t) s with
      | none => rw [hs] at h; cases h
      | some s1 =>
        rw [hs] at h
        obtain ⟨t', a, b, e, f⟩ := ih (t + 1) s1 (hstep t s s1 h0 (by simpa using hd) hs) h
        exact ⟨t', by omega, by omega, e, fun h => f (by omega)⟩

/-- The invariant of the loop before iteration `t`. -/
structure Follows (start tuneStart : Nat → List W) (t : Nat) (s : State Θ M) : Prop where
  count : s.hist.length = t
  init : t = 0 → s = ⟨[], [], [], false⟩
  later : t ≠ 0 → History env c start tuneStart s.base (s.hist.map stageOf) s.stopped
  lengths : ∀ e ∈ s.hist, e.1.params.length = e.1.distances.length ∧ e.1.weights = List.replicate c.n 1
  journal : s.journal = if c.full then s.hist.map Prod.fst else []

theorem zip_flatten (out : List (List Θ × List ℝ)) (h : ∀ r ∈ out, r.1.length = r.2.length) :
    (out.map Prod.fst).flatten.zip (out.map Prod.snd).flatten = (out.map fun r => r.1.zip r.2).flatten ∧
    (out.map Prod.fst).flatten.length = (out.map Prod.snd).flatten.length := by
  induction out with
  | nil => simp
  | cons r out ih =>
    obtain ⟨h1, h2⟩ := ih fun r hr => h r (by simp [hr])
    have h0 := h r (by simp)
    refine ⟨?_, by simp only [List.map_cons, List.flatten_cons, List.length_append, h0, h2]⟩
    simp only [List.map_cons, List.flatten_cons]
    rw [List.zip_append h0, h1]

end Verif.Subsim
