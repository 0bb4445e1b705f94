import Verif.Expr.Model
import Verif.Graph.Fresh
/-
What `sample_from_prior`, `get_parameters` and `simulate` give on a graph with expressions.
-/
namespace Verif.Expr

open Graph

variable {U α Y : Type} (N : Net U α Y)

theorem call_eq (v : Nat) (vals : Nat → Option α) (u : U) : call N v vals u = match N.g.kind v with
    | .hyper => N.const v
    | .op => N.arith v ((N.g.parents v).map fun p => call N p vals (N.part u ((N.g.parents v).idxOf p)))
    | _ => N.draw v ((N.g.parents v).map vals) u := by
  rw [call]
  cases N.g.kind v <;> simp only
  rw [← List.attach_map_val (l := N.g.parents v)]

theorem truth_eq (ω : Nat → U) (v : Nat) : truth N ω v = match N.g.kind v with
    | .hyper => N.const v
    | .op => N.arith v ((N.g.parents v).map fun p => truth N ω p)
    | _ => N.draw v ((N.g.parents v).map fun p => some (truth N ω p)) (ω v) := by
  rw [truth]
  cases N.g.kind v <;> simp only
  all_goals
    congr 1
    rw [← List.attach_map_val (l := N.g.parents v)]

/-- A call reads the values of nodes above it only, and no hidden ones. -/
theorem call_congr (v : Nat) (vals vals' : Nat → Option α) (u : U) (h : ∀ q, Anc N.g q v → ¬ Hidden N q → vals q = vals' q) : call N v vals u = call N v vals' u := by
  induction v using Nat.strong_induction_on generalizing u with
  | _ v ih =>
    have hn : N.g.kind v ≠ .op → ∀ p ∈ N.g.parents v, vals p = vals' p := fun hk p hp => h p (.input hp) fun hh => hk (hh.uses v hp)
    rw [call_eq, call_eq]
    cases hk : N.g.kind v with
    | hyper => rfl
    | op =>
      simp only
      congr 1
      exact List.map_congr_left fun p hp => ih p (N.g.lt_of_parent hp) _ fun q hq => h q (.step hq hp)
    | cont =>
      simp only
      congr 1
      exact List.map_congr_left (hn (by simp [hk]))
    | disc =>
      simp only
      congr 1
      exact List.map_congr_left (hn (by simp [hk]))

/-- What the values after `sample_from_prior` satisfy. -/
structure Drawn (ω : Nat → U) (vals : Nat → Option α) : Prop where
  const : ∀ v, N.g.kind v = .hyper → vals v = some (N.const v)
  drawn : ∀ v ∈ above N.g N.roots, N.g.kind v ≠ .hyper → vals v = some (call N v vals (ω v))

theorem drawAll_value (ω : Nat → U) (v : Nat) (l : List Nat) (hv : v ∉ l) (vals : Nat → Option α) (c : Nat) : (drawAll N.g (sims N ω) l vals c).1 v = vals v := by
  induction l generalizing vals c with
  | nil => rfl
  | cons a l ih =>
    simp only [List.mem_cons, not_or] at hv
    rw [drawAll]
    split
    · exact ih hv.2 _ _
    · simp only [sims, if_true]
      refine (ih hv.2 _ _).trans ?_
      rw [Function.update_of_ne hv.1]

theorem drawAll_const (ω : Nat → U) (v : Nat) (hk : N.g.kind v = .hyper) (l : List Nat) (vals : Nat → Option α) (c : Nat) : (drawAll N.g (sims N ω) l vals c).1 v = vals v := by
  induction l generalizing vals c with
  | nil => rfl
  | cons a l ih =>
    rw [drawAll]
    split
    · exact ih _ _
    · rename_i ha
      simp only [sims, if_true]
      refine (ih _ _).trans ?_
      rw [Function.update_of_ne]
      rintro rfl
      exact ha hk

theorem drawAll_drawn (ω : Nat → U) (l : List Nat) (hnd : l.Nodup) (hin : InputsFirst N.g l) (vals : Nat → Option α) (c : Nat) (v : Nat) (hv : v ∈ l) (hk : N.g.kind v ≠ .hyper) :
    (drawAll N.g (sims N ω) l vals c).1 v = some (call N v (drawAll N.g (sims N ω) l vals c).1 (ω v)) := by
  obtain ⟨a, b, rfl⟩ := List.append_of_mem hv
  have hnd' := hnd
  rw [List.nodup_append] at hnd
  obtain ⟨h1, h2, h3⟩ := hnd
  rw [List.nodup_cons] at h2
  rw [drawAll_append]
  generalize drawAll N.g (sims N ω) a vals c = r
  rw [drawAll, if_neg hk]
  simp only [sims, if_true]
  rw [show (⟨fun vals v _ => some (call N v vals (ω v)), fun _ _ _ => true⟩ : Sim α) = sims N ω from rfl, drawAll_value N ω v b h2.1, Function.update_self]
  congr 1
  refine call_congr N v _ _ _ fun q hq _ => ?_
  have hqa : q ∈ a := by
    cases hq with
    | input hp => exact hin a v b rfl _ hp
    | step hq hp =>
      have hpa := hin a v b rfl _ hp
      refine anc_drawn (g := N.g) (l := a) ?_ hpa hq
      intro a' x b' e p' hp'
      exact hin a' x (b' ++ v :: b) (by rw [e]; simp) p' hp'
  rw [drawAll_value N ω q b fun hb => h3 q hqa q (List.mem_cons_of_mem _ hb) rfl, Function.update_of_ne]
  rintro rfl
  exact h3 q hqa q (List.mem_cons_self ..) rfl

theorem sampleNode_ok (ω : Nat → U) (v : Nat) (s : Smp α) : ∃ s', sampleNode N.g (sims N ω) v s = .ok s' := by
  induction v using Nat.strong_induction_on generalizing s with
  | _ v ih =>
    have hl : ∀ (l : List Nat), (∀ p ∈ l, p ∈ N.g.parents v) → ∀ s, ∃ s', loopE (sampleStep N.g (sims N ω)) l s = .ok s' := by
      intro l
      induction l with
      | nil => intro _ s; exact ⟨s, rfl⟩
      | cons p l ihl =>
        intro hp s
        have : ∃ s', sampleStep N.g (sims N ω) p s = .ok s' := by
          simp only [sampleStep]
          split
          · exact ⟨s, rfl⟩
          · exact ih p (N.g.lt_of_parent (hp p (by simp))) _
        obtain ⟨s', h'⟩ := this
        rw [loopE, h']
        exact ihl (fun q hq => hp q (by simp [hq])) s'
    rw [sampleNode_unfold]
    obtain ⟨s', h'⟩ := hl (N.g.parents v) (fun _ h => h) s
    rw [h']
    simp only
    have hd : (drawNode N.g (sims N ω) v s').2 = true := by
      unfold drawNode
      split
      · rfl
      · rfl
    rcases he : drawNode N.g (sims N ω) v s' with ⟨s'', b⟩
    rw [he] at hd
    simp only at hd
    subst hd
    exact ⟨_, rfl⟩

theorem sampleAttempt_ok (ω : Nat → U) (roots : List Nat) (s : Smp α) : ∃ s', sampleAttempt N.g (sims N ω) roots s = .ok s' := by
  have e : sampleAttempt N.g (sims N ω) roots s = loopE (sampleRoot N.g (sims N ω)) roots s := forMemE_eq_loopE roots _ _
  rw [e]
  have hl : ∀ (l : List Nat) s, ∃ s', loopE (sampleStep N.g (sims N ω)) l s = .ok s' := by
    intro l
    induction l with
    | nil => intro s; exact ⟨s, rfl⟩
    | cons p l ihl =>
      intro s
      have : ∃ s', sampleStep N.g (sims N ω) p s = .ok s' := by
        simp only [sampleStep]
        split
        · exact ⟨s, rfl⟩
        · exact sampleNode_ok N ω p _
      obtain ⟨s', h'⟩ := this
      rw [loopE, h']
      exact ihl s'
  clear e
  induction roots generalizing s with
  | nil => exact ⟨s, rfl⟩
  | cons r l ih =>
    rw [loopE, sampleRoot_unfold]
    obtain ⟨s', h'⟩ := hl (N.g.parents r) s
    rw [h']
    exact ih _

/-- `sample_from_prior` on a graph whose marks are clear and whose constants are in place: it succeeds, and every node has the value that its call gave. -/
theorem sampled_spec (hap : RootsApart N.g N.roots) (st : St α) (hc : Clean st) (hk : ∀ v, N.g.kind v = .hyper → st.value v = some (N.const v)) (ω : Nat → U) :
    Clean (sampled N st ω) ∧ Drawn N ω (sampled N st ω).value := by
  obtain ⟨s1, h1⟩ := sampleAttempt_ok N ω N.roots ⟨st, 0, []⟩
  have key := sampleAttempt_spec N.g (sims N ω) N.roots hap ⟨st, 0, []⟩ hc rfl
  have rep := sampleAttempt_replays N.g (sims N ω) N.roots ⟨st, 0, []⟩
  have e : sampled N st ω = resetFlags N.g N.roots s1.st := by
    unfold sampled
    simp only [sampleFromPrior, h1]
  rw [h1] at key rep
  obtain ⟨k1, k2, k3⟩ := key
  obtain ⟨l, a, b⟩ := rep
  simp only [List.nil_append] at a
  have hval : (sampled N st ω).value = (drawAll N.g (sims N ω) (drawn s1) st.value 0).1 := by
    rw [e, resetFlags_value, drawn, a, ← b]
  refine ⟨by rw [e]; exact k3, ?_, ?_⟩
  · intro v hv
    rw [hval, drawAll_const N ω v hv, hk v hv]
  · intro v hv hnk
    rw [hval]
    exact drawAll_drawn N ω _ k1.nodup k1.topo _ _ v ((k2 v).2 hv) hnk

/-- The equations have one solution, and it depends on the random numbers of hidden parameters at these parameters only. -/
theorem Drawn.agree {ω ω' : Nat → U} {vals vals' : Nat → Option α} (h : Drawn N ω vals) (h' : Drawn N ω' vals')
    (hω : ∀ v ∈ above N.g N.roots, ¬ Hidden N v → ω v = ω' v) (v : Nat) (hv : v ∈ above N.g N.roots) (hh : ¬ Hidden N v) : vals v = vals' v := by
  induction v using Nat.strong_induction_on with
  | _ v ih =>
    by_cases hk : N.g.kind v = .hyper
    · rw [h.const v hk, h'.const v hk]
    · rw [h.drawn v hv hk, h'.drawn v hv hk, hω v hv hh]
      congr 1
      refine call_congr N v _ _ _ fun q hq hnq => ih q hq.lt ?_ hnq
      obtain ⟨r, hr, hvr⟩ := (mem_above _ _ _).1 hv
      exact (mem_above _ _ _).2 ⟨r, hr, hq.trans hvr⟩

theorem Drawn.hidden {ω : Nat → U} {vals : Nat → Option α} (h : Drawn N ω vals) (v : Nat) (hv : v ∈ above N.g N.roots) (hh : Hidden N v) : vals v = some (truth N ω v) := by
  have hk : N.g.kind v ≠ .hyper := fun e => by have := hh.free; rw [e] at this; simp [Kind.isFree] at this
  have hp : (N.g.parents v).map vals = (N.g.parents v).map fun p => some (truth N ω p) := by
    refine List.map_congr_left fun p hp => ?_
    rw [h.const p (hh.inputs p hp), truth_eq, hh.inputs p hp]
  have hf := hh.free
  rw [h.drawn v hv hk, call_eq, truth_eq]
  cases e : N.g.kind v with
  | hyper => rfl
  | op => rw [e] at hf; simp [Kind.isFree] at hf
  | cont => simp only [hp]
  | disc => simp only [hp]

theorem truth_hidden {ω ω' : Nat → U} (v : Nat) (hh : Hidden N v) (hω : ω v = ω' v) : truth N ω v = truth N ω' v := by
  have hp : ((N.g.parents v).map fun p => some (truth N ω p)) = (N.g.parents v).map fun p => some (truth N ω' p) := by
    refine List.map_congr_left fun p hp => ?_
    rw [truth_eq, truth_eq, hh.inputs p hp]
  have hf := hh.free
  rw [truth_eq, truth_eq]
  cases e : N.g.kind v with
  | hyper => rfl
  | op => rw [e] at hf; simp [Kind.isFree] at hf
  | cont => simp only [hp, hω]
  | disc => simp only [hp, hω]

theorem Drawn.unique {ω : Nat → U} {vals vals' : Nat → Option α} (h : Drawn N ω vals) (h' : Drawn N ω vals') (v : Nat) (hv : v ∈ above N.g N.roots) : vals v = vals' v := by
  by_cases hh : Hidden N v
  · rw [h.hidden N v hv hh, h'.hidden N v hv hh]
  · exact h.agree N h' (fun _ _ _ => rfl) v hv hh

/-- Specification: expressions are used with constants only. -/
def ConstantExpressions : Prop := ∀ v ∈ above N.g N.roots, N.g.kind v = .op → ∀ a, Anc N.g a v → (N.g.kind a).isFree = false

theorem call_op (ω : Nat → U) (vals : Nat → Option α) (u : U) (v : Nat) (hv : (N.g.kind v).isFree = false) (ha : ∀ a, Anc N.g a v → (N.g.kind a).isFree = false) : call N v vals u = truth N ω v := by
  induction v using Nat.strong_induction_on generalizing u with
  | _ v ih =>
    rw [call_eq, truth_eq]
    cases e : N.g.kind v with
    | hyper => rfl
    | op =>
      simp only
      congr 1
      exact List.map_congr_left fun p hp => ih p (N.g.lt_of_parent hp) _ (ha p (.input hp)) fun a h => ha a (.step h hp)
    | cont => rw [e] at hv; simp [Kind.isFree] at hv
    | disc => rw [e] at hv; simp [Kind.isFree] at hv

theorem Drawn.truth (hce : ConstantExpressions N) {ω : Nat → U} {vals : Nat → Option α} (h : Drawn N ω vals) (v : Nat) (hv : v ∈ above N.g N.roots) : vals v = some (truth N ω v) := by
  induction v using Nat.strong_induction_on with
  | _ v ih =>
    have hp : (N.g.parents v).map vals = (N.g.parents v).map fun p => some (Expr.truth N ω p) := by
      refine List.map_congr_left fun p hp => ih p (N.g.lt_of_parent hp) ?_
      obtain ⟨r, hr, hvr⟩ := (mem_above _ _ _).1 hv
      exact (mem_above _ _ _).2 ⟨r, hr, Anc.trans (.input hp) hvr⟩
    by_cases hk : N.g.kind v = .hyper
    · rw [h.const v hk, truth_eq, hk]
    · rw [h.drawn v hv hk]
      congr 1
      by_cases ho : N.g.kind v = .op
      · exact call_op N ω vals _ v (by rw [ho]; rfl) (hce v hv ho)
      · rw [call_eq, truth_eq]
        cases e : N.g.kind v with
        | hyper => exact absurd e hk
        | op => exact absurd e ho
        | cont => simp only [hp]
        | disc => simp only [hp]

/-! ### A trial -/

/-- The parameters and the data of a trial. -/
def param (ω : Nat → U) : List (Option α) := (order N.g N.roots).map (sampled N (start N) ω).value

def data (ω : Nat → U) : Option Y := N.simulate (N.roots.map fun v => ((N.g.parents v).map (sampled N (start N) ω).value, ω v))

theorem start_clean : Clean (start N) := fun _ => rfl

theorem start_const (v : Nat) (hk : N.g.kind v = .hyper) : (start N).value v = some (N.const v) := by simp [start, hk]

theorem mem_above_order {v : Nat} (hv : v ∈ order N.g N.roots) : v ∈ above N.g N.roots := (mem_above _ _ _).2 ((mem_order _ _ _).1 hv).2

theorem mem_above_parent {r p : Nat} (hr : r ∈ N.roots) (hp : p ∈ N.g.parents r) : p ∈ above N.g N.roots := (mem_above _ _ _).2 ⟨r, hr, .input hp⟩

theorem graphTrial_eq (hap : RootsApart N.g N.roots) (st : St α) (hc : Clean st) (hk : ∀ v, N.g.kind v = .hyper → st.value v = some (N.const v)) (s : Nat → Nat → U) :
    ∃ st', Clean st' ∧ (∀ v, N.g.kind v = .hyper → st'.value v = some (N.const v)) ∧ graphTrial N (st, s) = ((st', fun k => s (k + 1)), param N (s 0), data N (s 0)) := by
  obtain ⟨h1, h2⟩ := sampled_spec N hap st hc hk (s 0)
  obtain ⟨-, h3⟩ := sampled_spec N hap (start N) (start_clean N) (start_const N) (s 0)
  obtain ⟨g1, g2, g3⟩ := getParameters_eq N.g N.roots (sampled N st (s 0)) h1
  refine ⟨_, g2, fun v hv => by rw [g3]; exact h2.const v hv, ?_⟩
  unfold graphTrial
  simp only [Prod.mk.injEq, true_and]
  refine ⟨?_, ?_⟩
  · rw [g1]
    exact List.map_congr_left fun v hv => h2.unique N h3 v (mem_above_order N hv)
  · unfold data
    rw [g3]
    congr 1
    refine List.map_congr_left fun r hr => ?_
    simp only [Prod.mk.injEq, and_true]
    exact List.map_congr_left fun p hp => h2.unique N h3 p (mem_above_parent N hr hp)

end Verif.Expr
