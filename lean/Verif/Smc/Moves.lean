import Verif.Smc.Spec
import Verif.Smc.Props
/-
The moves of `SMCABC` are those of the specification.
-/
namespace Verif.Smc

open Verif.Pmc (Pop normalise)
open Spec

variable {W Θ Y A : Type} (env : Env W Θ Y) (c : Config) (dr : Draws)

theorem propose_spec (pdf : Θ → ℝ) (perturb : W → W × Option Θ) (fuel : Nat) (w w' : W) (θ : Θ)
    (h : propose pdf perturb fuel w = some (w', θ)) : Proposal pdf perturb w w' θ := by
  induction fuel generalizing w with
  | zero => simp [propose] at h
  | succ fuel ih =>
    rw [propose] at h
    cases hr : (perturb w).2 with
    | none => simp only [hr] at h; exact .refused _ _ _ hr (ih _ h)
    | some θ' =>
      simp only [hr] at h
      split at h
      · rename_i hp
        simp only [Option.some.injEq, Prod.mk.injEq] at h
        obtain ⟨rfl, rfl⟩ := h
        exact .take _ _ hr hp
      · rename_i hp
        exact .impossible _ _ _ _ hr (not_not.1 hp) (ih _ h)

theorem hitCount_eq (hit : A → Prop) [DecidablePred hit] (l : List A) : hitCount hit l = l.countP fun a => decide (hit a) := by
  unfold hitCount
  rw [List.countP_eq_length_filter]
  congr!

theorem hitLoop_spec (gen : W → Option (W × A)) (trial : W → W → A → Prop) (hit : A → Prop) [DecidablePred hit] (r fuel : Nat) (w w' : W) (out l : List A)
    (hg : ∀ w w' a, gen w = some (w', a) → trial w w' a)
    (ho : hitCount hit out ≤ r) (hl : ∀ a, out.getLast? = some a → hitCount hit out = r → hit a)
    (h : hitLoop gen (fun a => decide (hit a)) r fuel w out = some (w', l)) :
    ∃ new, l = out ++ new ∧ Trials trial w w' new ∧ StopsAt hit r l := by
  induction fuel generalizing w out with
  | zero => simp [hitLoop] at h
  | succ fuel ih =>
    rw [hitLoop] at h
    split at h
    · rename_i hlt
      cases hw : gen w with
      | none => simp [hw] at h
      | some e =>
        obtain ⟨w1, a⟩ := e
        simp only [hw] at h
        rw [← hitCount_eq] at hlt
        have hc : hitCount hit (out ++ [a]) = hitCount hit out + if hit a then 1 else 0 := by
          rw [hitCount_eq, hitCount_eq, List.countP_append]
          by_cases ha : hit a <;> simp [ha]
        obtain ⟨new, e1, e2, e3⟩ := ih w1 (out ++ [a]) (by rw [hc]; split <;> omega) (by
          intro b hb heq
          simp only [List.getLast?_append, List.getLast?_singleton, Option.some_or, Option.some.injEq] at hb
          subst hb
          rw [hc] at heq
          by_contra hn
          rw [if_neg hn] at heq; omega) h
        exact ⟨a :: new, by simp [e1], .cons _ _ _ _ _ (hg _ _ _ hw) e2, e3⟩
    · rename_i hge
      simp only [Option.some.injEq, Prod.mk.injEq] at h
      obtain ⟨rfl, rfl⟩ := h
      rw [← hitCount_eq] at hge
      have : hitCount hit out = r := by omega
      exact ⟨[], by simp, .nil _, this, fun a ha => hl a ha this⟩

theorem hitLoop_start (gen : W → Option (W × A)) (trial : W → W → A → Prop) (hit : A → Prop) [DecidablePred hit] (r fuel : Nat) (w w' : W) (l : List A)
    (hg : ∀ w w' a, gen w = some (w', a) → trial w w' a)
    (h : hitLoop gen (fun a => decide (hit a)) r fuel w [] = some (w', l)) : Trials trial w w' l ∧ StopsAt hit r l := by
  obtain ⟨new, e1, e2, e3⟩ := hitLoop_spec gen trial hit r fuel w w' [] l hg (by simp [hitCount]) (by simp) h
  simp only [List.nil_append] at e1
  subst e1; exact ⟨e2, e3⟩

theorem hits_length (hit : A → Prop) [DecidablePred hit] (l : List A) : (hits (fun a => decide (hit a)) l).length = hitCount hit l := by
  rw [hitCount_eq]
  unfold hits
  induction l using List.reverseRecOn with
  | nil => simp
  | append_singleton l a ih =>
    rw [List.length_append, List.length_singleton, List.range_succ, List.filter_append, List.length_append, List.countP_append, ← ih]
    congr 1
    · congr 1
      apply List.filter_congr
      intro i hi
      rw [List.mem_range] at hi
      rw [List.getElem?_append_left hi]
    · by_cases ha : hit a <;> simp [ha]

theorem hits_dropLast (hit : A → Prop) [DecidablePred hit] (r : Nat) (l : List A) (h : StopsAt hit r l) :
    (hits (fun a => decide (hit a)) l).dropLast = firstHits hit (r - 1) l := by
  rw [List.dropLast_eq_take, hits_length, h.1]
  unfold firstHits hits
  congr 1
  apply List.filter_congr
  intro i _
  cases l[i]? with
  | none => simp
  | some a => simp

theorem mh_eq (p : Pop Θ) (θ θ' : Θ) (n n' : ℝ) : min 1 (n' / n * ratio env p θ θ') = mh env p θ θ' n n' := by
  unfold mh ratio
  rw [div_mul_div_comm, div_mul_div_comm]
  ring_nf

theorem closer_eq (eps : ℝ) (y : Y) : closer env eps y = below eps (env.dists y) := by
  unfold closer below
  rw [hitCount_eq]

theorem prob0_eq (eps : ℝ) (p : Pop Θ) (θ θ' : Θ) (y y' : Y) : prob0 env eps p θ y θ' y' = acceptance0 env eps p θ y θ' y' := by
  unfold prob0 acceptance0
  simp only [closer_eq]
  by_cases h : below eps (env.dists y) = 0
  · rw [if_pos h, if_pos h, ← mh_eq, div_one]
  · rw [if_neg h, if_neg h, mh_eq]

theorem proposeSim_gen (fuel : Nat) (perturb : W → W × Option Θ) (w w' : W) (a : Θ × Y)
    (h : ((propose env.pdf perturb fuel w).map fun e => ((env.sim e.2 e.1).1, e.2, (env.sim e.2 e.1).2)) = some (w', a)) :
    ProposeSim env perturb w w' a := by
  rw [Option.map_eq_some_iff] at h
  obtain ⟨⟨w1, θ⟩, he, h⟩ := h
  simp only [Prod.mk.injEq] at h
  obtain ⟨rfl, rfl⟩ := h
  exact ⟨w1, propose_spec _ _ _ _ _ _ he, rfl⟩

/-- The way back of kernel 2 records the simulations only. -/
theorem back_spec (fuel fuel' : Nat) (perturb : W → W × Option Θ) (eps : ℝ) (r : Nat) (w w' : W) (l : List Y)
    (h : hitLoop (fun w => (propose env.pdf perturb fuel' w).map fun e => env.sim e.2 e.1) (fun y => decide (env.dist y < eps)) r fuel w [] = some (w', l)) :
    ∃ l' : List (Θ × Y), l'.length = l.length ∧ Trials (ProposeSim env perturb) w w' l' ∧ StopsAt (fun a => env.dist a.2 < eps) r l' := by
  have key : ∀ fuel (w w' : W) (out l : List Y) (out' : List (Θ × Y)), out'.map Prod.snd = out →
      hitLoop (fun w => (propose env.pdf perturb fuel' w).map fun e => env.sim e.2 e.1) (fun y => decide (env.dist y < eps)) r fuel w out = some (w', l) →
      ∃ l' : List (Θ × Y), l'.map Prod.snd = l ∧
        hitLoop (fun w => (propose env.pdf perturb fuel' w).map fun e => ((env.sim e.2 e.1).1, e.2, (env.sim e.2 e.1).2))
          (fun a : Θ × Y => decide (env.dist a.2 < eps)) r fuel w out' = some (w', l') := by
    intro fuel
    induction fuel with
    | zero => intro w w' out l out' _ h; simp [hitLoop] at h
    | succ fuel ih =>
      intro w w' out l out' ho h
      rw [hitLoop] at h ⊢
      have hc : out'.countP (fun a : Θ × Y => decide (env.dist a.2 < eps)) = out.countP (fun y => decide (env.dist y < eps)) := by
        rw [← ho, List.countP_map]; rfl
      rw [hc]
      split at h
      · rename_i hlt
        rw [if_pos hlt]
        cases hp : propose env.pdf perturb fuel' w with
        | none => simp [hp] at h
        | some e =>
          simp only [hp, Option.map_some] at h ⊢
          exact ih _ _ _ _ (out' ++ [(e.2, (env.sim e.2 e.1).2)]) (by simp [ho]) h
      · rename_i hge
        rw [if_neg hge]
        simp only [Option.some.injEq, Prod.mk.injEq] at h
        obtain ⟨rfl, rfl⟩ := h
        exact ⟨out', ho, rfl⟩
  obtain ⟨l', h1, h2⟩ := key fuel w w' [] l [] rfl h
  obtain ⟨h3, h4⟩ := hitLoop_start _ (ProposeSim env perturb) (fun a : Θ × Y => env.dist a.2 < eps) r fuel w w' l'
    (fun w w' a ha => proposeSim_gen env fuel' perturb w w' a ha) h2
  exact ⟨l', by rw [← h1, List.length_map], h3, h4⟩

theorem accept0_spec (fuel : Nat) (eps : ℝ) (p : Pop Θ) (i : Nat) (θ : Θ) (wt : ℝ) (y : Y) (w : W) (o : Out Θ Y)
    (h : accept0 env fuel eps p i θ wt y w = some o) (hwt : 0 < wt) : Move0 env eps p i θ y w o := by
  unfold accept0 at h
  rw [if_pos hwt] at h
  cases hp : propose env.pdf (env.perturb p i) fuel w with
  | none => simp [hp] at h
  | some e =>
    obtain ⟨w1, θ'⟩ := e
    simp only [hp] at h
    refine ⟨w1, _, θ', _, propose_spec _ _ _ _ _ _ hp, rfl, ?_⟩
    rw [prob0_eq] at h
    split at h
    · rename_i hb
      rw [if_pos hb]; exact (Option.some.inj h).symm
    · rename_i hb
      rw [if_neg hb]; exact (Option.some.inj h).symm

theorem accept1_spec (r fuel : Nat) (eps : ℝ) (p : Pop Θ) (i : Nat) (θ : Θ) (wt : ℝ) (y : Y) (w : W) (o : Out Θ Y)
    (h : accept1 env r fuel eps p i θ wt y w = some o) (hwt : 0 < wt) : Move1 env r eps p i θ y w o := by
  unfold accept1 at h
  rw [if_pos hwt] at h
  cases h1 : hitLoop (fun w => some (env.sim θ w)) (fun y => decide (env.dist y < eps)) (r - 1) fuel w [] with
  | none => simp [h1] at h
  | some e1 =>
    obtain ⟨w1, old⟩ := e1
    simp only [h1] at h
    cases h2 : propose env.pdf (env.perturb p i) fuel w1 with
    | none => simp [h2] at h
    | some e2 =>
      obtain ⟨w2, θ'⟩ := e2
      simp only [h2] at h
      cases h3 : hitLoop (fun w => some (env.sim θ' w)) (fun y => decide (env.dist y < eps)) r fuel w2 [] with
      | none => simp [h3] at h
      | some e3 =>
        obtain ⟨w3, new⟩ := e3
        simp only [h3] at h
        split at h
        · cases h
        obtain ⟨t1, s1⟩ := hitLoop_start _ (Sim env θ) (env.dist · < eps) (r - 1) fuel w w1 old
          (fun w w' a ha => Option.some.inj ha) h1
        obtain ⟨t3, s3⟩ := hitLoop_start _ (Sim env θ') (env.dist · < eps) r fuel w2 w3 new
          (fun w w' a ha => Option.some.inj ha) h3
        refine ⟨w1, w2, w3, θ', old, new, t1, s1, propose_spec _ _ _ _ _ _ h2, t3, s3, ?_⟩
        rw [mh_eq, hits_dropLast (env.dist · < eps) r new s3] at h
        simp only
        split at h
        · rename_i hb
          rw [if_pos hb]
          split at h
          · cases h
          · split at h
            · cases h
            · rename_i y' hy
              exact ⟨y', hy, (Option.some.inj h).symm⟩
        · rename_i hb
          rw [if_neg hb]
          exact (Option.some.inj h).symm

theorem accept2_spec (r fuel : Nat) (eps : ℝ) (p : Pop Θ) (i : Nat) (θ : Θ) (wt : ℝ) (y : Y) (w : W) (o : Out Θ Y)
    (h : accept2 env r fuel eps p i θ wt y w = some o) (hwt : 0 < wt) : Move2 env r eps p i θ y w o := by
  unfold accept2 at h
  rw [if_pos hwt] at h
  split at h
  · cases h
  · rename_i w1 prime h1
    obtain ⟨t1, s1⟩ := hitLoop_start _ (ProposeSim env (env.perturb p i)) (fun a : Θ × Y => env.dist a.2 < eps) r fuel w w1 prime
      (fun w w' a ha => proposeSim_gen env fuel _ w w' a ha) h1
    rw [hits_dropLast (fun a : Θ × Y => env.dist a.2 < eps) r prime s1] at h
    split at h
    · cases h
    · simp only at h
      split at h
      · cases h
      · rename_i θ' y' hy
        split at h
        · cases h
        · rename_i w2 back hb
          obtain ⟨l', l1, l2, l3⟩ := back_spec env fuel fuel (env.around p θ') eps (r - 1) _ w2 back hb
          refine ⟨w1, w2, θ', y', prime, l', t1, s1, hy, l2, l3, ?_⟩
          rw [l1]
          rw [mh_eq] at h
          split at h
          · rename_i hc
            rw [if_pos hc]; exact (Option.some.inj h).symm
          · rename_i hc
            rw [if_neg hc]; exact (Option.some.inj h).symm

theorem mcmc_move (which : Nat) (r : Option Nat) (fuel : Nat) (eps : ℝ) (p : Pop Θ) (i : Nat) (θ : Θ) (wt : ℝ) (y : Y) (w : W) (o : Out Θ Y)
    (h : mcmc env which r fuel eps p i θ wt y w = some o) : Move env which r eps p i θ wt y w o := by
  unfold Move
  unfold mcmc at h
  split
  · rename_i hwt
    split at h
    · exact .inl ⟨by assumption, accept0_spec env fuel eps p i θ wt y w o h hwt⟩
    split at h
    · exact .inr (.inl ⟨by assumption, accept1_spec env _ fuel eps p i θ wt y w o h hwt⟩)
    split at h
    · exact .inr (.inr ⟨by assumption, accept2_spec env _ fuel eps p i θ wt y w o h hwt⟩)
    · cases h
  · rename_i hwt
    split at h
    · unfold accept0 at h; rw [if_neg hwt] at h; exact (Option.some.inj h).symm
    split at h
    · unfold accept1 at h; rw [if_neg hwt] at h; exact (Option.some.inj h).symm
    split at h
    · unfold accept2 at h; rw [if_neg hwt] at h; exact (Option.some.inj h).symm
    · cases h

end Verif.Smc
