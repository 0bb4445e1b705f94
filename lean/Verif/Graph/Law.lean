import Verif.Graph.Attempt
import Verif.Chance
/-
C211: the parameters that `sample_from_prior` stores have the probabilities that `pdf_of_prior` computes.
-/
namespace Verif.Graph

open Chance Filter Topology

variable {A α : Type}

/-- The random variables of a graph: `draw vals v a` is what `forward_simulate` of node `v` returns for the stored values `vals` when its random generator yields `a`
(`none`: the input check failed or nothing was returned), `okOut` is `_check_output` (probabilisticmodels.py 516-538). -/
structure Vars (A α : Type) where
  draw : (Nat → Option α) → Nat → A → Option α
  okOut : (Nat → Option α) → Nat → α → Bool

/-- The draws of the nodes when the random generator yields the elements of a list one after the other. -/
def Vars.sim (V : Vars A α) (stream : List A) : Sim α := ⟨fun vals v t => (stream[t]?).bind (V.draw vals v), V.okOut⟩

/-- Specification. The probability with which node `v` draws `x` when the stored values are `vals`. -/
noncomputable def Vars.chance [DecidableEq α] (V : Vars A α) (outcomes : List A) (q : A → ℝ) (vals : Nat → Option α) (v : Nat) (x : Option α) : ℝ :=
  (outcomes.map fun a => if x.isSome ∧ V.draw vals v a = x then q a else 0).sum

/-- What the random variables of a graph do: they look at the values of their inputs only, and what they draw is in their support. -/
structure Vars.Proper (V : Vars A α) (g : G) : Prop where
  inputs : ∀ vals vals' v a, (∀ p ∈ g.parents v, vals p = vals' p) → V.draw vals v a = V.draw vals' v a
  support : ∀ vals v a x, V.draw vals v a = some x → V.okOut vals v x = true

variable (g : G)

/-! ### The draws of one attempt -/

/-- Attempts on a list of nodes, at most `m`: whether one succeeds with values that are `good`. -/
def tries (sm : Sim α) (L : List Nat) (good : (Nat → Option α) → Bool) : Nat → (Nat → Option α) → Nat → Bool
  | 0, _, _ => false
  | m + 1, vals, clock =>
    if (drawUntil g sm L vals clock).1 then good (drawUntil g sm L vals clock).2.1
    else tries sm L good m (drawUntil g sm L vals clock).2.1 (drawUntil g sm L vals clock).2.2

theorem sampleFromPrior_tries (sm : Sim α) (roots : List Nat) (hap : RootsApart g roots) (L : List Nat)
    (hL : ∀ s : Smp α, Clean s.st → s.log = [] → ∃ vis, Follows g sm L vis s (sampleAttempt g sm roots s)) (good : (Nat → Option α) → Bool) (n : Nat) (s : Smp α)
    (hs : Clean s.st) : (sampleFromPrior g sm roots n s).any (fun s' => good s'.st.value) = tries g sm L good n s.st.value s.clock := by
  induction n generalizing s with
  | zero => rfl
  | succ n ih =>
    obtain ⟨vis, h1, h2⟩ := hL { s with log := [] } hs rfl
    have hcl := sampleAttempt_spec g sm roots hap { s with log := [] } hs rfl
    simp only [sampleFromPrior, tries]
    cases hb : (drawUntil g sm L s.st.value s.clock).1 with
    | true =>
      obtain ⟨s', e, e1, -⟩ := h1 hb
      rw [e]
      simp only [Option.any_some, if_true, resetFlags_eq]
      rw [e1]
    | false =>
      obtain ⟨s', e, e1, e2⟩ := h2 hb
      rw [e] at hcl ⊢
      simp only [Bool.false_eq_true, if_false]
      rw [ih { s' with st := resetFlags g roots s'.st } hcl.2.2]
      simp only [resetFlags_eq, e1, e2]

/-- The state that a successful call leaves has nothing pending. -/
theorem sampleFromPrior_clean (sm : Sim α) (roots : List Nat) (hap : RootsApart g roots) (n : Nat) (s s' : Smp α) (hs : Clean s.st)
    (h : sampleFromPrior g sm roots n s = some s') : Clean s'.st := by
  induction n generalizing s with
  | zero => simp [sampleFromPrior] at h
  | succ n ih =>
    have hcl := sampleAttempt_spec g sm roots hap { s with log := [] } hs rfl
    simp only [sampleFromPrior] at h
    cases e : sampleAttempt g sm roots { s with log := [] } with
    | ok s1 => rw [e] at h hcl; simp only [Option.some.injEq] at h; subst h; exact hcl.2.2
    | error s1 => rw [e] at h hcl; exact ih _ hcl.2.2 h

variable (V : Vars A α) (outcomes : List A) (q : A → ℝ)

/-- The probability that all nodes of a list are drawn and the values are `good` in the end. -/
noncomputable def goodMass (good : (Nat → Option α) → Bool) : List Nat → (Nat → Option α) → ℝ
  | [], vals => if good vals then 1 else 0
  | v :: l, vals =>
    if g.kind v = .hyper then goodMass good l vals
    else (outcomes.map fun a => q a * match V.draw vals v a with
      | none => 0
      | some x => goodMass good l (Function.update vals v (some x))).sum

/-- Every node of the list is listed once and after its inputs. -/
def Listed : List Nat → Prop
  | [] => True
  | v :: l => (∀ p ∈ g.parents v, p ∉ v :: l) ∧ v ∉ l ∧ Listed l

theorem listed_of (L a l : List Nat) (h : L = a ++ l) (hn : L.Nodup) (hi : InputsFirst g L) : Listed g l := by
  induction l generalizing a with
  | nil => trivial
  | cons v l ih =>
    refine ⟨fun p hp hm => ?_, ?_, ih (a ++ [v]) (by simp [h])⟩
    · have := hi a v l h p hp
      subst h
      exact (List.disjoint_of_nodup_append hn) this hm
    · subst h
      exact (List.nodup_cons.1 (List.nodup_append.1 hn).2.1).1

theorem sum_map_split (l : List A) (f h k : A → ℝ) (hk : ∀ a, k a = f a + h a) : (l.map k).sum = (l.map f).sum + (l.map h).sum := by
  rw [← List.sum_map_add]
  congr 1
  exact List.map_congr_left fun a _ => hk a

variable {V} in
theorem goodMass_congr (hV : V.Proper g) (good : (Nat → Option α) → Bool) (l : List Nat) (hl : Listed g l) (vals vals' : Nat → Option α)
    (h : ∀ x, x ∉ l ∨ g.kind x = .hyper → vals x = vals' x) : goodMass g V outcomes q good l vals = goodMass g V outcomes q good l vals' := by
  induction l generalizing vals vals' with
  | nil => rw [show vals = vals' from funext fun x => h x (by simp)]
  | cons v l ih =>
    simp only [goodMass]
    by_cases hk : g.kind v = .hyper
    · rw [if_pos hk, if_pos hk]
      refine ih hl.2.2 _ _ fun x hx => h x ?_
      by_cases hxv : x = v
      · exact .inr (hxv ▸ hk)
      · rcases hx with hx | hx
        · exact .inl (by simp [hxv, hx])
        · exact .inr hx
    · rw [if_neg hk, if_neg hk]
      congr 1
      apply List.map_congr_left
      intro a _
      rw [hV.inputs vals vals' v a fun p hp => h p (.inl (hl.1 p hp))]
      cases V.draw vals' v a with
      | none => rfl
      | some x =>
        simp only
        rw [ih hl.2.2 (Function.update vals v (some x)) (Function.update vals' v (some x)) fun y hy => ?_]
        by_cases hyv : y = v
        · subst hyv; simp
        · rw [Function.update_of_ne hyv, Function.update_of_ne hyv]
          refine h y ?_
          rcases hy with hy | hy
          · exact .inl (by simp [hyv, hy])
          · exact .inr hy

variable {V} in
/-- The attempts from the draws of the nodes `l` on, when the attempts after them succeed with probability `F`. -/
theorem prob_from (hV : V.Proper g) (hq : (outcomes.map q).sum = 1) (L : List Nat) (good : (Nat → Option α) → Bool) (m K : Nat) (vals0 : Nat → Option α) (F : ℝ)
    (hF : ∀ (vals : Nat → Option α) (pre : List A) (N : Nat), (∀ x, x ∉ L ∨ g.kind x = .hyper → vals x = vals0 x) → K ≤ N →
      prob outcomes q N (fun w => tries g (V.sim (pre ++ w)) L good m vals pre.length) = F)
    (l : List Nat) (hl : ∀ v ∈ l, v ∈ L) (vals : Nat → Option α) (hv : ∀ x, x ∉ L ∨ g.kind x = .hyper → vals x = vals0 x) (pre : List A) (N : Nat)
    (hN : l.length + K ≤ N) :
    prob outcomes q N (fun w => if (drawUntil g (V.sim (pre ++ w)) l vals pre.length).1 then good (drawUntil g (V.sim (pre ++ w)) l vals pre.length).2.1
      else tries g (V.sim (pre ++ w)) L good m (drawUntil g (V.sim (pre ++ w)) l vals pre.length).2.1 (drawUntil g (V.sim (pre ++ w)) l vals pre.length).2.2)
    = goodMass g V outcomes q good l vals + (1 - goodMass g V outcomes q (fun _ => true) l vals) * F := by
  induction l generalizing vals pre N with
  | nil =>
    simp only [drawUntil, if_true, goodMass, sub_self, zero_mul, add_zero]
    have hone : prob outcomes q N (fun _ => true) = 1 := by
      clear hN
      induction N with
      | zero => simp [prob_zero]
      | succ N ih => rw [prob_succ, ih]; simpa using hq
    cases hg : good vals with
    | true => simpa using hone
    | false => simpa using prob_false outcomes q N
  | cons v l ih =>
    simp only [goodMass]
    by_cases hk : g.kind v = .hyper
    · simp only [drawUntil, hk, if_true]
      exact ih (fun u hu => hl u (by simp [hu])) vals hv pre N (by simp at hN; omega)
    · simp only [hk, if_false]
      obtain ⟨N, rfl⟩ : ∃ N', N = N' + 1 := ⟨N - 1, by simp at hN; omega⟩
      have hN' : l.length + K ≤ N := by simp at hN; omega
      rw [prob_succ]
      have hstep : ∀ a w, (V.sim (pre ++ a :: w)).sim vals v pre.length = V.draw vals v a := by
        intro a w
        simp [Vars.sim]
      have hpre : ∀ a (w : List A), pre ++ a :: w = (pre ++ [a]) ++ w := by simp
      have hlen : ∀ a : A, pre.length + 1 = (pre ++ [a]).length := by simp
      have hcase : ∀ a, prob outcomes q N (fun w => if (drawUntil g (V.sim (pre ++ a :: w)) (v :: l) vals pre.length).1 then
            good (drawUntil g (V.sim (pre ++ a :: w)) (v :: l) vals pre.length).2.1
          else tries g (V.sim (pre ++ a :: w)) L good m (drawUntil g (V.sim (pre ++ a :: w)) (v :: l) vals pre.length).2.1
            (drawUntil g (V.sim (pre ++ a :: w)) (v :: l) vals pre.length).2.2)
          = (match V.draw vals v a with
              | none => 0
              | some x => goodMass g V outcomes q good l (Function.update vals v (some x))) +
            (1 - (match V.draw vals v a with
              | none => 0
              | some x => goodMass g V outcomes q (fun _ => true) l (Function.update vals v (some x)))) * F := by
        intro a
        cases hd : V.draw vals v a with
        | none =>
          simp only [drawUntil, hk, if_false, hstep, hd, Bool.false_eq_true]
          have := hF vals (pre ++ [a]) N hv (by omega)
          rw [prob_congr outcomes q N _ (fun w => tries g (V.sim ((pre ++ [a]) ++ w)) L good m vals (pre ++ [a]).length) fun w _ => by rw [hpre a w, hlen a], this]
          ring
        | some x =>
          have hok' : ∀ w, (V.sim (pre ++ a :: w)).okOut vals v x = true := fun w => hV.support vals v a x hd
          simp only [drawUntil, hk, if_false, hstep, hd, hok', if_true]
          refine Eq.trans (prob_congr outcomes q N _ (fun w => if (drawUntil g (V.sim ((pre ++ [a]) ++ w)) l (Function.update vals v (some x)) (pre ++ [a]).length).1 then
              good (drawUntil g (V.sim ((pre ++ [a]) ++ w)) l (Function.update vals v (some x)) (pre ++ [a]).length).2.1
            else tries g (V.sim ((pre ++ [a]) ++ w)) L good m (drawUntil g (V.sim ((pre ++ [a]) ++ w)) l (Function.update vals v (some x)) (pre ++ [a]).length).2.1
              (drawUntil g (V.sim ((pre ++ [a]) ++ w)) l (Function.update vals v (some x)) (pre ++ [a]).length).2.2) fun w _ => by rw [hpre a w, hlen a]) ?_
          refine ih (fun u hu => hl u (by simp [hu])) (Function.update vals v (some x)) (fun y hy => ?_) (pre ++ [a]) N hN'
          have hyv : y ≠ v := by
            rintro rfl
            rcases hy with hy | hy
            · exact hy (hl y (by simp))
            · exact hk hy
          rw [Function.update_of_ne hyv]
          exact hv y hy
      rw [List.map_congr_left fun a _ => congrArg (q a * ·) (hcase a)]
      rw [sum_map_split outcomes (fun a => q a * (match V.draw vals v a with
              | none => 0
              | some x => goodMass g V outcomes q good l (Function.update vals v (some x))))
            (fun a => q a * F + (-F) * (q a * (match V.draw vals v a with
              | none => 0
              | some x => goodMass g V outcomes q (fun _ => true) l (Function.update vals v (some x))))) _ (fun a => by ring),
        sum_map_split outcomes (fun a => q a * F) (fun a => (-F) * (q a * (match V.draw vals v a with
              | none => 0
              | some x => goodMass g V outcomes q (fun _ => true) l (Function.update vals v (some x))))) _ (fun a => rfl),
        map_mul_sum, List.sum_map_mul_right, hq]
      ring

variable {V} in
/-- The probability that one of `m` attempts succeeds with good values. -/
theorem prob_tries (hV : V.Proper g) (hq : (outcomes.map q).sum = 1) (L : List Nat) (hL : Listed g L) (good : (Nat → Option α) → Bool) (vals0 : Nat → Option α)
    (m : Nat) : ∀ (vals : Nat → Option α) (pre : List A) (N : Nat), (∀ x, x ∉ L ∨ g.kind x = .hyper → vals x = vals0 x) → m * L.length ≤ N →
      prob outcomes q N (fun w => tries g (V.sim (pre ++ w)) L good m vals pre.length) =
        goodMass g V outcomes q good L vals0 * ((List.range m).map fun j => (1 - goodMass g V outcomes q (fun _ => true) L vals0) ^ j).sum := by
  induction m with
  | zero =>
    intro vals pre N _ _
    simp only [tries, prob_false]
    simp
  | succ m ih =>
    intro vals pre N hv hN
    simp only [tries]
    rw [prob_from g outcomes q hV hq L good m (m * L.length) vals0 _ ih L (fun _ h => h) vals hv pre N (by rw [Nat.succ_mul] at hN; omega),
      goodMass_congr g outcomes q hV good L hL vals vals0 hv, goodMass_congr g outcomes q hV (fun _ => true) L hL vals vals0 hv]
    rw [List.range_succ_eq_map, List.map_cons, List.sum_cons, pow_zero, List.map_map]
    have : (List.map ((fun j => (1 - goodMass g V outcomes q (fun _ => true) L vals0) ^ j) ∘ Nat.succ) (List.range m)).sum =
        (1 - goodMass g V outcomes q (fun _ => true) L vals0) * ((List.range m).map fun j => (1 - goodMass g V outcomes q (fun _ => true) L vals0) ^ j).sum := by
      rw [← map_mul_sum]
      congr 1
      apply List.map_congr_left
      intro j _
      simp [pow_succ, mul_comm]
    rw [this]
    ring

/-! ### The probability of a parameter vector -/

variable {V} in
/-- Drawing the nodes of a list gives the values `τ` of the parameters with the product of the conditional probabilities. -/
theorem goodMass_eq [DecidableEq α] (hV : V.Proper g) (hq : (outcomes.map q).sum = 1) (ord : List Nat) (τ : Nat → Option α) (l : List Nat) (hl : Listed g l)
    (hord : ∀ v, v ∈ ord → (g.kind v).isFree = true) (hin : ∀ v ∈ l, (g.kind v).isFree = true → v ∈ ord)
    (hτ : ∀ v ∈ ord, (τ v).isSome) (hop : ∀ v ∈ l, g.kind v = .op → ∀ vals a, V.draw vals v a ≠ none)
    (hfeed : ∀ v ∈ l, (g.kind v).isFree = true → ∀ p ∈ g.parents v, g.kind p = .hyper ∨ p ∈ ord) (vals : Nat → Option α)
    (hv : ∀ x, g.kind x = .hyper → vals x = τ x) :
    goodMass g V outcomes q (fun w => decide (∀ u ∈ ord, w u = τ u)) l vals =
      if ∀ u ∈ ord, u ∉ l → vals u = τ u then ((l.filter fun v => (g.kind v).isFree).map fun v => V.chance outcomes q τ v (τ v)).prod else 0 := by
  induction l generalizing vals with
  | nil => simp [goodMass]
  | cons v l ih =>
    have ih' := ih hl.2.2 (fun u hu => hin u (by simp [hu])) (fun u hu => hop u (by simp [hu])) (fun u hu => hfeed u (by simp [hu]))
    simp only [goodMass]
    by_cases hk : g.kind v = .hyper
    · rw [if_pos hk, ih' vals hv]
      have hnf : (g.kind v).isFree = false := by simp [hk, Kind.isFree]
      have hcond : (∀ u ∈ ord, u ∉ v :: l → vals u = τ u) ↔ ∀ u ∈ ord, u ∉ l → vals u = τ u := by
        constructor
        · intro h u hu hul
          by_cases huv : u = v
          · subst huv; rw [hord u hu] at hnf; cases hnf
          · exact h u hu (by simp [huv, hul])
        · intro h u hu hul
          exact h u hu (fun hm => hul (by simp [hm]))
      simp only [hcond, List.filter_cons, hnf, Bool.false_eq_true, if_false]
    · rw [if_neg hk]
      have hup : ∀ x y, g.kind y = .hyper → Function.update vals v (some x) y = τ y := by
        intro x y hy
        rw [Function.update_of_ne (by rintro rfl; exact hk hy)]
        exact hv y hy
      cases hfr : (g.kind v).isFree with
      | true =>
        have hvo : v ∈ ord := hin v (by simp) hfr
        have hcond : ∀ x, (∀ u ∈ ord, u ∉ l → Function.update vals v (some x) u = τ u) ↔ (∀ u ∈ ord, u ∉ v :: l → vals u = τ u) ∧ some x = τ v := by
          intro x
          constructor
          · intro h
            refine ⟨fun u hu hul => ?_, ?_⟩
            · have huv : u ≠ v := fun e => hul (by simp [e])
              have := h u hu (fun hm => hul (by simp [hm]))
              rwa [Function.update_of_ne huv] at this
            · have := h v hvo hl.2.1
              rwa [Function.update_self] at this
          · rintro ⟨h1, h2⟩ u hu hul
            by_cases huv : u = v
            · subst huv; rw [Function.update_self]; exact h2
            · rw [Function.update_of_ne huv]
              exact h1 u hu (by simp [huv, hul])
        simp only [List.filter_cons, hfr, if_true, List.map_cons, List.prod_cons]
        by_cases hall : ∀ u ∈ ord, u ∉ v :: l → vals u = τ u
        · rw [if_pos hall]
          have hpar : ∀ p ∈ g.parents v, vals p = τ p := by
            intro p hp
            rcases hfeed v (by simp) hfr p hp with h | h
            · exact hv p h
            · exact hall p h (hl.1 p hp)
          rw [Vars.chance, ← List.sum_map_mul_right]
          congr 1
          apply List.map_congr_left
          intro a _
          rw [hV.inputs vals τ v a hpar]
          cases hd : V.draw τ v a with
          | none =>
            have : ¬ ((τ v).isSome ∧ none = τ v) := by
              rintro ⟨h1, h2⟩; rw [← h2] at h1; simp at h1
            simp [if_neg this]
          | some x =>
            simp only
            rw [ih' _ (hup x)]
            by_cases hx : some x = τ v
            · rw [if_pos ((hcond x).2 ⟨hall, hx⟩), if_pos ⟨hτ v hvo, hx⟩]
            · rw [if_neg (fun h => hx ((hcond x).1 h).2), if_neg (fun h => hx h.2)]
              simp
        · rw [if_neg hall]
          have : ∀ a ∈ outcomes, q a * (match V.draw vals v a with
              | none => 0
              | some x => goodMass g V outcomes q (fun w => decide (∀ u ∈ ord, w u = τ u)) l (Function.update vals v (some x))) = 0 := by
            intro a _
            cases V.draw vals v a with
            | none => simp
            | some x =>
              simp only
              rw [ih' _ (hup x), if_neg (fun h => hall ((hcond x).1 h).1), mul_zero]
          rw [List.map_congr_left this]
          simp
      | false =>
        have hkop : g.kind v = .op := by
          cases h : g.kind v <;> simp_all [Kind.isFree]
        have hvo : v ∉ ord := fun h => by rw [hord v h] at hfr; cases hfr
        have hcond : ∀ x, (∀ u ∈ ord, u ∉ l → Function.update vals v (some x) u = τ u) ↔ ∀ u ∈ ord, u ∉ v :: l → vals u = τ u := by
          intro x
          refine forall₂_congr fun u hu => ?_
          have huv : u ≠ v := fun e => hvo (e ▸ hu)
          rw [Function.update_of_ne huv]
          simp [huv]
        simp only [List.filter_cons, hfr, Bool.false_eq_true, if_false]
        have : ∀ a ∈ outcomes, q a * (match V.draw vals v a with
              | none => 0
              | some x => goodMass g V outcomes q (fun w => decide (∀ u ∈ ord, w u = τ u)) l (Function.update vals v (some x))) =
            q a * (if ∀ u ∈ ord, u ∉ v :: l → vals u = τ u then ((l.filter fun v => (g.kind v).isFree).map fun v => V.chance outcomes q τ v (τ v)).prod else 0) := by
          intro a _
          cases hd : V.draw vals v a with
          | none => exact absurd hd (hop v (by simp) hkop vals a)
          | some x =>
            simp only
            rw [ih' _ (hup x)]
            simp only [hcond]
        rw [List.map_congr_left this, List.sum_map_mul_right, hq, one_mul]

end Verif.Graph
