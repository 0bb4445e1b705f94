import Verif.Floats.Summary
import Verif.Pmc.Model
/-
C218: the importance weights of a run of PMCABC in floating-point arithmetic. As in `Verif.Floats.Basic`, overflow and underflow are left out.
-/
namespace Verif.Floats

open Verif.Pmc (normalise)

variable (R : Rounding)

/-! ### Specification -/

/-- The importance weights of new particles: prior density over the mixture of kernels, normalised. For each new particle `data` lists its prior density and the kernel densities of getting to it
from the old particles, which have the weights `v`. -/
noncomputable def exactStep (v : List ℝ) (data : List (ℝ × List ℝ)) : List ℝ :=
  normalise (data.map fun e => e.1 / (List.zipWith (· * ·) v e.2).sum)

/-- The weights after a number of steps. -/
noncomputable def exactRun (n : Nat) (steps : List (List (ℝ × List ℝ))) : List ℝ := steps.foldl exactStep (List.replicate n (1 / (n : ℝ)))

/-! ### Model -/

/-- A way of adding up lists. -/
def Strategy (σ : List ℝ → Order) : Prop := ∀ l, l ≠ [] → (σ l).terms = l

/-- `_calculate_weight`, abcpy/inferences.py 1047-1058, for one new particle: `1.0 * prior_prob / np.sum(weights * pdf_values)`. -/
noncomputable def weightFl (σ : List ℝ → Order) (v : List ℝ) (e : ℝ × List ℝ) : ℝ := R.r (R.r (1 * e.1) / (σ (products R v e.2)).sum R)

/-- Lines 909-917: the weights of a step, divided by their sum. -/
noncomputable def stepFl (σ : List ℝ → Order) (v : List ℝ) (data : List (ℝ × List ℝ)) : List ℝ := normaliseFl R (σ (data.map (weightFl R σ v)))

/-- The weights after a number of steps. In the first step all are `1.0 / n_samples` (1045), divided by their sum. -/
noncomputable def runFl (σ : List ℝ → Order) (n : Nat) (steps : List (List (ℝ × List ℝ))) : List ℝ :=
  steps.foldl (stepFl R σ) (normaliseFl R (σ (List.replicate n (R.r (1 / (n : ℝ))))))

/-! ### Proof -/

variable {R}

theorem Near.refl (a : ℝ) : Near R 0 a a := by simp [Near]
theorem Near.symm {k : Nat} {a b : ℝ} (h : Near R k a b) : Near R k b a := ⟨by rw [mul_comm]; exact h.2, by rw [mul_comm]; exact h.1⟩

theorem Near.mul {k : Nat} {a b c : ℝ} (h : Near R k a b) (hc : 0 ≤ c) : Near R k (a * c) (b * c) := by
  constructor
  · rw [← mul_assoc]; exact mul_le_mul_of_nonneg_right h.1 hc
  · rw [mul_right_comm]; exact mul_le_mul_of_nonneg_right h.2 hc

theorem Near.add {k : Nat} {a b c d : ℝ} (h : Near R k a b) (h' : Near R k c d) : Near R k (a + c) (b + d) := by
  constructor
  · rw [mul_add]; exact add_le_add h.1 h'.1
  · rw [add_mul]; exact add_le_add h.2 h'.2

theorem Near.mono {k j : Nat} {a b : ℝ} (h : Near R k a b) (hkj : k ≤ j) (ha : 0 ≤ a) : Near R j a b := by
  have hp := pow_le_pow_of_le_one (q_pos R).le (q_le R) hkj
  have hb := h.nonneg ha
  exact ⟨(mul_le_mul_of_nonneg_right hp ha).trans h.1, (mul_le_mul_of_nonneg_left hp hb).trans h.2⟩

theorem Near.order (o : Order) (h : ∀ x ∈ o.terms, 0 ≤ x) : Near R (o.terms.length - 1) o.terms.sum (o.sum R) := sum_bounds R o h

/-- The mixture of kernels. -/
theorem mix_near {k : Nat} {c : ℝ} (hc : 0 < c) (v v' K : List ℝ) (h : List.Forall₂ (fun a b => Near R k (c * a) b) v v') (hv : ∀ a ∈ v, 0 < a) (hK : ∀ a ∈ K, 0 ≤ a) :
    Near R (k + 1) (c * (List.zipWith (· * ·) v K).sum) (products R v' K).sum ∧ ∀ a ∈ products R v' K, 0 ≤ a := by
  induction h generalizing K with
  | nil => simp [products, Near]
  | @cons a b v v' hab _ ih =>
    cases K with
    | nil => simp [products, Near]
    | cons x K =>
      obtain ⟨h1, h2⟩ := ih K (fun a ha => hv a (by simp [ha])) fun a ha => hK a (by simp [ha])
      have ha := hv a (by simp)
      have hx := hK x (by simp)
      have hb := hab.nonneg (by positivity)
      have h3 := (hab.mul hx).round (mul_nonneg hb hx)
      simp only [products] at h1 h2
      simp only [products, List.zipWith_cons_cons, List.sum_cons, List.mem_cons]
      refine ⟨?_, ?_⟩
      · rw [mul_add, ← mul_assoc]; exact h3.add h1
      · rintro y (rfl | hy)
        · exact h3.nonneg (by positivity)
        · exact h2 y hy

theorem mix_pos (v K : List ℝ) (hl : K.length = v.length) (hv : ∀ a ∈ v, 0 < a) (hK : ∀ a ∈ K, 0 ≤ a) (hp : ∃ a ∈ K, 0 < a) : 0 < (List.zipWith (· * ·) v K).sum := by
  have nonneg : ∀ v K : List ℝ, (∀ a ∈ v, 0 < a) → (∀ a ∈ K, 0 ≤ a) → 0 ≤ (List.zipWith (· * ·) v K).sum := by
    intro v
    induction v with
    | nil => simp
    | cons b v ih =>
      intro K hv hK
      cases K with
      | nil => simp
      | cons x K =>
        simp only [List.zipWith_cons_cons, List.sum_cons]
        exact add_nonneg (mul_nonneg (hv b (by simp)).le (hK x (by simp))) (ih K (fun a ha => hv a (by simp [ha])) fun a ha => hK a (by simp [ha]))
  induction v generalizing K with
  | nil => obtain ⟨a, ha, -⟩ := hp; simp at hl; subst hl; simp at ha
  | cons b v ih =>
    cases K with
    | nil => simp at hl
    | cons x K =>
      have hv' : ∀ a ∈ v, 0 < a := fun a ha => hv a (by simp [ha])
      have hK' : ∀ a ∈ K, 0 ≤ a := fun a ha => hK a (by simp [ha])
      simp only [List.zipWith_cons_cons, List.sum_cons]
      obtain ⟨a, ha, ha0⟩ := hp
      rcases List.mem_cons.1 ha with rfl | ha
      · exact add_pos_of_pos_of_nonneg (mul_pos (hv b (by simp)) ha0) (nonneg v K hv' hK')
      · exact add_pos_of_nonneg_of_pos (mul_nonneg (hv b (by simp)).le (hK x (by simp))) (ih K (by simpa using hl) hv' hK' ⟨a, ha, ha0⟩)

/-- What is asked of the particles of a step: positive prior density, and kernel densities from the `n` old particles that are not negative and not all zero. -/
def Proper (n : Nat) (data : List (ℝ × List ℝ)) : Prop :=
  data.length = n ∧ ∀ e ∈ data, 0 < e.1 ∧ e.2.length = n ∧ (∀ a ∈ e.2, 0 ≤ a) ∧ ∃ a ∈ e.2, 0 < a

/-- Equal up to a common factor and `k` rounding errors. -/
def Similar (R : Rounding) (k : Nat) (v v' : List ℝ) : Prop := ∃ c : ℝ, 0 < c ∧ List.Forall₂ (fun a b => Near R k (c * a) b) v v'

theorem normalise_pos (l : List ℝ) (hl : l ≠ []) (h : ∀ a ∈ l, 0 < a) : 0 < l.sum ∧ (∀ a ∈ normalise l, 0 < a) ∧ (normalise l).sum = 1 := by
  have hs : 0 < l.sum := List.sum_pos l h hl
  refine ⟨hs, ?_, ?_⟩
  · intro a ha
    obtain ⟨b, hb, rfl⟩ := List.mem_map.1 ha
    exact div_pos (h b hb) hs
  · unfold normalise
    rw [map_div_sum, div_self hs.ne']

theorem raw_pos {n : Nat} (data : List (ℝ × List ℝ)) (hd : Proper n data) (v : List ℝ) (hv : v.length = n) (hv0 : ∀ a ∈ v, 0 < a) :
    ∀ a ∈ data.map fun e => e.1 / (List.zipWith (· * ·) v e.2).sum, 0 < a := by
  intro a ha
  obtain ⟨e, he, rfl⟩ := List.mem_map.1 ha
  obtain ⟨h1, h2, h3, h4⟩ := hd.2 e he
  exact div_pos h1 (mix_pos v e.2 (by omega) hv0 h3 h4)

theorem exactStep_spec {n : Nat} (hn : 0 < n) (data : List (ℝ × List ℝ)) (hd : Proper n data) (v : List ℝ) (hv : v.length = n) (hv0 : ∀ a ∈ v, 0 < a) :
    (exactStep v data).length = n ∧ (∀ a ∈ exactStep v data, 0 < a) ∧ (exactStep v data).sum = 1 := by
  have hne : (data.map fun e => e.1 / (List.zipWith (· * ·) v e.2).sum) ≠ [] := by
    rw [← List.length_pos_iff, List.length_map, hd.1]; exact hn
  obtain ⟨-, h2, h3⟩ := normalise_pos _ hne (raw_pos data hd v hv hv0)
  exact ⟨by simp [exactStep, normalise, hd.1], h2, h3⟩

/-- The weight of one particle. -/
theorem weight_near (σ : List ℝ → Order) (hσ : Strategy σ) {n : Nat} (hn : 0 < n) {k : Nat} {c : ℝ} (hc : 0 < c) (v v' : List ℝ) (h : List.Forall₂ (fun a b => Near R k (c * a) b) v v')
    (hv : v.length = n) (hv0 : ∀ a ∈ v, 0 < a) (e : ℝ × List ℝ) (he : 0 < e.1 ∧ e.2.length = n ∧ (∀ a ∈ e.2, 0 ≤ a) ∧ ∃ a ∈ e.2, 0 < a) :
    Near R (k + n + 2) (1 / c * (e.1 / (List.zipWith (· * ·) v e.2).sum)) (weightFl R σ v' e) := by
  obtain ⟨h1, h2, h3, h4⟩ := he
  obtain ⟨m1, m2⟩ := mix_near hc v v' e.2 h hv0 h3
  have hm := mix_pos v e.2 (by omega) hv0 h3 h4
  have hv' : v'.length = n := by rw [← h.length_eq, hv]
  have hlen : (products R v' e.2).length = n := by simp [products, hv', h2]
  have hne : products R v' e.2 ≠ [] := by rw [← List.length_pos_iff, hlen]; exact hn
  have ho := hσ _ hne
  have s1 : Near R (n - 1) (products R v' e.2).sum ((σ (products R v' e.2)).sum R) := by
    have := Near.order (R := R) (σ (products R v' e.2)) (by rw [ho]; exact m2)
    rwa [ho, hlen] at this
  have s2 := m1.trans s1
  have hcm : 0 < c * (List.zipWith (· * ·) v e.2).sum := mul_pos hc hm
  have p1 : Near R 1 e.1 (R.r (1 * e.1)) := by have := (Near.refl (R := R) e.1).round h1.le; simpa using this
  have p2 := s2.div hcm h1.le
  have hD := s2.pos hcm
  have p3 : Near R 1 (e.1 / (σ (products R v' e.2)).sum R) (R.r (1 * e.1) / (σ (products R v' e.2)).sum R) := by
    rw [div_eq_mul_one_div e.1, div_eq_mul_one_div (R.r (1 * e.1))]
    exact p1.mul (one_div_nonneg.2 hD.le)
  have p4 := p2.trans p3
  have p5 := p4.round (div_nonneg (p1.nonneg h1.le) hD.le)
  rw [show k + n + 2 = k + 1 + (n - 1) + 1 + 1 by omega]
  rw [show 1 / c * (e.1 / (List.zipWith (· * ·) v e.2).sum) = e.1 / (c * (List.zipWith (· * ·) v e.2).sum) by field_simp]
  exact p5

theorem forall2_map {α : Type} (l : List α) (P : ℝ → ℝ → Prop) (f g : α → ℝ) (h : ∀ x ∈ l, P (f x) (g x)) : List.Forall₂ P (l.map f) (l.map g) := by
  induction l with
  | nil => exact .nil
  | cons a l ih => exact .cons (h a (by simp)) (ih fun x hx => h x (by simp [hx]))

theorem forall2_mem {P : ℝ → ℝ → Prop} {l l' : List ℝ} (h : List.Forall₂ P l l') (b : ℝ) (hb : b ∈ l') : ∃ a ∈ l, P a b := by
  induction h with
  | nil => simp at hb
  | cons hab _ ih =>
    rcases List.mem_cons.1 hb with rfl | hb
    · exact ⟨_, by simp, hab⟩
    · obtain ⟨a, ha, h⟩ := ih hb; exact ⟨a, by simp [ha], h⟩

/-- Normalising: one more error, and another factor. -/
theorem normalise_similar (σ : List ℝ → Order) (hσ : Strategy σ) {k : Nat} {c : ℝ} (hc : 0 < c) (l l' : List ℝ) (hl : l ≠ []) (hl0 : ∀ a ∈ l, 0 < a)
    (h : List.Forall₂ (fun a b => Near R k (c * a) b) l l') : Similar R (k + 1) (normalise l) (normaliseFl R (σ l')) := by
  have hne : l' ≠ [] := by intro h'; subst h'; cases h; exact hl rfl
  have ho := hσ l' hne
  have hl0' : ∀ b ∈ l', 0 < b := by
    intro b hb
    obtain ⟨a, ha, hab⟩ := forall2_mem h b hb
    exact hab.pos (mul_pos hc (hl0 a ha))
  have hs : 0 < l.sum := List.sum_pos l hl0 hl
  have hs' : 0 < (σ l').sum R := (Near.order (R := R) (σ l') (by rw [ho]; exact fun x hx => (hl0' x hx).le)).pos (by rw [ho]; exact List.sum_pos l' hl0' hne)
  refine ⟨c * l.sum / (σ l').sum R, by positivity, ?_⟩
  unfold normalise normaliseFl
  rw [ho]
  generalize (σ l').sum R = s at *
  clear ho hne hl
  rw [List.forall₂_map_left_iff, List.forall₂_map_right_iff]
  generalize l.sum = t at *
  induction h with
  | nil => exact .nil
  | @cons a b l l' hab _ ih =>
    refine .cons ?_ (ih (fun a ha => hl0 a (by simp [ha])) fun b hb => hl0' b (by simp [hb]))
    have hb := hl0' b (by simp)
    have := (hab.mul (c := 1 / s) (by positivity)).round (by positivity)
    rw [show c * t / s * (a / t) = c * a * (1 / s) by field_simp, div_eq_mul_one_div b]
    exact this

theorem step_similar (σ : List ℝ → Order) (hσ : Strategy σ) {n : Nat} (hn : 0 < n) {k : Nat} (v v' : List ℝ) (h : Similar R k v v')
    (hv : v.length = n) (hv0 : ∀ a ∈ v, 0 < a) (data : List (ℝ × List ℝ)) (hd : Proper n data) : Similar R (k + (n + 3)) (exactStep v data) (stepFl R σ v' data) := by
  obtain ⟨c, hc, h⟩ := h
  unfold exactStep stepFl
  rw [show k + (n + 3) = k + n + 2 + 1 by ring]
  refine normalise_similar σ hσ (one_div_pos.2 hc) _ _ ?_ (raw_pos data hd v hv hv0) ?_
  · rw [← List.length_pos_iff, List.length_map, hd.1]; exact hn
  · exact forall2_map data _ _ _ fun e he => weight_near σ hσ hn hc v v' h hv hv0 e (hd.2 e he)

/-- The sum of computed weights is one up to as many errors as there are weights. -/
theorem normaliseFl_sum (o : Order) (h : ∀ a ∈ o.terms, 0 < a) : Near R o.terms.length 1 (normaliseFl R o).sum := by
  have hp := terms_pos o
  have hs : 0 < o.terms.sum := List.sum_pos _ h (by rw [← List.length_pos_iff]; exact hp)
  have h1 := Near.order (R := R) o fun x hx => (h x hx).le
  have hs' := h1.pos hs
  have h2 : Near R 1 (o.terms.sum / o.sum R) (normaliseFl R o).sum := by
    rw [← map_div_sum]
    unfold normaliseFl
    refine Near.sum fun x hx => ?_
    have := (Near.refl (R := R) (x / o.sum R)).round (div_nonneg (h x hx).le hs'.le)
    simpa using this
  have h3 : Near R (o.terms.length - 1) 1 (o.terms.sum / o.sum R) := by
    have := h1.div hs hs.le
    rwa [div_self hs.ne'] at this
  have := h3.trans h2
  rwa [Nat.sub_add_cancel hp] at this

theorem similar_sum {k : Nat} {c : ℝ} {v v' : List ℝ} (h : List.Forall₂ (fun a b => Near R k (c * a) b) v v') : Near R k (c * v.sum) v'.sum := by
  induction h with
  | nil => simp [Near]
  | cons hab _ ih => rw [List.sum_cons, List.sum_cons, mul_add]; exact hab.add ih

/-- Similar weights that sum to one, exactly and up to rounding, are nearly the same. -/
theorem similar_near {k m : Nat} (v v' : List ℝ) (hv : ∀ a ∈ v, 0 < a) (hs : v.sum = 1) (hs' : Near R m 1 v'.sum) (h : Similar R k v v') :
    List.Forall₂ (Near R (2 * k + m)) v v' := by
  obtain ⟨c, hc, h⟩ := h
  have h1 := similar_sum h
  rw [hs, mul_one] at h1
  have h2 : Near R (m + k) 1 c := hs'.trans h1.symm
  clear hs hs' h1
  induction h with
  | nil => exact .nil
  | @cons a b v v' hab _ ih =>
    refine .cons ?_ (ih fun a ha => hv a (by simp [ha]))
    have := (h2.mul (hv a (by simp)).le).trans hab
    rw [one_mul] at this
    rw [show 2 * k + m = m + k + k by ring]
    exact this

theorem pos_of_similar {k : Nat} {v v' : List ℝ} (hv : ∀ a ∈ v, 0 < a) (h : Similar R k v v') : ∀ b ∈ v', 0 < b := by
  obtain ⟨c, hc, h⟩ := h
  intro b hb
  obtain ⟨a, ha, hab⟩ := forall2_mem h b hb
  exact hab.pos (mul_pos hc (hv a ha))

theorem run_similar (σ : List ℝ → Order) (hσ : Strategy σ) {n : Nat} (hn : 0 < n) (steps : List (List (ℝ × List ℝ))) (hd : ∀ data ∈ steps, Proper n data)
    (k : Nat) (v v' : List ℝ) (h : Similar R k v v') (hv : v.length = n) (hv0 : ∀ a ∈ v, 0 < a) (hs : v.sum = 1) (hs' : Near R n 1 v'.sum) :
    Similar R (k + steps.length * (n + 3)) (steps.foldl exactStep v) (steps.foldl (stepFl R σ) v') ∧ (∀ a ∈ steps.foldl exactStep v, 0 < a) ∧ (steps.foldl exactStep v).sum = 1 ∧
      Near R n 1 (steps.foldl (stepFl R σ) v').sum := by
  induction steps generalizing k v v' with
  | nil => exact ⟨by simpa using h, hv0, hs, hs'⟩
  | cons data steps ih =>
    have hp := hd data (by simp)
    obtain ⟨e1, e2, e3⟩ := exactStep_spec hn data hp v hv hv0
    have h1 := step_similar σ hσ hn v v' h hv hv0 data hp
    obtain ⟨c, hc, h⟩ := h
    have hne : data.map (weightFl R σ v') ≠ [] := by rw [← List.length_pos_iff, List.length_map, hp.1]; exact hn
    have hpos : ∀ a ∈ data.map (weightFl R σ v'), 0 < a := by
      intro a ha
      obtain ⟨e, he, rfl⟩ := List.mem_map.1 ha
      obtain ⟨p1, p2, p3, p4⟩ := hp.2 e he
      exact (weight_near σ hσ hn hc v v' h hv hv0 e (hp.2 e he)).pos (mul_pos (one_div_pos.2 hc) (div_pos p1 (mix_pos v e.2 (by omega) hv0 p3 p4)))
    have h2 : Near R n 1 (stepFl R σ v' data).sum := by
      have := normaliseFl_sum (R := R) (σ (data.map (weightFl R σ v'))) (by rw [hσ _ hne]; exact hpos)
      rwa [hσ _ hne, List.length_map, hp.1] at this
    have := ih (fun d hd' => hd d (by simp [hd'])) _ _ _ h1 e1 e2 e3 h2
    rw [show k + (n + 3) + steps.length * (n + 3) = k + (data :: steps).length * (n + 3) by rw [List.length_cons]; ring] at this
    exact this

variable (R)

/-- C218. For the particles that a run of PMCABC with `n` particles has drawn in any number of steps, the weights that the code computes are the importance weights, computed without rounding from the
first step on, up to a relative error that grows only linearly with the number of steps: at most `2 (2 t + 1) (n + 3) u` after `t` steps (and the first). They are positive, and there are
as many as particles. `σ` is the order in which numbers are added up. -/
theorem C218_run (σ : List ℝ → Order) (hσ : Strategy σ) (n : Nat) (hn : 0 < n) (steps : List (List (ℝ × List ℝ))) (hd : ∀ data ∈ steps, Proper n data)
    (hu : 2 * ((2 * steps.length + 1) * (n + 3)) * R.u ≤ 1) :
    List.Forall₂ (fun a b => 0 < a ∧ 0 < b ∧ |b - a| ≤ 2 * ((2 * steps.length + 1) * (n + 3)) * R.u * a) (exactRun n steps) (runFl R σ n steps) := by
  have hn' : (0 : ℝ) < n := by exact_mod_cast hn
  have hr : 0 < R.r (1 / (n : ℝ)) := by
    have := (Near.refl (R := R) (1 / (n : ℝ))).round (by positivity)
    exact this.pos (by positivity)
  have hne : List.replicate n (R.r (1 / (n : ℝ))) ≠ [] := by simp; omega
  have ho := hσ _ hne
  have hpos : ∀ a ∈ (σ (List.replicate n (R.r (1 / (n : ℝ))))).terms, 0 < a := by
    rw [ho]; intro a ha; rw [(List.mem_replicate.1 ha).2]; exact hr
  have hs' : 0 < (σ (List.replicate n (R.r (1 / (n : ℝ))))).sum R :=
    (Near.order (R := R) _ fun x hx => (hpos x hx).le).pos (List.sum_pos _ hpos (by rw [ho]; exact hne))
  have h0 : Similar R 0 (List.replicate n (1 / (n : ℝ))) (normaliseFl R (σ (List.replicate n (R.r (1 / (n : ℝ)))))) := by
    refine ⟨n * R.r (R.r (1 / (n : ℝ)) / (σ (List.replicate n (R.r (1 / (n : ℝ))))).sum R), ?_, ?_⟩
    · have := (Near.refl (R := R) (R.r (1 / (n : ℝ)) / (σ (List.replicate n (R.r (1 / (n : ℝ))))).sum R)).round (by positivity)
      exact mul_pos hn' (this.pos (by positivity))
    · unfold normaliseFl
      rw [ho, List.map_replicate]
      generalize R.r (R.r (1 / (n : ℝ)) / (σ (List.replicate n (R.r (1 / (n : ℝ))))).sum R) = z
      have hz : n * z * (1 / (n : ℝ)) = z := by field_simp
      have : ∀ m : Nat, List.Forall₂ (fun a b => Near R 0 (n * z * a) b) (List.replicate m (1 / (n : ℝ))) (List.replicate m z) := by
        intro m
        induction m with
        | zero => exact .nil
        | succ m ih => rw [List.replicate_succ, List.replicate_succ]; exact .cons (by rw [hz]; exact .refl z) ih
      exact this n
  obtain ⟨r1, r2, r3, r4⟩ := run_similar σ hσ hn steps hd 0 _ _ h0 (by simp) (by intro a ha; rw [(List.mem_replicate.1 ha).2]; positivity)
    (by rw [List.sum_replicate, nsmul_eq_mul]; field_simp) (by have := normaliseFl_sum (R := R) _ hpos; rwa [ho, List.length_replicate] at this)
  have h1 := similar_near _ _ r2 r3 r4 r1
  unfold exactRun runFl
  have key : ∀ l l' : List ℝ, (∀ a ∈ l, 0 < a) → List.Forall₂ (Near R (2 * (0 + steps.length * (n + 3)) + n)) l l' →
      List.Forall₂ (fun a b => 0 < a ∧ 0 < b ∧ |b - a| ≤ 2 * ((2 * steps.length + 1) * (n + 3)) * R.u * a) l l' := by
    intro l l' hl h
    induction h with
    | nil => exact .nil
    | @cons a b l l' hab _ ih =>
      refine .cons ?_ (ih fun a ha => hl a (by simp [ha]))
      have ha := hl a (by simp)
      have hb := hab.pos ha
      refine ⟨ha, hb, ?_⟩
      have h2 : Near R ((2 * steps.length + 1) * (n + 3)) a b := hab.mono (by ring_nf; omega) ha.le
      have h3 := pow_small R ((2 * steps.length + 1) * (n + 3)) (by push_cast; linarith)
      have hk := pow_pos (q_pos R) ((2 * steps.length + 1) * (n + 3))
      have h4 : b ≤ 1 / (1 - R.u) ^ ((2 * steps.length + 1) * (n + 3)) * a := by
        rw [one_div, ← div_eq_inv_mul, le_div_iff₀ hk]; exact h2.2
      have h5 := h2.1
      push_cast at h3
      generalize (1 - R.u) ^ ((2 * steps.length + 1) * (n + 3)) = z at *
      have h6 : 1 - z ≤ 1 / z - 1 := by
        have hz : z + 1 / z - 2 = (z - 1) ^ 2 / z := by field_simp; ring
        have : 0 ≤ (z - 1) ^ 2 / z := by positivity
        linarith
      generalize 1 / z = z' at *
      generalize 2 * ((2 * (steps.length : ℝ) + 1) * (n + 3)) * R.u = t at *
      rw [abs_le]
      constructor <;> nlinarith
  exact key _ _ r2 h1

/-! ### Example -/

/-- Adding up from left to right, as Python's `sum` does. -/
noncomputable def leftToRight : List ℝ → Order
  | [] => .leaf 0
  | a :: l => l.foldl (fun o x => .add o (.leaf x)) (.leaf a)

theorem leftToRight_strategy : Strategy leftToRight := by
  have main : ∀ (l : List ℝ) (o : Order), (l.foldl (fun o x => Order.add o (.leaf x)) o).terms = o.terms ++ l := by
    intro l
    induction l with
    | nil => simp
    | cons a l ih => intro o; rw [List.foldl_cons, ih]; simp [Order.terms]
  intro l hl
  cases l with
  | nil => exact absurd rfl hl
  | cons a l => simp [leftToRight, main, Order.terms]

/-- Two particles and one more step: exactly, the weights are 3/11 and 8/11. -/
theorem exact_two : exactRun 2 [[(1, [1, 1]), (2, [1, 1 / 2])]] = [3 / 11, 8 / 11] := by
  norm_num [exactRun, exactStep, normalise, List.replicate]

/-- With Python's floats they are right up to the fraction 30 / 2^53. -/
example : List.Forall₂ (fun a b => 0 < a ∧ 0 < b ∧ |b - a| ≤ 2 * ((2 * ([[(1, [1, 1]), (2, [1, 1 / 2])]] : List (List (ℝ × List ℝ))).length + 1) * ((2 : ℕ) + 3)) * binary64.u * a)
    [3 / 11, 8 / 11] (runFl binary64 leftToRight 2 [[(1, [1, 1]), (2, [1, 1 / 2])]]) := by
  have h := C218_run binary64 leftToRight leftToRight_strategy 2 (by norm_num) [[(1, [1, 1]), (2, [1, 1 / 2])]] ?_ (by norm_num [binary64])
  · rw [exact_two] at h; exact h
  · intro d hd
    rw [List.mem_singleton.1 hd]
    refine ⟨rfl, ?_⟩
    intro e he
    simp only [List.mem_cons, List.not_mem_nil, or_false] at he
    rcases he with rfl | rfl <;> norm_num

end Verif.Floats
