import Verif.Schedule.Props
import Mathlib.Data.Fintype.CardEmbedding
import Mathlib.Analysis.SpecialFunctions.Exp
import Mathlib.Analysis.Complex.ExponentialBounds
import Mathlib.Algebra.BigOperators.Intervals
import Mathlib.Algebra.Order.BigOperators.Ring.Finset
/-
C124: the particles of a sampler are separate draws: no two tasks get the same random numbers.
-/
namespace Verif.Schedule

open Graph

/-! ### Repeated seeds -/

/-- Arrays of `n` seeds out of `K`, all equally likely: `rng.randint` draws with replacement. -/
abbrev Seeds (n K : Nat) := Fin n → Fin K

/-- Specification: two tasks have the same seed. -/
def Repeated {n K : Nat} (s : Seeds n K) : Prop := ∃ i j, i < j ∧ s i = s j

open Classical in
/-- Specification: the fraction of all arrays of seeds for which an event happens. -/
noncomputable def fraction {n K : Nat} (event : Seeds n K → Prop) : ℝ := ((Finset.univ.filter event).card : ℝ) / Fintype.card (Seeds n K)

theorem not_repeated_iff {n K : Nat} (s : Seeds n K) : ¬ Repeated s ↔ Function.Injective s := by
  constructor
  · intro h i j e
    by_contra hne
    rcases lt_or_gt_of_ne hne with hl | hl
    · exact h ⟨i, j, hl, e⟩
    · exact h ⟨j, i, hl, e.symm⟩
  · rintro h ⟨i, j, hl, e⟩
    exact absurd (h e) (ne_of_lt hl)

theorem desc_le (K n : Nat) (hK : 0 < K) : ((K.descFactorial n : Nat) : ℝ) ≤ (K : ℝ) ^ n * Real.exp (-((n * (n - 1) : ℝ) / (2 * K))) := by
  have hk : (0 : ℝ) < K := by exact_mod_cast hK
  induction n with
  | zero => simp
  | succ n ih =>
    rw [Nat.descFactorial_succ, Nat.cast_mul]
    by_cases hn : K ≤ n
    · rw [Nat.sub_eq_zero_of_le hn]; simp only [Nat.cast_zero, zero_mul]; positivity
    · push Not at hn
      rw [Nat.cast_sub hn.le]
      have h1 : ((K : ℝ) - n) ≤ K * Real.exp (-(n / K)) := by
        have := Real.add_one_le_exp (-((n : ℝ) / K))
        calc ((K : ℝ) - n) = K * (-(n / K) + 1) := by field_simp; ring
          _ ≤ _ := mul_le_mul_of_nonneg_left this hk.le
      calc ((K : ℝ) - n) * (K.descFactorial n : ℝ) ≤ (K * Real.exp (-(n / K))) * ((K : ℝ) ^ n * Real.exp (-((n * (n - 1) : ℝ) / (2 * K)))) :=
            mul_le_mul h1 ih (by positivity) (by positivity)
        _ = (K : ℝ) ^ (n + 1) * (Real.exp (-(n / K)) * Real.exp (-((n * (n - 1) : ℝ) / (2 * K)))) := by ring
        _ = _ := by
          rw [← Real.exp_add]
          congr 2
          push_cast
          field_simp
          ring

theorem le_desc (K n : Nat) (hK : 0 < K) : (K : ℝ) ^ n * (1 - (n * (n - 1) : ℝ) / (2 * K)) ≤ ((K.descFactorial n : Nat) : ℝ) := by
  have hk : (0 : ℝ) < K := by exact_mod_cast hK
  induction n with
  | zero => simp
  | succ n ih =>
    rw [Nat.descFactorial_succ, Nat.cast_mul]
    have hd : ((K.descFactorial n : Nat) : ℝ) ≤ (K : ℝ) ^ n := by exact_mod_cast Nat.descFactorial_le_pow K n
    have h1 : ((K : ℝ) - n) ≤ ((K - n : Nat) : ℝ) := by
      rw [sub_le_iff_le_add]; exact_mod_cast (show K ≤ K - n + n by omega)
    have h0 : (0 : ℝ) ≤ (K.descFactorial n : ℝ) := by positivity
    calc (K : ℝ) ^ (n + 1) * (1 - ((n + 1 : Nat) * ((n + 1 : Nat) - 1) : ℝ) / (2 * K))
        = K * ((K : ℝ) ^ n * (1 - (n * (n - 1) : ℝ) / (2 * K))) - n * (K : ℝ) ^ n := by push_cast; field_simp; ring
      _ ≤ K * (K.descFactorial n : ℝ) - n * (K.descFactorial n : ℝ) := by
          have := mul_le_mul_of_nonneg_left ih hk.le
          have := mul_le_mul_of_nonneg_left hd (Nat.cast_nonneg (α := ℝ) n)
          linarith
      _ = ((K : ℝ) - n) * (K.descFactorial n : ℝ) := by ring
      _ ≤ _ := mul_le_mul_of_nonneg_right h1 h0

theorem fraction_repeated (n K : Nat) (hK : 0 < K) : fraction (Repeated (n := n) (K := K)) = 1 - (K.descFactorial n : ℝ) / (K : ℝ) ^ n := by
  classical
  have hc : (Finset.univ.filter fun s : Seeds n K => ¬ Repeated s).card = K.descFactorial n := by
    have : (Finset.univ.filter fun s : Seeds n K => ¬ Repeated s) = Finset.univ.filter fun s : Seeds n K => Function.Injective s :=
      Finset.filter_congr fun s _ => not_repeated_iff s
    rw [this, ← Fintype.card_subtype, Fintype.card_congr (Equiv.subtypeInjectiveEquivEmbedding (Fin n) (Fin K)), Fintype.card_embedding_eq]
    simp
  have htot := Finset.card_filter_add_card_filter_not (s := (Finset.univ : Finset (Seeds n K))) Repeated
  have hcard : Fintype.card (Seeds n K) = K ^ n := by simp
  rw [hc, Finset.card_univ, hcard] at htot
  have hk : (0 : ℝ) < (K : ℝ) ^ n := by positivity
  unfold fraction
  rw [hcard]
  have : ((Finset.univ.filter (Repeated (n := n) (K := K))).card : ℝ) + (K.descFactorial n : ℝ) = (K : ℝ) ^ n := by exact_mod_cast htot
  push_cast
  rw [eq_sub_iff_add_eq, ← add_div, div_eq_one_iff_eq hk.ne']
  convert this

theorem fraction_mono {n K : Nat} (a b : Seeds n K → Prop) (h : ∀ s, a s → b s) : fraction a ≤ fraction b := by
  classical
  unfold fraction
  gcongr with s hs
  exact h s

/-! ### Particles -/

/-- The seeds that `RejectionABC` gives to its tasks (inferences.py 580-581): `randint(1, n * n)`. -/
def given {n K : Nat} (s : Seeds n K) : Nat → Nat := fun i => if h : i < n then 1 + s ⟨i, h⟩ else 0

/-- Specification: two of the results are the same, parameters, distance and number of simulations. -/
def Twice {O : Type} (l : List (Option (Option O))) : Prop := ∃ (i j : Nat) (r : O), i < j ∧ l[i]? = some (some (some r)) ∧ l[j]? = some (some (some r))

/-- C124: for arrays of seeds out of `K` numbers, the fraction of arrays with equal seeds is at most `n (n - 1) / (2 K)`. The samplers other than RejectionABC draw out of 2 ^ 32 - 1 numbers. -/
theorem C124_partial (n K : Nat) (hK : 0 < K) : fraction (Repeated (n := n) (K := K)) ≤ (n * (n - 1) : ℝ) / (2 * K) := by
  rw [fraction_repeated n K hK]
  have hk : (0 : ℝ) < (K : ℝ) ^ n := by positivity
  have := le_desc K n hK
  rw [sub_le_comm, le_div_iff₀ hk]
  linarith

/-- C124, violated part: `RejectionABC` draws `n` seeds out of `n * n - 1` numbers. For every number of particles, in at least a quarter of the cases two tasks get the same seed and return the same particle:
the same parameters at the same distance after the same simulations, on every schedule. All tasks are assumed to end. -/
theorem C124_violated {α D Y : Type} (p : Setup α D Y) (hp : Reproducible p) (eps : ℝ) (fuel n : Nat) (hn : 2 ≤ n) (schedule : List (Nat × Nat)) (hc : Complete n schedule) (object : Smp α × D)
    (ho : Clean object.1.st) (hend : ∀ k, (rejectTask p eps fuel k object).2 ≠ none) :
    1 / 4 ≤ fraction fun s : Seeds n (n * n - 1) => Twice (mapMpi (rejectTask p eps fuel) (given s) n schedule object) := by
  have hn' : (2 : ℝ) ≤ n := by exact_mod_cast hn
  have hK : 0 < n * n - 1 := by have : 2 * 2 ≤ n * n := Nat.mul_le_mul hn hn; omega
  have hKr : ((n * n - 1 : Nat) : ℝ) = n * n - 1 := by rw [Nat.cast_sub (by omega)]; push_cast; ring
  have h1 : 1 / 4 ≤ fraction (Repeated (n := n) (K := n * n - 1)) := by
    rw [fraction_repeated n _ hK]
    have hk : (0 : ℝ) < ((n * n - 1 : Nat) : ℝ) ^ n := by
      have : (0 : ℝ) < ((n * n - 1 : Nat) : ℝ) := by exact_mod_cast hK
      positivity
    have hd := desc_le (n * n - 1) n hK
    have he : Real.exp (-((n * (n - 1) : ℝ) / (2 * ((n * n - 1 : Nat) : ℝ)))) ≤ 3 / 4 := by
      have h3 : -((n * (n - 1) : ℝ) / (2 * ((n * n - 1 : Nat) : ℝ))) ≤ -(1 / 3) := by
        rw [hKr, neg_le_neg_iff, div_le_div_iff₀ (by norm_num) (by nlinarith)]
        nlinarith
      refine (Real.exp_le_exp.mpr h3).trans ?_
      rw [Real.exp_neg, inv_le_comm₀ (Real.exp_pos _) (by norm_num)]
      have := Real.add_one_le_exp (1 / 3 : ℝ)
      norm_num at this ⊢
      linarith
    have : ((n * n - 1).descFactorial n : ℝ) / ((n * n - 1 : Nat) : ℝ) ^ n ≤ 3 / 4 := by
      rw [div_le_iff₀ hk]
      calc _ ≤ _ := hd
        _ ≤ ((n * n - 1 : Nat) : ℝ) ^ n * (3 / 4) := mul_le_mul_of_nonneg_left he hk.le
        _ = _ := by ring
    linarith
  refine h1.trans (fraction_mono _ _ ?_)
  rintro s ⟨i, j, hij, e⟩
  obtain ⟨-, hmain⟩ := reject_tasks p hp eps fuel n (given s)
  obtain ⟨r, hr⟩ := Option.ne_none_iff_exists'.mp (hend (given s i))
  refine ⟨i, j, r, hij, ?_, ?_⟩
  · rw [(hmain object ho schedule hc).1]
    simp [i.2, hr]
  · rw [(hmain object ho schedule hc).1]
    have : given s j = given s i := by simp [given, i.2, j.2, e]
    simp [this, j.2, hr]

/-- What `C124_violated` and `C124_partial` count is about the seeds that the tasks get: these lie between 1 and `n * n - 1`, every such array of seeds can be drawn, and the seeds of two tasks are equal if and only if the numbers drawn for
them are. -/
theorem C124_given {n K : Nat} (s : Seeds n K) : (∀ i < n, 1 ≤ given s i ∧ given s i ≤ K) ∧ (∀ i j (hi : i < n) (hj : j < n), given s i = given s j ↔ s ⟨i, hi⟩ = s ⟨j, hj⟩) ∧
    ∀ l : Nat → Nat, (∀ i < n, 1 ≤ l i ∧ l i ≤ K) → ∃ s' : Seeds n K, ∀ i < n, given s' i = l i := by
  refine ⟨fun i hi => ?_, fun i j hi hj => ?_, fun l hl => ⟨fun i => ⟨l i - 1, by have := hl i i.2; omega⟩, fun i hi => ?_⟩⟩
  · have := (s ⟨i, hi⟩).2
    simp only [given, hi, dif_pos]
    omega
  · simp only [given, hi, hj, dif_pos, Nat.add_left_cancel_iff, Fin.val_inj]
  · have := hl i hi
    simp only [given, hi, dif_pos]
    omega

/-- The hypotheses can be met: a setup whose tasks all end. -/
example : ∃ p : Setup Int Unit Distance.Stats, Reproducible p ∧ Clean (fresh ()).1.st ∧ ∀ k, (rejectTask p 2 3 k (fresh ())).2 ≠ none := by
  refine ⟨plane fun _ _ => ((), some 1), plane_reproducible _ fun _ _ _ => rfl, fun _ => rfl, fun k => ?_⟩
  obtain ⟨s, e, -⟩ := plane_task (fun _ _ => ((), some 1)) k (fresh ()).1 () () 1 (by norm_num) rfl rfl rfl
  have f : fresh () = ((fresh ()).1, ()) := rfl
  rw [f, e]
  simp

end Verif.Schedule
