import Verif.Deriv.Score
import Verif.Deriv.TrainProps
import Verif.Nn.Props
/-
C159: score matching trains with every number of samples. C160: the embedding of the parameters is normalised. C161: early stopping of score matching.
-/
namespace Verif.Deriv

open Verif.Nn (Epochs Memory stateDict weightsAfter lossAt Check)

/-! ### C159 -/

/-- Specification: `n` samples in batches of `size` have a last batch with a single sample. -/
def Single (n size : Nat) : Prop := ∃ q, n = size * q + 1 ∧ 1 ≤ size

theorem cut_length {A : Type} (size : Nat) (l : List A) (bs : List (List A)) (b : List A) (h : Cut size l (bs ++ [b])) : l.length = size * bs.length + b.length := by
  obtain ⟨h1, _, h3⟩ := h
  rw [← h1, List.flatten_append, List.length_append, List.length_flatten]
  simp only [List.dropLast_concat] at h3
  have : (bs.map List.length) = List.replicate bs.length size := by
    rw [List.eq_replicate_iff]
    refine ⟨by simp, ?_⟩
    intro x hx
    obtain ⟨y, hy, rfl⟩ := List.mem_map.1 hx
    exact h3 y hy
  rw [this]
  simp [Nat.mul_comm]

theorem single_iff {A : Type} (size : Nat) (hs : 0 < size) (l : List A) (bs : List (List A)) (h : Cut size l bs) : (∃ b ∈ bs, b.length = 1) ↔ Single l.length size := by
  rcases List.eq_nil_or_concat bs with rfl | ⟨bs, b, rfl⟩
  · have : l = [] := by simpa using h.1.symm
    subst this
    simp [Single]
  · rw [List.concat_eq_append] at h ⊢
    have hl := cut_length size l bs b h
    have hb := h.2.1 b (by simp)
    have hb1 : 1 ≤ b.length := List.length_pos_of_ne_nil hb.1
    constructor
    · rintro ⟨c, hc, hc1⟩
      rcases List.mem_append.1 hc with hc | hc
      · have := h.2.2 c (by rw [List.dropLast_concat]; exact hc)
        have hs1 : size = 1 := by omega
        subst hs1
        exact ⟨l.length - 1, by omega, le_rfl⟩
      · simp only [List.mem_singleton] at hc
        subst hc
        exact ⟨bs.length, by omega, hs⟩
    · rintro ⟨q, hq, _⟩
      refine ⟨b, by simp, ?_⟩
      rcases Nat.lt_trichotomy q bs.length with h1 | h1 | h1
      · have : size * (q + 1) ≤ size * bs.length := Nat.mul_le_mul_left _ h1
        rw [Nat.mul_succ] at this
        omega
      · subst h1; omega
      · have : size * (bs.length + 1) ≤ size * q := Nat.mul_le_mul_left _ h1
        rw [Nat.mul_succ] at this
        omega

theorem guarded_none {T A : Type} (norm : Bool) (step : T → List A → T × ℝ) (bs : List (List A)) : (runBatches (guarded norm step) none bs).1 = none := by
  induction bs with
  | nil => rfl
  | cons b bs ih => exact ih

theorem guarded_spec {T A : Type} (norm : Bool) (step : T → List A → T × ℝ) (bs : List (List A)) (t : T) :
    (runBatches (guarded norm step) (some t) bs).1 = if norm = true ∧ ∃ b ∈ bs, b.length = 1 then none else some (runBatches step t bs).1 := by
  induction bs generalizing t with
  | nil => simp [runBatches]
  | cons b bs ih =>
    rw [runBatches, guarded]
    by_cases hb : norm = true ∧ b.length = 1
    · have : (norm && b.length == 1) = true := by simp [hb]
      simp only [this, if_true, guarded_none]
      rw [if_pos ⟨hb.1, b, by simp, hb.2⟩]
    · have : (norm && b.length == 1) = false := by
        cases norm <;> simp_all
      simp only [this, Bool.false_eq_true, if_false, ih]
      rw [runBatches]
      congr 1
      simp only [List.mem_cons, exists_eq_or_imp, eq_iff_iff]
      constructor
      · rintro ⟨h1, h2⟩; exact ⟨h1, .inr h2⟩
      · rintro ⟨h1, h2 | h2⟩
        · exact absurd ⟨h1, h2⟩ hb
        · exact ⟨h1, h2⟩

theorem epochs_none {T A : Type} (norm : Bool) (step : T → List A → T × ℝ) (size fuel : Nat) (hs : 0 < size) (l : List (List A)) (hf : ∀ i ∈ l, i.length < fuel) : epochs norm step size fuel l none = some none := by
  induction l with
  | nil => rfl
  | cons i l ih =>
    obtain ⟨f, rfl⟩ : ∃ f, fuel = f + 1 := ⟨fuel - 1, by have := hf i (by simp); omega⟩
    obtain ⟨bs, _, e⟩ := batchLoop_spec (guarded norm step) size hs i f 0 none 0 (by have := hf i (by simp); omega)
    rw [epochs, epoch, e]
    simp only [guarded_none]
    exact ih fun j hj => hf j (by simp [hj])

/-- C159, what holds: training with `n` samples raises exactly if there is an epoch, the network of the parameters normalises, and the last batch has a single sample. -/
theorem C159_partial {T A : Type} (norm : Bool) (step : T → List A → T × ℝ) (size : Nat) (hs : 0 < size) (n fuel : Nat) (hf : n < fuel) (permutations : List (List A)) (hp : ∀ i ∈ permutations, i.length = n) (t : T) :
    ∃ r, epochs norm step size fuel permutations (some t) = some r ∧ (r = none ↔ norm = true ∧ permutations ≠ [] ∧ Single n size) := by
  induction permutations generalizing t with
  | nil => exact ⟨some t, rfl, by simp⟩
  | cons i l ih =>
    have hi := hp i (by simp)
    obtain ⟨f, rfl⟩ : ∃ f, fuel = f + 1 := ⟨fuel - 1, by omega⟩
    obtain ⟨bs, hc, e⟩ := batchLoop_spec (guarded norm step) size hs i f 0 (some t) 0 (by omega)
    simp only [Nat.mul_zero, List.drop_zero] at hc
    have hsi := single_iff size hs i bs hc
    rw [hi] at hsi
    rw [epochs, epoch, e]
    simp only [guarded_spec]
    by_cases hn : norm = true ∧ ∃ b ∈ bs, b.length = 1
    · rw [if_pos hn, epochs_none norm step size (f + 1) hs l (fun j hj => by rw [hp j (by simp [hj])]; exact hf)]
      exact ⟨none, rfl, by simp [hn.1, hsi.1 hn.2]⟩
    · rw [if_neg hn]
      obtain ⟨r, h1, h2⟩ := ih (fun j hj => hp j (by simp [hj])) (runBatches step t bs).1
      refine ⟨r, h1, ?_⟩
      rw [h2]
      rw [hsi] at hn
      constructor
      · rintro ⟨a, _, b⟩; exact absurd ⟨a, b⟩ hn
      · rintro ⟨a, _, b⟩; exact absurd ⟨a, b⟩ hn

/-- C159 is violated with the default arguments (a default network with hidden layers, `batch_norm=True`, `batch_size=16`): training raises for 17, 33, 49, ... samples. -/
theorem C159_violated {T A : Type} (step : T → List A → T × ℝ) (q fuel : Nat) (hf : 16 * q + 1 < fuel) (i : List A) (l : List (List A)) (hp : ∀ j ∈ i :: l, j.length = 16 * q + 1) (t : T) :
    epochs (normalises none true) step 16 fuel (i :: l) (some t) = some none := by
  obtain ⟨r, h1, h2⟩ := C159_partial (normalises none true) step 16 (by norm_num) (16 * q + 1) fuel hf (i :: l) hp t
  rw [h1, h2.2 ⟨rfl, by simp, q, rfl, by norm_num⟩]

/-- Three samples in batches of two raise, four do not. -/
example : epochs true (fun (t : Nat) (b : List Nat) => (t + b.length, (2 : ℝ))) 2 5 [[2, 0, 1]] (some 0) = some none ∧
    epochs true (fun (t : Nat) (b : List Nat) => (t + b.length, (2 : ℝ))) 2 5 [[2, 0, 1, 3], [0, 1, 2, 3]] (some 0) = some (some 8) := by
  constructor <;> norm_num [epochs, epoch, batchLoop, guarded]

/-! ### C160 -/

/-- C160, what holds: with hidden layers and at least two samples in a batch, the embedding that is trained on has mean zero in each column, its variance is that of the last linear layer divided by itself plus
`eps`; adding the same number to a whole column changes nothing. -/
theorem C160_partial (hidden : Option (List Nat)) (hh : hidden ≠ some []) (eps momentum : ℝ) (he : 0 < eps) (n : Nat) (hn : 2 ≤ n) (x : Batch) (r : Running) :
    ∃ y r', embed hidden true eps momentum n x r = some (y, r') ∧
      (∀ k, (∑ b ∈ Finset.range n, y b k) / n = 0 ∧ (∑ b ∈ Finset.range n, y b k ^ 2) / n = colVar n x k / (colVar n x k + eps)) ∧
      ∀ c : Nat → ℝ, ∃ r'', embed hidden true eps momentum n (fun b k => x b k + c k) r = some (y, r'') := by
  have hnorm : normalises hidden true = true := by
    cases hidden with
    | none => rfl
    | some l => cases l with
      | nil => exact absurd rfl hh
      | cons a l => rfl
  simp only [embed, hnorm, if_true]
  have hn0 : (n : ℝ) ≠ 0 := by positivity
  have hv : ∀ k, 0 ≤ colVar n x k := fun k => div_nonneg (Finset.sum_nonneg fun b _ => sq_nonneg _) (Nat.cast_nonneg n)
  refine ⟨_, _, by rw [bnTrain, if_neg (by omega)], ?_, ?_⟩
  · intro k
    constructor
    · rw [← Finset.sum_div, Finset.sum_sub_distrib, Finset.sum_const, Finset.card_range, nsmul_eq_mul]
      have : (n : ℝ) * colMean n x k = ∑ b ∈ Finset.range n, x b k := by
        unfold colMean
        field_simp
      rw [this]
      simp
    · have hp : 0 < colVar n x k + eps := add_pos_of_nonneg_of_pos (hv k) he
      have : ∀ b, ((x b k - colMean n x k) / Real.sqrt (colVar n x k + eps)) ^ 2 = (x b k - colMean n x k) ^ 2 / (colVar n x k + eps) := by
        intro b
        rw [div_pow, Real.sq_sqrt hp.le]
      simp only [this]
      rw [← Finset.sum_div, div_right_comm]
      rfl
  · intro c
    have hm : ∀ k, colMean n (fun b k => x b k + c k) k = colMean n x k + c k := by
      intro k
      unfold colMean
      rw [Finset.sum_add_distrib, Finset.sum_const, Finset.card_range, nsmul_eq_mul]
      field_simp
    have hvar : ∀ k, colVar n (fun b k => x b k + c k) k = colVar n x k := by
      intro k
      unfold colVar
      rw [hm]
      congr 1
      refine Finset.sum_congr rfl fun b _ => ?_
      ring
    rw [bnTrain, if_neg (by omega)]
    simp only [hm, hvar, add_sub_add_right_eq_sub]
    exact ⟨_, rfl⟩

/-- Specification: exponential moving average of a list, newest last, that starts at `a`. -/
noncomputable def movingAverage (p a : ℝ) (l : List ℝ) : ℝ := (1 - p) ^ l.length * a + (l.zipIdx.map fun e => p * (1 - p) ^ (l.length - 1 - e.2) * e.1).sum

theorem movingAverage_snoc (p a : ℝ) (l : List ℝ) (x : ℝ) : movingAverage p a (l ++ [x]) = (1 - p) * movingAverage p a l + p * x := by
  unfold movingAverage
  rw [List.length_append, List.length_singleton, List.zipIdx_append, List.map_append, List.sum_append, mul_add, ← mul_assoc, ← pow_succ']
  have : (l.zipIdx.map fun e => p * (1 - p) ^ (l.length + 1 - 1 - e.2) * e.1) = l.zipIdx.map fun e => (1 - p) * (p * (1 - p) ^ (l.length - 1 - e.2) * e.1) := by
    apply List.map_congr_left
    intro e he
    have hlt : e.2 < l.length := by
      have := List.mem_zipIdx he
      omega
    rw [show l.length + 1 - 1 - e.2 = (l.length - 1 - e.2) + 1 by omega, pow_succ]
    ring
  rw [this, List.sum_map_mul_left]
  simp [add_assoc]

/-- The batches of training one after the other. -/
noncomputable def bnRun (eps momentum : ℝ) : List (Nat × Batch) → Running → Option Running
  | [], r => some r
  | (n, x) :: l, r => match bnTrain eps momentum n x r with
    | none => none
    | some (_, r) => bnRun eps momentum l r

theorem bnRun_append (eps momentum : ℝ) (l : List (Nat × Batch)) (n : Nat) (x : Batch) (hn : n ≠ 1) (r r1 : Running) (h : bnRun eps momentum l r = some r1) :
    ∃ r2 y, bnRun eps momentum (l ++ [(n, x)]) r = some r2 ∧ bnTrain eps momentum n x r1 = some (y, r2) := by
  induction l generalizing r with
  | nil =>
    simp only [bnRun, Option.some.injEq] at h
    subst h
    rw [List.nil_append, bnRun, bnTrain, if_neg hn]
    exact ⟨_, _, rfl, rfl⟩
  | cons e l ih =>
    obtain ⟨m, z⟩ := e
    rw [bnRun] at h
    rw [List.cons_append, bnRun]
    cases hq : bnTrain eps momentum m z r with
    | none => rw [hq] at h; simp at h
    | some q =>
      rw [hq] at h
      exact ih q.2 h

/-- C160: after training, the layer normalises every row on its own, with moving averages of the means and unbiased variances of all batches. -/
theorem C160_eval (eps momentum : ℝ) (batches : List (Nat × Batch)) (hb : ∀ e ∈ batches, 2 ≤ e.1) (r : Running) :
    ∃ r', bnRun eps momentum batches r = some r' ∧
      (∀ k, r'.mean k = movingAverage momentum (r.mean k) (batches.map fun e => (∑ b ∈ Finset.range e.1, e.2 b k) / e.1)) ∧
      (∀ k, r'.var k = movingAverage momentum (r.var k) (batches.map fun e => (∑ b ∈ Finset.range e.1, (e.2 b k - (∑ b ∈ Finset.range e.1, e.2 b k) / (e.1 : ℝ)) ^ 2) / ((e.1 : ℝ) - 1))) ∧
      ∀ x x' : Batch, ∀ b b', (∀ k, x b k = x' b' k) → ∀ k, bnEval eps r' x b k = bnEval eps r' x' b' k := by
  have key : ∃ r', bnRun eps momentum batches r = some r' ∧
      (∀ k, r'.mean k = movingAverage momentum (r.mean k) (batches.map fun e => (∑ b ∈ Finset.range e.1, e.2 b k) / e.1)) ∧
      (∀ k, r'.var k = movingAverage momentum (r.var k) (batches.map fun e => (∑ b ∈ Finset.range e.1, (e.2 b k - (∑ b ∈ Finset.range e.1, e.2 b k) / (e.1 : ℝ)) ^ 2) / ((e.1 : ℝ) - 1))) := by
    induction batches using List.reverseRecOn with
    | nil => exact ⟨r, rfl, fun k => by simp [movingAverage], fun k => by simp [movingAverage]⟩
    | append_singleton l e ih =>
      obtain ⟨n, x⟩ := e
      obtain ⟨r1, h1, h2, h3⟩ := ih fun e he => hb e (by simp [he])
      have hn : 2 ≤ n := hb (n, x) (by simp)
      obtain ⟨r2, y, h4, h5⟩ := bnRun_append eps momentum l n x (by omega) r r1 h1
      rw [bnTrain, if_neg (by omega)] at h5
      simp only [Option.some.injEq, Prod.mk.injEq] at h5
      refine ⟨r2, h4, fun k => ?_, fun k => ?_⟩
      · rw [← h5.2, List.map_append]
        simp only [List.map_cons, List.map_nil]
        rw [movingAverage_snoc, ← h2 k]
        rfl
      · rw [← h5.2, List.map_append]
        simp only [List.map_cons, List.map_nil]
        rw [movingAverage_snoc, ← h3 k]
        congr 2
        have h0 : (n : ℝ) ≠ 0 := by positivity
        have h1 : (n : ℝ) - 1 ≠ 0 := by
          have : (2 : ℝ) ≤ n := by exact_mod_cast hn
          linarith
        change (∑ b ∈ Finset.range n, (x b k - colMean n x k) ^ 2) / (n : ℝ) * ((n : ℝ) / ((n : ℝ) - 1)) = (∑ b ∈ Finset.range n, (x b k - colMean n x k) ^ 2) / ((n : ℝ) - 1)
        generalize (∑ b ∈ Finset.range n, (x b k - colMean n x k) ^ 2) = a
        field_simp
  obtain ⟨r', h1, h2, h3⟩ := key
  refine ⟨r', h1, h2, h3, ?_⟩
  intro x x' b b' h k
  unfold bnEval
  rw [h k]

/-- C160 is violated for networks of the parameters without hidden layers: `batch_norm=True` has no effect, and the embedding has the mean of the linear layer. -/
theorem C160_linear_violated (eps momentum : ℝ) (n : Nat) (x : Batch) (r : Running) (k : Nat) (hx : colMean n x k ≠ 0) :
    ∃ y r', embed (some []) true eps momentum n x r = some (y, r') ∧ (∑ b ∈ Finset.range n, y b k) / n ≠ 0 :=
  ⟨x, r, rfl, hx⟩

example : bnTrain 3 (1 / 2) 2 (fun b _ => if b = 0 then 1 else 3) ⟨fun _ => 0, fun _ => 1⟩ =
    some (fun b _ => ((if b = 0 then 1 else 3) - 2) / Real.sqrt (1 + 3), ⟨fun _ => 1, fun _ => 3 / 2⟩) := by
  have hm : ∀ k, colMean 2 (fun b _ => if b = 0 then 1 else 3) k = 2 := by
    intro k; norm_num [colMean, Finset.sum_range_succ]
  have hv : ∀ k, colVar 2 (fun b _ => if b = 0 then 1 else 3) k = 1 := by
    intro k
    unfold colVar
    rw [hm]
    norm_num [Finset.sum_range_succ]
  rw [bnTrain, if_neg (by norm_num)]
  simp only [hm, hv]
  norm_num

/-! ### C161 -/

/-- Specification of the rule: the epoch ends with a check, it is late enough, the previous check took place in this run, and the loss is larger than it was then. -/
def Halts {T : Type} (E : Epochs T) (interval before from_ : Nat) (t : T) (k : Nat) : Prop :=
  Check interval from_ k ∧ before < from_ + k + 1 ∧ interval ≤ k ∧ lossAt E from_ t (k - interval) < lossAt E from_ t k

structure Going {T : Type} (E : Epochs T) (interval before from_ : Nat) (t : T) (k : Nat) (s : Train T) : Prop where
  running : s.stopped = none
  mem : s.mem = ⟨[weightsAfter E from_ t k]⟩
  losses : s.losses = (List.range k).map (lossAt E from_ t)
  none_yet : ∀ i < k, ¬ Halts E interval before from_ t i
  unsaved : s.saved = none → ∀ p < k, ¬ Check interval from_ p
  saved : ∀ d, s.saved = some d → d = stateDict ∧ ∃ p < k, Check interval from_ p

structure Halted {T : Type} (E : Epochs T) (interval before from_ : Nat) (t : T) (e : Nat) (s : Train T) : Prop where
  stopped : s.stopped = some (from_ + e)
  mem : s.mem = ⟨[weightsAfter E from_ t (e + 1)]⟩
  losses : s.losses = (List.range (e + 1)).map (lossAt E from_ t)
  none_yet : ∀ i < e, ¬ Halts E interval before from_ t i
  stop : Halts E interval before from_ t e

theorem check_apart (interval from_ p k : Nat) (h1 : Check interval from_ p) (h2 : Check interval from_ k) (h : p < k) : interval ≤ k := by
  unfold Check at h1 h2
  have hd : interval ∣ k - p := by
    have := Nat.dvd_sub (Nat.dvd_of_mod_eq_zero h2) (Nat.dvd_of_mod_eq_zero h1)
    rwa [show from_ + k + 1 - (from_ + p + 1) = k - p by omega] at this
  have := Nat.le_of_dvd (by omega) hd
  omega

theorem check_before (interval from_ k : Nat) (h : Check interval from_ k) (hk : interval ≤ k) : Check interval from_ (k - interval) := by
  unfold Check at h ⊢
  apply Nat.mod_eq_zero_of_dvd
  have := Nat.dvd_sub (Nat.dvd_of_mod_eq_zero h) (dvd_refl interval)
  rwa [show from_ + k + 1 - interval = from_ + (k - interval) + 1 by omega] at this

theorem train_step {T : Type} (E : Epochs T) (interval before from_ : Nat) (h0 : interval ≠ 0) (t : T) (k : Nat) (s : Train T) (h : Going E interval before from_ t k s) :
    ∃ s', s.epoch E interval before (from_ + k) = some s' ∧ (Going E interval before from_ t (k + 1) s' ∨ Halted E interval before from_ t k s') := by
  obtain ⟨mem, vl, sv, st⟩ := s
  obtain ⟨h1, h2, h3, h4, h5, h6⟩ := h
  simp only at h1 h2 h3 h5 h6
  subst h1 h2
  have hl : E.test (from_ + k) (E.train (from_ + k) (weightsAfter E from_ t k)).1 = lossAt E from_ t k := rfl
  have hlosses : vl ++ [lossAt E from_ t k] = (List.range (k + 1)).map (lossAt E from_ t) := by
    rw [h3, List.range_succ, List.map_append]; rfl
  have hno : ∀ i < k + 1, ¬ Halts E interval before from_ t k → ¬ Halts E interval before from_ t i := by
    intro i hi hk
    rcases Nat.lt_succ_iff_lt_or_eq.1 hi with hi | rfl
    · exact h4 i hi
    · exact hk
  rw [Train.epoch.eq_def]
  simp only [hl, if_neg h0, hlosses]
  by_cases hc : Check interval from_ k
  · rw [if_pos (show (from_ + k + 1) % interval = 0 from hc)]
    cases sv with
    | none =>
      refine ⟨_, rfl, .inl ⟨rfl, rfl, rfl, fun i hi => hno i hi ?_, by simp, fun d hd => ⟨(Option.some.inj hd).symm, k, by omega, hc⟩⟩⟩
      rintro ⟨_, _, hk, _⟩
      exact h5 rfl _ (by omega) (check_before interval from_ k hc hk)
    | some d =>
      obtain ⟨rfl, p, hp, hpc⟩ := h6 d rfl
      have hk := check_apart interval from_ p k hpc hc hp
      by_cases hb : from_ + k + 1 > before
      · simp only [if_pos hb]
        have e1 : fromEnd ((List.range (k + 1)).map (lossAt E from_ t)) 1 = some (lossAt E from_ t k) := by
          unfold fromEnd
          simp
        have e2 : fromEnd ((List.range (k + 1)).map (lossAt E from_ t)) (1 + interval) = some (lossAt E from_ t (k - interval)) := by
          unfold fromEnd
          simp only [List.length_map, List.length_range]
          rw [if_pos (by omega), show k + 1 - (1 + interval) = k - interval by omega, List.getElem?_map, List.getElem?_range (by omega)]
          rfl
        simp only [e1, e2]
        by_cases hgt : lossAt E from_ t k > lossAt E from_ t (k - interval)
        · rw [if_pos hgt]
          exact ⟨_, rfl, .inr ⟨rfl, rfl, rfl, h4, hc, hb, hk, hgt⟩⟩
        · rw [if_neg hgt]
          exact ⟨_, rfl, .inl ⟨rfl, rfl, rfl, fun i hi => hno i hi fun hh => hgt hh.2.2.2, by simp, fun d hd => ⟨(Option.some.inj hd).symm, k, by omega, hc⟩⟩⟩
      · simp only [if_neg hb]
        exact ⟨_, rfl, .inl ⟨rfl, rfl, rfl, fun i hi => hno i hi fun hh => hb hh.2.1, by simp, fun d hd => ⟨(Option.some.inj hd).symm, k, by omega, hc⟩⟩⟩
  · rw [if_neg (show ¬ (from_ + k + 1) % interval = 0 from hc)]
    refine ⟨_, rfl, .inl ⟨rfl, rfl, rfl, fun i hi => hno i hi fun hh => hc hh.1, ?_, ?_⟩⟩
    · intro hs q hq
      rcases Nat.lt_succ_iff_lt_or_eq.1 hq with hq | rfl
      · exact h5 hs q hq
      · exact hc
    · intro d hd
      obtain ⟨a, p, hp, hpc⟩ := h6 d hd
      exact ⟨a, p, by omega, hpc⟩

theorem train_loop {T : Type} (E : Epochs T) (interval before from_ : Nat) (h0 : interval ≠ 0) (t : T) (n : Nat) :
    ∃ s, (List.range' from_ n).foldl (fun s e => s.bind fun s : Train T => s.epoch E interval before e) (some ⟨⟨[t]⟩, [], none, none⟩) = some s ∧
      (Going E interval before from_ t n s ∨ ∃ e < n, Halted E interval before from_ t e s) := by
  induction n with
  | zero => exact ⟨_, rfl, .inl ⟨rfl, rfl, rfl, fun i hi => by omega, fun _ p hp => by omega, fun d hd => by simp at hd⟩⟩
  | succ n ih =>
    obtain ⟨s, hs, h⟩ := ih
    rw [List.range'_1_concat, List.foldl_append, hs]
    simp only [List.foldl_cons, List.foldl_nil, Option.bind_some]
    rcases h with h | ⟨e, he, h⟩
    · obtain ⟨s', h1, h2⟩ := train_step E interval before from_ h0 t n s h
      rcases h2 with h2 | h2
      · exact ⟨s', h1, .inl h2⟩
      · exact ⟨s', h1, .inr ⟨n, by omega, h2⟩⟩
    · refine ⟨s, ?_, .inr ⟨e, by omega, h⟩⟩
      rw [Train.epoch.eq_def, h.stopped]

/-- C161, what holds: for every interval but zero the training does not raise; it ends at the first check that meets the rule, or after all epochs, with the networks of the last epoch run. Missing: at an early stop
they should be those of the previous check. -/
theorem C161_partial {T : Type} (E : Epochs T) (interval before from_ n : Nat) (h0 : interval ≠ 0) (t : T) :
    ∃ s, train E interval before from_ n t = some s ∧
      ((∃ e, from_ + e < n ∧ Halts E interval before from_ t e ∧ (∀ i < e, ¬ Halts E interval before from_ t i) ∧ s.stopped = some (from_ + e) ∧ s.mem.cells = [weightsAfter E from_ t (e + 1)] ∧
          s.losses = (List.range (e + 1)).map (lossAt E from_ t)) ∨
        ((∀ i, from_ + i < n → ¬ Halts E interval before from_ t i) ∧ s.stopped = none ∧ s.mem.cells = [weightsAfter E from_ t (n - from_)] ∧ s.losses = (List.range (n - from_)).map (lossAt E from_ t))) := by
  obtain ⟨s, hs, h⟩ := train_loop E interval before from_ h0 t (n - from_)
  refine ⟨s, hs, ?_⟩
  rcases h with h | ⟨e, he, h⟩
  · exact .inr ⟨fun i hi => h.none_yet i (by omega), h.running, by rw [h.mem], h.losses⟩
  · exact .inl ⟨e, by omega, h.stop, h.none_yet, h.stopped, by rw [h.mem], h.losses⟩

/-- C161 is violated: weights 1, 2, ... after the epochs, and losses that grow. Training stops after the second epoch with the weights of that epoch and not those of the check before. -/
theorem C161_violated : ∃ (E : Epochs Nat) (s : Train Nat), train E 1 0 0 5 0 = some s ∧ s.stopped = some 1 ∧ lossAt E 0 0 0 < lossAt E 0 0 1 ∧ weightsAfter E 0 0 1 = 1 ∧ s.mem.cells = [2] := by
  let E : Epochs Nat := ⟨fun _ t => (t + 1, 0), fun _ t => t⟩
  obtain ⟨s, hs, h⟩ := C161_partial E 1 0 0 5 (by norm_num) 0
  have hh : Halts E 1 0 0 0 1 := by
    refine ⟨by simp [Check], by norm_num, le_rfl, ?_⟩
    norm_num [lossAt, weightsAfter, E]
  have h00 : ¬ Halts E 1 0 0 0 0 := fun h => absurd h.2.2.1 (by norm_num)
  refine ⟨E, s, hs, ?_⟩
  rcases h with ⟨e, he, h1, h2, h3, h4, h5⟩ | ⟨h1, _⟩
  · have he1 : e = 1 := by
      rcases Nat.lt_trichotomy e 1 with h | h | h
      · have : e = 0 := by omega
        subst this
        exact absurd h1 h00
      · exact h
      · exact absurd hh (h2 1 h)
    subst he1
    exact ⟨h3, by norm_num [lossAt, weightsAfter, E], by norm_num [weightsAfter, E], by rw [h4]; norm_num [weightsAfter, E]⟩
  · exact absurd hh (h1 1 (by norm_num))

end Verif.Deriv
