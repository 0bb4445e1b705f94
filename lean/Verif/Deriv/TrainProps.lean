import Verif.Deriv.Train
import Mathlib.Data.Fintype.BigOperators
import Mathlib.Algebra.BigOperators.Field
import Mathlib.Analysis.SpecialFunctions.Pow.NNReal
import Mathlib.Tactic.Linarith
import Mathlib.Tactic.FieldSimp
/-
C128: the sliced loss has the score-matching objective as its mean. C129: batches of an epoch and the reported loss.
-/
namespace Verif.Deriv

/-! ### Rows do not influence each other -/

theorem apply_row (L : Layer) (x y : Batch) (b : Nat) (h : x b = y b) : L.apply x b = L.apply y b := by
  funext o; simp [Layer.apply, h]

theorem loop_row (act : Act) (ls : List Layer) : ∀ (x y : Batch) (b : Nat), x b = y b → forwardLoop act ls x b = forwardLoop act ls y b := by
  induction ls with
  | nil => intro x y b h; exact h
  | cons L ls ih =>
    intro x y b h
    exact ih _ _ b (apply_row L _ _ b (by funext k; simp [h]))

theorem forward_row (net : Net) (x y : Batch) (b : Nat) (h : x b = y b) : net.forward x b = net.forward y b :=
  loop_row net.act net.layers _ _ b (apply_row net.input _ _ b h)

theorem put_row (x : Batch) (b b' i : Nat) (hb : b' ≠ b) (t : ℝ) : put x b i t b' = x b' := by
  funext k; simp [put, hb]

theorem logDensity_row (net : Net) (m : Nat) (eta : Batch) (b : Nat) (x y : Batch) (h : x b = y b) : logDensity net m eta b x = logDensity net m eta b y := by
  unfold logDensity; rw [forward_row net x y b h]

theorem partial_row (F : Batch → ℝ) (b : Nat) (hF : ∀ x y : Batch, x b = y b → F x = F y) (i : Nat) (x y : Batch) (h : x b = y b) : partialAt F b i x = partialAt F b i y := by
  unfold partialAt
  have : (fun t => F (put x b i t)) = fun t => F (put y b i t) := by
    funext t
    apply hF
    funext k
    simp [put, h]
  rw [this, h]

/-! ### Derivatives of the sums over the rows -/

theorem logDensity_hasDeriv (net : Net) (ha : net.act.Smooth) (m : Nat) (eta x : Batch) (b i : Nat) (hi : i < net.input.width) :
    HasDerivAt (fun t => logDensity net m eta b (put x b i t)) (partialAt (logDensity net m eta b) b i x) (x b i) := by
  have h := (C126 net ha x).2
  have : HasDerivAt (fun t => logDensity net m eta b (put x b i t)) (∑ k ∈ Finset.range m, eta b k * (net.derivatives x).2.1 b i k + (net.derivatives x).2.1 b i m) (x b i) :=
    (HasDerivAt.fun_sum fun k _ => (h b i k hi).1.const_mul _).add (h b i m hi).1
  exact this.differentiableAt.hasDerivAt

theorem logDensity_mixed (net : Net) (ha : net.act.Smooth) (m : Nat) (eta x : Batch) (b i j : Nat) (hi : i < net.input.width) (hj : j < net.input.width) :
    HasDerivAt (fun t => partialAt (logDensity net m eta b) b j (put x b i t)) (partialAt (partialAt (logDensity net m eta b) b j) b i x) (x b i) := by
  have e : ∀ t, partialAt (logDensity net m eta b) b j (put x b i t) = ∑ k ∈ Finset.range (m + 1), partialAt (fun x => net.forward x b k) b j (put x b i t) * appendOne m eta b k := by
    intro t
    rw [logDensity_first net ha m eta _ b j hj]
    apply Finset.sum_congr rfl
    intro k _
    rw [((C126 net ha (put x b i t)).2 b j k hj).1.deriv.symm]
    rfl
  have : DifferentiableAt ℝ (fun t => partialAt (logDensity net m eta b) b j (put x b i t)) (x b i) := by
    simp only [e]
    exact (HasDerivAt.fun_sum fun k _ => (partial_second net ha x b i j hi hj k).mul_const _).differentiableAt
  exact this.hasDerivAt

theorem sum_single_row (n b : Nat) (hb : b < n) (G : Nat → ℝ → ℝ) (g t : ℝ) (h : HasDerivAt (G b) g t) (h0 : ∀ b' ≠ b, ∃ c, G b' = fun _ => c) :
    HasDerivAt (fun t => ∑ b' ∈ Finset.range n, G b' t) g t := by
  have : HasDerivAt (fun t => ∑ b' ∈ Finset.range n, G b' t) (∑ b' ∈ Finset.range n, if b' = b then g else 0) t := by
    refine HasDerivAt.fun_sum fun b' _ => ?_
    by_cases e : b' = b
    · subst e; simpa using h
    · obtain ⟨c, hc⟩ := h0 b' e
      rw [hc, if_neg e]
      exact hasDerivAt_const t c
  simpa [hb] using this

/-- Specification: the gradient of the log-density of row `b`. -/
noncomputable def score (net : Net) (m : Nat) (eta : Batch) (x : Batch) (b i : Nat) : ℝ := partialAt (logDensity net m eta b) b i x

theorem logp_eq (net : Net) (m : Nat) (eta x : Batch) (b : Nat) : ∑ k ∈ Finset.range (m + 1), appendOne m eta b k * net.forward x b k = logDensity net m eta b x := by
  rw [Finset.sum_range_succ, logDensity]
  simp only [appendOne, lt_irrefl, if_false, one_mul]
  congr 1
  apply Finset.sum_congr rfl
  intro k hk
  rw [if_pos (Finset.mem_range.mp hk)]

theorem grad1_eq (net : Net) (ha : net.act.Smooth) (n m : Nat) (eta x : Batch) (b i : Nat) (hb : b < n) (hi : i < net.input.width) :
    autograd (fun x => ∑ b ∈ Finset.range n, ∑ k ∈ Finset.range (m + 1), appendOne m eta b k * net.forward x b k) x b i = score net m eta x b i := by
  unfold autograd score
  simp only [logp_eq]
  refine (sum_single_row n b hb (fun b' t => logDensity net m eta b' (put x b i t)) _ _ (logDensity_hasDeriv net ha m eta x b i hi) fun b' hne => ?_).deriv
  exact ⟨_, funext fun t => logDensity_row net m eta b' _ x (put_row x b b' i hne t)⟩

theorem grad2_eq (net : Net) (ha : net.act.Smooth) (n d m : Nat) (hd : d ≤ net.input.width) (eta x v : Batch) (b i : Nat) (hb : b < n) (hi : i < d) :
    autograd (fun x => ∑ b ∈ Finset.range n, ∑ j ∈ Finset.range d, score net m eta x b j * v b j) x b i =
      ∑ j ∈ Finset.range d, partialAt (partialAt (logDensity net m eta b) b j) b i x * v b j := by
  refine (sum_single_row n b hb (fun b' t => ∑ j ∈ Finset.range d, score net m eta (put x b i t) b' j * v b' j) _ _ ?_ fun b' hne => ?_).deriv
  · refine HasDerivAt.fun_sum fun j hj => ?_
    exact (logDensity_mixed net ha m eta x b i j (hi.trans_le hd) ((Finset.mem_range.mp hj).trans_le hd)).mul_const _
  · refine ⟨∑ j ∈ Finset.range d, score net m eta x b' j * v b' j, funext fun t => Finset.sum_congr rfl fun j _ => ?_⟩
    rw [score, partial_row (logDensity net m eta b') b' (fun x y h => logDensity_row net m eta b' x y h) j _ x (put_row x b b' i hne t)]
    rfl

theorem slicedLoss_eq (net : Net) (ha : net.act.Smooth) (n d m : Nat) (hd : d ≤ net.input.width) (samples etas v : Batch) (vr : Bool) :
    slicedLoss net n d m samples etas v vr = (∑ b ∈ Finset.range n,
      (1 / 2 * (if vr then ∑ i ∈ Finset.range d, score net m etas samples b i ^ 2 else (∑ i ∈ Finset.range d, score net m etas samples b i * v b i) ^ 2) +
        ∑ i ∈ Finset.range d, ∑ j ∈ Finset.range d, partialAt (partialAt (logDensity net m etas b) b j) b i samples * (v b i * v b j))) / n := by
  unfold slicedLoss
  simp only
  have hg : (fun x => ∑ b ∈ Finset.range n, ∑ i ∈ Finset.range d, autograd (fun x => ∑ b ∈ Finset.range n, ∑ k ∈ Finset.range (m + 1), appendOne m etas b k * net.forward x b k) x b i * v b i) =
      fun x => ∑ b ∈ Finset.range n, ∑ j ∈ Finset.range d, score net m etas x b j * v b j := by
    funext x
    refine Finset.sum_congr rfl fun b hb => Finset.sum_congr rfl fun i hi => ?_
    rw [grad1_eq net ha n m etas x b i (Finset.mem_range.mp hb) ((Finset.mem_range.mp hi).trans_le hd)]
  rw [hg]
  congr 1
  refine Finset.sum_congr rfl fun b hb => ?_
  have h1 : ∀ i ∈ Finset.range d, autograd (fun x => ∑ b ∈ Finset.range n, ∑ k ∈ Finset.range (m + 1), appendOne m etas b k * net.forward x b k) samples b i = score net m etas samples b i :=
    fun i hi => grad1_eq net ha n m etas samples b i (Finset.mem_range.mp hb) ((Finset.mem_range.mp hi).trans_le hd)
  congr 1
  · have e1 : ∑ i ∈ Finset.range d, autograd (fun x => ∑ b ∈ Finset.range n, ∑ k ∈ Finset.range (m + 1), appendOne m etas b k * net.forward x b k) samples b i ^ 2 =
        ∑ i ∈ Finset.range d, score net m etas samples b i ^ 2 := Finset.sum_congr rfl fun i hi => by rw [h1 i hi]
    have e2 : ∑ i ∈ Finset.range d, autograd (fun x => ∑ b ∈ Finset.range n, ∑ k ∈ Finset.range (m + 1), appendOne m etas b k * net.forward x b k) samples b i * v b i =
        ∑ i ∈ Finset.range d, score net m etas samples b i * v b i := Finset.sum_congr rfl fun i hi => by rw [h1 i hi]
    rw [e1, e2, Real.sq_sqrt (Finset.sum_nonneg fun i _ => sq_nonneg _)]
    split <;> ring
  · refine Finset.sum_congr rfl fun i hi => ?_
    rw [grad2_eq net ha n d m hd etas samples v b i (Finset.mem_range.mp hb) (Finset.mem_range.mp hi), Finset.mul_sum]
    exact Finset.sum_congr rfl fun j _ => by ring

/-! ### Random signs -/

/-- All arrays of signs for `n` samples of dimension `d`: `torch.randn_like(samples).sign()` gives each with the same probability. -/
abbrev Signs (n d : Nat) := Fin n → Fin d → Bool

/-- The noise of an array of signs. -/
def noise {n d : Nat} (s : Signs n d) : Batch := fun b i => if h : b < n ∧ i < d then (if s ⟨b, h.1⟩ ⟨i, h.2⟩ then 1 else -1) else 0

/-- Specification: the mean over all arrays of signs. -/
noncomputable def mean {n d : Nat} (f : Signs n d → ℝ) : ℝ := (∑ s, f s) / Fintype.card (Signs n d)

theorem mean_add {n d : Nat} (f g : Signs n d → ℝ) : mean (fun s => f s + g s) = mean f + mean g := by
  simp [mean, Finset.sum_add_distrib, add_div]

theorem mean_sum {n d : Nat} {ι : Type} (S : Finset ι) (f : ι → Signs n d → ℝ) : mean (fun s => ∑ i ∈ S, f i s) = ∑ i ∈ S, mean (f i) := by
  unfold mean; rw [Finset.sum_comm, Finset.sum_div]

theorem mean_mul {n d : Nat} (c : ℝ) (f : Signs n d → ℝ) : mean (fun s => c * f s) = c * mean f := by
  unfold mean; rw [← Finset.mul_sum, mul_div_assoc]

theorem mean_const {n d : Nat} (c : ℝ) : mean (fun _ : Signs n d => c) = c := by
  unfold mean
  rw [Finset.sum_const, nsmul_eq_mul, Finset.card_univ]
  field_simp

theorem mean_signs {n d : Nat} (b i j : Nat) (hb : b < n) (hi : i < d) (hj : j < d) : mean (fun s : Signs n d => noise s b i * noise s b j) = if i = j then 1 else 0 := by
  split
  · rename_i e
    subst e
    have : (fun s : Signs n d => noise s b i * noise s b i) = fun _ => 1 := by
      funext s
      simp only [noise, hb, hi, and_self, dif_pos]
      split <;> norm_num
    rw [this, mean_const]
  · rename_i hne
    have hflip : ∑ s : Signs n d, noise s b i * noise s b j = ∑ s : Signs n d, -(noise s b i * noise s b j) := by
      refine Finset.sum_nbij' (i := fun s => Function.update s ⟨b, hb⟩ (Function.update (s ⟨b, hb⟩) ⟨i, hi⟩ (!s ⟨b, hb⟩ ⟨i, hi⟩)))
        (j := fun s => Function.update s ⟨b, hb⟩ (Function.update (s ⟨b, hb⟩) ⟨i, hi⟩ (!s ⟨b, hb⟩ ⟨i, hi⟩))) ?_ ?_ ?_ ?_ ?_
      · intro s _; exact Finset.mem_univ _
      · intro s _; exact Finset.mem_univ _
      · intro s _; simp
      · intro s _; simp
      · intro s _
        have hij : (⟨j, hj⟩ : Fin d) ≠ ⟨i, hi⟩ := fun e => hne (Fin.mk.inj_iff.mp e).symm
        simp only [noise, hb, hi, hj, and_self, dif_pos, Function.update_self, Function.update_of_ne hij]
        cases s ⟨b, hb⟩ ⟨i, hi⟩ <;> cases s ⟨b, hb⟩ ⟨j, hj⟩ <;> simp
    have : ∑ s : Signs n d, noise s b i * noise s b j = 0 := by
      rw [Finset.sum_neg_distrib] at hflip
      linarith
    unfold mean
    rw [this, zero_div]

/-- C128: the mean of the sliced loss over all arrays of signs is the score-matching objective, with and without variance reduction. -/
theorem C128 (net : Net) (ha : net.act.Smooth) (n d m : Nat) (hd : d ≤ net.input.width) (samples etas : Batch) (vr : Bool) :
    mean (fun s : Signs n d => slicedLoss net n d m samples etas (noise s) vr) = scoreMatching net n d m samples etas 0 := by
  simp only [slicedLoss_eq net ha n d m hd, div_eq_inv_mul]
  rw [mean_mul, mean_sum, scoreMatching, div_eq_inv_mul]
  congr 1
  refine Finset.sum_congr rfl fun b hb => ?_
  have hb' := Finset.mem_range.mp hb
  rw [mean_add, mean_mul, mean_sum]
  have h1 : mean (fun s : Signs n d => if vr then ∑ i ∈ Finset.range d, score net m etas samples b i ^ 2 else (∑ i ∈ Finset.range d, score net m etas samples b i * noise s b i) ^ 2) =
      ∑ i ∈ Finset.range d, score net m etas samples b i ^ 2 := by
    cases vr with
    | true => simp only [if_true, mean_const]
    | false =>
      simp only [Bool.false_eq_true, if_false, pow_two, Finset.sum_mul_sum]
      rw [mean_sum]
      refine Finset.sum_congr rfl fun i hi => ?_
      rw [mean_sum]
      have : ∀ j ∈ Finset.range d, mean (fun s : Signs n d => score net m etas samples b i * noise s b i * (score net m etas samples b j * noise s b j)) =
          if i = j then score net m etas samples b i * score net m etas samples b i else 0 := by
        intro j hj
        have e : (fun s : Signs n d => score net m etas samples b i * noise s b i * (score net m etas samples b j * noise s b j)) =
            fun s => (score net m etas samples b i * score net m etas samples b j) * (noise s b i * noise s b j) := by funext s; ring
        rw [e, mean_mul, mean_signs b i j hb' (Finset.mem_range.mp hi) (Finset.mem_range.mp hj)]
        split
        · rename_i h; rw [h, mul_one]
        · rw [mul_zero]
      rw [Finset.sum_congr rfl this, Finset.sum_ite_eq, if_pos hi]
  rw [h1]
  have h2 : ∀ i ∈ Finset.range d, mean (fun s : Signs n d => ∑ j ∈ Finset.range d, partialAt (partialAt (logDensity net m etas b) b j) b i samples * (noise s b i * noise s b j)) =
      partialAt (partialAt (logDensity net m etas b) b i) b i samples := by
    intro i hi
    rw [mean_sum]
    have : ∀ j ∈ Finset.range d, mean (fun s : Signs n d => partialAt (partialAt (logDensity net m etas b) b j) b i samples * (noise s b i * noise s b j)) =
        if i = j then partialAt (partialAt (logDensity net m etas b) b i) b i samples else 0 := by
      intro j hj
      rw [mean_mul, mean_signs b i j hb' (Finset.mem_range.mp hi) (Finset.mem_range.mp hj)]
      split
      · rename_i h; rw [← h, mul_one]
      · rw [mul_zero]
    rw [Finset.sum_congr rfl this, Finset.sum_ite_eq, if_pos hi]
  rw [Finset.sum_congr rfl h2, Finset.mul_sum, ← Finset.sum_add_distrib]
  refine Finset.sum_congr rfl fun i _ => ?_
  rw [score]
  ring

/-! ### Epochs -/

/-- Specification: the losses of a list of batches, one after the other, and the networks at the end. -/
def runBatches {T A : Type} (step : T → List A → T × ℝ) : T → List (List A) → T × List ℝ
  | t, [] => (t, [])
  | t, b :: bs => let r := step t b; let q := runBatches step r.1 bs; (q.1, r.2 :: q.2)

/-- Specification: `bs` cuts `l` into consecutive batches, all of the given size except for the last, which is not longer and not empty. -/
def Cut {A : Type} (size : Nat) (l : List A) (bs : List (List A)) : Prop :=
  bs.flatten = l ∧ (∀ b ∈ bs, b ≠ [] ∧ b.length ≤ size) ∧ ∀ b ∈ bs.dropLast, b.length = size

theorem cut_cons {A : Type} (size : Nat) (hs : 0 < size) (l : List A) (k : Nat) (hk : size * k < l.length) (bs : List (List A)) (hc : Cut size (l.drop (size * (k + 1))) bs) :
    Cut size (l.drop (size * k)) ((l.take (size * (k + 1))).drop (size * k) :: bs) := by
  have hm : size * (k + 1) = size * k + size := Nat.mul_succ size k
  have hlen : ((l.take (size * (k + 1))).drop (size * k)).length = min size (l.length - size * k) := by
    rw [List.length_drop, List.length_take]; omega
  refine ⟨?_, ?_, ?_⟩
  · rw [List.flatten_cons, hc.1, List.drop_take, hm, Nat.add_sub_cancel_left, ← List.drop_drop, List.take_append_drop]
  · intro b hb
    rcases List.mem_cons.mp hb with rfl | hb
    · refine ⟨fun e => ?_, by rw [hlen]; exact min_le_left _ _⟩
      rw [e] at hlen
      simp only [List.length_nil] at hlen
      omega
    · exact hc.2.1 b hb
  · intro b hb
    cases bs with
    | nil => simp at hb
    | cons c cs =>
      rw [List.dropLast_cons_of_ne_nil (by simp)] at hb
      rcases List.mem_cons.mp hb with rfl | hb
      · have hne : l.drop (size * (k + 1)) ≠ [] := by
          rw [← hc.1]
          intro e
          have := (hc.2.1 c (by simp)).1
          simp at e
          exact this e.1
        rw [hlen]
        have : size * (k + 1) < l.length := by
          by_contra h
          exact hne (List.drop_eq_nil_of_le (by omega))
        omega
      · exact hc.2.2 b hb

theorem batchLoop_spec {T A : Type} (step : T → List A → T × ℝ) (size : Nat) (hs : 0 < size) (l : List A) (fuel : Nat) : ∀ (k : Nat) (t : T) (total : ℝ), l.length ≤ size * k + fuel →
    ∃ bs, Cut size (l.drop (size * k)) bs ∧ batchLoop step size l (fuel + 1) k t total = some ((runBatches step t bs).1, total + (runBatches step t bs).2.sum, k + bs.length) := by
  have hend : ∀ (f k : Nat) (t : T) (total : ℝ), ¬ size * k < l.length →
      ∃ bs, Cut size (l.drop (size * k)) bs ∧ batchLoop step size l (f + 1) k t total = some ((runBatches step t bs).1, total + (runBatches step t bs).2.sum, k + bs.length) := by
    intro f k t total hk
    rw [batchLoop, if_neg hk]
    refine ⟨[], ⟨?_, by simp, by simp⟩, by simp [runBatches]⟩
    rw [List.drop_eq_nil_of_le (by omega)]
    rfl
  induction fuel with
  | zero =>
    intro k t total h
    exact hend 0 k t total (by omega)
  | succ fuel ih =>
    intro k t total h
    by_cases hk : size * k < l.length
    · obtain ⟨bs, hc, e⟩ := ih (k + 1) (step t ((l.take (size * (k + 1))).drop (size * k))).1 (total + (step t ((l.take (size * (k + 1))).drop (size * k))).2)
        (by rw [Nat.mul_succ]; omega)
      refine ⟨_, cut_cons size hs l k hk bs hc, ?_⟩
      rw [batchLoop, if_pos hk]
      simp only [e]
      simp [runBatches, add_assoc, Nat.add_comm 1]
    · exact hend _ k t total hk

/-- C129: in an epoch every sample is used in exactly one batch; the batches are consecutive pieces of the permutation. The loss that is recorded is the sum of the losses of the batches divided by one more
than their number: the mean of the losses times `k / (k + 1)` for `k` batches. -/
theorem C129_partial {T A : Type} (step : T → List A → T × ℝ) (size : Nat) (hs : 0 < size) (data indices : List A) (hp : indices.Perm data) (hne : data ≠ []) (fuel : Nat) (hf : indices.length < fuel) (t : T) :
    ∃ bs t' loss, epoch step size fuel indices t = some (t', loss) ∧ Cut size indices bs ∧ bs.flatten.Perm data ∧ bs ≠ [] ∧ t' = (runBatches step t bs).1 ∧
      loss = (runBatches step t bs).2.sum / bs.length * (bs.length / (bs.length + 1)) := by
  obtain ⟨f, rfl⟩ : ∃ f, fuel = f + 1 := ⟨fuel - 1, by omega⟩
  obtain ⟨bs, hc, e⟩ := batchLoop_spec step size hs indices f 0 t 0 (by omega)
  simp only [Nat.mul_zero, List.drop_zero] at hc
  have hb : bs ≠ [] := by
    rintro rfl
    have := hc.1
    simp only [List.flatten_nil] at this
    rw [← this] at hp
    exact hne hp.nil_eq.symm
  have hl : (bs.length : ℝ) ≠ 0 := by simpa using hb
  refine ⟨bs, _, _, by rw [epoch, e], hc, hc.1 ▸ hp, hb, rfl, ?_⟩
  have h1 : ((bs.length : ℝ) + 1) ≠ 0 := by positivity
  push_cast
  field_simp
  ring

/-- C129, violated part: with one batch per epoch the recorded loss is half of the loss of the batch. -/
theorem C129_violated {T A : Type} (step : T → List A → T × ℝ) (indices : List A) (hne : indices ≠ []) (t : T) (fuel : Nat) (hf : 2 ≤ fuel) :
    epoch step indices.length fuel indices t = some ((step t indices).1, (step t indices).2 / 2) := by
  obtain ⟨f, rfl⟩ : ∃ f, fuel = f + 2 := ⟨fuel - 2, by omega⟩
  have hl : 0 < indices.length := List.length_pos_of_ne_nil hne
  rw [epoch, batchLoop, if_pos (by simpa using hl)]
  simp only [Nat.zero_add, Nat.mul_one, Nat.mul_zero, List.take_length, List.drop_zero]
  rw [batchLoop, if_neg (by simp)]
  norm_num

/-- The hypotheses can be met: three samples in batches of two. -/
example : epoch (fun (t : Nat) (b : List Nat) => (t + b.length, (2 : ℝ))) 2 4 [2, 0, 1] 0 = some (3, 4 / 3) := by
  norm_num [epoch, batchLoop]

end Verif.Deriv
