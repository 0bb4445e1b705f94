import Verif.Nn.Model
import Mathlib.Algebra.BigOperators.Group.List.Basic
import Mathlib.Algebra.Order.BigOperators.Group.List
import Mathlib.Tactic.Linarith
import Mathlib.Tactic.Positivity
import Mathlib.Tactic.FieldSimp
import Mathlib.Tactic.Ring

/-!
# C144, C145: losses of distance learning, losses of an epoch

`abcpy/NN_utilities/losses.py` 7-40 (`ContrastiveLoss`, `TripletLoss`), `abcpy/NN_utilities/networks.py` 7-43
(`SiameseNet`, `TripletNet`), `abcpy/NN_utilities/trainer.py` 66-133 (`train_epoch`, `test_epoch`) and the batches of
`torch.utils.data.DataLoader` (`drop_last=False`).
-/

namespace Verif.Embedding

open Verif.Distance (Row)
open Verif.Nn (dist2)

/-! ## Model -/

/-- `losses.mean()`. -/
noncomputable def mean (l : List ℝ) : ℝ := l.sum / l.length

/-- The loss of one pair (losses.py 20-22); `eps` is `1e-9`. -/
noncomputable def pairLoss (margin eps : ℝ) (a b : Row) (target : Bool) : ℝ :=
  let t : ℝ := if target then 1 else 0
  (1 / 2) * (t * dist2 b a + (1 + -1 * t) * (max (margin - Real.sqrt (dist2 b a + eps)) 0) ^ 2)

/-- `ContrastiveLoss.forward` on the outputs of `SiameseNet` (networks.py 17-20): the same network on both samples. -/
noncomputable def contrastive (net : Row → Row) (margin eps : ℝ) (batch : List ((Row × Row) × Bool)) : ℝ :=
  mean (batch.map fun p => pairLoss margin eps (net p.1.1) (net p.1.2) p.2)

/-- The loss of one triplet (losses.py 37-39): squared distances. -/
noncomputable def tripletLoss (margin : ℝ) (anchor positive negative : Row) : ℝ :=
  max (dist2 anchor positive - dist2 anchor negative + margin) 0

/-- `TripletLoss.forward` on the outputs of `TripletNet` (networks.py 36-40). -/
noncomputable def tripletMean (net : Row → Row) (margin : ℝ) (batch : List (Row × Row × Row)) : ℝ :=
  mean (batch.map fun p => tripletLoss margin (net p.1) (net p.2.1) (net p.2.2))

/-- The batches of a `DataLoader` over the data in the given order. -/
def loader {A : Type} (size : Nat) (data : List A) : List (List A) :=
  (List.range ((data.length + size - 1) / size)).map fun i => (data.drop (i * size)).take size

/-- The loop of `train_epoch` (trainer.py 74-97) and `test_epoch` (trainer.py 111-131): network, sum of the losses
and the last index; `step` gives the loss of a batch and the updated network. -/
noncomputable def epochLoop {T A : Type} (step : T → List A → T × ℝ) : List (List A) → T → ℝ → Option Nat → T × ℝ × Option Nat
  | [], t, total, i => (t, total, i)
  | b :: bs, t, total, i =>
    let r := step t b
    epochLoop step bs r.1 (total + r.2) (some (match i with
      | none => 0
      | some k => k + 1))

/-- The value returned: the sum divided by the last index plus one (99, 133); without batches the index is not defined
and an exception is raised. -/
noncomputable def epochLoss {T A : Type} (step : T → List A → T × ℝ) (bs : List (List A)) (t : T) : Option (T × ℝ) :=
  match epochLoop step bs t 0 none with
  | (_, _, none) => none
  | (t, total, some k) => some (t, total / ((k : ℝ) + 1))

namespace Losses

/-! ## Losses -/

theorem dist2_nonneg (a b : Row) : 0 ≤ dist2 a b := by
  unfold dist2
  apply List.sum_nonneg
  intro x hx
  obtain ⟨d, -, rfl⟩ := List.mem_map.1 hx
  exact mul_self_nonneg d

theorem dist2_eq_zero : ∀ (a b : Row), a.length = b.length → (dist2 a b = 0 ↔ a = b)
  | [], [], _ => by simp [dist2]
  | x :: a, y :: b, h => by
    have ih := dist2_eq_zero a b (by simpa using h)
    have h0 := dist2_nonneg a b
    have e : dist2 (x :: a) (y :: b) = (x - y) * (x - y) + dist2 a b := by simp [dist2]
    rw [e, List.cons.injEq, ← ih]
    constructor
    · intro h
      have h1 := mul_self_nonneg (x - y)
      have h2 : (x - y) * (x - y) = 0 := by linarith
      exact ⟨by have := mul_self_eq_zero.1 h2; linarith, by linarith⟩
    · rintro ⟨rfl, h'⟩
      simp [h']

theorem mean_zero (l : List ℝ) (h0 : ∀ x ∈ l, 0 ≤ x) (hne : l ≠ []) : mean l = 0 ↔ ∀ x ∈ l, x = 0 := by
  have hl : (l.length : ℝ) ≠ 0 := by simpa using hne
  unfold mean
  rw [div_eq_zero_iff, or_iff_left hl]
  constructor
  · intro h
    clear hl hne
    induction l with
    | nil => simp
    | cons a l ih =>
      rw [List.sum_cons] at h
      have ha := h0 a (List.mem_cons_self ..)
      have hs : 0 ≤ l.sum := List.sum_nonneg fun x hx => h0 x (List.mem_cons_of_mem _ hx)
      intro x hx
      rcases List.mem_cons.1 hx with rfl | hx
      · linarith
      · exact ih (fun y hy => h0 y (List.mem_cons_of_mem _ hy)) (by linarith) x hx
  · intro h
    exact List.sum_eq_zero h

theorem pairLoss_nonneg (margin eps : ℝ) (a b : Row) (t : Bool) : 0 ≤ pairLoss margin eps a b t := by
  unfold pairLoss
  have := dist2_nonneg b a
  cases t
  · simp
  · simpa using this

/-- **C144, contrastive loss.** The loss of a batch is not negative; it is zero exactly when the network maps both
samples of every similar pair to the same point and those of every dissimilar pair to points whose distance (with `eps` added to its square) is
at least the margin. -/
theorem C144_contrastive (net : Row → Row) (n : Nat) (hn : ∀ x, (net x).length = n) (margin eps : ℝ) (hm : 0 ≤ margin)
    (batch : List ((Row × Row) × Bool)) (hne : batch ≠ []) :
    0 ≤ contrastive net margin eps batch ∧
    (contrastive net margin eps batch = 0 ↔ ∀ p ∈ batch,
      if p.2 then net p.1.1 = net p.1.2 else margin ^ 2 ≤ dist2 (net p.1.2) (net p.1.1) + eps ∨ margin = 0) := by
  have h0 : ∀ x ∈ batch.map (fun p => pairLoss margin eps (net p.1.1) (net p.1.2) p.2), 0 ≤ x := by
    intro x hx
    obtain ⟨p, -, rfl⟩ := List.mem_map.1 hx
    exact pairLoss_nonneg ..
  refine ⟨div_nonneg (List.sum_nonneg h0) (Nat.cast_nonneg _), ?_⟩
  unfold contrastive
  rw [mean_zero _ h0 (by simpa using hne)]
  simp only [List.mem_map, forall_exists_index, and_imp, forall_apply_eq_imp_iff₂]
  refine forall₂_congr fun p _ => ?_
  obtain ⟨⟨x, y⟩, t⟩ := p
  cases t with
  | true =>
    simp only [pairLoss, if_true]
    rw [eq_comm (a := net x), ← dist2_eq_zero (net y) (net x) (by rw [hn, hn])]
    constructor <;> intro h <;> nlinarith
  | false =>
    simp only [pairLoss, Bool.false_eq_true, if_false]
    have : (1 / 2 : ℝ) * (0 * dist2 (net y) (net x) + (1 + -1 * 0) * (max (margin - Real.sqrt (dist2 (net y) (net x) + eps)) 0) ^ 2) = 0 ↔
        margin ≤ Real.sqrt (dist2 (net y) (net x) + eps) := by
      constructor
      · intro h
        have h2 : (max (margin - Real.sqrt (dist2 (net y) (net x) + eps)) 0) ^ 2 = 0 := by linarith
        have h3 := pow_eq_zero_iff (two_ne_zero) |>.1 h2
        have := le_max_left (margin - Real.sqrt (dist2 (net y) (net x) + eps)) 0
        linarith
      · intro h
        rw [max_eq_right (by linarith)]
        ring
    rw [this]
    constructor
    · intro h
      rcases hm.lt_or_eq with hpos | h0
      · exact .inl ((Real.le_sqrt' hpos).1 h)
      · exact .inr h0.symm
    · rintro (h | h)
      · exact Real.le_sqrt_of_sq_le h
      · rw [h]; exact Real.sqrt_nonneg _

/-- **C144, triplet loss.** The loss of a batch is not negative; it is zero exactly when in every triplet the squared
distance to the negative sample exceeds that to the positive one by at least the margin. -/
theorem C144_triplet (net : Row → Row) (margin : ℝ) (batch : List (Row × Row × Row)) (hne : batch ≠ []) :
    0 ≤ tripletMean net margin batch ∧
    (tripletMean net margin batch = 0 ↔ ∀ p ∈ batch, dist2 (net p.1) (net p.2.1) + margin ≤ dist2 (net p.1) (net p.2.2)) := by
  have h0 : ∀ x ∈ batch.map (fun p => tripletLoss margin (net p.1) (net p.2.1) (net p.2.2)), 0 ≤ x := by
    intro x hx
    obtain ⟨p, -, rfl⟩ := List.mem_map.1 hx
    exact le_max_right _ _
  refine ⟨div_nonneg (List.sum_nonneg h0) (Nat.cast_nonneg _), ?_⟩
  unfold tripletMean
  rw [mean_zero _ h0 (by simpa using hne)]
  simp only [List.mem_map, forall_exists_index, and_imp, forall_apply_eq_imp_iff₂]
  refine forall₂_congr fun p _ => ?_
  unfold tripletLoss
  rw [max_eq_right_iff]
  constructor <;> intro h <;> linarith

/-- The hypotheses hold: a network that keeps the first component, a similar and a dissimilar pair. -/
example : contrastive (fun x => [x.headD 0]) 1 0 [(([1, 5], [1, 7]), true), (([0, 0], [1, 0]), false)] = 0 := by
  rw [(C144_contrastive (fun x => [x.headD 0]) 1 (fun _ => rfl) 1 0 (by norm_num) _ (by simp)).2]
  simp [dist2]

/-! ## Epochs -/

theorem epochLoop_eq {T A : Type} (step : T → List A → T × ℝ) (bs : List (List A)) : ∀ (t : T) (total : ℝ) (i : Option Nat),
    ∃ t' losses, List.length losses = bs.length ∧
      epochLoop step bs t total i = (t', total + losses.sum, if bs = [] then i else some ((match i with | none => 0 | some k => k + 1) + (bs.length - 1))) ∧
      (∀ loss : List A → ℝ, (∀ t b, b ∈ bs → (step t b).2 = loss b) → losses = bs.map loss) := by
  induction bs with
  | nil => intro t total i; exact ⟨t, [], rfl, by simp [epochLoop], fun _ _ => rfl⟩
  | cons b bs ih =>
    intro t total i
    obtain ⟨t', ls, h1, h2, h3⟩ := ih (step t b).1 (total + (step t b).2) (some (match i with | none => 0 | some k => k + 1))
    refine ⟨t', (step t b).2 :: ls, by simp [h1], ?_, ?_⟩
    · simp only [epochLoop, h2]
      cases bs with
      | nil => simp at h1; subst h1; simp
      | cons c cs => simp; refine ⟨by ring, by omega⟩
    · intro loss h
      rw [h3 loss fun t b hb => h t b (List.mem_cons_of_mem _ hb), h t b (List.mem_cons_self ..), List.map_cons]

/-- The loss of an epoch is the mean of the losses of its batches. -/
theorem epochLoss_eq {T A : Type} (step : T → List A → T × ℝ) (bs : List (List A)) (hne : bs ≠ []) (t : T) (loss : List A → ℝ)
    (h : ∀ t b, b ∈ bs → (step t b).2 = loss b) : (epochLoss step bs t).map Prod.snd = some (mean (bs.map loss)) := by
  obtain ⟨t', ls, h1, h2, h3⟩ := epochLoop_eq step bs t 0 none
  unfold epochLoss
  rw [h2, if_neg hne]
  have hl : 0 < bs.length := List.length_pos_iff.2 hne
  simp only [Option.map_some, Option.some.injEq, h3 loss h, mean, List.length_map, zero_add]
  congr 1
  have : ((bs.length - 1 : ℕ) : ℝ) + 1 = ((bs.length - 1 + 1 : ℕ) : ℝ) := by push_cast; ring
  rw [this]
  congr 1
  omega

theorem loader_exact {A : Type} (size k : Nat) (hs : 0 < size) (data : List A) (hl : data.length = k * size) :
    loader size data = (List.range k).map fun i => (data.drop (i * size)).take size := by
  unfold loader
  rw [hl]
  congr 2
  rw [show k * size + size - 1 = size - 1 + k * size by omega, Nat.add_mul_div_right _ _ hs, Nat.div_eq_of_lt (by omega)]
  omega

theorem slices_sum (size : Nat) (l : List ℝ) (k : Nat) :
    ((List.range k).map fun i => ((l.drop (i * size)).take size).sum).sum = (l.take (k * size)).sum := by
  induction k with
  | zero => simp
  | succ k ih =>
    rw [List.range_succ, List.map_append, List.sum_append, ih]
    have : l.take ((k + 1) * size) = l.take (k * size) ++ (l.drop (k * size)).take size := by
      rw [show (k + 1) * size = k * size + size by ring, List.take_add]
    rw [this, List.sum_append]
    simp

/-- **C145 (partial).** If the batch size divides the number of samples, the validation loss is the mean of the losses
of the samples: it does not depend on the batch size. -/
theorem C145_partial {T A : Type} (size k : Nat) (hs : 0 < size) (hk : 0 < k) (data : List A) (hl : data.length = k * size)
    (step : T → List A → T × ℝ) (t : T) (loss : A → ℝ) (h : ∀ t b, (step t b).2 = mean (b.map loss)) :
    (epochLoss step (loader size data) t).map Prod.snd = some (mean (data.map loss)) := by
  have hlen : ∀ i ∈ List.range k, ((data.drop (i * size)).take size).length = size := by
    intro i hi
    have hi := List.mem_range.1 hi
    rw [List.length_take, List.length_drop, hl, Nat.min_eq_left]
    have : (i + 1) * size ≤ k * size := Nat.mul_le_mul_right _ hi
    have e : (i + 1) * size = i * size + size := by ring
    omega
  rw [loader_exact size k hs data hl, epochLoss_eq step _ _ t (fun b => mean (b.map loss)) fun t b _ => h t b]
  · congr 1
    have hk' : (k : ℝ) ≠ 0 := by exact_mod_cast hk.ne'
    have hs' : (size : ℝ) ≠ 0 := by exact_mod_cast hs.ne'
    have e1 : ((List.range k).map fun i => mean (((data.drop (i * size)).take size).map loss)) =
        (List.range k).map fun i => (((data.map loss).drop (i * size)).take size).sum * (size : ℝ)⁻¹ := by
      apply List.map_congr_left
      intro i hi
      unfold mean
      rw [List.length_map, hlen i hi, ← List.map_drop, ← List.map_take, div_eq_mul_inv]
    rw [List.map_map]
    change mean ((List.range k).map fun i => mean (((data.drop (i * size)).take size).map loss)) = _
    rw [e1]
    unfold mean
    rw [List.sum_map_mul_right, slices_sum, List.length_map, List.length_range, List.length_map, hl,
      List.take_of_length_le (by rw [List.length_map, hl])]
    push_cast
    field_simp
  · simp; omega

theorem loader_split {A : Type} (size k : Nat) (full last : List A) (hf : full.length = k * size) (h0 : 0 < last.length)
    (h1 : last.length ≤ size) : loader size (full ++ last) = loader size full ++ [last] := by
  have hs : 0 < size := by omega
  rw [loader_exact size k hs full hf]
  unfold loader
  have e : ((full ++ last).length + size - 1) / size = k + 1 := by
    rw [List.length_append, hf, show k * size + last.length + size - 1 = (last.length - 1) + (k + 1) * size by
      rw [Nat.add_mul]; omega, Nat.add_mul_div_right _ _ hs, Nat.div_eq_of_lt (by omega)]
    omega
  rw [e, List.range_succ, List.map_append]
  congr 1
  · apply List.map_congr_left
    intro i hi
    have hi := List.mem_range.1 hi
    have h2 : (i + 1) * size ≤ k * size := Nat.mul_le_mul_right _ hi
    have h3 : (i + 1) * size = i * size + size := by ring
    rw [List.drop_append_of_le_length (by omega), List.take_append_of_le_length (by rw [List.length_drop]; omega)]
  · simp only [List.map_cons, List.map_nil]
    rw [← hf, List.drop_left, List.take_of_length_le h1]

/-- C145, the loss of an epoch for all data and batch sizes: after `k` batches of the full size, with the samples `full`,
the last one is `last`; its mean counts as much as those of the others. -/
theorem C145_exact {T A : Type} (size k : Nat) (full last : List A) (hf : full.length = k * size) (h0 : 0 < last.length)
    (h1 : last.length ≤ size) (step : T → List A → T × ℝ) (t : T) (loss : A → ℝ) (h : ∀ t b, (step t b).2 = mean (b.map loss)) :
    (epochLoss step (loader size (full ++ last)) t).map Prod.snd =
      some ((k * mean (full.map loss) + mean (last.map loss)) / (k + 1)) := by
  have hs : 0 < size := by omega
  rw [epochLoss_eq step _ (by rw [loader_split size k full last hf h0 h1]; simp) t (fun b => mean (b.map loss)) fun t b _ => h t b,
    loader_split size k full last hf h0 h1, List.map_append]
  congr 1
  have hl : (loader size full).length = k := by rw [loader_exact size k hs full hf]; simp
  have e : ((loader size full).map fun b => mean (b.map loss)).sum = k * mean (full.map loss) := by
    rcases Nat.eq_zero_or_pos k with rfl | hk
    · rw [List.length_eq_zero_iff.1 hl]; simp
    · have hne : loader size full ≠ [] := by rw [← List.length_pos_iff]; omega
      have := C145_partial size k hs hk full hf (fun (_ : Unit) b => ((), mean (b.map loss))) () loss fun _ _ => rfl
      rw [epochLoss_eq _ _ hne () (fun b => mean (b.map loss)) fun _ _ _ => rfl] at this
      have := Option.some.inj this
      rw [← this]
      unfold mean
      rw [List.length_map, hl]
      have : (k : ℝ) ≠ 0 := by exact_mod_cast hk.ne'
      field_simp
  rw [mean, List.sum_append, e, List.length_append, List.length_map, hl]
  simp

/-- There are such `k`, `full` and `last` for all data that are not empty. -/
theorem C145_batches {A : Type} (size : Nat) (hs : 0 < size) (data : List A) (hne : data ≠ []) :
    ∃ k full last, data = full ++ last ∧ full.length = k * size ∧ 0 < last.length ∧ last.length ≤ size := by
  have hl : 0 < data.length := List.length_pos_iff.2 hne
  set k := (data.length - 1) / size with hk
  have h1 := Nat.div_add_mod (data.length - 1) size
  have h2 := Nat.mod_lt (data.length - 1) hs
  rw [← hk, Nat.mul_comm] at h1
  refine ⟨k, data.take (k * size), data.drop (k * size), (List.take_append_drop ..).symm, ?_, ?_, ?_⟩
  · rw [List.length_take]; omega
  · rw [List.length_drop]; omega
  · rw [List.length_drop]; omega

/-- C145: the loss of an epoch is the mean of the losses of the samples exactly if there is one batch only, or all batches
have the same size, or the samples of the last batch have the same mean loss as the others. -/
theorem C145_iff {T A : Type} (size k : Nat) (full last : List A) (hf : full.length = k * size) (h0 : 0 < last.length)
    (h1 : last.length ≤ size) (step : T → List A → T × ℝ) (t : T) (loss : A → ℝ) (h : ∀ t b, (step t b).2 = mean (b.map loss)) :
    (epochLoss step (loader size (full ++ last)) t).map Prod.snd = some (mean ((full ++ last).map loss)) ↔
      full = [] ∨ last.length = size ∨ mean (full.map loss) = mean (last.map loss) := by
  rw [C145_exact size k full last hf h0 h1 step t loss h, Option.some.injEq]
  have hs : 0 < size := by omega
  rcases Nat.eq_zero_or_pos k with rfl | hk
  · have : full = [] := List.length_eq_zero_iff.1 (by simpa using hf)
    subst this
    simp
  have hne : full ≠ [] := by
    rw [← List.length_pos_iff, hf]; exact Nat.mul_pos hk hs
  have hk' : (0 : ℝ) < k := by exact_mod_cast hk
  have hs' : (0 : ℝ) < size := by exact_mod_cast hs
  have hr' : (0 : ℝ) < last.length := by exact_mod_cast h0
  have e : mean ((full ++ last).map loss) =
      (k * size * mean (full.map loss) + last.length * mean (last.map loss)) / (k * size + last.length) := by
    unfold mean
    rw [List.map_append, List.sum_append, List.length_append, List.length_map, List.length_map, hf]
    push_cast
    field_simp
  rw [e, div_eq_div_iff (by positivity) (by positivity)]
  generalize mean (full.map loss) = a
  generalize mean (last.map loss) = b
  have key : (k * a + b) * (k * size + last.length) - (k * size * a + last.length * b) * ((k : ℝ) + 1) =
      k * ((size : ℝ) - last.length) * (b - a) := by ring
  rw [← sub_eq_zero, key, mul_eq_zero, mul_eq_zero, sub_eq_zero, sub_eq_zero]
  constructor
  · rintro ((h | h) | h)
    · exact absurd h hk'.ne'
    · exact .inr (.inl (by exact_mod_cast h.symm))
    · exact .inr (.inr h.symm)
  · rintro (h | h | h)
    · exact absurd h hne
    · exact .inl (.inr (by exact_mod_cast h.symm))
    · exact .inr h.symm

/-- Without samples an epoch raises. -/
theorem C145_empty {T A : Type} (size : Nat) (hs : 0 < size) (step : T → List A → T × ℝ) (t : T) :
    epochLoss step (loader size []) t = none := by
  have : loader size ([] : List A) = [] := by
    rw [loader_exact size 0 hs [] (by simp)]; rfl
  rw [this]
  rfl

/-- Three samples in batches of two: the last sample counts as much as the first two together. -/
example : (epochLoss (fun (_ : Unit) b => ((), mean (b.map fun x : ℝ => x))) (loader 2 ([0, 4] ++ [5])) ()).map Prod.snd = some (7 / 2) := by
  rw [C145_exact 2 1 [0, 4] [5] rfl (by simp) (by simp) _ () (fun x => x) fun _ _ => rfl]
  norm_num [mean]

/-- **C145 does not hold** if the last batch is smaller: three samples with losses `0, 0, 1` have the mean loss `1/3`, the
loss of the epoch with batches of two is `1/2`. -/
theorem C145_violated : ∃ (data : List ℝ) (size : Nat), 0 < size ∧
    (epochLoss (fun (_ : Unit) b => ((), mean b)) (loader size data) ()).map Prod.snd = some (1 / 2) ∧ mean data = 1 / 3 := by
  refine ⟨[0, 0, 1], 2, by norm_num, ?_, by norm_num [mean]⟩
  rw [epochLoss_eq _ _ (by simp [loader]) () mean fun _ _ _ => rfl]
  simp [loader, mean, List.range_succ]

end Losses

end Verif.Embedding
