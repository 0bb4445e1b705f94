import Verif.Deriv.Autograd
import Verif.Deriv.TrainProps
/-
C164: derivatives by automatic differentiation are the derivatives of each row's output, if the network treats rows one by one. C165: entries that are not finite.
-/
namespace Verif.Deriv

/-- Specification: each row of the output depends on the same row of the input only. -/
def RowWise (F : Batch → Batch) : Prop := ∀ x y : Batch, ∀ b, x b = y b → F x b = F y b

/-- Specification: outputs are twice differentiable in every component of their own row. -/
def Twice (F : Batch → Batch) : Prop := ∀ (x : Batch) (b i o : Nat), DifferentiableAt ℝ (fun t => F (put x b i t) b o) (x b i) ∧
  DifferentiableAt ℝ (fun t => partialAt (fun x => F x b o) b i (put x b i t)) (x b i)

/-- Specification: the logarithm of the density of row `b`, for any network. -/
def logDensityOf (F : Batch → Batch) (m : Nat) (eta : Batch) (b : Nat) (x : Batch) : ℝ := ∑ k ∈ Finset.range m, eta b k * F x b k + F x b m

/-- Specification: the score-matching objective, for any network. -/
noncomputable def scoreMatchingOf (F : Batch → Batch) (n d m : Nat) (samples eta : Batch) (lam : ℝ) : ℝ :=
  (∑ b ∈ Finset.range n, ∑ i ∈ Finset.range d,
    (1 / 2 * partialAt (logDensityOf F m eta b) b i samples ^ 2 + partialAt (partialAt (logDensityOf F m eta b) b i) b i samples +
      lam * partialAt (partialAt (logDensityOf F m eta b) b i) b i samples ^ 2)) / n

theorem put_other (x : Batch) {b b' : Nat} (h : b' ≠ b) (i : Nat) (t : ℝ) : put x b i t b' = x b' := by
  funext k
  simp [put, h]

/-- The gradient of a sum over the rows of functions of single rows. -/
theorem partial_rows (n : Nat) (f : Nat → Batch → ℝ) (hf : ∀ b x y, x b = y b → f b x = f b y) (x : Batch) (b i : Nat) (hb : b < n) :
    partialAt (fun x => ∑ b' ∈ Finset.range n, f b' x) b i x = partialAt (f b) b i x := by
  unfold partialAt
  have : (fun t => ∑ b' ∈ Finset.range n, f b' (put x b i t)) = fun t => (∑ b' ∈ (Finset.range n).erase b, f b' x) + f b (put x b i t) := by
    funext t
    rw [← Finset.sum_erase_add _ _ (Finset.mem_range.mpr hb)]
    congr 1
    refine Finset.sum_congr rfl fun b' h => hf _ _ _ (put_other x (Finset.ne_of_mem_erase h) i t)
  rw [this, deriv_const_add]

theorem rawJacobian_eq (n m : Nat) (F : Batch → Batch) (hF : RowWise F) (x : Batch) (b i k : Nat) (hb : b < n) (hi : i < m) :
    rawJacobian n m F x b i k = partialAt (fun x => F x b i) b k x := by
  unfold rawJacobian gradWith autograd oneColumn
  have : (fun x : Batch => ∑ b' ∈ Finset.range n, ∑ o ∈ Finset.range m, (if o = i then (1 : ℝ) else 0) * F x b' o) = fun x => ∑ b' ∈ Finset.range n, F x b' i := by
    funext x
    refine Finset.sum_congr rfl fun b' _ => ?_
    simp [hi]
  rw [this]
  exact partial_rows n (fun b x => F x b i) (fun b x y h => by rw [hF x y b h]) x b k hb

theorem partial_own (F : Batch → Batch) (hF : RowWise F) (b i k : Nat) (x y : Batch) (h : x b = y b) :
    partialAt (fun x => F x b i) b k x = partialAt (fun x => F x b i) b k y := by
  unfold partialAt
  rw [h]
  congr 1
  funext t
  refine congrFun (hF _ _ b ?_) i
  funext l
  simp [put, h]

theorem gradOfJacobian_eq (n d m : Nat) (F : Batch → Batch) (hF : RowWise F) (x : Batch) (b i j k : Nat) (hb : b < n) (hi : i < m) (hj : j < d) :
    gradOfJacobian n d m F (oneEntry i j) x b k = partialAt (partialAt (fun x => F x b i) b j) b k x := by
  unfold gradOfJacobian autograd oneEntry
  have : (fun x : Batch => ∑ b' ∈ Finset.range n, ∑ i' ∈ Finset.range m, ∑ j' ∈ Finset.range d, (if i' = i ∧ j' = j then (1 : ℝ) else 0) * rawJacobian n m F x b' i' j') =
      fun x => ∑ b' ∈ Finset.range n, partialAt (fun x => F x b' i) b' j x := by
    funext x
    refine Finset.sum_congr rfl fun b' hb' => ?_
    rw [Finset.sum_eq_single i, Finset.sum_eq_single j]
    · rw [if_pos ⟨rfl, rfl⟩, one_mul, rawJacobian_eq n m F hF x b' i j (Finset.mem_range.mp hb') hi]
    · intro j' _ h; rw [if_neg (fun e => h e.2), zero_mul]
    · intro h; exact absurd (Finset.mem_range.mpr hj) h
    · intro i' _ h
      refine Finset.sum_eq_zero fun j' _ => ?_
      rw [if_neg (fun e => h e.1), zero_mul]
    · intro h; exact absurd (Finset.mem_range.mpr hi) h
  rw [this]
  exact partial_rows n (fun b => partialAt (fun x => F x b i) b j) (fun b x y h => partial_own F hF b i j x y h) x b k hb

/-- C164 for networks that treat rows one by one: entry `b`, `k`, `i` of the Jacobian is the derivative of output `i` of row `b` with respect to component `k` of that row, the second array has its second derivatives,
and the Hessian all mixed ones. -/
theorem C164_partial (n d m : Nat) (F : Batch → Batch) (hF : RowWise F) (x : Batch) (b i k : Nat) (hb : b < n) (hi : i < m) (hk : k < d) :
    jacobian n m F x b k i = partialAt (fun x => F x b i) b k x ∧
    (jacobianSecondOrder n d m F x).1 b k i = partialAt (fun x => F x b i) b k x ∧
    (jacobianSecondOrder n d m F x).2 b k i = partialAt (partialAt (fun x => F x b i) b k) b k x ∧
    (jacobianHessian n d m F x).1 b k i = partialAt (fun x => F x b i) b k x ∧
    ∀ j < d, (jacobianHessian n d m F x).2 b k j i = partialAt (partialAt (fun x => F x b i) b j) b k x :=
  ⟨rawJacobian_eq n m F hF x b i k hb hi, rawJacobian_eq n m F hF x b i k hb hi, gradOfJacobian_eq n d m F hF x b i k k hb hi hk,
    rawJacobian_eq n m F hF x b i k hb hi, fun j hj => gradOfJacobian_eq n d m F hF x b i j k hb hi hj⟩

theorem logDensityOf_first (F : Batch → Batch) (h2 : Twice F) (m : Nat) (eta x : Batch) (b i : Nat) :
    partialAt (logDensityOf F m eta b) b i x = ∑ k ∈ Finset.range (m + 1), partialAt (fun x => F x b k) b i x * appendOne m eta b k := by
  have h : ∀ k, HasDerivAt (fun t => F (put x b i t) b k) (partialAt (fun x => F x b k) b i x) (x b i) := fun k => (h2 x b i k).1.hasDerivAt
  have : HasDerivAt (fun t => logDensityOf F m eta b (put x b i t)) (∑ k ∈ Finset.range m, eta b k * partialAt (fun x => F x b k) b i x + partialAt (fun x => F x b m) b i x) (x b i) :=
    (HasDerivAt.fun_sum fun k _ => (h k).const_mul _).add (h m)
  rw [show partialAt (logDensityOf F m eta b) b i x = deriv (fun t => logDensityOf F m eta b (put x b i t)) (x b i) from rfl, this.deriv, Finset.sum_range_succ]
  simp only [appendOne, lt_irrefl, if_false, mul_one]
  congr 1
  apply Finset.sum_congr rfl
  intro k hk
  rw [if_pos (Finset.mem_range.mp hk), mul_comm]

theorem logDensityOf_second (F : Batch → Batch) (h2 : Twice F) (m : Nat) (eta x : Batch) (b i : Nat) :
    partialAt (partialAt (logDensityOf F m eta b) b i) b i x = ∑ k ∈ Finset.range (m + 1), partialAt (partialAt (fun x => F x b k) b i) b i x * appendOne m eta b k := by
  have h : ∀ k, HasDerivAt (fun t => partialAt (fun x => F x b k) b i (put x b i t)) (partialAt (partialAt (fun x => F x b k) b i) b i x) (x b i) := fun k => (h2 x b i k).2.hasDerivAt
  have : HasDerivAt (fun t => partialAt (logDensityOf F m eta b) b i (put x b i t)) (∑ k ∈ Finset.range (m + 1), partialAt (partialAt (fun x => F x b k) b i) b i x * appendOne m eta b k) (x b i) := by
    simp only [logDensityOf_first F h2 m eta _ b i]
    exact HasDerivAt.fun_sum fun k _ => (h k).mul_const _
  exact this.deriv

/-- C164, the loss: with derivatives by automatic differentiation the loss of a batch is the score-matching objective of the network. -/
theorem C164_loss_partial (F : Batch → Batch) (hF : RowWise F) (h2 : Twice F) (n d m : Nat) (samples eta : Batch) (lam : ℝ) :
    batchLossAuto F n d m samples eta lam = scoreMatchingOf F n d m samples eta lam := by
  unfold batchLossAuto scoreMatchingOf fisherLossWithC fisherLoss
  dsimp only
  congr 1
  have key : ∀ b < n, ∀ i < d, (∑ k ∈ Finset.range (m + 1), (jacobianSecondOrder n d (m + 1) F samples).1 b i k * appendOne m eta b k = partialAt (logDensityOf F m eta b) b i samples) ∧
      (∑ k ∈ Finset.range (m + 1), (jacobianSecondOrder n d (m + 1) F samples).2 b i k * appendOne m eta b k = partialAt (partialAt (logDensityOf F m eta b) b i) b i samples) := by
    intro b hb i hi
    rw [logDensityOf_first F h2, logDensityOf_second F h2]
    refine ⟨Finset.sum_congr rfl fun k hk => ?_, Finset.sum_congr rfl fun k hk => ?_⟩
    · rw [(C164_partial n d (m + 1) F hF samples b k i hb (Finset.mem_range.mp hk) hi).2.1]
    · rw [(C164_partial n d (m + 1) F hF samples b k i hb (Finset.mem_range.mp hk) hi).2.2.1]
  split
  · rename_i h0
    subst h0
    refine Finset.sum_congr rfl fun b hb => Finset.sum_congr rfl fun i hi => ?_
    obtain ⟨e1, e2⟩ := key b (Finset.mem_range.mp hb) i (Finset.mem_range.mp hi)
    simp only [e1, e2]
    ring
  · refine Finset.sum_congr rfl fun b hb => Finset.sum_congr rfl fun i hi => ?_
    obtain ⟨e1, e2⟩ := key b (Finset.mem_range.mp hb) i (Finset.mem_range.mp hi)
    simp only [e1, e2]

theorem apply_own (L : Layer) (x y : Batch) (b : Nat) (h : x b = y b) : L.apply x b = L.apply y b := by
  funext o
  simp [Layer.apply, h]

theorem forwardLoop_row (act : Act) : ∀ (ls : List Layer) (x y : Batch) (b : Nat), x b = y b → forwardLoop act ls x b = forwardLoop act ls y b
  | [], _, _, _, h => h
  | L :: ls, x, y, b, h => forwardLoop_row act ls _ _ b (apply_own L _ _ b (by funext k; simp [h]))

theorem forward_rowWise (net : Net) : RowWise net.forward := fun x y b h => forwardLoop_row net.act net.layers _ _ b (apply_own net.input x y b h)

/-- Components that the network does not read do not change its output. -/
theorem apply_unread (L : Layer) (x : Batch) (b i : Nat) (hi : ¬ i < L.width) (t : ℝ) : L.apply (put x b i t) = L.apply x := by
  funext b' o
  unfold Layer.apply
  congr 1
  refine Finset.sum_congr rfl fun k hk => ?_
  have : k ≠ i := fun e => hi (e ▸ Finset.mem_range.mp hk)
  simp [put, this]

theorem forward_twice (net : Net) (ha : net.act.Smooth) : Twice net.forward := by
  intro x b i o
  by_cases hi : i < net.input.width
  · exact ⟨((C126 net ha x).2 b i o hi).1.differentiableAt, ((C126 net ha x).2 b i o hi).2.differentiableAt⟩
  · have e : ∀ x t, net.forward (put x b i t) = net.forward x := fun x t => by
      unfold Net.forward; rw [apply_unread _ _ _ _ hi]
    simp only [partialAt, e, deriv_const, differentiableAt_const, and_self]

/-- C164, the two routes: for the default networks, the loss by automatic differentiation equals the loss with the derivatives that the network computes along with its output. -/
theorem C164_same (net : Net) (ha : net.act.Smooth) (n d m : Nat) (hd : d ≤ net.input.width) (samples eta : Batch) (lam : ℝ) :
    batchLossAuto net.forward n d m samples eta lam = batchLoss net n d m samples eta lam := by
  rw [C164_loss_partial net.forward (forward_rowWise net) (forward_twice net ha), C127 net ha n d m hd]
  rfl

/-- C164 fails for networks that mix rows: with the mean of the batch subtracted, as batch normalisation does while training, the Jacobian of two rows is zero, the derivative is one half. -/
theorem C164_violated (x : Batch) : let F : Batch → Batch := fun x b o => x b o - (x 0 o + x 1 o) / 2
    jacobian 2 1 F x 0 0 0 = 0 ∧ partialAt (fun x => F x 0 0) 0 0 x = 1 / 2 := by
  intro F
  constructor
  · show deriv _ _ = _
    have : (fun t => ∑ b ∈ Finset.range 2, ∑ o ∈ Finset.range 1, oneColumn 0 b o * F (put x 0 0 t) b o) = fun _ => 0 := by
      funext t
      simp [F, Finset.sum_range_succ, oneColumn, put]
      ring
    rw [this]
    simp
  · show deriv _ _ = _
    have : (fun t => F (put x 0 0 t) 0 0) = fun t => (1 / 2 : ℝ) * t - x 1 0 / 2 := by
      funext t
      simp [F, put]
      ring
    rw [this, deriv_sub_const, deriv_const_mul_field, deriv_id'', mul_one]

/-- The hypotheses can be met by a network whose derivatives vary. -/
example : RowWise (fun x b _ => x b 0 ^ 2) ∧ jacobian 3 1 (fun x b _ => x b 0 ^ 2) (fun b _ => b) 2 0 0 = 4 := by
  have h : RowWise (fun x b _ => x b 0 ^ 2) := fun x y b h => by simp [h]
  refine ⟨h, ?_⟩
  rw [(C164_partial 3 1 1 _ h _ 2 0 0 (by norm_num) (by norm_num) (by norm_num)).1]
  simp [partialAt, put]
  norm_num

/-! ### Entries that are not finite -/

theorem add_eq_inf (a b : Num) : a.add b = .inf ↔ (a = .inf ∨ b = .inf) ∧ a ≠ .negInf ∧ b ≠ .negInf ∧ a ≠ .nan ∧ b ≠ .nan := by
  cases a <;> cases b <;> simp [Num.add]

theorem add_eq_negInf (a b : Num) : a.add b = .negInf ↔ (a = .negInf ∨ b = .negInf) ∧ a ≠ .inf ∧ b ≠ .inf ∧ a ≠ .nan ∧ b ≠ .nan := by
  cases a <;> cases b <;> simp [Num.add]

theorem add_eq_nan (a b : Num) : a.add b = .nan ↔ a = .nan ∨ b = .nan ∨ (a = .inf ∧ b = .negInf) ∨ (a = .negInf ∧ b = .inf) := by
  cases a <;> cases b <;> simp [Num.add]

theorem sum_kinds : ∀ (l : List Num) (a : Num), (l.foldl Num.add a = .inf ↔ .inf ∈ a :: l ∧ .negInf ∉ a :: l ∧ .nan ∉ a :: l) ∧
    (l.foldl Num.add a = .negInf ↔ .negInf ∈ a :: l ∧ .inf ∉ a :: l ∧ .nan ∉ a :: l) ∧ (l.foldl Num.add a = .nan ↔ .nan ∈ a :: l ∨ .inf ∈ a :: l ∧ .negInf ∈ a :: l)
  | [], a => by cases a <;> simp
  | b :: l, a => by
    obtain ⟨h1, h2, h3⟩ := sum_kinds l (a.add b)
    simp only [List.foldl_cons, h1, h2, h3]
    simp only [List.mem_cons, eq_comm (a := Num.inf), eq_comm (a := Num.negInf), eq_comm (a := Num.nan), add_eq_inf, add_eq_negInf, add_eq_nan]
    cases a <;> cases b <;> simp <;> tauto

/-- C165, what is refused: derivatives are refused exactly when some entry of the input or of the output is `inf` and none is `-inf` or `nan`. In particular numbers are not refused. -/
theorem C165_partial (input output : List Num) : raises input output ↔ .inf ∈ input ++ output ∧ .negInf ∉ input ++ output ∧ .nan ∉ input ++ output := by
  have hi := sum_kinds input (.fin 0)
  have ho := sum_kinds output (.fin 0)
  have e : ∀ s : Num, (s.eq .nan ∨ s.eq .inf) ↔ s = .inf := by intro s; cases s <;> simp [Num.eq]
  unfold raises
  dsimp only
  rw [e, add_eq_inf]
  simp only [ne_eq, hi.1, hi.2.1, hi.2.2, ho.1, ho.2.1, ho.2.2, List.mem_cons, reduceCtorEq, false_or, List.mem_append]
  clear hi ho e
  by_cases h1 : Num.inf ∈ input <;> by_cases h2 : Num.inf ∈ output <;> by_cases h3 : Num.nan ∈ input <;> by_cases h4 : Num.nan ∈ output <;>
    by_cases h5 : Num.negInf ∈ input <;> by_cases h6 : Num.negInf ∈ output <;> simp [h1, h2, h3, h4, h5, h6]

/-- C165 fails: an entry that is `nan` is never refused, and an entry that is `-inf` is never refused. -/
theorem C165_violated (input output : List Num) (h : .nan ∈ input ++ output ∨ .negInf ∈ input ++ output) : ¬ raises input output := by
  rw [C165_partial]
  tauto

/-- A case of each kind. -/
example : raises [.fin 1, .inf] [.fin 2] ∧ ¬ raises [.fin 1, .nan] [.fin 2] ∧ ¬ raises [.fin 1] [.fin 2] := by
  simp [C165_partial]

end Verif.Deriv
