import Mathlib.Data.Real.Sqrt
import Mathlib.Analysis.SpecialFunctions.Log.Basic
import Mathlib.Analysis.SpecialFunctions.Exp
import Mathlib.Analysis.SpecialFunctions.Pow.Real
import Mathlib.Data.List.Sort
import Verif.Collect

/-!
# Distances between data sets (abcpy/distances.py)

Floating point numbers are reals; not-a-number and infinite results are `none`, and so is a
Python exception.  A numpy array of summary statistics is a `Stats`: its second dimension and its
rows.
-/

namespace Verif.Distance

open Classical

/-- One row of an array of summary statistics. -/
abbrev Row := List ℝ

/-- A two-dimensional array: `shape[1]` and the rows. -/
structure Stats where
  width : Nat
  rows : List Row

/-- What numpy guarantees of every two-dimensional array: all rows have the same length. -/
def Stats.Rect (s : Stats) : Prop := ∀ r ∈ s.rows, r.length = s.width

/-! ## The cache of the observed statistics -/

/-- The Python objects a caller can hold: list objects holding arrays, arrays holding numbers.
Both can be changed in place between two calls. A number in a list is an array of size one.
Only the flat contents of an array are kept, so arrays are one-dimensional. -/
structure Heap where
  lists : Nat → List Nat
  arrays : Nat → List ℝ

/-- The values a list object holds. -/
def Heap.values (h : Heap) (r : Nat) : List (List ℝ) := (h.lists r).map h.arrays

/-- numpy `a == b` for one-dimensional arrays: elementwise with broadcasting of size one; any other
difference of sizes is an exception (numpy before 1.25 returns the Python value `False`, which has
no method `all`, line 125; later versions raise themselves). -/
noncomputable def broadcastEq (a b : List ℝ) : Option (List Bool) :=
  if a.length = b.length then some (List.zipWith (fun x y => decide (x = y)) a b)
  else if a.length = 1 then some (b.map fun y => decide (a = [y]))
  else if b.length = 1 then some (a.map fun x => decide (b = [x]))
  else none

/-- Python `==` of two lists of arrays of equal length (line 123): the same object counts as equal;
else the comparison of the arrays must have a truth value, which only exists for size one (size
zero counts as false); the comparison stops at the first difference. -/
noncomputable def listEq (h : Heap) : List Nat → List Nat → Option Bool
  | a :: as, b :: bs =>
    if a = b then listEq h as bs
    else match broadcastEq (h.arrays a) (h.arrays b) with
      | none => none
      | some [] => some false
      | some [t] => if t then listEq h as bs else some false
      | some _ => none
  | _, _ => some true

/-- distances.py 120-125 (and approx_lhd.py 103-109): is the given data set the stored one?
`old` and `new` are the list objects. -/
noncomputable def sameData (h : Heap) (old new : Nat) : Option Bool :=
  if (h.lists new).length ≠ (h.lists old).length then some false
  else match h.lists new with
    | [] => none
    | o :: _ =>
      if (h.arrays o).length = 1 then listEq h (h.lists old) (h.lists new)
      else (collect (List.zipWith (fun a b => (broadcastEq (h.arrays a) (h.arrays b)).map fun l => l.all id)
        (h.lists old) (h.lists new))).map fun l => l.all id

/-- The attributes `s1`, `data_set` (a reference to the caller's list) and `dataSame`
(distances.py 32-34; `stat_obs`, `data_set`, `dataSame` in approx_lhd.py). -/
structure Cache where
  s1 : Option Stats
  dataSet : Option Nat
  same : Bool

/-- A new object (distances.py 32-34, approx_lhd.py 35-37). -/
def Cache.new : Cache := ⟨none, none, false⟩

/-- distances.py 117-125: the check of the data set; `none` is an exception. -/
noncomputable def Cache.check (c : Cache) (h : Heap) (d1 : Nat) : Option Cache :=
  match c.dataSet with
  | none => some c
  | some old => (sameData h old d1).map fun b => { c with same := b }

/-- distances.py 127-130: the statistics of the observations are computed again unless the check
says that the data are the same. -/
def Cache.refresh (stats : List (List ℝ) → Option Stats) (c : Cache) (h : Heap) (d1 : Nat) :
    Option (Cache × Stats) :=
  match c.s1, c.same with
  | some s, true => some (c, s)
  | _, _ => (stats (h.values d1)).map fun s => ({ c with s1 := some s, dataSet := some d1 }, s)

/-- `Distance._calculate_summary_stat` (distances.py 94-138) and
`Approx_likelihood._calculate_summary_stat` (approx_lhd.py 76-122), which is the same code with
other names. `stats` is `statistics_calc.statistics`, a function of the values given to it that may
raise. Returns the object after the call and the two arrays, or `none` for an exception.
The type checks 112-115 are left out: the arguments are lists. -/
noncomputable def summaries (stats : List (List ℝ) → Option Stats) (c : Cache) (h : Heap)
    (d1 d2 : Nat) : Cache × Option (Stats × Stats) :=
  match c.check h d1 with
  | none => (c, none)
  | some c =>
    match c.refresh stats h d1 with
    | none => (c, none)
    | some (c, s1) =>
      match stats (h.values d2) with
      | none => (c, none)
      | some s2 => (c, if s1.width ≠ s2.width then none else some (s1, s2))

/-- A call of `distance` (or `loglikelihood`) of an object whose formula is `f`: every such method
starts with `_calculate_summary_stat` and then computes a value from the two arrays. -/
noncomputable def call {β : Type} (stats : List (List ℝ) → Option Stats) (f : Stats → Stats → Option β)
    (c : Cache) (h : Heap) (d1 d2 : Nat) : Cache × Option β :=
  let r := summaries stats c h d1 d2
  (r.1, r.2.bind fun s => f s.1 s.2)

/-- One call: the state of the caller's objects at that time and the two arguments. -/
structure Call where
  heap : Heap
  obs : Nat
  sim : Nat

/-- A sequence of calls of one object, with the values returned (`none`: raised). -/
noncomputable def calls {β : Type} (stats : List (List ℝ) → Option Stats) (f : Stats → Stats → Option β) :
    Cache → List Call → List (Option β)
  | _, [] => []
  | c, k :: rest =>
    let r := call stats f c k.heap k.obs k.sim
    r.2 :: calls stats f r.1 rest

/-! ## Euclidean -/

/-- `np.sqrt(np.sum(pow(a - b, 2)))` (distances.py 191), also `np.linalg.norm(a - b)` (1084). -/
noncomputable def euclid (a b : Row) : ℝ :=
  Real.sqrt (List.zipWith (fun x y => (x - y) ^ 2) a b).sum

/-- `np.sum` of a matrix given by its rows. -/
noncomputable def total (M : List (List ℝ)) : ℝ := (M.map List.sum).sum

/-- `Euclidean.distance` after the statistics (distances.py 187-193); the mean of an empty array is
not a number. -/
noncomputable def euclidean (s1 s2 : Stats) : Option ℝ :=
  if s1.rows.length * s2.rows.length = 0 then none
  else some (total (s1.rows.map fun a => s2.rows.map fun b => euclid a b)
    / ((s1.rows.length * s2.rows.length : Nat) : ℝ))

/-- `dist_max` of Euclidean, Wasserstein, SlicedWasserstein, Gamma, KL, MMD and Energy
(distances.py 202, 408, 472, 687, 811, 934, 1075): infinity. -/
noncomputable def distMaxInfinite : EReal := ⊤

/-! ## Kernels and MMD -/

/-- `compute_Gram_matrix` for one data set with itself, non-vectorised (distances.py 967-975): the
kernel is called for `i ≤ j` only and the value mirrored. -/
def gramSelf (k : Row → Row → ℝ) (s : List Row) : List (List ℝ) :=
  s.zipIdx.map fun a => s.zipIdx.map fun b => if a.2 ≤ b.2 then k a.1 b.1 else k b.1 a.1

/-- `compute_Gram_matrix` between two data sets (distances.py 977-979), and all three matrices for a
vectorised kernel (956-958). -/
def gram (k : Row → Row → ℝ) (s1 s2 : List Row) : List (List ℝ) :=
  s1.map fun a => s2.map fun b => k a b

/-- `def_gaussian_kernel` (distances.py 937-951), one entry of the vectorised result. -/
noncomputable def gaussian (sigma : ℝ) (a b : Row) : ℝ :=
  Real.exp (-(List.zipWith (fun x y => (x - y) * (x - y)) a b).sum / (2 * sigma ^ 2))

/-- `def_Euclidean_distance` (distances.py 1078-1089); `none` is the RuntimeError. -/
noncomputable def baseDistance (beta : ℝ) : Option (Row → Row → ℝ) :=
  if beta ≤ 0 ∨ beta > 2 then none
  else if beta = 1 then some euclid
  else some fun a b => euclid a b ^ beta

/-- `np.sum(K - np.diag(np.diagonal(K)))` (distances.py 991, 993). -/
noncomputable def offDiagonal (K : List (List ℝ)) : ℝ :=
  (K.zipIdx.map fun r => (r.1.zipIdx.map fun e => if e.2 = r.2 then e.1 - e.1 else e.1 - 0).sum).sum

/-- `MMD_unbiased` (distances.py 985-997); division by zero (a data set of size 0 or 1) raises. -/
noncomputable def mmdUnbiased (Kxx Kyy Kxy : List (List ℝ)) : Option ℝ :=
  let m := Kxx.length
  let n := Kyy.length
  if m * (m - 1) = 0 ∨ n * (n - 1) = 0 then none
  else
    let t1 := 1 / ((m : ℝ) * (m - 1)) * offDiagonal Kxx
    let t2 := 2 / ((m : ℝ) * n) * total Kxy
    let t3 := 1 / ((n : ℝ) * (n - 1)) * offDiagonal Kyy
    some (t1 - t2 + t3)

/-- `MMD_V_estimator` (distances.py 1000-1011). -/
noncomputable def mmdV (Kxx Kyy Kxy : List (List ℝ)) : Option ℝ :=
  let m := Kxx.length
  let n := Kyy.length
  if m = 0 ∨ n = 0 then none
  else
    let t1 := 1 / ((m : ℝ) * m) * total Kxx
    let t2 := 2 / ((m : ℝ) * n) * total Kxy
    let t3 := 1 / ((n : ℝ) * n) * total Kyy
    some (t1 - t2 + t3)

/-- The kernel of an `MMD` object (distances.py 885-895): the Gaussian one is vectorised, a callable
is not. -/
inductive KernelArg
  | gaussian (sigma : ℝ)
  | callable (k : Row → Row → ℝ)

/-- The function evaluated for a pair of rows. -/
noncomputable def KernelArg.fn : KernelArg → Row → Row → ℝ
  | .gaussian sigma => Distance.gaussian sigma
  | .callable k => k

/-- The Gram matrix of a data set with itself, as `compute_Gram_matrix` builds it (955-975). -/
noncomputable def KernelArg.self : KernelArg → List Row → List (List ℝ)
  | .gaussian sigma, s => gram (Distance.gaussian sigma) s s
  | .callable k, s => gramSelf k s

/-- `MMD.distance` after the statistics (distances.py 916-923). -/
noncomputable def mmd (k : KernelArg) (biased : Bool) (s1 s2 : Stats) : Option ℝ :=
  let K11 := k.self s1.rows
  let K22 := k.self s2.rows
  let K12 := gram k.fn s1.rows s2.rows
  if biased then mmdV K11 K22 K12 else mmdUnbiased K11 K22 K12

/-- `EnergyDistance` (distances.py 1047-1064): MMD with minus the base distance as a callable. -/
noncomputable def energy (base : Row → Row → ℝ) (biased : Bool) : Stats → Stats → Option ℝ :=
  mmd (.callable fun a b => -base a b) biased

/-! ## Nearest-neighbour estimators -/

/-- `NearestNeighbors(...).fit(pts).kneighbors([p], k)[0][:, -1]`: the k-th smallest of the
distances from `p` to the points; scikit-learn raises if there are fewer than `k` points or `k = 0`. -/
noncomputable def kth (pts : List Row) (k : Nat) (p : Row) : Option ℝ :=
  if k = 0 then none else ((pts.map (euclid p)).insertionSort (· ≤ ·))[k - 1]?

/-- For every row of `s` its `k`-th nearest neighbour distance within `s` itself, computed as the
`k+1`-st with the point included (`rho`; distances.py 704, 710, 712). -/
noncomputable def rho (s : List Row) (k : Nat) : Option (List ℝ) := collect (s.map (kth s (k + 1)))

/-- For every row of `s` its `k`-th nearest neighbour distance in `t` (`nu`; distances.py 705, 711, 713). -/
noncomputable def nu (s t : List Row) (k : Nat) : Option (List ℝ) := collect (s.map (kth t k))

/-- `skl_estimator_KL_div` (distances.py 814-846); `none` when a division by zero makes the value
infinite or not a number (some `rho` or `nu` is zero). The test at 795-797 has no effect: it asserts
an exception object, which is true. -/
noncomputable def klEst (s1 s2 : Stats) (k : Nat) : Option ℝ :=
  match rho s1.rows k, nu s1.rows s2.rows k with
  | some r, some v =>
    if 0 ∈ r ∨ 0 ∈ v then none
    else
      let n : ℝ := s1.rows.length
      let m : ℝ := s2.rows.length
      if n = 0 ∨ n - 1 = 0 then none
      else some ((s1.width : ℝ) / n * (List.zipWith (fun a b => Real.log (b / a)) r v).sum + Real.log (m / (n - 1)))
  | _, _ => none

/-- `skl_estimator_gamma_q` (distances.py 690-747); `none` as for `klEst`. -/
noncomputable def gammaEst (s1 s2 : Stats) (k : Nat) (gam : ℝ) : Option ℝ :=
  match rho s1.rows k, nu s1.rows s2.rows k, rho s2.rows k with
  | some r, some v, some q =>
    if 0 ∈ r ∨ 0 ∈ v ∨ 0 ∈ q ∨ gam * (gam + 1) = 0 then none
    else
      let n : ℝ := s1.rows.length
      let m : ℝ := s2.rows.length
      if n = 0 ∨ n - 1 = 0 ∨ m = 0 ∨ m - 1 = 0 then none
      else
        let dGam := (s1.width : ℝ) * gam
        let second := (r.map fun x => 1 / x ^ dGam).sum / (n * (n - 1) ^ gam)
        let fourth := (v.map fun x => 1 / x ^ dGam).sum / (n * m ^ gam)
        let third := ((q.map fun x => 1 / x ^ dGam).sum / (m * (m - 1) ^ gam)) ^ gam
        some (1 / (gam * (gam + 1)) * Real.log (second * third / fourth ^ (1 + gam)))
  | _, _, _ => none

/-- One of the two halves of `skl_estimator_squared_Hellinger_distance` (distances.py 1172-1190 and
1192-1211): the sum is not divided by the number of terms. -/
noncomputable def hellingerHalf (s1 s2 : Stats) (k : Nat) : Option ℝ :=
  match rho s1.rows k, nu s1.rows s2.rows k with
  | some r, some v =>
    if 0 ∈ v then none
    else
      let n : ℝ := s1.rows.length
      let m : ℝ := s2.rows.length
      if m = 0 then none
      else some (2 - 2 * Real.sqrt ((n - 1) / m)
        * (List.zipWith (fun a b => (a / b) ^ ((s1.width : ℝ) / 2)) r v).sum)
  | _, _ => none

/-- `skl_estimator_squared_Hellinger_distance` (distances.py 1153-1216): the average of the two
halves; `d` is always the width of the first array, which equals the width of the second. -/
noncomputable def hellinger (s1 s2 : Stats) (k : Nat) : Option ℝ :=
  match hellingerHalf s1 s2 k, hellingerHalf s2 s1 k with
  | some a, some b => some ((1 / 2) * (a + b))
  | _, _ => none

/-- `dist_max` of SquaredHellingerDistance (distances.py 1150). -/
def hellingerMax : ℝ := 2

/-! ## `_estimate_always_positive` -/

/-- The divergences of distances.py, for the flag `_estimate_always_positive`. -/
inductive Kind
  | penLogReg | logReg | wasserstein | slicedWasserstein | gamma | kl | hellinger
  | mmd (k : KernelArg) (biased : Bool)
  | energy (base : Row → Row → ℝ) (biased : Bool)

/-- `_estimate_always_positive` (distances.py 282, 351, 410, 474, 749, 848, 1013, 1218). -/
def Kind.alwaysPositive : Kind → Bool
  | .penLogReg => false
  | .logReg => false
  | .wasserstein => true
  | .slicedWasserstein => true
  | .gamma => false
  | .kl => false
  | .hellinger => true
  | .mmd _ biased => biased
  | .energy _ biased => biased

end Verif.Distance
