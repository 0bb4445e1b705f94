import Verif.Floats.Underflow
import Verif.Graph.Props
import Verif.Site.Props
/-
C191: `pdf_of_prior` multiplies the densities of all parameters, in floating point, and the samplers draw a proposal again while the product is 0.
-/
namespace Verif.Floats

open Graph

variable {α : Type} (g : G)

/-! ### The same traversal with two kinds of numbers -/

section related

variable {M N : Type} [Mul M] [One M] [Mul N] [One N] (R : M → N → Prop)

/-- Two results of a traversal: the same nodes, related numbers, the values `val` still stored. -/
def Same (val : Nat → Option α) (a : St α × M) (b : St α × N) : Prop := a.1 = b.1 ∧ R a.2 b.2 ∧ a.1.value = val

variable (h1 : R 1 1) (hm : ∀ a a' b b', R a b → R a' b' → R (a * a') (b * b'))
include h1 hm

omit h1 in
theorem foldl_same (val : Nat → Option α) (F : Nat → St α → St α × M) (G : Nat → St α → St α × N) (l : List Nat) (h : ∀ p ∈ l, ∀ s : St α, s.value = val → Same R val (F p s) (G p s)) :
    ∀ (s : St α) (a : M) (b : N), s.value = val → R a b →
      Same R val (l.foldl (fun (x : St α × M) p => ((F p x.1).1, x.2 * (F p x.1).2)) (s, a)) (l.foldl (fun (x : St α × N) p => ((G p x.1).1, x.2 * (G p x.1).2)) (s, b)) := by
  induction l with
  | nil => intro s a b hs hab; exact ⟨rfl, hab, hs⟩
  | cons p l ih =>
    intro s a b hs hab
    obtain ⟨k1, k2, k3⟩ := h p (by simp) s hs
    rw [List.foldl_cons, List.foldl_cons]
    simp only
    rw [← k1]
    exact ih (fun q hq => h q (by simp [hq])) _ _ _ k3 (hm _ _ _ _ hab k2)

theorem pdfNode_same (val : Nat → Option α) (dens : (Nat → Option α) → Nat → Option α → M) (dens' : (Nat → Option α) → Nat → Option α → N) (m : List (Nat × Nat)) (ps : List α)
    (hd : ∀ v, R (dens val v ((mapIndex m v).bind fun i => ps[i]?)) (dens' val v ((mapIndex m v).bind fun i => ps[i]?))) (v : Nat) :
    ∀ s : St α, s.value = val → Same R val (pdfNode g dens m ps v s) (pdfNode g dens' m ps v s) := by
  induction v using Nat.strong_induction_on with
  | _ v ih =>
    intro s hs
    have key := foldl_same R hm val (fun p s => pdfNode g dens m ps p s) (fun p s => pdfNode g dens' m ps p s) (g.parents v) (fun p hp s hs => ih p (g.lt_of_parent hp) s hs) s 1 1 hs h1
    rw [pdfNode, pdfNode]
    rw [show (forMem (g.parents v) (fun p _ (x : St α × M) =>
          match x with
          | (s, r) =>
            match pdfNode g dens m ps p s with
            | (s', d) => (s', r * d)) (s, (1 : M))) = _ from
          forMem_eq_foldl (g.parents v) (fun p (x : St α × M) => ((pdfNode g dens m ps p x.1).1, x.2 * (pdfNode g dens m ps p x.1).2)) _,
      show (forMem (g.parents v) (fun p _ (x : St α × N) =>
          match x with
          | (s, r) =>
            match pdfNode g dens' m ps p s with
            | (s', d) => (s', r * d)) (s, (1 : N))) = _ from
          forMem_eq_foldl (g.parents v) (fun p (x : St α × N) => ((pdfNode g dens' m ps p x.1).1, x.2 * (pdfNode g dens' m ps p x.1).2)) _]
    generalize (g.parents v).foldl (fun (x : St α × M) p => ((pdfNode g dens m ps p x.1).1, x.2 * (pdfNode g dens m ps p x.1).2)) (s, (1 : M)) = A at key
    generalize (g.parents v).foldl (fun (x : St α × N) p => ((pdfNode g dens' m ps p x.1).1, x.2 * (pdfNode g dens' m ps p x.1).2)) (s, (1 : N)) = B at key
    obtain ⟨t, a⟩ := A
    obtain ⟨t', b⟩ := B
    obtain ⟨k1, k2, k3⟩ := key
    simp only at k1 k2 k3 ⊢
    subst k1
    by_cases hmemo : t.memo v = true
    · rw [if_pos hmemo, if_pos hmemo]
      exact ⟨rfl, hm _ _ _ _ k2 h1, k3⟩
    · rw [if_neg hmemo, if_neg hmemo]
      have hd' := hd v
      rw [← k3] at hd'
      cases g.kind v with
      | op => exact ⟨rfl, hm _ _ _ _ k2 h1, k3⟩
      | hyper => exact ⟨rfl, hm _ _ _ _ k2 h1, k3⟩
      | cont => exact ⟨rfl, hm _ _ _ _ k2 hd', k3⟩
      | disc => exact ⟨rfl, hm _ _ _ _ k2 hd', k3⟩

theorem pdfRoot_same (val : Nat → Option α) (dens : (Nat → Option α) → Nat → Option α → M) (dens' : (Nat → Option α) → Nat → Option α → N) (m : List (Nat × Nat)) (ps : List α)
    (hd : ∀ v, R (dens val v ((mapIndex m v).bind fun i => ps[i]?)) (dens' val v ((mapIndex m v).bind fun i => ps[i]?))) (r : Nat) (s : St α) (hs : s.value = val) :
    Same R val (pdfRoot g dens m ps r s) (pdfRoot g dens' m ps r s) := by
  have key := foldl_same R hm val (fun p s => pdfNode g dens m ps p s) (fun p s => pdfNode g dens' m ps p s) (g.parents r) (fun p _ s hs => pdfNode_same g R h1 hm val dens dens' m ps hd p s hs) s 1 1 hs h1
  rw [pdfRoot, pdfRoot]
  rw [show (forMem (g.parents r) (fun p _ (x : St α × M) =>
        match x with
        | (s, r) =>
          match pdfNode g dens m ps p s with
          | (s', d) => (s', r * d)) (s, (1 : M))) = _ from
        forMem_eq_foldl (g.parents r) (fun p (x : St α × M) => ((pdfNode g dens m ps p x.1).1, x.2 * (pdfNode g dens m ps p x.1).2)) _,
    show (forMem (g.parents r) (fun p _ (x : St α × N) =>
        match x with
        | (s, r) =>
          match pdfNode g dens' m ps p s with
          | (s', d) => (s', r * d)) (s, (1 : N))) = _ from
        forMem_eq_foldl (g.parents r) (fun p (x : St α × N) => ((pdfNode g dens' m ps p x.1).1, x.2 * (pdfNode g dens' m ps p x.1).2)) _]
  exact key

/-- The entry of the vector that belongs to a node. -/
def entry (roots : List Nat) (ps : List α) (v : Nat) : Option α := if v ∈ order g roots then ps[(order g roots).idxOf v]? else none

/-- `pdf_of_prior` with two kinds of numbers: the same nodes afterwards, an exception for both or for none, and related numbers. -/
theorem pdfOfPrior_same (chk : (Nat → Option α) → Nat → α → Verdict) (roots : List Nat) (hap : RootsApart g roots) (dens : (Nat → Option α) → Nat → Option α → M) (dens' : (Nat → Option α) → Nat → Option α → N)
    (ps : List α) (s : St α) (hs : Clean s)
    (hd : ∀ v, R (dens (setParameters g chk roots ps s).1.value v (entry g roots ps v)) (dens' (setParameters g chk roots ps s).1.value v (entry g roots ps v))) :
    (pdfOfPrior g chk dens roots ps s).1 = (pdfOfPrior g chk dens' roots ps s).1 ∧
      ((pdfOfPrior g chk dens roots ps s).2 = none ∧ (pdfOfPrior g chk dens' roots ps s).2 = none ∨
        ∃ a b, (pdfOfPrior g chk dens roots ps s).2 = some a ∧ (pdfOfPrior g chk dens' roots ps s).2 = some b ∧ R a b) := by
  have hset := setParameters_eq g chk ps roots hap s hs
  by_cases hr : (setParameters g chk roots ps s).2 = .error .raised
  · simp only [pdfOfPrior]
    rcases hsp : setParameters g chk roots ps s with ⟨s1, r⟩
    rw [hsp] at hr
    simp only at hr
    subst hr
    exact ⟨rfl, Or.inl ⟨rfl, rfl⟩⟩
  · have hclean : Clean (setParameters g chk roots ps s).1 := by
      revert hset
      split
      · intro hset; exact hset.2.2
      · intro hset; exact hset.2.2
      · intro hset; exact absurd hset.1 hr
    obtain ⟨m1, m2, m3, m4⟩ := getMapping_eq g roots hap _ hclean
    have hx : ∀ v, ((mapIndex (getMapping g roots (setParameters g chk roots ps s).1).2.1 v).bind fun i => ps[i]?) = entry g roots ps v := by
      intro v
      rw [m1, mapIndex_zipIdx, entry]
      split <;> simp
    have e : ∀ {M : Type} [Mul M] [One M] (dens : (Nat → Option α) → Nat → Option α → M), pdfOfPrior g chk dens roots ps s =
        (let s1 := (setParameters g chk roots ps s).1
         let y := getMapping g roots s1
         let z := roots.foldl (fun (x : St α × M) r => ((pdfRoot g dens y.2.1 ps r x.1).1, x.2 * (pdfRoot g dens y.2.1 ps r x.1).2))
            (y.1, (1 : M))
         (z.1, some z.2)) := by
      intro M _ _ dens
      rw [pdfOfPrior]
      rcases hsp : setParameters g chk roots ps s with ⟨s1, r⟩
      rw [hsp] at hr
      have : ∀ m (s1 : St α), (forMem roots (fun r _ (x : St α × M) =>
          match x with | (s, acc) => (let (s', d) := pdfRoot g dens m ps r s; (s', acc * d))) (s1, (1 : M))) =
          roots.foldl (fun (x : St α × M) r => ((pdfRoot g dens m ps r x.1).1, x.2 * (pdfRoot g dens m ps r x.1).2)) (s1, (1 : M)) :=
        fun m s1 => forMem_eq_foldl roots _ _
      match r, hr with
      | .ok k, _ => simp only [this]
      | .error (.rejected i), _ => simp only [this]
      | .error .raised, hr => exact absurd rfl hr
    have key := foldl_same R hm (setParameters g chk roots ps s).1.value (fun r t => pdfRoot g dens (getMapping g roots (setParameters g chk roots ps s).1).2.1 ps r t)
      (fun r t => pdfRoot g dens' (getMapping g roots (setParameters g chk roots ps s).1).2.1 ps r t) roots
      (fun r _ t ht => pdfRoot_same g R h1 hm _ dens dens' _ ps (fun v => by rw [hx]; exact hd v) r t ht) (getMapping g roots (setParameters g chk roots ps s).1).1 1 1 m3 h1
    rw [e dens, e dens']
    exact ⟨key.1, Or.inr ⟨_, _, rfl, rfl, key.2.1⟩⟩

end related

/-! ### Bounds -/

/-- The number is at least the power of two with exponent `-n`, as long as this is a float. -/
def AtLeast (a : Fl) (n : Multiplicative ℕ) : Prop := n.toAdd ≤ 1074 → 2⁻¹ ^ n.toAdd ≤ a.val

/-- The number is at most the power of two with exponent `-n`, and zero if this is no float. -/
def AtMost (a : Fl) (n : Multiplicative ℕ) : Prop := 0 ≤ a.val ∧ a.val ≤ 2⁻¹ ^ n.toAdd ∧ (1074 < n.toAdd → a.val = 0)

theorem atLeast_mul (a a' : Fl) (n n' : Multiplicative ℕ) (h : AtLeast a n) (h' : AtLeast a' n') : AtLeast (a * a') (n * n') := by
  intro hn
  rw [toAdd_mul] at hn ⊢
  rw [Fl.mul_val]
  refine le_fl64 hn ?_
  rw [pow_add]
  have h1 := h (by omega)
  have h2 := h' (by omega)
  have : (0 : ℝ) ≤ 2⁻¹ ^ n'.toAdd := by positivity
  have : (0 : ℝ) ≤ a.val := le_trans (by positivity) h1
  gcongr

theorem atMost_mul (a a' : Fl) (n n' : Multiplicative ℕ) (h : AtMost a n) (h' : AtMost a' n') : AtMost (a * a') (n * n') := by
  obtain ⟨h1, h2, -⟩ := h
  obtain ⟨h1', h2', -⟩ := h'
  have hp : a.val * a'.val ≤ 2⁻¹ ^ (n.toAdd + n'.toAdd) := by
    rw [pow_add]
    gcongr
  unfold AtMost
  rw [toAdd_mul, Fl.mul_val]
  by_cases hn : n.toAdd + n'.toAdd ≤ 1074
  · obtain ⟨k1, k2⟩ := fl64_le hn (mul_nonneg h1 h1') hp
    exact ⟨k1, k2, fun h => by omega⟩
  · have : fl64 (a.val * a'.val) = 0 := by
      refine fl64_zero (mul_nonneg h1 h1') (hp.trans ?_)
      exact pow_le_pow_of_le_one (by norm_num) (by norm_num) (by omega)
    rw [this]
    exact ⟨le_rfl, by positivity, fun _ => rfl⟩

theorem toAdd_sum (l : List ℕ) : ((l.map Multiplicative.ofAdd).prod).toAdd = l.sum := by
  induction l with
  | nil => rfl
  | cons a l ih => simp only [List.map_cons, List.prod_cons, List.sum_cons, toAdd_mul, ih, toAdd_ofAdd]

theorem zip_order (roots : List Nat) (ps : List α) (v : Nat) (hv : v ∈ order g roots) (hl : (order g roots).length ≤ ps.length) :
    ∃ x, entry g roots ps v = some x ∧ (v, x) ∈ (order g roots).zip ps := by
  have hi := List.idxOf_lt_length_of_mem hv
  have hi' : (order g roots).idxOf v < ps.length := lt_of_lt_of_le hi hl
  refine ⟨ps[(order g roots).idxOf v], by rw [entry, if_pos hv, List.getElem?_eq_getElem hi'], ?_⟩
  rw [List.mem_iff_getElem]
  refine ⟨(order g roots).idxOf v, by simp; omega, ?_⟩
  rw [List.getElem_zip, List.getElem_idxOf]

/-- C191, for graphs of moderate size: if the density of every parameter at its entry of a vector that could be set is at least `2^-b`, and these exponents add up to at most 1074, then `pdf_of_prior` in floating
point returns a number that is not 0: at least 2 to the minus sum of the exponents. Missing: larger sums, see `C191_violated`, and discrete parameters reached along several paths, as for C07. -/
theorem C191_partial (roots : List Nat) (hap : RootsApart g roots) (s : St α) (hs : Clean s) (chk : (Nat → Option α) → Nat → α → Verdict) (dens : (Nat → Option α) → Nat → Option α → Fl) (ps : List α)
    (hok : (setParameters g chk roots ps s).2 = .ok (order g roots).length) (hdisc : ∀ v, g.kind v = .disc → (above g roots).count v ≤ 1) (b : Nat → ℕ)
    (hb : ∀ e ∈ (order g roots).zip ps, 2⁻¹ ^ b e.1 ≤ (dens (setParameters g chk roots ps s).1.value e.1 (some e.2)).val) (hsum : ((order g roots).map b).sum ≤ 1074) :
    ∃ d, (pdfOfPrior g chk dens roots ps s).2 = some d ∧ 2⁻¹ ^ ((order g roots).map b).sum ≤ d.val := by
  have hlen : (order g roots).length ≤ ps.length := (C01_set_then_get g roots hap s hs chk ps _ hok).2.1
  obtain ⟨-, h⟩ := pdfOfPrior_same g AtLeast (fun _ => by simp [Fl.one_val]) atLeast_mul chk roots hap dens
    (fun _ v _ => (Multiplicative.ofAdd (if v ∈ order g roots then b v else 1075) : Multiplicative ℕ)) ps s hs (fun v => by
      by_cases hv : v ∈ order g roots
      · obtain ⟨x, hx, hm⟩ := zip_order g roots ps v hv hlen
        rw [if_pos hv, hx]
        exact fun _ => hb _ hm
      · rw [if_neg hv]
        intro h
        rw [toAdd_ofAdd] at h
        omega)
  rw [C07_prior_density_partial g roots hap s hs chk _ ps hok hdisc] at h
  rcases h with ⟨-, h⟩ | ⟨a, n, ha, hn, h⟩
  · cases h
  · have e : (((order g roots).zip ps).map fun e : Nat × α => (Multiplicative.ofAdd (if e.1 ∈ order g roots then b e.1 else 1075) : Multiplicative ℕ)) = ((order g roots).map b).map Multiplicative.ofAdd := by
      apply List.ext_getElem
      · simp; omega
      · intro i h1 h2
        simp
    simp only [Option.some.injEq] at hn
    rw [e] at hn
    rw [← hn, AtLeast, toAdd_sum] at h
    exact ⟨a, ha, h hsum⟩

/-- The exponents of all factors add up to at least those of the parameters. -/
theorem sum_le_pdfVal (roots : List Nat) (b : Nat → ℕ) :
    ((order g roots).map b).sum ≤ (pdfVal g (fun v => (Multiplicative.ofAdd (b v) : Multiplicative ℕ)) (fun _ => false) (above g roots)).toAdd := by
  have hp : ∀ l : List Nat, (prodOver (fun v => (Multiplicative.ofAdd (b v) : Multiplicative ℕ)) l).toAdd = (l.map b).sum := by
    intro l
    rw [prodOver, ← toAdd_sum, List.map_map]
    rfl
  rw [pdfVal, toAdd_mul, hp, hp, ← List.sum_append, ← List.map_append]
  have hsub : (order g roots).Subperm (fresh (fun _ => false) ((above g roots).filter (isCont g)) ++ (above g roots).filter (isDisc g)) := by
    refine List.subperm_of_subset (order_nodup g roots) ?_
    intro v hv
    rw [mem_order, ← mem_above] at hv
    obtain ⟨h1, h2⟩ := hv
    rw [fresh_none_eq_eraseDups]
    simp only [List.mem_append, List.mem_filter, List.mem_eraseDups]
    cases hk : g.kind v <;> simp [Kind.isFree, hk, h2] at h1 ⊢
  obtain ⟨l, hl1, hl2⟩ := hsub
  rw [← (hl1.map b).sum_eq]
  exact (hl2.map b).sum_le_sum (by simp)

/-- If densities are at most `2^-b` and these exponents add up to at least 1075, `pdf_of_prior` returns 0, at every vector. -/
theorem pdf_zero (roots : List Nat) (hap : RootsApart g roots) (s : St α) (hs : Clean s) (chk : (Nat → Option α) → Nat → α → Verdict) (dens : (Nat → Option α) → Nat → Option α → Fl) (ps : List α) (b : Nat → ℕ)
    (hb : ∀ v, b v ≤ 1074) (hd : ∀ vals v x, 0 ≤ (dens vals v x).val ∧ (dens vals v x).val ≤ 2⁻¹ ^ b v) (hsum : 1075 ≤ ((order g roots).map b).sum) (d : Fl)
    (h : (pdfOfPrior g chk dens roots ps s).2 = some d) : d.val = 0 := by
  obtain ⟨-, k⟩ := pdfOfPrior_same g AtMost ⟨by simp [Fl.one_val], by simp [Fl.one_val], by simp⟩ atMost_mul chk roots hap dens
    (fun _ v _ => (Multiplicative.ofAdd (b v) : Multiplicative ℕ)) ps s hs (fun v => ⟨(hd _ _ _).1, (hd _ _ _).2, fun h => by
      rw [toAdd_ofAdd] at h
      have := hb v
      omega⟩)
  rcases k with ⟨k, -⟩ | ⟨a, n, ha, hn, k⟩
  · rw [h] at k; cases k
  · rw [h, Option.some.injEq] at ha
    subst ha
    rcases pdfOfPrior_eq g chk (fun _ v _ => (Multiplicative.ofAdd (b v) : Multiplicative ℕ)) roots hap ps s hs with ⟨-, p⟩ | ⟨-, p, -⟩
    · rw [p] at hn; cases hn
    · rw [p, Option.some.injEq] at hn
      have := sum_le_pdfVal g roots b
      rw [hn] at this
      exact k.2.2 (by omega)

theorem pdf_clean (roots : List Nat) (hap : RootsApart g roots) (s : St α) (hs : Clean s) (chk : (Nat → Option α) → Nat → α → Verdict) (dens : (Nat → Option α) → Nat → Option α → Fl)
    (dens' : (Nat → Option α) → Nat → Option α → ℝ) (ps : List α) :
    (pdfOfPrior g chk dens roots ps s).1 = (pdfOfPrior g chk dens' roots ps s).1 ∧ ((pdfOfPrior g chk dens roots ps s).2 = none ↔ (pdfOfPrior g chk dens' roots ps s).2 = none) := by
  obtain ⟨h1, h2⟩ := pdfOfPrior_same g (fun (_ : Fl) (_ : ℝ) => True) trivial (fun _ _ _ _ _ _ => trivial) chk roots hap dens dens' ps s hs (fun _ => trivial)
  refine ⟨h1, ?_⟩
  rcases h2 with ⟨a, b⟩ | ⟨a, b, ha, hb, -⟩
  · simp [a, b]
  · simp [ha, hb]

/-! ### The loop of proposals -/

open Site

variable {Y K : Type}

open Classical in
/-- Lines 1010-1014 and the same loop in the other samplers, as `Site.propose`, with densities that are multiplied in floating point. -/
noncomputable def proposeFl (S : Site α Y K) (dens : (Nat → Option α) → Nat → Option α → Fl) (k : K) : Nat → Worker α → Option (Worker α × List α)
  | 0, _ => none
  | fuel + 1, w => match perturb S k w with
    | none => none
    | some (w, none) => proposeFl S dens k fuel w
    | some (w, some ps) => match pdfOfPrior S.g S.chk dens S.roots ps w.st with
      | (_, none) => none
      | (s, some d) => if d.val ≠ 0 then some (⟨w.seed, s, w.clock⟩, ps) else proposeFl S dens k fuel ⟨w.seed, s, w.clock⟩

/-- C191 fails: if the densities of all parameters are at most `2^-b` and these exponents add up to 1075 or more, the loop of proposals never ends with a proposal, whatever the kernel proposes. -/
theorem C191_violated (S : Site α Y K) (hS : Sound S) (consts : Nat → Option α) (dens : (Nat → Option α) → Nat → Option α → Fl) (b : Nat → ℕ) (hb : ∀ v, b v ≤ 1074)
    (hd : ∀ vals v x, 0 ≤ (dens vals v x).val ∧ (dens vals v x).val ≤ 2⁻¹ ^ b v) (hsum : 1075 ≤ ((order S.g S.roots).map b).sum) (k : K) (fuel : Nat) :
    ∀ w : Worker α, Good S consts w.st → proposeFl S dens k fuel w = none := by
  induction fuel with
  | zero => intro w _; rfl
  | succ fuel ih =>
    intro w hw
    rw [proposeFl]
    cases hp : perturb S k w with
    | none => rfl
    | some r =>
      obtain ⟨v, o⟩ := r
      obtain ⟨g1, g2, g3⟩ := perturb_good S hS consts k w v o hw hp
      cases o with
      | none => exact ih v g1
      | some qs =>
        simp only
        have h0 := pdf_zero S.g S.roots hS.apart v.st g1.clean S.chk dens qs b hb hd hsum
        obtain ⟨c1, c2⟩ := pdf_clean S.g S.roots hS.apart v.st g1.clean S.chk dens S.dens qs
        have hpc := pdf_cases S hS consts qs v.st g1
        generalize pdfOfPrior S.g S.chk dens S.roots qs v.st = pr at h0 c1 c2 ⊢
        obtain ⟨s, od⟩ := pr
        cases od with
        | none => rfl
        | some d =>
          simp only at c1 c2 h0 ⊢
          rw [if_neg (by rw [h0 d rfl]; simp)]
          cases hq : (pdfOfPrior S.g S.chk S.dens S.roots qs v.st).2 with
          | none => simp [hq] at c2
          | some d' =>
            refine ih _ ?_
            rw [c1]
            exact (hpc d' hq).1

end Verif.Floats
