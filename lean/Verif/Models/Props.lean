import Verif.Models.Model
import Verif.Graph.Props
import Mathlib.MeasureTheory.Measure.Lebesgue.Basic
import Mathlib.MeasureTheory.Integral.Bochner.Set
import Mathlib.Data.Nat.Choose.Sum
import Mathlib.Tactic.FieldSimp
import Mathlib.Tactic.Ring
/-
Property theorems C12 - C16 and C72 - C74.
-/
namespace Verif.Models

variable {V : Type}

/-! ### C12 -/

mutual
/-- Specification of C12: the left-to-right flattening of a nested list. -/
def flat (dim : Nat → Nat) : Item V → List (Option (Slot V))
  | .num v => [some (.fixed v)]
  | .model id => (List.range (dim id)).map fun (i : Nat) => some (.comp id i)
  | .conn c => c
  | .list l => flatList dim l
  | .other => []
def flatList (dim : Nat → Nat) : List (Item V) → List (Option (Slot V))
  | [] => []
  | x :: l => flat dim x ++ flatList dim l
end

mutual
/-- Only numbers, models, connectors and lists occur, at any depth. -/
def Typed : Item V → Prop
  | .list l => TypedList l
  | .other => False
  | _ => True
def TypedList : List (Item V) → Prop
  | [] => True
  | x :: l => Typed x ∧ TypedList l
end

theorem fill_inner (p : Conn V) (c : Conn V) (pre post : Conn V) (hc : c = pre ++ post) (hp : p.length ≤ post.length) :
    p.foldl (fun (acc : Conn V × Nat) s => (acc.1.set acc.2 s, acc.2 + 1)) (c, pre.length) =
      (pre ++ p ++ post.drop p.length, pre.length + p.length) := by
  induction p generalizing c pre post with
  | nil => simp [hc]
  | cons s p ih =>
    obtain ⟨x, post, rfl⟩ : ∃ x q, post = x :: q := by
      cases post with
      | nil => simp at hp
      | cons x q => exact ⟨x, q, rfl⟩
    rw [List.foldl_cons]
    have := ih (c.set pre.length s) (pre ++ [s]) post (by subst hc; simp [List.set_append]) (by simpa using hp)
    simp only [List.length_append, List.length_cons, List.length_nil, Nat.zero_add] at this
    rw [this]
    simp
    omega

theorem fill_eq (parts : List (Conn V)) : fill parts = parts.flatten := by
  unfold fill
  have key : ∀ (parts : List (Conn V)) (pre post : Conn V), (parts.map List.length).sum = post.length →
      parts.foldl (fun (acc : Conn V × Nat) p =>
        p.foldl (fun (acc : Conn V × Nat) s => (acc.1.set acc.2 s, acc.2 + 1)) acc) (pre ++ post, pre.length) =
      (pre ++ parts.flatten, pre.length + post.length) := by
    intro parts
    induction parts with
    | nil =>
      intro pre post h
      have : post = [] := List.length_eq_zero_iff.1 (by simpa using h.symm)
      simp [this]
    | cons p parts ih =>
      intro pre post h
      simp only [List.map_cons, List.sum_cons] at h
      rw [List.foldl_cons, fill_inner p _ pre post rfl (by omega)]
      have := ih (pre ++ p) (post.drop p.length) (by simp; omega)
      rw [List.length_append] at this
      rw [this]
      simp
      omega
  have := key parts [] (List.replicate (parts.map List.length).sum none) (by simp)
  simp only [List.nil_append, List.length_nil] at this
  rw [this]

theorem fromModel_eq (dim : Nat → Nat) (id : Nat) :
    (fromModel dim id : Conn V) = (List.range (dim id)).map fun (i : Nat) => some (.comp id i) := by
  unfold fromModel
  have key : ∀ n m, n ≤ m → (List.range n).foldl (fun (c : Conn V) (i : Nat) => c.set i (some (.comp id i))) (List.replicate m none) =
      ((List.range n).map fun (i : Nat) => some (.comp id i)) ++ List.replicate (m - n) none := by
    intro n
    induction n with
    | zero => simp
    | succ n ih =>
      intro m hm
      rw [List.range_succ, List.foldl_append, ih m (by omega)]
      obtain ⟨d, hd⟩ : ∃ d, m - n = d + 1 := ⟨m - n - 1, by omega⟩
      have hd' : m - (n + 1) = d := by omega
      rw [hd, hd']
      simp [List.set_append, List.replicate_succ]
  rw [key _ _ le_rfl]
  simp

mutual
theorem fromItem_eq (dim : Nat → Nat) : (x : Item V) → (Typed x → fromItem dim x = some (flat dim x)) ∧
    (¬ Typed x → fromItem dim x = none)
  | .num v => by simp [fromItem, fromNumber, flat, Typed]
  | .model id => by simp [fromItem, fromModel_eq, flat, Typed]
  | .conn c => by simp [fromItem, flat, Typed]
  | .other => by simp [fromItem, Typed]
  | .list l => by
    obtain ⟨h1, h2⟩ := collect_eq dim l
    constructor
    · intro h
      rw [Typed] at h
      obtain ⟨cs, h3, h4⟩ := h1 h
      rw [fromItem, h3, Option.map_some, fill_eq, h4, flat]
    · intro h
      rw [Typed] at h
      rw [fromItem, h2 h, Option.map_none]
theorem collect_eq (dim : Nat → Nat) : (l : List (Item V)) →
    (TypedList l → ∃ cs, collect dim l = some cs ∧ cs.flatten = flatList dim l) ∧
    (¬ TypedList l → collect dim l = none)
  | [] => by simp [collect, flatList, TypedList]
  | x :: l => by
    obtain ⟨a1, a2⟩ := fromItem_eq dim x
    obtain ⟨b1, b2⟩ := collect_eq dim l
    constructor
    · intro h
      rw [TypedList] at h
      obtain ⟨cs, b3, b4⟩ := b1 h.2
      exact ⟨flat dim x :: cs, by rw [collect, a1 h.1, b3], by rw [List.flatten_cons, b4, flatList]⟩
    · intro h
      rw [TypedList] at h
      rw [collect]
      by_cases hx : Typed x
      · rw [a1 hx, b2 fun hl => h ⟨hx, hl⟩]
      · rw [a2 hx]
end

/-- C12. A nested list is accepted exactly when it contains only numbers, models, connectors and lists, and then the inputs are
its left-to-right flattening. -/
theorem C12_flatten (dim : Nat → Nat) (l : List (Item V)) :
    (TypedList l → fromList dim l = some (flatList dim l)) ∧ (¬ TypedList l → fromList dim l = none) := by
  obtain ⟨h1, h2⟩ := collect_eq dim l
  constructor
  · intro h
    obtain ⟨cs, h3, h4⟩ := h1 h
    rw [fromList, h3, Option.map_some, fill_eq, h4]
  · intro h
    rw [fromList, h2 h, Option.map_none]

/-- C12, the values read: if every model that occurs has stored an output of its dimension, `get_values` of a connector made of
whole models and numbers gives the stored outputs in order. Stated for one model or number; `C12_values_append` puts them
together. -/
theorem C12_values_model (dim : Nat → Nat) (stored : Nat → Option (List V)) (id : Nat) (out : List V)
    (hs : stored id = some out) (hd : out.length = dim id) :
    getValues stored (flat dim (.model id : Item V)) = some (out.map some) := by
  have key : ∀ (idx : List Nat), (∀ i ∈ idx, i < out.length) →
      getValues stored (idx.map fun (i : Nat) => some (Slot.comp id (i : Int))) = some (idx.map fun i => out[i]?) := by
    intro idx
    induction idx with
    | nil => intro _; rfl
    | cons i idx ih =>
      intro h
      have hi := h i (by simp)
      rw [List.map_cons, getValues, ih fun j hj => h j (by simp [hj])]
      simp [slotValue, hs, pyIndex, hi]
  rw [flat, key _ (by intro i hi; rw [hd]; exact List.mem_range.1 hi), ← hd]
  congr 1
  apply List.ext_getElem?
  intro i
  simp only [List.getElem?_map, List.getElem?_range']
  by_cases hi : i < out.length
  · simp [List.getElem?_range hi, hi]
  · simp [hi]

theorem C12_values_append (stored : Nat → Option (List V)) (a b : Conn V) (va vb : List (Option V))
    (ha : getValues stored a = some va) (hb : getValues stored b = some vb) :
    getValues stored (a ++ b) = some (va ++ vb) := by
  induction a generalizing va with
  | nil => simp only [getValues, Option.some.injEq] at ha; subst ha; simpa using hb
  | cons s a ih =>
    rw [getValues] at ha
    rw [List.cons_append, getValues]
    cases hv : slotValue stored s with
    | none => simp [hv] at ha
    | some v =>
      cases hg : getValues stored a with
      | none => simp [hv, hg] at ha
      | some vs =>
        simp only [hv, hg, Option.some.injEq] at ha
        subst ha
        simp [ih vs hg]

example : TypedList ([.list [.num 1, .model 0], .list [.list [.conn [some (.comp 0 1)]]]] : List (Item Int)) ∧
    getValues (fun _ => some [10, 20]) (flatList (fun _ => 2)
      ([.list [.num 1, .model 0], .list [.list [.conn [some (.comp 0 1)]]]] : List (Item Int))) =
      some [some 1, some 10, some 20, some 20] := by
  refine ⟨by simp [TypedList, Typed], ?_⟩
  simp [flatList, flat, List.range_succ, getValues, slotValue, pyIndex]

/-! ### C13 -/

/-- C13, for the indices a user should write: within the output dimension the selected value is the `i`-th component of
the stored output, at or above the output dimension the index is refused.
Missing: negative indices, which are not refused (below). -/
theorem C13_index_partial (dim : Nat → Nat) (id : Nat) (i : Int) (hi : 0 ≤ i) :
    (i < dim id → ∃ c : Conn V, getComponent dim id i = some c ∧
      ∀ (stored : Nat → Option (List V)) out, stored id = some out → out.length = dim id →
        getValues stored c = some [out[i.toNat]?] ∧ out[i.toNat]? ≠ none) ∧
    (dim id ≤ i → (getComponent dim id i : Option (Conn V)) = none) := by
  constructor
  · intro h
    refine ⟨[some (.comp id i)], by simp [getComponent]; omega, ?_⟩
    intro stored out hs hl
    have : i.toNat < out.length := by omega
    simp [getValues, slotValue, hs, pyIndex, hi, this]
  · intro h
    simp [getComponent, h]

/-- C13 fails for negative indices: none of them is refused; those down to minus the dimension select a component from the
end, and all others are only found out when the value is read. -/
theorem C13_negative_violated (dim : Nat → Nat) (id : Nat) (i : Int) (hi : i < 0) :
    ∃ c : Conn V, getComponent dim id i = some c ∧
      ∀ (stored : Nat → Option (List V)) out, stored id = some out → out.length = dim id →
        (-(dim id : Int) ≤ i → getValues stored c = some [out[(dim id + i).toNat]?] ∧ out[(dim id + i).toNat]? ≠ none) ∧
        (i < -(dim id : Int) → getValues stored c = none) := by
  refine ⟨[some (.comp id i)], by simp [getComponent]; omega, ?_⟩
  intro stored out hs hl
  constructor
  · intro h
    have h0 : ¬ 0 ≤ i := by omega
    have h1 : 0 ≤ i + out.length := by omega
    have h2 : (i + out.length).toNat < out.length := by omega
    have h3 : ((dim id : Int) + i).toNat = (i + out.length).toNat := by omega
    rw [h3]
    simp [getValues, slotValue, hs, pyIndex, h0, h1, h2]
  · intro h
    have h0 : ¬ 0 ≤ i := by omega
    have h1 : ¬ 0 ≤ i + out.length := by omega
    simp [getValues, slotValue, hs, pyIndex, h0, h1]

/-! ### C14 -/

/-- The sample lists of the operands: what one call of `forward_simulate` returned for each (the same list if both operands are
the same model), for `k` samples. -/
structure Drawn (k : Nat) (a b : Opd V) (draw : Nat → Key → Option (List (List V))) (xs ys : List V) : Prop where
  first : ∃ key, opdKeys (fun _ => 1) 0 a = [key] ∧ draw 0 key = some (xs.map fun x => [x])
  second : ∃ key, opdKeys (fun _ => 1) 1 b = [key] ∧
    (opdKeys (fun _ => 1) 0 a ≠ [key] → draw 1 key = some (ys.map fun y => [y])) ∧
    (opdKeys (fun _ => 1) 0 a = [key] → ys = xs)
  lenx : xs.length = k
  leny : ys.length = k

theorem opKeys_one (dim : Nat → Nat) (pos : Nat) (a : Opd V) (h : opdDim dim a = 1) :
    opdKeys dim pos a = opdKeys (fun _ => 1) pos a := by
  cases a with
  | num v => rfl
  | model id => simp only [opdDim] at h; simp [opdKeys, h]

theorem op_dict (k : Nat) (a b : Opd V) (draw : Nat → Key → Option (List (List V))) (xs ys : List V)
    (h : Drawn k a b draw xs ys) : ∃ ka kb dict, opdKeys (fun _ => 1) 0 a = [ka] ∧ opdKeys (fun _ => 1) 1 b = [kb] ∧
      sampleInputs draw [ka, kb] 0 [] = some dict ∧ dict.lookup ka = some (xs.map fun x => [x]) ∧
      dict.lookup kb = some (ys.map fun y => [y]) := by
  obtain ⟨ka, h1, h2⟩ := h.first
  obtain ⟨kb, h3, h4, h5⟩ := h.second
  by_cases hk : ka = kb
  · subst hk
    obtain rfl := h5 h1
    exact ⟨ka, ka, [(ka, ys.map fun y => [y])], h1, h3, by simp [sampleInputs, h2], by simp, by simp⟩
  · have h6 := h4 (by rw [h1]; simpa using hk)
    have hbk : (kb == ka) = false := by simpa using Ne.symm hk
    refine ⟨ka, kb, [(ka, xs.map fun x => [x]), (kb, ys.map fun y => [y])], h1, h3, ?_, by simp, ?_⟩
    · simp [sampleInputs, h2, h6, hk]
    · simp [List.lookup_cons, hbk]

theorem opSamples_eq (f : V → V → V) (op : BinOp) (dict : List (Key × List (List V))) (ka kb : Key) (xs ys : List V)
    (h1 : dict.lookup ka = some (xs.map fun x => [x])) (h2 : dict.lookup kb = some (ys.map fun y => [y]))
    (hxy : xs.length = ys.length) (res : V → V → V) (hres : ∀ x y, opSample f op [[x], [y]] = some [res x y]) :
    opSamples f op dict [ka, kb] (List.range xs.length) = some ((List.zipWith res xs ys).map fun z => [z]) := by
  have key : ∀ idx : List Nat, (∀ i ∈ idx, i < xs.length) → opSamples f op dict [ka, kb] idx =
      some (idx.filterMap fun i => match xs[i]?, ys[i]? with
        | some x, some y => some [res x y]
        | _, _ => none) := by
    intro idx
    induction idx with
    | nil => intro _; rfl
    | cons i idx ih =>
      intro h
      have hi := h i (by simp)
      have hi' : i < ys.length := by omega
      rw [opSamples, ih fun j hj => h j (by simp [hj])]
      simp [paramValues, h1, h2, hi, hi', hres]
  rw [key _ fun i hi => List.mem_range.1 hi]
  congr 1
  clear key h1 h2
  induction xs generalizing ys with
  | nil => simp
  | cons x xs ih =>
    cases ys with
    | nil => simp at hxy
    | cons y ys =>
      rw [List.length_cons, List.range_succ_eq_map, List.filterMap_cons]
      simp only [List.getElem?_cons_zero, List.filterMap_map, Function.comp_def, List.getElem?_cons_succ]
      rw [ih ys (by simpa using hxy)]
      rfl

/-- C14 for operands of dimension one and all operations except `number ** model`: the node can be built; sampled `k` times, its
`i`-th sample is the operation applied to the `i`-th samples of the operands; and stored, it holds the operation
applied to the values its operands were just sampled at.
Missing: the values used are new draws, not the stored values of the operands; dimension two and more; `k ** X`. -/
theorem C14_operations_partial (f : V → V → V) (op : BinOp) (hop : op ≠ .rpow) (dim : Nat → Nat) (a b : Opd V)
    (ha : opdDim dim a = 1) (hb : opdDim dim b = 1) (draw : Nat → Key → Option (List (List V))) (k : Nat) (xs ys : List V)
    (hd : Drawn k a b draw xs ys) :
    ∃ keys, opNode dim op a b = some keys ∧
      opForward f op keys k draw = some ((List.zipWith f xs ys).map fun z => ⟨1, [z]⟩) ∧
      ∀ prev x y, k = 1 → xs = [x] → ys = [y] → opStore f op keys draw prev = (some ⟨1, [f x y]⟩, .ret true) := by
  obtain ⟨ka, kb, dict, h1, h2, h3, h4, h5⟩ := op_dict k a b draw xs ys hd
  have hkeys : opNode dim op a b = some [ka, kb] := by
    simp [opNode, ha, hb, opKeys_one dim 0 a ha, opKeys_one dim 1 b hb, h1, h2]
  have hres : ∀ x y, opSample f op [[x], [y]] = some [f x y] := by
    intro x y
    cases op <;> first | rfl | exact absurd rfl hop
  have hs := opSamples_eq f op dict ka kb xs ys h4 h5 (by rw [hd.lenx, hd.leny]) f hres
  rw [hd.lenx] at hs
  have hf : opForward f op [ka, kb] k draw = some ((List.zipWith f xs ys).map fun z => ⟨1, [z]⟩) := by
    unfold opForward
    rw [h3]
    simp only [hs]
    cases op <;> first | exact absurd rfl hop | simp
  refine ⟨[ka, kb], hkeys, hf, ?_⟩
  rintro prev x y rfl rfl rfl
  unfold opStore
  rw [hf]
  simp [forwardStore, setOutput]

example : Drawn 2 (.model 7) (.num (5 : Int)) (fun n _ => if n = 0 then some [[1], [2]] else some [[5], [5]]) [1, 2] [5, 5] := by
  refine ⟨⟨.model 7, rfl, rfl⟩, ⟨.hyper 1, rfl, fun _ => rfl, fun h => by simp [opdKeys] at h⟩, rfl, rfl⟩

/-- C14 fails: an arithmetic node samples its operands anew. Here model 0 holds 1, model 1 holds 2, and after drawing
`X + Y` it holds 30. -/
theorem C14_fresh_violated : ∃ (stored : Nat → ℚ) (draw : Nat → Key → Option (List (List ℚ))) (keys : List Key),
    opNode (fun _ => 1) .add (.model 0) (.model 1 : Opd ℚ) = some keys ∧ Drawn 1 (.model 0) (.model 1) draw [10] [20] ∧
    opStore (· + ·) .add keys draw none = (some ⟨1, [10 + 20]⟩, .ret true) ∧ (10 : ℚ) + 20 ≠ stored 0 + stored 1 := by
  have hd : Drawn 1 (.model 0) (.model 1) (fun n _ => if n = 0 then some [[(10 : ℚ)]] else some [[20]]) [10] [20] :=
    ⟨⟨.model 0, rfl, rfl⟩, ⟨.model 1, rfl, fun _ => rfl, fun h => by simp [opdKeys] at h⟩, rfl, rfl⟩
  obtain ⟨keys, h1, -, h3⟩ := C14_operations_partial (· + ·) .add (by simp) (fun _ => 1) (.model 0) (.model 1) rfl rfl _ 1 _ _ hd
  exact ⟨fun i => if i = 0 then 1 else 2, _, keys, h1, hd, h3 none 10 20 rfl rfl rfl, by norm_num⟩

/-- C14 fails in every dimension `d ≥ 2`: the node `X op Y` (sum, difference, product, quotient) is built, computes `X op X`, and can
never store a value: `set_output_values` raises. -/
theorem C14_dimension_violated (f : V → V → V) (op : BinOp) (hop : op ≠ .rpow ∧ op ≠ .pow) (dim : Nat → Nat) (i j : Nat)
    (hij : dim i = dim j) (hd : 2 ≤ dim i) (draw : Nat → Key → Option (List (List V))) (x y : List V)
    (hx : draw 0 (.model i) = some [x]) (hy : draw 1 (.model j) = some [y]) (hxl : x.length = dim i) (prev : Option (Arr V)) :
    ∃ keys, opNode dim op (.model i : Opd V) (.model j) = some keys ∧
      opForward f op keys 1 draw = some [⟨dim i, x.map fun a => f a a⟩] ∧
      opStore f op keys draw prev = (prev, .raised) := by
  obtain ⟨d, hd2⟩ : ∃ d, dim i = d + 2 := ⟨dim i - 2, by omega⟩
  have hrep : ∀ (m : Nat) (dict : List (Key × List (List V))) (key : Key) (rest : List Key) (n : Nat) (a : List (List V)),
      (key, a) ∈ dict → sampleInputs draw (List.replicate m key ++ rest) n dict = sampleInputs draw rest n dict := by
    intro m
    induction m with
    | zero => intros; rfl
    | succ m ih =>
      intro dict key rest n a h
      rw [List.replicate_succ, List.cons_append, sampleInputs]
      have : dict.any (fun e => decide (e.1 = key)) = true := by
        rw [List.any_eq_true]; exact ⟨_, h, by simp⟩
      rw [if_pos this]
      exact ih dict key rest n a h
  have hdict : ∃ dict, sampleInputs draw (List.replicate (d + 2) (Key.model i) ++ List.replicate (d + 2) (.model j)) 0 [] = some dict ∧
      dict.lookup (.model i) = some [x] ∧ ∃ z, dict.lookup (.model j) = some [z] := by
    rw [List.replicate_succ, List.cons_append, sampleInputs]
    simp only [List.any_nil, Bool.false_eq_true, if_false, hx, List.nil_append]
    rw [hrep (d + 1) _ _ _ _ [x] (by simp), List.replicate_succ, sampleInputs]
    by_cases hk : i = j
    · subst hk
      simp only [List.any_cons, List.any_nil, decide_true, Bool.true_or, if_true]
      have := hrep (d + 1) [(Key.model i, [x])] (.model i) [] 1 [x] (by simp)
      rw [List.append_nil] at this
      refine ⟨_, by rw [this]; rfl, by simp, x, by simp⟩
    · have hne : ¬ (Key.model i = Key.model j) := by simpa using hk
      simp only [List.any_cons, List.any_nil, hne, decide_false, Bool.or_false, Bool.false_eq_true, if_false, Nat.zero_add, hy]
      have := hrep (d + 1) ([(Key.model i, [x])] ++ [(.model j, [y])]) (.model j) [] (1 + 1) [y] (by simp)
      rw [List.append_nil] at this
      have hjk : (Key.model j == Key.model i) = false := by simpa using Ne.symm hk
      refine ⟨_, by rw [this]; rfl, by simp, y, by simp [List.lookup_cons, hjk]⟩
  obtain ⟨dict, hs, hl, z, hz⟩ := hdict
  have hkeys : opNode dim op (.model i : Opd V) (.model j) =
      some (List.replicate (d + 2) (Key.model i) ++ List.replicate (d + 2) (.model j)) := by
    simp [opNode, opdDim, opdKeys, ← hij, hd2, hop.1, hop.2]
  have hpj : ∀ m, paramValues dict (List.replicate m (.model j)) 0 = some (List.replicate m z) := by
    intro m
    induction m with
    | zero => rfl
    | succ m ih =>
      rw [List.replicate_succ, List.replicate_succ]
      unfold paramValues at ih ⊢
      rw [List.foldr_cons, ih]
      simp [hz]
  have hpv : ∀ m, paramValues dict (List.replicate m (.model i) ++ List.replicate (d + 2) (.model j)) 0 =
      some (List.replicate m x ++ List.replicate (d + 2) z) := by
    intro m
    induction m with
    | zero => exact hpj (d + 2)
    | succ m ih =>
      rw [List.replicate_succ (a := Key.model i), List.replicate_succ (a := x), List.cons_append, List.cons_append]
      unfold paramValues at ih ⊢
      rw [List.foldr_cons, ih]
      simp [hl]
  have hself : npBin f x x = some (x.map fun a => f a a) := by
    unfold npBin
    rw [if_pos rfl]
    congr 1
    clear hx hxl hl hpv hs
    induction x with
    | nil => rfl
    | cons a x ih => simp [ih]
  have hfw : opForward f op (List.replicate (d + 2) (Key.model i) ++ List.replicate (d + 2) (.model j)) 1 draw =
      some [⟨dim i, x.map fun a => f a a⟩] := by
    unfold opForward
    rw [hs]
    have hsmp : opSamples f op dict (List.replicate (d + 2) (Key.model i) ++ List.replicate (d + 2) (.model j)) (List.range 1) =
        some [x.map fun a => f a a] := by
      rw [show List.range 1 = [0] by rfl, opSamples, hpv]
      have : opSample f op (List.replicate (d + 2) x ++ List.replicate (d + 2) z) = some (x.map fun a => f a a) := by
        cases op <;> first | exact absurd rfl hop.1 | exact absurd rfl hop.2 | simp [opSample, List.replicate_succ, hself]
      simp [this, opSamples]
    simp only [hsmp]
    cases op <;> first | exact absurd rfl hop.1 | exact absurd rfl hop.2 | simp [hxl]
  refine ⟨_, hkeys, hfw, ?_⟩
  unfold opStore
  rw [hfw]
  simp only [forwardStore, setOutput, if_true]
  rw [if_pos (by omega)]

/-- C14 fails for `number ** model`: the node holds `number ** number`, whatever the model's value. -/
theorem C14_rpow_violated (f : V → V → V) (dim : Nat → Nat) (c : V) (id : Nat) (hb : dim id = 1)
    (draw : Nat → Key → Option (List (List V))) (y : V) (hd : Drawn 1 (.num c) (.model id) draw [c] [y]) (prev : Option (Arr V)) :
    ∃ keys, opNode dim .rpow (.num c) (.model id) = some keys ∧
      opStore f .rpow keys draw prev = (some ⟨1, [f c c]⟩, .ret true) := by
  obtain ⟨ka, kb, dict, h1, h2, h3, h4, h5⟩ := op_dict 1 _ _ draw [c] [y] hd
  have hkeys : opNode dim .rpow (.num c) (.model id) = some [ka, kb] := by
    have hb' : opdDim dim (.model id : Opd V) = 1 := hb
    have ha' : opdDim dim (.num c : Opd V) = 1 := rfl
    simp [opNode, ha', hb', opKeys_one dim 0 _ ha', opKeys_one dim 1 _ hb', h1, h2]
  have hs := opSamples_eq f .rpow dict ka kb [c] [y] h4 h5 rfl (fun x _ => f x x) (fun x y => rfl)
  have hf : opForward f .rpow [ka, kb] 1 draw = some [⟨1, [f c c]⟩] := by
    unfold opForward
    rw [h3]
    simp only [List.length_cons, List.length_nil, Nat.zero_add] at hs
    simp only [hs]
    simp
  refine ⟨_, hkeys, ?_⟩
  unfold opStore
  rw [hf]
  simp [forwardStore, setOutput]

/-! ### C15 -/

/-- C15 when the drawn value has the right shape and passes the node's own output check (as it does for the built-in
distributions, see `C15_uniform`): success is reported exactly if the inputs are valid and a value was drawn, and then the drawn
value is stored and passes the check; otherwise nothing changes.
Missing: values that fail the check, for which success is reported although nothing was stored (below). -/
theorem C15_store_partial {A : Type} (dim : Nat) (chkOut : A → Bool) (shape0 : A → Nat) (inputOk : Bool) (drawn prev : Option A)
    (h : ∀ x, drawn = some x → shape0 x = dim ∧ chkOut x = true) :
    ((forwardStore dim chkOut shape0 inputOk drawn prev).2 = .ret true →
      ∃ x, drawn = some x ∧ inputOk = true ∧ (forwardStore dim chkOut shape0 inputOk drawn prev).1 = some x ∧ chkOut x = true) ∧
    ((forwardStore dim chkOut shape0 inputOk drawn prev).2 ≠ .ret true →
      (forwardStore dim chkOut shape0 inputOk drawn prev).1 = prev ∧ (inputOk = false ∨ drawn = none)) := by
  cases drawn with
  | none => cases inputOk <;> simp [forwardStore]
  | some x =>
    obtain ⟨h1, h2⟩ := h x rfl
    cases inputOk <;> simp [forwardStore, setOutput, h1, h2]

/-- C15 fails: a drawn value that fails the node's output check is dropped, the old value stays and success is reported. -/
theorem C15_store_violated {A : Type} (dim : Nat) (chkOut : A → Bool) (shape0 : A → Nat) (x : A) (prev : Option A)
    (hs : shape0 x = dim) (hx : chkOut x = false) :
    forwardStore dim chkOut shape0 true (some x) prev = (prev, .ret true) := by
  simp [forwardStore, setOutput, hs, hx]

/-- C15, whatever is drawn: after any sequence of draws (each with its verdict on the inputs) the stored value passes the node's output check and has the right shape, if the one stored
at the beginning does. A refused value is never stored. -/
theorem C15_support {A : Type} (dim : Nat) (chkOut : A → Bool) (shape0 : A → Nat) (draws : List (Bool × Option A)) (first : Option A)
    (h : ∀ x, first = some x → shape0 x = dim ∧ chkOut x = true) (x : A)
    (hx : draws.foldl (fun prev d => (forwardStore dim chkOut shape0 d.1 d.2 prev).1) first = some x) : shape0 x = dim ∧ chkOut x = true := by
  induction draws generalizing first with
  | nil => exact h x hx
  | cons d draws ih =>
    refine ih _ (fun y hy => ?_) hx
    obtain ⟨b, d⟩ := d
    simp only [forwardStore] at hy
    cases d with
    | none => cases b <;> simp at hy <;> exact h y hy
    | some z =>
      cases b
      · simp at hy; exact h y hy
      · simp only [setOutput] at hy
        by_cases h1 : shape0 z = dim
        · by_cases h2 : chkOut z = true
          · simp only [h1, h2] at hy
            simp at hy
            subst hy
            exact ⟨h1, h2⟩
          · simp [h1, h2] at hy
            exact h y hy
        · simp [h1] at hy
          exact h y hy

example : ([(true, some 3), (true, some 7), (false, some 4), (true, none)] : List (Bool × Option Nat)).foldl
    (fun prev d => (forwardStore 1 (fun x => decide (x < 5)) (fun _ => 1) d.1 d.2 prev).1) none = some 3 := by decide

theorem uniform_check_iff (lo hi x : List ℝ) (h1 : lo.length = x.length) (h2 : hi.length = x.length) :
    uniformCheckOutput lo hi x = true ↔ ∀ i (h : i < x.length), lo[i] ≤ x[i] ∧ x[i] ≤ hi[i] := by
  unfold uniformCheckOutput
  rw [List.all_eq_true]
  constructor
  · intro h i hi'
    have := h ((lo[i], hi[i]), x[i]) (by
      rw [List.mem_iff_getElem]
      exact ⟨i, by simp; omega, by simp⟩)
    simp only [Bool.not_eq_eq_eq_not, Bool.not_true, decide_eq_false_iff_not, not_or, not_lt, gt_iff_lt] at this
    exact this
  · rintro h ⟨⟨l, u⟩, y⟩ hm
    rw [List.mem_iff_getElem] at hm
    obtain ⟨i, hi', he⟩ := hm
    simp only [List.length_zip] at hi'
    simp only [List.getElem_zip, Prod.mk.injEq] at he
    have := h i (by omega)
    obtain ⟨⟨rfl, rfl⟩, rfl⟩ := he
    simp only [Bool.not_eq_eq_eq_not, Bool.not_true, decide_eq_false_iff_not, not_or, not_lt, gt_iff_lt]
    exact this

/-- C15 for `Uniform`: a draw between the bounds (which is what `rng.uniform` returns) is always stored. -/
theorem C15_uniform (lo hi x : List ℝ) (h1 : lo.length = x.length) (h2 : hi.length = x.length) (prev : Option (List ℝ))
    (hx : ∀ i (h : i < x.length), lo[i] ≤ x[i] ∧ x[i] ≤ hi[i]) :
    forwardStore x.length (uniformCheckOutput lo hi) List.length true (some x) prev = (some x, .ret true) := by
  simp [forwardStore, setOutput, (uniform_check_iff lo hi x h1 h2).2 hx]

/-! ### C16 -/

theorem mem_duRange (lo hi x : Int) : x ∈ duRange lo hi ↔ lo ≤ x ∧ x ≤ hi := by
  simp only [duRange, List.mem_map, List.mem_range]
  constructor
  · rintro ⟨i, hi', rfl⟩; omega
  · rintro ⟨h1, h2⟩; exact ⟨(x - lo).toNat, by omega, by omega⟩

/-- C16 for `DiscreteUniform(lo, hi)` with accepted parameters: the mass function is non-negative, vanishes exactly outside the
values that the sampler can return, and sums to one over them (each value is listed once). -/
theorem C16_discrete_uniform (lo hi : Int) (h : duCheckInput lo hi = true) :
    (∀ x, 0 ≤ duPmf lo hi x) ∧ (∀ x, x ∈ duRange lo hi ↔ duPmf lo hi x ≠ 0) ∧ (duRange lo hi).Nodup ∧
    ((duRange lo hi).map (duPmf lo hi)).sum = 1 := by
  have hlt : lo < hi := by simpa [duCheckInput] using h
  have hpos : (0 : ℝ) < (hi : ℝ) - lo + 1 := by
    have : (lo : ℝ) < hi := by exact_mod_cast hlt
    linarith
  refine ⟨?_, ?_, ?_, ?_⟩
  · intro x
    unfold duPmf
    split
    · positivity
    · exact le_rfl
  · intro x
    rw [mem_duRange]
    unfold duPmf
    split
    · rename_i hx
      simp only [ne_eq, one_div, inv_eq_zero, hpos.ne', not_false_eq_true, iff_true]
      exact hx
    · rename_i hx
      simp only [ne_eq, not_true_eq_false, iff_false]
      exact hx
  · unfold duRange
    exact List.nodup_range.map fun a b hab => by simpa using hab
  · have : ∀ x ∈ duRange lo hi, duPmf lo hi x = 1 / ((hi : ℝ) - lo + 1) := by
      intro x hx
      rw [mem_duRange] at hx
      unfold duPmf
      rw [if_pos hx]
    rw [List.map_congr_left this, List.map_const', List.sum_replicate]
    simp only [duRange, List.length_map, List.length_range, nsmul_eq_mul]
    have hc : (((hi + 1 - lo).toNat : ℕ) : ℝ) = (hi : ℝ) - lo + 1 := by
      have : (((hi + 1 - lo).toNat : ℕ) : ℤ) = hi + 1 - lo := Int.toNat_of_nonneg (by omega)
      have := congrArg (fun z : ℤ => (z : ℝ)) this
      push_cast at this
      rw [this]; ring
    rw [hc]
    field_simp

example : duCheckInput (-2) 5 = true := by decide

/-- C16 for `Bernoulli(p)`, `0 ≤ p ≤ 1` (the mass function is scipy's, taken on trust). -/
theorem C16_bernoulli (p : ℝ) (h0 : 0 ≤ p) (h1 : p ≤ 1) :
    (∀ x, 0 ≤ bernoulliPmf p x) ∧ (∀ x, x ≠ 0 → x ≠ 1 → bernoulliPmf p x = 0) ∧
    bernoulliPmf p 0 + bernoulliPmf p 1 = 1 := by
  refine ⟨?_, ?_, ?_⟩
  · intro x
    unfold bernoulliPmf
    split
    · exact h0
    · split
      · linarith
      · exact le_rfl
  · intro x hx0 hx1
    simp [bernoulliPmf, hx0, hx1]
  · simp [bernoulliPmf]

/-- C16 for `Binomial(n, p)`, `0 ≤ p ≤ 1`: on the values `0 .. n` the mass function is defined, non-negative and sums to one; it
is zero above `n`, and zero below 0 unless `p = 0`.
Missing: negative points for `p = 0`, where the code divides by zero (below). -/
theorem C16_binomial_partial (n : Nat) (p : ℝ) (h0 : 0 ≤ p) (h1 : p ≤ 1) :
    (∃ q : Nat → ℝ, (∀ i ≤ n, binomialPmf n p i = some (q i) ∧ 0 ≤ q i) ∧ ((List.range (n + 1)).map q).sum = 1) ∧
    (∀ x : Int, (n : Int) < x → binomialPmf n p x = some 0) ∧
    (∀ x : Int, x < 0 → p ≠ 0 → binomialPmf n p x = some 0) := by
  refine ⟨⟨fun i => n.choose i * p ^ i * (1 - p) ^ (n - i), ?_, ?_⟩, ?_, ?_⟩
  · intro i hi
    have e : ((n : Int) - i) = ((n - i : Nat) : Int) := by omega
    constructor
    · unfold binomialPmf pyPow
      rw [if_neg (by omega), if_neg (by omega), if_neg (by omega), e]
      simp only [comb, Int.natCast_nonneg, if_true, Int.toNat_natCast, zpow_natCast]
    · have : 0 ≤ 1 - p := by linarith
      positivity
  · have := add_pow p (1 - p) n
    rw [show p + (1 - p) = 1 by ring, one_pow] at this
    refine Eq.trans ?_ this.symm
    rw [← List.sum_toFinset _ List.nodup_range, List.toFinset_range]
    apply Finset.sum_congr rfl
    intro i _
    ring
  · intro x hx
    simp [binomialPmf, hx]
  · intro x hx hp
    unfold binomialPmf pyPow
    rw [if_neg (by omega), if_neg (by simp [hp]), if_neg (by omega)]
    have : ¬ 0 ≤ x := by omega
    simp [comb, this]

/-- C16 fails for `Binomial(n, 0)` at negative points: an exception instead of zero. -/
theorem C16_binomial_violated (n : Nat) (x : Int) (hx : x < 0) : binomialPmf n 0 x = none := by
  unfold binomialPmf pyPow
  rw [if_neg (by omega), if_pos ⟨rfl, hx⟩]

/-! ### C73 -/

theorem uniformPdf_prod (lo hi x : List ℝ) (h1 : lo.length = x.length) (h2 : hi.length = x.length) :
    (((List.zip x lo).map fun e => if e.1 ≥ e.2 then (1 : ℝ) else 0).zipWith (· * ·)
      ((List.zip x hi).map fun e => if e.1 ≤ e.2 then (1 : ℝ) else 0)).prod =
    if ∀ i (h : i < x.length), lo[i] ≤ x[i] ∧ x[i] ≤ hi[i] then 1 else 0 := by
  induction x generalizing lo hi with
  | nil => simp
  | cons y x ih =>
    cases lo with
    | nil => simp at h1
    | cons l lo =>
      cases hi with
      | nil => simp at h2
      | cons u hi =>
        simp only [List.length_cons, Nat.add_right_cancel_iff] at h1 h2
        simp only [List.zip_cons_cons, List.map_cons, List.zipWith_cons_cons, List.prod_cons, ih lo hi h1 h2]
        have hsplit : (∀ i (h : i < (y :: x).length), (l :: lo)[i]'(by simp at h ⊢; omega) ≤ (y :: x)[i] ∧
            (y :: x)[i] ≤ (u :: hi)[i]'(by simp at h ⊢; omega)) ↔
            (l ≤ y ∧ y ≤ u) ∧ ∀ i (h : i < x.length), lo[i] ≤ x[i] ∧ x[i] ≤ hi[i] := by
          constructor
          · intro h
            refine ⟨h 0 (by simp), fun i hi' => ?_⟩
            have := h (i + 1) (by simpa using hi')
            simpa using this
          · rintro ⟨h0, h⟩ i hi'
            cases i with
            | zero => exact h0
            | succ i => simpa using h i (by simpa using hi')
        rw [if_congr hsplit rfl rfl]
        by_cases a : l ≤ y <;> by_cases b : y ≤ u <;> simp [a, b]

/-- C73, first part. Inside the bounds the density of `Uniform` is one over the volume, which is positive if the bounds are
not equal; outside it is zero. So a value has positive density exactly if `set_output_values` accepts it. -/
theorem C73_uniform_support (lo hi x : List ℝ) (h1 : lo.length = x.length) (h2 : hi.length = x.length)
    (hlt : ∀ i (h : i < x.length), lo[i] < hi[i]) : uniformCheckOutput lo hi x = true ↔ 0 < uniformPdf lo hi x := by
  rw [uniform_check_iff lo hi x h1 h2]
  unfold uniformPdf
  rw [uniformPdf_prod lo hi x h1 h2]
  have hvol : ∀ (lo hi x : List ℝ) (h1 : lo.length = x.length) (h2 : hi.length = x.length)
      (_ : ∀ i (h : i < x.length), lo[i] < hi[i]), 0 < (List.zipWith (· - ·) hi lo).prod := by
    intro lo hi x h1 h2 hlt
    apply List.prod_pos
    intro a ha
    rw [List.mem_iff_getElem] at ha
    obtain ⟨i, hi', rfl⟩ := ha
    simp only [List.length_zipWith] at hi'
    have := hlt i (by omega)
    simp only [List.getElem_zipWith]
    linarith
  by_cases h : ∀ i (h : i < x.length), lo[i] ≤ x[i] ∧ x[i] ≤ hi[i]
  · simp only [if_pos h, ne_eq, one_ne_zero, not_false_eq_true, if_true]
    exact iff_of_true h (one_div_pos.2 (hvol lo hi x h1 h2 hlt))
  · simp only [if_neg h, ne_eq, not_true_eq_false, if_false, lt_irrefl, iff_false]
    exact h

open MeasureTheory in
/-- C73, second part. The density of `Uniform` in any dimension integrates to one. -/
theorem C73_uniform_normalised (d : Nat) (lo hi : Fin d → ℝ) (hlt : ∀ i, lo i < hi i) :
    ∫ x : Fin d → ℝ, uniformPdf (List.ofFn lo) (List.ofFn hi) (List.ofFn x) = 1 := by
  have hpdf : ∀ x : Fin d → ℝ, uniformPdf (List.ofFn lo) (List.ofFn hi) (List.ofFn x) =
      (Set.Icc lo hi).indicator (fun _ => 1 / ∏ i, (hi i - lo i)) x := by
    intro x
    unfold uniformPdf
    rw [uniformPdf_prod _ _ _ (by simp) (by simp)]
    have hz : (List.zipWith (· - ·) (List.ofFn hi) (List.ofFn lo)).prod = ∏ i, (hi i - lo i) := by
      have : List.zipWith (· - ·) (List.ofFn hi) (List.ofFn lo) = List.ofFn fun i => hi i - lo i := by
        apply List.ext_getElem
        · simp
        · intro n h1 h2; simp
      rw [this, List.prod_ofFn]
    have hiff : (∀ i (h : i < (List.ofFn x).length), (List.ofFn lo)[i]'(by simpa using h) ≤ (List.ofFn x)[i] ∧
        (List.ofFn x)[i] ≤ (List.ofFn hi)[i]'(by simpa using h)) ↔ x ∈ Set.Icc lo hi := by
      rw [Set.mem_Icc, Pi.le_def, Pi.le_def]
      constructor
      · intro h
        refine ⟨fun i => ?_, fun i => ?_⟩
        · have := (h i (by simp)).1; simpa using this
        · have := (h i (by simp)).2; simpa using this
      · rintro ⟨h1, h2⟩ i hi'
        simp only [List.length_ofFn] at hi'
        simp only [List.getElem_ofFn]
        exact ⟨h1 ⟨i, hi'⟩, h2 ⟨i, hi'⟩⟩
    classical
    rw [hz, Set.indicator_apply]
    by_cases hx : x ∈ Set.Icc lo hi
    · rw [if_pos (hiff.2 hx), if_pos hx]; simp
    · rw [if_neg (fun h => hx (hiff.1 h)), if_neg hx]; simp
  simp only [hpdf]
  rw [integral_indicator measurableSet_Icc, setIntegral_const, Measure.real, Real.volume_Icc_pi_toReal (fun i => (hlt i).le)]
  have : (∏ i, (hi i - lo i)) ≠ 0 := (Finset.prod_pos fun i _ => sub_pos.2 (hlt i)).ne'
  rw [smul_eq_mul]
  field_simp

example : ∃ lo hi : Fin 2 → ℝ, ∀ i, lo i < hi i := ⟨fun _ => 0, fun _ => 1, fun _ => by norm_num⟩

/-! ### C74 -/

/-- C74, the value: evaluated once, the prior density is the product of the densities at the distances from the means; evaluated again with the same list it is the product at other points,
because the list has changed. -/
theorem C74_student_density_partial (t : ℚ → ℚ → ℚ) (ms : List (ℚ × ℚ)) (xs : List ℚ) (h : ms.length = xs.length) :
    (studentPrior t ms xs).2 = (List.zipWith (fun m x => t m.2 (x - m.1)) ms xs).prod ∧
    (studentPrior t ms (studentPrior t ms xs).1).2 = (List.zipWith (fun m x => t m.2 (x - m.1 - m.1)) ms xs).prod := by
  induction ms generalizing xs with
  | nil => simp [studentPrior]
  | cons m ms ih => cases xs with
    | nil => simp at h
    | cons x xs =>
      obtain ⟨h1, h2⟩ := ih xs (by simpa using h)
      simp only [studentPrior, studentPdf, List.zipWith_cons_cons, List.prod_cons, h1, h2, and_self]

/-- C74 fails with Student-t priors: evaluating the prior density of a parameter vector subtracts the means from it in place. -/
theorem C74_student_violated (t : ℚ → ℚ → ℚ) (ms : List (ℚ × ℚ)) (xs : List ℚ) (h : ms.length = xs.length) :
    (studentPrior t ms xs).1 = List.zipWith (fun m x => x - m.1) ms xs ∧
    ((∃ m ∈ ms, m.1 ≠ 0) → (studentPrior t ms xs).1 ≠ xs) := by
  have h1 : (studentPrior t ms xs).1 = List.zipWith (fun m x => x - m.1) ms xs := by
    induction ms generalizing xs with
    | nil => cases xs with
      | nil => rfl
      | cons x xs => simp at h
    | cons m ms ih => cases xs with
      | nil => simp at h
      | cons x xs =>
        simp only [studentPrior, studentPdf, List.zipWith_cons_cons]
        rw [ih xs (by simpa using h)]
  refine ⟨h1, ?_⟩
  rintro ⟨m, hm, hm0⟩ heq
  rw [h1] at heq
  obtain ⟨i, hi, rfl⟩ := List.mem_iff_getElem.1 hm
  have hi' : i < xs.length := by omega
  have := congrArg (fun l : List ℚ => l[i]?) heq
  simp only [List.getElem?_zipWith, List.getElem?_eq_getElem hi, List.getElem?_eq_getElem hi', Option.some.injEq] at this
  apply hm0
  linarith

example : (studentPrior (fun _ y => y) [(3, 1), (0, 1)] [10, 20]).1 = [7, 20] := by norm_num [studentPrior, studentPdf]

end Verif.Models
