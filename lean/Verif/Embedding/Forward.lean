import Verif.Embedding.Props
import Mathlib.Algebra.Order.Floor.Semifield

/-!
# C153: what the statistics computed by a default network are
-/

namespace Verif.Embedding.Props

open Verif.Distance (Stats Row)
open Verif.Statistics Verif.Embedding

/-! ## Specification -/

/-- A linear layer: the rows of its matrix, and its bias. -/
structure Layer where
  weight : List Row
  bias : Row

/-- A linear layer on one vector. -/
noncomputable def affine (L : Layer) (x : Row) : Row := List.zipWith (· + ·) (L.weight.map fun r => (List.zipWith (· * ·) x r).sum) L.bias

/-- A feed-forward network on one vector: linear layers with a nonlinearity between any two of them. -/
noncomputable def mlp (act : ℝ → ℝ) : List Layer → Row → Row
  | [], x => x
  | [L], x => affine L x
  | L :: L' :: Ls, x => mlp act (L' :: Ls) ((affine L x).map act)

/-- The names of the layers of a network with the given hidden layers, from the input to the output. -/
def layerNames : List Nat → List Name
  | [] => [[.attr "fc_in"]]
  | _ :: hs => [.attr "fc_in"] :: ((List.range hs.length).map fun i => [.attr "fc_hidden", .index i]) ++ [[.attr "fc_out"]]

/-- The dictionary holds the layer under the name, with `m` inputs and `n` outputs. -/
structure Holds (d : Dict) (name : Name) (m n : Nat) (L : Layer) : Prop where
  weight : d.get (name ++ [.attr "weight"]) = some (.matrix m L.weight)
  bias : d.get (name ++ [.attr "bias"]) = some (.vector L.bias)
  rows : L.weight.length = n
  length : L.bias.length = n

/-- `layers` are the layers of the dictionary under the given names; each takes as many numbers as the one before it gives. -/
inductive Chain (d : Dict) : List Name → Nat → List Nat → List Layer → Prop
  | nil (m : Nat) : Chain d [] m [] []
  | cons {name : Name} {names : List Name} {m n : Nat} {sizes : List Nat} {L : Layer} {layers : List Layer} :
      Holds d name m n L → Chain d names n sizes layers → Chain d (name :: names) m (n :: sizes) (L :: layers)

/-! ## Proof -/

theorem declared_get {c : Class} (hp : Proper c) {d : Dict} (h : Declared c d) {k : Name} {sh : List Nat} (he : (k, sh) ∈ c.entries) :
    ∃ t, d.get k = some t ∧ t.shape = sh := by
  rw [← h] at he
  obtain ⟨e, hm, heq⟩ := List.mem_map.1 he
  have hn : (d.map Prod.fst).Nodup := by rw [declared_names h]; exact hp.2
  obtain ⟨rfl, rfl⟩ := Prod.mk.inj heq
  exact ⟨e.2, get_eq hn hm, rfl⟩

theorem holds_of {c : Class} (hp : Proper c) {d : Dict} (h : Declared c d) {name : Name} {m n : Nat} (he : ∀ e ∈ layerEntries name m n, e ∈ c.entries) :
    ∃ L, Holds d name m n L := by
  obtain ⟨t, h1, h2⟩ := declared_get hp h (he (name ++ [.attr "weight"], [n, m]) (by simp [layerEntries]))
  obtain ⟨u, h3, h4⟩ := declared_get hp h (he (name ++ [.attr "bias"], [n]) (by simp [layerEntries]))
  cases t with
  | vector v => simp [Tensor.shape] at h2
  | matrix w rows =>
    cases u with
    | matrix w' rows' => simp [Tensor.shape] at h4
    | vector v =>
      simp only [Tensor.shape, List.cons.injEq, and_true] at h2 h4
      obtain ⟨h2, rfl⟩ := h2
      exact ⟨⟨rows, v⟩, h1, h3, h2, h4⟩

theorem linear_eq {d : Dict} {name : Name} {m n : Nat} {L : Layer} (h : Holds d name m n L) (s : Stats) (hs : s.width = m) :
    linear d name s = some ⟨n, s.rows.map (affine L)⟩ := by
  unfold linear
  rw [h.weight, h.bias]
  simp only
  rw [if_neg (by simpa using hs), h.rows]
  rfl

theorem hidden_chain {c : Class} (hp : Proper c) {d : Dict} (h : Declared c d) (hs : List Nat) : ∀ (k m : Nat), (∀ e ∈ hiddenEntries k m hs, e ∈ c.entries) →
    ∃ Ls, Chain d ((List.range' k hs.length).map fun i => [.attr "fc_hidden", .index i]) m hs Ls := by
  induction hs with
  | nil => intro k m _; exact ⟨[], .nil m⟩
  | cons n hs ih =>
    intro k m he
    simp only [hiddenEntries, List.mem_append] at he
    obtain ⟨L, hL⟩ := holds_of hp h fun e hm => he e (.inl hm)
    obtain ⟨Ls, hLs⟩ := ih (k + 1) n fun e hm => he e (.inr hm)
    exact ⟨L :: Ls, by rw [List.length_cons, List.range'_succ, List.map_cons]; exact .cons hL hLs⟩

theorem hidden_eq (act : ℝ → ℝ) {d : Dict} (hs : List Nat) : ∀ (k m : Nat) (Ls : List Layer) (s : Stats),
    Chain d ((List.range' k hs.length).map fun i => [.attr "fc_hidden", .index i]) m hs Ls → s.width = m →
    (List.range' k hs.length).foldlM (fun s i => (linear d [.attr "fc_hidden", .index i] s).map (onAll act)) s =
      some ⟨(m :: hs).getLast (by simp), s.rows.map fun x => Ls.foldl (fun x L => (affine L x).map act) x⟩ := by
  induction hs with
  | nil =>
    intro k m Ls s h hw
    cases h
    subst hw
    simp
  | cons n hs ih =>
    intro k m Ls s h hw
    rw [List.length_cons, List.range'_succ, List.map_cons] at h
    cases h with
    | cons hL hLs =>
      rename_i L Ls
      rw [List.length_cons, List.range'_succ, List.foldlM_cons, linear_eq hL s hw]
      simp only [Option.map_some, onAll, List.map_map]
      have := ih (k + 1) n Ls ⟨n, s.rows.map fun x => (affine L x).map act⟩ hLs rfl
      simp only [Option.bind_eq_bind, Option.bind_some]
      refine Eq.trans ?_ (this.trans ?_)
      · rfl
      · rw [List.map_map]
        rfl

theorem mlp_append (act : ℝ → ℝ) (Ls : List Layer) (L : Layer) (x : Row) : mlp act (Ls ++ [L]) x = affine L (Ls.foldl (fun x L => (affine L x).map act) x) := by
  induction Ls generalizing x with
  | nil => rfl
  | cons A Ls ih =>
    cases Ls with
    | nil => rfl
    | cons B Ls =>
      rw [List.cons_append, List.cons_append, mlp, ← List.cons_append, ih]
      rfl

theorem chain_append {d : Dict} {names : List Name} {m : Nat} {sizes : List Nat} {Ls : List Layer} (h : Chain d names m sizes Ls) {name : Name} {n : Nat} {L : Layer}
    (hL : Holds d name ((m :: sizes).getLast (by simp)) n L) : Chain d (names ++ [name]) m (sizes ++ [n]) (Ls ++ [L]) := by
  induction h with
  | nil m => exact .cons hL (.nil n)
  | cons h1 _ ih =>
    refine .cons h1 (ih ?_)
    simpa [List.getLast_cons] using hL

/-- A default network with parameters of the declared shapes is the feed-forward network with the layers of its dictionary, on every row. -/
theorem forward_eq (act : ℝ → ℝ) (i o : Nat) (hidden : Option (List Nat)) (d : Dict) (h : Declared (defaultNet act i o hidden) d) :
    ∃ Ls, Chain d (layerNames (hidden.getD (defaultHidden i o))) i (hidden.getD (defaultHidden i o) ++ [o]) Ls ∧
      ∀ s : Stats, s.width = i → (defaultNet act i o hidden).evaluate d s = some ⟨o, s.rows.map (mlp act Ls)⟩ := by
  have hp := proper_default act i o hidden
  have hent : (defaultNet act i o hidden).entries = defaultEntries i o (hidden.getD (defaultHidden i o)) := rfl
  have hev : (defaultNet act i o hidden).evaluate = defaultForward act (hidden.getD (defaultHidden i o)) := rfl
  rw [hev]
  generalize hidden.getD (defaultHidden i o) = hs at hent
  cases hs with
  | nil =>
    obtain ⟨L, hL⟩ := holds_of (name := [.attr "fc_in"]) (m := i) (n := o) hp h (by rw [hent]; intro e he; exact he)
    exact ⟨[L], .cons hL (.nil o), fun s hs => linear_eq hL s hs⟩
  | cons a hs =>
    have hmem : ∀ e, e ∈ layerEntries [.attr "fc_in"] i a ∨ e ∈ hiddenEntries 0 a hs ∨ e ∈ layerEntries [.attr "fc_out"] ((a :: hs).getLast (by simp)) o →
        e ∈ (defaultNet act i o hidden).entries := by
      intro e he
      rw [hent]
      simp only [defaultEntries, List.mem_append]
      tauto
    obtain ⟨L, hL⟩ := holds_of hp h fun e he => hmem e (.inl he)
    obtain ⟨Ls, hLs⟩ := hidden_chain hp h hs 0 a fun e he => hmem e (.inr (.inl he))
    obtain ⟨M, hM⟩ := holds_of hp h fun e he => hmem e (.inr (.inr he))
    refine ⟨L :: Ls ++ [M], ?_, ?_⟩
    · have := chain_append (Chain.cons hL hLs) (name := [.attr "fc_out"]) (n := o) (L := M) (by simpa [List.getLast_cons] using hM)
      simpa [layerNames, List.range_eq_range'] using this
    · intro s hw
      have h1 := linear_eq hL s hw
      have h2 := hidden_eq act hs 0 a Ls (onAll act ⟨a, s.rows.map (affine L)⟩) hLs rfl
      simp only [defaultForward, h1, Option.map_some, Option.bind_some, hiddenLoop, List.range_eq_range', h2]
      rw [linear_eq hM _ rfl]
      simp only [onAll, List.map_map, Option.some.injEq, Stats.mk.injEq, true_and]
      apply List.map_congr_left
      intro x _
      rw [mlp_append]
      rfl

/-- The array that the network is applied to: the previous statistics of the data, transformed by the scaler if there is one. -/
noncomputable def inputs (scaler : Option Scaler) (previous : List Step) (data : List (List ℝ)) : Option Stats :=
  (Statistics.statistics previous data).bind fun s => match scaler with
    | none => some s
    | some f => f s

/-- The standard deviations of the columns of a list of rows. -/
noncomputable def sdColumns (w : Nat) (rows : List Row) : List ℝ := (List.range w).map fun j => sdCol (rows.map fun r => r.getD j 0)

theorem chain_width {act : ℝ → ℝ} {d : Dict} {names : List Name} {m : Nat} {sizes : List Nat} {Ls : List Layer} (h : Chain d names m sizes Ls) (hne : sizes ≠ []) (x : Row) :
    (mlp act Ls x).length = sizes.getLast hne := by
  induction h generalizing x with
  | nil m => exact absurd rfl hne
  | cons h1 h2 ih =>
    cases h2 with
    | nil _ => simp [mlp, affine, h1.rows, h1.length]
    | cons h3 h4 =>
      rw [mlp, ih (by simp)]
      exact (List.getLast_cons (by simp)).symm

theorem statistics_eq (e : Neural) (act : ℝ → ℝ) (i o : Nat) (hidden : Option (List Nat)) (hc : e.net.cls = defaultNet act i o hidden) (Ls : List Layer)
    (hev : ∀ s : Stats, s.width = i → (defaultNet act i o hidden).evaluate e.net.state s = some ⟨o, s.rows.map (mlp act Ls)⟩) (hlen : ∀ x, (mlp act Ls x).length = o)
    (n : Nat) (data : List (List ℝ)) (s : Stats) (hs : inputs e.net.scaler e.previous data = some s) (hw : s.width = i) :
    e.statistics n data = rescale e.std ⟨max e.degree 1 * o + (if e.cross then o * (o - 1) / 2 else 0), s.rows.map fun x => columns (max e.degree 1) e.cross o (mlp act Ls x)⟩ := by
  obtain ⟨t, ht1, ht2⟩ := Option.bind_eq_some_iff.1 hs
  unfold Neural.statistics
  rw [ht1, Option.bind_some]
  have happ : e.net.apply n t = some ⟨o, s.rows.map (mlp act Ls)⟩ := by
    unfold Net.apply
    have hsc : ∀ g : Stats → Option Stats, (Option.bind (match e.net.scaler with
        | none => some t
        | some f => f t) g) = g s := by
      intro g
      cases hf : e.net.scaler with
      | none => rw [hf] at ht2; obtain rfl := Option.some.inj ht2; rfl
      | some f => rw [hf] at ht2; simp only at ht2 ⊢; rw [ht2]; rfl
    refine (hsc _).trans ?_
    cases e.net.mode with
    | eval => simp only [hc]; exact hev s hw
    | train => simp only [hc]; exact hev s hw
  rw [happ, Option.bind_some]
  have hrect : Stats.Rect (⟨o, s.rows.map (mlp act Ls)⟩ : Stats) := by
    intro r hr
    obtain ⟨x, -, rfl⟩ := List.mem_map.1 hr
    exact hlen x
  obtain ⟨a1, a2, -⟩ := C62 e.degree e.cross ⟨o, s.rows.map (mlp act Ls)⟩ hrect
  congr 1
  cases hx : expand e.degree e.cross ⟨o, s.rows.map (mlp act Ls)⟩ with
  | mk w rows =>
    rw [hx] at a1 a2
    simp only at a1 a2
    rw [a1, a2, List.map_map]
    rfl

/-- **C153.** Statistics made with a default network whose parameters have the declared shapes: there are layers, stored under their names in the dictionary and of fitting sizes, such that for all
data, in every mode and at every call, each sample is mapped to the polynomial expansion of the feed-forward network at its inputs, divided by the standard deviations of the same expansion over the
reference simulations if there are any (a standard deviation of zero is refused). -/
theorem C153 (act : ℝ → ℝ) (i o : Nat) (hidden : Option (List Nat)) (net : Net) (hc : net.cls = defaultNet act i o hidden) (hd : Declared net.cls net.state) (degree : Nat) (cross : Bool)
    (previous : List Step) :
    ∃ Ls, Chain net.state (layerNames (hidden.getD (defaultHidden i o))) i (hidden.getD (defaultHidden i o) ++ [o]) Ls ∧
      (∀ n data s, inputs net.scaler previous data = some s → s.width = i → ∃ e, Neural.new net degree cross none previous = some e ∧
        ∃ w, e.statistics n data = some ⟨w, s.rows.map fun x => columns (max degree 1) cross o (mlp act Ls x)⟩) ∧
      ∀ sims r, inputs net.scaler previous sims = some r → r.width = i → r.rows ≠ [] → ∃ w e, Neural.new net degree cross (some sims) previous = some e ∧
        ∀ n data s, inputs net.scaler previous data = some s → s.width = i →
          let sd := sdColumns w (r.rows.map fun x => columns (max degree 1) cross o (mlp act Ls x))
          w = max degree 1 * o + (if cross then o * (o - 1) / 2 else 0) ∧
          (0 ∈ sd → e.statistics n data = none) ∧
          (0 ∉ sd → e.statistics n data = some ⟨w, s.rows.map fun x => List.zipWith (· / ·) (columns (max degree 1) cross o (mlp act Ls x)) sd⟩) := by
  obtain ⟨Ls, hch, hev⟩ := forward_eq act i o hidden net.state (hc ▸ hd)
  have hlen : ∀ x, (mlp act Ls x).length = o := by
    intro x
    rw [chain_width hch (by simp) x]
    simp
  refine ⟨Ls, hch, ?_, ?_⟩
  · intro n data s hs hw
    exact ⟨_, rfl, _, statistics_eq ⟨net, degree, cross, none, previous⟩ act i o hidden hc Ls hev hlen n data s hs hw⟩
  · intro sims r hr hrw hne
    refine ⟨max degree 1 * o + (if cross then o * (o - 1) / 2 else 0), ?_⟩
    have h1 := statistics_eq ⟨net, degree, cross, none, previous⟩ act i o hidden hc Ls hev hlen 0 sims r hr hrw
    simp only [rescale] at h1
    refine ⟨_, by unfold Neural.new; simp only [h1, Option.bind_some]; rw [if_neg (by simpa using hne)], ?_⟩
    intro n data s hs hw sd
    have h2 := statistics_eq ⟨net, degree, cross, some sd, previous⟩ act i o hidden hc Ls hev hlen n data s hs hw
    have hsd : Verif.Statistics.std ⟨max degree 1 * o + (if cross then o * (o - 1) / 2 else 0), r.rows.map fun x => columns (max degree 1) cross o (mlp act Ls x)⟩ = sd := rfl
    rw [hsd, h2]
    have hl : ¬ (max degree 1 * o + (if cross then o * (o - 1) / 2 else 0) ≠ sd.length) := by simp [sd, sdColumns]
    refine ⟨rfl, fun h0 => ?_, fun h0 => ?_⟩
    · simp only [rescale]
      rw [if_neg hl, if_pos h0]
    · simp only [rescale]
      rw [if_neg hl, if_neg h0, List.map_map]
      rfl

/-- Parameters of a network with two inputs, one hidden unit and one output. -/
noncomputable def exState : Dict := [
  ([.attr "fc_in", .attr "weight"], .matrix 2 [[1, -1]]), ([.attr "fc_in", .attr "bias"], .vector [0]),
  ([.attr "fc_out", .attr "weight"], .matrix 1 [[2]]), ([.attr "fc_out", .attr "bias"], .vector [1])]

/-- The network with these parameters and the nonlinearity `max 0`. -/
noncomputable def exNet : Net := ⟨defaultNet (max 0) 2 1 (some [1]), exState, .eval, none⟩

example : Declared exNet.cls exNet.state := rfl

theorem sd_run : sdColumns 1 [[5], [1]] = [2] := by
  have h4 : Real.sqrt 4 = 2 := by rw [show (4 : ℝ) = 2 ^ 2 by norm_num]; exact Real.sqrt_sq (by norm_num)
  simp only [sdColumns, sdCol]
  norm_num
  rw [← Real.sqrt_div (by norm_num), show (8 : ℝ) / 2 = 4 by norm_num]
  exact h4

/-- The hypotheses of `C153` hold for this network; with the reference simulations `(3, 1)` and `(0, 1)`, for which the network gives 5 and 1, the statistic of `(4, 2)` is 5 divided by 2. -/
theorem C153_run : ∃ e, Neural.new exNet 1 false (some [[3, 1], [0, 1]]) [] = some e ∧ e.statistics 0 [[4, 2]] = some ⟨1, [[5 / 2]]⟩ := by
  obtain ⟨Ls, hch, -, h⟩ := C153 (max 0) 2 1 (some [1]) exNet rfl rfl 1 false []
  have i1 : inputs exNet.scaler [] [[3, 1], [0, 1]] = some ⟨2, [[3, 1], [0, 1]]⟩ := by simp [inputs, exNet, Statistics.statistics, toArray]
  have i2 : inputs exNet.scaler [] [[4, 2]] = some ⟨2, [[4, 2]]⟩ := by simp [inputs, exNet, Statistics.statistics, toArray]
  obtain ⟨w, e, h1, h2⟩ := h _ _ i1 rfl (by simp)
  obtain ⟨hw, -, h3⟩ := h2 0 _ _ i2 rfl
  refine ⟨e, h1, ?_⟩
  simp only [Option.getD_some, layerNames, List.length_nil, List.range_zero, List.map_nil, List.cons_append, List.nil_append] at hch
  cases hch with
  | cons a1 hch =>
    cases hch with
    | cons a2 hch =>
      cases hch
      rename_i L M
      have w1 : L = ⟨[[1, -1]], [0]⟩ := by
        obtain ⟨lw, lb⟩ := L
        have e1 := a1.weight
        have e2 := a1.bias
        simp [exNet, exState, Dict.get] at e1 e2
        rw [← e1, ← e2]
      have w2 : M = ⟨[[2]], [1]⟩ := by
        obtain ⟨lw, lb⟩ := M
        have e1 := a2.weight
        have e2 := a2.bias
        simp [exNet, exState, Dict.get] at e1 e2
        rw [← e1, ← e2]
      subst w1 w2
      have v : ∀ a b : ℝ, columns (max 1 1) false 1 (mlp (max 0) [⟨[[1, -1]], [0]⟩, ⟨[[2]], [1]⟩] [a, b]) = [max 0 (a - b) * 2 + 1] := by
        intro a b
        simp [columns, mlp, affine, sub_eq_add_neg]
      simp only [List.map_cons, List.map_nil, v] at h3
      norm_num at hw
      subst hw
      norm_num [sd_run] at h3
      exact h3

/-- **C142.** Whatever is in the files: a network that is read from them has parameters of the names and shapes of its class. -/
theorem C142_declared (fs : Files) (path : String) (ps : Option String) (c : Class) (net : Net) (h : loadEither fs path ps c = .ok net) :
    Declared net.cls net.state ∧ (net.cls = c ∨ net.cls = discard c) ∧ net.mode = .eval ∧ ∃ d, fs path = some (.dict d) ∧ ∀ e ∈ net.state, d.get e.1 = some e.2 := by
  have hload : ∀ (c' : Class) (n : Net), loadNet fs path c' = .ok n →
      Declared n.cls n.state ∧ n.cls = c' ∧ n.mode = .eval ∧ ∃ d, fs path = some (.dict d) ∧ ∀ e ∈ n.state, d.get e.1 = some e.2 := by
    intro c' n hn
    unfold loadNet at hn
    split at hn
    · rename_i d hd
      split at hn
      · rename_i state hst
        obtain rfl := Except.ok.inj hn
        unfold Class.load at hst
        split at hst
        · rw [collect_eq_some] at hst
          have key : ∀ (l : List (Name × List Nat)) (out : Dict), (l.map fun e => match d.get e.1 with
              | none => none
              | some t => if t.shape = e.2 then some (e.1, t) else none) = out.map some →
              out.map (fun e => (e.1, e.2.shape)) = l ∧ ∀ e ∈ out, d.get e.1 = some e.2 := by
            intro l
            induction l with
            | nil => intro out h; cases out with
              | nil => simp
              | cons a out => simp at h
            | cons a l ih =>
              intro out h
              cases out with
              | nil => simp at h
              | cons b out =>
                simp only [List.map_cons, List.cons.injEq] at h
                obtain ⟨h1, h2⟩ := h
                obtain ⟨i1, i2⟩ := ih out h2
                cases hg : d.get a.1 with
                | none => rw [hg] at h1; cases h1
                | some t =>
                  rw [hg] at h1
                  simp only at h1
                  split at h1
                  · rename_i hsh
                    obtain rfl := Option.some.inj h1
                    refine ⟨by simp [i1, hsh], ?_⟩
                    intro e he
                    rcases List.mem_cons.1 he with rfl | he
                    · exact hg
                    · exact i2 e he
                  · cases h1
          obtain ⟨k1, k2⟩ := key c'.entries state hst
          exact ⟨k1, rfl, rfl, d, hd, k2⟩
        · cases hst
      · cases hn
    · cases hn
  unfold loadEither at h
  have hret : ∃ n c', retry (loadNet fs path c) (loadNet fs path (discard c)) = .ok n ∧ (c' = c ∨ c' = discard c) ∧ loadNet fs path c' = .ok n := by
    unfold retry at h ⊢
    cases h1 : loadNet fs path c with
    | ok n => exact ⟨n, c, rfl, .inl rfl, h1⟩
    | error er =>
      rw [h1] at h
      cases er with
      | other => cases h
      | runtime =>
        simp only at h ⊢
        cases h2 : loadNet fs path (discard c) with
        | ok n => exact ⟨n, discard c, rfl, .inr rfl, h2⟩
        | error er => rw [h2] at h; cases h
  obtain ⟨n, c', h1, h2, h3⟩ := hret
  rw [h1] at h
  obtain ⟨a1, a2, a3, a4⟩ := hload c' n h3
  have h : addScaler fs ps n = .ok net := h
  have hn : net.cls = n.cls ∧ net.state = n.state ∧ net.mode = n.mode := by
    unfold addScaler at h
    split at h
    · obtain rfl := Except.ok.inj h; exact ⟨rfl, rfl, rfl⟩
    · split at h
      · obtain rfl := Except.ok.inj h; exact ⟨rfl, rfl, rfl⟩
      · cases h
  obtain ⟨b1, b2, b3⟩ := hn
  rw [b1, b2, b3, a2]
  rw [a2] at a1
  exact ⟨a1, h2, a3, a4⟩

/-- **C153**, the default sizes of the three hidden layers: 3/2 of the inputs, 3/4 of the inputs plus three times the outputs, and five times the outputs, rounded down. -/
theorem C153_sizes (i o : Nat) : defaultHidden i o = [⌊(i : ℚ) * (3 / 2)⌋₊, ⌊(i : ℚ) * (3 / 4) + o * 3⌋₊, ⌊(o : ℚ) * 5⌋₊] := by
  have h1 : ⌊(i : ℚ) * (3 / 2)⌋₊ = i * 3 / 2 := by
    rw [show (i : ℚ) * (3 / 2) = ((i * 3 : ℕ) : ℚ) / ((2 : ℕ) : ℚ) by push_cast; ring]
    exact Nat.floor_div_eq_div _ _
  have h2 : ⌊(i : ℚ) * (3 / 4) + o * 3⌋₊ = (i * 3 + o * 12) / 4 := by
    rw [show (i : ℚ) * (3 / 4) + o * 3 = ((i * 3 + o * 12 : ℕ) : ℚ) / ((4 : ℕ) : ℚ) by push_cast; ring]
    exact Nat.floor_div_eq_div _ _
  have h3 : ⌊(o : ℚ) * 5⌋₊ = o * 5 := by
    rw [show (o : ℚ) * 5 = ((o * 5 : ℕ) : ℚ) by push_cast; ring]
    exact Nat.floor_natCast _
  rw [h1, h2, h3]
  rfl

end Verif.Embedding.Props
