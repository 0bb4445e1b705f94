import Verif.Graph.Spec
import Mathlib.Data.List.Dedup
import Mathlib.Data.List.Nodup
import Mathlib.Tactic.Linarith
import Mathlib.Tactic.Ring
/-
Helper lemmas for the graph properties.
-/
namespace Verif.Graph

variable {α : Type}

/-! ### loops -/

theorem forMem_eq_foldl {σ} (l : List Nat) (f : Nat → σ → σ) (s : σ) :
    forMem l (fun p _ => f p) s = l.foldl (fun s p => f p s) s := by
  induction l generalizing s with
  | nil => rfl
  | cons p l ih => simp only [forMem, List.foldl_cons]; exact ih _

/-- Plain early-exit loop. -/
def loopE {σ ε : Type} (f : Nat → σ → Except ε σ) : List Nat → σ → Except ε σ
  | [], s => .ok s
  | p :: l, s => match f p s with
    | .error e => .error e
    | .ok s => loopE f l s

theorem forMemE_eq_loopE {σ ε} (l : List Nat) (f : Nat → σ → Except ε σ) (s : σ) :
    forMemE l (fun p _ => f p) s = loopE f l s := by
  induction l generalizing s with
  | nil => rfl
  | cons p l ih =>
    simp only [forMemE, loopE]
    cases f p s with
    | error e => rfl
    | ok s => exact ih _

/-! ### unfolding -/

theorem unfold_eq (g : G) (v : Nat) : unfold g v = v :: (g.parents v).flatMap (unfold g) := by
  rw [unfold]; congr 1
  simp [List.flatMap_def]

theorem mem_unfold_self (g : G) (v : Nat) : v ∈ unfold g v := by
  rw [unfold_eq]; exact List.mem_cons_self

theorem le_of_mem_unfold (g : G) : ∀ {v q}, q ∈ unfold g v → q ≤ v := by
  intro v
  induction v using Nat.strong_induction_on with
  | _ v ih =>
    intro q h
    rw [unfold_eq] at h
    rcases List.mem_cons.1 h with rfl | h
    · exact le_rfl
    · obtain ⟨p, hp, hq⟩ := List.mem_flatMap.1 h
      exact (ih p (g.lt_of_parent hp) hq).trans (g.lt_of_parent hp).le

theorem unfold_trans (g : G) : ∀ {v q r}, q ∈ unfold g v → r ∈ unfold g q → r ∈ unfold g v := by
  intro v
  induction v using Nat.strong_induction_on with
  | _ v ih =>
    intro q r hq hr
    rw [unfold_eq] at hq
    rcases List.mem_cons.1 hq with rfl | hq
    · exact hr
    · obtain ⟨p, hp, hq⟩ := List.mem_flatMap.1 hq
      rw [unfold_eq]
      exact List.mem_cons_of_mem _ (List.mem_flatMap.2 ⟨p, hp, ih p (g.lt_of_parent hp) hq hr⟩)

theorem parent_mem_unfold {g : G} {v p : Nat} (h : p ∈ g.parents v) : p ∈ unfold g v := by
  rw [unfold_eq]
  exact List.mem_cons_of_mem _ (List.mem_flatMap.2 ⟨p, h, mem_unfold_self g p⟩)

theorem anc_iff (g : G) (a v : Nat) : Anc g a v ↔ a ∈ (g.parents v).flatMap (unfold g) := by
  constructor
  · intro h
    induction h with
    | input h => exact List.mem_flatMap.2 ⟨_, h, mem_unfold_self g _⟩
    | @step p v h hp ih =>
      refine List.mem_flatMap.2 ⟨_, hp, ?_⟩
      rw [unfold_eq]; exact List.mem_cons_of_mem _ ih
  · intro h
    induction v using Nat.strong_induction_on generalizing a with
    | _ v ih =>
      obtain ⟨p, hp, h⟩ := List.mem_flatMap.1 h
      rw [unfold_eq] at h
      rcases List.mem_cons.1 h with rfl | h
      · exact .input hp
      · exact .step (ih p (g.lt_of_parent hp) _ h) hp

theorem mem_unfold_iff (g : G) (a v : Nat) : a ∈ unfold g v ↔ a = v ∨ Anc g a v := by
  rw [unfold_eq, List.mem_cons, anc_iff]

theorem Anc.lt {g : G} {a v : Nat} (h : Anc g a v) : a < v := by
  induction h with
  | input h => exact g.lt_of_parent h
  | step _ hp ih => exact ih.trans (g.lt_of_parent hp)

theorem Anc.trans {g : G} {a b c : Nat} (h : Anc g a b) (h' : Anc g b c) : Anc g a c := by
  induction h' with
  | input hp => exact .step h hp
  | step _ hp ih => exact .step ih hp

theorem mem_above (g : G) (roots : List Nat) (a : Nat) : a ∈ above g roots ↔ ∃ r ∈ roots, Anc g a r := by
  simp only [above, List.mem_flatMap (f := fun r => _), anc_iff]

theorem inGraph_iff (g : G) (roots : List Nat) (v : Nat) :
    InGraph g roots v ↔ ∃ r ∈ roots, v ∈ unfold g r := by
  constructor
  · rintro (h | ⟨r, hr, h⟩)
    · exact ⟨v, h, mem_unfold_self g v⟩
    · exact ⟨r, hr, (mem_unfold_iff g v r).2 (.inr h)⟩
  · rintro ⟨r, hr, h⟩
    rcases (mem_unfold_iff g v r).1 h with rfl | h
    · exact .inl hr
    · exact .inr ⟨r, hr, h⟩

/-! ### keep-first elimination of duplicates relative to a set -/

/-- Elements of `l` not in `vis`, each at its first occurrence. -/
def fresh (vis : Nat → Bool) : List Nat → List Nat
  | [] => []
  | x :: l => if vis x then fresh vis l else x :: fresh (fun y => y == x || vis y) l

/-- `vis` plus the elements of `l`. -/
def plus (vis : Nat → Bool) (l : List Nat) : Nat → Bool := fun y => l.contains y || vis y

@[simp] theorem plus_nil (vis) : plus vis [] = vis := by funext y; simp [plus]

theorem plus_cons (vis x l) : plus vis (x :: l) = plus (fun y => y == x || vis y) l := by
  funext y; simp only [plus, List.contains_cons]
  cases (y == x) <;> cases (l.contains y) <;> cases vis y <;> rfl

theorem plus_append (vis a b) : plus vis (a ++ b) = plus (plus vis a) b := by
  funext y; simp only [plus]
  have : (a ++ b).contains y = (a.contains y || b.contains y) := by simp [List.contains_eq_mem]
  rw [this]
  cases (a.contains y) <;> cases (b.contains y) <;> cases vis y <;> rfl

theorem fresh_append (vis a b) : fresh vis (a ++ b) = fresh vis a ++ fresh (plus vis a) b := by
  induction a generalizing vis with
  | nil => simp [fresh]
  | cons x a ih =>
    simp only [List.cons_append, fresh]
    by_cases h : vis x
    · simp only [h, if_true, ih, plus_cons]
      congr 2
      funext y
      simp only [plus]
      by_cases hy : y = x
      · subst hy; simp [h]
      · have : (y == x) = false := by simp [hy]
        rw [this, Bool.false_or]
    · simp [h, ih, plus_cons]

theorem plus_eq_self {vis l} (h : ∀ x ∈ l, vis x = true) : plus vis l = vis := by
  funext y; simp only [plus]
  by_cases hy : y ∈ l
  · simp [h y hy]
  · simp [List.contains_eq_mem, hy]

theorem fresh_eq_nil {vis l} (h : ∀ x ∈ l, vis x = true) : fresh vis l = [] := by
  induction l with
  | nil => rfl
  | cons x l ih => simp [fresh, h x (by simp), ih (fun y hy => h y (by simp [hy]))]

theorem mem_fresh {vis l x} : x ∈ fresh vis l ↔ x ∈ l ∧ vis x = false := by
  induction l generalizing vis with
  | nil => simp [fresh]
  | cons y l ih =>
    by_cases h : vis y
    · simp only [fresh, h, if_true, ih, List.mem_cons]
      constructor
      · rintro ⟨a, b⟩; exact ⟨.inr a, b⟩
      · rintro ⟨rfl | a, b⟩
        · simp [h] at b
        · exact ⟨a, b⟩
    · simp only [fresh, h, Bool.false_eq_true, if_false, List.mem_cons, ih]
      by_cases hxy : x = y
      · subst hxy; simp [h]
      · simp [hxy]

theorem nodup_fresh {vis l} : (fresh vis l).Nodup := by
  induction l generalizing vis with
  | nil => simp [fresh]
  | cons y l ih =>
    by_cases h : vis y
    · simp [fresh, h, ih]
    · simp [fresh, h, ih, mem_fresh]

theorem fresh_congr {vis vis' : Nat → Bool} {l} (h : ∀ x ∈ l, vis x = vis' x) : fresh vis l = fresh vis' l := by
  induction l generalizing vis vis' with
  | nil => rfl
  | cons y l ih =>
    simp only [fresh, h y (by simp)]
    rw [ih (vis := vis) (vis' := vis') (fun x hx => h x (by simp [hx])),
      ih (vis := fun z => z == y || vis z) (vis' := fun z => z == y || vis' z)
        (fun x hx => by simp [h x (by simp [hx])])]

theorem fresh_filter (vis l) (q : Nat → Bool) :
    (fresh vis l).filter q = fresh vis (l.filter q) := by
  induction l generalizing vis with
  | nil => rfl
  | cons y l ih =>
    by_cases hq : q y
    · by_cases h : vis y <;> simp [fresh, hq, h, ih]
    · by_cases h : vis y
      · simp [fresh, hq, h, ih]
      · simp only [fresh, h, List.filter_cons, hq, Bool.false_eq_true, if_false, ih]
        refine fresh_congr fun x hx => ?_
        have : x ≠ y := fun e => by subst e; simp [hq] at hx
        simp [this]

theorem fresh_cons_filter (vis : Nat → Bool) (x : Nat) (l : List Nat) :
    fresh (fun y => y == x || vis y) l = fresh vis (l.filter fun b => !b == x) := by
  induction l generalizing vis with
  | nil => rfl
  | cons z l ih =>
    by_cases hz : z = x
    · subst hz; simp [fresh, ih]
    · have : (!z == x) = true := by simp [hz]
      simp only [List.filter_cons, this, if_true, fresh]
      have hzx : (z == x) = false := by simp [hz]
      rw [hzx, Bool.false_or]
      by_cases hv : vis z
      · simp [hv, ih]
      · simp only [hv, Bool.false_eq_true, if_false]
        rw [← ih]
        congr 2
        funext y
        cases (y == z) <;> cases (y == x) <;> rfl

theorem fresh_none_eq_eraseDups (l : List Nat) : fresh (fun _ => false) l = l.eraseDups := by
  induction h : l.length using Nat.strong_induction_on generalizing l with
  | _ n ih =>
    cases l with
    | nil => rfl
    | cons x l =>
      simp only [fresh, Bool.false_eq_true, if_false, List.eraseDups_cons]
      rw [fresh_cons_filter]
      subst h
      rw [ih _ (Nat.lt_succ_of_le (List.length_filter_le _ _)) _ rfl]

theorem order_eq (g : G) (roots) :
    order g roots = (fresh (fun _ => false) (above g roots)).filter fun v => (g.kind v).isFree := by
  rw [order, fresh_none_eq_eraseDups]

theorem order_nodup (g : G) (roots) : (order g roots).Nodup := by
  rw [order_eq]; exact nodup_fresh.filter _

theorem mem_order (g : G) (roots v) :
    v ∈ order g roots ↔ (g.kind v).isFree = true ∧ ∃ r ∈ roots, Anc g v r := by
  rw [order_eq, List.mem_filter, mem_fresh, mem_above]; simp [and_comm]

/-! ### closed visited sets -/

/-- Below `n`, everything above a marked node (restricted to `k`) is marked. -/
def Closed (g : G) (k : Nat → Bool) (vis : Nat → Bool) (n : Nat) : Prop :=
  ∀ q < n, vis q = true → ∀ r ∈ unfold g q, k r = true → vis r = true

theorem Closed.plus {g k vis n} (h : Closed g k vis n) (v : Nat) :
    Closed g k (plus vis ((unfold g v).filter k)) n := by
  intro q hq hv r hr hk
  simp only [Verif.Graph.plus, Bool.or_eq_true, List.contains_eq_mem, decide_eq_true_eq,
    List.mem_filter] at hv ⊢
  rcases hv with hv | hv
  · exact .inl ⟨unfold_trans g hv.1 hr, hk⟩
  · exact .inr (h q hq hv r hr hk)

theorem Closed.mono {g k vis n m} (h : Closed g k vis n) (hm : m ≤ n) : Closed g k vis m :=
  fun q hq => h q (lt_of_lt_of_le hq hm)

theorem Closed.markTop {g k vis v} (h : Closed g k vis v) :
    Closed g k (fun y => y == v || vis y) v := by
  intro q hq hv r hr hk
  have : q ≠ v := ne_of_lt hq
  simp only [beq_iff_eq, this, Bool.or_eq_true, false_or] at hv ⊢
  exact .inr (h q hq hv r hr hk)

theorem closed_false (g k n) : Closed g k (fun _ => false) n := by
  intro q _ h; simp at h

theorem flatMap_filter (l : List Nat) (f : Nat → List Nat) (k : Nat → Bool) :
    (l.flatMap f).filter k = l.flatMap fun x => (f x).filter k := by
  induction l with
  | nil => rfl
  | cons x l ih => simp [List.flatMap_cons, ih]

end Verif.Graph
