import Verif.Graph.TraversePdf
import Verif.Graph.TraverseSample
/-
Lemmas used by the property theorems of `Props`.
-/
namespace Verif.Graph

variable {α : Type}

theorem assign_ok (chk : (Nat → Option α) → Nat → α → Verdict) (ps : List α) :
    ∀ (L : List Nat) (i : Nat) (val val' : Nat → Option α) (j : Nat), L.Nodup →
      assignInOrder chk ps L i val = .ok (val', j) →
      j = i + L.length ∧ (i ≤ ps.length → j ≤ ps.length) ∧ L.map val' = ((ps.drop i).take L.length).map some ∧
        (∀ v, v ∉ L → val' v = val v) := by
  intro L
  induction L with
  | nil => intro i val val' j _ h; simp [assignInOrder] at h; obtain ⟨rfl, rfl⟩ := h; simp
  | cons v L ih =>
    intro i val val' j hnd h
    rw [List.nodup_cons] at hnd
    rw [assignInOrder] at h
    cases hps : ps[i]? with
    | none => rw [hps] at h; simp at h
    | some x =>
      rw [hps] at h
      cases hc : chk val v x with
      | «raise» => simp [hc] at h
      | reject => simp [hc] at h
      | accept =>
        simp only [hc] at h
        obtain ⟨h1, h2, h3, h4⟩ := ih (i + 1) _ val' j hnd.2 h
        obtain ⟨hi, hx⟩ := List.getElem?_eq_some_iff.1 hps
        refine ⟨by rw [h1, List.length_cons]; omega, fun _ => h2 hi, ?_, ?_⟩
        · rw [List.map_cons, h3, h4 v hnd.1]
          rw [List.drop_eq_getElem_cons hi, hx]
          simp
        · intro w hw
          rw [List.mem_cons, not_or] at hw
          rw [h4 w hw.2]
          simp [hw.1]

/-- What a rejection leaves behind. -/
theorem assign_rejected (chk : (Nat → Option α) → Nat → α → Verdict) (ps : List α) :
    ∀ (L : List Nat) (i : Nat) (val val' : Nat → Option α) (j : Nat), L.Nodup →
      assignInOrder chk ps L i val = .error (.rejected j, val') →
      ∃ k, j = i + k ∧ ∃ hk : k < L.length, (L.take k).map val' = ((ps.drop i).take k).map some ∧
        (∀ v, v ∉ L.take k → val' v = val v) ∧ ∃ x, ps[j]? = some x ∧ chk val' (L[k]) x = .reject := by
  intro L
  induction L with
  | nil => intro i val val' j _ h; simp [assignInOrder] at h
  | cons v L ih =>
    intro i val val' j hnd h
    rw [List.nodup_cons] at hnd
    rw [assignInOrder] at h
    cases hps : ps[i]? with
    | none => rw [hps] at h; simp at h
    | some x =>
      rw [hps] at h
      cases hc : chk val v x with
      | «raise» => simp [hc] at h
      | reject =>
        simp only [hc, Except.error.injEq, Prod.mk.injEq, SetFail.rejected.injEq] at h
        obtain ⟨rfl, rfl⟩ := h
        exact ⟨0, rfl, by simp, by simp, by simp, x, hps, by simpa using hc⟩
      | accept =>
        simp only [hc] at h
        obtain ⟨k, h1, hk, h2, h3, h4⟩ := ih (i + 1) _ val' j hnd.2 h
        obtain ⟨hi, hx⟩ := List.getElem?_eq_some_iff.1 hps
        have hvk : v ∉ L.take k := fun hm => hnd.1 (List.mem_of_mem_take hm)
        refine ⟨k + 1, by omega, by simpa using hk, ?_, ?_, by simpa using h4⟩
        · rw [List.take_succ_cons, List.map_cons, h2, h3 v hvk, List.drop_eq_getElem_cons hi, hx]
          simp
        · intro w hw
          rw [List.take_succ_cons, List.mem_cons, not_or] at hw
          rw [h3 w hw.2]
          simp [hw.1]

theorem assign_accepting (chk : (Nat → Option α) → Nat → α → Verdict) (ps : List α)
    (hchk : ∀ val v x, chk val v x = .accept) : ∀ (L : List Nat) (i : Nat) (val : Nat → Option α),
      i + L.length ≤ ps.length → ∃ val', assignInOrder chk ps L i val = .ok (val', i + L.length) := by
  intro L
  induction L with
  | nil => intro i val _; exact ⟨val, rfl⟩
  | cons v L ih =>
    intro i val hl
    rw [List.length_cons] at hl
    have hi : i < ps.length := by omega
    obtain ⟨val', h⟩ := ih (i + 1) (fun y => if y = v then some ps[i] else val y) (by omega)
    refine ⟨val', ?_⟩
    rw [assignInOrder, List.getElem?_eq_getElem hi]
    simp only [hchk, h, List.length_cons]
    congr 2; omega

/-- If checks do not look at stored values, acceptance is a condition on the vector alone. -/
theorem assign_local (c : Nat → α → Verdict) (ps : List α) :
    ∀ (L : List Nat) (i : Nat) (val : Nat → Option α), (∀ v x, c v x ≠ .raise) → i + L.length ≤ ps.length →
      ((∃ r, assignInOrder (fun _ => c) ps L i val = .ok r) ↔
        ∀ k (hk : k < L.length), ∃ x, ps[i + k]? = some x ∧ c L[k] x = .accept) := by
  intro L
  induction L with
  | nil => intro i val _ _; simp [assignInOrder]
  | cons v L ih =>
    intro i val hr hl
    rw [List.length_cons] at hl
    have hi : i < ps.length := by omega
    rw [assignInOrder, List.getElem?_eq_getElem hi]
    simp only
    cases hc : c v ps[i] with
    | «raise» => exact absurd hc (hr v _)
    | reject =>
      simp only [reduceCtorEq, exists_false, false_iff, not_forall]
      refine ⟨0, by simp, ?_⟩
      rintro ⟨x, hx, hcx⟩
      rw [Nat.add_zero, List.getElem?_eq_getElem hi, Option.some.injEq] at hx
      subst hx
      simp [hc] at hcx
    | accept =>
      simp only
      rw [ih (i + 1) _ hr (by omega)]
      constructor
      · intro h k hk
        cases k with
        | zero => exact ⟨ps[i], by simp [hi], by simpa using hc⟩
        | succ k =>
          obtain ⟨x, hx, hcx⟩ := h k (by simpa using hk)
          exact ⟨x, by rw [← hx]; congr 1; omega, by simpa using hcx⟩
      · intro h k hk
        obtain ⟨x, hx, hcx⟩ := h (k + 1) (by simpa using hk)
        exact ⟨x, by rw [← hx]; congr 1; omega, by simpa using hcx⟩

/-- First components of `pairs` with distinct models: lookup does not depend on the order. -/
theorem firstParams_eq_lookup (pairs : List (Nat × List α)) (v : Nat) :
    firstParams pairs v = (pairs.lookup v).getD [] := by
  induction pairs with
  | nil => rfl
  | cons e l ih =>
    obtain ⟨m, p⟩ := e
    simp only [firstParams, List.lookup_cons]
    by_cases h : m = v
    · simp [h]
    · have : (v == m) = false := by simp; exact fun e => h e.symm
      simp [h, this, ih]

theorem firstParams_eq_of_mem (pairs : List (Nat × List α)) (hnd : (pairs.map Prod.fst).Nodup) {v : Nat} {p : List α}
    (h : (v, p) ∈ pairs) : firstParams pairs v = p := by
  induction pairs with
  | nil => simp at h
  | cons e l ih =>
    obtain ⟨m, q⟩ := e
    rw [List.map_cons, List.nodup_cons] at hnd
    simp only [firstParams]
    rcases List.mem_cons.1 h with e | e
    · simp only [Prod.mk.injEq] at e; obtain ⟨rfl, rfl⟩ := e; simp
    · have : m ≠ v := fun em => hnd.1 (by subst em; exact List.mem_map.2 ⟨_, e, rfl⟩)
      simp [this, ih hnd.2 e]

theorem firstParams_eq_nil (pairs : List (Nat × List α)) {v : Nat} (h : v ∉ pairs.map Prod.fst) :
    firstParams pairs v = [] := by
  induction pairs with
  | nil => rfl
  | cons e l ih =>
    obtain ⟨m, q⟩ := e
    rw [List.map_cons, List.mem_cons, not_or] at h
    simp only [firstParams]
    have : m ≠ v := fun em => h.1 em.symm
    simp [this, ih h.2]

theorem firstParams_perm {pairs pairs' : List (Nat × List α)} (hp : pairs.Perm pairs')
    (hnd : (pairs.map Prod.fst).Nodup) : firstParams pairs = firstParams pairs' := by
  funext v
  have hnd' : (pairs'.map Prod.fst).Nodup := (hp.map Prod.fst).nodup_iff.1 hnd
  by_cases h : v ∈ pairs.map Prod.fst
  · obtain ⟨⟨w, p⟩, hm, rfl⟩ := List.mem_map.1 h
    rw [firstParams_eq_of_mem pairs hnd hm, firstParams_eq_of_mem pairs' hnd' (hp.mem_iff.1 hm)]
  · rw [firstParams_eq_nil pairs h, firstParams_eq_nil pairs' fun hm => h ((hp.map Prod.fst).mem_iff.2 hm)]

theorem flatMap_eq_flatMap_filter {β : Type} (l : List Nat) (f : Nat → List β) (q : Nat → Bool)
    (h : ∀ x ∈ l, q x = false → f x = []) : l.flatMap f = (l.filter q).flatMap f := by
  induction l with
  | nil => rfl
  | cons x l ih =>
    have := ih fun y hy => h y (by simp [hy])
    rw [List.flatMap_cons, List.filter_cons, this]
    cases hq : q x with
    | true => simp
    | false => simp [h x (by simp) hq]

theorem eraseDups_filter (l : List Nat) (q : Nat → Bool) : l.eraseDups.filter q = (l.filter q).eraseDups := by
  rw [← fresh_none_eq_eraseDups, ← fresh_none_eq_eraseDups, fresh_filter]

theorem filter_order_eq (g : G) (roots : List Nat) (hap : RootsApart g roots) :
    ((roots.flatMap (unfold g)).eraseDups).filter (fun v => decide (v ∈ order g roots)) = order g roots := by
  rw [eraseDups_filter]
  have h1 : ∀ rs : List Nat, (∀ r ∈ rs, r ∈ roots) →
      (rs.flatMap (unfold g)).filter (fun v => decide (v ∈ order g roots)) =
      (above g rs).filter (fun v => decide (v ∈ order g roots)) := by
    intro rs
    induction rs with
    | nil => intro _; rfl
    | cons r rs ih =>
      intro hrs
      have ha : above g (r :: rs) = (g.parents r).flatMap (unfold g) ++ above g rs := rfl
      have hr : r ∉ order g roots := fun hm => by
        obtain ⟨_, r', hr', h⟩ := (mem_order g roots r).1 hm
        exact hap r (hrs r (by simp)) r' hr' h
      rw [List.flatMap_cons, List.filter_append, ih fun q hq => hrs q (by simp [hq]), ha, List.filter_append,
        unfold_eq, List.filter_cons]
      simp [hr]
  rw [h1 roots fun _ h => h]
  have h2 : (above g roots).filter (fun v => decide (v ∈ order g roots)) =
      (above g roots).filter (fun v => (g.kind v).isFree) := by
    refine List.filter_congr fun x hx => ?_
    have := (mem_above g roots x).1 hx
    simp only [mem_order, this, and_true]
    simp
  rw [h2, ← eraseDups_filter]
  rfl

end Verif.Graph
