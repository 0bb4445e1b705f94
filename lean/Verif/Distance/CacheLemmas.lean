import Verif.Distance.Model

/-! Helper lemmas about the cache of the observed statistics. -/

namespace Verif.Distance

open Classical

theorem zipWith_all_eq (a b : List ℝ) (h : a.length = b.length) :
    ((List.zipWith (fun x y => decide (x = y)) a b).all id = true) ↔ a = b := by
  induction a generalizing b with
  | nil => cases b <;> simp_all
  | cons x a ih =>
    cases b with
    | nil => simp at h
    | cons y b =>
      simp only [List.length_cons, Nat.add_right_cancel_iff] at h
      have := ih b h
      simp only [List.zipWith_cons_cons, List.all_cons, id_eq, Bool.and_eq_true, decide_eq_true_eq,
        List.cons.injEq] at this ⊢
      rw [this]

theorem listEq_iff (h : Heap) (as bs : List Nat) (hl : as.length = bs.length)
    (ha : ∀ a ∈ as, (h.arrays a).length = 1) (hb : ∀ b ∈ bs, (h.arrays b).length = 1) :
    ∃ t, listEq h as bs = some t ∧ (t = true ↔ as.map h.arrays = bs.map h.arrays) := by
  induction as generalizing bs with
  | nil => cases bs <;> simp_all [listEq]
  | cons a as ih =>
    cases bs with
    | nil => simp at hl
    | cons b bs =>
      simp only [List.length_cons, Nat.add_right_cancel_iff] at hl
      obtain ⟨t, h1, h2⟩ := ih bs hl (fun x hx => ha x (by simp [hx])) (fun x hx => hb x (by simp [hx]))
      rw [listEq]
      by_cases hab : a = b
      · subst hab
        refine ⟨t, by simp [h1], ?_⟩
        rw [h2]; simp
      · rw [if_neg hab]
        have la := ha a (by simp)
        have lb := hb b (by simp)
        obtain ⟨x, hx⟩ := List.length_eq_one_iff.1 la
        obtain ⟨y, hy⟩ := List.length_eq_one_iff.1 lb
        simp only [broadcastEq, hx, hy, List.length_cons, List.length_nil, if_true, List.zipWith_cons_cons,
          List.zipWith_nil_right]
        by_cases hxy : x = y
        · subst hxy
          refine ⟨t, by simp [h1], ?_⟩
          rw [h2]; simp [hx, hy]
        · refine ⟨false, by simp [hxy], ?_⟩
          simp [hx, hy, hxy]

theorem allEq_iff (h : Heap) (k : Nat) (as bs : List Nat) (hl : as.length = bs.length)
    (ha : ∀ a ∈ as, (h.arrays a).length = k) (hb : ∀ b ∈ bs, (h.arrays b).length = k) :
    ∃ l, collect (List.zipWith (fun a b => (broadcastEq (h.arrays a) (h.arrays b)).map fun l => l.all id) as bs)
      = some l ∧ (l.all id = true ↔ as.map h.arrays = bs.map h.arrays) := by
  induction as generalizing bs with
  | nil => cases bs <;> simp_all [collect]
  | cons a as ih =>
    cases bs with
    | nil => simp at hl
    | cons b bs =>
      simp only [List.length_cons, Nat.add_right_cancel_iff] at hl
      obtain ⟨l, h1, h2⟩ := ih bs hl (fun x hx => ha x (by simp [hx])) (fun x hx => hb x (by simp [hx]))
      have hlen : (h.arrays a).length = (h.arrays b).length := by
        rw [ha a (by simp), hb b (by simp)]
      have hz := zipWith_all_eq _ _ hlen
      refine ⟨(List.zipWith (fun x y => decide (x = y)) (h.arrays a) (h.arrays b)).all id :: l, ?_, ?_⟩
      · have hb' : broadcastEq (h.arrays a) (h.arrays b)
            = some (List.zipWith (fun x y => decide (x = y)) (h.arrays a) (h.arrays b)) := by
          rw [broadcastEq, if_pos hlen]
        simp only [List.zipWith_cons_cons, hb', Option.map_some, collect, h1]
      · simp only [List.all_cons, id_eq, Bool.and_eq_true, List.map_cons, List.cons.injEq]
        rw [hz, h2]

/-- With observations of one size the check decides equality of the values. -/
theorem sameData_iff (h : Heap) (k : Nat) (old new : Nat) (ho : ∀ v ∈ h.values old, v.length = k)
    (hn : ∀ v ∈ h.values new, v.length = k) (hne : h.values new ≠ []) :
    ∃ t, sameData h old new = some t ∧ (t = true ↔ h.values old = h.values new) := by
  have ho' : ∀ a ∈ h.lists old, (h.arrays a).length = k := fun a ha => ho _ (by simp [Heap.values]; exact ⟨a, ha, rfl⟩)
  have hn' : ∀ a ∈ h.lists new, (h.arrays a).length = k := fun a ha => hn _ (by simp [Heap.values]; exact ⟨a, ha, rfl⟩)
  rw [sameData]
  by_cases hl : (h.lists new).length = (h.lists old).length
  · rw [if_neg (by simpa using hl)]
    cases hc : h.lists new with
    | nil => simp [Heap.values, hc] at hne
    | cons o rest =>
      have hk := hn' o (by simp [hc])
      simp only
      by_cases h1 : (h.arrays o).length = 1
      · rw [if_pos h1]
        have e : k = 1 := by rw [← hk, h1]
        subst e
        rw [← hc]
        exact listEq_iff h _ _ hl.symm ho' hn'
      · rw [if_neg h1, ← hc]
        obtain ⟨l, e1, e2⟩ := allEq_iff h k _ _ hl.symm ho' hn'
        exact ⟨l.all id, by rw [e1]; rfl, e2⟩
  · refine ⟨false, by rw [if_pos (by simpa using hl)], ?_⟩
    simp only [Bool.false_eq_true, false_iff]
    intro e
    apply hl
    have := congrArg List.length e
    simpa [Heap.values] using this.symm

theorem listEq_self (h : Heap) (as : List Nat) : listEq h as as = some true := by
  induction as with
  | nil => rfl
  | cons a as ih => rw [listEq, if_pos rfl, ih]

theorem allEq_self (h : Heap) (as : List Nat) :
    ∃ l, collect (List.zipWith (fun a b => (broadcastEq (h.arrays a) (h.arrays b)).map fun l => l.all id) as as)
      = some l ∧ l.all id = true := by
  induction as with
  | nil => exact ⟨[], rfl, rfl⟩
  | cons a as ih =>
    obtain ⟨l, h1, h2⟩ := ih
    have hb : broadcastEq (h.arrays a) (h.arrays a)
        = some (List.zipWith (fun x y => decide (x = y)) (h.arrays a) (h.arrays a)) := by
      rw [broadcastEq, if_pos rfl]
    refine ⟨(List.zipWith (fun x y => decide (x = y)) (h.arrays a) (h.arrays a)).all id :: l,
      by simp only [List.zipWith_cons_cons, hb, Option.map_some, collect, h1], ?_⟩
    rw [List.all_cons, h2, Bool.and_true]
    exact (zipWith_all_eq _ _ rfl).2 rfl

/-- A non-empty list object is recognised as itself. -/
theorem sameData_self (h : Heap) (r : Nat) (hne : h.values r ≠ []) : sameData h r r = some true := by
  rw [sameData, if_neg (by simp)]
  cases hc : h.lists r with
  | nil => simp [Heap.values, hc] at hne
  | cons o rest =>
    simp only
    by_cases h1 : (h.arrays o).length = 1
    · rw [if_pos h1, listEq_self]
    · rw [if_neg h1]
      obtain ⟨l, e1, e2⟩ := allEq_self h (o :: rest)
      rw [e1, Option.map_some, e2]

/-- What is known of a cache between two calls when no observed data set is changed in place: it is
new, or holds the statistics of a data set passed in an earlier call. -/
def Good (stats : List (List ℝ) → Option Stats) (past : List Call) (c : Cache) : Prop :=
  (c.s1 = none ∧ c.dataSet = none) ∨
  ∃ p ∈ past, c.dataSet = some p.obs ∧ ∃ s, c.s1 = some s ∧ stats (p.heap.values p.obs) = some s

/-- One call with a good cache returns what a new object returns, and leaves a good cache. -/
theorem summaries_good (stats : List (List ℝ) → Option Stats) (past : List Call) (c : Cache) (k : Call)
    (hgood : Good stats past c)
    (hpast : ∀ p ∈ past, (p.obs = k.obs ∨ ∃ size, (∀ v ∈ p.heap.values p.obs, v.length = size) ∧
      ∀ v ∈ k.heap.values k.obs, v.length = size) ∧ k.heap.values p.obs = p.heap.values p.obs)
    (hne : k.heap.values k.obs ≠ []) :
    (summaries stats c k.heap k.obs k.sim).2 = (summaries stats Cache.new k.heap k.obs k.sim).2 ∧
    Good stats (past ++ [k]) (summaries stats c k.heap k.obs k.sim).1 := by
  have mono : ∀ c : Cache, Good stats past c → Good stats (past ++ [k]) c := by
    rintro c (h | ⟨p, hp, h⟩)
    · exact .inl h
    · exact .inr ⟨p, by simp [hp], h⟩
  -- what a new object does
  have fresh : (summaries stats Cache.new k.heap k.obs k.sim).2 =
      (stats (k.heap.values k.obs)).bind fun s1 => (stats (k.heap.values k.sim)).bind fun s2 =>
        if s1.width ≠ s2.width then none else some (s1, s2) := by
    simp only [summaries, Cache.check, Cache.new, Cache.refresh]
    cases stats (k.heap.values k.obs) with
    | none => rfl
    | some s1 => cases stats (k.heap.values k.sim) <;> rfl
  -- a recomputation gives the same
  have recompute : ∀ c' : Cache, Good stats past c' → (c'.s1 = none ∨ c'.same = false) →
      c.check k.heap k.obs = some c' →
      (summaries stats c k.heap k.obs k.sim).2 = (summaries stats Cache.new k.heap k.obs k.sim).2 ∧
      Good stats (past ++ [k]) (summaries stats c k.heap k.obs k.sim).1 := by
    intro c' hg' hno hck
    rw [fresh]
    simp only [summaries, hck]
    have hr : c'.refresh stats k.heap k.obs =
        (stats (k.heap.values k.obs)).map fun s => ({ c' with s1 := some s, dataSet := some k.obs }, s) := by
      rw [Cache.refresh.eq_def]
      rcases hno with h | h
      · rw [h]
      · rw [h]; cases c'.s1 <;> rfl
    rw [hr]
    cases h1 : stats (k.heap.values k.obs) with
    | none => exact ⟨rfl, mono _ hg'⟩
    | some s1 =>
      have g : Good stats (past ++ [k]) { c' with s1 := some s1, dataSet := some k.obs } :=
        .inr ⟨k, by simp, rfl, s1, rfl, h1⟩
      cases h2 : stats (k.heap.values k.sim) with
      | none => exact ⟨rfl, g⟩
      | some s2 => exact ⟨rfl, g⟩
  rcases hgood with ⟨h1, h2⟩ | ⟨p, hp, h2, s, h3, h4⟩
  · exact recompute c (.inl ⟨h1, h2⟩) (.inl h1) (by simp [Cache.check, h2])
  · obtain ⟨hps, hsame⟩ := hpast p hp
    obtain ⟨t, ht, hiff⟩ : ∃ t, sameData k.heap p.obs k.obs = some t ∧
        (t = true ↔ k.heap.values p.obs = k.heap.values k.obs) := by
      rcases hps with hobs | ⟨size, hps, hsize⟩
      · rw [hobs]; exact ⟨true, sameData_self _ _ hne, by simp⟩
      · exact sameData_iff k.heap size p.obs k.obs (by rw [hsame]; exact hps) hsize hne
    have hck : c.check k.heap k.obs = some { c with same := t } := by
      simp [Cache.check, h2, ht]
    have hg' : Good stats past { c with same := t } := .inr ⟨p, hp, h2, s, h3, h4⟩
    cases t with
    | false => exact recompute _ hg' (.inr rfl) hck
    | true =>
      have e : k.heap.values p.obs = k.heap.values k.obs := hiff.1 rfl
      have h5 : stats (k.heap.values k.obs) = some s := by rw [← e, hsame]; exact h4
      rw [fresh, h5]
      simp only [summaries, hck, Cache.refresh, h3]
      cases h6 : stats (k.heap.values k.sim) with
      | none => exact ⟨rfl, mono _ (by simpa [h3] using hg')⟩
      | some s2 => exact ⟨rfl, mono _ (by simpa [h3] using hg')⟩

end Verif.Distance
