import Verif.Mpi.Inv
/-
What the invariant gives at the end of a map, and the collect step.
-/
namespace Verif.Mpi

variable {X R E : Type} {n id : Nat} {f : X → Option (Res R E)}

theorem steps_inv {xs : List X} {w w' : World X R E} {k : Nat} (h : Inv xs n id f w)
    (hs : Steps n 1 id f k w w') : Inv xs n id f w' := by
  induction hs with
  | refl => exact h
  | tail _ hstep ih => exact step_inv (ih h) hstep

/-- No process can move. -/
def Stuck (n chunk id : Nat) (f : X → Option (Res R E)) (w : World X R E) : Prop := ∀ w', ¬ Step n chunk id f w w'

/-! ### Termination measure -/

def phaseWeight : Phase X → Nat
  | .ready => 3
  | .waiting => 0
  | .computing t => 4 + t.length
  | .finished => 0
  | .dead _ => 0

def msgWeight : Option (List (Nat × X)) → Nat
  | none => 1
  | some c => 5 + c.length

def leaderWeight (w : World X R E) (l : Nat) : Nat := phaseWeight (w.phase l) + ((w.mail l).map msgWeight).sum

def measure (n : Nat) (w : World X R E) : Nat :=
  5 * w.pending.length + 2 * w.requests.length + ∑ l ∈ Finset.range n, leaderWeight w l

theorem sum_lt (n l : Nat) (hl : l < n) (h h' : Nat → Nat) (d : Nat) (he : ∀ k, k ≠ l → h' k = h k)
    (hd : h' l + d = h l) : ∑ k ∈ Finset.range n, h' k + d = ∑ k ∈ Finset.range n, h k :=
  (sum_update n l hl h' h d (fun k hk => (he k hk).symm) hd.symm).symm

theorem step_measure {xs : List X} {w w' : World X R E} (h : Inv xs n id f w) (hs : Step n 1 id f w w') :
    measure n w' < measure n w := by
  cases hs with
  | request l hl hph =>
    have := sum_lt n l hl (leaderWeight w)
      (leaderWeight { w with requests := w.requests ++ [(l, id)], phase := Function.update w.phase l .waiting }) 3
      (fun k hk => by simp [leaderWeight, hk]) (by simp [leaderWeight, hph, phaseWeight]; omega)
    simp only [measure, List.length_append, List.length_singleton]
    omega
  | ignore a b l i hc hloop hr hi =>
    simp only [measure, hr, List.length_append, List.length_cons]
    have : ∑ k ∈ Finset.range n, leaderWeight { w with requests := a ++ b } k = ∑ k ∈ Finset.range n, leaderWeight w k := rfl
    omega
  | stop a b l hc hloop hr hp =>
    obtain ⟨hl, hph, hcnt, hmail, hdone⟩ := requested h hr
    have := sum_update n l hl (leaderWeight w)
      (leaderWeight { w with
        requests := a ++ b
        done := Function.update w.done l true
        mail := Function.update w.mail l (w.mail l ++ [none])
        stops := w.stops ++ [l] }) 1
      (fun k hk => by simp [leaderWeight, hk]) (by simp [leaderWeight, hmail, msgWeight])
    simp only [measure, this, hr, List.length_append, List.length_cons]
    omega
  | hand a b l hc hloop hr hp =>
    obtain ⟨hl, hph, hcnt, hmail, hdone⟩ := requested h hr
    have hlast : w.pending.getLast? = some (w.pending.getLast hp) := List.getLast?_eq_getLast_of_ne_nil hp
    have hpos : 0 < w.pending.length := List.length_pos_of_ne_nil hp
    simp only [chunkLoop_one _ _ hlast]
    simp only [measure, hr, List.length_append, List.length_cons, List.length_dropLast]
    refine lt_of_le_of_lt (Nat.add_le_add_left (le_of_eq
      (sum_update n l hl (leaderWeight w) _ 6 (fun k hk => ?_) ?_)) _) ?_
    · simp [leaderWeight, hk]
    · simp [leaderWeight, hmail, msgWeight]
    · omega
  | recvStop l hl hph m hm =>
    have := sum_lt n l hl (leaderWeight w)
      (leaderWeight { w with mail := Function.update w.mail l m, phase := Function.update w.phase l .finished }) 1
      (fun k hk => by simp [leaderWeight, hk]) (by simp [leaderWeight, hph, hm, phaseWeight, msgWeight]; omega)
    simp only [measure]
    omega
  | recvChunk l hl hph c m hm =>
    have := sum_lt n l hl (leaderWeight w)
      (leaderWeight { w with mail := Function.update w.mail l m, phase := Function.update w.phase l (.computing c) }) 1
      (fun k hk => by simp [leaderWeight, hk]) (by simp [leaderWeight, hph, hm, phaseWeight, msgWeight]; omega)
    simp only [measure]
    omega
  | compute l hl i x todo hph r hf =>
    have := sum_lt n l hl (leaderWeight w)
      (leaderWeight { w with acc := Function.update w.acc l (w.acc l ++ [(i, r)]), phase := Function.update w.phase l (.computing todo) }) 1
      (fun k hk => by simp [leaderWeight, hk]) (by simp [leaderWeight, hph, phaseWeight]; omega)
    simp only [measure]
    omega
  | die l hl i x todo hph hf =>
    have := sum_lt n l hl (leaderWeight w)
      (leaderWeight { w with phase := Function.update w.phase l (.dead (i, x)) }) (5 + todo.length)
      (fun k hk => by simp [leaderWeight, hk]) (by simp [leaderWeight, hph, phaseWeight]; omega)
    simp only [measure]
    omega
  | again l hl hph =>
    have := sum_lt n l hl (leaderWeight w)
      (leaderWeight { w with phase := Function.update w.phase l .ready }) 1
      (fun k hk => by simp [leaderWeight, hk]) (by simp [leaderWeight, hph, phaseWeight]; omega)
    simp only [measure]
    omega

theorem steps_measure {xs : List X} {w w' : World X R E} {k : Nat} (h : Inv xs n id f w)
    (hs : Steps n 1 id f k w w') : measure n w' + k ≤ measure n w := by
  induction hs with
  | refl => simp
  | tail hss hstep ih =>
    have := step_measure (steps_inv h hss) hstep
    have := ih h
    omega

theorem measure_start (xs : List X) (stale : List (Nat × Nat)) :
    measure n (start xs stale : World X R E) = 5 * xs.length + 2 * stale.length + 3 * n := by
  simp [measure, start, leaderWeight, phaseWeight]
  omega

/-! ### The end of the distribution -/

theorem mem_total {w : World X R E} {l : Nat} (hl : l < n) {e} (he : e ∈ hold f w l) : e ∈ total f n w :=
  Multiset.mem_sum.2 ⟨l, Finset.mem_range.2 hl, he⟩

theorem mem_tagged_snd {xs : List X} {e : Nat × X} (h : e ∈ tagged xs) : e.2 ∈ xs := by
  obtain ⟨⟨x, i⟩, hm, rfl⟩ := List.mem_map.1 h
  obtain ⟨-, -, h3⟩ := List.mem_zipIdx hm
  simp only [h3]
  exact List.getElem_mem _

theorem not_dead {xs : List X} {w : World X R E} (h : Inv xs n id f w) (hf : ∀ x ∈ xs, f x ≠ none) {l : Nat}
    (hl : l < n) (e : Nat × X) : w.phase l ≠ .dead e := by
  intro hp
  have h1 := h.deadFails l hl e hp
  have : (e.1, f e.2) ∈ total f n w := mem_total hl (by
    simp [hold, hp, phaseItems])
  rw [h.bag, Multiset.mem_coe, List.mem_map] at this
  obtain ⟨e', he', heq⟩ := this
  have hx := mem_tagged_snd (List.mem_of_mem_drop he')
  have : f e'.2 = none := by rw [← h1]; exact congrArg Prod.snd heq
  exact hf _ hx this

theorem stuck_finished {xs : List X} {w : World X R E} (h : Inv xs n id f w) (hf : ∀ x ∈ xs, f x ≠ none)
    (hst : Stuck n 1 id f w) : ∀ l < n, w.phase l = .finished := by
  intro l hl
  have hlead := h.leader l hl
  unfold LeaderOk at hlead
  cases hp : w.phase l with
  | ready => exact absurd (Step.request w l hl hp) (hst _)
  | finished => rfl
  | dead e => exact absurd hp (not_dead h hf hl e)
  | computing t =>
    cases t with
    | nil => exact absurd (Step.again w l hl hp) (hst _)
    | cons e t =>
      obtain ⟨i, x⟩ := e
      cases hfx : f x with
      | none => exact absurd (Step.die w l hl i x t hp hfx) (hst _)
      | some r => exact absurd (Step.compute w l hl i x t hp r hfx) (hst _)
  | waiting =>
    rw [hp] at hlead
    simp only at hlead
    rcases hlead with ⟨h1, h2, h3⟩ | ⟨h1, ⟨e, h2⟩, h3⟩ | ⟨h1, h2, h3⟩
    · have hm : (l, id) ∈ w.requests := List.count_pos_iff.1 (by omega)
      obtain ⟨a, b, hr⟩ := List.append_of_mem hm
      by_cases hpe : w.pending = []
      · exact absurd (Step.stop w a b l h.notCrashed ⟨l, hl, h3⟩ hr hpe) (hst _)
      · exact absurd (Step.hand w a b l h.notCrashed ⟨l, hl, h3⟩ hr hpe) (hst _)
    · exact absurd (Step.recvChunk w l hl hp _ _ h2) (hst _)
    · exact absurd (Step.recvStop w l hl hp _ h2) (hst _)

theorem sum_coe {β : Type} (g : Nat → List β) (n : Nat) :
    ∑ l ∈ Finset.range n, (g l : Multiset β) = ((List.range n).flatMap g : List β) := by
  induction n with
  | zero => rfl
  | succ n ih => rw [Finset.sum_range_succ, ih, List.range_succ, List.flatMap_append, Multiset.coe_add]; simp

/-- Once every leader has been told to stop, all items have been computed and the results sit at the leaders. -/
theorem all_done_gathered {xs : List X} {w : World X R E} (h : Inv xs n id f w) (hn : 0 < n)
    (hd : ∀ l < n, w.done l = true) :
    ((gathered n w).map fun e => (e.1, some e.2)).Perm ((tagged xs).map fun e => (e.1, f e.2)) := by
  have hp : w.pending = [] := h.doneEmpty 0 hn (hd 0 hn)
  have hb := h.bag
  rw [hp, List.length_nil, List.drop_zero] at hb
  rw [← Multiset.coe_eq_coe, ← hb, gathered, List.map_flatMap, ← sum_coe]
  refine Finset.sum_congr rfl fun l hl => ?_
  have hl : l < n := Finset.mem_range.1 hl
  have hlead := h.leader l hl
  unfold LeaderOk at hlead
  have hdl := hd l hl
  cases hph : w.phase l with
  | ready => rw [hph] at hlead; simp [hdl] at hlead
  | computing t => rw [hph] at hlead; simp [hdl] at hlead
  | dead e => rw [hph] at hlead; simp [hdl] at hlead
  | finished =>
    rw [hph] at hlead
    simp [hold, hph, hlead.2.1, phaseItems]
  | waiting =>
    rw [hph] at hlead
    simp [hdl] at hlead
    simp [hold, hph, hlead.2, phaseItems, msgItems]

/-! ### collect -/

theorem accumulate_vals {data : List (Nat × Res R E)} {P : List (Nat × R)}
    (h : data = P.map fun e => (e.1, .val e.2)) : accumulate data = .ok (P.map Prod.fst, P.map Prod.snd) := by
  subst h
  induction P with
  | nil => rfl
  | cons e P ih => simp [accumulate, ih]

theorem accumulate_exc {data : List (Nat × Res R E)} :
    (∃ i e, (i, Res.exc e) ∈ data) → ∃ i e, (i, Res.exc e) ∈ data ∧ accumulate data = .error e := by
  induction data with
  | nil => rintro ⟨i, e, h⟩; simp at h
  | cons d data ih =>
    obtain ⟨j, r⟩ := d
    intro hex
    cases r with
    | exc e => exact ⟨j, e, by simp, rfl⟩
    | val r =>
      obtain ⟨i, e, h⟩ := hex
      obtain ⟨i', e', h1, h2⟩ := ih ⟨i, e, by simpa using h⟩
      exact ⟨i', e', List.mem_cons_of_mem _ h1, by simp [accumulate, h2]⟩

theorem filterMap_range_getElem {β : Type} (P : List β) : (List.range P.length).filterMap (fun i => P[i]?) = P := by
  induction P using List.reverseRecOn with
  | nil => rfl
  | append_singleton P x ih =>
    rw [List.length_append, List.length_singleton, List.range_succ, List.filterMap_append]
    have h1 : (List.range P.length).filterMap (fun i => (P ++ [x])[i]?) =
        (List.range P.length).filterMap (fun i => P[i]?) := by
      refine List.filterMap_congr fun i hi => ?_
      rw [List.getElem?_append_left (by simpa using hi)]
    rw [h1, ih]
    simp

theorem argsort_tagged {argsort : List Nat → List Nat} (ha : IsArgsort argsort) (P : List (Nat × R)) (rs : List R)
    (hperm : P.Perm (tagged rs)) :
    (argsort (P.map Prod.fst)).filterMap (fun i => (P.map Prod.snd)[i]?) = rs := by
  obtain ⟨hp, hs⟩ := ha (P.map Prod.fst)
  let Q := (argsort (P.map Prod.fst)).filterMap fun i => P[i]?
  have hQP : Q.Perm P := by
    have := hp.filterMap fun i => P[i]?
    rw [List.length_map, filterMap_range_getElem] at this
    exact this
  have hQ1 : Q.Pairwise fun a b => a.1 ≤ b.1 := by
    refine List.pairwise_filterMap.2 ?_
    refine (List.pairwise_map.1 hs).imp fun {a b} hab x hx y hy => ?_
    exact hab x.1 y.1 (by simp [List.getElem?_map, hx]) (by simp [List.getElem?_map, hy])
  have hT1 : (tagged rs).Pairwise fun a b => a.1 < b.1 := by
    rw [tagged, List.pairwise_map, List.pairwise_iff_getElem]
    intro i j hi hj hij
    simp [hij]
  have hQT : Q = tagged rs := by
    refine List.Perm.eq_of_pairwise ?_ hQ1 (hT1.imp fun h => le_of_lt h) (hQP.trans hperm)
    intro a b ha hb h1 h2
    have ha' : a ∈ tagged rs := (hQP.trans hperm).mem_iff.1 ha
    obtain ⟨⟨x, i⟩, hm, rfl⟩ := List.mem_map.1 ha'
    obtain ⟨⟨y, j⟩, hm', rfl⟩ := List.mem_map.1 hb
    have e : i = j := by simp at h1 h2; omega
    subst e
    obtain ⟨-, -, q1⟩ := List.mem_zipIdx hm
    obtain ⟨-, -, q2⟩ := List.mem_zipIdx hm'
    rw [q1, q2]
  have : (argsort (P.map Prod.fst)).filterMap (fun i => (P.map Prod.snd)[i]?) = Q.map Prod.snd := by
    simp only [Q, List.map_filterMap]
    refine List.filterMap_congr fun i _ => ?_
    simp [List.getElem?_map]
  rw [this, hQT, tagged, List.map_map]
  conv_rhs => rw [← List.zipIdx_map_fst 0 rs]
  rfl

end Verif.Mpi
