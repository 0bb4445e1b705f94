import Verif.Mpi.Model
import Mathlib.Data.Multiset.Basic
import Mathlib.Algebra.BigOperators.Group.Finset.Basic
import Mathlib.Algebra.Order.BigOperators.Group.Finset
import Mathlib.Tactic.Linarith
import Mathlib.Tactic.Abel
/-
Invariants of the work distribution with chunk size one.
-/
namespace Verif.Mpi

variable {X R E : Type} {n id : Nat} {f : X → Option (Res R E)}

/-- Items with their tags: the item at position `j` carries tag `j + 1`. -/
def tagged (xs : List X) : List (Nat × X) := xs.zipIdx.map fun e => (e.2 + 1, e.1)

/-- Items a message contains. -/
def msgItems : Option (List (Nat × X)) → List (Nat × X)
  | none => []
  | some c => c

/-- Items a leader still has to compute. -/
def phaseItems : Phase X → List (Nat × X)
  | .computing todo => todo
  | .dead e => [e]
  | _ => []

/-- Everything leader `l` is responsible for: computed results, current chunk, chunks in the mail. -/
def hold (f : X → Option (Res R E)) (w : World X R E) (l : Nat) : Multiset (Nat × Option (Res R E)) :=
  ((w.acc l).map fun e => (e.1, some e.2)) +
  ((phaseItems (w.phase l) ++ (w.mail l).flatMap msgItems).map fun e => (e.1, f e.2) : List (Nat × Option (Res R E)))

def total (f : X → Option (Res R E)) (n : Nat) (w : World X R E) : Multiset (Nat × Option (Res R E)) :=
  ∑ l ∈ Finset.range n, hold f w l

/-- State of one leader: phase, number of its requests under way, mail, stop flag. -/
def LeaderOk (w : World X R E) (id l : Nat) : Prop :=
  match w.phase l with
  | .ready => w.requests.count (l, id) = 0 ∧ w.mail l = [] ∧ w.done l = false
  | .waiting =>
    (w.requests.count (l, id) = 1 ∧ w.mail l = [] ∧ w.done l = false) ∨
    (w.requests.count (l, id) = 0 ∧ (∃ e, w.mail l = [some [e]]) ∧ w.done l = false) ∨
    (w.requests.count (l, id) = 0 ∧ w.mail l = [none] ∧ w.done l = true)
  | .computing t => w.requests.count (l, id) = 0 ∧ w.mail l = [] ∧ w.done l = false ∧ t.length ≤ 1
  | .finished => w.requests.count (l, id) = 0 ∧ w.mail l = [] ∧ w.done l = true
  | .dead _ => w.requests.count (l, id) = 0 ∧ w.mail l = [] ∧ w.done l = false

/-- The invariant. -/
structure Inv (xs : List X) (n id : Nat) (f : X → Option (Res R E)) (w : World X R E) : Prop where
  notCrashed : w.crashed = false
  reqs : ∀ e ∈ w.requests, e.2 = id → e.1 < n
  leader : ∀ l < n, LeaderOk w id l
  pending : w.pending = xs.take w.pending.length
  bag : total f n w = (((tagged xs).drop w.pending.length).map fun e => (e.1, f e.2) : List _)
  sentBag : (w.sent.map Prod.snd).Perm ((tagged xs).drop w.pending.length)
  sentTo : ∀ e ∈ w.sent, e.1 < n
  doneEmpty : ∀ l < n, w.done l = true → w.pending = []
  stopCount : ∀ l < n, w.stops.count l = if w.done l then 1 else 0
  stopTo : ∀ l ∈ w.stops, l < n
  deadFails : ∀ l < n, ∀ e, w.phase l = .dead e → f e.2 = none

theorem sum_update {M : Type} [AddCommMonoid M] (n l : Nat) (hl : l < n) (h h' : Nat → M) (d : M)
    (he : ∀ k, k ≠ l → h' k = h k) (hd : h' l = h l + d) :
    ∑ k ∈ Finset.range n, h' k = (∑ k ∈ Finset.range n, h k) + d := by
  have hm : l ∈ Finset.range n := Finset.mem_range.2 hl
  rw [← Finset.add_sum_erase _ h' hm, ← Finset.add_sum_erase _ h hm, hd,
    Finset.sum_congr rfl fun k hk => he k (Finset.ne_of_mem_erase hk)]
  abel

theorem sum_same {M : Type} [AddCommMonoid M] (n l : Nat) (h h' : Nat → M)
    (he : ∀ k, k ≠ l → h' k = h k) (hd : h' l = h l) :
    ∑ k ∈ Finset.range n, h' k = ∑ k ∈ Finset.range n, h k :=
  Finset.sum_congr rfl fun k _ => by by_cases hk : k = l; rw [hk, hd]; exact he k hk

theorem count_append_cons (a b : List (Nat × Nat)) (e k : Nat × Nat) :
    (a ++ e :: b).count k = (a ++ b).count k + if e = k then 1 else 0 := by
  rw [List.count_append, List.count_append, List.count_cons]
  by_cases h : e = k <;> simp [h] <;> omega

theorem tagged_drop (xs : List X) (m : Nat) (h : m < xs.length) :
    (tagged xs).drop m = (m + 1, xs[m]) :: (tagged xs).drop (m + 1) := by
  have hl : m < (tagged xs).length := by simp [tagged, h]
  rw [List.drop_eq_getElem_cons hl]
  simp [tagged]

theorem chunkLoop_one (p : List X) (x : X) (hx : p.getLast? = some x) :
    chunkLoop p.length 1 0 [] p [] = ([[(p.length, x)]], p.dropLast, true) := by
  simp [chunkLoop, hx]

theorem leaderOk_other {w w' : World X R E} {l : Nat} (hp : w'.phase l = w.phase l)
    (hr : w'.requests.count (l, id) = w.requests.count (l, id)) (hm : w'.mail l = w.mail l)
    (hd : w'.done l = w.done l) (h : LeaderOk w id l) : LeaderOk w' id l := by
  unfold LeaderOk at h ⊢
  rw [hp, hr, hm, hd]; exact h

theorem hold_other {w w' : World X R E} {l : Nat} (ha : w'.acc l = w.acc l) (hp : w'.phase l = w.phase l)
    (hm : w'.mail l = w.mail l) : hold f w' l = hold f w l := by
  unfold hold; rw [ha, hp, hm]

theorem start_inv (xs : List X) (n id : Nat) (f : X → Option (Res R E)) (stale : List (Nat × Nat))
    (hs : ∀ e ∈ stale, e.2 ≠ id) : Inv xs n id f (start xs stale) where
  notCrashed := rfl
  reqs := fun e he hi => absurd hi (hs e he)
  leader := fun l _ => by
    refine ⟨?_, rfl, rfl⟩
    rw [List.count_eq_zero]
    exact fun hm => hs _ hm rfl
  pending := by simp [start]
  bag := by
    have : (tagged xs).drop xs.length = [] := by simp [tagged]
    simp [start, total, hold, phaseItems, this]
  sentBag := by
    have : (tagged xs).drop xs.length = [] := by simp [tagged]
    simp [start, this]
  sentTo := by simp [start]
  doneEmpty := by simp [start]
  stopCount := by simp [start]
  stopTo := by simp [start]
  deadFails := by simp [start]

/-- A request under way belongs to a waiting leader with empty mail that has not been stopped. -/
theorem requested {xs : List X} {w : World X R E} (h : Inv xs n id f w) {a b : List (Nat × Nat)} {l : Nat}
    (hr : w.requests = a ++ (l, id) :: b) :
    l < n ∧ w.phase l = .waiting ∧ (a ++ b).count (l, id) = 0 ∧ w.mail l = [] ∧ w.done l = false := by
  have hl : l < n := h.reqs (l, id) (by rw [hr]; simp) rfl
  have hc : w.requests.count (l, id) = (a ++ b).count (l, id) + 1 := by rw [hr, count_append_cons]; simp
  have := h.leader l hl
  unfold LeaderOk at this
  cases hp : w.phase l with
  | ready => rw [hp] at this; simp only at this; omega
  | computing t => rw [hp] at this; simp only at this; omega
  | finished => rw [hp] at this; simp only at this; omega
  | dead e => rw [hp] at this; simp only at this; omega
  | waiting =>
    rw [hp] at this
    simp only at this
    rcases this with ⟨h1, h2, h3⟩ | ⟨h1, -⟩ | ⟨h1, -⟩
    · exact ⟨hl, rfl, by omega, h2, h3⟩
    · omega
    · omega

theorem step_inv {xs : List X} {w w' : World X R E} (h : Inv xs n id f w) (hs : Step n 1 id f w w') :
    Inv xs n id f w' := by
  cases hs with
  | request l hl hph =>
    have hlead := h.leader l hl
    unfold LeaderOk at hlead
    rw [hph] at hlead
    simp only at hlead
    exact {
      notCrashed := h.notCrashed
      reqs := by
        intro e he hi
        simp only [List.mem_append, List.mem_singleton] at he
        rcases he with he | rfl
        · exact h.reqs e he hi
        · exact hl
      leader := by
        intro k hk
        by_cases hkl : k = l
        · subst hkl
          unfold LeaderOk
          simp only [Function.update_self]
          refine .inl ⟨?_, hlead.2.1, hlead.2.2⟩
          rw [List.count_append, hlead.1]; simp
        · refine leaderOk_other (w := w) ?_ ?_ rfl rfl (h.leader k hk)
          · simp [hkl]
          · simp only [List.count_append]
            have : ((l, id) == (k, id)) = false := by simp; exact fun e => hkl e.symm
            simp [List.count_cons, this]
      pending := h.pending
      bag := by
        rw [← h.bag]
        refine sum_same n l _ _ (fun k hk => hold_other rfl (by simp [hk]) rfl) ?_
        simp [hold, hph, phaseItems]
      sentBag := h.sentBag
      sentTo := h.sentTo
      doneEmpty := h.doneEmpty
      stopCount := h.stopCount
      stopTo := h.stopTo
      deadFails := by
        intro k hk e he
        by_cases hkl : k = l
        · subst hkl; simp at he
        · exact h.deadFails k hk e (by simpa [hkl] using he) }
  | ignore a b l i hc hloop hr hi =>
    exact {
      notCrashed := h.notCrashed
      reqs := fun e he => h.reqs e (by rw [hr]; simp only [List.mem_append, List.mem_cons] at he ⊢; tauto)
      leader := by
        intro k hk
        refine leaderOk_other (w := w) rfl ?_ rfl rfl (h.leader k hk)
        simp only [hr]
        rw [count_append_cons]
        have : ¬ ((l, i) = (k, id)) := by simp; exact fun _ => hi
        simp [this]
      pending := h.pending
      bag := h.bag
      sentBag := h.sentBag
      sentTo := h.sentTo
      doneEmpty := h.doneEmpty
      stopCount := h.stopCount
      stopTo := h.stopTo
      deadFails := h.deadFails }
  | stop a b l hc hloop hr hp =>
    obtain ⟨hl, hph, hcnt, hmail, hdone⟩ := requested h hr
    exact {
      notCrashed := h.notCrashed
      reqs := fun e he => h.reqs e (by rw [hr]; simp only [List.mem_append, List.mem_cons] at he ⊢; tauto)
      leader := by
        intro k hk
        by_cases hkl : k = l
        · subst hkl
          unfold LeaderOk
          simp only [hph, Function.update_self, hmail, List.nil_append]
          exact .inr (.inr ⟨hcnt, trivial, trivial⟩)
        · refine leaderOk_other (w := w) rfl ?_ (by simp [hkl]) (by simp [hkl]) (h.leader k hk)
          simp only [hr]
          rw [count_append_cons]
          have : ¬ ((l, id) = (k, id)) := by simp; exact fun e => hkl e.symm
          simp [this]
      pending := h.pending
      bag := by
        rw [← h.bag]
        refine sum_same n l _ _ (fun k hk => hold_other rfl rfl (by simp [hk])) ?_
        simp [hold, hmail, msgItems]
      sentBag := h.sentBag
      sentTo := h.sentTo
      doneEmpty := fun k hk _ => hp
      stopCount := by
        intro k hk
        by_cases hkl : k = l
        · subst hkl
          simp only [List.count_append, h.stopCount k hk, hdone, Function.update_self]
          simp
        · have : (l == k) = false := by simp; exact fun e => hkl e.symm
          simp only [List.count_append, h.stopCount k hk, Function.update_of_ne hkl]
          simp [List.count_cons, this]
      stopTo := by
        intro k hk
        simp only [List.mem_append, List.mem_singleton] at hk
        rcases hk with hk | rfl
        · exact h.stopTo k hk
        · exact hl
      deadFails := h.deadFails }
  | hand a b l hc hloop hr hp =>
    obtain ⟨hl, hph, hcnt, hmail, hdone⟩ := requested h hr
    have hlast : w.pending.getLast? = some (w.pending.getLast hp) := List.getLast?_eq_getLast_of_ne_nil hp
    have hpos : 0 < w.pending.length := List.length_pos_of_ne_nil hp
    obtain ⟨m, hm⟩ : ∃ m, w.pending.length = m + 1 := ⟨w.pending.length - 1, by omega⟩
    have hxs : m < xs.length := by
      have := congrArg List.length h.pending
      rw [List.length_take, hm] at this
      omega
    have hget : w.pending.getLast hp = xs[m] := by
      rw [List.getLast_eq_getElem]
      have hidx : w.pending.length - 1 = m := by omega
      have h1 : w.pending[m]'(by omega) = xs[m] := by
        have e := List.getElem_of_eq h.pending (i := m) (by omega)
        rw [e]; simp
      simp only [hidx, h1]
    have hdl : w.pending.dropLast = xs.take m := by
      rw [h.pending, hm, List.dropLast_eq_take, List.length_take, List.take_take]
      congr 1; omega
    have hdll : w.pending.dropLast.length = m := by rw [List.length_dropLast]; omega
    simp only [chunkLoop_one _ _ hlast, hget]
    have htag := tagged_drop xs m hxs
    exact {
      notCrashed := rfl
      reqs := fun e he => h.reqs e (by rw [hr]; simp only [List.mem_append, List.mem_cons] at he ⊢; tauto)
      leader := by
        intro k hk
        by_cases hkl : k = l
        · subst hkl
          unfold LeaderOk
          simp only [hph, Function.update_self, hmail, List.nil_append]
          exact .inr (.inl ⟨hcnt, ⟨_, rfl⟩, hdone⟩)
        · refine leaderOk_other (w := w) rfl ?_ (by simp [hkl]) rfl (h.leader k hk)
          simp only [hr]
          rw [count_append_cons]
          have : ¬ ((l, id) = (k, id)) := by simp; exact fun e => hkl e.symm
          simp [this]
      pending := by simp only [hdll]; exact hdl
      bag := by
        simp only [hdll]
        rw [htag, List.map_cons]
        have hb := h.bag
        rw [hm] at hb
        unfold total at hb ⊢
        refine (sum_update n l hl (hold f w) _ {(m + 1, f xs[m])} ?_ ?_).trans ?_
        · exact fun k hk => hold_other rfl rfl (by simp [hk])
        rotate_left
        · rw [hb, List.map_cons, ← Multiset.cons_coe, ← Multiset.singleton_add, add_comm]
        · simp only [hold, hph, phaseItems, Function.update_self, hmail, List.nil_append, List.map_cons, List.map_nil,
            List.flatMap_cons, List.flatMap_nil, msgItems, hm, List.append_nil, Multiset.coe_nil, add_zero, Multiset.coe_singleton]
      sentBag := by
        simp only [hdll, List.flatten_cons, List.flatten_nil, List.append_nil, List.map_append, List.map_cons,
          List.map_nil, hm]
        rw [htag]
        have hb := h.sentBag
        rw [hm] at hb
        exact (List.perm_append_comm.trans (by simpa using hb))
      sentTo := by
        intro e he
        simp only [List.mem_append] at he
        rcases he with he | he
        · exact h.sentTo e he
        · simp at he; rw [he]; exact hl
      doneEmpty := by
        intro k hk hd
        exact absurd (h.doneEmpty k hk hd) hp
      stopCount := h.stopCount
      stopTo := h.stopTo
      deadFails := h.deadFails }
  | recvStop l hl hph m hm =>
    have hlead := h.leader l hl
    unfold LeaderOk at hlead
    rw [hph, hm] at hlead
    simp only [reduceCtorEq, and_false, false_and, List.cons.injEq, true_and, exists_const, false_or] at hlead
    obtain ⟨h1, h2, h3⟩ : w.requests.count (l, id) = 0 ∧ m = [] ∧ w.done l = true := by simpa using hlead
    subst h2
    exact {
      notCrashed := h.notCrashed
      reqs := h.reqs
      leader := by
        intro k hk
        by_cases hkl : k = l
        · subst hkl
          unfold LeaderOk
          simp only [Function.update_self]
          exact ⟨h1, trivial, h3⟩
        · exact leaderOk_other (w := w) (by simp [hkl]) rfl (by simp [hkl]) rfl (h.leader k hk)
      pending := h.pending
      bag := by
        rw [← h.bag]
        refine sum_same n l _ _ (fun k hk => hold_other rfl (by simp [hk]) (by simp [hk])) ?_
        simp [hold, hph, hm, phaseItems, msgItems]
      sentBag := h.sentBag
      sentTo := h.sentTo
      doneEmpty := h.doneEmpty
      stopCount := h.stopCount
      stopTo := h.stopTo
      deadFails := by
        intro k hk e he
        by_cases hkl : k = l
        · subst hkl; simp at he
        · exact h.deadFails k hk e (by simpa [hkl] using he) }
  | recvChunk l hl hph c m hm =>
    have hlead := h.leader l hl
    unfold LeaderOk at hlead
    rw [hph, hm] at hlead
    obtain ⟨h1, ⟨e, h2⟩, h3⟩ : w.requests.count (l, id) = 0 ∧ (∃ e, some c :: m = [some [e]]) ∧ w.done l = false := by
      simpa using hlead
    simp only [List.cons.injEq, Option.some.injEq] at h2
    obtain ⟨rfl, rfl⟩ := h2
    exact {
      notCrashed := h.notCrashed
      reqs := h.reqs
      leader := by
        intro k hk
        by_cases hkl : k = l
        · subst hkl
          unfold LeaderOk
          simp only [Function.update_self]
          exact ⟨h1, trivial, h3, by simp⟩
        · exact leaderOk_other (w := w) (by simp [hkl]) rfl (by simp [hkl]) rfl (h.leader k hk)
      pending := h.pending
      bag := by
        rw [← h.bag]
        refine sum_same n l _ _ (fun k hk => hold_other rfl (by simp [hk]) (by simp [hk])) ?_
        simp [hold, hph, hm, phaseItems, msgItems]
      sentBag := h.sentBag
      sentTo := h.sentTo
      doneEmpty := h.doneEmpty
      stopCount := h.stopCount
      stopTo := h.stopTo
      deadFails := by
        intro k hk e he
        by_cases hkl : k = l
        · subst hkl; simp at he
        · exact h.deadFails k hk e (by simpa [hkl] using he) }
  | compute l hl i x todo hph r hf =>
    have hlead := h.leader l hl
    unfold LeaderOk at hlead
    rw [hph] at hlead
    exact {
      notCrashed := h.notCrashed
      reqs := h.reqs
      leader := by
        intro k hk
        by_cases hkl : k = l
        · subst hkl
          unfold LeaderOk
          simp only [Function.update_self]
          exact ⟨hlead.1, hlead.2.1, hlead.2.2.1, by have := hlead.2.2.2; simp at this ⊢; simp [this]⟩
        · exact leaderOk_other (w := w) (by simp [hkl]) rfl rfl rfl (h.leader k hk)
      pending := h.pending
      bag := by
        rw [← h.bag]
        refine sum_same n l _ _ (fun k hk => hold_other (by simp [hk]) (by simp [hk]) rfl) ?_
        simp only [hold, hph, phaseItems, Function.update_self, List.map_append, List.map_cons, List.map_nil,
          List.cons_append, hf, Multiset.coe_add, Multiset.coe_eq_coe]
        rw [List.append_assoc]
        rfl
      sentBag := h.sentBag
      sentTo := h.sentTo
      doneEmpty := h.doneEmpty
      stopCount := h.stopCount
      stopTo := h.stopTo
      deadFails := by
        intro k hk e he
        by_cases hkl : k = l
        · subst hkl; simp at he
        · exact h.deadFails k hk e (by simpa [hkl] using he) }
  | die l hl i x todo hph hf =>
    have hlead := h.leader l hl
    unfold LeaderOk at hlead
    rw [hph] at hlead
    obtain rfl : todo = [] := by have := hlead.2.2.2; simpa using this
    exact {
      notCrashed := h.notCrashed
      reqs := h.reqs
      leader := by
        intro k hk
        by_cases hkl : k = l
        · subst hkl
          unfold LeaderOk
          simp only [Function.update_self]
          exact ⟨hlead.1, hlead.2.1, hlead.2.2.1⟩
        · exact leaderOk_other (w := w) (by simp [hkl]) rfl rfl rfl (h.leader k hk)
      pending := h.pending
      bag := by
        rw [← h.bag]
        refine sum_same n l _ _ (fun k hk => hold_other rfl (by simp [hk]) rfl) ?_
        simp [hold, hph, phaseItems]
      sentBag := h.sentBag
      sentTo := h.sentTo
      doneEmpty := h.doneEmpty
      stopCount := h.stopCount
      stopTo := h.stopTo
      deadFails := by
        intro k hk e he
        by_cases hkl : k = l
        · subst hkl; simp at he; rw [← he]; exact hf
        · exact h.deadFails k hk e (by simpa [hkl] using he) }

  | again l hl hph =>
    have hlead := h.leader l hl
    unfold LeaderOk at hlead
    rw [hph] at hlead
    exact {
      notCrashed := h.notCrashed
      reqs := h.reqs
      leader := by
        intro k hk
        by_cases hkl : k = l
        · subst hkl
          unfold LeaderOk
          simp only [Function.update_self]
          exact ⟨hlead.1, hlead.2.1, hlead.2.2.1⟩
        · exact leaderOk_other (w := w) (by simp [hkl]) rfl rfl rfl (h.leader k hk)
      pending := h.pending
      bag := by
        rw [← h.bag]
        refine sum_same n l _ _ (fun k hk => hold_other rfl (by simp [hk]) rfl) ?_
        simp [hold, hph, phaseItems]
      sentBag := h.sentBag
      sentTo := h.sentTo
      doneEmpty := h.doneEmpty
      stopCount := h.stopCount
      stopTo := h.stopTo
      deadFails := by
        intro k hk e he
        by_cases hkl : k = l
        · subst hkl; simp at he
        · exact h.deadFails k hk e (by simpa [hkl] using he) }

end Verif.Mpi
