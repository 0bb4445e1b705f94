import Verif.Mpi.Final
/-
Property theorems C17, C18, C19 and C21 about one parallel map and its collect.

An execution is any sequence of steps of the scheduler and of the `n` leaders (`Steps`), so a theorem about all
executions covers every schedule. `Stuck` means that no process can move any more.
-/
namespace Verif.Mpi

variable {X R E : Type}

/-! ### C17 -/

/-- C17. Take any function `f` that raises on no item, any list, any number of leaders and any execution that cannot be
continued: collecting gives what the sequential backend gives. `stale` are left-over requests for other data sets. -/
theorem C17_map_sequential (n id : Nat) (hn : 0 < n) (f : X → R) (xs : List X) (stale : List (Nat × Nat))
    (hstale : ∀ e ∈ stale, e.2 ≠ id) (k : Nat) (w : World X R E)
    (hrun : Steps n 1 id (fun x => some (.val (f x))) k (start xs stale) w)
    (hstuck : Stuck n 1 id (fun x => some (.val (f x))) w)
    (argsort : List Nat → List Nat) (hsort : IsArgsort argsort) :
    collect argsort (gathered n w) = .ok (sequential f xs) := by
  have hinv := steps_inv (start_inv xs n id (fun x => some (.val (f x))) stale hstale) hrun
  have hfin := stuck_finished hinv (by simp) hstuck
  have hdone : ∀ l < n, w.done l = true := fun l hl => by
    have := hinv.leader l hl
    unfold LeaderOk at this
    rw [hfin l hl] at this
    exact this.2.2
  have hg := all_done_gathered hinv hn hdone
  have htag : (tagged xs).map (fun e => (e.1, some (Res.val (E := E) (f e.2)))) =
      ((tagged (xs.map f)).map fun e => (e.1, some (Res.val e.2))) := by
    simp [tagged, List.zipIdx_map, List.map_map, Function.comp_def]
  rw [htag] at hg
  obtain ⟨P, hP, hPp⟩ : ∃ P : List (Nat × R), gathered n w = P.map (fun e => (e.1, Res.val e.2)) ∧
      P.Perm (tagged (xs.map f)) := by
    have h1 : (gathered n w).Perm ((tagged (xs.map f)).map fun e => (e.1, Res.val e.2)) := by
      have := hg.map (fun e : Nat × Option (Res R E) => e.2.map fun r => (e.1, r))
      rw [List.map_map, List.map_map] at this
      have h2 := this.filterMap _root_.id
      rw [List.filterMap_map, List.filterMap_map] at h2
      have key : ∀ (L : List (Nat × Res R E)), L.filterMap (_root_.id ∘ (fun e : Nat × Option (Res R E) => e.2.map fun r => (e.1, r)) ∘
          fun e => (e.1, some e.2)) = L := by
        intro L
        have : (_root_.id ∘ (fun e : Nat × Option (Res R E) => e.2.map fun r => (e.1, r)) ∘
          fun e : Nat × Res R E => (e.1, some e.2)) = some := by funext e; rfl
        rw [this]; simp
      rw [key] at h2
      refine h2.trans (List.Perm.of_eq ?_)
      have : (_root_.id ∘ (fun e : Nat × Option (Res R E) => e.2.map fun r => (e.1, r)) ∘
          fun e : Nat × R => (e.1, some (Res.val e.2))) = fun e => some (e.1, Res.val e.2) := by funext e; rfl
      rw [this, List.filterMap_eq_map']
    refine ⟨(gathered n w).filterMap (fun e => match e.2 with | .val r => some (e.1, r) | .exc _ => none), ?_, ?_⟩
    · have hall : ∀ e ∈ gathered n w, ∃ r, e.2 = Res.val r := fun e he => by
        obtain ⟨a, -, rfl⟩ := List.mem_map.1 (h1.mem_iff.1 he)
        exact ⟨_, rfl⟩
      generalize gathered n w = L at hall
      induction L with
      | nil => rfl
      | cons e L ih =>
        obtain ⟨i, r⟩ := e
        obtain ⟨r', hr'⟩ := hall (i, r) (by simp)
        simp only at hr'
        subst hr'
        rw [List.filterMap_cons]
        simp only [List.map_cons]
        rw [← ih fun e he => hall e (by simp [he])]
    · have := h1.filterMap (fun e => match e.2 with | .val r => some (e.1, r) | .exc _ => none)
      rw [List.filterMap_map] at this
      refine this.trans (List.Perm.of_eq ?_)
      have : ((fun e : Nat × Res R E => match e.2 with | .val r => some (e.1, r) | .exc _ => none) ∘
          fun e : Nat × R => (e.1, Res.val e.2)) = some := by funext e; rfl
      rw [this]; simp
  simp only [collect, accumulate_vals hP]
  rw [argsort_tagged hsort P (xs.map f) hPp]
  rfl

/-! ### C18 -/

/-- C18. For every execution of a map: it has at most `5 |xs| + 2 |stale| + 3 n` steps (so it always ends); no item is
handed out twice and nothing but items of the list is handed out; nobody is stopped twice. When it cannot be
continued every leader has left its loop, each item was handed to exactly one leader (tag `j + 1` for the item at
position `j`), every leader was told to stop exactly once, and no request of this map and no message is left.
When the scheduler's loop ends (all leaders told to stop), every item has already been computed. -/
theorem C18_distribution (n id : Nat) (hn : 0 < n) (f : X → Option (Res R E)) (xs : List X) (stale : List (Nat × Nat))
    (hstale : ∀ e ∈ stale, e.2 ≠ id) (k : Nat) (w : World X R E) (hf : ∀ x ∈ xs, f x ≠ none)
    (hrun : Steps n 1 id f k (start xs stale) w) :
    k ≤ 5 * xs.length + 2 * stale.length + 3 * n ∧
    ((w.sent.map fun e => e.2.1).Nodup ∧ (∀ e ∈ w.sent, e.1 < n ∧ ∃ j, e.2.1 = j + 1 ∧ xs[j]? = some e.2.2)) ∧
    w.stops.Nodup ∧
    (Stuck n 1 id f w →
      (∀ l < n, w.phase l = .finished) ∧
      (∀ j x, xs[j]? = some x → ∃ l < n, (l, j + 1, x) ∈ w.sent) ∧
      w.sent.length = xs.length ∧
      (∀ l < n, w.stops.count l = 1) ∧
      (∀ l < n, w.mail l = []) ∧ (∀ e ∈ w.requests, e.2 ≠ id)) ∧
    ((∀ l < n, w.done l = true) →
      ((gathered n w).map fun e => (e.1, some e.2)).Perm (xs.zipIdx.map fun e => (e.2 + 1, f e.1))) := by
  have hstart := start_inv xs n id f stale hstale
  have hinv := steps_inv hstart hrun
  have hm := steps_measure hstart hrun
  rw [measure_start] at hm
  have htagnd : ∀ m, (((tagged xs).drop m).map Prod.fst).Nodup := by
    intro m
    have : ((tagged xs).map Prod.fst).Nodup := by
      rw [tagged, List.map_map]
      have : (Prod.fst ∘ fun e : X × Nat => (e.2 + 1, e.1)) = (fun i => i + 1) ∘ Prod.snd := by funext e; rfl
      rw [this, ← List.map_map, List.zipIdx_map_snd]
      exact (List.nodup_range' ..).map fun a b h => by simpa using h
    rw [List.map_drop]
    exact this.sublist (List.drop_sublist _ _)
  refine ⟨by omega, ⟨?_, ?_⟩, ?_, ?_, ?_⟩
  · have h1 := (hinv.sentBag.map Prod.fst)
    rw [List.map_map] at h1
    exact h1.nodup_iff.2 (htagnd _)
  · intro e he
    refine ⟨hinv.sentTo e he, ?_⟩
    have : e.2 ∈ (tagged xs).drop w.pending.length := hinv.sentBag.mem_iff.1 (List.mem_map.2 ⟨e, he, rfl⟩)
    obtain ⟨⟨x, i⟩, hmem, heq⟩ := List.mem_map.1 (List.mem_of_mem_drop this)
    obtain ⟨-, h2, h3⟩ := List.mem_zipIdx hmem
    refine ⟨i, by rw [← heq], ?_⟩
    rw [← heq]
    simp only [Nat.sub_zero, Nat.zero_add] at h2 h3
    rw [List.getElem?_eq_getElem h2, h3]
  · rw [List.nodup_iff_count_le_one]
    intro l
    by_cases hl : l < n
    · rw [hinv.stopCount l hl]; split <;> omega
    · rw [List.count_eq_zero.2 fun hm => hl (hinv.stopTo l hm)]; omega
  · intro hst
    have hfin := stuck_finished hinv hf hst
    have hdone : ∀ l < n, w.done l = true ∧ w.mail l = [] ∧ w.requests.count (l, id) = 0 := fun l hl => by
      have := hinv.leader l hl
      unfold LeaderOk at this
      rw [hfin l hl] at this
      exact ⟨this.2.2, this.2.1, this.1⟩
    have hp : w.pending = [] := hinv.doneEmpty 0 hn (hdone 0 hn).1
    have hsb := hinv.sentBag
    rw [hp, List.length_nil, List.drop_zero] at hsb
    refine ⟨hfin, ?_, ?_, ?_, fun l hl => (hdone l hl).2.1, ?_⟩
    · intro j x hx
      have : (j + 1, x) ∈ tagged xs := List.mem_map.2 ⟨(x, j), List.mk_mem_zipIdx_iff_getElem?.2 hx, rfl⟩
      obtain ⟨⟨l, i, y⟩, hmem, heq⟩ := List.mem_map.1 (hsb.mem_iff.2 this)
      simp only [Prod.mk.injEq] at heq
      obtain ⟨rfl, rfl⟩ := heq
      exact ⟨l, hinv.sentTo _ hmem, hmem⟩
    · have := hsb.length_eq
      simpa [tagged] using this
    · intro l hl; rw [hinv.stopCount l hl, (hdone l hl).1]; simp
    · rintro ⟨l, i⟩ he rfl
      have hl := hinv.reqs (l, i) he rfl
      exact absurd he (List.count_eq_zero.1 (hdone l hl).2.2)
  · intro hd
    have := all_done_gathered hinv hn hd
    simpa [tagged, List.map_map, Function.comp_def] using this

/-- Executions can always be continued until no process can move (from any state reached by an execution). -/
theorem C18_ends (n id : Nat) (f : X → Option (Res R E)) (xs : List X) (stale : List (Nat × Nat))
    (hstale : ∀ e ∈ stale, e.2 ≠ id) (k : Nat) (w : World X R E) (hrun : Steps n 1 id f k (start xs stale) w) :
    ∃ k' w', Steps n 1 id f (k + k') (start xs stale) w' ∧ Stuck n 1 id f w' := by
  have hstart := start_inv xs n id f stale hstale
  generalize hm : measure n w = m
  induction m using Nat.strong_induction_on generalizing k w with
  | _ m ih =>
    by_cases hst : Stuck n 1 id f w
    · exact ⟨0, w, hrun, hst⟩
    · unfold Stuck at hst
      push Not at hst
      obtain ⟨w', hw'⟩ := hst
      have := step_measure (steps_inv hstart hrun) hw'
      obtain ⟨k', w'', h1, h2⟩ := ih (measure n w') (by omega) (k + 1) w' (.tail hrun hw') rfl
      exact ⟨k' + 1, w'', by rw [show k + (k' + 1) = k + 1 + k' by omega]; exact h1, h2⟩

/-- Two leaders, three items: there is an execution that ends. -/
example : ∃ k w', Steps 2 1 7 (fun x : Nat => some (Res.val (E := Unit) (x * x))) k (start [1, 2, 3] []) w' ∧
    Stuck 2 1 7 (fun x : Nat => some (Res.val (E := Unit) (x * x))) w' := by
  obtain ⟨k', w', h1, h2⟩ := C18_ends 2 7 (fun x : Nat => some (Res.val (E := Unit) (x * x))) [1, 2, 3] [] (by simp) 0 _ (.refl _)
  exact ⟨_, w', h1, h2⟩

/-- A sorting function exists. -/
theorem exists_argsort : ∃ argsort, IsArgsort argsort := by
  refine ⟨fun keys => (List.range keys.length).mergeSort (fun i j => decide (keys.getD i 0 ≤ keys.getD j 0)), fun keys => ⟨List.mergeSort_perm _ _, ?_⟩⟩
  have h := List.pairwise_mergeSort (le := fun i j => decide (keys.getD i 0 ≤ keys.getD j 0)) (fun a b c => by simp only [decide_eq_true_eq]; exact le_trans)
    (fun a b => by simp only [Bool.or_eq_true, decide_eq_true_eq]; exact le_total _ _) (List.range keys.length)
  rw [List.pairwise_map]
  refine h.imp fun {a b} hab x y hx hy => ?_
  simpa [hx, hy] using hab

/-! ### C19 -/

/-- C19, for functions whose exceptions can be rebuilt from one message: every execution that cannot be continued has
finished the map, and `collect` raises one of the exceptions raised by `f` on an item of the list if there is
one, and otherwise raises nothing. Missing: exceptions whose class cannot be called with a single string. -/
theorem C19_exceptions_partial (n id : Nat) (hn : 0 < n) (f : X → Res R E) (xs : List X) (stale : List (Nat × Nat))
    (hstale : ∀ e ∈ stale, e.2 ≠ id) (k : Nat) (w : World X R E)
    (hrun : Steps n 1 id (fun x => some (f x)) k (start xs stale) w) (hstuck : Stuck n 1 id (fun x => some (f x)) w)
    (argsort : List Nat → List Nat) :
    (∀ l < n, w.phase l = .finished) ∧
    ((∃ x ∈ xs, ∃ e, f x = .exc e) → ∃ x ∈ xs, ∃ e, f x = .exc e ∧ collect argsort (gathered n w) = .error e) ∧
    ((∀ x ∈ xs, ∃ r, f x = .val r) → ∃ l, collect argsort (gathered n w) = .ok l) := by
  have hinv := steps_inv (start_inv xs n id (fun x => some (f x)) stale hstale) hrun
  have hfin := stuck_finished hinv (by simp) hstuck
  have hdone : ∀ l < n, w.done l = true := fun l hl => by
    have := hinv.leader l hl
    unfold LeaderOk at this
    rw [hfin l hl] at this
    exact this.2.2
  have hg := all_done_gathered hinv hn hdone
  have hmem : ∀ i r, (i, r) ∈ gathered n w → ∃ x ∈ xs, f x = r := by
    intro i r h
    have : (i, some r) ∈ (gathered n w).map fun e => (e.1, some e.2) := List.mem_map.2 ⟨_, h, rfl⟩
    obtain ⟨e, he, heq⟩ := List.mem_map.1 (hg.mem_iff.1 this)
    simp only [Prod.mk.injEq, Option.some.injEq] at heq
    exact ⟨e.2, mem_tagged_snd he, heq.2⟩
  have hmem' : ∀ x ∈ xs, ∃ i, (i, f x) ∈ gathered n w := by
    intro x hx
    obtain ⟨j, hj, rfl⟩ := List.mem_iff_getElem.1 hx
    have : (j + 1, xs[j]) ∈ tagged xs := List.mem_map.2 ⟨(xs[j], j), List.mk_mem_zipIdx_iff_getElem?.2 (by simp [hj]), rfl⟩
    obtain ⟨⟨i, r⟩, he, heq⟩ := List.mem_map.1 (hg.mem_iff.2 (List.mem_map.2 ⟨_, this, rfl⟩))
    simp only [Prod.mk.injEq, Option.some.injEq] at heq
    exact ⟨i, by rw [← heq.2]; exact he⟩
  refine ⟨hfin, ?_, ?_⟩
  · rintro ⟨x, hx, e, he⟩
    obtain ⟨i, hi⟩ := hmem' x hx
    rw [he] at hi
    obtain ⟨i', e', h1, h2⟩ := accumulate_exc ⟨i, e, hi⟩
    obtain ⟨x', hx', hfx'⟩ := hmem i' _ h1
    exact ⟨x', hx', e', hfx', by simp [collect, h2]⟩
  · intro hall
    have hacc : ∀ L : List (Nat × Res R E), (∀ e ∈ L, ∃ r, e.2 = .val r) → ∃ p, accumulate L = .ok p := by
      intro L
      induction L with
      | nil => intro _; exact ⟨_, rfl⟩
      | cons e L ih =>
        intro h
        obtain ⟨i, r⟩ := e
        obtain ⟨r', hr'⟩ := h (i, r) (by simp)
        simp only at hr'
        subst hr'
        obtain ⟨p, hp⟩ := ih fun e he => h e (by simp [he])
        exact ⟨_, by simp only [accumulate, hp]; rfl⟩
    obtain ⟨p, hp⟩ := hacc (gathered n w) fun e he => by
      obtain ⟨x, hx, hfx⟩ := hmem e.1 e.2 he
      obtain ⟨r, hr⟩ := hall x hx
      exact ⟨r, by rw [← hfx, hr]⟩
    exact ⟨_, by simp only [collect, hp]; rfl⟩

/-- C19 fails in general: if the exception raised by the only item cannot be rebuilt, the leader dies and the scheduler
waits for ever: no process can move, and the loop of the scheduler has not ended. -/
theorem C19_unbuildable_exception_violated :
    ∃ k w, Steps 1 1 7 (fun _ : Nat => (none : Option (Res Nat Unit))) k (start [5] []) w ∧
      Stuck 1 1 7 (fun _ : Nat => (none : Option (Res Nat Unit))) w ∧ w.done 0 = false ∧ w.crashed = false := by
  obtain ⟨k', w, h1, h2⟩ := C18_ends 1 7 (fun _ : Nat => (none : Option (Res Nat Unit))) [5] [] (by simp) 0 _ (.refl _)
  have hinv := steps_inv (start_inv [5] 1 7 (fun _ : Nat => (none : Option (Res Nat Unit))) [] (by simp)) h1
  refine ⟨_, w, h1, h2, ?_, hinv.notCrashed⟩
  cases hd : w.done 0 with
  | false => rfl
  | true =>
    have hd' : ∀ l < 1, w.done l = true := fun l hl => by
      obtain rfl : l = 0 := by omega
      exact hd
    have hg := all_done_gathered hinv (by omega) hd'
    have h5 : (1, (none : Option (Res Nat Unit))) ∈ (tagged [5]).map (fun e => (e.1, (none : Option (Res Nat Unit)))) := by
      simp [tagged]
    obtain ⟨e, -, he⟩ := List.mem_map.1 (hg.mem_iff.2 h5)
    simp at he

/-- The second hypothesis pattern of C19 is met: some items fail, some do not. -/
example : ∃ k w', Steps 2 1 7 (fun x : Nat => some (if x = 2 then .exc "bad" else Res.val (x * x))) k (start [1, 2, 3] []) w' ∧
    Stuck 2 1 7 (fun x : Nat => some (if x = 2 then .exc "bad" else Res.val (x * x))) w' := by
  obtain ⟨k', w', h1, h2⟩ := C18_ends 2 7 (fun x : Nat => some (if x = 2 then Res.exc "bad" else Res.val (x * x))) [1, 2, 3] []
    (by simp) 0 _ (.refl _)
  exact ⟨_, w', h1, h2⟩

/-! ### C21 -/

/-- C21 fails for every chunk size of two or more: when one request is served, either the scheduler raises (`pop` from
an empty list) or the last pending item is sent in two messages. -/
theorem C21_chunks_violated (c : Nat) (hc : 2 ≤ c) (p : List X) (x : X) (hx : p.getLast? = some x) :
    (chunkLoop p.length c 0 [] p []).2.2 = false ∨
    ∃ m1 m2 rest, (chunkLoop p.length c 0 [] p []).1 = m1 :: m2 :: rest ∧ (p.length, x) ∈ m1 ∧ (p.length, x) ∈ m2 := by
  have hmono : ∀ k (i : Nat) (ch : List (Nat × X)) (q : List X) (out : List (List (Nat × X))),
      ∃ r, (chunkLoop p.length k i ch q out).1 = out ++ r := by
    intro k
    induction k with
    | zero => intro i ch q out; exact ⟨[], by simp [chunkLoop]⟩
    | succ k ih =>
      intro i ch q out
      rw [chunkLoop]
      cases q.getLast? with
      | none => exact ⟨[], by simp⟩
      | some y =>
        obtain ⟨r, hr⟩ := ih (i + 1) (ch ++ [(p.length - i, y)]) q.dropLast (out ++ [ch ++ [(p.length - i, y)]])
        exact ⟨(ch ++ [(p.length - i, y)]) :: r, by simp only [hr]; simp⟩
  obtain ⟨k, rfl⟩ : ∃ k, c = k + 2 := ⟨c - 2, by omega⟩
  rw [chunkLoop, hx]
  simp only [Nat.sub_zero, List.nil_append, Nat.zero_add]
  rw [chunkLoop]
  cases hq : p.dropLast.getLast? with
  | none => left; rfl
  | some y =>
    right
    simp only
    obtain ⟨r, hr⟩ := hmono k (1 + 1) ([(p.length, x)] ++ [(p.length - 1, y)]) p.dropLast.dropLast
      ([[(p.length, x)]] ++ [[(p.length, x)] ++ [(p.length - 1, y)]])
    exact ⟨_, _, r, by rw [hr]; rfl, by simp, by simp⟩

/-- C21, chunk size one (the only size the backend's constructor uses): every item is sent exactly once.
Missing: chunk sizes above one, where the claim is false. -/
theorem C21_chunks_partial (n id : Nat) (hn : 0 < n) (f : X → Option (Res R E)) (xs : List X) (k : Nat)
    (w : World X R E) (hf : ∀ x ∈ xs, f x ≠ none) (hrun : Steps n 1 id f k (start xs []) w)
    (hstuck : Stuck n 1 id f w) : (w.sent.map fun e => e.2).Perm (xs.zipIdx.map fun e => (e.2 + 1, e.1)) := by
  have hinv := steps_inv (start_inv xs n id f [] (by simp)) hrun
  have hfin := stuck_finished hinv hf hstuck
  have hp : w.pending = [] := hinv.doneEmpty 0 hn (by
    have := hinv.leader 0 hn
    unfold LeaderOk at this
    rw [hfin 0 hn] at this
    exact this.2.2)
  have hsb := hinv.sentBag
  rw [hp, List.length_nil, List.drop_zero] at hsb
  exact hsb

end Verif.Mpi
