import Verif.Mcmc.Lemmas
/-
C52 (the chain) and C54 (restarts).
-/
namespace Verif.Mcmc

variable {W α T Cov : Type}

/-- One run: where it starts and its moves. -/
structure Run (α : Type) where
  burnin : Nat
  start : Pos α
  moves : List (Move α)

/-- The states after burn-in, in order. -/
def Run.states (r : Run α) : List (List α) := ((positions r.start r.moves).drop r.burnin).map Pos.θ

/-- Accepted moves after burn-in. -/
def Run.accepted (r : Run α) : Nat := (r.moves.drop r.burnin).countP fun m => m.moved

def Run.stop (r : Run α) : Pos α := last r.start r.moves

/-- A run that does what the arguments of the call ask for. -/
structure Run.Ok (env : Env W α T Cov) (a : Args α Cov) (r : Run α) : Prop where
  burnin : r.burnin = a.burnin
  length : r.moves.length = a.burnin + a.n
  chain : IsChain env r.start r.moves

/-- The columns a user looks up by name: for every name the values of the (last) parameter of that name along the chain. -/
def columns (names : List String) (chain : List (List α)) (name : String) : Option (List (List α)) :=
  (names.zipIdx.reverse.find? fun e => e.1 == name).map fun e => chain.map fun p => (p.drop e.2).take 1

theorem asDict_namedColumns (names : List String) (chain : List (List α)) : asDict (Journal.namedColumns names chain) = columns names chain := by
  funext name
  rw [asDict, Journal.namedColumns, ← List.map_reverse, List.find?_map, Option.map_map]
  rfl

/-- **C52.** A call that returns, without a journal file: there is a Metropolis-Hastings chain of `burnin + n_samples` steps, starting at the given point or a draw
from the prior, whose last `n_samples` states are the states in the journal, in order, each with weight one; the acceptance rate is the number of
moves among the last `n_samples` steps over `n_samples`, and the number of simulations grew by one for the start and one for every proposal of non-zero prior density.
Missing: with bounds and one parameter no call returns (`C52_one_bounded_violated`). -/
theorem C52_chain_partial (env : Env W α T Cov) (a : Args α Cov) (w w' : W) (counter : Nat) (j : Jrn α Cov) (h : fresh env a w counter = some (w', j)) :
    ∃ r : Run α, r.Ok env a ∧ (a.ini = some r.start.θ ∨ a.ini = none ∧ r.start.θ = (env.prior w).2) ∧ (∃ w0, r.start.ll = (env.loglik r.start.θ w0).2) ∧
      0 < a.n ∧ j.chain = r.states ∧ j.chain.length = a.n ∧ j.weights = List.replicate a.n 1 ∧ j.rates = [(r.accepted : ℝ) / a.n] ∧
      j.sims = [counter + 1 + simulated env r.moves] ∧ j.n = a.n ∧ j.ll = r.stop.ll ∧ j.user = columns env.names r.states ∧
      j.chain.getLast? = some r.stop.θ := by
  unfold fresh at h
  simp only at h
  generalize hx : initial env a w = x at h
  cases hb : begin_ env (env.loglik x.2 x.1).1 x.2 (env.loglik x.2 x.1).2 a.cov (if a.burnin = 0 then [x.2] else []) 0 (counter + 1) with
  | none => simp [hb] at h
  | some s0 =>
    simp only [hb] at h
    cases hl : loop env a.burnin a.interval (List.range (a.burnin + a.n)) s0 with
    | none => simp [hl] at h
    | some s =>
      simp only [hl] at h
      by_cases hn : a.n = 0
      · rw [if_pos hn] at h; simp at h
      · rw [if_neg hn] at h
        simp only [Option.some.injEq, Prod.mk.injEq] at h
        obtain ⟨-, rfl⟩ := h
        rw [List.range_eq_range'] at hl
        obtain ⟨ms, l, i⟩ := inv_loop (a.burnin + a.n) (inv_begin hb a.burnin) hl
        simp only [List.length_nil, Nat.zero_add] at l
        have hlen : s.chain.length = a.n := by rw [i.states, List.length_map, List.length_drop, positions_length, l]; omega
        refine ⟨⟨a.burnin, ⟨x.2, (env.loglik x.2 x.1).2⟩, ms⟩, ⟨rfl, l, i.chain⟩, ?_, ⟨x.1, rfl⟩, by omega, i.states, hlen, rfl, ?_, ?_, rfl, ?_, ?_, ?_⟩
        · cases ha : a.ini with
          | none => right; exact ⟨rfl, by rw [← hx, initial, ha]⟩
          | some θ => left; rw [← hx, initial, ha]
        · simp only [i.acc, zero_add]; rfl
        · simp only [i.sims]
        · exact congrArg Pos.ll i.pos
        · simp only [asDict_namedColumns, i.states]; rfl
        · simp only
          rw [i.states, List.getLast?_map, List.getLast?_drop, if_neg (by rw [positions_length, l]; omega), positions_getLast? _ _ (by rintro rfl; simp at l; omega)]
          rfl

/-- **C52, every state is the previous one or an accepted proposal.** -/
theorem C52_states (env : Env W α T Cov) (x : Pos α) (ms : List (Move α)) (h : IsChain env x ms) (k : Nat) (m : Move α) (hm : ms[k]? = some m) :
    ∃ before after, (x :: positions x ms)[k]? = some before ∧ (positions x ms)[k]? = some after ∧
      (m.moved = false ∧ after = before ∨ m.moved = true ∧ after = ⟨m.prop, m.ll⟩ ∧ env.pdf m.prop ≠ 0) := by
  induction ms generalizing x k with
  | nil => simp at hm
  | cons m' ms ih =>
    cases k with
    | zero =>
      simp only [List.getElem?_cons_zero, Option.some.injEq] at hm
      subst hm
      refine ⟨x, next x m', rfl, rfl, ?_⟩
      cases hmv : m'.moved with
      | false => left; simp [next, hmv]
      | true => right; exact ⟨rfl, by simp [next, hmv], (h.1.1 hmv).1⟩
    | succ k =>
      simp only [List.getElem?_cons_succ] at hm
      obtain ⟨b, a, h1, h2, h3⟩ := ih (next x m') h.2.2 k hm
      exact ⟨b, a, by simpa [positions] using h1, by simpa [positions] using h2, h3⟩

/-! ### Restarts -/

/-- The journal after a session of calls with arguments `args`: all runs, each continuing where the previous one stopped. -/
structure Session (env : Env W α T Cov) (counter : Nat) (args : List (Args α Cov)) (runs : List (Run α)) (j : Jrn α Cov) : Prop where
  /-- every run is a Metropolis-Hastings chain of the requested length -/
  ok : List.Forall₂ (Run.Ok env) args runs
  /-- every run starts where the previous one stopped, with the estimate of the likelihood obtained there -/
  linked : runs.IsChain fun r r' => r'.start = r.stop
  /-- the journal holds the concatenation of all chains -/
  chain : j.chain = runs.flatMap Run.states
  /-- also by name -/
  user : j.user = columns env.names (runs.flatMap Run.states)
  /-- one weight per state -/
  n : j.n = (args.map Args.n).sum
  weights : j.weights = List.replicate (args.map Args.n).sum 1
  /-- one acceptance rate per call, the last one is that of the whole chain -/
  rates : j.rates.length = runs.length
  rate : j.rates.getLast? = some (((runs.map Run.accepted).sum : ℝ) / (args.map Args.n).sum)
  /-- simulations are counted over all calls -/
  sims : j.sims.getLast? = some (counter + 1 + (runs.map fun r => simulated env r.moves).sum)
  /-- what the next call starts from -/
  stop : ∃ r, runs.getLast? = some r ∧ j.chain.getLast? = some r.stop.θ ∧ j.ll = r.stop.ll

theorem columns_join (names : List String) (a b : List (List α)) :
    ∃ cols, joinColumns (columns names a) (Journal.namedColumns names b) = some cols ∧ asDict cols = columns names (a ++ b) := by
  have hold : ∀ e ∈ names.zipIdx, ∃ i, columns names a e.1 = some (a.map fun p => (p.drop i).take 1) ∧
      (names.zipIdx.reverse.find? fun x => x.1 == e.1) = some (e.1, i) := by
    intro e he
    cases hf : names.zipIdx.reverse.find? fun x => x.1 == e.1 with
    | none =>
      rw [List.find?_eq_none] at hf
      exact absurd (hf e (by simpa using he)) (by simp)
    | some y =>
      have := List.find?_some hf
      simp only [beq_iff_eq] at this
      exact ⟨y.2, by rw [columns, hf]; rfl, by rw [← this]⟩
  let f : String × Nat → Nat := fun e => ((names.zipIdx.reverse.find? fun x => x.1 == e.1).map (·.2)).getD 0
  have hcol : joinColumns (columns names a) (Journal.namedColumns names b) =
      some (names.zipIdx.map fun e => (e.1, (a.map fun p => (p.drop (f e)).take 1) ++ b.map fun p => (p.drop e.2).take 1)) := by
    rw [joinColumns, collect_eq_some, Journal.namedColumns, List.map_map, List.map_map]
    refine List.map_congr_left fun e he => ?_
    obtain ⟨i, h1, h2⟩ := hold e he
    simp only [Function.comp, h1, Option.map_some, f, h2, Option.getD_some]
  refine ⟨_, hcol, ?_⟩
  funext name
  rw [asDict, ← List.map_reverse, List.find?_map, Option.map_map, columns]
  change Option.map _ (names.zipIdx.reverse.find? fun e => e.1 == name) = _
  cases hf : names.zipIdx.reverse.find? fun e => e.1 == name with
  | none => rfl
  | some y =>
    have hy := List.find?_some hf
    simp only [beq_iff_eq] at hy
    simp only [Option.map_some, Function.comp, List.map_append, Option.some.injEq]
    have : f y = y.2 := by simp only [f, hy, hf]; rfl
    rw [this]

theorem fresh_session {env : Env W α T Cov} {a : Args α Cov} {w w' : W} {counter : Nat} {j : Jrn α Cov} (h : fresh env a w counter = some (w', j)) :
    ∃ r, Session env counter [a] [r] j := by
  obtain ⟨r, h1, -, -, -, h5, h6, h7, h8, h9, h10, h11, h12, h13⟩ := C52_chain_partial env a w w' counter j h
  refine ⟨r, .cons h1 .nil, .singleton _, by simpa using h5, by simpa using h12, by simpa using h10, by simpa using h7, by simp [h8], ?_, ?_, r, rfl, h13, h11⟩
  · rw [h8]; simp
  · rw [h9]; simp

theorem restart_session {env : Env W α T Cov} {counter : Nat} {args : List (Args α Cov)} {runs : List (Run α)} {j : Jrn α Cov}
    (hs : Session env counter args runs j) (hpos : 0 < (args.map Args.n).sum) {a : Args α Cov} (ha : 0 < a.n) {w w' : W} {j' : Jrn α Cov}
    (h : restart env a w j = some (w', j')) : ∃ r, Session env counter (args ++ [a]) (runs ++ [r]) j' := by
  obtain ⟨r0, q1, q2, q3⟩ := hs.stop
  unfold restart at h
  rw [hs.rate, q2, hs.sims] at h
  simp only at h
  generalize hc : counter + 1 + (runs.map fun r => simulated env r.moves).sum = c at h
  cases hb : begin_ env w r0.stop.θ j.ll (some (a.cov.getD j.cov)) [] (((runs.map Run.accepted).sum : ℝ) / (args.map Args.n).sum * j.n) c with
  | none => simp only [hb] at h; cases h
  | some s0 =>
    simp only [hb] at h
    cases hl : loop env a.burnin a.interval (List.range (a.burnin + a.n)) s0 with
    | none => simp [hl] at h
    | some s =>
      simp only [hl] at h
      rw [if_neg (by omega)] at h
      rw [List.range_eq_range'] at hl
      obtain ⟨ms, l, i⟩ := inv_loop (a.burnin + a.n) (inv_begin hb a.burnin) hl
      simp only [List.length_nil, Nat.zero_add] at l
      obtain ⟨cols, c1, c2⟩ := columns_join env.names (runs.flatMap Run.states) s.chain
      rw [hs.user, c1] at h
      simp only [Option.some.injEq, Prod.mk.injEq] at h
      obtain ⟨-, rfl⟩ := h
      let r : Run α := ⟨a.burnin, r0.stop, ms⟩
      have hr0 : (⟨r0.stop.θ, j.ll⟩ : Pos α) = r0.stop := by rw [q3]
      rw [hr0] at i
      have hst : s.chain = r.states := i.states
      have hne : (((args.map Args.n).sum : Nat) : ℝ) ≠ 0 := by exact_mod_cast hpos.ne'
      have hac : s.accepted = ((runs.map Run.accepted).sum : Nat) + (r.accepted : ℝ) := by
        rw [i.acc, hs.n, div_mul_cancel₀ _ hne]
        simp [r, Run.accepted]
      refine ⟨r, ?_, ?_, ?_, ?_, ?_, ?_, ?_, ?_, ?_, r, by simp, ?_, ?_⟩
      · exact List.rel_append hs.ok (.cons ⟨rfl, l, i.chain⟩ .nil)
      · rw [List.isChain_append]
        refine ⟨hs.linked, .singleton _, ?_⟩
        intro x hx y hy
        rw [q1] at hx
        simp only [List.head?_cons, Option.mem_def, Option.some.injEq] at hx hy
        subst hx; subst hy; rfl
      · simp [hs.chain, hst]
      · simp only [c2, hst, List.flatMap_append, List.flatMap_cons, List.flatMap_nil, List.append_nil]
      · simp [hs.n]
      · simp [hs.n]
      · simp [hs.rates]
      · simp only [List.getLast?_append, List.getLast?_singleton, Option.some_or, hac, hs.n]
        simp
      · simp only [List.getLast?_append, List.getLast?_singleton, Option.some_or, i.sims, ← hc, List.map_append, List.map_cons, List.map_nil, List.sum_append, List.sum_cons, List.sum_nil]
        rw [Nat.add_assoc]; rfl
      · have hlen : s.chain ≠ [] := by
          intro h0
          have := congrArg List.length h0
          rw [i.states, List.length_map, List.length_drop, positions_length, l] at this
          simp at this; omega
        simp only [List.getLast?_append_of_ne_nil _ hlen]
        rw [i.states, List.getLast?_map, List.getLast?_drop, if_neg (by rw [positions_length, l]; omega), positions_getLast? _ _ (by rintro rfl; simp at l; omega)]
        rfl
      · exact congrArg Pos.ll i.pos

/-- **C54.** After a first call and any sequence of restarts, each asking for at least one state: the journal holds the concatenation of all chains, each of which starts
where the previous one stopped, one weight per state, and the last acceptance rate is that of the whole chain. -/
theorem C54_restarts (env : Env W α T Cov) (a : Args α Cov) (w w' : W) (counter : Nat) (j0 j : Jrn α Cov) (calls : List (Args α Cov × W))
    (hn : ∀ c ∈ calls, 0 < c.1.n) (h0 : fresh env a w counter = some (w', j0)) (h : restarts env j0 calls = some j) :
    ∃ runs, Session env counter (a :: calls.map Prod.fst) runs j := by
  obtain ⟨-, -, -, -, hpos, -⟩ := C52_chain_partial env a w w' counter j0 h0
  obtain ⟨r, hr⟩ := fresh_session h0
  have key : ∀ (calls : List (Args α Cov × W)) (args : List (Args α Cov)) (runs : List (Run α)) (j0 : Jrn α Cov),
      (∀ c ∈ calls, 0 < c.1.n) → 0 < (args.map Args.n).sum → Session env counter args runs j0 → restarts env j0 calls = some j →
      ∃ runs', Session env counter (args ++ calls.map Prod.fst) runs' j := by
    intro calls
    induction calls with
    | nil =>
      intro args runs j0 _ _ hs h
      simp only [restarts, Option.some.injEq] at h
      subst h
      exact ⟨runs, by simpa using hs⟩
    | cons c calls ih =>
      intro args runs j0 hn hp hs h
      obtain ⟨a, w⟩ := c
      rw [restarts] at h
      cases hr : restart env a w j0 with
      | none => simp [hr] at h
      | some q =>
        simp only [hr] at h
        obtain ⟨r, hs'⟩ := restart_session hs hp (hn (a, w) (by simp)) (w' := q.1) (j' := q.2) hr
        obtain ⟨runs', hf⟩ := ih (args ++ [a]) (runs ++ [r]) q.2 (fun c hc => hn c (by simp [hc])) (by simp; omega) hs' h
        exact ⟨runs', by simpa using hf⟩
  exact key calls [a] [r] j0 hn (by simpa using hpos) hr h

end Verif.Mcmc
