import Verif.Mpi.Release
/-
C167: what tasks read from the manager of accepted parameters (abcpy/acceptedparametersmanager.py 7-79) is what was handed over last, and nothing else is kept.

The manager holds five broadcast objects. Assigning a new one drops the last reference to the old one, so CPython destroys it at once (`BDSMPI.__del__`, abcpy/backends/mpi.py 763-773); no other reference is kept by the
samplers. Tasks are methods of the sampler; the pickled sampler carries the manager with the numbers of its broadcast objects, and `value()` (757-761) looks them up in the store of the process.
-/
namespace Verif.Mpi

variable {V E : Type}

/-! ### Model -/

/-- The attributes of the manager, lines 20-26. -/
inductive Slot
  | observations | parameters | weights | covMats | kernelValues
deriving DecidableEq

/-- What a sampler does: calls of the manager, and rounds of tasks that may read what the manager holds (`parallelize`, `map`, `collect`). A value `none` for an attribute is `None`. -/
inductive Call (V E : Type)
  /-- lines 28-38 -/
  | broadcast (v : V)
  /-- lines 40-51 -/
  | updateKernelValues (v : V)
  /-- lines 53-79: arguments that are not given stay `None`. -/
  | updateBroadcast (parameters weights covMats : Option V)
  | round (f : (Slot → Option V) → V → Res V E) (xs : List V)

/-- The manager: for every attribute the broadcast object (by the order of creation), or `None`. `nb`, `nd`: how many broadcast objects and distributed data sets have been created. -/
structure Manager where
  slot : Slot → Option Nat
  nb : Nat
  nd : Nat

/-- Lines 16-26. -/
def Manager.init : Manager := ⟨fun _ => none, 0, 0⟩

/-- `self.x_bds = backend.broadcast(v)`: the new object is created, then the old one destroyed. -/
def Manager.assign (g : Manager) (s : Slot) (v : V) : Manager × List (Op V E) :=
  ({ g with slot := Function.update g.slot s (some g.nb), nb := g.nb + 1 }, .broadcast v :: (match g.slot s with | none => [] | some b => [.delBds b]))

/-- `if not x is None: self.x_bds = backend.broadcast(x)`, lines 74-79. -/
def Manager.assignIf (g : Manager) (s : Slot) : Option V → Manager × List (Op V E)
  | none => (g, [])
  | some v => g.assign s v

/-- One call, with the calls of the backend that it makes. -/
def Manager.call (g : Manager) : Call V E → Manager × List (Op V E)
  | .broadcast v => g.assign .observations v
  | .updateKernelValues v => g.assign .kernelValues v
  | .updateBroadcast p w c =>
    let r1 := g.assignIf (E := E) .parameters p
    let r2 := r1.1.assignIf (E := E) .weights w
    let r3 := r2.1.assignIf (E := E) .covMats c
    (r3.1, r1.2 ++ r2.2 ++ r3.2)
  | .round f xs => ({ g with nd := g.nd + 2 },
      [.parallelize xs, .map (fun read x => f (fun s => (g.slot s).bind read) x) g.nd, .collect (g.nd + 1)])

/-- A session. -/
def Manager.program : Manager → List (Call V E) → List (Op V E)
  | _, [] => []
  | g, c :: cs => (g.call c).2 ++ Manager.program (g.call c).1 cs

/-! ### Specification -/

/-- The values handed over last. -/
def Call.hold (held : Slot → Option V) : Call V E → Slot → Option V
  | .broadcast v, .observations => some v
  | .updateKernelValues v, .kernelValues => some v
  | .updateBroadcast (some v) _ _, .parameters => some v
  | .updateBroadcast _ (some v) _, .weights => some v
  | .updateBroadcast _ _ (some v), .covMats => some v
  | _, s => held s

def holdAll (held : Slot → Option V) : List (Call V E) → Slot → Option V
  | [] => held
  | c :: cs => holdAll (c.hold held) cs

/-- The answer of a round: the results in order, or the exception of a task. -/
def Answer (held : Slot → Option V) (f : (Slot → Option V) → V → Res V E) (xs : List V) (o : Out V E) : Prop :=
  (∃ ys, o = .list ys ∧ ys.map .val = xs.map (f held)) ∨ ∃ e, o = .raised e ∧ .exc e ∈ xs.map (f held)

/-- The answers of the rounds of a session. -/
inductive Answers : (Slot → Option V) → List (Call V E) → List (Out V E) → Prop
  | nil (held) : Answers held [] []
  | round (held f xs cs o os) : Answer held f xs o → Answers held cs os → Answers held (.round f xs :: cs) (o :: os)
  | call (held c cs os) : (∀ f xs, c ≠ .round f xs) → Answers (c.hold held) cs os → Answers held (c :: cs) os

/-- What the caller sees of the outputs of the backend. -/
def shown (os : List (Out V E)) : List (Out V E) := os.filter fun | .unit => false | _ => true

/-! ### Proof -/

/-- The manager's objects are alive, different, and hold the values handed over last; all other objects are destroyed. -/
structure Holds (g : Manager) (s : SState V E) (held : Slot → Option V) : Prop where
  nb : s.bdata.length = g.nb
  nd : s.data.length = g.nd
  alive : ∀ h, s.alive h = true
  full : ∀ t b, g.slot t = some b → b < g.nb ∧ s.balive b = true ∧ s.bdata[b]? = held t
  empty : ∀ t, g.slot t = none → held t = none
  inj : ∀ t t' b, g.slot t = some b → g.slot t' = some b → t = t'
  rest : ∀ b, b < g.nb → s.balive b = true → ∃ t, g.slot t = some b
  later : ∀ b, g.nb ≤ b → s.balive b = true

theorem holds_init : Holds Manager.init (SState.init : SState V E) (fun _ => none) := by
  constructor <;> simp [Manager.init, SState.init]

theorem Holds.read {g : Manager} {s : SState V E} {held : Slot → Option V} (h : Holds g s held) : (fun t => (g.slot t).bind s.read) = held := by
  funext t
  cases hs : g.slot t with
  | none => rw [h.empty t hs]; rfl
  | some b =>
    obtain ⟨_, h2, h3⟩ := h.full t b hs
    simp [SState.read, h2, h3]

/-- The program can be run, and every run of it satisfies `Q`. -/
def Sure (n : Nat) (argsort : List Nat → List Nat) (m : MState V E) (ops : List (Op V E)) (Q : List (Out V E) → MState V E → Prop) : Prop :=
  (∃ os m', MRun n argsort m ops os m') ∧ ∀ os m', MRun n argsort m ops os m' → Out.broken ∉ os ∧ Q (shown os) m'

theorem sure_op {n : Nat} (hn : 0 < n) {argsort : List Nat → List Nat} (ha : IsArgsort argsort) {m : MState V E} {s : SState V E} (h : Rel n m s) {op : Op V E}
    (hs : ∃ s' o, SStep s op s' o) (ops : List (Op V E)) (Q : List (Out V E) → MState V E → Prop)
    (hP : ∀ m1 s1 o, Rel n m1 s1 → SStep s op s1 o → Sure n argsort m1 ops (fun os m' => Q (shown [o] ++ os) m')) :
    Sure n argsort m (op :: ops) Q := by
  obtain ⟨s', o, hs⟩ := hs
  obtain ⟨⟨m1, o1, h1, h2⟩, h3⟩ := step_progress (argsort := argsort) ha h hs
  constructor
  · obtain ⟨s1, hs1, hr1⟩ := step_rel hn ha h h1 h2
    obtain ⟨⟨os, m', h4⟩, -⟩ := hP m1 s1 o1 hr1 hs1
    exact ⟨_, _, .cons h1 h2 h4⟩
  · intro os m' hrun
    cases hrun with
    | cons h4 h5 h6 =>
      obtain ⟨s1, hs1, hr1⟩ := step_rel hn ha h h4 h5
      obtain ⟨h7, h8⟩ := (hP _ s1 _ hr1 hs1).2 _ _ h6
      refine ⟨by simp only [List.mem_cons, not_or]; exact ⟨fun e => h5 e.symm, h7⟩, ?_⟩
      rwa [shown, shown, ← List.filter_append] at h8
    | broken h4 => exact absurd h4 (h3 _)

theorem sure_assign {n : Nat} (hn : 0 < n) {argsort : List Nat → List Nat} (ha : IsArgsort argsort) {m : MState V E} {s : SState V E} (h : Rel n m s) {g : Manager} {held : Slot → Option V}
    (hh : Holds g s held) (t : Slot) (v : V) (ops : List (Op V E)) (Q : List (Out V E) → MState V E → Prop)
    (hP : ∀ m1 s1, Rel n m1 s1 → Holds (g.assign (E := E) t v).1 s1 (Function.update held t (some v)) → Sure n argsort m1 ops Q) :
    Sure n argsort m ((g.assign t v).2 ++ ops) Q := by
  rw [Manager.assign, List.cons_append]
  refine sure_op hn ha h ⟨_, _, .broadcast s v⟩ _ _ fun m1 s1 o r1 st => ?_
  cases st
  have e0 : ∀ os : List (Out V E), shown [(.unit : Out V E)] ++ os = os := fun os => rfl
  simp only [e0]
  cases hs : g.slot t with
  | none =>
    refine hP _ _ r1 ⟨by simp [Manager.assign, hh.nb], hh.nd, hh.alive, ?_, ?_, ?_, ?_, ?_⟩
    · intro t' b hb
      simp only [Manager.assign, Function.update_apply] at hb ⊢
      by_cases ht : t' = t
      · rw [if_pos ht] at hb ⊢
        cases hb
        exact ⟨by omega, hh.later _ le_rfl, by simp [← hh.nb]⟩
      · rw [if_neg ht] at hb ⊢
        obtain ⟨a1, a2, a3⟩ := hh.full t' b hb
        exact ⟨by omega, a2, by rw [List.getElem?_append_left (by rw [hh.nb]; exact a1)]; exact a3⟩
    · intro t' hb
      simp only [Manager.assign, Function.update_apply] at hb ⊢
      by_cases ht : t' = t
      · rw [if_pos ht] at hb; cases hb
      · rw [if_neg ht] at hb ⊢; exact hh.empty t' hb
    · intro t1 t2 b h1 h2
      simp only [Manager.assign, Function.update_apply] at h1 h2
      by_cases e1 : t1 = t <;> by_cases e2 : t2 = t
      · rw [e1, e2]
      · rw [if_pos e1] at h1; rw [if_neg e2] at h2; cases h1
        have := (hh.full _ _ h2).1; omega
      · rw [if_neg e1] at h1; rw [if_pos e2] at h2; cases h2
        have := (hh.full _ _ h1).1; omega
      · rw [if_neg e1] at h1; rw [if_neg e2] at h2
        exact hh.inj _ _ _ h1 h2
    · intro b hb hal
      simp only [Manager.assign, Function.update_apply] at hb ⊢
      by_cases e : b = g.nb
      · exact ⟨t, by simp [e]⟩
      · obtain ⟨t', ht'⟩ := hh.rest b (by omega) hal
        refine ⟨t', ?_⟩
        rw [if_neg (by rintro rfl; rw [hs] at ht'; cases ht')]
        exact ht'
    · intro b hb
      simp only [Manager.assign] at hb
      exact hh.later b (by omega)
  | some b0 =>
    obtain ⟨q1, q2, q3⟩ := hh.full t b0 hs
    rw [List.cons_append, List.nil_append]
    refine sure_op hn ha r1 ⟨_, _, .delBds _ b0 (by simp [hh.nb]; omega) q2⟩ _ _ fun m2 s2 o r2 st => ?_
    cases st
    simp only [e0]
    refine hP _ _ r2 ⟨by simp [Manager.assign, hh.nb], hh.nd, hh.alive, ?_, ?_, ?_, ?_, ?_⟩
    · intro t' b hb
      simp only [Manager.assign, Function.update_apply] at hb ⊢
      by_cases ht : t' = t
      · rw [if_pos ht] at hb ⊢
        cases hb
        rw [if_neg (by omega)]
        exact ⟨by omega, hh.later _ le_rfl, by simp [← hh.nb]⟩
      · rw [if_neg ht] at hb ⊢
        obtain ⟨a1, a2, a3⟩ := hh.full t' b hb
        rw [if_neg (by rintro rfl; exact ht (hh.inj _ _ _ hb hs))]
        exact ⟨by omega, a2, by rw [List.getElem?_append_left (by rw [hh.nb]; exact a1)]; exact a3⟩
    · intro t' hb
      simp only [Manager.assign, Function.update_apply] at hb ⊢
      by_cases ht : t' = t
      · rw [if_pos ht] at hb; cases hb
      · rw [if_neg ht] at hb ⊢; exact hh.empty t' hb
    · intro t1 t2 b h1 h2
      simp only [Manager.assign, Function.update_apply] at h1 h2
      by_cases e1 : t1 = t <;> by_cases e2 : t2 = t
      · rw [e1, e2]
      · rw [if_pos e1] at h1; rw [if_neg e2] at h2; cases h1
        have := (hh.full _ _ h2).1; omega
      · rw [if_neg e1] at h1; rw [if_pos e2] at h2; cases h2
        have := (hh.full _ _ h1).1; omega
      · rw [if_neg e1] at h1; rw [if_neg e2] at h2
        exact hh.inj _ _ _ h1 h2
    · intro b hb hal
      simp only [Manager.assign, Function.update_apply] at hb hal ⊢
      by_cases e : b = g.nb
      · exact ⟨t, by simp [e]⟩
      · have e1 : b ≠ b0 := by rintro rfl; simp at hal
        rw [if_neg e1] at hal
        obtain ⟨t', ht'⟩ := hh.rest b (by omega) hal
        refine ⟨t', ?_⟩
        rw [if_neg (by rintro rfl; rw [hs] at ht'; cases ht'; exact e1 rfl)]
        exact ht'
    · intro b hb
      simp only [Manager.assign] at hb ⊢
      rw [Function.update_of_ne (by omega)]
      exact hh.later b (by omega)

theorem sure_assignIf {n : Nat} (hn : 0 < n) {argsort : List Nat → List Nat} (ha : IsArgsort argsort) {m : MState V E} {s : SState V E} (h : Rel n m s) {g : Manager} {held : Slot → Option V}
    (hh : Holds g s held) (t : Slot) (v : Option V) (ops : List (Op V E)) (Q : List (Out V E) → MState V E → Prop)
    (hP : ∀ m1 s1, Rel n m1 s1 → Holds (g.assignIf (E := E) t v).1 s1 (match v with | none => held | some v => Function.update held t (some v)) → Sure n argsort m1 ops Q) :
    Sure n argsort m ((g.assignIf t v).2 ++ ops) Q := by
  cases v with
  | none => exact hP m s h hh
  | some v => exact sure_assign hn ha h hh t v ops Q hP

theorem res_map {xs ys : List V} {g : V → Res V E} (h : (.res (xs.map g) : Content V E) = .res (ys.map .val)) : ys.map .val = xs.map g := by
  injection h with h; exact h.symm

theorem sure_round {n : Nat} (hn : 0 < n) {argsort : List Nat → List Nat} (ha : IsArgsort argsort) {m : MState V E} {s : SState V E} (h : Rel n m s) {g : Manager} {held : Slot → Option V}
    (hh : Holds g s held) (f : (Slot → Option V) → V → Res V E) (xs : List V) (ops : List (Op V E)) (Q : List (Out V E) → MState V E → Prop)
    (hP : ∀ m1 s1 o, Rel n m1 s1 → Holds { g with nd := g.nd + 2 } s1 held → Answer held f xs o → Sure n argsort m1 ops (fun os m' => Q (o :: os) m')) :
    Sure n argsort m ((g.call (.round f xs)).2 ++ ops) Q := by
  have e0 : ∀ os : List (Out V E), shown [(.unit : Out V E)] ++ os = os := fun os => rfl
  simp only [Manager.call, List.cons_append, List.nil_append]
  refine sure_op hn ha h ⟨_, _, .parallelize s xs⟩ _ _ fun m1 s1 o r1 st => ?_
  cases st
  simp only [e0]
  have hd : (s.data ++ [Content.src xs])[g.nd]? = some (.src xs) := by simp [← hh.nd]
  refine sure_op hn ha r1 ⟨_, _, .map _ _ g.nd xs hd (hh.alive _)⟩ _ _ fun m2 s2 o r2 st => ?_
  cases st with
  | map _ _ xs' hd' _ =>
    rw [hd] at hd'
    cases hd'
    have hf : xs.map ((fun read x => f (fun t => (g.slot t).bind read) x) s.read) = xs.map (f held) := by
      simp only [hh.read]
    simp only [e0]
    have hr : SState.read { s with data := s.data ++ [Content.src xs] } = s.read := rfl
    rw [hr, hf] at r2
    have hd2 : (s.data ++ [Content.src xs] ++ [Content.res (xs.map (f held))])[g.nd + 1]? = some (.res (xs.map (f held))) := by
      rw [List.getElem?_append_right (by simp [← hh.nd])]
      simp [← hh.nd]
    have hold : Holds { g with nd := g.nd + 2 } { s with data := s.data ++ [Content.src xs] ++ [Content.res (xs.map (f held))] } held :=
      ⟨hh.nb, by simp [hh.nd], hh.alive, hh.full, hh.empty, hh.inj, hh.rest, hh.later⟩
    have hposs : ∃ s' o, SStep { s with data := s.data ++ [Content.src xs] ++ [Content.res (xs.map (f held))] } (.collect (g.nd + 1)) s' o := by
      by_cases he : ∃ e, .exc e ∈ xs.map (f held)
      · obtain ⟨e, he⟩ := he
        exact ⟨_, _, .raise _ _ _ e hd2 (hh.alive _) he⟩
      · have : ∃ ys : List V, ys.map Res.val = xs.map (f held) := by
          generalize xs.map (f held) = l at he
          induction l with
          | nil => exact ⟨[], rfl⟩
          | cons a l ih =>
            obtain ⟨ys, hys⟩ := ih fun ⟨e, h⟩ => he ⟨e, by simp [h]⟩
            cases a with
            | val r => exact ⟨r :: ys, by simp [hys]⟩
            | exc e => exact absurd ⟨e, by simp⟩ he
        obtain ⟨ys, hys⟩ := this
        exact ⟨_, _, .collect _ _ ys (by rw [hys]; exact hd2) (hh.alive _)⟩
    refine sure_op hn ha r2 hposs _ _ fun m3 s3 o r3 st => ?_
    cases st with
    | collect _ ys hd3 _ =>
      have e := hd3.symm.trans hd2
      injection e with e
      exact hP _ _ (.list ys) r3 hold (.inl ⟨ys, rfl, res_map e.symm⟩)
    | raise _ rs e hd3 _ he =>
      have e' := hd3.symm.trans hd2
      injection e' with e'
      injection e' with e'
      exact hP _ _ (.raised e) r3 hold (.inr ⟨e, rfl, e' ▸ he⟩)

theorem hold_broadcast (held : Slot → Option V) (v : V) : (Call.broadcast v : Call V E).hold held = Function.update held .observations (some v) := by
  funext t; cases t <;> simp [Call.hold, Function.update_apply]

theorem hold_kernel (held : Slot → Option V) (v : V) : (Call.updateKernelValues v : Call V E).hold held = Function.update held .kernelValues (some v) := by
  funext t; cases t <;> simp [Call.hold, Function.update_apply]

theorem session {n : Nat} (hn : 0 < n) {argsort : List Nat → List Nat} (ha : IsArgsort argsort) (cs : List (Call V E)) : ∀ {m : MState V E} {s : SState V E} (_ : Rel n m s) {g : Manager}
    {held : Slot → Option V} (_ : Holds g s held), Sure n argsort m (g.program cs) fun os m' => Answers held cs os ∧ ∃ g' s', Rel n m' s' ∧ Holds g' s' (holdAll held cs) := by
  induction cs with
  | nil =>
    intro m s h g held hh
    refine ⟨⟨_, _, .nil m⟩, fun os m' hr => ?_⟩
    cases hr
    exact ⟨by simp, .nil _, g, s, h, hh⟩
  | cons c cs ih =>
    intro m s h g held hh
    have weaken : ∀ {m1 s1 g1}, Rel n m1 s1 → Holds g1 s1 (c.hold held) → (∀ f xs, c ≠ .round f xs) →
        Sure n argsort m1 (g1.program cs) fun os m' => Answers held (c :: cs) os ∧ ∃ g' s', Rel n m' s' ∧ Holds g' s' (holdAll held (c :: cs)) := by
      intro m1 s1 g1 r1 h1 hc
      obtain ⟨a1, a2⟩ := ih r1 h1
      refine ⟨a1, fun os m' hr => ?_⟩
      obtain ⟨b1, b2, b3⟩ := a2 os m' hr
      exact ⟨b1, .call _ _ _ _ hc b2, b3⟩
    rw [Manager.program]
    cases c with
    | broadcast v =>
      refine sure_assign hn ha h hh _ v _ _ fun m1 s1 r1 h1 => weaken r1 ?_ (by simp)
      rw [hold_broadcast]; exact h1
    | updateKernelValues v =>
      refine sure_assign hn ha h hh _ v _ _ fun m1 s1 r1 h1 => weaken r1 ?_ (by simp)
      rw [hold_kernel]; exact h1
    | updateBroadcast p w c =>
      simp only [Manager.call, List.append_assoc]
      refine sure_assignIf hn ha h hh .parameters p _ _ fun m1 s1 r1 h1 => ?_
      refine sure_assignIf hn ha r1 h1 .weights w _ _ fun m2 s2 r2 h2 => ?_
      refine sure_assignIf hn ha r2 h2 .covMats c _ _ fun m3 s3 r3 h3 => weaken r3 ?_ (by simp)
      convert h3 using 1
      funext t
      cases p <;> cases w <;> cases c <;> cases t <;> simp [Call.hold, Function.update_apply]
    | round f xs =>
      refine sure_round hn ha h hh f xs _ _ fun m1 s1 o r1 h1 hA => ?_
      obtain ⟨a1, a2⟩ := ih r1 h1
      refine ⟨a1, fun os m' hr => ?_⟩
      obtain ⟨b1, b2, b3⟩ := a2 os m' hr
      exact ⟨b1, .round _ _ _ _ _ _ hA b2, b3⟩

/-! ### Property -/

/-- **C167.** For every session of calls of the manager and rounds of tasks, on the MPI backend with any number of leaders: the session can be run; in every run, whatever the schedule, the backend does not fail, the tasks of
every round read for each attribute the value handed over last (so the answer of the round is that of the tasks applied to these values), and at the end the teams hold exactly one value for every attribute that has one, the one
handed over last, and no other. -/
theorem C167_latest (n : Nat) (hn : 0 < n) (argsort : List Nat → List Nat) (ha : IsArgsort argsort) (cs : List (Call V E)) :
    (∃ os m, MRun n argsort MState.init (Manager.init.program cs) os m) ∧
    ∀ os m, MRun n argsort MState.init (Manager.init.program cs) os m →
      Out.broken ∉ os ∧ Answers (fun _ => none) cs (shown os) ∧
      ∃ place : Slot → Nat, (∀ t v, holdAll (fun _ => none) cs t = some v → m.tbds (place t) = some v) ∧
        (∀ t t', holdAll (fun _ => none) cs t ≠ none → holdAll (fun _ => none) cs t' ≠ none → place t = place t' → t = t') ∧
        ∀ id, m.tbds id ≠ none → ∃ t, place t = id ∧ holdAll (fun _ => none) cs t = m.tbds id := by
  obtain ⟨h1, h2⟩ := session (V := V) (E := E) hn ha cs (init_rel n) holds_init
  refine ⟨h1, fun os m hr => ?_⟩
  obtain ⟨b1, b2, g, s, r, h⟩ := h2 os m hr
  refine ⟨b1, b2, fun t => ((g.slot t).bind (m.bobjs[·]?)).getD 0, ?_, ?_, ?_⟩
  · intro t v hv
    cases hs : g.slot t with
    | none => rw [h.empty t hs] at hv; cases hv
    | some b =>
      obtain ⟨q1, q2, q3⟩ := h.full t b hs
      have hb : b < m.bobjs.length := by rw [r.blen, h.nb]; exact q1
      have := (r.bds b m.bobjs[b] v (by simp [hb]) (q3.trans hv)).1
      simpa [hs, hb, q2] using this
  · intro t t' h1 h2 e
    cases hs : g.slot t with
    | none => exact absurd (h.empty t hs) h1
    | some b =>
      cases hs' : g.slot t' with
      | none => exact absurd (h.empty t' hs') h2
      | some b' =>
        have hb : b < m.bobjs.length := by rw [r.blen, h.nb]; exact (h.full t b hs).1
        have hb' : b' < m.bobjs.length := by rw [r.blen, h.nb]; exact (h.full t' b' hs').1
        simp only [hs, hs', Option.bind_some, List.getElem?_eq_getElem hb, List.getElem?_eq_getElem hb', Option.getD_some] at e
        have := (List.Nodup.getElem_inj_iff r.bnodup).1 e
        exact h.inj t t' b hs (this ▸ hs')
  · intro id hid
    obtain ⟨b, hb, hal⟩ := ((C148_partial n argsort _ _ m hr b1).2.2 id).1 hid
    have hb' := (List.getElem?_eq_some_iff.1 hb).1
    obtain ⟨t, ht⟩ := h.rest b (by rw [← h.nb, ← r.blen]; exact hb') (by rw [← r.balive]; exact hal)
    refine ⟨t, by simp [ht, hb], ?_⟩
    obtain ⟨q1, q2, q3⟩ := h.full t b ht
    rw [← q3]
    have hl : b < s.bdata.length := by rw [h.nb]; exact q1
    have := (r.bds b id s.bdata[b] hb (by simp [hl])).1
    rw [this, q2]
    simp [hl]

/-- A session: two populations, the second without new weights; the tasks of the second round read the new parameters and the old weights. -/
example (os : List (Out Nat Unit)) (h : Answers (fun _ => none) [.broadcast 7, .updateBroadcast (some 1) (some 2) none, .round (fun r x => .val (x + (r .parameters).getD 0)) [10, 20],
    .updateBroadcast (some 3) none none, .round (fun r x => .val (x + 100 * (r .parameters).getD 0 + (r .weights).getD 0)) [10, 20]] os) :
    os = [.list [11, 21], .list [312, 322]] := by
  have key : ∀ (xs ys : List Nat), ys.map (Res.val (E := Unit)) = xs.map .val → ys = xs := by
    intro xs ys e
    exact List.map_injective_iff.2 (fun a b h => by injection h) e
  rcases h with _ | _ | ⟨_, _, _, _, -, h⟩
  rcases h with _ | _ | ⟨_, _, _, _, -, h⟩
  rcases h with _ | ⟨_, _, _, _, o1, os, A1, h⟩ | ⟨_, _, _, _, hc, h⟩
  · rcases h with _ | _ | ⟨_, _, _, _, -, h⟩
    rcases h with _ | ⟨_, _, _, _, o2, os, A2, h⟩ | ⟨_, _, _, _, hc, h⟩
    · rcases h with _ | _ | _
      rcases A1 with ⟨ys, rfl, h1⟩ | ⟨e, rfl, h1⟩
      · rcases A2 with ⟨zs, rfl, h2⟩ | ⟨e, rfl, h2⟩
        · rw [key [11, 21] ys h1, key [312, 322] zs h2]
        · simp at h2
      · simp at h1
    · exact absurd rfl (hc _ _)
  · exact absurd rfl (hc _ _)

end Verif.Mpi
