import Verif.Mpi.Program
/-
Lemmas for the program-level properties: the MPI backend refines the specification `SStep`.
-/
namespace Verif.Mpi

variable {V E : Type}

theorem perm_map_inv {α β : Type} (g : α → β) (P0 : List α) (G : List β) (h : G.Perm (P0.map g)) :
    ∃ P : List α, G = P.map g ∧ P.Perm P0 := by
  induction P0 generalizing G with
  | nil => exact ⟨[], by simpa using h, .refl _⟩
  | cons p P0 ih =>
    have hm : g p ∈ G := h.mem_iff.2 (by simp)
    obtain ⟨A, B, rfl⟩ := List.append_of_mem hm
    have h' : (A ++ B).Perm (P0.map g) := by
      have : (g p :: (A ++ B)).Perm (g p :: P0.map g) := (List.perm_middle.symm.trans h)
      exact this.cons_inv
    obtain ⟨P, hP, hPp⟩ := ih _ h'
    obtain ⟨P1, P2, rfl, rfl, rfl⟩ := List.append_eq_map_iff.1 hP
    exact ⟨P1 ++ p :: P2, by simp, List.perm_middle.trans (hPp.cons p)⟩

theorem tagged_map {α β : Type} (g : α → β) (l : List α) : tagged (l.map g) = (tagged l).map fun e => (e.1, g e.2) := by
  simp [tagged, List.zipIdx_map, List.map_map, Function.comp_def]

theorem collect_vals {argsort : List Nat → List Nat} (ha : IsArgsort argsort) {G : List (Nat × Res V E)} (ys : List V)
    (h : G.Perm (tagged (ys.map .val))) : collect argsort G = .ok ys := by
  rw [tagged_map] at h
  obtain ⟨P, hP, hPp⟩ := perm_map_inv _ _ _ h
  simp only [collect, accumulate_vals hP]
  rw [argsort_tagged ha P ys hPp]

theorem all_val_or_exc (rs : List (Res V E)) : (∃ ys : List V, rs = ys.map .val) ∨ ∃ e, Res.exc e ∈ rs := by
  induction rs with
  | nil => exact .inl ⟨[], rfl⟩
  | cons r rs ih =>
    cases r with
    | exc e => exact .inr ⟨e, by simp⟩
    | val v =>
      rcases ih with ⟨ys, rfl⟩ | ⟨e, he⟩
      · exact .inl ⟨v :: ys, rfl⟩
      · exact .inr ⟨e, by simp [he]⟩

theorem mem_tagged {α : Type} {l : List α} {a : α} (h : a ∈ l) : ∃ i, (i, a) ∈ tagged l := by
  obtain ⟨j, hj, rfl⟩ := List.mem_iff_getElem.1 h
  exact ⟨j + 1, List.mem_map.2 ⟨(l[j], j), List.mk_mem_zipIdx_iff_getElem?.2 (by simp [hj]), rfl⟩⟩

theorem collect_cases {argsort : List Nat → List Nat} (ha : IsArgsort argsort) {G : List (Nat × Res V E)}
    {rs : List (Res V E)} (h : G.Perm (tagged rs)) :
    (∃ ys : List V, rs = ys.map .val ∧ collect argsort G = .ok ys) ∨
    (∃ e, Res.exc e ∈ rs ∧ collect argsort G = .error e) := by
  rcases all_val_or_exc rs with ⟨ys, rfl⟩ | ⟨e, he⟩
  · exact .inl ⟨ys, rfl, collect_vals ha ys h⟩
  · obtain ⟨i, hi⟩ := mem_tagged he
    obtain ⟨i', e', h1, h2⟩ := accumulate_exc ⟨i, e, h.mem_iff.2 hi⟩
    exact .inr ⟨e', mem_tagged_snd (h.mem_iff.1 h1), by simp [collect, h2]⟩

theorem requests_from {X R : Type} {n c id : Nat} {f : X → Option (Res R E)} {k : Nat} {w w' : World X R E}
    (h : Steps n c id f k w w') : ∀ e ∈ w'.requests, e ∈ w.requests ∨ e.2 = id := by
  induction h with
  | refl => exact fun e he => .inl he
  | tail _ hs ih =>
    cases hs with
    | request l hl hp =>
      intro e he
      rcases List.mem_append.1 he with he | he
      · exact ih e he
      · right; simp only [List.mem_singleton] at he; rw [he]
    | ignore a b l i hc hl hr hi =>
      intro e he; exact ih e (by rw [hr]; simp only [List.mem_append, List.mem_cons] at he ⊢; tauto)
    | stop a b l hc hl hr hi =>
      intro e he; exact ih e (by rw [hr]; simp only [List.mem_append, List.mem_cons] at he ⊢; tauto)
    | hand a b l hc hl hr hi =>
      intro e he; exact ih e (by rw [hr]; simp only [List.mem_append, List.mem_cons] at he ⊢; tauto)
    | recvStop => exact ih
    | recvChunk => exact ih
    | compute => exact ih
    | die => exact ih
    | again => exact ih

/-- The result of one map started with no request on the way. -/
theorem map_result {n id : Nat} (hn : 0 < n) {f : V → Res V E} {xs : List V} {k : Nat} {w : World V V E}
    (hrun : Steps n 1 id (fun x => some (f x)) k (start xs []) w) (hst : Stuck n 1 id (fun x => some (f x)) w) :
    ((List.range n).flatMap w.acc).Perm (tagged (xs.map f)) ∧ w.requests = [] := by
  have hinv := steps_inv (start_inv xs n id (fun x => some (f x)) [] (by simp)) hrun
  have hfin := stuck_finished hinv (by simp) hst
  have hdone : ∀ l < n, w.done l = true ∧ w.requests.count (l, id) = 0 := fun l hl => by
    have := hinv.leader l hl
    unfold LeaderOk at this
    rw [hfin l hl] at this
    exact ⟨this.2.2, this.1⟩
  have hg := all_done_gathered hinv hn fun l hl => (hdone l hl).1
  constructor
  · have h1 : ((gathered n w).map fun e => (e.1, some e.2)).Perm
        ((tagged (xs.map f)).map fun e : Nat × Res V E => (e.1, some e.2)) := by
      rw [tagged_map, List.map_map]; exact hg
    obtain ⟨P, hP, hPp⟩ := perm_map_inv _ _ _ h1
    have : gathered n w = P := by
      refine List.map_injective_iff.2 (fun a b hab => ?_) hP
      simp only [Prod.mk.injEq, Option.some.injEq] at hab
      exact Prod.ext hab.1 hab.2
    rw [← this] at hPp
    exact hPp
  · cases hr : w.requests with
    | nil => rfl
    | cons e rest =>
      have hmem : e ∈ w.requests := by rw [hr]; simp
      rcases requests_from hrun e hmem with h | h
      · simp [start] at h
      · have hl := hinv.reqs e hmem h
        exact absurd (show (e.1, id) ∈ w.requests by rw [← h]; exact hmem) (List.count_eq_zero.1 (hdone _ hl).2)

/-- The MPI state represents the ideal state. -/
structure Rel (n : Nat) (m : MState V E) (s : SState V E) : Prop where
  net : m.net = []
  len : m.objs.length = s.data.length
  blen : m.bobjs.length = s.bdata.length
  alive : m.alive = s.alive
  balive : m.balive = s.balive
  small : ∀ i ∈ m.objs, i ≤ m.curPds
  bsmall : ∀ i ∈ m.bobjs, i ≤ m.curBds
  nodup : m.objs.Nodup
  bnodup : m.bobjs.Nodup
  /-- ids above the counters are unused -/
  fresh : ∀ i, m.curPds < i → m.pds i = none
  src : ∀ h id xs, m.objs[h]? = some id → s.data[h]? = some (.src xs) → m.pds id = some xs ∧
    (s.alive h = true → ∀ l < n, m.lpds l id = some none)
  res : ∀ h id rs, m.objs[h]? = some id → s.data[h]? = some (.res rs) → m.pds id = none ∧
    (s.alive h = true → ∃ acc : Nat → List (Nat × Res V E), (∀ l < n, m.lpds l id = some (some (acc l))) ∧
      ((List.range n).flatMap acc).Perm (tagged rs))
  bds : ∀ b id v, m.bobjs[b]? = some id → s.bdata[b]? = some v →
    m.tbds id = (if s.balive b then some v else none) ∧ m.bds id = (if s.balive b then some v else none)
  /-- nothing is destroyed before it is created -/
  unborn : ∀ h, s.data.length ≤ h → s.alive h = true
  bunborn : ∀ b, s.bdata.length ≤ b → s.balive b = true

theorem init_rel (n : Nat) : Rel n (MState.init : MState V E) SState.init := by
  constructor <;> simp [MState.init, SState.init]

theorem nodup_get {l : List Nat} (h : l.Nodup) {i j a : Nat} (hi : l[i]? = some a) (hj : l[j]? = some a) : i = j := by
  obtain ⟨h1, e1⟩ := List.getElem?_eq_some_iff.1 hi
  obtain ⟨h2, e2⟩ := List.getElem?_eq_some_iff.1 hj
  exact (List.Nodup.getElem_inj_iff h).1 (e1.trans e2.symm)

theorem read_eq {n : Nat} {m : MState V E} {s : SState V E} (h : Rel n m s) : m.read = s.read := by
  funext b
  unfold MState.read SState.read
  by_cases hb : b < m.bobjs.length
  · have hb' : b < s.bdata.length := h.blen ▸ hb
    have := (h.bds b m.bobjs[b] s.bdata[b] (by simp [hb]) (by simp [hb'])).1
    simp [hb, hb', this]
  · rw [List.getElem?_eq_none (by omega), List.getElem?_eq_none (by have := h.blen; omega)]
    simp

theorem get_append {α : Type} {l : List α} {x a : α} {i : Nat} (h : (l ++ [x])[i]? = some a) :
    l[i]? = some a ∨ i = l.length ∧ a = x := by
  by_cases hi : i < l.length
  · left; rwa [List.getElem?_append_left hi] at h
  · right
    rw [List.getElem?_append_right (by omega)] at h
    have : i - l.length = 0 := by
      by_contra hne
      rw [List.getElem?_eq_none (by simp; omega)] at h
      simp at h
    rw [this] at h
    exact ⟨by omega, by simpa using h.symm⟩

theorem get_lt {α : Type} {l : List α} {a : α} {i : Nat} (h : l[i]? = some a) : i < l.length :=
  (List.getElem?_eq_some_iff.1 h).1

/-- Adding a data set with a fresh id. -/
theorem add_rel {n : Nat} {m : MState V E} {s : SState V E} (h : Rel n m s) (m' : MState V E) (c : Content V E)
    (hcur : m'.curPds = m.curPds + 1) (hobjs : m'.objs = m.objs ++ [m.curPds + 1]) (hnet : m'.net = [])
    (hal : m'.alive = m.alive) (hpds : ∀ i, i ≠ m.curPds + 1 → m'.pds i = m.pds i)
    (hlp : ∀ l i, i ≠ m.curPds + 1 → m'.lpds l i = m.lpds l i)
    (hsrc : ∀ xs, c = .src xs → m'.pds (m.curPds + 1) = some xs ∧ ∀ l < n, m'.lpds l (m.curPds + 1) = some none)
    (hres : ∀ rs, c = .res rs → m'.pds (m.curPds + 1) = none ∧ ∃ acc : Nat → List (Nat × Res V E),
      (∀ l < n, m'.lpds l (m.curPds + 1) = some (some (acc l))) ∧ ((List.range n).flatMap acc).Perm (tagged rs))
    (hb : m'.bobjs = m.bobjs ∧ m'.balive = m.balive ∧ m'.curBds = m.curBds ∧ m'.bds = m.bds ∧ m'.tbds = m.tbds) :
    Rel n m' { s with data := s.data ++ [c] } := by
  obtain ⟨b1, b2, b3, b4, b5⟩ := hb
  have hold : ∀ {k i}, m.objs[k]? = some i → i ≠ m.curPds + 1 := fun {k i} hk hi => by
    have := h.small i (List.mem_of_getElem? hk)
    omega
  constructor
  · exact hnet
  · simp [hobjs, h.len]
  · rw [b1]; exact h.blen
  · rw [hal]; exact h.alive
  · rw [b2]; exact h.balive
  · intro i hi
    rw [hobjs, List.mem_append, List.mem_singleton] at hi
    rcases hi with hi | rfl
    · have := h.small i hi; omega
    · omega
  · rw [b1, b3]; exact h.bsmall
  · rw [hobjs, List.nodup_append]
    refine ⟨h.nodup, by simp, ?_⟩
    rintro a ha b hb rfl
    simp only [List.mem_singleton] at hb
    have := h.small a ha
    omega
  · rw [b1]; exact h.bnodup
  · intro i hi
    rw [hpds i (by omega)]
    exact h.fresh i (by omega)
  · intro k id xs hk hd
    rw [hobjs] at hk
    rcases get_append hk with hk | ⟨hk, rfl⟩ <;> rcases get_append hd with hd | ⟨hd, hc⟩
    · rw [hpds id (hold hk)]
      refine ⟨(h.src k id xs hk hd).1, fun ha l hl => ?_⟩
      rw [hlp l id (hold hk)]
      exact (h.src k id xs hk hd).2 ha l hl
    · have := get_lt hk; have := h.len; omega
    · have := get_lt hd; have := h.len; omega
    · exact ⟨(hsrc xs hc.symm).1, fun _ => (hsrc xs hc.symm).2⟩
  · intro k id rs hk hd
    rw [hobjs] at hk
    rcases get_append hk with hk | ⟨hk, rfl⟩ <;> rcases get_append hd with hd | ⟨hd, hc⟩
    · rw [hpds id (hold hk)]
      refine ⟨(h.res k id rs hk hd).1, fun ha => ?_⟩
      obtain ⟨acc, h1, h2⟩ := (h.res k id rs hk hd).2 ha
      exact ⟨acc, fun l hl => by rw [hlp l id (hold hk)]; exact h1 l hl, h2⟩
    · have := get_lt hk; have := h.len; omega
    · have := get_lt hd; have := h.len; omega
    · exact ⟨(hres rs hc.symm).1, fun _ => (hres rs hc.symm).2⟩
  · rw [b1, b4, b5]; exact h.bds
  · intro k hk; exact h.unborn k (by simp at hk ⊢; omega)
  · exact h.bunborn

theorem get_some {n : Nat} {m : MState V E} {s : SState V E} (h : Rel n m s) {k id : Nat} (hk : m.objs[k]? = some id) :
    ∃ c, s.data[k]? = some c := by
  have := get_lt hk
  have := h.len
  exact ⟨s.data[k], by simp⟩

theorem bget_some {n : Nat} {m : MState V E} {s : SState V E} (h : Rel n m s) {k id : Nat} (hk : m.bobjs[k]? = some id) :
    ∃ c, s.bdata[k]? = some c := by
  have := get_lt hk
  have := h.blen
  exact ⟨s.bdata[k], by simp⟩

/-- Every call that does not break the backend is an ideal call. -/
theorem step_rel {n : Nat} (hn : 0 < n) {argsort : List Nat → List Nat} (ha : IsArgsort argsort) {m m' : MState V E}
    {s : SState V E} {op : Op V E} {o : Out V E} (h : Rel n m s) (hs : MStep n argsort m op m' o) (ho : o ≠ .broken) :
    ∃ s', SStep s op s' o ∧ Rel n m' s' := by
  cases hs with
  | parallelize xs =>
    refine ⟨_, SStep.parallelize s xs, add_rel h _ (.src xs) rfl rfl h.net rfl ?_ ?_ ?_ ?_ ⟨rfl, rfl, rfl, rfl, rfl⟩⟩
    · intro i hi; simp [hi]
    · intro l i hi; simp [hi]
    · rintro ys hy; cases hy; simp
    · rintro ys hy; cases hy
  | map f src id xs k w hid hal hxs hrun hst =>
    obtain ⟨c, hc⟩ := get_some h hid
    rw [h.net] at hrun
    obtain ⟨r1, r2⟩ := map_result hn hrun hst
    cases c with
    | res rs => rw [(h.res src id rs hid hc).1] at hxs; cases hxs
    | src ys =>
      have := (h.src src id ys hid hc).1
      rw [hxs, Option.some.injEq] at this
      subst this
      refine ⟨_, SStep.map s f src xs hc (by rw [← h.alive]; exact hal), add_rel h _ _ rfl rfl r2 rfl ?_ ?_ ?_ ?_ ⟨rfl, rfl, rfl, rfl, rfl⟩⟩
      · intro i _; rfl
      · intro l i hi; simp [hi]
      · rintro ys hy; cases hy
      · rintro rs hy; cases hy
        refine ⟨h.fresh _ (by omega), w.acc, fun l _ => by simp, ?_⟩
        rw [← read_eq h]; exact r1
  | mapBroken => exact absurd rfl ho
  | collectOk src id acc r hid hal hacc hr =>
    refine ⟨s, ?_, h⟩
    have hal' : s.alive src = true := by rw [← h.alive]; exact hal
    obtain ⟨c, hc⟩ := get_some h hid
    cases c with
    | src ys => have := (h.src src id ys hid hc).2 hal' 0 hn; rw [hacc 0 hn] at this; cases this
    | res rs =>
      obtain ⟨acc', h1, h2⟩ := (h.res src id rs hid hc).2 hal'
      have he : (List.range n).flatMap acc = (List.range n).flatMap acc' := by
        apply List.flatMap_congr
        intro l hl
        have := h1 l (List.mem_range.1 hl)
        rw [hacc l (List.mem_range.1 hl)] at this
        simpa using this
      rw [← he] at h2
      rcases collect_cases ha h2 with ⟨ys, rfl, e2⟩ | ⟨e, e1, e2⟩
      · rw [hr] at e2; cases e2; exact SStep.collect s src _ hc hal'
      · rw [hr] at e2; cases e2
  | collectRaise src id acc e hid hal hacc hr =>
    refine ⟨s, ?_, h⟩
    have hal' : s.alive src = true := by rw [← h.alive]; exact hal
    obtain ⟨c, hc⟩ := get_some h hid
    cases c with
    | src ys => have := (h.src src id ys hid hc).2 hal' 0 hn; rw [hacc 0 hn] at this; cases this
    | res rs =>
      obtain ⟨acc', h1, h2⟩ := (h.res src id rs hid hc).2 hal'
      have he : (List.range n).flatMap acc = (List.range n).flatMap acc' := by
        apply List.flatMap_congr
        intro l hl
        have := h1 l (List.mem_range.1 hl)
        rw [hacc l (List.mem_range.1 hl)] at this
        simpa using this
      rw [← he] at h2
      rcases collect_cases ha h2 with ⟨ys, rfl, e2⟩ | ⟨e, e1, e2⟩
      · rw [hr] at e2; cases e2
      · rw [hr] at e2; cases e2; exact SStep.raise s src rs _ hc hal' e1
  | collectBroken => exact absurd rfl ho
  | broadcast v =>
    refine ⟨_, SStep.broadcast s v, ?_⟩
    constructor
    · exact h.net
    · exact h.len
    · simp [h.blen]
    · exact h.alive
    · exact h.balive
    · exact h.small
    · intro i hi
      rw [List.mem_append, List.mem_singleton] at hi
      rcases hi with hi | rfl
      · have := h.bsmall i hi; simp; omega
      · simp
    · exact h.nodup
    · rw [List.nodup_append]
      refine ⟨h.bnodup, by simp, ?_⟩
      rintro a ha b hb rfl
      simp only [List.mem_singleton] at hb
      have := h.bsmall a ha
      omega
    · exact h.fresh
    · exact h.src
    · exact h.res
    · intro b id u hb hd
      rcases get_append hb with hb1 | ⟨hb1, rfl⟩ <;> rcases get_append hd with hd1 | ⟨hd1, hu⟩
      · have : id ≠ m.curBds + 1 := by have := h.bsmall id (List.mem_of_getElem? hb1); omega
        simp only [Function.update_of_ne this]
        exact h.bds b id u hb1 hd1
      · have := get_lt hb1; have := h.blen; omega
      · have := get_lt hd1; have := h.blen; omega
      · have := h.bunborn b (by omega)
        simp [this, hu]
    · exact h.unborn
    · intro b hb; exact h.bunborn b (by simp at hb ⊢; omega)
  | value b id v hid hal hv =>
    refine ⟨s, ?_, h⟩
    have hal' : s.balive b = true := by rw [← h.balive]; exact hal
    obtain ⟨u, hu⟩ := bget_some h hid
    have := (h.bds b id u hid hu).2
    rw [hv, hal'] at this
    simp only [if_true, Option.some.injEq] at this
    subst this
    exact SStep.value s b v hu hal'
  | valueBroken => exact absurd rfl ho
  | delPds k id hid hal hl =>
    obtain ⟨c, hc⟩ := get_some h hid
    refine ⟨_, SStep.delPds s k (get_lt hc) (by rw [← h.alive]; exact hal), ?_⟩
    have hne : ∀ {j i}, m.objs[j]? = some i → j ≠ k → i ≠ id := fun hj hjk he => hjk (nodup_get h.nodup hj (he ▸ hid))
    constructor
    · exact h.net
    · exact h.len
    · exact h.blen
    · simp [h.alive]
    · exact h.balive
    · exact h.small
    · exact h.bsmall
    · exact h.nodup
    · exact h.bnodup
    · exact h.fresh
    · intro j i xs hj hd
      refine ⟨(h.src j i xs hj hd).1, fun hja l hl => ?_⟩
      by_cases hjk : j = k
      · subst hjk; simp at hja
      · simp only [Function.update_of_ne hjk] at hja
        simp only [Function.update_of_ne (hne hj hjk)]
        exact (h.src j i xs hj hd).2 hja l hl
    · intro j i rs hj hd
      refine ⟨(h.res j i rs hj hd).1, fun hja => ?_⟩
      by_cases hjk : j = k
      · subst hjk; simp at hja
      · simp only [Function.update_of_ne hjk] at hja
        simp only [Function.update_of_ne (hne hj hjk)]
        exact (h.res j i rs hj hd).2 hja
    · exact h.bds
    · intro j hj
      simp only at hj ⊢
      rw [Function.update_of_ne (by have := get_lt hc; omega)]
      exact h.unborn j hj
    · exact h.bunborn
  | delPdsBroken => exact absurd rfl ho
  | delBds k id hid hal h1 h2 =>
    obtain ⟨c, hc⟩ := bget_some h hid
    refine ⟨_, SStep.delBds s k (get_lt hc) (by rw [← h.balive]; exact hal), ?_⟩
    have hne : ∀ {j i}, m.bobjs[j]? = some i → j ≠ k → i ≠ id := fun hj hjk he => hjk (nodup_get h.bnodup hj (he ▸ hid))
    constructor
    · exact h.net
    · exact h.len
    · exact h.blen
    · exact h.alive
    · simp [h.balive]
    · exact h.small
    · exact h.bsmall
    · exact h.nodup
    · exact h.bnodup
    · exact h.fresh
    · exact h.src
    · exact h.res
    · intro j i v hj hd
      by_cases hjk : j = k
      · subst hjk
        have : i = id := by rw [hid] at hj; simpa using hj.symm
        subst this
        simp
      · simp only [Function.update_of_ne hjk, Function.update_of_ne (hne hj hjk)]
        exact h.bds j i v hj hd
    · exact h.unborn
    · intro j hj
      simp only at hj ⊢
      rw [Function.update_of_ne (by have := get_lt hc; omega)]
      exact h.bunborn j hj
  | delBdsBroken => exact absurd rfl ho

/-- Whenever the ideal call can be made, the MPI call can be made and cannot break the backend. -/
theorem step_progress {n : Nat} {argsort : List Nat → List Nat} (ha : IsArgsort argsort) {m : MState V E}
    {s s' : SState V E} {op : Op V E} {o : Out V E} (h : Rel n m s) (hs : SStep s op s' o) :
    (∃ m' o', MStep n argsort m op m' o' ∧ o' ≠ .broken) ∧ ∀ m', ¬ MStep n argsort m op m' .broken := by
  have hget : ∀ {k c}, s.data[k]? = some c → ∃ id, m.objs[k]? = some id := fun {k c} hk => by
    have h1 := get_lt hk; have h2 := h.len
    have h3 : k < m.objs.length := by omega
    exact ⟨m.objs[k], List.getElem?_eq_getElem h3⟩
  have hbget : ∀ {k : Nat}, k < s.bdata.length → ∃ id, m.bobjs[k]? = some id := fun {k} hk => by
    have h2 := h.blen
    have h3 : k < m.bobjs.length := by omega
    exact ⟨m.bobjs[k], List.getElem?_eq_getElem h3⟩
  cases hs with
  | parallelize xs => exact ⟨⟨_, _, .parallelize m xs, by simp⟩, by rintro m' (_ | _)⟩
  | map f src xs hd hal =>
    obtain ⟨id, hid⟩ := hget hd
    have hx := (h.src src id xs hid hd).1
    constructor
    · obtain ⟨k', w, h1, h2⟩ := C18_ends n id (fun x => some (f m.read x)) xs m.net (by rw [h.net]; simp) 0 _ (.refl _)
      exact ⟨_, _, .map m f src id xs _ w hid (by rw [h.alive]; exact hal) hx h1 h2, by simp⟩
    · rintro m' hm
      cases hm with
      | mapBroken _ _ id' hid' _ hx' =>
        rw [hid] at hid'; cases hid'; rw [hx] at hx'; cases hx'
  | collect src ys hd hal =>
    obtain ⟨id, hid⟩ := hget hd
    obtain ⟨acc, h1, h2⟩ := (h.res src id _ hid hd).2 hal
    constructor
    · exact ⟨_, _, .collectOk m src id acc ys hid (by rw [h.alive]; exact hal) h1 (collect_vals ha ys h2), by simp⟩
    · rintro m' hm
      cases hm with
      | collectBroken _ id' l hid' _ hl hacc =>
        rw [hid] at hid'; cases hid'; rw [h1 l hl] at hacc; simp at hacc
  | raise src rs e hd hal he =>
    obtain ⟨id, hid⟩ := hget hd
    obtain ⟨acc, h1, h2⟩ := (h.res src id _ hid hd).2 hal
    constructor
    · rcases collect_cases ha h2 with ⟨ys, -, e2⟩ | ⟨e, -, e2⟩
      · exact ⟨_, _, .collectOk m src id acc ys hid (by rw [h.alive]; exact hal) h1 e2, by simp⟩
      · exact ⟨_, _, .collectRaise m src id acc e hid (by rw [h.alive]; exact hal) h1 e2, by simp⟩
    · rintro m' hm
      cases hm with
      | collectBroken _ id' l hid' _ hl hacc =>
        rw [hid] at hid'; cases hid'; rw [h1 l hl] at hacc; simp at hacc
  | broadcast v => exact ⟨⟨_, _, .broadcast m v, by simp⟩, by rintro m' (_ | _)⟩
  | value b v hd hal =>
    obtain ⟨id, hid⟩ := hbget (get_lt hd)
    have hv := (h.bds b id v hid hd).2
    rw [hal] at hv
    simp only [if_true] at hv
    constructor
    · exact ⟨_, _, .value m b id v hid (by rw [h.balive]; exact hal) hv, by simp⟩
    · rintro m' hm
      cases hm with
      | valueBroken _ id' hid' _ hv' => rw [hid] at hid'; cases hid'; rw [hv] at hv'; cases hv'
  | delPds k hd hal =>
    obtain ⟨id, hid⟩ := hget (show s.data[k]? = some s.data[k] by simp)
    have hne : ∀ l < n, m.lpds l id ≠ none := by
      intro l hl
      cases hc : s.data[k] with
      | src xs => rw [(h.src k id xs hid (by simp [hd, hc])).2 hal l hl]; simp
      | res rs =>
        obtain ⟨acc, h1, h2⟩ := (h.res k id rs hid (by simp [hd, hc])).2 hal
        rw [h1 l hl]; simp
    constructor
    · exact ⟨_, _, .delPds m k id hid (by rw [h.alive]; exact hal) hne, by simp⟩
    · rintro m' hm
      cases hm with
      | delPdsBroken _ id' l hid' _ hl hn' => rw [hid] at hid'; cases hid'; exact hne l hl hn'
  | delBds k hd hal =>
    obtain ⟨id, hid⟩ := hbget hd
    have hv := h.bds k id s.bdata[k] hid (by simp)
    rw [hal] at hv
    simp only [if_true] at hv
    constructor
    · exact ⟨_, _, .delBds m k id hid (by rw [h.balive]; exact hal) (by rw [hv.2]; simp) (by rw [hv.1]; simp), by simp⟩
    · rintro m' hm
      cases hm with
      | delBdsBroken _ id' hid' _ hx => rw [hid] at hid'; cases hid'; rw [hv.1, hv.2] at hx; simp at hx

theorem run_rel {n : Nat} (hn : 0 < n) {argsort : List Nat → List Nat} (ha : IsArgsort argsort) {m m' : MState V E}
    {s : SState V E} {ops : List (Op V E)} {os : List (Out V E)} (h : Rel n m s) (hs : MRun n argsort m ops os m')
    (ho : Out.broken ∉ os) : ∃ s', SRun s ops os s' ∧ Rel n m' s' := by
  induction hs generalizing s with
  | nil => exact ⟨s, .nil s, h⟩
  | cons h1 h2 h3 ih =>
    obtain ⟨s1, hs1, hr1⟩ := step_rel hn ha h h1 h2
    obtain ⟨s2, hs2, hr2⟩ := ih hr1 fun hm => ho (by simp [hm])
    exact ⟨s2, .cons hs1 hs2, hr2⟩
  | broken => simp at ho

/-! ### The sequential backend follows the specification -/

/-- The sequential state holds what the ideal one holds. -/
structure DRel (ks : List Bool) (d : DState V) (s : SState V E) : Prop where
  len : d.lists.length = s.data.length
  klen : ks.length = s.data.length
  alive : d.alive = s.alive
  vals : d.vals = s.bdata
  balive : d.balive = s.balive
  data : ∀ (h : Nat) (xs : List V), d.lists[h]? = some xs →
    (ks[h]? = some true → s.data[h]? = some (.src xs)) ∧ (ks[h]? = some false → s.data[h]? = some (.res (xs.map .val)))

theorem mapAll_spec (f : V → Res V E) (xs ys : List V) (h : mapAll f xs = some ys) : xs.map f = ys.map .val := by
  induction xs generalizing ys with
  | nil => simp only [mapAll, Option.some.injEq] at h; subst h; rfl
  | cons x xs ih =>
    simp only [mapAll] at h
    cases hf : f x with
    | exc e => simp [hf] at h
    | val r =>
      cases hm : mapAll f xs with
      | none => simp [hf, hm] at h
      | some rs =>
        simp only [hf, hm, Option.some.injEq] at h
        subst h
        simp [hf, ih rs hm]

theorem dread_eq {ks : List Bool} {d : DState V} {s : SState V E} (h : DRel ks d s) : d.read = s.read := by
  funext b
  simp [DState.read, SState.read, h.vals, h.balive]

def nextKinds (ks : List Bool) : Op V E → List Bool
  | .parallelize _ => ks ++ [true]
  | .map _ _ => ks ++ [false]
  | _ => ks

/-- In a pipeline program, what the sequential backend does is an ideal step with the same result, and no other ideal
result is possible. -/
theorem dummy_step {ks : List Bool} {d d' : DState V} {s : SState V E} {op : Op V E} {ops : List (Op V E)} {o : Out V E}
    (h : DRel ks d s) (hp : PipelineOnly ks (op :: ops)) (hd : dummyStep d op = some (d', o)) :
    PipelineOnly (nextKinds ks op) ops ∧ (∃ s', SStep s op s' o) ∧
      ∀ s' o', SStep s op s' o' → o' = o ∧ DRel (nextKinds ks op) d' s' := by
  have happ : ∀ {k : Nat} {l xs} {c : Content V E} {kd : Bool}, (d.lists ++ [l])[k]? = some xs →
      (kd = true → c = .src l) → (kd = false → c = .res (l.map .val)) →
      ((ks ++ [kd])[k]? = some true → (s.data ++ [c])[k]? = some (.src xs)) ∧
        ((ks ++ [kd])[k]? = some false → (s.data ++ [c])[k]? = some (.res (xs.map .val))) := by
    intro k l xs c kd hk h1 h2
    rcases get_append hk with hk | ⟨hk', rfl⟩
    · have hlt := get_lt hk
      have hl1 := h.len
      have hl2 := h.klen
      rw [List.getElem?_append_left (by omega), List.getElem?_append_left (by omega)]
      exact h.data k xs hk
    · have hl1 := h.len
      have hl2 := h.klen
      rw [hk', hl1]
      have e1 : (ks ++ [kd])[s.data.length]? = some kd := by rw [← hl2]; simp
      have e2 : (s.data ++ [c])[s.data.length]? = some c := by simp
      rw [e1, e2]
      exact ⟨fun e => by rw [h1 (by simpa using e)], fun e => by rw [h2 (by simpa using e)]⟩
  cases op with
  | parallelize xs =>
    simp only [dummyStep, Option.some.injEq, Prod.mk.injEq] at hd
    obtain ⟨rfl, rfl⟩ := hd
    refine ⟨hp, ⟨_, .parallelize s xs⟩, ?_⟩
    rintro s' o' (_ | _)
    exact ⟨rfl, by simp [h.len], by simp [nextKinds, h.klen], h.alive, h.vals, h.balive,
      fun k ys hk => happ hk (fun _ => rfl) (by simp)⟩
  | map f src =>
    obtain ⟨hk, hp⟩ := hp
    simp only [dummyStep] at hd
    cases hx : d.lists[src]? with
    | none => simp [hx] at hd
    | some xs =>
      cases hal : d.alive src with
      | false => simp [hx, hal] at hd
      | true =>
        cases hm : mapAll (f d.read) xs with
        | none => simp [hx, hal, hm] at hd
        | some ys =>
          simp only [hx, hal, hm, Option.some.injEq, Prod.mk.injEq] at hd
          obtain ⟨rfl, rfl⟩ := hd
          have hsrc := (h.data src xs hx).1 hk
          have hmp := mapAll_spec _ _ _ hm
          rw [dread_eq h] at hmp
          refine ⟨hp, ⟨_, .map s f src xs hsrc (by rw [← h.alive]; exact hal)⟩, ?_⟩
          intro s' o' hs
          cases hs with
          | map _ _ xs' hd' _ =>
            rw [hsrc] at hd'
            cases hd'
            exact ⟨rfl, by simp [h.len], by simp [nextKinds, h.klen], h.alive, h.vals, h.balive,
              fun k ys hk => happ hk (by simp) (fun _ => by rw [hmp])⟩
  | collect src =>
    obtain ⟨hk, hp⟩ := hp
    simp only [dummyStep] at hd
    cases hx : d.lists[src]? with
    | none => simp [hx] at hd
    | some xs =>
      cases hal : d.alive src with
      | false => simp [hx, hal] at hd
      | true =>
        simp only [hx, hal, Option.some.injEq, Prod.mk.injEq] at hd
        obtain ⟨rfl, rfl⟩ := hd
        have hres := (h.data src xs hx).2 hk
        refine ⟨hp, ⟨_, .collect s src xs hres (by rw [← h.alive]; exact hal)⟩, ?_⟩
        intro s' o' hs
        cases hs with
        | collect _ ys hd' _ =>
          rw [hres] at hd'
          simp only [Option.some.injEq, Content.res.injEq] at hd'
          have : xs = ys := List.map_injective_iff.2 (fun a b hab => by cases hab; rfl) hd'
          exact ⟨by rw [this], h⟩
        | raise _ rs e hd' _ he =>
          rw [hres] at hd'
          cases hd'
          simp at he
  | broadcast v =>
    simp only [dummyStep, Option.some.injEq, Prod.mk.injEq] at hd
    obtain ⟨rfl, rfl⟩ := hd
    refine ⟨hp, ⟨_, .broadcast s v⟩, ?_⟩
    rintro s' o' (_ | _)
    exact ⟨rfl, h.len, h.klen, h.alive, by simp [h.vals], h.balive, h.data⟩
  | value b =>
    simp only [dummyStep] at hd
    cases hx : d.vals[b]? with
    | none => simp [hx] at hd
    | some v =>
      cases hal : d.balive b with
      | false => simp [hx, hal] at hd
      | true =>
        simp only [hx, hal, Option.some.injEq, Prod.mk.injEq] at hd
        obtain ⟨rfl, rfl⟩ := hd
        rw [h.vals] at hx
        refine ⟨hp, ⟨_, .value s b v hx (by rw [← h.balive]; exact hal)⟩, ?_⟩
        intro s' o' hs
        cases hs with
        | value _ u hu _ => rw [hx] at hu; cases hu; exact ⟨rfl, h⟩
  | delPds k =>
    simp only [dummyStep] at hd
    split at hd
    · rename_i hc
      simp only [Option.some.injEq, Prod.mk.injEq] at hd
      obtain ⟨rfl, rfl⟩ := hd
      refine ⟨hp, ⟨_, .delPds s k (by rw [← h.len]; exact hc.1) (by rw [← h.alive]; exact hc.2)⟩, ?_⟩
      rintro s' o' (_ | _)
      exact ⟨rfl, h.len, h.klen, by simp [h.alive], h.vals, h.balive, h.data⟩
    · cases hd
  | delBds k =>
    simp only [dummyStep] at hd
    split at hd
    · rename_i hc
      simp only [Option.some.injEq, Prod.mk.injEq] at hd
      obtain ⟨rfl, rfl⟩ := hd
      refine ⟨hp, ⟨_, .delBds s k (by rw [← h.vals]; exact hc.1) (by rw [← h.balive]; exact hc.2)⟩, ?_⟩
      rintro s' o' (_ | _)
      exact ⟨rfl, h.len, h.klen, h.alive, h.vals, by simp [h.balive], h.data⟩
    · cases hd

theorem dummy_mpi {n : Nat} (hn : 0 < n) {argsort : List Nat → List Nat} (ha : IsArgsort argsort)
    (ops : List (Op V E)) (ks : List Bool) (d : DState V) (s : SState V E) (m : MState V E) (os : List (Out V E))
    (hp : PipelineOnly ks ops) (hd : dummyRun d ops = some os) (hds : DRel ks d s) (hms : Rel n m s) :
    (∃ m', MRun n argsort m ops os m') ∧ ∀ os' m', MRun n argsort m ops os' m' → os' = os := by
  induction ops generalizing ks d s m os with
  | nil =>
    simp only [dummyRun, Option.some.injEq] at hd
    subst hd
    exact ⟨⟨m, .nil m⟩, by rintro os' m' (_ | _); rfl⟩
  | cons op ops ih =>
    simp only [dummyRun] at hd
    cases hst : dummyStep d op with
    | none => simp [hst] at hd
    | some p =>
      obtain ⟨d', o⟩ := p
      cases hr : dummyRun d' ops with
      | none => simp [hst, hr] at hd
      | some os1 =>
        simp only [hst, hr, Option.some.injEq] at hd
        subst hd
        obtain ⟨hp', ⟨s1, hs1⟩, hall⟩ := dummy_step hds hp hst
        obtain ⟨⟨m1, o1, hm1, ho1⟩, hnb⟩ := step_progress ha hms hs1
        constructor
        · obtain ⟨s2, hs2, hr2⟩ := step_rel hn ha hms hm1 ho1
          obtain ⟨rfl, hd2⟩ := hall s2 o1 hs2
          obtain ⟨⟨m', hm'⟩, -⟩ := ih _ d' s2 m1 os1 hp' hr hd2 hr2
          exact ⟨m', .cons hm1 ho1 hm'⟩
        · intro os' m' hrun
          cases hrun with
          | cons h1 h2 h3 =>
            obtain ⟨s2, hs2, hr2⟩ := step_rel hn ha hms h1 h2
            obtain ⟨rfl, hd2⟩ := hall s2 _ hs2
            rw [(ih _ d' s2 _ os1 hp' hr hd2 hr2).2 _ m' h3]
          | broken h1 => exact absurd h1 (hnb _)

end Verif.Mpi
