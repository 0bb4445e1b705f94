import Verif.Embedding.Model
import Verif.Statistics.Props

/-!
# C142 and C143: saved statistics, statistics that are functions of the data
-/

namespace Verif.Embedding.Props

open Verif.Distance (Stats Row)
open Verif.Statistics Verif.Embedding

/-! ## Specification -/

/-- The parameters of a network have the names and shapes that its class declares. -/
def Declared (c : Class) (d : Dict) : Prop := d.map (fun e => (e.1, e.2.shape)) = c.entries

/-- The class declares at least one parameter and no name twice. -/
def Proper (c : Class) : Prop := c.entries ≠ [] ∧ (c.entries.map Prod.fst).Nodup

/-- The network does the same at every call: it is in evaluation mode or does not distinguish the modes. -/
def Steady (net : Net) : Prop := net.mode = .eval ∨ ∀ n, net.cls.training n = net.cls.evaluate

/-- Two statistics objects give the same statistics of all data, at every call. -/
def SameStatistics (e e' : Neural) : Prop := ∀ m n data, e.statistics m data = e'.statistics n data

/-! ## State dictionaries -/

theorem get_eq {d : Dict} (hn : (d.map Prod.fst).Nodup) {e : Name × Tensor} (he : e ∈ d) : d.get e.1 = some e.2 := by
  induction d with
  | nil => simp at he
  | cons a d ih =>
    rw [List.map_cons, List.nodup_cons] at hn
    rcases List.mem_cons.1 he with rfl | h
    · simp [Dict.get]
    · have hne : a.1 ≠ e.1 := fun h' => hn.1 (h' ▸ List.mem_map_of_mem h)
      have := ih hn.2 h
      unfold Dict.get at this ⊢
      rw [List.find?_cons_of_neg (by simpa using hne)]
      exact this

theorem declared_names {c : Class} {d : Dict} (h : Declared c d) : d.map Prod.fst = c.entries.map Prod.fst := by
  rw [← h, List.map_map]; rfl

theorem collect_some_map {α β : Type} (l : List α) (f : α → Option β) (g : α → β) (h : ∀ a ∈ l, f a = some (g a)) :
    collect (l.map f) = some (l.map g) := by
  induction l with
  | nil => rfl
  | cons a l ih =>
    rw [List.map_cons, h a (List.mem_cons_self ..), List.map_cons, collect, ih fun b hb => h b (List.mem_cons_of_mem _ hb)]

/-- A dictionary saved from a network of the class is loaded unchanged. -/
theorem load_same {c : Class} {d : Dict} (hp : Proper c) (h : Declared c d) : c.load d = some d := by
  have hn : (d.map Prod.fst).Nodup := by rw [declared_names h]; exact hp.2
  unfold Class.load
  rw [if_pos]
  · rw [← h, List.map_map]
    rw [collect_some_map d _ id]
    · simp
    · intro e he
      simp only [Function.comp]
      rw [get_eq hn he]
      simp
  · simp only [List.all_eq_true, decide_eq_true_eq]
    intro e he
    rw [← declared_names h]
    exact List.mem_map_of_mem he

/-- The dictionary of a network inside of a wrapper is not accepted by the class of the network itself. -/
theorem load_wrapped {c : Class} {d : Dict} (hp : Proper c) (h : Declared (discard c) d) : c.load d = none := by
  unfold Class.load
  rw [if_neg]
  intro hall
  simp only [List.all_eq_true, decide_eq_true_eq] at hall
  have hd := declared_names h
  have hmem : ∀ k ∈ c.entries.map Prod.fst, (Part.attr "net" :: k) ∈ c.entries.map Prod.fst := by
    intro k hk
    have : (Part.attr "net" :: k) ∈ d.map Prod.fst := by
      rw [hd]
      obtain ⟨e, he, rfl⟩ := List.mem_map.1 hk
      simp only [discard, List.map_map, List.mem_map, Function.comp]
      exact ⟨e, he, rfl⟩
    obtain ⟨e, he, h'⟩ := List.mem_map.1 this
    rw [← h']
    exact hall e he
  -- a longest name would have a longer one
  have long : ∀ n, ∃ k ∈ c.entries.map Prod.fst, n ≤ k.length := by
    intro n
    induction n with
    | zero =>
      obtain ⟨e, he⟩ := List.exists_mem_of_ne_nil _ hp.1
      exact ⟨e.1, List.mem_map_of_mem he, Nat.zero_le _⟩
    | succ n ih =>
      obtain ⟨k, hk, hl⟩ := ih
      exact ⟨_, hmem k hk, by simpa using hl⟩
  obtain ⟨k, hk, hl⟩ := long (((c.entries.map Prod.fst).map List.length).sum + 1)
  have := List.le_sum_of_mem (List.mem_map_of_mem (f := List.length) hk)
  omega

theorem proper_discard {c : Class} (hp : Proper c) : Proper (discard c) := by
  refine ⟨by simpa [discard] using hp.1, ?_⟩
  have : (discard c).entries.map Prod.fst = (c.entries.map Prod.fst).map (Part.attr "net" :: ·) := by
    simp [discard, Function.comp_def]
  rw [this]
  exact hp.2.map fun a b h => (List.cons.inj h).2

/-! ## Statistics of a steady network -/

theorem steady_apply {net : Net} (h : Steady net) (n : Nat) (s : Stats) :
    net.apply n s = (⟨net.cls, net.state, .eval, net.scaler⟩ : Net).apply 0 s := by
  obtain ⟨cls, state, mode, scaler⟩ := net
  cases mode with
  | eval => rfl
  | train =>
    have ht : ∀ n, cls.training n = cls.evaluate := by
      rcases h with h | h
      · exact absurd h (by simp)
      · exact h
    simp [Net.apply, ht]

/-- The same object with a network in evaluation mode. -/
def frozen (e : Neural) : Neural := ⟨⟨e.net.cls, e.net.state, .eval, e.net.scaler⟩, e.degree, e.cross, e.std, e.previous⟩

theorem frozen_same {e : Neural} (h : Steady e.net) : SameStatistics (frozen e) e := by
  intro m n data
  unfold Neural.statistics
  congr 1
  funext s
  rw [steady_apply h]
  rfl

theorem new_frozen {net : Net} (h : Steady net) {degree : Nat} {cross : Bool} {ref : Option (List (List ℝ))} {previous : List Step}
    {e : Neural} (he : Neural.new net degree cross ref previous = some e) :
    Neural.new ⟨net.cls, net.state, .eval, net.scaler⟩ degree cross ref previous = some (frozen e) ∧ e.net = net := by
  cases ref with
  | none => cases he; exact ⟨rfl, rfl⟩
  | some sims =>
    unfold Neural.new at he ⊢
    have : Neural.statistics ⟨⟨net.cls, net.state, .eval, net.scaler⟩, degree, cross, none, previous⟩ 0 sims =
        Neural.statistics ⟨net, degree, cross, none, previous⟩ 0 sims := frozen_same (e := ⟨net, degree, cross, none, previous⟩) h 0 0 sims
    obtain ⟨s, h1, h2⟩ := Option.bind_eq_some_iff.1 he
    simp only [this, h1, Option.bind_some]
    split_ifs at h2 ⊢ with h0
    cases h2
    exact ⟨rfl, rfl⟩

/-! ## Files -/

@[simp] theorem write_same (fs : Files) (p : String) (c : Content) : fs.write p c p = some c := by simp [Files.write]

theorem write_other (fs : Files) {p q : String} (c : Content) (h : q ≠ p) : fs.write p c q = fs q := by simp [Files.write, h]

/-- What a successful save leaves: the dictionary at the one path, the scaler at the other. -/
theorem save_files (e : Neural) (path : String) (ps : Option String) (fs : Files)
    (hs : match e.net.scaler with | none => ps = none | some _ => ∃ p, ps = some p ∧ p ≠ path) :
    ∃ history fs', e.save path ps fs = .ok history ∧ history.getLast? = some fs' ∧ fs' path = some (.dict e.net.state) ∧
      (∀ f p, e.net.scaler = some f → ps = some p → fs' p = some (.scaler f)) ∧
      (∀ q, q ≠ path → some q ≠ ps → fs' q = fs q) := by
  unfold Neural.save
  cases hsc : e.net.scaler with
  | none =>
    refine ⟨_, (fs.write path .broken).write path (.dict e.net.state), rfl, rfl, by simp, by simp, ?_⟩
    intro q hq _
    rw [write_other _ _ hq, write_other _ _ hq]
  | some f =>
    rw [hsc] at hs
    obtain ⟨p, rfl, hne⟩ := hs
    refine ⟨_, (((fs.write path .broken).write path (.dict e.net.state)).write p .broken).write p (.scaler f), rfl, rfl, ?_, ?_, ?_⟩
    · rw [write_other _ _ (Ne.symm hne), write_other _ _ (Ne.symm hne), write_same]
    · intro f' p' hf hp
      cases hf; cases hp
      simp
    · intro q hq hp
      have hp' : q ≠ p := fun h => hp (by rw [h])
      rw [write_other _ _ hp', write_other _ _ hp', write_other _ _ hq, write_other _ _ hq]

theorem load_either {c : Class} (hp : Proper c) {net : Net} (hc : net.cls = c ∨ net.cls = discard c) (hd : Declared net.cls net.state)
    {path : String} {ps : Option String} {fs : Files} (hf : fs path = some (.dict net.state))
    (hs : match net.scaler with | none => ps = none | some f => ∃ p, ps = some p ∧ fs p = some (.scaler f)) :
    loadEither fs path ps c = .ok ⟨net.cls, net.state, .eval, net.scaler⟩ := by
  have hload : retry (loadNet fs path c) (loadNet fs path (discard c)) = .ok ⟨net.cls, net.state, .eval, none⟩ := by
    rcases hc with h | h
    · have : loadNet fs path c = .ok ⟨net.cls, net.state, .eval, none⟩ := by
        unfold loadNet; rw [hf]; simp only; rw [load_same hp (h ▸ hd), h]
      rw [this]; rfl
    · have h1 : loadNet fs path c = .error .runtime := by
        unfold loadNet; rw [hf]; simp only; rw [load_wrapped hp (h ▸ hd)]
      have h2 : loadNet fs path (discard c) = .ok ⟨net.cls, net.state, .eval, none⟩ := by
        unfold loadNet; rw [hf]; simp only; rw [load_same (proper_discard hp) (h ▸ hd), h]
      rw [h1, h2]; rfl
  unfold loadEither
  rw [hload]
  obtain ⟨cls, state, mode, scaler⟩ := net
  cases scaler with
  | none => simp only at hs; subst hs; rfl
  | some f =>
    obtain ⟨p, rfl, hp'⟩ := hs
    simp only [Except.bind, addScaler, hp']

/-- **C142 (partial).** Statistics computed by a network, with or without a scaler, with or without the wrapper that
discards the last output: after `save_net`, `fromFile` with the class of the network and the same settings gives
statistics with the same values on all data, also if other files have been written in the meantime. What is missing:
the mode of the network is not saved (`Steady`), the settings have to be given again, and the class of a network
described by its sizes is not the one that was trained (`C142_violated`). -/
theorem C142_partial (c : Class) (hp : Proper c) (e : Neural) (hc : e.net.cls = c ∨ e.net.cls = discard c)
    (hd : Declared e.net.cls e.net.state) (hst : Steady e.net) (ref : Option (List (List ℝ)))
    (hnew : Neural.new e.net e.degree e.cross ref e.previous = some e) (path : String) (ps : Option String) (fs : Files)
    (hs : match e.net.scaler with | none => ps = none | some _ => ∃ p, ps = some p ∧ p ≠ path) :
    ∃ history fs', e.save path ps fs = .ok history ∧ history.getLast? = some fs' ∧
      ∀ fs'' : Files, fs'' path = fs' path → (∀ p, ps = some p → fs'' p = fs' p) →
        ∃ e', fromFile fs'' path ⟨some c, none, none, none⟩ ps e.degree e.cross ref e.previous = .ok e' ∧ SameStatistics e' e := by
  obtain ⟨history, fs', h1, h2, h3, h4, -⟩ := save_files e path ps fs hs
  refine ⟨history, fs', h1, h2, ?_⟩
  intro fs'' hpath hscal
  refine ⟨frozen e, ?_, frozen_same hst⟩
  have hl : loadEither fs'' path ps c = .ok ⟨e.net.cls, e.net.state, .eval, e.net.scaler⟩ := by
    apply load_either hp hc hd (hpath.trans h3)
    revert hs h4
    cases e.net.scaler with
    | none => intro hs _; exact hs
    | some f =>
      rintro ⟨p, rfl, -⟩ h4
      exact ⟨p, rfl, (hscal p rfl).trans (h4 f p rfl rfl)⟩
  unfold fromFile
  simp only [Spec.choose, hl, (new_frozen hst hnew).1]

/-! ## The default networks -/

theorem hidden_names (hs : List Nat) : ∀ i m, ∀ e ∈ hiddenEntries i m hs, ∃ j, i ≤ j ∧
    (e.1 = [.attr "fc_hidden", .index j, .attr "weight"] ∨ e.1 = [.attr "fc_hidden", .index j, .attr "bias"]) := by
  induction hs with
  | nil => intro i m e he; simp [hiddenEntries] at he
  | cons n hs ih =>
    intro i m e he
    simp only [hiddenEntries, List.mem_append] at he
    rcases he with he | he
    · simp only [layerEntries, List.mem_cons, List.not_mem_nil, or_false] at he
      rcases he with rfl | rfl
      · exact ⟨i, le_refl _, .inl rfl⟩
      · exact ⟨i, le_refl _, .inr rfl⟩
    · obtain ⟨j, hj, h⟩ := ih (i + 1) n e he
      exact ⟨j, by omega, h⟩

theorem hidden_nodup (hs : List Nat) : ∀ i m, ((hiddenEntries i m hs).map Prod.fst).Nodup := by
  induction hs with
  | nil => intro i m; simp [hiddenEntries]
  | cons n hs ih =>
    intro i m
    simp only [hiddenEntries, List.map_append]
    refine List.Nodup.append (by simp [layerEntries]) (ih _ _) ?_
    intro k hk hk'
    obtain ⟨e, he, rfl⟩ := List.mem_map.1 hk'
    obtain ⟨j, hj, h⟩ := hidden_names hs _ _ e he
    simp only [layerEntries, List.map_cons, List.map_nil, List.mem_cons, List.not_mem_nil, or_false] at hk
    rcases h with h | h <;> rw [h] at hk <;> rcases hk with hk | hk <;> simp at hk <;> omega

theorem proper_default (act : ℝ → ℝ) (i o : Nat) (hidden : Option (List Nat)) : Proper (defaultNet act i o hidden) := by
  unfold Proper defaultNet
  simp only
  generalize hidden.getD (defaultHidden i o) = hs
  cases hs with
  | nil => exact ⟨by simp [defaultEntries, layerEntries], by simp [defaultEntries, layerEntries]⟩
  | cons h hs =>
    refine ⟨by simp [defaultEntries, layerEntries], ?_⟩
    simp only [defaultEntries, List.map_append]
    have key : ∀ k ∈ (hiddenEntries 0 h hs).map Prod.fst, ∃ r, k = .attr "fc_hidden" :: r := by
      intro k hk
      obtain ⟨e, he, rfl⟩ := List.mem_map.1 hk
      obtain ⟨j, -, h⟩ := hidden_names hs _ _ e he
      rcases h with h | h <;> exact ⟨_, h⟩
    refine List.Nodup.append (List.Nodup.append (by simp [layerEntries]) (hidden_nodup _ _ _) ?_) (by simp [layerEntries]) ?_
    · intro k hk hk'
      obtain ⟨r, rfl⟩ := key k hk'
      simp [layerEntries] at hk
    · intro k hk hk'
      rcases List.mem_append.1 hk with hk | hk
      · simp only [layerEntries, List.map_cons, List.map_nil, List.mem_cons, List.not_mem_nil, or_false] at hk hk'
        rcases hk with rfl | rfl <;> simp at hk'
      · obtain ⟨r, rfl⟩ := key k hk
        simp [layerEntries] at hk'

/-- **C142 for the networks that are described by their sizes.** What `fromFile` makes of a saved network that was
built from sizes, with *any* nonlinearity: the network with the same parameters and the rectified linear function. -/
theorem reload_sizes (act : ℝ → ℝ) (i o : Nat) (hidden : Option (List Nat)) (wrapped : Bool) (d : Dict)
    (hd : Declared (if wrapped then discard (defaultNet act i o hidden) else defaultNet act i o hidden) d)
    (scaler : Option Scaler) (path : String) (ps : Option String) (fs : Files) (hf : fs path = some (.dict d))
    (hs : match scaler with | none => ps = none | some f => ∃ p, ps = some p ∧ fs p = some (.scaler f)) :
    loadEither fs path ps (defaultNet relu i o hidden) =
      .ok ⟨if wrapped then discard (defaultNet relu i o hidden) else defaultNet relu i o hidden, d, .eval, scaler⟩ := by
  have hc : (⟨if wrapped then discard (defaultNet relu i o hidden) else defaultNet relu i o hidden, d, .eval, scaler⟩ : Net).cls = defaultNet relu i o hidden ∨
      (⟨if wrapped then discard (defaultNet relu i o hidden) else defaultNet relu i o hidden, d, .eval, scaler⟩ : Net).cls = discard (defaultNet relu i o hidden) := by
    cases wrapped <;> simp
  apply load_either (proper_default relu i o hidden) hc ?_ hf hs
  cases wrapped <;> exact hd

/-- **C142 (partial), networks described by their sizes.** With rectified linear units, as `SemiautomaticNN`,
`ContrastiveDistanceLearning` and `TripletDistanceLearning` build them, reading the file with the sizes gives the
same statistics, whatever mode the network was left in. -/
theorem C142_sizes_partial (i o : Nat) (hidden : Option (List Nat)) (e : Neural)
    (hc : e.net.cls = defaultNet relu i o hidden) (hd : Declared e.net.cls e.net.state) (ref : Option (List (List ℝ)))
    (hnew : Neural.new e.net e.degree e.cross ref e.previous = some e) (path : String) (ps : Option String) (fs : Files)
    (hs : match e.net.scaler with | none => ps = none | some _ => ∃ p, ps = some p ∧ p ≠ path) :
    ∃ history fs', e.save path ps fs = .ok history ∧ history.getLast? = some fs' ∧
      ∃ e', fromFile fs' path ⟨none, some i, some o, hidden⟩ ps e.degree e.cross ref e.previous = .ok e' ∧ SameStatistics e' e := by
  have hst : Steady e.net := .inr (by rw [hc]; intro n; rfl)
  obtain ⟨history, fs', h1, h2, h⟩ := C142_partial _ (proper_default relu i o hidden) e (.inl hc) hd hst ref hnew path ps fs hs
  obtain ⟨e', h3, h4⟩ := h fs' rfl fun _ _ => rfl
  exact ⟨history, fs', h1, h2, e', h3, h4⟩

/-- A scaler without a path is refused before any file is touched. -/
theorem C142_refused (e : Neural) (path : String) (fs : Files) (h : e.net.scaler ≠ none) : e.save path none fs = .error .runtime := by
  unfold Neural.save
  cases hs : e.net.scaler with
  | none => exact absurd hs h
  | some f => rfl

/-- The statistics of `ExponentialFamilyScoreMatching` are those of an object that is built with the reference
simulations and the chain, so that `C142_partial` applies to them. -/
theorem score_eq (net : Net) (sims samples : List (List ℝ)) (w : Nat) (previous : List Step)
    (hs : Statistics.statistics previous sims = some ⟨w, samples⟩) (hw : OneSize samples w) :
    scoreStatistics net true samples previous = Neural.new net 1 false (some sims) previous := by
  have h1 : Statistics.statistics [] samples = some ⟨w, samples⟩ := by
    unfold Statistics.statistics; rw [toArray_eq samples w hw]; rfl
  unfold scoreStatistics Neural.new
  have h2 : Neural.statistics ⟨net, 1, false, none, []⟩ 0 samples = Neural.statistics ⟨net, 1, false, none, previous⟩ 0 sims := by
    unfold Neural.statistics; rw [h1, hs]
  simp only [if_true, h2]
  cases Neural.statistics ⟨net, 1, false, none, previous⟩ 0 sims with
  | none => rfl
  | some s => simp only [Option.bind_some]; split_ifs <;> rfl

/-! ## C143 -/

theorem fitMode_pos (validation : Bool) (epochs : Nat) (start : Mode) (h : epochs ≠ 0) :
    fitMode validation epochs start = if validation then .eval else .train := by
  obtain ⟨n, rfl⟩ := Nat.exists_eq_succ_of_ne_zero h
  unfold fitMode
  rw [List.range_succ, List.foldl_append]
  rfl

/-- **C143 (partial).** The learned statistics are a function of the data when there is a validation set (and at least
one epoch), when they were learned by score matching, or when the network does not distinguish the modes (the
default networks). -/
theorem C143_partial (e : Neural) (validation : Bool) (epochs : Nat) (start : Mode)
    (h : (e.net.mode = fitMode validation epochs start ∧ validation = true ∧ epochs ≠ 0) ∨ e.net.mode = scoreMode validation epochs start ∨
      ∀ n, e.net.cls.training n = e.net.cls.evaluate) (m n : Nat) (data : List (List ℝ)) :
    e.statistics m data = e.statistics n data := by
  have hst : Steady e.net := by
    rcases h with ⟨h, rfl, h0⟩ | h | h
    · exact .inl (by rw [h, fitMode_pos _ _ _ h0]; rfl)
    · exact .inl h
    · exact .inr h
  rw [← frozen_same hst 0 m data, ← frozen_same hst 0 n data]

end Verif.Embedding.Props
