import Verif.Model.LoaderSettings
import Verif.Props.LoaderInput
import Verif.Props.Combined

/-! Property C65: the settings of a loader reach its datasets, and its length is the number of batches it delivers. -/

namespace LitData.Props
open LitData LitData.Spec

/-- `num_workers or 1`. -/
def atLeastOne (n : Nat) : Nat := if n = 0 then 1 else n

/-- The number of batches a rank delivers is its number of samples over the batch size, rounded up: only one of its workers has an incomplete batch. -/
theorem rank_batches_len {β : Type} (W : Nat) (idx : List Nat) (ivs : List Interval) (dl : Bool) (nw bs : Nat)
    (hW : 0 < W) (hnw : 0 < nw) (hbs : 0 < bs) (hlen : idx.length = ivs.length) (ws : List (List Piece))
    (h : associate W idx ivs dl nw bs = .ok ws) (f : List Piece → List β) (hf : ∀ ps ∈ ws, (f ps).length = (samples ps).length)
    (r : Nat) (hr : r < W) :
    (loaderOut bs ((rankWorkers ws r nw).map f)).length = loaderLen (shuffleLen ws r nw) bs := by
  rw [rank_batches W idx ivs dl nw bs hW hnw hbs hlen ws h f hf r hr]
  obtain ⟨ws', h', hl⟩ := c41_len_closed_form W idx ivs dl nw bs hW hnw hbs hlen
  rw [h] at h'
  injection h' with h'
  subst h'
  dsimp only at hl
  rw [hl r hr]
  generalize (datasetSamples idx ivs).length = N
  have hdm : bs * W * (N / (bs * W)) ≤ N := Nat.mul_div_le N (bs * W)
  generalize N / (bs * W) = q at *
  split
  · rename_i hd
    obtain ⟨_, rfl⟩ := hd
    have e : N - r * (bs * q) = bs * q + (N - bs * q * (r + 1)) := by
      have e1 : bs * (r + 1) * q = bs * q * (r + 1) := by rw [Nat.mul_assoc, Nat.mul_assoc, Nat.mul_comm (r + 1) q]
      have e2 : bs * q * (r + 1) = r * (bs * q) + bs * q := by rw [Nat.mul_add, Nat.mul_one, Nat.mul_comm]
      omega
    rw [e, loaderLen_add _ _ _ hbs]
  · have := loaderLen_add bs q 0 hbs
    rw [Nat.add_zero, loaderLen_zero bs hbs] at this
    rw [this]

/-- **C65, length.** The length of a loader over a `StreamingDataset` is the number of batches it delivers in the epoch, for every dataset, process,
number of workers and batch size, shuffled or not, with or without `drop_last`; and asking for it does not change how the samples are split.
Missing: a dataset whose length was asked before the loader changed `drop_last`, for which it is false (`c65_stale_drop_last`). -/
theorem c65_len_exact_partial (src : DsSource) (hperm : ∀ e l, (src.perm e l).Perm l) (hr : src.rank < src.worldSize) (s : DsSettings)
    (shuffle dropLast : Option Bool) (bs nw : Nat) (hbs : 0 < bs) (hone : s.epoch = 1 ∨ src.numNodes = 1)
    (s1 : DsSettings) (hinit : loaderInit bs nw shuffle dropLast (.streaming src s) = .streaming src s1)
    (hfresh : s1.shuffler = none ∨ s1.shuffler = some (createShuffler s1)) :
    ∃ n s2 ws, loaderLength bs nw (.streaming src s1) = .ok (n, .streaming src s2) ∧
      dsSplit src (atLeastOne nw) s1 = .ok ws ∧ dsSplit src (atLeastOne nw) s2 = .ok ws ∧
      ∀ sh : Shuffler, (∀ a n e k, (sh a n e k).Perm a) →
        (loaderOut bs ((rankWorkers ws src.rank (atLeastOne nw)).map (epochStream sh s1.epoch))).length = n := by
  have hs1 : s1.batchSize = bs ∧ s1.numWorkers = atLeastOne nw ∧ s1.epoch = s.epoch := by
    unfold loaderInit at hinit
    cases shuffle <;> cases dropLast <;>
      (simp only [mapDs, mapBatchSize] at hinit; injection hinit with _ hinit; subst hinit; exact ⟨rfl, rfl, rfl⟩)
  obtain ⟨hb, hn, he⟩ := hs1
  have hnw : 0 < atLeastOne nw := by unfold atLeastOne; split <;> omega
  obtain ⟨idx, out, hl, hp, heq⟩ := epochAssign_eq (if (createShuffler s1).1 then some src.perm else none)
    (by intro p hp e l; split at hp <;> simp at hp; subst hp; exact hperm e l) src.ivs s1.epoch
  have hq := heq src.worldSize src.numNodes (createShuffler s1).2 (atLeastOne nw) bs (by rw [he]; exact hone)
  obtain ⟨ws, hws, _⟩ := associate_spec src.worldSize idx out (createShuffler s1).2 (atLeastOne nw) bs (by omega) hnw hbs
  rw [hws] at hq
  have hset : setBatchSize bs (setNumWorkers nw s1) = s1 := by
    unfold setBatchSize setNumWorkers
    show ({ s1 with numWorkers := atLeastOne nw, batchSize := bs } : DsSettings) = s1
    rw [← hb, ← hn]
  have hsh : s1.shuffler.getD (createShuffler s1) = createShuffler s1 := by
    rcases hfresh with h | h <;> rw [h] <;> rfl
  have hlen : dsGetLen src nw bs s1 = .ok (shuffleLen ws src.rank (atLeastOne nw), { s1 with shuffler := some (createShuffler s1) }) := by
    unfold dsGetLen
    simp only [hset, hsh]
    unfold shufflerLen
    rw [hn, hb, hq]
  refine ⟨loaderLen (shuffleLen ws src.rank (atLeastOne nw)) bs, { s1 with shuffler := some (createShuffler s1) }, ws, ?_, ?_, ?_, ?_⟩
  · unfold loaderLength
    dsimp only
    rw [hlen]
  · unfold dsSplit
    simp only
    rw [hb, hq]
  · show epochAssign (if (createShuffler s1).1 then some src.perm else none) src.ivs src.worldSize src.numNodes (createShuffler s1).2 (atLeastOne nw)
      s1.batchSize s1.epoch = _
    rw [hb, hq]
  · intro sh hsh'
    exact rank_batches_len src.worldSize idx out _ _ bs (by omega) hnw hbs hl ws hws _
      (fun ps hps => (epochStream_perm sh hsh' _ idx out _ _ bs ws hws ps hps s1.epoch).length_eq) src.rank hr

theorem forEach_ok {α : Type} (f : α → Py (Nat × DsSettings)) (src : α → DsSource) (n : α → Nat) (g : α → DsSettings) : ∀ ds : List α,
    (∀ d ∈ ds, f d = .ok (n d, g d)) → forEach f src ds = .ok ((ds.map n).sum, ds.map fun d => (src d, g d)) := by
  intro ds
  induction ds with
  | nil => intro _; rfl
  | cons d ds ih =>
    intro h
    unfold forEach
    rw [h d (by simp), ih fun x hx => h x (by simp [hx])]
    rfl

theorem forEach_all {α : Type} (f : α → Py (Nat × DsSettings)) (src : α → DsSource) (P : DsSettings → Prop)
    (hf : ∀ d n s, f d = .ok (n, s) → P s) : ∀ (ds : List α) (n : Nat) (l : List (DsSource × DsSettings)),
    forEach f src ds = .ok (n, l) → l.map Prod.fst = ds.map src ∧ ∀ x ∈ l, P x.2 := by
  intro ds
  induction ds with
  | nil =>
    intro n l h
    simp only [forEach] at h
    injection h with h
    injection h with _ h
    subst h
    simp
  | cons d ds ih =>
    intro n l h
    unfold forEach at h
    cases hd : f d with
    | error e => rw [hd] at h; simp at h
    | ok r =>
      rw [hd] at h
      cases hr : forEach f src ds with
      | error e => rw [hr] at h; simp at h
      | ok q =>
        rw [hr] at h
        simp only at h
        injection h with h
        injection h with _ h
        subst h
        obtain ⟨h1, h2⟩ := ih q.1 q.2 hr
        refine ⟨by simp [h1], ?_⟩
        intro x hx
        rcases List.mem_cons.1 hx with rfl | hx
        · exact hf d r.1 r.2 hd
        · exact h2 x hx

theorem dsGetLen_sets (src : DsSource) (nw bs : Nat) (s s' : DsSettings) (n : Nat) (h : dsGetLen src nw bs s = .ok (n, s')) :
    s'.batchSize = bs ∧ s'.numWorkers = atLeastOne nw ∧ s'.shuffle = s.shuffle ∧ s'.dropLast = s.dropLast ∧ s'.epoch = s.epoch ∧ s'.state = s.state := by
  unfold dsGetLen at h
  simp only at h
  split at h
  · simp at h
  · injection h with h
    injection h with _ h
    subst h
    exact ⟨rfl, rfl, rfl, rfl, rfl, rfl⟩

/-- **C65, settings.** A loader gives its settings to every dataset of a combined dataset. -/
theorem c65_settings_reach_all (bs nw : Nat) (shuffle dropLast : Option Bool) (c : CombSettings) :
    ∃ c', loaderInit bs nw shuffle dropLast (.combined c) = .combined c' ∧ c'.batchSize = bs ∧ c'.datasets.map Prod.fst = c.datasets.map Prod.fst ∧
      ∀ x ∈ c'.datasets, x.2.batchSize = bs ∧ x.2.numWorkers = atLeastOne nw ∧ (∀ b, shuffle = some b → x.2.shuffle = b) ∧
        (∀ b, dropLast = some b → x.2.dropLast = b) := by
  unfold loaderInit
  cases shuffle <;> cases dropLast <;> simp only [mapDs, mapBatchSize, List.map_map] <;> refine ⟨_, rfl, rfl, ?_, ?_⟩
  all_goals
    first
    | (simp only [List.map_map]; apply List.map_congr_left; intro _ _; rfl)
    | (intro x hx
       obtain ⟨d, _, rfl⟩ := List.mem_map.1 hx
       refine ⟨rfl, rfl, ?_, ?_⟩ <;> intro b hb <;> first | simp at hb; done | (injection hb))

/-- Asking the loader for its length leaves the settings it has given to the datasets. -/
theorem c65_length_keeps (bs nw : Nat) (c c' : CombSettings) (n : Nat)
    (h : loaderLength bs nw (.combined c) = .ok (n, .combined c')) :
    c'.batchSize = bs ∧ ∀ x ∈ c'.datasets, x.2.batchSize = bs ∧ x.2.numWorkers = atLeastOne nw := by
  unfold loaderLength at h
  simp only [combGetLen] at h
  split at h
  · simp at h
  · simp at h
  · rename_i m c2 hc
    injection h with h
    injection h with _ h
    injection h with h
    subst h
    split at hc
    · split at hc
      · simp at hc
      · rename_i q ds hf
        injection hc with hc
        injection hc with _ hc
        subst hc
        refine ⟨rfl, ?_⟩
        exact (forEach_all _ _ (fun s => s.batchSize = bs ∧ s.numWorkers = atLeastOne nw)
          (fun d n s hd => ⟨(dsGetLen_sets _ _ _ _ _ _ hd).1, (dsGetLen_sets _ _ _ _ _ _ hd).2.1⟩) _ _ _ hf).2
    · simp at hc

/-- **C65 fails: `len` of a combined dataset.** Whatever the loader had set, afterwards every dataset has batch size 1 and one worker. -/
theorem c65_len_resets (c c' : CombSettings) (n : Nat) (h : combLen c = .ok (some n, c')) :
    c'.batchSize = 1 ∧ ∀ x ∈ c'.datasets, x.2.batchSize = 1 ∧ x.2.numWorkers = 1 := by
  unfold combLen combGetLen at h
  simp only at h
  split at h
  · split at h
    · simp at h
    · rename_i q ds hf
      injection h with h
      injection h with _ h
      subst h
      refine ⟨rfl, ?_⟩
      exact (forEach_all _ _ (fun s => s.batchSize = 1 ∧ s.numWorkers = 1)
        (fun d n s hd => ⟨(dsGetLen_sets _ _ _ _ _ _ hd).1, (dsGetLen_sets _ 1 1 _ _ _ hd).2.1⟩) _ _ _ hf).2
  · simp at h

/-- **C65 fails: loading a state.** A loader over a combined dataset with `iterate_over_all` that loads a state with any sample in it goes on with
datasets of batch size 1 and one worker. -/
theorem c65_load_resets (states : List Bool) (y : Nat) (hy : y ≠ 0) (c : CombSettings) (hall : c.all = true) (d : LoaderData)
    (h : loaderLoadSettings states y (.combined c) = .ok d) :
    ∃ c', d = .combined c' ∧ c'.batchSize = 1 ∧ ∀ x ∈ c'.datasets, x.2.batchSize = 1 ∧ x.2.numWorkers = 1 := by
  unfold loaderLoadSettings at h
  simp only at h
  split at h
  · simp at h
  · rw [if_pos ⟨hall, hy⟩] at h
    split at h
    · simp at h
    · rename_i o c' hc
      injection h with h
      refine ⟨c', h.symm, ?_⟩
      cases o with
      | some n => exact c65_len_resets _ c' n hc
      | none =>
        unfold combLen combGetLen at hc
        simp only [hall, if_true] at hc
        split at hc <;> simp at hc

/-- A loader over a single dataset keeps the settings when it loads a state. -/
theorem c65_load_keeps (states : List Bool) (y : Nat) (src : DsSource) (s : DsSettings) (hb : s.batchSize ≠ 0) (hn : s.numWorkers ≠ 0) (d : LoaderData)
    (h : loaderLoadSettings states y (.streaming src s) = .ok d) :
    ∃ s', d = .streaming src s' ∧ s'.batchSize = s.batchSize ∧ s'.numWorkers = s.numWorkers ∧ s'.shuffle = s.shuffle ∧ s'.dropLast = s.dropLast ∧
      s'.epoch = s.epoch := by
  unfold loaderLoadSettings at h
  simp only at h
  split at h
  · injection h with h
    exact ⟨_, h.symm, rfl, rfl, rfl, rfl, rfl⟩
  · split at h
    · simp at h
    · rename_i n s' hs
      injection h with h
      obtain ⟨g1, g2, g3, g4, g5, _⟩ := dsGetLen_sets _ _ _ _ _ _ hs
      refine ⟨s', h.symm, ?_, ?_, g3, g4, g5⟩
      · rw [g1]; simp only; rw [if_neg hb]
      · rw [g2]; simp only; unfold atLeastOne; rw [if_neg hn]

/-- **C65 fails: a stale shuffler.** A combined dataset without weights asks for the lengths of its datasets. A loader that then sets `drop_last` has
the length without it: here two batches, though one is delivered. -/
theorem c65_stale_drop_last :
    let src : DsSource := ⟨fun _ l => l, [⟨0, 0, 3, 3⟩], 1, 1, 0⟩
    ∃ c c1 n d c2 ws, combInit [(src, { shuffle := false, dropLast := false })] true false = .ok c ∧
      loaderInit 2 1 none (some true) (.combined c) = .combined c1 ∧ loaderLength 2 1 (.combined c1) = .ok (n, .combined c2) ∧ n = 2 ∧
      c1.datasets = [d] ∧ dsSplit d.1 1 d.2 = .ok ws ∧ loaderOut 2 ((rankWorkers ws 0 1).map (epochStream noShuffler 1)) = [[(0, 0), (0, 1)]] :=
  ⟨_, _, _, _, _, _, rfl, rfl, rfl, rfl, rfl, rfl, by decide +kernel⟩

/-- Without `iterate_over_all` a loader has no length. -/
theorem c65_no_length (bs nw : Nat) (c : CombSettings) (h : c.all = false) : loaderLength bs nw (.combined c) = .error .typeError := by
  unfold loaderLength combGetLen
  simp [h]

theorem loaderLen_sum_le (bs : Nat) (hbs : 0 < bs) (ns : List Nat) : loaderLen ns.sum bs ≤ (ns.map fun n => loaderLen n bs).sum := by
  have two : ∀ a b, loaderLen (a + b) bs ≤ loaderLen a bs + loaderLen b bs := by
    intro a b
    unfold loaderLen
    rw [Nat.div_le_iff_le_mul_add_pred hbs]
    have h1 := Nat.div_add_mod (a + bs - 1) bs
    have h2 := Nat.div_add_mod (b + bs - 1) bs
    have h3 := Nat.mod_lt (a + bs - 1) hbs
    have h4 := Nat.mod_lt (b + bs - 1) hbs
    rw [Nat.mul_add]
    omega
  induction ns with
  | nil => simp [loaderLen_zero bs hbs]
  | cons a ns ih =>
    simp only [List.sum_cons, List.map_cons]
    have := two a ns.sum
    omega

theorem sum_map_add {α : Type} (l : List α) (g h : α → Nat) : (l.map fun x => g x + h x).sum = (l.map g).sum + (l.map h).sum := by
  induction l with
  | nil => rfl
  | cons a l ih => simp only [List.map_cons, List.sum_cons]; omega

theorem sum_swap {α : Type} (l : List α) (f : α → Nat → Nat) (n : Nat) :
    (l.map fun x => ((List.range n).map (f x)).sum).sum = ((List.range n).map fun i => (l.map fun x => f x i).sum).sum := by
  induction n with
  | zero => induction l with
    | nil => rfl
    | cons a l ih => simpa using ih
  | succ n ih =>
    simp only [List.range_succ, List.map_append, List.sum_append, List.map_cons, List.map_nil, List.sum_cons, List.sum_nil, Nat.add_zero]
    rw [sum_map_add, ih]

/-- The samples of a rank, worker by worker. -/
theorem shuffleLen_workers (ws : List (List Piece)) (r nw : Nat) (h : r * nw + nw ≤ ws.length) :
    shuffleLen ws r nw = ((List.range nw).map fun i => (samples (ws.getD (r * nw + i) [])).length).sum := by
  rw [shuffleLen_eq]
  unfold rankSamples
  rw [List.length_flatMap]
  congr 1
  unfold rankWorkers
  apply List.ext_getElem
  · simp; omega
  · intro i h1 h2
    simp only [List.length_map, List.length_range] at h2
    have hi : r * nw + i < ws.length := by omega
    simp only [List.getElem_map, List.getElem_take, List.getElem_drop, List.getElem_range]
    have e : ws.getD (r * nw + i) [] = ws[r * nw + i] := by
      rw [List.getD_eq_getElem?_getD, List.getElem?_eq_getElem hi, Option.getD_some]
    rw [e]

/-- What is missing in the last batch of `n` samples. -/
def padding (bs n : Nat) : Nat := (bs - n % bs) % bs

theorem loaderLen_padding (bs n : Nat) (hbs : 0 < bs) : bs * loaderLen n bs = n + padding bs n := by
  unfold loaderLen padding
  have h1 := Nat.div_add_mod n bs
  have h2 := Nat.mod_lt n hbs
  generalize n / bs = q at *
  generalize n % bs = m at *
  subst h1
  by_cases hm : m = 0
  · subst hm
    rw [Nat.add_zero, Nat.sub_zero, Nat.mod_self, Nat.add_zero, show bs * q + bs - 1 = bs * q + (bs - 1) by omega, Nat.mul_add_div hbs,
      Nat.div_eq_of_lt (by omega), Nat.add_zero]
  · rw [Nat.mod_eq_of_lt (by omega : bs - m < bs), show bs * q + m + bs - 1 = bs * (q + 1) + (m - 1) by rw [Nat.mul_add, Nat.mul_one]; omega, Nat.mul_add_div hbs,
      Nat.div_eq_of_lt (by omega : m - 1 < bs), Nat.add_zero, Nat.mul_add, Nat.mul_one]
    omega

theorem loaderLen_sum_eq (bs : Nat) (hbs : 0 < bs) (l : List Nat) :
    loaderLen l.sum bs = (l.map fun n => loaderLen n bs).sum ↔ (l.map (padding bs)).sum < bs := by
  have h1 : bs * (l.map fun n => loaderLen n bs).sum = l.sum + (l.map (padding bs)).sum := by
    induction l with
    | nil => simp
    | cons a l ih =>
      simp only [List.map_cons, List.sum_cons, Nat.mul_add, ih, loaderLen_padding bs a hbs]
      omega
  have h2 := loaderLen_padding bs l.sum hbs
  have h3 : padding bs l.sum < bs := Nat.mod_lt _ hbs
  constructor
  · intro h
    rw [← h, h2] at h1
    omega
  · intro h
    have h4 : bs * loaderLen l.sum bs < bs * (l.map fun n => loaderLen n bs).sum + bs := by omega
    have h5 : bs * (l.map fun n => loaderLen n bs).sum < bs * loaderLen l.sum bs + bs := by omega
    rw [← Nat.mul_succ] at h4 h5
    have := Nat.lt_of_mul_lt_mul_left h4
    have := Nat.lt_of_mul_lt_mul_left h5
    omega

/-- **C65, combined datasets.** With `iterate_over_all`, the length of a loader is at most the number of batches it delivers. Each worker ends with
a batch of its own that may be incomplete, and the length is right exactly if what is missing in these batches is together less than a batch; so it is with a single
worker. The workers' outputs `outs` are those of complete runs of their combined iterators. -/
theorem c65_combined_len_partial (ds : List (DsSource × DsSettings)) (hds : ds ≠ []) (W r : Nat) (hr : r < W) (bs nw : Nat) (hbs : 0 < bs)
    (hW : ∀ d ∈ ds, d.1.worldSize = W ∧ d.1.rank = r ∧ (∀ e l, (d.1.perm e l).Perm l) ∧ (d.2.epoch = 1 ∨ d.1.numNodes = 1))
    (hset : ∀ d ∈ ds, d.2.batchSize = bs ∧ d.2.numWorkers = atLeastOne nw ∧ (d.2.shuffler = none ∨ d.2.shuffler = some (createShuffler d.2)))
    (sh : DsSource → Shuffler) (hsh : ∀ s a n e k, (sh s a n e k).Perm a)
    (ws : DsSource × DsSettings → List (List Piece)) (hws : ∀ d ∈ ds, dsSplit d.1 (atLeastOne nw) d.2 = .ok (ws d))
    (cfg : CombinedConfig) (hf : FairRng cfg.rng) (hb : cfg.batching ≠ .other) (weights : List Nat) (hl : weights.length = ds.length)
    (hpos : ∀ w ∈ weights, 0 < w) (outs : List (List (Nat × (Nat × Nat)))) (ho : outs.length = atLeastOne nw)
    (hrun : ∀ i (hi : i < outs.length), ∃ st st' fuel m,
      combinedInit cfg weights (ds.map fun d => epochStream (sh d.1) d.2.epoch ((ws d).getD (r * atLeastOne nw + i) [])) none = .ok st ∧
      ds.length * (cfg.batchSize + 2) + cfg.batchSize < fuel ∧ takeAll cfg fuel m st = some (outs[i], some .stopIteration, st')) :
    ∃ n c', loaderLength bs nw (.combined { datasets := ds, all := true, batchSize := bs }) = .ok (n, .combined c') ∧
      n ≤ (loaderOut bs outs).length ∧ (atLeastOne nw = 1 → n = (loaderOut bs outs).length) ∧
      let share := fun i => (ds.map fun d => (samples ((ws d).getD (r * atLeastOne nw + i) [])).length).sum
      (loaderOut bs outs).length = ((List.range (atLeastOne nw)).map fun i => (share i + bs - 1) / bs).sum ∧
      (n = (loaderOut bs outs).length ↔ ((List.range (atLeastOne nw)).map fun i => (bs - share i % bs) % bs).sum < bs) := by
  have hnw : 0 < atLeastOne nw := by unfold atLeastOne; split <;> omega
  have hd : ∀ d ∈ ds, (ws d).length = W * atLeastOne nw ∧ (∀ ps ∈ ws d, (epochStream (sh d.1) d.2.epoch ps).Perm (samples ps)) ∧
      dsGetLen d.1 nw bs d.2 = .ok (shuffleLen (ws d) r (atLeastOne nw), { d.2 with shuffler := some (createShuffler d.2) }) := by
    intro d hd
    obtain ⟨h1, h2, h3, h4⟩ := hW d hd
    obtain ⟨g1, g2, g3⟩ := hset d hd
    have hsp := hws d hd
    unfold dsSplit at hsp
    simp only at hsp
    obtain ⟨idx, out, hlen, hp, heq⟩ := epochAssign_eq (if (createShuffler d.2).1 then some d.1.perm else none)
      (by intro p hp e l; split at hp <;> simp at hp; subst hp; exact h3 e l) d.1.ivs d.2.epoch
    have hq := heq d.1.worldSize d.1.numNodes (createShuffler d.2).2 (atLeastOne nw) d.2.batchSize h4
    obtain ⟨ws', hws', hwl, _⟩ := associate_spec d.1.worldSize idx out (createShuffler d.2).2 (atLeastOne nw) d.2.batchSize (by omega) hnw (by omega)
    have hee : ws d = ws' := by
      rw [hq, hws'] at hsp
      injection hsp with hsp
      exact hsp.symm
    refine ⟨by rw [hee, hwl, h1], ?_, ?_⟩
    · rw [hee]
      exact fun ps hps => epochStream_perm (sh d.1) (hsh d.1) _ idx out _ _ _ ws' hws' ps hps d.2.epoch
    · have e1 : setBatchSize bs (setNumWorkers nw d.2) = d.2 := by
        unfold setBatchSize setNumWorkers
        show ({ d.2 with numWorkers := atLeastOne nw, batchSize := bs } : DsSettings) = d.2
        rw [← g1, ← g2]
      have e2 : d.2.shuffler.getD (createShuffler d.2) = createShuffler d.2 := by
        rcases g3 with h | h <;> rw [h] <;> rfl
      unfold dsGetLen
      simp only [e1, e2]
      unfold shufflerLen
      rw [g2, hsp]
      simp only [h2]
  have hlen : loaderLength bs nw (.combined { datasets := ds, all := true, batchSize := bs }) =
      .ok (loaderLen (ds.map fun d => shuffleLen (ws d) r (atLeastOne nw)).sum bs,
        .combined { datasets := ds.map fun d => (d.1, { d.2 with shuffler := some (createShuffler d.2) }), all := true, numWorkers := nw, batchSize := bs }) := by
    unfold loaderLength combGetLen
    simp only [if_true]
    rw [forEach_ok (fun d => dsGetLen d.1 nw bs d.2) Prod.fst (fun d => shuffleLen (ws d) r (atLeastOne nw))
      (fun d => { d.2 with shuffler := some (createShuffler d.2) }) ds (fun d hd' => (hd d hd').2.2)]
  refine ⟨_, _, hlen, ?_⟩
  -- the lengths of the outputs
  have hout : ∀ i (hi : i < outs.length), (outs[i]).length = (ds.map fun d => (samples ((ws d).getD (r * atLeastOne nw + i) [])).length).sum := by
    intro i hi
    obtain ⟨st, st', fuel, m, k1, k2, k3⟩ := hrun i hi
    obtain ⟨st0, h1, h2, h3, _⟩ := combinedInit_inv cfg weights
      (ds.map fun d => epochStream (sh d.1) d.2.epoch ((ws d).getD (r * atLeastOne nw + i) [])) (by simpa using hds) (by simpa using hl) hpos
    rw [k1] at h1
    injection h1 with h1
    subst h1
    obtain ⟨out, e, st2, g1, _, _, g4, g5⟩ := takeAll_ok cfg hf hb fuel m st h2 (by rw [h3, List.length_map]; omega)
    rw [k3] at g1
    injection g1 with g1
    injection g1 with e1 g1
    injection g1 with e2 e3
    subst e1 e2
    rw [h3] at g4 g5
    have hm : ¬ m ≤ ((ds.map fun d => epochStream (sh d.1) d.2.epoch ((ws d).getD (r * atLeastOne nw + i) [])).map List.length).sum := by
      intro hm
      rw [if_pos hm] at g5
      simp at g5
    rw [g4, Nat.min_eq_right (by omega), List.map_map]
    congr 1
    apply List.map_congr_left
    intro d hd'
    obtain ⟨w1, w2, _⟩ := hd d hd'
    have hlt : r * atLeastOne nw + i < (ws d).length := by
      have : (r + 1) * atLeastOne nw ≤ W * atLeastOne nw := Nat.mul_le_mul_right _ hr
      rw [Nat.succ_mul] at this
      omega
    have e : (ws d).getD (r * atLeastOne nw + i) [] = (ws d)[r * atLeastOne nw + i] := by
      rw [List.getD_eq_getElem?_getD, List.getElem?_eq_getElem hlt, Option.getD_some]
    simp only [Function.comp_apply]
    rw [e]
    exact (w2 _ (List.getElem_mem hlt)).length_eq
  have htotal : (ds.map fun d => shuffleLen (ws d) r (atLeastOne nw)).sum = (outs.map List.length).sum := by
    have e1 : (ds.map fun d => shuffleLen (ws d) r (atLeastOne nw)).sum =
        (ds.map fun d => ((List.range (atLeastOne nw)).map fun i => (samples ((ws d).getD (r * atLeastOne nw + i) [])).length).sum).sum := by
      congr 1
      apply List.map_congr_left
      intro d hd'
      apply shuffleLen_workers
      rw [(hd d hd').1]
      have : (r + 1) * atLeastOne nw ≤ W * atLeastOne nw := Nat.mul_le_mul_right _ hr
      rw [Nat.succ_mul] at this
      omega
    rw [e1, sum_swap]
    congr 1
    apply List.ext_getElem
    · simp [ho]
    · intro i h1 h2
      simp only [List.length_map, List.length_range] at h1 h2
      simp only [List.getElem_map, List.getElem_range]
      exact (hout i h2).symm
  rw [loaderOut_length bs hbs, htotal]
  have e : (outs.map fun xs => loaderLen xs.length bs) = (outs.map List.length).map fun n => loaderLen n bs := by rw [List.map_map]; rfl
  rw [e]
  have hshare : outs.map List.length = (List.range (atLeastOne nw)).map fun i => (ds.map fun d => (samples ((ws d).getD (r * atLeastOne nw + i) [])).length).sum := by
    apply List.ext_getElem
    · simp [ho]
    · intro i h1 h2
      simp only [List.length_map] at h1
      simp only [List.getElem_map, List.getElem_range]
      exact hout i h1
  refine ⟨loaderLen_sum_le bs hbs _, ?_, ?_, ?_⟩
  · intro h1
    rw [h1] at ho
    obtain ⟨o, rfl⟩ := List.length_eq_one_iff.1 ho
    simp
  · rw [hshare, List.map_map]
    rfl
  · rw [loaderLen_sum_eq bs hbs, hshare, List.map_map]
    rfl

/-- Two datasets, of three samples and of one. -/
def twoSources : List (DsSource × DsSettings) :=
  [(⟨fun _ l => l, [⟨0, 0, 3, 3⟩], 1, 1, 0⟩, { shuffle := false, dropLast := false, batchSize := 2, numWorkers := 2 }),
   (⟨fun _ l => l, [⟨0, 0, 1, 1⟩], 1, 1, 0⟩, { shuffle := false, dropLast := false, batchSize := 2, numWorkers := 2 })]

/-- What the two workers of a loader with batches of two read from them. -/
def twoOuts : List (List (Nat × (Nat × Nat))) := [[(0, (0, 0)), (1, (0, 0)), (0, (0, 1))], [(0, (0, 2))]]

theorem twoOuts_run : ∀ i (hi : i < twoOuts.length), ∃ st st' fuel m,
    combinedInit ⟨roundRng, .stratified, 2⟩ [3, 1] (twoSources.map fun d => epochStream noShuffler d.2.epoch
      (((dsSplit d.1 2 d.2).toOption.getD []).getD (0 * 2 + i) [])) none = .ok st ∧
    twoSources.length * (2 + 2) + 2 < fuel ∧
    takeAll ⟨roundRng, .stratified, 2⟩ fuel m st = some (twoOuts[i], some .stopIteration, st') := by
  intro i hi
  match i, hi with
  | 0, _ => exact ⟨⟨[[(0, 0), (0, 1)], [(0, 0)]], [some 0, some 1], [some 3, some 1], [0, 0], 0, 0, none⟩, ⟨[[], []], [some 0, some 1], [some 3, some 1], [2, 1], 3, 0, none⟩, 20, 9,
      by decide +kernel, by decide, (by simp only [twoOuts, List.getElem_cons_zero, List.getElem_cons_succ]; decide +kernel)⟩
  | 1, _ => exact ⟨⟨[[(0, 2)], []], [some 0, some 1], [some 3, some 1], [0, 0], 0, 0, none⟩, ⟨[[], []], [some 0, some 1], [some 3, some 1], [1, 0], 1, 0, none⟩, 20, 9,
      by decide +kernel, by decide, (by simp only [twoOuts, List.getElem_cons_zero, List.getElem_cons_succ]; decide +kernel)⟩

/-- The hypotheses are met. -/
example := c65_combined_len_partial twoSources (by simp [twoSources]) 1 0 (by omega) 2 2 (by omega)
  (by intro d hd; simp only [twoSources, List.mem_cons, List.not_mem_nil, or_false] at hd; rcases hd with rfl | rfl <;> exact ⟨rfl, rfl, fun _ _ => List.Perm.refl _, Or.inl rfl⟩)
  (by intro d hd; simp only [twoSources, List.mem_cons, List.not_mem_nil, or_false] at hd; rcases hd with rfl | rfl <;> exact ⟨rfl, rfl, Or.inl rfl⟩)
  (fun _ => noShuffler) (fun _ _ _ _ _ => List.Perm.refl _) (fun d => (dsSplit d.1 2 d.2).toOption.getD [])
  (by intro d hd; simp only [twoSources, List.mem_cons, List.not_mem_nil, or_false] at hd; rcases hd with rfl | rfl <;> rfl)
  ⟨roundRng, .stratified, 2⟩ roundRng_fair (by simp) [3, 1] rfl (by simp) twoOuts rfl twoOuts_run

/-- **C65 fails: two workers.** For these two datasets, with two workers and batches of two, the length is 2 but three batches are delivered. -/
theorem c65_combined_len_short :
    ∃ c', loaderLength 2 2 (.combined { datasets := twoSources, all := true, batchSize := 2 }) = .ok (2, .combined c') ∧
      (loaderOut 2 twoOuts).length = 3 :=
  ⟨_, rfl, by decide +kernel⟩

/-- **C65, the split follows the settings.** Without a loaded state a dataset is split with its own `shuffle` and `drop_last` and the epoch that was set last; with one
the split has the `drop_last` of the state, and setting an epoch changes nothing. -/
theorem c65_split_follows (src : DsSource) (workers e : Nat) (s : DsSettings) :
    (s.state = none → s.shuffle = true → dsSplit src workers (setEpoch e s) =
      fullShuffleAssign src.perm src.ivs src.worldSize src.numNodes s.dropLast workers s.batchSize e) ∧
    (s.state = none → s.shuffle = false → dsSplit src workers (setEpoch e s) = noShuffleAssign src.ivs src.worldSize s.dropLast workers s.batchSize) ∧
    (∀ d, s.state = some d → s.shuffle = true → dsSplit src workers (setEpoch e s) =
      fullShuffleAssign src.perm src.ivs src.worldSize src.numNodes d workers s.batchSize s.epoch) ∧
    (∀ d, s.state = some d → s.shuffle = false → dsSplit src workers (setEpoch e s) = noShuffleAssign src.ivs src.worldSize d workers s.batchSize) ∧
    (∀ d, s.state = some d → setEpoch e s = s) := by
  refine ⟨?_, ?_, ?_, ?_, ?_⟩
  · intro h1 h2
    simp [dsSplit, setEpoch, createShuffler, epochAssign, h1, h2]
  · intro h1 h2
    simp [dsSplit, setEpoch, createShuffler, epochAssign, h1, h2]
  · intro d h1 h2
    simp [dsSplit, setEpoch, createShuffler, epochAssign, h1, h2]
  · intro d h1 h2
    simp [dsSplit, setEpoch, createShuffler, epochAssign, h1, h2]
  · intro d h1
    simp [setEpoch, h1]

example := (c65_split_follows ⟨fun _ l => l.reverse, [⟨0, 0, 8, 8⟩, ⟨8, 8, 16, 16⟩], 2, 1, 1⟩ 2 3 { shuffle := true, dropLast := true, state := some false }).2.2.1 false rfl rfl

/-- A state for another number of datasets is refused. -/
theorem c65_wrong_states (states : List Bool) (y : Nat) (c : CombSettings) (h : states.length ≠ c.datasets.length) :
    loaderLoadSettings states y (.combined c) = .error .runtimeError := by
  simp [loaderLoadSettings, h]

example := c65_wrong_states [true] 3 { datasets := twoSources, all := true } (by decide)

/-- Each dataset of a combined one takes its own state, when the length is not asked. -/
theorem c65_own_states (states : List Bool) (c : CombSettings) (h : states.length = c.datasets.length) (hno : c.all = false) (y : Nat) :
    ∃ c', loaderLoadSettings states y (.combined c) = .ok (.combined c') ∧ c'.datasets.length = c.datasets.length ∧
      ∀ (i : Nat) (hi : i < c.datasets.length) (hi' : i < c'.datasets.length), c'.datasets[i].1 = c.datasets[i].1 ∧
        c'.datasets[i].2.state = some (states[i]'(by omega)) ∧ c'.datasets[i].2.epoch = c.datasets[i].2.epoch := by
  refine ⟨_, by simp [loaderLoadSettings, h, hno]; rfl, by simp [h], ?_⟩
  intro i hi hi'
  simp

/-- Three chunks, shuffled, on two processes. -/
example := c65_len_exact_partial ⟨fun _ l => l.reverse, [⟨0, 0, 8, 8⟩, ⟨8, 8, 16, 16⟩, ⟨16, 16, 21, 21⟩], 2, 1, 1⟩ (fun _ l => l.reverse_perm) (by simp)
  { shuffle := false, dropLast := false } (some true) (some true) 4 3 (by omega) (Or.inl rfl) _ rfl (Or.inl rfl)

end LitData.Props
