import Verif.Lemmas.CombinedResume

/-! Properties C18, C19, C20: combining datasets. -/

namespace LitData.Props
open LitData

/-- **C18.** With `iterate_over_all`, for every random choice and either batching method: after
`m` calls of `next` the delivered samples of each dataset are a beginning of its own stream in its own
order, and the counters are their numbers. No call fails as long as any sample is left, and the call after
the last sample stops. -/
theorem c18_progress_partial {α : Type} (cfg : CombinedConfig) (hf : FairRng cfg.rng) (hb : cfg.batching ≠ .other) (weights : List Nat)
    (streams : List (List α)) (hne : streams ≠ []) (hl : weights.length = streams.length) (hw : ∀ w ∈ weights, 0 < w) (m : Nat) :
    ∃ st bound, combinedInit cfg weights streams none = .ok st ∧ ∀ fuel, bound ≤ fuel →
      ∃ out e st', takeAll cfg fuel m st = some (out, e, st') ∧ out.length = min m (streams.map List.length).sum ∧
        (e = if m ≤ (streams.map List.length).sum then none else some .stopIteration) ∧
        ∀ (d : Nat) (s : List α), streams[d]? = some s → fromDataset d out <+: s ∧ st'.yielded[d]? = some (fromDataset d out).length := by
  obtain ⟨st, h1, h2, h3, h4⟩ := combinedInit_inv cfg weights streams hne hl hw
  refine ⟨st, st.streams.length * (cfg.batchSize + 2) + cfg.batchSize + 1, h1, fun fuel hfuel => ?_⟩
  obtain ⟨out, e, st', g1, g2, g3, g4, g5⟩ := takeAll_ok cfg hf hb fuel m st h2 (by omega)
  rw [h3] at g4 g5
  refine ⟨out, e, st', g1, g4, g5, ?_⟩
  intro d s hs
  obtain ⟨s', k1, k2⟩ := g2.contrib d s (by rw [h3]; exact hs)
  refine ⟨⟨s', k2.symm⟩, ?_⟩
  have := g2.counts d 0 (by
    rw [h4, List.getElem?_replicate]
    rw [if_pos (List.getElem?_eq_some_iff.1 hs).1])
  simpa using this

theorem fromDataset_total {α : Type} (n : Nat) (out : List (Nat × α)) (h : ∀ x ∈ out, x.1 < n) :
    ((List.range n).map fun d => (fromDataset d out).length).sum = out.length := by
  induction out with
  | nil =>
    show _ = 0
    rw [List.sum_eq_zero_iff_forall_eq_nat]
    simp [fromDataset]
  | cons x out ih =>
    have ih := ih (fun y hy => h y (by simp [hy]))
    have hx := h x (by simp)
    have key : ∀ m, ((List.range m).map fun d => (fromDataset d (x :: out)).length).sum =
        ((List.range m).map fun d => (fromDataset d out).length).sum + if x.1 < m then 1 else 0 := by
      intro m
      induction m with
      | zero => simp
      | succ m ihm =>
        rw [List.range_succ, List.map_append, List.sum_append, ihm, List.map_append, List.sum_append]
        simp only [List.map_cons, List.map_nil, List.sum_cons, List.sum_nil]
        rw [show x = (x.1, x.2) from rfl, fromDataset_cons]
        by_cases hd : x.1 = m
        · rw [if_pos hd, List.length_cons]; (repeat' split) <;> simp only at * <;> omega
        · rw [if_neg hd]; (repeat' split) <;> simp only at * <;> omega
    rw [key, ih, if_pos hx, List.length_cons]

/-- **C18.** Run to the end, the stream has every sample of every dataset exactly once, those of a dataset
in their own order, and then stops. Missing: datasets of length 0, whose weight is 0; there it is false (below). -/
theorem c18_all_once_partial {α : Type} (cfg : CombinedConfig) (hf : FairRng cfg.rng) (hb : cfg.batching ≠ .other) (weights : List Nat)
    (streams : List (List α)) (hne : streams ≠ []) (hl : weights.length = streams.length) (hw : ∀ w ∈ weights, 0 < w) :
    ∃ st bound, combinedInit cfg weights streams none = .ok st ∧ ∀ fuel, bound ≤ fuel → ∀ m, (streams.map List.length).sum < m →
      ∃ out st', takeAll cfg fuel m st = some (out, some .stopIteration, st') ∧ out.length = (streams.map List.length).sum ∧
        (∀ x ∈ out, x.1 < streams.length) ∧ ∀ (d : Nat) (s : List α), streams[d]? = some s → fromDataset d out = s := by
  obtain ⟨st, h1, h2, h3, h4⟩ := combinedInit_inv cfg weights streams hne hl hw
  refine ⟨st, st.streams.length * (cfg.batchSize + 2) + cfg.batchSize + 1, h1, fun fuel hfuel m hm => ?_⟩
  obtain ⟨out, e, st', g1, g2, g3, g4, g5⟩ := takeAll_ok cfg hf hb fuel m st h2 (by omega)
  rw [h3] at g4 g5
  rw [if_neg (by omega)] at g5
  subst g5
  refine ⟨out, st', g1, by omega, by rw [← h3]; exact g2.tags, ?_⟩
  -- each contribution is a prefix, and the lengths add up
  have hpre : ∀ d, d < streams.length → (fromDataset d out).length ≤ (streams.getD d []).length := by
    intro d hd
    obtain ⟨s', _, k2⟩ := g2.contrib d (streams[d]) (by rw [h3]; exact List.getElem?_eq_getElem hd)
    rw [List.getD_eq_getElem?_getD, List.getElem?_eq_getElem hd, Option.getD_some, k2]
    simp
  have htot := fromDataset_total streams.length out (by rw [← h3]; exact g2.tags)
  have hsum : ((List.range streams.length).map fun d => (streams.getD d []).length).sum = (streams.map List.length).sum := by
    congr 1
    apply List.ext_getElem
    · simp
    · intro i h1 h2
      simp at h1
      simp [List.getD_eq_getElem?_getD, List.getElem?_eq_getElem h1]
  have heq : ∀ (n : Nat) (f g : Nat → Nat), (∀ d, d < n → f d ≤ g d) → ((List.range n).map f).sum = ((List.range n).map g).sum →
      ∀ d, d < n → f d = g d := by
    intro n f g
    induction n with
    | zero => intro _ _ d hd; omega
    | succ n ih =>
      intro hle hs d hd
      simp only [List.range_succ, List.map_append, List.sum_append, List.map_cons, List.map_nil, List.sum_cons, List.sum_nil] at hs
      have hlast := hle n (by omega)
      have hmono : ∀ m, m ≤ n → ((List.range m).map f).sum ≤ ((List.range m).map g).sum := by
        intro m hm
        induction m with
        | zero => simp
        | succ m ihm =>
          simp only [List.range_succ, List.map_append, List.sum_append, List.map_cons, List.map_nil, List.sum_cons, List.sum_nil]
          have := ihm (by omega)
          have := hle m (by omega)
          omega
      have := hmono n (Nat.le_refl n)
      by_cases hdn : d = n
      · subst hdn; omega
      · exact ih (fun d hd => hle d (by omega)) (by omega) d (by omega)
  intro d s hs
  have hd := (List.getElem?_eq_some_iff.1 hs).1
  have := heq streams.length _ _ hpre (by rw [htot, hsum, g4]; omega) d hd
  rw [List.getD_eq_getElem?_getD, hs, Option.getD_some] at this
  obtain ⟨s', _, k2⟩ := g2.contrib d s (by rw [h3]; exact hs)
  have hl' : s'.length = 0 := by
    have := congrArg List.length k2
    rw [List.length_append] at this
    omega
  rw [List.length_eq_zero_iff.1 hl', List.append_nil] at k2
  exact k2.symm

/-- A random generator that goes round the datasets. -/
def roundRng : Nat → List Nat → List Nat → Nat := fun k indexes weights =>
  ((indexes.zip weights).filter fun x => decide (0 < x.2)).map (·.1) |>.getD (k % ((indexes.zip weights).filter fun x => decide (0 < x.2)).length) 0

theorem roundRng_fair : FairRng roundRng := by
  intro k idx ws hl hs
  unfold roundRng
  generalize hf : (idx.zip ws).filter (fun x => decide (0 < x.2)) = L
  have hpos : 0 < L.length := by
    rw [List.length_pos_iff]
    intro e
    subst e
    rw [List.filter_eq_nil_iff] at hf
    have : ws.sum = 0 := by
      rw [List.sum_eq_zero_iff_forall_eq_nat]
      intro w hw
      obtain ⟨i, hi⟩ := List.getElem?_of_mem hw
      have hil : i < idx.length := by rw [hl]; exact (List.getElem?_eq_some_iff.1 hi).1
      have := hf (idx[i], w) (List.mem_of_getElem? (i := i) (by
        rw [List.getElem?_zip_eq_some]; exact ⟨List.getElem?_eq_getElem hil, hi⟩))
      simp at this
      exact this
    omega
  have hk := Nat.mod_lt k hpos
  have hmem : L[k % L.length] ∈ (idx.zip ws).filter (fun x => decide (0 < x.2)) := by rw [hf]; exact List.getElem_mem hk
  rw [List.mem_filter] at hmem
  obtain ⟨j, hj⟩ := List.getElem?_of_mem hmem.1
  rw [List.getElem?_zip_eq_some] at hj
  refine ⟨j, L[k % L.length].2, ?_, hj.2, by simpa using hmem.2⟩
  rw [hj.1]
  simp only [List.getD_eq_getElem?_getD, List.getElem?_map, List.getElem?_eq_getElem hk, Option.map_some, Option.getD_some]

-- three datasets, one of them without samples for this worker
example : takeAll ⟨roundRng, .stratified, 1⟩ 20 9 ⟨[[10, 11], [], [20, 21, 22]], [some 0, some 1, some 2], [some 2, some 1, some 3], [0, 0, 0], 0, 0, none⟩ =
    some ([(0, 10), (0, 11), (2, 20), (2, 21), (2, 22)], some .stopIteration,
      ⟨[[], [], []], [none, none, some 2], [none, none, some 3], [2, 0, 3], 5, 0, none⟩) := by decide +kernel
example := c18_all_once_partial ⟨roundRng, .perStream, 2⟩ roundRng_fair (by simp) [2, 1, 3] [[10, 11], [], [20, 21, 22]] (by simp) rfl (by simp)

/-- An empty dataset gets the weight 0. It is never chosen, and when the others are exhausted the remaining
weights are divided by their sum 0: instead of stopping, `ZeroDivisionError`. -/
theorem c18_empty_dataset_fails : ∃ w st, combinedWeights [2, 0] none true = .ok w ∧
    combinedInit ⟨roundRng, .stratified, 1⟩ w [[10, 11], []] none = .ok st ∧
    (takeAll ⟨roundRng, .stratified, 1⟩ 10 3 st).map (fun r => (r.1, r.2.1)) = some ([(0, 10), (0, 11)], some .zeroDivision) :=
  ⟨_, _, rfl, rfl, by decide +kernel⟩

/-- **C19.** Without `iterate_over_all`: each dataset contributes a beginning of its own stream, the
counters are the numbers delivered, and the stream goes on until the chosen dataset has no sample left and
stops exactly then; it stops at the latest after all samples. -/
theorem c19_stops_at_first_partial {α : Type} (cfg : CombinedConfig) (hf : FairRng cfg.rng) (hb : cfg.batching ≠ .other) (weights : List Nat)
    (streams : List (List α)) (hl : weights.length = streams.length) (hw : 0 < weights.sum) (m : Nat) :
    ∃ st out e st', combinedInit cfg weights streams none = .ok st ∧ takeFirst cfg m st = (out, e, st') ∧
      (∀ (d : Nat) (s : List α), streams[d]? = some s → fromDataset d out <+: s ∧ st'.yielded[d]? = some (fromDataset d out).length) ∧
      ((e = none ∧ out.length = m) ∨
       (e = some .stopIteration ∧ out.length < m ∧ ∃ d st'', getDatasetIndex cfg st' = .ok (d, st'') ∧ streams[d]? = some (fromDataset d out))) ∧
      ((streams.map List.length).sum < m → e = some .stopIteration) ∧
      (cfg.batching = .stratified → out.map (·.1) = (List.range out.length).map fun k => cfg.rng k (List.range streams.length) weights) := by
  obtain ⟨out, e, st', g1, g2, g3, g4, g5, g6, _⟩ := takeFirst_ok cfg hf hb weights m
    (⟨streams, (List.range streams.length).map some, weights.map some, List.replicate streams.length 0, 0, 0, none⟩ : CombinedState α)
    ⟨by rw [hl], rfl, hl.symm, by simp [hl], by simp, hw⟩
  have hpre : ∀ (d : Nat) (s : List α), streams[d]? = some s → ∃ s', st'.streams[d]? = some s' ∧ s = fromDataset d out ++ s' :=
    fun d s hs => g2.contrib d s hs
  refine ⟨_, out, e, st', rfl, g1, ?_, ?_, ?_, ?_⟩
  · intro d s hs
    obtain ⟨s', _, k2⟩ := hpre d s hs
    refine ⟨⟨s', k2.symm⟩, ?_⟩
    have := g2.counts d 0 (by
      simp only [List.getElem?_replicate]
      rw [if_pos (List.getElem?_eq_some_iff.1 hs).1])
    simpa using this
  · rcases g4 with h | ⟨h1, h2, d, st'', h3, h4⟩
    · exact Or.inl h
    · refine Or.inr ⟨h1, h2, d, st'', h3, ?_⟩
      have hd : d < streams.length := by
        have := (List.getElem?_eq_some_iff.1 h4).1
        rw [g2.slen] at this
        exact this
      obtain ⟨s', k1, k2⟩ := hpre d streams[d] (List.getElem?_eq_getElem hd)
      rw [h4] at k1
      injection k1 with k1
      subst k1
      rw [List.append_nil] at k2
      rw [List.getElem?_eq_getElem hd, k2]
  · intro hm
    rcases g4 with ⟨h1, h2⟩ | ⟨h1, _⟩
    · simp only at g5; omega
    · exact h1
  · intro hst
    rw [g6 hst, hl, List.range_eq_range' (n := out.length)]

example : ((takeFirst ⟨roundRng, .stratified, 1⟩ 9 ⟨[[10, 11], [20, 21, 22]], [some 0, some 1], [some 1, some 1], [0, 0], 0, 0, none⟩).1,
    (takeFirst ⟨roundRng, .stratified, 1⟩ 9 ⟨[[10, 11], [20, 21, 22]], [some 0, some 1], [some 1, some 1], [0, 0], 0, 0, none⟩).2.1) =
    ([(0, 10), (1, 20), (0, 11), (1, 21)], some .stopIteration) := by decide +kernel

/-- After a resumed epoch the counts of the saved state are still there when the next epoch begins
(`reset_state_dict` does not clear them): the counters of that epoch start from the old numbers. -/
theorem c19_stale_counters : ∃ st, combinedIter ⟨roundRng, .stratified, 1⟩ [1, 1] [[10, 11], [20, 21]] (combinedReset ⟨some [(0, [1, 1])]⟩) 0 = .ok st ∧
    (takeFirst ⟨roundRng, .stratified, 1⟩ 1 st).1 = [(0, 10)] ∧ (takeFirst ⟨roundRng, .stratified, 1⟩ 1 st).2.2.yielded = [2, 1] :=
  ⟨_, rfl, by decide +kernel, by decide +kernel⟩

/-- **C20, without `iterate_over_all`.** With stratified batching, an iterator made from the counters of a
stopped one and the rest of the streams continues exactly as the stopped one would have. -/
theorem c20_resume_first {α : Type} (cfg : CombinedConfig) (hf : FairRng cfg.rng) (hb : cfg.batching = .stratified) (weights : List Nat)
    (streams : List (List α)) (hl : weights.length = streams.length) (hw : 0 < weights.sum) (st st' : CombinedState α) (m k : Nat)
    (out : List (Nat × α)) (hi : combinedInit cfg weights streams none = .ok st) (ht : takeFirst cfg m st = (out, none, st')) :
    ∃ rs, combinedInit cfg weights st'.streams (some st'.yielded) = .ok rs ∧
      takeFirst cfg (m + k) st = (out ++ (takeFirst cfg k rs).1, (takeFirst cfg k rs).2) := by
  have hst : (⟨streams, (List.range streams.length).map some, weights.map some, List.replicate streams.length 0, 0, 0, none⟩ : CombinedState α) = st := by
    have := hi; unfold combinedInit at this; injection this
  have hinv : FirstInv weights st := by rw [← hst]; exact ⟨by rw [hl], rfl, hl.symm, by simp [hl], by simp, hw⟩
  obtain ⟨out', e, st2, g1, g2, g3, g4, g5, g6, g7⟩ := takeFirst_ok cfg hf (by rw [hb]; simp) weights m st hinv
  rw [ht] at g1
  injection g1 with e1 g1
  injection g1 with e2 e3
  subst e1 e2 e3
  obtain ⟨k1, k2, k3⟩ := g7 hb
  have hlen : out.length = m := by
    rcases g4 with ⟨_, h⟩ | ⟨h, _⟩
    · exact h
    · simp at h
  refine ⟨st', combinedInit_resume cfg weights st' g3 ?_ ?_ ?_, takeFirst_append cfg m k st st' out ht hlen⟩
  · rw [k1, g2.sum_yielded hinv.lenY' g3.lenY' hinv.lenS, ← hst]
    simp
  · rw [k2, ← hst]
  · rw [k3, ← hst]

/-- **C20, with `iterate_over_all`, in part.** With stratified batching, if every dataset still has samples
left, the resumed iterator continues exactly as the stopped one would have. Missing: stopping points after
a dataset has been exhausted, and batching per stream, where it is false (see below). -/
theorem c20_resume_all_partial {α : Type} (cfg : CombinedConfig) (hf : FairRng cfg.rng) (hb : cfg.batching = .stratified) (weights : List Nat)
    (streams : List (List α)) (h2 : 2 ≤ streams.length) (hl : weights.length = streams.length) (hw : ∀ w ∈ weights, 0 < w)
    (st st' : CombinedState α) (m k fuel : Nat) (out : List (Nat × α)) (hi : combinedInit cfg weights streams none = .ok st)
    (hfuel : streams.length * (cfg.batchSize + 2) + cfg.batchSize < fuel)
    (ht : takeAll cfg fuel m st = some (out, none, st')) (hleft : ∀ s ∈ st'.streams, s ≠ []) :
    ∃ rs out2 e2 st2, combinedInit cfg weights st'.streams (some st'.yielded) = .ok rs ∧ takeAll cfg fuel k rs = some (out2, e2, st2) ∧
      takeAll cfg fuel (m + k) st = some (out ++ out2, e2, st2) := by
  have hst : (⟨streams, (List.range streams.length).map some, weights.map some, List.replicate streams.length 0, 0, 0, none⟩ : CombinedState α) = st := by
    have := hi; unfold combinedInit at this; injection this
  have hne : streams ≠ [] := by intro e; rw [e] at h2; simp at h2
  have hwne : weights ≠ [] := by intro e; rw [e] at hl; simp at hl; omega
  obtain ⟨st0, i1, i2, i3, i4⟩ := combinedInit_inv cfg weights streams hne hl hw
  rw [hi] at i1
  injection i1 with i1
  subst i1
  have hpos := sum_pos_of_pos weights hwne hw
  have hinv : FirstInv weights st := by rw [← hst]; exact ⟨by rw [hl], rfl, hl.symm, by simp [hl], by simp, hpos⟩
  obtain ⟨out', e, st3, g1, g2, g3, _⟩ := takeAll_ok cfg hf (by rw [hb]; simp) fuel m st i2 (by rw [i3]; exact hfuel)
  rw [ht] at g1
  injection g1 with g1
  injection g1 with e1 g1
  injection g1 with e2 e3
  subst e1 e2 e3
  have hfresh := takeAll_fresh cfg hf hb weights (by omega) fuel m st st' out none ht (Or.inr ⟨hinv, by rw [← hst]; simp, by rw [← hst], by rw [← hst]⟩)
  rcases hfresh with ⟨i, hni⟩ | ⟨f1, f2, f3, f4⟩
  · exfalso
    have := g3.gone i hni
    exact hleft [] (List.mem_of_getElem? this) rfl
  · obtain ⟨out2, e2, st2, k1, _⟩ := takeAll_ok cfg hf (by rw [hb]; simp) fuel k st' g3 (by rw [g2.slen, i3]; exact hfuel)
    exact ⟨st', out2, e2, st2, combinedInit_resume cfg weights st' f1 f2 f3 f4, k1, takeAll_append cfg fuel m k st st' st2 out out2 e2 ht k1⟩

/-- Three datasets. -/
def threeStreams : List (List Nat) := [[10], [20, 21, 22], [30, 31, 32]]

/-- After a dataset is exhausted the resumed iterator makes other choices: the uninterrupted run goes on
with dataset 2, the resumed one with dataset 1. -/
theorem c20_exhausted_differs : ∃ st out st' rs, combinedInit ⟨roundRng, .stratified, 1⟩ [1, 1, 1] threeStreams none = .ok st ∧
    takeAll ⟨roundRng, .stratified, 1⟩ 20 4 st = some (out, none, st') ∧
    combinedInit ⟨roundRng, .stratified, 1⟩ [1, 1, 1] st'.streams (some st'.yielded) = .ok rs ∧
    ((takeAll ⟨roundRng, .stratified, 1⟩ 20 5 st).map fun r => r.1.drop 4) = some [(2, 31)] ∧
    ((takeAll ⟨roundRng, .stratified, 1⟩ 20 1 rs).map fun r => r.1) = some [(1, 22)] :=
  ⟨_, _, _, _, rfl, rfl, rfl, by decide +kernel, by decide +kernel⟩

/-- With batches per stream the resumed iterator makes other choices too: one choice was made per batch, but
one per sample is skipped. -/
theorem c20_per_stream_differs : ∃ st out st' rs, combinedInit ⟨roundRng, .perStream, 2⟩ [1, 1, 1] threeStreams none = .ok st ∧
    takeAll ⟨roundRng, .perStream, 2⟩ 20 1 st = some (out, none, st') ∧ out = [(0, 10)] ∧
    combinedInit ⟨roundRng, .perStream, 2⟩ [1, 1, 1] [[11], [20, 21, 22], [30, 31, 32]] (some st'.yielded) = .ok rs ∧
    ((takeAll ⟨roundRng, .perStream, 2⟩ 20 2 ({ st with streams := [[10, 11], [20, 21, 22], [30, 31, 32]] })).map fun r => r.1.drop 1) = some [(0, 11)] ∧
    ((takeAll ⟨roundRng, .perStream, 2⟩ 20 1 rs).map fun r => r.1) = some [(1, 20)] :=
  ⟨_, _, _, _, rfl, rfl, rfl, rfl, by decide +kernel, by decide +kernel⟩

example := c20_resume_all_partial ⟨roundRng, .stratified, 1⟩ roundRng_fair rfl [1, 1, 1] [[10, 11], [20, 21, 22], [30, 31, 32]] (by simp) rfl
  (by simp) _ _ 3 4 20 _ rfl (by simp) rfl (by decide)
example := c20_resume_first ⟨roundRng, .stratified, 1⟩ roundRng_fair rfl [1, 0, 1] threeStreams rfl (by simp) _ _ 1 4 _ rfl rfl

theorem combinedIter_eq {α : Type} (cfg : CombinedConfig) (weights : List Nat) (streams : List (List α)) (ds : CombinedDataset) (rank : Nat) (hw : 0 < weights.sum) :
    combinedIter cfg weights streams ds rank = combinedInit cfg weights streams (match ds.numSamplesYielded with
      | none => none
      | some m => m.lookup rank) := by
  unfold combinedIter
  rw [if_neg (by intro e; subst e; simp at hw)]
  rfl

/-- Every worker continues its own iterator: with the counts of all workers in the state, worker `rank` goes on where it stopped, whatever the
others have done. -/
theorem c20_each_worker {α : Type} (cfg : CombinedConfig) (hf : FairRng cfg.rng) (hb : cfg.batching = .stratified) (weights : List Nat)
    (streams : Nat → List (List α)) (hl : ∀ r, weights.length = (streams r).length) (hw : 0 < weights.sum) (nw : Nat)
    (st st' : Nat → CombinedState α) (m : Nat → Nat) (out : Nat → List (Nat × α))
    (hi : ∀ r, r < nw → combinedIter cfg weights (streams r) ⟨none⟩ r = .ok (st r))
    (ht : ∀ r, r < nw → takeFirst cfg (m r) (st r) = (out r, none, st' r)) (rank : Nat) (hr : rank < nw) (k : Nat) :
    ∃ rs, combinedIter cfg weights (st' rank).streams ⟨some ((List.range nw).map fun r => (r, (st' r).yielded))⟩ rank = .ok rs ∧
      takeFirst cfg (m rank + k) (st rank) = (out rank ++ (takeFirst cfg k rs).1, (takeFirst cfg k rs).2) := by
  have hlook : ((List.range nw).map fun r => (r, (st' r).yielded)).lookup rank = some (st' rank).yielded := by
    have : ∀ l : List Nat, rank ∈ l → (l.map fun r => (r, (st' r).yielded)).lookup rank = some (st' rank).yielded := by
      intro l
      induction l with
      | nil => simp
      | cons a l ih =>
        intro hmem
        rw [List.map_cons, List.lookup_cons]
        by_cases h : rank = a
        · simp [h]
        · have : (rank == a) = false := by simpa using h
          rw [this]
          exact ih (by simpa [h] using hmem)
    exact this _ (List.mem_range.2 hr)
  rw [combinedIter_eq _ _ _ _ _ hw]
  simp only [hlook]
  have hi' := hi rank hr
  rw [combinedIter_eq _ _ _ _ _ hw] at hi'
  exact c20_resume_first cfg hf hb weights (streams rank) (hl rank) hw (st rank) (st' rank) (m rank) k (out rank) hi' (ht rank hr)

/-- Without any weight nothing can be iterated (`streaming/combined.py:172`). -/
theorem c18_no_weights {α : Type} (cfg : CombinedConfig) (streams : List (List α)) (ds : CombinedDataset) (rank : Nat) :
    combinedIter cfg [] streams ds rank = .error .assertion := rfl

/-- The state before the first sample. -/
def threeInit : CombinedState Nat :=
  ⟨threeStreams, [some 0, some 1, some 2], [some 1, some 0, some 1], [0, 0, 0], 0, 0, none⟩

/-- Worker 0 has taken nothing, worker 1 one sample. -/
example := c20_each_worker ⟨roundRng, .stratified, 1⟩ roundRng_fair rfl [1, 0, 1] (fun _ => threeStreams) (fun _ => rfl) (by simp) 2
  (fun _ => threeInit) (fun r => (takeFirst ⟨roundRng, .stratified, 1⟩ r threeInit).2.2) (fun r => r)
  (fun r => (takeFirst ⟨roundRng, .stratified, 1⟩ r threeInit).1) (fun _ _ => rfl)
  (fun r hr => match r, hr with
    | 0, _ => rfl
    | 1, _ => rfl) 1 (by decide) 3

end LitData.Props
