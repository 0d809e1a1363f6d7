import Verif.Model.Combined

/-! The invariant of the combined iterator. -/

namespace LitData

/-- `random.choices` picks one of the indices, with a positive weight. -/
def FairRng (rng : Nat → List Nat → List Nat → Nat) : Prop :=
  ∀ (k : Nat) (indexes weights : List Nat), indexes.length = weights.length → 0 < weights.sum →
    ∃ (j w : Nat), indexes[j]? = some (rng k indexes weights) ∧ weights[j]? = some w ∧ 0 < w

theorem present_length (l : List (Option Nat)) : (present l).length = (l.map Option.isSome).count true := by
  induction l with
  | nil => rfl
  | cons a l ih => cases a <;> simp_all [present]

theorem mem_present (l : List (Option Nat)) (x : Nat) : x ∈ present l ↔ ∃ i : Nat, l[i]? = some (some x) := by
  unfold present
  rw [List.mem_filterMap]
  constructor
  · rintro ⟨a, ha, hx⟩
    simp only [id_eq] at hx
    subst hx
    exact List.getElem?_of_mem ha
  · rintro ⟨i, hi⟩
    exact ⟨some x, List.mem_of_getElem? hi, rfl⟩

theorem present_set_none (l : List (Option Nat)) (i x : Nat) (h : l[i]? = some (some x)) :
    (present (l.set i none)).length + 1 = (present l).length := by
  induction l generalizing i with
  | nil => simp at h
  | cons a l ih =>
    cases i with
    | zero =>
      simp at h
      subst h
      simp [present]
    | succ i =>
      have := ih i (by simpa using h)
      cases a with
      | none => simpa [present, List.filterMap_cons] using this
      | some a => simpa [present, List.filterMap_cons] using this

theorem set_none_eq (l : List (Option Nat)) (i : Nat) (h : l[i]? = some none) : l.set i none = l := by
  apply List.ext_getElem?
  intro j
  rw [List.getElem?_set]
  split
  · rename_i hij
    subst hij
    rw [h]
    have := (List.getElem?_eq_some_iff.1 h).1
    simp [this]
  · rfl

theorem present_length_le (l : List (Option Nat)) : (present l).length ≤ l.length := List.length_filterMap_le _ _

/-- The state of the iterator is consistent: a dataset is listed with a positive weight, or forgotten and
empty. -/
structure CombinedInv {α : Type} (st : CombinedState α) : Prop where
  shape : st.indexes.map Option.isSome = st.weights.map Option.isSome
  len : st.indexes.length = st.streams.length
  lenY : st.yielded.length = st.streams.length
  index : ∀ (i x : Nat), st.indexes[i]? = some (some x) → x = i
  weight : ∀ w ∈ present st.weights, 0 < w
  gone : ∀ i : Nat, st.indexes[i]? = some none → st.streams[i]? = some []
  curOk : ∀ c, st.cur = some c → c < st.streams.length
  some_ : present st.indexes ≠ []

theorem CombinedInv.lens {α : Type} {st : CombinedState α} (h : CombinedInv st) : (present st.indexes).length = (present st.weights).length := by
  rw [present_length, present_length, h.shape]

theorem CombinedInv.wlen {α : Type} {st : CombinedState α} (h : CombinedInv st) : st.weights.length = st.streams.length := by
  have := congrArg List.length h.shape
  simp at this
  rw [← h.len, this]

theorem sum_pos_of_pos (l : List Nat) (hne : l ≠ []) (h : ∀ w ∈ l, 0 < w) : 0 < l.sum := by
  cases l with
  | nil => exact absurd rfl hne
  | cons a l =>
    have := h a (by simp)
    rw [List.sum_cons]
    omega

theorem CombinedInv.alive {α : Type} {st : CombinedState α} (h : CombinedInv st) (d : Nat) (hd : d ∈ present st.indexes) :
    st.indexes[d]? = some (some d) ∧ d < st.streams.length := by
  obtain ⟨i, hi⟩ := (mem_present _ _).1 hd
  have := h.index i d hi
  subst this
  exact ⟨hi, by rw [← h.len]; exact (List.getElem?_eq_some_iff.1 hi).1⟩

theorem newDatasetIndex_ok {α : Type} (cfg : CombinedConfig) (hf : FairRng cfg.rng) (st : CombinedState α) (hinv : CombinedInv st) :
    newDatasetIndex cfg st = .ok (cfg.rng st.calls (present st.indexes) (present st.weights), { st with calls := st.calls + 1 }) ∧
      cfg.rng st.calls (present st.indexes) (present st.weights) ∈ present st.indexes := by
  have hne : present st.weights ≠ [] := by
    intro h
    have := hinv.lens
    rw [h] at this
    exact hinv.some_ (List.length_eq_zero_iff.1 this)
  have hs := sum_pos_of_pos _ hne hinv.weight
  constructor
  · unfold newDatasetIndex rngChoices
    rw [if_neg (by simp [hinv.lens]), if_neg hne, if_neg (by omega)]
  · obtain ⟨j, w, h1, _⟩ := hf st.calls _ _ hinv.lens hs
    exact List.mem_of_getElem? h1

/-- Choosing a dataset: it is one of those listed, or in the middle of a batch the one of the batch. -/
theorem getDatasetIndex_ok {α : Type} (cfg : CombinedConfig) (hf : FairRng cfg.rng) (hb : cfg.batching ≠ .other) (st : CombinedState α)
    (hinv : CombinedInv st) :
    ∃ d st', getDatasetIndex cfg st = .ok (d, st') ∧ d < st.streams.length ∧ st'.streams = st.streams ∧ st'.indexes = st.indexes ∧
      st'.weights = st.weights ∧ st'.yielded = st.yielded ∧ CombinedInv st' ∧
      (d ∈ present st.indexes ∨ st'.inBatch = st.inBatch + 1 ∧ st.inBatch < cfg.batchSize) := by
  obtain ⟨h1, h2⟩ := newDatasetIndex_ok cfg hf st hinv
  generalize hd : cfg.rng st.calls (present st.indexes) (present st.weights) = d at *
  have hdl := (hinv.alive d h2).2
  unfold getDatasetIndex
  cases hbm : cfg.batching with
  | other => exact absurd hbm hb
  | stratified =>
    simp only [h1]
    exact ⟨d, _, rfl, hdl, rfl, rfl, rfl, rfl, ⟨hinv.shape, hinv.len, hinv.lenY, hinv.index, hinv.weight, hinv.gone, hinv.curOk, hinv.some_⟩, Or.inl h2⟩
  | perStream =>
    simp only
    split
    · rename_i d' hd'
      split at hd'
      · simp at hd'
      · rename_i hc
        have hlt := hinv.curOk d' hd'
        refine ⟨d', _, rfl, hlt, rfl, rfl, rfl, rfl, ⟨hinv.shape, hinv.len, hinv.lenY, hinv.index, hinv.weight, hinv.gone, hinv.curOk, hinv.some_⟩, Or.inr ⟨rfl, ?_⟩⟩
        apply Nat.lt_of_not_le
        intro h
        exact hc (Or.inr h)
    · simp only [h1]
      refine ⟨d, _, rfl, hdl, rfl, rfl, rfl, rfl, ⟨hinv.shape, hinv.len, hinv.lenY, hinv.index, hinv.weight, hinv.gone, ?_, hinv.some_⟩, Or.inl h2⟩
      intro c hc
      simp only [Option.some.injEq] at hc
      show c < st.streams.length
      omega

theorem CombinedInv.deliver {α : Type} {st : CombinedState α} (h : CombinedInv st) (d : Nat) (x : α) (rest : List α)
    (hd : st.streams[d]? = some (x :: rest)) :
    CombinedInv { st with streams := st.streams.set d rest, yielded := st.yielded.modify d (· + 1) } := by
  refine ⟨h.shape, by simp [h.len], by simp [h.lenY], h.index, h.weight, ?_, ?_, h.some_⟩
  · intro i hi
    have := h.gone i hi
    have hne : d ≠ i := by
      intro e
      subst e
      rw [hd] at this
      simp at this
    simp only [List.getElem?_set_ne hne, this]
  · intro c hc
    simpa using h.curOk c hc

theorem mem_present_set {l : List (Option Nat)} {d w : Nat} (h : w ∈ present (l.set d none)) : w ∈ present l := by
  obtain ⟨i, hi⟩ := (mem_present _ _).1 h
  rw [List.getElem?_set] at hi
  split at hi
  · split at hi <;> simp at hi
  · exact (mem_present _ _).2 ⟨i, hi⟩

/-- The samples a delivered stream has from dataset `d`. -/
def fromDataset {α : Type} (d : Nat) (out : List (Nat × α)) : List α := (out.filter fun x => x.1 == d).map (·.2)

theorem forgetDataset_ok {α : Type} (st : CombinedState α) (h : CombinedInv st) (d : Nat) (hd : st.streams[d]? = some [])
    (hmany : 1 < (present st.indexes).length) :
    ∃ st', forgetDataset st d = .ok st' ∧ CombinedInv st' ∧ st'.streams = st.streams ∧ st'.yielded = st.yielded ∧
      st'.inBatch = st.inBatch ∧
      (st.indexes[d]? = some none → st'.indexes = st.indexes) ∧
      (d ∈ present st.indexes → (present st'.indexes).length + 1 = (present st.indexes).length) := by
  have hdl : d < st.indexes.length := by rw [h.len]; exact (List.getElem?_eq_some_iff.1 hd).1
  have hshape : (st.indexes.set d none).map Option.isSome = (st.weights.set d none).map Option.isSome := by
    rw [List.map_set, List.map_set, h.shape]
  have hpl : (present (st.indexes.set d none)).length = (present (st.weights.set d none)).length := by
    rw [present_length, present_length, hshape]
  have hne : present (st.indexes.set d none) ≠ [] := by
    intro he
    cases hx : st.indexes[d]? with
    | none => rw [List.getElem?_eq_none_iff] at hx; omega
    | some o =>
      cases o with
      | none => rw [set_none_eq _ _ hx] at he; exact h.some_ he
      | some x =>
        have := present_set_none _ _ _ hx
        rw [he] at this
        simp at this
        omega
  have hwne : present (st.weights.set d none) ≠ [] := by
    intro he
    rw [he] at hpl
    exact hne (List.length_eq_zero_iff.1 hpl)
  have hpos := sum_pos_of_pos _ hwne (fun w hw => h.weight w (mem_present_set hw))
  unfold forgetDataset
  simp only
  rw [if_neg (by omega)]
  refine ⟨_, rfl, ⟨hshape, by simp [h.len], h.lenY, ?_, fun w hw => h.weight w (mem_present_set hw), ?_, h.curOk, hne⟩, rfl, rfl, rfl, ?_, ?_⟩
  · intro i x hi
    simp only [List.getElem?_set] at hi
    split at hi
    · simp at hi
    · exact h.index i x hi
  · intro i hi
    simp only [List.getElem?_set] at hi
    split at hi
    · rename_i e; subst e; exact hd
    · exact h.gone i hi
  · intro hx
    exact set_none_eq _ _ hx
  · intro hx
    exact present_set_none _ _ _ (h.alive d hx).1

/-- How many turns `__next__` may need. -/
def turns {α : Type} (cfg : CombinedConfig) (st : CombinedState α) : Nat :=
  (present st.indexes).length * (cfg.batchSize + 2) + (cfg.batchSize - st.inBatch)

theorem nextAll_ok {α : Type} (cfg : CombinedConfig) (hf : FairRng cfg.rng) (hb : cfg.batching ≠ .other) : ∀ (fuel : Nat) (st : CombinedState α),
    CombinedInv st → turns cfg st < fuel →
    (∃ d x rest st', nextAll cfg fuel st = some (.ok ((d, x), st')) ∧ st.streams[d]? = some (x :: rest) ∧
      st'.streams = st.streams.set d rest ∧ st'.yielded = st.yielded.modify d (· + 1) ∧ CombinedInv st') ∨
    (nextAll cfg fuel st = some (.error .stopIteration) ∧ ∀ s ∈ st.streams, s = []) := by
  intro fuel
  induction fuel with
  | zero => intro st _ h; omega
  | succ fuel ih =>
    intro st hinv hfuel
    by_cases hmany : 1 < (present st.indexes).length
    · obtain ⟨d, st1, h1, h2, h3, h4, h5, h6, h7, h8⟩ := getDatasetIndex_ok cfg hf hb st hinv
      unfold nextAll
      simp only [if_pos hmany, h1]
      have hsd : st1.streams[d]? = some (st.streams[d]'h2) := by rw [h3]; exact List.getElem?_eq_getElem h2
      cases hx : st.streams[d]'h2 with
      | cons x rest =>
        left
        rw [hx] at hsd
        have hg : getSample st1 d = .ok ((d, x), { st1 with streams := st1.streams.set d rest, yielded := st1.yielded.modify d (· + 1) }) := by
          unfold getSample; rw [hsd]
        simp only [hg]
        exact ⟨d, x, rest, _, rfl, by rw [← h3]; exact hsd, by simp only [h3], by simp only [h6], h7.deliver d x rest hsd⟩
      | nil =>
        rw [hx] at hsd
        have hg : getSample st1 d = .error .stopIteration := by unfold getSample; rw [hsd]
        simp only [hg]
        rw [if_neg (by omega)]
        obtain ⟨st2, g1, g2, g3, g4, g5, g6, g7⟩ := forgetDataset_ok st1 h7 d hsd (by rw [h4]; exact hmany)
        rw [g1]
        simp only
        have hdl : d < st.indexes.length := by rw [hinv.len]; exact h2
        have hturn : turns cfg st2 < fuel := by
          unfold turns at hfuel ⊢
          rw [g5]
          by_cases hal : d ∈ present st.indexes
          · have := g7 (by rw [h4]; exact hal)
            rw [h4] at this
            rw [← this, Nat.add_mul, Nat.one_mul] at hfuel
            omega
          · rcases h8 with h8 | ⟨h8, h9⟩
            · exact absurd h8 hal
            · have hnone : st1.indexes[d]? = some none := by
                rw [h4]
                cases ho : st.indexes[d]'hdl with
                | none => rw [List.getElem?_eq_getElem hdl, ho]
                | some y =>
                  have hy : st.indexes[d]? = some (some y) := by rw [List.getElem?_eq_getElem hdl, ho]
                  have := hinv.index d y hy
                  subst this
                  exact absurd ((mem_present _ _).2 ⟨_, hy⟩) hal
              rw [g6 hnone, h4, h8]
              omega
        rcases ih st2 g2 hturn with ⟨d', x, rest, st', k1, k2, k3, k4, k5⟩ | ⟨k1, k2⟩
        · left
          exact ⟨d', x, rest, st', k1, by rw [← h3, ← g3]; exact k2, by rw [k3, g3, h3], by rw [k4, g4, h6], k5⟩
        · right
          exact ⟨k1, by rw [← h3, ← g3]; exact k2⟩
    · have hone : (present st.indexes).length = 1 := by
        have := List.length_pos_iff.2 hinv.some_
        omega
      obtain ⟨d, hd⟩ := List.length_eq_one_iff.1 hone
      have hmem : d ∈ present st.indexes := by rw [hd]; simp
      have hdl := (hinv.alive d hmem).2
      unfold nextAll
      simp only [if_neg hmany]
      rw [hd]
      simp only
      have hsd : st.streams[d]? = some (st.streams[d]'hdl) := List.getElem?_eq_getElem hdl
      cases hx : st.streams[d]'hdl with
      | cons x rest =>
        left
        rw [hx] at hsd
        have hg : getSample st d = .ok ((d, x), { st with streams := st.streams.set d rest, yielded := st.yielded.modify d (· + 1) }) := by
          unfold getSample; rw [hsd]
        simp only [hg]
        exact ⟨d, x, rest, _, rfl, hsd, rfl, rfl, hinv.deliver d x rest hsd⟩
      | nil =>
        right
        rw [hx] at hsd
        have hg : getSample st d = .error .stopIteration := by unfold getSample; rw [hsd]
        simp only [hg]
        refine ⟨by simp, ?_⟩
        intro s hs
        obtain ⟨i, hi⟩ := List.getElem?_of_mem hs
        have hil : i < st.indexes.length := by rw [hinv.len]; exact (List.getElem?_eq_some_iff.1 hi).1
        cases ho : st.indexes[i]'hil with
        | none =>
          have := hinv.gone i (by rw [List.getElem?_eq_getElem hil, ho])
          rw [hi] at this
          injection this
        | some y =>
          have hy : st.indexes[i]? = some (some y) := by rw [List.getElem?_eq_getElem hil, ho]
          have e := hinv.index i y hy
          subst e
          have : y ∈ present st.indexes := (mem_present _ _).2 ⟨_, hy⟩
          rw [hd] at this
          simp at this
          subst this
          rw [hsd] at hi
          injection hi with hi
          exact hi.symm

theorem sum_length_set {α : Type} (l : List (List α)) (d : Nat) (x : α) (rest : List α) (h : l[d]? = some (x :: rest)) :
    ((l.set d rest).map List.length).sum + 1 = (l.map List.length).sum := by
  induction l generalizing d with
  | nil => simp at h
  | cons a l ih =>
    cases d with
    | zero => simp at h; subst h; simp; omega
    | succ d =>
      have := ih d (by simpa using h)
      simp only [List.set_cons_succ, List.map_cons, List.sum_cons]
      omega

theorem fromDataset_cons {α : Type} (d d' : Nat) (x : α) (out : List (Nat × α)) :
    fromDataset d' ((d, x) :: out) = if d = d' then x :: fromDataset d' out else fromDataset d' out := by
  unfold fromDataset
  rw [List.filter_cons]
  by_cases h : d = d'
  · simp [h]
  · simp [h]

/-- How delivered samples, streams and counters belong together. -/
structure Delivered {α : Type} (st : CombinedState α) (out : List (Nat × α)) (st' : CombinedState α) : Prop where
  contrib : ∀ (d : Nat) (s : List α), st.streams[d]? = some s → ∃ s', st'.streams[d]? = some s' ∧ s = fromDataset d out ++ s'
  counts : ∀ (d y : Nat), st.yielded[d]? = some y → st'.yielded[d]? = some (y + (fromDataset d out).length)
  tags : ∀ x ∈ out, x.1 < st.streams.length
  slen : st'.streams.length = st.streams.length

theorem Delivered.refl {α : Type} (st : CombinedState α) : Delivered st [] st :=
  ⟨fun d s h => ⟨s, h, rfl⟩, fun d y h => by simpa [fromDataset] using h, by simp, rfl⟩

theorem Delivered.step {α : Type} {st st1 st2 : CombinedState α} {d : Nat} {x : α} {rest : List α} {out : List (Nat × α)}
    (hd : st.streams[d]? = some (x :: rest)) (hs : st1.streams = st.streams.set d rest) (hy : st1.yielded = st.yielded.modify d (· + 1))
    (h : Delivered st1 out st2) : Delivered st ((d, x) :: out) st2 := by
  refine ⟨?_, ?_, ?_, ?_⟩
  · intro d' s hs'
    rw [fromDataset_cons]
    by_cases e : d = d'
    · subst e
      rw [hd] at hs'
      injection hs' with hs'
      subst hs'
      obtain ⟨s', h1, h2⟩ := h.contrib d rest (by
        rw [hs, List.getElem?_set_self]
        exact (List.getElem?_eq_some_iff.1 hd).1)
      refine ⟨s', h1, ?_⟩
      rw [if_pos rfl, List.cons_append, ← h2]
    · obtain ⟨s', h1, h2⟩ := h.contrib d' s (by rw [hs, List.getElem?_set_ne e]; exact hs')
      exact ⟨s', h1, by rw [if_neg e]; exact h2⟩
  · intro d' y hy'
    rw [fromDataset_cons]
    by_cases e : d = d'
    · subst e
      rw [if_pos rfl, List.length_cons, show y + ((fromDataset d out).length + 1) = (y + 1) + (fromDataset d out).length by omega]
      apply h.counts
      rw [hy, List.getElem?_modify, hy']
      simp
    · rw [if_neg e]
      apply h.counts
      rw [hy, List.getElem?_modify, hy']
      simp [e]
  · intro z hz
    have hl : st1.streams.length = st.streams.length := by rw [hs]; simp
    rcases List.mem_cons.1 hz with rfl | hz
    · exact (List.getElem?_eq_some_iff.1 hd).1
    · rw [← hl]; exact h.tags z hz
  · rw [h.slen, hs]; simp

theorem takeAll_ok {α : Type} (cfg : CombinedConfig) (hf : FairRng cfg.rng) (hb : cfg.batching ≠ .other) (fuel m : Nat) :
    ∀ st : CombinedState α, CombinedInv st → st.streams.length * (cfg.batchSize + 2) + cfg.batchSize < fuel →
    ∃ out e st', takeAll cfg fuel m st = some (out, e, st') ∧ Delivered st out st' ∧ CombinedInv st' ∧
      out.length = min m (st.streams.map List.length).sum ∧
      e = (if m ≤ (st.streams.map List.length).sum then none else some .stopIteration) := by
  induction m with
  | zero => intro st hinv _; exact ⟨[], none, st, rfl, Delivered.refl st, hinv, by simp, by simp⟩
  | succ m ih =>
    intro st hinv hfuel
    have ht : turns cfg st < fuel := by
      unfold turns
      have h1 := present_length_le st.indexes
      rw [hinv.len] at h1
      have := Nat.mul_le_mul_right (cfg.batchSize + 2) h1
      omega
    rcases nextAll_ok cfg hf hb fuel st hinv ht with ⟨d, x, rest, st1, h1, h2, h3, h4, h5⟩ | ⟨h1, h2⟩
    · have hsl : st1.streams.length = st.streams.length := by rw [h3]; simp
      obtain ⟨out, e, st2, g1, g2, g3, g4, g5⟩ := ih st1 h5 (by rw [hsl]; exact hfuel)
      have hsum := sum_length_set st.streams d x rest h2
      rw [← h3] at hsum
      refine ⟨(d, x) :: out, e, st2, ?_, Delivered.step h2 h3 h4 g2, g3, ?_, ?_⟩
      · unfold takeAll
        rw [h1]
        simp only [g1]
      · rw [List.length_cons, g4]; omega
      · rw [g5]
        split
        · rw [if_pos (by omega)]
        · rw [if_neg (by omega)]
    · have h0 : (st.streams.map List.length).sum = 0 := by
        rw [List.sum_eq_zero_iff_forall_eq_nat]
        intro a ha
        obtain ⟨s, hs, rfl⟩ := List.mem_map.1 ha
        rw [h2 s hs]; rfl
      refine ⟨[], some .stopIteration, st, ?_, Delivered.refl st, hinv, by simp [h0], by simp [h0]⟩
      unfold takeAll
      rw [h1]

/-- A fresh iterator over datasets with positive weights. -/
theorem combinedInit_inv {α : Type} (cfg : CombinedConfig) (weights : List Nat) (streams : List (List α)) (hne : streams ≠ [])
    (hl : weights.length = streams.length) (hw : ∀ w ∈ weights, 0 < w) :
    ∃ st, combinedInit cfg weights streams none = .ok st ∧ CombinedInv st ∧ st.streams = streams ∧
      st.yielded = List.replicate streams.length 0 := by
  have hp : ∀ l : List Nat, present (l.map some) = l := by intro l; simp [present, List.filterMap_map]
  refine ⟨_, rfl, ⟨?_, by simp, by simp, ?_, ?_, ?_, ?_, ?_⟩, rfl, rfl⟩
  · simp only [List.map_map]
    apply List.ext_getElem
    · simp [hl]
    · intro i h1 h2; simp
  · intro i x h
    simp only [List.getElem?_map, Option.map_eq_some_iff, Option.some.injEq, exists_eq_right] at h
    obtain ⟨_, h⟩ := List.getElem?_eq_some_iff.1 h
    simpa using h.symm
  · intro w h
    rw [hp] at h
    exact hw w h
  · intro i h
    simp at h
  · intro c h
    simp at h
  · rw [hp]
    intro h
    simp at h
    exact hne h

end LitData
