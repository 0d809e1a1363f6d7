import Verif.Lemmas.CombinedResume
import Verif.Props.Combined

/-! C46: with `batching_method="per_stream"` a batch comes from one dataset. -/

namespace LitData.Props

open LitData

/-- The state after `t` samples, chosen batch by batch. -/
structure PerStreamInv {α : Type} (cfg : CombinedConfig) (w : List Nat) (st : CombinedState α) (t : Nat) : Prop where
  first : FirstInv w st
  start : t = 0 → st.cur = none ∧ st.calls = 0
  later : 0 < t → st.cur = some (cfg.rng ((t - 1) / cfg.batchSize) (List.range w.length) w) ∧
    st.inBatch = (t - 1) % cfg.batchSize + 1 ∧ st.calls = (t - 1) / cfg.batchSize + 1

theorem succ_div_of_mod {t b : Nat} (hb : 0 < b) (h : t % b + 1 < b) : (t + 1) / b = t / b ∧ (t + 1) % b = t % b + 1 := by
  have h1 := Nat.div_add_mod t b
  constructor
  · rw [Nat.div_eq_iff hb]
    rw [Nat.mul_comm] at h1
    constructor <;> omega
  · have : t + 1 = b * (t / b) + (t % b + 1) := by omega
    rw [this, Nat.mul_add_mod, Nat.mod_eq_of_lt (by omega)]

theorem succ_div_of_full {t b : Nat} (hb : 0 < b) (h : b ≤ t % b + 1) : (t + 1) / b = t / b + 1 ∧ (t + 1) % b = 0 := by
  have h1 := Nat.div_add_mod t b
  have h2 := Nat.mod_lt t hb
  have : t + 1 = b * (t / b + 1) := by rw [Nat.mul_add]; omega
  rw [this]
  exact ⟨Nat.mul_div_cancel_left _ hb, Nat.mul_mod_right _ _⟩

theorem getDatasetIndex_perStream {α : Type} (cfg : CombinedConfig) (hf : FairRng cfg.rng) (hb : cfg.batching = .perStream)
    (hB : 0 < cfg.batchSize) (w : List Nat) (st : CombinedState α) (t : Nat) (h : PerStreamInv cfg w st t) :
    ∃ st', getDatasetIndex cfg st = .ok (cfg.rng (t / cfg.batchSize) (List.range w.length) w, st') ∧ PerStreamInv cfg w st' (t + 1) := by
  have hne : w ≠ [] := by intro e; have := h.first.pos; rw [e] at this; simp at this
  have hn : newDatasetIndex cfg st = .ok (cfg.rng st.calls (List.range w.length) w, { st with calls := st.calls + 1 }) := by
    unfold newDatasetIndex rngChoices
    rw [h.first.idx, h.first.wts, present_map_some, present_map_some, if_neg (by simp), if_neg hne,
      if_neg (by have := h.first.pos; omega)]
  have hlt : ∀ k, cfg.rng k (List.range w.length) w < w.length := by
    intro k
    obtain ⟨j, x, h1, _⟩ := hf k (List.range w.length) w (by simp) h.first.pos
    have := List.mem_of_getElem? h1
    simpa using this
  unfold getDatasetIndex
  rw [hb]
  simp only
  by_cases h0 : t = 0
  · subst h0
    obtain ⟨hc, hcalls⟩ := h.start rfl
    rw [if_pos (Or.inl (by simp [hc]))]
    simp only [hn]
    rw [show 0 / cfg.batchSize = st.calls by rw [hcalls, Nat.zero_div]]
    refine ⟨_, rfl, ⟨⟨h.first.idx, h.first.wts, h.first.lenS, h.first.lenY', ?_, h.first.pos⟩, by omega, ?_⟩⟩
    · intro c hc; simp only [Option.some.injEq] at hc; rw [← hc]; exact hlt _
    · intro _
      simp [hcalls]
  · obtain ⟨hc, hi, hcalls⟩ := h.later (by omega)
    obtain ⟨u, rfl⟩ : ∃ u, t = u + 1 := ⟨t - 1, by omega⟩
    simp only [Nat.add_sub_cancel] at hc hi hcalls
    by_cases hfull : cfg.batchSize ≤ st.inBatch
    · rw [if_pos (Or.inr hfull)]
      simp only [hn]
      obtain ⟨g1, g2⟩ := succ_div_of_full hB (hi ▸ hfull)
      rw [show (u + 1) / cfg.batchSize = st.calls by rw [hcalls, g1]]
      refine ⟨_, rfl, ⟨⟨h.first.idx, h.first.wts, h.first.lenS, h.first.lenY', ?_, h.first.pos⟩, by omega, ?_⟩⟩
      · intro c hc; simp only [Option.some.injEq] at hc; rw [← hc]; exact hlt _
      · intro _
        simp [hcalls, g1, g2]
    · rw [if_neg (by simp [hc]; omega), hc]
      obtain ⟨g1, g2⟩ := succ_div_of_mod hB (by rw [← hi]; omega)
      rw [g1]
      refine ⟨_, rfl, ⟨⟨h.first.idx, h.first.wts, h.first.lenS, h.first.lenY', ?_, h.first.pos⟩, by omega, ?_⟩⟩
      · intro c hc; simp only [Option.some.injEq] at hc; rw [← hc]; exact hlt _
      intro _
      simp [hcalls, hi, g1, g2]

theorem takeFirst_perStream {α : Type} (cfg : CombinedConfig) (hf : FairRng cfg.rng) (hb : cfg.batching = .perStream)
    (hB : 0 < cfg.batchSize) (w : List Nat) (m : Nat) : ∀ (st : CombinedState α) (t : Nat), PerStreamInv cfg w st t →
    ∀ (i : Nat) (x : Nat × α), (takeFirst cfg m st).1[i]? = some x →
      x.1 = cfg.rng ((t + i) / cfg.batchSize) (List.range w.length) w := by
  induction m with
  | zero => intro st t _ i x hx; simp [takeFirst] at hx
  | succ m ih =>
    intro st t h i x hx
    obtain ⟨st', h1, h2⟩ := getDatasetIndex_perStream cfg hf hb hB w st t h
    unfold takeFirst nextFirst at hx
    simp only [h1] at hx
    unfold getSample at hx
    generalize hd : cfg.rng (t / cfg.batchSize) (List.range w.length) w = d at hx
    cases hs : st'.streams[d]? with
    | none => simp [hs] at hx
    | some l =>
      cases l with
      | nil => simp [hs] at hx
      | cons y rest =>
        simp only [hs] at hx
        cases i with
        | zero =>
          simp only [List.getElem?_cons_zero, Option.some.injEq] at hx
          rw [← hx, Nat.add_zero, hd]
        | succ i =>
          simp only [List.getElem?_cons_succ] at hx
          have hinv : PerStreamInv cfg w { st' with streams := st'.streams.set d rest, yielded := st'.yielded.modify d (· + 1) } (t + 1) :=
            ⟨h2.first.deliver d rest, h2.start, h2.later⟩
          have := ih _ (t + 1) hinv i x hx
          rw [this, show t + 1 + i = t + (i + 1) by omega]

/-- While no dataset has been found exhausted, `iterate_over_all` makes no difference. -/
theorem nextAll_first {α : Type} (cfg : CombinedConfig) (hf : FairRng cfg.rng) (hb : cfg.batching ≠ .other) (w : List Nat) (hw : 2 ≤ w.length)
    (fuel : Nat) (st st' : CombinedState α) (x : Nat × α) (hi : FirstInv w st) (h : nextAll cfg fuel st = some (.ok (x, st'))) :
    nextFirst cfg st = .ok (x, st') ∨ ∃ i : Nat, st'.indexes[i]? = some none := by
  cases fuel with
  | zero => simp [nextAll] at h
  | succ fuel =>
    obtain ⟨d, st1, h1, h2, h3, h4, h5, _⟩ := getDatasetIndex_first cfg hf hb w st hi
    unfold nextAll at h
    simp only at h
    rw [hi.idx, present_map_some, if_pos (by simp; omega), h1] at h
    simp only at h
    unfold nextFirst
    simp only [h1]
    have hdl : d < st1.streams.length := by rw [h3, hi.lenS]; exact h2
    have hsd : st1.streams[d]? = some (st1.streams[d]'hdl) := List.getElem?_eq_getElem hdl
    cases hx : st1.streams[d]'hdl with
    | cons y rest =>
      left
      rw [hx] at hsd
      have hg : getSample st1 d = .ok ((d, y), { st1 with streams := st1.streams.set d rest, yielded := st1.yielded.modify d (· + 1) }) := by
        unfold getSample; rw [hsd]
      rw [hg] at h ⊢
      simp only [Option.some.injEq] at h
      exact h
    | nil =>
      right
      rw [hx] at hsd
      have hg : getSample st1 d = .error .stopIteration := by unfold getSample; rw [hsd]
      rw [hg] at h
      simp only at h
      rw [if_neg (by simp; omega)] at h
      split at h
      · simp at h
      · rename_i st2 hf2
        refine ⟨d, nextAll_keeps_none cfg d fuel st2 st' x h ?_⟩
        unfold forgetDataset at hf2
        simp only at hf2
        split at hf2
        · simp at hf2
        · injection hf2 with hf2
          subst hf2
          simp only [List.getElem?_set_self (show d < st1.indexes.length by rw [h5.idx]; simp; exact h2)]

theorem takeAll_keeps_none {α : Type} (cfg : CombinedConfig) (i fuel m : Nat) : ∀ (st st' : CombinedState α) (out : List (Nat × α)) (e : Option Err),
    takeAll cfg fuel m st = some (out, e, st') → st.indexes[i]? = some none → st'.indexes[i]? = some none := by
  induction m with
  | zero =>
    intro st st' out e h hi
    simp only [takeAll, Option.some.injEq, Prod.mk.injEq] at h
    rw [← h.2.2]; exact hi
  | succ m ih =>
    intro st st' out e h hi
    unfold takeAll at h
    split at h
    · simp at h
    · simp only [Option.some.injEq, Prod.mk.injEq] at h
      rw [← h.2.2]; exact hi
    · rename_i x st1 hn
      split at h
      · simp at h
      · rename_i xs e' st2 ht
        simp only [Option.some.injEq, Prod.mk.injEq] at h
        rw [← h.2.2]
        exact ih st1 st2 xs e' ht (nextAll_keeps_none cfg i fuel st st1 x hn hi)

theorem takeAll_first {α : Type} (cfg : CombinedConfig) (hf : FairRng cfg.rng) (hb : cfg.batching ≠ .other) (w : List Nat) (hw : 2 ≤ w.length)
    (fuel m : Nat) : ∀ (st st' : CombinedState α) (out : List (Nat × α)), FirstInv w st → takeAll cfg fuel m st = some (out, none, st') →
      (∀ i : Nat, st'.indexes[i]? ≠ some none) → takeFirst cfg m st = (out, none, st') := by
  induction m with
  | zero =>
    intro st st' out _ h _
    simp only [takeAll, Option.some.injEq] at h
    rw [takeFirst, h]
  | succ m ih =>
    intro st st' out hi h hn
    unfold takeAll at h
    split at h
    · simp at h
    · simp at h
    · rename_i x st1 hx
      split at h
      · simp at h
      · rename_i xs e' st2 ht
        simp only [Option.some.injEq, Prod.mk.injEq] at h
        obtain ⟨rfl, rfl, rfl⟩ := h
        rcases nextAll_first cfg hf hb w hw fuel st st1 x hi hx with hnf | ⟨i, hnone⟩
        · obtain ⟨d, st1', _, _, _, hc⟩ := nextFirst_ok cfg hf hb w st hi
          rcases hc with ⟨_, hs⟩ | ⟨y, rest, st'', _, hs, _, _, _, hinv⟩
          · rw [hs] at hnf; cases hnf
          · rw [hs] at hnf
            simp only [Except.ok.injEq, Prod.mk.injEq] at hnf
            obtain ⟨rfl, rfl⟩ := hnf
            have := ih st'' st2 xs hinv ht hn
            unfold takeFirst
            simp only [hs, this]
        · exact absurd (takeAll_keeps_none cfg i fuel m st1 st2 xs none ht hnone) (hn i)

theorem init_perStream {α : Type} (cfg : CombinedConfig) (weights : List Nat) (streams : List (List α)) (hl : weights.length = streams.length)
    (hw : 0 < weights.sum) : ∃ st, combinedInit cfg weights streams none = .ok st ∧ PerStreamInv cfg weights st 0 ∧ FirstInv weights st := by
  have hfi : FirstInv weights (⟨streams, (List.range streams.length).map some, weights.map some,
      List.replicate streams.length 0, 0, 0, none⟩ : CombinedState α) :=
    ⟨by rw [hl], rfl, hl.symm, by simp [hl], by simp, hw⟩
  exact ⟨_, rfl, ⟨hfi, fun _ => ⟨rfl, rfl⟩, by omega⟩, hfi⟩

/-- **C46.** With `per_stream`, batch number `j` (samples `j * batch_size` to `(j + 1) * batch_size`) comes from one dataset, the one
chosen by draw `j`. -/
theorem c46_per_stream {α : Type} (cfg : CombinedConfig) (hf : FairRng cfg.rng) (hb : cfg.batching = .perStream) (hB : 0 < cfg.batchSize)
    (weights : List Nat) (streams : List (List α)) (hl : weights.length = streams.length) (hw : 0 < weights.sum) (m : Nat) :
    ∃ st out e st', combinedInit cfg weights streams none = .ok st ∧ takeFirst cfg m st = (out, e, st') ∧
      ∀ j, ∀ x ∈ (out.drop (j * cfg.batchSize)).take cfg.batchSize, x.1 = cfg.rng j (List.range streams.length) weights := by
  obtain ⟨st, h1, h2, _⟩ := init_perStream cfg weights streams hl hw
  refine ⟨st, _, _, _, h1, rfl, ?_⟩
  intro j x hx
  obtain ⟨i, hi⟩ := List.getElem?_of_mem hx
  rw [List.getElem?_take] at hi
  split at hi
  · rename_i hlt
    rw [List.getElem?_drop] at hi
    have := takeFirst_perStream cfg hf hb hB weights m st 0 h2 _ x hi
    rw [this, hl, Nat.zero_add, Nat.mul_comm, Nat.mul_add_div hB, Nat.div_eq_of_lt hlt, Nat.add_zero]
  · cases hi

/-- **C46, `iterate_over_all`.** The same as long as no dataset has been found exhausted. -/
theorem c46_per_stream_all_partial {α : Type} (cfg : CombinedConfig) (hf : FairRng cfg.rng) (hb : cfg.batching = .perStream)
    (hB : 0 < cfg.batchSize) (weights : List Nat) (streams : List (List α)) (h2 : 2 ≤ streams.length) (hl : weights.length = streams.length)
    (hw : 0 < weights.sum) (fuel m : Nat) (st st' : CombinedState α) (out : List (Nat × α))
    (hi : combinedInit cfg weights streams none = .ok st) (ht : takeAll cfg fuel m st = some (out, none, st'))
    (hn : ∀ i : Nat, st'.indexes[i]? ≠ some none) :
    ∀ j, ∀ x ∈ (out.drop (j * cfg.batchSize)).take cfg.batchSize, x.1 = cfg.rng j (List.range streams.length) weights := by
  obtain ⟨st0, g1, _, g3⟩ := init_perStream cfg weights streams hl hw
  rw [hi] at g1
  simp only [Except.ok.injEq] at g1
  subst g1
  have := takeAll_first cfg hf (by rw [hb]; simp) weights (by omega) fuel m st st' out g3 ht hn
  obtain ⟨st1, out1, e1, st1', k1, k2, k3⟩ := c46_per_stream cfg hf hb hB weights streams hl hw m
  rw [hi] at k1
  simp only [Except.ok.injEq] at k1
  subst k1
  rw [this] at k2
  simp only [Prod.mk.injEq] at k2
  rw [k2.1]
  exact k3

/-- The iterator of two datasets of 3 and 5 samples. -/
def twoStreams : CombinedState Nat :=
  ⟨[[10, 11, 12], [20, 21, 22, 23, 24]], [some 0, some 1], [some 3, some 5], [0, 0], 0, 0, none⟩

/-- When a dataset ends inside a batch, the batch is filled from another one: with two datasets of 3 and 5 samples and batches of 2,
the third batch has a sample of each dataset. -/
theorem c46_all_mixes :
    combinedInit ⟨roundRng, .perStream, 2⟩ [3, 5] [[10, 11, 12], [20, 21, 22, 23, 24]] none = .ok twoStreams ∧
    (takeAll ⟨roundRng, .perStream, 2⟩ 20 8 twoStreams).map (fun r => (r.1, r.2.1)) =
      some ([(0, 10), (0, 11), (1, 20), (1, 21), (0, 12), (1, 22), (1, 23), (1, 24)], none) := by decide +kernel

example := c46_per_stream ⟨roundRng, .perStream, 2⟩ roundRng_fair rfl (by decide) [3, 5] [[10, 11, 12], [20, 21, 22, 23, 24]] rfl (by decide) 5

-- the state after five samples, in which no dataset has been found exhausted
example : ∃ out st', takeAll ⟨roundRng, .perStream, 2⟩ 20 5 twoStreams = some (out, none, st') ∧ out.map (·.1) = [0, 0, 1, 1, 0] ∧
    st'.indexes = [some 0, some 1] := ⟨_, _, rfl, by decide +kernel, by decide +kernel⟩

end LitData.Props
