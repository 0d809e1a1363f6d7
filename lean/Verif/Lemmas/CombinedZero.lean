import Verif.Lemmas.Combined

/-! The combined iterator when some dataset has the weight 0. -/

namespace LitData

/-- The entries of two lists that are `none` at the same places correspond. -/
theorem present_same : ∀ (idx ws : List (Option Nat)), idx.map Option.isSome = ws.map Option.isSome → ∀ (j x w : Nat), (present idx)[j]? = some x →
    (present ws)[j]? = some w → ∃ i : Nat, idx[i]? = some (some x) ∧ ws[i]? = some (some w) := by
  intro idx
  induction idx with
  | nil => intro ws h j x w h1; simp [present] at h1
  | cons a idx ih =>
    intro ws h j x w h1 h2
    cases ws with
    | nil => simp at h
    | cons b ws =>
      simp only [List.map_cons, List.cons.injEq] at h
      cases a with
      | none =>
        cases b with
        | some b => simp at h
        | none =>
          obtain ⟨i, g1, g2⟩ := ih ws h.2 j x w (by simpa [present] using h1) (by simpa [present] using h2)
          exact ⟨i + 1, by simpa using g1, by simpa using g2⟩
      | some a =>
        cases b with
        | none => simp at h
        | some b =>
          cases j with
          | zero =>
            simp [present] at h1 h2
            subst h1 h2
            exact ⟨0, rfl, rfl⟩
          | succ j =>
            obtain ⟨i, g1, g2⟩ := ih ws h.2 j x w (by simpa [present] using h1) (by simpa [present] using h2)
            exact ⟨i + 1, by simpa using g1, by simpa using g2⟩

/-- The state of the iterator is consistent, the weight 0 belongs to the datasets that had it from the start (`w`), and both a dataset with the weight 0 and one with a
positive weight are listed. -/
structure ZeroInv {α : Type} (w : List Nat) (st : CombinedState α) : Prop where
  shape : st.indexes.map Option.isSome = st.weights.map Option.isSome
  len : st.indexes.length = st.streams.length
  index : ∀ (i x : Nat), st.indexes[i]? = some (some x) → x = i
  gone : ∀ i : Nat, st.indexes[i]? = some none → st.streams[i]? = some []
  zeros : ∀ i : Nat, st.weights[i]? = some (some 0) ↔ w[i]? = some 0
  curOk : ∀ c, st.cur = some c → c < st.streams.length ∧ w[c]? ≠ some 0
  pos : 0 < (present st.weights).sum
  zero : ∃ z : Nat, w[z]? = some 0

theorem ZeroInv.lens {α : Type} {w : List Nat} {st : CombinedState α} (h : ZeroInv w st) : (present st.indexes).length = (present st.weights).length := by
  rw [present_length, present_length, h.shape]

theorem sum_pos_mem : ∀ (l : List Nat), 0 < l.sum → ∃ x ∈ l, 0 < x := by
  intro l
  induction l with
  | nil => intro h; simp at h
  | cons a l ih =>
    intro h
    by_cases ha : 0 < a
    · exact ⟨a, by simp, ha⟩
    · rw [List.sum_cons] at h
      obtain ⟨x, h1, h2⟩ := ih (by omega)
      exact ⟨x, by simp [h1], h2⟩

/-- At least two datasets are listed. -/
theorem ZeroInv.many {α : Type} {w : List Nat} {st : CombinedState α} (h : ZeroInv w st) : 1 < (present st.indexes).length := by
  rw [h.lens]
  obtain ⟨z, hz⟩ := h.zero
  have h0 : 0 ∈ present st.weights := (mem_present _ _).2 ⟨z, (h.zeros z).2 hz⟩
  obtain ⟨x, hx, hpos⟩ := sum_pos_mem _ h.pos
  match hl : present st.weights with
  | [] => rw [hl] at h0; simp at h0
  | [a] => rw [hl] at h0 hx; simp at h0 hx; omega
  | a :: b :: l => simp

theorem zeroIndex_ok {α : Type} (cfg : CombinedConfig) (hf : FairRng cfg.rng) {w : List Nat} (st : CombinedState α) (h : ZeroInv w st) :
    ∃ d, newDatasetIndex cfg st = .ok (d, { st with calls := st.calls + 1 }) ∧ st.indexes[d]? = some (some d) ∧ w[d]? ≠ some 0 := by
  have hne : present st.weights ≠ [] := by
    intro e
    have := h.pos
    rw [e] at this
    simp at this
  have hs := h.pos
  obtain ⟨j, wj, h1, h2, h3⟩ := hf st.calls _ _ h.lens hs
  obtain ⟨i, g1, g2⟩ := present_same _ _ h.shape j _ _ h1 h2
  have e := h.index i _ g1
  rw [e] at g1
  refine ⟨i, ?_, g1, ?_⟩
  · unfold newDatasetIndex rngChoices
    rw [if_neg (by simp [h.lens]), if_neg hne, if_neg (by omega), e]
  · intro hw
    have := (h.zeros i).2 hw
    rw [g2] at this
    simp at this
    omega

theorem zeroGet_ok {α : Type} (cfg : CombinedConfig) (hf : FairRng cfg.rng) (hb : cfg.batching ≠ .other) {w : List Nat} (st : CombinedState α)
    (hinv : ZeroInv w st) :
    ∃ d st', getDatasetIndex cfg st = .ok (d, st') ∧ d < st.streams.length ∧ w[d]? ≠ some 0 ∧ st'.streams = st.streams ∧ st'.indexes = st.indexes ∧
      st'.weights = st.weights ∧ st'.yielded = st.yielded ∧ ZeroInv w st' ∧
      (st.indexes[d]? = some (some d) ∨ st'.inBatch = st.inBatch + 1 ∧ st.inBatch < cfg.batchSize) := by
  obtain ⟨d, h1, h2, h3⟩ := zeroIndex_ok cfg hf st hinv
  have hdl : d < st.streams.length := by rw [← hinv.len]; exact (List.getElem?_eq_some_iff.1 h2).1
  unfold getDatasetIndex
  cases hbm : cfg.batching with
  | other => exact absurd hbm hb
  | stratified =>
    simp only [h1]
    exact ⟨d, _, rfl, hdl, h3, rfl, rfl, rfl, rfl, ⟨hinv.shape, hinv.len, hinv.index, hinv.gone, hinv.zeros, hinv.curOk, hinv.pos, hinv.zero⟩, Or.inl h2⟩
  | perStream =>
    simp only
    split
    · rename_i d' hd'
      split at hd'
      · simp at hd'
      · rename_i hc
        have hlt := hinv.curOk d' hd'
        refine ⟨d', _, rfl, hlt.1, hlt.2, rfl, rfl, rfl, rfl, ⟨hinv.shape, hinv.len, hinv.index, hinv.gone, hinv.zeros, hinv.curOk, hinv.pos, hinv.zero⟩, Or.inr ⟨rfl, ?_⟩⟩
        apply Nat.lt_of_not_le
        intro h
        exact hc (Or.inr h)
    · simp only [h1]
      refine ⟨d, _, rfl, hdl, h3, rfl, rfl, rfl, rfl, ⟨hinv.shape, hinv.len, hinv.index, hinv.gone, hinv.zeros, ?_, hinv.pos, hinv.zero⟩, Or.inl h2⟩
      intro c hc
      simp only [Option.some.injEq] at hc
      subst hc
      exact ⟨hdl, h3⟩

theorem ZeroInv.deliver {α : Type} {w : List Nat} {st : CombinedState α} (h : ZeroInv w st) (d : Nat) (x : α) (rest : List α)
    (hd : st.streams[d]? = some (x :: rest)) :
    ZeroInv w { st with streams := st.streams.set d rest, yielded := st.yielded.modify d (· + 1) } := by
  refine ⟨h.shape, by simp [h.len], h.index, ?_, h.zeros, ?_, h.pos, h.zero⟩
  · intro i hi
    have := h.gone i hi
    have hne : d ≠ i := by
      intro e
      subst e
      rw [hd] at this
      simp at this
    simp only [List.getElem?_set_ne hne, this]
  · intro c hc
    simpa using h.curOk c hc

/-- Forgetting a dataset: the iterator goes on, or no other dataset with a positive weight is left and the division fails. -/
theorem zeroForget {α : Type} {w : List Nat} (st : CombinedState α) (h : ZeroInv w st) (d : Nat) (hw : w[d]? ≠ some 0) (hd : st.streams[d]? = some []) :
    (∃ st', forgetDataset st d = .ok st' ∧ ZeroInv w st' ∧ st'.streams = st.streams ∧ st'.yielded = st.yielded ∧ st'.inBatch = st.inBatch ∧
      (st.indexes[d]? = some none → st'.indexes = st.indexes) ∧
      (st.indexes[d]? = some (some d) → (present st'.indexes).length + 1 = (present st.indexes).length)) ∨
    (forgetDataset st d = .error .zeroDivision ∧ ∀ (i : Nat) (s : List α), st.streams[i]? = some s → w[i]? ≠ some 0 → s = []) := by
  have hdl : d < st.indexes.length := by rw [h.len]; exact (List.getElem?_eq_some_iff.1 hd).1
  have hwl : st.weights.length = st.indexes.length := by
    have := congrArg List.length h.shape
    simp at this
    omega
  obtain ⟨z, hz⟩ := h.zero
  have hzd : d ≠ z := by intro e; subst e; exact hw hz
  have hz0 : 0 ∈ present (st.weights.set d none) := by
    refine (mem_present _ _).2 ⟨z, ?_⟩
    rw [List.getElem?_set_ne hzd]
    exact (h.zeros z).2 hz
  have hne : present (st.weights.set d none) ≠ [] := by intro e; rw [e] at hz0; simp at hz0
  unfold forgetDataset
  simp only
  by_cases hs : (present (st.weights.set d none)).sum = 0
  · right
    rw [if_pos ⟨hne, hs⟩]
    refine ⟨rfl, fun i s hi hwi => ?_⟩
    have hil : i < st.indexes.length := by rw [h.len]; exact (List.getElem?_eq_some_iff.1 hi).1
    by_cases e : d = i
    · subst e
      rw [hd] at hi
      cases hi
      rfl
    · cases ho : st.weights[i]? with
      | none => rw [List.getElem?_eq_none_iff] at ho; omega
      | some o =>
        cases o with
        | some v =>
          have hm : v ∈ present (st.weights.set d none) := (mem_present _ _).2 ⟨i, by rw [List.getElem?_set_ne e]; exact ho⟩
          have : v = 0 := List.sum_eq_zero_iff_forall_eq_nat.1 hs v hm
          subst this
          exact absurd ((h.zeros i).1 ho) hwi
        | none =>
          have hsh : (st.indexes.map Option.isSome)[i]? = (st.weights.map Option.isSome)[i]? := by rw [h.shape]
          rw [List.getElem?_map, List.getElem?_map, ho, List.getElem?_eq_getElem hil] at hsh
          simp at hsh
          have := h.gone i (by rw [List.getElem?_eq_getElem hil, hsh])
          rw [hi] at this
          injection this
  · left
    rw [if_neg (fun g => hs g.2)]
    refine ⟨_, rfl, ⟨?_, by simp [h.len], ?_, ?_, ?_, h.curOk, by show 0 < (present (st.weights.set d none)).sum; omega, ⟨z, hz⟩⟩, rfl, rfl, rfl, ?_, ?_⟩
    · show (st.indexes.set d none).map Option.isSome = (st.weights.set d none).map Option.isSome
      rw [List.map_set, List.map_set, h.shape]
    · intro i x hi
      simp only [List.getElem?_set] at hi
      split at hi
      · simp at hi
      · exact h.index i x hi
    · intro i hi
      simp only [List.getElem?_set] at hi
      split at hi
      · rename_i e; subst e; exact hd
      · exact h.gone i hi
    · intro i
      simp only [List.getElem?_set]
      by_cases e : d = i
      · subst e
        rw [if_pos rfl, if_pos (by omega)]
        simp [hw]
      · rw [if_neg e]
        exact h.zeros i
    · intro hx
      exact set_none_eq _ _ hx
    · intro hx
      exact present_set_none _ _ _ hx

theorem nextAll_zero {α : Type} (cfg : CombinedConfig) (hf : FairRng cfg.rng) (hb : cfg.batching ≠ .other) {w : List Nat} : ∀ (fuel : Nat) (st : CombinedState α),
    ZeroInv w st → turns cfg st < fuel →
    (∃ d x rest st', nextAll cfg fuel st = some (.ok ((d, x), st')) ∧ st.streams[d]? = some (x :: rest) ∧ w[d]? ≠ some 0 ∧
      st'.streams = st.streams.set d rest ∧ st'.yielded = st.yielded.modify d (· + 1) ∧ ZeroInv w st') ∨
    (nextAll cfg fuel st = some (.error .zeroDivision) ∧ ∀ (i : Nat) (s : List α), st.streams[i]? = some s → w[i]? ≠ some 0 → s = []) := by
  intro fuel
  induction fuel with
  | zero => intro st _ h; omega
  | succ fuel ih =>
    intro st hinv hfuel
    have hmany := hinv.many
    obtain ⟨d, st1, h1, h2, hw, h3, h4, h5, h6, h7, h8⟩ := zeroGet_ok cfg hf hb st hinv
    unfold nextAll
    simp only [if_pos hmany, h1]
    have hsd : st1.streams[d]? = some (st.streams[d]'h2) := by rw [h3]; exact List.getElem?_eq_getElem h2
    cases hx : st.streams[d]'h2 with
    | cons x rest =>
      left
      rw [hx] at hsd
      have hg : getSample st1 d = .ok ((d, x), { st1 with streams := st1.streams.set d rest, yielded := st1.yielded.modify d (· + 1) }) := by
        unfold getSample; rw [hsd]
      simp only [hg]
      exact ⟨d, x, rest, _, rfl, by rw [← h3]; exact hsd, hw, by simp only [h3], by simp only [h6], h7.deliver d x rest hsd⟩
    | nil =>
      rw [hx] at hsd
      have hg : getSample st1 d = .error .stopIteration := by unfold getSample; rw [hsd]
      simp only [hg]
      rw [if_neg (by omega)]
      rcases zeroForget st1 h7 d hw hsd with ⟨st2, g1, g2, g3, g4, g5, g6, g7⟩ | ⟨g1, g2⟩
      · rw [g1]
        simp only
        have hdl : d < st.indexes.length := by rw [hinv.len]; exact h2
        have hturn : turns cfg st2 < fuel := by
          unfold turns at hfuel ⊢
          rw [g5]
          by_cases hal : st.indexes[d]? = some (some d)
          · have := g7 (by rw [h4]; exact hal)
            rw [h4] at this
            rw [← this, Nat.add_mul, Nat.one_mul] at hfuel
            omega
          · rcases h8 with h8 | ⟨h8, h9⟩
            · exact absurd h8 hal
            · have hnone : st1.indexes[d]? = some none := by
                rw [h4]
                cases ho : st.indexes[d]'hdl with
                | none => rw [List.getElem?_eq_getElem hdl, ho]
                | some y =>
                  have hy : st.indexes[d]? = some (some y) := by rw [List.getElem?_eq_getElem hdl, ho]
                  have := hinv.index d y hy
                  subst this
                  exact absurd hy hal
              rw [g6 hnone, h4, h8]
              omega
        rcases ih st2 g2 hturn with ⟨d', x, rest, st', k1, k2, k3, k4, k5, k6⟩ | ⟨k1, k2⟩
        · left
          exact ⟨d', x, rest, st', k1, by rw [← h3, ← g3]; exact k2, k3, by rw [k4, g3, h3], by rw [k5, g4, h6], k6⟩
        · right
          exact ⟨k1, by rw [← h3, ← g3]; exact k2⟩
      · right
        rw [g1]
        exact ⟨rfl, by rw [← h3]; exact g2⟩

theorem takeAll_zero {α : Type} (cfg : CombinedConfig) (hf : FairRng cfg.rng) (hb : cfg.batching ≠ .other) {w : List Nat} (fuel m : Nat) :
    ∀ st : CombinedState α, ZeroInv w st → st.streams.length * (cfg.batchSize + 2) + cfg.batchSize < fuel →
    ∃ out e st', takeAll cfg fuel m st = some (out, e, st') ∧ Delivered st out st' ∧ (∀ x ∈ out, w[x.1]? ≠ some 0) ∧
      out.length ≤ (st.streams.map List.length).sum ∧
      (e = none ∧ out.length = m ∨
       e = some .zeroDivision ∧ out.length < m ∧ ∀ (i : Nat) (s : List α), st'.streams[i]? = some s → w[i]? ≠ some 0 → s = []) := by
  induction m with
  | zero => intro st _ _; exact ⟨[], none, st, rfl, Delivered.refl st, by simp, by simp, Or.inl ⟨rfl, rfl⟩⟩
  | succ m ih =>
    intro st hinv hfuel
    have hturn : turns cfg st < fuel := by
      unfold turns
      have h1 : (present st.indexes).length ≤ st.streams.length := by rw [← hinv.len]; exact present_length_le _
      have h2 : (present st.indexes).length * (cfg.batchSize + 2) ≤ st.streams.length * (cfg.batchSize + 2) := Nat.mul_le_mul_right _ h1
      omega
    unfold takeAll
    rcases nextAll_zero cfg hf hb fuel st hinv hturn with ⟨d, x, rest, st1, h1, h2, hw, h3, h4, h5⟩ | ⟨h1, h2⟩
    · simp only [h1]
      obtain ⟨out, e, st', g1, g2, g3, g4, g5⟩ := ih st1 h5 (by rw [h3]; simpa using hfuel)
      rw [g1]
      have hsum := sum_length_set st.streams d x rest h2
      rw [h3] at g4
      refine ⟨(d, x) :: out, e, st', rfl, g2.step h2 h3 h4, ?_, by rw [List.length_cons]; omega, ?_⟩
      · intro y hy
        rcases List.mem_cons.1 hy with rfl | hy
        · exact hw
        · exact g3 y hy
      · rcases g5 with ⟨k1, k2⟩ | ⟨k1, k2, k3⟩
        · exact Or.inl ⟨k1, by rw [List.length_cons, k2]⟩
        · exact Or.inr ⟨k1, by rw [List.length_cons]; omega, k3⟩
    · simp only [h1]
      exact ⟨[], _, st, rfl, Delivered.refl st, by simp, by simp, Or.inr ⟨rfl, by simp, h2⟩⟩

/-- More turns change nothing once there is a result. -/
theorem nextAll_more {α : Type} (cfg : CombinedConfig) (fuel : Nat) : ∀ (st : CombinedState α) r, nextAll cfg fuel st = some r → ∀ fuel', fuel ≤ fuel' →
    nextAll cfg fuel' st = some r := by
  induction fuel with
  | zero => intro st r h; simp [nextAll] at h
  | succ fuel ih =>
    intro st r h fuel' hle
    obtain ⟨k, rfl⟩ : ∃ k, fuel' = k + 1 := ⟨fuel' - 1, by omega⟩
    unfold nextAll at h ⊢
    simp only at h ⊢
    split at h
    · exact h
    · rename_i d st1 he
      cases hx : getSample st1 d with
      | ok x => rw [hx] at h; exact h
      | error e =>
        rw [hx] at h
        cases e with
        | stopIteration =>
          simp only at h ⊢
          split at h
          · rename_i hl; rw [if_pos hl]; exact h
          · rename_i hl
            rw [if_neg hl]
            cases he2 : forgetDataset st1 d with
            | error e2 => rw [he2] at h; exact h
            | ok st2 =>
              rw [he2] at h
              exact ih st2 r h k (by omega)
        | _ => exact h

theorem takeAll_more {α : Type} (cfg : CombinedConfig) (fuel m : Nat) : ∀ (st : CombinedState α) out e st', takeAll cfg fuel m st = some (out, some e, st') →
    ∀ fuel' m', fuel ≤ fuel' → m ≤ m' → takeAll cfg fuel' m' st = some (out, some e, st') := by
  induction m with
  | zero => intro st out e st' h; simp [takeAll] at h
  | succ m ih =>
    intro st out e st' h fuel' m' hf hm
    obtain ⟨k, rfl⟩ : ∃ k, m' = k + 1 := ⟨m' - 1, by omega⟩
    unfold takeAll at h ⊢
    split at h
    · simp at h
    · rename_i e2 he
      rw [nextAll_more cfg fuel st _ he fuel' hf]
      exact h
    · rename_i x st1 he
      rw [nextAll_more cfg fuel st _ he fuel' hf]
      simp only
      split at h
      · simp at h
      · rename_i xs e2 st2 he2
        injection h with h
        injection h with h1 h2
        injection h2 with h2 h3
        subst h1 h2 h3
        rw [ih st1 xs e st2 he2 fuel' k hf (by omega)]

end LitData
