import Verif.Lemmas.Combined

/-! Stopping at the first exhausted dataset, and resuming. -/

namespace LitData

theorem present_map_some (l : List Nat) : present (l.map some) = l := by simp [present, List.filterMap_map]

/-- The state of an iterator that has not forgotten any dataset. -/
structure FirstInv {α : Type} (w : List Nat) (st : CombinedState α) : Prop where
  idx : st.indexes = (List.range w.length).map some
  wts : st.weights = w.map some
  lenS : st.streams.length = w.length
  lenY' : st.yielded.length = w.length
  curOk' : ∀ c, st.cur = some c → c < w.length
  pos : 0 < w.sum

theorem getDatasetIndex_first {α : Type} (cfg : CombinedConfig) (hf : FairRng cfg.rng) (hb : cfg.batching ≠ .other) (w : List Nat)
    (st : CombinedState α) (h : FirstInv w st) :
    ∃ d st', getDatasetIndex cfg st = .ok (d, st') ∧ d < w.length ∧ st'.streams = st.streams ∧ st'.yielded = st.yielded ∧ FirstInv w st' ∧
      (cfg.batching = .stratified → d = cfg.rng st.calls (List.range w.length) w ∧ st' = { st with calls := st.calls + 1 }) := by
  have hne : w ≠ [] := by intro e; have := h.pos; rw [e] at this; simp at this
  have hn : newDatasetIndex cfg st = .ok (cfg.rng st.calls (List.range w.length) w, { st with calls := st.calls + 1 }) := by
    unfold newDatasetIndex rngChoices
    rw [h.idx, h.wts, present_map_some, present_map_some, if_neg (by simp), if_neg hne, if_neg (by have := h.pos; omega)]
  have hlt : cfg.rng st.calls (List.range w.length) w < w.length := by
    obtain ⟨j, x, h1, _⟩ := hf st.calls (List.range w.length) w (by simp) h.pos
    have := List.mem_of_getElem? h1
    simpa using this
  unfold getDatasetIndex
  cases hbm : cfg.batching with
  | other => exact absurd hbm hb
  | stratified =>
    simp only [hn]
    exact ⟨_, _, rfl, hlt, rfl, rfl, ⟨h.idx, h.wts, h.lenS, h.lenY', h.curOk', h.pos⟩, fun _ => ⟨rfl, rfl⟩⟩
  | perStream =>
    simp only
    split
    · rename_i d hd
      split at hd
      · simp at hd
      · exact ⟨d, _, rfl, h.curOk' d hd, rfl, rfl, ⟨h.idx, h.wts, h.lenS, h.lenY', h.curOk', h.pos⟩, by simp⟩
    · simp only [hn]
      refine ⟨_, _, rfl, hlt, rfl, rfl, ⟨h.idx, h.wts, h.lenS, h.lenY', ?_, h.pos⟩, by simp⟩
      intro c hc
      simp only [Option.some.injEq] at hc
      omega

theorem FirstInv.deliver {α : Type} {w : List Nat} {st : CombinedState α} (h : FirstInv w st) (d : Nat) (rest : List α) :
    FirstInv w { st with streams := st.streams.set d rest, yielded := st.yielded.modify d (· + 1) } :=
  ⟨h.idx, h.wts, by simp [h.lenS], by simp [h.lenY'], h.curOk', h.pos⟩

theorem nextFirst_ok {α : Type} (cfg : CombinedConfig) (hf : FairRng cfg.rng) (hb : cfg.batching ≠ .other) (w : List Nat)
    (st : CombinedState α) (h : FirstInv w st) :
    ∃ d st1, getDatasetIndex cfg st = .ok (d, st1) ∧ d < w.length ∧
      (cfg.batching = .stratified → d = cfg.rng st.calls (List.range w.length) w ∧ st1 = { st with calls := st.calls + 1 }) ∧
      ((st.streams[d]? = some [] ∧ nextFirst cfg st = .error .stopIteration) ∨
       ∃ x rest st', st.streams[d]? = some (x :: rest) ∧ nextFirst cfg st = .ok ((d, x), st') ∧
        st' = { st1 with streams := st1.streams.set d rest, yielded := st1.yielded.modify d (· + 1) } ∧
        st'.streams = st.streams.set d rest ∧ st'.yielded = st.yielded.modify d (· + 1) ∧ FirstInv w st') := by
  obtain ⟨d, st1, h1, h2, h3, h4, h5, h6⟩ := getDatasetIndex_first cfg hf hb w st h
  refine ⟨d, st1, h1, h2, h6, ?_⟩
  have hdl : d < st.streams.length := by rw [h.lenS]; exact h2
  have hsd : st.streams[d]? = some (st.streams[d]'hdl) := List.getElem?_eq_getElem hdl
  unfold nextFirst
  simp only [h1]
  cases hx : st.streams[d]'hdl with
  | nil =>
    left
    rw [hx] at hsd
    refine ⟨hsd, ?_⟩
    unfold getSample
    rw [h3, hsd]
  | cons x rest =>
    right
    rw [hx] at hsd
    refine ⟨x, rest, _, hsd, ?_, rfl, by simp only [h3], by simp only [h4], h5.deliver d rest⟩
    unfold getSample
    rw [h3, hsd]

theorem takeFirst_ok {α : Type} (cfg : CombinedConfig) (hf : FairRng cfg.rng) (hb : cfg.batching ≠ .other) (w : List Nat) (m : Nat) :
    ∀ st : CombinedState α, FirstInv w st →
    ∃ out e st', takeFirst cfg m st = (out, e, st') ∧ Delivered st out st' ∧ FirstInv w st' ∧
      ((e = none ∧ out.length = m) ∨ (e = some .stopIteration ∧ out.length < m ∧
        ∃ d st'', getDatasetIndex cfg st' = .ok (d, st'') ∧ st'.streams[d]? = some [])) ∧
      out.length ≤ (st.streams.map List.length).sum ∧
      (cfg.batching = .stratified → out.map (·.1) = (List.range' st.calls out.length).map fun k => cfg.rng k (List.range w.length) w) ∧
      (cfg.batching = .stratified → st'.calls = st.calls + out.length ∧ st'.cur = st.cur ∧ st'.inBatch = st.inBatch) := by
  induction m with
  | zero => intro st h; exact ⟨[], none, st, rfl, Delivered.refl st, h, Or.inl ⟨rfl, rfl⟩, by simp, by simp, by simp⟩
  | succ m ih =>
    intro st h
    obtain ⟨d, st1, h1, h2, h6, hc⟩ := nextFirst_ok cfg hf hb w st h
    rcases hc with ⟨hs, hn⟩ | ⟨x, rest, st', hs, hn, hst, hstr, hy, hinv⟩
    · refine ⟨[], some .stopIteration, st, ?_, Delivered.refl st, h, Or.inr ⟨rfl, by simp, d, st1, h1, hs⟩, by simp, by simp, by simp⟩
      unfold takeFirst
      rw [hn]
    · obtain ⟨out, e, st2, g1, g2, g3, g4, g5, g6, g7⟩ := ih st' hinv
      have hsum := sum_length_set st.streams d x rest hs
      rw [← hstr] at hsum
      refine ⟨(d, x) :: out, e, st2, ?_, Delivered.step hs hstr hy g2, g3, ?_, ?_, ?_, ?_⟩
      · unfold takeFirst
        rw [hn]
        simp only [g1]
      · rcases g4 with ⟨e1, e2⟩ | ⟨e1, e2, e3⟩
        · exact Or.inl ⟨e1, by simp [e2]⟩
        · exact Or.inr ⟨e1, by simpa using e2, e3⟩
      · rw [List.length_cons]; omega
      · intro hst'
        obtain ⟨e1, e2⟩ := h6 hst'
        have hcalls : st'.calls = st.calls + 1 := by rw [hst, e2]
        rw [List.map_cons, g6 hst', List.length_cons, List.range'_succ, List.map_cons, hcalls, ← e1]
      · intro hst'
        obtain ⟨e1, e2⟩ := h6 hst'
        obtain ⟨k1, k2, k3⟩ := g7 hst'
        rw [k1, k2, k3, hst, e2, List.length_cons]
        exact ⟨by simp only; omega, rfl, rfl⟩

theorem sum_modify (l : List Nat) (d : Nat) (h : d < l.length) : (l.modify d (· + 1)).sum = l.sum + 1 := by
  induction l generalizing d with
  | nil => simp at h
  | cons a l ih =>
    cases d with
    | zero => simp; omega
    | succ d =>
      have := ih d (by simpa using h)
      simp only [List.modify_succ_cons, List.sum_cons, this]
      omega

theorem takeFirst_append {α : Type} (cfg : CombinedConfig) (m k : Nat) : ∀ (st st' : CombinedState α) (out : List (Nat × α)),
    takeFirst cfg m st = (out, none, st') → out.length = m →
    takeFirst cfg (m + k) st = (out ++ (takeFirst cfg k st').1, (takeFirst cfg k st').2) := by
  induction m with
  | zero =>
    intro st st' out h _
    unfold takeFirst at h
    injection h with h1 h2
    injection h2 with h2 h3
    subst h1 h3
    rw [Nat.zero_add]
    rfl
  | succ m ih =>
    intro st st' out h hl
    unfold takeFirst at h
    rw [show m + 1 + k = (m + k) + 1 by omega]
    conv => lhs; unfold takeFirst
    cases hn : nextFirst cfg st with
    | error e => rw [hn] at h; simp at h
    | ok r =>
      obtain ⟨x, st1⟩ := r
      rw [hn] at h
      simp only at h ⊢
      injection h with h1 h2
      subst h1
      have := ih st1 st' (takeFirst cfg m st1).1 (by
        rw [← h2]) (by simpa using hl)
      rw [this]
      rfl

theorem Delivered.sum_yielded {α : Type} {w : List Nat} {st st' : CombinedState α} {out : List (Nat × α)} (h : Delivered st out st')
    (hl : st.yielded.length = w.length) (hl' : st'.yielded.length = w.length) (hs : st.streams.length = w.length) :
    st'.yielded.sum = st.yielded.sum + out.length := by
  have hy : st'.yielded = (List.range w.length).map fun d => st.yielded.getD d 0 + (fromDataset d out).length := by
    apply List.ext_getElem?
    intro i
    by_cases hi : i < w.length
    · have hi1 : i < st.yielded.length := by omega
      rw [h.counts i _ (List.getElem?_eq_getElem hi1)]
      simp [hi, List.getD_eq_getElem?_getD, List.getElem?_eq_getElem hi1]
    · rw [List.getElem?_eq_none (by omega), List.getElem?_eq_none (by simp; omega)]
  have hy0 : st.yielded = (List.range w.length).map fun d => st.yielded.getD d 0 := by
    apply List.ext_getElem?
    intro i
    by_cases hi : i < w.length
    · have hi1 : i < st.yielded.length := by omega
      simp [hi, List.getD_eq_getElem?_getD, List.getElem?_eq_getElem hi1]
    · rw [List.getElem?_eq_none (by omega), List.getElem?_eq_none (by simp; omega)]
  have hsum : ∀ (n : Nat) (f g : Nat → Nat), ((List.range n).map fun d => f d + g d).sum = ((List.range n).map f).sum + ((List.range n).map g).sum := by
    intro n f g
    induction n with
    | zero => rfl
    | succ n ih => simp only [List.range_succ, List.map_append, List.sum_append, ih]; simp; omega
  have hcount : ∀ (n : Nat) (o : List (Nat × α)), (∀ x ∈ o, x.1 < n) → ((List.range n).map fun d => (fromDataset d o).length).sum = o.length := by
    intro n o ho
    induction o with
    | nil =>
      simp only [fromDataset, List.filter_nil, List.map_nil, List.length_nil]
      rw [List.sum_eq_zero_iff_forall_eq_nat]
      simp
    | cons x o ih =>
      have := ih (fun y hy => ho y (by simp [hy]))
      have hx := ho x (by simp)
      have e : ((List.range n).map fun d => (fromDataset d (x :: o)).length) =
          (List.range n).map (fun d => (if x.1 = d then 1 else 0) + (fromDataset d o).length) := by
        apply List.map_congr_left
        intro d _
        rw [show x = (x.1, x.2) from rfl, fromDataset_cons]
        by_cases hd : x.1 = d
        · simp [hd]; omega
        · simp [hd]
      rw [e, hsum, this, List.length_cons]
      have h1 : ∀ m, ((List.range m).map fun d => if x.1 = d then 1 else 0).sum = if x.1 < m then 1 else 0 := by
        intro m
        induction m with
        | zero => simp
        | succ m ih =>
          rw [List.range_succ, List.map_append, List.sum_append, ih]
          simp only [List.map_cons, List.map_nil, List.sum_cons, List.sum_nil]
          (repeat' split) <;> omega
      rw [h1, if_pos hx]
      omega
  rw [hy, hsum, ← hy0, hcount]
  rw [← hs]
  exact h.tags

theorem getDatasetIndex_indexes {α : Type} (cfg : CombinedConfig) (st st' : CombinedState α) (d : Nat)
    (h : getDatasetIndex cfg st = .ok (d, st')) : st'.indexes = st.indexes := by
  have hn : ∀ d st1, newDatasetIndex cfg st = .ok (d, st1) → st1.indexes = st.indexes := by
    intro d st1 h1
    unfold newDatasetIndex at h1
    split at h1
    · simp at h1
    · injection h1 with h1
      injection h1 with _ h1
      subst h1
      rfl
  unfold getDatasetIndex at h
  split at h
  · exact hn d st' h
  · split at h
    · injection h with h
      injection h with _ h
      subst h
      rfl
    · split at h
      · simp at h
      · rename_i d1 st1 h1
        injection h with h
        injection h with _ h
        subst h
        exact hn d1 st1 h1
  · simp at h

theorem nextAll_keeps_none {α : Type} (cfg : CombinedConfig) (i : Nat) : ∀ (fuel : Nat) (st st' : CombinedState α) (x : Nat × α),
    nextAll cfg fuel st = some (.ok (x, st')) → st.indexes[i]? = some none → st'.indexes[i]? = some none := by
  intro fuel
  induction fuel with
  | zero => intro st st' x h; simp [nextAll] at h
  | succ fuel ih =>
    intro st st' x h hi
    unfold nextAll at h
    simp only at h
    split at h
    · simp at h
    · rename_i d st1 hch
      have hst1 : st1.indexes = st.indexes := by
        split at hch
        · exact getDatasetIndex_indexes cfg st st1 d hch
        · split at hch
          · injection hch with hch
            injection hch with _ hch
            rw [hch]
          · simp at hch
      split at h
      · rename_i r hg
        simp only [Option.some.injEq, Except.ok.injEq] at h
        subst h
        unfold getSample at hg
        split at hg
        · simp at hg
        · simp at hg
        · injection hg with hg
          injection hg with _ hg
          subst hg
          simp only [hst1, hi]
      · split at h
        · simp at h
        · split at h
          · simp at h
          · rename_i st2 hf
            apply ih st2 st' x h
            unfold forgetDataset at hf
            simp only at hf
            split at hf
            · simp at hf
            · injection hf with hf
              subst hf
              simp only [List.getElem?_set, hst1, hi]
              split
              · rename_i e
                subst e
                have := (List.getElem?_eq_some_iff.1 hi).1
                simp [this]
              · rfl
      · simp at h

/-- As long as no dataset was found exhausted, the choices and the samples have the same number. -/
def FreshOr {α : Type} (w : List Nat) (st : CombinedState α) : Prop :=
  (∃ i : Nat, st.indexes[i]? = some none) ∨
    (FirstInv w st ∧ st.calls = st.yielded.sum ∧ st.cur = none ∧ st.inBatch = 0)

theorem nextAll_fresh {α : Type} (cfg : CombinedConfig) (hf : FairRng cfg.rng) (hb : cfg.batching = .stratified) (w : List Nat) (hw : 2 ≤ w.length)
    (fuel : Nat) (st st' : CombinedState α) (x : Nat × α) (h : nextAll cfg fuel st = some (.ok (x, st'))) (hi : FreshOr w st) : FreshOr w st' := by
  rcases hi with ⟨i, hi⟩ | ⟨hi, hc, hcur, hbat⟩
  · exact Or.inl ⟨i, nextAll_keeps_none cfg i fuel st st' x h hi⟩
  · cases fuel with
    | zero => simp [nextAll] at h
    | succ fuel =>
      obtain ⟨d, st1, h1, h2, h3, h4, h5, h6⟩ := getDatasetIndex_first cfg hf (by rw [hb]; simp) w st hi
      obtain ⟨_, e2⟩ := h6 hb
      unfold nextAll at h
      simp only at h
      rw [hi.idx, present_map_some, if_pos (by simp; omega), h1] at h
      simp only at h
      have hdl : d < st1.streams.length := by rw [h3, hi.lenS]; exact h2
      have hsd : st1.streams[d]? = some (st1.streams[d]'hdl) := List.getElem?_eq_getElem hdl
      cases hx : st1.streams[d]'hdl with
      | cons y rest =>
        rw [hx] at hsd
        have hg : getSample st1 d = .ok ((d, y), { st1 with streams := st1.streams.set d rest, yielded := st1.yielded.modify d (· + 1) }) := by
          unfold getSample; rw [hsd]
        rw [hg] at h
        simp only [Option.some.injEq, Except.ok.injEq, Prod.mk.injEq] at h
        right
        rw [← h.2]
        refine ⟨h5.deliver d rest, ?_, ?_, ?_⟩
        · simp only
          rw [sum_modify _ _ (by rw [h4, hi.lenY']; exact h2), h4, ← hc, e2]
        · rw [e2]; exact hcur
        · rw [e2]; exact hbat
      | nil =>
        rw [hx] at hsd
        have hg : getSample st1 d = .error .stopIteration := by unfold getSample; rw [hsd]
        rw [hg] at h
        simp only at h
        rw [if_neg (by simp; omega)] at h
        split at h
        · simp at h
        · rename_i st2 hf2
          left
          refine ⟨d, nextAll_keeps_none cfg d fuel st2 st' x h ?_⟩
          unfold forgetDataset at hf2
          simp only at hf2
          split at hf2
          · simp at hf2
          · injection hf2 with hf2
            subst hf2
            simp only [List.getElem?_set_self (show d < st1.indexes.length by rw [h5.idx]; simp; exact h2)]

theorem takeAll_fresh {α : Type} (cfg : CombinedConfig) (hf : FairRng cfg.rng) (hb : cfg.batching = .stratified) (w : List Nat) (hw : 2 ≤ w.length)
    (fuel m : Nat) : ∀ (st st' : CombinedState α) (out : List (Nat × α)) (e : Option Err), takeAll cfg fuel m st = some (out, e, st') →
      FreshOr w st → FreshOr w st' := by
  induction m with
  | zero =>
    intro st st' out e h hi
    unfold takeAll at h
    injection h with h; injection h with _ h; injection h with _ h
    subst h
    exact hi
  | succ m ih =>
    intro st st' out e h hi
    unfold takeAll at h
    split at h
    · simp at h
    · injection h with h; injection h with _ h; injection h with _ h
      subst h
      exact hi
    · rename_i x st1 hn
      split at h
      · simp at h
      · rename_i xs e' st2 ht
        injection h with h; injection h with _ h; injection h with _ h
        subst h
        exact ih st1 st2 xs e' ht (nextAll_fresh cfg hf hb w hw fuel st st1 x hn hi)

theorem takeAll_append {α : Type} (cfg : CombinedConfig) (fuel m k : Nat) : ∀ (st st' st2 : CombinedState α) (out out2 : List (Nat × α)) (e2 : Option Err),
    takeAll cfg fuel m st = some (out, none, st') → takeAll cfg fuel k st' = some (out2, e2, st2) →
    takeAll cfg fuel (m + k) st = some (out ++ out2, e2, st2) := by
  induction m with
  | zero =>
    intro st st' st2 out out2 e2 h h2
    unfold takeAll at h
    injection h with h; injection h with h1 h; injection h with _ h
    subst h1 h
    rw [Nat.zero_add, h2]
    rfl
  | succ m ih =>
    intro st st' st2 out out2 e2 h h2
    rw [show m + 1 + k = (m + k) + 1 by omega]
    unfold takeAll at h ⊢
    split at h
    · simp at h
    · simp at h
    · rename_i x st1 hn
      split at h
      · simp at h
      · rename_i xs e' st3 ht
        injection h with h; injection h with h1 h; injection h with h3 h
        subst h1 h h3
        simp only [ih st1 st3 st2 xs out2 e2 ht h2]
        rfl

/-- Resuming an iterator that has forgotten no dataset gives the same state again. -/
theorem combinedInit_resume {α : Type} (cfg : CombinedConfig) (w : List Nat) (st : CombinedState α) (h : FirstInv w st)
    (hc : st.calls = st.yielded.sum) (hcur : st.cur = none) (hbat : st.inBatch = 0) :
    combinedInit cfg w st.streams (some st.yielded) = .ok st := by
  have hne : w ≠ [] := by intro e; have := h.pos; rw [e] at this; simp at this
  have hst : ({ streams := st.streams, indexes := (List.range st.streams.length).map some, weights := w.map some, yielded := st.yielded, calls := st.yielded.sum, inBatch := 0, cur := none } : CombinedState α) = st := by
    rw [h.lenS, ← h.idx, ← h.wts, ← hc, ← hcur, ← hbat]
  unfold combinedInit
  simp only [hst]
  split
  · rfl
  · unfold rngChoices
    rw [if_neg (by simp [h.lenS]), if_neg hne, if_neg (by have := h.pos; omega)]

end LitData
