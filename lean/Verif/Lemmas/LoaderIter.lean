import Verif.Model.LoaderIter
import Verif.Lemmas.Sampler

/-! The invariant of the multi-process iterator. -/

namespace LitData

/-- The worker of visit `p` when the first worker visited is `s0`. -/
def visitWorker (nw s0 p : Nat) : Nat := (s0 + p) % nw

/-- Position of worker `w` in a round. -/
def slot (nw s0 w : Nat) : Nat := if s0 ≤ w then w - s0 else w + nw - s0

/-- The visit of worker `w` in round `r`. -/
def visitOf (nw s0 w r : Nat) : Nat := r * nw + slot nw s0 w

theorem slot_lt {nw s0 w : Nat} (hs : s0 < nw) (hw : w < nw) : slot nw s0 w < nw := by unfold slot; split <;> omega

theorem add_mod_cases {nw a b : Nat} (ha : a < nw) (hb : b < nw) : (a + b) % nw = if a + b < nw then a + b else a + b - nw := by
  split
  · rw [Nat.mod_eq_of_lt (by omega)]
  · rw [Nat.mod_eq_sub_mod (by omega), Nat.mod_eq_of_lt (by omega)]

theorem visitWorker_lt {nw s0 p : Nat} (hs : s0 < nw) : visitWorker nw s0 p < nw := Nat.mod_lt _ (by omega)

theorem visitWorker_visitOf {nw s0 w r : Nat} (hs : s0 < nw) (hw : w < nw) : visitWorker nw s0 (visitOf nw s0 w r) = w := by
  unfold visitWorker visitOf
  rw [show s0 + (r * nw + slot nw s0 w) = s0 + slot nw s0 w + r * nw by omega, Nat.add_mul_mod_self_right, add_mod_cases hs (slot_lt hs hw)]
  unfold slot
  (repeat' split) <;> omega

theorem visitOf_div {nw s0 w r : Nat} (hs : s0 < nw) (hw : w < nw) : visitOf nw s0 w r / nw = r := by
  unfold visitOf
  rw [Nat.add_comm, Nat.add_mul_div_right _ _ (by omega), Nat.div_eq_of_lt (slot_lt hs hw)]
  omega

theorem visitOf_visitWorker {nw s0 p : Nat} (hs : s0 < nw) : visitOf nw s0 (visitWorker nw s0 p) (p / nw) = p := by
  have hm : p % nw < nw := Nat.mod_lt _ (by omega)
  have hp : p / nw * nw + p % nw = p := by rw [Nat.mul_comm]; exact Nat.div_add_mod p nw
  have hw : visitWorker nw s0 p = if s0 + p % nw < nw then s0 + p % nw else s0 + p % nw - nw := by
    unfold visitWorker
    rw [← add_mod_cases hs hm]
    simp [Nat.add_mod]
  unfold visitOf
  have : slot nw s0 (visitWorker nw s0 p) = p % nw := by
    rw [hw]
    unfold slot
    (repeat' split) <;> omega
  rw [this, hp]

theorem visitOf_succ (nw s0 w r : Nat) : visitOf nw s0 w (r + 1) = visitOf nw s0 w r + nw := by
  unfold visitOf; rw [Nat.add_mul]; omega

theorem visitOf_lt_iff {nw s0 w r r' : Nat} (hnw : 0 < nw) : visitOf nw s0 w r < visitOf nw s0 w r' ↔ r < r' := by
  unfold visitOf
  constructor
  · intro h
    have : r * nw < r' * nw := by omega
    exact Nat.lt_of_mul_lt_mul_right this
  · intro h
    have : r * nw < r' * nw := Nat.mul_lt_mul_of_pos_right h hnw
    omega

theorem visitWorker_succ (nw s0 q : Nat) : ((visitWorker nw s0 q) + 1) % nw = visitWorker nw s0 (q + 1) := by
  unfold visitWorker
  rw [Nat.mod_add_mod]
  rfl

theorem upd_same {α : Type} (f : Nat → α) (i : Nat) (a : α) : upd f i a i = a := by simp [upd]
theorem upd_other {α : Type} (f : Nat → α) {i j : Nat} (a : α) (h : j ≠ i) : upd f i a j = f j := by simp [upd, h]

/-- What is not stored in a state: the visit `V i` of task `i` and the task `T p` of visit `p`, the number of
tasks sent to, taken by and answered (as far as the main process knows) of every worker, and the next visit. -/
structure LoaderGhost where
  V : Nat → Nat
  T : Nat → Nat
  t : Nat → Nat
  d : Nat → Nat
  c : Nat → Nat
  q : Nat

/-- The message of worker `w` for round `r`. -/
def roundMsg {β : Type} (nw s0 : Nat) (S : Nat → List β) (T : Nat → Nat) (w r : Nat) : LoaderMsg β :=
  match (S w)[r]? with
  | some b => .data (T (visitOf nw s0 w r)) w b
  | none => .stop (T (visitOf nw s0 w r)) w

/-- What visit `p` brings. -/
def visitBatch {β : Type} (nw s0 : Nat) (S : Nat → List β) (p : Nat) : Option β := (S (visitWorker nw s0 p))[p / nw]?

structure LInv {β : Type} (nw s0 : Nat) (S : Nat → List β) (s : LoaderIter β) (g : LoaderGhost) : Prop where
  hs0 : s0 < nw
  hpre : s.pre = []
  hcyc : s.cyc = visitWorker nw s0 g.q
  hV : ∀ i, i < s.send → g.V i < g.q ∧ g.T (g.V i) = i ∧ g.V i / nw < g.t (visitWorker nw s0 (g.V i))
  hmono : ∀ i j, i < j → j < s.send → g.V i < g.V j
  hT : ∀ w, w < nw → ∀ r, r < g.t w → g.T (visitOf nw s0 w r) < s.send ∧ g.V (g.T (visitOf nw s0 w r)) = visitOf nw s0 w r
  hnext : ∀ w, w < nw → ∀ r, g.q ≤ visitOf nw s0 w r → g.t w ≤ r
  hlive : ∀ w, w < nw → ∀ r, visitOf nw s0 w r < g.q → r < g.t w ∨ s.status w = false
  hqueue : ∀ w, w < nw → s.queue w = (List.range' (g.d w) (g.t w - g.d w)).map fun r => g.T (visitOf nw s0 w r)
  hd : ∀ w, w < nw → g.d w ≤ g.t w
  hleft : ∀ w, w < nw → s.left w = (S w).drop (g.d w)
  hended : ∀ w, w < nw → s.ended w = decide ((S w).length < g.d w)
  hc : ∀ w, w < nw → g.c w ≤ g.d w ∧ g.c w ≤ (S w).length + 1
  hinbox : ∀ w, w < nw → s.inbox.filter (fun m => m.worker == w) =
    (List.range' (g.c w) (min (g.d w) ((S w).length + 1) - g.c w)).map (roundMsg nw s0 S g.T w)
  hinw : ∀ m ∈ s.inbox, m.worker < nw
  hstatus : ∀ w, w < nw → s.status w = decide (g.c w ≤ (S w).length)
  hinfo : ∀ i, s.rcvd ≤ i → i < s.send → s.info i = some (visitWorker nw s0 (g.V i),
    if g.V i / nw < g.c (visitWorker nw s0 (g.V i)) then visitBatch nw s0 S (g.V i) else none)
  hdone : ∀ i, i < s.rcvd → g.V i / nw < g.c (visitWorker nw s0 (g.V i)) ∨ s.status (visitWorker nw s0 (g.V i)) = false
  hrs : s.rcvd ≤ s.send
  hout : s.out = (List.range s.rcvd).filterMap fun i => visitBatch nw s0 S (g.V i)
  hfin : s.finished = true → s.rcvd = s.send ∧ ∀ w, w < nw → s.status w = false

/-- Every active worker has a task among those not yet handled. -/
def LWin {β : Type} (nw s0 : Nat) (s : LoaderIter β) (g : LoaderGhost) : Prop :=
  ∀ w, w < nw → s.status w = true → ∃ r, r < g.t w ∧ s.rcvd ≤ g.T (visitOf nw s0 w r)

section
variable {β : Type} {nw s0 : Nat} {S : Nat → List β}

/-- Passing over an inactive worker. -/
theorem LInv.skip {s : LoaderIter β} {g : LoaderGhost} (h : LInv nw s0 S s g) (hdead : s.status s.cyc = false) :
    LInv nw s0 S { s with cyc := (s.cyc + 1) % nw } { g with q := g.q + 1 } := by
  have hs0 := h.hs0
  refine { h with hcyc := ?_, hV := ?_, hnext := ?_, hlive := ?_ }
  · show (s.cyc + 1) % nw = _
    rw [h.hcyc, visitWorker_succ]
  · intro i hi
    obtain ⟨a, b, c⟩ := h.hV i hi
    exact ⟨Nat.lt_succ_of_lt a, b, c⟩
  · intro w hw r hr
    exact h.hnext w hw r (by simp only at hr; omega)
  · intro w hw r hr
    simp only at hr
    by_cases hq : visitOf nw s0 w r = g.q
    · right
      show s.status w = false
      rw [h.hcyc, ← hq, visitWorker_visitOf hs0 hw] at hdead
      exact hdead
    · exact h.hlive w hw r (by omega)

/-- Sending a task to the next worker. -/
theorem LInv.put {s : LoaderIter β} {g : LoaderGhost} (h : LInv nw s0 S s g) (halive : s.status s.cyc = true) (hnf : s.finished = false) :
    LInv nw s0 S (putTask { s with cyc := (s.cyc + 1) % nw } s.cyc)
      { g with q := g.q + 1, V := upd g.V s.send g.q, T := upd g.T g.q s.send, t := upd g.t s.cyc (g.t s.cyc + 1) } := by
  have hs0 := h.hs0
  have hnw : 0 < nw := by omega
  have hcw : s.cyc < nw := by rw [h.hcyc]; exact visitWorker_lt hs0
  have hvq : visitOf nw s0 s.cyc (g.q / nw) = g.q := by rw [h.hcyc]; exact visitOf_visitWorker hs0
  have ht : g.t s.cyc = g.q / nw := by
    have h1 := h.hnext s.cyc hcw (g.q / nw) (by rw [hvq]; exact Nat.le_refl _)
    by_cases h0 : g.q / nw = 0
    · omega
    · obtain ⟨k, hk⟩ : ∃ k, g.q / nw = k + 1 := ⟨g.q / nw - 1, by omega⟩
      rw [hk, visitOf_succ] at hvq
      rcases h.hlive s.cyc hcw k (by omega) with h2 | h2
      · omega
      · rw [halive] at h2; exact absurd h2 (by simp)
  have hne : ∀ w, w < nw → ∀ r, r < g.t w → visitOf nw s0 w r ≠ g.q := by
    intro w hw r hr he
    have := h.hnext w hw r (by omega)
    omega
  have hTold : ∀ w, w < nw → ∀ r, r < g.t w → upd g.T g.q s.send (visitOf nw s0 w r) = g.T (visitOf nw s0 w r) := by
    intro w hw r hr
    exact upd_other _ _ (hne w hw r hr)
  have hVold : ∀ i, i < s.send → upd g.V s.send g.q i = g.V i := fun i hi => upd_other _ _ (by omega)
  refine { h with hcyc := ?_, hV := ?_, hmono := ?_, hT := ?_, hnext := ?_, hlive := ?_, hqueue := ?_, hd := ?_, hinbox := ?_, hinfo := ?_, hdone := ?_, hrs := ?_, hout := ?_, hfin := ?_ }
  · show (s.cyc + 1) % nw = _
    rw [h.hcyc, visitWorker_succ]
  · intro i hi
    simp only [putTask] at hi ⊢
    by_cases he : i = s.send
    · subst he
      rw [upd_same, upd_same]
      refine ⟨by omega, rfl, ?_⟩
      rw [← h.hcyc, upd_same, ht]
      omega
    · obtain ⟨a, b, c⟩ := h.hV i (by omega)
      rw [hVold i (by omega), upd_other _ _ (by omega)]
      refine ⟨by omega, b, ?_⟩
      unfold upd
      split
      · next hh => rw [hh] at c; omega
      · exact c
  · intro i j hij hj
    simp only [putTask] at hj ⊢
    rw [hVold i (by omega)]
    by_cases he : j = s.send
    · rw [he, upd_same]
      exact (h.hV i (by omega)).1
    · rw [hVold j (by omega)]
      exact h.hmono i j hij (by omega)
  · intro w hw r hr
    simp only [putTask] at hr ⊢
    by_cases hold : r < g.t w
    · obtain ⟨a, b⟩ := h.hT w hw r hold
      rw [hTold w hw r hold, hVold _ a]
      exact ⟨by omega, b⟩
    · have hwc : w = s.cyc := by
        apply Classical.byContradiction
        intro hne'
        rw [upd_other _ _ hne'] at hr
        exact hold hr
      subst hwc
      rw [upd_same] at hr
      have hr' : r = g.q / nw := by omega
      subst hr'
      rw [hvq, upd_same, upd_same]
      exact ⟨by omega, rfl⟩
  · intro w hw r hr
    simp only at hr ⊢
    have := h.hnext w hw r (by omega)
    by_cases hwc : w = s.cyc
    · subst hwc
      rw [upd_same]
      have : r ≠ g.q / nw := by intro he; rw [he, hvq] at hr; omega
      omega
    · rw [upd_other _ _ hwc]; exact this
  · intro w hw r hr
    simp only at hr
    show r < upd g.t s.cyc (g.t s.cyc + 1) w ∨ s.status w = false
    by_cases hq : visitOf nw s0 w r = g.q
    · left
      have hwc : w = s.cyc := by rw [h.hcyc, ← hq, visitWorker_visitOf hs0 hw]
      subst hwc
      rw [upd_same, ht, ← hq, visitOf_div hs0 hw]
      omega
    · rcases h.hlive w hw r (by omega) with h1 | h1
      · left
        unfold upd
        split
        · next hh => rw [hh] at h1; omega
        · exact h1
      · exact Or.inr h1
  · intro w hw
    simp only [putTask]
    by_cases hwc : w = s.cyc
    · subst hwc
      rw [upd_same, upd_same, h.hqueue _ hw]
      have hd := h.hd _ hw
      rw [show g.t s.cyc + 1 - g.d s.cyc = (g.t s.cyc - g.d s.cyc) + 1 by omega, List.range'_concat, List.map_append]
      congr 1
      · apply List.map_congr_left
        intro r hr
        rw [List.mem_range'_1] at hr
        rw [hTold _ hw r (by omega)]
      · simp only [List.map_cons, List.map_nil, Nat.one_mul]
        rw [show g.d s.cyc + (g.t s.cyc - g.d s.cyc) = g.q / nw by omega, hvq, upd_same]
    · rw [upd_other _ _ hwc, upd_other _ _ hwc, h.hqueue _ hw]
      apply List.map_congr_left
      intro r hr
      rw [List.mem_range'_1] at hr
      rw [hTold _ hw r (by omega)]
  · intro w hw
    have := h.hd w hw
    simp only
    unfold upd
    split
    · next hh => subst hh; omega
    · exact this
  · intro w hw
    show s.inbox.filter (fun m => m.worker == w) = _
    rw [h.hinbox w hw]
    apply List.map_congr_left
    intro r hr
    rw [List.mem_range'_1] at hr
    have := h.hd w hw
    unfold roundMsg
    simp only
    rw [hTold _ hw r (by omega)]
  · intro i h1 h2
    simp only [putTask] at h1 h2 ⊢
    by_cases he : i = s.send
    · subst he
      rw [upd_same, upd_same, ← h.hcyc]
      have := (h.hc s.cyc hcw).1
      have := h.hd s.cyc hcw
      rw [if_neg (by omega)]
    · rw [upd_other _ _ he, h.hinfo i h1 (by omega), hVold i (by omega)]
  · intro i hi
    simp only [putTask] at hi ⊢
    have := h.hrs
    rw [hVold i (by omega)]
    exact h.hdone i hi
  · have := h.hrs
    show s.rcvd ≤ s.send + 1
    omega
  · show s.out = _
    rw [h.hout]
    simp only [putTask]
    have := h.hrs
    apply filterMap_congr_mem
    intro i hi
    rw [hVold i (by have := List.mem_range.1 hi; omega)]
  · intro hf
    have : s.finished = true := hf
    rw [hnf] at this
    exact absurd this (by simp)

/-- The tasks that can still be used, but for one worker `u` whose last task (of visit `ρ`) was just used. -/
def LWinBut (nw s0 : Nat) (s : LoaderIter β) (g : LoaderGhost) (ρ : Nat) : Prop :=
  ∀ w, w < nw → s.status w = true → (∃ r, r < g.t w ∧ s.rcvd ≤ g.T (visitOf nw s0 w r)) ∨
    (w = visitWorker nw s0 ρ ∧ g.q ≤ ρ + nw ∧ ∀ i, s.rcvd ≤ i → i < s.send → ρ < g.V i)

theorem putCycle_inv (ρ : Nat) : ∀ (fuel : Nat) (s : LoaderIter β) (g : LoaderGhost), fuel ≤ nw → LInv nw s0 S s g → s.finished = false →
    LWinBut nw s0 s g ρ →
    (∀ p, g.q ≤ p + (nw - fuel) → p < g.q → s.status (visitWorker nw s0 p) = false) →
    (nw - fuel ≤ g.q) →
    ∃ g', LInv nw s0 S (putCycle nw fuel s) g' ∧ LWin nw s0 (putCycle nw fuel s) g' := by
  intro fuel
  induction fuel with
  | zero =>
    intro s g _ h hnf hwin hdead hq
    refine ⟨g, h, ?_⟩
    intro w hw hst
    exfalso
    have hs0 := h.hs0
    -- the visit of `w` among the last `nw`
    have hp := visitOf_visitWorker (p := g.q - nw) hs0
    have : ∃ p, g.q ≤ p + nw ∧ p < g.q ∧ visitWorker nw s0 p = w := by
      have hsl := slot_lt hs0 hw
      have hb := slot_lt hs0 (visitWorker_lt (p := g.q - nw) hs0)
      by_cases hle : slot nw s0 (visitWorker nw s0 (g.q - nw)) ≤ slot nw s0 w
      · refine ⟨visitOf nw s0 w ((g.q - nw) / nw), ?_, ?_, visitWorker_visitOf hs0 hw⟩ <;> unfold visitOf at * <;> omega
      · refine ⟨visitOf nw s0 w ((g.q - nw) / nw + 1), ?_, ?_, visitWorker_visitOf hs0 hw⟩ <;> rw [visitOf_succ] <;> unfold visitOf at * <;> omega
    obtain ⟨p, h1, h2, h3⟩ := this
    have := hdead p (by omega) h2
    have hst' : s.status w = true := hst
    rw [h3, hst'] at this
    exact absurd this (by simp)
  | succ fuel ih =>
    intro s g hf h hnf hwin hdead hq
    have hs0 := h.hs0
    have hcw : s.cyc < nw := by rw [h.hcyc]; exact visitWorker_lt hs0
    unfold putCycle
    cases hst : s.status s.cyc with
    | true =>
      simp only [hst, if_true]
      refine ⟨_, h.put hst hnf, ?_⟩
      have hvq : visitOf nw s0 s.cyc (g.q / nw) = g.q := by rw [h.hcyc]; exact visitOf_visitWorker hs0
      intro w hw hlive
      have hlive' : s.status w = true := hlive
      simp only [putTask]
      by_cases hwc : w = s.cyc
      · subst hwc
        refine ⟨g.q / nw, ?_, ?_⟩
        · have h1 := h.hnext s.cyc hcw (g.q / nw) (by rw [hvq]; exact Nat.le_refl _)
          have : g.q / nw ≤ g.t s.cyc := by
            by_cases h0 : g.q / nw = 0
            · omega
            · obtain ⟨k, hk⟩ : ∃ k, g.q / nw = k + 1 := ⟨g.q / nw - 1, by omega⟩
              rw [hk, visitOf_succ] at hvq
              rcases h.hlive s.cyc hcw k (by omega) with h2 | h2
              · omega
              · rw [hst] at h2; exact absurd h2 (by simp)
          rw [upd_same]; omega
        · rw [hvq, upd_same]
          exact h.hrs
      · -- every other active worker must have a task left
        have key : ∀ v, v < nw → (∃ r, r < g.t v ∧ s.rcvd ≤ g.T (visitOf nw s0 v r)) →
            ∃ r, r < upd g.t s.cyc (g.t s.cyc + 1) v ∧ s.rcvd ≤ upd g.T g.q s.send (visitOf nw s0 v r) := by
          rintro v hv ⟨r, h1, h2⟩
          refine ⟨r, ?_, ?_⟩
          · unfold upd
            split
            · next hh => rw [hh] at h1; omega
            · exact h1
          · rw [upd_other _ _]
            · exact h2
            · intro he
              have := h.hnext v hv r (by omega)
              omega
        apply key w hw
        rcases hwin w hw hlive' with h1 | ⟨h1, h2, hpast⟩
        · exact h1
        · -- then the worker served next would already have a task after `ρ`, one round too early
          rcases hwin s.cyc hcw hst with ⟨r, h3, h4⟩ | ⟨h3, h4, _⟩
          · have ht := h.hT s.cyc hcw r h3
            have h5 := hpast _ h4 ht.1
            rw [ht.2] at h5
            have h6 : visitOf nw s0 s.cyc r < g.q := by
              have := (h.hV _ ht.1).1
              rwa [ht.2] at this
            have h7 : r < g.q / nw := by
              rw [← visitOf_lt_iff (nw := nw) (s0 := s0) (w := s.cyc) (by omega), hvq]; exact h6
            have h8 : visitOf nw s0 s.cyc r + nw ≤ g.q := by
              rw [← visitOf_succ]
              have : ¬ visitOf nw s0 s.cyc (g.q / nw) < visitOf nw s0 s.cyc (r + 1) := by
                rw [visitOf_lt_iff (by omega)]; omega
              rw [hvq] at this
              omega
            omega
          · exact absurd (h1.trans h3.symm) hwc
    | false =>
      simp only [hst, Bool.false_eq_true, if_false]
      apply ih _ { g with q := g.q + 1 } (by omega) (h.skip hst) hnf
      · intro w hw hlive
        rcases hwin w hw hlive with h1 | ⟨h1, h2, hpast⟩
        · exact Or.inl h1
        · right
          refine ⟨h1, ?_, hpast⟩
          show g.q + 1 ≤ ρ + nw
          apply Classical.byContradiction
          intro hc
          have he : g.q = ρ + nw := by omega
          have : visitWorker nw s0 g.q = visitWorker nw s0 ρ := by
            unfold visitWorker
            rw [he, ← Nat.add_assoc, Nat.add_mod_right]
          rw [h.hcyc, this, ← h1] at hst
          have hl : s.status w = true := hlive
          rw [hl] at hst
          exact absurd hst (by simp)
      · intro p h1 h2
        show s.status _ = false
        simp only at h1 h2
        by_cases hpq : p = g.q
        · rw [hpq, ← h.hcyc]; exact hst
        · exact hdead p (by omega) (by omega)
      · simp only; omega

/-- Sending a new task after one was used. -/
theorem tryPut_inv {restore : Bool} {s : LoaderIter β} {g : LoaderGhost} (ρ : Nat) (h : LInv nw s0 S s g) (hnf : s.finished = false)
    (hwin : LWinBut nw s0 s g ρ) :
    ∃ g', LInv nw s0 S (tryPut nw restore s) g' ∧ LWin nw s0 (tryPut nw restore s) g' := by
  have : tryPut nw restore s = putCycle nw nw s := by
    unfold tryPut
    rw [h.hpre]
    cases restore <;> rfl
  rw [this]
  apply putCycle_inv ρ nw s g (Nat.le_refl _) h hnf hwin
  · intro p h1 h2; omega
  · omega

/-- A worker answers. -/
theorem workerStep_inv {s : LoaderIter β} {g : LoaderGhost} {w : Nat} (hw : w < nw) (h : LInv nw s0 S s g) (hwin : LWin nw s0 s g) :
    ∃ g', LInv nw s0 S (workerStep s w) g' ∧ LWin nw s0 (workerStep s w) g' := by
  unfold workerStep
  have hq := h.hqueue w hw
  have hdt := h.hd w hw
  split
  · exact ⟨g, h, hwin⟩
  · next idx rest hqe =>
    rw [hq] at hqe
    have hlt : g.d w < g.t w := by
      apply Classical.byContradiction
      intro hc
      rw [show g.t w - g.d w = 0 by omega] at hqe
      simp at hqe
    obtain ⟨k, hk⟩ : ∃ k, g.t w - g.d w = k + 1 := ⟨g.t w - g.d w - 1, by omega⟩
    rw [hk, List.range'_succ, List.map_cons] at hqe
    injection hqe with hidx hrest
    have hcd := h.hc w hw
    have hqueue' : ∀ v, v < nw → upd s.queue w rest v = (List.range' (upd g.d w (g.d w + 1) v) (g.t v - upd g.d w (g.d w + 1) v)).map fun r => g.T (visitOf nw s0 v r) := by
      intro v hv
      by_cases hvw : v = w
      · subst hvw
        rw [upd_same, upd_same, ← hrest]
        congr 2
        omega
      · rw [upd_other _ _ hvw, upd_other _ _ hvw, h.hqueue v hv]
    have hd' : ∀ v, v < nw → upd g.d w (g.d w + 1) v ≤ g.t v := by
      intro v hv
      by_cases hvw : v = w
      · subst hvw; rw [upd_same]; omega
      · rw [upd_other _ _ hvw]; exact h.hd v hv
    have hc' : ∀ v, v < nw → g.c v ≤ upd g.d w (g.d w + 1) v ∧ g.c v ≤ (S v).length + 1 := by
      intro v hv
      have := h.hc v hv
      by_cases hvw : v = w
      · subst hvw; rw [upd_same]; omega
      · rw [upd_other _ _ hvw]; exact this
    have hinbox' : g.d w < (S w).length + 1 → ∀ v, v < nw → (s.inbox ++ [roundMsg nw s0 S g.T w (g.d w)]).filter (fun m => m.worker == v) =
        (List.range' (g.c v) (min (upd g.d w (g.d w + 1) v) ((S v).length + 1) - g.c v)).map (roundMsg nw s0 S g.T v) := by
      intro hle v hv
      have hm : (roundMsg nw s0 S g.T w (g.d w)).worker = w := by unfold roundMsg; split <;> rfl
      rw [List.filter_append, h.hinbox v hv]
      by_cases hvw : v = w
      · subst hvw
        rw [upd_same, List.filter_cons, if_pos (by rw [hm]; simp), List.filter_nil]
        rw [Nat.min_eq_left (by omega), Nat.min_eq_left (by omega), show g.d v + 1 - g.c v = (g.d v - g.c v) + 1 by omega, List.range'_concat, List.map_append]
        congr 1
        simp only [List.map_cons, List.map_nil, Nat.one_mul]
        congr 2
        omega
      · rw [upd_other _ _ hvw, List.filter_cons, if_neg (by rw [hm]; simp; omega), List.filter_nil, List.append_nil]
    have hinw' : ∀ m ∈ s.inbox ++ [roundMsg nw s0 S g.T w (g.d w)], m.worker < nw := by
      intro m hm
      rcases List.mem_append.1 hm with hm | hm
      · exact h.hinw m hm
      · rw [List.mem_singleton.1 hm]
        have : (roundMsg nw s0 S g.T w (g.d w)).worker = w := by unfold roundMsg; split <;> rfl
        rw [this]; exact hw
    split
    · next hend =>
      rw [h.hended w hw] at hend
      have hlen : (S w).length < g.d w := by simpa using hend
      refine ⟨{ g with d := upd g.d w (g.d w + 1) }, { h with hqueue := hqueue', hd := hd', hleft := ?_, hended := ?_, hc := hc', hinbox := ?_ }, hwin⟩
      · intro v hv
        show s.left v = (S v).drop (upd g.d w (g.d w + 1) v)
        rw [h.hleft v hv]
        by_cases hvw : v = w
        · subst hvw
          rw [upd_same, List.drop_eq_nil_of_le (by omega), List.drop_eq_nil_of_le (by omega)]
        · rw [upd_other _ _ hvw]
      · intro v hv
        show s.ended v = decide ((S v).length < upd g.d w (g.d w + 1) v)
        rw [h.hended v hv]
        by_cases hvw : v = w
        · subst hvw
          rw [upd_same]
          simp only [decide_eq_decide]
          omega
        · rw [upd_other _ _ hvw]
      · intro v hv
        show s.inbox.filter (fun m => m.worker == v) = (List.range' (g.c v) (min (upd g.d w (g.d w + 1) v) ((S v).length + 1) - g.c v)).map (roundMsg nw s0 S g.T v)
        rw [h.hinbox v hv]
        by_cases hvw : v = w
        · subst hvw
          rw [upd_same, Nat.min_eq_right (by omega), Nat.min_eq_right (by omega)]
        · rw [upd_other _ _ hvw]
    · next hend =>
      have hlen : g.d w ≤ (S w).length := by
        rw [h.hended w hw] at hend
        simpa using hend
      split
      · next b bs hleft =>
        rw [h.hleft w hw] at hleft
        have hlt : g.d w < (S w).length := by
          apply Classical.byContradiction
          intro hc
          rw [List.drop_eq_nil_of_le (by omega)] at hleft
          exact absurd hleft (by simp)
        rw [List.drop_eq_getElem_cons hlt] at hleft
        injection hleft with hb hbs
        have hmsg : LoaderMsg.data idx w b = roundMsg nw s0 S g.T w (g.d w) := by
          unfold roundMsg
          rw [List.getElem?_eq_getElem hlt, hb, hidx]
        refine ⟨{ g with d := upd g.d w (g.d w + 1) }, { h with hqueue := hqueue', hd := hd', hleft := ?_, hended := ?_, hc := hc', hinbox := ?_, hinw := ?_ }, hwin⟩
        · intro v hv
          show upd s.left w bs v = (S v).drop (upd g.d w (g.d w + 1) v)
          by_cases hvw : v = w
          · subst hvw
            rw [upd_same, upd_same, hbs]
          · rw [upd_other _ _ hvw, upd_other _ _ hvw, h.hleft v hv]
        · intro v hv
          show s.ended v = decide ((S v).length < upd g.d w (g.d w + 1) v)
          rw [h.hended v hv]
          by_cases hvw : v = w
          · subst hvw
            rw [upd_same]
            simp only [decide_eq_decide]
            omega
          · rw [upd_other _ _ hvw]
        · rw [hmsg]; exact hinbox' (by omega)
        · rw [hmsg]; exact hinw'
      · next hleft =>
        rw [h.hleft w hw] at hleft
        have heq : g.d w = (S w).length := by
          have := List.drop_eq_nil_iff.1 hleft
          omega
        have hmsg : LoaderMsg.stop idx w = roundMsg nw s0 S g.T w (g.d w) := by
          unfold roundMsg
          rw [List.getElem?_eq_none (by omega), hidx]
        refine ⟨{ g with d := upd g.d w (g.d w + 1) }, { h with hqueue := hqueue', hd := hd', hleft := ?_, hended := ?_, hc := hc', hinbox := ?_, hinw := ?_ }, hwin⟩
        · intro v hv
          show s.left v = (S v).drop (upd g.d w (g.d w + 1) v)
          rw [h.hleft v hv]
          by_cases hvw : v = w
          · subst hvw
            rw [upd_same, List.drop_eq_nil_of_le (by omega), List.drop_eq_nil_of_le (by omega)]
          · rw [upd_other _ _ hvw]
        · intro v hv
          show upd s.ended w true v = decide ((S v).length < upd g.d w (g.d w + 1) v)
          by_cases hvw : v = w
          · subst hvw
            rw [upd_same, upd_same]
            simp only [true_eq_decide_iff]
            omega
          · rw [upd_other _ _ hvw, upd_other _ _ hvw, h.hended v hv]
        · rw [hmsg]; exact hinbox' (by omega)
        · rw [hmsg]; exact hinw'

/-- Tasks of inactive workers without data are passed over. -/
theorem skipTasks_inv : ∀ (fuel : Nat) (s : LoaderIter β) (g : LoaderGhost), fuel = s.send - s.rcvd → LInv nw s0 S s g → LWin nw s0 s g → s.finished = false →
    LInv nw s0 S (skipTasks fuel s) g ∧ LWin nw s0 (skipTasks fuel s) g ∧ (skipTasks fuel s).finished = false ∧
      (skipTasks fuel s).inbox = s.inbox ∧ (skipTasks fuel s).queue = s.queue ∧
      ((skipTasks fuel s).rcvd = (skipTasks fuel s).send ∨ ∃ w d, (skipTasks fuel s).info (skipTasks fuel s).rcvd = some (w, d) ∧
        (d.isSome = true ∨ (skipTasks fuel s).status w = true) ∧ (skipTasks fuel s).rcvd < (skipTasks fuel s).send) := by
  intro fuel
  induction fuel with
  | zero =>
    intro s g hf h hwin hnf
    have := h.hrs
    exact ⟨h, hwin, hnf, rfl, rfl, Or.inl (by show s.rcvd = s.send; omega)⟩
  | succ fuel ih =>
    intro s g hf h hwin hnf
    have hs0 := h.hs0
    have hlt : s.rcvd < s.send := by omega
    have hinfo := h.hinfo s.rcvd (Nat.le_refl _) hlt
    unfold skipTasks
    rw [hinfo]
    simp only
    by_cases hc : (Option.isSome (if g.V s.rcvd / nw < g.c (visitWorker nw s0 (g.V s.rcvd)) then visitBatch nw s0 S (g.V s.rcvd) else none) || s.status (visitWorker nw s0 (g.V s.rcvd))) = true
    · rw [if_pos hc]
      refine ⟨h, hwin, hnf, rfl, rfl, Or.inr ⟨_, _, hinfo, ?_, hlt⟩⟩
      rwa [Bool.or_eq_true] at hc
    · rw [if_neg hc]
      rw [Bool.or_eq_true, not_or] at hc
      obtain ⟨hnone, hst⟩ := hc
      have hst : s.status (visitWorker nw s0 (g.V s.rcvd)) = false := by simpa using hst
      have hw := visitWorker_lt (p := g.V s.rcvd) hs0
      have hbatch : visitBatch nw s0 S (g.V s.rcvd) = none := by
        have h1 := h.hstatus _ hw
        rw [hst] at h1
        have h2 : ¬ g.c (visitWorker nw s0 (g.V s.rcvd)) ≤ (S (visitWorker nw s0 (g.V s.rcvd))).length := by simpa using h1.symm
        split at hnone
        · simpa using hnone
        · unfold visitBatch
          exact List.getElem?_eq_none (by omega)
      apply ih _ g (by simp only; omega)
      · refine { h with hinfo := ?_, hdone := ?_, hrs := hlt, hout := ?_, hfin := ?_ }
        · intro i h1 h2
          simp only at h1 h2 ⊢
          rw [upd_other _ _ (by omega)]
          exact h.hinfo i (by omega) h2
        · intro i hi
          simp only at hi ⊢
          by_cases he : i = s.rcvd
          · subst he; exact Or.inr hst
          · exact h.hdone i (by omega)
        · show s.out = _
          rw [h.hout, List.range_succ, List.filterMap_append]
          simp [hbatch]
        · intro hf'
          have : s.finished = true := hf'
          rw [hnf] at this
          exact absurd this (by simp)
      · intro w hw' hlive
        obtain ⟨r, h1, h2⟩ := hwin w hw' hlive
        refine ⟨r, h1, ?_⟩
        show s.rcvd + 1 ≤ _
        have : g.T (visitOf nw s0 w r) ≠ s.rcvd := by
          intro he
          have := (h.hT w hw' r h1).2
          rw [he] at this
          rw [this, visitWorker_visitOf hs0 hw'] at hst
          have hl : s.status w = true := hlive
          rw [hl] at hst
          exact absurd hst (by simp)
        omega
      · exact hnf

/-- Returning the batch of the first task. -/
theorem deliver_inv {restore : Bool} {s : LoaderIter β} {g : LoaderGhost} (h : LInv nw s0 S s g) (hwin : LWin nw s0 s g) (hnf : s.finished = false)
    (hlt : s.rcvd < s.send) (b : β) (hb : visitBatch nw s0 S (g.V s.rcvd) = some b) (hc : g.V s.rcvd / nw < g.c (visitWorker nw s0 (g.V s.rcvd))) :
    ∃ g', LInv nw s0 S (deliver nw restore s b) g' ∧ LWin nw s0 (deliver nw restore s b) g' := by
  have hs0 := h.hs0
  unfold deliver
  apply tryPut_inv (g := g) (g.V s.rcvd)
  · refine { h with hinfo := ?_, hdone := ?_, hrs := hlt, hout := ?_, hfin := ?_ }
    · intro i h1 h2
      simp only at h1 h2 ⊢
      rw [upd_other _ _ (by omega)]
      exact h.hinfo i (by omega) h2
    · intro i hi
      simp only at hi ⊢
      by_cases he : i = s.rcvd
      · subst he; exact Or.inl hc
      · exact h.hdone i (by omega)
    · show s.out ++ [b] = _
      rw [h.hout, List.range_succ, List.filterMap_append]
      simp [hb]
    · intro hf'
      have : s.finished = true := hf'
      rw [hnf] at this
      exact absurd this (by simp)
  · exact hnf
  · intro w hw hlive
    have hlive' : s.status w = true := hlive
    obtain ⟨r, h1, h2⟩ := hwin w hw hlive
    by_cases he : g.T (visitOf nw s0 w r) = s.rcvd
    · have hV := (h.hT w hw r h1).2
      rw [he] at hV
      by_cases hq : g.q ≤ g.V s.rcvd + nw
      · right
        refine ⟨by rw [hV, visitWorker_visitOf hs0 hw], hq, ?_⟩
        intro i h3 h4
        exact h.hmono s.rcvd i h3 h4
      · left
        have hv := visitOf_succ nw s0 w r
        have h3 : r + 1 < g.t w := by
          rcases h.hlive w hw (r + 1) (by omega) with h3 | h3
          · exact h3
          · rw [hlive'] at h3; exact absurd h3 (by simp)
        refine ⟨r + 1, h3, ?_⟩
        obtain ⟨h4, h5⟩ := h.hT w hw (r + 1) h3
        show s.rcvd + 1 ≤ g.T (visitOf nw s0 w (r + 1))
        apply Classical.byContradiction
        intro hcon
        by_cases heq : g.T (visitOf nw s0 w (r + 1)) = s.rcvd
        · rw [heq] at h5; omega
        · have := h.hmono _ s.rcvd (show g.T (visitOf nw s0 w (r + 1)) < s.rcvd by omega) hlt
          omega
    · left
      exact ⟨r, h1, by show s.rcvd + 1 ≤ _; omega⟩

/-- The first message of the inbox. -/
theorem inbox_head {s : LoaderIter β} {g : LoaderGhost} (h : LInv nw s0 S s g) (m : LoaderMsg β) (rest : List (LoaderMsg β)) (hin : s.inbox = m :: rest) :
    m.worker < nw ∧ g.c m.worker < g.d m.worker ∧ g.c m.worker ≤ (S m.worker).length ∧ m = roundMsg nw s0 S g.T m.worker (g.c m.worker) ∧
    ∀ v, v < nw → rest.filter (fun x => x.worker == v) =
      (List.range' (upd g.c m.worker (g.c m.worker + 1) v) (min (g.d v) ((S v).length + 1) - upd g.c m.worker (g.c m.worker + 1) v)).map (roundMsg nw s0 S g.T v) := by
  have hw : m.worker < nw := h.hinw m (by rw [hin]; simp)
  have h1 := h.hinbox m.worker hw
  rw [hin, List.filter_cons, if_pos (by simp)] at h1
  have hlt : g.c m.worker < min (g.d m.worker) ((S m.worker).length + 1) := by
    apply Classical.byContradiction
    intro hc
    rw [show min (g.d m.worker) ((S m.worker).length + 1) - g.c m.worker = 0 by omega] at h1
    simp at h1
  obtain ⟨k, hk⟩ : ∃ k, min (g.d m.worker) ((S m.worker).length + 1) - g.c m.worker = k + 1 :=
    ⟨min (g.d m.worker) ((S m.worker).length + 1) - g.c m.worker - 1, by omega⟩
  rw [hk, List.range'_succ, List.map_cons] at h1
  injection h1 with h2 h3
  refine ⟨hw, by omega, by omega, h2, ?_⟩
  intro v hv
  by_cases hvw : v = m.worker
  · subst hvw
    rw [upd_same, h3]
    congr 2
    omega
  · rw [upd_other _ _ hvw, ← h.hinbox v hv, hin, List.filter_cons, if_neg (by simp; omega)]

/-- A batch arrives. -/
theorem arrive_inv {s : LoaderIter β} {g : LoaderGhost} (h : LInv nw s0 S s g) (hwin : LWin nw s0 s g) (idx w : Nat) (b : β) (rest : List (LoaderMsg β))
    (hin : s.inbox = .data idx w b :: rest) :
    ∃ g', LInv nw s0 S { s with inbox := rest, info := upd s.info idx ((s.info idx).map fun x => (x.1, some b)) } g' ∧
      LWin nw s0 { s with inbox := rest, info := upd s.info idx ((s.info idx).map fun x => (x.1, some b)) } g' ∧
      s.rcvd ≤ idx ∧ idx < s.send ∧ visitBatch nw s0 S (g'.V idx) = some b ∧ g'.V idx / nw < g'.c (visitWorker nw s0 (g'.V idx)) := by
  have hs0 := h.hs0
  obtain ⟨hw, hcd, hcl, hm, hrest⟩ := inbox_head h _ _ hin
  simp only [LoaderMsg.worker] at hw hcd hcl hm hrest
  -- the message is the batch of round `c w`
  have hget : (S w)[g.c w]? = some b ∧ idx = g.T (visitOf nw s0 w (g.c w)) := by
    unfold roundMsg at hm
    split at hm
    · next b' hb' =>
      injection hm with e1 _ e2
      exact ⟨by rw [hb', e2], e1⟩
    · exact absurd hm (by simp)
  obtain ⟨hget, hidx⟩ := hget
  have hlt : g.c w < (S w).length := (List.getElem?_eq_some_iff.1 hget).1
  have hdt := h.hd w hw
  obtain ⟨hsend, hV⟩ := h.hT w hw (g.c w) (by omega)
  rw [← hidx] at hsend hV
  have hVw : visitWorker nw s0 (g.V idx) = w := by rw [hV, visitWorker_visitOf hs0 hw]
  have hVr : g.V idx / nw = g.c w := by rw [hV, visitOf_div hs0 hw]
  have hlive : s.status w = true := by rw [h.hstatus w hw]; simpa using hcl
  have hge : s.rcvd ≤ idx := by
    apply Classical.byContradiction
    intro hc
    rcases h.hdone idx (by omega) with h1 | h1
    · rw [hVw, hVr] at h1; omega
    · rw [hVw, hlive] at h1; exact absurd h1 (by simp)
  have hcmono : ∀ v, g.c v ≤ upd g.c w (g.c w + 1) v := by
    intro v; unfold upd; split
    · next hh => subst hh; omega
    · exact Nat.le_refl _
  have hb : visitBatch nw s0 S (g.V idx) = some b := by unfold visitBatch; rw [hVw, hVr, hget]
  refine ⟨{ g with c := upd g.c w (g.c w + 1) }, { h with hc := ?_, hinbox := hrest, hinw := ?_, hstatus := ?_, hinfo := ?_, hdone := ?_ }, hwin, hge, hsend, hb, ?_⟩
  · intro v hv
    have := h.hc v hv
    simp only
    by_cases hvw : v = w
    · subst hvw; rw [upd_same]; omega
    · rw [upd_other _ _ hvw]; exact this
  · intro m hm'
    exact h.hinw m (by rw [hin]; simp [hm'])
  · intro v hv
    show s.status v = decide (upd g.c w (g.c w + 1) v ≤ (S v).length)
    rw [h.hstatus v hv]
    by_cases hvw : v = w
    · subst hvw
      rw [upd_same]
      simp only [decide_eq_decide]
      omega
    · rw [upd_other _ _ hvw]
  · intro i h1 h2
    simp only at h1 h2 ⊢
    by_cases he : i = idx
    · subst he
      rw [upd_same, h.hinfo i h1 h2, hVw, upd_same, hb, hVr]
      simp
    · rw [upd_other _ _ he, h.hinfo i h1 h2]
      congr 2
      have hne : ¬ (visitWorker nw s0 (g.V i) = w ∧ g.V i / nw = g.c w) := by
        rintro ⟨e1, e2⟩
        apply he
        have := (h.hV i h2).2.1
        rw [← this, ← visitOf_visitWorker (p := g.V i) hs0, e1, e2, hidx]
      by_cases hvw : visitWorker nw s0 (g.V i) = w
      · rw [hvw, upd_same]
        have : g.V i / nw ≠ g.c w := fun e => hne ⟨hvw, e⟩
        by_cases hl : g.V i / nw < g.c w
        · rw [if_pos hl, if_pos (by omega)]
        · rw [if_neg hl, if_neg (by omega)]
      · rw [upd_other _ _ hvw]
  · intro i hi
    rcases h.hdone i hi with h1 | h1
    · left
      have := hcmono (visitWorker nw s0 (g.V i))
      simp only
      omega
    · exact Or.inr h1
  · simp only
    rw [hVw, upd_same, hVr]
    omega

/-- The end of a worker arrives. -/
theorem stop_inv {restore : Bool} {s : LoaderIter β} {g : LoaderGhost} (h : LInv nw s0 S s g) (hwin : LWin nw s0 s g) (hnf : s.finished = false) (idx w : Nat)
    (rest : List (LoaderMsg β)) (hin : s.inbox = .stop idx w :: rest) :
    ∃ g', LInv nw s0 S (tryPut nw restore { s with inbox := rest, status := upd s.status w false }) g' ∧
      LWin nw s0 (tryPut nw restore { s with inbox := rest, status := upd s.status w false }) g' := by
  have hs0 := h.hs0
  obtain ⟨hw, hcd, hcl, hm, hrest⟩ := inbox_head h _ _ hin
  simp only [LoaderMsg.worker] at hw hcd hcl hm hrest
  have hget : (S w)[g.c w]? = none := by
    unfold roundMsg at hm
    split at hm
    · exact absurd hm (by simp)
    · next hn => exact hn
  have hlen : (S w).length = g.c w := by
    have := List.getElem?_eq_none_iff.1 hget
    omega
  apply tryPut_inv (g := { g with c := upd g.c w (g.c w + 1) }) 0
  · refine { h with hlive := ?_, hc := ?_, hinbox := hrest, hinw := ?_, hstatus := ?_, hinfo := ?_, hdone := ?_, hfin := ?_ }
    · intro v hv r hr
      rcases h.hlive v hv r hr with h1 | h1
      · exact Or.inl h1
      · right
        simp only
        unfold upd
        split
        · rfl
        · exact h1
    · intro v hv
      have := h.hc v hv
      simp only
      by_cases hvw : v = w
      · subst hvw; rw [upd_same]; omega
      · rw [upd_other _ _ hvw]; exact this
    · intro m hm'
      exact h.hinw m (by rw [hin]; simp [hm'])
    · intro v hv
      show upd s.status w false v = decide (upd g.c w (g.c w + 1) v ≤ (S v).length)
      by_cases hvw : v = w
      · subst hvw
        rw [upd_same, upd_same]
        symm
        simp only [decide_eq_false_iff_not]
        omega
      · rw [upd_other _ _ hvw, upd_other _ _ hvw]
        exact h.hstatus v hv
    · intro i h1 h2
      simp only at h1 h2 ⊢
      rw [h.hinfo i h1 h2]
      congr 2
      by_cases hvw : visitWorker nw s0 (g.V i) = w
      · rw [hvw, upd_same]
        by_cases hl : g.V i / nw < g.c w
        · rw [if_pos hl, if_pos (by omega)]
        · rw [if_neg hl]
          split
          · unfold visitBatch
            rw [hvw, List.getElem?_eq_none (by omega)]
          · rfl
      · rw [upd_other _ _ hvw]
    · intro i hi
      rcases h.hdone i hi with h1 | h1
      · left
        simp only
        unfold upd
        split
        · next hh => rw [hh] at h1; omega
        · exact h1
      · right
        simp only
        unfold upd
        split
        · rfl
        · exact h1
    · intro hf'
      have : s.finished = true := hf'
      rw [hnf] at this
      exact absurd this (by simp)
  · exact hnf
  · intro v hv hlive
    left
    have : s.status v = true := by
      simp only [upd] at hlive
      split at hlive
      · exact absurd hlive (by simp)
      · exact hlive
    exact hwin v hv this

/-- A turn of the main process. -/
theorem mainStep_inv {restore : Bool} {s : LoaderIter β} {g : LoaderGhost} (h : LInv nw s0 S s g) (hwin : LWin nw s0 s g) :
    ∃ g', LInv nw s0 S (mainStep nw restore s) g' ∧ LWin nw s0 (mainStep nw restore s) g' := by
  unfold mainStep
  split
  · exact ⟨g, h, hwin⟩
  · next hf =>
    have hnf : s.finished = false := by simpa using hf
    obtain ⟨h1, h2, h3, _, _, h4⟩ := skipTasks_inv _ s g rfl h hwin hnf
    generalize skipTasks (s.send - s.rcvd) s = s1 at h1 h2 h3 h4
    simp only
    have hs0 := h.hs0
    by_cases hlt : s1.rcvd < s1.send
    · rw [if_pos hlt]
      have hinfo := h1.hinfo s1.rcvd (Nat.le_refl _) hlt
      split
      · next w b hb =>
        rw [hinfo] at hb
        injection hb with hb
        injection hb with _ hb
        split at hb
        · next hc => exact deliver_inv h1 h2 h3 hlt b hb hc
        · exact absurd hb (by simp)
      · split
        · exact ⟨g, h1, h2⟩
        · next idx w rest hin => exact stop_inv h1 h2 h3 idx w rest hin
        · next idx w b rest hin =>
          obtain ⟨g', a1, a2, a3, a4, a5, a6⟩ := arrive_inv h1 h2 idx w b rest hin
          split
          · next he =>
            subst he
            obtain ⟨g'', b1, b2⟩ := deliver_inv (restore := restore) a1 a2 h3 hlt b a5 a6
            have heq : deliver nw restore { s1 with inbox := rest, info := upd s1.info s1.rcvd ((s1.info s1.rcvd).map fun x => (x.1, some b)) } b =
                deliver nw restore { s1 with inbox := rest } b := by
              unfold deliver
              congr 2
              funext j
              unfold upd
              split
              · rfl
              · next hj => exact if_neg hj
            rw [heq] at b1 b2
            exact ⟨g'', b1, b2⟩
          · exact ⟨g', a1, a2⟩
    · rw [if_neg hlt]
      have heq : s1.rcvd = s1.send := by have := h1.hrs; omega
      refine ⟨g, { h1 with hfin := ?_ }, h2⟩
      intro _
      refine ⟨heq, ?_⟩
      intro w hw
      cases hst : s1.status w with
      | false => rfl
      | true =>
        obtain ⟨r, e1, e2⟩ := h2 w hw hst
        have := (h1.hT w hw r e1).1
        omega

/-- A state with nothing sent, all workers active. -/
def loaderEmpty (cyc : Nat) (S : Nat → List β) : LoaderIter β :=
  { pre := [], cyc := cyc, send := 0, rcvd := 0, info := fun _ => none, status := fun _ => true,
    queue := fun _ => [], left := S, ended := fun _ => false, inbox := [], out := [], finished := false }

/-- Nothing happened but sending tasks, `q` of them. -/
structure LStarted (nw s0 : Nat) (S : Nat → List β) (s : LoaderIter β) (q : Nat) : Prop where
  inv : ∃ g, LInv nw s0 S s g ∧ g.q = q
  alive : ∀ w, s.status w = true
  rcvd : s.rcvd = 0
  unfinished : s.finished = false

theorem LStarted.empty (hs0 : s0 < nw) : LStarted nw s0 S (loaderEmpty s0 S) 0 := by
  refine ⟨⟨⟨fun _ => 0, fun _ => 0, fun _ => 0, fun _ => 0, fun _ => 0, 0⟩, ?_, rfl⟩, fun _ => rfl, rfl, rfl⟩
  constructor <;> simp [loaderEmpty, visitWorker, Nat.mod_eq_of_lt, hs0]

theorem LStarted.put {restore : Bool} {s : LoaderIter β} {q : Nat} (h : LStarted nw s0 S s q) : LStarted nw s0 S (tryPut nw restore s) (q + 1) := by
  obtain ⟨⟨g, hi, hq⟩, ha, hr, hf⟩ := h
  have hs0 := hi.hs0
  have : tryPut nw restore s = putTask { s with cyc := (s.cyc + 1) % nw } s.cyc := by
    have h1 : tryPut nw restore s = putCycle nw nw s := by
      unfold tryPut
      rw [hi.hpre]
      cases restore <;> rfl
    obtain ⟨k, rfl⟩ : ∃ k, nw = k + 1 := ⟨nw - 1, by omega⟩
    rw [h1]
    conv => lhs; unfold putCycle
    simp only [ha, if_true]
  rw [this]
  exact ⟨⟨_, hi.put (ha _) hf, by simp only; omega⟩, ha, hr, hf⟩

theorem LStarted.times {restore : Bool} (n : Nat) {s : LoaderIter β} {q : Nat} (h : LStarted nw s0 S s q) :
    LStarted nw s0 S (times (tryPut nw restore) n s) (q + n) := by
  induction n generalizing s q with
  | zero => exact h
  | succ n ih =>
    have := ih (h.put (restore := restore))
    rw [show q + (n + 1) = q + 1 + n by omega]
    exact this

/-- Read the list `_indexes` as a position in the cycle. -/
def normStart (s : LoaderIter β) : LoaderIter β :=
  match s.pre with
  | [] => s
  | w :: _ => { s with pre := [], cyc := w }

theorem times_norm (hnw : 0 < nw) : ∀ (n w : Nat) (s : LoaderIter β), w ≤ nw → s.pre = List.range' w (nw - w) → s.cyc = 0 → (∀ v, s.status v = true) → nw - w ≤ n →
    times (tryPut nw true) n s = times (tryPut nw true) n (normStart s) := by
  intro n
  induction n with
  | zero =>
    intro w s hw hpre _ _ hn
    rw [show nw - w = 0 by omega, List.range'_zero] at hpre
    unfold normStart
    rw [hpre]
  | succ n ih =>
    intro w s hw hpre hcyc hst hn
    by_cases hwn : w = nw
    · rw [hwn, Nat.sub_self, List.range'_zero] at hpre
      unfold normStart
      rw [hpre]
    · obtain ⟨k, hk⟩ : ∃ k, nw - w = k + 1 := ⟨nw - w - 1, by omega⟩
      rw [hk, List.range'_succ] at hpre
      have h1 : tryPut nw true s = putTask { s with pre := List.range' (w + 1) k } w := by
        unfold tryPut
        rw [hpre]
      have h2 : tryPut nw true (normStart s) = normStart (tryPut nw true s) := by
        have e1 : normStart s = { s with pre := [], cyc := w } := by unfold normStart; rw [hpre]
        rw [e1, h1]
        obtain ⟨m, rfl⟩ : ∃ m, nw = m + 1 := ⟨nw - 1, by omega⟩
        unfold tryPut
        simp only
        conv => lhs; unfold putCycle
        simp only [hst, if_true]
        unfold normStart putTask
        simp only
        split
        · next hnil =>
          have : k = 0 := by
            have := congrArg List.length hnil
            simpa using this
          subst this
          have hwe : w = m := by omega
          subst hwe
          rw [Nat.mod_self, hnil, hcyc]
        · next v l hcons =>
          obtain ⟨k', rfl⟩ : ∃ k', k = k' + 1 := by
            cases k with
            | zero => simp at hcons
            | succ k' => exact ⟨k', rfl⟩
          rw [List.range'_succ] at hcons
          injection hcons with hv _
          subst hv
          rw [Nat.mod_eq_of_lt (by omega)]
      unfold times
      rw [h2]
      apply ih (w + 1)
      · omega
      · rw [h1]
        show List.range' (w + 1) k = _
        congr 1
        omega
      · rw [h1]; exact hcyc
      · rw [h1]; exact hst
      · omega

/-- The state after `__init__`. -/
theorem loaderStart_inv (hnw : 0 < nw) (prefetch latest : Nat) (hp : 0 < prefetch) (restore : Bool) (hl : latest ≤ nw) (hr : restore = false → latest = 0) (S : Nat → List β) :
    ∃ g, LInv nw (latest % nw) S (loaderStart nw prefetch latest restore S) g ∧ LWin nw (latest % nw) (loaderStart nw prefetch latest restore S) g := by
  have hs0 : latest % nw < nw := Nat.mod_lt _ hnw
  have hpn : nw ≤ prefetch * nw := Nat.le_mul_of_pos_left _ hp
  have hstart : loaderStart nw prefetch latest restore S = times (tryPut nw restore) (prefetch * nw) (loaderEmpty (latest % nw) S) := by
    unfold loaderStart
    by_cases h0 : latest = 0
    · subst h0
      simp [restartIndexes, loaderEmpty]
    · have hre : restore = true := by
        cases restore with
        | true => rfl
        | false => exact absurd (hr rfl) h0
      subst hre
      rw [times_norm hnw (prefetch * nw) latest _ hl]
      · congr 1
        unfold normStart restartIndexes
        simp only [if_pos (show latest > 0 by omega)]
        by_cases hln : latest = nw
        · subst hln
          simp [loaderEmpty]
        · obtain ⟨k, hk⟩ : ∃ k, nw - latest = k + 1 := ⟨nw - latest - 1, by omega⟩
          rw [hk, List.range'_succ]
          simp only [loaderEmpty, Nat.mod_eq_of_lt (show latest < nw by omega)]
      · unfold restartIndexes
        simp only [if_pos (show latest > 0 by omega)]
      · rfl
      · intro v; rfl
      · omega
  rw [hstart]
  obtain ⟨⟨g, hi, hq⟩, ha, hrc, _⟩ := LStarted.times (restore := restore) (prefetch * nw) (LStarted.empty (S := S) hs0)
  refine ⟨g, hi, ?_⟩
  intro w hw hlive
  refine ⟨0, ?_, by rw [hrc]; exact Nat.zero_le _⟩
  have hsl := slot_lt hs0 hw
  rcases hi.hlive w hw 0 (by unfold visitOf; omega) with h1 | h1
  · exact h1
  · rw [hlive] at h1; exact absurd h1 (by simp)

theorem loaderStep_inv {restore : Bool} {s : LoaderIter β} (e : LoaderEvent) (h : ∃ g, LInv nw s0 S s g ∧ LWin nw s0 s g) :
    ∃ g, LInv nw s0 S (loaderStep nw restore s e) g ∧ LWin nw s0 (loaderStep nw restore s e) g := by
  obtain ⟨g, h1, h2⟩ := h
  cases e with
  | main => exact mainStep_inv h1 h2
  | work w =>
    show ∃ g, LInv nw s0 S (if w < nw then workerStep s w else s) g ∧ LWin nw s0 (if w < nw then workerStep s w else s) g
    split
    · next hw => exact workerStep_inv hw h1 h2
    · exact ⟨g, h1, h2⟩

theorem loaderRun_inv {restore : Bool} (es : List LoaderEvent) {s : LoaderIter β} (h : ∃ g, LInv nw s0 S s g ∧ LWin nw s0 s g) :
    ∃ g, LInv nw s0 S (loaderRun nw restore s es) g ∧ LWin nw s0 (loaderRun nw restore s es) g := by
  unfold loaderRun
  induction es generalizing s with
  | nil => exact h
  | cons e es ih =>
    rw [List.foldl_cons]
    exact ih (loaderStep_inv e h)

/-- An increasing enumeration that leaves out only values mapped to nothing. -/
theorem filterMap_enum {γ : Type} (f : Nat → Option γ) (V : Nat → Nat) : ∀ (m n : Nat), (∀ i j, i < j → j < n → V i < V j) → (∀ i, i < n → V i < m) →
    (∀ p, p < m → (∀ i, i < n → V i ≠ p) → f p = none) → (List.range n).filterMap (fun i => f (V i)) = (List.range m).filterMap f := by
  intro m
  induction m with
  | zero =>
    intro n _ h _
    cases n with
    | zero => rfl
    | succ n => exact absurd (h 0 (by omega)) (by omega)
  | succ m ih =>
    intro n hmono hlt hmiss
    rw [List.range_succ, List.filterMap_append]
    by_cases hm : ∃ i, i < n ∧ V i = m
    · obtain ⟨i, hi, hv⟩ := hm
      have hin : i = n - 1 := by
        apply Classical.byContradiction
        intro hne
        have h1 := hmono i (n - 1) (by omega) (by omega)
        have h2 := hlt (n - 1) (by omega)
        omega
      obtain ⟨k, rfl⟩ : ∃ k, n = k + 1 := ⟨n - 1, by omega⟩
      have : i = k := by omega
      subst this
      rw [List.range_succ, List.filterMap_append, ih i]
      · simp [List.filterMap_cons, hv]
      · intro a b hab hb; exact hmono a b hab (by omega)
      · intro a ha
        have := hmono a i ha (by omega)
        omega
      · intro p hp hne
        apply hmiss p (by omega)
        intro a ha
        by_cases hai : a = i
        · subst hai; omega
        · exact hne a (by omega)
    · have hnone : f m = none := hmiss m (by omega) fun i hi he => hm ⟨i, hi, he⟩
      rw [ih n hmono]
      · simp [hnone]
      · intro i hi
        have := hlt i hi
        have : V i ≠ m := fun he => hm ⟨i, hi, he⟩
        omega
      · intro p hp hne
        exact hmiss p (by omega) hne

/-- What a state has delivered. -/
theorem LInv.delivered {s : LoaderIter β} {g : LoaderGhost} (h : LInv nw s0 S s g) :
    ∃ m, s.out = (List.range m).filterMap (visitBatch nw s0 S) ∧ (s.finished = true → ∀ p, m ≤ p → visitBatch nw s0 S p = none) := by
  have hs0 := h.hs0
  -- visits without a task bring nothing
  have hdead : ∀ w, w < nw → s.status w = false → ∀ r, g.t w ≤ r → (S w)[r]? = none := by
    intro w hw hst r hr
    have h1 := h.hstatus w hw
    rw [hst] at h1
    have h2 : ¬ g.c w ≤ (S w).length := by simpa using h1.symm
    have := h.hc w hw
    have := h.hd w hw
    exact List.getElem?_eq_none (by omega)
  have hmiss : ∀ p, p < g.q → (∀ i, i < s.send → g.V i ≠ p) → visitBatch nw s0 S p = none := by
    intro p hp hne
    have hw := visitWorker_lt (p := p) hs0
    have hvp := visitOf_visitWorker (p := p) hs0
    by_cases hr : p / nw < g.t (visitWorker nw s0 p)
    · obtain ⟨a, b⟩ := h.hT _ hw _ hr
      rw [hvp] at a b
      exact absurd b (hne _ a)
    · rcases h.hlive _ hw (p / nw) (by rw [hvp]; exact hp) with h1 | h1
      · exact absurd h1 hr
      · exact hdead _ hw h1 _ (by omega)
  by_cases hlt : s.rcvd < s.send
  · refine ⟨g.V s.rcvd, ?_, ?_⟩
    · rw [h.hout]
      apply filterMap_enum
      · intro i j hij hj; exact h.hmono i j hij (by omega)
      · intro i hi; exact h.hmono i _ hi hlt
      · intro p hp hne
        apply hmiss p (Nat.lt_trans hp (h.hV _ hlt).1)
        intro i hi he
        by_cases hir : i < s.rcvd
        · exact hne i hir he
        · by_cases hie : i = s.rcvd
          · subst hie; omega
          · have := h.hmono s.rcvd i (by omega) hi
            omega
    · intro hf
      have := (h.hfin hf).1
      omega
  · have heq : s.rcvd = s.send := by have := h.hrs; omega
    refine ⟨g.q, ?_, ?_⟩
    · rw [h.hout, heq]
      apply filterMap_enum
      · intro i j hij hj; exact h.hmono i j hij hj
      · intro i hi; exact (h.hV i hi).1
      · exact hmiss
    · intro hf p hp
      have hw := visitWorker_lt (p := p) hs0
      have hvp := visitOf_visitWorker (p := p) hs0
      exact hdead _ hw ((h.hfin hf).2 _ hw) _ (h.hnext _ hw _ (by rw [hvp]; exact hp))

theorem sum_upd (n : Nat) (f : Nat → Nat) (w a : Nat) (hw : w < n) :
    ((List.range n).map (upd f w a)).sum + f w = ((List.range n).map f).sum + a := by
  induction n with
  | zero => omega
  | succ n ih =>
    rw [List.range_succ, List.map_append, List.map_append, List.sum_append, List.sum_append]
    simp only [List.map_cons, List.map_nil, List.sum_cons, List.sum_nil, Nat.add_zero]
    by_cases he : w = n
    · subst he
      rw [upd_same]
      have : (List.range w).map (upd f w a) = (List.range w).map f := by
        apply List.map_congr_left
        intro i hi
        have := List.mem_range.1 hi
        exact upd_other _ _ (by omega)
      rw [this]
      omega
    · have := ih (by omega)
      rw [upd_other _ _ (show n ≠ w by omega)]
      omega

/-- Number of tasks not taken yet. -/
def pendingTasks (nw : Nat) (s : LoaderIter β) : Nat := ((List.range nw).map fun w => (s.queue w).length).sum

/-- Number of workers known to have ended. -/
def endedWorkers (nw : Nat) (s : LoaderIter β) : Nat := ((List.range nw).map fun w => if s.status w then 0 else 1).sum

/-- A number that decreases with every event that does something. -/
def loaderRank (nw N : Nat) (s : LoaderIter β) : Nat :=
  4 * (N + nw - s.out.length - endedWorkers nw s) + 2 * pendingTasks nw s + s.inbox.length + (if s.finished then 0 else 1)

theorem endedWorkers_le (nw : Nat) (s : LoaderIter β) : endedWorkers nw s ≤ nw := by
  unfold endedWorkers
  induction nw with
  | zero => simp
  | succ n ih =>
    rw [List.range_succ, List.map_append, List.sum_append]
    simp only [List.map_cons, List.map_nil, List.sum_cons, List.sum_nil]
    split <;> omega

theorem pendingTasks_upd (s s' : LoaderIter β) (w : Nat) (l : List Nat) (hw : w < nw) (h : s'.queue = upd s.queue w l) :
    pendingTasks nw s' + (s.queue w).length = pendingTasks nw s + l.length := by
  have := sum_upd nw (fun v => (s.queue v).length) w l.length hw
  unfold pendingTasks
  rw [← this, h]
  congr 3
  funext v
  unfold upd
  split <;> rfl

/-- Sending a task changes neither the answers nor what was delivered, and adds at most one task. -/
theorem putCycle_rank (hnw : 0 < nw) : ∀ (fuel : Nat) (s : LoaderIter β), s.cyc < nw →
    (putCycle nw fuel s).out = s.out ∧ (putCycle nw fuel s).inbox = s.inbox ∧ (putCycle nw fuel s).finished = s.finished ∧
    (putCycle nw fuel s).status = s.status ∧ pendingTasks nw (putCycle nw fuel s) ≤ pendingTasks nw s + 1 := by
  intro fuel
  induction fuel with
  | zero => intro s _; exact ⟨rfl, rfl, rfl, rfl, by unfold putCycle; omega⟩
  | succ fuel ih =>
    intro s hc
    unfold putCycle
    simp only
    split
    · refine ⟨rfl, rfl, rfl, rfl, ?_⟩
      have := pendingTasks_upd s (putTask { s with cyc := (s.cyc + 1) % nw } s.cyc) s.cyc (s.queue s.cyc ++ [s.send]) hc rfl
      rw [List.length_append, List.length_singleton] at this
      omega
    · have := ih { s with cyc := (s.cyc + 1) % nw } (Nat.mod_lt _ hnw)
      exact this

theorem tryPut_rank {restore : Bool} {s : LoaderIter β} (hnw : 0 < nw) (hc : s.cyc < nw) (hp : s.pre = []) :
    (tryPut nw restore s).out = s.out ∧ (tryPut nw restore s).inbox = s.inbox ∧ (tryPut nw restore s).finished = s.finished ∧
    (tryPut nw restore s).status = s.status ∧ pendingTasks nw (tryPut nw restore s) ≤ pendingTasks nw s + 1 := by
  have : tryPut nw restore s = putCycle nw nw s := by
    unfold tryPut
    rw [hp]
    cases restore <;> rfl
  rw [this]
  exact putCycle_rank hnw nw s hc

theorem LInv.out_le {s : LoaderIter β} {g : LoaderGhost} (h : LInv nw s0 S s g) (M : Nat) (hM : ∀ w, w < nw → (S w).length ≤ M) : s.out.length ≤ nw * M := by
  obtain ⟨m, hm, _⟩ := h.delivered
  have hs0 := h.hs0
  have hnone : ∀ p, nw * M ≤ p → visitBatch nw s0 S p = none := by
    intro p hp
    unfold visitBatch
    have h1 := hM _ (visitWorker_lt (p := p) hs0)
    have h2 : M ≤ p / nw := by rw [Nat.le_div_iff_mul_le (by omega), Nat.mul_comm]; exact hp
    exact List.getElem?_eq_none (by omega)
  rw [hm]
  by_cases hle : m ≤ nw * M
  · exact Nat.le_trans (List.length_filterMap_le _ _) (by simpa using hle)
  · have : (List.range m).filterMap (visitBatch nw s0 S) = (List.range (nw * M)).filterMap (visitBatch nw s0 S) := by
      symm
      apply filterMap_enum (visitBatch nw s0 S) (fun i => i) m (nw * M)
      · intro i j hij _; exact hij
      · intro i hi; omega
      · intro p _ hp
        apply hnone
        apply Classical.byContradiction
        intro hc
        exact hp p (by omega) rfl
    rw [this]
    exact Nat.le_trans (List.length_filterMap_le _ _) (by simp)

theorem skipTasks_same : ∀ (fuel : Nat) (s : LoaderIter β), (skipTasks fuel s).out = s.out ∧ (skipTasks fuel s).inbox = s.inbox ∧ (skipTasks fuel s).finished = s.finished ∧
    (skipTasks fuel s).status = s.status ∧ (skipTasks fuel s).queue = s.queue := by
  intro fuel
  induction fuel with
  | zero => intro s; exact ⟨rfl, rfl, rfl, rfl, rfl⟩
  | succ fuel ih =>
    intro s
    unfold skipTasks
    split
    · split
      · exact ⟨rfl, rfl, rfl, rfl, rfl⟩
      · exact ih _
    · exact ih _

theorem rank_work {s : LoaderIter β} {N w : Nat} (hw : w < nw) (hq : s.queue w ≠ []) : loaderRank nw N (workerStep s w) < loaderRank nw N s := by
  unfold workerStep
  split
  · next h => exact absurd h hq
  · next idx rest h =>
    have hlen : (s.queue w).length = rest.length + 1 := by rw [h]; rfl
    split
    · have := pendingTasks_upd s { s with queue := upd s.queue w rest } w rest hw rfl
      unfold loaderRank
      have e : endedWorkers nw { s with queue := upd s.queue w rest } = endedWorkers nw s := rfl
      rw [e]
      simp only
      omega
    · split
      · next b bs _ =>
        have := pendingTasks_upd s { s with queue := upd s.queue w rest, left := upd s.left w bs, inbox := s.inbox ++ [.data idx w b] } w rest hw rfl
        unfold loaderRank
        have e : endedWorkers nw { s with queue := upd s.queue w rest, left := upd s.left w bs, inbox := s.inbox ++ [.data idx w b] } = endedWorkers nw s := rfl
        rw [e]
        simp only [List.length_append, List.length_singleton]
        omega
      · have := pendingTasks_upd s { s with queue := upd s.queue w rest, ended := upd s.ended w true, inbox := s.inbox ++ [.stop idx w] } w rest hw rfl
        unfold loaderRank
        have e : endedWorkers nw { s with queue := upd s.queue w rest, ended := upd s.ended w true, inbox := s.inbox ++ [.stop idx w] } = endedWorkers nw s := rfl
        rw [e]
        simp only [List.length_append, List.length_singleton]
        omega

theorem rank_deliver {restore : Bool} {s : LoaderIter β} {N : Nat} {b : β} (hnw : 0 < nw) (hc : s.cyc < nw) (hp : s.pre = []) (hout : (deliver nw restore s b).out.length ≤ N) :
    loaderRank nw N (deliver nw restore s b) < loaderRank nw N s := by
  obtain ⟨h1, h2, h3, h4, h5⟩ := tryPut_rank (restore := restore) (s := { s with info := upd s.info s.rcvd none, rcvd := s.rcvd + 1, out := s.out ++ [b] }) hnw hc hp
  unfold deliver at hout ⊢
  have e1 : endedWorkers nw (tryPut nw restore { s with info := upd s.info s.rcvd none, rcvd := s.rcvd + 1, out := s.out ++ [b] }) = endedWorkers nw s := by
    unfold endedWorkers; rw [h4]
  have e2 : pendingTasks nw { s with info := upd s.info s.rcvd none, rcvd := s.rcvd + 1, out := s.out ++ [b] } = pendingTasks nw s := rfl
  rw [e2] at h5
  have hle := endedWorkers_le nw s
  unfold loaderRank
  rw [e1, h1, h2, h3]
  rw [h1] at hout
  simp only [List.length_append, List.length_singleton] at hout ⊢
  omega

theorem endedWorkers_upd (s s' : LoaderIter β) (w : Nat) (hw : w < nw) (hst : s.status w = true) (h : s'.status = upd s.status w false) :
    endedWorkers nw s' = endedWorkers nw s + 1 := by
  have := sum_upd nw (fun v => if s.status v then 0 else 1) w 1 hw
  unfold endedWorkers
  rw [h]
  simp only [hst, if_true, Nat.add_zero] at this
  rw [← this]
  congr 2
  funext v
  unfold upd
  split <;> simp

/-- The main process either does something or waits for a worker; it never waits when no worker has anything to do. -/
theorem rank_main {restore : Bool} {s : LoaderIter β} {g : LoaderGhost} (M : Nat) (hM : ∀ w, w < nw → (S w).length ≤ M) (h : LInv nw s0 S s g) (hwin : LWin nw s0 s g) (hnf : s.finished = false) :
    loaderRank nw (nw * M) (mainStep nw restore s) < loaderRank nw (nw * M) s ∨
      (loaderRank nw (nw * M) (mainStep nw restore s) = loaderRank nw (nw * M) s ∧ (mainStep nw restore s).queue = s.queue ∧ ∃ w, w < nw ∧ s.queue w ≠ []) := by
  have hs0 := h.hs0
  have hnw : 0 < nw := by omega
  obtain ⟨g', hafter, _⟩ := mainStep_inv (restore := restore) h hwin
  have hout := hafter.out_le M hM
  obtain ⟨e1, e2, e3, e4, e5⟩ := skipTasks_same (s.send - s.rcvd) s
  obtain ⟨h1, h2, h3, _, _, h4⟩ := skipTasks_inv _ s g rfl h hwin hnf
  have hrank : loaderRank nw (nw * M) (skipTasks (s.send - s.rcvd) s) = loaderRank nw (nw * M) s := by
    unfold loaderRank endedWorkers pendingTasks
    rw [e1, e2, e3, e4, e5]
  unfold mainStep at hout ⊢
  rw [if_neg (by rw [hnf]; simp)] at hout ⊢
  simp only at hout ⊢
  rw [← hrank]
  generalize skipTasks (s.send - s.rcvd) s = s1 at *
  have hcyc : s1.cyc < nw := by rw [h1.hcyc]; exact visitWorker_lt hs0
  by_cases hlt : s1.rcvd < s1.send
  · rw [if_pos hlt] at hout ⊢
    have hinfo := h1.hinfo s1.rcvd (Nat.le_refl _) hlt
    split
    · next w b hb =>
      rw [hb] at hout
      exact Or.inl (rank_deliver hnw hcyc h1.hpre hout)
    · next hnb =>
      split
      · next hin =>
        right
        refine ⟨rfl, e5, ?_⟩
        apply Classical.byContradiction
        intro hno
        have hempty : ∀ w, w < nw → s1.queue w = [] := by
          intro w hw
          apply Classical.byContradiction
          intro hne
          exact hno ⟨w, hw, by rw [← e5]; exact hne⟩
        rcases h4 with h4 | ⟨w, d, h4, h5, _⟩
        · omega
        · rw [hinfo] at h4
          injection h4 with h4
          injection h4 with hw' hd'
          have hw : w < nw := by rw [← hw']; exact visitWorker_lt hs0
          cases hd : d with
          | some b => rw [hinfo, hd', hd] at hnb; exact hnb _ _ rfl
          | none =>
            rw [hd] at h5 hd'
            rcases h5 with h5 | h5
            · exact absurd h5 (by simp)
            · have hq := h1.hqueue w hw
              rw [hempty w hw] at hq
              have hdt : g.t w - g.d w = 0 := by
                have := congrArg List.length hq
                simpa using this.symm
              have hib := h1.hinbox w hw
              rw [hin] at hib
              have hcd : min (g.d w) ((S w).length + 1) - g.c w = 0 := by
                have := congrArg List.length hib
                simpa using this.symm
              have hst := h1.hstatus w hw
              rw [h5] at hst
              have hcl : g.c w ≤ (S w).length := by simpa using hst.symm
              have := h1.hd w hw
              have hr := (h1.hV s1.rcvd hlt).2.2
              rw [hw'] at hr hd'
              rw [if_pos (by omega)] at hd'
              unfold visitBatch at hd'
              rw [hw'] at hd'
              have := List.getElem?_eq_none_iff.1 hd'
              omega
      · next idx w rest hin =>
        left
        obtain ⟨hw, hcd, hcl, _⟩ := inbox_head h1 _ _ hin
        simp only [LoaderMsg.worker] at hw hcd hcl
        have hst : s1.status w = true := by rw [h1.hstatus w hw]; simpa using hcl
        obtain ⟨t1, t2, t3, t4, t5⟩ := tryPut_rank (restore := restore) (s := { s1 with inbox := rest, status := upd s1.status w false }) hnw hcyc h1.hpre
        have f1 := endedWorkers_upd s1 (tryPut nw restore { s1 with inbox := rest, status := upd s1.status w false }) w hw hst t4
        have f2 := endedWorkers_le nw (tryPut nw restore { s1 with inbox := rest, status := upd s1.status w false })
        have f3 : pendingTasks nw { s1 with inbox := rest, status := upd s1.status w false } = pendingTasks nw s1 := rfl
        have hol := h1.out_le M hM
        unfold loaderRank
        rw [t1, t2, t3, f1, hin]
        simp only [List.length_cons]
        omega
      · next idx w b rest hin =>
        left
        split
        · next he =>
          have hnb' : ∀ (w : Nat) (b : β), s1.info s1.rcvd = some (w, some b) → False := hnb
          have hout' : (deliver nw restore { s1 with inbox := rest } b).out.length ≤ nw * M := by
            revert hout
            split
            · next w b hb => exact fun _ => absurd hb (hnb w b)
            · rw [hin]
              simp only [he, if_true]
              exact id
          have := rank_deliver (restore := restore) (s := { s1 with inbox := rest }) hnw hcyc h1.hpre hout'
          have f : loaderRank nw (nw * M) { s1 with inbox := rest } + 1 = loaderRank nw (nw * M) s1 := by
            unfold loaderRank
            rw [hin]
            have a1 : endedWorkers nw { s1 with inbox := rest } = endedWorkers nw s1 := rfl
            have a2 : pendingTasks nw { s1 with inbox := rest } = pendingTasks nw s1 := rfl
            rw [a1, a2]
            simp only [List.length_cons]
            omega
          omega
        · unfold loaderRank
          have a1 : endedWorkers nw { s1 with inbox := rest, info := upd s1.info idx ((s1.info idx).map fun x => (x.1, some b)) } = endedWorkers nw s1 := rfl
          have a2 : pendingTasks nw { s1 with inbox := rest, info := upd s1.info idx ((s1.info idx).map fun x => (x.1, some b)) } = pendingTasks nw s1 := rfl
          rw [a1, a2, hin]
          simp only [List.length_cons]
          omega
  · rw [if_neg hlt]
    left
    unfold loaderRank
    have a1 : endedWorkers nw { s1 with finished := true } = endedWorkers nw s1 := rfl
    have a2 : pendingTasks nw { s1 with finished := true } = pendingTasks nw s1 := rfl
    rw [a1, a2, h3]
    simp

theorem rank_step {restore : Bool} {s : LoaderIter β} {g : LoaderGhost} (M : Nat) (hM : ∀ w, w < nw → (S w).length ≤ M) (h : LInv nw s0 S s g) (hwin : LWin nw s0 s g)
    (e : LoaderEvent) : loaderRank nw (nw * M) (loaderStep nw restore s e) < loaderRank nw (nw * M) s ∨
      (loaderRank nw (nw * M) (loaderStep nw restore s e) = loaderRank nw (nw * M) s ∧ (loaderStep nw restore s e = s ∨ (e = .main ∧ (loaderStep nw restore s e).queue = s.queue))) := by
  cases e with
  | main =>
    by_cases hf : s.finished = true
    · right
      have : loaderStep nw restore s .main = s := by
        show mainStep nw restore s = s
        unfold mainStep
        rw [if_pos hf]
      rw [this]
      exact ⟨rfl, Or.inl rfl⟩
    · rcases rank_main (restore := restore) M hM h hwin (by simpa using hf) with h1 | ⟨h1, h2, _⟩
      · exact Or.inl h1
      · exact Or.inr ⟨h1, Or.inr ⟨rfl, h2⟩⟩
  | work w =>
    show loaderRank nw (nw * M) (if w < nw then workerStep s w else s) < _ ∨ (_ ∧ ((if w < nw then workerStep s w else s) = s ∨ _))
    by_cases hw : w < nw
    · simp only [if_pos hw]
      by_cases hq : s.queue w = []
      · right
        have : workerStep s w = s := by unfold workerStep; rw [hq]
        refine ⟨?_, Or.inl this⟩
        show loaderRank nw (nw * M) (if w < nw then workerStep s w else s) = _
        rw [if_pos hw, this]
      · exact Or.inl (rank_work hw hq)
    · simp only [if_neg hw]
      right
      refine ⟨?_, Or.inl trivial⟩
      show loaderRank nw (nw * M) (if w < nw then workerStep s w else s) = _
      rw [if_neg hw]

/-- In an infinite execution in which every event keeps occurring, the main process finishes. -/
theorem fair_finishes {restore : Bool} (M : Nat) (hM : ∀ w, w < nw → (S w).length ≤ M) (σ : Nat → LoaderEvent)
    (hmain : ∀ n, ∃ n', n ≤ n' ∧ σ n' = .main) (hwork : ∀ w, w < nw → ∀ n, ∃ n', n ≤ n' ∧ σ n' = .work w) (run : Nat → LoaderIter β)
    (hrun : ∀ n, run (n + 1) = loaderStep nw restore (run n) (σ n)) (h0 : ∃ g, LInv nw s0 S (run 0) g ∧ LWin nw s0 (run 0) g) :
    ∃ n, (run n).finished = true := by
  have hinv : ∀ n, ∃ g, LInv nw s0 S (run n) g ∧ LWin nw s0 (run n) g := by
    intro n
    induction n with
    | zero => exact h0
    | succ n ih => rw [hrun]; exact loaderStep_inv _ ih
  have hmono : ∀ n k, loaderRank nw (nw * M) (run (n + k)) ≤ loaderRank nw (nw * M) (run n) := by
    intro n k
    induction k with
    | zero => exact Nat.le_refl _
    | succ k ih =>
      obtain ⟨g, h1, h2⟩ := hinv (n + k)
      have := rank_step (restore := restore) M hM h1 h2 (σ (n + k))
      rw [← Nat.add_assoc, hrun]
      omega
  -- some event decreases the rank, and keeps doing so until it occurs
  have hdec : ∀ n, (run n).finished = false → ∃ n', loaderRank nw (nw * M) (run n') < loaderRank nw (nw * M) (run n) := by
    intro n hnf
    apply Classical.byContradiction
    intro hno
    have hconst : ∀ k, loaderRank nw (nw * M) (run (n + k)) = loaderRank nw (nw * M) (run n) := by
      intro k
      have h1 := hmono n k
      have h2 : ¬ loaderRank nw (nw * M) (run (n + k)) < loaderRank nw (nw * M) (run n) := fun h => hno ⟨_, h⟩
      omega
    obtain ⟨g, h1, h2⟩ := hinv n
    have hqueue : ∀ k, (run (n + k)).queue = (run n).queue := by
      intro k
      induction k with
      | zero => rfl
      | succ k ih =>
        obtain ⟨g, h1, h2⟩ := hinv (n + k)
        have e1 := hconst k
        have e2 := hconst (k + 1)
        rw [← Nat.add_assoc, hrun] at e2 ⊢
        rcases rank_step (restore := restore) M hM h1 h2 (σ (n + k)) with h | ⟨_, h | ⟨_, h⟩⟩
        · omega
        · rw [h, ih]
        · rw [h, ih]
    by_cases hw : ∃ w, w < nw ∧ (run n).queue w ≠ []
    · obtain ⟨w, hw, hq⟩ := hw
      obtain ⟨m, hm, hσ⟩ := hwork w hw n
      obtain ⟨k, rfl⟩ : ∃ k, m = n + k := ⟨m - n, by omega⟩
      have e1 := hconst k
      have e2 := hconst (k + 1)
      rw [← Nat.add_assoc, hrun, hσ] at e2
      have e3 : loaderStep nw restore (run (n + k)) (.work w) = workerStep (run (n + k)) w := by
        show (if w < nw then _ else _) = _
        rw [if_pos hw]
      rw [e3] at e2
      have := rank_work (N := nw * M) (s := run (n + k)) hw (by rw [hqueue]; exact hq)
      omega
    · obtain ⟨m, hm, hσ⟩ := hmain n
      obtain ⟨k, rfl⟩ : ∃ k, m = n + k := ⟨m - n, by omega⟩
      have e1 := hconst k
      have e2 := hconst (k + 1)
      rw [← Nat.add_assoc, hrun, hσ] at e2
      have e3 : loaderStep nw restore (run (n + k)) .main = mainStep nw restore (run (n + k)) := rfl
      rw [e3] at e2
      obtain ⟨g, h1, h2⟩ := hinv (n + k)
      by_cases hfk : (run (n + k)).finished = true
      · -- finishing decreases the rank; it cannot have happened in between
        have : ∀ k, (run (n + k)).finished = false := by
          intro k
          induction k with
          | zero => exact hnf
          | succ k ih =>
            obtain ⟨g, h1, h2⟩ := hinv (n + k)
            have e1 := hconst k
            have e2 := hconst (k + 1)
            rw [← Nat.add_assoc, hrun] at e2 ⊢
            cases hev : σ (n + k) with
            | work w =>
              rw [hev] at e2
              rcases rank_step (restore := restore) M hM h1 h2 (.work w) with h | ⟨_, h | ⟨h, _⟩⟩
              · omega
              · rw [h]; exact ih
              · exact absurd h (by simp)
            | main =>
              rw [hev] at e2
              rcases rank_main (restore := restore) M hM h1 h2 ih with h | ⟨_, _, w, hw', hq'⟩
              · have e4 : loaderStep nw restore (run (n + k)) .main = mainStep nw restore (run (n + k)) := rfl
                rw [e4] at e2
                omega
              · rw [hqueue] at hq'
                exact absurd ⟨w, hw', hq'⟩ hw
        rw [this k] at hfk
        exact absurd hfk (by simp)
      · rcases rank_main (restore := restore) M hM h1 h2 (by simpa using hfk) with h | ⟨_, _, w, hw', hq'⟩
        · omega
        · rw [hqueue] at hq'
          exact hw ⟨w, hw', hq'⟩
  have : ∀ r n, loaderRank nw (nw * M) (run n) ≤ r → ∃ n, (run n).finished = true := by
    intro r
    induction r with
    | zero =>
      intro n hn
      cases hf : (run n).finished with
      | true => exact ⟨n, hf⟩
      | false =>
        obtain ⟨n', h⟩ := hdec n hf
        omega
    | succ r ih =>
      intro n hn
      cases hf : (run n).finished with
      | true => exact ⟨n, hf⟩
      | false =>
        obtain ⟨n', h⟩ := hdec n hf
        exact ih n' (by omega)
  exact this _ 0 (Nat.le_refl _)

end

end LitData
