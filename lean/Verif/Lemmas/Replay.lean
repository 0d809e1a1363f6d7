import Verif.Lemmas.Dataset
import Verif.Spec.RoundRobin

/-! Replaying the sampling of a loader when resuming. -/

namespace LitData
open Spec

theorem visits_eq (k nw i : Nat) (hnw : 0 < nw) (hi : i < nw) :
    visits k nw i = k / nw + (if i < k % nw then 1 else 0) := by
  induction k with
  | zero => simp [visits]
  | succ k ih =>
    unfold visits at ih ⊢
    rw [List.range_succ, List.filter_append, List.length_append, ih]
    have hk := Nat.div_add_mod k nw
    have hr := Nat.mod_lt k hnw
    generalize k / nw = q at *
    generalize k % nw = r at *
    have hkm : k % nw = r := by
      rw [← hk, Nat.mul_add_mod, Nat.mod_eq_of_lt hr]
    by_cases h : r + 1 < nw
    · have e1 : (k + 1) / nw = q := by
        rw [← hk, Nat.add_assoc, Nat.mul_add_div hnw, Nat.div_eq_of_lt h, Nat.add_zero]
      have e2 : (k + 1) % nw = r + 1 := by
        rw [← hk, Nat.add_assoc, Nat.mul_add_mod, Nat.mod_eq_of_lt h]
      rw [e1, e2, List.filter_cons, hkm]
      by_cases h2 : r = i
      · subst h2; simp
      · simp [h2]; split <;> split <;> omega
    · have hr' : r + 1 = nw := by omega
      have e1 : (k + 1) / nw = q + 1 := by
        rw [← hk, Nat.add_assoc, hr', Nat.mul_add_div hnw, Nat.div_self hnw]
      have e2 : (k + 1) % nw = 0 := by
        rw [← hk, Nat.add_assoc, hr', Nat.mul_add_mod, Nat.mod_self]
      rw [e1, e2, List.filter_cons, hkm]
      by_cases h2 : r = i
      · subst h2; simp
      · simp [h2]; omega

theorem replayRemainder_spec (bs nw : Nat) (hbs : 0 < bs) (fuel left w : Nat) (idx : List Nat)
    (hw : left < (nw - w) * bs) (hf : left < fuel) (i : Nat) :
    (replayRemainder bs nw fuel left w idx)[i]? = idx[i]?.map (· +
      (if w ≤ i ∧ i < w + left / bs then bs else if i = w + left / bs then left % bs else 0)) := by
  induction fuel generalizing left w idx with
  | zero => omega
  | succ fuel ih =>
    unfold replayRemainder
    by_cases h : left ≥ bs
    · rw [if_pos h]
      have h2 : 2 ≤ nw - w := by
        rcases Nat.lt_or_ge (nw - w) 2 with h3 | h3
        · have : (nw - w) * bs ≤ 1 * bs := Nat.mul_le_mul_right _ (by omega)
          omega
        · exact h3
      have hm : (w + 1) % nw = w + 1 := Nat.mod_eq_of_lt (by omega)
      have hdiv : left / bs = (left - bs) / bs + 1 := by
        rw [Nat.div_eq_sub_div hbs h]
      have hmod : left % bs = (left - bs) % bs := by
        rw [Nat.mod_eq_sub_mod h]
      rw [hm, ih (left - bs) (w + 1) _ _ (by omega), List.getElem?_modify, hdiv, hmod]
      · cases idx[i]? with
        | none => simp
        | some v =>
          simp only [Option.map_some, Option.map_eq_map, Option.some.injEq]
          generalize (left - bs) / bs = q
          generalize (left - bs) % bs = r
          by_cases hwi : w = i
          · subst hwi
            rw [if_pos rfl, if_neg (by omega), if_neg (by omega), if_pos (by omega)]
            simp
          · rw [if_neg hwi]
            congr 1
            clear hdiv hmod hw ih
            repeat' split
            all_goals omega
      · obtain ⟨m, hm⟩ : ∃ m, nw - w = m + 1 := ⟨nw - w - 1, by omega⟩
        have : nw - (w + 1) = m := by omega
        rw [this]
        rw [hm, Nat.add_mul] at hw
        omega
    · rw [if_neg h, List.getElem?_modify]
      have h1 : left / bs = 0 := Nat.div_eq_of_lt (by omega)
      have h2 : left % bs = left := Nat.mod_eq_of_lt (by omega)
      rw [h1, h2]
      cases idx[i]? with
      | none => simp
      | some v =>
        simp only [Option.map_some, Option.map_eq_map, Option.some.injEq, Nat.add_zero]
        by_cases hwi : w = i
        · subst hwi; simp
        · rw [if_neg hwi, if_neg (by omega), if_neg (by omega)]; rfl

/-- Closed form of `_replay_sampling`. -/
theorem replaySampling_spec (n bs nw : Nat) (hbs : 0 < bs) (hnw : 0 < nw) :
    ∃ l, replaySampling n bs nw = .ok l ∧ ∀ i < nw, l[i]? =
      some (bs * visits (n / bs) nw i + (if i = n / bs % nw then n % bs else 0)) := by
  have hpos : 0 < nw * bs := Nat.mul_pos hnw hbs
  refine ⟨_, by unfold replaySampling; rw [if_neg (by omega)], ?_⟩
  intro i hi
  have hd := Nat.div_add_mod n (nw * bs)
  have hdl := Nat.mod_lt n hpos
  have hq : n / bs / nw = n / (nw * bs) := by rw [Nat.div_div_eq_div_mul, Nat.mul_comm]
  have hleft : n - nw * (n / (nw * bs)) * bs = n % (nw * bs) := by
    have : nw * (n / (nw * bs)) * bs = nw * bs * (n / (nw * bs)) := by
      rw [Nat.mul_assoc, Nat.mul_comm (n / _), ← Nat.mul_assoc]
    omega
  have hl1 : n % (nw * bs) / bs = n / bs % nw := by
    rw [Nat.mul_comm]; exact Nat.mod_mul_right_div_self n bs nw
  have hl2 : n % (nw * bs) % bs = n % bs := Nat.mod_mul_left_mod n nw bs
  rw [hleft, replayRemainder_spec bs nw hbs _ _ _ _ (by simpa using hdl)
    (by have := Nat.mod_le n (nw * bs); omega), visits_eq _ _ _ hnw hi, hl1, hl2, hq]
  rw [List.getElem?_replicate, if_pos hi]
  simp only [Option.map_some, Nat.zero_le, true_and, Nat.zero_add]
  congr 1
  generalize n / (nw * bs) = d
  have hc : d * bs = bs * d := Nat.mul_comm _ _
  rw [Nat.mul_add, hc]
  split
  · rw [if_neg (by omega)]; omega
  · simp

theorem replayChunks_spec (ps : List Piece) (i : Nat) (h : i < (ps.map fun p => p.interval.size).sum) :
    ∃ p, ps[(replayChunks ps i).1]? = some p ∧ (replayChunks ps i).2 < p.interval.size ∧
      (replayChunks ps i).2 ≤ i ∧
      ∀ (f : Nat → List Nat → List Nat), (∀ k l, (f k l).Perm l) → ∀ k,
      (stream f k ps).drop i = (pieceStream (f (k + (replayChunks ps i).1)) p).drop (replayChunks ps i).2 ++
        stream f (k + (replayChunks ps i).1 + 1) (ps.drop ((replayChunks ps i).1 + 1)) := by
  induction ps generalizing i with
  | nil => simp at h
  | cons p ps ih =>
    simp only [List.map_cons, List.sum_cons] at h
    unfold replayChunks
    by_cases hge : i ≥ p.interval.size
    · rw [if_pos hge]
      obtain ⟨q, h1, h2, h3, h4⟩ := ih (i - p.interval.size) (by omega)
      refine ⟨q, by simpa using h1, h2, by dsimp only; omega, ?_⟩
      intro f hf k
      dsimp only
      rw [stream, List.drop_append, pieceStream_length _ (hf k), List.drop_eq_nil_of_le
        (by rw [pieceStream_length _ (hf k)]; omega), List.nil_append, h4 f hf (k+1)]
      rw [List.drop_succ_cons]
      congr 3
      · congr 1; omega
      · omega
    · rw [if_neg hge]
      refine ⟨p, by simp, by dsimp only; omega, Nat.le_refl _, ?_⟩
      intro f hf k
      dsimp only
      rw [stream, List.drop_append, pieceStream_length _ (hf k)]
      have : i - p.interval.size = 0 := by omega
      rw [this]
      simp

theorem replayChunks_exhausted (ps : List Piece) (i : Nat)
    (h : (ps.map fun p => p.interval.size).sum ≤ i) : (replayChunks ps i).1 = ps.length := by
  induction ps generalizing i with
  | nil => rfl
  | cons p ps ih =>
    simp only [List.map_cons, List.sum_cons] at h
    unfold replayChunks
    rw [if_pos (by omega)]
    dsimp only
    rw [ih _ (by omega)]
    simp

/-- Resuming a worker that has something left: the state is good and what remains is the rest of the
uninterrupted stream. -/
theorem resumeState_spec (sh : Shuffler) (hsh : ∀ a n e k, (sh a n e k).Perm a) (workers : List (List Piece))
    (rank nw worker n bs epoch : Nat) (hbs : 0 < bs) (hw : worker < nw) (ps : List Piece)
    (hps : workers[rank * nw + worker]? = some ps) (hne : NonEmptyPieces ps)
    (hlt : bs * visits (n / bs) nw worker + (if worker = n / bs % nw then n % bs else 0) <
      (ps.map fun p => p.interval.size).sum) :
    ∃ s, resumeState sh workers rank nw worker n bs nw epoch = .ok s ∧ IterInv sh s ∧ s.epoch = epoch ∧
      s.pieces = ps ∧
      remaining sh s = (stream (fun k l => sh l ps.length epoch k) 0 ps).drop
        (bs * visits (n / bs) nw worker + (if worker = n / bs % nw then n % bs else 0)) := by
  obtain ⟨l, h1, h2⟩ := replaySampling_spec n bs nw hbs (by omega)
  generalize hI : bs * visits (n / bs) nw worker + (if worker = n / bs % nw then n % bs else 0) = I at *
  have hl : l[worker]? = some I := by rw [h2 worker hw, hI]
  obtain ⟨p, hp, hoff, hle, hdrop⟩ := replayChunks_spec ps I hlt
  have hd := hdrop (fun k l => sh l ps.length epoch k) (fun k l => hsh _ _ _ _) 0
  generalize hr : replayChunks ps I = r at *
  obtain ⟨c, off⟩ := r
  simp only [Nat.zero_add] at hd hp hoff hle
  refine ⟨_, by simp only [resumeState, h1, bind, Except.bind, hps, hl, hr, hp]; rfl, ?_⟩
  have hclt : c < ps.length := by
    rcases Nat.lt_or_ge c ps.length with h | h
    · exact h
    · rw [List.getElem?_eq_none h] at hp; simp at hp
  have hrem : remaining sh ({
              pieces := ps, numChunks := ps.length,
              upcoming := (sh p.interval.positions ps.length epoch c).drop off,
              nextChunk := c + 1, globalIndex := off,
              stopLength := (ps.map fun p => p.interval.size).sum, epoch := epoch,
              hasTriggeredDownload := false, resuming := true } : IterState) =
      (stream (fun k l => sh l ps.length epoch k) 0 ps).drop I := by
    rw [hd]
    simp only [remaining, Nat.add_sub_cancel, hp, pieceStream, List.map_drop]
    rfl
  refine ⟨⟨rfl, ?_, ?_, ?_, hne⟩, rfl, rfl, hrem⟩
  · intro _; exact ⟨p, by simpa using hp⟩
  · exact hclt
  · rw [hrem, List.length_drop, stream_length _ (fun k l => hsh _ _ _ _)]
    dsimp only
    omega

theorem resumeState_exhausted (sh : Shuffler) (workers : List (List Piece))
    (rank nw worker n bs epoch : Nat) (hbs : 0 < bs) (hw : worker < nw) (ps : List Piece)
    (hps : workers[rank * nw + worker]? = some ps)
    (hge : (ps.map fun p => p.interval.size).sum ≤
      bs * visits (n / bs) nw worker + (if worker = n / bs % nw then n % bs else 0)) :
    resumeState sh workers rank nw worker n bs nw epoch = .error .indexError := by
  obtain ⟨l, h1, h2⟩ := replaySampling_spec n bs nw hbs (by omega)
  have hl := h2 worker hw
  simp only [resumeState, h1, bind, Except.bind, hps, hl, replayChunks_exhausted ps _ hge]
  rw [List.getElem?_eq_none (Nat.le_refl _)]

/-- The visits of a loader restarted after `k` visits are the visits `k, k+1, ...` of the original. -/
theorem visit_resume {α : Type} (bs : Nat) (streams : List (List α)) (k p : Nat) (hn : 0 < streams.length) :
    visit bs (streams.mapIdx fun i xs => xs.drop (bs * visits k streams.length i)) (k % streams.length) p =
      visit bs streams 0 (k + p) := by
  unfold visit
  generalize hnn : streams.length = nw at *
  simp only [List.length_mapIdx, hnn, Nat.zero_add, List.getElem?_mapIdx]
  have h1 : (k % nw + p) % nw = (k + p) % nw := by simp
  rw [h1]
  have hw := Nat.mod_lt (k + p) hn
  generalize hwe : (k + p) % nw = w at *
  cases streams[w]? with
  | none => rfl
  | some xs =>
    simp only [Option.map_some, Option.bind_some]
    rw [visits_eq _ _ _ hn hw]
    have key : (p / nw) + (k / nw + if w < k % nw then 1 else 0) = (k + p) / nw := by
      have a1 := Nat.div_add_mod k nw
      have a2 := Nat.div_add_mod p nw
      have a3 := Nat.mod_lt k hn
      have a4 := Nat.mod_lt p hn
      generalize k / nw = q1 at *
      generalize k % nw = r1 at *
      generalize p / nw = q2 at *
      generalize p % nw = r2 at *
      have e : k + p = nw * (q1 + q2) + (r1 + r2) := by rw [Nat.mul_add]; omega
      rw [e] at hwe ⊢
      rw [Nat.mul_add_mod] at hwe
      rw [Nat.mul_add_div hn]
      by_cases hlt : r1 + r2 < nw
      · rw [Nat.mod_eq_of_lt hlt] at hwe
        rw [if_neg (by omega), Nat.div_eq_of_lt hlt]; omega
      · have e2 : (r1 + r2) / nw = 1 := by
          rw [Nat.div_eq_sub_div hn (by omega), Nat.div_eq_of_lt (by omega)]
        rw [Nat.mod_eq_sub_mod (by omega), Nat.mod_eq_of_lt (by omega)] at hwe
        rw [if_pos (by omega), e2]; omega
    unfold batchAt
    simp only [List.drop_drop]
    have : bs * (k / nw + if w < k % nw then 1 else 0) + p / nw * bs = (k + p) / nw * bs := by
      rw [← key]; grind
    rw [this]

theorem delivered_resume {α : Type} (bs : Nat) (streams : List (List α)) (k m : Nat) (hn : 0 < streams.length) :
    delivered bs streams 0 k ++
      delivered bs (streams.mapIdx fun i xs => xs.drop (bs * visits k streams.length i)) (k % streams.length) m =
      delivered bs streams 0 (k + m) := by
  unfold delivered
  rw [List.range_add, List.filterMap_append, List.filterMap_map]
  congr 1
  congr 1
  funext p
  exact visit_resume bs streams k p hn

end LitData
