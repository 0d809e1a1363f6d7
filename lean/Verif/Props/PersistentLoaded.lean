import Verif.Props.Persistent
import Verif.Model.PersistentLoaded

/-!
C99: workers that live on in a loader into which a state was loaded.
-/

namespace LitData.Props
open LitData Spec

theorem resume_epoch (sh : Shuffler) (ws : List (List Piece)) (r W i n bs nw e : Nat) (st : IterState) (h : resumeState sh ws r W i n bs nw e = .ok st) : st.epoch = e := by
  unfold resumeState at h
  cases hr : replaySampling n bs nw with
  | error x => rw [hr] at h; simp [bind, Except.bind] at h
  | ok idx =>
    rw [hr] at h
    simp only [bind, Except.bind] at h
    split at h
    · simp at h
    · split at h
      · split at h
        · simp at h
        · simp only [Except.ok.injEq] at h
          subst h
          rfl
      · simp at h

/-- The epoch in which a copy runs its next pass. -/
def copyEpoch (c : KeptCopy) : Nat := match c.kept with
  | some (_, e) => e
  | none => c.epoch

/-- One pass: a copy goes on to the next epoch exactly when it comes to its end, and keeps its state exactly when it does not. -/
theorem copy_pass (sh : Shuffler) (split : Nat → Py (List (List Piece))) (rank nw bs i : Nat) (c : KeptCopy) (calls : Nat) (xs : List ChunkedIndex) (b : Bool) (c' : KeptCopy)
    (h : copyPass sh split rank nw bs i c calls = .ok (xs, b, c')) :
    c'.kept = (if b then none else c.kept) ∧ copyEpoch c' = copyEpoch c + (if b then 1 else 0) := by
  have main : ∀ (st : IterState), st.epoch = copyEpoch c →
      ((runIter sh calls st).bind fun r => (.ok (r.1, r.2.1, ⟨r.2.2.epoch, if r.2.1 then none else c.kept⟩) : Py (List ChunkedIndex × Bool × KeptCopy))) = .ok (xs, b, c') →
      c'.kept = (if b then none else c.kept) ∧ copyEpoch c' = copyEpoch c + (if b then 1 else 0) := by
    intro st hst hh
    cases hr : runIter sh calls st with
    | error e => rw [hr] at hh; simp [Except.bind] at hh
    | ok t =>
      rw [hr] at hh
      simp only [Except.bind, Except.ok.injEq, Prod.mk.injEq] at hh
      obtain ⟨rfl, rfl, rfl⟩ := hh
      have he := run_epoch sh calls st t.1 t.2.1 t.2.2 hr
      refine ⟨rfl, ?_⟩
      cases hb : t.2.1 with
      | true =>
        rw [hb] at he
        show t.2.2.epoch = _
        rw [he, hst]
      | false =>
        rw [hb] at he
        cases hk : c.kept with
        | none =>
          show t.2.2.epoch = _
          rw [he, hst]
        | some p => simp [copyEpoch, hk]
  unfold copyPass at h
  cases hk : c.kept with
  | some p =>
    rw [hk] at h
    simp only at h
    cases hs : split p.2 with
    | error e => rw [hs] at h; simp [Except.bind] at h
    | ok ws =>
      rw [hs] at h
      cases hst : resumeState sh ws rank nw i p.1 bs nw p.2 with
      | error e => simp [Except.bind, hst] at h
      | ok st =>
        simp only [Except.bind, hst] at h
        have := main st (by rw [resume_epoch _ _ _ _ _ _ _ _ _ _ hst]; simp [copyEpoch, hk]) (by rw [hk]; exact h)
        rw [hk] at this
        exact this
  | none =>
    rw [hk] at h
    simp only at h
    cases hs : split c.epoch with
    | error e => rw [hs] at h; simp [Except.bind] at h
    | ok ws =>
      rw [hs] at h
      cases hw : ws[rank * nw + i]? with
      | none => simp [Except.bind, hw] at h
      | some ps =>
        simp only [Except.bind, hw] at h
        have := main (iterStart ps c.epoch) (by simp [copyEpoch, hk, iterStart]) (by rw [hk]; exact h)
        rw [hk] at this
        exact this

/-- **C99 for a loaded state, the copies.** Over any passes, a copy goes on by one epoch for every pass in which it came to its end, and keeps the state, from which it resumes, as long as there was no such pass. -/
theorem c99_copies (sh : Shuffler) (split : Nat → Py (List (List Piece))) (rank nw bs i : Nat) : ∀ (calls : List Nat) (c : KeptCopy) (rs : List (List ChunkedIndex × Bool)) (last : KeptCopy),
    copyPasses sh split rank nw bs i c calls = .ok (rs, last) →
    rs.length = calls.length ∧ copyEpoch last = copyEpoch c + (rs.filter (·.2)).length ∧ last.kept = if (rs.any (·.2)) then none else c.kept
  | [], c, rs, last, h => by
    simp only [copyPasses, Except.ok.injEq, Prod.mk.injEq] at h
    obtain ⟨rfl, rfl⟩ := h
    exact ⟨rfl, rfl, rfl⟩
  | n :: calls, c, rs, last, h => by
    unfold copyPasses at h
    cases hp : copyPass sh split rank nw bs i c n with
    | error e => rw [hp] at h; simp [Except.bind] at h
    | ok r =>
      rw [hp] at h
      simp only [Except.bind] at h
      cases hq : copyPasses sh split rank nw bs i r.2.2 calls with
      | error e => rw [hq] at h; simp at h
      | ok q =>
        rw [hq] at h
        simp only [Except.ok.injEq, Prod.mk.injEq] at h
        obtain ⟨rfl, rfl⟩ := h
        obtain ⟨i1, i2, i3⟩ := c99_copies sh split rank nw bs i calls r.2.2 q.1 q.2 hq
        obtain ⟨p1, p2⟩ := copy_pass sh split rank nw bs i c n r.1 r.2.1 r.2.2 hp
        refine ⟨by simp [i1], ?_, ?_⟩
        · rw [i2, p2]
          cases hb : r.2.1 <;> simp [hb] <;> omega
        · rw [i3, p1, List.any_cons]
          cases hb : r.2.1
          · rw [show ((r.1, false).2 || q.1.any fun x => x.2) = q.1.any fun x => x.2 from Bool.false_or _]
            rfl
          · rw [show ((r.1, true).2 || q.1.any fun x => x.2) = true from Bool.true_or _]
            simp

/-- The epoch of a resumed loader: it stays in the epoch of the state until a pass is read to its end, and goes on by one for every pass from then on. -/
theorem loader_resumed_epoch : ∀ (ends : List Bool) (s : LoaderState), s.restore = true →
    (loaderBegin (loaderPasses s ends)).epoch = s.epoch + (ends.dropWhile (!·)).length
  | [], s, h => by
    show (loaderBegin s).epoch = _
    unfold loaderBegin
    rw [if_pos h]
    rfl
  | e :: ends, s, h => by
    have hb : loaderBegin s = s := by unfold loaderBegin; rw [if_pos h]
    cases e with
    | false =>
      show (loaderBegin (loaderPasses (loaderBegin s) ends)).epoch = _
      rw [hb, loader_resumed_epoch ends s h]
      rfl
    | true =>
      show (loaderBegin (loaderPasses (loaderEnd (loaderBegin s)) ends)).epoch = _
      rw [hb]
      obtain ⟨h1, h2⟩ := loaderPasses_epoch ends (loaderEnd s) rfl
      have : (loaderBegin (loaderPasses (loaderEnd s) ends)).epoch = (loaderPasses (loaderEnd s) ends).epoch + 1 := by
        unfold loaderBegin; rw [h2]; rfl
      rw [this, h1]
      show s.epoch + ends.length + 1 = s.epoch + (true :: ends).length
      rw [List.length_cons]
      omega

/-- **C99 for a loaded state, when a worker has the epoch of the loader.** Workers that live on get a state in the middle of an epoch. If a worker comes to its end in exactly the passes that are read to their ends, it is in the epoch of
the loader in the next pass exactly when no pass was broken off after one that was read to its end. As long as all passes are broken off, it resumes from the number of samples of the loaded state again. -/
theorem c99_loaded_iff (sh : Shuffler) (split : Nat → Py (List (List Piece))) (rank nw bs i len : Nat) (d : LoaderDict) (hd : 0 < d.yielded) (hl : d.yielded < len) (l : LoaderState) (epoch : Nat)
    (calls : List Nat) (rs : List (List ChunkedIndex × Bool)) (last : KeptCopy)
    (h : copyPasses sh split rank nw bs i ⟨epoch, some (d.yielded, d.epoch)⟩ calls = .ok (rs, last)) :
    let u := loaderBegin (loaderPasses (loaderLoad len d l) (rs.map (·.2)))
    (copyEpoch last = u.epoch ↔ ∀ b ∈ (rs.map (·.2)).dropWhile (!·), b = true) ∧
    ((∀ r ∈ rs, r.2 = false) → last.kept = some (d.yielded, d.epoch) ∧ u.epoch = d.epoch ∧
      ∀ n, copyPass sh split rank nw bs i last n = copyPass sh split rank nw bs i ⟨epoch, some (d.yielded, d.epoch)⟩ n) := by
  intro u
  obtain ⟨_, h2, h3⟩ := c99_copies sh split rank nw bs i calls _ rs last h
  have hr : (loaderLoad len d l).restore = true := by simp [loaderLoad, hd, hl]
  have hu : u.epoch = d.epoch + ((rs.map (·.2)).dropWhile (!·)).length := loader_resumed_epoch _ _ hr
  have hn : copyEpoch last = d.epoch + (rs.filter (·.2)).length := h2
  have hc : ∀ bs : List Bool, ((bs.dropWhile (!·)).filter id).length = (bs.filter id).length := by
    intro bs
    induction bs with
    | nil => rfl
    | cons b bs ih =>
      cases b
      · exact ih
      · rfl
  have hm : (rs.filter (·.2)).length = ((rs.map (·.2)).filter id).length := by
    rw [List.filter_map, List.length_map]; rfl
  refine ⟨?_, ?_⟩
  · rw [hn, hu, hm, ← hc]
    generalize (rs.map (·.2)).dropWhile (!·) = t
    constructor
    · intro he
      have he' : (t.filter id).length = t.length := by omega
      have := List.length_filter_eq_length_iff.1 he'
      exact this
    · intro he
      have he' : (t.filter id).length = t.length := List.length_filter_eq_length_iff.2 he
      omega
  · intro hall
    have hk : last.kept = some (d.yielded, d.epoch) := by
      rw [h3, if_neg]
      rw [List.any_eq_true]
      rintro ⟨r, hr, hb⟩
      rw [hall r hr] at hb
      exact absurd hb (by decide)
    refine ⟨hk, ?_, ?_⟩
    · have hz : ∀ rs : List (List ChunkedIndex × Bool), (∀ r ∈ rs, r.2 = false) → (rs.map (·.2)).dropWhile (!·) = [] := by
        intro rs hall
        induction rs with
        | nil => rfl
        | cons r rs ih =>
          rw [List.map_cons, hall r List.mem_cons_self]
          exact ih fun x hx => hall x (List.mem_cons_of_mem _ hx)
      rw [hu, hz rs hall]
      rfl
    · intro n
      unfold copyPass
      rw [hk]

/-- **C99 for a loaded state, what a worker gives.** Split the samples in any way. A worker that keeps a state gives the rest of its samples in the order of the epoch of the state, whatever the epoch of its copy, and drops the state; a worker
that keeps none gives all its samples in the order of the epoch of its copy. Either way it is then in the next epoch. -/
theorem c99_copy_gives (sh : Shuffler) (hsh : ∀ a n e k, (sh a n e k).Perm a) (split : Nat → Py (List (List Piece))) (W rank nw bs i : Nat) (hbs : 0 < bs) (hi : i < nw) (idx : List Nat)
    (ivs : List Interval) (dl : Bool) (e : Nat) (ws : List (List Piece)) (hsp : split e = .ok ws) (ha : associate W idx ivs dl nw bs = .ok ws) (ps : List Piece) (hps : ws[rank * nw + i]? = some ps) :
    (∀ n epoch, bs * Spec.visits (n / bs) nw i + (if i = n / bs % nw then n % bs else 0) < (samples ps).length →
      ∃ xs, copyPass sh split rank nw bs i ⟨epoch, some (n, e)⟩ ((samples ps).length + 1) = .ok (xs, true, ⟨e + 1, none⟩) ∧
        xs.map (fun c => (c.chunkIndex, c.index)) =
          (stream (fun k l => sh l ps.length e k) 0 ps).drop (bs * Spec.visits (n / bs) nw i + (if i = n / bs % nw then n % bs else 0))) ∧
    (∃ xs, copyPass sh split rank nw bs i ⟨e, none⟩ ((samples ps).length + 1) = .ok (xs, true, ⟨e + 1, none⟩) ∧
      xs.map (fun c => (c.chunkIndex, c.index)) = deliveredBy sh ps e) := by
  refine ⟨?_, ?_⟩
  · intro n epoch hleft
    obtain ⟨st, h1, xs, s', h2, h3, h4⟩ := c06_worker_continues_partial sh hsh W idx ivs dl nw bs hbs ws ha rank i hi ps hps n e hleft
    refine ⟨xs, ?_, h4⟩
    unfold copyPass
    simp only [hsp, Except.bind, h1, h2, h3, if_true]
  · obtain ⟨xs, s', k1, _⟩ := c05_one_pass sh hsh W idx ivs dl nw bs ws ha ps (List.mem_of_getElem? hps) e
    have k2 := k1 _ (Nat.lt_succ_self _)
    have he := run_epoch sh _ _ _ _ _ k2
    refine ⟨xs, ?_, ?_⟩
    · unfold copyPass
      simp only [hsp, Except.bind, hps, k2, he, if_true]
      rfl
    · unfold deliveredBy
      rw [k2]

/-- **C99, when a state is loaded.** Before the first pass, a state in the middle of an epoch is what every copy keeps, and a state with none or all of the samples begins the next epoch. Once there are copies, no state that is loaded reaches
them: the loader goes on from the epoch and the number of the state, the copies as if nothing had been loaded. -/
theorem c99_when_loaded (nw len : Nat) (d : LoaderDict) (s : KeptScript) :
    let t := keptBegin nw (keptLoad len d s)
    (0 < d.yielded → d.yielded < len → t.loader.epoch = d.epoch ∧ t.loader.yielded = d.yielded) ∧
    (s.copies = none → 0 < d.yielded → d.yielded < len → ∃ cs, t.copies = some cs ∧ cs.length = nw ∧ ∀ c ∈ cs, c.kept = some (d.yielded, d.epoch) ∧ copyEpoch c = t.loader.epoch) ∧
    (s.copies = none → s.loader.restore = false → (d.yielded = 0 ∨ len ≤ d.yielded) →
      ∃ cs, t.copies = some cs ∧ cs.length = nw ∧ ∀ c ∈ cs, c.kept = none ∧ copyEpoch c = t.loader.epoch ∧ t.loader.epoch = d.epoch + 1) ∧
    (∀ cs, s.copies = some cs → t.copies = some cs) := by
  intro t
  have hbegin : ∀ u : LoaderState, u.restore = true → loaderBegin u = u := by intro u hu; unfold loaderBegin; rw [if_pos hu]
  have hmid : 0 < d.yielded → d.yielded < len → (keptLoad len d s).loader.restore = true := by intro h1 h2; simp [keptLoad, loaderLoad, h1, h2]
  refine ⟨?_, ?_, ?_, ?_⟩
  · intro h1 h2
    have : t.loader = (keptLoad len d s).loader := hbegin _ (hmid h1 h2)
    rw [this]
    exact ⟨rfl, rfl⟩
  · intro hc h1 h2
    have hr := hmid h1 h2
    have hl : t.loader = (keptLoad len d s).loader := hbegin _ hr
    refine ⟨List.replicate nw ⟨t.loader.epoch, some (d.yielded, d.epoch)⟩, ?_, List.length_replicate, ?_⟩
    · show some (s.copies.getD (List.replicate nw ⟨t.loader.epoch, if (keptLoad len d s).loader.restore then some (d.yielded, d.epoch) else none⟩)) = _
      rw [hc, hr]
      rfl
    · intro c hcm
      rw [(List.mem_replicate.1 hcm).2, hl]
      exact ⟨rfl, rfl⟩
  · intro hc hs hd
    have hr : (keptLoad len d s).loader.restore = false := by
      rcases hd with hd | hd
      · simp [keptLoad, loaderLoad, hs, hd]
      · have : ¬ d.yielded < len := by omega
        simp [keptLoad, loaderLoad, hs, this]
    have hl : t.loader.epoch = d.epoch + 1 := by
      show (loaderBegin (keptLoad len d s).loader).epoch = _
      unfold loaderBegin
      rw [hr]
      rfl
    refine ⟨List.replicate nw ⟨t.loader.epoch, none⟩, ?_, List.length_replicate, ?_⟩
    · show some (s.copies.getD (List.replicate nw ⟨t.loader.epoch, if (keptLoad len d s).loader.restore then some (d.yielded, d.epoch) else none⟩)) = _
      rw [hc, hr]
      rfl
    · intro c hcm
      rw [(List.mem_replicate.1 hcm).2]
      exact ⟨rfl, rfl, hl⟩
  · intro cs hc
    show some (s.copies.getD _) = _
    rw [hc]
    rfl

/-- Two workers in epoch 3 of a script get a state of epoch 1 with two of four samples: the loader says epoch 1 and two samples, the workers begin epoch 3. -/
theorem c99_loaded_late_example :
    let split := fun e => fullShuffleAssign turnEven [⟨0,0,2,2⟩, ⟨2,2,4,4⟩] 1 1 false 2 1 e
    let t := keptBegin 2 (keptLoad 4 ⟨1, 2, [], 1⟩ ⟨⟨2, 4, [], 0, 0, false⟩, none, some [⟨3, none⟩, ⟨3, none⟩]⟩)
    t.loader.epoch = 1 ∧ t.loader.yielded = 2 ∧ t.copies = some [⟨3, none⟩, ⟨3, none⟩] ∧
    (copyPass noShuffler split 0 2 1 0 ⟨3, none⟩ 3).map (fun r => r.1.map fun c => (c.chunkIndex, c.index)) = .ok [(0, 0), (0, 1)] := by
  decide +kernel

/-- **C99 fails for a loaded state: a worker that read ahead.** Two workers, two chunks of two samples, a state after one batch of each in epoch 1. The resumed pass is broken off when the first worker has come to its end and the
second one has not. The loader begins the same epoch again; the first worker gives the next epoch from its beginning, the second one resumes. -/
theorem c99_loaded_mixed :
    let split := fun e => fullShuffleAssign turnEven [⟨0,0,2,2⟩, ⟨2,2,4,4⟩] 1 1 false 2 1 e
    let d : LoaderDict := ⟨1, 2, [], 1⟩
    (loaderBegin (loaderPasses (loaderLoad 4 d newLoader) [false])).epoch = 1 ∧
    (copyPasses noShuffler split 0 2 1 0 ⟨1, some (d.yielded, d.epoch)⟩ [2, 3]).map (fun r => (r.1.map fun p => p.1.map fun c => (c.chunkIndex, c.index))) = .ok [[(0, 1)], [(1, 2), (1, 3)]] ∧
    (copyPasses noShuffler split 0 2 1 1 ⟨1, some (d.yielded, d.epoch)⟩ [0, 3]).map (fun r => (r.1.map fun p => p.1.map fun c => (c.chunkIndex, c.index))) = .ok [[], [(1, 3)]] := by
  decide +kernel

/-- The hypotheses of `c99_copy_gives` can be met, on the second of two ranks. -/
example : ∃ ws, associate 2 [0,1,2] demoIntervals false 2 3 = .ok ws ∧ ∃ ps, ws[1 * 2 + 0]? = some ps ∧ 3 * Spec.visits (3 / 3) 2 0 + (if 0 = 3 / 3 % 2 then 3 % 3 else 0) < (samples ps).length := by
  refine ⟨_, rfl, _, rfl, ?_⟩; decide

/-- The hypotheses of `c99_loaded_iff` can be met, with passes broken off before and after one that is read to its end. -/
example : (copyPasses noShuffler (fun e => fullShuffleAssign turnEven [⟨0,0,2,2⟩, ⟨2,2,4,4⟩] 1 1 false 2 1 e) 0 2 1 0 ⟨1, some (2, 1)⟩ [1, 2, 1]).map (fun r => (r.1.map (·.2), r.2)) =
    .ok ([false, true, false], ⟨2, none⟩) := by
  decide +kernel

end LitData.Props
