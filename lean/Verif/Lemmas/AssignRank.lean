import Verif.Lemmas.Budget

namespace LitData
open Spec

theorem quota_rank_sum (N W nw bs : Nat) (dl : Bool) (r : Nat) (hnw : 0 < nw) :
    ((List.range nw).map fun i => quota N W nw bs dl r i).sum =
      bs * (N / (bs * W)) + (if dl = false ∧ r + 1 = W then N - bs * (N / (bs * W)) * W else 0) := by
  unfold quota
  generalize N / (bs * W) = nb
  simp only
  generalize hL : (N - bs * nb * W) = L
  have e : ∀ P : Prop, ∀ [Decidable P], (if dl = false ∧ r + 1 = W ∧ P then L else 0) =
      if P then (if dl = false ∧ r + 1 = W then L else 0) else 0 := by
    intro P _; grind
  simp only [e]
  generalize (if dl = false ∧ r + 1 = W then L else 0) = L'
  have key : ∀ n, ((List.range n).map fun i => bs * (nb / nw + (if i < nb % nw then 1 else 0)) +
      (if i = nb % nw then L' else 0)).sum =
      bs * (n * (nb / nw) + min n (nb % nw)) + (if nb % nw < n then L' else 0) := by
    intro n
    induction n with
    | zero => simp
    | succ n ih =>
      rw [List.range_succ, List.map_append, List.sum_append, ih]
      simp only [List.map_cons, List.map_nil, List.sum_cons, List.sum_nil, Nat.add_mul, Nat.one_mul]
      by_cases h1 : n < nb % nw
      · rw [if_pos h1, if_neg (by omega), if_neg (by omega), if_neg (by omega),
          show min (n+1) (nb % nw) = n + 1 by omega, show min n (nb % nw) = n by omega]
        grind
      · rw [if_neg h1, show min (n+1) (nb % nw) = nb % nw by omega,
          show min n (nb % nw) = nb % nw by omega]
        by_cases h2 : n = nb % nw
        · rw [if_neg (c := nb % nw < n) (by omega), if_pos h2, if_pos (by omega)]; grind
        · rw [if_neg (c := n = nb % nw) (by omega), if_pos (by omega), if_pos (by omega)]; grind
  rw [key nw]
  have hm : nb % nw < nw := Nat.mod_lt _ hnw
  rw [Nat.min_eq_right (Nat.le_of_lt hm), Nat.div_add_mod, if_pos hm]

theorem length_flatMap_range (f : Nat → List Nat) (nw r : Nat) (hf : ∀ r, (f r).length = nw) :
    ((List.range r).flatMap f).length = r * nw := by
  induction r with
  | zero => simp
  | succ r ih => rw [List.range_succ, List.flatMap_append, List.length_append, ih]; simp [hf, Nat.add_mul]

theorem range_split (W r : Nat) (h : r < W) :
    List.range W = List.range r ++ r :: (List.range' (r+1) (W - r - 1)) := by
  rw [List.range_eq_range', List.range_eq_range', show W = r + ((W - r - 1) + 1) by omega,
    ← List.range'_append_1, List.range'_succ]
  simp

theorem cut_rank {α : Type} (f : Nat → List Nat) (nw W r : Nat) (hf : ∀ r, (f r).length = nw)
    (hr : r < W) (D : List α) :
    ((cut ((List.range W).flatMap f) D).drop (r * nw)).take nw =
      cut (f r) (D.drop ((List.range r).flatMap f).sum) := by
  rw [range_split W r hr, List.flatMap_append, List.flatMap_cons, cut_append, cut_append]
  rw [List.drop_left' (by rw [cut_length, length_flatMap_range f nw r hf])]
  rw [List.take_left' (by rw [cut_length, hf])]

theorem sum_flatMap_range (f : Nat → List Nat) (q : Nat) (r : Nat) (hf : ∀ i < r, (f i).sum = q) :
    ((List.range r).flatMap f).sum = r * q := by
  induction r with
  | zero => simp
  | succ r ih =>
    rw [List.range_succ, List.flatMap_append, List.sum_append, ih (fun i hi => hf i (by omega))]
    simp [hf r (by omega), Nat.add_mul]

theorem datasetSamples_length (idx : List Nat) (ivs : List Interval) (h : idx.length = ivs.length) :
    (datasetSamples idx ivs).length = (ivs.map Interval.size).sum := by
  unfold datasetSamples
  induction ivs generalizing idx with
  | nil => simp
  | cons iv ivs ih =>
    cases idx with
    | nil => simp at h
    | cons i idx =>
      simp only [List.zip_cons_cons, List.flatMap_cons, List.length_append, region_length,
        List.map_cons, List.sum_cons, ih idx (by simpa using h)]
      rfl

theorem left_lt (N bs W : Nat) (hW : 0 < W) (hbs : 0 < bs) :
    bs * (N / (bs * W)) * W ≤ N ∧ N - bs * (N / (bs * W)) * W < bs * W := by
  have e : bs * (N / (bs * W)) * W = (bs * W) * (N / (bs * W)) := by
    rw [Nat.mul_right_comm]
  have h1 := Nat.div_add_mod N (bs * W)
  have h2 : N % (bs * W) < bs * W := Nat.mod_lt _ (Nat.mul_pos hbs hW)
  rw [e]
  omega

/-- Everything about `associate` when it does not divide by zero. -/
theorem associate_spec (W : Nat) (idx : List Nat) (ivs : List Interval) (dl : Bool) (nw bs : Nat)
    (hW : 0 < W) (hnw : 0 < nw) (hbs : 0 < bs) :
    ∃ ws, associate W idx ivs dl nw bs = .ok ws ∧ ws.length = W * nw ∧
      ws.map samples = cut ((List.range W).flatMap fun r => (List.range nw).map fun i =>
        quota (ivs.map Interval.size).sum W nw bs dl r i) (datasetSamples idx ivs) := by
  unfold associate
  simp only [show bs ≠ 0 by omega, show nw ≠ 0 by omega, if_false, and_false]
  refine ⟨_, rfl, ?_, ?_⟩
  · rw [List.length_map, assignLoop_length, List.length_map, itemsPerWorker_eq _ _ _ _ _ hW hnw hbs]
    exact length_flatMap_range _ nw W (by simp)
  · rw [List.map_map]
    have := assignLoop_spec (idx.zip ivs)
      ((itemsPerWorker (ivs.map Interval.size).sum W nw bs dl).map fun b => (b, []))
    simp only [List.map_map, Function.comp_def] at this ⊢
    rw [this]
    simp only [List.map_id']
    rw [itemsPerWorker_eq _ _ _ _ _ hW hnw hbs]
    generalize ((List.range W).flatMap fun r => (List.range nw).map fun i =>
        quota (ivs.map Interval.size).sum W nw bs dl r i) = B
    show _ = cut B (datasetSamples idx ivs)
    unfold datasetSamples
    generalize (idx.zip ivs).flatMap _ = D
    induction B generalizing D with
    | nil => rfl
    | cons b B ih =>
      simp only [List.map_cons, cut, List.zipWith_cons_cons, ih]
      simp [samples]

end LitData

namespace LitData
open Spec

theorem cut_getElem? {α : Type} (ns : List Nat) (xs : List α) (i : Nat) (h : i < ns.length) :
    (cut ns xs)[i]? = some ((xs.drop (ns.take i).sum).take ns[i]) := by
  induction ns generalizing xs i with
  | nil => simp at h
  | cons n ns ih =>
    cases i with
    | zero => simp [cut]
    | succ i =>
      simp only [cut, List.getElem?_cons_succ, List.take_succ_cons, List.sum_cons, List.getElem_cons_succ]
      rw [ih (xs.drop n) i (by simpa using h), List.drop_drop]

theorem sum_take_add_le (f : Nat → Nat) (n i : Nat) (h : i < n) :
    (((List.range n).map f).take i).sum + f i ≤ ((List.range n).map f).sum := by
  rw [← List.map_take, List.take_range, Nat.min_eq_left (Nat.le_of_lt h), range_split n i h]
  simp

/-- Where a piece comes from: it is a non-empty sub-region of one of the given chunks. -/
def FromChunks (cs : List (Nat × Interval)) (p : Piece) : Prop :=
  ∃ iv, (p.chunk, iv) ∈ cs ∧ p.interval.chunkStart = iv.chunkStart ∧
    p.interval.chunkEnd = iv.chunkEnd ∧ iv.roiStart ≤ p.interval.roiStart ∧
    p.interval.roiStart < p.interval.roiEnd ∧ p.interval.roiEnd ≤ iv.roiEnd

theorem assignChunk_from (c : Nat) (iv : Interval) (bs : List Nat) :
    ∀ u ∈ assignChunk c iv bs, ∀ p, u.2 = some p → FromChunks [(c, iv)] p := by
  induction bs generalizing iv with
  | nil => simp [assignChunk]
  | cons b bs ih =>
    unfold assignChunk
    intro u hu p hp
    split at hu
    · simp only [List.mem_cons] at hu
      rcases hu with rfl | hu
      · simp at hp
      · exact ih iv u hu p hp
    split at hu
    · simp only [List.mem_cons, List.mem_map] at hu
      rcases hu with rfl | ⟨_, _, rfl⟩ <;> simp at hp
    split at hu
    · rename_i hb _ hgt
      unfold Interval.size at hgt
      simp only [List.mem_cons] at hu
      rcases hu with rfl | hu
      · simp only [Option.some.injEq] at hp
        subst hp
        exact ⟨iv, by simp, rfl, rfl, Nat.le_refl _, by dsimp only; omega, by dsimp only; omega⟩
      · obtain ⟨iv', h1, h2, h3, h4, h5, h6⟩ := ih _ u hu p hp
        simp only [List.mem_singleton, Prod.mk.injEq] at h1
        obtain ⟨h1a, h1b⟩ := h1
        subst h1b
        exact ⟨iv, by simp [h1a], h2, h3, by dsimp only at h4; omega, h5, h6⟩
    · rename_i hb hne hle
      unfold Interval.size at hne
      simp only [List.mem_cons, List.mem_map] at hu
      rcases hu with rfl | ⟨_, _, rfl⟩
      · simp only [Option.some.injEq] at hp
        subst hp
        exact ⟨iv, by simp, rfl, rfl, Nat.le_refl _, by dsimp only; omega, Nat.le_refl _⟩
      · simp at hp

theorem FromChunks.mono {cs cs' : List (Nat × Interval)} (h : ∀ x ∈ cs, x ∈ cs') {p : Piece}
    (hp : FromChunks cs p) : FromChunks cs' p := by
  obtain ⟨iv, h1, h2⟩ := hp
  exact ⟨iv, h _ h1, h2⟩

theorem assignLoop_from (all cs : List (Nat × Interval)) (st : List (Nat × List Piece))
    (hsub : ∀ x ∈ cs, x ∈ all) (hst : ∀ s ∈ st, ∀ p ∈ s.2, FromChunks all p) :
    ∀ s ∈ assignLoop cs st, ∀ p ∈ s.2, FromChunks all p := by
  induction cs generalizing st with
  | nil => simpa [assignLoop] using hst
  | cons x cs ih =>
    obtain ⟨c, iv⟩ := x
    simp only [assignLoop]
    apply ih
    · intro x hx; exact hsub x (by simp [hx])
    · intro s hs p hp
      simp only [List.mem_map, Prod.exists] at hs
      obtain ⟨b, ps, u1, u2, hz, rfl⟩ := hs
      have hz1 := (List.of_mem_zip hz).1
      have hz2 := (List.of_mem_zip hz).2
      simp only at hp
      cases u2 with
      | none => exact hst _ hz1 p (by simpa [appendOpt] using hp)
      | some q =>
        simp only [appendOpt, List.mem_append, List.mem_singleton] at hp
        rcases hp with hp | rfl
        · exact hst _ hz1 p hp
        · exact (assignChunk_from c iv _ _ hz2 p rfl).mono
            (by intro x hx; simp only [List.mem_singleton] at hx; subst hx; exact hsub _ (by simp))

theorem associate_from {W : Nat} {idx : List Nat} {ivs : List Interval} {dl : Bool} {nw bs : Nat}
    {ws : List (List Piece)} (h : associate W idx ivs dl nw bs = .ok ws) :
    ∀ ps ∈ ws, ∀ p ∈ ps, FromChunks (idx.zip ivs) p := by
  unfold associate at h
  split at h
  · simp at h
  split at h
  · simp at h
  simp only [Except.ok.injEq] at h
  subst h
  intro ps hps p hp
  simp only [List.mem_map] at hps
  obtain ⟨s, hs, rfl⟩ := hps
  refine assignLoop_from _ _ _ (fun _ h => h) ?_ s hs p hp
  intro s hs q hq
  simp only [List.mem_map] at hs
  obtain ⟨b, _, rfl⟩ := hs
  simp at hq

theorem rank_samples_eq (W : Nat) (idx : List Nat) (ivs : List Interval) (dl : Bool) (nw bs : Nat)
    (hnw : 0 < nw) (r : Nat) (hr : r < W) (ws : List (List Piece))
    (hws : ws.map samples = cut ((List.range W).flatMap fun r => (List.range nw).map fun i =>
        quota (ivs.map Interval.size).sum W nw bs dl r i) (datasetSamples idx ivs)) :
    rankSamples ws r nw =
      ((datasetSamples idx ivs).drop (r * (bs * ((ivs.map Interval.size).sum / (bs * W))))).take
        (bs * ((ivs.map Interval.size).sum / (bs * W)) + (if dl = false ∧ r + 1 = W then
          (ivs.map Interval.size).sum - bs * ((ivs.map Interval.size).sum / (bs * W)) * W else 0)) := by
  unfold rankSamples rankWorkers
  rw [List.flatMap_def, List.map_take, List.map_drop, hws,
    cut_rank _ nw W r (by simp) hr, cut_flatten, quota_rank_sum _ _ _ _ _ _ hnw]
  congr 2
  apply sum_flatMap_range
  intro i hi
  rw [quota_rank_sum _ _ _ _ _ _ hnw, if_neg (by omega)]
  rfl

theorem samples_length (ps : List Piece) : (samples ps).length = (ps.map fun p => p.interval.size).sum := by
  induction ps with
  | nil => rfl
  | cons p ps ih =>
    rw [show samples (p :: ps) = region p.chunk p.interval.roiStart p.interval.roiEnd ++ samples ps by
      simp [samples]]
    rw [List.length_append, ih, region_length]
    rfl

theorem shuffleLen_eq (ws : List (List Piece)) (r nw : Nat) :
    shuffleLen ws r nw = (rankSamples ws r nw).length := by
  unfold shuffleLen rankSamples rankWorkers
  generalize (ws.drop (r * nw)).take nw = l
  induction l with
  | nil => rfl
  | cons a l ih => simp [← ih, samples_length]

theorem region_nodup (c a b : Nat) : (region c a b).Nodup := by
  unfold region
  rw [List.Nodup, List.pairwise_map]
  exact List.Pairwise.imp (by intro a b h; simpa using h) (List.nodup_range' (s := a) (n := b - a))

theorem datasetSamples_nodup (idx : List Nat) (ivs : List Interval) (h : idx.Nodup) :
    (datasetSamples idx ivs).Nodup := by
  unfold datasetSamples
  induction idx generalizing ivs with
  | nil => simp
  | cons i idx ih =>
    cases ivs with
    | nil => simp
    | cons iv ivs =>
      rw [List.nodup_cons] at h
      rw [List.zip_cons_cons, List.flatMap_cons, List.nodup_append]
      refine ⟨region_nodup _ _ _, ih ivs h.2, ?_⟩
      intro x hx y hy hxy
      subst hxy
      simp only [region, List.mem_map, List.mem_flatMap, Prod.exists] at hx hy
      obtain ⟨_, _, rfl⟩ := hx
      obtain ⟨c, iv', hz, _, _, he⟩ := hy
      simp only [Prod.mk.injEq] at he
      exact h.1 (he.1 ▸ (List.of_mem_zip hz).1)

end LitData
