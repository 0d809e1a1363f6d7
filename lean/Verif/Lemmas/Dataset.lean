import Verif.Model.Dataset
import Verif.Spec.Stream
import Verif.Lemmas.AssignRank

/-! Invariant of the iteration of one worker. -/

namespace LitData
open Spec

/-- Every piece has at least one sample. -/
def NonEmptyPieces (ps : List Piece) : Prop := ∀ p ∈ ps, p.interval.roiStart < p.interval.roiEnd

theorem pieceStream_length (f : List Nat → List Nat) (hf : ∀ l, (f l).Perm l) (p : Piece) :
    (pieceStream f p).length = p.interval.size := by
  unfold pieceStream Interval.size
  rw [List.length_map, (hf _).length_eq, List.length_range']

theorem stream_length (f : Nat → List Nat → List Nat) (hf : ∀ k l, (f k l).Perm l) (ps : List Piece) (k : Nat) :
    (stream f k ps).length = (ps.map fun p => p.interval.size).sum := by
  induction ps generalizing k with
  | nil => rfl
  | cons p ps ih => simp [stream, pieceStream_length _ (hf k), ih]

theorem pieceStream_perm (f : List Nat → List Nat) (hf : ∀ l, (f l).Perm l) (p : Piece) :
    (pieceStream f p).Perm (region p.chunk p.interval.roiStart p.interval.roiEnd) := by
  unfold pieceStream region
  exact (hf _).map _

theorem stream_perm (f : Nat → List Nat → List Nat) (hf : ∀ k l, (f k l).Perm l) (ps : List Piece) (k : Nat) :
    (stream f k ps).Perm (samples ps) := by
  induction ps generalizing k with
  | nil => exact List.Perm.refl _
  | cons p ps ih =>
    rw [show samples (p :: ps) = region p.chunk p.interval.roiStart p.interval.roiEnd ++ samples ps by
      simp [samples]]
    exact List.Perm.append (pieceStream_perm _ (hf k) p) (ih (k+1))

theorem stream_id (ps : List Piece) (k : Nat) : stream (fun _ l => l) k ps = samples ps := by
  induction ps generalizing k with
  | nil => rfl
  | cons p ps ih =>
    rw [show samples (p :: ps) = region p.chunk p.interval.roiStart p.interval.roiEnd ++ samples ps by
      simp [samples]]
    rw [stream, ih]
    rfl

theorem pieceStream_ne_nil (f : List Nat → List Nat) (hf : ∀ l, (f l).Perm l) (p : Piece)
    (hp : p.interval.roiStart < p.interval.roiEnd) : pieceStream f p ≠ [] := by
  intro h
  have := pieceStream_length f hf p
  rw [h] at this
  unfold Interval.size at this
  simp at this
  omega

theorem stream_eq_nil (f : Nat → List Nat → List Nat) (hf : ∀ k l, (f k l).Perm l) (ps : List Piece)
    (hne : NonEmptyPieces ps) (k : Nat) : stream f k ps = [] ↔ ps = [] := by
  cases ps with
  | nil => simp [stream]
  | cons p ps =>
    have := pieceStream_ne_nil _ (hf k) p (hne p (by simp))
    simp [stream, this]

/-- The samples a worker still has to deliver. -/
def remaining (sh : Shuffler) (s : IterState) : List (Nat × Nat) :=
  (match s.pieces[s.nextChunk - 1]? with
    | some p => s.upcoming.map fun i => (p.chunk, i)
    | none => []) ++
  stream (fun k l => sh l s.numChunks s.epoch k) s.nextChunk (s.pieces.drop s.nextChunk)

/-- Invariant of the iteration. -/
structure IterInv (sh : Shuffler) (s : IterState) : Prop where
  num : s.numChunks = s.pieces.length
  cur : s.upcoming ≠ [] → ∃ p, s.pieces[s.nextChunk - 1]? = some p
  le : s.nextChunk ≤ s.numChunks
  budget : s.globalIndex + (remaining sh s).length ≤ s.stopLength
  ne : NonEmptyPieces s.pieces

theorem popNext_spec (sh : Shuffler) (hsh : ∀ a n e k, (sh a n e k).Perm a) (s : IterState)
    (hi : IterInv sh s) (hup : s.upcoming ≠ []) :
    ∃ x xs ci s', remaining sh s = x :: xs ∧ popNext s = .ok (some ci, s') ∧
      (ci.chunkIndex, ci.index) = x ∧ remaining sh s' = xs ∧ IterInv sh s' ∧
      ci.isLastIndex = xs.isEmpty ∧
      ci.chunkIndexes = (if s.hasTriggeredDownload then none
        else some ((s.pieces.drop (s.nextChunk - 1)).map (·.chunk))) ∧
      s'.hasTriggeredDownload = true ∧ s'.pieces = s.pieces ∧ s'.epoch = s.epoch := by
  obtain ⟨p, hp⟩ := hi.cur hup
  cases hu : s.upcoming with
  | nil => exact absurd hu hup
  | cons i rest =>
    have hst : remaining sh { s with upcoming := rest, hasTriggeredDownload := true, globalIndex := s.globalIndex + 1 } =
        rest.map (fun i => (p.chunk, i)) ++
          stream (fun k l => sh l s.numChunks s.epoch k) s.nextChunk (s.pieces.drop s.nextChunk) := by
      simp [remaining, hp]
    have hrem : remaining sh s = (p.chunk, i) :: (rest.map (fun i => (p.chunk, i)) ++
          stream (fun k l => sh l s.numChunks s.epoch k) s.nextChunk (s.pieces.drop s.nextChunk)) := by
      simp [remaining, hp, hu]
    refine ⟨_, _, {
          index := i, chunkIndex := p.chunk,
          chunkIndexes := if s.hasTriggeredDownload then none
            else some ((s.pieces.drop (s.nextChunk - 1)).map (·.chunk)),
          isLastIndex := decide (s.nextChunk = s.numChunks) && rest.isEmpty },
      { s with upcoming := rest, hasTriggeredDownload := true, globalIndex := s.globalIndex + 1 },
      hrem, ?_, ?_, hst, ?_, ?_, ?_, rfl, rfl, rfl⟩
    · unfold popNext
      simp only [hu, hp]
    · rfl
    · constructor
      · exact hi.num
      · intro _; exact ⟨p, hp⟩
      · exact hi.le
      · rw [hst]
        have := hi.budget
        rw [hrem] at this
        simp only [List.length_cons] at this
        show s.globalIndex + 1 + _ ≤ s.stopLength
        omega
      · exact hi.ne
    · have hnil := stream_eq_nil (fun k l => sh l s.numChunks s.epoch k) (fun k l => hsh _ _ _ _)
        (s.pieces.drop s.nextChunk) (fun q hq => hi.ne q (List.mem_of_mem_drop hq)) s.nextChunk
      rw [List.drop_eq_nil_iff] at hnil
      have hle := hi.le
      have hnum := hi.num
      dsimp only
      cases rest with
      | cons a r => simp
      | nil =>
        rw [Bool.eq_iff_iff]
        simp only [List.isEmpty_nil, Bool.and_true, decide_eq_true_eq, List.map_nil, List.nil_append,
          List.isEmpty_iff, hnil]
        omega
    · rfl

theorem nextItem_spec (sh : Shuffler) (hsh : ∀ a n e k, (sh a n e k).Perm a) (s : IterState)
    (hi : IterInv sh s) :
    (remaining sh s = [] → nextItem sh s = .ok (none, endEpoch s)) ∧
    (∀ x xs, remaining sh s = x :: xs → ∃ ci s', nextItem sh s = .ok (some ci, s') ∧
      (ci.chunkIndex, ci.index) = x ∧ remaining sh s' = xs ∧ IterInv sh s' ∧
      ci.isLastIndex = xs.isEmpty ∧
      (s.hasTriggeredDownload = true → ci.chunkIndexes = none) ∧
      (s.hasTriggeredDownload = false → s.upcoming = [] →
        ci.chunkIndexes = some ((s.pieces.drop s.nextChunk).map (·.chunk))) ∧
      (s.hasTriggeredDownload = false → s.upcoming ≠ [] →
        ci.chunkIndexes = some ((s.pieces.drop (s.nextChunk - 1)).map (·.chunk))) ∧
      s'.hasTriggeredDownload = true ∧ s'.pieces = s.pieces ∧ s'.epoch = s.epoch) := by
  by_cases hup : s.upcoming = []
  · -- a new chunk has to be opened
    by_cases hlt : s.nextChunk < s.numChunks
    · have hlt' : s.nextChunk < s.pieces.length := by rw [← hi.num]; exact hlt
      have hget : s.pieces[s.nextChunk]? = some s.pieces[s.nextChunk] := by simp [hlt']
      generalize hq : s.pieces[s.nextChunk] = q at hget
      have hqm : q ∈ s.pieces := hq ▸ List.getElem_mem hlt'
      have hdrop : s.pieces.drop s.nextChunk = q :: s.pieces.drop (s.nextChunk + 1) := by
        rw [List.drop_eq_getElem_cons hlt', hq]
      let t : IterState := { s with
          upcoming := sh q.interval.positions s.numChunks s.epoch s.nextChunk,
          nextChunk := s.nextChunk + 1 }
      have ht : remaining sh t = remaining sh s := by
        have h1 : remaining sh s = stream (fun k l => sh l s.numChunks s.epoch k) s.nextChunk
            (s.pieces.drop s.nextChunk) := by
          simp only [remaining, hup, List.map_nil]
          split <;> rfl
        rw [h1, hdrop]
        simp only [remaining, t, Nat.add_sub_cancel, hget, stream]
        rfl
      have hinv : IterInv sh t := by
        constructor
        · exact hi.num
        · intro _; exact ⟨q, by simp [t, hget]⟩
        · exact hlt
        · rw [ht]; exact hi.budget
        · exact hi.ne
      have htup : t.upcoming ≠ [] := by
        have := (hsh q.interval.positions s.numChunks s.epoch s.nextChunk).length_eq
        have h2 := hi.ne q hqm
        intro h
        have h3 : sh q.interval.positions s.numChunks s.epoch s.nextChunk = [] := h
        rw [h3] at this
        simp [Interval.positions] at this
        omega
      obtain ⟨x, xs, ci, s', p1, p2, p3, p4, p5, p6, p7, p8, p9, p10⟩ := popNext_spec sh hsh t hinv htup
      rw [ht] at p1
      constructor
      · intro h; rw [h] at p1; simp at p1
      · intro y ys hy
        rw [p1, List.cons.injEq] at hy
        obtain ⟨rfl, rfl⟩ := hy
        refine ⟨ci, s', ?_, p3, p4, p5, p6, ?_, ?_, ?_, p8, p9, p10⟩
        · have hb := hi.budget
          rw [p1] at hb
          simp only [List.length_cons] at hb
          unfold nextItem
          rw [if_neg (by omega), if_pos (by simp [hup]), if_neg (by omega)]
          simp only [hget]
          exact p2
        · intro h; rw [p7]; simp [t, h]
        · intro h _; rw [p7]; simp [t, h]
        · intro _ h; exact absurd hup h
    · have hnil : remaining sh s = [] := by
        have h1 : s.pieces.drop s.nextChunk = [] := by
          rw [List.drop_eq_nil_iff, ← hi.num]; omega
        simp only [remaining, hup, List.map_nil, h1, stream]
        split <;> rfl
      constructor
      · intro _
        unfold nextItem
        split
        · rfl
        · rw [if_pos (by simp [hup]), if_pos (by omega)]
      · intro x xs h; rw [hnil] at h; simp at h
  · obtain ⟨x, xs, ci, s', p1, p2, p3, p4, p5, p6, p7, p8, p9, p10⟩ := popNext_spec sh hsh s hi hup
    constructor
    · intro h; rw [h] at p1; simp at p1
    · intro y ys hy
      rw [p1, List.cons.injEq] at hy
      obtain ⟨rfl, rfl⟩ := hy
      refine ⟨ci, s', ?_, p3, p4, p5, p6, ?_, ?_, ?_, p8, p9, p10⟩
      · have hb := hi.budget
        rw [p1] at hb
        simp only [List.length_cons] at hb
        unfold nextItem
        rw [if_neg (by omega), if_neg (by simpa using hup)]
        exact p2
      · intro h; rw [p7]; simp [h]
      · intro _ h; exact absurd h hup
      · intro h _; rw [p7]; simp [h]

/-- The part of a `ChunkedIndex` that identifies a sample. -/
def ChunkedIndex.sample (c : ChunkedIndex) : Nat × Nat := (c.chunkIndex, c.index)

theorem runIter_spec (sh : Shuffler) (hsh : ∀ a n e k, (sh a n e k).Perm a) (l : List (Nat × Nat)) (s : IterState)
    (hi : IterInv sh s) (hl : remaining sh s = l) (fuel : Nat) (hf : l.length < fuel) :
    ∃ xs s', runIter sh fuel s = .ok (xs, true, s') ∧ xs.map ChunkedIndex.sample = l ∧
      s'.epoch = s.epoch + 1 ∧ s'.resuming = false ∧
      xs.map (·.isLastIndex) = List.replicate (l.length - 1) false ++ (if l = [] then [] else [true]) ∧
      (s.hasTriggeredDownload = true → ∀ x ∈ xs, x.chunkIndexes = none) ∧
      (∀ x ∈ xs.tail, x.chunkIndexes = none) ∧
      (s.hasTriggeredDownload = false → ∀ x ∈ xs.head?, x.chunkIndexes =
        some ((s.pieces.drop (if s.upcoming = [] then s.nextChunk else s.nextChunk - 1)).map (·.chunk))) := by
  induction l generalizing s fuel with
  | nil =>
    obtain ⟨f, rfl⟩ : ∃ f, fuel = f + 1 := ⟨fuel - 1, by simp at hf; omega⟩
    refine ⟨[], endEpoch s, ?_, rfl, rfl, rfl, rfl, by simp, by simp, by simp⟩
    simp only [runIter, (nextItem_spec sh hsh s hi).1 hl, bind, Except.bind]
    rfl
  | cons x l ih =>
    obtain ⟨f, rfl⟩ : ∃ f, fuel = f + 1 := ⟨fuel - 1, by simp at hf; omega⟩
    obtain ⟨ci, s', h1, h2, h3, h4, h5, h6, h7, h7', h8, h9, h10⟩ := (nextItem_spec sh hsh s hi).2 x l hl
    obtain ⟨xs, s'', g1, g2, g3, g4, g5, g6, g7, _⟩ := ih s' h4 h3 f (by simp at hf; omega)
    refine ⟨ci :: xs, s'', ?_, ?_, ?_, g4, ?_, ?_, ?_, ?_⟩
    · simp only [runIter, h1, bind, Except.bind, g1]
      rfl
    · simp [g2, ← h2, ChunkedIndex.sample]
    · rw [g3, h10]
    · rw [List.map_cons, g5, h5]
      cases l with
      | nil => simp
      | cons a l => simp [List.replicate_succ]
    · intro ht y hy
      rcases List.mem_cons.1 hy with rfl | hy
      · exact h6 ht
      · exact g6 h8 y hy
    · intro y hy
      exact g6 h8 y hy
    · intro ht y hy
      simp only [List.head?_cons, Option.mem_some_iff] at hy
      subst hy
      split
      · rename_i h; exact h7 ht h
      · rename_i h; exact h7' ht h

theorem iterStart_inv (sh : Shuffler) (hsh : ∀ a n e k, (sh a n e k).Perm a) (ps : List Piece)
    (hne : NonEmptyPieces ps) (epoch : Nat) :
    IterInv sh (iterStart ps epoch) ∧
    remaining sh (iterStart ps epoch) = stream (fun k l => sh l ps.length epoch k) 0 ps := by
  have hrem : remaining sh (iterStart ps epoch) = stream (fun k l => sh l ps.length epoch k) 0 ps := by
    simp only [remaining, iterStart, List.map_nil, List.drop_zero]
    split <;> rfl
  refine ⟨⟨rfl, by simp [iterStart], Nat.zero_le _, ?_, hne⟩, hrem⟩
  rw [hrem, stream_length _ (fun k l => hsh _ _ _ _)]
  simp [iterStart]

end LitData
