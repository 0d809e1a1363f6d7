import Verif.Props.ReaderMore

/-! Reading a remote dataset by index (C76). -/

namespace LitData.Props

open LitData

/-- The items that `dataset[i]` and slices ask for (`streaming/dataset.py:389-412`): no list of chunks and never the last one. -/
def ByIndex (xs : List ChunkedIndex) : Prop := ∀ x ∈ xs, x.chunkIndexes = none ∧ x.isLastIndex = false

/-- The chunks of the items that were delivered. -/
def seenChunks (xs : List ChunkedIndex) (n : Nat) : List Nat := (xs.take n).map (·.chunkIndex)

/-- Where a reader by index is. -/
inductive RandPhase (xs : List ChunkedIndex) (s : RemoteState) : Prop
  | fresh : s.p = .init → s.reader = .init → s.pc = .idle → s.done = 0 → RandPhase xs s
  | between : s.pc = .idle → 0 < s.done → s.done ≤ xs.length → s.reader.thread = true → s.reader.queued = false → s.reader.last = (seenChunks xs s.done).getLast? →
      s.p.requested = squeeze (seenChunks xs s.done) → s.p.consumed = (squeeze (seenChunks xs s.done)).dropLast → s.p.stopped = false → RandPhase xs s
  | within (x : ChunkedIndex) (l : List Nat) : (s.pc = .asking l ∨ (l = [] ∧ (s.pc = .waiting ∨ s.pc = .failed))) → xs[s.done]? = some x → s.reader.thread = true →
      s.reader.queued = false → s.reader.last = (if s.done = 0 then some x.chunkIndex else (seenChunks xs s.done).getLast?) →
      s.p.requested ++ l = squeeze (seenChunks xs s.done ++ [x.chunkIndex]) → s.p.consumed = (squeeze (seenChunks xs s.done)).dropLast →
      s.p.stopped = false → RandPhase xs s

/-- The files in the cache are whole or too short. -/
def WholeOrShort (cfg : RemoteCfg) (disk : String → Option Bytes) : Prop :=
  ∀ (c : Nat) (info : ChunkInfo), cfg.chunks[c]? = some info → ∀ f, disk (cfg.join info.filename) = some f →
    f.length < info.chunkBytes ∨ cfg.files (cfg.join info.filename) = some f

structure RandInv (cfg : RemoteCfg) (xs : List ChunkedIndex) (raws : List Bytes) (s : RemoteState) : Prop where
  disk : WholeOrShort cfg s.disk
  phase : RandPhase xs s
  sync : cfg.ecfg = none → s.out = raws.take s.done ∧
    readLocated cfg.files cfg.join cfg.enc cfg.ecfg cfg.chunks cfg.ivs s.reader.loader ((xs.drop s.done).map fun c => (c.index, c.chunkIndex)) = .ok (raws.drop s.done)

theorem wholeOrShort_update {cfg : RemoteCfg} (hok : RemoteOk cfg) {disk : String → Option Bytes} (h : WholeOrShort cfg disk) {c : Nat} {info : ChunkInfo}
    (hc : cfg.chunks[c]? = some info) {f : Option Bytes}
    (hf : f = none ∨ f = cfg.files (cfg.join info.filename) ∨ ∃ part, f = some part ∧ part.length < info.chunkBytes) :
    WholeOrShort cfg fun q => if q = cfg.join info.filename then f else disk q := by
  intro d i hd g hg
  simp only at hg
  split at hg
  · rename_i e
    have := hok.paths d c _ (pathOf_info hd) (by rw [e]; exact pathOf_info hc)
    subst this
    rw [hc] at hd
    cases hd
    rcases hf with k | k | ⟨part, k, kl⟩
    · rw [k] at hg; cases hg
    · rw [k] at hg; exact .inr hg
    · rw [k] at hg; cases hg; exact .inl kl
  · exact h d i hd g hg

theorem wholeOrShort_thread {cfg : RemoteCfg} {p t : PrepState} {disk disk' : String → Option Bytes} (h : WholeOrShort cfg disk)
    (hd : DiskAfter cfg p t disk disk') : WholeOrShort cfg disk' := by
  intro c info hc f hf
  rcases hd.1 (cfg.join info.filename) with g | ⟨_, _, _, g⟩ | ⟨_, _, _, g⟩
  · rw [g] at hf; exact h c info hc f hf
  · rw [g] at hf; exact .inr hf
  · rw [g] at hf; cases hf

theorem squeeze_ne_nil {l : List Nat} (h : l ≠ []) : squeeze l ≠ [] := by
  intro g
  have := squeeze_getLast l
  rw [g] at this
  cases l with
  | nil => exact h rfl
  | cons a l => rw [List.getLast?_cons] at this; cases this

theorem randInv_step {cfg : RemoteCfg} (hok : RemoteOk cfg) {xs : List ChunkedIndex} (hxs : ByIndex xs) {raws : List Bytes} {s t : RemoteState}
    (h : RandInv cfg xs raws s) (hst : RStep cfg xs s t) : RandInv cfg xs raws t := by
  obtain ⟨hdisk, hphase, hsync⟩ := h
  cases hst with
  | thread t disk hrun ht hd =>
    refine ⟨wholeOrShort_thread hdisk hd, ?_, hsync⟩
    obtain ⟨_, _, _, g1, g2, _, g3⟩ := tstep_logs ht
    cases hphase with
    | fresh h1 h2 h3 h4 =>
      rw [h1, h2] at hrun
      simp [ReaderState.init, PrepState.init] at hrun
    | between h1 h2 h3 h4 h5 h6 h7 h8 h9 => exact .between h1 h2 h3 h4 h5 h6 (g1.trans h7) (g2.trans h8) (g3.trans h9)
    | within x l h1 h2 h3 h4 h5 h6 h7 h8 => exact .within x l h1 h2 h3 h4 h5 (by simp only [g1]; exact h6) (g2.trans h7) (g3.trans h8)
  | arriving c info part hrun hhead hc hlt hpart =>
    refine ⟨wholeOrShort_update hok hdisk hc (.inr (.inr ⟨part, rfl, hlt⟩)), ?_, hsync⟩
    cases hphase with
    | fresh h1 h2 h3 h4 => exact .fresh h1 h2 h3 h4
    | between h1 h2 h3 h4 h5 h6 h7 h8 h9 => exact .between h1 h2 h3 h4 h5 h6 h7 h8 h9
    | within x l h1 h2 h3 h4 h5 h6 h7 h8 => exact .within x l h1 h2 h3 h4 h5 h6 h7 h8
  | others c info f hw hc hf =>
    refine ⟨wholeOrShort_update hok hdisk hc ?_, ?_, hsync⟩
    · rcases hf with g | g | ⟨g, _⟩
      · exact .inl g
      · exact .inr (.inl g)
      · exact .inr (.inr g)
    · cases hphase with
      | fresh h1 h2 h3 h4 => exact .fresh h1 h2 h3 h4
      | between h1 h2 h3 h4 h5 h6 h7 h8 h9 => exact .between h1 h2 h3 h4 h5 h6 h7 h8 h9
      | within x l h1 h2 h3 h4 h5 h6 h7 h8 => exact .within x l h1 h2 h3 h4 h5 h6 h7 h8
  | ask x hpc hx =>
    have hno := hxs x (List.mem_of_getElem? hx)
    have hld : (beginRead s.reader x).1.loader = s.reader.loader := rfl
    refine ⟨hdisk, ?_, fun g => ⟨(hsync g).1, by simp only [hld]; exact (hsync g).2⟩⟩
    cases hphase with
    | fresh h1 h2 h3 h4 =>
      have he : beginRead s.reader x = (⟨true, some x.chunkIndex, false, .init⟩, true, [x.chunkIndex]) := by
        unfold beginRead
        rw [h2, hno.1]
        simp [ReaderState.init]
      rw [he]
      refine .within x [x.chunkIndex] (.inl rfl) hx rfl rfl (by simp [h4]) ?_ ?_ rfl
      · simp [h4, seenChunks, PrepState.init, squeeze]
      · simp [h4, seenChunks, PrepState.init, squeeze]
    | between h1 h2 h3 h4 h5 h6 h7 h8 h9 =>
      have hne : seenChunks xs s.done ≠ [] := by
        unfold seenChunks
        intro g
        rw [List.map_eq_nil_iff, List.take_eq_nil_iff] at g
        rcases g with g | g
        · omega
        · rw [g] at hx; cases hx
      obtain ⟨l, hl⟩ : ∃ l, (seenChunks xs s.done).getLast? = some l := ⟨_, List.getLast?_eq_some_getLast hne⟩
      have he : beginRead s.reader x = (s.reader, false, if s.reader.last = some x.chunkIndex then [] else [x.chunkIndex]) := by
        unfold beginRead
        rw [h4, h5, h6, hl]
        cases hr : s.reader with
        | mk a b c d =>
          rw [hr] at h4 h5 h6
          simp only at h4 h5 h6
          subst h4 h5
          rw [h6, hl]
          by_cases hk : l = x.chunkIndex <;> simp [hk]
      rw [he]
      refine .within x _ (.inl rfl) hx h4 h5 (by simp only; rw [if_neg (by omega)]; exact h6) ?_ h8 h9
      simp only [Bool.false_eq_true, if_false]
      rw [squeeze_snoc, h7, h6]
      split <;> simp
    | within x' l h1 h2 h3 h4 h5 h6 h7 h8 => rw [hpc] at h1; simp at h1
  | request c l hpc =>
    refine ⟨hdisk, ?_, hsync⟩
    cases hphase with
    | fresh h1 h2 h3 h4 => rw [hpc] at h3; cases h3
    | between h1 => rw [hpc] at h1; cases h1
    | within x' l' h1 h2 h3 h4 h5 h6 h7 h8 =>
      rw [hpc] at h1
      simp at h1
      subst h1
      exact .within x' l (.inl rfl) h2 h3 h4 h5 (by simp only [List.append_assoc]; exact h6) h7 h8
  | requested hpc =>
    refine ⟨hdisk, ?_, hsync⟩
    cases hphase with
    | fresh h1 h2 h3 h4 => rw [hpc] at h3; cases h3
    | between h1 => rw [hpc] at h1; cases h1
    | within x' l' h1 h2 h3 h4 h5 h6 h7 h8 =>
      rw [hpc] at h1
      simp at h1
      subst h1
      exact .within x' [] (.inr ⟨rfl, .inl rfl⟩) h2 h3 h4 h5 h6 h7 h8
  | force x hpc hx hne =>
    refine ⟨hdisk, ?_, hsync⟩
    cases hphase with
    | fresh h1 h2 h3 h4 => rw [hpc] at h3; cases h3
    | between h1 => rw [hpc] at h1; cases h1
    | within x' l' h1 h2 h3 h4 h5 h6 h7 h8 => exact .within x' l' h1 h2 h3 h4 h5 h6 h7 h8
  | fail hpc =>
    refine ⟨hdisk, ?_, hsync⟩
    cases hphase with
    | fresh h1 h2 h3 h4 => rw [hpc] at h3; cases h3
    | between h1 => rw [hpc] at h1; cases h1
    | within x' l' h1 h2 h3 h4 h5 h6 h7 h8 =>
      rw [hpc] at h1
      simp at h1
      subst h1
      exact .within x' [] (.inr ⟨rfl, .inr rfl⟩) h2 h3 h4 h5 h6 h7 h8
  | read x path b size raw ld hpc hx hg hl =>
    have hn : s.done < xs.length := by apply Nat.lt_of_not_le; intro g; rw [List.getElem?_eq_none g] at hx; cases hx
    have hno := hxs x (List.mem_of_getElem? hx)
    obtain ⟨info, hinfo, rfl, rfl⟩ := configGet_info hg
    cases hphase with
    | fresh h1 h2 h3 h4 => rw [hpc] at h3; cases h3
    | between h1 => rw [hpc] at h1; cases h1
    | within x' l' h1 h2 h3 h4 h5 h6 h7 h8 =>
      rw [hpc] at h1
      simp at h1
      subst h1
      rw [hx] at h2
      cases h2
      have he : endRead s.reader x ld = ({ s.reader with last := some x.chunkIndex, loader := ld }, (if s.reader.last = some x.chunkIndex then [] else s.reader.last.toList), false) := by
        unfold endRead
        rw [hno.2]
        rfl
      rw [he]
      have hseen : seenChunks xs (s.done + 1) = seenChunks xs s.done ++ [x.chunkIndex] := take_succ_map hx
      refine ⟨hdisk, ?_, ?_⟩
      · refine .between rfl (Nat.succ_pos _) hn h3 h4 ?_ ?_ ?_ (by simp [giveUp, h8])
        · simp only [hseen]; simp
        · simp only [hseen, giveUp]; simpa using h6
        · simp only [hseen, giveUp]
          rw [h7, h5, squeeze_snoc]
          by_cases hz : s.done = 0
          · simp [hz, seenChunks, squeeze]
          · rw [if_neg hz]
            have hne : seenChunks xs s.done ≠ [] := by
              unfold seenChunks
              intro g
              rw [List.map_eq_nil_iff, List.take_eq_nil_iff] at g
              rcases g with g | g
              · omega
              · rw [g] at hx; cases hx
            split
            · simp
            · rw [List.dropLast_concat]
              have h9 := squeeze_getLast (seenChunks xs s.done)
              rw [← h9]
              have h10 := squeeze_ne_nil hne
              rw [List.getLast?_eq_some_getLast h10]
              exact List.dropLast_concat_getLast h10
      · intro hen
        obtain ⟨o1, hrest⟩ := hsync hen
        have hdrop : xs.drop s.done = x :: xs.drop (s.done + 1) := by
          rw [List.drop_eq_getElem_cons hn]
          rw [List.getElem?_eq_getElem hn] at hx
          cases hx
          rfl
        have hsim := loadItem_sim (files := cfg.files) (hdisk _ info hinfo) (.inl hen) hl
        rw [hdrop, List.map_cons, readLocated] at hrest
        simp only [hg, hsim] at hrest
        cases hr : readLocated cfg.files cfg.join cfg.enc cfg.ecfg cfg.chunks cfg.ivs ld ((xs.drop (s.done + 1)).map fun c => (c.index, c.chunkIndex)) with
        | error e => rw [hr] at hrest; cases hrest
        | ok rs =>
          rw [hr] at hrest
          simp only [Except.ok.injEq] at hrest
          have hlt : s.done < raws.length := by
            apply Nat.lt_of_not_le; intro g; rw [List.drop_eq_nil_of_le g] at hrest; cases hrest
          rw [List.drop_eq_getElem_cons hlt] at hrest
          simp only [List.cons.injEq] at hrest
          refine ⟨?_, by simp only [hrest.2]⟩
          rw [o1, List.take_succ_eq_append_getElem hlt, hrest.1]

theorem randInv_reach {cfg : RemoteCfg} (hok : RemoteOk cfg) {xs : List ChunkedIndex} (hxs : ByIndex xs) {raws : List Bytes}
    (hraws : readLocated cfg.files cfg.join cfg.enc cfg.ecfg cfg.chunks cfg.ivs .init (xs.map fun c => (c.index, c.chunkIndex)) = .ok raws)
    {s : RemoteState} (h : RReach cfg xs s) : RandInv cfg xs raws s := by
  induction h with
  | init disk hd => exact ⟨fun c info hc f hf => .inr (hd _ f hf).1, .fresh rfl rfl rfl rfl, fun _ => ⟨rfl, hraws⟩⟩
  | step _ h2 ih => exact randInv_step hok hxs ih h2

/-- **C76, random access gives the same samples.** Whatever order the items are asked for in, and whatever the thread and the other workers do meanwhile, the
samples delivered by index are those of the remote folder. -/
theorem c76_by_index (cfg : RemoteCfg) (hok : RemoteOk cfg) (henc : cfg.ecfg = none) (xs : List ChunkedIndex) (hxs : ByIndex xs) (raws : List Bytes)
    (hraws : readLocated cfg.files cfg.join cfg.enc cfg.ecfg cfg.chunks cfg.ivs .init (xs.map fun c => (c.index, c.chunkIndex)) = .ok raws)
    (s : RemoteState) (h : RReach cfg xs s) : s.out = raws.take s.done :=
  ((randInv_reach hok hxs hraws h).sync henc).1

/-- **C76, what random access asks for.** A chunk is asked for once for each run of items in it, and given up once for each run that is over; the thread is never
told to stop. -/
theorem c76_by_index_requests (cfg : RemoteCfg) (hok : RemoteOk cfg) (xs : List ChunkedIndex) (hxs : ByIndex xs) (raws : List Bytes)
    (hraws : readLocated cfg.files cfg.join cfg.enc cfg.ecfg cfg.chunks cfg.ivs .init (xs.map fun c => (c.index, c.chunkIndex)) = .ok raws)
    (s : RemoteState) (h : RReach cfg xs s) :
    s.p.consumed = (squeeze ((xs.take s.done).map (·.chunkIndex))).dropLast ∧ s.p.stopped = false ∧
    (s.pc = .idle → s.p.requested = squeeze ((xs.take s.done).map (·.chunkIndex))) ∧
    (s.pc = .waiting → s.p.requested = squeeze ((xs.take (s.done + 1)).map (·.chunkIndex))) := by
  cases (randInv_reach hok hxs hraws h).phase with
  | fresh h1 h2 h3 h4 =>
    rw [h1, h3, h4]
    exact ⟨rfl, rfl, fun _ => rfl, fun g => by cases g⟩
  | between h1 h2 h3 h4 h5 h6 h7 h8 h9 => exact ⟨h8, h9, fun _ => h7, fun g => by rw [h1] at g; cases g⟩
  | within x l h1 h2 h3 h4 h5 h6 h7 h8 =>
    refine ⟨h7, h8, fun g => ?_, fun g => ?_⟩
    · rw [g] at h1; simp at h1
    · rw [g] at h1
      simp at h1
      subst h1
      rw [List.append_nil] at h6
      rw [take_succ_map h2]
      exact h6

/-- The hypotheses are met by the items of `c76_back_and_forth`, which asks three times for two chunks. -/
example : ByIndex backAndForth ∧ (readLocated backAndForthCfg.files backAndForthCfg.join none none backAndForthCfg.chunks backAndForthCfg.ivs .init
    (backAndForth.map fun c => (c.index, c.chunkIndex))).toOption = some [[1, 2], [4, 5, 6], [3]] ∧
    squeeze (backAndForth.map (·.chunkIndex)) = [0, 1, 0] := by
  refine ⟨?_, by decide +kernel, rfl⟩
  intro x hx
  simp only [backAndForth, List.mem_cons, List.not_mem_nil, or_false] at hx
  rcases hx with rfl | rfl | rfl <;> exact ⟨rfl, rfl⟩

end LitData.Props
