import Verif.Lemmas.Reader
import Verif.Props.Prepare
import Verif.Props.Streaming

/-! Streaming from a remote folder (C76). -/

namespace LitData.Props

open LitData

/-- The items of one pass over the chunks `cs`: the first one carries the list of chunks, the last one and only it is flagged, the chunks come one
after the other and none twice. -/
structure PassShape (xs : List ChunkedIndex) (cs : List Nat) : Prop where
  head : ∀ x ∈ xs.head?, x.chunkIndexes = some cs
  flag : ∀ (j : Nat) (x : ChunkedIndex), xs[j]? = some x → x.isLastIndex = decide (j + 1 = xs.length)
  chunks : squeeze (xs.map (·.chunkIndex)) = cs
  nodup : cs.Nodup

/-- Chunks have different files, and the remote folder has them all, of at least the size that the index says. -/
structure RemoteOk (cfg : RemoteCfg) : Prop where
  paths : ∀ c d q, cfg.pathOf c = some q → cfg.pathOf d = some q → c = d
  whole : ∀ (c : Nat) (info : ChunkInfo), cfg.chunks[c]? = some info → ∃ f, cfg.files (cfg.join info.filename) = some f ∧ info.chunkBytes ≤ f.length

/-- What is in the cache. -/
structure RemoteDisk (cfg : RemoteCfg) (p : PrepState) (disk : String → Option Bytes) : Prop where
  sizes : ∀ (c : Nat) (info : ChunkInfo), cfg.chunks[c]? = some info → ∀ f, disk (cfg.join info.filename) = some f →
    f.length < info.chunkBytes ∨ cfg.files (cfg.join info.filename) = some f
  origin : ∀ (c : Nat) (info : ChunkInfo), cfg.chunks[c]? = some info → ∀ f, disk (cfg.join info.filename) = some f → info.chunkBytes ≤ f.length →
    c ∈ p.downloaded ∨ c ∈ p.forced ∨ c ∈ cfg.prep.warm
  kept : cfg.prep.others = [] → ∀ (c : Nat) (info : ChunkInfo), cfg.chunks[c]? = some info → c ∈ p.downloaded ∨ c ∈ p.forced ∨ c ∈ cfg.prep.warm → c ∉ p.deleted →
    disk (cfg.join info.filename) = cfg.files (cfg.join info.filename)

theorem pathOf_info {cfg : RemoteCfg} {c : Nat} {info : ChunkInfo} (h : cfg.chunks[c]? = some info) : cfg.pathOf c = some (cfg.join info.filename) := by
  unfold RemoteCfg.pathOf; rw [h]; rfl

theorem pathOf_eq {cfg : RemoteCfg} {c : Nat} {q : String} (h : cfg.pathOf c = some q) : ∃ info, cfg.chunks[c]? = some info ∧ cfg.join info.filename = q := by
  unfold RemoteCfg.pathOf at h
  cases hc : cfg.chunks[c]? with
  | none => rw [hc] at h; cases h
  | some info => rw [hc] at h; simp only [Option.map_some, Option.some.injEq] at h; exact ⟨info, rfl, h⟩

theorem tstep_logs {cfg : PrepCfg} {s t : PrepState} (h : TStep cfg s t) :
    s.downloaded <+: t.downloaded ∧ s.forced <+: t.forced ∧ s.deleted <+: t.deleted ∧ t.requested = s.requested ∧ t.consumed = s.consumed ∧
      t.cur = s.cur ∧ t.stopped = s.stopped := by
  cases h <;> simp [cleanUp]

theorem mem_of_prefix_drop {l m : List Nat} (h : l <+: m) (c : Nat) (hc : c ∈ m) : c ∈ l ∨ c ∈ m.drop l.length := by
  obtain ⟨r, rfl⟩ := h
  rw [List.drop_left]
  exact List.mem_append.1 hc

theorem fetchedIn_mem {cfg : PrepCfg} {s t : PrepState} (h : TStep cfg s t) (c : Nat) (hc : c ∈ t.downloaded ∨ c ∈ t.forced) :
    (c ∈ s.downloaded ∨ c ∈ s.forced) ∨ c ∈ fetchedIn s t := by
  obtain ⟨a, b, _⟩ := tstep_logs h
  unfold fetchedIn
  rw [List.mem_append]
  rcases hc with g | g
  · rcases mem_of_prefix_drop a c g with k | k
    · exact .inl (.inl k)
    · exact .inr (.inl k)
  · rcases mem_of_prefix_drop b c g with k | k
    · exact .inl (.inr k)
    · exact .inr (.inr k)

theorem fetchedIn_sub {s t : PrepState} {c : Nat} (h : c ∈ fetchedIn s t) : c ∈ t.downloaded ∨ c ∈ t.forced := by
  unfold fetchedIn at h
  rw [List.mem_append] at h
  rcases h with g | g
  · exact .inl (List.mem_of_mem_drop g)
  · exact .inr (List.mem_of_mem_drop g)

theorem disk_thread {cfg : RemoteCfg} (hok : RemoteOk cfg) {p t : PrepState} {disk disk' : String → Option Bytes} (h : RemoteDisk cfg p disk)
    (hst : TStep cfg.prep p t) (hd : DiskAfter cfg p t disk disk') : RemoteDisk cfg t disk' := by
  obtain ⟨l1, l2, l3, _⟩ := tstep_logs hst
  have mono : ∀ c, c ∈ p.downloaded ∨ c ∈ p.forced ∨ c ∈ cfg.prep.warm → c ∈ t.downloaded ∨ c ∈ t.forced ∨ c ∈ cfg.prep.warm := by
    intro c hc
    rcases hc with g | g | g
    · exact .inl (l1.subset g)
    · exact .inr (.inl (l2.subset g))
    · exact .inr (.inr g)
  refine ⟨?_, ?_, ?_⟩
  · intro c info hc f hf
    rcases hd.1 (cfg.join info.filename) with g | ⟨d, _, _, g⟩ | ⟨d, _, _, g⟩
    · rw [g] at hf; exact h.sizes c info hc f hf
    · rw [g] at hf; exact .inr hf
    · rw [g] at hf; cases hf
  · intro c info hc f hf hl
    rcases hd.1 (cfg.join info.filename) with g | ⟨d, hdm, hdp, g⟩ | ⟨d, _, _, g⟩
    · rw [g] at hf; exact mono c (h.origin c info hc f hf hl)
    · have := hok.paths c d _ (pathOf_info hc) hdp
      subst this
      rcases fetchedIn_sub hdm with k | k
      · exact .inl k
      · exact .inr (.inl k)
    · rw [g] at hf; cases hf
  · intro hw c info hc hm hnd
    have hm' : (c ∈ p.downloaded ∨ c ∈ p.forced ∨ c ∈ cfg.prep.warm) ∨ c ∈ fetchedIn p t := by
      rcases hm with g | g | g
      · rcases fetchedIn_mem hst c (.inl g) with (k | k) | k
        · exact .inl (.inl k)
        · exact .inl (.inr (.inl k))
        · exact .inr k
      · rcases fetchedIn_mem hst c (.inr g) with (k | k) | k
        · exact .inl (.inl k)
        · exact .inl (.inr (.inl k))
        · exact .inr k
      · exact .inl (.inr (.inr g))
    rcases hm' with k | k
    · rcases hd.1 (cfg.join info.filename) with g | ⟨d, hdm, hdp, g⟩ | ⟨d, hdm, hdp, g⟩
      · rw [g]; exact h.kept hw c info hc k fun hx => hnd (l3.subset hx)
      · exact g
      · have := hok.paths c d _ (pathOf_info hc) hdp
        subst this
        exact absurd (List.mem_of_mem_drop hdm) hnd
    · exact hd.2 c k (by rw [hw]; simp) _ (pathOf_info hc)

theorem others_warm {cfg : PrepCfg} {c : Nat} (h : c ∈ cfg.others) : c ∈ cfg.warm := (List.mem_filter.1 h).1

theorem disk_update {cfg : RemoteCfg} (hok : RemoteOk cfg) {p : PrepState} {disk : String → Option Bytes} (h : RemoteDisk cfg p disk) {c : Nat} {info : ChunkInfo}
    (hc : cfg.chunks[c]? = some info) {f : Option Bytes}
    (hf : (c ∈ cfg.prep.others ∧ (f = none ∨ f = cfg.files (cfg.join info.filename))) ∨ ((∃ part, f = some part ∧ part.length < info.chunkBytes) ∧
      ∀ g, disk (cfg.join info.filename) = some g → g.length < info.chunkBytes)) :
    RemoteDisk cfg p fun q => if q = cfg.join info.filename then f else disk q := by
  have same : ∀ (d : Nat) (i : ChunkInfo), cfg.chunks[d]? = some i → cfg.join i.filename = cfg.join info.filename → d = c ∧ i = info := by
    intro d i hd e
    have := hok.paths d c _ (pathOf_info hd) (by rw [e]; exact pathOf_info hc)
    subst this
    rw [hc] at hd
    exact ⟨rfl, (Option.some.inj hd).symm⟩
  refine ⟨?_, ?_, ?_⟩
  · intro d i hd g hg
    split at hg
    · rename_i e
      obtain ⟨rfl, rfl⟩ := same d i hd e
      rcases hf with ⟨_, k | k⟩ | ⟨⟨part, k, kl⟩, _⟩
      · rw [k] at hg; cases hg
      · rw [k] at hg; exact .inr hg
      · rw [k] at hg; cases hg; exact .inl kl
    · exact h.sizes d i hd g hg
  · intro d i hd g hg hl
    split at hg
    · rename_i e
      obtain ⟨rfl, rfl⟩ := same d i hd e
      rcases hf with ⟨k, _⟩ | ⟨⟨part, k, kl⟩, _⟩
      · exact .inr (.inr (others_warm k))
      · rw [k] at hg; cases hg; omega
    · exact h.origin d i hd g hg hl
  · intro hw d i hd hm hnd
    split
    · rename_i e
      obtain ⟨rfl, rfl⟩ := same d i hd e
      rcases hf with ⟨k, _⟩ | ⟨_, k⟩
      · rw [hw] at k; cases k
      · obtain ⟨w, w1, w2⟩ := hok.whole d i hd
        have := k w (by rw [h.kept hw d i hd hm hnd, w1])
        omega
    · exact h.kept hw d i hd hm hnd

/-- Where the reader of a pass is, and what its thread has been told. -/
inductive Phase (cfg : RemoteCfg) (xs : List ChunkedIndex) (cs : List Nat) (s : RemoteState) : Prop
  | fresh : s.p = .init → s.reader = .init → s.pc = .idle → s.done = 0 → Phase cfg xs cs s
  | asking (l : List Nat) (x : ChunkedIndex) : s.pc = .asking l → s.done = 0 → xs[0]? = some x → s.reader = ⟨true, some x.chunkIndex, true, .init⟩ →
      s.p.requested ++ l = cs → s.p.cur = 0 → s.p.stopped = false → Phase cfg xs cs s
  | reading (x : ChunkedIndex) : (s.pc = .asking [] ∨ s.pc = .waiting ∨ s.pc = .failed ∨ s.pc = .idle ∧ 0 < s.done) → xs[s.done]? = some x →
      s.reader.thread = true → s.reader.queued = true →
      s.reader.last = (if s.done = 0 then some x.chunkIndex else ((xs.take s.done).map (·.chunkIndex)).getLast?) →
      s.reader.loader.path = ((xs.take s.done).map (·.chunkIndex)).getLast?.bind cfg.pathOf →
      s.p.requested = cs → s.p.stopped = false → s.p.cur = (squeeze ((xs.take s.done).map (·.chunkIndex))).length →
      (∀ c ∈ cs.take s.p.cur, c ∈ s.p.downloaded ∨ c ∈ s.p.forced ∨ c ∈ cfg.prep.warm) → Phase cfg xs cs s
  | finished : s.pc = .idle → s.done = xs.length → 0 < s.done → s.reader.thread = false → s.p.requested = cs → s.p.stopped = true → Phase cfg xs cs s

/-- What has been delivered, and that the loader is as if it had read the remote folder. -/
structure Sync (cfg : RemoteCfg) (xs : List ChunkedIndex) (raws : List Bytes) (s : RemoteState) : Prop where
  out : s.out = raws.take s.done
  rest : s.done < xs.length → readLocated cfg.files cfg.join cfg.enc cfg.ecfg cfg.chunks cfg.ivs s.reader.loader
    ((xs.drop s.done).map fun c => (c.index, c.chunkIndex)) = .ok (raws.drop s.done)

/-- The number of chunks begun once the item of chunk `c` has been read after items of the chunks `chs`. -/
theorem turn_reach {cfg : PrepCfg} {p : PrepState} (hp : PrepReach cfg p) (hst : p.stopped = false) (chs : List Nat) (c : Nat) (last : Option Nat)
    (hcur : p.cur = (squeeze chs).length) (hpre : squeeze (chs ++ [c]) <+: p.requested) (hnd : p.requested.Nodup)
    (hthere : c ∈ p.downloaded ∨ c ∈ p.forced ∨ c ∈ cfg.warm) (hlast : last = if chs = [] then some c else chs.getLast?) :
    PrepReach cfg (giveUp p (if last = some c then [] else last.toList) false (if p.cur = 0 ∨ last ≠ some c then p.cur + 1 else p.cur)) ∧
      (if p.cur = 0 ∨ last ≠ some c then p.cur + 1 else p.cur) = (squeeze (chs ++ [c])).length := by
  have hfetch : ∀ k : Nat, p.requested[k]? = some c → k < p.downloaded.length ∨ c ∈ p.forced ∨ c ∈ cfg.warm := by
    intro k hk
    rcases hthere with g | g | g
    · left
      obtain ⟨r, a, _⟩ := (pinv_reach hp).fetch
      obtain ⟨j, hj⟩ := List.getElem?_of_mem g
      have hj' : j < p.downloaded.length := by
        apply Nat.lt_of_not_le; intro h; rw [List.getElem?_eq_none h] at hj; cases hj
      have hk' : k < p.requested.length := by
        apply Nat.lt_of_not_le; intro h; rw [List.getElem?_eq_none h] at hk; cases hk
      have hj2 : p.requested[j]? = some c := by rw [a, List.getElem?_append_left hj', hj]
      have := (List.getElem?_inj hk' hnd).1 (hk.trans hj2.symm)
      omega
    · exact .inr (.inl g)
    · exact .inr (.inr g)
  have hempty : ∀ b, giveUp p [] false b = { p with cur := b } := by
    intro b; simp [giveUp]
  by_cases hchs : chs = []
  · subst hchs
    rw [if_pos rfl] at hlast
    subst hlast
    have h0 : p.cur = 0 := hcur
    rw [if_pos rfl, if_pos (show p.cur = 0 ∨ some c ≠ some c from .inl h0), h0]
    refine ⟨?_, rfl⟩
    rw [hempty]
    have h1 : p.requested[0]? = some c := by
      obtain ⟨r, a⟩ := hpre
      rw [← a]; rfl
    exact hp.step (.inr (.beginFirst p c hst h0 h1 (hfetch 0 h1)))
  · rw [if_neg hchs] at hlast
    have hsq := squeeze_getLast chs
    have hne : squeeze chs ≠ [] := by
      intro h
      rw [h] at hsq
      obtain ⟨a, b, e⟩ := List.exists_cons_of_ne_nil hchs
      rw [e, List.getLast?_cons] at hsq
      cases hsq
    have hpos : 0 < p.cur := by rw [hcur]; exact List.length_pos_iff.2 hne
    rw [squeeze_snoc] at hpre ⊢
    by_cases hl : last = some c
    · have hc : chs.getLast? = some c := by rw [← hlast, hl]
      rw [if_pos hl, if_neg (by rintro (g | g); · omega
                                · exact g hl), if_pos hc, hempty]
      exact ⟨hp, hcur⟩
    · have hc : ¬ chs.getLast? = some c := by rw [← hlast]; exact hl
      rw [if_neg hl, if_pos (.inr hl), if_neg hc]
      rw [if_neg hc] at hpre
      refine ⟨?_, by simp [hcur]⟩
      obtain ⟨l, hls⟩ : ∃ l, last = some l := by
        obtain ⟨a, b, e⟩ := List.exists_cons_of_ne_nil hchs
        rw [hlast, e, List.getLast?_cons]; exact ⟨_, rfl⟩
      obtain ⟨r, a⟩ := hpre
      have h1 : p.requested[p.cur]? = some c := by
        rw [← a, hcur, List.getElem?_append_left (by simp), List.getElem?_append_right (Nat.le_refl _)]; simp
      have h2 : p.requested[p.cur - 1]? = some l := by
        have : p.cur - 1 < (squeeze chs).length := by omega
        rw [← a, List.append_assoc, List.getElem?_append_left this, hcur, ← List.getLast?_eq_getElem?, hsq, ← hlast, hls]
      obtain ⟨n, hn⟩ : ∃ n, p.cur = n + 1 := ⟨p.cur - 1, by omega⟩
      have hs := MStep.beginNext (cfg := cfg) p n c l hst hn (by rw [← hn]; exact h1) (by rw [hn] at h2; exact h2) (by
        have := hfetch _ h1; rw [hn] at this; exact this)
      rw [hls]
      have e : giveUp p (some l).toList false (p.cur + 1) = { p with cur := n + 2, toDelete := p.toDelete ++ [l], consumed := p.consumed ++ [l] } := by
        rw [hn]; simp [giveUp]
      rw [e]
      exact hp.step (.inr hs)

theorem halt_reach {cfg : PrepCfg} {p : PrepState} {gone : List Nat} {b : Nat} (hp : PrepReach cfg (giveUp p gone false b)) (hst : p.stopped = false)
    (hb : 0 < b) (hlen : b = p.requested.length) {c : Nat} (hc : p.requested.getLast? = some c) : PrepReach cfg (giveUp p (gone ++ [c]) true b) := by
  have hs := MStep.stop (cfg := cfg) (giveUp p gone false b) c (by simp [giveUp, hst]) (by
    show p.requested[b - 1]? = some c
    rw [hlen, ← List.getLast?_eq_getElem?, hc]) hb hlen
  have := hp.step (.inr hs)
  have e : giveUp p (gone ++ [c]) true b = { giveUp p gone false b with
      toDelete := (giveUp p gone false b).toDelete ++ [c], consumed := (giveUp p gone false b).consumed ++ [c],
      queue := (giveUp p gone false b).queue ++ [none], stopped := true } := by
    simp [giveUp]
  rw [e]
  exact this

/-- Everything known about a state. -/
structure RInv (cfg : RemoteCfg) (xs : List ChunkedIndex) (cs : List Nat) (raws : List Bytes) (s : RemoteState) : Prop where
  prep : PrepReach cfg.prep s.p
  disk : RemoteDisk cfg s.p s.disk
  phase : Phase cfg xs cs s
  sync : (cfg.ecfg = none ∨ cfg.prep.others = []) → Sync cfg xs raws s

theorem phase_thread {cfg : RemoteCfg} {xs : List ChunkedIndex} {cs : List Nat} {s : RemoteState} (h : Phase cfg xs cs s)
    (hrun : s.reader.thread = true ∨ s.p.stopped = true) {t : PrepState} (hst : TStep cfg.prep s.p t) (disk : String → Option Bytes) :
    Phase cfg xs cs { s with p := t, disk := disk } := by
  obtain ⟨l1, l2, l3, l4, l5, l6, l7⟩ := tstep_logs hst
  cases h with
  | fresh h1 h2 h3 h4 =>
    rw [h1, h2] at hrun
    simp [ReaderState.init, PrepState.init] at hrun
  | asking l x h1 h2 h3 h4 h5 h6 h7 =>
    exact .asking l x h1 h2 h3 h4 (by simp only [l4]; exact h5) (by simp only [l6]; exact h6) (by simp only [l7]; exact h7)
  | reading x h1 h2 h3 h4 h5 h6 h7 h8 h9 h10 =>
    refine .reading x h1 h2 h3 h4 h5 h6 (by simp only [l4]; exact h7) (by simp only [l7]; exact h8) (by simp only [l6]; exact h9) ?_
    intro c hc
    simp only [l6] at hc
    rcases h10 c hc with g | g | g
    · exact .inl (l1.subset g)
    · exact .inr (.inl (l2.subset g))
    · exact .inr (.inr g)
  | finished h1 h2 h3 h4 h5 h6 => exact .finished h1 h2 h3 h4 (by simp only [l4]; exact h5) (by simp only [l7]; exact h6)

theorem phase_disk {cfg : RemoteCfg} {xs : List ChunkedIndex} {cs : List Nat} {s : RemoteState} (h : Phase cfg xs cs s)
    (disk : String → Option Bytes) : Phase cfg xs cs { s with disk := disk } := by
  cases h with
  | fresh h1 h2 h3 h4 => exact .fresh h1 h2 h3 h4
  | asking l x h1 h2 h3 h4 h5 h6 h7 => exact .asking l x h1 h2 h3 h4 h5 h6 h7
  | reading x h1 h2 h3 h4 h5 h6 h7 h8 h9 h10 => exact .reading x h1 h2 h3 h4 h5 h6 h7 h8 h9 h10
  | finished h1 h2 h3 h4 h5 h6 => exact .finished h1 h2 h3 h4 h5 h6

theorem take_succ_map {xs : List ChunkedIndex} {n : Nat} {x : ChunkedIndex} (h : xs[n]? = some x) :
    (xs.take (n + 1)).map (·.chunkIndex) = (xs.take n).map (·.chunkIndex) ++ [x.chunkIndex] := by
  have hn : n < xs.length := by apply Nat.lt_of_not_le; intro g; rw [List.getElem?_eq_none g] at h; cases h
  rw [List.take_succ_eq_append_getElem hn, List.map_append]
  rw [List.getElem?_eq_getElem hn] at h
  cases h
  rfl

theorem squeeze_prefix {xs : List ChunkedIndex} {cs : List Nat} (hs : PassShape xs cs) (n : Nat) :
    squeeze ((xs.take n).map (·.chunkIndex)) <+: cs := by
  rw [List.map_take, ← hs.chunks]
  exact squeeze_take_prefix _ _

/-- With nobody else, the chunk that is being read is whole in the cache. -/
theorem current_whole {cfg : RemoteCfg} {xs : List ChunkedIndex} {cs : List Nat} (hsh : PassShape xs cs) {s : RemoteState}
    (hp : PrepReach cfg.prep s.p) (hd : RemoteDisk cfg s.p s.disk) (hw : cfg.prep.others = []) (hst : s.p.stopped = false) (hreq : s.p.requested = cs)
    (hcur : s.p.cur = (squeeze ((xs.take s.done).map (·.chunkIndex))).length)
    (hbeg : ∀ c ∈ cs.take s.p.cur, c ∈ s.p.downloaded ∨ c ∈ s.p.forced ∨ c ∈ cfg.prep.warm) {c : Nat}
    (hlast : ((xs.take s.done).map (·.chunkIndex)).getLast? = some c) {info : ChunkInfo} (hc : cfg.chunks[c]? = some info) :
    s.disk (cfg.join info.filename) = cfg.files (cfg.join info.filename) := by
  have hi := pinv_reach hp
  have hpre := squeeze_prefix hsh s.done
  have hsq := squeeze_getLast ((xs.take s.done).map (·.chunkIndex))
  rw [hlast, List.getLast?_eq_getElem?, ← hcur] at hsq
  have htake : cs.take s.p.cur = squeeze ((xs.take s.done).map (·.chunkIndex)) := by rw [hcur]; exact (List.prefix_iff_eq_take.1 hpre).symm
  have hmem : c ∈ cs.take s.p.cur := by rw [htake]; exact List.mem_of_getElem? hsq
  have hpos : 0 < s.p.cur := by
    apply Nat.pos_of_ne_zero; intro g; rw [g] at hmem; simp at hmem
  have hidx : s.p.requested[s.p.cur - 1]? = some c := by
    rw [hreq, ← hsq, ← htake, List.getElem?_take_of_lt (by omega)]
  refine hd.kept hw c info hc (hbeg c hmem) ?_
  intro hdel
  have hcons := hi.reader hst
  have hdm : c ∈ s.p.requested.take (s.p.cur - 1) := by
    rw [← hcons, hi.fifo]; simp [hdel]
  obtain ⟨j, hj⟩ := List.getElem?_of_mem hdm
  have hjl : j < s.p.cur - 1 := by
    apply Nat.lt_of_not_le; intro g
    rw [List.getElem?_eq_none (by rw [List.length_take]; omega)] at hj; cases hj
  rw [List.getElem?_take_of_lt hjl] at hj
  have hjr : j < s.p.requested.length := by
    apply Nat.lt_of_not_le; intro g; rw [List.getElem?_eq_none g] at hj; cases hj
  have := (List.getElem?_inj hjr (by rw [hreq]; exact hsh.nodup)).1 (hj.trans hidx.symm)
  omega

theorem configGet_info {join : String → String} {chunks : List ChunkInfo} {ivs : List Interval} {k : Nat} {path : String} {b size : Nat}
    (h : configGet join chunks ivs k = .ok (path, b, size)) : ∃ info, chunks[k]? = some info ∧ path = join info.filename ∧ size = info.chunkBytes := by
  unfold configGet at h
  split at h
  · rename_i c iv h1 h2
    cases h
    exact ⟨c, h1, rfl, rfl⟩
  · cases h

theorem openChunk_there {fs : String → Option Bytes} {ecfg : Option EncConfig} {enc : Option Encryption} {st : PyTreeState}
    {path : String} {c i b size : Nat} {r : Bytes × PyTreeState} (h : loadItem fs ecfg enc st path c i b size = .ok r) (hp : st.path ≠ some path) :
    ∃ f, fs path = some f ∧ size ≤ f.length := by
  unfold loadItem openChunk at h
  rw [if_neg hp] at h
  cases hf : fs path with
  | none => rw [hf] at h; cases h
  | some f =>
    refine ⟨f, rfl, ?_⟩
    rw [hf] at h
    simp only [bind, Except.bind] at h
    by_cases hl : f.length ≥ size
    · exact hl
    · rw [if_neg hl] at h; cases h

theorem read_inv {cfg : RemoteCfg} (hok : RemoteOk cfg) {xs : List ChunkedIndex} {cs : List Nat} (hsh : PassShape xs cs) {raws : List Bytes} {s : RemoteState}
    (h : RInv cfg xs cs raws s) {x : ChunkedIndex} {path : String} {b size : Nat} {raw : Bytes} {ld : PyTreeState} (hpc : s.pc = .waiting) (hx : xs[s.done]? = some x)
    (hg : configGet cfg.join cfg.chunks cfg.ivs x.chunkIndex = .ok (path, b, size))
    (hl : loadItem s.disk cfg.ecfg cfg.enc s.reader.loader path x.chunkIndex x.index b size = .ok (raw, ld)) :
    RInv cfg xs cs raws { s with p := giveUp s.p (endRead s.reader x ld).2.1 (endRead s.reader x ld).2.2 (if s.p.cur = 0 ∨ s.reader.last ≠ some x.chunkIndex then s.p.cur + 1 else s.p.cur), reader := (endRead s.reader x ld).1, pc := .idle, done := s.done + 1, out := s.out ++ [raw] } := by
  obtain ⟨hprep, hdisk, hphase, hsync⟩ := h
  obtain ⟨info, hinfo, rfl, rfl⟩ := configGet_info hg
  have hpath := pathOf_info hinfo
  have hn : s.done < xs.length := by apply Nat.lt_of_not_le; intro g; rw [List.getElem?_eq_none g] at hx; cases hx
  cases hphase with
  | fresh h1 h2 h3 h4 => rw [hpc] at h3; cases h3
  | asking l x h1 => rw [hpc] at h1; cases h1
  | finished h1 => rw [hpc] at h1; cases h1
  | reading x' h1 h2 h3 h4 h5 h6 h7 h8 h9 h10 =>
    rw [hx] at h2
    cases h2
    have htk := take_succ_map hx
    have hpre := squeeze_prefix hsh (s.done + 1)
    rw [htk] at hpre
    have hnil : (xs.take s.done).map (·.chunkIndex) = [] ↔ s.done = 0 := by
      rw [List.map_eq_nil_iff, List.take_eq_nil_iff]
      constructor
      · rintro (g | g)
        · exact g
        · rw [g] at hn; simp at hn
      · exact .inl
    have hthere : x.chunkIndex ∈ s.p.downloaded ∨ x.chunkIndex ∈ s.p.forced ∨ x.chunkIndex ∈ cfg.prep.warm := by
      by_cases hp : s.reader.loader.path = some (cfg.join info.filename)
      · rw [h6] at hp
        cases hgl : ((xs.take s.done).map (·.chunkIndex)).getLast? with
        | none => rw [hgl] at hp; cases hp
        | some c =>
          rw [hgl] at hp
          have := hok.paths c x.chunkIndex _ hp hpath
          subst this
          apply h10
          have hsq := squeeze_getLast ((xs.take s.done).map (·.chunkIndex))
          rw [hgl] at hsq
          have htake := List.prefix_iff_eq_take.1 (squeeze_prefix hsh s.done)
          rw [← h9] at htake
          rw [← htake]
          rw [List.getLast?_eq_getElem?] at hsq
          exact List.mem_of_getElem? hsq
      · obtain ⟨f, f1, f2⟩ := openChunk_there hl hp
        exact hdisk.origin _ info hinfo f f1 f2
    have hturn := turn_reach hprep h8 ((xs.take s.done).map (·.chunkIndex)) x.chunkIndex s.reader.last h9 (by rw [h7]; exact hpre)
      (by rw [h7]; exact hsh.nodup) hthere (by
        rw [h5]
        by_cases hz : s.done = 0
        · rw [if_pos hz, if_pos (hnil.2 hz)]
        · rw [if_neg hz, if_neg (fun g => hz (hnil.1 g))])
    obtain ⟨t1, t2⟩ := hturn
    generalize hb : (if s.p.cur = 0 ∨ s.reader.last ≠ some x.chunkIndex then s.p.cur + 1 else s.p.cur) = begun at t1 t2 ⊢
    have hflag := hsh.flag s.done x hx
    have hldp := loadItem_path hl
    have hsync' : (cfg.ecfg = none ∨ cfg.prep.others = []) → (s.out ++ [raw] = raws.take (s.done + 1) ∧
        (s.done + 1 < xs.length → readLocated cfg.files cfg.join cfg.enc cfg.ecfg cfg.chunks cfg.ivs ld
          ((xs.drop (s.done + 1)).map fun c => (c.index, c.chunkIndex)) = .ok (raws.drop (s.done + 1)))) := by
      intro hen
      obtain ⟨o1, o2⟩ := hsync hen
      have hrest := o2 hn
      have hdrop : xs.drop s.done = x :: xs.drop (s.done + 1) := by
        rw [List.drop_eq_getElem_cons hn]
        rw [List.getElem?_eq_getElem hn] at hx
        cases hx
        rfl
      have hsim := loadItem_sim (files := cfg.files) (hdisk.sizes _ info hinfo) (by
        rcases hen with g | g
        · exact .inl g
        · by_cases hp : s.reader.loader.path = some (cfg.join info.filename)
          · right; right
            rw [h6] at hp
            cases hgl : ((xs.take s.done).map (·.chunkIndex)).getLast? with
            | none => rw [hgl] at hp; cases hp
            | some c =>
              rw [hgl] at hp
              have := hok.paths c x.chunkIndex _ hp hpath
              subst this
              exact current_whole hsh hprep hdisk g h8 h7 h9 h10 hgl hinfo
          · exact .inr (.inl hp)) hl
      rw [hdrop, List.map_cons, readLocated] at hrest
      simp only [hg, hsim] at hrest
      cases hr : readLocated cfg.files cfg.join cfg.enc cfg.ecfg cfg.chunks cfg.ivs ld ((xs.drop (s.done + 1)).map fun c => (c.index, c.chunkIndex)) with
      | error e => rw [hr] at hrest; cases hrest
      | ok rs =>
        rw [hr] at hrest
        simp only [Except.ok.injEq] at hrest
        have hlt : s.done < raws.length := by
          apply Nat.lt_of_not_le; intro g; rw [List.drop_eq_nil_of_le g] at hrest; cases hrest
        rw [List.drop_eq_getElem_cons hlt] at hrest
        simp only [List.cons.injEq] at hrest
        refine ⟨?_, fun _ => by rw [hrest.2]⟩
        rw [o1, List.take_succ_eq_append_getElem hlt, hrest.1]
    have hbegun : ∀ c ∈ cs.take begun, c ∈ s.p.downloaded ∨ c ∈ s.p.forced ∨ c ∈ cfg.prep.warm := by
      intro c hc
      have htake := List.prefix_iff_eq_take.1 hpre
      rw [t2, ← htake, squeeze_snoc] at hc
      have old : ∀ c ∈ squeeze ((xs.take s.done).map (·.chunkIndex)), c ∈ s.p.downloaded ∨ c ∈ s.p.forced ∨ c ∈ cfg.prep.warm := by
        intro c hc
        apply h10
        rw [h9, ← List.prefix_iff_eq_take.1 (squeeze_prefix hsh s.done)]
        exact hc
      split at hc
      · exact old c hc
      · rw [List.mem_append] at hc
        rcases hc with g | g
        · exact old c g
        · simp only [List.mem_cons, List.not_mem_nil, or_false] at g
          rw [g]; exact hthere
    by_cases hend : s.done + 1 = xs.length
    · have hlastx : x.isLastIndex = true := by rw [hflag]; simp [hend]
      have he : endRead s.reader x ld = (⟨false, none, false, closeLoader ld⟩, (if s.reader.last = some x.chunkIndex then [] else s.reader.last.toList) ++ [x.chunkIndex], true) := by
        unfold endRead
        rw [hlastx, h3]
        rfl
      rw [he]
      have hall : squeeze ((xs.take s.done).map (·.chunkIndex) ++ [x.chunkIndex]) = cs := by
        rw [← htk, hend, List.take_length]; exact hsh.chunks
      have hgl : s.p.requested.getLast? = some x.chunkIndex := by
        rw [h7, ← hall, squeeze_getLast]; simp
      have hlen : begun = s.p.requested.length := by rw [t2, hall, h7]
      have hpos : 0 < begun := by
        rw [hlen]
        apply Nat.pos_of_ne_zero
        intro g
        rw [List.length_eq_zero_iff.1 g] at hgl
        cases hgl
      refine ⟨halt_reach t1 h8 hpos hlen hgl, ⟨hdisk.sizes, hdisk.origin, hdisk.kept⟩, ?_, ?_⟩
      · exact .finished rfl hend (Nat.succ_pos _) rfl h7 (by simp [giveUp])
      · intro hen
        exact ⟨(hsync' hen).1, fun g => absurd g (by simp only; omega)⟩
    · have hlastx : x.isLastIndex = false := by rw [hflag]; simp [hend]
      have he : endRead s.reader x ld = ({ s.reader with last := some x.chunkIndex, loader := ld }, (if s.reader.last = some x.chunkIndex then [] else s.reader.last.toList), false) := by
        unfold endRead
        rw [hlastx]
        rfl
      rw [he]
      obtain ⟨y, hy⟩ : ∃ y, xs[s.done + 1]? = some y := ⟨_, List.getElem?_eq_getElem (by omega)⟩
      refine ⟨t1, ⟨hdisk.sizes, hdisk.origin, hdisk.kept⟩, ?_, ?_⟩
      · refine .reading y (.inr (.inr (.inr ⟨rfl, Nat.succ_pos _⟩))) hy h3 h4 ?_ ?_ h7 (by simp [giveUp, h8]) ?_ hbegun
        · rw [if_neg (Nat.succ_ne_zero _)]
          simp only [htk]
          simp
        · simp only [htk, hldp]
          simp [hpath]
        · simp only [htk]
          exact t2
      · intro hen
        exact ⟨(hsync' hen).1, (hsync' hen).2⟩

theorem rinv_step {cfg : RemoteCfg} (hok : RemoteOk cfg) {xs : List ChunkedIndex} {cs : List Nat} (hsh : PassShape xs cs) {raws : List Bytes} {s t : RemoteState}
    (h : RInv cfg xs cs raws s) (hst : RStep cfg xs s t) : RInv cfg xs cs raws t := by
  cases hst with
  | thread t disk hrun ht hd =>
    exact ⟨h.prep.step (.inl ht), disk_thread hok h.disk ht hd, phase_thread h.phase hrun ht disk, fun g => ⟨(h.sync g).out, (h.sync g).rest⟩⟩
  | arriving c info part hrun hhead hc hlt hpart =>
    exact ⟨h.prep, disk_update hok h.disk hc (.inr ⟨⟨part, rfl, hlt⟩, hpart⟩), phase_disk h.phase _, fun g => ⟨(h.sync g).out, (h.sync g).rest⟩⟩
  | others c info f hw hc hf =>
    refine ⟨h.prep, disk_update hok h.disk hc ?_, phase_disk h.phase _, fun g => ⟨(h.sync g).out, (h.sync g).rest⟩⟩
    rcases hf with g | g | g
    · exact .inl ⟨hw, .inl g⟩
    · exact .inl ⟨hw, .inr g⟩
    · exact .inr g
  | ask x hpc hx =>
    obtain ⟨hprep, hdisk, hphase, hsync⟩ := h
    cases hphase with
    | fresh h1 h2 h3 h4 =>
      rw [h4] at hx
      have hcs : x.chunkIndexes = some cs := hsh.head x (by rw [List.head?_eq_getElem?]; exact hx)
      have hne : cs ≠ [] := by
        intro g
        have := squeeze_getLast (xs.map (·.chunkIndex))
        rw [hsh.chunks, g] at this
        cases xs with
        | nil => cases hx
        | cons a l => rw [List.map_cons, List.getLast?_cons] at this; cases this
      have he : beginRead s.reader x = (⟨true, some x.chunkIndex, true, .init⟩, true, cs) := by
        unfold beginRead
        rw [h2, hcs]
        obtain ⟨a, l, rfl⟩ := List.exists_cons_of_ne_nil hne
        simp [ReaderState.init]
      rw [he]
      refine ⟨by simpa using PrepReach.init, ?_, ?_, ?_⟩
      · rw [h1] at hdisk
        exact hdisk
      · exact .asking cs x rfl h4 hx rfl rfl rfl rfl
      · intro g
        have := hsync g
        refine ⟨this.out, fun k => ?_⟩
        have := this.rest k
        rw [h2] at this
        exact this
    | asking l x h1 => rw [hpc] at h1; cases h1
    | reading x' h1 h2 h3 h4 h5 h6 h7 h8 h9 h10 =>
      have hpos : 0 < s.done := by
        rcases h1 with g | g | g | ⟨_, g⟩
        · rw [hpc] at g; cases g
        · rw [hpc] at g; cases g
        · rw [hpc] at g; cases g
        · exact g
      obtain ⟨l, hl⟩ : ∃ l, s.reader.last = some l := by
        rw [h5, if_neg (by omega)]
        have hn : s.done < xs.length := by apply Nat.lt_of_not_le; intro g; rw [List.getElem?_eq_none g] at hx; cases hx
        cases hm : (xs.take s.done).map (·.chunkIndex) with
        | nil =>
          rw [List.map_eq_nil_iff, List.take_eq_nil_iff] at hm
          rcases hm with g | g
          · omega
          · rw [g] at hn; simp at hn
        | cons a l => rw [List.getLast?_cons]; exact ⟨_, rfl⟩
      have he : beginRead s.reader x = (s.reader, false, []) := by
        unfold beginRead
        rw [h3, h4, hl]
        cases hr : s.reader with
        | mk a b c d =>
          rw [hr] at h3 h4 hl
          simp only at h3 h4 hl
          subst h3 h4 hl
          simp
      rw [he]
      exact ⟨hprep, hdisk, .reading x' (.inl rfl) h2 h3 h4 h5 h6 h7 h8 h9 h10, fun g => ⟨(hsync g).out, (hsync g).rest⟩⟩
    | finished h1 h2 h3 => rw [h2, List.getElem?_eq_none (Nat.le_refl _)] at hx; cases hx
  | request c l hpc =>
    obtain ⟨hprep, hdisk, hphase, hsync⟩ := h
    cases hphase with
    | fresh h1 h2 h3 => rw [hpc] at h3; cases h3
    | asking l' x h1 h2 h3 h4 h5 h6 h7 =>
      rw [hpc] at h1
      cases h1
      exact ⟨hprep.step (.inr (.request _ c h7)), ⟨hdisk.sizes, hdisk.origin, hdisk.kept⟩, .asking l x rfl h2 h3 h4 (by simp only [List.append_assoc]; exact h5) h6 h7,
        fun g => ⟨(hsync g).out, (hsync g).rest⟩⟩
    | reading x' h1 =>
      rw [hpc] at h1
      simp at h1
    | finished h1 => rw [hpc] at h1; cases h1
  | requested hpc =>
    obtain ⟨hprep, hdisk, hphase, hsync⟩ := h
    refine ⟨hprep, hdisk, ?_, fun g => ⟨(hsync g).out, (hsync g).rest⟩⟩
    cases hphase with
    | fresh h1 h2 h3 => rw [hpc] at h3; cases h3
    | asking l' x h1 h2 h3 h4 h5 h6 h7 =>
      rw [hpc] at h1
      cases h1
      rw [List.append_nil] at h5
      refine .reading x (.inr (.inl rfl)) (by simp only [h2]; exact h3) (by simp only [h4]) (by simp only [h4]) (by simp only [h4, h2, if_pos]) (by simp only [h4, h2]; rfl) h5 h7 (by simp only [h2, h6]; rfl) ?_
      intro c hc
      simp only [h6, List.take_zero] at hc
      cases hc
    | reading x' h1 h2 h3 h4 h5 h6 h7 h8 h9 h10 => exact .reading x' (.inr (.inl rfl)) h2 h3 h4 h5 h6 h7 h8 h9 h10
    | finished h1 => rw [hpc] at h1; cases h1
  | force x hpc hx hne =>
    obtain ⟨hprep, hdisk, hphase, hsync⟩ := h
    cases hphase with
    | fresh h1 h2 h3 => rw [hpc] at h3; cases h3
    | asking l x h1 => rw [hpc] at h1; cases h1
    | finished h1 => rw [hpc] at h1; cases h1
    | reading x' h1 h2 h3 h4 h5 h6 h7 h8 h9 h10 =>
      refine ⟨?_, ⟨hdisk.sizes, hdisk.origin, hdisk.kept⟩, .reading x' h1 h2 h3 h4 h5 h6 h7 h8 h9 h10, fun g => ⟨(hsync g).out, (hsync g).rest⟩⟩
      have hpre := squeeze_prefix hsh (s.done + 1)
      rw [take_succ_map hx, squeeze_snoc, if_neg (by intro g; rw [h6, g] at hne; exact hne rfl)] at hpre
      obtain ⟨r, hr⟩ := hpre
      refine hprep.step (.inr (.ask _ x.chunkIndex h8 ?_))
      rw [h7, ← hr, h9, List.getElem?_append_left (by simp), List.getElem?_append_right (Nat.le_refl _)]
      simp
  | read x path b size raw ld hpc hx hg hl => exact read_inv hok hsh h hpc hx hg hl
  | fail hpc =>
    obtain ⟨hprep, hdisk, hphase, hsync⟩ := h
    refine ⟨hprep, hdisk, ?_, fun g => ⟨(hsync g).out, (hsync g).rest⟩⟩
    cases hphase with
    | fresh h1 h2 h3 => rw [hpc] at h3; cases h3
    | asking l x h1 => rw [hpc] at h1; cases h1
    | finished h1 => rw [hpc] at h1; cases h1
    | reading x' h1 h2 h3 h4 h5 h6 h7 h8 h9 h10 => exact .reading x' (.inr (.inr (.inl rfl))) h2 h3 h4 h5 h6 h7 h8 h9 h10

theorem rinv_reach {cfg : RemoteCfg} (hok : RemoteOk cfg) {xs : List ChunkedIndex} {cs : List Nat} (hsh : PassShape xs cs) {raws : List Bytes}
    (hraws : readLocated cfg.files cfg.join cfg.enc cfg.ecfg cfg.chunks cfg.ivs .init (xs.map fun c => (c.index, c.chunkIndex)) = .ok raws)
    {s : RemoteState} (h : RReach cfg xs s) : RInv cfg xs cs raws s := by
  induction h with
  | init disk hd hthere =>
    refine ⟨.init, ⟨?_, ?_, ?_⟩, .fresh rfl rfl rfl rfl, fun _ => ⟨rfl, fun _ => hraws⟩⟩
    · intro c info hc f hf
      exact .inr (hd _ f hf).1
    · intro c info hc f hf hl
      obtain ⟨_, d, d1, d2⟩ := hd _ f hf
      have := hok.paths c d _ (pathOf_info hc) d2
      subst this
      exact .inr (.inr d1)
    · intro hw c info hc hm _
      have hm' : c ∈ cfg.prep.warm := by simpa [RemoteState.start, PrepState.init] using hm
      exact hthere c hm' (by rw [hw]; simp) _ (pathOf_info hc)
  | step _ h2 ih => exact rinv_step hok hsh ih h2

/-- **C76, the same samples.** Whatever the background thread and the other workers do, and whenever the reader finds its files, the samples delivered so
far are the first ones of those that reading the remote folder itself gives. -/
theorem c76_same_samples (cfg : RemoteCfg) (hok : RemoteOk cfg) (xs : List ChunkedIndex) (cs : List Nat) (hsh : PassShape xs cs) (raws : List Bytes)
    (hraws : readLocated cfg.files cfg.join cfg.enc cfg.ecfg cfg.chunks cfg.ivs .init (xs.map fun c => (c.index, c.chunkIndex)) = .ok raws)
    (halone : cfg.ecfg = none ∨ cfg.prep.others = []) (s : RemoteState) (h : RReach cfg xs s) : s.out = raws.take s.done :=
  ((rinv_reach hok hsh hraws h).sync halone).out

/-- **C76, the reader keeps to the protocol** for which the thread was proved to work (C28): chunks are requested in the order in which they are read, and
given up in that order; a pass that has delivered everything has given up every chunk and told the thread to stop. -/
theorem c76_protocol (cfg : RemoteCfg) (hok : RemoteOk cfg) (xs : List ChunkedIndex) (cs : List Nat) (hsh : PassShape xs cs) (raws : List Bytes)
    (hraws : readLocated cfg.files cfg.join cfg.enc cfg.ecfg cfg.chunks cfg.ivs .init (xs.map fun c => (c.index, c.chunkIndex)) = .ok raws)
    (s : RemoteState) (h : RReach cfg xs s) :
    PrepReach cfg.prep s.p ∧ s.p.requested <+: cs ∧ s.p.consumed <+: cs ∧ s.done ≤ xs.length ∧
      (s.done = xs.length → xs ≠ [] → s.p.consumed = cs ∧ s.p.stopped = true) := by
  have hi := rinv_reach hok hsh hraws h
  obtain ⟨_, _, o3⟩ := c28_order _ _ hi.prep
  have key : s.p.requested <+: cs ∧ s.done ≤ xs.length ∧ (s.done = xs.length → xs ≠ [] → s.p.consumed = cs ∧ s.p.stopped = true) := by
    cases hi.phase with
    | fresh h1 h2 h3 h4 =>
      refine ⟨by rw [h1]; exact List.nil_prefix, by omega, fun g k => ?_⟩
      rw [h4] at g
      exact absurd (List.length_eq_zero_iff.1 g.symm) k
    | asking l x h1 h2 h3 h4 h5 h6 h7 =>
      refine ⟨⟨l, h5⟩, by omega, fun g k => ?_⟩
      rw [h2] at g
      exact absurd (List.length_eq_zero_iff.1 g.symm) k
    | reading x h1 h2 h3 h4 h5 h6 h7 h8 h9 h10 =>
      have hn : s.done < xs.length := by apply Nat.lt_of_not_le; intro g; rw [List.getElem?_eq_none g] at h2; cases h2
      exact ⟨by rw [h7]; exact List.prefix_refl _, by omega, fun g => by omega⟩
    | finished h1 h2 h3 h4 h5 h6 =>
      refine ⟨by rw [h5]; exact List.prefix_refl _, by omega, fun _ _ => ⟨?_, h6⟩⟩
      rw [← h5]
      exact ((pinv_reach hi.prep).ended h6).1
  exact ⟨hi.prep, key.1, o3.trans key.1, key.2⟩

theorem rwaits_reach {cfg : RemoteCfg} {xs : List ChunkedIndex} {m : Nat} {s t : RemoteState} (h : RReach cfg xs s) (hw : RWaits cfg xs m s t) :
    RReach cfg xs t ∧ TSteps cfg.prep m s.p t.p ∧ t.pc = s.pc ∧ t.done = s.done ∧ t.reader = s.reader ∧ t.out = s.out := by
  induction hw with
  | refl => exact ⟨h, .refl _, rfl, rfl, rfl, rfl⟩
  | tick p disk _ h2 h3 ih =>
    obtain ⟨a, b, c, d, e, f⟩ := ih h
    exact ⟨a.step h3, b.tail h2, c, d, e, f⟩
  | still disk _ h3 ih =>
    obtain ⟨a, b, c, d, e, f⟩ := ih h
    exact ⟨a.step h3, b, c, d, e, f⟩

theorem tsteps_logs {cfg : PrepCfg} {m : Nat} {s t : PrepState} (h : TSteps cfg m s t) : t.requested = s.requested ∧ t.cur = s.cur ∧ t.stopped = s.stopped := by
  induction h with
  | refl => exact ⟨rfl, rfl, rfl⟩
  | tail _ h2 ih =>
    obtain ⟨_, _, _, a, _, b, c⟩ := tstep_logs h2
    exact ⟨a.trans ih.1, b.trans ih.2.1, c.trans ih.2.2⟩

/-- **C76, progress.** Without other workers on the same cache, and if the thread may be two chunks ahead of what was fetched by force, then while the
reader waits for an item the thread brings the file: after that many of its steps the reader can go on. -/
theorem c76_progress (cfg : RemoteCfg) (hok : RemoteOk cfg) (xs : List ChunkedIndex) (cs : List Nat) (hsh : PassShape xs cs) (raws : List Bytes)
    (hraws : readLocated cfg.files cfg.join cfg.enc cfg.ecfg cfg.chunks cfg.ivs .init (xs.map fun c => (c.index, c.chunkIndex)) = .ok raws)
    (hwarm : cfg.prep.others = []) (hcache : cfg.prep.cache = true) (s t : RemoteState) (m : Nat) (h : RReach cfg xs s) (hpc : s.pc = .waiting)
    (hfew : s.p.forced.length + s.p.forceQ.length + 2 ≤ cfg.prep.maxPre) (hw : RWaits cfg xs m s t)
    (hm : 3 * (s.p.toDelete.length + (s.p.cur + 1 - s.p.downloaded.length)) + 3 < m) :
    ∃ u raw, RStep cfg xs t u ∧ raws[s.done]? = some raw ∧ u.out = s.out ++ [raw] ∧ u.done = s.done + 1 ∧ u.pc = .idle := by
  obtain ⟨ht, hts, e1, e2, e3, e4⟩ := rwaits_reach h hw
  have hi := rinv_reach hok hsh hraws h
  have hit := rinv_reach hok hsh hraws ht
  have hs := hit.sync (.inr hwarm)
  obtain ⟨l1, l2, l3⟩ := tsteps_logs hts
  cases hit.phase with
  | fresh h1 h2 h3 => rw [e1, hpc] at h3; cases h3
  | asking l x h1 => rw [e1, hpc] at h1; cases h1
  | finished h1 => rw [e1, hpc] at h1; cases h1
  | reading x h1 h2 h3 h4 h5 h6 h7 h8 h9 h10 =>
    have hn : t.done < xs.length := by apply Nat.lt_of_not_le; intro g; rw [List.getElem?_eq_none g] at h2; cases h2
    have hrest := hs.rest hn
    have hdrop : xs.drop t.done = x :: xs.drop (t.done + 1) := by
      rw [List.drop_eq_getElem_cons hn]
      rw [List.getElem?_eq_getElem hn] at h2
      cases h2
      rfl
    rw [hdrop, List.map_cons, readLocated] at hrest
    cases hg : configGet cfg.join cfg.chunks cfg.ivs x.chunkIndex with
    | error e => simp only [hg] at hrest; cases hrest
    | ok r =>
      obtain ⟨path, b, size⟩ := r
      simp only [hg] at hrest
      cases hl : loadItem cfg.files cfg.ecfg cfg.enc t.reader.loader path x.chunkIndex x.index b size with
      | error e => simp only [hl] at hrest; cases hrest
      | ok r =>
        obtain ⟨raw, ld⟩ := r
        simp only [hl] at hrest
        obtain ⟨info, hinfo, rfl, rfl⟩ := configGet_info hg
        have hwhole : t.disk (cfg.join info.filename) = cfg.files (cfg.join info.filename) := by
          by_cases hlast : ((xs.take t.done).map (·.chunkIndex)).getLast? = some x.chunkIndex
          · exact current_whole hsh hit.prep hit.disk hwarm h8 h7 h9 h10 hlast hinfo
          · have hpre := squeeze_prefix hsh (t.done + 1)
            rw [take_succ_map h2, squeeze_snoc, if_neg hlast] at hpre
            obtain ⟨r, hr⟩ := hpre
            have hget : t.p.requested[t.p.cur]? = some x.chunkIndex := by
              rw [h7, ← hr, h9, List.getElem?_append_left (by simp), List.getElem?_append_right (Nat.le_refl _)]
              simp
            have hlen : t.p.cur < t.p.requested.length := by
              apply Nat.lt_of_not_le; intro g; rw [List.getElem?_eq_none g] at hget; cases hget
            have hprog := c28_progress_partial cfg.prep s.p t.p m hi.prep hcache (by rw [← l3]; exact h8) (by rw [← l1, ← l2]; exact hlen) hfew hts hm
            rw [← l2] at hprog
            have hinv := pinv_reach hit.prep
            obtain ⟨rest, a, _⟩ := hinv.fetch
            refine hit.disk.kept hwarm _ info hinfo (.inl ?_) ?_
            · rw [a, List.getElem?_append_left hprog] at hget
              exact List.mem_of_getElem? hget
            · intro hdel
              have hdm : x.chunkIndex ∈ t.p.requested.take (t.p.cur - 1) := by
                rw [← hinv.reader h8, hinv.fifo]; simp [hdel]
              obtain ⟨j, hj⟩ := List.getElem?_of_mem hdm
              have hjl : j < t.p.cur - 1 := by
                apply Nat.lt_of_not_le; intro g
                rw [List.getElem?_eq_none (by rw [List.length_take]; omega)] at hj; cases hj
              rw [List.getElem?_take_of_lt hjl] at hj
              have := (List.getElem?_inj (by omega) (by rw [h7]; exact hsh.nodup)).1 (hj.trans hget.symm)
              omega
        rw [← loadItem_same hwhole] at hl
        refine ⟨_, raw, RStep.read t x _ b info.chunkBytes raw ld (by rw [e1, hpc]) h2 hg hl, ?_, by rw [e4], by rw [e2], rfl⟩
        split at hrest
        · cases hrest
        · cases hrest' : raws.drop t.done with
          | nil => rw [hrest'] at hrest; cases hrest
          | cons a l =>
            rw [hrest'] at hrest
            simp only [Except.ok.injEq, List.cons.injEq] at hrest
            rw [← e2, hrest.1, ← List.head?_drop, hrest']
            rfl

/-- Steps from one state to another. -/
inductive RSteps (cfg : RemoteCfg) (xs : List ChunkedIndex) : RemoteState → RemoteState → Prop
  | refl (s : RemoteState) : RSteps cfg xs s s
  | tail {s t u : RemoteState} : RSteps cfg xs s t → RStep cfg xs t u → RSteps cfg xs s u

theorem rsteps_trans {cfg : RemoteCfg} {xs : List ChunkedIndex} {s t u : RemoteState} (h1 : RSteps cfg xs s t) (h2 : RSteps cfg xs t u) : RSteps cfg xs s u := by
  induction h2 with
  | refl => exact h1
  | tail _ h ih => exact ih.tail h

theorem rsteps_reach {cfg : RemoteCfg} {xs : List ChunkedIndex} {s t : RemoteState} (h : RReach cfg xs s) (h2 : RSteps cfg xs s t) : RReach cfg xs t := by
  induction h2 with
  | refl => exact h
  | tail _ h ih => exact ih.step h

theorem rwaits_rsteps {cfg : RemoteCfg} {xs : List ChunkedIndex} {m : Nat} {s t : RemoteState} (h : RWaits cfg xs m s t) : RSteps cfg xs s t := by
  induction h with
  | refl => exact .refl _
  | tick _ _ _ _ h ih => exact ih.tail h
  | still _ _ h ih => exact ih.tail h

/-- The number of forced downloads, done or asked for. -/
def forcedCount (p : PrepState) : Nat := p.forced.length + p.forceQ.length

theorem tstep_forced {cfg : PrepCfg} {s t : PrepState} (h : TStep cfg s t) : forcedCount t = forcedCount s := by
  cases h <;> simp only [forcedCount, cleanUp]
  rename_i c rest h1 h2
  rw [h2]
  simp only [List.length_append, List.length_cons, List.length_nil]
  omega

theorem rwaits_forced {cfg : RemoteCfg} {xs : List ChunkedIndex} {m : Nat} {s t : RemoteState} (h : RWaits cfg xs m s t) : forcedCount t.p = forcedCount s.p := by
  induction h with
  | refl => rfl
  | tick _ _ _ h _ ih => exact (tstep_forced h).trans ih
  | still _ _ _ ih => exact ih

/-- The thread can take any number of steps while the reader waits. -/
theorem rwaits_exists {cfg : RemoteCfg} (hok : RemoteOk cfg) {xs : List ChunkedIndex} {cs : List Nat} (hsh : PassShape xs cs) {raws : List Bytes}
    (hraws : readLocated cfg.files cfg.join cfg.enc cfg.ecfg cfg.chunks cfg.ivs .init (xs.map fun c => (c.index, c.chunkIndex)) = .ok raws)
    {s : RemoteState} (h : RReach cfg xs s) (hpc : s.pc = .waiting) (m : Nat) : ∃ t, RWaits cfg xs m s t := by
  induction m with
  | zero => exact ⟨s, .refl _⟩
  | succ m ih =>
    obtain ⟨t, ht⟩ := ih
    obtain ⟨a, _, c, _⟩ := rwaits_reach h ht
    have hi := rinv_reach hok hsh hraws a
    have hrun : t.reader.thread = true ∧ t.p.stopped = false := by
      cases hi.phase with
      | fresh h1 h2 h3 => rw [c, hpc] at h3; cases h3
      | asking l x h1 => rw [c, hpc] at h1; cases h1
      | finished h1 => rw [c, hpc] at h1; cases h1
      | reading x h1 h2 h3 h4 h5 h6 h7 h8 => exact ⟨h3, h8⟩
    obtain ⟨p, hp⟩ := c28_never_stuck cfg.prep t.p (by
      intro g
      have := (pinv_reach hi.prep).halted (.inr g)
      rw [hrun.2] at this
      cases this)
    classical
    have hd : DiskAfter cfg t.p p t.disk fun q => if ∃ c ∈ fetchedIn t.p p, cfg.pathOf c = some q then cfg.files q
        else if ∃ c ∈ deletedIn t.p p, cfg.pathOf c = some q then none else t.disk q := by
      refine ⟨fun q => ?_, fun d hd _ q hq => ?_⟩
      · by_cases h1 : ∃ c ∈ fetchedIn t.p p, cfg.pathOf c = some q
        · obtain ⟨d, d1, d2⟩ := id h1
          exact .inr (.inl ⟨d, d1, d2, if_pos h1⟩)
        · by_cases h2 : ∃ c ∈ deletedIn t.p p, cfg.pathOf c = some q
          · obtain ⟨d, d1, d2⟩ := id h2
            exact .inr (.inr ⟨d, d1, d2, (if_neg h1).trans (if_pos h2)⟩)
          · exact .inl ((if_neg h1).trans (if_neg h2))
      · exact if_pos ⟨d, hd, hq⟩
    exact ⟨_, .tick p _ ht hp (.thread t p _ (.inl hrun.1) hp hd)⟩

theorem ask_all {cfg : RemoteCfg} {xs : List ChunkedIndex} (l : List Nat) (s : RemoteState) (h : s.pc = .asking l) :
    ∃ t, RSteps cfg xs s t ∧ t.pc = .waiting ∧ t.done = s.done ∧ forcedCount t.p = forcedCount s.p := by
  induction l generalizing s with
  | nil => exact ⟨_, (RSteps.refl s).tail (.requested s h), rfl, rfl, rfl⟩
  | cons c l ih =>
    have st := RStep.request (cfg := cfg) (xs := xs) s c l h
    obtain ⟨t, t1, t2, t3, t4⟩ := ih { s with p := { s.p with requested := s.p.requested ++ [c], queue := s.p.queue ++ [some c] }, pc := .asking l } rfl
    exact ⟨t, rsteps_trans ((RSteps.refl s).tail st) t1, t2, t3, t4⟩

theorem to_waiting {cfg : RemoteCfg} (hok : RemoteOk cfg) {xs : List ChunkedIndex} {cs : List Nat} (hsh : PassShape xs cs) {raws : List Bytes}
    (hraws : readLocated cfg.files cfg.join cfg.enc cfg.ecfg cfg.chunks cfg.ivs .init (xs.map fun c => (c.index, c.chunkIndex)) = .ok raws)
    {s : RemoteState} (h : RReach cfg xs s) (hpc : s.pc ≠ .failed) (hn : s.done < xs.length) :
    ∃ t, RSteps cfg xs s t ∧ t.pc = .waiting ∧ t.done = s.done ∧ forcedCount t.p ≤ forcedCount s.p := by
  have hx : xs[s.done]? = some xs[s.done] := List.getElem?_eq_getElem hn
  have idle : s.pc = .idle → ∃ t, RSteps cfg xs s t ∧ t.pc = .waiting ∧ t.done = s.done ∧ forcedCount t.p ≤ forcedCount s.p := by
    intro hp
    have st := RStep.ask (cfg := cfg) (xs := xs) s _ hp hx
    obtain ⟨t, t1, t2, t3, t4⟩ := ask_all (cfg := cfg) (xs := xs) _ _ (rfl : RemoteState.pc { s with p := if (beginRead s.reader xs[s.done]).2.1 then .init else s.p, reader := (beginRead s.reader xs[s.done]).1, pc := .asking (beginRead s.reader xs[s.done]).2.2 } = _)
    refine ⟨t, rsteps_trans ((RSteps.refl s).tail st) t1, t2, t3, ?_⟩
    rw [t4]
    simp only
    split
    · exact Nat.zero_le _
    · exact Nat.le_refl _
  cases (rinv_reach hok hsh hraws h).phase with
  | fresh h1 h2 h3 => exact idle h3
  | asking l x h1 =>
    obtain ⟨t, t1, t2, t3, t4⟩ := ask_all (cfg := cfg) (xs := xs) _ _ h1
    exact ⟨t, t1, t2, t3, Nat.le_of_eq t4⟩
  | reading x h1 =>
    rcases h1 with g | g | g | ⟨g, _⟩
    · obtain ⟨t, t1, t2, t3, t4⟩ := ask_all (cfg := cfg) (xs := xs) _ _ g
      exact ⟨t, t1, t2, t3, Nat.le_of_eq t4⟩
    · exact ⟨s, .refl _, g, rfl, Nat.le_refl _⟩
    · exact absurd g hpc
    · exact idle g
  | finished h1 h2 => omega

/-- **C76, no deadlock.** Without other workers on the same cache, and if the thread may be two chunks ahead of what was fetched by force, a worker to which no
exception was raised can always come to the end, with all samples delivered. -/
theorem c76_no_deadlock (cfg : RemoteCfg) (hok : RemoteOk cfg) (xs : List ChunkedIndex) (cs : List Nat) (hsh : PassShape xs cs) (raws : List Bytes)
    (hraws : readLocated cfg.files cfg.join cfg.enc cfg.ecfg cfg.chunks cfg.ivs .init (xs.map fun c => (c.index, c.chunkIndex)) = .ok raws)
    (hwarm : cfg.prep.others = []) (hcache : cfg.prep.cache = true) (s : RemoteState) (h : RReach cfg xs s) (hpc : s.pc ≠ .failed)
    (hfew : s.p.forced.length + s.p.forceQ.length + 2 ≤ cfg.prep.maxPre) :
    ∃ t, RSteps cfg xs s t ∧ t.done = xs.length ∧ t.out = raws := by
  have hlen : raws.length = xs.length := by
    have key : ∀ (ps : List (Nat × Nat)) (st : PyTreeState) (rs : List Bytes),
        readLocated cfg.files cfg.join cfg.enc cfg.ecfg cfg.chunks cfg.ivs st ps = .ok rs → rs.length = ps.length := by
      intro ps
      induction ps with
      | nil => intro st rs g; cases g; rfl
      | cons p ps ih =>
        intro st rs g
        obtain ⟨i, k⟩ := p
        rw [readLocated] at g
        split at g
        · cases g
        · split at g
          · cases g
          · split at g
            · cases g
            · rename_i hr
              cases g
              simp only [List.length_cons, ih _ _ hr]
    have := key _ _ _ hraws
    rwa [List.length_map] at this
  have main : ∀ (k : Nat) (s : RemoteState), RReach cfg xs s → s.pc ≠ .failed → forcedCount s.p + 2 ≤ cfg.prep.maxPre → xs.length - s.done = k →
      s.done ≤ xs.length → ∃ t, RSteps cfg xs s t ∧ t.done = xs.length := by
    intro k
    induction k with
    | zero => intro s _ _ _ hk hle; exact ⟨s, .refl _, by omega⟩
    | succ k ih =>
      intro s hs hpc hfew hk hle
      obtain ⟨t, t1, t2, t3, t4⟩ := to_waiting hok hsh hraws hs hpc (by omega)
      have ht := rsteps_reach hs t1
      obtain ⟨u, hu⟩ := rwaits_exists hok hsh hraws ht t2 (3 * (t.p.toDelete.length + (t.p.cur + 1 - t.p.downloaded.length)) + 4)
      have hf := rwaits_forced hu
      have hfew' : t.p.forced.length + t.p.forceQ.length + 2 ≤ cfg.prep.maxPre := by
        have : forcedCount t.p = t.p.forced.length + t.p.forceQ.length := rfl
        omega
      obtain ⟨v, raw, v1, _, _, v3, v4⟩ := c76_progress cfg hok xs cs hsh raws hraws hwarm hcache t u _ ht t2 hfew' hu (by omega)
      have hus := rwaits_rsteps hu
      have hur := rwaits_reach ht hu
      have hv := rsteps_trans t1 (hus.tail v1)
      have hvr := rsteps_reach hs hv
      have hforced : forcedCount v.p = forcedCount u.p := by
        have hupc : u.pc = .waiting := by rw [hur.2.2.1, t2]
        cases v1 with
        | thread _ _ _ _ _ => exact absurd (hupc.symm.trans v4) (by simp)
        | arriving _ _ _ _ _ _ _ _ => exact absurd (hupc.symm.trans v4) (by simp)
        | others _ _ _ _ _ _ => exact absurd (hupc.symm.trans v4) (by simp)
        | ask _ g => rw [hupc] at g; cases g
        | request _ _ g => rw [hupc] at g; cases g
        | requested g => exact absurd (hupc.symm.trans g) (by simp)
        | force _ _ _ _ => exact absurd (hupc.symm.trans v4) (by simp)
        | read _ _ _ _ _ _ _ _ _ _ => rfl
        | fail _ => cases v4
      obtain ⟨w, w1, w2⟩ := ih v hvr (by rw [v4]; simp) (by omega) (by omega) (by omega)
      exact ⟨w, rsteps_trans hv w1, w2⟩
  obtain ⟨_, _, _, hle, _⟩ := c76_protocol cfg hok xs cs hsh raws hraws s h
  obtain ⟨t, t1, t2⟩ := main _ s h hpc hfew rfl hle
  refine ⟨t, t1, t2, ?_⟩
  rw [c76_same_samples cfg hok xs cs hsh raws hraws (.inr hwarm) t (rsteps_reach h t1), t2, ← hlen, List.take_length]

end LitData.Props
