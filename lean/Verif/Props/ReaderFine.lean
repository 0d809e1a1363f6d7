import Verif.Props.ReaderRandom
import Verif.Model.ReaderFine

/-! C76 again, while files arrive byte by byte and are decompressed: every such run looks like one in which a fetch is one step. -/

namespace LitData.Props

open LitData LitData.Spec

/-- The state of the thread once its fetch of `c` is counted. -/
def committed (p : PrepState) (c : Nat) : PrepState :=
  if p.pc = .force then { p with forceQ := p.forceQ.tail, forced := p.forced ++ [c], counter := p.counter + 1, pc := .fetch }
  else { p with queue := p.queue.tail, downloaded := p.downloaded ++ [c], counter := p.counter + 1, pc := .clean }

/-- The state as it is in `Model/Reader.lean`, where a file comes and is counted at once. -/
def coarse (f : FineState) : RemoteState := match f.job with
  | .ready c => { f.s with p := committed f.s.p c }
  | _ => f.s

theorem committed_step {cfg : PrepCfg} {p : PrepState} {c : Nat} (h : Wants cfg p c) :
    TStep cfg p (committed p c) ∧ fetchedIn p (committed p c) = [c] ∧ deletedIn p (committed p c) = [] := by
  unfold committed
  rcases h with ⟨h1, h2⟩ | ⟨h1, h2, h3⟩
  · rw [if_pos h1]
    cases hq : p.forceQ with
    | nil => rw [hq] at h2; cases h2
    | cons d rest =>
      rw [hq] at h2
      cases h2
      exact ⟨.forceSome p c rest h1 hq, by simp [fetchedIn], by simp [deletedIn]⟩
  · rw [if_neg (by rw [h1]; simp)]
    cases hq : p.queue with
    | nil => rw [hq] at h3; cases h3
    | cons d rest =>
      rw [hq] at h3
      cases h3
      exact ⟨.fetchSome p c rest h1 h2 hq, by simp [fetchedIn], by simp [deletedIn]⟩

theorem fetching_step {cfg : PrepCfg} {p t : PrepState} {c : Nat} (h : TStep cfg p t) (hf : fetchedIn p t = [c]) : Wants cfg p c ∧ t = committed p c := by
  cases h with
  | forceSome d rest h1 h2 =>
    have : d = c := by simpa [fetchedIn] using hf
    subst this
    exact ⟨.inl ⟨h1, by rw [h2]; rfl⟩, by unfold committed; rw [if_pos h1, h2]; rfl⟩
  | fetchSome d rest h1 h2 h3 =>
    have : d = c := by simpa [fetchedIn] using hf
    subst this
    exact ⟨.inr ⟨h1, h2, by rw [h3]; rfl⟩, by unfold committed; rw [if_neg (by rw [h1]; simp), h3]; rfl⟩
  | _ => exact absurd hf (by simp [fetchedIn, cleanUp])

theorem fetched_or_not {cfg : PrepCfg} {p t : PrepState} (h : TStep cfg p t) : fetchedIn p t = [] ∨ ∃ c, fetchedIn p t = [c] := by
  cases h with
  | forceSome d rest h1 h2 => exact .inr ⟨d, by simp [fetchedIn]⟩
  | fetchSome d rest h1 h2 h3 => exact .inr ⟨d, by simp [fetchedIn]⟩
  | _ => exact .inl (by simp [fetchedIn, cleanUp])

theorem reader_rstep {cfg : RemoteCfg} {xs : List ChunkedIndex} {s t : RemoteState} (h : ReaderStep cfg xs s t) : RStep cfg xs s t := by
  cases h with
  | ask x h1 h2 => exact .ask s x h1 h2
  | request c cs h1 => exact .request s c cs h1
  | requested h1 => exact .requested s h1
  | force x h1 h2 h3 => exact .force s x h1 h2 h3
  | read x path b size raw ld h1 h2 h3 h4 => exact .read s x path b size raw ld h1 h2 h3 h4
  | fail h1 => exact .fail s h1

theorem wants_more {cfg : PrepCfg} {p : PrepState} {c : Nat} (h : Wants cfg p c) (q : List (Option Nat)) (r : List Nat) (t : PrepState)
    (h1 : t.pc = p.pc) (h2 : t.counter = p.counter) (h3 : t.queue = p.queue ++ q) (h4 : t.forceQ = p.forceQ ++ r) : Wants cfg t c := by
  unfold Wants at h ⊢
  rw [h1, h2, h3, h4]
  rcases h with ⟨g1, g2⟩ | ⟨g1, g2, g3⟩
  · refine .inl ⟨g1, ?_⟩
    rw [List.head?_append, g2]; rfl
  · refine .inr ⟨g1, g2, ?_⟩
    rw [List.head?_append, g3]; rfl

theorem wants_ne {cfg : PrepCfg} {p : PrepState} {c : Nat} (h : Wants cfg p c) : (p.pc = .force → p.forceQ ≠ []) ∧ (p.pc ≠ .force → p.queue ≠ []) := by
  rcases h with ⟨g1, g2⟩ | ⟨g1, g2, g3⟩
  · refine ⟨fun _ e => ?_, fun e => absurd g1 e⟩
    rw [e] at g2; cases g2
  · refine ⟨fun e => ?_, fun _ e => ?_⟩
    · rw [g1] at e; cases e
    · rw [e] at g3; cases g3

theorem committed_more {cfg : PrepCfg} {p : PrepState} {c : Nat} (h : Wants cfg p c) (rq : List Nat) (q : List (Option Nat)) (r td co : List Nat) (cur : Nat) (st : Bool) :
    committed { p with requested := p.requested ++ rq, queue := p.queue ++ q, forceQ := p.forceQ ++ r, toDelete := p.toDelete ++ td, consumed := p.consumed ++ co, cur := cur, stopped := st } c =
    { committed p c with requested := p.requested ++ rq, queue := (committed p c).queue ++ q, forceQ := (committed p c).forceQ ++ r, toDelete := p.toDelete ++ td, consumed := p.consumed ++ co, cur := cur, stopped := st } := by
  obtain ⟨h1, h2⟩ := wants_ne h
  unfold committed
  by_cases hp : p.pc = .force
  · simp only [if_pos hp, List.tail_append_of_ne_nil (h1 hp)]
  · simp only [if_neg hp, List.tail_append_of_ne_nil (h2 hp)]

theorem committed_logs (p : PrepState) (c : Nat) : (committed p c).requested = p.requested ∧ (committed p c).toDelete = p.toDelete ∧ (committed p c).consumed = p.consumed ∧
    (committed p c).cur = p.cur ∧ (committed p c).stopped = p.stopped := by
  unfold committed
  split <;> exact ⟨rfl, rfl, rfl, rfl, rfl⟩

theorem giveUp_more (p : PrepState) (gone : List Nat) (stop : Bool) (b : Nat) :
    giveUp p gone stop b = { p with requested := p.requested ++ [], queue := p.queue ++ (if stop then [none] else []), forceQ := p.forceQ ++ [], toDelete := p.toDelete ++ gone, consumed := p.consumed ++ gone, cur := b, stopped := p.stopped || stop } := by
  unfold giveUp
  cases stop <;> simp

/-- Whether the reader makes a new thread in a step. -/
def NewThread (s t : RemoteState) : Prop := s.reader.thread = false ∧ t.reader.thread = true

theorem reader_new {cfg : RemoteCfg} {xs : List ChunkedIndex} {s t : RemoteState} (h : ReaderStep cfg xs s t) (hn : NewThread s t) (p : PrepState) :
    ReaderStep cfg xs { s with p := p } t := by
  obtain ⟨n1, n2⟩ := hn
  cases h with
  | ask x h1 h2 =>
    have := ReaderStep.ask (cfg := cfg) (xs := xs) { s with p := p } x h1 h2
    have e : (beginRead s.reader x).2.1 = true := by simp [beginRead, n1]
    simp only [e, if_true] at this ⊢
    exact this
  | read x path b size raw ld h1 h2 h3 h4 =>
    exfalso
    simp only [endRead] at n2
    split at n2
    · cases n2
    · rw [n1] at n2; cases n2
  | _ => rw [n1] at n2; cases n2

theorem reader_commutes {cfg : RemoteCfg} {xs : List ChunkedIndex} {s t : RemoteState} {c : Nat} (h : ReaderStep cfg xs s t) (hn : ¬ NewThread s t)
    (hw : Wants cfg.prep s.p c) : Wants cfg.prep t.p c ∧ ReaderStep cfg xs { s with p := committed s.p c } { t with p := committed t.p c } := by
  obtain ⟨l1, l2, l3, l4, l5⟩ := committed_logs s.p c
  cases h with
  | ask x h1 h2 =>
    have e : (beginRead s.reader x).2.1 = false := by
      cases ht : s.reader.thread
      · exact absurd ⟨ht, rfl⟩ hn
      · simp [beginRead, ht]
    have st := ReaderStep.ask (cfg := cfg) (xs := xs) { s with p := committed s.p c } x h1 h2
    simp only [e] at st ⊢
    exact ⟨hw, st⟩
  | request d cs h1 =>
    refine ⟨wants_more hw [some d] [] _ rfl rfl rfl (by simp), ?_⟩
    have st := ReaderStep.request (cfg := cfg) (xs := xs) { s with p := committed s.p c } d cs h1
    have e := committed_more hw [d] [some d] [] [] [] s.p.cur s.p.stopped
    simp only [List.append_nil] at e
    simp only [e]
    simp only [l1] at st
    rw [show ({ committed s.p c with requested := s.p.requested ++ [d], queue := (committed s.p c).queue ++ [some d], toDelete := s.p.toDelete, consumed := s.p.consumed, cur := s.p.cur, stopped := s.p.stopped } : PrepState)
      = { committed s.p c with requested := s.p.requested ++ [d], queue := (committed s.p c).queue ++ [some d] } by rw [← l2, ← l3, ← l4, ← l5]]
    exact st
  | requested h1 => exact ⟨hw, ReaderStep.requested (cfg := cfg) (xs := xs) { s with p := committed s.p c } h1⟩
  | force x h1 h2 h3 =>
    refine ⟨wants_more hw [] [x.chunkIndex] _ rfl rfl (by simp) rfl, ?_⟩
    have st := ReaderStep.force (cfg := cfg) (xs := xs) { s with p := committed s.p c } x h1 h2 h3
    have e := committed_more hw [] [] [x.chunkIndex] [] [] s.p.cur s.p.stopped
    simp only [List.append_nil] at e
    simp only [e]
    rw [show ({ committed s.p c with requested := s.p.requested, forceQ := (committed s.p c).forceQ ++ [x.chunkIndex], toDelete := s.p.toDelete, consumed := s.p.consumed, cur := s.p.cur, stopped := s.p.stopped } : PrepState)
      = { committed s.p c with forceQ := (committed s.p c).forceQ ++ [x.chunkIndex] } by rw [← l1, ← l2, ← l3, ← l4, ← l5]]
    exact st
  | read x path b size raw ld h1 h2 h3 h4 =>
    generalize hb : (if s.p.cur = 0 ∨ s.reader.last ≠ some x.chunkIndex then s.p.cur + 1 else s.p.cur) = begun
    have st := ReaderStep.read (cfg := cfg) (xs := xs) { s with p := committed s.p c } x path b size raw ld h1 h2 h3 h4
    simp only [l4, hb] at st
    have e : committed (giveUp s.p (endRead s.reader x ld).2.1 (endRead s.reader x ld).2.2 begun) c = giveUp (committed s.p c) (endRead s.reader x ld).2.1 (endRead s.reader x ld).2.2 begun := by
      rw [giveUp_more, giveUp_more, committed_more hw, l1, l2, l3, l5]
    refine ⟨?_, ?_⟩
    · refine wants_more hw (if (endRead s.reader x ld).2.2 then [none] else []) [] _ rfl rfl ?_ (by simp [giveUp])
      simp only [giveUp]
      split <;> simp
    · simp only [e]
      exact st
  | fail h1 => exact ⟨hw, ReaderStep.fail (cfg := cfg) (xs := xs) { s with p := committed s.p c } h1⟩

/-- The chunk that the thread is fetching. -/
def jobChunk : FetchPc → Option Nat
  | .idle => none
  | .look c => some c
  | .check c => some c
  | .unpack c => some c
  | .writing c _ => some c
  | .ready c => some c

/-- The files of the remote folder have the size that the index says (`streaming/writer.py:272`, 289). -/
def ExactSizes (cfg : RemoteCfg) : Prop :=
  ∀ (c : Nat) (info : ChunkInfo) (file : Bytes), cfg.chunks[c]? = some info → cfg.files (cfg.join info.filename) = some file → file.length = info.chunkBytes

/-- What holds in each state of the model with files that arrive byte by byte. -/
structure FineInv (cfg : RemoteCfg) (comp : Bool) (xs : List ChunkedIndex) (f : FineState) : Prop where
  reach : RReach cfg xs (coarse f)
  wants : ∀ c, jobChunk f.job = some c → Wants cfg.prep f.s.p c ∧ (f.s.reader.thread = true ∨ f.s.p.stopped = true)
  whole : ∀ (c : Nat) (info : ChunkInfo), cfg.chunks[c]? = some info → c ∉ cfg.prep.others →
    f.s.disk (cfg.join info.filename) = none ∨ f.s.disk (cfg.join info.filename) = cfg.files (cfg.join info.filename) ∨ ∃ k, f.job = .writing c k
  part : ∀ c k, f.job = .writing c k → ∃ info file, cfg.chunks[c]? = some info ∧ cfg.files (cfg.join info.filename) = some file ∧ k < file.length ∧
    (c ∉ cfg.prep.others → f.s.disk (cfg.join info.filename) = some (file.take k))
  gone : ∀ (c : Nat) (info : ChunkInfo), f.job = .unpack c → cfg.chunks[c]? = some info → f.s.disk (cfg.join info.filename) = none
  packed : ∀ c, f.job = .check c ∨ f.job = .unpack c → comp = true
  stored : ∀ c, f.job = .check c → f.packed c = true

/-- The file of one chunk and no other is replaced. -/
theorem setFile_cases {cfg : RemoteCfg} (hok : RemoteOk cfg) {c d : Nat} {info info' : ChunkInfo} (h : cfg.chunks[c]? = some info) (h' : cfg.chunks[d]? = some info')
    (disk : String → Option Bytes) (g : Option Bytes) :
    d = c ∧ setFile disk (cfg.join info.filename) g (cfg.join info'.filename) = g ∧ info' = info ∨ d ≠ c ∧ setFile disk (cfg.join info.filename) g (cfg.join info'.filename) = disk (cfg.join info'.filename) := by
  by_cases hc : d = c
  · subst hc
    rw [h] at h'
    cases h'
    exact .inl ⟨rfl, if_pos rfl, rfl⟩
  · refine .inr ⟨hc, if_neg ?_⟩
    intro e
    exact hc (hok.paths d c _ (pathOf_info h') (e ▸ pathOf_info h))

/-- The thread ends a fetch: the file is as the remote one, or another worker has the lock. -/
theorem fetch_rstep {cfg : RemoteCfg} {xs : List ChunkedIndex} {s : RemoteState} {c : Nat} {q : String} (hw : Wants cfg.prep s.p c)
    (hrun : s.reader.thread = true ∨ s.p.stopped = true) (hq : cfg.pathOf c = some q) (disk : String → Option Bytes)
    (hd : disk = s.disk ∧ (c ∉ cfg.prep.others → s.disk q = cfg.files q) ∨ disk = setFile s.disk q (cfg.files q)) :
    RStep cfg xs s { s with p := committed s.p c, disk := disk } := by
  obtain ⟨h1, h2, _⟩ := committed_step hw
  refine .thread s _ disk hrun h1 ⟨?_, ?_⟩
  · rcases hd with ⟨rfl, _⟩ | rfl
    · exact fun r => .inl rfl
    · intro r
      by_cases hr : r = q
      · subst hr
        exact .inr (.inl ⟨c, by rw [h2]; exact List.mem_cons_self, hq, if_pos rfl⟩)
      · exact .inl (if_neg hr)
  · intro d hdm hnw r hr
    rw [h2, List.mem_singleton] at hdm
    subst hdm
    rw [hq] at hr
    cases hr
    rcases hd with ⟨rfl, h⟩ | rfl
    · exact h hnw
    · exact if_pos rfl

/-- More of a file is there. -/
theorem part_rstep {cfg : RemoteCfg} {xs : List ChunkedIndex} {s : RemoteState} {c : Nat} {info : ChunkInfo} (hw : Wants cfg.prep s.p c)
    (hrun : s.reader.thread = true ∨ s.p.stopped = true) (hq : cfg.chunks[c]? = some info) (part : Bytes) (hp : part.length < info.chunkBytes)
    (hd : ∀ g, s.disk (cfg.join info.filename) = some g → g.length < info.chunkBytes) :
    RStep cfg xs s { s with disk := setFile s.disk (cfg.join info.filename) (some part) } := by
  refine .arriving s c info part hrun ?_ hq hp hd
  rcases hw with ⟨_, h⟩ | ⟨_, _, h⟩
  · exact .inl h
  · exact .inr h

theorem running_reader {cfg : RemoteCfg} {xs : List ChunkedIndex} {s t : RemoteState} (h : ReaderStep cfg xs s t) (hn : ¬ NewThread s t)
    (hr : s.reader.thread = true ∨ s.p.stopped = true) : t.reader.thread = true ∨ t.p.stopped = true := by
  cases h with
  | ask x h1 h2 => exact .inl rfl
  | read x path b size raw ld h1 h2 h3 h4 =>
    simp only [endRead, giveUp]
    split
    · exact .inr (by simp)
    · rcases hr with g | g
      · exact .inl g
      · exact .inr (by simp [g])
  | _ => exact hr

/-- The cache has no part of a file, apart from those that others fetch. -/
def NoParts (cfg : RemoteCfg) (disk : String → Option Bytes) : Prop :=
  ∀ (c : Nat) (info : ChunkInfo), cfg.chunks[c]? = some info → c ∉ cfg.prep.others →
    disk (cfg.join info.filename) = none ∨ disk (cfg.join info.filename) = cfg.files (cfg.join info.filename)

theorem noParts_of {cfg : RemoteCfg} {comp : Bool} {xs : List ChunkedIndex} {f : FineState} (hi : FineInv cfg comp xs f) (hj : ∀ c k, f.job ≠ .writing c k) :
    NoParts cfg f.s.disk := by
  intro c info hc hw
  rcases hi.whole c info hc hw with g | g | ⟨k, g⟩
  · exact .inl g
  · exact .inr g
  · exact absurd g (hj c k)

/-- The invariant outside of decompression and writing. -/
theorem fineInv_plain {cfg : RemoteCfg} {comp : Bool} {xs : List ChunkedIndex} {g : FineState} (h1 : ∀ c k, g.job ≠ .writing c k) (h2 : ∀ c, g.job ≠ .check c ∧ g.job ≠ .unpack c)
    (hr : RReach cfg xs (coarse g)) (hw : ∀ c, jobChunk g.job = some c → Wants cfg.prep g.s.p c ∧ (g.s.reader.thread = true ∨ g.s.p.stopped = true))
    (hd : NoParts cfg g.s.disk) : FineInv cfg comp xs g := by
  refine ⟨hr, hw, ?_, ?_, ?_, ?_, ?_⟩
  · intro c info hc hn
    rcases hd c info hc hn with e | e
    · exact .inl e
    · exact .inr (.inl e)
  · intro c k e; exact absurd e (h1 c k)
  · intro c info e; exact absurd e (h2 c).2
  · intro c e
    rcases e with e | e
    · exact absurd e (h2 c).1
    · exact absurd e (h2 c).2
  · intro c e; exact absurd e (h2 c).1

/-- The invariant after the first bytes. -/
theorem fineInv_open {cfg : RemoteCfg} (hok : RemoteOk cfg) {comp : Bool} {xs : List ChunkedIndex} {f : FineState} {c k : Nat} {info : ChunkInfo} {file : Bytes}
    (h1 : cfg.chunks[c]? = some info) (h2 : cfg.files (cfg.join info.filename) = some file) (hk : k < file.length)
    (hr : RReach cfg xs { f.s with disk := setFile f.s.disk (cfg.join info.filename) (some (file.take k)) })
    (hw : Wants cfg.prep f.s.p c ∧ (f.s.reader.thread = true ∨ f.s.p.stopped = true))
    (hd : ∀ (d : Nat) (info : ChunkInfo), d ≠ c → cfg.chunks[d]? = some info → d ∉ cfg.prep.others →
      f.s.disk (cfg.join info.filename) = none ∨ f.s.disk (cfg.join info.filename) = cfg.files (cfg.join info.filename)) :
    FineInv cfg comp xs { f with s := { f.s with disk := setFile f.s.disk (cfg.join info.filename) (some (file.take k)) }, job := .writing c k } := by
  refine ⟨hr, ?_, ?_, ?_, ?_, ?_, ?_⟩
  · intro d e; cases e; exact hw
  · intro d info' hc hn
    rcases setFile_cases hok h1 hc f.s.disk (some (file.take k)) with ⟨rfl, e, _⟩ | ⟨hne, e⟩
    · exact .inr (.inr ⟨k, rfl⟩)
    · simp only [e]
      rcases hd d info' hne hc hn with g | g
      · exact .inl g
      · exact .inr (.inl g)
  · intro d k' e
    cases e
    exact ⟨info, file, h1, h2, hk, fun _ => if_pos rfl⟩
  · intro d info e; cases e
  · intro d e
    rcases e with e | e <;> cases e
  · intro d e; cases e

theorem noParts_set {cfg : RemoteCfg} (hok : RemoteOk cfg) {disk : String → Option Bytes} {c : Nat} {info : ChunkInfo} (h1 : cfg.chunks[c]? = some info)
    (hd : ∀ (d : Nat) (info : ChunkInfo), d ≠ c → cfg.chunks[d]? = some info → d ∉ cfg.prep.others →
      disk (cfg.join info.filename) = none ∨ disk (cfg.join info.filename) = cfg.files (cfg.join info.filename)) :
    NoParts cfg (setFile disk (cfg.join info.filename) (cfg.files (cfg.join info.filename))) := by
  intro d info' hc hn
  rcases setFile_cases hok h1 hc disk (cfg.files (cfg.join info.filename)) with ⟨_, e, rfl⟩ | ⟨hne, e⟩
  · exact .inr e
  · rw [e]
    exact hd d info' hne hc hn

theorem others_whole {cfg : RemoteCfg} {comp : Bool} {xs : List ChunkedIndex} {f : FineState} (hi : FineInv cfg comp xs f) {c : Nat} (hj : jobChunk f.job = some c)
    (d : Nat) (info : ChunkInfo) (hne : d ≠ c) (hc : cfg.chunks[d]? = some info) (hn : d ∉ cfg.prep.others) :
    f.s.disk (cfg.join info.filename) = none ∨ f.s.disk (cfg.join info.filename) = cfg.files (cfg.join info.filename) := by
  rcases hi.whole d info hc hn with g | g | ⟨k, g⟩
  · exact .inl g
  · exact .inr g
  · rw [g] at hj
    cases hj
    exact absurd rfl hne

theorem fineInv_step {cfg : RemoteCfg} (hok : RemoteOk cfg) (hex : ExactSizes cfg) {comp : Bool} (hcomp : comp = true → cfg.prep.others = []) {xs : List ChunkedIndex}
    {f g : FineState} (hi : FineInv cfg comp xs f) (h : FStep cfg comp xs f g) : FineInv cfg comp xs g := by
  cases h with
  | reader t h1 hidle =>
    obtain ⟨i1, i2, i3, i4, i5, i6, i7⟩ := hi
    have hdisk : t.disk = f.s.disk := by cases h1 <;> rfl
    by_cases hn : NewThread f.s t
    · have hj := hidle hn.1 hn.2
      have hi : FineInv cfg comp xs f := ⟨i1, i2, i3, i4, i5, i6, i7⟩
      refine fineInv_plain ?_ ?_ ?_ ?_ ?_ <;> simp only [hj]
      · simp
      · simp
      · simp only [coarse, hj] at i1 ⊢
        exact i1.step (reader_rstep h1)
      · intro c e; cases e
      · rw [hdisk]
        exact noParts_of hi (by rw [hj]; simp)
    · refine ⟨?_, ?_, ?_, ?_, ?_, ?_, ?_⟩ <;> (try simp only [hdisk])
      · cases hjob : f.job with
        | ready c =>
          have := (reader_commutes h1 hn (i2 c (by rw [hjob]; rfl)).1).2
          simp only [coarse, hjob] at i1 ⊢
          exact i1.step (reader_rstep this)
        | _ =>
          simp only [coarse, hjob] at i1 ⊢
          exact i1.step (reader_rstep h1)
      · intro c hc
        obtain ⟨a, b⟩ := i2 c hc
        exact ⟨(reader_commutes h1 hn a).1, running_reader h1 hn b⟩
      · exact i3
      · exact i4
      · exact i5
      · exact i6
      · exact i7
  | thread p disk hj hrun h1 h2 h3 =>
    have i1 := hi.reach
    simp only [coarse, hj] at i1
    refine fineInv_plain ?_ ?_ ?_ ?_ ?_ <;> simp only [hj]
    · simp
    · simp
    · simp only [coarse]
      exact i1.step (.thread f.s p disk hrun h1 h3)
    · intro c e; cases e
    · intro c info hc hw
      rcases h3.1 (cfg.join info.filename) with g | ⟨d, hd, _⟩ | ⟨d, _, _, g⟩
      · rw [g]
        exact noParts_of hi (by rw [hj]; simp) c info hc hw
      · rw [h2] at hd; cases hd
      · exact .inl g
  | begin c info hj hrun h1 h2 =>
    have i1 := hi.reach
    simp only [coarse, hj] at i1
    have hn := noParts_of hi (by rw [hj]; simp)
    refine fineInv_plain (by simp) (by simp) i1 ?_ hn
    intro d hd
    cases hd
    exact ⟨h1, hrun⟩
  | there c info g hc hj h1 h2 =>
    have i1 := hi.reach
    simp only [coarse, hj] at i1
    have ab := hi.wants c (by rw [hj]; rfl)
    have hn := noParts_of hi (by rw [hj]; simp)
    refine fineInv_plain (by simp) (by simp) ?_ (by intro d e; cases e; exact ab) hn
    refine i1.step (fetch_rstep ab.1 ab.2 (pathOf_info h1) f.s.disk (.inl ⟨rfl, fun hw => ?_⟩))
    rcases hn c info h1 hw with e | e
    · rw [h2] at e; cases e
    · exact e
  | atOnce c info hc hj h1 h2 =>
    have i1 := hi.reach
    simp only [coarse, hj] at i1
    have ab := hi.wants c (by rw [hj]; rfl)
    refine fineInv_plain (by simp) (by simp) ?_ (by intro d e; cases e; exact ab) (noParts_set hok h1 (others_whole hi (by rw [hj]; rfl)))
    exact i1.step (fetch_rstep ab.1 ab.2 (pathOf_info h1) _ (.inr rfl))
  | busy c hc hj h1 =>
    have i1 := hi.reach
    simp only [coarse, hj] at i1
    have ab := hi.wants c (by rw [hj]; rfl)
    have hn := noParts_of hi (by rw [hj]; simp)
    refine fineInv_plain (by simp) (by simp) ?_ (by intro d e; cases e; exact ab) hn
    obtain ⟨s1, s2, _⟩ := committed_step ab.1
    refine i1.step (.thread f.s _ _ ab.2 s1 ⟨fun r => .inl rfl, ?_⟩)
    intro d hd hnw
    rw [s2, List.mem_singleton] at hd
    exact absurd (hd ▸ h1) hnw
  | create c info file hc hj h1 h2 h3 h4 =>
    have i1 := hi.reach
    simp only [coarse, hj] at i1
    have ab := hi.wants c (by rw [hj]; rfl)
    have hl := hex c info file h1 h3
    refine fineInv_open hok (k := 0) h1 h3 h4 ?_ ab (others_whole hi (by rw [hj]; rfl))
    exact i1.step (part_rstep ab.1 ab.2 h1 [] (by show 0 < _; omega) (by intro g hg; rw [h2] at hg; cases hg))
  | packedThere c hc hj h1 =>
    have i1 := hi.reach
    simp only [coarse, hj] at i1
    have ab := hi.wants c (by rw [hj]; rfl)
    have hn := noParts_of hi (by rw [hj]; simp)
    refine ⟨i1, (by intro d e; cases e; exact ab), ?_, (by intro d k e; cases e), (by intro d info e; cases e), fun _ _ => hc, (by intro d e; cases e; exact h1)⟩
    intro d info hd hw
    rcases hn d info hd hw with e | e
    · exact .inl e
    · exact .inr (.inl e)
  | fetchPacked c hc hj h1 =>
    have i1 := hi.reach
    simp only [coarse, hj] at i1
    have ab := hi.wants c (by rw [hj]; rfl)
    have hn := noParts_of hi (by rw [hj]; simp)
    refine ⟨i1, (by intro d e; cases e; exact ab), ?_, (by intro d k e; cases e), (by intro d info e; cases e), fun _ _ => hc, (by intro d e; cases e; exact if_pos rfl)⟩
    intro d info hd hw
    rcases hn d info hd hw with e | e
    · exact .inl e
    · exact .inr (.inl e)
  | unpacked c info g hj h1 h2 =>
    have i1 := hi.reach
    simp only [coarse, hj] at i1
    have ab := hi.wants c (by rw [hj]; rfl)
    have hn := noParts_of hi (by rw [hj]; simp)
    refine fineInv_plain (by simp) (by simp) ?_ (by intro d e; cases e; exact ab) hn
    refine i1.step (fetch_rstep ab.1 ab.2 (pathOf_info h1) f.s.disk (.inl ⟨rfl, fun hw => ?_⟩))
    rcases hn c info h1 hw with e | e
    · rw [h2] at e; cases e
    · exact e
  | unpack c info hj h1 h2 h3 =>
    have i1 := hi.reach
    simp only [coarse, hj] at i1
    have ab := hi.wants c (by rw [hj]; rfl)
    have hn := noParts_of hi (by rw [hj]; simp)
    refine ⟨i1, (by intro d e; cases e; exact ab), ?_, (by intro d k e; cases e), ?_, fun _ _ => hi.packed c (.inl hj), (by intro d e; cases e)⟩
    · intro d info hd hw
      rcases hn d info hd hw with e | e
      · exact .inl e
      · exact .inr (.inl e)
    · intro d info' e hd
      cases e
      rw [h1] at hd
      cases hd
      exact h2
  | open_ c info file hj h1 h2 h3 =>
    have i1 := hi.reach
    simp only [coarse, hj] at i1
    have ab := hi.wants c (by rw [hj]; rfl)
    have hl := hex c info file h1 h2
    have hnone := hi.gone c info hj h1
    refine fineInv_open hok (k := 0) h1 h2 h3 ?_ ab (others_whole hi (by rw [hj]; rfl))
    exact i1.step (part_rstep ab.1 ab.2 h1 [] (by show 0 < _; omega) (by intro g hg; rw [hnone] at hg; cases hg))
  | write c k n info file hj h1 h2 h3 h4 =>
    have i1 := hi.reach
    simp only [coarse, hj] at i1
    have ab := hi.wants c (by rw [hj]; rfl)
    have hl := hex c info file h1 h2
    obtain ⟨info', file', p1, p2, p3, p4⟩ := hi.part c k hj
    rw [h1] at p1
    cases p1
    rw [h2] at p2
    cases p2
    refine fineInv_open hok h1 h2 h3 ?_ ab (others_whole hi (by rw [hj]; rfl))
    refine i1.step (part_rstep ab.1 ab.2 h1 _ (by rw [List.length_take]; omega) ?_)
    intro g hg
    by_cases hw : c ∈ cfg.prep.others
    · exact h4 hw g hg
    · rw [p4 hw] at hg
      cases hg
      rw [List.length_take]
      omega
  | finish c info hj h1 =>
    have hjob : jobChunk f.job = some c := by rcases hj with e | ⟨k, e⟩ <;> rw [e] <;> rfl
    have hcoarse : coarse f = f.s := by rcases hj with e | ⟨k, e⟩ <;> simp only [coarse, e]
    have i1 := hi.reach
    rw [hcoarse] at i1
    have ab := hi.wants c hjob
    refine fineInv_plain (by simp) (by simp) ?_ (by intro d e; cases e; exact ab) (noParts_set hok h1 (others_whole hi hjob))
    exact i1.step (fetch_rstep ab.1 ab.2 (pathOf_info h1) _ (.inr rfl))
  | commit c p hj h1 h2 =>
    obtain ⟨_, rfl⟩ := fetching_step h1 h2
    have i1 := hi.reach
    simp only [coarse, hj] at i1
    have hn := noParts_of hi (by rw [hj]; simp)
    exact fineInv_plain (by simp) (by simp) i1 (by intro d e; cases e) hn
  | others c info g hw h1 h2 =>
    obtain ⟨i1, i2, i3, i4, i5, i6, i7⟩ := hi
    have hc : comp = false := by
      cases hc : comp with
      | false => rfl
      | true => rw [hcomp hc] at hw; cases hw
    have hno : ∀ c, f.job ≠ .check c ∧ f.job ≠ .unpack c := by
      intro d
      refine ⟨fun e => ?_, fun e => ?_⟩
      · have := i6 d (.inl e); rw [hc] at this; cases this
      · have := i6 d (.inr e); rw [hc] at this; cases this
    refine ⟨?_, i2, ?_, ?_, ?_, i6, i7⟩
    · have hd : (coarse f).disk = f.s.disk := by unfold coarse; split <;> rfl
      have := i1.step (.others _ c info g hw h1 (by rw [hd]; exact h2))
      refine cast ?_ this
      congr 1
      unfold coarse
      cases f.job <;> rfl
    · intro d info' hd hdw
      rcases setFile_cases hok h1 hd f.s.disk g with ⟨rfl, e, _⟩ | ⟨hne, e⟩
      · exact absurd hw hdw
      · simp only [e]
        exact i3 d info' hd hdw
    · intro d k e
      obtain ⟨info', file, p1, p2, p3, p4⟩ := i4 d k e
      refine ⟨info', file, p1, p2, p3, fun hdw => ?_⟩
      rcases setFile_cases hok h1 p1 f.s.disk g with ⟨rfl, e, _⟩ | ⟨hne, e⟩
      · exact absurd hw hdw
      · simp only [e]
        exact p4 hdw
    · intro d info' e
      exact absurd e (hno d).2

theorem fineInv_reach {cfg : RemoteCfg} (hok : RemoteOk cfg) (hex : ExactSizes cfg) {comp : Bool} (hcomp : comp = true → cfg.prep.others = []) {xs : List ChunkedIndex}
    {f : FineState} (h : FReach cfg comp xs f) : FineInv cfg comp xs f := by
  induction h with
  | init disk packed hd hthere =>
    refine fineInv_plain (by simp) (by simp) (RReach.init disk hd hthere) (by intro c e; cases e) ?_
    intro c info hc _
    cases hf : disk (cfg.join info.filename) with
    | none => exact .inl hf
    | some f => exact .inr (hf.trans (hd _ f hf).1.symm)
  | step _ h2 ih => exact fineInv_step hok hex hcomp ih h2

theorem coarse_same (f : FineState) : (coarse f).out = f.s.out ∧ (coarse f).done = f.s.done ∧ (coarse f).pc = f.s.pc ∧ (coarse f).reader = f.s.reader ∧
    (coarse f).p.requested = f.s.p.requested ∧ (coarse f).p.consumed = f.s.p.consumed ∧ (coarse f).p.stopped = f.s.p.stopped := by
  unfold coarse
  split
  · rename_i c _
    obtain ⟨l1, l2, l3, l4, l5⟩ := committed_logs f.s.p c
    exact ⟨rfl, rfl, rfl, rfl, l1, l3, l5⟩
  · exact ⟨rfl, rfl, rfl, rfl, rfl, rfl, rfl⟩

/-- **C76, bytes that arrive one by one, compressed or not.** Each state that is reached while files arrive piece by piece, are tested for, decompressed and
removed, and counted only afterwards, is one that is reached when a fetch is a single step, up to the counting of a chunk that has come. -/
theorem c76_fine_refines (cfg : RemoteCfg) (hok : RemoteOk cfg) (hex : ExactSizes cfg) (comp : Bool) (hcomp : comp = true → cfg.prep.others = []) (xs : List ChunkedIndex)
    (f : FineState) (h : FReach cfg comp xs f) :
    ∃ s, RReach cfg xs s ∧ s.out = f.s.out ∧ s.done = f.s.done ∧ s.pc = f.s.pc ∧ s.reader = f.s.reader ∧ s.disk = f.s.disk ∧
      s.p.requested = f.s.p.requested ∧ s.p.consumed = f.s.p.consumed ∧ s.p.stopped = f.s.p.stopped ∧
      (s.p = f.s.p ∨ ∃ c, f.job = .ready c ∧ TStep cfg.prep f.s.p s.p ∧ fetchedIn f.s.p s.p = [c]) := by
  have hi := fineInv_reach hok hex hcomp h
  obtain ⟨h1, h2, h3, h4, h5, h6, h7⟩ := coarse_same f
  refine ⟨coarse f, hi.reach, h1, h2, h3, h4, ?_, h5, h6, h7, ?_⟩
  · unfold coarse; split <;> rfl
  · cases hj : f.job with
    | ready c =>
      obtain ⟨a, b, _⟩ := committed_step (hi.wants c (by rw [hj]; rfl)).1
      exact .inr ⟨c, rfl, by simpa only [coarse, hj] using a, by simpa only [coarse, hj] using b⟩
    | _ => left; simp only [coarse, hj]

/-- **C76, the same samples, byte by byte.** -/
theorem c76_fine_same_samples (cfg : RemoteCfg) (hok : RemoteOk cfg) (hex : ExactSizes cfg) (comp : Bool) (hcomp : comp = true → cfg.prep.others = [])
    (xs : List ChunkedIndex) (cs : List Nat) (hsh : PassShape xs cs) (raws : List Bytes)
    (hraws : readLocated cfg.files cfg.join cfg.enc cfg.ecfg cfg.chunks cfg.ivs .init (xs.map fun c => (c.index, c.chunkIndex)) = .ok raws)
    (halone : cfg.ecfg = none ∨ cfg.prep.others = []) (f : FineState) (h : FReach cfg comp xs f) : f.s.out = raws.take f.s.done := by
  obtain ⟨s, h1, h2, h3, _⟩ := c76_fine_refines cfg hok hex comp hcomp xs f h
  rw [← h2, ← h3]
  exact c76_same_samples cfg hok xs cs hsh raws hraws halone s h1

/-- **C76, random access, byte by byte.** -/
theorem c76_fine_by_index (cfg : RemoteCfg) (hok : RemoteOk cfg) (hex : ExactSizes cfg) (comp : Bool) (hcomp : comp = true → cfg.prep.others = [])
    (henc : cfg.ecfg = none) (xs : List ChunkedIndex) (hxs : ByIndex xs) (raws : List Bytes)
    (hraws : readLocated cfg.files cfg.join cfg.enc cfg.ecfg cfg.chunks cfg.ivs .init (xs.map fun c => (c.index, c.chunkIndex)) = .ok raws)
    (f : FineState) (h : FReach cfg comp xs f) : f.s.out = raws.take f.s.done := by
  obtain ⟨s, h1, h2, h3, _⟩ := c76_fine_refines cfg hok hex comp hcomp xs f h
  rw [← h2, ← h3]
  exact c76_by_index cfg hok henc xs hxs raws hraws s h1

/-- A worker can begin with just the files of the chunks that are left from before. -/
theorem start_reach (cfg : RemoteCfg) (comp : Bool) (xs : List ChunkedIndex) : ∃ disk, FReach cfg comp xs ⟨.start disk, fun _ => false, .idle⟩ := by
  classical
  refine ⟨fun q => if ∃ c ∈ cfg.prep.warm, cfg.pathOf c = some q then cfg.files q else none, .init _ _ ?_ ?_⟩
  · intro q f h
    split at h
    · rename_i e; exact ⟨h, e⟩
    · cases h
  · intro c hc _ q hq
    exact if_pos ⟨c, hc, hq⟩

theorem fsteps_trans {cfg : RemoteCfg} {comp : Bool} {xs : List ChunkedIndex} {f g h : FineState} (h1 : FSteps cfg comp xs f g) (h2 : FSteps cfg comp xs g h) :
    FSteps cfg comp xs f h := by
  induction h2 with
  | refl => exact h1
  | tail _ h ih => exact ih.tail h

theorem fsteps_reach {cfg : RemoteCfg} {comp : Bool} {xs : List ChunkedIndex} {f g : FineState} (h : FReach cfg comp xs f) (h2 : FSteps cfg comp xs f g) :
    FReach cfg comp xs g := by
  induction h2 with
  | refl => exact h
  | tail _ h ih => exact ih.step h

theorem job_known {cfg : RemoteCfg} {comp : Bool} {xs : List ChunkedIndex} {f : FineState} (h : FReach cfg comp xs f) (c : Nat) (hj : jobChunk f.job = some c) :
    ∃ info, cfg.chunks[c]? = some info := by
  induction h with
  | init => cases hj
  | step h1 h2 ih =>
    cases h2 with
    | begin d info _ _ _ hd => cases hj; exact ⟨info, hd⟩
    | there d info _ _ _ hd => cases hj; exact ⟨info, hd⟩
    | atOnce d info _ _ hd => cases hj; exact ⟨info, hd⟩
    | busy d _ e _ => cases hj; exact ih (by rw [e]; rfl)
    | create d info _ _ _ hd => cases hj; exact ⟨info, hd⟩
    | packedThere d _ e => cases hj; exact ih (by rw [e]; rfl)
    | fetchPacked d _ e => cases hj; exact ih (by rw [e]; rfl)
    | unpacked d info _ _ hd => cases hj; exact ⟨info, hd⟩
    | unpack d info _ hd => cases hj; exact ⟨info, hd⟩
    | open_ d info _ _ hd => cases hj; exact ⟨info, hd⟩
    | write d k n info _ _ hd => cases hj; exact ⟨info, hd⟩
    | finish d info _ hd => cases hj; exact ⟨info, hd⟩
    | commit d p e => cases hj
    | reader t _ _ => exact ih hj
    | thread p disk _ _ _ => exact ih hj
    | others d info g _ _ _ => exact ih hj

theorem setFile_same {disk : String → Option Bytes} {q : String} {g : Option Bytes} (h : disk q = g) : setFile disk q g = disk := by
  funext r
  unfold setFile
  split
  · rename_i e; rw [e, h]
  · rfl

/-- A fetch that has begun can be brought to its end by the thread alone. -/
theorem to_ready {cfg : RemoteCfg} {comp : Bool} {xs : List ChunkedIndex} (hwarm : cfg.prep.others = []) {f : FineState} (hi : FineInv cfg comp xs f)
    {c : Nat} {info : ChunkInfo} (hc : cfg.chunks[c]? = some info) (hj : jobChunk f.job = some c) (hr : f.job ≠ .ready c) :
    ∃ g, FSteps cfg comp xs f g ∧ g.job = .ready c ∧ g.s = { f.s with disk := setFile f.s.disk (cfg.join info.filename) (cfg.files (cfg.join info.filename)) } := by
  have hw : ∀ d, d ∉ cfg.prep.others := by rw [hwarm]; intro d e; cases e
  have checked : ∀ f', FineInv cfg comp xs f' → f'.job = .check c → f'.packed c = true → ∃ g, FSteps cfg comp xs f' g ∧ g.job = .ready c ∧
      g.s = { f'.s with disk := setFile f'.s.disk (cfg.join info.filename) (cfg.files (cfg.join info.filename)) } := by
    intro f' hi' hj' hp
    cases hd : f'.s.disk (cfg.join info.filename) with
    | some g =>
      refine ⟨_, (FSteps.refl f').tail (.unpacked f' c info g hj' hc hd), rfl, ?_⟩
      rw [setFile_same]
      rcases noParts_of hi' (by rw [hj']; simp) c info hc (hw c) with e | e
      · rw [hd] at e; cases e
      · exact e
    | none =>
      exact ⟨_, ((FSteps.refl f').tail (.unpack f' c info hj' hc hd hp)).tail (.finish _ c info (.inl rfl) hc), rfl, rfl⟩
  cases hjob : f.job with
  | idle => rw [hjob] at hj; cases hj
  | ready d => rw [hjob] at hj hr; cases hj; exact absurd rfl hr
  | writing d k =>
    rw [hjob] at hj
    cases hj
    exact ⟨_, (FSteps.refl f).tail (.finish f c info (.inr ⟨k, hjob⟩) hc), rfl, rfl⟩
  | unpack d =>
    rw [hjob] at hj
    cases hj
    exact ⟨_, (FSteps.refl f).tail (.finish f c info (.inl hjob) hc), rfl, rfl⟩
  | check d =>
    rw [hjob] at hj
    cases hj
    exact checked f hi hjob (hi.stored c hjob)
  | look d =>
    rw [hjob] at hj
    cases hj
    have hn := noParts_of hi (by rw [hjob]; simp)
    have ab := hi.wants c (by rw [hjob]; rfl)
    have hreach := hi.reach
    simp only [coarse, hjob] at hreach
    have lift : ∀ pk : Nat → Bool, comp = true → pk c = true → FineInv cfg comp xs { f with packed := pk, job := .check c } := by
      intro pk h1 h2
      refine ⟨hreach, (by intro d e; cases e; exact ab), ?_, (by intro d k e; cases e), (by intro d info e; cases e), fun _ _ => h1, (by intro d e; cases e; exact h2)⟩
      intro d info hd hw
      rcases hn d info hd hw with e | e
      · exact .inl e
      · exact .inr (.inl e)
    cases hcc : comp with
    | false =>
      cases hd : f.s.disk (cfg.join info.filename) with
      | some g =>
        refine ⟨_, (FSteps.refl f).tail (.there f c info g rfl hjob hc hd), rfl, ?_⟩
        rw [setFile_same]
        rcases hn c info hc (hw c) with e | e
        · rw [hd] at e; cases e
        · exact e
      | none => exact ⟨_, (FSteps.refl f).tail (.atOnce f c info rfl hjob hc hd), rfl, rfl⟩
    | true =>
      cases hp : f.packed c with
      | true =>
        obtain ⟨g, g1, g2, g3⟩ := checked _ (lift f.packed hcc hp) rfl hp
        rw [hcc] at g1
        exact ⟨g, fsteps_trans ((FSteps.refl f).tail (.packedThere f c rfl hjob hp)) g1, g2, g3⟩
      | false =>
        obtain ⟨g, g1, g2, g3⟩ := checked _ (lift (fun d => if d = c then true else f.packed d) hcc (if_pos rfl)) rfl (if_pos rfl)
        rw [hcc] at g1
        exact ⟨g, fsteps_trans ((FSteps.refl f).tail (.fetchPacked f c rfl hjob hp)) g1, g2, g3⟩

/-- The thread ends the fetch it is in. -/
theorem settle {cfg : RemoteCfg} (hok : RemoteOk cfg) (hex : ExactSizes cfg) {comp : Bool} {xs : List ChunkedIndex} (hwarm : cfg.prep.others = []) {f : FineState}
    (h : FReach cfg comp xs f) : ∃ g, FSteps cfg comp xs f g ∧ g.job = .idle ∧ g.s.done = f.s.done ∧ g.s.pc = f.s.pc ∧ forcedCount g.s.p = forcedCount f.s.p := by
  have hi := fineInv_reach hok hex (fun _ => hwarm) h
  cases hj : jobChunk f.job with
  | none =>
    refine ⟨f, .refl f, ?_, rfl, rfl, rfl⟩
    cases hjob : f.job <;> rw [hjob] at hj <;> first | rfl | cases hj
  | some c =>
    obtain ⟨info, hc⟩ := job_known h c hj
    obtain ⟨h1, h2, _⟩ := committed_step (hi.wants c hj).1
    by_cases hr : f.job = .ready c
    · exact ⟨_, (FSteps.refl f).tail (.commit f c _ hr h1 h2), rfl, rfl, rfl, tstep_forced h1⟩
    · obtain ⟨g, g1, g2, g3⟩ := to_ready hwarm hi hc hj hr
      refine ⟨{ g with s := { g.s with p := committed f.s.p c }, job := .idle }, g1.tail (.commit g c _ g2 (by rw [g3]; exact h1) (by rw [g3]; exact h2)), rfl, ?_, ?_, ?_⟩
      · rw [g3]
      · rw [g3]
      · exact tstep_forced h1

theorem forced_requested {cfg : PrepCfg} {p : PrepState} (h : PrepReach cfg p) : ∀ c, c ∈ p.forceQ ∨ c ∈ p.forced → c ∈ p.requested := by
  induction h with
  | init => intro c hc; simp [PrepState.init] at hc
  | step _ h2 ih =>
    intro c hc
    rcases h2 with h2 | h2
    · cases h2 with
      | forceSome d rest g1 g2 =>
        simp only [List.mem_append, List.mem_singleton] at hc
        apply ih
        rw [g2]
        rcases hc with e | e | e
        · exact .inl (List.mem_cons_of_mem _ e)
        · exact .inr e
        · exact .inl (e ▸ List.mem_cons_self)
      | _ => exact ih c hc
    · cases h2 with
      | request d _ => exact List.mem_append_left _ (ih c hc)
      | ask d g1 g2 =>
        simp only [List.mem_append, List.mem_singleton] at hc
        rcases hc with (e | e) | e
        · exact ih c (.inl e)
        · have := List.mem_of_getElem? g2
          rw [e]
          exact this
        · exact ih c (.inr e)
      | _ => exact ih c hc

theorem readLocated_known {files : String → Option Bytes} {join : String → String} {enc : Option Encryption} {ecfg : Option EncConfig} {chunks : List ChunkInfo}
    {ivs : List Interval} (ps : List (Nat × Nat)) (st : PyTreeState) (raws : List Bytes) (h : readLocated files join enc ecfg chunks ivs st ps = .ok raws) :
    raws.length = ps.length ∧ ∀ p ∈ ps, ∃ info, chunks[p.2]? = some info := by
  induction ps generalizing st raws with
  | nil => cases h; exact ⟨rfl, by intro p hp; cases hp⟩
  | cons p ps ih =>
    obtain ⟨i, k⟩ := p
    rw [readLocated] at h
    split at h
    · cases h
    · rename_i hg
      split at h
      · cases h
      · split at h
        · cases h
        · rename_i hr
          cases h
          obtain ⟨a, b⟩ := ih _ _ hr
          refine ⟨by rw [List.length_cons, List.length_cons, a], ?_⟩
          intro p hp
          rcases List.mem_cons.1 hp with rfl | hp
          · obtain ⟨info, hinfo, _⟩ := configGet_info hg
            exact ⟨info, hinfo⟩
          · exact b p hp

/-- Chunks that the thread is asked for are in the index. -/
theorem wants_known {cfg : RemoteCfg} (hok : RemoteOk cfg) {xs : List ChunkedIndex} {cs : List Nat} (hsh : PassShape xs cs) {raws : List Bytes}
    (hraws : readLocated cfg.files cfg.join cfg.enc cfg.ecfg cfg.chunks cfg.ivs .init (xs.map fun c => (c.index, c.chunkIndex)) = .ok raws)
    {s : RemoteState} (h : RReach cfg xs s) {c : Nat} (hw : Wants cfg.prep s.p c) : ∃ info, cfg.chunks[c]? = some info := by
  obtain ⟨h1, h2, _⟩ := c76_protocol cfg hok xs cs hsh raws hraws s h
  have hreq : c ∈ s.p.requested := by
    rcases hw with ⟨_, g⟩ | ⟨g0, _, g⟩
    · exact forced_requested h1 c (.inl (List.mem_of_head? g))
    · obtain ⟨rest, a, b⟩ := (pinv_reach h1).fetch
      have hq := List.mem_of_head? g
      rw [b (by rw [g0]; simp) (by rw [g0]; simp), List.mem_append] at hq
      rw [a]
      apply List.mem_append_right
      rcases hq with e | e
      · obtain ⟨d, hd, e⟩ := List.mem_map.1 e
        cases e
        exact hd
      · split at e <;> simp at e
  have hcs := h2.subset hreq
  rw [← hsh.chunks] at hcs
  obtain ⟨x, hx, rfl⟩ := List.mem_map.1 (squeeze_mem _ hcs)
  exact (readLocated_known _ _ _ hraws).2 (x.index, x.chunkIndex) (List.mem_map.2 ⟨x, hx, rfl⟩)

/-- The thread can do all of a step of the model with single fetches. -/
theorem fine_tstep {cfg : RemoteCfg} (hok : RemoteOk cfg) (hex : ExactSizes cfg) {comp : Bool} {xs : List ChunkedIndex} (hwarm : cfg.prep.others = []) {cs : List Nat}
    (hsh : PassShape xs cs) {raws : List Bytes}
    (hraws : readLocated cfg.files cfg.join cfg.enc cfg.ecfg cfg.chunks cfg.ivs .init (xs.map fun c => (c.index, c.chunkIndex)) = .ok raws)
    {f : FineState} (h : FReach cfg comp xs f) (hj : f.job = .idle) (hrun : f.s.reader.thread = true ∨ f.s.p.stopped = true) {p : PrepState} (hp : TStep cfg.prep f.s.p p) :
    ∃ g disk, FSteps cfg comp xs f g ∧ g.job = .idle ∧ g.s = { f.s with p := p, disk := disk } ∧ RStep cfg xs f.s { f.s with p := p, disk := disk } := by
  rcases fetched_or_not hp with hf | ⟨c, hf⟩
  · exact ⟨_, f.s.disk, (FSteps.refl f).tail (.thread f p f.s.disk hj hrun hp hf (diskAfter_same hf)), hj, rfl, .thread f.s p f.s.disk hrun hp (diskAfter_same hf)⟩
  · obtain ⟨hw, rfl⟩ := fetching_step hp hf
    have hi := fineInv_reach hok hex (fun _ => hwarm) h
    have hr := hi.reach
    simp only [coarse, hj] at hr
    obtain ⟨info, hc⟩ := wants_known hok hsh hraws hr hw
    have st := FStep.begin (cfg := cfg) (comp := comp) (xs := xs) f c info hj hrun hw hc
    obtain ⟨g, g1, g2, g3⟩ := to_ready hwarm (fineInv_reach hok hex (fun _ => hwarm) (h.step st)) hc rfl (by simp)
    refine ⟨{ g with s := { g.s with p := committed f.s.p c }, job := .idle }, setFile f.s.disk (cfg.join info.filename) (cfg.files (cfg.join info.filename)),
      (fsteps_trans ((FSteps.refl f).tail st) g1).tail (.commit g c _ g2 (by rw [g3]; exact hp) (by rw [g3]; exact hf)), rfl, ?_, fetch_rstep hw hrun (pathOf_info hc) _ (.inr rfl)⟩
    simp only [g3]

/-- Any number of steps of the thread while the reader waits, each of them in full. -/
theorem fine_waits {cfg : RemoteCfg} (hok : RemoteOk cfg) (hex : ExactSizes cfg) {comp : Bool} {xs : List ChunkedIndex} (hwarm : cfg.prep.others = []) {cs : List Nat}
    (hsh : PassShape xs cs) {raws : List Bytes}
    (hraws : readLocated cfg.files cfg.join cfg.enc cfg.ecfg cfg.chunks cfg.ivs .init (xs.map fun c => (c.index, c.chunkIndex)) = .ok raws)
    {f : FineState} (h : FReach cfg comp xs f) (hj : f.job = .idle) (hpc : f.s.pc = .waiting) (m : Nat) :
    ∃ g, FSteps cfg comp xs f g ∧ g.job = .idle ∧ RWaits cfg xs m f.s g.s := by
  have hcoarse : ∀ f : FineState, f.job = .idle → FReach cfg comp xs f → RReach cfg xs f.s := by
    intro f hj h
    have := (fineInv_reach hok hex (fun _ => hwarm) h).reach
    simpa only [coarse, hj] using this
  induction m with
  | zero => exact ⟨f, .refl f, hj, .refl _⟩
  | succ m ih =>
    obtain ⟨g, g1, g2, g3⟩ := ih
    have hg := fsteps_reach h g1
    obtain ⟨a, _, c, _⟩ := rwaits_reach (hcoarse f hj h) g3
    have hi := rinv_reach hok hsh hraws a
    have hrun : g.s.reader.thread = true ∧ g.s.p.stopped = false := by
      cases hi.phase with
      | fresh h1 h2 h3 => rw [c, hpc] at h3; cases h3
      | asking l x h1 => rw [c, hpc] at h1; cases h1
      | finished h1 => rw [c, hpc] at h1; cases h1
      | reading x h1 h2 h3 h4 h5 h6 h7 h8 => exact ⟨h3, h8⟩
    obtain ⟨p, hp⟩ := c28_never_stuck cfg.prep g.s.p (by
      intro e
      have := (pinv_reach hi.prep).halted (.inr e)
      rw [hrun.2] at this
      cases this)
    obtain ⟨k, disk, k1, k2, k3, k4⟩ := fine_tstep hok hex hwarm hsh hraws hg g2 (.inl hrun.1) hp
    refine ⟨k, fsteps_trans g1 k1, k2, ?_⟩
    rw [k3]
    exact .tick p disk g3 hp k4

theorem fine_ask_all {cfg : RemoteCfg} {comp : Bool} {xs : List ChunkedIndex} (l : List Nat) (f : FineState) (hj : f.job = .idle) (h : f.s.pc = .asking l) :
    ∃ g, FSteps cfg comp xs f g ∧ g.job = .idle ∧ g.s.pc = .waiting ∧ g.s.done = f.s.done ∧ forcedCount g.s.p = forcedCount f.s.p := by
  induction l generalizing f with
  | nil => exact ⟨_, (FSteps.refl f).tail (.reader f _ (.requested f.s h) (fun _ _ => hj)), hj, rfl, rfl, rfl⟩
  | cons c l ih =>
    have st := FStep.reader (cfg := cfg) (comp := comp) (xs := xs) f _ (.request f.s c l h) (fun _ _ => hj)
    obtain ⟨t, t1, t2, t3, t4, t5⟩ := ih { f with s := { f.s with p := { f.s.p with requested := f.s.p.requested ++ [c], queue := f.s.p.queue ++ [some c] }, pc := .asking l } } hj rfl
    exact ⟨t, fsteps_trans ((FSteps.refl f).tail st) t1, t2, t3, t4, t5⟩

theorem fine_to_waiting {cfg : RemoteCfg} (hok : RemoteOk cfg) (hex : ExactSizes cfg) {comp : Bool} {xs : List ChunkedIndex} (hwarm : cfg.prep.others = []) {cs : List Nat}
    (hsh : PassShape xs cs) {raws : List Bytes}
    (hraws : readLocated cfg.files cfg.join cfg.enc cfg.ecfg cfg.chunks cfg.ivs .init (xs.map fun c => (c.index, c.chunkIndex)) = .ok raws)
    {f : FineState} (h : FReach cfg comp xs f) (hj : f.job = .idle) (hpc : f.s.pc ≠ .failed) (hn : f.s.done < xs.length) :
    ∃ g, FSteps cfg comp xs f g ∧ g.job = .idle ∧ g.s.pc = .waiting ∧ g.s.done = f.s.done ∧ forcedCount g.s.p ≤ forcedCount f.s.p := by
  have hx : xs[f.s.done]? = some xs[f.s.done] := List.getElem?_eq_getElem hn
  have idle : f.s.pc = .idle → ∃ g, FSteps cfg comp xs f g ∧ g.job = .idle ∧ g.s.pc = .waiting ∧ g.s.done = f.s.done ∧ forcedCount g.s.p ≤ forcedCount f.s.p := by
    intro hp
    have st := FStep.reader (cfg := cfg) (comp := comp) (xs := xs) f _ (.ask f.s _ hp hx) (fun _ _ => hj)
    obtain ⟨t, t1, t2, t3, t4, t5⟩ := fine_ask_all (cfg := cfg) (comp := comp) (xs := xs) (beginRead f.s.reader xs[f.s.done]).2.2
      { f with s := { f.s with p := if (beginRead f.s.reader xs[f.s.done]).2.1 then .init else f.s.p, reader := (beginRead f.s.reader xs[f.s.done]).1, pc := .asking (beginRead f.s.reader xs[f.s.done]).2.2 } } hj rfl
    refine ⟨t, fsteps_trans ((FSteps.refl f).tail st) t1, t2, t3, t4, ?_⟩
    rw [t5]
    simp only
    split
    · exact Nat.zero_le _
    · exact Nat.le_refl _
  have hr := (fineInv_reach hok hex (fun _ => hwarm) h).reach
  simp only [coarse, hj] at hr
  cases (rinv_reach hok hsh hraws hr).phase with
  | fresh h1 h2 h3 => exact idle h3
  | asking l x h1 =>
    obtain ⟨t, t1, t2, t3, t4, t5⟩ := fine_ask_all (cfg := cfg) (comp := comp) (xs := xs) _ f hj h1
    exact ⟨t, t1, t2, t3, t4, Nat.le_of_eq t5⟩
  | reading x h1 =>
    rcases h1 with g | g | g | ⟨g, _⟩
    · obtain ⟨t, t1, t2, t3, t4, t5⟩ := fine_ask_all (cfg := cfg) (comp := comp) (xs := xs) _ f hj g
      exact ⟨t, t1, t2, t3, t4, Nat.le_of_eq t5⟩
    · exact ⟨f, .refl _, hj, g, rfl, Nat.le_refl _⟩
    · exact absurd g hpc
    · exact idle g
  | finished h1 h2 => omega

/-- **C76, no deadlock, byte by byte and compressed.** Without other workers on the same cache, and if the thread may be two chunks ahead of what was fetched by
force, a worker to which no exception was raised can always come to the end, with all samples delivered, wherever its thread is in the fetch of a file. -/
theorem c76_fine_no_deadlock (cfg : RemoteCfg) (hok : RemoteOk cfg) (hex : ExactSizes cfg) (comp : Bool) (xs : List ChunkedIndex) (cs : List Nat) (hsh : PassShape xs cs)
    (raws : List Bytes)
    (hraws : readLocated cfg.files cfg.join cfg.enc cfg.ecfg cfg.chunks cfg.ivs .init (xs.map fun c => (c.index, c.chunkIndex)) = .ok raws)
    (hwarm : cfg.prep.others = []) (hcache : cfg.prep.cache = true) (f : FineState) (h : FReach cfg comp xs f) (hpc : f.s.pc ≠ .failed)
    (hfew : f.s.p.forced.length + f.s.p.forceQ.length + 2 ≤ cfg.prep.maxPre) :
    ∃ g, FSteps cfg comp xs f g ∧ g.s.done = xs.length ∧ g.s.out = raws ∧ forcedCount g.s.p ≤ forcedCount f.s.p := by
  have hlen : raws.length = xs.length := by
    have := (readLocated_known _ _ _ hraws).1
    rwa [List.length_map] at this
  have main : ∀ (k : Nat) (f : FineState), FReach cfg comp xs f → f.job = .idle → f.s.pc ≠ .failed → forcedCount f.s.p + 2 ≤ cfg.prep.maxPre → xs.length - f.s.done = k →
      f.s.done ≤ xs.length → ∃ g, FSteps cfg comp xs f g ∧ g.s.done = xs.length ∧ forcedCount g.s.p ≤ forcedCount f.s.p := by
    intro k
    induction k with
    | zero => intro f _ _ _ _ hk hle; exact ⟨f, .refl _, by omega, Nat.le_refl _⟩
    | succ k ih =>
      intro f hf hj hpc hfew hk hle
      obtain ⟨t, t1, tj, t2, t3, t4⟩ := fine_to_waiting hok hex hwarm hsh hraws hf hj hpc (by omega)
      have ht := fsteps_reach hf t1
      obtain ⟨u, u1, uj, hu⟩ := fine_waits hok hex hwarm hsh hraws ht tj t2 (3 * (t.s.p.toDelete.length + (t.s.p.cur + 1 - t.s.p.downloaded.length)) + 4)
      have hfd := rwaits_forced hu
      have hfew' : t.s.p.forced.length + t.s.p.forceQ.length + 2 ≤ cfg.prep.maxPre := by
        have : forcedCount t.s.p = t.s.p.forced.length + t.s.p.forceQ.length := rfl
        omega
      have htr := (fineInv_reach hok hex (fun _ => hwarm) ht).reach
      simp only [coarse, tj] at htr
      obtain ⟨v, raw, v1, _, _, v3, v4⟩ := c76_progress cfg hok xs cs hsh raws hraws hwarm hcache t.s u.s _ htr t2 hfew' hu (by omega)
      have hur := rwaits_reach htr hu
      have hupc : u.s.pc = .waiting := by rw [hur.2.2.1, t2]
      have hv : ReaderStep cfg xs u.s v ∧ forcedCount v.p = forcedCount u.s.p := by
        cases v1 with
        | thread _ _ _ _ _ => exact absurd (hupc.symm.trans v4) (by simp)
        | arriving _ _ _ _ _ _ _ _ => exact absurd (hupc.symm.trans v4) (by simp)
        | others _ _ _ _ _ _ => exact absurd (hupc.symm.trans v4) (by simp)
        | ask _ g => rw [hupc] at g; cases g
        | request _ _ g => rw [hupc] at g; cases g
        | requested g => exact absurd (hupc.symm.trans g) (by simp)
        | force _ _ _ _ => exact absurd (hupc.symm.trans v4) (by simp)
        | read x path b size raw ld h1 h2 h3 h4 => exact ⟨.read u.s x path b size raw ld h1 h2 h3 h4, rfl⟩
        | fail _ => cases v4
      have st := FStep.reader (cfg := cfg) (comp := comp) (xs := xs) u v hv.1 (fun _ _ => uj)
      have hall := (fsteps_trans t1 u1).tail st
      obtain ⟨w, w1, w2, w3⟩ := ih { u with s := v } (fsteps_reach hf hall) uj (by show v.pc ≠ _; rw [v4]; simp) (by show forcedCount v.p + 2 ≤ _; omega)
        (by show xs.length - v.done = k; omega) (by show v.done ≤ _; omega)
      refine ⟨w, fsteps_trans hall w1, w2, ?_⟩
      have w4 : forcedCount w.s.p ≤ forcedCount v.p := w3
      have := hv.2
      omega
  obtain ⟨f1, f11, f12, f13, f14, f15⟩ := settle hok hex hwarm h
  have h1 := fsteps_reach h f11
  have hr := (fineInv_reach hok hex (fun _ => hwarm) h1).reach
  simp only [coarse, f12] at hr
  obtain ⟨_, _, _, hle, _⟩ := c76_protocol cfg hok xs cs hsh raws hraws f1.s hr
  obtain ⟨t, t1, t2, t3⟩ := main _ f1 h1 f12 (by rw [f14]; exact hpc) (by
    rw [f15]
    exact hfew) rfl hle
  refine ⟨t, fsteps_trans f11 t1, t2, ?_, by omega⟩
  rw [c76_fine_same_samples cfg hok hex comp (fun _ => hwarm) xs cs hsh raws hraws (.inr hwarm) t (fsteps_reach h1 t1), t2, ← hlen, List.take_length]

/-- What a remote worker does while files arrive byte by byte: `want` are the samples that it is to deliver, over the chunks `cs`. -/
def DeliversFine (prep : PrepCfg) (comp : Bool) (files : String → Option Bytes) (join : String → String) (enc : Option Encryption) (chunks : List ChunkInfo)
    (ivs : List Interval) (xs : List ChunkedIndex) (cs : List Nat) (want : List Bytes) : Prop :=
  ∀ f, FReach ⟨prep, files, join, enc, enc.map Encryption.config, chunks, ivs⟩ comp xs f →
    (enc = none ∨ prep.others = [] → f.s.out = want.take f.s.done) ∧ f.s.p.requested <+: cs ∧ f.s.p.consumed <+: cs ∧
    (f.s.done = want.length → want ≠ [] → f.s.p.consumed = cs ∧ f.s.p.stopped = true) ∧
    (prep.others = [] → prep.cache = true → f.s.p.forced.length + f.s.p.forceQ.length + 2 ≤ prep.maxPre → f.s.pc ≠ .failed →
      ∃ g, FSteps ⟨prep, files, join, enc, enc.map Encryption.config, chunks, ivs⟩ comp xs f g ∧ g.s.out = want)

/-- **C76, for a dataset, byte by byte and compressed.** Each worker of each rank, with or without shuffling, that streams from a remote folder of plain chunks, or,
alone on its cache, of compressed ones, delivers the samples that C53 says, in that order, wherever its thread is in the fetch of a file, and it can always come to
the end. For compressed chunks `files` are the decompressed ones, under the path without the name of the compression. -/
theorem c76_fine_worker (enc : Option Encryption) (hsound : ∀ e, enc = some e → Encryption.Sound e)
    (files : String → Option Bytes) (join : String → String) (chunks : List ChunkInfo) (items : List (List Bytes))
    (hs : Stored enc files join chunks items) (hd : DistinctFiles join chunks)
    (hex : ∀ (c : Nat) (info : ChunkInfo) (file : Bytes), chunks[c]? = some info → files (join info.filename) = some file → file.length = info.chunkBytes) :
    ∃ ivs, generateIntervals none 0 0 chunks = .ok ivs ∧ ∃ value : Nat × Nat → Bytes, (datasetSamples (List.range ivs.length) ivs).map value = items.flatten ∧
      ∀ (perm : Nat → List Nat → List Nat), (∀ e l, (perm e l).Perm l) → ∀ (sh : Shuffler), (∀ a n e k, (sh a n e k).Perm a) →
      ∀ (W nn : Nat) (dl : Bool) (nw bs epoch : Nat) (ws : List (List Piece)),
        noShuffleAssign ivs W dl nw bs = .ok ws ∨ fullShuffleAssign perm ivs W nn dl nw bs epoch = .ok ws ∧ (epoch = 1 ∨ nn = 1) →
        ∀ ps ∈ ws, ∃ xs s', runIter sh ((samples ps).length + 1) (iterStart ps epoch) = .ok (xs, true, s') ∧
          ∀ (prep : PrepCfg) (comp : Bool), (comp = true → prep.others = []) →
            DeliversFine prep comp files join enc chunks ivs xs (ps.map (·.chunk)) ((deliveredBy sh ps epoch).map value) := by
  obtain ⟨ivs, h1, value, h2, h3⟩ := located_values enc hsound files join chunks items hs
  refine ⟨ivs, h1, value, h2, ?_⟩
  intro perm hperm sh hsh W nn dl nw bs epoch ws hws ps hps
  obtain ⟨idx, out, ha, hsub⟩ := split_distinct perm hperm ivs W nn dl nw bs epoch ws hws
  obtain ⟨hnd, hin⟩ := hsub ps hps
  obtain ⟨hinv, hrem⟩ := iterStart_inv sh hsh ps (assigned_nonEmpty ha ps hps) epoch
  have hperm' := stream_perm (fun k l => sh l ps.length epoch k) (fun k l => hsh _ _ _ _) ps 0
  obtain ⟨xs, s', g1, g2, g3⟩ := runIter_shape sh hsh _ hinv rfl (fun g => absurd rfl g) hnd ((samples ps).length + 1) (by rw [hrem, hperm'.length_eq]; omega)
  refine ⟨xs, s', g1, fun prep comp hcomp => ?_⟩
  have hdel : deliveredBy sh ps epoch = xs.map fun c => (c.chunkIndex, c.index) := by
    unfold deliveredBy
    rw [g1]
  have hrl := h3 (xs.map fun c => (c.chunkIndex, c.index)) (by
    intro p hp
    rw [g2, hrem] at hp
    exact hin p (hperm'.mem_iff.1 hp))
  rw [List.map_map] at hrl
  rw [hdel]
  have hdr := delivers_remote hs hd prep ivs g3 hrl (by simp)
  have hok := stored_remoteOk hs hd prep (enc.map Encryption.config) ivs
  intro f hf
  obtain ⟨s, r1, r2, r3, r4, r5, r6, r7, r8, r9, _⟩ := c76_fine_refines _ hok hex comp hcomp xs f hf
  obtain ⟨d1, d2, d3, d4, d5, _⟩ := hdr s r1
  refine ⟨?_, ?_, ?_, ?_, ?_⟩
  · intro g; rw [← r2, ← r3]; exact d1 g
  · rw [← r7]; exact d3
  · rw [← r8]; exact d4
  · rw [← r3, ← r8, ← r9]; exact d5
  · intro w1 w2 w3 w4
    obtain ⟨g, k1, _, k3, _⟩ := c76_fine_no_deadlock _ hok hex comp xs _ g3 _ hrl w1 w2 f hf w4 w3
    exact ⟨g, k1, k3⟩

/-- The hypotheses are met by the stored dataset of `Props/Config.lean`, whose two chunks have the sizes that its index says. -/
example : Stored none storedFiles id storedChunks storedItems ∧ DistinctFiles id storedChunks ∧
    ∀ (c : Nat) (info : ChunkInfo) (file : Bytes), storedChunks[c]? = some info → storedFiles (id info.filename) = some file → file.length = info.chunkBytes := by
  refine ⟨storedExample, storedDistinct, ?_⟩
  intro c info file hc hf
  match c with
  | 0 => cases hc; cases hf; rfl
  | 1 => cases hc; cases hf; rfl
  | c + 2 => cases hc

/-- **C76, compressed files that stay.** A compressed chunk that is fetched while its decompressed file is in the cache (by force, or because it is asked for
again) is downloaded once more if need be and then left in the cache. From then on it stays, also when the chunk is deleted, until the chunk is fetched yet again
without a decompressed file. -/
theorem c76_compressed_stays (cfg : RemoteCfg) (xs : List ChunkedIndex) (f : FineState) (c : Nat) (info : ChunkInfo) (file : Bytes) (hc : cfg.chunks[c]? = some info)
    (hd : f.s.disk (cfg.join info.filename) = some file) (hj : f.job = .look c) :
    (∃ g, FSteps cfg true xs f g ∧ g.job = .ready c ∧ g.s = f.s ∧ g.packed c = true ∧ ∀ d, d ≠ c → g.packed d = f.packed d) ∧
    ∀ g h, g.packed c = true → FStep cfg true xs g h → h.packed c = true ∨ g.job = .check c ∧ g.s.disk (cfg.join info.filename) = none := by
  refine ⟨?_, ?_⟩
  · cases hp : f.packed c with
    | true => exact ⟨_, ((FSteps.refl f).tail (.packedThere f c rfl hj hp)).tail (.unpacked _ c info file rfl hc hd), rfl, rfl, hp, fun _ _ => rfl⟩
    | false =>
      exact ⟨_, ((FSteps.refl f).tail (.fetchPacked f c rfl hj hp)).tail (.unpacked _ c info file rfl hc hd), rfl, rfl, if_pos rfl, fun _ hd => if_neg hd⟩
  · intro g h hp st
    cases st with
    | fetchPacked d _ _ _ =>
      left
      show (if c = d then true else g.packed c) = true
      rw [hp, ite_self]
    | unpack d info' h1 h2 h3 _ =>
      by_cases e : c = d
      · subst e
        rw [hc] at h2
        cases h2
        exact .inr ⟨h1, h3⟩
      · exact .inl ((if_neg e).trans hp)
    | _ => exact .inl hp

theorem reader_forced {cfg : RemoteCfg} {xs : List ChunkedIndex} {s t : RemoteState} (h : ReaderStep cfg xs s t) (hn : ¬ NewThread s t) : forcedCount s.p ≤ forcedCount t.p := by
  cases h with
  | ask x h1 h2 =>
    have e : (beginRead s.reader x).2.1 = false := by
      cases ht : s.reader.thread
      · exact absurd ⟨ht, rfl⟩ hn
      · simp [beginRead, ht]
    simp only [e]
    exact Nat.le_refl _
  | force x h1 h2 h3 => simp only [forcedCount, List.length_append, List.length_singleton]; omega
  | _ => exact Nat.le_refl _

theorem reader_new_item {cfg : RemoteCfg} {xs : List ChunkedIndex} {s t : RemoteState} (h : ReaderStep cfg xs s t) (hn : NewThread s t) : ∃ x, xs[s.done]? = some x := by
  cases h with
  | ask x h1 h2 => exact ⟨x, h2⟩
  | force x h1 h2 h3 => exact ⟨x, h2⟩
  | read x path b size raw ld h1 h2 h3 h4 => exact ⟨x, h2⟩
  | _ => exact absurd (hn.1.symm.trans hn.2) (by simp)

/-- **C76, compressed files that are removed.** As long as nothing is fetched by force, a worker that is alone on an empty cache leaves no compressed file there: between
two fetches there is none, for each chunk is fetched once. -/
theorem c76_compressed_removed (cfg : RemoteCfg) (hok : RemoteOk cfg) (hex : ExactSizes cfg) (hempty : cfg.prep.warm = []) (xs : List ChunkedIndex) (cs : List Nat)
    (hsh : PassShape xs cs) (raws : List Bytes)
    (hraws : readLocated cfg.files cfg.join cfg.enc cfg.ecfg cfg.chunks cfg.ivs .init (xs.map fun c => (c.index, c.chunkIndex)) = .ok raws)
    (f : FineState) (h : FSteps cfg true xs ⟨.start fun _ => none, fun _ => false, .idle⟩ f) (hf : f.s.p.forced = [] ∧ f.s.p.forceQ = []) (hj : f.job = .idle) :
    ∀ c, f.packed c = false := by
  have hwarm : cfg.prep.others = [] := by unfold PrepCfg.others; rw [hempty]; rfl
  have start : FReach cfg true xs ⟨.start fun _ => none, fun _ => false, .idle⟩ := .init _ _ (by intro q f e; cases e) (by rw [hempty]; intro c e; cases e)
  have key : ∀ f, FSteps cfg true xs ⟨.start fun _ => none, fun _ => false, .idle⟩ f → forcedCount f.s.p = 0 → ∀ c, f.packed c = true → f.job = .check c := by
    intro f h
    induction h with
    | refl => intro _ c e; cases e
    | @tail g k h1 h2 ih =>
      have hr := fsteps_reach start h1
      have hi := fineInv_reach hok hex (fun _ => hwarm) hr
      cases h2 with
      | reader t st hidle =>
        intro h0 c hc
        refine ih ?_ c hc
        by_cases hn : NewThread g.s t
        · have hri := hi.reach
          simp only [coarse, hidle hn.1 hn.2] at hri
          cases (rinv_reach hok hsh hraws hri).phase with
          | fresh p1 => rw [p1]; rfl
          | asking l x p1 p2 p3 p4 => have := hn.1; rw [p4] at this; cases this
          | reading x p1 p2 p3 => rw [hn.1] at p3; cases p3
          | finished p1 p2 =>
            obtain ⟨x, hx⟩ := reader_new_item st hn
            rw [List.getElem?_eq_none (by omega)] at hx
            cases hx
        · have := reader_forced st hn
          have h0' : forcedCount t.p = 0 := h0
          omega
      | thread p disk _ _ st => intro h0 c hc; exact ih (by rw [← tstep_forced st]; exact h0) c hc
      | begin d info e => intro h0 c hc; have := ih h0 c hc; rw [e] at this; cases this
      | there d info _ e => cases e
      | atOnce d info e => cases e
      | busy d e => cases e
      | create d info _ e => cases e
      | packedThere d _ e _ => intro h0 c hc; have := ih h0 c hc; rw [e] at this; cases this
      | fetchPacked d _ e _ =>
        intro h0 c hc
        by_cases he : c = d
        · rw [he]
        · have := ih h0 c ((if_neg he).symm.trans hc)
          rw [e] at this; cases this
      | unpacked d info file e h3 h4 =>
        intro h0 c hc
        exfalso
        have hri := hi.reach
        simp only [coarse, e] at hri
        have hrv := rinv_reach hok hsh hraws hri
        obtain ⟨_, q2, _⟩ := c76_protocol cfg hok xs cs hsh raws hraws g.s hri
        have hforce : g.s.p.forced = [] ∧ g.s.p.forceQ = [] := by
          have h0' : forcedCount g.s.p = 0 := h0
          unfold forcedCount at h0'
          exact ⟨List.length_eq_zero_iff.1 (by omega), List.length_eq_zero_iff.1 (by omega)⟩
        have hlen : info.chunkBytes ≤ file.length := by
          obtain ⟨w, w1, w2⟩ := hok.whole d info h3
          rcases noParts_of hi (by rw [e]; simp) d info h3 (by rw [hwarm]; simp) with k | k
          · rw [h4] at k; cases k
          · rw [h4, w1] at k
            cases k
            exact w2
        rcases hrv.disk.origin d info h3 file h4 hlen with k | k | k
        · rcases (hi.wants d (by rw [e]; rfl)).1 with ⟨_, w⟩ | ⟨w0, _, w⟩
          · rw [hforce.2] at w; cases w
          · obtain ⟨rest, r1, r2⟩ := (pinv_reach hrv.prep).fetch
            rw [r2 (by rw [w0]; simp) (by rw [w0]; simp)] at w
            cases rest with
            | nil => split at w <;> cases w
            | cons a rest =>
              cases w
              have hnd := hsh.nodup.sublist q2.sublist
              rw [r1] at hnd
              exact (List.nodup_append.1 hnd).2.2 _ k _ List.mem_cons_self rfl
        · rw [hforce.1] at k; cases k
        · rw [hempty] at k; cases k
      | unpack d info e h3 _ _ =>
        intro h0 c hc
        by_cases he : c = d
        · have : (if c = d then false else g.packed c) = true := hc
          rw [if_pos he] at this; cases this
        · have := ih h0 c ((if_neg he).symm.trans hc)
          rw [e] at this
          cases this
          exact absurd rfl he
      | open_ d info _ e => intro h0 c hc; have := ih h0 c hc; rw [e] at this; cases this
      | write d k n info _ e => intro h0 c hc; have := ih h0 c hc; rw [e] at this; cases this
      | finish d info e =>
        intro h0 c hc
        have := ih h0 c hc
        rcases e with e | ⟨k, e⟩ <;> rw [e] at this <;> cases this
      | commit d p e st => intro h0 c hc; have := ih (by rw [← tstep_forced st]; exact h0) c hc; rw [e] at this; cases this
      | others d info g' e => rw [hwarm] at e; cases e
  intro c
  cases hc : f.packed c with
  | false => rfl
  | true =>
    have := key f h (by unfold forcedCount; rw [hf.1, hf.2]; rfl) c hc
    rw [hj] at this
    cases this

end LitData.Props
