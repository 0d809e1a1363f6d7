import Verif.Props.Epochs

/-! C91: what is downloaded again although it is in the cache. -/

namespace LitData.Props

open LitData LitData.Spec

/-- The step downloads chunk `c`: it looks for the file to download, and then there is another file in the cache. -/
def Downloads (c : Nat) (f g : FineState) : Prop := f.job = .look c ∧ (g.s.disk ≠ f.s.disk ∨ g.packed ≠ f.packed)

/-- A pass has just begun, with any item loader. -/
def passStart (ld : PyTreeState) (disk : String → Option Bytes) (packed : Nat → Bool) : FineState := ⟨⟨.init, disk, ⟨false, none, false, ld⟩, .idle, 0, []⟩, packed, .idle⟩

/-- What holds as long as chunk `c`, whose file was there, is not deleted. -/
structure WarmInv (xs : List ChunkedIndex) (c : Nat) (q : String) (file : Bytes) (f : FineState) : Prop where
  fresh : f.s.reader.thread = false → f.s.p = .init ∨ f.s.done = xs.length
  busy : f.s.pc ≠ .idle → f.s.reader.thread = true
  disk : c ∉ f.s.p.deleted → f.s.disk q = some file ∧ f.job ≠ .unpack c ∧ ∀ k, f.job ≠ .writing c k

theorem init_commit {cfg : PrepCfg} {p : PrepState} {c : Nat} (h : TStep cfg .init p) (hf : fetchedIn .init p = [c]) : False := by
  cases h <;> simp_all [PrepState.init, fetchedIn]

theorem endRead_thread {r : ReaderState} {x : ChunkedIndex} {ld : PyTreeState} (ht : r.thread = true) : (endRead r x ld).1.thread = !x.isLastIndex := by
  unfold endRead
  cases h : x.isLastIndex <;> simp [ht]

theorem warm_step {cfg : RemoteCfg} (hok : RemoteOk cfg) {comp : Bool} {xs : List ChunkedIndex} {cs : List Nat} (hsh : PassShape xs cs) {c : Nat} {q : String} {file : Bytes}
    (hq : cfg.pathOf c = some q) {f g : FineState} (hi : WarmInv xs c q file f) (h : FStep (cfg.left []) comp xs f g) : WarmInv xs c q file g := by
  have other : ∀ (d : Nat) (info : ChunkInfo), d ≠ c → cfg.chunks[d]? = some info → ∀ v, setFile f.s.disk (cfg.join info.filename) v q = f.s.disk q := by
    intro d info hd hinfo v
    refine if_neg ?_
    intro e
    exact hd (hok.paths d c q (e ▸ pathOf_info hinfo) hq)
  have path : ∀ (info : ChunkInfo), cfg.chunks[c]? = some info → cfg.join info.filename = q := by
    intro info hinfo
    have := (pathOf_info hinfo).symm.trans hq
    injection this
  obtain ⟨h1, hb, h2⟩ := hi
  -- a chunk that is written is another one
  have write : ∀ (d : Nat) (info : ChunkInfo) (v : Option Bytes) (j : FetchPc), cfg.chunks[d]? = some info →
      ((d = c → c ∈ f.s.p.deleted) ∧ (j ≠ .ready d → ∃ k, j = .writing d k)) →
      WarmInv xs c q file { f with s := { f.s with disk := setFile f.s.disk (cfg.join info.filename) v }, job := j } := by
    intro d info v j hinfo hd
    refine ⟨h1, hb, fun e => ?_⟩
    have hdc : d ≠ c := fun g => e (hd.1 g)
    refine ⟨(other d info hdc hinfo v).trans (h2 e).1, ?_, ?_⟩
    · intro g
      obtain ⟨k, hk⟩ := hd.2 (by simp only at g; rw [g]; simp)
      simp only at g; rw [g] at hk; cases hk
    · intro k g
      simp only at g
      obtain ⟨k', hk⟩ := hd.2 (by rw [g]; simp)
      rw [g] at hk
      injection hk with a _
      exact hdc a.symm
  cases h with
  | reader t hr _ =>
    cases hr with
    | ask x hpc hx =>
      have hlt : f.s.done ≠ xs.length := by
        intro e; rw [e, List.getElem?_eq_none (Nat.le_refl _)] at hx; cases hx
      refine ⟨fun e => by simp [beginRead] at e, fun _ => rfl, fun e => h2 ?_⟩
      cases ht : f.s.reader.thread with
      | true => simpa [beginRead, ht] using e
      | false =>
        rcases h1 ht with g | g
        · rw [g]; simp [PrepState.init]
        · exact absurd g hlt
    | request d l hpc =>
      have := hb (by rw [hpc]; simp)
      exact ⟨fun e => absurd (this.symm.trans e) (by simp), fun _ => this, h2⟩
    | requested hpc => exact ⟨h1, fun _ => hb (by rw [hpc]; simp), h2⟩
    | force x hpc hx hp =>
      have := hb (by rw [hpc]; simp)
      exact ⟨fun e => absurd (this.symm.trans e) (by simp), fun _ => this, h2⟩
    | read x path b size raw ld hpc hx hg hl =>
      have ht := hb (by rw [hpc]; simp)
      refine ⟨fun e => .inr ?_, fun e => absurd rfl e, fun e => h2 (by simpa [giveUp] using e)⟩
      have hflag := hsh.flag _ x hx
      simp only [endRead_thread ht, hflag, Bool.not_eq_false', decide_eq_true_eq] at e
      exact e
    | fail hpc => exact ⟨h1, fun _ => hb (by rw [hpc]; simp), h2⟩
  | thread p disk hj hrun ht hf hd =>
    obtain ⟨_, _, l3, _⟩ := tstep_logs ht
    refine ⟨fun e => ?_, hb, fun e => ?_⟩
    · rcases h1 e with g | g
      · rcases hrun with r | r
        · exact absurd (r.symm.trans e) (by simp)
        · rw [g] at r; cases r
      · exact .inr g
    · have hdel : c ∉ f.s.p.deleted := fun g => e (l3.subset g)
      refine ⟨?_, by simp only [hj]; simp, by simp only [hj]; simp⟩
      rcases hd.1 q with r | ⟨d, hd1, _⟩ | ⟨d, hd1, hd2, _⟩
      · exact r.trans (h2 hdel).1
      · rw [hf] at hd1; cases hd1
      · have : d = c := hok.paths d c q hd2 hq
        rw [this] at hd1
        exact absurd (List.mem_of_mem_drop hd1) e
  | begin d info hj hrun hw hd => exact ⟨h1, hb, fun e => ⟨(h2 e).1, by simp, by simp⟩⟩
  | there d info g hc hj hinfo hg => exact ⟨h1, hb, fun e => ⟨(h2 e).1, by simp, by simp⟩⟩
  | atOnce d info hc hj hinfo hg =>
    refine write d info _ _ hinfo ⟨fun e => Classical.byContradiction fun hn => ?_, fun e => absurd rfl e⟩
    subst e
    have hg' : f.s.disk (cfg.join info.filename) = none := hg
    rw [path info hinfo, (h2 hn).1] at hg'
    cases hg'
  | busy d hc hj ho => rw [left_others] at ho; cases ho
  | create d info file' hc hj hinfo hg hfile hpos =>
    refine write d info _ _ hinfo ⟨fun e => Classical.byContradiction fun hn => ?_, fun _ => ⟨0, rfl⟩⟩
    subst e
    have hg' : f.s.disk (cfg.join info.filename) = none := hg
    rw [path info hinfo, (h2 hn).1] at hg'
    cases hg'
  | packedThere d hc hj hp => exact ⟨h1, hb, fun e => ⟨(h2 e).1, by simp, by simp⟩⟩
  | fetchPacked d hc hj hp => exact ⟨h1, hb, fun e => ⟨(h2 e).1, by simp, by simp⟩⟩
  | unpacked d info g hj hinfo hg => exact ⟨h1, hb, fun e => ⟨(h2 e).1, by simp, by simp⟩⟩
  | unpack d info hj hinfo hg hp =>
    refine ⟨h1, hb, fun e => ⟨(h2 e).1, ?_, by simp⟩⟩
    intro hd
    injection hd with hd
    subst hd
    have hg' : f.s.disk (cfg.join info.filename) = none := hg
    rw [path info hinfo, (h2 e).1] at hg'
    cases hg'
  | open_ d info file' hj hinfo hfile hpos =>
    refine write d info _ _ hinfo ⟨fun e => Classical.byContradiction fun hn => ?_, fun _ => ⟨0, rfl⟩⟩
    subst e
    exact (h2 hn).2.1 hj
  | write d k n info file' hj hinfo hfile hlt ho =>
    refine write d info _ _ hinfo ⟨fun e => Classical.byContradiction fun hn => ?_, fun _ => ⟨k + n, rfl⟩⟩
    subst e
    exact (h2 hn).2.2 k hj
  | finish d info hj hinfo =>
    refine write d info _ _ hinfo ⟨fun e => Classical.byContradiction fun hn => ?_, fun e => absurd rfl e⟩
    subst e
    rcases hj with hj | ⟨k, hj⟩
    · exact (h2 hn).2.1 hj
    · exact (h2 hn).2.2 k hj
  | commit d p hj ht hf =>
    obtain ⟨_, _, l3, _⟩ := tstep_logs ht
    refine ⟨fun e => ?_, hb, fun e => ⟨(h2 fun g => e (l3.subset g)).1, by simp, by simp⟩⟩
    rcases h1 e with g | g
    · rw [g] at ht hf
      exact (init_commit ht hf).elim
    · exact .inr g
  | others d info g ho hinfo hg => rw [left_others] at ho; cases ho

theorem warm_steps {cfg : RemoteCfg} (hok : RemoteOk cfg) {comp : Bool} {xs : List ChunkedIndex} {cs : List Nat} (hsh : PassShape xs cs) {c : Nat} {q : String} {file : Bytes}
    (hq : cfg.pathOf c = some q) {ld : PyTreeState} {disk : String → Option Bytes} {packed : Nat → Bool} (hd : disk q = some file) {f : FineState}
    (h : FSteps (cfg.left []) comp xs (passStart ld disk packed) f) : WarmInv xs c q file f := by
  generalize ha : passStart ld disk packed = a at h
  induction h with
  | refl => subst ha; exact ⟨fun _ => .inl rfl, fun e => absurd rfl e, fun _ => ⟨hd, by simp [passStart], by simp [passStart]⟩⟩
  | tail _ h ih => exact warm_step hok hsh hq ih h

/-- **C91, a file that is in the cache is not downloaded again** if the chunks are not compressed: as long as the chunk is not deleted, its file stays as it is, and no
step downloads it. -/
theorem c91_not_again (cfg : RemoteCfg) (hok : RemoteOk cfg) (xs : List ChunkedIndex) (cs : List Nat) (hsh : PassShape xs cs) (c : Nat) (q : String) (hq : cfg.pathOf c = some q)
    (file : Bytes) (ld : PyTreeState) (disk : String → Option Bytes) (packed : Nat → Bool) (hd : disk q = some file) (f : FineState)
    (h : FSteps (cfg.left []) false xs (passStart ld disk packed) f) (hdel : c ∉ f.s.p.deleted) :
    f.s.disk q = some file ∧ ∀ g, FStep (cfg.left []) false xs f g → ¬ Downloads c f g := by
  have hi := warm_steps hok hsh hq hd h
  have hfile := (hi.disk hdel).1
  refine ⟨hfile, ?_⟩
  have path : ∀ (info : ChunkInfo), cfg.chunks[c]? = some info → f.s.disk (cfg.join info.filename) = some file := by
    intro info hinfo
    have := (pathOf_info hinfo).symm.trans hq
    injection this with e
    rw [e]; exact hfile
  intro g hst ⟨hjob, hch⟩
  cases hst with
  | reader t hr _ => rcases hch with e | e
                     · exact e (readerStep_disk hr)
                     · exact e rfl
  | thread p disk hj => rw [hjob] at hj; cases hj
  | begin d info hj => rw [hjob] at hj; cases hj
  | there => rcases hch with e | e <;> exact e rfl
  | atOnce d info hc hj hinfo hg =>
    rw [hjob] at hj; injection hj with e; subst e
    exact absurd ((path info hinfo).symm.trans hg) (by simp)
  | busy d hc hj ho => rw [left_others] at ho; cases ho
  | create d info file' hc hj hinfo hg hfile hpos =>
    rw [hjob] at hj; injection hj with e; subst e
    exact absurd ((path info hinfo).symm.trans hg) (by simp)
  | packedThere d hc => cases hc
  | fetchPacked d hc => cases hc
  | unpacked => rcases hch with e | e <;> exact e rfl
  | unpack d info hj => rw [hjob] at hj; cases hj
  | open_ d info file' hj => rw [hjob] at hj; cases hj
  | write d k n info file' hj => rw [hjob] at hj; cases hj
  | finish d info hj => rw [hjob] at hj; rcases hj with e | ⟨k, e⟩ <;> cases e
  | commit d p hj => rw [hjob] at hj; cases hj
  | others d info g ho => rw [left_others] at ho; cases ho

/-! Compressed chunks. -/

/-- What the reader still has to ask for. -/
def askRest : ReadPc → List Nat
  | .asking l => l
  | _ => []

/-- The chunks asked for in a pass, and that the compressed file of a chunk whose file was there stays once it was fetched. -/
structure PackedInv (xs : List ChunkedIndex) (cs : List Nat) (c : Nat) (f : FineState) : Prop where
  fresh : f.s.reader.thread = false → (f.s.p = .init ∧ f.s.done = 0) ∨ (f.s.done = xs.length ∧ f.s.p.requested = cs)
  asked : f.s.reader.thread = true → f.s.reader.queued = true ∧ f.s.p.requested ++ askRest f.s.pc = cs
  packed : c ∉ f.s.p.deleted → f.job = .check c ∨ f.job = .ready c ∨ c ∈ f.s.p.downloaded ∨ c ∈ f.s.p.forced → f.packed c = true

theorem packed_step {cfg : RemoteCfg} {xs : List ChunkedIndex} {cs : List Nat} (hsh : PassShape xs cs) {c : Nat} {q : String} {file : Bytes}
    (hq : cfg.pathOf c = some q) {f g : FineState} (hw : WarmInv xs c q file f) (hi : PackedInv xs cs c f) (h : FStep (cfg.left []) true xs f g) : PackedInv xs cs c g := by
  have path : ∀ (info : ChunkInfo), cfg.chunks[c]? = some info → cfg.join info.filename = q := by
    intro info hinfo
    have := (pathOf_info hinfo).symm.trans hq
    injection this
  obtain ⟨h1, h2, h3⟩ := hi
  have job : ∀ (s : RemoteState) (j : FetchPc) (pk : Nat → Bool), s.p = f.s.p → s.reader = f.s.reader → s.pc = f.s.pc → s.done = f.s.done → (f.packed c = true → pk c = true) →
      (c ∉ f.s.p.deleted → j = .check c ∨ j = .ready c → pk c = true) → PackedInv xs cs c ⟨s, pk, j⟩ := by
    intro s j pk e1 e2 e3 e4 hpk hj
    refine ⟨?_, ?_, ?_⟩
    · simp only [e1, e2, e4]; exact h1
    · simp only [e1, e2, e3]; exact h2
    · simp only [e1]
      intro hd hc
      rcases hc with hc | hc | hc | hc
      · exact hj hd (.inl hc)
      · exact hj hd (.inr hc)
      · exact hpk (h3 hd (.inr (.inr (.inl hc))))
      · exact hpk (h3 hd (.inr (.inr (.inr hc))))
  cases h with
  | reader t hr _ =>
    cases hr with
    | ask x hpc hx =>
      have hlt : f.s.done < xs.length := by
        apply Nat.lt_of_not_le; intro e; rw [List.getElem?_eq_none e] at hx; cases hx
      cases ht : f.s.reader.thread with
      | true =>
        obtain ⟨a, b⟩ := h2 ht
        rw [hpc] at b
        refine ⟨fun e => by simp [beginRead] at e, fun _ => ?_, ?_⟩
        · simp only [beginRead, ht, a, askRest, if_true, Bool.true_or, Bool.not_true, Bool.false_eq_true, if_false, reduceCtorEq, false_and, List.append_nil]
          exact ⟨trivial, by simpa [askRest] using b⟩
        · simpa [beginRead, ht] using h3
      | false =>
        rcases h1 ht with ⟨a, b⟩ | ⟨a, _⟩
        · rw [b] at hx
          have hcs : x.chunkIndexes = some cs := hsh.head x (by rw [List.head?_eq_getElem?]; exact hx)
          have hne : cs ≠ [] := by
            intro g
            have := squeeze_getLast (xs.map (·.chunkIndex))
            rw [hsh.chunks, g] at this
            cases xs with
            | nil => cases hx
            | cons a l => rw [List.map_cons, List.getLast?_cons] at this; cases this
          obtain ⟨d, l, rfl⟩ := List.exists_cons_of_ne_nil hne
          refine ⟨fun e => by simp [beginRead] at e, fun _ => ?_, ?_⟩
          · simp [beginRead, ht, hcs, askRest, PrepState.init]
          · rw [a] at h3
            simpa [beginRead, ht] using h3
        · omega
    | request d l hpc =>
      have := hw.busy (by rw [hpc]; simp)
      obtain ⟨a, b⟩ := h2 this
      rw [hpc] at b
      exact ⟨fun e => absurd (this.symm.trans e) (by simp), fun _ => ⟨a, by simpa [askRest] using b⟩, h3⟩
    | requested hpc =>
      have := hw.busy (by rw [hpc]; simp)
      obtain ⟨a, b⟩ := h2 this
      rw [hpc] at b
      exact ⟨fun e => absurd (this.symm.trans e) (by simp), fun _ => ⟨a, b⟩, h3⟩
    | force x hpc hx hp =>
      have := hw.busy (by rw [hpc]; simp)
      exact ⟨fun e => absurd (this.symm.trans e) (by simp), fun _ => h2 this, h3⟩
    | read x path b size raw ld hpc hx hg hl =>
      have ht := hw.busy (by rw [hpc]; simp)
      obtain ⟨a, b⟩ := h2 ht
      rw [hpc] at b
      have b' : f.s.p.requested = cs := by simpa [askRest] using b
      have hflag := hsh.flag _ x hx
      refine ⟨fun e => .inr ⟨?_, b'⟩, fun e => ⟨?_, by simpa [askRest, giveUp] using b'⟩, fun e => h3 (by simpa [giveUp] using e)⟩
      · simp only [endRead_thread ht, hflag, Bool.not_eq_false', decide_eq_true_eq] at e
        exact e
      · simp only at e ⊢
        unfold endRead at e ⊢
        simp only at e ⊢
        split at e
        · cases e
        · rename_i hn
          rw [if_neg hn]
          exact a
    | fail hpc =>
      have := hw.busy (by rw [hpc]; simp)
      obtain ⟨a, b⟩ := h2 this
      rw [hpc] at b
      exact ⟨fun e => absurd (this.symm.trans e) (by simp), fun _ => ⟨a, b⟩, h3⟩
  | thread p disk hj hrun ht hf hd =>
    obtain ⟨_, _, l3, l4, _⟩ := tstep_logs ht
    refine ⟨fun e => ?_, fun e => by simp only [l4]; exact h2 e, fun e hc => ?_⟩
    · rcases h1 e with ⟨g, _⟩ | ⟨g, g'⟩
      · rcases hrun with r | r
        · exact absurd (r.symm.trans e) (by simp)
        · rw [g] at r; cases r
      · exact .inr ⟨g, l4.trans g'⟩
    · have hdel : c ∉ f.s.p.deleted := fun g => e (l3.subset g)
      simp only [hj] at hc
      rcases hc with hc | hc | hc
      · cases hc
      · cases hc
      · rcases fetchedIn_mem ht c hc with hc | hc
        · exact h3 hdel (.inr (.inr hc))
        · rw [hf] at hc; cases hc
  | begin d info hj hrun hw hd => exact job f.s _ _ rfl rfl rfl rfl id (by simp)
  | there d info g hc => cases hc
  | atOnce d info hc => cases hc
  | busy d hc => cases hc
  | create d info file' hc => cases hc
  | packedThere d hc hj hp =>
    refine job f.s _ _ rfl rfl rfl rfl id ?_
    intro _ e
    have e : d = c := by rcases e with e | e <;> cases e <;> rfl
    rw [← e]; exact hp
  | fetchPacked d hc hj hp =>
    refine job f.s _ _ rfl rfl rfl rfl (fun e => ?_) ?_
    · split
      · rfl
      · exact e
    · intro _ e
      have e : d = c := by rcases e with e | e <;> cases e <;> rfl
      rw [if_pos e.symm]
  | unpacked d info g hj hinfo hg =>
    refine job f.s _ _ rfl rfl rfl rfl id ?_
    intro hd e
    have e : d = c := by rcases e with e | e <;> cases e <;> rfl
    exact h3 hd (.inl (by rw [hj, e]))
  | unpack d info hj hinfo hg hp =>
    refine ⟨h1, h2, fun hd e => ?_⟩
    have hne : d ≠ c := by
      intro e
      subst e
      have hg' : f.s.disk (cfg.join info.filename) = none := hg
      rw [path info hinfo, (hw.disk hd).1] at hg'
      cases hg'
    simp only
    rw [if_neg (fun e => hne e.symm)]
    rcases e with e | e | e
    · cases e
    · cases e
    · exact h3 hd (.inr (.inr e))
  | open_ d info file' hj hinfo hfile hpos => exact job { f.s with disk := _ } _ _ rfl rfl rfl rfl id (by simp)
  | write d k n info file' hj hinfo hfile hlt ho => exact job { f.s with disk := _ } _ _ rfl rfl rfl rfl id (by simp)
  | finish d info hj hinfo =>
    refine job { f.s with disk := _ } _ _ rfl rfl rfl rfl id ?_
    intro hd e
    have e : d = c := by rcases e with e | e <;> cases e <;> rfl
    subst e
    rcases hj with hj | ⟨k, hj⟩
    · exact absurd hj (hw.disk hd).2.1
    · exact absurd hj ((hw.disk hd).2.2 k)
  | commit d p hj ht hf =>
    obtain ⟨_, _, l3, l4, _⟩ := tstep_logs ht
    refine ⟨fun e => ?_, fun e => by simp only [l4]; exact h2 e, fun e hc => ?_⟩
    · rcases h1 e with ⟨g, _⟩ | ⟨g, g'⟩
      · rw [g] at ht hf
        exact (init_commit ht hf).elim
      · exact .inr ⟨g, l4.trans g'⟩
    · have hdel : c ∉ f.s.p.deleted := fun g => e (l3.subset g)
      rcases hc with hc | hc | hc
      · cases hc
      · cases hc
      · rcases fetchedIn_mem ht c hc with hc | hc
        · exact h3 hdel (.inr (.inr hc))
        · rw [hf, List.mem_singleton] at hc
          exact h3 hdel (.inr (.inl (by rw [hj, hc])))
  | others d info g ho hinfo hg => rw [left_others] at ho; cases ho

theorem packed_steps {cfg : RemoteCfg} (hok : RemoteOk cfg) {xs : List ChunkedIndex} {cs : List Nat} (hsh : PassShape xs cs) {c : Nat} {q : String} {file : Bytes}
    (hq : cfg.pathOf c = some q) {ld : PyTreeState} {disk : String → Option Bytes} {packed : Nat → Bool} (hd : disk q = some file) {f : FineState}
    (h : FSteps (cfg.left []) true xs (passStart ld disk packed) f) : PackedInv xs cs c f := by
  generalize ha : passStart ld disk packed = a at h
  induction h with
  | refl => subst ha; exact ⟨fun _ => .inl ⟨rfl, rfl⟩, fun e => by simp [passStart] at e, fun _ e => by simp [passStart, PrepState.init] at e⟩
  | tail h1 h ih => exact packed_step hsh hq (warm_steps hok hsh hq hd (ha ▸ h1)) ih h

/-- A thread that has ended has fetched all that was asked for. -/
structure AllFetched (p : PrepState) : Prop where
  queue : p.pc ≠ .last → p.pc ≠ .exited → ∃ rest, p.requested = p.downloaded ++ rest ∧ p.queue = rest.map some ++ (if p.stopped then [none] else [])
  done : p.pc = .last ∨ p.pc = .exited → p.downloaded = p.requested ∧ p.stopped = true

theorem fetched_tstep {cfg : PrepCfg} {s t : PrepState} (h : AllFetched s) (hst : TStep cfg s t) : AllFetched t := by
  obtain ⟨h1, h2⟩ := h
  cases hst with
  | forceNone hp => exact ⟨fun _ _ => h1 (by rw [hp]; simp) (by rw [hp]; simp), by simp⟩
  | forceSome c rest hp => exact ⟨fun _ _ => h1 (by rw [hp]; simp) (by rw [hp]; simp), by simp⟩
  | full hp => exact ⟨fun _ _ => h1 (by rw [hp]; simp) (by rw [hp]; simp), by simp⟩
  | fetchNone hp => exact ⟨fun _ _ => h1 (by rw [hp]; simp) (by rw [hp]; simp), by simp⟩
  | fetchSome c r hp hc hq =>
    refine ⟨fun _ _ => ?_, by simp⟩
    obtain ⟨rest, a, b⟩ := h1 (by rw [hp]; simp) (by rw [hp]; simp)
    rw [hq] at b
    cases rest with
    | nil =>
      simp only [List.map_nil, List.nil_append] at b
      split at b <;> simp at b
    | cons d rest =>
      simp only [List.map_cons, List.cons_append, List.cons.injEq, Option.some.injEq] at b
      obtain ⟨rfl, b⟩ := b
      exact ⟨rest, by simpa using a, b⟩
  | fetchEnd r hp hc hq =>
    obtain ⟨rest, a, b⟩ := h1 (by rw [hp]; simp) (by rw [hp]; simp)
    rw [hq] at b
    cases rest with
    | nil =>
      simp only [List.map_nil, List.nil_append] at b
      split at b
      · rename_i hs
        refine ⟨?_, fun _ => ⟨by simpa using a.symm, hs⟩⟩
        intro e1 e2
        simp only at e1 e2
        split at e1 <;> simp_all
      · simp at b
    | cons d rest => simp at b
  | noLimit hp => exact ⟨fun _ _ => h1 (by rw [hp]; simp) (by rw [hp]; simp), by simp⟩
  | cleanNone hp => exact ⟨fun _ _ => h1 (by rw [hp]; simp) (by rw [hp]; simp), by simp⟩
  | cleanSome c r k hp => exact ⟨fun _ _ => h1 (by rw [hp]; simp) (by rw [hp]; simp), by simp [cleanUp]⟩
  | lastNone hp => exact ⟨fun _ e => absurd rfl e, fun _ => h2 (.inl hp)⟩
  | lastSome c r k hp => exact ⟨fun _ e => absurd rfl e, fun _ => h2 (.inl hp)⟩

theorem fetched_steps {cfg : RemoteCfg} (hok : RemoteOk cfg) {comp : Bool} {xs : List ChunkedIndex} {cs : List Nat} (hsh : PassShape xs cs) {c : Nat} {q : String} {file : Bytes}
    (hq : cfg.pathOf c = some q) {ld : PyTreeState} {disk : String → Option Bytes} {packed : Nat → Bool} (hd : disk q = some file) {f : FineState}
    (h : FSteps (cfg.left []) comp xs (passStart ld disk packed) f) : AllFetched f.s.p ∧ (f.s.p.stopped = true → f.s.reader.thread = false) := by
  generalize ha : passStart ld disk packed = a at h
  have init : AllFetched .init := ⟨fun _ _ => ⟨[], rfl, rfl⟩, fun e => by simp [PrepState.init] at e⟩
  induction h with
  | refl => subst ha; exact ⟨init, fun _ => rfl⟩
  | @tail f g h1 h ih =>
    have hw := warm_steps hok hsh hq hd (ha ▸ h1)
    obtain ⟨i1, i2⟩ := ih
    cases h with
    | reader t hr _ =>
      cases hr with
      | ask x hpc hx =>
        have hlt : f.s.done ≠ xs.length := by
          intro e; rw [e, List.getElem?_eq_none (Nat.le_refl _)] at hx; cases hx
        have hp : (if (beginRead f.s.reader x).2.1 then .init else f.s.p) = f.s.p := by
          cases ht : f.s.reader.thread with
          | true => simp [beginRead, ht]
          | false =>
            rcases hw.fresh ht with e | e
            · rw [e]; simp
            · exact absurd e hlt
        refine ⟨by simp only [hp]; exact i1, ?_⟩
        simp only [hp]
        intro e
        rcases hw.fresh (i2 e) with e' | e'
        · rw [e'] at e; cases e
        · exact absurd e' hlt
      | request d l hpc =>
        have ht := hw.busy (by rw [hpc]; simp)
        have hs : f.s.p.stopped = false := by
          cases h : f.s.p.stopped with
          | false => rfl
          | true => exact absurd (ht.symm.trans (i2 h)) (by simp)
        refine ⟨⟨fun e1 e2 => ?_, fun e => ?_⟩, i2⟩
        · obtain ⟨rest, a, b⟩ := i1.queue e1 e2
          refine ⟨rest ++ [d], by simp [a], ?_⟩
          simp only [hs] at b ⊢
          simp [b]
        · have := (i1.done e).2
          rw [hs] at this; cases this
      | requested hpc => exact ⟨i1, i2⟩
      | force x hpc hx hp => exact ⟨⟨i1.queue, i1.done⟩, i2⟩
      | read x path b size raw ld hpc hx hg hl =>
        have ht := hw.busy (by rw [hpc]; simp)
        have hs : f.s.p.stopped = false := by
          cases h : f.s.p.stopped with
          | false => rfl
          | true => exact absurd (ht.symm.trans (i2 h)) (by simp)
        have hstop : (endRead f.s.reader x ld).2.2 = x.isLastIndex := by
          unfold endRead
          cases h : x.isLastIndex <;> simp [ht]
        refine ⟨⟨fun e1 e2 => ?_, fun e => ?_⟩, fun e => ?_⟩
        · obtain ⟨rest, a, b⟩ := i1.queue e1 e2
          refine ⟨rest, a, ?_⟩
          simp only [giveUp, hs, hstop, Bool.false_or] at b ⊢
          cases x.isLastIndex <;> simp [b]
        · have := (i1.done e).2
          rw [hs] at this; cases this
        · simp only [giveUp, hs, hstop, Bool.false_or] at e
          simp only
          rw [endRead_thread ht, e]
          rfl
      | fail hpc => exact ⟨i1, i2⟩
    | thread p disk hj hrun ht hf hd =>
      obtain ⟨_, _, _, _, _, _, l7⟩ := tstep_logs ht
      exact ⟨fetched_tstep i1 ht, fun e => i2 (l7 ▸ e)⟩
    | commit d p hj ht hf =>
      obtain ⟨_, _, _, _, _, _, l7⟩ := tstep_logs ht
      exact ⟨fetched_tstep i1 ht, fun e => i2 (l7 ▸ e)⟩
    | _ => exact ⟨i1, i2⟩

/-- A compressed file that was not there has been downloaded. -/
theorem packed_came {cfg : RemoteCfg} {comp : Bool} {xs : List ChunkedIndex} {c : Nat} {a f : FineState} (h : FSteps cfg comp xs a f) (ha : a.packed c = false) (hf : f.packed c = true) :
    ∃ u v, FSteps cfg comp xs a u ∧ FStep cfg comp xs u v ∧ FSteps cfg comp xs v f ∧ Downloads c u v := by
  induction h with
  | refl => rw [ha] at hf; cases hf
  | @tail u v h1 h ih =>
    cases hu : u.packed c with
    | true =>
      obtain ⟨x, y, k1, k2, k3, k4⟩ := ih hu
      exact ⟨x, y, k1, k2, k3.tail h, k4⟩
    | false =>
      refine ⟨u, v, h1, h, .refl v, ?_⟩
      have hch : v.packed ≠ u.packed := by intro e; rw [e, hu] at hf; cases hf
      cases h with
      | fetchPacked d hc hj hp =>
        have : c = d := by
          apply Classical.byContradiction
          intro hne
          simp only [if_neg hne] at hf
          rw [hu] at hf; cases hf
        rw [this]
        exact ⟨hj, .inr hch⟩
      | unpack d info hj hinfo hg hp =>
        simp only at hf
        split at hf
        · cases hf
        · rw [hu] at hf; cases hf
      | _ => exact absurd rfl hch

theorem deleted_stays {cfg : RemoteCfg} (hok : RemoteOk cfg) {comp : Bool} {xs : List ChunkedIndex} {cs : List Nat} (hsh : PassShape xs cs) {c : Nat} {q : String} {file : Bytes}
    (hq : cfg.pathOf c = some q) {ld : PyTreeState} {disk : String → Option Bytes} {packed : Nat → Bool} (hd : disk q = some file) {u f : FineState}
    (h : FSteps (cfg.left []) comp xs (passStart ld disk packed) u) (h2 : FSteps (cfg.left []) comp xs u f) (hc : c ∈ u.s.p.deleted) : c ∈ f.s.p.deleted := by
  induction h2 with
  | refl => exact hc
  | @tail g k h3 h4 ih =>
    have hw := warm_steps hok hsh hq hd (fsteps_trans h h3)
    cases h4 with
    | reader t hr _ =>
      cases hr with
      | ask x hpc hx =>
        cases ht : g.s.reader.thread with
        | true => simpa [beginRead, ht] using ih
        | false =>
          rcases hw.fresh ht with e | e
          · rw [e] at ih; cases ih
          · rw [e, List.getElem?_eq_none (Nat.le_refl _)] at hx; cases hx
      | read x path b size raw ld hpc hx hg hl => simpa [giveUp] using ih
      | _ => exact ih
    | thread p disk hj hrun ht hf hd => exact (tstep_logs ht).2.2.1.subset ih
    | commit d p hj ht hf => exact (tstep_logs ht).2.2.1.subset ih
    | _ => exact ih

/-- **C91, a compressed chunk is downloaded again** though its file is in the cache: a pass over a cache that has the decompressed file of a chunk, and not the
compressed one, which was removed after the decompression, downloads the chunk once more, in every run in which the chunk is not deleted, and leaves the compressed file,
which nobody reads. -/
theorem c91_compressed_again (cfg : RemoteCfg) (hok : RemoteOk cfg) (xs : List ChunkedIndex) (cs : List Nat) (hsh : PassShape xs cs) (c : Nat) (hc : c ∈ cs) (q : String)
    (hq : cfg.pathOf c = some q) (file : Bytes) (ld : PyTreeState) (disk : String → Option Bytes) (packed : Nat → Bool) (hd : disk q = some file) (hp : packed c = false) (f : FineState)
    (h : FSteps (cfg.left []) true xs (passStart ld disk packed) f) (hexit : f.s.p.pc = .exited) (hdel : c ∉ f.s.p.deleted) :
    f.s.disk q = some file ∧ f.packed c = true ∧
      ∃ u v, FSteps (cfg.left []) true xs (passStart ld disk packed) u ∧ FStep (cfg.left []) true xs u v ∧ FSteps (cfg.left []) true xs v f ∧ Downloads c u v ∧ u.s.disk q = some file := by
  have hw := warm_steps hok hsh hq hd h
  have hi := packed_steps hok hsh hq hd h
  obtain ⟨a1, a2⟩ := fetched_steps hok hsh hq hd h
  obtain ⟨b1, b2⟩ := a1.done (.inr hexit)
  have hreq : f.s.p.requested = cs := by
    rcases hi.fresh (a2 b2) with ⟨e, _⟩ | ⟨_, e⟩
    · rw [e] at b2; cases b2
    · exact e
  have hpk : f.packed c = true := hi.packed hdel (.inr (.inr (.inl (by rw [b1, hreq]; exact hc))))
  obtain ⟨u, v, u1, u2, u3, u4⟩ := packed_came h hp hpk
  exact ⟨(hw.disk hdel).1, hpk, u, v, u1, u2, u3, u4, ((warm_steps hok hsh hq hd u1).disk fun e => hdel (deleted_stays hok hsh hq hd u1 (fsteps_trans ((FSteps.refl u).tail u2) u3) e)).1⟩

theorem fetched_reach {cfg : PrepCfg} {p : PrepState} (h : PrepReach cfg p) : AllFetched p := by
  induction h with
  | init => exact ⟨fun _ _ => ⟨[], rfl, rfl⟩, fun e => by simp [PrepState.init] at e⟩
  | @step s t _ h2 ih =>
    rcases h2 with h2 | h2
    · exact fetched_tstep ih h2
    · cases h2 with
      | request c hs =>
        refine ⟨fun e1 e2 => ?_, fun e => ?_⟩
        · obtain ⟨rest, a, b⟩ := ih.queue e1 e2
          refine ⟨rest ++ [c], by simp [a], ?_⟩
          simp only [hs] at b ⊢
          simp [b]
        · have := (ih.done e).2
          rw [hs] at this; cases this
      | stop c hs =>
        refine ⟨fun e1 e2 => ?_, fun e => ?_⟩
        · obtain ⟨rest, a, b⟩ := ih.queue e1 e2
          refine ⟨rest, a, ?_⟩
          simp only [hs] at b ⊢
          simp [b]
        · have := (ih.done e).2
          rw [hs] at this; cases this
      | beginFirst => exact ⟨ih.queue, ih.done⟩
      | beginNext => exact ⟨ih.queue, ih.done⟩
      | ask => exact ⟨ih.queue, ih.done⟩

/-- Nothing is deleted as long as `max_pre_download` is not reached. -/
theorem nothing_deleted {cfg : PrepCfg} {p : PrepState} (h : PrepReach cfg p) (he : cfg.eager = true) (hfew : p.requested.length + forcedCount p + 2 ≤ cfg.maxPre) : p.deleted = [] := by
  induction h with
  | init => rfl
  | @step s t h1 h2 ih =>
    have hi := pinv_reach h1
    obtain ⟨rest, hr, _⟩ := hi.fetch
    have hr' := congrArg List.length hr
    rw [List.length_append] at hr'
    have clean : ∀ (k : Nat) (n : Nat), s.requested.length + forcedCount s + 2 ≤ cfg.maxPre → cleans cfg s n k → k = 0 := by
      intro k n hf hk
      unfold cleans at hk
      rw [if_pos he, if_neg] at hk
      · exact hk
      · have := hi.counter
        unfold forcedCount at hf
        omega
    rcases h2 with h2 | h2
    · have hf : s.requested.length + forcedCount s + 2 ≤ cfg.maxPre := by
        rw [← tstep_forced h2, ← (tstep_logs h2).2.2.2.1]; exact hfew
      have := ih hf
      cases h2 with
      | cleanSome c r k _ _ _ hk => rw [clean k _ hf hk]; simpa [cleanUp] using this
      | lastSome c r k _ _ hk => rw [clean k _ hf hk]; simpa [cleanUp] using this
      | _ => exact this
    · cases h2 <;> simp only [forcedCount, List.length_append, List.length_cons, List.length_nil] at hfew ih ⊢ <;> exact ih (by omega)

/-- **C91, it happens in each second epoch.** A compressed dataset of which a worker has fewer chunks than `max_pre_download` allows, so that nothing is ever deleted: from an
empty cache the worker can read two epochs to their ends, with all samples, and if it does so without asking by force, every chunk is downloaded in both. -/
theorem c91_second_epoch (cfg : RemoteCfg) (hok : RemoteOk cfg) (hex : ExactSizes cfg) (xs : List ChunkedIndex) (cs : List Nat) (hsh : PassShape xs cs) (hne : xs ≠ []) (raws : List Bytes)
    (hraws : readLocated cfg.files cfg.join cfg.enc cfg.ecfg cfg.chunks cfg.ivs .init (xs.map fun c => (c.index, c.chunkIndex)) = .ok raws) (hcache : cfg.prep.cache = true)
    (heager : cfg.prep.eager = true) (hpre : cs.length + 2 ≤ cfg.prep.maxPre) :
    ∃ f g, FSteps (cfg.left []) true xs ⟨.start fun _ => none, fun _ => false, .idle⟩ f ∧ f.s.out = raws ∧
      FSteps (cfg.left []) true xs (f.again false) g ∧ g.s.out = raws ∧
      ∀ c ∈ cs, ∃ u v, FSteps (cfg.left []) true xs (f.again false) u ∧ FStep (cfg.left []) true xs u v ∧ FSteps (cfg.left []) true xs v g ∧ Downloads c u v ∧
        ∃ q file, cfg.pathOf c = some q ∧ cfg.files q = some file ∧ u.s.disk q = some file := by
  have hlen : raws.length = xs.length := by
    have := (readLocated_known _ _ _ hraws).1
    rwa [List.length_map] at this
  have hpos : 0 < xs.length := List.length_pos_iff.2 hne
  -- one epoch, with what there is at its end
  have one : ∀ (before : List (List ChunkedIndex)) (a : FineState), Epochs cfg true false before xs a → a.s.pc ≠ .failed → forcedCount a.s.p = 0 →
      ∃ f, FSteps (cfg.left []) true xs a f ∧ f.s.out = raws ∧ f.job = .idle ∧ f.s.p.pc = .exited ∧ f.s.p.deleted = [] ∧ forcedCount f.s.p = 0 ∧
        (∀ ys, Epochs cfg true false (before ++ [xs]) ys (f.again false)) ∧
        ∀ c ∈ cs, ∃ q file, cfg.pathOf c = some q ∧ cfg.files q = some file ∧ f.s.disk q = some file := by
    intro before a ha hpc hforced
    obtain ⟨w, hw⟩ := epochs_reach hok hex ha
    have hfew : a.s.p.forced.length + a.s.p.forceQ.length + 2 ≤ cfg.prep.maxPre := by
      unfold forcedCount at hforced; omega
    obtain ⟨f, f1, f2, f3, f4, f5⟩ := pass_ends hok hex hsh hraws hcache hw hpc hfew
    have hexit := f4 (by omega)
    have hf := fsteps_reach hw f1
    have hs := fsteps_left w [] f1
    have he := epochs_steps ha hs
    have hr := (fineInv_reach (left_ok hok w) hex (fun _ => left_others cfg w) hf).reach
    simp only [coarse, f3] at hr
    have hi := rinv_reach (left_ok hok w) hsh hraws hr
    obtain ⟨d1, d2⟩ := (fetched_reach hi.prep).done (.inr hexit)
    have hreq : f.s.p.requested = cs := by
      cases hi.phase with
      | fresh h1 => rw [h1] at hexit; cases hexit
      | asking _ _ _ h2 => omega
      | reading x _ h2 => rw [List.getElem?_eq_none (by omega)] at h2; cases h2
      | finished _ _ _ _ h5 => exact h5
    have hdel : f.s.p.deleted = [] := nothing_deleted hi.prep heager (by rw [hreq]; show _ ≤ cfg.prep.maxPre; omega)
    refine ⟨f, hs, ?_, f3, hexit, hdel, by omega, fun ys => he.next ys f2 f3 f4, fun c hc => ?_⟩
    · rw [c90_same_samples cfg hok hex true before xs cs hsh raws hraws f he, f2, ← hlen, List.take_length]
    · have hmem : c ∈ xs.map (·.chunkIndex) := by
        rw [← hsh.chunks] at hc
        exact squeeze_mem _ hc
      obtain ⟨x, hx, hxc⟩ := List.mem_map.1 hmem
      obtain ⟨info, hinfo⟩ := (readLocated_known _ _ _ hraws).2 (x.index, x.chunkIndex) (List.mem_map.2 ⟨x, hx, rfl⟩)
      simp only [hxc] at hinfo
      obtain ⟨file, hfile, _⟩ := hok.whole c info hinfo
      refine ⟨_, file, pathOf_info hinfo, hfile, ?_⟩
      rw [← hfile]
      exact hi.disk.kept (left_others cfg w) c info hinfo (.inl (by rw [d1, hreq]; exact hc)) (by rw [hdel]; simp)
  obtain ⟨f, f1, f2, f3, f4, f5, f6, f7, f8⟩ := one [] _ (.first xs (fun _ => none) (fun _ => false) (by intro q g h; cases h)) (by simp [RemoteState.start]) rfl
  obtain ⟨g, g1, g2, g3, g4, g5, g6, _, _⟩ := one _ _ (f7 xs) (by simp [FineState.again]) rfl
  refine ⟨f, g, f1, f2, g1, g2, fun c hc => ?_⟩
  obtain ⟨q, file, q1, q2, q3⟩ := f8 c hc
  have hpk := c76_compressed_removed (cfg.left []) (left_ok hok []) hex rfl xs cs hsh raws hraws f f1 (by
    unfold forcedCount at f6
    exact ⟨List.length_eq_zero_iff.1 (by omega), List.length_eq_zero_iff.1 (by omega)⟩) f3 c
  obtain ⟨_, _, u, v, u1, u2, u3, u4, u5⟩ := c91_compressed_again cfg hok xs cs hsh c hc q q1 file .init f.s.disk f.packed q3 hpk g g1 g4 (by rw [g5]; simp)
  exact ⟨u, v, u1, u2, u3, u4, q, file, q1, q2, u5⟩

/-! Cases that meet the hypotheses: one chunk of `storedFiles`, and both. -/

example : ∃ f g, FSteps (backAndForthCfg.left []) true onePass ⟨.start fun _ => none, fun _ => false, .idle⟩ f ∧ f.s.out = [[1, 2], [3]] ∧
    FSteps (backAndForthCfg.left []) true onePass (f.again false) g ∧ g.s.out = [[1, 2], [3]] ∧
    ∃ u v, FSteps (backAndForthCfg.left []) true onePass (f.again false) u ∧ FStep (backAndForthCfg.left []) true onePass u v ∧ Downloads 0 u v ∧ u.s.disk "a" = some fileA := by
  obtain ⟨f, g, h1, h2, h3, h4, h5⟩ := c91_second_epoch backAndForthCfg storedOk.1 storedOk.2 onePass [0] onePass_shape (by decide) [[1, 2], [3]] (by decide +kernel) rfl rfl (by decide)
  obtain ⟨u, v, u1, u2, _, u4, q, file, u5, u6, u7⟩ := h5 0 (by decide)
  cases u5
  cases u6
  exact ⟨f, g, h1, h2, h3, h4, u, v, u1, u2, u4, u7⟩

example (f : FineState) (h : FSteps (backAndForthCfg.left []) false failPass (passStart .init (cacheOf true true) fun _ => false) f) (hd : f.s.p.deleted = []) :
    ∀ g, FStep (backAndForthCfg.left []) false failPass f g → ¬ Downloads 0 f g ∧ ¬ Downloads 1 f g := by
  intro g hg
  exact ⟨(c91_not_again backAndForthCfg storedOk.1 failPass [0, 1] failPass_shape 0 "a" rfl fileA .init (cacheOf true true) _ rfl f h (by rw [hd]; simp)).2 g hg,
    (c91_not_again backAndForthCfg storedOk.1 failPass [0, 1] failPass_shape 1 "b" rfl fileB .init (cacheOf true true) _ rfl f h (by rw [hd]; simp)).2 g hg⟩

end LitData.Props
