import Verif.Props.ReaderPass

/-! What the thread of a remote reader does not do: random access to a chunk that was given up. -/

namespace LitData.Props

open LitData LitData.Spec

theorem diskAfter_same {cfg : RemoteCfg} {p t : PrepState} {disk : String → Option Bytes} (h : fetchedIn p t = []) : DiskAfter cfg p t disk disk := by
  refine ⟨fun q => .inl rfl, fun c hc => ?_⟩
  rw [h] at hc
  cases hc

theorem diskAfter_fetched {cfg : RemoteCfg} {p t : PrepState} {disk : String → Option Bytes} (c : Nat) (q : String) (h : fetchedIn p t = [c]) (hq : cfg.pathOf c = some q) :
    DiskAfter cfg p t disk (fun r => if r = q then cfg.files r else disk r) := by
  refine ⟨fun r => ?_, fun d hd _ r hr => ?_⟩
  · by_cases hr : r = q
    · exact .inr (.inl ⟨c, by rw [h]; exact List.mem_cons_self, hr ▸ hq, if_pos hr⟩)
    · exact .inl (if_neg hr)
  · rw [h, List.mem_singleton] at hd
    subst hd
    rw [hq] at hr
    cases hr
    exact if_pos rfl

theorem diskAfter_deleted {cfg : RemoteCfg} {p t : PrepState} {disk : String → Option Bytes} (c : Nat) (q : String) (hf : fetchedIn p t = []) (h : deletedIn p t = [c])
    (hq : cfg.pathOf c = some q) : DiskAfter cfg p t disk (fun r => if r = q then none else disk r) := by
  refine ⟨fun r => ?_, fun d hd => ?_⟩
  · by_cases hr : r = q
    · exact .inr (.inr ⟨c, by rw [h]; exact List.mem_cons_self, hr ▸ hq, if_pos hr⟩)
    · exact .inl (if_neg hr)
  · rw [hf] at hd
    cases hd

/-- The reader waits for a file that nobody is going to fetch: there is nothing in the queues of the thread, and no other worker. -/
structure Stuck (q : String) (s : RemoteState) : Prop where
  pc : s.pc = .waiting
  queue : s.p.queue = []
  force : s.p.forceQ = []
  away : s.disk q = none

theorem stuck_tstep {cfg : PrepCfg} {p t : PrepState} (hq : p.queue = []) (hf : p.forceQ = []) (h : TStep cfg p t) :
    t.queue = [] ∧ t.forceQ = [] ∧ fetchedIn p t = [] := by
  cases h <;> simp_all [fetchedIn, cleanUp]

theorem stuck_step {cfg : RemoteCfg} {xs : List ChunkedIndex} {q : String} (hw : cfg.prep.others = []) {s t : RemoteState} (hs : Stuck q s) (h : RStep cfg xs s t)
    (hpc : t.pc = .waiting) (hf : t.p.forceQ.length ≤ s.p.forceQ.length) : Stuck q t := by
  cases h with
  | thread p disk _ hst hd =>
    obtain ⟨a, b, c⟩ := stuck_tstep hs.queue hs.force hst
    refine ⟨hs.pc, a, b, ?_⟩
    rcases hd.1 q with g | ⟨d, g, _⟩ | ⟨_, _, _, g⟩
    · exact g.trans hs.away
    · rw [c] at g; cases g
    · exact g
  | arriving c info part _ hc =>
    rw [hs.queue, hs.force] at hc
    rcases hc with g | g <;> cases g
  | others c info f hc => rw [hw] at hc; cases hc
  | ask x hc => exact absurd (hs.pc.symm.trans hc) (by simp)
  | request c cs hc => exact absurd (hs.pc.symm.trans hc) (by simp)
  | requested hc => exact absurd (hs.pc.symm.trans hc) (by simp)
  | force x => simp only [List.length_append, List.length_singleton] at hf; omega
  | read => cases hpc
  | fail => cases hpc

theorem stuck_waits {cfg : RemoteCfg} {xs : List ChunkedIndex} {q : String} (hw : cfg.prep.others = []) {n : Nat} {s t : RemoteState} (hs : Stuck q s) (h : RWaits cfg xs n s t) :
    Stuck q t := by
  induction h with
  | refl => exact hs
  | tick p disk _ hst hr ih =>
    have ih := ih hs
    exact stuck_step hw ih hr ih.pc (by rw [(stuck_tstep ih.queue ih.force hst).2.1]; exact Nat.zero_le _)
  | still disk _ hr ih =>
    have ih := ih hs
    exact stuck_step hw ih hr ih.pc (Nat.le_refl _)

/-- A worker that looks at the first chunk, at the second, and at the first again. -/
def backAndForth : List ChunkedIndex := [⟨0, 0, none, false⟩, ⟨2, 1, none, false⟩, ⟨1, 0, none, false⟩]

/-- Its thread: three chunks ahead, and chunks are deleted when they are given up. -/
def backAndForthCfg : RemoteCfg := ⟨⟨3, true, true, [], []⟩, storedFiles, id, none, none, storedChunks, [⟨0, 0, 2, 2⟩, ⟨2, 2, 3, 3⟩]⟩

/-- The file of the first chunk, and of the second. -/
def fileA : Bytes := writeItems none (fun _ => 0) [[1, 2], [3]]

/-- The file of the second chunk. -/
def fileB : Bytes := writeItems none (fun _ => 0) [[4, 5, 6]]

/-- The cache with the files of some chunks. -/
def cacheOf (a b : Bool) (q : String) : Option Bytes := if q = "a" then (if a then some fileA else none) else if q = "b" then (if b then some fileB else none) else none

theorem loadItem_opens {fs : String → Option Bytes} {st : PyTreeState} {path : String} {c index begin filesize : Nat} {f data : Bytes} (h : st.path ≠ some path)
    (hf : fs path = some f) (hl : filesize ≤ f.length) (hd : loadData f (itemOffset index begin) = .ok data) :
    loadItem fs none none st path c index begin filesize = .ok (data, ⟨some path, some f, st.decrypted⟩) := by
  unfold loadItem openChunk
  rw [if_neg h, hf]
  simp only [bind, Except.bind, if_pos hl, hd]
  rfl

theorem cacheOf_fetchA (a b : Bool) : (fun r => if r = "a" then storedFiles r else cacheOf a b r) = cacheOf true b := by
  funext r
  unfold cacheOf storedFiles
  by_cases h : r = "a"
  · simp only [if_pos h]; rfl
  · simp only [if_neg h]

theorem cacheOf_fetchB (a b : Bool) : (fun r => if r = "b" then storedFiles r else cacheOf a b r) = cacheOf a true := by
  funext r
  unfold cacheOf storedFiles
  by_cases h : r = "b"
  · subst h; rfl
  · simp only [if_neg h]

theorem cacheOf_dropA (a b : Bool) : (fun r => if r = "a" then none else cacheOf a b r) = cacheOf false b := by
  funext r
  unfold cacheOf
  by_cases h : r = "a"
  · simp only [if_pos h]; rfl
  · simp only [if_neg h]

/-- **C76, random access.** A chunk that is asked for again before it is deleted is not fetched again and then deleted: the reader waits,
however many steps the thread takes, until it asks by force after half a minute. -/
theorem c76_back_and_forth :
    ∃ s, RReach backAndForthCfg backAndForth s ∧ s.pc = .waiting ∧ s.done = 2 ∧ s.p.requested = [0, 1, 0] ∧ s.p.downloaded = [0, 1, 0] ∧
      ∀ n t, RWaits backAndForthCfg backAndForth n s t → t.disk "a" = none ∧
        ∀ begin filesize, loadItem t.disk none none s.reader.loader "a" 0 1 begin filesize = .error .fileNotFound := by
  have hA : loadData fileA (itemOffset 0 0) = .ok [1, 2] := by decide +kernel
  have hB : loadData fileB (itemOffset 2 2) = .ok [4, 5, 6] := by decide +kernel
  have fA := fun (p t : PrepState) (a b : Bool) (h : fetchedIn p t = [0]) => cacheOf_fetchA a b ▸ diskAfter_fetched (cfg := backAndForthCfg) (disk := cacheOf a b) 0 "a" h rfl
  have fB := fun (p t : PrepState) (a b : Bool) (h : fetchedIn p t = [1]) => cacheOf_fetchB a b ▸ diskAfter_fetched (cfg := backAndForthCfg) (disk := cacheOf a b) 1 "b" h rfl
  have dA := fun (p t : PrepState) (a b : Bool) (hf : fetchedIn p t = []) (h : deletedIn p t = [0]) =>
    cacheOf_dropA a b ▸ diskAfter_deleted (cfg := backAndForthCfg) (disk := cacheOf a b) 0 "a" hf h rfl
  have r0 : RReach backAndForthCfg backAndForth (.start (cacheOf false false)) := by
    refine RReach.init _ ?_ (by intro c h; cases h)
    intro q f h
    unfold cacheOf at h
    simp at h
  have r1 : RReach backAndForthCfg backAndForth ⟨.init, cacheOf false false, ⟨true, some 0, false, .init⟩, .asking [0], 0, []⟩ :=
    r0.step (.ask _ ⟨0, 0, none, false⟩ rfl rfl)
  have r2 : RReach backAndForthCfg backAndForth ⟨⟨[0], [some 0], [], [], [], 0, [], [], [], [], 0, false, .force⟩, cacheOf false false, ⟨true, some 0, false, .init⟩, .asking [], 0, []⟩ :=
    r1.step (.request _ 0 [] rfl)
  have r3 : RReach backAndForthCfg backAndForth ⟨⟨[0], [some 0], [], [], [], 0, [], [], [], [], 0, false, .force⟩, cacheOf false false, ⟨true, some 0, false, .init⟩, .waiting, 0, []⟩ :=
    r2.step (.requested _ rfl)
  have r4 : RReach backAndForthCfg backAndForth ⟨⟨[0], [some 0], [], [], [], 0, [], [], [], [], 0, false, .fetch⟩, cacheOf false false, ⟨true, some 0, false, .init⟩, .waiting, 0, []⟩ :=
    r3.step (.thread _ _ _ (.inl rfl) (.forceNone _ rfl rfl) (diskAfter_same rfl))
  have r5 : RReach backAndForthCfg backAndForth ⟨⟨[0], [], [0], [], [], 1, [], [], [], [], 0, false, .clean⟩, cacheOf true false, ⟨true, some 0, false, .init⟩, .waiting, 0, []⟩ :=
    r4.step (.thread _ _ _ (.inl rfl) (.fetchSome _ 0 [] rfl (by decide) rfl) (fA _ _ _ _ rfl))
  have r6 : RReach backAndForthCfg backAndForth ⟨⟨[0], [], [0], [], [], 1, [], [], [], [], 0, false, .force⟩, cacheOf true false, ⟨true, some 0, false, .init⟩, .waiting, 0, []⟩ :=
    r5.step (.thread _ _ _ (.inl rfl) (.cleanNone _ rfl rfl rfl) (diskAfter_same rfl))
  have r7 : RReach backAndForthCfg backAndForth ⟨⟨[0], [], [0], [], [], 1, [], [], [], [], 1, false, .force⟩, cacheOf true false,
      ⟨true, some 0, false, ⟨some "a", some fileA, none⟩⟩, .idle, 1, [[1, 2]]⟩ :=
    r6.step (.read _ ⟨0, 0, none, false⟩ "a" 0 fileA.length [1, 2] _ rfl rfl rfl (loadItem_opens (by decide) rfl (Nat.le_refl _) hA))
  have r8 : RReach backAndForthCfg backAndForth ⟨⟨[0], [], [0], [], [], 1, [], [], [], [], 1, false, .force⟩, cacheOf true false,
      ⟨true, some 0, false, ⟨some "a", some fileA, none⟩⟩, .asking [1], 1, [[1, 2]]⟩ :=
    r7.step (.ask _ ⟨2, 1, none, false⟩ rfl rfl)
  have r9 : RReach backAndForthCfg backAndForth ⟨⟨[0, 1], [some 1], [0], [], [], 1, [], [], [], [], 1, false, .force⟩, cacheOf true false,
      ⟨true, some 0, false, ⟨some "a", some fileA, none⟩⟩, .asking [], 1, [[1, 2]]⟩ :=
    r8.step (.request _ 1 [] rfl)
  have r10 : RReach backAndForthCfg backAndForth ⟨⟨[0, 1], [some 1], [0], [], [], 1, [], [], [], [], 1, false, .force⟩, cacheOf true false,
      ⟨true, some 0, false, ⟨some "a", some fileA, none⟩⟩, .waiting, 1, [[1, 2]]⟩ :=
    r9.step (.requested _ rfl)
  have r11 : RReach backAndForthCfg backAndForth ⟨⟨[0, 1], [some 1], [0], [], [], 1, [], [], [], [], 1, false, .fetch⟩, cacheOf true false,
      ⟨true, some 0, false, ⟨some "a", some fileA, none⟩⟩, .waiting, 1, [[1, 2]]⟩ :=
    r10.step (.thread _ _ _ (.inl rfl) (.forceNone _ rfl rfl) (diskAfter_same rfl))
  have r12 : RReach backAndForthCfg backAndForth ⟨⟨[0, 1], [], [0, 1], [], [], 2, [], [], [], [], 1, false, .clean⟩, cacheOf true true,
      ⟨true, some 0, false, ⟨some "a", some fileA, none⟩⟩, .waiting, 1, [[1, 2]]⟩ :=
    r11.step (.thread _ _ _ (.inl rfl) (.fetchSome _ 1 [] rfl (by decide) rfl) (fB _ _ _ _ rfl))
  have r13 : RReach backAndForthCfg backAndForth ⟨⟨[0, 1], [], [0, 1], [], [], 2, [], [], [], [], 1, false, .force⟩, cacheOf true true,
      ⟨true, some 0, false, ⟨some "a", some fileA, none⟩⟩, .waiting, 1, [[1, 2]]⟩ :=
    r12.step (.thread _ _ _ (.inl rfl) (.cleanNone _ rfl rfl rfl) (diskAfter_same rfl))
  have r14 : RReach backAndForthCfg backAndForth ⟨⟨[0, 1], [], [0, 1], [], [], 2, [0], [], [], [0], 2, false, .force⟩, cacheOf true true,
      ⟨true, some 1, false, ⟨some "b", some fileB, none⟩⟩, .idle, 2, [[1, 2], [4, 5, 6]]⟩ :=
    r13.step (.read _ ⟨2, 1, none, false⟩ "b" 2 fileB.length [4, 5, 6] _ rfl rfl rfl (loadItem_opens (by decide) rfl (Nat.le_refl _) hB))
  have r15 : RReach backAndForthCfg backAndForth ⟨⟨[0, 1], [], [0, 1], [], [], 2, [0], [], [], [0], 2, false, .force⟩, cacheOf true true,
      ⟨true, some 1, false, ⟨some "b", some fileB, none⟩⟩, .asking [0], 2, [[1, 2], [4, 5, 6]]⟩ :=
    r14.step (.ask _ ⟨1, 0, none, false⟩ rfl rfl)
  have r16 : RReach backAndForthCfg backAndForth ⟨⟨[0, 1, 0], [some 0], [0, 1], [], [], 2, [0], [], [], [0], 2, false, .force⟩, cacheOf true true,
      ⟨true, some 1, false, ⟨some "b", some fileB, none⟩⟩, .asking [], 2, [[1, 2], [4, 5, 6]]⟩ :=
    r15.step (.request _ 0 [] rfl)
  have r17 : RReach backAndForthCfg backAndForth ⟨⟨[0, 1, 0], [some 0], [0, 1], [], [], 2, [0], [], [], [0], 2, false, .force⟩, cacheOf true true,
      ⟨true, some 1, false, ⟨some "b", some fileB, none⟩⟩, .waiting, 2, [[1, 2], [4, 5, 6]]⟩ :=
    r16.step (.requested _ rfl)
  have r18 : RReach backAndForthCfg backAndForth ⟨⟨[0, 1, 0], [some 0], [0, 1], [], [], 2, [0], [], [], [0], 2, false, .fetch⟩, cacheOf true true,
      ⟨true, some 1, false, ⟨some "b", some fileB, none⟩⟩, .waiting, 2, [[1, 2], [4, 5, 6]]⟩ :=
    r17.step (.thread _ _ _ (.inl rfl) (.forceNone _ rfl rfl) (diskAfter_same rfl))
  have r19 : RReach backAndForthCfg backAndForth ⟨⟨[0, 1, 0], [], [0, 1, 0], [], [], 3, [0], [], [], [0], 2, false, .clean⟩, cacheOf true true,
      ⟨true, some 1, false, ⟨some "b", some fileB, none⟩⟩, .waiting, 2, [[1, 2], [4, 5, 6]]⟩ :=
    r18.step (.thread _ _ _ (.inl rfl) (.fetchSome _ 0 [] rfl (by decide) rfl) (fA _ _ _ _ rfl))
  have r20 : RReach backAndForthCfg backAndForth ⟨⟨[0, 1, 0], [], [0, 1, 0], [], [], 2, [], [], [0], [0], 2, false, .force⟩, cacheOf false true,
      ⟨true, some 1, false, ⟨some "b", some fileB, none⟩⟩, .waiting, 2, [[1, 2], [4, 5, 6]]⟩ :=
    r19.step (.thread _ _ _ (.inl rfl) (.cleanSome _ 0 [] 1 rfl rfl rfl (by unfold cleans; decide)) (dA _ _ _ _ rfl rfl))
  refine ⟨_, r20, rfl, rfl, rfl, rfl, fun n t h => ?_⟩
  have hstuck := stuck_waits (q := "a") (by rfl) ⟨rfl, rfl, rfl, rfl⟩ h
  refine ⟨hstuck.away, fun begin filesize => ?_⟩
  unfold loadItem openChunk
  rw [hstuck.away, if_neg (by decide)]
  rfl

/-- **C76, a chunk that goes away while it is read.** Without encryption an open chunk is read whatever happens to its file, and so is a chunk that was
decrypted as a whole; with encryption of samples each read opens the file again. -/
theorem c76_open_chunk_deleted (enc : Option Encryption) (e : Encryption) (fs gs : String → Option Bytes) (st : PyTreeState) (path : String) (hp : st.path = some path)
    (c index begin filesize : Nat) :
    loadItem fs none enc st path c index begin filesize = loadItem gs none enc st path c index begin filesize ∧
    (e.level = .chunk → (∃ d, st.decrypted = some (c, d)) →
      loadItem fs (some e.config) (some e) st path c index begin filesize = loadItem gs (some e.config) (some e) st path c index begin filesize) ∧
    (e.level = .sample → fs path = none → loadItem fs (some e.config) (some e) st path c index begin filesize = .error .fileNotFound) := by
  have ho : ∀ f : String → Option Bytes, openChunk f st path filesize = .ok st := fun f => if_pos hp
  have hv : validateEncryption e.config (some e) = .ok e := by
    unfold validateEncryption Encryption.config
    simp
  refine ⟨?_, ?_, ?_⟩
  · unfold loadItem
    rw [ho, ho]
  · rintro hl ⟨d, hd⟩
    unfold loadItem
    rw [ho, ho]
    simp only [bind, Except.bind, loadEncrypted, Encryption.config, hl, hd, if_pos]
  · intro hl hf
    unfold loadItem
    rw [ho]
    have hc : e.config.level = .sample := hl
    simp only [bind, Except.bind, loadEncrypted, hv, hc, hf]

example : (loadItem (fun _ => none) (some (toyCipher .sample).config) (some (toyCipher .sample)) ⟨some "a", some [1], none⟩ "a" 0 1 0 9).toOption = none ∧
    (loadItem (fun _ => none) none none ⟨some "a", storedFiles "a", none⟩ "a" 0 1 0 9).toOption.map (·.1) = some [3] := by decide +kernel

theorem storedDistinct : DistinctFiles id storedChunks := by
  intro i j a b ha hb hab
  have hi : i < 2 := by apply Nat.lt_of_not_le; intro g; rw [List.getElem?_eq_none g] at ha; cases ha
  have hj : j < 2 := by apply Nat.lt_of_not_le; intro g; rw [List.getElem?_eq_none g] at hb; cases hb
  match i, j, hi, hj with
  | 0, 0, _, _ => rfl
  | 1, 1, _, _ => rfl
  | 0, 1, _, _ => cases ha; cases hb; exact absurd hab (by decide)
  | 1, 0, _, _ => cases ha; cases hb; exact absurd hab (by decide)

/-- The hypotheses of `c76_worker` are met: a worker that has the whole example dataset delivers all of it. -/
example : ∃ ivs xs cs value want, DeliversRemote ⟨2, true, false, [1], []⟩ storedFiles id none storedChunks ivs xs cs want ∧
    want = (deliveredBy (fun l _ _ _ => l.reverse) [⟨0, ⟨0, 0, 2, 2⟩⟩, ⟨1, ⟨2, 2, 3, 3⟩⟩] 1).map value := by
  obtain ⟨ivs, h1, value, _, h2⟩ := c76_worker none (by simp) storedFiles id storedChunks storedItems storedExample storedDistinct
  have hiv : ivs = [⟨0, 0, 2, 2⟩, ⟨2, 2, 3, 3⟩] := by
    have : generateIntervals none 0 0 storedChunks = .ok [⟨0, 0, 2, 2⟩, ⟨2, 2, 3, 3⟩] := rfl
    rw [this] at h1
    cases h1
    rfl
  subst hiv
  obtain ⟨xs, s', _, h3⟩ := h2 (fun _ l => l) (fun _ _ => .refl _) (fun l _ _ _ => l.reverse) (fun l _ _ _ => l.reverse_perm) 1 1 false 1 1 1
    [[⟨0, ⟨0, 0, 2, 2⟩⟩, ⟨1, ⟨2, 2, 3, 3⟩⟩]] (.inl (by decide +kernel)) _ List.mem_cons_self
  exact ⟨_, xs, _, value, _, h3 _, rfl⟩

end LitData.Props
