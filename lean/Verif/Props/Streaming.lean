import Verif.Model.Streaming
import Verif.Props.Dataset
import Verif.Props.Slice
import Verif.Props.EndToEnd

/-! Property C53: from the samples given to the workers of `optimize` to the samples that all the workers of all ranks yield in one epoch of
streaming. -/

namespace LitData.Props
open LitData Spec

/-- Streaming is choosing the indices, reading them and deserializing the bytes. -/
theorem streamWorker_eq {α : Type} (sh : Shuffler) (fs : String → Option Bytes) (join : String → String) (enc : Option Encryption)
    (cfg : Option EncConfig) (chunks : List ChunkInfo) (ivs : List Interval) (read : Bytes → Py α) (fuel : Nat) (s : IterState)
    (st : PyTreeState) (xs : List ChunkedIndex) (b : Bool) (s' : IterState) (raws : List Bytes) (ys : List α)
    (h1 : runIter sh fuel s = .ok (xs, b, s'))
    (h2 : readLocated fs join enc cfg chunks ivs st (xs.map fun c => (c.index, c.chunkIndex)) = .ok raws)
    (h3 : raws.map read = ys.map .ok) :
    streamWorker sh fs join enc cfg chunks ivs read fuel s st = .ok (ys, b) := by
  induction fuel generalizing s st xs raws ys with
  | zero =>
    simp only [runIter, Except.ok.injEq, Prod.mk.injEq] at h1
    obtain ⟨rfl, rfl, rfl⟩ := h1
    simp only [List.map_nil, readLocated, Except.ok.injEq] at h2
    subst h2
    cases ys with
    | nil => rfl
    | cons y ys => simp at h3
  | succ fuel ih =>
    simp only [runIter, bind, Except.bind] at h1
    unfold streamWorker
    cases hn : nextItem sh s with
    | error e => simp [hn] at h1
    | ok r =>
      obtain ⟨r, s1⟩ := r
      simp only [hn] at h1
      cases r with
      | none =>
        simp only [pure, Except.pure, Except.ok.injEq, Prod.mk.injEq] at h1
        obtain ⟨rfl, rfl, rfl⟩ := h1
        simp only [List.map_nil, readLocated, Except.ok.injEq] at h2
        subst h2
        cases ys with
        | nil => rfl
        | cons y ys => simp at h3
      | some x =>
        simp only at h1
        cases hr : runIter sh fuel s1 with
        | error e => simp [hr] at h1
        | ok t =>
          obtain ⟨zs, b', s2⟩ := t
          simp only [hr, pure, Except.pure, Except.ok.injEq, Prod.mk.injEq] at h1
          obtain ⟨rfl, rfl, rfl⟩ := h1
          simp only [List.map_cons, readLocated] at h2
          cases hc : configGet join chunks ivs x.chunkIndex with
          | error e => simp [hc] at h2
          | ok t =>
            obtain ⟨path, beg, size⟩ := t
            simp only [hc] at h2 ⊢
            cases hl : loadItem fs cfg enc st path x.chunkIndex x.index beg size with
            | error e => simp [hl] at h2
            | ok t =>
              obtain ⟨raw, st1⟩ := t
              simp only [hl] at h2 ⊢
              cases hrl : readLocated fs join enc cfg chunks ivs st1 (zs.map fun c => (c.index, c.chunkIndex)) with
              | error e => simp [hrl] at h2
              | ok raws' =>
                simp only [hrl, Except.ok.injEq] at h2
                subst h2
                cases ys with
                | nil => simp at h3
                | cons y ys =>
                  simp only [List.map_cons, List.cons.injEq] at h3
                  simp only [h3.1, ih s1 st1 zs raws' ys hr hrl h3.2]

/-- Every sample of the dataset has a value, such that any sequence of samples of the dataset is read as their values. -/
theorem located_values (enc : Option Encryption) (hsound : ∀ e, enc = some e → Encryption.Sound e)
    (fs : String → Option Bytes) (join : String → String) (chunks : List ChunkInfo) (items : List (List Bytes))
    (hs : Stored enc fs join chunks items) :
    ∃ ivs, generateIntervals none 0 0 chunks = .ok ivs ∧ ∃ value : Nat × Nat → Bytes,
      (datasetSamples (List.range ivs.length) ivs).map value = items.flatten ∧
      ∀ ps : List (Nat × Nat), (∀ p ∈ ps, p ∈ datasetSamples (List.range ivs.length) ivs) →
        readLocated fs join enc (enc.map Encryption.config) chunks ivs PyTreeState.init (ps.map fun p => (p.2, p.1)) = .ok (ps.map value) := by
  obtain ⟨ivs, h1, h2, h3⟩ := stored_reads enc hsound fs join chunks items hs
  have hnd : (datasetSamples (List.range ivs.length) ivs).Nodup := by
    rw [List.range_eq_range']; exact datasetSamples_range_nodup 0 ivs
  have hlen : (datasetSamples (List.range ivs.length) ivs).length = items.flatten.length := by
    rw [h2, (c15_out_of_range ivs 0).1]
  refine ⟨ivs, h1, fun p => items.flatten.getD ((datasetSamples (List.range ivs.length) ivs).idxOf p) [], ?_, ?_⟩
  · apply List.ext_getElem
    · rw [List.length_map, hlen]
    · intro i hi hi'
      rw [List.length_map] at hi
      simp only [List.getElem_map]
      rw [List.getD_eq_getElem?_getD, List.Nodup.idxOf_getElem hnd i hi, List.getElem?_eq_getElem hi', Option.getD_some]
  · intro ps hps
    have hget : ∀ p ∈ ps, ∃ h : (datasetSamples (List.range ivs.length) ivs).idxOf p < (datasetSamples (List.range ivs.length) ivs).length,
        (datasetSamples (List.range ivs.length) ivs)[(datasetSamples (List.range ivs.length) ivs).idxOf p] = p :=
      fun p hp => ⟨List.idxOf_lt_length_iff.2 (hps p hp), List.getElem_idxOf _⟩
    have his : ∀ i ∈ ps.map (datasetSamples (List.range ivs.length) ivs).idxOf, i < items.flatten.length := by
      intro i hi
      obtain ⟨p, hp, rfl⟩ := List.mem_map.1 hi
      rw [← hlen]
      exact (hget p hp).1
    obtain ⟨qs, q1, q2⟩ := readLocated_eq fs join enc (enc.map Encryption.config) chunks ivs
      (ps.map (datasetSamples (List.range ivs.length) ivs).idxOf) (fun i hi => by rw [← h2]; exact his i hi)
    have hq : qs = ps.map fun p => (p.2, p.1) := by
      have key : ∀ l : List (Nat × Nat), (∀ p ∈ l, p ∈ ps) →
          locateAll ivs ((l.map (datasetSamples (List.range ivs.length) ivs).idxOf).map fun (i : Nat) => (i : Int)) =
            .ok (l.map fun p => (p.2, p.1)) := by
        intro l
        induction l with
        | nil => intro _; rfl
        | cons p l ih =>
          intro hl
          obtain ⟨g1, g2⟩ := hget p (hl p (by simp))
          have := c15_lookup ivs _ g1
          rw [g2] at this
          rw [List.map_cons, List.map_cons, locateAll, this]
          simp only [ih fun q hq => hl q (by simp [hq]), List.map_cons]
      have := key ps fun _ h => h
      rw [q1] at this
      injection this
    rw [← hq, q2, h3 _ his, List.map_map]
    rfl

/-- The split used by a shuffled epoch is a split of some order of the chunks. -/
theorem fullShuffle_associate (perm : Nat → List Nat → List Nat) (hperm : ∀ e l, (perm e l).Perm l)
    (ivs : List Interval) (W nn : Nat) (dl : Bool) (nw bs epoch : Nat) (hone : epoch = 1 ∨ nn = 1) (ws : List (List Piece))
    (h1 : fullShuffleAssign perm ivs W nn dl nw bs epoch = .ok ws) : ∃ idx out, associate W idx out dl nw bs = .ok ws := by
  unfold fullShuffleAssign at h1
  obtain ⟨out, g1, _⟩ := pick_perm_samples ivs _
    (hperm (if nn > 1 then 1 else epoch) (List.range ivs.length))
  simp only [g1, bind, Except.bind, if_pos hone] at h1
  cases ha : associate W (perm (if nn > 1 then 1 else epoch) (List.range ivs.length)) out dl nw bs with
  | error e => simp [ha] at h1
  | ok ws' =>
    simp only [ha, pure, Except.pure, Except.ok.injEq] at h1
    exact ⟨_, _, h1 ▸ ha⟩

/-- What a worker yields in an epoch. -/
def streamed {α : Type} (sh : Shuffler) (fs : String → Option Bytes) (join : String → String) (enc : Option Encryption)
    (chunks : List ChunkInfo) (ivs : List Interval) (read : Bytes → Py α) (epoch : Nat) (ps : List Piece) : Py (List α × Bool) :=
  streamWorker sh fs join enc (enc.map Encryption.config) chunks ivs read ((samples ps).length + 1) (iterStart ps epoch) PyTreeState.init

/-- The samples of the dataset have values, in the order of the dataset, and whatever a worker is to deliver it yields the values of. -/
theorem streamed_values {α : Type} (y0 : α) (enc : Option Encryption) (hsound : ∀ e, enc = some e → Encryption.Sound e)
    (fs : String → Option Bytes) (join : String → String) (chunks : List ChunkInfo) (items : List (List Bytes))
    (hs : Stored enc fs join chunks items) (read : Bytes → Py α) (ys : List α) (hr : items.flatten.map read = ys.map .ok) :
    ∃ ivs, generateIntervals none 0 0 chunks = .ok ivs ∧ ∃ v : Nat × Nat → α,
      (datasetSamples (List.range ivs.length) ivs).map v = ys ∧
      (∀ (sh : Shuffler) (fuel : Nat) (s s' : IterState) (xs : List ChunkedIndex) (b : Bool), runIter sh fuel s = .ok (xs, b, s') →
        (∀ c ∈ xs, (c.chunkIndex, c.index) ∈ datasetSamples (List.range ivs.length) ivs) →
        streamWorker sh fs join enc (enc.map Encryption.config) chunks ivs read fuel s PyTreeState.init =
          .ok (xs.map fun c => v (c.chunkIndex, c.index), b)) ∧
      ∀ (sh : Shuffler), (∀ a n e k, (sh a n e k).Perm a) → ∀ (W : Nat) (idx : List Nat) (out : List Interval) (dl : Bool) (nw bs : Nat)
        (ws : List (List Piece)), associate W idx out dl nw bs = .ok ws → ∀ ps ∈ ws,
        (∀ x ∈ samples ps, x ∈ datasetSamples (List.range ivs.length) ivs) → ∀ epoch,
        streamed sh fs join enc chunks ivs read epoch ps = .ok ((deliveredBy sh ps epoch).map v, true) ∧
        (deliveredBy sh ps epoch).Perm (samples ps) := by
  obtain ⟨ivs, h1, value, h2, h3⟩ := located_values enc hsound fs join chunks items hs
  rw [← h2] at hr
  have hany : ∀ (sh : Shuffler) (fuel : Nat) (s s' : IterState) (xs : List ChunkedIndex) (b : Bool), runIter sh fuel s = .ok (xs, b, s') →
      (∀ c ∈ xs, (c.chunkIndex, c.index) ∈ datasetSamples (List.range ivs.length) ivs) →
      streamWorker sh fs join enc (enc.map Encryption.config) chunks ivs read fuel s PyTreeState.init =
        .ok (xs.map fun c => ((read (value (c.chunkIndex, c.index))).toOption).getD y0, b) := by
    intro sh fuel s s' xs b hrun hin'
    have hin : ∀ p ∈ xs.map (fun c => (c.chunkIndex, c.index)), p ∈ datasetSamples (List.range ivs.length) ivs := by
      intro p hp
      obtain ⟨c, hc, rfl⟩ := List.mem_map.1 hp
      exact hin' c hc
    have hrl := h3 _ hin
    rw [List.map_map] at hrl
    refine streamWorker_eq sh fs join enc _ chunks ivs read _ _ _ xs b s' _ _ hrun hrl ?_
    rw [List.map_map, List.map_map, List.map_map]
    apply List.map_congr_left
    intro c hc
    have hm : read (value (c.chunkIndex, c.index)) ∈ ys.map Except.ok := by
      rw [← hr]
      exact List.mem_map_of_mem (List.mem_map_of_mem (hin' c hc))
    obtain ⟨y, _, hy⟩ := List.mem_map.1 hm
    simp only [Function.comp_apply, ← hy]
    rfl
  refine ⟨ivs, h1, fun p => ((read (value p)).toOption).getD y0, ?_, hany, ?_⟩
  · have := congrArg (List.map fun r : Py α => r.toOption.getD y0) hr
    rw [List.map_map, List.map_map, List.map_map] at this
    rw [show (fun p => ((read (value p)).toOption).getD y0) = ((fun r : Py α => r.toOption.getD y0) ∘ read) ∘ value from rfl,
      ← List.map_map, ← List.map_map, List.map_map, List.map_map]
    refine Eq.trans ?_ (this.trans ?_)
    · rfl
    · rw [show ((fun r : Py α => r.toOption.getD y0) ∘ Except.ok) = id from rfl, List.map_id]
  · intro sh hsh W idx out dl nw bs ws ha ps hps hsub epoch
    obtain ⟨xs, s', k1, _, k3, _⟩ := c05_one_pass sh hsh W idx out dl nw bs ws ha ps hps epoch
    have hd : deliveredBy sh ps epoch = xs.map fun c => (c.chunkIndex, c.index) := by
      unfold deliveredBy
      rw [k1 _ (Nat.lt_succ_self _)]
    refine ⟨?_, hd ▸ k3⟩
    unfold streamed
    rw [hany sh _ _ s' xs true (k1 _ (Nat.lt_succ_self _)) fun c hc => hsub _ (k3.mem_iff.1 (List.mem_map_of_mem hc)), hd, List.map_map]
    rfl

/-- The workers of a split yield the values of what they deliver. -/
theorem streamed_all {α : Type} (sh : Shuffler) (fs : String → Option Bytes) (join : String → String) (enc : Option Encryption)
    (chunks : List ChunkInfo) (ivs : List Interval) (read : Bytes → Py α) (epoch : Nat) (v : Nat × Nat → α) (ws : List (List Piece))
    (h : ∀ ps ∈ ws, streamed sh fs join enc chunks ivs read epoch ps = .ok ((deliveredBy sh ps epoch).map v, true) ∧
      (deliveredBy sh ps epoch).Perm (samples ps)) :
    ∃ outs : List (List α), ws.map (streamed sh fs join enc chunks ivs read epoch) = outs.map (fun o => .ok (o, true)) ∧
      outs.flatten = (ws.flatMap fun ps => deliveredBy sh ps epoch).map v ∧ outs.flatten.Perm ((ws.flatMap samples).map v) := by
  refine ⟨ws.map fun ps => (deliveredBy sh ps epoch).map v, ?_, ?_, ?_⟩
  · rw [List.map_map]
    exact List.map_congr_left fun ps hps => (h ps hps).1
  · rw [List.map_flatMap, List.flatMap_def]
  · rw [← List.flatMap_def]
    rw [List.map_flatMap]
    induction ws with
    | nil => exact List.Perm.refl _
    | cons ps ws ih =>
      rw [List.flatMap_cons, List.flatMap_cons]
      exact ((h ps (by simp)).2.map v).append (ih fun q hq => h q (by simp [hq]))

/-- **C53, shuffled.** Let a dataset be on disk, plain or encrypted, and let its items deserialize to `ys`. For every world size, number of
workers, batch size and epoch (one node, or the first epoch), and whatever the random generators draw: every worker of every rank streams
without an error until it stops, and all of them together yield `ys`, each sample exactly once. -/
theorem c53_shuffled {α : Type} (enc : Option Encryption) (hsound : ∀ e, enc = some e → Encryption.Sound e)
    (fs : String → Option Bytes) (join : String → String) (chunks : List ChunkInfo) (items : List (List Bytes))
    (hs : Stored enc fs join chunks items) (read : Bytes → Py α) (ys : List α) (hr : items.flatten.map read = ys.map .ok) (hne : ys ≠ []) :
    ∃ ivs, generateIntervals none 0 0 chunks = .ok ivs ∧
      ∀ (perm : Nat → List Nat → List Nat), (∀ e l, (perm e l).Perm l) → ∀ (sh : Shuffler), (∀ a n e k, (sh a n e k).Perm a) →
      ∀ (W nn nw bs epoch : Nat), 0 < W → 0 < nw → 0 < bs → epoch = 1 ∨ nn = 1 →
        ∃ (ws : List (List Piece)) (outs : List (List α)), fullShuffleAssign perm ivs W nn false nw bs epoch = .ok ws ∧ ws.length = W * nw ∧
          ws.map (streamed sh fs join enc chunks ivs read epoch) = outs.map (fun o => .ok (o, true)) ∧ outs.flatten.Perm ys := by
  obtain ⟨y0, hy0⟩ := List.exists_mem_of_ne_nil ys hne
  obtain ⟨ivs, h1, v, h2, _, h3⟩ := streamed_values y0 enc hsound fs join chunks items hs read ys hr
  refine ⟨ivs, h1, ?_⟩
  intro perm hperm sh hsh W nn nw bs epoch hW hnw hbs hone
  obtain ⟨ws, k1, k2, k3⟩ := c04_shuffle_is_permutation perm hperm ivs W nn nw bs epoch hW hnw hbs hone
  obtain ⟨idx, out, ha⟩ := fullShuffle_associate perm hperm ivs W nn false nw bs epoch hone ws k1
  obtain ⟨outs, o1, _, o3⟩ := streamed_all sh fs join enc chunks ivs read epoch v ws fun ps hps =>
    h3 sh hsh W idx out false nw bs ws ha ps hps (fun x hx => k3.mem_iff.1 (List.mem_flatMap.2 ⟨ps, hps, hx⟩)) epoch
  refine ⟨ws, outs, k1, k2, o1, o3.trans ?_⟩
  rw [← h2]
  exact k3.map v

/-- **C53, in order.** Without shuffling, the workers taken rank by rank yield the samples of the dataset in order, for every world size,
number of workers and batch size. With `drop_last` they yield the first `W * q` of them, `q` for each rank. -/
theorem c53_in_order {α : Type} (enc : Option Encryption) (hsound : ∀ e, enc = some e → Encryption.Sound e)
    (fs : String → Option Bytes) (join : String → String) (chunks : List ChunkInfo) (items : List (List Bytes))
    (hs : Stored enc fs join chunks items) (read : Bytes → Py α) (ys : List α) (hr : items.flatten.map read = ys.map .ok) (hne : ys ≠ []) :
    ∃ ivs, generateIntervals none 0 0 chunks = .ok ivs ∧
      ∀ (dl : Bool) (W nw bs epoch : Nat), 0 < W → 0 < nw → 0 < bs →
        ∃ (ws : List (List Piece)) (outs : List (List α)), noShuffleAssign ivs W dl nw bs = .ok ws ∧
          ws.map (streamed noShuffler fs join enc chunks ivs read epoch) = outs.map (fun o => .ok (o, true)) ∧
          outs.flatten = ys.take (if dl then W * (bs * (ys.length / (bs * W))) else ys.length) := by
  obtain ⟨y0, hy0⟩ := List.exists_mem_of_ne_nil ys hne
  obtain ⟨ivs, h1, v, h2, _, h3⟩ := streamed_values y0 enc hsound fs join chunks items hs read ys hr
  refine ⟨ivs, h1, ?_⟩
  intro dl W nw bs epoch hW hnw hbs
  have hlen : (datasetSamples (List.range ivs.length) ivs).length = ys.length := by rw [← h2, List.length_map]
  have key : ∃ ws, associate W (List.range ivs.length) ivs dl nw bs = .ok ws ∧ ws.flatMap samples =
      (datasetSamples (List.range ivs.length) ivs).take (if dl then W * (bs * (ys.length / (bs * W))) else ys.length) := by
    cases dl with
    | true =>
      obtain ⟨ws, a1, _, a3⟩ := c02_drop_last_equal_ranks W (List.range ivs.length) ivs nw bs hW hnw hbs (by simp)
      rw [hlen] at a3
      exact ⟨ws, a1, a3⟩
    | false =>
      obtain ⟨ws, a1, _, a3⟩ := c01_no_sample_lost_or_repeated W (List.range ivs.length) ivs nw bs hW hnw hbs (by simp)
      refine ⟨ws, a1, ?_⟩
      rw [a3, if_neg (by simp), ← hlen, List.take_length]
  obtain ⟨ws, a1, a2⟩ := key
  obtain ⟨outs, o1, o2, _⟩ := streamed_all noShuffler fs join enc chunks ivs read epoch v ws fun ps hps =>
    h3 noShuffler (fun _ _ _ _ => List.Perm.refl _) W _ _ dl nw bs ws a1 ps hps (fun x hx => by
      have : x ∈ ws.flatMap samples := List.mem_flatMap.2 ⟨ps, hps, hx⟩
      rw [a2] at this
      exact List.mem_of_mem_take this) epoch
  refine ⟨ws, outs, a1, o1, ?_⟩
  have hd : (ws.flatMap fun ps => deliveredBy noShuffler ps epoch) = ws.flatMap samples := by
    rw [List.flatMap_def, List.flatMap_def]
    congr 1
    apply List.map_congr_left
    intro ps hps
    obtain ⟨xs, s', b1, b2, _⟩ := c05_one_pass_no_shuffle W _ _ dl nw bs ws a1 ps hps epoch
    unfold deliveredBy
    rw [b1]
    exact b2
  rw [o2, hd, a2, List.map_take, h2]

/-- **C53, from objects to objects.** Let any number of workers be given samples that are all like `x`. Every worker can serialize its
samples, with the same data format. If they are written (plain or encrypted, with any limits, no chunk reaching 4 GiB), put into one
directory and merged, then streaming the resulting dataset yields the samples again, as the same Python objects:
* shuffled, without `drop_last`, on one node or in the first epoch: the samples that all workers of all ranks yield are a permutation of
  the samples of all writers;
* not shuffled: rank by rank and worker by worker they are the samples of the writers, in the order of the merged index, all of them or,
  with `drop_last`, the longest initial part that gives every rank the same number of full batches. -/
theorem c53_end_to_end (env : SerEnv) (penv : PyEnv) (x : LeafTree) (hx : Like env penv x x)
    (hne : (flatten Leaf.isJpeg x).1 ≠ []) (hk : ∀ l ∈ (flatten Leaf.isJpeg x).1, (leafKind env l).isSome)
    (written : List (List LeafTree)) (hs : ∀ xs ∈ written, ∀ y ∈ xs, Like env penv x y) (hw : written.flatten ≠ []) :
    ∃ (text : String) (spec' : TSpec) (raws : List (List Bytes)),
      treespecDumps penv (flatten Leaf.isJpeg x).2 = .ok text ∧ treespecLoads penv text = .ok spec' ∧ raws.length = written.length ∧
      (∀ (r : Nat) (xs : List LeafTree) (raw : List Bytes), written[r]? = some xs → raws[r]? = some raw →
        ∃ st, writeSamples (builtins env) xs = .ok (raw, st) ∧
          (xs ≠ [] → st.format = some (kindFormats env x) ∧ st.spec = some (flatten Leaf.isJpeg x).2)) ∧
      ∀ (cfg : WriterCfg) (enc : Option Encryption), (∀ e, enc = some e → Encryption.Sound e) →
        ∀ (first : Nat → Nat) (ns nc : Nat → Nat → Nat) (ws : List (List (Bytes × Option Nat))),
        ws.map (fun items => items.map (·.1)) = raws →
        (cfg.chunkSize = 0 ∨ ∀ (r : Nat) (items : List (Bytes × Option Nat)), ws[r]? = some items →
          ∀ y ∈ workerItems enc (ns r) items, y.data ≠ []) →
        (∀ (r : Nat) (items : List (Bytes × Option Nat)), ws[r]? = some items →
          ChunksFit cfg (first r) (workerItems enc (ns r) items)) →
        ∃ dirs : List (CacheDir (List String × String)), dirs.length = ws.length ∧
          (∀ (r : Nat) (items : List (Bytes × Option Nat)) (dd : CacheDir (List String × String)), ws[r]? = some items →
            dirs[r]? = some dd →
            workerDir cfg enc (kindFormats env x, text) (first r) (ns r) (nc r) r items = .ok dd) ∧
          ∀ d : CacheDir (List String × String), d.Perm dirs.flatten →
            ∃ d' chunks ivs, mergeNoWait none none d = (.ok (), d') ∧
              dirGet d' "index.json" = some (.index ⟨chunks, some (kindFormats env x, text)⟩) ∧
              generateIntervals none 0 0 chunks = .ok ivs ∧
              (∀ (perm : Nat → List Nat → List Nat), (∀ e l, (perm e l).Perm l) → ∀ (sh : Shuffler), (∀ a n e k, (sh a n e k).Perm a) →
                ∀ (W nn nw bs epoch : Nat), 0 < W → 0 < nw → 0 < bs → epoch = 1 ∨ nn = 1 →
                ∃ (pieces : List (List Piece)) (outs : List (List LeafTree)),
                  fullShuffleAssign perm ivs W nn false nw bs epoch = .ok pieces ∧ pieces.length = W * nw ∧
                  pieces.map (streamed sh (dirBytes d') id enc chunks ivs (readSample (builtins env) (kindFormats env x) spec') epoch) =
                    outs.map (fun o => .ok (o, true)) ∧ outs.flatten.Perm written.flatten) ∧
              (∀ (dl : Bool) (W nw bs epoch : Nat), 0 < W → 0 < nw → 0 < bs →
                ∃ (pieces : List (List Piece)) (outs : List (List LeafTree)), noShuffleAssign ivs W dl nw bs = .ok pieces ∧
                  pieces.map (streamed noShuffler (dirBytes d') id enc chunks ivs (readSample (builtins env) (kindFormats env x) spec') epoch) =
                    outs.map (fun o => .ok (o, true)) ∧
                  outs.flatten = (inRankOrder written).take
                    (if dl then W * (bs * (written.flatten.length / (bs * W))) else written.flatten.length)) := by
  obtain ⟨text, hd, hl⟩ := treespec_roundtrip penv _ (storable_flatten penv Leaf.isJpeg x hx.storable)
  obtain ⟨raws, hrl, hr⟩ := choose_list (fun _ (xs : List LeafTree) (raw : List Bytes) =>
      ∃ st, writeSamples (builtins env) xs = .ok (raw, st) ∧ raw.length = xs.length ∧
      (xs ≠ [] → st.format = some (kindFormats env x) ∧ st.spec = some (flatten Leaf.isJpeg x).2) ∧
      raw.map (readSample (builtins env) (kindFormats env x) _) = xs.map .ok) written 0 (by
    intro r xs h
    obtain ⟨bytes, st, h1⟩ := worker_samples env penv x hne hk xs (hs xs (List.mem_of_getElem? h)) text _ hd hl
    exact ⟨bytes, st, h1⟩)
  refine ⟨text, _, raws, hd, hl, hrl, ?_, ?_⟩
  · intro r xs raw h1 h2
    obtain ⟨st, h3, _, h4, _⟩ := hr r xs raw h1 h2
    exact ⟨st, h3, h4⟩
  · intro cfg enc hsound first ns nc ws hws hpos hfit
    obtain ⟨dirs, h1, h2, h3⟩ := c13_any_workers cfg enc (kindFormats env x, text) first ns nc ws hpos hfit
    have hraw : (raws.map fun raw => raw.map (readSample (builtins env) (kindFormats env x) (flatten Leaf.isJpeg x).2)) =
        written.map fun xs => xs.map Except.ok := by
      apply List.ext_getElem
      · simp [hrl]
      · intro i hi hi'
        simp only [List.length_map] at hi hi'
        simp only [List.getElem_map]
        obtain ⟨_, _, _, _, h⟩ := hr i written[i] raws[i] (List.getElem?_eq_getElem _) (List.getElem?_eq_getElem _)
        exact h
    have hread : ((inRankOrder ws).map (·.1)).map (readSample (builtins env) (kindFormats env x) (flatten Leaf.isJpeg x).2) =
        (inRankOrder written).map .ok := by
      rw [← inRankOrder_map, hws, ← inRankOrder_map, hraw, inRankOrder_map]
    have hlen : ws.flatten.length = written.flatten.length := by
      have := congrArg List.length hread
      simp only [List.length_map] at this
      rw [← (inRankOrder_perm ws).length_eq, this, (inRankOrder_perm written).length_eq]
    have hwo : inRankOrder written ≠ [] := by
      intro e
      apply hw
      have := inRankOrder_perm written
      rw [e] at this
      exact this.nil_eq.symm
    refine ⟨dirs, h1, h2, ?_⟩
    intro d hdp
    obtain ⟨d', chunks, cfg', items, g1, g2, g3, g4, g5⟩ := h3 d hdp
    have hread' : items.flatten.map (readSample (builtins env) (kindFormats env x) (flatten Leaf.isJpeg x).2) = (inRankOrder written).map .ok := by
      rw [g5, hread]
    obtain ⟨ivs, k1, k2⟩ := c53_shuffled enc hsound _ _ _ _ g4 _ _ hread' hwo
    obtain ⟨ivs', k3, k4⟩ := c53_in_order enc hsound _ _ _ _ g4 _ _ hread' hwo
    rw [k1] at k3
    injection k3 with k3
    subst k3
    refine ⟨d', chunks, ivs, g1, ?_, k1, ?_, ?_⟩
    · rw [g2, g3]
      intro e
      rw [e, List.length_nil] at hlen
      exact hw (List.length_eq_zero_iff.1 hlen.symm)
    · intro perm hperm sh hsh W nn nw bs epoch a b c e
      obtain ⟨pieces, outs, p1, p2, p3, p4⟩ := k2 perm hperm sh hsh W nn nw bs epoch a b c e
      exact ⟨pieces, outs, p1, p2, p3, p4.trans (inRankOrder_perm written)⟩
    · intro dl W nw bs epoch a b c
      obtain ⟨pieces, outs, p1, p2, p3⟩ := k4 dl W nw bs epoch a b c
      rw [(inRankOrder_perm written).length_eq] at p3
      exact ⟨pieces, outs, p1, p2, p3⟩

/-- **C53, resuming.** A worker that is resumed after `n` samples of its rank, short of its end, yields exactly the samples, as objects,
that an uninterrupted pass would still have yielded. -/
theorem c53_resumed {α : Type} (enc : Option Encryption) (hsound : ∀ e, enc = some e → Encryption.Sound e)
    (fs : String → Option Bytes) (join : String → String) (chunks : List ChunkInfo) (items : List (List Bytes))
    (hs : Stored enc fs join chunks items) (read : Bytes → Py α) (ys : List α) (hr : items.flatten.map read = ys.map .ok) (hne : ys ≠ []) :
    ∃ ivs, generateIntervals none 0 0 chunks = .ok ivs ∧
      ∀ (perm : Nat → List Nat → List Nat), (∀ e l, (perm e l).Perm l) → ∀ (sh : Shuffler), (∀ a n e k, (sh a n e k).Perm a) →
      ∀ (W nn nw bs epoch : Nat), 0 < W → 0 < nw → 0 < bs → epoch = 1 ∨ nn = 1 →
        ∃ ws, fullShuffleAssign perm ivs W nn false nw bs epoch = .ok ws ∧
          ∀ (r i n : Nat) (ps : List Piece), i < nw → ws[r * nw + i]? = some ps →
            bs * visits (n / bs) nw i + (if i = n / bs % nw then n % bs else 0) < (samples ps).length →
            ∃ s out, resumeState sh ws r nw i n bs nw epoch = .ok s ∧ streamed sh fs join enc chunks ivs read epoch ps = .ok (out, true) ∧
              streamWorker sh fs join enc (enc.map Encryption.config) chunks ivs read ((samples ps).length + 1) s PyTreeState.init =
                .ok (out.drop (bs * visits (n / bs) nw i + (if i = n / bs % nw then n % bs else 0)), true) := by
  obtain ⟨y0, hy0⟩ := List.exists_mem_of_ne_nil ys hne
  obtain ⟨ivs, h1, v, h2, h4, h3⟩ := streamed_values y0 enc hsound fs join chunks items hs read ys hr
  refine ⟨ivs, h1, ?_⟩
  intro perm hperm sh hsh W nn nw bs epoch hW hnw hbs hone
  obtain ⟨ws, k1, k2, k3⟩ := c04_shuffle_is_permutation perm hperm ivs W nn nw bs epoch hW hnw hbs hone
  obtain ⟨idx, out, ha⟩ := fullShuffle_associate perm hperm ivs W nn false nw bs epoch hone ws k1
  refine ⟨ws, k1, ?_⟩
  intro r i n ps hi hps hleft
  have hmem := List.mem_of_getElem? hps
  have hsub : ∀ x ∈ samples ps, x ∈ datasetSamples (List.range ivs.length) ivs :=
    fun x hx => k3.mem_iff.1 (List.mem_flatMap.2 ⟨ps, hmem, hx⟩)
  obtain ⟨s, a1, xs, s', a2, _, a3⟩ := c06_worker_continues_partial sh hsh W idx out false nw bs hbs ws ha r i hi ps hps n epoch hleft
  obtain ⟨zs, t', b1, b2, b3, _⟩ := c05_one_pass sh hsh W idx out false nw bs ws ha ps hmem epoch
  have hd : deliveredBy sh ps epoch = zs.map fun c => (c.chunkIndex, c.index) := by
    unfold deliveredBy
    rw [b1 _ (Nat.lt_succ_self _)]
  rw [← b2] at a3
  refine ⟨s, _, a1, (h3 sh hsh W idx out false nw bs ws ha ps hmem hsub epoch).1, ?_⟩
  rw [h4 sh _ s s' xs true a2, hd, ← List.map_drop, ← a3, List.map_map]
  · rfl
  · intro c hc
    apply hsub
    rw [← b3.mem_iff]
    apply List.mem_of_mem_drop
    rw [← a3]
    exact List.mem_map_of_mem (f := fun c => (c.chunkIndex, c.index)) hc

/-- Two ranks of two workers each stream the example dataset of three items without shuffling, with batches of one. -/
example : (associate 2 [0, 1] [⟨0, 0, 2, 2⟩, ⟨2, 2, 3, 3⟩] false 2 1).toOption.map (fun ws =>
      ws.map (streamed noShuffler storedFiles id none storedChunks [⟨0, 0, 2, 2⟩, ⟨2, 2, 3, 3⟩] (fun b => .ok b.length) 1)) =
    some [.ok ([2], true), .ok ([], true), .ok ([1], true), .ok ([3], true)] := by decide +kernel

/-- The items of the example dataset deserialize: the hypotheses of `c53_shuffled` are met. -/
example : ∃ ivs, generateIntervals none 0 0 storedChunks = .ok ivs ∧
    ∃ (ws : List (List Piece)) (outs : List (List Nat)),
      fullShuffleAssign (fun _ l => l.reverse) ivs 2 1 false 1 1 5 = .ok ws ∧ outs.flatten.Perm (storedItems.flatten.map List.length) := by
  obtain ⟨ivs, h1, h2⟩ := c53_shuffled none (by simp) storedFiles id storedChunks storedItems storedExample
    (fun b => .ok b.length) (storedItems.flatten.map List.length) (by rw [List.map_map]; rfl) (by decide)
  obtain ⟨ws, outs, h3, _, _, h4⟩ := h2 (fun _ l => l.reverse) (fun _ l => l.reverse_perm) (fun l _ _ _ => l.reverse)
    (fun l _ _ _ => l.reverse_perm) 2 1 1 1 5 (by decide) (by decide) (by decide) (Or.inr rfl)
  exact ⟨ivs, h1, ws, outs, h3, h4⟩

end LitData.Props
