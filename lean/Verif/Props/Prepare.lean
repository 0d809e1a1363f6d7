import Verif.Model.Prepare

/-! C28: fetching and deleting chunks in the background. -/

namespace LitData.Props

open LitData

structure PrepInv (cfg : PrepCfg) (s : PrepState) : Prop where
  fetch : ∃ rest, s.requested = s.downloaded ++ rest ∧ (s.pc ≠ .last → s.pc ≠ .exited → s.queue = rest.map some ++ (if s.stopped then [none] else []))
  halted : s.pc = .last ∨ s.pc = .exited → s.stopped = true
  fifo : s.consumed = s.deleted ++ s.pending ++ s.toDelete
  counter : s.counter = (s.downloaded.length : Int) + s.forced.length - (s.deleted.length + s.pending.length)
  bound : s.downloaded.length ≤ s.deleted.length + s.pending.length + cfg.maxPre
  reader : s.stopped = false → s.consumed = s.requested.take (s.cur - 1)
  ended : s.stopped = true → s.consumed = s.requested ∧ s.cur = s.requested.length
  have_ : s.cur ≤ s.requested.length

theorem pinv_clean {cfg : PrepCfg} {s : PrepState} (h : PrepInv cfg s) {c : Nat} {rest : List Nat} {k : Nat} (hd : s.toDelete = c :: rest) (pc : PrepPc)
    (hk : k ≤ s.pending.length + 1)
    (hpc : s.pc = .clean ∧ pc = .force ∨ s.pc = .last ∧ pc = .exited) : PrepInv cfg (cleanUp s c rest k pc) := by
  obtain ⟨h1, h2, h3, h4, h5, h6, h7, h8⟩ := h
  have e : s.deleted ++ (s.pending ++ [c]).take k ++ (s.pending ++ [c]).drop k ++ rest = s.deleted ++ s.pending ++ s.toDelete := by
    rw [hd, List.append_assoc s.deleted, List.take_append_drop]; simp
  have l1 : ((s.pending ++ [c]).take k).length = k := by rw [List.length_take, List.length_append]; simp; omega
  have l2 : ((s.pending ++ [c]).drop k).length = s.pending.length + 1 - k := by rw [List.length_drop, List.length_append]; simp
  unfold cleanUp
  refine ⟨?_, ?_, ?_, ?_, ?_, h6, h7, h8⟩
  · obtain ⟨r, a, b⟩ := h1
    refine ⟨r, a, ?_⟩
    intro g1 g2
    rcases hpc with ⟨x, y⟩ | ⟨x, y⟩
    · exact b (by simp [x]) (by simp [x])
    · exact absurd y g2
  · intro g
    rcases hpc with ⟨x, y⟩ | ⟨x, y⟩
    · simp [y] at g
    · exact h2 (.inl x)
  · simp only; rw [h3, e]
  · simp only [List.length_append, l1, l2]; omega
  · simp only [List.length_append, l1, l2]; omega

theorem cleans_le {cfg : PrepCfg} {s : PrepState} {n k : Nat} (h : cleans cfg s n k) : k ≤ n := by
  unfold cleans at h
  split at h
  · split at h <;> omega
  · exact h

theorem pinv_tstep {cfg : PrepCfg} {s t : PrepState} (h : PrepInv cfg s) (hst : TStep cfg s t) : PrepInv cfg t := by
  obtain ⟨h1, h2, h3, h4, h5, h6, h7, h8⟩ := id h
  obtain ⟨r, a, b⟩ := h1
  cases hst with
  | forceNone hp hf =>
    exact ⟨⟨r, a, fun _ _ => b (by simp [hp]) (by simp [hp])⟩, by simp, h3, h4, h5, h6, h7, h8⟩
  | forceSome c rest hp hf =>
    refine ⟨⟨r, a, fun _ _ => b (by simp [hp]) (by simp [hp])⟩, by simp, h3, ?_, h5, h6, h7, h8⟩
    simp only [List.length_append, List.length_cons, List.length_nil]; omega
  | full hp hc => exact ⟨⟨r, a, fun _ _ => b (by simp [hp]) (by simp [hp])⟩, by simp, h3, h4, h5, h6, h7, h8⟩
  | fetchNone hp hc hq => exact ⟨⟨r, a, fun _ _ => b (by simp [hp]) (by simp [hp])⟩, by simp, h3, h4, h5, h6, h7, h8⟩
  | fetchSome c rest hp hc hq =>
    have hb := b (by simp [hp]) (by simp [hp])
    rw [hq] at hb
    cases r with
    | nil => split at hb <;> simp at hb
    | cons x r =>
      simp only [List.map_cons, List.cons_append, List.cons.injEq, Option.some.injEq] at hb
      obtain ⟨rfl, hb⟩ := hb
      refine ⟨⟨r, by rw [a]; simp, fun _ _ => hb⟩, by simp, h3, ?_, ?_, h6, h7, h8⟩
      · simp only [List.length_append, List.length_cons, List.length_nil]; omega
      · simp only [List.length_append, List.length_cons, List.length_nil]; omega
  | fetchEnd rest hp hc hq =>
    have hb := b (by simp [hp]) (by simp [hp])
    rw [hq] at hb
    have hs : s.stopped = true := by
      cases hs : s.stopped with
      | true => rfl
      | false => rw [hs] at hb; cases r <;> simp at hb
    refine ⟨⟨r, a, fun g1 g2 => ?_⟩, fun _ => hs, h3, h4, h5, h6, h7, h8⟩
    simp only at g1 g2
    split at g1
    · exact absurd rfl g1
    · simp_all
  | noLimit hp hc => exact ⟨⟨r, a, fun _ _ => b (by simp [hp]) (by simp [hp])⟩, by simp, h3, h4, h5, h6, h7, h8⟩
  | cleanNone hp hc hd => exact ⟨⟨r, a, fun _ _ => b (by simp [hp]) (by simp [hp])⟩, by simp, h3, h4, h5, h6, h7, h8⟩
  | cleanSome c rest k hp hc hd hk => exact pinv_clean h hd _ (cleans_le hk) (.inl ⟨hp, rfl⟩)
  | lastNone hp hd => exact ⟨⟨r, a, fun _ g => absurd rfl g⟩, fun _ => h2 (.inl hp), h3, h4, h5, h6, h7, h8⟩
  | lastSome c rest k hp hd hk => exact pinv_clean h hd _ (cleans_le hk) (.inr ⟨hp, rfl⟩)

theorem pinv_mstep {cfg : PrepCfg} {s t : PrepState} (h : PrepInv cfg s) (hst : MStep cfg s t) : PrepInv cfg t := by
  obtain ⟨h1, h2, h3, h4, h5, h6, h7, h8⟩ := id h
  obtain ⟨r, a, b⟩ := h1
  cases hst with
  | request c hs =>
    refine ⟨⟨r ++ [c], by rw [a]; simp, fun g1 g2 => ?_⟩, h2, h3, h4, h5, ?_, ?_, ?_⟩
    · have := b g1 g2
      rw [hs] at this
      simp only [Bool.false_eq_true, if_false, List.append_nil] at this
      rw [hs, this]
      simp
    · intro _
      rw [List.take_append_of_le_length (by simp only; omega)]
      exact h6 hs
    · intro g; rw [hs] at g; cases g
    · simp only [List.length_append]; omega
  | beginFirst c hs hc hr ha =>
    have hl : 0 < s.requested.length := by
      rw [List.getElem?_eq_some_iff] at hr; exact hr.1
    exact ⟨⟨r, a, b⟩, h2, h3, h4, h5, fun _ => by have := h6 hs; rw [hc] at this; exact this, fun g => (by rw [hs] at g; cases g), hl⟩
  | beginNext n c p hs hc hr hp ha =>
    have hl : n + 1 < s.requested.length := by
      rw [List.getElem?_eq_some_iff] at hr; exact hr.1
    refine ⟨⟨r, a, b⟩, h2, by simp only; rw [h3]; simp, h4, h5, fun _ => ?_, fun g => (by rw [hs] at g; cases g), hl⟩
    have := h6 hs
    rw [hc] at this
    simp only [Nat.add_sub_cancel] at this
    rw [List.getElem?_eq_some_iff] at hp
    obtain ⟨q, hp⟩ := hp
    simp only [show n + 2 - 1 = n + 1 by omega]
    rw [List.take_succ_eq_append_getElem q, this, hp]
  | ask c hs hr => exact ⟨⟨r, a, b⟩, h2, h3, h4, h5, h6, h7, h8⟩
  | stop c hs hr h0 hc =>
    refine ⟨⟨r, a, fun g1 g2 => ?_⟩, fun _ => rfl, by simp only; rw [h3]; simp, h4, h5, (fun g => by cases g), fun _ => ⟨?_, hc⟩, h8⟩
    · have := b g1 g2
      rw [hs] at this
      simp only [Bool.false_eq_true, if_false, List.append_nil] at this
      simp [this]
    · simp only
      rw [h6 hs]
      rw [List.getElem?_eq_some_iff] at hr
      obtain ⟨q, hr⟩ := hr
      rw [← hr, ← List.take_succ_eq_append_getElem q]
      exact List.take_of_length_le (by omega)

theorem pinv_reach {cfg : PrepCfg} {s : PrepState} (h : PrepReach cfg s) : PrepInv cfg s := by
  induction h with
  | init => exact ⟨⟨[], rfl, fun _ _ => rfl⟩, by simp [PrepState.init], rfl, rfl, by simp [PrepState.init], fun _ => rfl, fun g => (by cases g), by simp [PrepState.init]⟩
  | step _ h2 ih =>
    rcases h2 with h2 | h2
    · exact pinv_tstep ih h2
    · exact pinv_mstep ih h2

/-- **C28, order.** Chunks are fetched in the order requested, and deleted in the order in which the reader gave them up, which is
the same. -/
theorem c28_order (cfg : PrepCfg) (s : PrepState) (h : PrepReach cfg s) : s.downloaded <+: s.requested ∧ s.deleted <+: s.consumed ∧ s.consumed <+: s.requested := by
  have hi := pinv_reach h
  obtain ⟨r, a, _⟩ := hi.fetch
  refine ⟨⟨r, a.symm⟩, ⟨s.pending ++ s.toDelete, by rw [hi.fifo, List.append_assoc]⟩, ?_⟩
  cases hs : s.stopped with
  | false => rw [hi.reader hs]; exact List.take_prefix _ _
  | true => rw [(hi.ended hs).1]; exact List.prefix_refl _

/-- **C28, bound.** Apart from forced downloads, the thread is never more than `max_pre_download` chunks ahead of those the reader
has given up. -/
theorem c28_bound (cfg : PrepCfg) (s : PrepState) (h : PrepReach cfg s) : s.downloaded.length ≤ s.consumed.length + cfg.maxPre := by
  have hi := pinv_reach h
  have := hi.bound
  rw [hi.fifo]
  simp only [List.length_append]
  omega

/-- **The thread never blocks** before it has ended. -/
theorem c28_never_stuck (cfg : PrepCfg) (s : PrepState) (h : s.pc ≠ .exited) : ∃ t, TStep cfg s t := by
  have hcl : ∃ k, cleans cfg s (s.pending.length + 1) k := by
    unfold cleans
    split
    · exact ⟨_, rfl⟩
    · exact ⟨0, Nat.zero_le _⟩
  obtain ⟨k, hk⟩ := hcl
  cases hp : s.pc with
  | force =>
    cases hf : s.forceQ with
    | nil => exact ⟨_, .forceNone s hp hf⟩
    | cons c rest => exact ⟨_, .forceSome s c rest hp hf⟩
  | fetch =>
    by_cases hc : s.counter < cfg.maxPre
    · cases hq : s.queue with
      | nil => exact ⟨_, .fetchNone s hp hc hq⟩
      | cons x rest =>
        cases x with
        | none => exact ⟨_, .fetchEnd s rest hp hc hq⟩
        | some c => exact ⟨_, .fetchSome s c rest hp hc hq⟩
    · exact ⟨_, .full s hp hc⟩
  | clean =>
    cases hc : cfg.cache with
    | false => exact ⟨_, .noLimit s hp hc⟩
    | true =>
      cases hd : s.toDelete with
      | nil => exact ⟨_, .cleanNone s hp hc hd⟩
      | cons c rest => exact ⟨_, .cleanSome s c rest k hp hc hd hk⟩
  | last =>
    cases hd : s.toDelete with
    | nil => exact ⟨_, .lastNone s hp hd⟩
    | cons c rest => exact ⟨_, .lastSome s c rest k hp hd hk⟩
  | exited => exact absurd hp h

/-- How many more steps the thread needs at most before `target` chunks are fetched. -/
def prepMeasure (target : Nat) (s : PrepState) : Nat :=
  let n := s.toDelete.length
  let r := target - s.downloaded.length
  match s.pc with
  | .force => 3 * (n + r) + 2
  | .fetch => 3 * (n + r) + 1
  | .clean => if n = 0 then 3 * r + 3 else 3 * (n + r)
  | _ => 0

/-- The reader waits for the chunk at position `cur`. -/
structure Waits (cfg : PrepCfg) (s : PrepState) : Prop where
  inv : PrepInv cfg s
  running : s.stopped = false
  wanted : s.cur < s.requested.length
  few : s.forced.length + s.forceQ.length + 2 ≤ cfg.maxPre
  cache : cfg.cache = true

theorem waits_tstep {cfg : PrepCfg} {s t : PrepState} (h : Waits cfg s) (hn : s.downloaded.length ≤ s.cur) (hst : TStep cfg s t) :
    Waits cfg t ∧ t.cur = s.cur ∧ prepMeasure (s.cur + 1) t < prepMeasure (s.cur + 1) s := by
  have hi := pinv_tstep h.inv hst
  have hcons := h.inv.reader h.running
  have hfifo := h.inv.fifo
  have hcnt := h.inv.counter
  obtain ⟨hinv, hrun, hw, hfew, hcache⟩ := id h
  have hlen : s.deleted.length + s.pending.length + s.toDelete.length = s.cur - 1 := by
    have := congrArg List.length hcons
    rw [hfifo, List.length_take] at this
    simp only [List.length_append] at this
    omega
  have hpc : s.pc ≠ .last ∧ s.pc ≠ .exited := by
    constructor <;> intro e
    · have := hinv.halted (.inl e); rw [hrun] at this; cases this
    · have := hinv.halted (.inr e); rw [hrun] at this; cases this
  cases hst with
  | forceNone hp hf => exact ⟨⟨hi, hrun, hw, hfew, hcache⟩, rfl, by simp only [prepMeasure, hp]; omega⟩
  | forceSome c rest hp hf =>
    refine ⟨⟨hi, hrun, hw, ?_, hcache⟩, rfl, by simp only [prepMeasure, hp]; omega⟩
    rw [hf] at hfew
    simp only [List.length_append, List.length_cons, List.length_nil] at hfew ⊢
    omega
  | full hp hc =>
    refine ⟨⟨hi, hrun, hw, hfew, hcache⟩, rfl, ?_⟩
    simp only [prepMeasure, hp]
    split <;> omega
  | fetchNone hp hc hq =>
    obtain ⟨r, a, b⟩ := hinv.fetch
    have := b hpc.1 hpc.2
    rw [hq, hrun] at this
    cases r with
    | nil => rw [a] at hw; simp at hw; omega
    | cons => simp at this
  | fetchSome c rest hp hc hq =>
    refine ⟨⟨hi, hrun, hw, hfew, hcache⟩, rfl, ?_⟩
    simp only [prepMeasure, hp, List.length_append, List.length_cons, List.length_nil]
    split <;> omega
  | fetchEnd rest hp hc hq =>
    obtain ⟨r, a, b⟩ := hinv.fetch
    have := b hpc.1 hpc.2
    rw [hq, hrun] at this
    cases r <;> simp at this
  | noLimit hp hc => rw [hcache] at hc; cases hc
  | cleanNone hp hc hd =>
    refine ⟨⟨hi, hrun, hw, hfew, hcache⟩, rfl, ?_⟩
    simp only [prepMeasure, hp, hd, List.length_nil, if_true]
    omega
  | cleanSome c rest k hp hc hd hk =>
    refine ⟨⟨hi, hrun, hw, hfew, hcache⟩, rfl, ?_⟩
    simp only [prepMeasure, hp, hd, cleanUp, List.length_cons]
    rw [if_neg (by omega)]
    omega
  | lastNone hp hd => exact absurd hp hpc.1
  | lastSome c rest k hp hd hk => exact absurd hp hpc.1

theorem tstep_mono {cfg : PrepCfg} {s t : PrepState} (hst : TStep cfg s t) : s.downloaded.length ≤ t.downloaded.length := by
  cases hst <;> simp [cleanUp]

theorem waits_tsteps {cfg : PrepCfg} {m : Nat} {s t : PrepState} (h : Waits cfg s) (hst : TSteps cfg m s t) :
    s.cur < t.downloaded.length ∨ (Waits cfg t ∧ t.cur = s.cur ∧ prepMeasure (s.cur + 1) t + m ≤ prepMeasure (s.cur + 1) s) := by
  induction hst with
  | refl => exact .inr ⟨h, rfl, by omega⟩
  | tail h1 h2 ih =>
    rcases ih h with g | ⟨g1, g2, g3⟩
    · exact .inl (Nat.lt_of_lt_of_le g (tstep_mono h2))
    · rename_i _ t' _
      by_cases hn : t'.downloaded.length ≤ t'.cur
      · obtain ⟨a, b, c⟩ := waits_tstep g1 hn h2
        rw [g2] at c
        exact .inr ⟨a, by rw [b, g2], by omega⟩
      · left
        have := tstep_mono h2
        omega

/-- **C28, progress.** Whenever the reader waits for a requested chunk, at most `3 * (n + r) + 3` steps of the thread fetch it, where
`n` is the number of chunks given up that the thread has not yet noticed and `r` the number of chunks to fetch. This needs a
limit on the cache, and `max_pre_download` at least two more than the number of forced downloads so far. -/
theorem c28_progress_partial (cfg : PrepCfg) (s t : PrepState) (m : Nat) (h : PrepReach cfg s) (hcache : cfg.cache = true) (hrun : s.stopped = false)
    (hw : s.cur < s.requested.length) (hfew : s.forced.length + s.forceQ.length + 2 ≤ cfg.maxPre) (hst : TSteps cfg m s t)
    (hm : 3 * (s.toDelete.length + (s.cur + 1 - s.downloaded.length)) + 3 < m) : s.cur < t.downloaded.length := by
  rcases waits_tsteps ⟨pinv_reach h, hrun, hw, hfew, hcache⟩ hst with g | ⟨_, _, g⟩
  · exact g
  · have : prepMeasure (s.cur + 1) s ≤ 3 * (s.toDelete.length + (s.cur + 1 - s.downloaded.length)) + 3 := by
      simp only [prepMeasure]
      cases s.pc <;> simp only <;> (try split) <;> omega
    omega

/-- A thread that does nothing: the counter is at its limit, and the queues it looks at are empty. -/
structure Stalled (cfg : PrepCfg) (s : PrepState) : Prop where
  counter : ¬ s.counter < cfg.maxPre
  del : cfg.cache = true → s.toDelete = []
  force : s.forceQ = []
  pc : s.pc ≠ .last ∧ s.pc ≠ .exited

theorem stalled_tsteps {cfg : PrepCfg} {m : Nat} {s t : PrepState} (h : Stalled cfg s) (hst : TSteps cfg m s t) : Stalled cfg t ∧ t.downloaded = s.downloaded ∧ t.forced = s.forced := by
  induction hst with
  | refl => exact ⟨h, rfl, rfl⟩
  | tail h1 h2 ih =>
    obtain ⟨⟨a, b, c, d⟩, e, f⟩ := ih h
    cases h2 with
    | forceNone hp hf => exact ⟨⟨a, b, c, by simp⟩, e, f⟩
    | forceSome _ _ hp hf => rw [c] at hf; cases hf
    | full hp hc => exact ⟨⟨a, b, c, by simp⟩, e, f⟩
    | fetchNone hp hc => exact absurd hc a
    | fetchSome _ _ hp hc => exact absurd hc a
    | fetchEnd _ hp hc => exact absurd hc a
    | noLimit hp hc => exact ⟨⟨a, b, c, by simp⟩, e, f⟩
    | cleanNone hp hc hd => exact ⟨⟨a, b, c, by simp⟩, e, f⟩
    | cleanSome _ _ _ hp hc hd => rw [b hc] at hd; cases hd
    | lastNone hp => exact absurd hp d.1
    | lastSome _ _ _ hp => exact absurd hp d.1

/-- **C28 fails for `max_pre_download = 1`.** The first chunk counts as one ahead until the second is read, so the second is never
fetched unless the reader asks for it, after 30 seconds. -/
theorem c28_one_ahead : ∃ s, PrepReach ⟨1, true, true, [], []⟩ s ∧ s.cur < s.requested.length ∧ ∀ m t, TSteps ⟨1, true, true, [], []⟩ m s t → ¬ s.cur < t.downloaded.length := by
  have h := PrepReach.init (cfg := ⟨1, true, true, [], []⟩)
  have h := h.step (.inr (.request _ 10 rfl))
  have h := h.step (.inr (.request _ 11 rfl))
  have h := h.step (.inl (.forceNone _ rfl rfl))
  have h := h.step (.inl (.fetchSome _ 10 [some 11] rfl (by decide) rfl))
  have h := h.step (.inr (.beginFirst _ 10 rfl rfl rfl (.inl (by decide))))
  have h : PrepReach ⟨1, true, true, [], []⟩ ⟨[10, 11], [some 11], [10], [], [], 1, [], [], [], [], 1, false, .clean⟩ := h
  refine ⟨_, h, by decide, fun m t hst => ?_⟩
  have := (stalled_tsteps ⟨by decide, fun _ => rfl, rfl, by decide⟩ hst).2.1
  rw [this]
  decide

/-- **C28 fails without a limit on the cache.** The counter is never lowered: after `max_pre_download` chunks nothing is fetched unless the
reader asks for it. -/
theorem c28_no_limit : ∃ s, PrepReach ⟨2, false, false, [], []⟩ s ∧ s.cur < s.requested.length ∧ ∀ m t, TSteps ⟨2, false, false, [], []⟩ m s t → ¬ s.cur < t.downloaded.length := by
  have h := PrepReach.init (cfg := ⟨2, false, false, [], []⟩)
  have h := h.step (.inr (.request _ 10 rfl))
  have h := h.step (.inr (.request _ 11 rfl))
  have h := h.step (.inr (.request _ 12 rfl))
  have h := h.step (.inl (.forceNone _ rfl rfl))
  have h := h.step (.inl (.fetchSome _ 10 [some 11, some 12] rfl (by decide) rfl))
  have h := h.step (.inl (.noLimit _ rfl rfl))
  have h := h.step (.inl (.forceNone _ rfl rfl))
  have h := h.step (.inl (.fetchSome _ 11 [some 12] rfl (by decide) rfl))
  have h := h.step (.inr (.beginFirst _ 10 rfl rfl rfl (.inl (by decide))))
  have h := h.step (.inr (.beginNext _ 0 11 10 rfl rfl rfl rfl (.inl (by decide))))
  have h : PrepReach ⟨2, false, false, [], []⟩ ⟨[10, 11, 12], [some 12], [10, 11], [], [], 2, [10], [], [], [10], 2, false, .clean⟩ := h
  refine ⟨_, h, by decide, fun m t hst => ?_⟩
  have := (stalled_tsteps ⟨by decide, fun e => (by cases e), rfl, by decide⟩ hst).2.1
  rw [this]
  decide

/-- **C28 fails after a forced download.** A chunk fetched by force is counted again when the thread gets to it in its queue, and given up
only once. With `max_pre_download = 2` one forced download is enough: the reader waits for the second chunk, which is never fetched
unless it asks again. -/
theorem c28_forced_stall : ∃ s, PrepReach ⟨2, true, true, [], []⟩ s ∧ s.forced.length = 1 ∧ s.cur < s.requested.length ∧
    ∀ m t, TSteps ⟨2, true, true, [], []⟩ m s t → ¬ s.cur < t.downloaded.length ∧ t.forced = s.forced := by
  have h := PrepReach.init (cfg := ⟨2, true, true, [], []⟩)
  have h := h.step (.inr (.request _ 10 rfl))
  have h := h.step (.inr (.request _ 11 rfl))
  have h := h.step (.inr (.request _ 12 rfl))
  have h := h.step (.inr (.ask _ 10 rfl rfl))
  have h := h.step (.inl (.forceSome _ 10 [] rfl rfl))
  have h := h.step (.inl (.fetchSome _ 10 [some 11, some 12] rfl (by decide) rfl))
  have h := h.step (.inl (.cleanNone _ rfl rfl rfl))
  have h := h.step (.inr (.beginFirst _ 10 rfl rfl rfl (.inl (by decide))))
  have h : PrepReach ⟨2, true, true, [], []⟩ ⟨[10, 11, 12], [some 11, some 12], [10], [], [10], 2, [], [], [], [], 1, false, .force⟩ := h
  refine ⟨_, h, rfl, by decide, fun m t hst => ?_⟩
  have := (stalled_tsteps ⟨by decide, fun _ => rfl, rfl, by decide⟩ hst).2
  rw [this.1]
  exact ⟨by decide, this.2⟩

/-- The hypotheses of `c28_progress_partial` are met by a reader that waits for its second chunk, with the thread just before its test of
the counter. -/
example : ∃ s, PrepReach ⟨2, true, true, [], []⟩ s ∧ s.cur = 1 ∧ s.stopped = false ∧ s.cur < s.requested.length ∧ s.downloaded.length = 1 ∧
    s.forced.length + s.forceQ.length + 2 ≤ 2 := by
  have h := PrepReach.init (cfg := ⟨2, true, true, [], []⟩)
  have h := h.step (.inr (.request _ 10 rfl))
  have h := h.step (.inr (.request _ 11 rfl))
  have h := h.step (.inl (.forceNone _ rfl rfl))
  have h := h.step (.inl (.fetchSome _ 10 [some 11] rfl (by decide) rfl))
  have h := h.step (.inr (.beginFirst _ 10 rfl rfl rfl (.inl (by decide))))
  exact ⟨_, h, rfl, rfl, by decide, rfl, by decide⟩

end LitData.Props
