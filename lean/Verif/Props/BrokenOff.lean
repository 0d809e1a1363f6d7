import Verif.Props.Prepare
import Verif.Model.BrokenOff

/-! C92: what a pass that is broken off leaves in the cache. -/

namespace LitData.Props
open LitData

/-- One pass from counters `count0` and chunks `here0` on. -/
inductive LockPass (cfg : PrepCfg) (ahead : Bool) (count0 : Nat → Nat) (here0 : Nat → Bool) : LockState → Prop
  | init : LockPass cfg ahead count0 here0 (.begin count0 here0)
  | step {s t : LockState} : LockPass cfg ahead count0 here0 s → LockStep cfg ahead s t → LockPass cfg ahead count0 here0 t

structure LockInv (cfg : PrepCfg) (ahead : Bool) (count0 : Nat → Nat) (s : LockState) : Prop where
  prep : PrepInv cfg s.p
  all : s.p.pc = .last ∨ s.p.pc = .exited → s.p.downloaded = s.p.requested
  low : ∀ c, count0 c + s.p.downloaded.count c ≤ s.count c + s.p.consumed.count c
  exact_ : ahead = false → ∀ c, s.count c + s.p.consumed.count c = count0 c + s.p.downloaded.count c
  behind : ahead = false → s.p.cur ≤ s.p.downloaded.length ∧ s.p.forced = [] ∧ s.p.forceQ = []
  gone : ahead = false → s.p.requested.Nodup → (∀ c, count0 c = 0) → ∀ c ∈ s.p.deleted, s.here c = false

/-- What was given up was fetched before. -/
theorem consumed_prefix {cfg : PrepCfg} {s : PrepState} (h : PrepInv cfg s) (hc : s.cur ≤ s.downloaded.length) : s.consumed <+: s.downloaded := by
  obtain ⟨r, a, _⟩ := h.fetch
  cases hs : s.stopped with
  | true =>
    obtain ⟨e1, e2⟩ := h.ended hs
    have : r = [] := by
      have := congrArg List.length a
      rw [List.length_append] at this
      exact List.length_eq_zero_iff.1 (by omega)
    rw [e1, a, this, List.append_nil]
    exact List.prefix_refl _
  | false =>
    rw [h.reader hs, a, List.take_append_of_le_length (by omega)]
    exact List.take_prefix _ _

theorem prefix_count {α : Type} [BEq α] {l m : List α} (h : l <+: m) (x : α) : l.count x ≤ m.count x := h.sublist.count_le x

theorem lockInv_step {cfg : PrepCfg} {ahead : Bool} {count0 : Nat → Nat} {s t : LockState} (h : LockInv cfg ahead count0 s) (hst : LockStep cfg ahead s t) :
    LockInv cfg ahead count0 t := by
  cases hst with
  | thread p h1 =>
    have hp := pinv_tstep h.prep h1
    -- what is given to `_apply_delete` was consumed before
    have hdel : ahead = false → s.p.requested.Nodup → (∀ c, count0 c = 0) → ∀ c ∈ p.deleted, c ∈ p.consumed → s.p.consumed = p.consumed → s.count c = 0 := by
      intro ha hnd h0 c _ hc hcc
      have e := h.exact_ ha c
      rw [h0 c] at e
      obtain ⟨r, a, _⟩ := h.prep.fetch
      have hdn : s.p.downloaded.count c ≤ 1 := by
        have := List.nodup_iff_count.1 hnd c
        rw [a, List.count_append] at this
        omega
      have : 0 < s.p.consumed.count c := List.count_pos_iff.2 (hcc ▸ hc)
      omega
    have hconsumed : s.p.consumed = p.consumed ∧ s.p.requested = p.requested ∧ s.p.cur = p.cur := by cases h1 <;> exact ⟨rfl, rfl, rfl⟩
    have hgone : ∀ c, c ∈ p.deleted → c ∈ p.consumed := by
      intro c hc
      rw [hp.fifo]
      simp [hc]
    have hnew : ∃ new, p.downloaded = s.p.downloaded ++ new := by cases h1 <;> first | exact ⟨[], (List.append_nil _).symm⟩ | exact ⟨_, rfl⟩
    obtain ⟨new, hnew⟩ := hnew
    have hcounted : countedIn s.p p = new := by
      unfold countedIn
      rw [hnew, List.drop_left]
    refine ⟨hp, ?_, ?_, ?_, ?_, ?_⟩
    · intro hpc
      cases h1 with
      | fetchEnd rest hp' hc hq =>
        obtain ⟨r, a, b⟩ := h.prep.fetch
        have hb := b (by simp [hp']) (by simp [hp'])
        rw [hq] at hb
        cases r with
        | nil => rw [a]; simp
        | cons x r => simp at hb
      | lastNone hp' _ => exact h.all (.inl hp')
      | lastSome _ _ _ hp' _ _ => exact h.all (.inl hp')
      | _ => simp [cleanUp] at hpc
    · intro c
      have := h.low c
      simp only [hcounted, hnew, List.count_append]
      rw [← hconsumed.1]
      omega
    · intro ha c
      have := h.exact_ ha c
      simp only [hcounted, hnew, List.count_append]
      rw [← hconsumed.1]
      omega
    · intro ha
      obtain ⟨b1, b2, b3⟩ := h.behind ha
      refine ⟨?_, ?_⟩
      · simp only [hnew, List.length_append]
        rw [← hconsumed.2.2]
        omega
      · cases h1 with
        | forceSome c rest _ hf => rw [b3] at hf; cases hf
        | _ => exact ⟨b2, b3⟩
    · intro ha hnd h0 c hc
      rw [← hconsumed.2.1] at hnd
      have hz := hdel ha hnd h0 c hc (hgone c hc) hconsumed.1
      simp only [Bool.and_eq_false_iff, Bool.or_eq_false_iff, Bool.not_eq_false']
      by_cases hd : (deletedIn s.p p).contains c = true
      · right
        rw [hd, hz]
        rfl
      · left
        -- it was deleted before and is not fetched again
        have hold : c ∈ s.p.deleted := by
          have hdd : ∃ nd, p.deleted = s.p.deleted ++ nd := by cases h1 <;> first | exact ⟨[], (List.append_nil _).symm⟩ | exact ⟨_, rfl⟩
          obtain ⟨nd, hdd⟩ := hdd
          unfold deletedIn at hd
          rw [hdd, List.drop_left] at hd
          rw [hdd] at hc
          rcases List.mem_append.1 hc with e | e
          · exact e
          · simp [e] at hd
        refine ⟨h.gone ha hnd h0 c hold, ?_⟩
        obtain ⟨b1, b2, b3⟩ := h.behind ha
        have hcd : c ∈ s.p.downloaded := (consumed_prefix h.prep b1).subset (hconsumed.1 ▸ hgone c hc)
        have hnot : c ∉ new := by
          intro hn
          obtain ⟨r, a, _⟩ := hp.fetch
          have := List.nodup_iff_count.1 hnd c
          rw [hconsumed.2.1, a, hnew, List.count_append, List.count_append] at this
          have h1 := List.count_pos_iff.2 hcd
          have h2 := List.count_pos_iff.2 hn
          omega
        have hforced : p.forced = s.p.forced := by
          cases h1 with
          | forceSome _ _ _ hf => rw [b3] at hf; cases hf
          | _ => rfl
        have hfi : fetchedIn s.p p = new := by
          unfold fetchedIn
          rw [hforced, List.drop_length, List.append_nil]
          exact hcounted
        rw [hfi]
        simpa using hnot
  | reader p w hw hahead h1 =>
    have hp0 : PrepInv { cfg with warm := w } s.p := ⟨h.prep.fetch, h.prep.halted, h.prep.fifo, h.prep.counter, h.prep.bound, h.prep.reader, h.prep.ended, h.prep.have_⟩
    have hp1 := pinv_mstep hp0 h1
    have hp : PrepInv cfg p := ⟨hp1.fetch, hp1.halted, hp1.fifo, hp1.counter, hp1.bound, hp1.reader, hp1.ended, hp1.have_⟩
    have hsame : p.downloaded = s.p.downloaded ∧ p.deleted = s.p.deleted ∧ p.forced = s.p.forced ∧ p.pc = s.p.pc := by cases h1 <;> exact ⟨rfl, rfl, rfl, rfl⟩
    have hnew : ∃ new, p.consumed = s.p.consumed ++ new := by cases h1 <;> first | exact ⟨[], (List.append_nil _).symm⟩ | exact ⟨_, rfl⟩
    obtain ⟨new, hnew⟩ := hnew
    have hgiven : givenUpIn s.p p = new := by
      unfold givenUpIn
      rw [hnew, List.drop_left]
    have hcur : ahead = false → p.cur ≤ p.downloaded.length ∧ p.forced = [] ∧ p.forceQ = [] := by
      intro ha
      obtain ⟨b1, b2, b3⟩ := h.behind ha
      obtain ⟨hw0, hq⟩ := hahead ha
      refine ⟨?_, hsame.2.2.1.trans b2, hq.trans b3⟩
      rw [hsame.1]
      subst hw0
      cases h1 with
      | beginFirst c _ _ _ hc =>
        rcases hc with e | e | e
        · exact e
        · rw [b2] at e; cases e
        · cases e
      | beginNext n c q _ _ _ _ hc =>
        rcases hc with e | e | e
        · exact e
        · rw [b2] at e; cases e
        · cases e
      | _ => exact b1
    refine ⟨hp, ?_, ?_, ?_, hcur, ?_⟩
    · intro hpc
      rw [hsame.2.2.2] at hpc
      have e := h.all hpc
      have hst := h.prep.halted hpc
      show p.downloaded = p.requested
      rw [hsame.1, e]
      cases h1 with
      | request c hs => rw [hs] at hst; cases hst
      | _ => rfl
    · intro c
      have := h.low c
      show count0 c + p.downloaded.count c ≤ s.count c - (givenUpIn s.p p).count c + p.consumed.count c
      rw [hgiven, hnew, hsame.1, List.count_append]
      omega
    · intro ha c
      have := h.exact_ ha c
      have hle := prefix_count (consumed_prefix hp (hcur ha).1) c
      show s.count c - (givenUpIn s.p p).count c + p.consumed.count c = count0 c + p.downloaded.count c
      rw [hgiven]
      rw [hnew, hsame.1, List.count_append] at hle
      rw [hnew, hsame.1, List.count_append]
      omega
    · intro ha hnd h0 c hc
      rw [hsame.2.1] at hc
      refine h.gone ha ?_ h0 c hc
      have : s.p.requested <+: p.requested := by cases h1 <;> first | exact List.prefix_refl _ | exact List.prefix_append _ _
      exact List.Sublist.nodup this.sublist hnd

theorem lockInv_pass {cfg : PrepCfg} {ahead : Bool} {count0 : Nat → Nat} {here0 : Nat → Bool} {s : LockState} (h : LockPass cfg ahead count0 here0 s) :
    LockInv cfg ahead count0 s := by
  induction h with
  | init =>
    exact ⟨pinv_reach .init, by simp [LockState.begin, PrepState.init], by simp [LockState.begin, PrepState.init], by simp [LockState.begin, PrepState.init],
      by simp [LockState.begin, PrepState.init], by simp [LockState.begin, PrepState.init]⟩
  | step _ h2 ih => exact lockInv_step ih h2

/-- **C92, what is counted.** At any time of a pass in which the reader reads a chunk only after its thread has counted it, the counter of a chunk is what it was at the
beginning, and one more for each time it was fetched and not given up yet. -/
theorem c92_counts (cfg : PrepCfg) (count0 : Nat → Nat) (here0 : Nat → Bool) (s : LockState) (h : LockPass cfg false count0 here0 s) (c : Nat) :
    s.p.consumed.count c ≤ s.p.downloaded.count c ∧ s.count c = count0 c + (s.p.downloaded.count c - s.p.consumed.count c) := by
  have hi := lockInv_pass h
  have h1 := prefix_count (consumed_prefix hi.prep (hi.behind rfl).1) c
  have h2 := hi.exact_ rfl c
  exact ⟨h1, by omega⟩

/-- **C92, a pass to its end leaves the counters as they were.** -/
theorem c92_whole_pass (cfg : PrepCfg) (count0 : Nat → Nat) (here0 : Nat → Bool) (s : LockState) (h : LockPass cfg false count0 here0 s) (hend : s.p.pc = .exited) :
    s.count = count0 := by
  have hi := lockInv_pass h
  funext c
  have h2 := hi.exact_ rfl c
  rw [hi.all (.inr hend), (hi.prep.ended (hi.prep.halted (.inr hend))).1] at h2
  omega

/-- Each state of a run is one of a pass from some counters on. -/
theorem run_pass {cfg : PrepCfg} {ahead broken : Bool} {count0 : Nat → Nat} {here0 : Nat → Bool} {s : LockState}
    (h : LockRun cfg ahead broken (.begin count0 here0) s) : ∃ count1 here1, LockPass cfg ahead count1 here1 s ∧ (broken = false → ahead = false → count1 = count0) := by
  generalize ha : LockState.begin count0 here0 = a at h
  induction h with
  | refl => subst ha; exact ⟨count0, here0, .init, fun _ _ => rfl⟩
  | step _ h2 ih =>
    obtain ⟨c1, e1, hp, hq⟩ := ih
    exact ⟨c1, e1, hp.step h2, hq⟩
  | next _ h2 ih =>
    obtain ⟨c1, e1, hp, hq⟩ := ih
    refine ⟨_, _, .init, fun hb hah => ?_⟩
    rcases h2 with h2 | ⟨h2, _⟩
    · rw [← hq hb hah]
      subst hah
      exact c92_whole_pass cfg c1 e1 _ hp h2
    · rw [hb] at h2; cases h2

/-- **C92, whole passes.** If every pass over an empty cache is read to its end, then whatever is given to `_apply_delete` is removed, in each pass over different chunks,
and when the thread has ended no chunk is counted. -/
theorem c92_whole_passes (cfg : PrepCfg) (s : LockState) (h : LockRun cfg false false (.begin (fun _ => 0) fun _ => false) s) :
    (s.p.requested.Nodup → ∀ c ∈ s.p.deleted, s.here c = false) ∧ (s.p.pc = .exited → ∀ c, s.count c = 0) := by
  obtain ⟨c1, e1, hp, hq⟩ := run_pass h
  have := hq rfl rfl
  subst this
  refine ⟨fun hnd => (lockInv_pass hp).gone rfl hnd fun _ => rfl, fun hend c => ?_⟩
  rw [c92_whole_pass cfg _ _ s hp hend]

/-- **C92, what a broken pass leaves.** A pass is broken off while the reader is in a chunk: this chunk and all that were fetched ahead stay counted. -/
theorem c92_broken_leaves (cfg : PrepCfg) (count0 : Nat → Nat) (here0 : Nat → Bool) (s : LockState) (h : LockPass cfg false count0 here0 s) (hrun : s.p.stopped = false)
    (hnd : s.p.requested.Nodup) (c : Nat) (hc : c ∈ s.p.downloaded.drop (s.p.cur - 1)) : s.count c = count0 c + 1 := by
  have hi := lockInv_pass h
  obtain ⟨h1, h2⟩ := c92_counts cfg count0 here0 s h c
  obtain ⟨r, a, _⟩ := hi.prep.fetch
  have hb := (hi.behind rfl).1
  have hcons := hi.prep.reader hrun
  rw [a, List.take_append_of_le_length (by omega)] at hcons
  have hdn : s.p.downloaded.count c ≤ 1 := by
    have := List.nodup_iff_count.1 hnd c
    rw [a, List.count_append] at this
    omega
  have hsplit := congrArg (List.count c) (List.take_append_drop (s.p.cur - 1) s.p.downloaded)
  rw [List.count_append, ← hcons] at hsplit
  have := List.count_pos_iff.2 hc
  omega

/-- A chunk that is counted more often than it is asked for is not removed. -/
theorem here_step {cfg : PrepCfg} {ahead : Bool} {s t : LockState} (hst : LockStep cfg ahead s t) (c : Nat) (hc : s.here c = true) (hn : 0 < s.count c) : t.here c = true := by
  cases hst with
  | thread p h1 =>
    have : (s.count c == 0) = false := by simp; omega
    simp [hc, this]
  | reader p w hw hahead h1 => exact hc

/-- **C92, a counted chunk is for ever.** If a pass begins when a chunk is in the cache and counted, by a pass that was broken off before, then no pass that follows
removes it, whether it is read to its end or broken off, and it stays counted. -/
theorem c92_stays (cfg : PrepCfg) (count0 : Nat → Nat) (here0 : Nat → Bool) (c : Nat) (hc : here0 c = true) (hn : 0 < count0 c) (s : LockState)
    (h : LockRun cfg false true (.begin count0 here0) s) : s.here c = true ∧ count0 c ≤ s.count c := by
  have key : s.here c = true ∧ count0 c ≤ s.count c ∧ ∃ count1 here1, LockPass cfg false count1 here1 s ∧ count0 c ≤ count1 c := by
    generalize ha : LockState.begin count0 here0 = a at h
    induction h with
    | refl => subst ha; exact ⟨hc, Nat.le_refl _, _, _, .init, Nat.le_refl _⟩
    | step _ h2 ih =>
      obtain ⟨i1, i2, c1, e1, hp, i3⟩ := ih
      have := (c92_counts cfg c1 e1 _ (hp.step h2) c).2
      exact ⟨here_step h2 c i1 (by omega), by omega, c1, e1, hp.step h2, i3⟩
    | next _ _ ih =>
      obtain ⟨i1, i2, _⟩ := ih
      exact ⟨i1, i2, _, _, .init, i2⟩
  exact ⟨key.1, key.2.1⟩

theorem lockRun_trans {cfg : PrepCfg} {ahead broken : Bool} {a b c : LockState} (h : LockRun cfg ahead broken a b) (h' : LockRun cfg ahead broken b c) :
    LockRun cfg ahead broken a c := by
  induction h' with
  | refl => exact h
  | step _ h2 ih => exact ih.step h2
  | next _ h2 ih => exact ih.next h2

/-- A pass that is broken off once its thread has fetched a chunk. -/
theorem broken_pass (cfg : PrepCfg) (hpre : 0 < cfg.maxPre) (count0 : Nat → Nat) (here0 : Nat → Bool) (c : Nat) :
    LockRun cfg false true (.begin count0 here0) (.begin (fun d => count0 d + [c].count d) fun d => here0 d || [c].contains d) := by
  have r0 := LockRun.refl (cfg := cfg) (ahead := false) (broken := true) (.begin count0 here0)
  have r1 := r0.step (.reader _ _ [] (by simp) (by intro _; exact ⟨rfl, rfl⟩) (.request _ c rfl))
  have r2 := r1.step (.thread _ _ (.forceNone _ rfl rfl))
  have r3 := r2.step (.thread _ _ (.fetchSome _ c [] rfl (by show (0 : Int) < cfg.maxPre; omega) rfl))
  have r4 : ∃ s, LockRun cfg false true (.begin count0 here0) s ∧ s.p.pc = .force ∧ s.count = (fun d => count0 d + [c].count d) ∧ s.here = fun d => here0 d || [c].contains d := by
    cases hcache : cfg.cache with
    | true =>
      refine ⟨_, r3.step (.thread _ _ (.cleanNone _ rfl hcache rfl)), rfl, ?_, ?_⟩
      · funext d
        simp [LockState.begin, countedIn, givenUpIn, PrepState.init]
      · funext d
        simp [LockState.begin, fetchedIn, deletedIn, PrepState.init]
    | false =>
      refine ⟨_, r3.step (.thread _ _ (.noLimit _ rfl hcache)), rfl, ?_, ?_⟩
      · funext d
        simp [LockState.begin, countedIn, givenUpIn, PrepState.init]
      · funext d
        simp [LockState.begin, fetchedIn, deletedIn, PrepState.init]
  obtain ⟨s, hs, h1, h2, h3⟩ := r4
  have := hs.next (.inr ⟨rfl, h1⟩)
  rw [h2, h3] at this
  exact this

/-- **C92, the limit is lost.** Whatever the settings, as many passes as there are chunks, each broken off early, bring all chunks into the cache, and then no pass, whole or
broken off, removes any of them, whatever the limit is. -/
theorem c92_limit_lost (cfg : PrepCfg) (hpre : 0 < cfg.maxPre) (n : Nat) : ∃ count here, LockRun cfg false true (.begin (fun _ => 0) fun _ => false) (.begin count here) ∧
    ∀ s, LockRun cfg false true (.begin count here) s → ∀ c < n, s.here c = true := by
  have key : ∃ count here, LockRun cfg false true (.begin (fun _ => 0) fun _ => false) (.begin count here) ∧ ∀ c < n, here c = true ∧ 0 < count c := by
    induction n with
    | zero => exact ⟨_, _, .refl _, by intro c hc; omega⟩
    | succ n ih =>
      obtain ⟨count, here, h1, h2⟩ := ih
      refine ⟨_, _, lockRun_trans h1 (broken_pass cfg hpre count here n), ?_⟩
      intro c hc
      by_cases e : c = n
      · subst e; simp
      · obtain ⟨a, b⟩ := h2 c (by omega)
        exact ⟨by simp [a], by omega⟩
  obtain ⟨count, here, h1, h2⟩ := key
  exact ⟨count, here, h1, fun s hs c hc => (c92_stays cfg count here c (h2 c hc).1 (h2 c hc).2 s hs).1⟩

/-- **C92, with a reader that is ahead.** Two passes over one chunk, both read to their ends. In the second one the chunk is in the cache, and the reader is through with it
before its thread has counted it: the chunk stays counted, and no later pass in which the reader is not ahead removes it. -/
theorem c92_ahead_leaves : ∃ s, LockRun ⟨3, true, true, [], []⟩ true false (.begin (fun _ => 0) fun _ => false) s ∧ s.p.pc = .exited ∧ s.count 0 = 1 ∧ s.here 0 = true := by
  have r := LockRun.refl (cfg := ⟨3, true, true, [], []⟩) (ahead := true) (broken := false) (.begin (fun _ => 0) fun _ => false)
  have r := r.step (.reader _ _ [] (by simp) (by simp) (.request _ 0 rfl))
  have r := r.step (.thread _ _ (.forceNone _ rfl rfl))
  have r := r.step (.thread _ _ (.fetchSome _ 0 [] rfl (by decide) rfl))
  have r := r.step (.reader _ _ [] (by simp) (by simp) (.beginFirst _ 0 rfl rfl rfl (.inl (by decide))))
  have r := r.step (.reader _ _ [] (by simp) (by simp) (.stop _ 0 rfl rfl (by decide) rfl))
  have r := r.step (.thread _ _ (.cleanSome _ 0 [] 0 rfl rfl rfl (by unfold cleans; decide)))
  have r := r.step (.thread _ _ (.forceNone _ rfl rfl))
  have r := r.step (.thread _ _ (.fetchEnd _ [] rfl (by decide) rfl))
  have r := r.step (.thread _ _ (.lastNone _ rfl rfl))
  have r := r.next (.inl rfl)
  have r := r.step (.reader _ _ [] (by simp) (by simp) (.request _ 0 rfl))
  have r := r.step (.reader _ _ [0] (by decide) (by simp) (.beginFirst _ 0 rfl rfl rfl (.inr (.inr (by decide)))))
  have r := r.step (.reader _ _ [] (by simp) (by simp) (.stop _ 0 rfl rfl (by decide) rfl))
  have r := r.step (.thread _ _ (.forceNone _ rfl rfl))
  have r := r.step (.thread _ _ (.fetchSome _ 0 [none] rfl (by decide) rfl))
  have r := r.step (.thread _ _ (.cleanSome _ 0 [] 0 rfl rfl rfl (by unfold cleans; decide)))
  have r := r.step (.thread _ _ (.forceNone _ rfl rfl))
  have r := r.step (.thread _ _ (.fetchEnd _ [] rfl (by decide) rfl))
  have r := r.step (.thread _ _ (.lastNone _ rfl rfl))
  exact ⟨_, r, rfl, by decide, by decide⟩

/-- The reader is in the first of two chunks and the thread has fetched the second: if it is broken off now, both stay counted. -/
example : ∃ s, LockPass ⟨2, true, true, [], []⟩ false (fun _ => 0) (fun _ => false) s ∧ s.p.stopped = false ∧ s.p.requested.Nodup ∧ s.p.downloaded.drop (s.p.cur - 1) = [0, 1] ∧
    s.count 0 = 1 ∧ s.count 1 = 1 := by
  have r := LockPass.init (cfg := ⟨2, true, true, [], []⟩) (ahead := false) (count0 := fun _ => 0) (here0 := fun _ => false)
  have r := r.step (.reader _ _ [] (by simp) (by intro _; exact ⟨rfl, rfl⟩) (.request _ 0 rfl))
  have r := r.step (.reader _ _ [] (by simp) (by intro _; exact ⟨rfl, rfl⟩) (.request _ 1 rfl))
  have r := r.step (.thread _ _ (.forceNone _ rfl rfl))
  have r := r.step (.thread _ _ (.fetchSome _ 0 [some 1] rfl (by decide) rfl))
  have r := r.step (.reader _ _ [] (by simp) (by intro _; exact ⟨rfl, rfl⟩) (.beginFirst _ 0 rfl rfl rfl (.inl (by decide))))
  have r := r.step (.thread _ _ (.cleanNone _ rfl rfl rfl))
  have r := r.step (.thread _ _ (.forceNone _ rfl rfl))
  have r := r.step (.thread _ _ (.fetchSome _ 1 [] rfl (by decide) rfl))
  exact ⟨_, r, rfl, by decide, rfl, by decide, by decide⟩

/-- A whole pass over one chunk, which is deleted at its end. -/
example : ∃ s, LockRun ⟨2, true, true, [], []⟩ false false (.begin (fun _ => 0) fun _ => false) s ∧ s.p.pc = .exited ∧ s.p.deleted = [0] ∧ s.p.requested = [0] := by
  have r := LockRun.refl (cfg := ⟨2, true, true, [], []⟩) (ahead := false) (broken := false) (.begin (fun _ => 0) fun _ => false)
  have r := r.step (.reader _ _ [] (by simp) (by intro _; exact ⟨rfl, rfl⟩) (.request _ 0 rfl))
  have r := r.step (.thread _ _ (.forceNone _ rfl rfl))
  have r := r.step (.thread _ _ (.fetchSome _ 0 [] rfl (by decide) rfl))
  have r := r.step (.reader _ _ [] (by simp) (by intro _; exact ⟨rfl, rfl⟩) (.beginFirst _ 0 rfl rfl rfl (.inl (by decide))))
  have r := r.step (.reader _ _ [] (by simp) (by intro _; exact ⟨rfl, rfl⟩) (.stop _ 0 rfl rfl (by decide) rfl))
  have r := r.step (.thread _ _ (.cleanSome _ 0 [] 1 rfl rfl rfl (by unfold cleans; decide)))
  have r := r.step (.thread _ _ (.forceNone _ rfl rfl))
  have r := r.step (.thread _ _ (.fetchEnd _ [] rfl (by decide) rfl))
  have r := r.step (.thread _ _ (.lastNone _ rfl rfl))
  exact ⟨_, r, rfl, rfl, rfl⟩

end LitData.Props
