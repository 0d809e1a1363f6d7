import Verif.Props.Prepare

/-! C28, continued: chunks that are read are there, and when they go. -/

namespace LitData.Props

open LitData

theorem prep_step_mono {cfg : PrepCfg} {s t : PrepState} (h : PrepStep cfg s t) : s.downloaded.length ≤ t.downloaded.length ∧ (∀ c ∈ s.forced, c ∈ t.forced) ∧
    s.requested <+: t.requested ∧ s.forced.length ≤ t.forced.length := by
  rcases h with h | h
  · cases h <;> simp_all [cleanUp] <;> omega
  · cases h <;> simp_all

/-- **C28.** Every chunk the reader has begun to read had been fetched, in its turn or by force, or was found in the cache; and while the reader runs, the chunk
it reads is not deleted: at most the chunks before it are. -/
theorem c28_present (cfg : PrepCfg) (s : PrepState) (h : PrepReach cfg s) :
    (∀ (i c : Nat), i < s.cur → s.requested[i]? = some c → i < s.downloaded.length ∨ c ∈ s.forced ∨ c ∈ cfg.warm) ∧
    (s.stopped = false → s.deleted <+: s.requested.take (s.cur - 1)) := by
  refine ⟨?_, fun hs => ?_⟩
  · induction h with
    | init => intro i c hi; simp [PrepState.init] at hi
    | @step s t hr hst ih =>
      have hinv := pinv_reach hr
      obtain ⟨m1, m2, m3, _⟩ := prep_step_mono hst
      have keep : ∀ i c, i < s.cur → t.requested[i]? = some c → i < t.downloaded.length ∨ c ∈ t.forced ∨ c ∈ cfg.warm := by
        intro i c hi hc
        obtain ⟨r, e⟩ := m3
        rw [← e, List.getElem?_append_left (Nat.lt_of_lt_of_le hi hinv.have_)] at hc
        rcases ih i c hi hc with g | g | g
        · left; omega
        · right; left; exact m2 c g
        · right; right; exact g
      intro i c hi hc
      by_cases hlt : i < s.cur
      · exact keep i c hlt hc
      · rcases hst with hst | hst
        · cases hst <;> first | (simp only [cleanUp] at hi; omega) | omega
        · cases hst with
          | request => exact absurd hi hlt
          | beginFirst c' _ h0 hreq hav =>
            simp only at hi hc ⊢
            have : i = 0 := by omega
            subst this
            rw [hreq] at hc
            obtain rfl := Option.some.inj hc
            exact hav
          | beginNext n c' p _ h0 hreq _ hav =>
            simp only at hi hc ⊢
            have : i = n + 1 := by omega
            subst this
            rw [hreq] at hc
            obtain rfl := Option.some.inj hc
            exact hav
          | ask => exact absurd hi hlt
          | stop => exact absurd hi hlt
  · have hinv := pinv_reach h
    rw [← hinv.reader hs]
    exact (c28_order cfg s h).2.1

theorem nodup_length_le : ∀ {l m : List Nat}, l.Nodup → l ⊆ m → l.length ≤ m.length
  | [], _, _, _ => by simp
  | a :: l, m, hnd, hsub => by
    have ham : a ∈ m := hsub (by simp)
    have hp := (List.perm_cons_erase ham).length_eq
    rw [List.nodup_cons] at hnd
    have := nodup_length_le (l := l) (m := m.erase a) hnd.2 (by
      intro x hx
      exact (List.mem_erase_of_ne (by rintro rfl; exact hnd.1 hx)).2 (hsub (by simp [hx])))
    simp only [List.length_cons] at *
    omega

theorem begun_le {cfg : PrepCfg} {s : PrepState} (h : PrepReach cfg s) (hnd : s.requested.Nodup) (hw : ∀ c ∈ s.requested, c ∉ cfg.warm) : s.cur ≤ s.downloaded.length + s.forced.length := by
  obtain ⟨hp, _⟩ := c28_present cfg s h
  have hinv := pinv_reach h
  have hsub : (s.requested.take s.cur).drop s.downloaded.length ⊆ s.forced := by
    intro c hc
    obtain ⟨j, hj⟩ := List.mem_iff_getElem?.1 hc
    rw [List.getElem?_drop, List.getElem?_take] at hj
    split at hj
    · rename_i hlt
      rcases hp _ c hlt hj with g | g | g
      · omega
      · exact g
      · exact absurd g (hw c (List.mem_iff_getElem?.2 ⟨_, hj⟩))
    · cases hj
  have hnd' : ((s.requested.take s.cur).drop s.downloaded.length).Nodup := (hnd.sublist (List.take_sublist _ _)).sublist (List.drop_sublist _ _)
  have := nodup_length_le hnd' hsub
  rw [List.length_drop, List.length_take, Nat.min_eq_left hinv.have_] at this
  omega

/-- **C28, deletion as soon as a chunk was read.** With `max_pre_download` at most 2 (2 is the default) and a cache smaller than the
data, every chunk the thread has noticed to be consumed is deleted at once: none waits, provided that none of the chunks was in the cache
before (`c28_warm_kept`). -/
theorem c28_eager (cfg : PrepCfg) (hm : cfg.maxPre ≤ 2) (he : cfg.eager = true) (s : PrepState) (h : PrepReach cfg s) (hnd : s.requested.Nodup)
    (hw : ∀ c ∈ s.requested, c ∉ cfg.warm) : s.pending = [] := by
  induction h with
  | init => rfl
  | @step s t hr hst ih =>
    obtain ⟨_, _, m3, _⟩ := prep_step_mono hst
    have hnd' : s.requested.Nodup := hnd.sublist m3.sublist
    have hw' : ∀ c ∈ s.requested, c ∉ cfg.warm := fun c hc => hw c (m3.subset hc)
    have ih := ih hnd' hw'
    have hb := begun_le hr hnd' hw'
    have hinv := pinv_reach hr
    have hclean : ∀ (c : Nat) (rest : List Nat) (k : Nat) (pc : PrepPc), s.toDelete = c :: rest → cleans cfg s (s.pending.length + 1) k → (cleanUp s c rest k pc).pending = [] := by
      intro c rest k pc hd hk
      have hcount := hinv.counter
      have hlen : s.consumed.length = s.deleted.length + s.pending.length + s.toDelete.length := by rw [hinv.fifo]; simp; omega
      have hcons : s.consumed.length ≤ s.cur := by
        cases hs : s.stopped with
        | true => rw [(hinv.ended hs).1, (hinv.ended hs).2]; omega
        | false => rw [hinv.reader hs, List.length_take]; omega
      rw [hd, List.length_cons] at hlen
      unfold cleans at hk
      rw [if_pos he, if_pos (by omega)] at hk
      subst hk
      simp [cleanUp]
    rcases hst with hst | hst
    · cases hst with
      | cleanSome c rest k _ _ hd hk => exact hclean c rest k _ hd hk
      | lastSome c rest k _ hd hk => exact hclean c rest k _ hd hk
      | _ => exact ih
    · cases hst <;> exact ih

/-- **C28, three chunks ahead.** With `max_pre_download` at most 3 every chunk that was read is deleted as soon as the thread notices, except the very last of the
epoch, provided that none of the chunks was in the cache before. -/
theorem c28_eager_three (cfg : PrepCfg) (hm : cfg.maxPre ≤ 3) (he : cfg.eager = true) (s : PrepState) (h : PrepReach cfg s) (hnd : s.requested.Nodup)
    (hw : ∀ c ∈ s.requested, c ∉ cfg.warm) : s.pending = [] ∨ (s.pending.length = 1 ∧ s.stopped = true ∧ s.toDelete = []) := by
  induction h with
  | init => exact .inl rfl
  | @step s t hr hst ih =>
    obtain ⟨_, _, m3, _⟩ := prep_step_mono hst
    have hnd' : s.requested.Nodup := hnd.sublist m3.sublist
    have hw' : ∀ c ∈ s.requested, c ∉ cfg.warm := fun c hc => hw c (m3.subset hc)
    have ih := ih hnd' hw'
    have hb := begun_le hr hnd' hw'
    have hinv := pinv_reach hr
    have hclean : ∀ (c : Nat) (rest : List Nat) (k : Nat) (pc : PrepPc), s.toDelete = c :: rest → cleans cfg s (s.pending.length + 1) k →
        (cleanUp s c rest k pc).pending = [] ∨ ((cleanUp s c rest k pc).pending.length = 1 ∧ s.stopped = true ∧ rest = []) := by
      intro c rest k pc hd hk
      have hp : s.pending = [] := by
        rcases ih with g | ⟨_, _, g⟩
        · exact g
        · rw [g] at hd; cases hd
      have hcount := hinv.counter
      have hlen : s.consumed.length = s.deleted.length + s.pending.length + s.toDelete.length := by rw [hinv.fifo]; simp; omega
      rw [hd, List.length_cons] at hlen
      unfold cleans at hk
      rw [if_pos he] at hk
      rw [hp, List.length_nil] at hk hlen hcount
      by_cases hge : s.counter ≥ (cfg.maxPre : Int) - 1
      · rw [if_pos hge] at hk
        subst hk
        exact .inl (by simp [cleanUp, hp])
      · right
        rw [if_neg hge] at hk
        subst hk
        cases hs : s.stopped with
        | true =>
          have h1 := (hinv.ended hs).1
          have h2 := (hinv.ended hs).2
          rw [h1] at hlen
          refine ⟨by simp [cleanUp, hp], rfl, List.eq_nil_of_length_eq_zero (by omega)⟩
        | false =>
          have h1 := hinv.reader hs
          have h2 : s.consumed.length = s.cur - 1 := by
            have := hinv.have_
            rw [h1, List.length_take]; omega
          omega
    rcases hst with hst | hst
    · cases hst with
      | cleanSome c rest k _ _ hd hk => exact hclean c rest k _ hd hk
      | lastSome c rest k _ hd hk => exact hclean c rest k _ hd hk
      | _ => exact ih
    · rcases ih with g | ⟨_, g, _⟩
      · left; cases hst <;> exact g
      · cases hst <;> simp_all

/-- **C28.** With more than two chunks ahead, chunks that were read may be kept: here the only one, with three allowed ahead. -/
theorem c28_eager_keeps : ∃ s, PrepReach ⟨3, true, true, [], []⟩ s ∧ s.requested.Nodup ∧ s.pending = [7] := by
  refine ⟨⟨[7], [none], [7], [], [], 0, [], [7], [], [7], 1, true, .force⟩, ?_, by decide, rfl⟩
  have s0 : PrepReach ⟨3, true, true, [], []⟩ .init := .init
  have s1 := s0.step (.inr (.request _ 7 rfl))
  have s2 := s1.step (.inl (.forceNone _ rfl rfl))
  have s3 := s2.step (.inl (.fetchSome _ 7 [] rfl (by decide) rfl))
  have s4 := s3.step (.inr (.beginFirst _ 7 rfl rfl rfl (.inl (by decide))))
  have s5 := s4.step (.inr (.stop _ 7 rfl rfl (by decide) rfl))
  exact s5.step (.inl (.cleanSome _ 7 [] 0 rfl rfl rfl rfl))

/-- A state of `c28_eager` in which a chunk has been read and deleted. -/
example : ∃ s, PrepReach ⟨2, true, true, [], []⟩ s ∧ s.requested.Nodup ∧ s.requested = [7, 8] ∧ s.deleted = [7] ∧ s.cur = 2 := by
  refine ⟨⟨[7, 8], [], [7, 8], [], [], 1, [], [], [7], [7], 2, false, .force⟩, ?_, by decide, rfl, rfl, rfl⟩
  have s0 : PrepReach ⟨2, true, true, [], []⟩ .init := .init
  have s1 := s0.step (.inr (.request _ 7 rfl))
  have s1 := s1.step (.inr (.request _ 8 rfl))
  have s2 := s1.step (.inl (.forceNone _ rfl rfl))
  have s3 := s2.step (.inl (.fetchSome _ 7 [some 8] rfl (by decide) rfl))
  have s3 := s3.step (.inl (.cleanNone _ rfl rfl rfl))
  have s3 := s3.step (.inl (.forceNone _ rfl rfl))
  have s3 := s3.step (.inl (.fetchSome _ 8 [] rfl (by decide) rfl))
  have s4 := s3.step (.inr (.beginFirst _ 7 rfl rfl rfl (.inl (by decide))))
  have s5 := s4.step (.inr (.beginNext _ 0 8 7 rfl rfl rfl rfl (.inl (by decide))))
  exact s5.step (.inl (.cleanSome _ 7 [] 1 rfl rfl rfl rfl))

/-- **C28, chunks found in the cache.** While the thread waits in `_maybe_delete_chunks`, the reader asks for two chunks that are in the cache already
and reads them. The thread then hears that the first was consumed before it has looked at the request: it keeps the chunk, since it has fetched
nothing, and is going to fetch it afterwards. -/
theorem c28_warm_kept : ∃ s, PrepReach ⟨2, true, true, [7, 8], []⟩ s ∧ s.requested.Nodup ∧ s.consumed = [7] ∧ s.pending = [7] ∧ s.counter = -1 ∧
    s.queue = [some 7, some 8] := by
  refine ⟨⟨[7, 8], [some 7, some 8], [], [], [], -1, [], [7], [], [7], 2, false, .force⟩, ?_, by decide, rfl, rfl, rfl, rfl⟩
  have s0 : PrepReach ⟨2, true, true, [7, 8], []⟩ .init := .init
  have s1 := s0.step (.inl (.forceNone _ rfl rfl))
  have s2 := s1.step (.inl (.fetchNone _ rfl (by decide) rfl))
  have s3 := s2.step (.inr (.request _ 7 rfl))
  have s4 := s3.step (.inr (.beginFirst _ 7 rfl rfl rfl (.inr (.inr (by decide)))))
  have s5 := s4.step (.inr (.request _ 8 rfl))
  have s6 := s5.step (.inr (.beginNext _ 0 8 7 rfl rfl rfl rfl (.inr (.inr (by decide)))))
  exact s6.step (.inl (.cleanSome _ 7 [] 0 rfl rfl rfl rfl))

end LitData.Props
