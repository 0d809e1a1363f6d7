import Verif.Model.CacheSize
import Verif.Props.PrepareMore
import Verif.Props.InputFiles
import Verif.Lemmas.Sample

/-! C57: the size of the cache. -/

namespace LitData.Props

open LitData

theorem sum_nodup_subset (f : Nat → Nat) : ∀ {l m : List Nat}, l.Nodup → l ⊆ m → (l.map f).sum ≤ (m.map f).sum
  | [], _, _, _ => by simp
  | a :: l, m, hnd, hsub => by
    have ham : a ∈ m := hsub (by simp)
    have hp := ((List.perm_cons_erase ham).map f).sum_nat
    rw [List.nodup_cons] at hnd
    have := sum_nodup_subset f (l := l) (m := m.erase a) hnd.2 (by
      intro x hx
      exact (List.mem_erase_of_ne (by rintro rfl; exact hnd.1 hx)).2 (hsub (by simp [hx])))
    simp only [List.map_cons, List.sum_cons] at *
    omega

theorem sum_le_length_mul (f : Nat → Nat) (B : Nat) (l : List Nat) (h : ∀ c, f c ≤ B) : (l.map f).sum ≤ l.length * B := by
  induction l with
  | nil => simp
  | cons a l ih =>
    have := h a
    simp only [List.map_cons, List.sum_cons, List.length_cons, Nat.succ_mul]
    omega

/-- What the loop does: it takes chunks from the front of the list; those that leave the disk are among them; a chunk taken is gone from disk or was
passed over; and it ends when the list is empty or the test fails. -/
theorem evict_spec (more : Nat → List Nat → Bool) (locked : Nat → Bool) (pending : List Nat) :
    ∀ (k : Nat) (disk : List Nat), ∃ popped, pending = popped ++ (evict more locked k pending disk).1 ∧
      (evict more locked k pending disk).2.1.Sublist disk ∧
      (∀ x ∈ disk, x ∈ (evict more locked k pending disk).2.1 ∨ x ∈ popped) ∧
      (∀ x ∈ popped, x ∈ (evict more locked k pending disk).2.1 → x ∈ (evict more locked k pending disk).2.2) ∧
      ((∀ c, locked c = false) → (evict more locked k pending disk).2.2 = []) ∧
      ((evict more locked k pending disk).1 = [] ∨ ∃ k', more k' (evict more locked k pending disk).2.1 = false) := by
  induction pending with
  | nil => intro k disk; exact ⟨[], rfl, List.Sublist.refl _, fun x hx => .inl hx, fun x hx => by simp at hx, fun _ => rfl, .inl rfl⟩
  | cons c pending ih =>
    intro k disk
    rw [evict]
    by_cases hm : more k disk = true
    · rw [if_pos hm]
      by_cases hl : locked c = true
      · rw [if_pos hl]
        obtain ⟨popped, h1, h2, h3, h4, h5, h6⟩ := ih (k + 1) disk
        refine ⟨c :: popped, by rw [List.cons_append, ← h1], h2, fun x hx => ?_, fun x hx hd => ?_, fun hf => ?_, h6⟩
        · rcases h3 x hx with h | h
          · exact .inl h
          · exact .inr (by simp [h])
        · rcases List.mem_cons.1 hx with rfl | hx
          · simp
          · simp [h4 x hx hd]
        · rw [hf c] at hl; cases hl
      · rw [if_neg hl]
        obtain ⟨popped, h1, h2, h3, h4, h5, h6⟩ := ih (k + 1) (disk.filter fun x => x != c)
        refine ⟨c :: popped, by rw [List.cons_append, ← h1], h2.trans List.filter_sublist, fun x hx => ?_, fun x hx hd => ?_, h5, h6⟩
        · by_cases hxc : x = c
          · exact .inr (by simp [hxc])
          · rcases h3 x (List.mem_filter.2 ⟨hx, by simp [hxc]⟩) with h | h
            · exact .inl h
            · exact .inr (by simp [h])
        · rcases List.mem_cons.1 hx with rfl | hx
          · have := (List.mem_filter.1 (h2.subset hd)).2
            simp at this
          · exact h4 x hx hd
    · rw [if_neg hm]
      exact ⟨[], rfl, List.Sublist.refl _, fun x hx => .inl hx, fun x hx => by simp at hx, fun _ => rfl,
        .inr ⟨k, by simpa using hm⟩⟩

/-- The invariant: `c` on disk is listed for deletion, passed over, forced or ahead of the reader, and what was fetched is on disk until it is
deleted. -/
structure DiskInv (cfg : DiskCfg) (s : DiskState) : Prop where
  reach : PrepReach cfg.prep s.p
  nodup : s.disk.Nodup
  cover : ∀ c ∈ s.disk, c ∈ s.p.pending ∨ c ∈ s.kept ∨ c ∈ s.p.forced ∨ c ∈ s.p.downloaded.drop (s.p.deleted.length + s.p.pending.length)
  fetched : ∀ c, c ∈ s.p.downloaded ∨ c ∈ s.p.forced ∨ c ∈ cfg.prep.warm → c ∈ s.disk ∨ c ∈ s.p.deleted
  found : ∀ c ∈ cfg.prep.warm, c ∈ s.kept
  small : cfg.prep.eager = false → s.p.pending = [] ∨
    (s.p.pending.map fun c => entrySize cfg.map (cfg.entry c)).sum < cfg.maxCache

theorem mem_addFile (disk : List Nat) (c x : Nat) : x ∈ addFile disk c ↔ x ∈ disk ∨ x = c := by
  unfold addFile
  split
  · next h =>
    have : c ∈ disk := by simpa using h
    constructor
    · exact .inl
    · rintro (h | rfl)
      · exact h
      · exact this
  · simp

theorem nodup_addFile (disk : List Nat) (c : Nat) (h : disk.Nodup) : (addFile disk c).Nodup := by
  unfold addFile
  split
  · exact h
  · next hc =>
    rw [List.nodup_append]
    refine ⟨h, by simp, ?_⟩
    intro a ha b hb
    simp only [List.mem_singleton] at hb
    subst hb
    rintro rfl
    exact hc (by simpa using ha)

theorem folderSize_le (map : List (String × Nat)) (others l : List FolderEntry) : folderSize map l ≤ folderSize map (others ++ l) := by
  unfold folderSize
  rw [List.map_append, List.sum_append]
  omega

/-- Everything consumed was fetched or found. -/
theorem consumed_fetched {cfg : PrepCfg} {s : PrepState} (h : PrepReach cfg s) (c : Nat) (hc : c ∈ s.consumed) :
    c ∈ s.downloaded ∨ c ∈ s.forced ∨ c ∈ cfg.warm := by
  have hi := pinv_reach h
  obtain ⟨hp, _⟩ := c28_present cfg s h
  obtain ⟨r, hr, _⟩ := hi.fetch
  have : ∃ i, i < s.cur ∧ s.requested[i]? = some c := by
    cases hs : s.stopped with
    | false =>
      rw [hi.reader hs] at hc
      obtain ⟨i, hi'⟩ := List.mem_iff_getElem?.1 hc
      rw [List.getElem?_take] at hi'
      split at hi'
      · exact ⟨i, by omega, hi'⟩
      · cases hi'
    | true =>
      obtain ⟨e1, e2⟩ := hi.ended hs
      rw [e1] at hc
      obtain ⟨i, hi'⟩ := List.mem_iff_getElem?.1 hc
      obtain ⟨hl, _⟩ := List.getElem?_eq_some_iff.1 hi'
      exact ⟨i, by omega, hi'⟩
  obtain ⟨i, hi1, hi2⟩ := this
  rcases hp i c hi1 hi2 with h | h
  · left
    rw [hr, List.getElem?_append_left h] at hi2
    exact List.mem_of_getElem? hi2
  · exact .inr h

theorem diskinv_step {cfg : DiskCfg} {s t : DiskState} (h : DiskInv cfg s) (hnd : t.p.requested.Nodup) (hst : DiskStep cfg s t) : DiskInv cfg t := by
  obtain ⟨h1, h2, h3, h4, h6, h5⟩ := h
  cases hst with
  | idle t ht e1 e2 e3 =>
    have hr := h1.step (.inl ht)
    have hp : t.pending = s.p.pending ∧ t.deleted = s.p.deleted := by
      generalize s.p = p at *
      cases ht <;> simp_all [cleanUp]
    exact ⟨hr, h2, by simpa only [hp.1, hp.2, e1, e2] using h3, by simpa only [hp.2, e1, e2] using h4, h6, by simpa only [hp.1] using h5⟩
  | fetch t c ht e1 =>
    have hr := h1.step (.inl ht)
    have hp : t.pending = s.p.pending ∧ t.deleted = s.p.deleted ∧ t.forced = s.p.forced ∧ t.cur = s.p.cur ∧ t.requested = s.p.requested ∧ s.p.requested[s.p.downloaded.length]? = some c := by
      have hi := pinv_reach h1
      obtain ⟨r, hr1, hr2⟩ := hi.fetch
      generalize s.p = p at *
      cases ht with
      | fetchSome c' rest hpc hlt hq =>
        simp only [List.append_cancel_left_eq, List.cons.injEq, and_true] at e1
        subst e1
        have := hr2 (by simp [hpc]) (by simp [hpc])
        rw [hq] at this
        refine ⟨rfl, rfl, rfl, rfl, rfl, ?_⟩
        cases r with
        | nil => simp at this; split at this <;> simp at this
        | cons a r =>
          simp only [List.map_cons, List.cons_append, List.cons.injEq, Option.some.injEq] at this
          rw [hr1, List.getElem?_append_right (Nat.le_refl _), Nat.sub_self, this.1]
          rfl
      | _ => simp_all [cleanUp]
    obtain ⟨p1, p2, p3, p4, p5, p6⟩ := hp
    refine ⟨hr, nodup_addFile _ _ h2, ?_, ?_, h6, by simpa only [p1] using h5⟩
    · intro x hx
      simp only [p1, p2, p3, e1] at hx ⊢
      rcases (mem_addFile _ _ _).1 hx with hx | rfl
      · rcases h3 x hx with h | h | h | h
        · exact .inl h
        · exact .inr (.inl h)
        · exact .inr (.inr (.inl h))
        · refine .inr (.inr (.inr ?_))
          obtain ⟨j, hj⟩ := List.mem_iff_getElem?.1 h
          rw [List.getElem?_drop] at hj
          refine List.mem_iff_getElem?.2 ⟨j, ?_⟩
          rw [List.getElem?_drop, List.getElem?_append_left (List.getElem?_eq_some_iff.1 hj).1]
          exact hj
      · by_cases hw : s.p.deleted.length + s.p.pending.length ≤ s.p.downloaded.length
        · refine .inr (.inr (.inr ?_))
          rw [List.drop_append_of_le_length hw]
          simp
        · have hi := pinv_reach h1
          have hlt : s.p.downloaded.length < s.p.cur := by
            have := congrArg List.length hi.fifo
            rw [List.length_append, List.length_append] at this
            cases hs : s.p.stopped with
            | false =>
              have := congrArg List.length (hi.reader hs)
              rw [List.length_take] at this
              omega
            | true =>
              obtain ⟨q1, q2⟩ := hi.ended hs
              have := congrArg List.length q1
              omega
          rcases (c28_present cfg.prep s.p h1).1 _ _ hlt p6 with h | h | h
          · omega
          · exact .inr (.inr (.inl h))
          · exact .inr (.inl (h6 _ h))
    · intro x hx
      simp only [p2, p3, e1] at hx ⊢
      rw [mem_addFile]
      rcases hx with hx | hx
      · rcases List.mem_append.1 hx with hx | hx
        · rcases h4 x (.inl hx) with h | h
          · exact .inl (.inl h)
          · exact .inr h
        · exact .inl (.inr (by simpa using hx))
      · rcases h4 x (.inr hx) with h | h
        · exact .inl (.inl h)
        · exact .inr h
  | force t c ht e1 =>
    have hr := h1.step (.inl ht)
    have hp : t.pending = s.p.pending ∧ t.deleted = s.p.deleted ∧ t.downloaded = s.p.downloaded := by
      generalize s.p = p at *
      cases ht <;> simp_all [cleanUp]
    obtain ⟨p1, p2, p3⟩ := hp
    refine ⟨hr, nodup_addFile _ _ h2, ?_, ?_, h6, by simpa only [p1] using h5⟩
    · intro x hx
      simp only [p1, p2, p3, e1] at hx ⊢
      rcases (mem_addFile _ _ _).1 hx with hx | rfl
      · rcases h3 x hx with h | h | h | h
        · exact .inl h
        · exact .inr (.inl h)
        · exact .inr (.inr (.inl (by simp [h])))
        · exact .inr (.inr (.inr h))
      · exact .inr (.inr (.inl (by simp)))
    · intro x hx
      simp only [p2, p3, e1] at hx ⊢
      rw [mem_addFile]
      rcases hx with hx | hx
      · rcases h4 x (.inl hx) with h | h
        · exact .inl (.inl h)
        · exact .inr h
      · rcases hx with hx | hx
        · rcases List.mem_append.1 hx with hx | hx
          · rcases h4 x (.inr (.inl hx)) with h | h
            · exact .inl (.inl h)
            · exact .inr h
          · exact .inl (.inr (by simpa using hx))
        · rcases h4 x (.inr (.inr hx)) with h | h
          · exact .inl (.inl h)
          · exact .inr h
  | reader t ht =>
    have hr := h1.step (.inr ht)
    have hp : t.pending = s.p.pending ∧ t.deleted = s.p.deleted ∧ t.downloaded = s.p.downloaded ∧ t.forced = s.p.forced := by
      generalize s.p = p at *
      cases ht <;> simp_all
    obtain ⟨p1, p2, p3, p4⟩ := hp
    exact ⟨hr, h2, by simpa only [p1, p2, p3, p4] using h3, by simpa only [p2, p3, p4] using h4, h6, by simpa only [p1] using h5⟩
  | clean t c rest others locked ht e1 e2 e3 =>
    have hr := h1.step (.inl ht)
    obtain ⟨popped, g1, g2, g3, g4, g5, g6⟩ := evict_spec (fun k disk => canDelete cfg s.p.counter (others k) disk) locked (s.p.pending ++ [c]) 0 s.disk
    generalize he : evict (fun k disk => canDelete cfg s.p.counter (others k) disk) locked 0 (s.p.pending ++ [c]) s.disk = e at *
    have hp : t.deleted = s.p.deleted ++ popped ∧ t.downloaded = s.p.downloaded ∧ t.forced = s.p.forced ∧ t.consumed = s.p.consumed ∧ t.requested = s.p.requested := by
      generalize s.p = p at *
      have key : ∀ k, (p.pending ++ [c]).drop k = e.1 → (p.pending ++ [c]).take k = popped := by
        intro k hk
        have h := List.take_append_drop k (p.pending ++ [c])
        rw [hk] at h
        rw [g1] at h ⊢
        exact List.append_cancel_right h
      cases ht with
      | cleanSome c' rest' k _ _ q _ =>
        rw [e1] at q
        injection q with q1 q2
        subst q1
        exact ⟨by simp only [cleanUp]; rw [key k e3], rfl, rfl, rfl, rfl⟩
      | lastSome c' rest' k _ q _ =>
        rw [e1] at q
        injection q with q1 q2
        subst q1
        exact ⟨by simp only [cleanUp]; rw [key k e3], rfl, rfl, rfl, rfl⟩
      | _ => simp_all
    obtain ⟨p1, p2, p3, p4, p5⟩ := hp
    have hi := pinv_reach h1
    have hfifo := hi.fifo
    rw [e1] at hfifo
    have hpre := (c28_order cfg.prep s.p h1).2.2
    have hndc : s.p.consumed.Nodup := by
      rw [p5] at hnd
      exact hnd.sublist hpre.sublist
    have hlen : popped.length + e.1.length = s.p.pending.length + 1 := by
      have := congrArg List.length g1
      simpa using this.symm
    have hpend : ∀ x ∈ e.1, x ∈ e.2.1 := by
      intro x hx
      have hx1 : x ∈ s.p.pending ++ [c] := by rw [g1]; simp [hx]
      have hx2 : x ∈ s.p.consumed := by
        rw [hfifo]
        simp only [List.mem_append, List.mem_cons, List.not_mem_nil, or_false] at hx1 ⊢
        rcases hx1 with h | h <;> simp [h]
      have hsplit : s.p.consumed = s.p.deleted ++ (popped ++ e.1) ++ rest := by
        rw [hfifo, ← g1]; simp
      rw [hsplit] at hndc
      have hnotdel : x ∉ s.p.deleted := by
        intro hd
        rw [List.append_assoc, List.nodup_append] at hndc
        exact hndc.2.2 x hd x (by simp [hx]) rfl
      have hnotpop : x ∉ popped := by
        intro hd
        rw [List.append_assoc, List.nodup_append] at hndc
        have := hndc.2.1
        rw [List.append_assoc, List.nodup_append] at this
        exact this.2.2 x hd x (by simp [hx]) rfl
      rcases h4 x (consumed_fetched h1 x hx2) with h | h
      · rcases g3 x h with h | h
        · exact h
        · exact absurd h hnotpop
      · exact absurd h hnotdel
    refine ⟨hr, h2.sublist g2, ?_, ?_, fun c hc => by simp [h6 c hc], ?_⟩
    · intro x hx
      simp only [p2, p3, e3, p1] at hx ⊢
      have hold : ∀ y ∈ s.p.pending ++ [c], y ∈ e.2.1 → y ∈ e.1 ∨ y ∈ e.2.2 := by
        intro y hy hd
        rw [g1] at hy
        rcases List.mem_append.1 hy with h | h
        · exact .inr (g4 y h hd)
        · exact .inl h
      rcases h3 x (g2.subset hx) with h | h | h | h
      · rcases hold x (by simp [h]) hx with h | h
        · exact .inl h
        · exact .inr (.inl (by simp [h]))
      · exact .inr (.inl (by simp [h]))
      · exact .inr (.inr (.inl h))
      · obtain ⟨j, hj⟩ := List.mem_iff_getElem?.1 h
        rw [List.getElem?_drop] at hj
        by_cases hj0 : j = 0
        · subst hj0
          have hxc : x = c := by
            obtain ⟨r, hr1, _⟩ := hi.fetch
            have a1 : s.p.requested[s.p.deleted.length + s.p.pending.length]? = some x := by
              rw [Nat.add_zero] at hj
              rw [hr1, List.getElem?_append_left (List.getElem?_eq_some_iff.1 hj).1]; exact hj
            obtain ⟨r', hr'⟩ := hpre
            have a2 : s.p.requested[s.p.deleted.length + s.p.pending.length]? = some c := by
              rw [← hr', hfifo, List.append_assoc, List.getElem?_append_right (by simp)]
              simp
            rw [a1] at a2
            exact Option.some.inj a2
          subst hxc
          rcases hold x (by simp) hx with h | h
          · exact .inl h
          · exact .inr (.inl (by simp [h]))
        · refine .inr (.inr (.inr (List.mem_iff_getElem?.2 ⟨j - 1, ?_⟩)))
          rw [List.getElem?_drop, List.length_append, show s.p.deleted.length + popped.length + e.1.length + (j - 1) =
            s.p.deleted.length + s.p.pending.length + j by omega]
          exact hj
    · intro x hx
      simp only [p1, p2, p3] at hx ⊢
      rcases h4 x hx with h | h
      · rcases g3 x h with h | h
        · exact .inl h
        · exact .inr (by simp [h])
      · exact .inr (by simp [h])
    · intro heag
      simp only [e3]
      rcases g6 with h | ⟨k, h⟩
      · exact .inl h
      · right
        unfold canDelete at h
        rw [heag] at h
        simp only [Bool.false_eq_true, if_false, decide_eq_false_iff_not, Nat.not_le] at h
        have l1 := folderSize_le cfg.map (others k) (e.2.1.map cfg.entry)
        have hsub : e.1.Nodup := by
          have : s.p.consumed = s.p.deleted ++ (popped ++ e.1) ++ rest := by rw [hfifo, ← g1]; simp
          rw [this, List.append_assoc, List.nodup_append] at hndc
          have := hndc.2.1
          rw [List.append_assoc, List.nodup_append] at this
          have := this.2.1
          rw [List.nodup_append] at this
          exact this.1
        have l2 := sum_nodup_subset (fun c => entrySize cfg.map (cfg.entry c)) hsub hpend
        unfold folderSize at l1
        rw [List.map_map] at l1
        unfold folderSize at h
        simp only [Function.comp_def] at l1
        omega

theorem diskinv_reach {cfg : DiskCfg} {left : List Nat} (hleft : left.Nodup) {s : DiskState} (h : DiskReach cfg left s) (hnd : s.p.requested.Nodup) :
    DiskInv cfg s := by
  induction h with
  | init hw => exact ⟨.init, hleft, fun c hc => .inr (.inl hc), fun c hc => .inl (hw c (by simpa [PrepState.init] using hc)), hw, fun _ => .inl rfl⟩
  | @step s t hr hst ih =>
    refine diskinv_step (ih ?_) hnd hst
    have : s.p.requested <+: t.p.requested := by
      cases hst with
      | reader t ht => exact (prep_step_mono (cfg := cfg.prep) (.inr ht)).2.2.1
      | idle t ht => exact (prep_step_mono (cfg := cfg.prep) (.inl ht)).2.2.1
      | fetch t c ht => exact (prep_step_mono (cfg := cfg.prep) (.inl ht)).2.2.1
      | force t c ht => exact (prep_step_mono (cfg := cfg.prep) (.inl ht)).2.2.1
      | clean t c rest others locked ht => exact (prep_step_mono (cfg := cfg.prep) (.inl ht)).2.2.1
    exact hnd.sublist this.sublist

/-- The chunks on disk that are neither waiting for deletion nor left over are those ahead of the reader and the forced ones. -/
theorem disk_sum {cfg : DiskCfg} {s : DiskState} (h : DiskInv cfg s) (size : Nat → Nat) (B : Nat) (hB : ∀ c, size c ≤ B) :
    (s.disk.map size).sum ≤ (s.p.pending.map size).sum + (s.kept.map size).sum + (cfg.prep.maxPre + s.p.forced.length) * B := by
  have hsub : s.disk ⊆ s.p.pending ++ (s.kept ++ (s.p.forced ++ s.p.downloaded.drop (s.p.deleted.length + s.p.pending.length))) := by
    intro x hx
    simp only [List.mem_append]
    exact h.cover x hx
  have := sum_nodup_subset size h.nodup hsub
  simp only [List.map_append, List.sum_append] at this
  have l1 := sum_le_length_mul size B s.p.forced hB
  have l2 := sum_le_length_mul size B (s.p.downloaded.drop (s.p.deleted.length + s.p.pending.length)) hB
  have l3 := (pinv_reach h.reach).bound
  have l4 : (s.p.downloaded.drop (s.p.deleted.length + s.p.pending.length)).length * B ≤ cfg.prep.maxPre * B :=
    Nat.mul_le_mul_right _ (by rw [List.length_drop]; omega)
  rw [Nat.add_mul]
  omega

theorem lookup_foldl_tableSet (l : List (String × Nat)) (m : List (String × Nat)) (hnd : (l.map (·.1)).Nodup) (k : String) (v : Nat) (h : (k, v) ∈ l) :
    (l.foldl (fun m p => tableSet m p.1 p.2) m).lookup k = some v := by
  induction l generalizing m with
  | nil => simp at h
  | cons p l ih =>
    rw [List.map_cons, List.nodup_cons] at hnd
    rw [List.foldl_cons]
    rcases List.mem_cons.1 h with rfl | h
    · have : ∀ (l : List (String × Nat)) m, k ∉ l.map (·.1) → (l.foldl (fun m p => tableSet m p.1 p.2) m).lookup k = m.lookup k := by
        intro l
        induction l with
        | nil => intro m _; rfl
        | cons q l ih =>
          intro m hq
          rw [List.map_cons, List.mem_cons, not_or] at hq
          rw [List.foldl_cons, ih _ hq.2, lookup_tableSet, if_neg (by simpa using fun e => hq.1 e)]
      rw [this l _ hnd.1, lookup_tableSet]
      simp
    · exact ih _ hnd.2 h

/-- A chunk of the index that is on disk, decompressed, counts with the size recorded in the index. -/
theorem c57_chunk_counted (compressor : Option String) (chunks : List ChunkInfo) (hnd : (chunks.map fun c => sizeName compressor c.filename).Nodup)
    (hnone : compressor = none → ∀ c ∈ chunks, ∀ a b, c.filename.toList ≠ a ++ ".None".toList ++ b) (bytes : Nat → Nat) (i : Nat) :
    entrySize (sizeMap compressor chunks) (chunkEntry compressor chunks bytes i) = (chunks[i]?.map (·.chunkBytes)).getD 0 := by
  unfold chunkEntry
  cases hc : chunks[i]? with
  | none => simp [entrySize]
  | some c =>
    have hm := List.mem_of_getElem? hc
    have hname : diskName compressor c.filename = sizeName compressor c.filename := by
      cases compressor with
      | some n => rfl
      | none =>
        have := pyReplace_none ".None".toList [] c.filename.toList (hnone rfl c hm)
        unfold sizeName diskName
        rw [show '.' :: ((none : Option String).getD "None").toList = ".None".toList by decide, this, String.ofList_toList]
    have := lookup_foldl_tableSet (chunks.map fun c => (sizeName compressor c.filename, c.chunkBytes)) [] (by rw [List.map_map]; exact hnd)
      (sizeName compressor c.filename) c.chunkBytes (List.mem_map.2 ⟨c, hm, rfl⟩)
    rw [List.foldl_map] at this
    simp only [entrySize, hname, Bool.not_true, Bool.false_eq_true, if_false, sizeMap, this, Option.map_some, Option.getD_some]

/-- **C57, the size of the folder** is the size of the chunks on disk, as recorded in the index, plus that of the temporary files of others:
of directories, links, locks, counters, indexes and files whose name has no `.bin` nothing is counted. -/
theorem c57_folder_size (compressor : Option String) (chunks : List ChunkInfo) (hnd : (chunks.map fun c => sizeName compressor c.filename).Nodup)
    (hnone : compressor = none → ∀ c ∈ chunks, ∀ a b, c.filename.toList ≠ a ++ ".None".toList ++ b) (bytes : Nat → Nat) (disk : List Nat)
    (others : List FolderEntry) (hother : ∀ e ∈ others, ∀ c ∈ chunks, e.name ≠ sizeName compressor c.filename) :
    folderSize (sizeMap compressor chunks) (others ++ disk.map (chunkEntry compressor chunks bytes)) =
      ((others.filter fun e => e.isFile && !ignoredName e.name && strContains ".bin".toList e.name.toList).map (·.bytes)).sum +
      (disk.map fun i => (chunks[i]?.map (·.chunkBytes)).getD 0).sum := by
  unfold folderSize
  rw [List.map_append, List.sum_append, List.map_map]
  congr 1
  · have hl : ∀ (cs : List ChunkInfo) (m : List (String × Nat)) (k : String), (∀ c ∈ cs, k ≠ sizeName compressor c.filename) →
        (cs.foldl (fun m c => tableSet m (sizeName compressor c.filename) c.chunkBytes) m).lookup k = m.lookup k := by
      intro cs
      induction cs with
      | nil => intro m k _; rfl
      | cons c cs ih =>
        intro m k hk
        rw [List.foldl_cons, ih _ _ (fun c hc => hk c (by simp [hc])), lookup_tableSet, if_neg (by simpa using hk c (by simp))]
    clear hnone hnd
    induction others with
    | nil => rfl
    | cons e others ih =>
      have hlook : (sizeMap compressor chunks).lookup e.name = none := hl chunks [] e.name (fun c hc => hother e (by simp) c hc)
      rw [List.map_cons, List.sum_cons, ih (fun e he => hother e (by simp [he])), List.filter_cons]
      unfold entrySize
      rw [hlook]
      cases e.isFile <;> cases ignoredName e.name <;> cases strContains ".bin".toList e.name.toList <;> simp
  · congr 1
    apply List.map_congr_left
    intro i _
    exact c57_chunk_counted compressor chunks hnd hnone bytes i

/-- **C57, the bound.** Let the data of a node fit into the cache by the index, so that chunks are deleted by the size of the folder. Whatever other
processes add to the folder or lock, and however the thread and its reader are interleaved, the chunks on disk stay below the limit plus
`max_pre_download` chunks, not counting those that were there at the start, those that could not be deleted because someone had locked them, and one
for each forced download. -/
theorem c57_bound (compressor : Option String) (chunks : List ChunkInfo) (hnd : (chunks.map fun c => sizeName compressor c.filename).Nodup)
    (hnone : compressor = none → ∀ c ∈ chunks, ∀ a b, c.filename.toList ≠ a ++ ".None".toList ++ b) (bytes : Nat → Nat)
    (prep : PrepCfg) (he : prep.eager = false) (maxCache : Nat) (hM : 0 < maxCache) (left : List Nat) (hleft : left.Nodup) (s : DiskState)
    (h : DiskReach ⟨prep, maxCache, sizeMap compressor chunks, chunkEntry compressor chunks bytes⟩ left s) (hreq : s.p.requested.Nodup)
    (largest : Nat) (hB : ∀ c ∈ chunks, c.chunkBytes ≤ largest) :
    (s.disk.map fun i => (chunks[i]?.map (·.chunkBytes)).getD 0).sum <
      maxCache + (prep.maxPre + s.p.forced.length) * largest + (s.kept.map fun i => (chunks[i]?.map (·.chunkBytes)).getD 0).sum := by
  have hi := diskinv_reach hleft h hreq
  have hB' : ∀ i : Nat, (chunks[i]?.map (·.chunkBytes)).getD 0 ≤ largest := by
    intro i
    cases hc : chunks[i]? with
    | none => simp
    | some c => exact hB c (List.mem_of_getElem? hc)
  have l1 := disk_sum hi _ largest hB'
  have l2 : (s.p.pending.map fun i => (chunks[i]?.map (·.chunkBytes)).getD 0).sum < maxCache := by
    rcases hi.small he with h | h
    · rw [h]; simpa using hM
    · simp only [c57_chunk_counted compressor chunks hnd hnone bytes] at h
      exact h
  dsimp only at l1
  omega

/-- **C57, deletion at once.** If the data of a node does not fit into the cache and `max_pre_download` is at most 2, there are never more than
`max_pre_download` chunks on disk, not counting those that were there at the start, those locked by others and the forced ones. -/
theorem c57_eager_bound (cfg : DiskCfg) (he : cfg.prep.eager = true) (hm : cfg.prep.maxPre ≤ 2) (left : List Nat) (hleft : left.Nodup) (s : DiskState)
    (h : DiskReach cfg left s) (hreq : s.p.requested.Nodup)
    (hw : ∀ c ∈ s.p.requested, c ∉ cfg.prep.warm) : s.disk.length ≤ cfg.prep.maxPre + s.p.forced.length + s.kept.length := by
  have hi := diskinv_reach hleft h hreq
  have hp := c28_eager cfg.prep hm he s.p hi.reach hreq hw
  have := disk_sum hi (fun _ => 1) 1 (fun _ => Nat.le_refl 1)
  rw [hp] at this
  have hs : ∀ l : List Nat, (l.map fun _ => 1).sum = l.length := by
    intro l
    induction l with
    | nil => rfl
    | cons a l ih => simp only [List.map_cons, List.sum_cons, ih, List.length_cons]; omega
  rw [hs, hs, hs] at this
  simp only [List.length_nil] at this
  omega

/-- **C57, deletion at once with three chunks ahead.** One chunk more may be there, the last of the epoch. -/
theorem c57_eager_bound_three (cfg : DiskCfg) (he : cfg.prep.eager = true) (hm : cfg.prep.maxPre ≤ 3) (left : List Nat) (hleft : left.Nodup)
    (s : DiskState) (h : DiskReach cfg left s) (hreq : s.p.requested.Nodup)
    (hw : ∀ c ∈ s.p.requested, c ∉ cfg.prep.warm) : s.disk.length ≤ cfg.prep.maxPre + s.p.forced.length + s.kept.length + (if s.p.stopped then 1 else 0) := by
  have hi := diskinv_reach hleft h hreq
  have hp := c28_eager_three cfg.prep hm he s.p hi.reach hreq hw
  have := disk_sum hi (fun _ => 1) 1 (fun _ => Nat.le_refl 1)
  have hs : ∀ l : List Nat, (l.map fun _ => 1).sum = l.length := by
    intro l
    induction l with
    | nil => rfl
    | cons a l ih => simp only [List.map_cons, List.sum_cons, ih, List.length_cons]; omega
  rw [hs, hs, hs] at this
  rcases hp with hp | ⟨hp, hst, _⟩
  · rw [hp] at this
    simp only [List.length_nil] at this
    split <;> omega
  · rw [hst]
    simp only [if_true]
    omega

/-- **C57, one node.** On a single node chunks are deleted by the size of the folder only if the whole dataset fits into the limit, so that the
chunks on disk never exceed it. -/
theorem c57_one_node (cfg : DiskCfg) (chunks : List ChunkInfo) (maxCache : Nat) (hM : maxCache ≠ 0)
    (hfit : deletesWhenProcessed (chunks.map (·.chunkBytes)).sum 1 (some maxCache) = false) (left : List Nat) (hleft : left.Nodup) (s : DiskState)
    (h : DiskReach cfg left s) (hreq : s.p.requested.Nodup) :
    (s.disk.map fun i => (chunks[i]?.map (·.chunkBytes)).getD 0).sum ≤ maxCache := by
  have hi := diskinv_reach hleft h hreq
  have hf : ∀ l : List Nat, (l.map fun i => (chunks[i]?.map (·.chunkBytes)).getD 0).sum =
      ((l.filter fun i => decide (i < chunks.length)).map fun i => (chunks[i]?.map (·.chunkBytes)).getD 0).sum := by
    intro l
    induction l with
    | nil => rfl
    | cons a l ih =>
      rw [List.map_cons, List.sum_cons, ih, List.filter_cons]
      by_cases ha : a < chunks.length
      · simp [ha]
      · rw [if_neg (by simpa using ha)]
        simp [List.getElem?_eq_none (Nat.le_of_not_lt ha)]
  have hall : ((List.range chunks.length).map fun i => (chunks[i]?.map (·.chunkBytes)).getD 0).sum = (chunks.map (·.chunkBytes)).sum := by
    congr 1
    apply List.ext_getElem
    · simp
    · intro i h1 h2
      simp at h1 h2
      simp [h1]
  have := sum_nodup_subset (fun i => (chunks[i]?.map (·.chunkBytes)).getD 0) (hi.nodup.filter fun i => decide (i < chunks.length))
    (m := List.range chunks.length) (by
      intro x hx
      exact List.mem_range.2 (by simpa using (List.mem_filter.1 hx).2))
  rw [hf, ]
  rw [hall] at this
  simp only [deletesWhenProcessed, Nat.div_one, Bool.and_eq_false_iff, decide_eq_false_iff_not, Nat.not_lt] at hfit
  rcases hfit with h | h
  · simp [hM] at h
  · omega

/-- The state after `n + 1` rounds in which the reader is faster than the downloads: one chunk is in use, the others wait for deletion. -/
def fastState (n : Nat) : DiskState :=
  ⟨⟨List.range (n + 1), [], List.range (n + 1), [], [], 1, [], List.range n, [], List.range n, n + 1, false, .force⟩, List.range (n + 1), []⟩

/-- **C57, nothing is deleted with more than three chunks ahead.** If the data does not fit into the cache and `max_pre_download` is 4 or more, a reader
that is faster than the downloads keeps every chunk of the epoch on disk: the counter never comes near `max_pre_download`. -/
theorem c57_eager_unbounded (cfg : DiskCfg) (he : cfg.prep.eager = true) (hc : cfg.prep.cache = true) (hm : 4 ≤ cfg.prep.maxPre) (hw : cfg.prep.warm = []) (n : Nat) :
    DiskReach cfg [] (fastState n) ∧ (fastState n).disk.length = n + 1 ∧ (fastState n).p.deleted = [] ∧ (fastState n).p.forced = [] := by
  refine ⟨?_, by simp [fastState], rfl, rfl⟩
  induction n with
  | zero =>
    have s0 : DiskReach cfg [] ⟨.init, [], []⟩ := .init (by rw [hw]; simp)
    have s1 := s0.step (.reader _ _ (.request _ 0 rfl))
    have s2 := s1.step (.idle _ _ (.forceNone _ rfl rfl) rfl rfl rfl)
    have s3 := s2.step (.fetch _ _ 0 (.fetchSome _ 0 [] rfl (by show (0 : Int) < (cfg.prep.maxPre : Int); omega) rfl) rfl)
    have s4 := s3.step (.reader _ _ (.beginFirst _ 0 rfl rfl rfl (.inl (by decide))))
    exact s4.step (.idle _ _ (.cleanNone _ rfl hc rfl) rfl rfl rfl)
  | succ n ih =>
    have s1 := ih.step (.reader _ _ (.request _ (n + 1) rfl))
    have s2 := s1.step (.idle _ _ (.forceNone _ rfl rfl) rfl rfl rfl)
    have s3 := s2.step (.fetch _ _ (n + 1) (.fetchSome _ (n + 1) [] rfl (by show (1 : Int) < (cfg.prep.maxPre : Int); omega) rfl) rfl)
    have s4 := s3.step (.reader _ _ (.beginNext _ n (n + 1) n rfl rfl
      (by simp [fastState]) (by
        show (List.range (n + 1) ++ [n + 1])[n]? = some n
        rw [List.getElem?_append_left (by simp)]
        simp) (.inl (by simp [fastState]))))
    have hno : ∀ (others : Nat → List FolderEntry) (l disk : List Nat),
        evict (fun k disk => canDelete cfg (1 + 1) (others k) disk) (fun _ => false) 0 l disk = (l, disk, []) := by
      intro others l disk
      cases l with
      | nil => rfl
      | cons a l =>
        rw [evict, if_neg]
        unfold canDelete
        rw [he]
        simp only [if_true, decide_eq_true_eq]
        omega
    have s5 := s4.step (.clean _ _ n [] (fun _ => []) (fun _ => false) (.cleanSome _ n [] 0 rfl hc rfl (by
        unfold cleans
        rw [if_pos he]
        show 0 = if (1 + 1 : Int) ≥ (cfg.prep.maxPre : Int) - 1 then _ else 0
        rw [if_neg (by omega)])) rfl rfl (by
          show List.range n ++ [n] = _
          exact (congrArg Prod.fst (hno (fun _ => []) (List.range n ++ [n]) _)).symm))
    have hd : addFile (List.range (n + 1)) (n + 1) = List.range (n + 2) := by
      unfold addFile
      rw [if_neg (by simp), ← List.range_succ]
    refine (congrArg (DiskReach cfg []) ?_).mp s5
    have h1 := hno (fun _ => []) (List.range n ++ [n]) (addFile (List.range (n + 1)) (n + 1))
    clear s1 s2 s3 s4 s5
    simp only [fastState]
    rw [h1, hd]
    simp [cleanUp, ← List.range_succ]

/-- **C57, late forced download.** A chunk that was asked for by force, was then fetched in its turn, read and deleted, is downloaded once more when the thread
comes to the forced request; nobody deletes it again and it is still there when the thread has ended. -/
theorem c57_late_force (cfg : DiskCfg) (he : cfg.prep.eager = true) (hc : cfg.prep.cache = true) (hm : cfg.prep.maxPre = 2) (hw : cfg.prep.warm = []) (c : Nat) :
    ∃ s, DiskReach cfg [] s ∧ s.p.pc = .exited ∧ s.p.deleted = [c] ∧ s.disk = [c] ∧ s.p.pending = [] ∧ s.p.toDelete = [] ∧ s.kept = [] := by
  have s0 : DiskReach cfg [] ⟨.init, [], []⟩ := .init (by rw [hw]; simp)
  have s1 := s0.step (.reader _ _ (.request _ c rfl))
  have s2 := s1.step (.idle _ _ (.forceNone _ rfl rfl) rfl rfl rfl)
  have s3 := s2.step (.reader _ _ (.ask _ c rfl rfl))
  have s4 := s3.step (.fetch _ _ c (.fetchSome _ c [] rfl (by show (0 : Int) < (cfg.prep.maxPre : Int); omega) rfl) rfl)
  have s5 := s4.step (.reader _ _ (.beginFirst _ c rfl rfl rfl (.inl (by simp [PrepState.init]))))
  have s6 := s5.step (.reader _ _ (.stop _ c rfl rfl (Nat.succ_pos 0) rfl))
  have hcan : ∀ (others : List FolderEntry) (disk : List Nat), canDelete cfg 1 others disk = true := by
    intro others disk
    unfold canDelete
    rw [he]
    simp only [if_true, decide_eq_true_eq]
    omega
  have hev : evict (fun k disk => canDelete cfg (0 + 1) ((fun _ => []) k) disk) (fun _ => false) 0 [c] [c] = ([], [], []) := by
    clear s0 s1 s2 s3 s4 s5 s6
    simp [evict, hcan]
  have s7 := s6.step (.clean _ _ c [] (fun _ => []) (fun _ => false) (.cleanSome _ c [] 1 rfl hc rfl (by
      unfold cleans
      rw [if_pos he]
      show 1 = if (0 + 1 : Int) ≥ (cfg.prep.maxPre : Int) - 1 then _ else 0
      rw [if_pos (by omega)]
      rfl)) rfl rfl (by
        show List.drop 1 [c] = _
        exact (congrArg Prod.fst hev).symm))
  have s8 := s7.step (.force _ _ c (.forceSome _ c [] rfl rfl) rfl)
  have s9 := s8.step (.idle _ _ (.fetchEnd _ [] rfl (by show (0 + 1 - 1 + 1 : Int) < (cfg.prep.maxPre : Int); omega) rfl) rfl rfl rfl)
  have s10 := s9.step (.idle _ _ (.lastNone _ (by show (if cfg.prep.cache then PrepPc.last else .exited) = _; rw [hc]; rfl) rfl) rfl rfl rfl)
  refine ⟨_, s10, rfl, ?_, ?_, ?_, rfl, ?_⟩
  all_goals clear s0 s1 s2 s3 s4 s5 s6 s7 s8 s9 s10
  all_goals simp [cleanUp, addFile, PrepState.init, evict, hcan]

/-- **C57, a chunk found in the cache comes back.** A chunk that lies in the cache is read before the thread gets to it. If the cache is full it is
deleted; then the thread comes to the request, downloads it again, and nobody deletes it: it is still there when the thread has ended. -/
theorem c57_warm_returns (cfg : DiskCfg) (c : Nat) (he : cfg.prep.eager = false) (hc : cfg.prep.cache = true) (hm : 0 < cfg.prep.maxPre)
    (hw : cfg.prep.warm = [c]) (hfull : cfg.maxCache ≤ entrySize cfg.map (cfg.entry c)) :
    ∃ s, DiskReach cfg [c] s ∧ s.p.pc = .exited ∧ s.p.consumed = [c] ∧ s.p.deleted = [c] ∧ s.p.downloaded = [c] ∧ s.disk = [c] := by
  have hcan : canDelete cfg 0 [] [c] = true := by
    unfold canDelete
    rw [he]
    simp [folderSize, hfull]
  have hev : evict (fun k disk => canDelete cfg 0 ((fun _ => []) k) disk) (fun _ => false) 0 [c] [c] = ([], [], []) := by
    simp [evict, hcan]
  have s0 : DiskReach cfg [c] ⟨.init, [c], [c]⟩ := .init (by rw [hw]; simp)
  have s1 := s0.step (.idle _ _ (.forceNone _ rfl rfl) rfl rfl rfl)
  have s2 := s1.step (.idle _ _ (.fetchNone _ rfl (by show (0 : Int) < (cfg.prep.maxPre : Int); omega) rfl) rfl rfl rfl)
  have s3 := s2.step (.reader _ _ (.request _ c rfl))
  have s4 := s3.step (.reader _ _ (.beginFirst _ c rfl rfl rfl (.inr (.inr (by rw [hw]; simp)))))
  have s5 := s4.step (.reader _ _ (.stop _ c rfl rfl (Nat.succ_pos 0) rfl))
  have s6 := s5.step (.clean _ _ c [] (fun _ => []) (fun _ => false) (.cleanSome _ c [] 1 rfl hc rfl (by
      unfold cleans
      rw [if_neg (by simp [he])]
      exact Nat.le_refl 1)) rfl rfl (by
        show List.drop 1 [c] = _
        exact (congrArg Prod.fst hev).symm))
  have s7 := s6.step (.idle _ _ (.forceNone _ rfl rfl) rfl rfl rfl)
  have s8 := s7.step (.fetch _ _ c (.fetchSome _ c [none] rfl (by show (0 - 1 : Int) < (cfg.prep.maxPre : Int); omega) rfl) rfl)
  have s9 := s8.step (.idle _ _ (.cleanNone _ rfl hc rfl) rfl rfl rfl)
  have s10 := s9.step (.idle _ _ (.forceNone _ rfl rfl) rfl rfl rfl)
  have s11 := s10.step (.idle _ _ (.fetchEnd _ [] rfl (by show (0 - 1 + 1 : Int) < (cfg.prep.maxPre : Int); omega) rfl) rfl rfl rfl)
  have s12 := s11.step (.idle _ _ (.lastNone _ (by show (if cfg.prep.cache then PrepPc.last else .exited) = _; rw [hc]; rfl) rfl) rfl rfl rfl)
  refine ⟨_, s12, rfl, ?_, ?_, ?_, ?_⟩
  all_goals clear s0 s1 s2 s3 s4 s5 s6 s7 s8 s9 s10 s11 s12
  all_goals simp [cleanUp, addFile, PrepState.init, evict, hcan]

/-- **C57, locked chunks.** A chunk that is passed over because someone has locked it leaves the list of chunks to delete but not the disk. -/
theorem c57_locked_kept (more : Nat → List Nat → Bool) (locked : Nat → Bool) (k c : Nat) (pending disk : List Nat) (hm : more k disk = true)
    (hl : locked c = true) (hc : c ∈ disk) (hp : c ∉ pending) :
    let r := evict more locked k (c :: pending) disk
    c ∉ r.1 ∧ c ∈ r.2.1 ∧ c ∈ r.2.2 := by
  have h : ∀ (pending disk : List Nat) (k : Nat), c ∉ pending → c ∈ disk →
      c ∉ (evict more locked k pending disk).1 ∧ c ∈ (evict more locked k pending disk).2.1 := by
    intro pending
    induction pending with
    | nil => intro disk k _ hd; exact ⟨by simp [evict], hd⟩
    | cons a l ih =>
      intro disk k hp hd
      have ha : c ≠ a := fun h => hp (h ▸ List.mem_cons_self)
      have hl' : c ∉ l := fun h => hp (List.mem_cons_of_mem _ h)
      unfold evict
      split
      · split
        · exact ih disk (k + 1) hl' hd
        · exact ih _ (k + 1) hl' (List.mem_filter.2 ⟨hd, by simpa using ha⟩)
      · exact ⟨hp, hd⟩
  intro r
  have e : r = ((evict more locked (k + 1) pending disk).1, (evict more locked (k + 1) pending disk).2.1,
      c :: (evict more locked (k + 1) pending disk).2.2) := by
    show evict more locked k (c :: pending) disk = _
    rw [evict, if_pos hm, if_pos hl]
  rw [e]
  exact ⟨(h pending disk (k + 1) hp hc).1, (h pending disk (k + 1) hp hc).2, List.mem_cons_self⟩

example : (evict (fun _ _ => true) (fun c => c == 4) 0 [3, 4, 5] [3, 4, 5, 6]) = ([], [4, 6], [4]) := by decide

/-- Three chunks of 10, 20 and 30 bytes, in a cache of 25 bytes: the names of the compressed chunks lose their suffix. -/
def sizeChunks : List ChunkInfo :=
  [⟨"chunk-0-0.zstd.bin", 2, 10, none⟩, ⟨"chunk-0-1.zstd.bin", 2, 20, none⟩, ⟨"chunk-0-2.zstd.bin", 2, 30, none⟩]

example : (sizeChunks.map fun c => sizeName (some "zstd") c.filename) = ["chunk-0-0.bin", "chunk-0-1.bin", "chunk-0-2.bin"] ∧
    folderSize (sizeMap (some "zstd") sizeChunks)
      ([⟨"chunk-0-2.zstd.bin", true, 5⟩, ⟨"index.json", true, 7⟩, ⟨"chunk-0-0.bin.lock", true, 1⟩, ⟨"chunk-0-9.bin.abc", true, 3⟩, ⟨"d.bin", false, 9⟩] ++
        [0, 2].map (chunkEntry (some "zstd") sizeChunks fun _ => 1000)) = 43 := by decide +kernel

/-- The conditions of `c57_warm_returns`. -/
example : ∃ s, DiskReach ⟨⟨2, true, false, [1], []⟩, 15, sizeMap (some "zstd") sizeChunks, chunkEntry (some "zstd") sizeChunks fun _ => 1000⟩ [1] s ∧
    s.p.pc = .exited ∧ s.p.consumed = [1] ∧ s.p.deleted = [1] ∧ s.p.downloaded = [1] ∧ s.disk = [1] :=
  c57_warm_returns _ 1 rfl rfl (by decide) rfl (by decide +kernel)

/-- A run that deletes by the size: after chunks 0, 1 and 2 are on disk and chunk 0 has been read, it is deleted. -/
example : ∃ s, DiskReach ⟨⟨2, true, false, [], []⟩, 25, sizeMap (some "zstd") sizeChunks, chunkEntry (some "zstd") sizeChunks fun _ => 1000⟩ [] s ∧
    s.p.requested.Nodup ∧ s.p.deleted = [0] ∧ s.disk = [1] := by
  have s0 : DiskReach ⟨⟨2, true, false, [], []⟩, 25, sizeMap (some "zstd") sizeChunks, chunkEntry (some "zstd") sizeChunks fun _ => 1000⟩ [] ⟨.init, [], []⟩ := .init (by simp)
  have s1 := s0.step (.reader _ _ (.request _ 0 rfl))
  have s2 := s1.step (.reader _ _ (.request _ 1 rfl))
  have s3 := s2.step (.idle _ _ (.forceNone _ rfl rfl) rfl rfl rfl)
  have s4 := s3.step (.fetch _ _ 0 (.fetchSome _ 0 [some 1] rfl (by decide) rfl) rfl)
  have s5 := s4.step (.reader _ _ (.beginFirst _ 0 rfl rfl rfl (.inl (by decide))))
  have s6 := s5.step (.idle _ _ (.cleanNone _ rfl rfl rfl) rfl rfl rfl)
  have s7 := s6.step (.idle _ _ (.forceNone _ rfl rfl) rfl rfl rfl)
  have s8 := s7.step (.fetch _ _ 1 (.fetchSome _ 1 [] rfl (by decide) rfl) rfl)
  have s9 := s8.step (.reader _ _ (.beginNext _ 0 1 0 rfl rfl rfl rfl (.inl (by decide))))
  have s10 := s9.step (.clean _ _ 0 [] (fun _ => []) (fun _ => false) (.cleanSome _ 0 [] 1 rfl rfl rfl (by
    show 1 ≤ 1
    decide)) rfl rfl (by
      show [] = _
      decide +kernel))
  refine ⟨_, s10, ?_, ?_, ?_⟩
  · show [0, 1].Nodup
    decide
  · rfl
  · decide +kernel

/-- **C57, a name with `.None`.** Without compression the text `.None` is taken out of the names of the chunks: a parquet file with it in its name is not
found in the table, and nothing is counted for it. -/
example : entrySize (sizeMap none [⟨"a.None.parquet", 2, 10, none⟩]) (chunkEntry none [⟨"a.None.parquet", 2, 10, none⟩] (fun _ => 1000) 0) = 0 := by
  decide +kernel

/-- When chunks are deleted as soon as they were read: a limit is set and the share of one node exceeds it. -/
theorem c57_when_processed (numBytes nodes maxCache : Nat) :
    deletesWhenProcessed numBytes nodes (some maxCache) = true ↔ 0 < maxCache ∧ maxCache < numBytes / nodes := by
  simp [deletesWhenProcessed, Nat.pos_iff_ne_zero]

example : deletesWhenProcessed 100 2 (some 40) = true ∧ deletesWhenProcessed 100 2 (some 50) = false := by decide

theorem strContains_iff (part s : PathStr) : strContains part s = true ↔ ∃ a b, s = a ++ part ++ b := by
  induction s with
  | nil =>
    simp only [strContains, beq_iff_eq]
    constructor
    · rintro rfl; exact ⟨[], [], rfl⟩
    · rintro ⟨a, b, h⟩
      have := congrArg List.length h
      simp only [List.length_nil, List.length_append] at this
      exact List.length_eq_zero_iff.1 (by omega)
  | cons c s ih =>
    simp only [strContains, Bool.or_eq_true, ih]
    constructor
    · rintro (h | ⟨a, b, h⟩)
      · obtain ⟨r, h⟩ := (isPrefixOf_iff ..).1 h
        exact ⟨[], r, h⟩
      · exact ⟨c :: a, b, by rw [h]; rfl⟩
    · rintro ⟨a, b, h⟩
      cases a with
      | nil => exact .inl ((isPrefixOf_iff ..).2 ⟨b, h⟩)
      | cons d a =>
        injection h with _ h
        exact .inr ⟨a, b, h⟩

/-- **C57, what is counted of other files.** A partial download, whose name is that of a `.bin` file and more, is counted with its bytes, unless it ends like a lock, a counter or an
index; so is a whole `.bin` file the index does not know; but not a compressed one. -/
theorem c57_other_files (map : List (String × Nat)) (name : String) (hno : map.lookup name = none) (bytes : Nat) :
    ((∃ a b, name.toList = a ++ ".bin".toList ++ b) → (∀ a, name.toList ≠ a ++ ".cnt".toList) → (∀ a, name.toList ≠ a ++ ".lock".toList) →
      (∀ a, name.toList ≠ a ++ ".json".toList) → (∀ a, name.toList ≠ a ++ ".zstd.bin".toList) → entrySize map ⟨name, true, bytes⟩ = bytes) ∧
    ((∃ a, name.toList = a ++ ".zstd.bin".toList) → entrySize map ⟨name, true, bytes⟩ = 0) ∧
    ((∃ a, name.toList = a ++ ".lock".toList ∨ name.toList = a ++ ".cnt".toList ∨ name.toList = a ++ ".json".toList) → entrySize map ⟨name, true, bytes⟩ = 0) ∧
    ((∀ a b, name.toList ≠ a ++ ".bin".toList ++ b) → entrySize map ⟨name, true, bytes⟩ = 0) ∧
    entrySize map ⟨name, false, bytes⟩ = 0 := by
  have hend : ∀ e : String, strEndsWith name e = true ↔ ∃ a, name.toList = a ++ e.toList := by
    intro e
    unfold strEndsWith
    rw [List.isSuffixOf_iff_suffix]
    constructor
    · rintro ⟨a, ha⟩; exact ⟨a, ha.symm⟩
    · rintro ⟨a, ha⟩; exact ⟨a, ha.symm⟩
  have hign : ignoredName name = true ↔ ∃ a, name.toList = a ++ ".cnt".toList ∨ name.toList = a ++ ".lock".toList ∨ name.toList = a ++ ".json".toList ∨
      name.toList = a ++ ".zstd.bin".toList := by
    unfold ignoredName
    simp only [List.any_cons, List.any_nil, Bool.or_false, Bool.or_eq_true, hend]
    constructor
    · rintro (⟨a, h⟩ | ⟨a, h⟩ | ⟨a, h⟩ | ⟨a, h⟩)
      · exact ⟨a, .inl h⟩
      · exact ⟨a, .inr (.inl h)⟩
      · exact ⟨a, .inr (.inr (.inl h))⟩
      · exact ⟨a, .inr (.inr (.inr h))⟩
    · rintro ⟨a, h | h | h | h⟩
      · exact .inl ⟨a, h⟩
      · exact .inr (.inl ⟨a, h⟩)
      · exact .inr (.inr (.inl ⟨a, h⟩))
      · exact .inr (.inr (.inr ⟨a, h⟩))
  unfold entrySize
  simp only [hno, Bool.not_true, Bool.false_eq_true, if_false, Bool.not_false, if_true, and_true]
  refine ⟨?_, ?_, ?_, ?_⟩
  · rintro hb h1 h2 h3 h4
    rw [if_neg, if_pos]
    · exact (strContains_iff _ _).2 hb
    · rw [hign]
      rintro ⟨a, h | h | h | h⟩
      · exact h1 a h
      · exact h2 a h
      · exact h3 a h
      · exact h4 a h
  · rintro ⟨a, h⟩
    rw [if_pos (hign.2 ⟨a, .inr (.inr (.inr h))⟩)]
  · rintro ⟨a, h | h | h⟩
    · rw [if_pos (hign.2 ⟨a, .inr (.inl h)⟩)]
    · rw [if_pos (hign.2 ⟨a, .inl h⟩)]
    · rw [if_pos (hign.2 ⟨a, .inr (.inr (.inl h))⟩)]
  · intro hb
    split
    · rfl
    · rw [if_neg]
      intro h
      obtain ⟨a, b, h⟩ := (strContains_iff _ _).1 h
      exact hb a b h

example : entrySize [("chunk-0-0.bin", 8)] ⟨"chunk-0-1.bin.7f2a", true, 5⟩ = 5 ∧ entrySize [("chunk-0-0.bin", 8)] ⟨"chunk-0-0.zstd.bin", true, 5⟩ = 0 ∧
    entrySize [("chunk-0-0.bin", 8)] ⟨"chunk-0-0.bin", true, 5⟩ = 8 := by decide +kernel

end LitData.Props
