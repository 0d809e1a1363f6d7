import Verif.Lemmas.Writer

/-! The writer on items added in any order: what is written and what is buffered is what was added. -/

namespace LitData

theorem bufPop_spec (buf : List (Nat × WItem)) (hn : (buf.map (·.1)).Nodup) (i : Nat) (x : WItem)
    (buf' : List (Nat × WItem)) (h : bufPop buf i = .ok (x, buf')) :
    buf.Perm ((i, x) :: buf') ∧ (buf'.map (·.1)).Nodup := by
  unfold bufPop at h
  split at h
  · simp at h
  · rename_i y hy
    simp only [Except.ok.injEq, Prod.mk.injEq] at h
    obtain ⟨rfl, rfl⟩ := h
    refine ⟨?_, ?_⟩
    · induction buf with
      | nil => simp [bufGet] at hy
      | cons e buf ih =>
        simp only [List.map_cons, List.nodup_cons] at hn
        unfold bufGet at hy
        rw [List.find?_cons] at hy
        by_cases he : e.1 = i
        · rw [show (e.1 == i) = true by simpa using he] at hy
          simp only [Option.map_some, Option.some.injEq] at hy
          rw [List.filter_cons, show (e.1 != i) = false by simpa using he]
          simp only [Bool.false_eq_true, if_false]
          rw [List.filter_eq_self.2]
          · rw [← he, ← hy]
          · intro f hf
            simp only [bne_iff_ne, ne_eq]
            intro h; apply hn.1; rw [he, ← h]; exact List.mem_map_of_mem hf
        · rw [show (e.1 == i) = false by simpa using he] at hy
          rw [List.filter_cons, show (e.1 != i) = true by simpa using he]
          simp only [if_true]
          exact (List.Perm.cons e (ih hn.2 hy)).trans (List.Perm.swap _ _ _)
    · exact hn.sublist (List.filter_sublist.map _)

theorem bufPopAll_spec (is : List Nat) : ∀ (buf : List (Nat × WItem)), (buf.map (·.1)).Nodup →
    ∀ (xs : List WItem) (buf' : List (Nat × WItem)), bufPopAll buf is = .ok (xs, buf') →
    buf.Perm (is.zip xs ++ buf') ∧ (buf'.map (·.1)).Nodup ∧ xs.length = is.length := by
  induction is with
  | nil => intro buf hn xs buf' h; simp [bufPopAll] at h; obtain ⟨rfl, rfl⟩ := h; exact ⟨by simp, hn, rfl⟩
  | cons i is ih =>
    intro buf hn xs buf' h
    unfold bufPopAll at h
    cases h1 : bufPop buf i with
    | error e => rw [h1] at h; simp [bind, Except.bind] at h
    | ok r =>
      obtain ⟨x, b1⟩ := r
      rw [h1] at h
      simp only [bind, Except.bind] at h
      cases h2 : bufPopAll b1 is with
      | error e => rw [h2] at h; simp at h
      | ok r =>
        obtain ⟨ys, b2⟩ := r
        rw [h2] at h
        simp only [pure, Except.pure, Except.ok.injEq, Prod.mk.injEq] at h
        obtain ⟨rfl, rfl⟩ := h
        obtain ⟨p1, n1⟩ := bufPop_spec buf hn i x b1 h1
        obtain ⟨p2, n2, l2⟩ := ih b1 n1 ys b2 h2
        exact ⟨p1.trans (by simpa using p2), n2, by simp [l2]⟩

theorem contiguous_eq (l : List Nat) (h : contiguous l = true) (hl : l ≠ []) :
    ∃ a, l = List.range' a l.length := by
  induction l with
  | nil => exact absurd rfl hl
  | cons a l ih =>
    cases l with
    | nil => exact ⟨a, rfl⟩
    | cons b l =>
      simp only [contiguous, Bool.and_eq_true, decide_eq_true_eq] at h
      obtain ⟨c, hc⟩ := ih h.2 (by simp)
      refine ⟨a, ?_⟩
      rw [List.length_cons, List.range'_succ, h.1]
      simp only [List.length_cons, List.range'_succ, List.cons.injEq] at hc
      obtain ⟨rfl, hc⟩ := hc
      congr 1
      rw [List.length_cons, List.range'_succ, ← hc]

/-- A chunk together with the indices of its items, which are consecutive. -/
def Run (c : List (Nat × WItem)) : Prop := c ≠ [] ∧ ∃ a, c.map (·.1) = List.range' a c.length

/-- What was written (`cs`, with indices) and what is buffered is what was added. -/
structure AnyInv (added : List (Nat × WItem)) (s : WriterState) (cs : List (List (Nat × WItem))) : Prop where
  chunks : s.chunks = cs.map (fun c => c.map (·.2))
  perm : added.Perm (cs.flatten ++ s.buf)
  runs : ∀ c ∈ cs, Run c
  nodup : (s.buf.map (·.1)).Nodup

theorem zip_run (a : Nat) (is : List Nat) (xs : List WItem) (hl : xs.length = is.length) (hne : xs ≠ [])
    (his : is = List.range' a is.length) : Run (is.zip xs) := by
  refine ⟨?_, a, ?_⟩
  · intro h
    have := congrArg List.length h
    rw [List.length_zip, hl, Nat.min_self] at this
    have : xs.length = 0 := by rw [hl]; exact this
    exact hne (List.length_eq_zero_iff.1 this)
  · rw [List.map_fst_zip (by omega), List.length_zip, hl, Nat.min_self]
    exact his

theorem writeChunk_any (cfg : WriterCfg) (s : WriterState) (onDone : Bool) (added cs) (h : AnyInv added s cs)
    (s' : WriterState) (hw : writeChunk cfg s onDone = .ok s') :
    ∃ cs', AnyInv added s' cs' ∧ (onDone = true → s'.buf = []) ∧
      s'.minIdx = s.minIdx ∧ s'.maxIdx = s.maxIdx := by
  unfold writeChunk at hw
  cases hc : chunkItems s onDone with
  | error e => rw [hc] at hw; simp [bind, Except.bind] at hw
  | ok r =>
    obtain ⟨items, buf⟩ := r
    rw [hc] at hw
    simp only [bind, Except.bind] at hw
    split at hw
    · simp at hw
    · rename_i hne
      split at hw
      · simp at hw
      · simp only [Except.ok.injEq] at hw
        have key : ∃ is a, is = List.range' a is.length ∧ s.buf.Perm (is.zip items ++ buf) ∧
            (buf.map (·.1)).Nodup ∧ items.length = is.length ∧ (onDone = true → buf = []) := by
          unfold chunkItems at hc
          split at hc
          · rename_i hd
            simp only at hc
            split at hc
            · rename_i hcont
              obtain ⟨p, n, l⟩ := bufPopAll_spec _ _ h.nodup _ _ hc
              have hlen := p.length_eq
              rw [List.length_append, List.length_zip, l, Nat.min_self, pySorted_length, List.length_map] at hlen
              have hb : buf = [] := List.length_eq_zero_iff.1 (by omega)
              obtain ⟨a, ha⟩ := contiguous_eq _ hcont (by
                intro h0; rw [h0] at l
                exact hne l)
              exact ⟨_, a, ha, p, n, l, fun _ => hb⟩
            · simp at hc
          · rename_i hd
            have hd' : onDone ≠ true := by simpa using hd
            split at hc
            · rename_i mx mn _ _
              split at hc
              · rename_i hmm
                cases h1 : bufPop s.buf mx with
                | error e => rw [h1] at hc; simp [bind, Except.bind] at hc
                | ok r =>
                  obtain ⟨x, b1⟩ := r
                  rw [h1] at hc
                  rw [hmm, Nat.sub_self] at hc
                  simp [bind, Except.bind, bufPopAll, pure, Except.pure] at hc
                  obtain ⟨rfl, rfl⟩ := hc
                  obtain ⟨p, n⟩ := bufPop_spec _ h.nodup _ _ _ h1
                  exact ⟨[mx], mx, rfl, by simpa using p, n, rfl, fun h => absurd h hd'⟩
              · obtain ⟨p, n, l⟩ := bufPopAll_spec _ _ h.nodup _ _ hc
                exact ⟨_, mn, by simp, p, n, l, fun h => absurd h hd'⟩
            · simp at hc
        obtain ⟨is, a, h1, h2, h3, h4, h5⟩ := key
        subst hw
        refine ⟨cs ++ [is.zip items], ⟨?_, ?_, ?_, h3⟩, h5, rfl, rfl⟩
        · rw [h.chunks, List.map_append, List.map_singleton, List.map_snd_zip (by omega)]
        · rw [List.flatten_append, List.flatten_singleton, List.append_assoc]
          exact h.perm.trans (List.Perm.append_left _ h2)
        · intro c hc
          rcases List.mem_append.1 hc with hc | hc
          · exact h.runs c hc
          · simp only [List.mem_singleton] at hc
            rw [hc]
            exact zip_run a is items h4 (by intro h0; rw [h0] at hne; exact hne rfl) h1

theorem scan_frame (cfg : WriterCfg) (s : WriterState) (f i nb ni : Nat) :
    (scan cfg s f i nb ni).2.buf = s.buf ∧ (scan cfg s f i nb ni).2.chunks = s.chunks := by
  induction f generalizing i nb ni with
  | zero => exact ⟨rfl, rfl⟩
  | succ f ih =>
    unfold scan
    split
    · split
      · simp only
        split
        · exact ⟨rfl, rfl⟩
        · exact ih _ _ _
      · exact ⟨rfl, rfl⟩
    · exact ⟨rfl, rfl⟩

theorem shouldWrite_frame (cfg : WriterCfg) (s : WriterState) :
    (shouldWrite cfg s).2.buf = s.buf ∧ (shouldWrite cfg s).2.chunks = s.chunks := by
  unfold shouldWrite
  split
  · exact ⟨rfl, rfl⟩
  · split
    · exact ⟨rfl, rfl⟩
    · exact scan_frame _ _ _ _ _ _

theorem AnyInv.frame {added s s' cs} (h : AnyInv added s cs) (h1 : s'.buf = s.buf) (h2 : s'.chunks = s.chunks) :
    AnyInv added s' cs := ⟨by rw [h2]; exact h.chunks, by rw [h1]; exact h.perm, h.runs, by rw [h1]; exact h.nodup⟩

theorem flushIf_any (cfg : WriterCfg) (s : WriterState) (added cs) (h : AnyInv added s cs) (s' : WriterState)
    (hf : flushIf cfg (shouldWrite cfg s) = .ok s') : ∃ cs', AnyInv added s' cs' := by
  have hs := h.frame (shouldWrite_frame cfg s).1 (shouldWrite_frame cfg s).2
  unfold flushIf at hf
  split at hf
  · cases hw : writeChunk cfg (shouldWrite cfg s).2 false with
    | error e => rw [hw] at hf; simp [bind, Except.bind] at hf
    | ok s1 =>
      rw [hw] at hf
      simp only [bind, Except.bind, pure, Except.pure, Except.ok.injEq] at hf
      obtain ⟨cs', h', _⟩ := writeChunk_any _ _ _ _ _ hs _ hw
      subst hf
      exact ⟨cs', h'.frame rfl rfl⟩
  · simp only [Except.ok.injEq] at hf
    subst hf
    exact ⟨cs, hs⟩

theorem addItem_any (cfg : WriterCfg) (s : WriterState) (added cs) (h : AnyInv added s cs) (i : Nat) (x : WItem)
    (s' : WriterState) (ha : addItem cfg s i x = .ok s') : ∃ cs', AnyInv (added ++ [(i, x)]) s' cs' := by
  unfold addItem at ha
  split at ha
  · simp at ha
  · rename_i hnew
    have hi : i ∉ s.buf.map (·.1) := by
      intro hm
      apply hnew
      unfold bufGet
      rw [Option.isSome_map, List.find?_isSome]
      obtain ⟨e, he, rfl⟩ := List.mem_map.1 hm
      exact ⟨e, he, by simp⟩
    have h0 : ∀ t : WriterState, t.buf = s.buf ++ [(i, x)] → t.chunks = s.chunks → AnyInv (added ++ [(i, x)]) t cs := by
      intro t hb hc
      refine ⟨by rw [hc]; exact h.chunks, ?_, h.runs, ?_⟩
      · rw [hb, ← List.append_assoc]; exact h.perm.append_right _
      · rw [hb, List.map_append, List.nodup_append]
        refine ⟨h.nodup, by simp, ?_⟩
        intro a ha b hb hab
        simp only [List.map_cons, List.map_nil, List.mem_singleton] at hb
        rw [hab, hb] at ha; exact hi ha
    simp only at ha
    split at ha
    · exact flushIf_any cfg _ _ cs (h0 _ (by rfl) (by rfl)) _ ha
    · split at ha
      · exact flushIf_any cfg _ _ cs (h0 _ (by rfl) (by rfl)) _ ha
      · split at ha
        · exact flushIf_any cfg _ _ cs (h0 _ (by rfl) (by rfl)) _ ha
        · simp only [Except.ok.injEq] at ha
          subst ha
          exact ⟨cs, h0 _ rfl rfl⟩

theorem addAll_any (cfg : WriterCfg) (ys : List (Nat × WItem)) : ∀ (s : WriterState) (added cs),
    AnyInv added s cs → ∀ s', addAll cfg s ys = .ok s' → ∃ cs', AnyInv (added ++ ys) s' cs' := by
  induction ys with
  | nil => intro s added cs h s' ha; simp only [addAll, Except.ok.injEq] at ha; subst ha; exact ⟨cs, by simpa using h⟩
  | cons y ys ih =>
    intro s added cs h s' ha
    obtain ⟨i, x⟩ := y
    unfold addAll at ha
    cases h1 : addItem cfg s i x with
    | error e => rw [h1] at ha; simp [Except.bind] at ha
    | ok s1 =>
      rw [h1] at ha
      simp only [Except.bind] at ha
      obtain ⟨cs1, h2⟩ := addItem_any cfg s added cs h i x s1 h1
      obtain ⟨cs2, h3⟩ := ih s1 _ cs1 h2 s' ha
      exact ⟨cs2, by simpa using h3⟩

theorem doneLoop_any (cfg : WriterCfg) (f : Nat) : ∀ (s : WriterState) (added cs), AnyInv added s cs →
    ∀ s', doneLoop cfg f s = .ok s' → ∃ cs', AnyInv added s' cs' := by
  induction f with
  | zero => intro s added cs h s' hd; simp only [doneLoop, Except.ok.injEq] at hd; subst hd; exact ⟨cs, h⟩
  | succ f ih =>
    intro s added cs h s' hd
    have hs := h.frame (shouldWrite_frame cfg s).1 (shouldWrite_frame cfg s).2
    unfold doneLoop at hd
    simp only at hd
    split at hd
    · cases hw : writeChunk cfg (shouldWrite cfg s).2 false with
      | error e => rw [hw] at hd; simp [Except.bind] at hd
      | ok s1 =>
        rw [hw] at hd
        simp only [Except.bind] at hd
        obtain ⟨cs', h', _⟩ := writeChunk_any _ _ _ _ _ hs _ hw
        exact ih s1 added cs' h' s' hd
    · simp only [Except.ok.injEq] at hd
      subst hd
      exact ⟨cs, hs⟩

theorem writerDone_any (cfg : WriterCfg) (s : WriterState) (added cs) (h : AnyInv added s cs) (s' : WriterState)
    (hd : writerDone cfg false s = .ok s') : ∃ cs', AnyInv added s' cs' ∧ s'.buf = [] := by
  unfold writerDone at hd
  simp only [Bool.false_eq_true, if_false] at hd
  cases hl : doneLoop cfg (s.buf.length + 1) s with
  | error e => rw [hl] at hd; simp [Except.bind] at hd
  | ok s1 =>
    rw [hl] at hd
    simp only [Except.bind] at hd
    obtain ⟨cs1, h1⟩ := doneLoop_any _ _ _ _ _ h _ hl
    split at hd
    · rename_i hb
      simp only [Except.ok.injEq] at hd
      subst hd
      exact ⟨cs1, h1, by simpa using hb⟩
    · obtain ⟨cs2, h2, h3, _⟩ := writeChunk_any _ _ _ _ _ h1 _ hd
      exact ⟨cs2, h2, h3 rfl⟩

end LitData
