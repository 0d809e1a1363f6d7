import Verif.Model.Decompress
import Verif.Props.Download
import Verif.Lemmas.ChunkFile

/-! C31: partial files are not read. -/

namespace LitData.Props

open LitData

/-- Reading a file that is a part of a chunk, from its beginning: nothing is opened, or the item is read. -/
theorem read_prefix (items : List Bytes) (path : String) (file : Option Nat) (data : Nat → Bytes) (k begin i : Nat) (hi : i < items.length)
    (hsz : (chunkBytes items).length < 2 ^ 32) (h : ∀ f, file = some f → data f <+: chunkBytes items) :
    loadItem (oneFile path file data) none none .init path k (begin + i) begin (chunkBytes items).length = .error .fileNotFound ∨
    ∃ st, loadItem (oneFile path file data) none none .init path k (begin + i) begin (chunkBytes items).length = .ok (items[i], st) := by
  unfold loadItem openChunk
  simp only [PyTreeState.init, oneFile, if_true, reduceCtorEq, if_false]
  cases hf : file with
  | none => left; rfl
  | some f =>
    have hn := h f hf
    simp only [Option.map_some]
    by_cases hl : (data f).length ≥ (chunkBytes items).length
    · right
      have : data f = chunkBytes items := hn.eq_of_length_le hl
      rw [if_pos hl, this]
      refine ⟨⟨some path, some (chunkBytes items), none⟩, ?_⟩
      rw [chunkBytes_length] at hsz
      have := loadData_chunkBytes items i hi (by omega)
      have e : itemOffset (begin + i) begin = (1 + i) * 4 := by
        unfold itemOffset
        rw [if_pos (by omega), show begin + i - begin = i by omega]
      rw [e]
      simp only [bind, Except.bind, this]
      rfl
    · left
      rw [if_neg hl]
      rfl

/-- Only process 0 runs. -/
def Solo (p : Nat) : Prop := p = 0

/-- Chunks are deleted while the process does nothing. -/
def ZQuiet (s : ZState) : Prop := s.pc 0 = .idle

structure ZInv (orig : Bytes) (s : ZState) : Prop where
  part : ∀ f, s.target = some f → f < s.fresh ∧ s.data f <+: orig
  write : ∀ f k, s.pc 0 = .writing f k → s.target = some f ∧ s.data f = orig.take k ∧ k ≤ orig.length
  none : s.pc 0 = .reading ∨ s.pc 0 = .have_ ∨ s.pc 0 = .ready → s.target = none

theorem zinv_step {orig : Bytes} {dl : Bool} {s t : ZState} (h : ZInv orig s) (hst : ZStep orig dl Solo ZQuiet s t) : ZInv orig t := by
  obtain ⟨h1, h2, h3⟩ := h
  cases hst <;> constructor <;> simp only [Solo, ZQuiet] at * <;> grind [upd, writeAt_take, List.take_prefix]

theorem zinv_steps {orig : Bytes} {dl : Bool} {s t : ZState} (h : ZInv orig s) (hst : ZSteps orig dl Solo ZQuiet s t) : ZInv orig t := by
  induction hst with
  | refl => exact h
  | tail _ h2 ih => exact zinv_step ih h2

theorem zinv_start (orig : Bytes) (comp : Bool) : ZInv orig (.start comp) :=
  ⟨fun _ h => (by cases h), fun _ _ h => (by cases h), fun h => (by rcases h with h | h | h <;> cases h)⟩

/-- **C31, decompression by one worker.** The thread may be killed and started again anywhere, and the chunk deleted between its
downloads. Reading item `i` of the chunk at any moment finds no file of the recorded size, or returns the item. -/
theorem c31_decompressed_partial (items : List Bytes) (dl comp : Bool) (s : ZState) (hst : ZSteps (chunkBytes items) dl Solo ZQuiet (.start comp) s)
    (path : String) (k begin i : Nat) (hi : i < items.length) (hsz : (chunkBytes items).length < 2 ^ 32) :
    loadItem (oneFile path s.target s.data) none none .init path k (begin + i) begin (chunkBytes items).length = .error .fileNotFound ∨
    ∃ st, loadItem (oneFile path s.target s.data) none none .init path k (begin + i) begin (chunkBytes items).length = .ok (items[i], st) :=
  read_prefix items path s.target s.data k begin i hi hsz fun f hf => ((zinv_steps (zinv_start _ comp) hst).part f hf).2

structure ZSettled (orig : Bytes) (s : ZState) (f : Nat) : Prop where
  inv : ZInv orig s
  data : s.data f = orig
  fresh : f < s.fresh

theorem zsettled_step {orig : Bytes} {dl : Bool} {s t : ZState} {f : Nat} (h : ZSettled orig s f) (hst : ZStep orig dl Solo ZQuiet s t) : ZSettled orig t f := by
  have hi := zinv_step h.inv hst
  obtain ⟨⟨h1, h2, h3⟩, h4, h5⟩ := h
  refine ⟨hi, ?_, ?_⟩
  · cases hst with
    | write p g k n hp hk hn =>
      cases hp
      obtain ⟨a, b, c⟩ := h2 g k hk
      by_cases e : g = f
      · subst e
        simp only [upd_same]
        rw [b, writeAt_take _ _ _ hn]
        rw [h4] at b
        have : orig.length ≤ k := by
          have := congrArg List.length b
          rw [List.length_take] at this
          omega
        exact List.take_of_length_le (by omega)
      · simp only; rw [upd_other _ _ (Ne.symm e)]; exact h4
    | truncate p g hp hr ht =>
      cases hp
      have := h3 (.inr (.inr hr))
      rw [this] at ht
      cases ht
    | create p hp hr ht =>
      simp only; rw [upd_other _ _ (by omega)]; exact h4
    | _ => exact h4
  · cases hst <;> simp only <;> omega

/-- **What a reader has opened stays**: once the decompressed file has its full size, the opened file never changes, whatever happens to
the path. -/
theorem c31_opened_stays_partial (orig : Bytes) (dl comp : Bool) (s t : ZState) (f : Nat) (hs : ZSteps orig dl Solo ZQuiet (.start comp) s) (hf : s.target = some f)
    (hl : orig.length ≤ (s.data f).length) (hst : ZSteps orig dl Solo ZQuiet s t) : t.data f = orig := by
  have hi := zinv_steps (zinv_start orig comp) hs
  obtain ⟨a, b⟩ := hi.part f hf
  have h0 : ZSettled orig s f := ⟨hi, b.eq_of_length_le hl, a⟩
  have : ZSettled orig t f := by
    induction hst with
    | refl => exact h0
    | tail _ h2 ih => exact zsettled_step ih h2
  exact this.data

/-- **C31 fails for two workers with the same cache.** Each finds no decompressed file. The first writes it and a reader opens it; the second
empties it. -/
theorem c31_two_workers : ∃ s t : ZState, ZSteps [7, 8] true (fun _ => True) ZQuiet (.start false) s ∧ s.target = some 0 ∧ s.data 0 = [7, 8] ∧
    ZSteps [7, 8] true (fun _ => True) ZQuiet s t ∧ t.target = some 0 ∧ t.data 0 = [] := by
  have h := ZSteps.refl (orig := [7, 8]) (dl := true) (runs := fun _ => True) (quiet := ZQuiet) (.start false)
  have h := h.tail (.absent _ 0 trivial rfl rfl rfl)
  have h := h.tail (.download _ 0 trivial rfl)
  have h := h.tail (.missing _ 0 trivial rfl rfl)
  have h := h.tail (.read _ 0 trivial rfl rfl)
  have h := h.tail (.remove _ 0 trivial rfl rfl rfl)
  have h := h.tail (.absent _ 1 trivial rfl rfl rfl)
  have h := h.tail (.download _ 1 trivial rfl)
  have h := h.tail (.missing _ 1 trivial rfl rfl)
  have h := h.tail (.read _ 1 trivial rfl rfl)
  have h := h.tail (.remove _ 1 trivial rfl rfl rfl)
  have h := h.tail (.create _ 0 trivial rfl rfl)
  have h := h.tail (.write _ 0 0 0 2 trivial rfl (by decide))
  exact ⟨_, _, h, rfl, rfl, .tail (.refl _) (.truncate _ 1 0 trivial rfl rfl), rfl, rfl⟩

/-- **The thread of a second worker dies** when the first one is still fetching the compressed file: the downloader returns without a file, and
opening it raises. -/
theorem c31_thread_dies : ∃ s : ZState, ZSteps [7, 8] true (fun _ => True) ZQuiet (.start false) s ∧ s.pc 1 = .dead := by
  have h := ZSteps.refl (orig := [7, 8]) (dl := true) (runs := fun _ => True) (quiet := ZQuiet) (.start false)
  have h := h.tail (.absent _ 0 trivial rfl rfl rfl)
  have h := h.tail (.absent _ 1 trivial rfl rfl rfl)
  have h := h.tail (.busy _ 1 trivial rfl)
  have h := h.tail (.missing _ 1 trivial rfl rfl)
  have h := h.tail (.readFails _ 1 trivial rfl rfl)
  exact ⟨_, h, rfl⟩

structure ZStuck (orig : Bytes) (s : ZState) (f : Nat) (part : Bytes) : Prop where
  target : s.target = some f
  data : s.data f = part
  pc : ∀ p, s.pc p = .idle ∨ s.pc p = .need ∨ s.pc p = .check

theorem zstuck_step {orig : Bytes} {dl : Bool} {runs : Nat → Prop} {s t : ZState} {f : Nat} {part : Bytes} (h : ZStuck orig s f part)
    (hst : ZStep orig dl runs (fun _ => False) s t) : ZStuck orig t f part := by
  obtain ⟨h1, h2, h3⟩ := h
  cases hst <;> constructor <;> grind [upd]

/-- **A crash while decompressing leaves the chunk unreadable.** The part that was written counts as the decompressed file, the compressed file is
gone, and no later run of any worker changes that unless the file is deleted. -/
theorem c31_crash_unreadable (orig : Bytes) (h0 : orig ≠ []) : ∃ s : ZState, ZSteps orig true Solo ZQuiet (.start false) s ∧
    ∃ f, s.target = some f ∧ (s.data f).length < orig.length ∧ (∀ p, s.pc p = .idle) ∧
    ∀ runs t, ZSteps orig true runs (fun _ => False) s t → t.target = some f ∧ t.data f = s.data f := by
  have h := ZSteps.refl (orig := orig) (dl := true) (runs := Solo) (quiet := ZQuiet) (.start false)
  have h := h.tail (.absent _ 0 rfl rfl rfl rfl)
  have h := h.tail (.download _ 0 rfl rfl)
  have h := h.tail (.missing _ 0 rfl rfl rfl)
  have h := h.tail (.read _ 0 rfl rfl rfl)
  have h := h.tail (.remove _ 0 rfl rfl rfl rfl)
  have h := h.tail (.create _ 0 rfl rfl rfl)
  have h := h.tail (.crash _ 0 rfl)
  refine ⟨_, h, 0, rfl, ?_, ?_, ?_⟩
  · exact List.length_pos_iff.2 h0
  · intro p
    by_cases hp : p = 0 <;> simp [upd, hp, ZState.start]
  · intro runs t hst
    have : ZStuck orig t 0 [] := by
      induction hst with
      | refl => exact ⟨rfl, rfl, fun p => by by_cases hp : p = 0 <;> simp [upd, hp, ZState.start]⟩
      | tail _ h2 ih => exact zstuck_step ih h2
    exact ⟨this.target, this.data⟩

structure CInv (orig : Bytes) (s : CState) : Prop where
  part : ∀ f, s.chunk = some f → f < s.fresh ∧ s.data f <+: orig
  write : ∀ p f k, s.pc p = .writing f k → s.chunk = some f ∧ s.data f = orig.take k ∧ k ≤ orig.length
  excl : ∀ p q, (s.pc p).inside = true → (s.pc q).inside = true → p = q

theorem cinv_step {orig : Bytes} {s t : CState} (h : CInv orig s) (hst : CStep orig true s t) : CInv orig t := by
  obtain ⟨h1, h2, h3⟩ := h
  cases hst <;> constructor <;> simp only [upd] <;> grind [upd, writeAt_take, List.take_prefix, CPc.inside]

theorem cinv_steps {orig : Bytes} {s t : CState} (h : CInv orig s) (hst : CSteps orig true s t) : CInv orig t := by
  induction hst with
  | refl => exact h
  | tail _ h2 ih => exact cinv_step ih h2

theorem cinv_start (orig : Bytes) : CInv orig .start :=
  ⟨fun _ h => (by cases h), fun _ _ _ h => (by cases h), fun _ _ h => (by cases h)⟩

/-- **C31, cloud downloads.** Any number of processes, with transfers that may break off anywhere, write to the path of the chunk. Reading item
`i` at any moment finds no file of the recorded size, or returns the item. -/
theorem c31_direct (items : List Bytes) (s : CState) (hst : CSteps (chunkBytes items) true .start s)
    (path : String) (k begin i : Nat) (hi : i < items.length) (hsz : (chunkBytes items).length < 2 ^ 32) :
    loadItem (oneFile path s.chunk s.data) none none .init path k (begin + i) begin (chunkBytes items).length = .error .fileNotFound ∨
    ∃ st, loadItem (oneFile path s.chunk s.data) none none .init path k (begin + i) begin (chunkBytes items).length = .ok (items[i], st) :=
  read_prefix items path s.chunk s.data k begin i hi hsz fun f hf => ((cinv_steps (cinv_start _) hst).part f hf).2

/-- **What a reader has opened stays**, for cloud downloads. -/
theorem c31_direct_stays (orig : Bytes) (s t : CState) (f : Nat) (hs : CSteps orig true .start s) (hf : s.chunk = some f)
    (hl : orig.length ≤ (s.data f).length) (hst : CSteps orig true s t) : t.data f = orig := by
  have hi := cinv_steps (cinv_start orig) hs
  have h0 : CInv orig s ∧ s.chunk = some f ∧ s.data f = orig := ⟨hi, hf, (hi.part f hf).2.eq_of_length_le hl⟩
  have : CInv orig t ∧ t.chunk = some f ∧ t.data f = orig := by
    induction hst with
    | refl => exact h0
    | tail _ h2 ih =>
      obtain ⟨a, b, c⟩ := ih
      refine ⟨cinv_step a h2, ?_⟩
      cases h2 with
      | write p g k n hp hn =>
        obtain ⟨x, y, z⟩ := a.write p g k hp
        rw [b] at x
        cases x
        refine ⟨b, ?_⟩
        simp only [upd_same]
        rw [y, writeAt_take _ _ _ hn]
        rw [c] at y
        have : orig.length ≤ k := by
          have := congrArg List.length y
          rw [List.length_take] at this
          omega
        exact List.take_of_length_le (by omega)
      | create p hp hc => rw [b] at hc; cases hc
      | truncate p g hr => cases hr
      | _ => exact ⟨b, c⟩
  exact this.2.2

/-- **C31 fails with `s5cmd`**, which is started without looking again. A process that saw no chunk waits for the lock; when it gets it, the chunk is there
and in use, and is emptied. -/
theorem c31_s5cmd : ∃ s t : CState, CSteps [7, 8] false .start s ∧ s.chunk = some 0 ∧ s.data 0 = [7, 8] ∧ CSteps [7, 8] false s t ∧ t.data 0 = [] := by
  have h := CSteps.refl (orig := [7, 8]) (recheck := false) .start
  have h := h.tail (.absent _ 0 rfl rfl)
  have h := h.tail (.absent _ 1 rfl rfl)
  have h := h.tail (.lock _ 0 rfl (fun q => by
    by_cases h0 : q = 0
    · subst h0; rfl
    · by_cases h1 : q = 1 <;> simp [upd, h0, h1, CState.start, CPc.inside]))
  have h := h.tail (.create _ 0 rfl rfl)
  have h := h.tail (.write _ 0 0 0 2 rfl (by decide))
  have h := h.tail (.written _ 0 0 rfl)
  refine ⟨_, _, h, rfl, rfl, .tail (.tail (.refl _) (.lock _ 1 rfl ?_)) (.truncate _ 1 0 rfl rfl rfl), rfl⟩
  intro q
  by_cases h0 : q = 0
  · subst h0; rfl
  · by_cases h1 : q = 1 <;> simp [upd, h0, h1, CState.start, CPc.inside]

/-- The hypotheses of `c31_direct` are met by a chunk of two items of which half has arrived. -/
example : ∃ s, CSteps (chunkBytes [[1, 2], [3]]) true .start s ∧ s.chunk = some 0 ∧ (s.data 0).length = 10 := by
  have h := CSteps.refl (orig := chunkBytes [[1, 2], [3]]) (recheck := true) .start
  have h := h.tail (.absent _ 0 rfl rfl)
  have h := h.tail (.lock _ 0 rfl (fun q => by by_cases h0 : q = 0 <;> simp [upd, h0, CState.start, CPc.inside]))
  have h := h.tail (.create _ 0 rfl rfl)
  have h := h.tail (.write _ 0 0 0 10 rfl (by decide))
  exact ⟨_, h, rfl, rfl⟩

/-- The hypotheses of `c31_decompressed_partial` are met by a chunk that is being decompressed, after a first attempt was killed before it
opened the file. -/
example : ∃ s, ZSteps (chunkBytes [[1, 2], [3]]) true Solo ZQuiet (.start false) s ∧ s.target = some 0 ∧ (s.data 0).length = 10 := by
  have h := ZSteps.refl (orig := chunkBytes [[1, 2], [3]]) (dl := true) (runs := Solo) (quiet := ZQuiet) (.start false)
  have h := h.tail (.absent _ 0 rfl rfl rfl rfl)
  have h := h.tail (.crash _ 0 rfl)
  have h := h.tail (.absent _ 0 rfl rfl rfl rfl)
  have h := h.tail (.download _ 0 rfl rfl)
  have h := h.tail (.missing _ 0 rfl rfl rfl)
  have h := h.tail (.read _ 0 rfl rfl rfl)
  have h := h.tail (.remove _ 0 rfl rfl rfl rfl)
  have h := h.tail (.create _ 0 rfl rfl rfl)
  have h := h.tail (.write _ 0 0 0 10 rfl rfl (by decide))
  exact ⟨_, h, rfl, rfl⟩

/-- A decompressed file that is not complete is being written, unless the process was killed. -/
def ZComplete (orig : Bytes) (s : ZState) : Prop :=
  s.killed = false → ∀ f, s.target = some f → s.data f = orig ∨ ∃ k, s.pc 0 = .writing f k

/-- **C31, completeness.** As long as the process is not killed, a decompressed file that is not being written is complete. -/
theorem c31_decompressed_complete (orig : Bytes) (dl comp : Bool) (s : ZState) (hst : ZSteps orig dl Solo ZQuiet (.start comp) s)
    (hk : s.killed = false) (f : Nat) (hf : s.target = some f) (hw : ∀ g k, s.pc 0 ≠ .writing g k) : s.data f = orig := by
  have key : ZInv orig s ∧ ZComplete orig s := by
    clear hk hf hw
    generalize hi : ZState.start comp = i at hst
    induction hst with
    | refl => subst hi; exact ⟨zinv_start orig comp, fun _ f h => by cases h⟩
    | tail _ h2 ih =>
      obtain ⟨hinv, hc⟩ := ih
      refine ⟨zinv_step hinv h2, ?_⟩
      unfold ZComplete at hc ⊢
      obtain ⟨h1, h2', h3⟩ := hinv
      cases h2 with
      | create p hr hp hn =>
        intro hk f hf
        simp only [Option.some.injEq] at hf
        subst hf
        exact .inr ⟨0, by simp [upd, show p = 0 from hr]⟩
      | write p g k n hr hp hn =>
        intro hk f hf
        rw [show p = 0 from hr] at hp ⊢
        have := (h2' g k hp).1
        simp only at hf
        rw [hf, Option.some.injEq] at this
        subst this
        exact .inr ⟨k + n, by simp [upd]⟩
      | _ => simp only [Solo, ZQuiet] at * <;> grind [upd, writeAt_take, List.take_prefix]
  rcases key.2 hk f hf with h | ⟨k, h⟩
  · exact h
  · exact absurd h (hw f k)

/-- A file that is not complete is being written, unless a process was killed. -/
def CComplete (orig : Bytes) (s : CState) : Prop :=
  s.killed = false → ∀ f, s.chunk = some f → s.data f = orig ∨ ∃ p k, s.pc p = .writing f k

/-- The same for cloud downloads, with any number of processes. -/
theorem c31_direct_complete (orig : Bytes) (s : CState) (hst : CSteps orig true .start s) (hk : s.killed = false) (f : Nat)
    (hf : s.chunk = some f) (hw : ∀ p g k, s.pc p ≠ .writing g k) : s.data f = orig := by
  have key : CInv orig s ∧ CComplete orig s := by
    clear hk hf hw
    generalize hi : CState.start = i at hst
    induction hst with
    | refl => subst hi; exact ⟨cinv_start orig, fun _ f h => by cases h⟩
    | tail _ h2 ih =>
      obtain ⟨hinv, hc⟩ := ih
      refine ⟨cinv_step hinv h2, ?_⟩
      unfold CComplete at hc ⊢
      obtain ⟨h1, h2', h3⟩ := hinv
      cases h2 with
      | write p g k n hp hn =>
        intro hk f hf
        rcases hc hk f hf with h | ⟨q, j, h⟩
        · have := (h2' p g k hp).1
          simp only at hf
          rw [hf, Option.some.injEq] at this
          subst this
          exact .inr ⟨p, k + n, by simp [upd]⟩
        · have := (h2' p g k hp).1
          have := (h2' q f j h).1
          exact .inr ⟨p, k + n, by simp_all [upd]⟩
      | written p g hp =>
        intro hk f hf
        left
        have h4 := h2' p g _ hp
        simp only at hf
        rw [hf, Option.some.injEq] at h4
        rw [h4.1, h4.2.1, List.take_length]
      | create p hp hn =>
        intro hk f hf
        simp only [Option.some.injEq] at hf
        subst hf
        exact .inr ⟨p, 0, by simp [upd]⟩
      | crash p => intro hk; cases hk
      | truncate p f h => cases h
      | _ =>
        intro hk f hf
        rcases hc hk f hf with h | ⟨q, j, h⟩
        · exact .inl h
        · refine .inr ⟨q, j, ?_⟩
          simp only at *
          grind [upd, CPc.inside]
  rcases key.2 hk f hf with h | ⟨p, k, h⟩
  · exact h
  · exact absurd h (hw p f k)

/-- Two bytes, fetched, decompressed and written. -/
example : ∃ s : ZState, ZSteps [7, 8] true Solo ZQuiet (.start false) s ∧ s.killed = false ∧ s.target = some 0 ∧ ∀ g k, s.pc 0 ≠ .writing g k := by
  have h := ZSteps.refl (orig := [7, 8]) (dl := true) (runs := Solo) (quiet := ZQuiet) (.start false)
  have h := h.tail (.absent _ 0 rfl rfl rfl rfl)
  have h := h.tail (.download _ 0 rfl rfl)
  have h := h.tail (.missing _ 0 rfl rfl rfl)
  have h := h.tail (.read _ 0 rfl rfl rfl)
  have h := h.tail (.remove _ 0 rfl rfl rfl rfl)
  have h := h.tail (.create _ 0 rfl rfl rfl)
  have h := h.tail (.write _ 0 0 0 2 rfl rfl (by decide))
  have h := h.tail (.written _ 0 0 rfl rfl)
  exact ⟨_, h, rfl, rfl, fun g k e => by simp [upd] at e⟩

end LitData.Props
