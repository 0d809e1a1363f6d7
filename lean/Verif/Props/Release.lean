import Verif.Props.Parquet
import Verif.Props.Tokens

/-! C52: what the item loaders hold in memory, and when they let it go. -/

namespace LitData.Props

open LitData

variable {R : Type}

/-- Whether a call reads a row of group `gi` of chunk `k`, whose groups have `n` rows. -/
def ParquetOp.reads (k n gi : Nat) : ParquetOp → Bool
  | .load k' i b _ => k' == k && (i - b) / n == gi
  | _ => false

/-- A call that does not close chunk `k`, and if it reads from it, reads a row that is there. -/
def ParquetOp.valid (data : Nat → ParquetFile R) (k n : Nat) : ParquetOp → Prop
  | .load k' i b p => k' = k → p = true ∧ b ≤ i ∧ ∃ r, ((data k)[(i - b) / n]?.bind fun g => g[(i - b) % n]?) = some r
  | .close k' => k' ≠ k
  | .preLoad _ _ => True

/-- A chunk of which nothing is held. -/
def parquetFree (st : ParquetState R) (k : Nat) : Prop := st.df k = none ∧ ∀ j, st.groups k j = none ∧ st.count k j = 0

/-- **C52.** Closing a chunk releases the file and all its row groups, and nothing of any other chunk. -/
theorem c52_parquet_close (st : ParquetState R) (k : Nat) : parquetFree (parquetClose st k) k ∧ ∀ i, i ≠ k →
    (parquetClose st k).df i = st.df i ∧ (parquetClose st k).groups i = st.groups i ∧ (parquetClose st k).count i = st.count i := by
  unfold parquetFree parquetClose
  refine ⟨⟨by simp, fun j => by simp⟩, fun i h => ⟨by simp [h], by funext j; simp [h], by funext j; simp [h]⟩⟩

/-- A read of another chunk leaves this chunk alone. -/
theorem parquetLoad_other {low : Bool} {file : Option (ParquetFile R)} {st st' : ParquetState R} {k' i b k : Nat} {r : R} (hk : k' ≠ k)
    (h : parquetLoad low file st k' i b = .ok (r, st')) : st'.groups k = st.groups k ∧ st'.count k = st.count k := by
  have hk' : ¬ k = k' := fun e => hk e.symm
  have hrel : ∀ (s0 : ParquetState R) (gi n : Nat), (parquetRelease s0 k' gi n).groups k = s0.groups k ∧ (parquetRelease s0 k' gi n).count k = s0.count k := by
    intro s0 gi n
    unfold parquetRelease
    split
    · constructor <;> funext j <;> simp [upd2, hk']
    · exact ⟨rfl, rfl⟩
  unfold parquetLoad at h
  split at h
  · cases h
  split at h
  · unfold parquetLow at h
    split at h
    · cases h
    split at h
    · cases h
    split at h
    · cases h
    simp only at h
    split at h
    · cases h
    rename_i g s1 hm
    split at h
    · cases h
    simp only [Except.ok.injEq, Prod.mk.injEq] at h
    rw [← h.2, (hrel _ _ _).1, (hrel _ _ _).2]
    split at hm
    · simp only [Option.some.injEq, Prod.mk.injEq] at hm
      rw [← hm.2]
      exact ⟨rfl, by funext j; simp [upd2, hk']⟩
    · split at hm
      · cases hm
      · simp only [Option.some.injEq, Prod.mk.injEq] at hm
        rw [← hm.2]
        exact ⟨by funext j; simp [upd2, hk'], by funext j; simp [upd2, hk']⟩
  · unfold parquetHigh at h
    split at h
    · cases h
    split at h
    · cases h
    simp only [Except.ok.injEq, Prod.mk.injEq] at h
    rw [← h.2]
    exact ⟨rfl, rfl⟩

/-- What is held of chunk `k` after `c gi` reads of each group. -/
def Held (n : Nat) (st : ParquetState R) (k : Nat) (c : Nat → Nat) : Prop :=
  ∀ j, ((st.groups k j).isSome = true ↔ c j % n ≠ 0) ∧ st.count k j = c j % n

theorem held_low {data : Nat → ParquetFile R} {st : ParquetState R} (hi : ParquetInv data st) {k n : Nat} (g0 : List R) (h0 : (data k)[0]? = some g0) (hg : g0.length = n)
    (hn : 0 < n) {c : Nat → Nat} (hh : Held n st k c) {row : Nat} {r : R} (hr : ((data k)[row / n]?.bind fun g => g[row % n]?) = some r) :
    ∃ st', parquetLow (some (data k)) st k row = .ok (r, st') ∧ Held n st' k fun j => c j + if row / n = j then 1 else 0 := by
  have hu := parquet_used hi k true
  rw [show fileIf data k true = some (data k) from rfl, if_pos (.inr rfl)] at hu
  unfold parquetLow
  rw [hu]
  simp only [h0, hg]
  rw [if_neg (by omega)]
  obtain ⟨ha, hb⟩ := hh (row / n)
  have hlt := Nat.mod_lt (c (row / n)) hn
  cases hgi : (data k)[row / n]? with
  | none => rw [hgi] at hr; cases hr
  | some g =>
    rw [hgi, Option.bind_some] at hr
    have hmod : (c (row / n) + 1) % n = if c (row / n) % n + 1 = n then 0 else c (row / n) % n + 1 := by
      have e : c (row / n) + 1 = n * (c (row / n) / n) + (c (row / n) % n + 1) := by have := Nat.div_add_mod (c (row / n)) n; omega
      rw [e, Nat.mul_add_mod]
      split
      · rename_i h; rw [h, Nat.mod_self]
      · rw [Nat.mod_eq_of_lt (by omega)]
    cases hgr : st.groups k (row / n) with
    | some g' =>
      have := hi.groups _ _ _ hgr
      rw [hgi] at this
      obtain rfl := Option.some.inj this
      simp only [hr]
      refine ⟨_, rfl, ?_⟩
      intro j
      unfold parquetRelease
      simp only [upd2, and_true, if_true]
      by_cases hj : row / n = j
      · subst hj
        rw [hgr] at ha
        simp only [Option.isSome_some, true_iff] at ha
        simp only [if_true, hmod, hb]
        by_cases hc : c (row / n) % n + 1 = n
        · rw [if_pos (by omega), if_pos hc]; simp [upd2]
        · rw [if_neg (by omega), if_neg hc]; simp [hgr, upd2]
      · have hj' : ¬ j = row / n := fun e => hj e.symm
        simp only [if_neg hj, Nat.add_zero]
        split <;> simp only [upd2, hj', and_false, if_false] <;> exact hh j
    | none =>
      rw [hgr] at ha
      simp only [hr]
      refine ⟨_, rfl, ?_⟩
      intro j
      have ha0 : c (row / n) % n = 0 := by
        rcases Nat.eq_zero_or_pos (c (row / n) % n) with h | h
        · exact h
        · have := ha.2 (by omega); simp at this
      unfold parquetRelease
      simp only [upd2, and_true, if_true]
      by_cases hj : row / n = j
      · subst hj
        simp only [if_true, hmod, ha0]
        by_cases hc : n = 1
        · rw [if_pos (by omega), if_pos (by omega)]; simp [upd2]
        · rw [if_neg (by omega), if_neg (by omega)]; simp [upd2]
      · have hj' : ¬ j = row / n := fun e => hj e.symm
        simp only [if_neg hj, Nat.add_zero]
        split <;> simp only [upd2, hj', and_false, if_false] <;> exact hh j

/-- **C52, low-memory mode.** A row group is held only while some but not all of its rows have been read: whatever is done with
other chunks, after `c` reads of rows of the group since the chunk was last closed, it is in memory just when `c` is not a multiple
of the number of its rows. In particular after one pass over the rows, in any order, nothing is held. -/
theorem c52_row_groups (data : Nat → ParquetFile R) (k : Nat) (g0 : List R) (h0 : (data k)[0]? = some g0) (hn : 0 < g0.length) (before ops : List ParquetOp)
    (hv : ∀ op ∈ ops, op.valid data k g0.length) (gi : Nat) :
    let st := ops.foldl (parquetStep true data) (parquetClose (before.foldl (parquetStep true data) ParquetState.init) k)
    (st.groups k gi).isSome = true ↔ ops.countP (fun op => op.reads k g0.length gi) % g0.length ≠ 0 := by
  have hi := parquetStep_inv (low := true) (.close k) (parquetRun_inv true data before)
  simp only [parquetStep] at hi
  have hstart : Held g0.length (parquetClose (before.foldl (parquetStep true data) ParquetState.init) k) k (fun _ => 0) := by
    intro j
    obtain ⟨⟨_, h⟩, _⟩ := c52_parquet_close (before.foldl (parquetStep true data) ParquetState.init) k
    rw [(h j).1, (h j).2]; simp
  generalize parquetClose (before.foldl (parquetStep true data) ParquetState.init) k = st at hi hstart
  have key : ∀ (ops : List ParquetOp) (st : ParquetState R) (c : Nat → Nat), ParquetInv data st → Held g0.length st k c → (∀ op ∈ ops, op.valid data k g0.length) →
      Held g0.length (ops.foldl (parquetStep true data) st) k (fun j => c j + ops.countP fun op => op.reads k g0.length j) := by
    intro ops
    induction ops with
    | nil => intro st c _ h _; simpa using h
    | cons op ops ih =>
      intro st c hi hh hv
      have hstep : Held g0.length (parquetStep true data st op) k (fun j => c j + if op.reads k g0.length j then 1 else 0) := by
        have hvo := hv op (by simp)
        cases op with
        | preLoad k' p =>
          simp only [parquetStep, parquetPreLoad, ParquetOp.reads, if_true, Bool.false_eq_true, if_false, Nat.add_zero]
          exact hh
        | close k' =>
          obtain ⟨_, h⟩ := c52_parquet_close st k'
          obtain ⟨_, h2, h3⟩ := h k (fun e => hvo e.symm)
          simp only [parquetStep, ParquetOp.reads, Bool.false_eq_true, if_false, Nat.add_zero]
          intro j
          rw [h2, h3]; exact hh j
        | load k' i b p =>
          by_cases hk : k' = k
          · subst hk
            obtain ⟨rfl, hb, r, hr⟩ := hvo rfl
            obtain ⟨st', h1, h2⟩ := held_low hi g0 h0 rfl hn hh hr
            have e : parquetLoad true (fileIf data k' true) st k' i b = .ok (r, st') := by
              unfold parquetLoad; rw [if_neg (by omega)]; exact h1
            simp only [parquetStep, e, ParquetOp.reads, beq_self_eq_true, Bool.true_and, beq_iff_eq]
            exact h2
          · have : (k' == k) = false := by simp [hk]
            simp only [parquetStep, ParquetOp.reads, this, Bool.false_and, Bool.false_eq_true, if_false, Nat.add_zero]
            split
            · rename_i r st' h
              obtain ⟨h1, h2⟩ := parquetLoad_other hk h
              intro j
              rw [h1, h2]; exact hh j
            · exact hh
      have := ih _ _ (parquetStep_inv op hi) hstep (fun o h => hv o (List.mem_cons_of_mem _ h))
      rw [List.foldl_cons]
      intro j
      have hj := this j
      simp only [List.countP_cons] at hj ⊢
      rw [show c j + (List.countP (fun op => op.reads k g0.length j) ops + if op.reads k g0.length j = true then 1 else 0) =
        c j + (if op.reads k g0.length j = true then 1 else 0) + List.countP (fun op => op.reads k g0.length j) ops by omega]
      exact hj
  have := (key ops st _ hi hstart hv gi).1
  simpa using this

/-- Two row groups of two rows; three reads among reads of another chunk. -/
example : (∀ op ∈ [ParquetOp.load 0 1 0 true, .load 7 0 0 true, .close 7, .load 0 2 0 true, .load 0 0 0 true],
      op.valid (fun _ => [[10, 11], [12, 13]]) 0 2) ∧
    ([ParquetOp.load 0 1 0 true, .load 7 0 0 true, .close 7, .load 0 2 0 true, .load 0 0 0 true].countP fun op => op.reads 0 2 0) = 2 ∧
    ([ParquetOp.load 0 1 0 true, .load 7 0 0 true, .close 7, .load 0 2 0 true, .load 0 0 0 true].countP fun op => op.reads 0 2 1) = 1 := by
  refine ⟨?_, by decide, by decide⟩
  intro op hop
  simp only [List.mem_cons, List.not_mem_nil, or_false] at hop
  rcases hop with rfl | rfl | rfl | rfl | rfl
  · exact fun _ => ⟨rfl, by decide, 11, rfl⟩
  · intro h; cases h
  · intro h; cases h
  · exact fun _ => ⟨rfl, by decide, 12, rfl⟩
  · exact fun _ => ⟨rfl, by decide, 10, rfl⟩

/-- `n` calls that find or make the memory map of chunk `k`: blocks read by the reader and loads ahead by the other thread, with any
state of the file system at each. -/
inductive TokTouches (chunks : List ChunkInfo) (bs sz k : Nat) : Nat → TokState → TokState → Prop
  | none (st : TokState) : TokTouches chunks bs sz k 0 st st
  | read {n : Nat} {st st1 st2 : TokState} (fs : String → Option Bytes) (i : Nat) (path : String) (b size : Nat) (v : TokView) : TokTouches chunks bs sz k n st st1 →
      tokLoadItem fs chunks bs sz st1 i k path b size = .ok (v, st2) → TokTouches chunks bs sz k (n + 1) st st2
  | ahead {n : Nat} {st st1 st2 : TokState} (fs : String → Option Bytes) (path : String) (file : Bytes) : TokTouches chunks bs sz k n st st1 → fs path = some file → file ≠ [] →
      tokPreLoad fs chunks st1 k path = .ok st2 → TokTouches chunks bs sz k (n + 1) st st2

theorem tokLoadChunk_counter {fs : String → Option Bytes} {chunks : List ChunkInfo} {st st' : TokState} {k : Nat} {path : String}
    (h : tokLoadChunk fs chunks st k path = .ok st') : st'.counter k = st.counter k + 1 ∧ (st'.current k).isSome = true ∧ ∀ i, i ≠ k → st'.counter i = st.counter i ∧ st'.current i = st.current i := by
  unfold tokLoadChunk at h
  simp only at h
  split at h
  · rename_i m hm
    simp only [Except.ok.injEq] at h
    subst h
    exact ⟨by simp, by simp only; rw [hm]; rfl, fun i hi => by simp [hi]⟩
  · split at h
    · cases h
    · split at h
      · cases h
      · split at h
        · cases h
        · simp only [Except.ok.injEq] at h
          subst h
          exact ⟨by simp, by simp, fun i hi => by simp [hi]⟩

theorem touches_counter {chunks : List ChunkInfo} {bs sz k n : Nat} {st st' : TokState} (h : TokTouches chunks bs sz k n st st') :
    st'.counter k = st.counter k + n ∧ (0 < n → (st'.current k).isSome = true) := by
  induction h with
  | none st => simp
  | read fs i path b size v _ h ih =>
    unfold tokLoadItem at h
    split at h
    · cases h
    split at h
    · cases h
    rename_i sw hw
    split at h
    · cases h
    rename_i s2 hl
    have hc := tokLoadChunk_counter hl
    have hwc : ∀ {fs : String → Option Bytes} {s s' : TokState} {path : String} {size : Nat}, tokWait fs s path size = .ok s' → s'.counter = s.counter := by
      intro fs s s' path size hw
      unfold tokWait at hw
      simp only at hw
      (repeat' split at hw) <;> first | (simp only [Except.ok.injEq] at hw; subst hw; rfl) | cases hw
    rw [hwc hw] at hc
    split at h
    · cases h
    simp only at h
    split at h
    · cases h
    split at h
    · split at h
      · simp only [Except.ok.injEq, Prod.mk.injEq] at h
        rw [← h.2]
        exact ⟨by rw [hc.1, ih.1]; omega, fun _ => hc.2.1⟩
      · cases h
    · cases h
  | ahead fs path file _ hf hne h ih =>
    unfold tokPreLoad at h
    simp only [hf] at h
    rw [if_pos (List.length_pos_iff.2 hne)] at h
    have hc := tokLoadChunk_counter h
    refine ⟨?_, fun _ => hc.2.1⟩
    rw [hc.1]
    split <;> · show _ + _ = _; rw [ih.1]; omega

/-- **C52 for blocks of tokens, what happens.** The reader closes a chunk once, but the chunk counts every block read and every load
ahead: closing it releases the memory map exactly when it was touched once. -/
theorem c52_tokens_close (chunks : List ChunkInfo) (bs sz k n : Nat) (st st' : TokState) (h0 : st.counter k = 0) (hn : 0 < n) (h : TokTouches chunks bs sz k n st st') :
    (tokClose st' k).current k = none ↔ n = 1 := by
  obtain ⟨h1, h2⟩ := touches_counter h
  have hs := h2 hn
  rw [h0] at h1
  unfold tokClose
  simp only [if_true, h1]
  obtain ⟨m, hm⟩ := Option.isSome_iff_exists.1 hs
  by_cases hone : n = 1
  · subst hone
    simp [tokUnmap, hm]
  · rw [if_neg (by omega)]
    simp [hone, hm]

/-- **C52 fails for blocks of tokens.** With two blocks read, the memory map outlives `close`; only `delete` releases it. -/
theorem c52_tokens_leak : ∃ st', TokTouches (demoTok.map tokInfo) 1 2 0 2 TokState.init st' ∧ (tokClose st' 0).current 0 = some 0 ∧
    (tokClose st' 0).maps[0]? = some (some [1, 0, 2, 0, 3, 0]) := by
  refine ⟨⟨[some [1, 0, 2, 0, 3, 0]], fun i => if i = 0 then some 0 else none, fun i => if i = 0 then (if i = 0 then 0 + 1 else 0) + 1 else if i = 0 then 0 + 1 else 0, ["a"]⟩, ?_, by decide, by decide⟩
  exact .read (fun p => if p = "a" then some (tokFile ("a", [[[1, 0], [2, 0]], [[3, 0]]])) else none) 1 "a" 0 22 ⟨0, 2, 1⟩
    (.read (fun p => if p = "a" then some (tokFile ("a", [[[1, 0], [2, 0]], [[3, 0]]])) else none) 0 "a" 0 22 ⟨0, 0, 1⟩ (.none _) rfl) rfl

/-- **C52 for blocks of tokens.** Deleting a chunk releases its memory map, however often it was read. -/
theorem c52_tokens_delete (fs : String → Option Bytes) (st : TokState) (k : Nat) (path : String) (hp : fs path ≠ none) :
    (tokDelete fs st k path).1.current k = none ∧ (st.current k ≠ none → (tokDelete fs st k path).1.counter k = 0) ∧ (tokDelete fs st k path).2 path = none ∧
    ∀ i, i ≠ k → (tokDelete fs st k path).1.current i = st.current i ∧ (tokDelete fs st k path).1.counter i = st.counter i := by
  unfold tokDelete
  cases hf : fs path with
  | none => exact absurd hf hp
  | some f =>
    cases hc : st.current k with
    | none => exact ⟨hc, fun h => absurd rfl h, by simp, fun i _ => ⟨rfl, rfl⟩⟩
    | some m =>
      refine ⟨by simp [tokUnmap, hc], fun _ => by simp, by simp, fun i hi => ⟨by simp [tokUnmap, hc, hi], by simp [hi]⟩⟩

end LitData.Props
