import Verif.Model.Parquet
import Verif.Lemmas.Names

/-! Properties C33 and C34: parquet files. -/

namespace LitData.Props
open LitData

variable {R : Type}

/-! ### C33 -/

/-- All row groups but the last have the same number of rows, and the last has no more. -/
def UniformGroups (f : ParquetFile R) : Prop :=
  ∃ n, 0 < n ∧ (∀ i g, i + 1 < f.length → f[i]? = some g → g.length = n) ∧ ∀ g ∈ f, g.length ≤ n

theorem flatten_uniform (n : Nat) (hn : 0 < n) (f : ParquetFile R) (h1 : ∀ (i : Nat) g, i + 1 < f.length → f[i]? = some g → g.length = n)
    (h2 : ∀ g ∈ f, g.length ≤ n) (i : Nat) : f.flatten[i]? = f[i / n]?.bind fun g => g[i % n]? := by
  induction f generalizing i with
  | nil => simp
  | cons g f ih =>
    have hg := h2 g (by simp)
    rw [List.flatten_cons]
    by_cases hi : i < n
    · rw [Nat.div_eq_of_lt hi, Nat.mod_eq_of_lt hi]
      simp only [List.getElem?_cons_zero, Option.bind_some]
      by_cases hl : i < g.length
      · rw [List.getElem?_append_left hl]
      · have hf : f = [] := by
          cases f with
          | nil => rfl
          | cons x f => have := h1 0 g (by simp) rfl; omega
        subst hf
        simp [List.getElem?_eq_none (Nat.le_of_not_lt hl)]
    · have e1 : i / n = (i - n) / n + 1 := by
        conv => lhs; rw [show i = i - n + n by omega]
        rw [Nat.add_div_right _ hn]
      have e2 : i % n = (i - n) % n := by
        conv => lhs; rw [show i = i - n + n by omega]
        rw [Nat.add_mod_right]
      rw [e1, e2, List.getElem?_cons_succ, List.getElem?_append_right (by omega)]
      cases f with
      | nil => simp
      | cons x f =>
        have hgn := h1 0 g (by simp) rfl
        rw [hgn]
        exact ih (fun i g hi hg => h1 (i + 1) g (by simpa using hi) (by simpa using hg)) (fun g hg => h2 g (List.mem_cons_of_mem _ hg)) _

/-- The calls on a loader; `present` tells whether the file is there. -/
inductive ParquetOp where
  | preLoad (k : Nat) (present : Bool)
  | load (k index begin : Nat) (present : Bool)
  | close (k : Nat)

/-- The file of a chunk, if it is there. -/
def fileIf (data : Nat → ParquetFile R) (k : Nat) (present : Bool) : Option (ParquetFile R) := if present then some (data k) else none

/-- One call; one that raises leaves the state as it was. -/
def parquetStep (low : Bool) (data : Nat → ParquetFile R) (st : ParquetState R) : ParquetOp → ParquetState R
  | .preLoad k p => parquetPreLoad low (fileIf data k p) st k
  | .load k i b p => match parquetLoad low (fileIf data k p) st k i b with
    | .ok (_, st') => st'
    | .error _ => st
  | .close k => parquetClose st k

/-- What holds at every instant. -/
structure ParquetInv (data : Nat → ParquetFile R) (st : ParquetState R) : Prop where
  df : ∀ k f, st.df k = some f → f = data k
  groups : ∀ k i g, st.groups k i = some g → (data k)[i]? = some g

theorem fileIf_eq {data : Nat → ParquetFile R} {k : Nat} {p : Bool} {f : ParquetFile R} (h : fileIf data k p = some f) : f = data k := by
  unfold fileIf at h; split at h
  · exact (Option.some.inj h).symm
  · cases h

/-- The file used by a call. -/
theorem parquet_used {data : Nat → ParquetFile R} {st : ParquetState R} (hi : ParquetInv data st) (k : Nat) (p : Bool) :
    openDf st k (fileIf data k p) = if st.df k ≠ none ∨ p = true then some (data k) else none := by
  unfold openDf
  cases h : st.df k with
  | some f => simp [hi.df k f h]
  | none => simp [fileIf]

theorem parquetLow_spec {data : Nat → ParquetFile R} {st : ParquetState R} (hi : ParquetInv data st) (k row : Nat) (p : Bool)
    (g0 : List R) (h0 : (data k)[0]? = some g0) (hn : 0 < g0.length) (h : st.df k ≠ none ∨ p = true) :
    ∃ st', ParquetInv data st' ∧ parquetLow (fileIf data k p) st k row =
      match (data k)[row / g0.length]?.bind fun g => g[row % g0.length]? with
      | some r => .ok (r, st')
      | none => .error .indexError := by
  unfold parquetLow
  rw [parquet_used hi, if_pos h]
  simp only [h0]
  rw [if_neg (by omega)]
  have hdf : ∀ i f, (if i = k then some (data k) else st.df i) = some f → f = data i := by
    intro i f hf
    split at hf
    · rename_i e; subst e; exact (Option.some.inj hf).symm
    · exact hi.df i f hf
  have hrel : ∀ (s0 : ParquetState R) (gi n : Nat), ParquetInv data s0 → ParquetInv data (parquetRelease s0 k gi n) := by
    intro s0 gi n h0
    unfold parquetRelease
    split
    · refine ⟨h0.df, ?_⟩
      intro i j g hg
      simp only [upd2] at hg
      split at hg
      · cases hg
      · exact h0.groups i j g hg
    · exact h0
  cases hg : st.groups k (row / g0.length) with
  | some g =>
    have hgi := hi.groups _ _ _ hg
    simp only [hgi, Option.bind_some]
    refine ⟨_, hrel { st with df := fun i => if i = k then some (data k) else st.df i,
                              count := upd2 st.count k (row / g0.length) (st.count k (row / g0.length) + 1) } (row / g0.length) g0.length ⟨hdf, hi.groups⟩, ?_⟩
    cases hr : g[row % g0.length]? with
    | none => rfl
    | some r => rfl
  | none =>
    cases hgi : (data k)[row / g0.length]? with
    | none => exact ⟨st, hi, rfl⟩
    | some g =>
      simp only [Option.bind_some]
      refine ⟨_, hrel { st with df := fun i => if i = k then some (data k) else st.df i,
                                groups := upd2 st.groups k (row / g0.length) (some g), count := upd2 st.count k (row / g0.length) 1 } (row / g0.length) g0.length ⟨hdf, ?_⟩, ?_⟩
      · intro i j g' hg'
        simp only [upd2] at hg'
        split at hg'
        · rename_i e; obtain ⟨rfl, rfl⟩ := e
          rw [hgi, hg']
        · exact hi.groups i j g' hg'
      · cases hr : g[row % g0.length]? with
        | none => rfl
        | some r => rfl

theorem parquetLoad_inv {low : Bool} {data : Nat → ParquetFile R} {st : ParquetState R} (hi : ParquetInv data st) {k i b : Nat} {p : Bool} {r : R}
    {st' : ParquetState R} (h : parquetLoad low (fileIf data k p) st k i b = .ok (r, st')) : ParquetInv data st' := by
  unfold parquetLoad at h
  split at h
  · cases h
  · split at h
    · by_cases hu : st.df k ≠ none ∨ p = true
      · cases h0 : (data k)[0]? with
        | none => unfold parquetLow at h; rw [parquet_used hi, if_pos hu] at h; simp only [h0] at h; cases h
        | some g0 =>
          by_cases hn : 0 < g0.length
          · obtain ⟨s1, h1, h2⟩ := parquetLow_spec hi k (i - b) p g0 h0 hn hu
            rw [h2] at h
            split at h
            · simp only [Except.ok.injEq, Prod.mk.injEq] at h
              rw [← h.2]; exact h1
            · cases h
          · unfold parquetLow at h; rw [parquet_used hi, if_pos hu] at h; simp only [h0] at h; rw [if_pos (by omega)] at h; cases h
      · unfold parquetLow at h; rw [parquet_used hi, if_neg hu] at h; cases h
    · unfold parquetHigh at h
      rw [parquet_used hi] at h
      split at h
      · cases h
      · rename_i f hf
        split at h
        · cases h
        · simp only [Except.ok.injEq, Prod.mk.injEq] at h
          rw [← h.2]
          refine ⟨?_, hi.groups⟩
          intro i f' hf'
          simp only at hf'
          split at hf'
          · rename_i e; subst e
            have := Option.some.inj hf'
            split at hf
            · rw [← this]; exact (Option.some.inj hf).symm
            · cases hf
          · exact hi.df i f' hf'

theorem parquetStep_inv {low : Bool} {data : Nat → ParquetFile R} {st : ParquetState R} (op : ParquetOp) (hi : ParquetInv data st) :
    ParquetInv data (parquetStep low data st op) := by
  cases op with
  | preLoad k p =>
    simp only [parquetStep, parquetPreLoad]
    split
    · exact hi
    · split
      · rename_i f h1 h2
        refine ⟨?_, hi.groups⟩
        intro i f' hf'
        simp only at hf'
        split at hf'
        · rename_i e; subst e; rw [← Option.some.inj hf']; exact fileIf_eq h2
        · exact hi.df i f' hf'
      · exact hi
  | load k i b p =>
    simp only [parquetStep]
    cases h : parquetLoad low (fileIf data k p) st k i b with
    | error e => exact hi
    | ok r => exact parquetLoad_inv hi h
  | close k =>
    simp only [parquetStep, parquetClose]
    refine ⟨?_, ?_⟩
    · intro i f hf
      simp only at hf
      split at hf
      · cases hf
      · exact hi.df i f hf
    · intro i j g hg
      simp only at hg
      split at hg
      · cases hg
      · exact hi.groups i j g hg

theorem parquetRun_inv (low : Bool) (data : Nat → ParquetFile R) (ops : List ParquetOp) : ParquetInv data (ops.foldl (parquetStep low data) ParquetState.init) := by
  have key : ∀ (ops : List ParquetOp) (st : ParquetState R), ParquetInv data st → ParquetInv data (ops.foldl (parquetStep low data) st) := by
    intro ops
    induction ops with
    | nil => exact fun _ h => h
    | cons op ops ih => exact fun st h => ih _ (parquetStep_inv op h)
  refine key ops _ ⟨fun _ _ h => (by cases h), fun _ _ _ h => (by cases h)⟩

/-- **C33.** Whatever was read, closed and reopened before, sample `i` of a chunk whose file is there is its `i`-th row; in
low-memory mode for files of uniform row groups. -/
theorem c33_row_partial (low : Bool) (data : Nat → ParquetFile R) (k : Nat) (hu : low = true → UniformGroups (data k)) (ops : List ParquetOp)
    (begin i : Nat) (r : R) (hr : (data k).flatten[i]? = some r) :
    ∃ st', parquetLoad low (some (data k)) (ops.foldl (parquetStep low data) ParquetState.init) k (begin + i) begin = .ok (r, st') := by
  have hi := parquetRun_inv low data ops
  generalize ops.foldl (parquetStep low data) ParquetState.init = st at hi
  have hf : some (data k) = fileIf data k true := rfl
  unfold parquetLoad
  rw [if_neg (by omega), Nat.add_sub_cancel_left, hf]
  cases low with
  | true =>
    obtain ⟨n, hn, h1, h2⟩ := hu rfl
    simp only [if_true]
    have hfl := flatten_uniform n hn (data k) h1 h2 i
    rw [hr] at hfl
    cases hd : data k with
    | nil => rw [hd] at hr; simp at hr
    | cons g0 gs =>
      have h0 : (data k)[0]? = some g0 := by rw [hd]; rfl
      -- the first group decides; it is full unless it is the only one
      have hg0 : g0.length = n ∨ (gs = [] ∧ i < g0.length) := by
        cases gs with
        | nil => right; rw [hd] at hr; simp at hr; exact ⟨rfl, (List.getElem?_eq_some_iff.1 hr).1⟩
        | cons g1 gs => left; exact h1 0 g0 (by rw [hd]; simp) (by rw [hd]; rfl)
      have hpos : 0 < g0.length := by omega
      obtain ⟨st', _, h4⟩ := parquetLow_spec hi k i true g0 h0 hpos (.inr rfl)
      refine ⟨st', ?_⟩
      rw [h4]
      have : ((data k)[i / g0.length]?.bind fun g => g[i % g0.length]?) = some r := by
        rcases hg0 with h | ⟨h, h'⟩
        · rw [h]; exact hfl.symm
        · rw [Nat.div_eq_of_lt h', Nat.mod_eq_of_lt h', h0]
          simp only [Option.bind_some]
          rw [hd, h] at hr
          simpa using hr
      rw [this]
  | false =>
    simp only [Bool.false_eq_true, if_false]
    unfold parquetHigh
    rw [parquet_used hi, if_pos (.inr rfl)]
    simp only [hr]
    exact ⟨_, rfl⟩

/-- **C33 fails for row groups of different sizes.** Low-memory mode then returns another row or raises. -/
theorem c33_uneven_groups :
    (∃ st', parquetLoad true (some [[0], [1, 2], [3]]) ParquetState.init 0 2 0 = .ok (3, st')) ∧ [[0], [1, 2], [3]].flatten[2]? = some 2 ∧
    parquetLoad true (some [[0, 1, 2], [3], [4, 5, 6]]) ParquetState.init 0 4 0 = .error .indexError := ⟨⟨_, rfl⟩, rfl, rfl⟩

/-- The hypotheses of `c33_row_partial` hold for row groups of 2, 2 and 1 rows. -/
example : UniformGroups [[10, 11], [12, 13], [14]] ∧ [[10, 11], [12, 13], [14]].flatten[4]? = some 14 := by
  refine ⟨⟨2, by decide, ?_, by decide⟩, rfl⟩
  intro i g hi hg
  match i, hi with
  | 0, _ => simp at hg; subst hg; rfl
  | 1, _ => simp at hg; subst hg; rfl

/-! ### C34 -/

theorem shardPath_inj (cache : String) (n s e s' e' : Nat) (a b : String) (h : shardPath cache n s e a = shardPath cache n s' e' b) :
    s = s' ∧ e = e' ∧ a = b := by
  have h := ofList_inj _ _ h
  have h := List.append_cancel_left h
  simp only [List.cons.injEq, true_and] at h
  have h := List.append_cancel_left h
  simp only [List.cons.injEq, true_and] at h
  have hd : ('_' : Char).isDigit = false := by decide
  obtain ⟨h1, h⟩ := sep_inj '_' _ _ _ _ (not_mem_toDigits _ _ hd) (not_mem_toDigits _ _ hd) h
  obtain ⟨h2, h⟩ := sep_inj '_' _ _ _ _ (not_mem_toDigits _ _ hd) (not_mem_toDigits _ _ hd) h
  exact ⟨toDigits_inj _ _ h1, toDigits_inj _ _ h2, String.toList_inj.1 h⟩

/-- The pieces of a list of at most `n` rows each: where they start and end. -/
def shardRanges (n total : Nat) : List (Nat × Nat) := (List.range ((total + n - 1) / n)).map fun i => (i * n, min (i * n + n) total)

theorem remapFile_spec (cache : String) (n : Nat) (hn : 0 < n) (name : String) (rows : List R) (fuel i : Nat) (hfuel : (rows.length + n - 1) / n < fuel + i)
    (fs : String → Option (List R)) :
    (remapFile cache n name rows fuel (i * n) fs).1 = (((shardRanges n rows.length).drop i).map fun x => shardPath cache n x.1 x.2 name) ∧
    ∀ p, (remapFile cache n name rows fuel (i * n) fs).2 p = match fs p with
      | some r => some r
      | none => (((shardRanges n rows.length).drop i).find? fun x => shardPath cache n x.1 x.2 name == p).map fun x => (rows.drop x.1).take (x.2 - x.1) := by
  have hlen : (shardRanges n rows.length).length = (rows.length + n - 1) / n := by simp [shardRanges]
  have hlt : ∀ i, i * n < rows.length ↔ i < (rows.length + n - 1) / n := by
    intro i
    rw [Nat.lt_div_iff_mul_lt hn]
    constructor <;> intro h <;> omega
  induction fuel generalizing i fs with
  | zero =>
    rw [List.drop_of_length_le (by omega)]
    refine ⟨rfl, fun p => ?_⟩
    simp only [remapFile, List.find?_nil, Option.map_none]
    cases fs p <;> rfl
  | succ fuel ih =>
    unfold remapFile
    by_cases h : i * n < rows.length
    · rw [if_pos h]
      have hi := (hlt i).1 h
      have hdrop : (shardRanges n rows.length).drop i = (i * n, min (i * n + n) rows.length) :: (shardRanges n rows.length).drop (i + 1) := by
        rw [List.drop_eq_getElem_cons (by omega)]
        simp [shardRanges]
      simp only
      rw [show i * n + n = (i + 1) * n by rw [Nat.succ_mul]] at *
      generalize hfs : writeNew fs (shardPath cache n (i * n) (min ((i + 1) * n) rows.length) name)
        ((rows.drop (i * n)).take (min ((i + 1) * n) rows.length - i * n)) = fs'
      obtain ⟨h1, h2⟩ := ih (i + 1) (by omega) fs'
      refine ⟨by rw [h1, hdrop, List.map_cons], fun p => ?_⟩
      rw [h2 p, hdrop]
      by_cases hp : p = shardPath cache n (i * n) (min ((i + 1) * n) rows.length) name
      · subst hp
        rw [List.find?_cons_of_pos (by simp)]
        rw [← hfs]
        unfold writeNew
        cases hq : fs (shardPath cache n (i * n) (min ((i + 1) * n) rows.length) name) with
        | some r => simp [hq]
        | none => simp
      · rw [List.find?_cons_of_neg (by simpa using fun e => hp e.symm)]
        have : fs' p = fs p := by
          rw [← hfs]
          unfold writeNew
          cases fs (shardPath cache n (i * n) (min ((i + 1) * n) rows.length) name) with
          | some r => rfl
          | none => simp [hp]
        rw [this]
    · rw [if_neg h, List.drop_of_length_le (by have := hlt i; omega)]
      refine ⟨rfl, fun p => ?_⟩
      simp only [List.find?_nil, Option.map_none]
      cases fs p <;> rfl

theorem shardRanges_mem {n total : Nat} (hn : 0 < n) {x : Nat × Nat} (h : x ∈ shardRanges n total) : x.1 < x.2 ∧ x.2 ≤ total ∧ x.2 - x.1 ≤ n := by
  simp only [shardRanges, List.mem_map, List.mem_range] at h
  obtain ⟨i, hi, rfl⟩ := h
  rw [Nat.lt_div_iff_mul_lt hn] at hi
  simp only
  omega

theorem shardRanges_inj {n total : Nat} (hn : 0 < n) : ((shardRanges n total).map (·.1)).Nodup := by
  simp only [shardRanges, List.map_map]
  refine List.pairwise_map.2 (List.nodup_range.imp ?_)
  intro a b h e
  exact h (Nat.eq_of_mul_eq_mul_right hn e)

/-- The pieces put together. -/
theorem shardRanges_cover (n : Nat) (hn : 0 < n) (rows : List R) :
    ((shardRanges n rows.length).flatMap fun x => (rows.drop x.1).take (x.2 - x.1)) = rows := by
  have key : ∀ m, m ≤ (rows.length + n - 1) / n →
      ((List.range m).flatMap fun i => (rows.drop (i * n)).take (min (i * n + n) rows.length - i * n)) = rows.take (m * n) := by
    intro m
    induction m with
    | zero => intro _; simp
    | succ m ih =>
      intro hm
      have h1 : m < (rows.length + n - 1) / n := hm
      rw [Nat.lt_div_iff_mul_lt hn] at h1
      rw [List.range_succ, List.flatMap_append, ih (by omega), Nat.succ_mul, List.take_add]
      simp only [List.flatMap_cons, List.flatMap_nil, List.append_nil]
      congr 1
      by_cases h : m * n + n ≤ rows.length
      · rw [Nat.min_eq_left h, Nat.add_sub_cancel_left]
      · rw [Nat.min_eq_right (by omega), List.take_of_length_le (l := rows.drop (m * n)) (by rw [List.length_drop]; omega), List.take_of_length_le (l := rows.drop (m * n)) (by rw [List.length_drop]; omega)]
  have := key _ (Nat.le_refl _)
  simp only [shardRanges, List.flatMap_map]
  rw [this]
  refine List.take_of_length_le ?_
  have h1 := Nat.lt_div_mul_add (a := rows.length + n - 1) hn
  omega

theorem remapItems_spec (cache : String) (n : Nat) (hn : 0 < n) (files : List String) (fs : String → Option (List R)) (rowsOf : String → List R)
    (hin : ∀ f ∈ files, fs f = some (rowsOf f)) (hb : (files.map basename).Nodup)
    (hclean : ∀ f ∈ files, ∀ x ∈ shardRanges n (rowsOf f).length, ∀ r, fs (shardPath cache n x.1 x.2 (basename f)) = some r →
      r = ((rowsOf f).drop x.1).take (x.2 - x.1)) :
    ∃ fs', remapItems cache n files fs = .ok (files.flatMap fun f => (shardRanges n (rowsOf f).length).map fun x => shardPath cache n x.1 x.2 (basename f), fs') ∧
      (∀ p r, fs p = some r → fs' p = some r) ∧
      ∀ f ∈ files, ∀ x ∈ shardRanges n (rowsOf f).length, fs' (shardPath cache n x.1 x.2 (basename f)) = some (((rowsOf f).drop x.1).take (x.2 - x.1)) := by
  induction files generalizing fs with
  | nil => exact ⟨fs, rfl, fun _ _ h => h, by simp⟩
  | cons f files ih =>
    simp only [List.map_cons, List.nodup_cons] at hb
    obtain ⟨h1, h2⟩ := remapFile_spec cache n hn (basename f) (rowsOf f) ((rowsOf f).length + 1) 0 (by
      have := Nat.div_le_self ((rowsOf f).length + n - 1) n
      rcases Nat.lt_or_ge 1 n with h | h
      · have : ((rowsOf f).length + n - 1) / n ≤ (rowsOf f).length := by
          rw [Nat.div_le_iff_le_mul_add_pred (by omega)]
          have : (rowsOf f).length ≤ n * (rowsOf f).length := Nat.le_mul_of_pos_left _ hn
          omega
        omega
      · have : n = 1 := by omega
        subst this
        simp) fs
    rw [Nat.zero_mul, List.drop_zero] at h1 h2
    generalize hr : remapFile cache n (basename f) (rowsOf f) ((rowsOf f).length + 1) 0 fs = res at h1 h2
    have hkeep : ∀ p r, fs p = some r → res.2 p = some r := by
      intro p r h
      rw [h2 p, h]
    have hnew : ∀ x ∈ shardRanges n (rowsOf f).length, res.2 (shardPath cache n x.1 x.2 (basename f)) = some (((rowsOf f).drop x.1).take (x.2 - x.1)) := by
      intro x hx
      rw [h2]
      cases hq : fs (shardPath cache n x.1 x.2 (basename f)) with
      | some r => simp only; rw [hclean f (by simp) x hx r hq]
      | none =>
        simp only
        have hf : (shardRanges n (rowsOf f).length).find? (fun y => shardPath cache n y.1 y.2 (basename f) == shardPath cache n x.1 x.2 (basename f)) = some x := by
          cases hfnd : (shardRanges n (rowsOf f).length).find? (fun y => shardPath cache n y.1 y.2 (basename f) == shardPath cache n x.1 x.2 (basename f)) with
          | none => have := List.find?_eq_none.1 hfnd x hx; simp at this
          | some y =>
            have hy := List.find?_some hfnd
            simp only [beq_iff_eq] at hy
            obtain ⟨a, b, _⟩ := shardPath_inj _ _ _ _ _ _ _ _ hy
            exact congrArg some (Prod.ext a b)
        rw [hf]; rfl
    obtain ⟨fs', g1, g2, g3⟩ := ih res.2 (fun g hg => hkeep _ _ (hin g (List.mem_cons_of_mem _ hg))) hb.2 (by
      intro g hg x hx r hrr
      rw [h2] at hrr
      cases hq : fs (shardPath cache n x.1 x.2 (basename g)) with
      | some r' =>
        rw [hq] at hrr
        simp only [Option.some.injEq] at hrr
        subst hrr
        exact hclean g (List.mem_cons_of_mem _ hg) x hx _ hq
      | none =>
        rw [hq] at hrr
        simp only [Option.map_eq_some_iff] at hrr
        obtain ⟨y, hy, _⟩ := hrr
        have hy := List.find?_some hy
        simp only [beq_iff_eq] at hy
        obtain ⟨_, _, e⟩ := shardPath_inj _ _ _ _ _ _ _ _ hy
        exact absurd (List.mem_map.2 ⟨g, hg, e.symm⟩) hb.1)
    refine ⟨fs', ?_, fun p r h => g2 p r (hkeep p r h), ?_⟩
    · unfold remapItems
      rw [hin f (by simp)]
      simp only
      rw [if_neg (by omega), hr]
      simp only [g1, h1, List.flatMap_cons]
    · intro g hg x hx
      rcases List.mem_cons.1 hg with rfl | hg
      · exact g2 _ _ (hnew x hx)
      · exact g3 g hg x hx

/-- **C34.** Files with distinct names, and a cache folder whose files of the same names, if any, are those of an earlier run
on the same rows: the shards have distinct paths, each holds between one and `n` rows, and together they hold all rows of
all files in order. No file that was there before is changed. -/
theorem c34_reshard_partial (cache : String) (n : Nat) (hn : 0 < n) (files : List String) (fs : String → Option (List R)) (rowsOf : String → List R)
    (hin : ∀ f ∈ files, fs f = some (rowsOf f)) (hb : (files.map basename).Nodup)
    (hclean : ∀ f ∈ files, ∀ x ∈ shardRanges n (rowsOf f).length, ∀ r, fs (shardPath cache n x.1 x.2 (basename f)) = some r →
      r = ((rowsOf f).drop x.1).take (x.2 - x.1)) :
    ∃ items fs', remapItems cache n files fs = .ok (items, fs') ∧ items.Nodup ∧
      (items.flatMap fun p => (fs' p).getD []) = files.flatMap rowsOf ∧
      (∀ p ∈ items, ∃ r, fs' p = some r ∧ 0 < r.length ∧ r.length ≤ n) ∧ (∀ p r, fs p = some r → fs' p = some r) := by
  obtain ⟨fs', h1, h2, h3⟩ := remapItems_spec cache n hn files fs rowsOf hin hb hclean
  refine ⟨_, fs', h1, ?_, ?_, ?_, h2⟩
  · clear h1 h3 hin hclean
    induction files with
    | nil => simp
    | cons f files ih =>
      simp only [List.map_cons, List.nodup_cons] at hb
      rw [List.flatMap_cons, List.nodup_append]
      refine ⟨?_, ih hb.2, ?_⟩
      · have := shardRanges_inj (total := (rowsOf f).length) hn
        rw [List.nodup_iff_pairwise_ne, List.pairwise_map] at this
        refine List.pairwise_map.2 (this.imp ?_)
        intro a b h e
        exact h (shardPath_inj _ _ _ _ _ _ _ _ e).1
      · intro a ha b hb' e
        subst e
        obtain ⟨x, _, hx⟩ := List.mem_map.1 ha
        obtain ⟨g, hg, hg2⟩ := List.mem_flatMap.1 hb'
        obtain ⟨y, _, hy⟩ := List.mem_map.1 hg2
        rw [← hx] at hy
        obtain ⟨_, _, e⟩ := shardPath_inj _ _ _ _ _ _ _ _ hy
        exact hb.1 (List.mem_map.2 ⟨g, hg, e⟩)
  · rw [List.flatMap_assoc]
    have : ∀ f ∈ files, (((shardRanges n (rowsOf f).length).map fun x => shardPath cache n x.1 x.2 (basename f)).flatMap fun p => (fs' p).getD []) = rowsOf f := by
      intro f hf
      rw [List.flatMap_map]
      conv => rhs; rw [← shardRanges_cover n hn (rowsOf f)]
      rw [List.flatMap_def, List.flatMap_def]
      congr 1
      refine List.map_congr_left fun x hx => ?_
      simp [h3 f hf x hx]
    rw [List.flatMap_def, List.flatMap_def]
    congr 1
    exact List.map_congr_left this
  · intro p hp
    obtain ⟨f, hf, hp⟩ := List.mem_flatMap.1 hp
    obtain ⟨x, hx, rfl⟩ := List.mem_map.1 hp
    refine ⟨_, h3 f hf x hx, ?_⟩
    have := shardRanges_mem hn hx
    rw [List.length_take, List.length_drop]
    omega

/-- Two files of the same name in different folders, and a third. -/
def demoParquet (p : String) : Option (List Nat) :=
  if p = "x/a" then some [1, 2, 3] else if p = "y/a" then some [4, 5, 6] else if p = "y/b" then some [7] else none

/-- **C34 fails for inputs of the same name.** The second file is not sharded: its shards have the paths of the first, which
are listed twice. -/
theorem c34_same_name : ∃ fs', remapItems "c" 2 ["x/a", "y/a"] demoParquet = .ok (["c/2/0_2_a", "c/2/2_3_a", "c/2/0_2_a", "c/2/2_3_a"], fs') ∧
    fs' "c/2/0_2_a" = some [1, 2] ∧ fs' "c/2/2_3_a" = some [3] := ⟨_, rfl, rfl, rfl⟩

/-- **C34 fails for a file that changed.** A shard left from before is used as it is. -/
theorem c34_stale_cache : ∃ fs', remapItems "c" 2 ["y/b"] (fun p => if p = "c/2/0_1_b" then some [0] else demoParquet p) = .ok (["c/2/0_1_b"], fs') ∧
    fs' "c/2/0_1_b" = some [0] := ⟨_, rfl, rfl⟩

/-- The hypotheses of `c34_reshard_partial` hold for files `x/a` and `y/b`. -/
example : (∀ f ∈ ["x/a", "y/b"], demoParquet f = some ((demoParquet f).getD [])) ∧ (["x/a", "y/b"].map basename).Nodup ∧
    (∀ f ∈ ["x/a", "y/b"], ∀ x ∈ shardRanges 2 ((demoParquet f).getD []).length, demoParquet (shardPath "c" 2 x.1 x.2 (basename f)) = none) := by
  refine ⟨by decide, by decide +kernel, by decide +kernel⟩

end LitData.Props
