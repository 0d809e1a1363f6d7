import Verif.Lemmas.WriterAny

/-! Properties C08 and C09: the writer stores every item once, in chunks of the right size. -/

namespace LitData.Props
open LitData

/-- Items added at consecutive indices starting at `a`. -/
def inOrder (a : Nat) (xs : List WItem) : List (Nat × WItem) := (List.range' a xs.length).zip xs

theorem inOrder_eq (a : Nat) (xs : List WItem) : inOrder a xs = enum a xs := by
  unfold inOrder
  induction xs generalizing a with
  | nil => rfl
  | cons x xs ih => simp [List.range'_succ, enum, ih]

/-- Everything about a run of the writer on items added in order. -/
theorem writer_run (cfg : WriterCfg) (a : Nat) (xs : List WItem)
    (hpos : (∀ x ∈ xs, x.data ≠ []) ∨ cfg.chunkSize = 0) :
    ∃ s s' pend, addAll cfg WriterState.init (inOrder a xs) = .ok s ∧ writerDone cfg false s = .ok s' ∧
      s'.buf = [] ∧ s'.chunks = s.chunks ++ (if pend = [] then [] else [pend]) ∧
      xs = s.chunks.flatten ++ pend ∧ ChunksOk cfg s.chunks pend ∧
      ((∀ x ∈ xs, x.data ≠ []) → ¬ Over cfg pend ∨ ∃ x, pend = [x]) := by
  obtain ⟨s, pend, h1, h2⟩ := addAll_spec cfg a xs [] WriterState.init [] (init_inv cfg a)
  simp only [List.nil_append, List.length_nil, Nat.add_zero] at h1 h2
  have hfit : (∀ x ∈ xs, x.data ≠ []) → ¬ Over cfg pend ∨ ∃ x, pend = [x] := by
    intro hp
    rcases h2.mode with ⟨_, _, m3⟩ | ⟨_, _, _, _, _, m6⟩ | ⟨_, m, z, _, m3, m4⟩
    · cases pend with
      | nil => exact Or.inl (not_over_nil cfg)
      | cons y ys =>
        cases ys with
        | nil => exact Or.inr ⟨y, rfl⟩
        | cons z zs => simp at m3
    · exact Or.inl m6
    · exfalso
      refine hp z ?_ (List.length_eq_zero_iff.1 m4)
      rw [h2.all]
      exact List.mem_append_right _ (List.mem_of_getElem? m3)
  have hsize : cfg.chunkSize = 0 ∨ pend.length ≤ cfg.chunkSize := by
    rcases hpos with hp | hc
    · by_cases hc : cfg.chunkSize = 0
      · exact Or.inl hc
      · right
        rcases hfit hp with h | ⟨x, rfl⟩
        · exact length_le_of_not_over h hc
        · simp; omega
    · exact Or.inl hc
  obtain ⟨s', h3, h4, h5⟩ := done_spec cfg a xs s pend h2 hsize
  exact ⟨s, s', pend, by rw [inOrder_eq]; exact h1, h3, h4, h5, h2.all, h2.ok, hfit⟩

/-- **C08 (partial).** Items added at consecutive indices are all stored, each once and in order, and
no chunk is empty. Missing: items added out of order (the code does not support every order, see
`c08_out_of_order_fails`; `c08_any_order` covers the orders it does support), and empty items with `chunk_size` (see `c08_empty_item_fails`). -/
theorem c08_writer_stores_all_partial (cfg : WriterCfg) (a : Nat) (xs : List WItem)
    (hpos : (∀ x ∈ xs, x.data ≠ []) ∨ cfg.chunkSize = 0) :
    ∃ s s', addAll cfg WriterState.init (inOrder a xs) = .ok s ∧ writerDone cfg false s = .ok s' ∧
      s'.chunks.flatten = xs ∧ (∀ c ∈ s'.chunks, c ≠ []) ∧ s'.buf = [] := by
  obtain ⟨s, s', pend, h1, h2, h3, h4, h5, h6, _⟩ := writer_run cfg a xs hpos
  refine ⟨s, s', h1, h2, ?_, ?_, h3⟩
  · rw [h4, h5]
    split
    · rename_i h; simp [h]
    · simp
  · intro c hc
    rw [h4] at hc
    rcases List.mem_append.1 hc with hc | hc
    · exact h6.ne c hc
    · split at hc
      · simp at hc
      · rename_i h; simp only [List.mem_singleton] at hc; exact hc ▸ h

/-- The number of bytes of a chunk's payload. -/
def payload (c : List WItem) : Nat := (c.map fun x => x.data.length).sum

/-- How much a chunk counts against `chunk_size`: an item counts for its dimension if it has a
non-zero one, for one otherwise. -/
def weight (c : List WItem) : Nat := (c.map fun x => if x.dim.getD 0 = 0 then 1 else x.dim.getD 0).sum

theorem totCount_eq_weight (c : List WItem) : totCount c = weight c := by
  unfold totCount weight
  congr 1
  apply List.map_congr_left
  intro x _
  unfold WItem.count
  cases x.dim with
  | none => rfl
  | some d => simp

theorem over_iff (cfg : WriterCfg) (c : List WItem) : Over cfg c ↔
    (cfg.chunkBytes ≠ 0 ∧ cfg.chunkBytes < payload c) ∨ (cfg.chunkSize ≠ 0 ∧ cfg.chunkSize < weight c) := by
  unfold Over overLimit
  rw [totCount_eq_weight, show totBytes c = payload c from rfl]
  simp

/-- **C09.** For non-empty items added in order: every chunk is within `chunk_bytes` and `chunk_size`,
or consists of a single item; and a chunk followed by another one was closed because the next item
would have exceeded a limit. -/
theorem c09_chunk_limits_partial (cfg : WriterCfg) (a : Nat) (xs : List WItem) (hpos : ∀ x ∈ xs, x.data ≠ []) :
    ∃ s s', addAll cfg WriterState.init (inOrder a xs) = .ok s ∧ writerDone cfg false s = .ok s' ∧
      (∀ c ∈ s'.chunks, c.length = 1 ∨
        ((cfg.chunkBytes ≠ 0 → payload c ≤ cfg.chunkBytes) ∧ (cfg.chunkSize ≠ 0 → weight c ≤ cfg.chunkSize))) ∧
      (∀ l c d r, s'.chunks = l ++ c :: d :: r → ∀ y, d.head? = some y →
        (cfg.chunkBytes ≠ 0 ∧ cfg.chunkBytes < payload (c ++ [y])) ∨
        (cfg.chunkSize ≠ 0 ∧ cfg.chunkSize < weight (c ++ [y]))) ∧
      (cfg.chunkSize ≠ 0 → ∀ c ∈ s'.chunks, c.length ≤ cfg.chunkSize) := by
  obtain ⟨s, s', pend, h1, h2, h3, h4, h5, h6, h7⟩ := writer_run cfg a xs (Or.inl hpos)
  have hfits : ∀ c ∈ s'.chunks, ¬ Over cfg c ∨ ∃ x, c = [x] := by
    intro c hc
    rw [h4] at hc
    rcases List.mem_append.1 hc with hc | hc
    · exact h6.fits c hc
    · split at hc
      · simp at hc
      · simp only [List.mem_singleton] at hc; exact hc ▸ h7 hpos
  refine ⟨s, s', h1, h2, ?_, ?_, ?_⟩
  · intro c hc
    rcases hfits c hc with h | ⟨x, rfl⟩
    · right
      rw [over_iff] at h
      omega
    · left; rfl
  · intro l c d r e y hy
    rw [← over_iff]
    rw [h4] at e
    have hd : d ≠ [] := by intro h; rw [h] at hy; simp at hy
    by_cases hp : pend = []
    · rw [if_pos hp, List.append_nil] at e
      refine (h6.full l c (d :: r) e).1 y ?_
      cases d with
      | nil => exact absurd rfl hd
      | cons z zs => simpa using hy
    · rw [if_neg hp] at e
      rcases List.eq_nil_or_concat r with rfl | ⟨r', z, rfl⟩
      · rw [show l ++ [c, d] = (l ++ [c]) ++ [d] by simp] at e
        have := List.append_inj' e rfl
        simp only [List.cons.injEq, and_true] at this
        obtain ⟨e1, rfl⟩ := this
        refine (h6.full l c [] e1).1 y ?_
        simpa using hy
      · rw [List.concat_eq_append, show l ++ c :: d :: (r' ++ [z]) = (l ++ c :: d :: r') ++ [z] by simp] at e
        have := List.append_inj' e rfl
        obtain ⟨e1, _⟩ := this
        refine (h6.full l c (d :: r') e1).1 y ?_
        cases d with
        | nil => exact absurd rfl hd
        | cons z zs => simpa using hy
  · intro hc c hcm
    rcases hfits c hcm with h | ⟨x, rfl⟩
    · exact length_le_of_not_over h hc
    · simp; omega

/-- **C08, any order.** For every sequence of `add_item` calls, in any order and with any indices: if no
exception is raised, then what is written by the time `done` returns is exactly what was added, each item
once, in non-empty chunks of consecutive indices. -/
theorem c08_any_order (cfg : WriterCfg) (adds : List (Nat × WItem)) (s s' : WriterState)
    (h : addAll cfg WriterState.init adds = .ok s) (hd : writerDone cfg false s = .ok s') :
    ∃ cs : List (List (Nat × WItem)), s'.chunks = cs.map (fun c => c.map (·.2)) ∧ cs.flatten.Perm adds ∧
      ∀ c ∈ cs, c ≠ [] ∧ ∃ a, c.map (·.1) = List.range' a c.length := by
  obtain ⟨cs1, h1⟩ := addAll_any cfg adds WriterState.init [] []
    ⟨rfl, List.Perm.refl _, by simp, by simp [WriterState.init]⟩ s h
  obtain ⟨cs2, h2, h3⟩ := writerDone_any cfg s _ cs1 h1 s' hd
  refine ⟨cs2, h2.chunks, ?_, h2.runs⟩
  have := h2.perm
  rw [h3, List.append_nil, List.nil_append] at this
  exact this.symm

/-- A case: six items out of order. -/
example : ((addAll ⟨0, 2⟩ WriterState.init
      ((([0, 2, 1, 4, 3, 5] : List Nat)).map fun i => (i, ⟨[i.toUInt8], none⟩))).bind (writerDone ⟨0, 2⟩ false)).map
      (fun s => s.chunks.map (·.map (·.data))) = .ok [[[0], [1]], [[2], [3]], [[4], [5]]] := by decide +kernel

/-- **C08 fails for some orders.** Indices 0, 2, 3, 4, 1 are distinct and contiguous, but with
`chunk_size=2` three items are left for the last chunk and `done` raises `AssertionError`. -/
theorem c08_out_of_order_fails :
    (addAll ⟨0, 2⟩ WriterState.init ((([0, 2, 3, 4, 1] : List Nat)).map fun i => (i, ⟨[0], none⟩))).isOk = true ∧
    (addAll ⟨0, 2⟩ WriterState.init ((([0, 2, 3, 4, 1] : List Nat)).map fun i => (i, ⟨[0], none⟩))).bind
      (writerDone ⟨0, 2⟩ false) = .error .assertion := by decide +kernel

/-- **C08 fails for an index below a chunk already written.** Indices 1, 2, 3, 0 with `chunk_bytes=2`. -/
theorem c08_late_index_fails :
    (addAll ⟨2, 0⟩ WriterState.init ((([1, 2, 3, 0] : List Nat)).map fun i => (i, ⟨[0], none⟩))).isOk = true ∧
    (addAll ⟨2, 0⟩ WriterState.init ((([1, 2, 3, 0] : List Nat)).map fun i => (i, ⟨[0], none⟩))).bind
      (writerDone ⟨2, 0⟩ false) = .error .assertion := by decide +kernel

/-- **C08 fails for empty items.** An item of zero bytes stops the grouping: with
`chunk_size=1` the next item joins it in the last chunk and `done` raises. -/
theorem c08_empty_item_fails :
    (addAll ⟨0, 1⟩ WriterState.init [(0, ⟨[], none⟩), (1, ⟨[1], none⟩)]).isOk = true ∧
    (addAll ⟨0, 1⟩ WriterState.init [(0, ⟨[], none⟩), (1, ⟨[1], none⟩)]).bind
      (writerDone ⟨0, 1⟩ false) = .error .assertion := by decide +kernel

/-- **C09 fails after an empty item.** With `chunk_bytes`, everything after an empty item goes into one
chunk, however big. -/
theorem c09_empty_item_exceeds :
    ((addAll ⟨1, 0⟩ WriterState.init [(0, ⟨[], none⟩), (1, ⟨[1], none⟩), (2, ⟨[1], none⟩), (3, ⟨[1], none⟩)]).bind
      (writerDone ⟨1, 0⟩ false)).map (fun s => s.chunks.map payload) = .ok [3] := by decide +kernel

/-- Adding an index that is still in memory raises `ValueError`. -/
theorem c08_duplicate_refused (cfg : WriterCfg) (s : WriterState) (i : Nat) (x y : WItem) (h : (i, y) ∈ s.buf) :
    addItem cfg s i x = .error .valueError := by
  unfold addItem
  rw [if_pos]
  unfold bufGet
  rw [Option.isSome_map, List.find?_isSome]
  exact ⟨_, h, by simp⟩

/-- Exactly one of `chunk_size` and `chunk_bytes` must be given (a zero counts as given but not set). -/
theorem c09_options (cs cb : Option Nat) : (∃ cfg, mkWriterCfg cs cb = .ok cfg) ↔
    (cs ≠ none ∨ cb ≠ none) ∧ (cs.getD 0 = 0 ∨ cb.getD 0 = 0) := by
  unfold mkWriterCfg
  split
  · rename_i h
    simp only [reduceCtorEq, exists_false, false_iff]
    intro ⟨h1, h2⟩
    rcases h with ⟨h3, h4⟩ | ⟨h3, h4⟩
    · simp [h3, h4] at h1
    · omega
  · rename_i h
    simp only [Except.ok.injEq, exists_eq', true_iff]
    constructor
    · by_cases h1 : cs = none
      · right; intro h2; exact h (Or.inl ⟨h1, h2⟩)
      · exact Or.inl h1
    · by_cases h1 : cs.getD 0 = 0
      · exact Or.inl h1
      · right
        by_cases h2 : cb.getD 0 = 0
        · exact h2
        · exact absurd (Or.inr ⟨h1, h2⟩) h

/-! The hypotheses can be met: five items, 4 bytes per chunk, one of them oversize. -/

def demoItems : List WItem := [⟨[1,2], none⟩, ⟨[3], none⟩, ⟨[4,5,6], none⟩, ⟨[1,2,3,4,5,6], none⟩, ⟨[7], none⟩]

example : (∀ x ∈ demoItems, x.data ≠ []) ∧
    ((addAll ⟨4, 0⟩ WriterState.init (inOrder 10 demoItems)).bind (writerDone ⟨4, 0⟩ false)).map
      (fun s => s.chunks.map payload) = .ok [3, 3, 6, 1] := by decide +kernel

end LitData.Props
