import Verif.Props.Tokens
import Verif.Props.ParquetIndex
import Verif.Model.Subsample

/-! Property C32 with regions of interest: random access to subsampled and split datasets of tokens. -/

namespace LitData.Props
open LitData LitData.Spec

/-- Loading a block of a chunk whose file is there keeps the invariant of the loader. -/
theorem tokLoadItem_block {data : List TokChunk} {bs sz : Nat} (hb : 0 < bs) (hd : TokData data sz) {fs : String → Option Bytes} {st : TokState}
    (hi : TokInv data (fs, st)) {k : Nat} {c : TokChunk} (hk : data[k]? = some c) (begin j : Nat) (hj : j < c.2.flatten.length / bs) (hf : fs c.1 ≠ none) :
    ∃ v st', tokLoadItem fs (data.map tokInfo) bs sz st (begin + j) k c.1 begin (tokInfo c).chunkBytes = .ok (v, st') ∧
      tokDeref st' sz v = some (tokBlock bs c.2.flatten j) ∧ TokInv data (fs, st') := by
  have hbz : bs ≠ 0 := by omega
  have hmem := List.mem_of_getElem? hk
  cases hff : fs c.1 with
  | none => exact absurd hff hf
  | some f =>
    have hfile := hi.file c hmem f hff
    have hsz : (tokInfo c).chunkBytes = f.length := by rw [hfile]; rfl
    obtain ⟨st1, hw⟩ := tokWait_ok (st := st) (n := (tokInfo c).chunkBytes) hff (by omega)
    obtain ⟨e1, e2⟩ := tokWait_maps hw
    have hi1 := tokInv_congr e1 e2 hi
    have htoks : ∀ x ∈ c.2.flatten, x.length = sz := by
      intro x hx
      obtain ⟨t, ht, hxt⟩ := List.mem_flatten.1 hx
      exact hd.size c hmem t ht x hxt
    have hlen := flatten_length_const c.2.flatten htoks
    have hjb : (j + 1) * bs ≤ c.2.flatten.length := (Nat.le_div_iff_mul_le hb).1 hj
    rw [Nat.succ_mul] at hjb
    have hpos : 0 < c.2.flatten.flatten.length := by
      rw [hlen]; exact Nat.mul_pos hd.pos (by omega)
    have hload : ∃ st2, tokLoadChunk fs (data.map tokInfo) st1 k c.1 = .ok st2 := by
      unfold tokLoadChunk
      simp only [List.getElem?_map, hk, Option.map_some, hff]
      split
      · exact ⟨_, rfl⟩
      · rw [if_neg (by rw [hfile, tokFile_length]; omega)]
        exact ⟨_, rfl⟩
    obtain ⟨st2, hl⟩ := hload
    obtain ⟨hi2, ⟨m, hm⟩, _⟩ := tokLoadChunk_inv hk hi1 hl
    obtain ⟨d, hd1, hd2⟩ := hi2.map k m hm
    rw [hk] at hd1
    cases hd1
    simp only at hm hd2
    have hoff : sz * j * bs = sz * (j * bs) := Nat.mul_assoc _ _ _
    have hfit : sz * j * bs + sz * bs ≤ c.2.flatten.flatten.length := by
      rw [hlen, hoff, ← Nat.mul_add]; exact Nat.mul_le_mul_left _ hjb
    refine ⟨⟨m, sz * j * bs, bs⟩, st2, ?_, ?_, hi2⟩
    · unfold tokLoadItem
      rw [if_neg hbz]
      simp only [hw, hl, hm, hd2]
      rw [if_neg (by omega), Nat.add_sub_cancel_left, if_pos hfit]
    · unfold tokDeref
      simp only [hd2]
      rw [hoff, flatten_drop_const _ htoks, groups_flatten _ (fun x hx => htoks x (List.mem_of_mem_drop hx)) bs (by rw [List.length_drop]; omega)]
      rfl

/-- The intervals of blocks are those of chunks with as many samples as blocks. -/
theorem tokIntervals_eq (bs : Nat) (hb : 0 < bs) (roi : Option (List (Nat × Nat))) (idx b : Nat) (ds : List TokChunk) (hd : ∀ c ∈ ds, FirstNonempty c) :
    tokIntervals bs roi idx b (ds.map tokInfo) =
      generateIntervals roi idx b (ds.map fun c => { tokInfo c with chunkSize := c.2.flatten.length / bs }) := by
  induction ds generalizing idx b with
  | nil => simp [tokIntervals, generateIntervals]; omega
  | cons c ds ih =>
    rw [List.map_cons, List.map_cons, tokIntervals, if_neg (by omega)]
    simp only [tokInfo_dim c (hd c (by simp))]
    rw [ih (idx + 1) _ (fun c hc => hd c (List.mem_cons_of_mem _ hc))]
    cases roi with
    | none => rfl
    | some l =>
      simp only [generateIntervals]
      cases l[idx]? with
      | none => rfl
      | some r => rfl

/-- The blocks of a chunk. -/
def chunkBlocks (bs : Nat) (c : TokChunk) : List (List Bytes) := (List.range (c.2.flatten.length / bs)).map (tokBlock bs c.2.flatten)

/-- A block read and copied at once: the tokens seen through the view. -/
def tokRead (fs : String → Option Bytes) (data : List TokChunk) (bs sz : Nat) (st : TokState) (k index begin : Nat) : Py (List Bytes × TokState) :=
  match data[k]? with
  | none => .error .indexError
  | some c => match tokLoadItem fs (data.map tokInfo) bs sz st index k c.1 begin (tokInfo c).chunkBytes with
    | .error e => .error e
    | .ok (v, st) => match tokDeref st sz v with
      | none => .error .valueError
      | some x => .ok (x, st)

/-- **C32 with regions of interest.** For a dataset of tokens whose files are there, with a region of blocks in each chunk, any sequence of indices
reads the blocks with these ranks among the regions. -/
theorem c32_regions_partial (data : List TokChunk) (bs sz : Nat) (hb : 0 < bs) (hd : TokData data sz) (hdim : ∀ c ∈ data, FirstNonempty c)
    (fs : String → Option Bytes) (hfs : ∀ c ∈ data, fs c.1 = some (tokFile c)) (roi : List (Nat × Nat)) (hlen : roi.length = data.length)
    (hroi : ∀ (k : Nat) (c : TokChunk) (r : Nat × Nat), data[k]? = some c → roi[k]? = some r → r.1 ≤ r.2 ∧ r.2 ≤ c.2.flatten.length / bs) :
    ∃ ivs, tokIntervals bs (some roi) 0 0 (data.map tokInfo) = .ok ivs ∧
      (roiItems (data.map (chunkBlocks bs)) roi).length = (ivs.map Interval.size).sum ∧
      ∀ is : List Nat, (∀ i ∈ is, i < (roiItems (data.map (chunkBlocks bs)) roi).length) →
        ∃ xs, lookupGets (tokRead fs data bs sz) ivs TokState.init is = .ok xs ∧ xs.map some = is.map fun i => (roiItems (data.map (chunkBlocks bs)) roi)[i]? := by
  have hinit : TokInv data (fs, TokState.init) :=
    ⟨(fun c hc f hf => by simp only [hfs c hc] at hf; exact (Option.some.inj hf).symm), (fun _ _ h => by cases h), (fun _ _ _ h => by cases h)⟩
  obtain ⟨ivs, h1, _, h3, h4⟩ := reads_any (tokRead fs data bs sz) (data.map fun c => { tokInfo c with chunkSize := c.2.flatten.length / bs })
    (data.map (chunkBlocks bs)) (by simp) roi (by simpa using hlen) (by
      intro k l r hl hr
      rw [List.getElem?_map, Option.map_eq_some_iff] at hl
      obtain ⟨c, hc, rfl⟩ := hl
      have := hroi k c r hc hr
      simpa [chunkBlocks] using this) (fun st => TokInv data (fs, st)) TokState.init hinit (by
      intro st k l begin j x hi hl hx
      rw [List.getElem?_map, Option.map_eq_some_iff] at hl
      obtain ⟨c, hc, rfl⟩ := hl
      unfold chunkBlocks at hx
      rw [List.getElem?_map, Option.map_eq_some_iff] at hx
      obtain ⟨j', hj', rfl⟩ := hx
      obtain ⟨hj, e⟩ := List.getElem?_eq_some_iff.1 hj'
      rw [List.getElem_range] at e
      subst e
      rw [List.length_range] at hj
      obtain ⟨v, st', g1, g2, g3⟩ := tokLoadItem_block hb hd hi hc begin j hj (by rw [hfs c (List.mem_of_getElem? hc)]; simp)
      refine ⟨st', ?_, g3⟩
      unfold tokRead
      simp only [hc, g1, g2])
  exact ⟨ivs, by rw [tokIntervals_eq bs hb _ _ _ _ hdim]; exact h1, h3, h4⟩

/-- The second and third token of the first chunk and the token of the second, as blocks of one. -/
example : ∃ ivs, tokIntervals 1 (some [(1, 3), (0, 1)]) 0 0 (demoTok.map tokInfo) = .ok ivs ∧
    ∃ xs, lookupGets (tokRead (fun p => if p = "a" then some (tokFile ("a", [[[1, 0], [2, 0]], [[3, 0]]])) else some (tokFile ("b", [[[4, 0]]]))) demoTok 1 2) ivs
      TokState.init [2, 0, 1] = .ok xs ∧ xs.map some = [some [[4, 0]], some [[2, 0]], some [[3, 0]]] := by
  obtain ⟨ivs, h1, h2, h3⟩ := c32_regions_partial demoTok 1 2 (by decide) ⟨by decide, by decide, by decide⟩ (by
      intro c hc
      simp only [demoTok, List.mem_cons, List.not_mem_nil, or_false] at hc
      rcases hc with rfl | rfl
      · exact ⟨_, _, rfl, by simp⟩
      · exact ⟨_, _, rfl, by simp⟩)
    (fun p => if p = "a" then some (tokFile ("a", [[[1, 0], [2, 0]], [[3, 0]]])) else some (tokFile ("b", [[[4, 0]]]))) (by
      intro c hc
      simp only [demoTok, List.mem_cons, List.not_mem_nil, or_false] at hc
      rcases hc with rfl | rfl <;> rfl) [(1, 3), (0, 1)] (by decide) (by
      intro k c r hc hr
      match k with
      | 0 => simp [demoTok] at hc hr; subst hc hr; decide
      | 1 => simp [demoTok] at hc hr; subst hc hr; decide
      | k + 2 => simp at hr)
  obtain ⟨xs, h4, h5⟩ := h3 [2, 0, 1] (by decide)
  exact ⟨ivs, h1, xs, h4, by rw [h5]; decide⟩

/-- **C32, setup.** A dataset of tokens is refused by `setup` exactly if no chunk has a number of tokens; if only some have one it is
refused when the intervals are made. -/
theorem c32_setup (chunks : List ChunkInfo) (bs : Nat) (hb : 0 < bs) (idx b : Nat) :
    (tokSetup chunks = .error .valueError ↔ ∀ c ∈ chunks, c.dim = none) ∧
    ((∃ ivs, tokIntervals bs none idx b chunks = .ok ivs) ↔ ∀ c ∈ chunks, c.dim ≠ none) := by
  constructor
  · unfold tokSetup
    by_cases h : (chunks.all fun c => c.dim == none) = true
    · rw [if_pos h]
      simp only [List.all_eq_true, beq_iff_eq] at h
      simp only [true_iff]
      exact h
    · rw [if_neg h]
      simp only [List.all_eq_true, beq_iff_eq] at h
      simp only [reduceCtorEq, false_iff]
      exact h
  · induction chunks generalizing idx b with
    | nil => simp [tokIntervals, Nat.ne_of_gt hb]
    | cons c cs ih =>
      unfold tokIntervals
      rw [if_neg (by omega)]
      cases hc : c.dim with
      | none =>
        simp only [reduceCtorEq, exists_false, false_iff]
        intro h
        exact h c (by simp) hc
      | some d =>
        have := ih (idx + 1) (b + d / bs)
        simp only [List.mem_cons, forall_eq_or_imp, hc, ne_eq, reduceCtorEq, not_false_eq_true, true_and]
        simp only [ne_eq] at this
        rw [← this]
        cases tokIntervals bs none (idx + 1) (b + d / bs) cs with
        | error e => simp
        | ok r => simp

/-- A chunk without a number of tokens next to one with: `setup` accepts. -/
example : tokSetup [⟨"a", 1, 1, none⟩, ⟨"b", 1, 1, some 3⟩] = .ok () ∧ tokIntervals 2 none 0 0 [⟨"a", 1, 1, none⟩, ⟨"b", 1, 1, some 3⟩] = .error .typeError := by
  decide

end LitData.Props
