import Verif.Model.ChunkFile

/-! Reading back what `chunkBytes` wrote. -/

namespace LitData

theorem le32_length (n : Nat) : (le32 n).length = 4 := rfl

theorem u8_toNat (n : Nat) : (UInt8.ofNat n).toNat = n % 256 := by simp

theorem u32s_le32 (n : Nat) (h : n < 2 ^ 32) (rest : Bytes) :
    u32s (le32 n ++ rest) = (u32s rest).map (n :: ·) := by
  unfold le32
  simp only [List.cons_append, List.nil_append, u32s, u8_toNat, bind, Except.bind, pure, Except.pure]
  have : n % 256 + 256 * (n / 256 % 256) + 65536 * (n / 65536 % 256) + 16777216 * (n / 16777216 % 256) = n := by
    omega
  rw [this]
  cases u32s rest <;> rfl

theorem u32s_flatMap (l : List Nat) (h : ∀ n ∈ l, n < 2 ^ 32) : u32s (l.flatMap le32) = .ok l := by
  induction l with
  | nil => rfl
  | cons n l ih =>
    rw [List.flatMap_cons, u32s_le32 n (h n (by simp)), ih (fun m hm => h m (List.mem_cons_of_mem _ hm))]
    rfl

theorem flatMap_le32_length (l : List Nat) : (l.flatMap le32).length = 4 * l.length := by
  induction l with
  | nil => rfl
  | cons n l ih => rw [List.flatMap_cons, List.length_append, ih, le32_length, List.length_cons]; omega

theorem flatMap_le32_drop (l : List Nat) (i : Nat) : (l.flatMap le32).drop (4 * i) = (l.drop i).flatMap le32 := by
  induction i generalizing l with
  | zero => rfl
  | succ i ih =>
    cases l with
    | nil => simp
    | cons n l =>
      rw [List.flatMap_cons, List.drop_succ_cons, ← ih l, show 4 * (i + 1) = 4 + 4 * i by omega, ← List.drop_drop]
      rfl

theorem cumsum_length (acc : Nat) (l : List Nat) : (cumsum acc l).length = l.length + 1 := by
  induction l generalizing acc with
  | nil => rfl
  | cons s l ih => simp [cumsum, ih]

theorem cumsum_getElem? (acc : Nat) (l : List Nat) (i : Nat) (h : i ≤ l.length) :
    (cumsum acc l)[i]? = some (acc + (l.take i).sum) := by
  induction l generalizing acc i with
  | nil => simp at h; subst h; rfl
  | cons s l ih =>
    cases i with
    | zero => simp [cumsum]
    | succ i =>
      simp only [cumsum, List.getElem?_cons_succ]
      rw [ih _ _ (by simpa using h)]
      simp; omega

theorem flatten_take_length (items : List Bytes) (i : Nat) :
    (items.take i).flatten.length = ((items.map List.length).take i).sum := by
  rw [List.length_flatten, List.map_take]

theorem flatten_slice (items : List Bytes) (i : Nat) (h : i < items.length) :
    (items.flatten.drop (items.take i).flatten.length).take items[i].length = items[i] := by
  have : items.flatten = (items.take i).flatten ++ (items[i] ++ (items.drop (i + 1)).flatten) := by
    conv => lhs; rw [← List.take_append_drop i items]
    rw [List.flatten_append, List.drop_eq_getElem_cons h, List.flatten_cons]
  rw [this, List.drop_left, List.take_left]

/-- The header of a chunk of `n` items takes `4 + 4 * (n + 1)` bytes. -/
theorem chunkBytes_length (items : List Bytes) :
    (chunkBytes items).length = 4 + 4 * (items.length + 1) + items.flatten.length := by
  unfold chunkBytes
  rw [List.length_append, List.length_append, flatMap_le32_length]
  unfold chunkOffsets
  rw [List.length_map, cumsum_length, List.length_map, le32_length]

theorem chunkOffsets_getElem? (items : List Bytes) (i : Nat) (h : i ≤ items.length)
    (hs : 4 + 4 * (items.length + 1) + items.flatten.length < 2 ^ 32) :
    (chunkOffsets items)[i]? = some (4 + 4 * (items.length + 1) + (items.take i).flatten.length) := by
  unfold chunkOffsets
  rw [List.getElem?_map, cumsum_getElem? _ _ _ (by simpa using h), Option.map_some, flatten_take_length]
  have : ((items.map List.length).take i).sum ≤ items.flatten.length := by
    rw [← flatten_take_length]
    conv => rhs; rw [← List.take_append_drop i items]
    rw [List.flatten_append, List.length_append]; omega
  congr 1
  rw [Nat.zero_add, Nat.mod_eq_of_lt (by omega), Nat.mod_eq_of_lt (by omega)]
  omega

theorem loadData_chunkBytes (items : List Bytes) (i : Nat) (h : i < items.length)
    (hs : 4 + 4 * (items.length + 1) + items.flatten.length < 2 ^ 32) :
    loadData (chunkBytes items) ((1 + i) * 4) = .ok items[i] := by
  have h1 := chunkOffsets_getElem? items i (by omega) hs
  have h2 := chunkOffsets_getElem? items (i + 1) (by omega) hs
  have hlen : (items.take (i + 1)).flatten.length = (items.take i).flatten.length + items[i].length := by
    rw [List.take_add_one, List.getElem?_eq_getElem h, List.flatten_append, List.length_append]
    simp only [Option.toList_some, List.flatten_singleton]
  have hle : (items.take (i + 1)).flatten.length ≤ items.flatten.length := by
    conv => rhs; rw [← List.take_append_drop (i + 1) items]
    rw [List.flatten_append, List.length_append]; omega
  have hcl : (chunkOffsets items).length = items.length + 1 := by
    unfold chunkOffsets; rw [List.length_map, cumsum_length, List.length_map]
  have hpair : readAt (chunkBytes items) ((1 + i) * 4) 8 =
      le32 (4 + 4 * (items.length + 1) + (items.take i).flatten.length) ++
      le32 (4 + 4 * (items.length + 1) + (items.take (i + 1)).flatten.length) := by
    unfold readAt chunkBytes
    rw [List.append_assoc, show (1 + i) * 4 = (le32 items.length).length + 4 * i by rw [le32_length]; omega,
      List.drop_length_add_append, List.drop_append_of_le_length (by rw [flatMap_le32_length]; omega),
      flatMap_le32_drop, List.drop_eq_getElem_cons (by omega), List.drop_eq_getElem_cons (by omega)]
    rw [List.getElem?_eq_getElem (by omega), Option.some.injEq] at h1 h2
    rw [h1, h2, List.flatMap_cons, List.flatMap_cons, ← List.append_assoc, List.append_assoc]
    rw [List.append_assoc]
    rfl
  unfold loadData
  rw [hpair, u32s_le32 _ (by omega)]
  rw [← List.append_nil (le32 (4 + 4 * (items.length + 1) + (items.take (i + 1)).flatten.length)),
    u32s_le32 _ (by omega)]
  simp only [u32s, Except.map]
  congr 1
  unfold readAt chunkBytes
  have hl : (le32 items.length ++ (chunkOffsets items).flatMap le32).length = 4 + 4 * (items.length + 1) := by
    rw [List.length_append, flatMap_le32_length, hcl, le32_length]
  rw [← List.drop_drop, List.drop_left' hl]
  rw [show (4 + 4 * (items.length + 1) + (items.take (i + 1)).flatten.length + 2 ^ 32 -
    (4 + 4 * (items.length + 1) + (items.take i).flatten.length)) % 2 ^ 32 = items[i].length by omega]
  exact flatten_slice items i h

theorem readAt_length_le (file : Bytes) (s n : Nat) : (readAt file s n).length ≤ n := by
  unfold readAt; rw [List.length_take]; omega

theorem loadData_length (file : Bytes) (off : Nat) (x : Bytes) (h : loadData file off = .ok x) : x.length < 2 ^ 32 := by
  unfold loadData at h
  split at h
  · simp at h
  · simp only [Except.ok.injEq] at h
    rw [← h]
    refine Nat.lt_of_le_of_lt (readAt_length_le _ _ _) (Nat.mod_lt _ (by omega))
  · simp at h

end LitData
