import Verif.Model.Serializers
import Verif.Lemmas.ChunkFile

/-! Byte-level facts about the leaf serializers. -/

namespace LitData

theorem leBytes_length (k n : Nat) : (leBytes k n).length = k := by
  induction k generalizing n with
  | zero => rfl
  | succ k ih => simp [leBytes, ih]

theorem leNat_leBytes (k n : Nat) : leNat (leBytes k n) = n % 256 ^ k := by
  induction k generalizing n with
  | zero => simp [leBytes, leNat, Nat.mod_one]
  | succ k ih =>
    rw [leBytes, leNat, ih, u8_toNat, Nat.pow_succ', Nat.mod_mul]

theorem leBytes_ne_nil (n : Nat) : leBytes 8 n ≠ [] := by
  intro h
  have := leBytes_length 8 n
  rw [h] at this
  exact absurd this (by decide)

theorem first8_leBytes (n : Nat) : first8 (leBytes 8 n) = .ok (leBytes 8 n) := by
  unfold first8
  rw [if_neg (by rw [leBytes_length]; decide), if_neg (leBytes_ne_nil n),
    List.take_of_length_le (Nat.le_of_eq (leBytes_length 8 n))]

theorem int64Of_leBytes (i : Int) (h1 : -(2 ^ 63 : Int) ≤ i) (h2 : i < 2 ^ 63) :
    int64Of (leBytes 8 (i % 2 ^ 64).toNat) = i := by
  unfold int64Of
  rw [leNat_leBytes]
  have e : (256 : Nat) ^ 8 = 18446744073709551616 := by decide
  have e3 : (2 : Nat) ^ 63 = 9223372036854775808 := by decide
  simp only [e, e3]
  have e1 : (2 : Int) ^ 63 = 9223372036854775808 := by decide
  have e2 : (2 : Int) ^ 64 = 18446744073709551616 := by decide
  rw [e1] at h1 h2
  rw [e2]
  split <;> omega

theorem unUtf8_utf8 (s : String) : unUtf8 (utf8 s) = .ok s := by
  unfold unUtf8 utf8
  have h : String.fromUTF8? ⟨s.toUTF8.data.toList.toArray⟩ = some s := by
    rw [Array.toArray_toList]
    show String.fromUTF8? s.toUTF8 = some s
    unfold String.fromUTF8?

    rw [dif_pos (show s.toUTF8.IsValidUTF8 from s.isValidUTF8)]
    rfl
  rw [h]

theorem utf8_inj {s t : String} (h : utf8 s = utf8 t) : s = t := by
  have h1 := unUtf8_utf8 s
  rw [h, unUtf8_utf8 t] at h1
  injection h1 with h1
  exact h1.symm

theorem take4_le32 (n : Nat) (r : Bytes) : (le32 n ++ r).take 4 = le32 n := List.take_left' rfl

theorem drop4_le32 (n : Nat) (r : Bytes) : (le32 n ++ r).drop 4 = r := List.drop_left' rfl

theorem u32s_one (n : Nat) (h : n < 2 ^ 32) : u32s (le32 n) = .ok [n] := by
  have := u32s_le32 n h []
  rw [List.append_nil] at this
  rw [this]; rfl

theorem u32At_append (p : Bytes) (n : Nat) (h : n < 2 ^ 32) (r : Bytes) :
    u32At (p ++ (le32 n ++ r)) p.length = .ok n := by
  unfold u32At
  rw [List.drop_left, take4_le32, u32s_one n h]

theorem shapeAt_append (p : Bytes) (shape : List Nat) (h : ∀ n ∈ shape, n < 2 ^ 32) (r : Bytes) :
    shapeAt (p ++ (shape.flatMap le32 ++ r)) p.length shape.length = .ok shape := by
  induction shape generalizing p with
  | nil => rfl
  | cons n shape ih =>
    rw [List.length_cons, shapeAt, List.flatMap_cons, List.append_assoc, u32At_append p n (h n (by simp))]
    have := ih (p ++ le32 n) (fun m hm => h m (List.mem_cons_of_mem _ hm))
    rw [List.length_append, le32_length, List.append_assoc] at this
    simp only [this]

theorem arrayOf_header (d : Nat) (shape : List Nat) (data : Bytes) (hd : d < 2 ^ 32)
    (hk : shape.length < 2 ^ 32) (h : ∀ n ∈ shape, n < 2 ^ 32) :
    arrayOf (arrayHeader d shape ++ data) = .ok (d, shape, data) := by
  unfold arrayOf arrayHeader
  have e : le32 d ++ le32 shape.length ++ shape.flatMap le32 ++ data =
      le32 d ++ (le32 shape.length ++ (shape.flatMap le32 ++ data)) := by simp [List.append_assoc]
  rw [e]
  have h1 := u32At_append [] d hd (le32 shape.length ++ (shape.flatMap le32 ++ data))
  rw [List.nil_append] at h1
  have h2 := u32At_append (le32 d) shape.length hk (shape.flatMap le32 ++ data)
  have h3 := shapeAt_append (le32 d ++ le32 shape.length) shape h data
  rw [List.append_assoc] at h3
  have h4 : (le32 d ++ (le32 shape.length ++ (shape.flatMap le32 ++ data))).drop (8 + 4 * shape.length) = data := by
    rw [← List.append_assoc, ← List.append_assoc]
    apply List.drop_left'
    rw [List.length_append, List.length_append, flatMap_le32_length, le32_length, le32_length]
  simp only [List.length_nil, le32_length] at h1 h2
  simp only [List.length_append, le32_length] at h3
  rw [h1]; simp only; rw [h2]; simp only; rw [h3]; simp only
  rw [h4]

theorem slices_flatten (p : Bytes) (files : List Bytes) (off : Nat) (h : off = p.length) :
    slices (p ++ files.flatten) off (files.map List.length) = files := by
  induction files generalizing p off with
  | nil => rfl
  | cons f files ih =>
    subst h
    rw [List.map_cons, slices, List.flatten_cons, List.drop_left, List.take_left]
    congr 1
    have := ih (p ++ f) (p.length + f.length) (by rw [List.length_append])
    rwa [List.append_assoc] at this

theorem jpegArrayOf_bytes (dec : Bytes → Py LeafTree) (files : List Bytes) (hne : files ≠ [])
    (hn : files.length < 2 ^ 32) (h : ∀ f ∈ files, f.length < 2 ^ 32) :
    jpegArrayOf dec (jpegArrayBytes files) = (decodeAll dec files).map (Tree.node .list) := by
  unfold jpegArrayOf jpegArrayBytes
  have hl : (le32 files.length ++ (files.map List.length).flatMap le32 ++ files.flatten).length =
      4 + 4 * files.length + files.flatten.length := by
    rw [List.length_append, List.length_append, flatMap_le32_length, le32_length, List.length_map]
  rw [hl, if_neg (by omega), List.append_assoc, take4_le32, u32s_one _ hn]
  simp only
  rw [if_neg (by intro h0; exact hne (List.eq_nil_of_length_eq_zero h0)), if_neg (by omega), drop4_le32,
    List.take_left' (by rw [flatMap_le32_length, List.length_map]),
    u32s_flatMap _ (by intro n hm; obtain ⟨f, hf, rfl⟩ := List.mem_map.mp hm; exact h f hf)]
  simp only
  rw [← List.append_assoc, slices_flatten _ _ _ (by
    rw [List.length_append, flatMap_le32_length, le32_length, List.length_map])]
  cases decodeAll dec files <;> rfl

theorem jpegFiles_map (files : List Bytes) : jpegFiles (files.map fun f => .leaf (.jpeg f)) = some files := by
  induction files with
  | nil => rfl
  | cons f files ih => rw [List.map_cons, jpegFiles, ih]; rfl

theorem splitColon_noColon (l : List Char) (h : ':' ∉ l) : splitColon l = [l] := by
  induction l with
  | nil => rfl
  | cons c l ih =>
    simp only [List.mem_cons, not_or] at h
    rw [splitColon, if_neg (fun e => h.1 e.symm), ih h.2]

theorem splitColon_append (a b : List Char) (h : ':' ∉ a) : splitColon (a ++ ':' :: b) = a :: splitColon b := by
  induction a with
  | nil => simp [splitColon]
  | cons c a ih =>
    simp only [List.mem_cons, not_or] at h
    rw [List.cons_append, splitColon, if_neg (fun e => h.1 e.symm), ih h.2]

theorem toDigits_noColon (i : Nat) : ':' ∉ Nat.toDigits 10 i := by
  intro h
  have := Nat.isDigit_of_mem_toDigits (by decide) (by decide) h
  exact absurd this (by decide)

theorem formatIndex_formatName (key : String) (i : Nat) (h : ':' ∉ key.toList) :
    formatIndex (formatName key i) = .ok i := by
  unfold formatIndex formatName
  rw [String.toList_ofList, splitColon_append _ _ h, splitColon_noColon _ (toDigits_noColon i)]
  simp only
  rw [if_pos ⟨Nat.toDigits_ne_nil, by
    rw [List.all_eq_true]; intro c hc; exact Nat.isDigit_of_mem_toDigits (by decide) (by decide) hc⟩,
    Nat.ofDigitChars_ten_toDigits]

theorem torch_lastIndex (d : TorchDType) : ∃ i, lastIndex d torchTable = some i ∧ torchTable[i]? = some d ∧ i < 20 := by
  cases d <;> exact ⟨_, rfl, rfl, by decide⟩

theorem numpy_lastIndex (d : NumpyDType) : ∃ i, lastIndex d numpyTable = some i ∧ numpyTable[i]? = some d ∧ i < 14 := by
  cases d <;> exact ⟨_, rfl, rfl, by decide⟩

end LitData
