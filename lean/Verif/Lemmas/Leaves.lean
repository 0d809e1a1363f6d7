import Verif.Spec.Leaves
import Verif.Lemmas.Sample

/-! Which default serializer handles which leaf, and that it gives the leaf back. -/

namespace LitData

/-- The serializer, name and data format used for a kind of leaves. -/
def kindCol (env : SerEnv) : Kind → Col LeafTree
  | .str => ⟨"str", strSer env, "str"⟩
  | .bool => ⟨"bool", boolSer, "bool"⟩
  | .int => ⟨"int", intSer, "int"⟩
  | .float => ⟨"float", floatSer, "float"⟩
  | .pil => ⟨"pil", pilSer, "pil"⟩
  | .bytes => ⟨"bytes", bytesSer, "bytes"⟩
  | .array1 d => ⟨"no_header_numpy", noHeaderNumpySer, formatName "no_header_numpy" ((lastIndex d numpyTable).getD 0)⟩
  | .arrayN => ⟨"numpy", numpySer, "numpy"⟩
  | .tensor1 d => ⟨"no_header_tensor", noHeaderTensorSer, formatName "no_header_tensor" ((lastIndex d torchTable).getD 0)⟩
  | .tensorN => ⟨"tensor", tensorSer, "tensor"⟩
  | .pickled => ⟨"pickle", pickleSer env, "pickle"⟩

theorem kindCol_ok (env : SerEnv) (k : Kind) : ColOk (builtins env) (kindCol env k) := by
  cases k with
  | array1 d =>
    refine ⟨rfl, by show ':' ∉ "no_header_numpy".toList; decide, Or.inr ⟨_, rfl, toDigits_noColon _, ?_⟩⟩
    cases d <;> rfl
  | tensor1 d =>
    refine ⟨rfl, by show ':' ∉ "no_header_tensor".toList; decide, Or.inr ⟨_, rfl, toDigits_noColon _, ?_⟩⟩
    cases d <;> rfl
  | str => exact ⟨rfl, by show ':' ∉ "str".toList; decide, Or.inl rfl⟩
  | bool => exact ⟨rfl, by show ':' ∉ "bool".toList; decide, Or.inl rfl⟩
  | int => exact ⟨rfl, by show ':' ∉ "int".toList; decide, Or.inl rfl⟩
  | float => exact ⟨rfl, by show ':' ∉ "float".toList; decide, Or.inl rfl⟩
  | pil => exact ⟨rfl, by show ':' ∉ "pil".toList; decide, Or.inl rfl⟩
  | bytes => exact ⟨rfl, by show ':' ∉ "bytes".toList; decide, Or.inl rfl⟩
  | arrayN => exact ⟨rfl, by show ':' ∉ "numpy".toList; decide, Or.inl rfl⟩
  | tensorN => exact ⟨rfl, by show ':' ∉ "tensor".toList; decide, Or.inl rfl⟩
  | pickled => exact ⟨rfl, by show ':' ∉ "pickle".toList; decide, Or.inl rfl⟩

theorem formatName_ne_empty (key : String) (i : Nat) : formatName key i ≠ "" := by
  intro h
  have := congrArg String.toList h
  unfold formatName at this
  rw [String.toList_ofList] at this
  simp at this

theorem picks_builtin (env : SerEnv) (x : LeafTree) (k : Kind) (hk : leafKind env x = some k) :
    (builtins env).find? (fun e => e.2.canSerialize x) = some ((kindCol env k).key, (kindCol env k).ser) := by
  match x with
  | .leaf (.str s) =>
    simp only [leafKind] at hk
    split at hk
    · rename_i h
      injection hk with hk; subst hk
      simp [builtins, strSer, h, kindCol]
    · rename_i h
      split at hk
      · simp at hk
      · rename_i h'
        injection hk with hk; subst hk
        simp only [Bool.or_eq_true, not_or, Bool.not_eq_true] at h'
        have h : (env.files s).isNone = false := Bool.eq_false_iff.mpr h
        simp [builtins, strSer, h, kindCol, boolSer, intSer, floatSer, videoSer, tiffSer, h'.1, h'.2,
          fileSer, pilSer, jpegSer, jpegArraySer, bytesSer, noHeaderNumpySer, numpySer, noHeaderTensorSer, tensorSer,
          pickleSer]
  | .leaf (.bool b) => injection hk with hk; subst hk; rfl
  | .leaf (.int b) => injection hk with hk; subst hk; rfl
  | .leaf (.float b) => injection hk with hk; subst hk; rfl
  | .leaf (.bytes b) => injection hk with hk; subst hk; rfl
  | .leaf (.pil ..) => injection hk with hk; subst hk; rfl
  | .leaf (.jpeg _) => simp [leafKind] at hk
  | .leaf (.ndarray _ [] _) => injection hk with hk; subst hk; rfl
  | .leaf (.ndarray d [_] _) => injection hk with hk; subst hk; rfl
  | .leaf (.ndarray _ (_ :: _ :: _) _) => 
    injection hk with hk; subst hk
    simp [builtins, strSer, kindCol, boolSer, intSer, floatSer, videoSer, tiffSer,
          fileSer, pilSer, jpegSer, jpegArraySer, bytesSer, noHeaderNumpySer, numpySer]
  | .leaf (.tensor d shape _) =>
    simp only [leafKind] at hk
    split at hk
    · simp at hk
    · split at hk
      · injection hk with hk; subst hk; rfl
      · rename_i h
        injection hk with hk; subst hk
        have : (shape.length == 1) = false := by
          simp only [beq_eq_false_iff_ne, ne_eq, List.length_eq_one_iff, not_exists]
          exact h
        simp [builtins, strSer, kindCol, boolSer, intSer, floatSer, videoSer, tiffSer,
          fileSer, pilSer, jpegSer, jpegArraySer, bytesSer, noHeaderNumpySer, numpySer, noHeaderTensorSer, tensorSer, this,
          bne]
  | .leaf (.other _) => injection hk with hk; subst hk; rfl
  | .node _ _ => simp [leafKind] at hk

/-- The serializer of the kind gives the leaf back, and names the kind's data format. -/
theorem kind_handles (env : SerEnv) (y : LeafTree) (k : Kind) (hk : leafKind env y = some k) (hf : LeafFits env y) :
    ∃ b n, (kindCol env k).ser.serialize y = .ok (b, n) ∧ (kindCol env k).fmt = formatOf (kindCol env k).key n ∧
      (kindCol env k).fmt = n.getD (kindCol env k).key ∧
      (kindCol env k).ser.deserialize (kindCol env k).fmt b = .ok y ∧ recordedSize (kindCol env k).ser b = b.length := by
  match y with
  | .leaf (.str s) =>
    simp only [leafKind] at hk
    split at hk
    · injection hk with hk; subst hk
      exact ⟨_, _, rfl, rfl, rfl, by simp only [kindCol, strSer]; rw [unUtf8_utf8], rfl⟩
    · rename_i h
      split at hk
      · simp at hk
      · injection hk with hk; subst hk
        exact ⟨_, _, rfl, rfl, rfl, hf.resolve_left h, rfl⟩
  | .leaf (.bool b) =>
    injection hk with hk; subst hk
    refine ⟨_, _, rfl, rfl, rfl, ?_, rfl⟩
    cases b <;> rfl
  | .leaf (.int i) =>
    injection hk with hk; subst hk
    refine ⟨_, none, by simp only [kindCol, intSer, int64Bytes]; rw [if_pos (show -(2 ^ 63 : Int) ≤ i ∧ i < 2 ^ 63 from hf)], rfl, rfl, ?_, ?_⟩
    · simp only [kindCol, intSer]
      rw [first8_leBytes]
      simp only
      rw [int64Of_leBytes _ hf.1 hf.2]
    · show 8 = _
      rw [leBytes_length]
  | .leaf (.float w) =>
    injection hk with hk; subst hk
    refine ⟨_, _, rfl, rfl, rfl, ?_, ?_⟩
    · simp only [kindCol, floatSer]
      rw [first8_leBytes]
      simp only
      rw [leNat_leBytes, Nat.mod_eq_of_lt (Nat.lt_of_lt_of_le w.toNat_lt (by decide)), UInt64.ofNat_toNat]
    · show 8 = _
      rw [leBytes_length]
  | .leaf (.bytes b) => injection hk with hk; subst hk; exact ⟨_, _, rfl, rfl, rfl, rfl, rfl⟩
  | .leaf (.pil mode w h raw palette) =>
    injection hk with hk; subst hk
    obtain ⟨h1, h2, h3, h4⟩ := hf
    subst h4
    refine ⟨_, _, rfl, rfl, rfl, ?_, rfl⟩
    simp only [kindCol, pilSer]
    generalize hm : utf8 mode = m
    have e1 : (le32 w ++ le32 h ++ le32 m.length ++ m ++ raw).take 12 = le32 w ++ (le32 h ++ le32 m.length) := by
      rw [List.append_assoc _ m raw, List.take_left' (by rfl), List.append_assoc]
    have e2 : (le32 w ++ le32 h ++ le32 m.length ++ m ++ raw).drop 12 = m ++ raw := by
      rw [List.append_assoc _ m raw, List.drop_left' (by rfl)]
    have e3 : (le32 w ++ le32 h ++ le32 m.length ++ m ++ raw).drop (12 + m.length) = raw := by
      rw [← List.drop_drop, e2, List.drop_left]
    rw [e1, u32s_le32 _ h1, u32s_le32 _ h2, u32s_one _ (hm ▸ h3), e2]
    simp only [Except.map]
    rw [List.take_left, e3, ← hm, unUtf8_utf8]
  | .leaf (.jpeg _) => simp [leafKind] at hk
  | .leaf (.ndarray d [] data) =>
    injection hk with hk; subst hk
    exact ⟨_, _, rfl, rfl, rfl, hf.2.2.2 rfl, rfl⟩
  | .leaf (.ndarray d [n] data) =>
    injection hk with hk; subst hk
    obtain ⟨i, h1, h2, h3⟩ := numpy_lastIndex d
    refine ⟨data, some (formatName "no_header_numpy" i), by simp only [kindCol, noHeaderNumpySer, h1], ?_, ?_, ?_, rfl⟩
    rotate_left
    · simp only [kindCol, h1, Option.getD_some]
    rotate_left
    · simp only [kindCol, h1, formatOf, if_neg (formatName_ne_empty _ _), Option.getD_some]
    · simp only [kindCol, noHeaderNumpySer, h1, Option.getD_some]
      rw [formatIndex_formatName _ _ (by decide)]
      simp only [h2]
      have hl := hf.1
      simp only [prod, List.foldr_cons, List.foldr_nil, Nat.mul_one] at hl
      have hp : 0 < d.size := by cases d <;> decide
      rw [hl, if_pos (Nat.mul_mod_right _ _), Nat.mul_div_cancel_left _ hp]
  | .leaf (.ndarray d (a :: b :: r) data) =>
    injection hk with hk; subst hk
    obtain ⟨i, h1, h2, h3⟩ := numpy_lastIndex d
    obtain ⟨g1, g2, g3, _⟩ := hf
    refine ⟨_, none, by simp only [kindCol, numpySer, h1]; rfl, rfl, rfl, ?_, rfl⟩
    simp only [kindCol, numpySer]
    rw [arrayOf_header i _ data (by omega) g2 g3]
    simp only [h2]
    rw [if_pos (by unfold reshapeOk; exact beq_iff_eq.mpr g1)]
  | .leaf (.tensor d shape data) =>
    simp only [leafKind] at hk
    split at hk
    · simp at hk
    rename_i hb
    obtain ⟨i, h1, h2, h3⟩ := torch_lastIndex d
    obtain ⟨g1, g2, g3⟩ := hf
    split at hk
    · injection hk with hk; subst hk
      refine ⟨data, some (formatName "no_header_tensor" i), by
        simp only [kindCol, noHeaderTensorSer, h1, if_neg hb], ?_, ?_, ?_, rfl⟩
      rotate_left
      · simp only [kindCol, h1, Option.getD_some]
      rotate_left
      · simp only [kindCol, h1, formatOf, if_neg (formatName_ne_empty _ _), Option.getD_some]
      · simp only [kindCol, noHeaderTensorSer, h1, Option.getD_some]
        rw [formatIndex_formatName _ _ (by decide)]
        simp only [h2]
        simp only [prod, List.foldr_cons, List.foldr_nil, Nat.mul_one] at g1
        have hp : 0 < d.size := by cases d <;> decide
        rw [g1, if_pos (Nat.mul_mod_right _ _), Nat.mul_div_cancel_left _ hp]
    · injection hk with hk; subst hk
      refine ⟨_, none, by simp only [kindCol, tensorSer, h1, if_neg hb]; rfl, rfl, rfl, ?_, rfl⟩
      simp only [kindCol, tensorSer]
      rw [arrayOf_header i _ data (by omega) g2 g3]
      simp only [h2]
      split
      · rename_i h; rw [h]
      · rw [if_pos (by unfold reshapeOk; exact beq_iff_eq.mpr g1)]
  | .leaf (.other i) => injection hk with hk; subst hk; exact ⟨_, _, rfl, rfl, rfl, hf, rfl⟩
  | .node _ _ => simp [leafKind] at hk

end LitData
