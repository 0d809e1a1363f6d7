import Verif.Lemmas.Leaves

/-! Properties C12 and C42: leaf serializers round-trip, and are chosen in a fixed order. -/

namespace LitData.Props
open LitData

/-- **C12.** Booleans, 64-bit integers, floats, strings that are not paths of files, bytes, PIL images, numpy arrays and tensors
of every supported dtype and shape, and whatever the pickle module handles: the serializer chosen for the
leaf writes it, and reading the bytes with the data format that was recorded gives the leaf back. Missing: images with a palette, for which it
is false (`c12_palette_lost`), and the type of integers and floats, which are read as NumPy scalars (`c84_written_again_partial`). -/
theorem c12_roundtrip_partial (env : SerEnv) (x : LeafTree) (hk : (leafKind env x).isSome) (hf : LeafFits env x) :
    ∃ key s b name, (builtins env).find? (fun e => e.2.canSerialize x) = some (key, s) ∧
      s.serialize x = .ok (b, name) ∧ s.deserialize (name.getD key) b = .ok x := by
  obtain ⟨k, hk⟩ := Option.isSome_iff_exists.mp hk
  obtain ⟨b, n, h1, _, h3, h4, _⟩ := kind_handles env x k hk hf
  exact ⟨_, _, b, n, picks_builtin env x k hk, h1, by rw [← h3]; exact h4⟩

/-- **C12**, lists of JPEG images: each image file comes back decoded, in order, for every non-empty list
or tuple of images. The result is a list. -/
theorem c12_jpeg_array (env : SerEnv) (files : List Bytes) (hne : files ≠ []) (hn : files.length < 2 ^ 32)
    (h : ∀ f ∈ files, f.length < 2 ^ 32) (hd : Head) :
    ∃ b, (jpegArraySer env).serialize (.node hd (files.map fun f => .leaf (.jpeg f))) = .ok (b, none) ∧
      ∀ fmt, (jpegArraySer env).deserialize fmt b = (decodeAll env.decodeJpeg files).map (Tree.node .list) := by
  refine ⟨jpegArrayBytes files, ?_, fun fmt => jpegArrayOf_bytes env.decodeJpeg files hne hn h⟩
  simp only [jpegArraySer]
  rw [jpegFiles_map]

/-- One JPEG image: what is read is the decoded content of the file. -/
theorem c12_jpeg (env : SerEnv) (file : Bytes) :
    ∃ b, (jpegSer env).serialize (.leaf (.jpeg file)) = .ok (b, none) ∧
      ∀ fmt, (jpegSer env).deserialize fmt b = env.decodeJpeg file := ⟨file, rfl, fun _ => rfl⟩

/-- **C12 fails: palettes.** An image with a palette is read back with the same pixels and without its palette: two images that differ in their
colours only are stored as the same bytes. -/
theorem c12_palette_lost (env : SerEnv) (mode : String) (w h : Nat) (raw palette : Bytes) (hw : w < 2 ^ 32) (hh : h < 2 ^ 32) (hm : (utf8 mode).length < 2 ^ 32) :
    ∃ b, (builtins env).find? (fun e => e.2.canSerialize (.leaf (.pil mode w h raw (some palette)))) = some ("pil", pilSer) ∧
      pilSer.serialize (.leaf (.pil mode w h raw (some palette))) = .ok (b, none) ∧ pilSer.deserialize "pil" b = .ok (.leaf (.pil mode w h raw none)) ∧
      ∀ palette', pilSer.serialize (.leaf (.pil mode w h raw palette')) = .ok (b, none) := by
  obtain ⟨b, n, h1, _, h3, h4, _⟩ := kind_handles env (.leaf (.pil mode w h raw none)) .pil rfl ⟨hw, hh, hm, rfl⟩
  have hn : n = none := by
    simp only [kindCol, pilSer] at h1
    injection h1 with h1
    injection h1 with _ h1
    exact h1.symm
  subst hn
  exact ⟨b, rfl, h1, h4, fun _ => h1⟩

/-- An integer outside 64 bits is refused with `OverflowError`, not truncated. -/
theorem c12_big_int_refused (i : Int) (h : i < -(2 ^ 63) ∨ 2 ^ 63 ≤ i) :
    intSer.serialize (.leaf (.int i)) = .error .overflow := by
  simp only [intSer, int64Bytes]
  rw [if_neg (by omega)]

/-- A `bfloat16` tensor is in the dtype table but cannot be written: `TypeError`. -/
theorem c12_bfloat16_refused (shape : List Nat) (data : Bytes) :
    tensorSer.serialize (.leaf (.tensor .bfloat16 shape data)) = .error .typeError ∧
      noHeaderTensorSer.serialize (.leaf (.tensor .bfloat16 shape data)) = .error .typeError := ⟨rfl, rfl⟩

/-- The table does not confuse dtypes: two dtypes never share an index. -/
theorem c12_dtype_index_injective :
    (∀ d d' : TorchDType, lastIndex d torchTable = lastIndex d' torchTable → d = d') ∧
      ∀ d d' : NumpyDType, lastIndex d numpyTable = lastIndex d' numpyTable → d = d' := by
  constructor
  · intro d d' h
    obtain ⟨i, h1, h2, _⟩ := torch_lastIndex d
    obtain ⟨j, h3, h4, _⟩ := torch_lastIndex d'
    rw [h1, h3] at h
    injection h with h
    subst h
    rw [h2] at h4
    injection h4
  · intro d d' h
    obtain ⟨i, h1, h2, _⟩ := numpy_lastIndex d
    obtain ⟨j, h3, h4, _⟩ := numpy_lastIndex d'
    rw [h1, h3] at h
    injection h with h
    subst h
    rw [h2] at h4
    injection h4

/-- **C42, writing.** The serializer used is the first of the user's that accepts the leaf; if none does,
the first of the default ones that accepts it, among those whose name the user did not take. -/
theorem c42_first_accepting {V : Type} (user defaults extra extra' : Table V) (x : V) (d : Bytes × Nat) (n : String)
    (h : serializeLeaf (getSerializers user defaults) extra x = .ok (d, n, extra')) :
    ∃ key s name, s.canSerialize x = true ∧ s.serialize x = .ok (d.1, name) ∧
      ((∃ before after, user = before ++ (key, s) :: after ∧ ∀ e ∈ before, e.2.canSerialize x = false) ∨
       ((∀ e ∈ user, e.2.canSerialize x = false) ∧ key ∉ user.map (·.1) ∧
         ∃ before after, defaults = before ++ (key, s) :: after ∧
           ∀ e ∈ before, e.1 ∉ user.map (·.1) → e.2.canSerialize x = false)) := by
  unfold serializeLeaf at h
  split at h
  · simp at h
  rename_i key s hf
  split at h
  · simp at h
  rename_i b name hs
  simp only [Except.ok.injEq, Prod.mk.injEq] at h
  obtain ⟨hd, -, -⟩ := h
  refine ⟨key, s, name, by simpa using List.find?_some hf, by rw [hs, ← hd], ?_⟩
  unfold getSerializers at hf
  rw [List.find?_append] at hf
  cases hu : user.find? (fun e => e.2.canSerialize x) with
  | some u =>
    rw [hu, Option.some_or] at hf
    injection hf with hf
    subst hf
    obtain ⟨_, as, bs, h1, h2⟩ := List.find?_eq_some_iff_append.mp hu
    exact Or.inl ⟨as, bs, h1, fun e he => by simpa using h2 e he⟩
  | none =>
    rw [hu, Option.none_or, List.find?_filter] at hf
    obtain ⟨h0, as, bs, h1, h2⟩ := List.find?_eq_some_iff_append.mp hf
    have hmem : ∀ k : String, (!(user.any fun u => u.1 == k)) = true ↔ k ∉ user.map (·.1) := by
      intro k
      rw [Bool.not_eq_true', ← Bool.not_eq_true, List.any_eq_true]
      simp only [beq_iff_eq, List.mem_map]
    simp only [decide_eq_true_eq, hmem] at h0
    refine Or.inr ⟨by simpa using hu, by simpa using h0.1, as, bs, h1, fun e he hk => ?_⟩
    have := h2 e he
    rw [Bool.not_eq_true', ← Bool.not_eq_true] at this
    rw [← Bool.not_eq_true]
    intro hc
    apply this
    simp only [decide_eq_true_eq, hmem]
    exact ⟨hk, hc⟩

/-- A leaf is refused with `ValueError` only if no serializer accepts it; the default table accepts all. -/
theorem c42_always_some (user : Table LeafTree) (env : SerEnv) (hu : "pickle" ∉ user.map (·.1)) (x : LeafTree) :
    ∃ key s, (getSerializers user (builtins env)).find? (fun e => e.2.canSerialize x) = some (key, s) := by
  cases h : (getSerializers user (builtins env)).find? (fun e => e.2.canSerialize x) with
  | some e => exact ⟨e.1, e.2, rfl⟩
  | none =>
    rw [List.find?_eq_none] at h
    refine absurd ?_ (h ("pickle", pickleSer env) ?_)
    · rfl
    · unfold getSerializers
      refine List.mem_append_right _ (List.mem_filter.mpr ⟨by simp [builtins], ?_⟩)
      rw [Bool.not_eq_true', ← Bool.not_eq_true, List.any_eq_true]
      simpa using hu

/-- **C42, reading.** When every data format is the serializer's name, or the name, a colon and a suffix
which is not itself a name, the reader sets up exactly the serializer that wrote the leaf, with the format
it recorded, for every leaf of the sample. -/
theorem c42_reading_uses_writer_partial {V : Type} (sers : Table V) (hn : (sers.map (·.1)).Nodup) (cols : List (Col V)) (xs : List V)
    (hp : Aligned (Picks sers) xs cols) (hw : ∀ c ∈ cols, NamedWell sers c.key c.fmt) :
    ∃ d, setupFormats (ReadTable.ofTable sers) (cols.map (·.fmt)) = .ok d ∧
      ∀ c ∈ cols, d.lookup c.fmt = some (c.ser, some c.fmt) := by
  have hmem : ∀ c ∈ cols, (c.key, c.ser) ∈ sers := by
    clear hw
    induction cols generalizing xs with
    | nil => simp
    | cons c cols ih =>
      match xs, hp with
      | x :: xs, ⟨⟨h1, _⟩, h2⟩ =>
        intro c' hc'
        rcases List.mem_cons.mp hc' with rfl | hc'
        · exact List.mem_of_find?_eq_some h1
        · exact ih xs h2 c' hc'
  obtain ⟨d, h1, h2, _⟩ := setupFormats_ok sers cols (fun c hc => ⟨lookup_of_mem sers hn (hmem c hc), hw c hc⟩)
    (ReadTable.ofTable sers) (by
      intro k _
      rw [lookup_ofTable]
      cases sers.lookup k <;> rfl)
  exact ⟨d, h1, h2⟩

/-- The default serializers meet the naming condition, for every kind of leaf. -/
theorem c42_builtins_named (env : SerEnv) (k : Kind) :
    NamedWell (builtins env) (kindCol env k).key (kindCol env k).fmt := (kindCol_ok env k).2

/-- **A name with a colon is read with another serializer.** A user serializer called `my:str` writes the
leaf; the reader takes the default `str` serializer instead. -/
theorem c42_colon_name_breaks (env : SerEnv) (s : Serializer LeafTree) :
    dataFormatToKey (ReadTable.ofTable (getSerializers [("my:str", s)] (builtins env))) "my:str" = .ok "str" := by
  have h : (ReadTable.ofTable (getSerializers [("my:str", s)] (builtins env))).lookup "str" = some (strSer env, none) := rfl
  have hsp : splitColon "my:str".toList = ["my".toList, "str".toList] := by decide
  unfold dataFormatToKey
  rw [hsp]
  simp only [String.ofList_toList, h, Option.isSome_some, if_true]

/-- **A name that is the suffix of a format captures it.** If the user registers a serializer called `17`,
one-dimensional `int64` tensors (format `no_header_tensor:18`) are unaffected but those with suffix `17`
would be read with it; in general the suffix wins. -/
theorem c42_suffix_captures {β : Type} (d : List (String × β)) (key suf : String) (hk : ':' ∉ key.toList) (hs : ':' ∉ suf.toList)
    (h : (d.lookup suf).isSome) :
    dataFormatToKey d (String.ofList (key.toList ++ ':' :: suf.toList)) = .ok suf := by
  unfold dataFormatToKey
  rw [String.toList_ofList, splitColon_append _ _ hk, splitColon_noColon _ hs]
  simp only [String.ofList_toList, h, if_true]

/-! Leaves that meet the hypotheses of `c12_roundtrip_partial`. -/

def demoSerEnv : SerEnv where
  files _ := none
  ext _ := ""
  isVideo _ := false
  isTiff _ := false
  decodeVideo _ := .error .runtimeError
  decodeTiff _ := .error .runtimeError
  decodeJpeg b := .ok (.leaf (.bytes b))
  pickle _ := []
  unpickle _ := .error .runtimeError

example : (leafKind demoSerEnv (.leaf (.tensor .int16 [2, 0, 3] []))).isSome ∧
    LeafFits demoSerEnv (.leaf (.tensor .int16 [2, 0, 3] [])) := by
  refine ⟨rfl, ?_⟩
  show _ ∧ _ ∧ _
  decide

example : (leafKind demoSerEnv (.leaf (.ndarray .uint16 [2] [1, 2, 3, 4]))).isSome ∧
    LeafFits demoSerEnv (.leaf (.ndarray .uint16 [2] [1, 2, 3, 4])) := by
  refine ⟨rfl, ?_⟩
  show _ ∧ _ ∧ _ ∧ _
  refine ⟨by decide, by decide, by decide, by simp⟩

example : LeafFits demoSerEnv (.leaf (.int (-5))) := by show _ ∧ _; decide

end LitData.Props
