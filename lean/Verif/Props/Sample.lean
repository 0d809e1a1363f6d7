import Verif.Lemmas.Leaves
import Verif.Props.Serializers
import Verif.Lemmas.Pytree

/-! Property C13: a sample written is the sample read. -/

namespace LitData.Props
open LitData

/-- The samples after the first use its columns; the first determines them. -/
theorem serializeAll_ok {V α : Type} (sers : Table V) (flat : α → List V × TSpec) (cols : List (Col V))
    (hc : ∀ c ∈ cols, ColOk sers c) (hne : cols ≠ []) (x : α) (xs : List α) (zs : α → List V)
    (hp : Aligned (Picks sers) (flat x).1 cols) (hh : ∀ y ∈ x :: xs, Aligned3 Handles cols (flat y).1 (zs y)) :
    ∃ bytes extra, serializeAll sers flat SerState.init (x :: xs) =
        .ok (bytes, ⟨some (cols.map (·.fmt)), some (flat x).2, extra⟩) ∧
      ∃ d, setupFormats (ReadTable.ofTable sers) (cols.map (·.fmt)) = .ok d ∧
        Aligned (fun y b => deserializeSample d (cols.map (·.fmt)) b = .ok (zs y)) (x :: xs) bytes := by
  obtain ⟨ds, extra, h1, h2, h3, _⟩ := serializeFirst_ok sers cols (flat x).1 (zs x) hc hp (hh x (by simp)) []
    (by intro c _ s h; simp at h)
  obtain ⟨dss, h4, h5⟩ := serializeAll_next sers flat cols hne ⟨some (cols.map (·.fmt)), some (flat x).2, extra⟩ rfl h3 xs zs
    (fun y hy => hh y (List.mem_cons_of_mem _ hy))
  obtain ⟨d, h6, h7, _⟩ := setupFormats_ok sers cols hc (ReadTable.ofTable sers) (by
      intro k _
      rw [lookup_ofTable]
      cases sers.lookup k <;> rfl)
  refine ⟨encodeData ds :: dss.map encodeData, extra, ?_, d, h6, ?_⟩
  · simp only [serializeAll, serializeSample, SerState.init, h1, h4]
  · refine ⟨deserializeSample_ok d cols ds (zs x) h2 h7, ?_⟩
    clear h4 hh
    induction xs generalizing dss with
    | nil => match dss, h5 with
      | [], _ => trivial
    | cons y xs ih => match dss, h5 with
      | ds' :: dss, ⟨h8, h9⟩ => exact ⟨deserializeSample_ok d cols ds' (zs y) h8 h7, ih dss h9⟩

theorem Aligned.getElem {α β : Type} {R : α → β → Prop} : ∀ {as : List α} {bs : List β}, Aligned R as bs →
    ∀ (i : Nat) (h : i < as.length) (h' : i < bs.length), R as[i] bs[i]
  | _ :: _, _ :: _, ⟨h1, _⟩, 0, _, _ => h1
  | _ :: as, _ :: bs, ⟨_, h2⟩, i + 1, h, h' => Aligned.getElem h2 i (by simpa using h) (by simpa using h')

/-- The data format recorded is that of the columns. Let the serializers chosen for the first sample handle the leaves of all
samples, position by position, and let their names lead back to them. Then writing all samples succeeds,
and reading any of them gives its leaves as they were decoded, put together in the structure of the first
sample. -/
theorem any_serializers_formats (sers : Table LeafTree) (cols : List (Col LeafTree)) (x : LeafTree) (xs : List LeafTree)
    (hn : (sers.map (·.1)).Nodup) (hne : cols ≠ []) (hw : ∀ c ∈ cols, NamedWell sers c.key c.fmt)
    (hp : Aligned (Picks sers) (flatten Leaf.isJpeg x).1 cols) (zs : LeafTree → List LeafTree)
    (hh : ∀ y ∈ x :: xs, Aligned3 Handles cols (flatten Leaf.isJpeg y).1 (zs y)) :
    ∃ bytes extra, writeSamples sers (x :: xs) = .ok (bytes, ⟨some (cols.map (·.fmt)), some (flatten Leaf.isJpeg x).2, extra⟩) ∧
      bytes.length = xs.length + 1 ∧
      ∀ i (h : i < (x :: xs).length) (h' : i < bytes.length),
        readSample sers (cols.map (·.fmt)) (flatten Leaf.isJpeg x).2 bytes[i] =
          unflatten (flatten Leaf.isJpeg x).2 (zs (x :: xs)[i]) := by
  have hc : ∀ c ∈ cols, ColOk sers c := by
    intro c hc
    refine ⟨?_, hw c hc⟩
    clear hh hw hne
    generalize (flatten Leaf.isJpeg x).1 = ls at hp
    induction cols generalizing ls with
    | nil => simp at hc
    | cons c' cols ih =>
      match ls, hp with
      | l :: ls, ⟨⟨h1, _⟩, h2⟩ =>
        rcases List.mem_cons.mp hc with rfl | hc
        · exact lookup_of_mem sers hn (List.mem_of_find?_eq_some h1)
        · exact ih hc ls h2
  obtain ⟨bytes, extra, h1, d, h2, h3⟩ := serializeAll_ok sers (flatten Leaf.isJpeg) cols hc hne x xs zs hp hh
  refine ⟨bytes, extra, h1, by simpa using h3.length.symm, fun i h h' => ?_⟩
  have := Aligned.getElem h3 i h h'
  unfold readSample
  rw [h2]
  simp only [this]

/-- **C13, for any serializers.** Let the serializers chosen for the first sample handle the leaves of all
samples, position by position, and let their names lead back to them. Then writing all samples succeeds,
and reading any of them gives its leaves as they were decoded, put together in the structure of the first
sample. -/
theorem c13_any_serializers (sers : Table LeafTree) (cols : List (Col LeafTree)) (x : LeafTree) (xs : List LeafTree)
    (hn : (sers.map (·.1)).Nodup) (hne : cols ≠ []) (hw : ∀ c ∈ cols, NamedWell sers c.key c.fmt)
    (hp : Aligned (Picks sers) (flatten Leaf.isJpeg x).1 cols) (zs : LeafTree → List LeafTree)
    (hh : ∀ y ∈ x :: xs, Aligned3 Handles cols (flatten Leaf.isJpeg y).1 (zs y)) :
    ∃ bytes formats extra, writeSamples sers (x :: xs) = .ok (bytes, ⟨some formats, some (flatten Leaf.isJpeg x).2, extra⟩) ∧
      bytes.length = xs.length + 1 ∧
      ∀ i (h : i < (x :: xs).length) (h' : i < bytes.length),
        readSample sers formats (flatten Leaf.isJpeg x).2 bytes[i] =
          unflatten (flatten Leaf.isJpeg x).2 (zs (x :: xs)[i]) := by
  obtain ⟨bytes, extra, h⟩ := any_serializers_formats sers cols x xs hn hne hw hp zs hh
  exact ⟨bytes, _, extra, h⟩

theorem aligned_kinds (env : SerEnv) (ls : List LeafTree) (hk : ∀ l ∈ ls, (leafKind env l).isSome)
    (hf : ∀ l ∈ ls, LeafFits env l) : Aligned (Picks (builtins env)) ls
      (ls.map fun l => kindCol env ((leafKind env l).getD .str)) := by
  induction ls with
  | nil => trivial
  | cons l ls ih =>
    refine ⟨?_, ih (fun l' h => hk l' (List.mem_cons_of_mem _ h)) (fun l' h => hf l' (List.mem_cons_of_mem _ h))⟩
    obtain ⟨k, h⟩ := Option.isSome_iff_exists.mp (hk l (by simp))
    obtain ⟨b, n, h1, h2, _⟩ := kind_handles env l k h (hf l (by simp))
    simp only [h, Option.getD_some]
    exact ⟨picks_builtin env l k h, b, n, h1, h2⟩

theorem aligned3_kinds (env : SerEnv) (ls ls' : List LeafTree) (hk : ∀ l ∈ ls, (leafKind env l).isSome)
    (hkk : ls'.map (leafKind env) = ls.map (leafKind env)) (hf : ∀ l ∈ ls', LeafFits env l)
    (hb : ∀ l ∈ ls', ∀ e ∈ builtins env, ∀ b n, e.2.serialize l = .ok (b, n) → b.length < 2 ^ 32) :
    Aligned3 Handles (ls.map fun l => kindCol env ((leafKind env l).getD .str)) ls' ls' := by
  induction ls generalizing ls' with
  | nil => match ls', hkk with
    | [], _ => trivial
  | cons l ls ih => match ls', hkk with
    | l' :: ls', hkk =>
      simp only [List.map_cons, List.cons.injEq] at hkk
      refine ⟨?_, ih ls' (fun x h => hk x (List.mem_cons_of_mem _ h)) hkk.2 (fun x h => hf x (List.mem_cons_of_mem _ h))
        (fun x h => hb x (List.mem_cons_of_mem _ h))⟩
      obtain ⟨k, h⟩ := Option.isSome_iff_exists.mp (hk l (by simp))
      simp only [h, Option.getD_some]
      obtain ⟨b, n, h1, h2, _, h4, h5⟩ := kind_handles env l' k (by rw [hkk.1, h]) (hf l' (by simp))
      exact ⟨b, n, h1, h4, h5, hb l' (by simp) _ (List.mem_of_find?_eq_some (picks_builtin env l' k (by rw [hkk.1, h]))) b n h1⟩

/-- The data format recorded for a first sample. -/
def kindFormats (env : SerEnv) (x : LeafTree) : List String :=
  ((flatten Leaf.isJpeg x).1.map fun l => kindCol env ((leafKind env l).getD .str)).map (·.fmt)

/-- The data format depends only on the kinds of leaves of the first sample. Let all samples have the structure of the first one and, position by position, leaves of the
same kind that can be stored. Then writing them succeeds and reading sample `i`, with the data format and
structure recorded by the writer and the structure passing through the text of `index.json`, gives exactly
the `i`-th sample. -/
theorem samples_read_back_formats (env : SerEnv) (penv : PyEnv) (x : LeafTree) (xs : List LeafTree)
    (hwf : ∀ y ∈ x :: xs, y.WF) (hst : x.Storable penv)
    (hspec : ∀ y ∈ xs, (flatten Leaf.isJpeg y).2 = (flatten Leaf.isJpeg x).2)
    (hne : (flatten Leaf.isJpeg x).1 ≠ [])
    (hk : ∀ l ∈ (flatten Leaf.isJpeg x).1, (leafKind env l).isSome)
    (hkk : ∀ y ∈ xs, (flatten Leaf.isJpeg y).1.map (leafKind env) = (flatten Leaf.isJpeg x).1.map (leafKind env))
    (hf : ∀ y ∈ x :: xs, ∀ l ∈ (flatten Leaf.isJpeg y).1, LeafFits env l)
    (hb : ∀ y ∈ x :: xs, ∀ l ∈ (flatten Leaf.isJpeg y).1, ∀ e ∈ builtins env, ∀ b n,
      e.2.serialize l = .ok (b, n) → b.length < 2 ^ 32) :
    ∃ bytes extra text spec', writeSamples (builtins env) (x :: xs) =
        .ok (bytes, ⟨some (kindFormats env x), some (flatten Leaf.isJpeg x).2, extra⟩) ∧
      bytes.length = xs.length + 1 ∧ treespecDumps penv (flatten Leaf.isJpeg x).2 = .ok text ∧ treespecLoads penv text = .ok spec' ∧
      ∀ i (h : i < (x :: xs).length) (h' : i < bytes.length),
        readSample (builtins env) (kindFormats env x) spec' bytes[i] = .ok (x :: xs)[i] := by
  obtain ⟨bytes, extra, h1, h2, h3⟩ := any_serializers_formats (builtins env)
    ((flatten Leaf.isJpeg x).1.map fun l => kindCol env ((leafKind env l).getD .str)) x xs (by
      show (["str", "bool", "int", "float", "video", "tifffile", "file", "pil", "jpeg", "jpeg_array", "bytes",
        "no_header_numpy", "numpy", "no_header_tensor", "tensor", "pickle"] : List String).Nodup
      decide)
    (by simpa using hne)
    (by intro c hc; obtain ⟨l, _, rfl⟩ := List.mem_map.mp hc; exact (kindCol_ok env _).2)
    (aligned_kinds env _ hk (hf x (by simp))) (fun y => (flatten Leaf.isJpeg y).1) (by
      intro y hy
      refine aligned3_kinds env _ _ hk ?_ (hf y hy) (hb y hy)
      rcases List.mem_cons.mp hy with rfl | hy
      · rfl
      · exact hkk y hy)
  obtain ⟨text, h4, h5⟩ := treespec_roundtrip penv _ (storable_flatten penv Leaf.isJpeg x hst)
  refine ⟨bytes, extra, text, _, h1, h2, h4, h5, fun i h h' => ?_⟩
  unfold kindFormats
  rw [h3 i h h']
  have hm : (x :: xs)[i] ∈ x :: xs := List.getElem_mem h
  have hs : (flatten Leaf.isJpeg (x :: xs)[i]).2 = (flatten Leaf.isJpeg x).2 := by
    rcases List.mem_cons.mp hm with he | he
    · rw [he]
    · exact hspec _ he
  rw [← hs]
  exact unflatten_flatten Leaf.isJpeg _ (hwf _ hm)

/-- **C13.** Let all samples have the structure of the first one and, position by position, leaves of the
same kind that can be stored. Then writing them succeeds and reading sample `i`, with the data format and
structure recorded by the writer and the structure passing through the text of `index.json`, gives exactly
the `i`-th sample. -/
theorem c13_samples_read_back_partial (env : SerEnv) (penv : PyEnv) (x : LeafTree) (xs : List LeafTree)
    (hwf : ∀ y ∈ x :: xs, y.WF) (hst : x.Storable penv)
    (hspec : ∀ y ∈ xs, (flatten Leaf.isJpeg y).2 = (flatten Leaf.isJpeg x).2)
    (hne : (flatten Leaf.isJpeg x).1 ≠ [])
    (hk : ∀ l ∈ (flatten Leaf.isJpeg x).1, (leafKind env l).isSome)
    (hkk : ∀ y ∈ xs, (flatten Leaf.isJpeg y).1.map (leafKind env) = (flatten Leaf.isJpeg x).1.map (leafKind env))
    (hf : ∀ y ∈ x :: xs, ∀ l ∈ (flatten Leaf.isJpeg y).1, LeafFits env l)
    (hb : ∀ y ∈ x :: xs, ∀ l ∈ (flatten Leaf.isJpeg y).1, ∀ e ∈ builtins env, ∀ b n,
      e.2.serialize l = .ok (b, n) → b.length < 2 ^ 32) :
    ∃ bytes formats spec extra text spec', writeSamples (builtins env) (x :: xs) = .ok (bytes, ⟨some formats, some spec, extra⟩) ∧
      bytes.length = xs.length + 1 ∧ treespecDumps penv spec = .ok text ∧ treespecLoads penv text = .ok spec' ∧
      ∀ i (h : i < (x :: xs).length) (h' : i < bytes.length),
        readSample (builtins env) formats spec' bytes[i] = .ok (x :: xs)[i] := by
  obtain ⟨bytes, extra, text, spec', h⟩ := samples_read_back_formats env penv x xs hwf hst hspec hne hk hkk hf hb
  exact ⟨bytes, _, _, extra, text, spec', h⟩

/-- **A sample without leaves** (`{}`, `[]`) can be written once; the next one raises `AssertionError`. -/
theorem c13_no_leaves_fails (sers : Table LeafTree) (x y : LeafTree) (xs : List LeafTree)
    (hx : (flatten Leaf.isJpeg x).1 = []) : writeSamples sers (x :: y :: xs) = .error .assertion := by
  simp [writeSamples, serializeAll, serializeSample, SerState.init, hx, serializeFirst]

/-- **The data format is fixed by the first sample.** A second sample whose one-dimensional tensor has
another dtype is written without complaint, but never read back as it was. -/
theorem c13_other_dtype_misread (env : SerEnv) (d d' : TorchDType) (n n' : Nat) (a a' : Bytes) (hd : d ≠ .bfloat16)
    (hd' : d' ≠ .bfloat16) (hne : d ≠ d') (hl : a'.length < 2 ^ 32) :
    ∃ bytes st formats spec, writeSamples (builtins env) [.leaf (.tensor d [n] a), .leaf (.tensor d' [n'] a')] = .ok (bytes, st) ∧
      st.format = some formats ∧ st.spec = some spec ∧ bytes.length = 2 ∧
      ∀ h : 1 < bytes.length, readSample (builtins env) formats spec bytes[1] ≠ .ok (.leaf (.tensor d' [n'] a')) := by
  obtain ⟨i, h1, h2, h3⟩ := torch_lastIndex d
  obtain ⟨j, g1, g2, g3⟩ := torch_lastIndex d'
  have hfind : (builtins env).find? (fun e => e.2.canSerialize (.leaf (.tensor d [n] a))) =
      some ("no_header_tensor", noHeaderTensorSer) := rfl
  have hser : noHeaderTensorSer.serialize (.leaf (.tensor d [n] a)) = .ok (a, some (formatName "no_header_tensor" i)) := by
    simp only [noHeaderTensorSer, h1, if_neg hd]
  have hser' : noHeaderTensorSer.serialize (.leaf (.tensor d' [n'] a')) = .ok (a', some (formatName "no_header_tensor" j)) := by
    simp only [noHeaderTensorSer, g1, if_neg hd']
  have hrs : ∀ b, recordedSize noHeaderTensorSer b = b.length := fun _ => rfl
  have hw : writeSamples (builtins env) [.leaf (.tensor d [n] a), .leaf (.tensor d' [n'] a')] =
      .ok ([encodeData [(a, a.length)], encodeData [(a', a'.length)]],
        ⟨some [formatName "no_header_tensor" i], some .leaf, [(formatName "no_header_tensor" i, noHeaderTensorSer)]⟩) := by
    simp only [writeSamples, serializeAll, serializeSample, SerState.init, flatten, serializeFirst, serializeLeaf, hfind, hser,
      formatOf, if_neg (formatName_ne_empty _ _), List.lookup_nil, Option.isSome_none, Bool.false_eq_true, if_false,
      List.nil_append, serializeNext, List.lookup_cons_self, hser', hrs, reduceCtorEq]
  refine ⟨_, _, _, _, hw, rfl, rfl, rfl, fun h => ?_⟩
  have hi : kindCol env (.tensor1 d) = ⟨"no_header_tensor", noHeaderTensorSer, formatName "no_header_tensor" i⟩ := by
    simp only [kindCol, h1, Option.getD_some]
  obtain ⟨t, h4, h5, _⟩ := setupFormats_ok (builtins env) [kindCol env (.tensor1 d)] (by
      intro c hc; rw [List.mem_singleton.mp hc]; exact kindCol_ok env _) (ReadTable.ofTable (builtins env)) (by
      intro k _
      rw [lookup_ofTable]
      cases (builtins env).lookup k <;> rfl)
  rw [hi] at h4 h5
  have h6 := h5 _ (List.mem_singleton.mpr rfl)
  simp only [List.map_cons, List.map_nil] at h4
  show readSample (builtins env) _ _ (encodeData [(a', a'.length)]) ≠ _
  unfold readSample
  rw [h4]
  have e1 : encodeData [(a', a'.length)] = le32 a'.length ++ a' := by simp [encodeData]
  simp only [deserializeSample, List.length_cons, List.length_nil, Nat.zero_add, Nat.mul_one, e1, take4_le32, u32s_one _ hl,
    deserializeLeaves, h6, Option.getD_some, drop4_le32, List.take_length]
  generalize hq : noHeaderTensorSer.deserialize (formatName "no_header_tensor" i) a' = q
  simp only [noHeaderTensorSer] at hq
  rw [formatIndex_formatName _ _ (by decide)] at hq
  simp only [h2] at hq
  split at hq
  · subst hq
    simp only [unflatten, List.length_cons, List.length_nil]
    simp [hne]
  · subst hq
    simp

/-- **Dictionaries with the same keys in another order** are read back with their values exchanged, for all
values. -/
theorem c13_key_order_swaps (i j k l : Int) (hi : -(2 ^ 63) ≤ i ∧ i < 2 ^ 63) (hj : -(2 ^ 63) ≤ j ∧ j < 2 ^ 63)
    (hk : -(2 ^ 63) ≤ k ∧ k < 2 ^ 63) (hl : -(2 ^ 63) ≤ l ∧ l < 2 ^ 63) (env : SerEnv) (a b : Key)
    (hab : a.norm ≠ b.norm) (ha : a.hashable = true) (hb : b.hashable = true) :
    ∃ bytes st formats spec, writeSamples (builtins env)
        [.node (.dict [a, b]) [.leaf (.int i), .leaf (.int j)], .node (.dict [b, a]) [.leaf (.int k), .leaf (.int l)]] = .ok (bytes, st) ∧
      st.format = some formats ∧ st.spec = some spec ∧ bytes.length = 2 ∧
      ∀ h : 1 < bytes.length, readSample (builtins env) formats spec bytes[1] =
        .ok (.node (.dict [a, b]) [.leaf (.int k), .leaf (.int l)]) := by
  have hfl : ∀ (ks : List Key) (i j : Int), flatten Leaf.isJpeg (.node (.dict ks) [.leaf (.int i), .leaf (.int j)]) =
      ([.leaf (.int i), .leaf (.int j)], .node (.dict ks) [.leaf, .leaf]) := by
    intro ks i j
    simp [flatten, isJpegArray, flattenList]
  have hh : ∀ i : Int, (-(2 ^ 63) ≤ i ∧ i < 2 ^ 63) → Handles (kindCol env .int) (.leaf (.int i)) (.leaf (.int i)) := by
    intro i hi
    obtain ⟨b, n, h1, h2, _, h4, h5⟩ := kind_handles env (.leaf (.int i)) .int rfl hi
    refine ⟨b, n, h1, h4, h5, ?_⟩
    rw [← h5]
    show 8 < 2 ^ 32
    decide
  have hpk : ∀ i : Int, (-(2 ^ 63) ≤ i ∧ i < 2 ^ 63) → Picks (builtins env) (.leaf (.int i)) (kindCol env .int) := by
    intro i hi
    obtain ⟨b, n, h1, h2, _, h4, h5⟩ := kind_handles env (.leaf (.int i)) .int rfl hi
    exact ⟨rfl, b, n, h1, h2⟩
  obtain ⟨bytes, formats, extra, h1, h2, h3⟩ := c13_any_serializers (builtins env) [kindCol env .int, kindCol env .int]
    (.node (.dict [a, b]) [.leaf (.int i), .leaf (.int j)]) [.node (.dict [b, a]) [.leaf (.int k), .leaf (.int l)]] (by
      show (["str", "bool", "int", "float", "video", "tifffile", "file", "pil", "jpeg", "jpeg_array", "bytes",
        "no_header_numpy", "numpy", "no_header_tensor", "tensor", "pickle"] : List String).Nodup
      decide) (by simp) (by intro c hc; simp at hc; rw [hc]; exact (kindCol_ok env .int).2)
    (by rw [hfl]; exact ⟨hpk i hi, hpk j hj, trivial⟩) (fun y => (flatten Leaf.isJpeg y).1) (by
      intro y hy
      simp only [List.mem_cons, List.not_mem_nil, or_false] at hy
      rcases hy with rfl | rfl
      · simp only [hfl]; exact ⟨hh i hi, hh j hj, trivial⟩
      · simp only [hfl]; exact ⟨hh k hk, hh l hl, trivial⟩)
  refine ⟨bytes, _, formats, _, h1, rfl, rfl, h2, fun h => ?_⟩
  rw [h3 1 (by simp) h]
  simp only [hfl, List.getElem_cons_succ, List.getElem_cons_zero]
  have hf : (Head.dict [a, b]).Fits 2 := by
    refine ⟨rfl, ?_, ?_⟩
    · simp [hab]
    · simp [ha, hb]
  simp only [unflatten, unflattenList, numLeavesList, TSpec.numLeaves, List.length_cons, List.length_nil, List.take, List.drop]
  rw [if_neg (by decide)]
  simp only [if_neg (show ¬(0 + 1 ≠ 1) by decide)]
  exact build_ok _ _ hf

/-! Samples that meet the hypotheses of `c13_samples_read_back_partial`: `{"x": 3, "y": [b"ab", "q"]}` and
`{"x": -1, "y": [b"", ""]}`. -/

def demoSample (i : Int) (b : Bytes) (s : String) : LeafTree :=
  .node (.dict [.atom (.str "x"), .atom (.str "y")]) [.leaf (.int i), .node .list [.leaf (.bytes b), .leaf (.str s)]]

theorem demoSample_flat (i : Int) (b : Bytes) (s : String) : flatten Leaf.isJpeg (demoSample i b s) =
    ([.leaf (.int i), .leaf (.bytes b), .leaf (.str s)],
      .node (.dict [.atom (.str "x"), .atom (.str "y")]) [.leaf, .node .list [.leaf, .leaf]]) := by
  simp [demoSample, flatten, flattenList, isJpegArray, Leaf.isJpeg]

theorem demoSample_wf (i : Int) (b : Bytes) (s : String) : (demoSample i b s).WF := by
  simp only [demoSample, Tree.WF, TreesWF, Head.Fits, List.length_cons, List.length_nil]
  decide

example : ∃ bytes formats spec extra text spec',
    writeSamples (builtins demoSerEnv) [demoSample 3 [97, 98] "q", demoSample (-1) [] ""] = .ok (bytes, ⟨some formats, some spec, extra⟩) ∧
      bytes.length = 2 ∧ treespecDumps ⟨fun _ => none, fun _ => false⟩ spec = .ok text ∧
      treespecLoads ⟨fun _ => none, fun _ => false⟩ text = .ok spec' ∧
      ∀ i (h : i < 2) (h' : i < bytes.length),
        readSample (builtins demoSerEnv) formats spec' bytes[i] = .ok [demoSample 3 [97, 98] "q", demoSample (-1) [] ""][i] := by
  have hq : (utf8 "q").length < 2 ^ 32 := by decide
  have he : (utf8 "").length < 2 ^ 32 := by decide
  apply c13_samples_read_back_partial demoSerEnv ⟨fun _ => none, fun _ => false⟩ (demoSample 3 [97, 98] "q") [demoSample (-1) [] ""]
  · intro y hy
    simp only [List.mem_cons, List.not_mem_nil, or_false] at hy
    rcases hy with rfl | rfl <;> exact demoSample_wf _ _ _
  · simp [demoSample, Tree.Storable, TreesStorable, Head.Storable]
  · intro y hy
    rw [List.mem_singleton.mp hy, demoSample_flat, demoSample_flat]
  · rw [demoSample_flat]; simp
  · rw [demoSample_flat]; simp [leafKind, demoSerEnv]
  · intro y hy
    rw [List.mem_singleton.mp hy, demoSample_flat, demoSample_flat]
    simp [leafKind, demoSerEnv]
  · intro y hy l hl
    simp only [List.mem_cons, List.not_mem_nil, or_false] at hy
    rcases hy with rfl | rfl <;> rw [demoSample_flat] at hl <;>
      simp only [List.mem_cons, List.not_mem_nil, or_false] at hl <;>
      rcases hl with rfl | rfl | rfl <;> simp [LeafFits, demoSerEnv]
  · have hint : ∀ (i : Int) x, int64Bytes i = .ok x → x.length = 8 := by
      intro i x h
      unfold int64Bytes at h
      split at h
      · injection h with h; rw [← h, leBytes_length]
      · simp at h
    intro y hy l hl e hem b n hs
    simp only [List.mem_cons, List.not_mem_nil, or_false] at hy
    rcases hy with rfl | rfl <;> rw [demoSample_flat] at hl <;>
      simp only [List.mem_cons, List.not_mem_nil, or_false] at hl <;>
      rcases hl with rfl | rfl | rfl <;> simp only [builtins, List.mem_cons, List.not_mem_nil, or_false] at hem <;>
      rcases hem with rfl | rfl | rfl | rfl | rfl | rfl | rfl | rfl | rfl | rfl | rfl | rfl | rfl | rfl | rfl | rfl <;>
      simp [strSer, boolSer, intSer, floatSer, videoSer, tiffSer, fileSer, pilSer, jpegSer, jpegArraySer, bytesSer,
        noHeaderNumpySer, numpySer, noHeaderTensorSer, tensorSer, pickleSer, demoSerEnv] at hs <;>
      first
      | (split at hs
         · rename_i hb; simp at hs; rw [← hs.1, hint _ _ hb]; decide
         · simp at hs)
      | (rw [← hs.1]; assumption)
      | (rw [← hs.1]; decide)
      | (rw [hs.1]; decide)

end LitData.Props
