import Verif.Model.Mds
import Verif.Props.Sample
import Verif.Props.Pipeline
import Verif.Lemmas.ChunkFile
import Verif.Props.InputFiles

/-! Property C54: reading datasets in the MDS format. -/

namespace LitData.Props
open LitData Spec

/-- The file of a shard gives its samples at the offsets the reader uses. -/
theorem loadData_mdsFile (desc : Bytes) (items : List Bytes) (i : Nat) (h : i < items.length)
    (hs : 4 + 4 * (items.length + 1) + desc.length + items.flatten.length < 2 ^ 32) :
    loadData (mdsFile desc items) ((1 + i) * 4) = .ok items[i] := by
  have hlen : (items.take (i + 1)).flatten.length = (items.take i).flatten.length + items[i].length := by
    rw [List.take_add_one, List.getElem?_eq_getElem h, List.flatten_append, List.length_append]
    simp only [Option.toList_some, List.flatten_singleton]
  have hle : (items.take (i + 1)).flatten.length ≤ items.flatten.length := by
    conv => rhs; rw [← List.take_append_drop (i + 1) items]
    rw [List.flatten_append, List.length_append]; omega
  have hcl : (cumsum 0 (items.map List.length)).length = items.length + 1 := by rw [cumsum_length, List.length_map]
  have hget : ∀ j, (hj : j ≤ items.length) → (cumsum 0 (items.map List.length))[j]'(by omega) = (items.take j).flatten.length := by
    intro j hj
    have := cumsum_getElem? 0 (items.map List.length) j (by simpa using hj)
    rw [List.getElem?_eq_getElem (by omega), Option.some.injEq] at this
    rw [this, flatten_take_length, Nat.zero_add]
  have hpair : readAt (mdsFile desc items) ((1 + i) * 4) 8 =
      le32 (4 + 4 * (items.length + 1) + desc.length + (items.take i).flatten.length) ++
      le32 (4 + 4 * (items.length + 1) + desc.length + (items.take (i + 1)).flatten.length) := by
    unfold readAt mdsFile
    rw [List.append_assoc, List.append_assoc, show (1 + i) * 4 = (le32 items.length).length + 4 * i by rw [le32_length]; omega,
      List.drop_length_add_append, List.drop_append_of_le_length (by rw [flatMap_le32_length, List.length_map]; omega),
      flatMap_le32_drop, List.drop_eq_getElem_cons (by rw [List.length_map]; omega),
      List.drop_eq_getElem_cons (by rw [List.length_map]; omega)]
    simp only [List.getElem_map, List.flatMap_cons]
    rw [hget i (by omega), hget (i + 1) (by omega)]
    rw [List.append_assoc, List.append_assoc]
    rfl
  unfold loadData
  rw [hpair, u32s_le32 _ (by omega)]
  rw [← List.append_nil (le32 (4 + 4 * (items.length + 1) + desc.length + (items.take (i + 1)).flatten.length)),
    u32s_le32 _ (by omega)]
  simp only [u32s, Except.map]
  congr 1
  unfold readAt mdsFile
  have hl : ∀ l : List Bytes, (le32 items.length ++ ((cumsum 0 (items.map List.length)).map fun o =>
      4 + 4 * (items.length + 1) + desc.length + o).flatMap le32 ++ desc).length = 4 + 4 * (items.length + 1) + desc.length := by
    intro _
    rw [List.length_append, List.length_append, flatMap_le32_length, List.length_map, hcl, le32_length]
  rw [← List.drop_drop, List.drop_left' (hl [])]
  rw [show (4 + 4 * (items.length + 1) + desc.length + (items.take (i + 1)).flatten.length + 2 ^ 32 -
    (4 + 4 * (items.length + 1) + desc.length + (items.take i).flatten.length)) % 2 ^ 32 = items[i].length by omega]
  exact flatten_slice items i h

/-- The columns fit the declared sizes: a declared size is that of the bytes and not zero. -/
def FitsColumns : List (Option Nat) → List Bytes → Prop
  | [], [] => True
  | none :: cs, b :: bs => b.length < 2 ^ 32 ∧ FitsColumns cs bs
  | some n :: cs, b :: bs => n = b.length ∧ b ≠ [] ∧ FitsColumns cs bs
  | _, _ => False

theorem mdsSizes_ok (cs : List (Option Nat)) (bs : List Bytes) (h : FitsColumns cs bs) (p q : Bytes) :
    mdsSizes (p ++ (cs.zip bs).flatMap mdsHeader ++ q) p.length cs =
    .ok (bs.map List.length, (p ++ (cs.zip bs).flatMap mdsHeader).length) := by
  induction cs generalizing bs p with
  | nil =>
    match bs, h with
    | [], _ => simp [mdsSizes]
  | cons c cs ih =>
    match c, bs, h with
    | some n, b :: bs, ⟨h1, h2, h3⟩ =>
      have hb : b.length ≠ 0 := by simpa using h2
      rw [mdsSizes, if_pos (by rw [Option.getD_some, h1]; exact hb)]
      simp only [List.zip_cons_cons, List.flatMap_cons, mdsHeader, List.nil_append]
      rw [ih bs h3 p]
      simp [h1]
    | none, b :: bs, ⟨h1, h3⟩ =>
      rw [mdsSizes, if_neg (by simp)]
      simp only [List.zip_cons_cons, List.flatMap_cons]
      rw [show mdsHeader (none, b) = le32 b.length from rfl]
      have e := ih bs h3 (p ++ le32 b.length)
      rw [List.append_assoc p (le32 b.length)] at e
      rw [show (p ++ le32 b.length).length = p.length + 4 by rw [List.length_append, le32_length]] at e
      rw [e]
      rw [List.append_assoc, List.drop_left, List.append_assoc, List.take_append_of_le_length (by rw [le32_length]; omega),
        List.take_of_length_le (by rw [le32_length]; omega)]
      rw [← List.append_nil (le32 b.length), u32s_le32 _ h1]
      simp [u32s, Except.map]

/-- Random access to any files: if the loader reads each item of each chunk, from any of its states, then any sequence of indices is served. -/
theorem reads_generic (fs : String → Option Bytes) (join : String → String) (enc : Option Encryption) (cfg : Option EncConfig)
    (chunks : List ChunkInfo) (items : List (List Bytes)) (hsl : chunks.length = items.length)
    (hsz : ∀ (k : Nat) (c : ChunkInfo) (l : List Bytes), chunks[k]? = some c → items[k]? = some l → c.chunkSize = l.length)
    (Inv : PyTreeState → Prop) (h0 : Inv PyTreeState.init)
    (hstep : ∀ (st : PyTreeState) (k : Nat) (c : ChunkInfo) (l : List Bytes) (begin j : Nat) (x : Bytes), Inv st → chunks[k]? = some c →
      items[k]? = some l → l[j]? = some x →
      ∃ st', loadItem fs cfg enc st (join c.filename) k (begin + j) begin c.chunkBytes = .ok (x, st') ∧ Inv st') :
    ∃ ivs, generateIntervals none 0 0 chunks = .ok ivs ∧ items.flatten.length = (ivs.map Interval.size).sum ∧
      ∀ is : List Nat, (∀ i ∈ is, i < items.flatten.length) →
        datasetGets fs join enc cfg chunks ivs PyTreeState.init is = .ok (is.map fun i => items.flatten.getD i []) := by
  have hlen : (items.map fun l => (0, l.length)).length = chunks.length := by rw [List.length_map, hsl]
  have hroi : ∀ (k : Nat) (l : List Bytes) (r : Nat × Nat), items[k]? = some l → (items.map fun l => (0, l.length))[k]? = some r →
      r.1 ≤ r.2 ∧ r.2 ≤ l.length := by
    intro k l r h1 h2
    rw [List.getElem?_map, h1, Option.map_some, Option.some.injEq] at h2
    subst h2
    simp
  have hwhole : generateIntervals none 0 0 chunks = generateIntervals (some (items.map fun l => (0, l.length))) 0 0 chunks := by
    apply generateIntervals_whole
    intro k c hc
    rw [Nat.zero_add]
    have hk : k < items.length := by rw [← hsl]; exact (List.getElem?_eq_some_iff.1 hc).1
    rw [List.getElem?_map, List.getElem?_eq_getElem hk, hsz k c items[k] hc (List.getElem?_eq_getElem hk)]
    rfl
  rw [← roiItems_whole items, hwhole]
  generalize items.map (fun l => (0, l.length)) = roi at hlen hroi
  obtain ⟨ivs, h1, h2, h3⟩ := generateIntervals_some roi 0 0 chunks (by omega)
  have hiv : ∀ (j : Nat) (iv : Interval) (r : Nat × Nat), ivs[j]? = some iv → roi[j]? = some r →
      iv.roiStart = iv.chunkStart + r.1 ∧ iv.roiEnd = iv.chunkStart + r.2 := by
    intro j iv r hi hr
    have hj : j < chunks.length := by
      apply Nat.lt_of_not_le; intro h; rw [List.getElem?_eq_none (by omega)] at hi; simp at hi
    have := h3 j chunks[j] (List.getElem?_eq_getElem hj) r (by rw [Nat.zero_add]; exact hr)
    rw [hi] at this
    injection this with this
    rw [this]
    exact ⟨rfl, rfl⟩
  obtain ⟨g1, g2⟩ := roi_samples_items items roi ivs 0 (by omega) (by omega) hiv hroi
  refine ⟨ivs, h1, by rw [g1, datasetSamples_range_length], ?_⟩
  intro is his
  generalize PyTreeState.init = st at h0 ⊢
  induction is generalizing st with
  | nil => rfl
  | cons i is ih =>
    have hi := his i (by simp)
    have hi' : i < (datasetSamples (List.range ivs.length) ivs).length := by
      rw [List.range_eq_range', ← g1]; exact hi
    have hlook := c15_lookup ivs i hi'
    have hsome : (datasetSamples (List.range' 0 ivs.length) ivs)[i]? =
        some (datasetSamples (List.range ivs.length) ivs)[i] := by
      rw [← List.range_eq_range', List.getElem?_eq_getElem hi']
    generalize (datasetSamples (List.range ivs.length) ivs)[i] = s at hlook hsome
    obtain ⟨iv, c, f1, f2, f3, f4, f5, f6⟩ := g2 i s hsome
    rw [Nat.sub_zero] at f2 f3
    have hk : s.1 < chunks.length := by
      apply Nat.lt_of_not_le; intro h; rw [List.getElem?_eq_none (by omega)] at f2; simp at f2
    have hci := List.getElem?_eq_getElem hk
    obtain ⟨st', e5, e6⟩ := hstep st s.1 chunks[s.1] c iv.chunkStart (s.2 - iv.chunkStart) c[s.2 - iv.chunkStart] h0 hci f3
      (List.getElem?_eq_getElem f5)
    rw [show iv.chunkStart + (s.2 - iv.chunkStart) = s.2 by omega] at e5
    have hget : datasetGet fs join enc cfg chunks ivs st (i : Int) = .ok ((roiItems items roi).getD i [], st') := by
      unfold datasetGet
      rw [hlook]
      simp only
      unfold configGet
      rw [hci, f2]
      simp only
      rw [e5]
      congr 2
      rw [List.getD_eq_getElem?_getD, f6]
      rw [List.getElem?_eq_getElem f5, Option.getD_some]
    unfold datasetGets
    rw [hget]
    simp only
    rw [ih (fun j hj => his j (List.mem_cons_of_mem _ hj)) st' e6]
    rfl

/-- The decompressed shards are on disk: shard `k` has the raw samples `items[k]`. -/
structure MdsStored (fs : String → Option Bytes) (join : String → String) (shards : List MdsShard) (items : List (List Bytes)) : Prop where
  len : shards.length = items.length
  files : ∀ (k : Nat) (s : MdsShard) (l : List Bytes), shards[k]? = some s → items[k]? = some l → ∃ name bytes desc,
    s.zipData = some (name, bytes) ∧ fs (join name) = some (mdsFile desc l) ∧ s.samples = l.length ∧
    bytes ≤ (mdsFile desc l).length ∧ 4 + 4 * (l.length + 1) + desc.length + l.flatten.length < 2 ^ 32

theorem mdsChunks_ok (shards : List MdsShard) (h : ∀ s ∈ shards, s.zipData ≠ none) :
    ∃ cs, mdsChunks shards = .ok cs ∧ cs.length = shards.length ∧
      ∀ (k : Nat) (s : MdsShard), shards[k]? = some s → ∃ name bytes, s.zipData = some (name, bytes) ∧
        cs[k]? = some (⟨name, s.samples, bytes, none⟩, s.columnSizes) := by
  induction shards with
  | nil => exact ⟨[], rfl, rfl, by simp⟩
  | cons s ss ih =>
    obtain ⟨cs, h1, h2, h3⟩ := ih fun t ht => h t (List.mem_cons_of_mem _ ht)
    cases hz : s.zipData with
    | none => exact absurd hz (h s (by simp))
    | some z =>
      obtain ⟨name, bytes⟩ := z
      refine ⟨(⟨name, s.samples, bytes, none⟩, s.columnSizes) :: cs, by simp [mdsChunks, mdsChunk, hz, h1], by simp [h2], ?_⟩
      intro k t ht
      cases k with
      | zero =>
        simp only [List.getElem?_cons_zero, Option.some.injEq] at ht
        subst ht
        exact ⟨name, bytes, hz, rfl⟩
      | succ k => exact h3 k t (by simpa using ht)

/-- **C54, raw samples.** An index of compressed shards is adapted, and any sequence of indices of the resulting dataset reads the raw
samples with these ranks in the concatenation of the shards. -/
theorem c54_raw (fs : String → Option Bytes) (join : String → String) (shards : List MdsShard) (items : List (List Bytes))
    (hs : MdsStored fs join shards items) (hne : shards ≠ []) :
    ∃ index ivs, adaptMds shards = .ok index ∧ generateIntervals none 0 0 (index.chunks.map (·.1)) = .ok ivs ∧
      items.flatten.length = (ivs.map Interval.size).sum ∧
      ∀ is : List Nat, (∀ i ∈ is, i < items.flatten.length) →
        datasetGets fs join none none (index.chunks.map (·.1)) ivs PyTreeState.init is = .ok (is.map fun i => items.flatten.getD i []) := by
  obtain ⟨cs, h1, h2, h3⟩ := mdsChunks_ok shards (by
    intro s hs' hz
    obtain ⟨k, hk, rfl⟩ := List.getElem_of_mem hs'
    obtain ⟨_, _, _, hz', _⟩ := hs.files k shards[k] (items[k]'(hs.len ▸ hk)) (List.getElem?_eq_getElem hk)
      (List.getElem?_eq_getElem (hs.len ▸ hk))
    rw [hz] at hz'
    cases hz')
  have hchunk : ∀ (k : Nat) (c : ChunkInfo) (l : List Bytes), (cs.map (·.1))[k]? = some c → items[k]? = some l → ∃ desc,
      fs (join c.filename) = some (mdsFile desc l) ∧ c.chunkSize = l.length ∧ c.chunkBytes ≤ (mdsFile desc l).length ∧
      4 + 4 * (l.length + 1) + desc.length + l.flatten.length < 2 ^ 32 := by
    intro k c l hc hl
    have hk : k < shards.length := by rw [hs.len]; exact (List.getElem?_eq_some_iff.1 hl).1
    obtain ⟨name, bytes, desc, a1, a2, a3, a4, a5⟩ := hs.files k shards[k] l (List.getElem?_eq_getElem hk) hl
    obtain ⟨name', bytes', b1, b2⟩ := h3 k shards[k] (List.getElem?_eq_getElem hk)
    rw [a1] at b1
    injection b1 with b1
    injection b1 with b1 b3
    subst b1 b3
    rw [List.getElem?_map, b2, Option.map_some, Option.some.injEq] at hc
    subst hc
    exact ⟨desc, a2, a3, a4, a5⟩
  cases shards with
  | nil => exact absurd rfl hne
  | cons s ss =>
    refine ⟨⟨cs, s.compression, s.columnEncodings, s.format, mdsSpecText s.columnNames⟩, ?_⟩
    obtain ⟨ivs, g1, g2, g3⟩ := reads_generic fs join none none (cs.map (·.1)) items (by rw [List.length_map, h2, hs.len])
      (fun k c l hc hl => (hchunk k c l hc hl).choose_spec.2.1)
      (fun st => ∀ p, st.path = some p → st.handle = fs p ∧ st.handle ≠ none) (by intro p hp; cases hp) (by
        intro st k c l begin j x hinv hc hl hx
        obtain ⟨desc, e1, e2, e3, e4⟩ := hchunk k c l hc hl
        have hj : j < l.length := (List.getElem?_eq_some_iff.1 hx).1
        have hxe : l[j] = x := (List.getElem?_eq_some_iff.1 hx).2
        have hoff : itemOffset (begin + j) begin = (1 + j) * 4 := by
          unfold itemOffset; rw [if_pos (by omega), show begin + j - begin = j by omega]
        have hload := loadData_mdsFile desc l j hj e4
        by_cases hp : st.path = some (join c.filename)
        · obtain ⟨p1, p2⟩ := hinv _ hp
          refine ⟨st, ?_, hinv⟩
          unfold loadItem openChunk
          rw [if_pos hp]
          simp only [bind, Except.bind]
          rw [p1, e1]
          simp only [hoff, hload, hxe]
          rfl
        · refine ⟨{ st with path := some (join c.filename), handle := some (mdsFile desc l) }, ?_, ?_⟩
          · unfold loadItem openChunk
            rw [if_neg hp, e1]
            simp only [bind, Except.bind]
            rw [if_pos e3]
            simp only [hoff, hload, hxe]
            rfl
          · intro p hp'
            simp only [Option.some.injEq] at hp'
            subst hp'
            exact ⟨e1.symm, by simp⟩)
    exact ⟨ivs, by simp only [adaptMds, h1], g1, g2, g3⟩

/-- The text made for the column names is that of a dictionary with these keys. -/
theorem mdsSpecText_eq (penv : PyEnv) (names : List String) :
    treespecDumps penv (.node (.dict (names.map fun n => .atom (.str n))) (names.map fun _ => .leaf)) = .ok (mdsSpecText names) := by
  have h1 : ∀ l : List String, keysToJson (l.map fun n => .atom (.str n)) = .ok (l.map .str) := by
    intro l
    induction l with
    | nil => rfl
    | cons a l ih => simp [keysToJson, Key.toJson, Atom.toJson, ih]
  have h2 : ∀ l : List String, specsToJson penv (l.map fun _ => .leaf) =
      .ok (l.map fun _ => .obj ["type", "context", "children_spec"] [.null, .null, .arr []]) := by
    intro l
    induction l with
    | nil => rfl
    | cons a l ih => simp [specsToJson, specToJson, ih]
  simp only [treespecDumps, specToJson, headToJson, h1, h2, mdsSpecText]

/-- The bytes of each column are decoded to the given values. -/
def Decodes : List (Col LeafTree) → List Bytes → List LeafTree → Prop
  | [], [], [] => True
  | c :: cs, b :: bs, z :: zs => c.ser.deserialize c.fmt b = .ok z ∧ Decodes cs bs zs
  | _, _, _ => False

theorem decodes_leaves (d : ReadTable LeafTree) (cols : List (Col LeafTree)) (bs : List Bytes) (zs : List LeafTree)
    (h : Decodes cols bs zs) (hd : ∀ c ∈ cols, d.lookup c.fmt = some (c.ser, some c.fmt)) (p : Bytes) :
    deserializeLeaves d (p ++ bs.flatten) p.length (bs.map List.length) (cols.map (·.fmt)) = .ok zs := by
  match cols, bs, zs, h with
  | [], [], [], _ => rfl
  | c :: cols, b :: bs, z :: zs, ⟨h1, hr⟩ =>
    simp only [List.map_cons, List.flatten_cons, deserializeLeaves]
    rw [hd c (by simp)]
    simp only [Option.getD_some, List.drop_left, List.take_left, h1]
    have := decodes_leaves d cols bs zs hr (fun c' h' => hd c' (List.mem_cons_of_mem _ h')) (p ++ b)
    rw [List.length_append, List.append_assoc] at this
    rw [this]

theorem decodes_length {cols : List (Col LeafTree)} {bs : List Bytes} {zs : List LeafTree} (h : Decodes cols bs zs) :
    zs.length = cols.length := by
  match cols, bs, zs, h with
  | [], [], [], _ => rfl
  | _ :: _, _ :: _, _ :: _, ⟨_, hr⟩ => simp [decodes_length hr]

theorem mdsChunks_get (shards : List MdsShard) (cs : List (ChunkInfo × List (Option Nat))) (h : mdsChunks shards = .ok cs) (k : Nat)
    (s : MdsShard) (hk : shards[k]? = some s) : ∃ c, cs[k]? = some (c, s.columnSizes) := by
  induction shards generalizing cs k with
  | nil => simp at hk
  | cons a l ih =>
    unfold mdsChunks at h
    cases hc : mdsChunk a with
    | error e => simp [hc] at h
    | ok c0 =>
      cases hr : mdsChunks l with
      | error e => simp [hc, hr] at h
      | ok cs' =>
        simp only [hc, hr, Except.ok.injEq] at h
        subst h
        cases k with
        | zero =>
          simp only [List.getElem?_cons_zero, Option.some.injEq] at hk
          subst hk
          unfold mdsChunk at hc
          split at hc
          · simp at hc
          · simp only [Except.ok.injEq] at hc
            subst hc
            exact ⟨_, rfl⟩
        | succ k => exact ih cs' hr k (by simpa using hk)

theorem numLeavesList_leaves {β : Type} (l : List β) : numLeavesList (l.map fun _ => TSpec.leaf) = l.length := by
  induction l with
  | nil => rfl
  | cons a l ih => simp [numLeavesList, TSpec.numLeaves, ih]; omega

theorem unflattenList_leaves {β : Type} (l : List β) (zs : List LeafTree) (h : zs.length = l.length) :
    unflattenList (l.map fun _ => TSpec.leaf) zs = .ok zs := by
  induction l generalizing zs with
  | nil =>
    cases zs with
    | nil => rfl
    | cons => simp at h
  | cons a l ih =>
    cases zs with
    | nil => simp at h
    | cons z zs =>
      simp only [List.map_cons, unflattenList, TSpec.numLeaves, List.take_succ_cons, List.take_zero, List.drop_succ_cons, List.drop_zero]
      rw [ih zs (by simpa using h)]
      simp [unflatten]

/-- **C54, samples.** Let the encodings of the columns be names of serializers, and the sizes declared by a shard fit its columns. Then a
raw sample of this shard is read as the dictionary from the column names to the values of the columns. -/
theorem c54_sample (sers : Table LeafTree) (penv : PyEnv) (shards : List MdsShard) (index : MdsIndex) (hx : adaptMds shards = .ok index)
    (first : MdsShard) (hf : shards[0]? = some first) (hn : first.columnNames.Nodup) (cols : List (Col LeafTree))
    (hcols : cols.map (·.fmt) = first.columnEncodings) (hlen : first.columnNames.length = cols.length)
    (hc : ∀ c ∈ cols, ColOk sers c) (k : Nat) (s : MdsShard) (hk : shards[k]? = some s)
    (bs : List Bytes) (hfit : FitsColumns s.columnSizes bs) (zs : List LeafTree) (hz : Decodes cols bs zs) :
    readMds sers penv index k (mdsItem s.columnSizes bs) =
      .ok (.node (.dict (first.columnNames.map fun n => .atom (.str n))) zs) := by
  cases shards with
  | nil => simp at hf
  | cons s0 ss =>
    simp only [List.getElem?_cons_zero, Option.some.injEq] at hf
    subst hf
    unfold adaptMds at hx
    cases hm : mdsChunks (s0 :: ss) with
    | error e => simp [hm] at hx
    | ok cs =>
      simp only [hm, Except.ok.injEq] at hx
      subst hx
      obtain ⟨c, hcs⟩ := mdsChunks_get _ cs hm k s hk
      obtain ⟨text, t1, t2⟩ := treespec_roundtrip penv
        (.node (.dict (s0.columnNames.map fun n => .atom (.str n))) (s0.columnNames.map fun _ => .leaf)) (by
          refine ⟨?_, ?_⟩
          · intro k' hk'
            obtain ⟨n, _, rfl⟩ := List.mem_map.1 hk'
            exact ⟨_, rfl⟩
          · generalize s0.columnNames = l
            induction l with
            | nil => trivial
            | cons a l ih => exact ⟨trivial, ih⟩)
      rw [mdsSpecText_eq, Except.ok.injEq] at t1
      subst t1
      obtain ⟨d, d1, d2, _⟩ := setupFormats_ok sers cols hc (ReadTable.ofTable sers) (by
        intro k' _
        rw [lookup_ofTable, Option.map_map]
        cases sers.lookup k' <;> rfl)
      have hsz := mdsSizes_ok s.columnSizes bs hfit [] bs.flatten
      rw [List.nil_append] at hsz
      have hlv := decodes_leaves d cols bs zs hz d2 ((s.columnSizes.zip bs).flatMap mdsHeader)
      unfold readMds
      rw [hcs]
      simp only
      rw [t2]
      simp only
      rw [← hcols, d1]
      simp only
      unfold mdsDeserialize mdsItem
      rw [show (0 : Nat) = ([] : Bytes).length from rfl, hsz]
      simp only
      rw [hlv]
      simp only
      rw [unflatten, if_neg]
      · rw [unflattenList_leaves _ zs (by rw [decodes_length hz]; omega)]
        simp only
        apply build_ok
        refine ⟨by rw [List.length_map, decodes_length hz, hlen], ?_, ?_⟩
        · rw [List.map_map]
          refine List.Pairwise.map _ (fun a b hab => ?_) hn
          intro e
          apply hab
          simpa [Key.norm, Atom.norm] using e
        · intro k' hk'
          obtain ⟨n, _, rfl⟩ := List.mem_map.1 hk'
          rfl
      · rw [numLeavesList_leaves, decodes_length hz]
        omega

/-! ### Where it fails -/

/-- An index with a shard that is not compressed (`zip_data` is `null`) cannot be loaded. -/
theorem c54_uncompressed_raises (shards : List MdsShard) (h : ∃ s ∈ shards, s.zipData = none) : adaptMds shards = .error .typeError := by
  have : mdsChunks shards = .error .typeError := by
    obtain ⟨s, hs, hz⟩ := h
    induction shards with
    | nil => cases hs
    | cons a l ih =>
      unfold mdsChunks
      cases ha : a.zipData with
      | none => simp [mdsChunk, ha]
      | some z =>
        rw [show mdsChunk a = .ok (⟨z.1, a.samples, z.2, none⟩, a.columnSizes) by simp [mdsChunk, ha]]
        have hl : s ∈ l := by
          rcases List.mem_cons.1 hs with rfl | h
          · rw [hz] at ha; cases ha
          · exact h
        simp only [ih hl]
  unfold adaptMds
  rw [this]

/-- Nor can one without shards. -/
theorem c54_no_shards : adaptMds [] = .error .indexError := rfl

/-- An index is loaded exactly if it has shards and all of them are compressed. -/
theorem c54_loaded_iff (shards : List MdsShard) :
    (∃ index, adaptMds shards = .ok index) ↔ shards ≠ [] ∧ ∀ s ∈ shards, s.zipData ≠ none := by
  constructor
  · rintro ⟨index, h⟩
    refine ⟨by rintro rfl; simp [c54_no_shards] at h, ?_⟩
    intro s hs hz
    rw [c54_uncompressed_raises shards ⟨s, hs, hz⟩] at h
    cases h
  · rintro ⟨h1, h2⟩
    obtain ⟨cs, h3, _, _⟩ := mdsChunks_ok shards h2
    cases shards with
    | nil => exact absurd rfl h1
    | cons s ss => exact ⟨_, by simp only [adaptMds, h3]; rfl⟩

/-- The size in the index is that of the compressed file. If compression made the shard larger, the reader waits for a decompressed file that
is as large, and gives up. -/
theorem c54_zip_larger (fs : String → Option Bytes) (st : PyTreeState) (path : String) (bytes : Nat) (file : Bytes)
    (hf : fs path = some file) (hl : file.length < bytes) (hp : st.path ≠ some path) :
    openChunk fs st path bytes = .error .fileNotFound := by
  unfold openChunk
  rw [if_neg hp, hf]
  simp only
  rw [if_neg (by omega)]

/-- A column with the declared size zero: its size is taken from the bytes of the sample. -/
theorem c54_size_zero_misread (raw : Bytes) (h : raw.length < 4) (hr : raw ≠ [])  (cs : List (Option Nat)) :
    mdsSizes raw 0 (some 0 :: cs) = .error .valueError := by
  match raw, h, hr with
  | [a], _, _ => rfl
  | [a, b], _, _ => rfl
  | [a, b, c], _, _ => rfl

/-- A column whose encoding is not the name of a serializer (as `int` is, and `uint8` is not) makes the dataset unreadable. -/
theorem c54_unknown_encoding (sers : Table LeafTree) (enc : String) (encs : List String) (hc : ':' ∉ enc.toList)
    (hn : sers.lookup enc = none) : setupFormats (ReadTable.ofTable sers) (enc :: encs) = .error .keyError := by
  have h : dataFormatToKey (ReadTable.ofTable sers) enc = .ok enc := by
    unfold dataFormatToKey
    rw [splitColon_noColon _ hc]
  rw [setupFormats, h]
  simp only [lookup_ofTable, hn, Option.map_none]

/-- The compressed shard is found under the name of its decompressed contents: with the name `zstd` and a file `….zstd`, it is decompressed
there. -/
theorem c54_decompressed (dec : Bytes → Bytes) (name dir : PathStr) (fs : InputFs) (data : Bytes)
    (hd : ∀ a b, dir ≠ a ++ ('.' :: name) ++ b) (hone : ∀ a b, dir ++ ('.' :: name) = a ++ ('.' :: name) ++ b → b = [])
    (hf : fs (dir ++ '.' :: name) = some data) (hno : fs dir = none) :
    ∃ fs', tryDecompress dec (some name) fs (dir ++ '.' :: name) = .ok fs' ∧
      fs' (decompressedPath (some name) (dir ++ '.' :: name)) = some (dec data) ∧
      decompressedPath (some name) (dir ++ '.' :: name) = dir := by
  have hp : decompressedPath (some name) (dir ++ '.' :: name) = dir := by
    unfold decompressedPath
    simp only
    clear hf hno
    induction dir with
    | nil =>
      rw [List.nil_append, pyReplace, if_pos (by rw [isPrefixOf_iff]; exact ⟨[], by simp⟩)]
      have := pyReplace_skip ('.' :: name) [] name []
      simpa [pyReplace] using this
    | cons c d ih =>
      rw [List.cons_append, pyReplace, if_neg]
      · rw [ih (fun a b e => hd (c :: a) b (by rw [e]; simp)) (fun a b e => hone (c :: a) b (by rw [List.cons_append, e]; simp))]
      · rw [isPrefixOf_iff]
        rintro ⟨r, hr⟩
        have := hone [] r (by rw [List.nil_append, ← hr]; rfl)
        subst this
        rw [List.append_nil] at hr
        have hlen := congrArg List.length hr
        simp at hlen
        omega
  refine ⟨fun p => if p = dir then some (dec data) else fs p, ?_, by rw [hp]; simp, hp⟩
  unfold tryDecompress
  simp only [hp, hno, hf]
  rfl

/-- With a level in the name of the compression (`zstd:7`) and a file name without a colon, nothing is stripped and nothing is decompressed: the
compressed bytes are read as a shard. -/
theorem c54_level_not_decompressed (dec : Bytes → Bytes) (name path : PathStr) (fs : InputFs) (data : Bytes) (hn : ':' ∈ name)
    (hp : ':' ∉ path) (hf : fs path = some data) :
    tryDecompress dec (some name) fs path = .ok fs ∧ fs (decompressedPath (some name) path) = some data := by
  have h : decompressedPath (some name) path = path := by
    unfold decompressedPath
    apply pyReplace_none
    rintro a b rfl
    apply hp
    simp [hn]
  rw [h]
  refine ⟨?_, hf⟩
  unfold tryDecompress
  simp only [h, hf]
  rfl

example : ∃ fs, tryDecompress List.reverse (some "zstd:7".toList) fs "/c/shard.00000.mds.zstd".toList = .ok fs ∧
    fs (decompressedPath (some "zstd:7".toList) "/c/shard.00000.mds.zstd".toList) = some [1, 2, 3] :=
  ⟨fun _ => some [1, 2, 3], c54_level_not_decompressed _ _ _ _ _ (by decide) (by decide) rfl⟩

/-! ### The hypotheses can be met -/

/-- Two columns, of a fixed and a variable size. -/
def demoShard (k : Nat) (name : String) (bytes : Nat) : MdsShard :=
  ⟨some (name, bytes), k, [some 8, none], ["label", "text"], ["int", "str"], some "zstd", "mds"⟩

def mdsShards : List MdsShard := [demoShard 2 "shard.0.mds.zstd" 20, demoShard 1 "shard.1.mds.zstd" 15]

def mdsItems : List (List Bytes) := [[[1, 2, 3], [4]], [[5, 6]]]

def mdsFs (p : String) : Option Bytes :=
  if p = "/c/shard.0.mds.zstd" then some (mdsFile [123, 125] [[1, 2, 3], [4]])
  else if p = "/c/shard.1.mds.zstd" then some (mdsFile [123, 125, 10] [[5, 6]]) else none

theorem mdsStored_demo : MdsStored mdsFs (fun n => "/c/" ++ n) mdsShards mdsItems := by
  refine ⟨rfl, ?_⟩
  intro k s l hs hl
  match k with
  | 0 =>
    simp only [mdsShards, mdsItems, List.getElem?_cons_zero, Option.some.injEq] at hs hl
    subst hs hl
    exact ⟨_, _, [123, 125], rfl, by decide, rfl, by decide, by decide⟩
  | 1 =>
    simp only [mdsShards, mdsItems, List.getElem?_cons_succ, List.getElem?_cons_zero, Option.some.injEq] at hs hl
    subst hs hl
    exact ⟨_, _, [123, 125, 10], rfl, by decide, rfl, by decide, by decide⟩
  | k + 2 => simp [mdsShards] at hs

example : ∃ index ivs, adaptMds mdsShards = .ok index ∧ generateIntervals none 0 0 (index.chunks.map (·.1)) = .ok ivs ∧
    datasetGets mdsFs (fun n => "/c/" ++ n) none none (index.chunks.map (·.1)) ivs PyTreeState.init [2, 0, 2, 1] =
      .ok [[5, 6], [1, 2, 3], [5, 6], [4]] := by
  obtain ⟨index, ivs, h1, h2, _, h3⟩ := c54_raw _ _ _ _ mdsStored_demo (by simp [mdsShards])
  exact ⟨index, ivs, h1, h2, h3 [2, 0, 2, 1] (by decide)⟩

example : ∃ index, adaptMds mdsShards = .ok index ∧
    readMds (builtins demoSerEnv) ⟨fun _ => none, fun _ => false⟩ index 1 (mdsItem [some 8, none] [[3, 0, 0, 0, 0, 0, 0, 0], [113]]) =
      .ok (.node (.dict [.atom (.str "label"), .atom (.str "text")]) [.leaf (.int 3), .leaf (.str "q")]) := by
  obtain ⟨index, hi⟩ := (c54_loaded_iff mdsShards).2 ⟨by simp [mdsShards], by simp [mdsShards, demoShard]⟩
  refine ⟨index, hi, ?_⟩
  exact c54_sample (builtins demoSerEnv) _ mdsShards index hi (demoShard 2 "shard.0.mds.zstd" 20) rfl (by decide)
    [⟨"int", intSer, "int"⟩, ⟨"str", strSer demoSerEnv, "str"⟩] rfl rfl (by
      intro c hc
      simp only [List.mem_cons, List.not_mem_nil, or_false] at hc
      rcases hc with rfl | rfl
      · exact ⟨rfl, by decide, .inl rfl⟩
      · exact ⟨rfl, by decide, .inl rfl⟩)
    1 (demoShard 1 "shard.1.mds.zstd" 15) rfl [[3, 0, 0, 0, 0, 0, 0, 0], [113]]
    (show FitsColumns [some 8, none] _ from ⟨rfl, by simp, by decide, trivial⟩) [.leaf (.int 3), .leaf (.str "q")] ⟨rfl, rfl, trivial⟩

end LitData.Props
