import Verif.Props.Opening
import Verif.Props.Subsample

/-! Property C79: opening a dataset succeeds exactly when the settings fit, and gives what the index says. -/

namespace LitData.Props
open LitData Spec

theorem validateLoader_iff (c : IndexConfig) (l : LoaderArg) : (validateLoader c l = .ok () ∧ c.dataFormat ≠ none) ↔ (LoaderNamed c l ∧ c.dataFormat ≠ none) := by
  unfold validateLoader LoaderNamed
  cases hn : c.itemLoader with
  | some n => simp
  | none =>
    cases hf : c.dataFormat with
    | none => simp
    | some fs =>
      match fs with
      | [] => simp
      | [f] =>
        simp only [Option.some.injEq, List.cons.injEq, and_true, ne_eq, reduceCtorEq, not_false_eq_true, false_and, exists_false, true_and, false_or,
          forall_eq']
        rw [← List.isPrefixOf_iff_prefix]
        constructor
        · intro h hp ht
          rw [if_pos ⟨hp, ht⟩] at h
          cases h
        · intro h
          rw [if_neg]
          rintro ⟨hp, ht⟩
          exact h hp ht
      | _ :: _ :: _ => simp

theorem loadSpec_iff (penv : PyEnv) (t : Option String) : (∃ s, loadSpec penv t = .ok s) ↔ ∀ x, t = some x → ∃ s, treespecLoads penv x = .ok s := by
  unfold loadSpec
  cases t with
  | none => simp
  | some x =>
    simp only [Option.some.injEq, forall_eq']
    cases treespecLoads penv x <;> simp

theorem findCompressor_iff (available : List String) (n : Option String) :
    (∃ s, findCompressor available n = .ok s) ↔ ∀ x, n = some x → x = "" ∨ x ∈ available := by
  unfold findCompressor
  cases n with
  | none => simp
  | some x =>
    simp only [Option.some.injEq, forall_eq']
    by_cases h1 : x = ""
    · simp [h1]
    · by_cases h2 : x ∈ available <;> simp [h1, h2]

/-- What the item loader sets up, if it does. -/
theorem setupLoader_spec {V : Type} (l : LoaderArg) (format : Option (List String)) (sers : Table V) (chunks : List ChunkInfo) (roi : List Roi)
    (hlen : chunks.length = roi.length) :
    ((∃ r, setupLoader l format sers chunks roi = .ok r) ↔ (∃ fs, format = some fs ∧ ∀ f ∈ fs, KnownFormat (sers.map (·.1)) f) ∧
      ∀ b, l.tokens = some b → (∃ n, b = some n ∧ 0 < n) ∧ (∃ f fs sz, format = some (f :: fs) ∧ TokenFormat f sz) ∧ chunks ≠ [] ∧ ∀ x ∈ chunks, x.dim ≠ none) ∧
    ∀ fs d ivs tok, setupLoader l format sers chunks roi = .ok (fs, d, ivs, tok) →
      format = some fs ∧ SetupInv sers fs d ∧ setupFormats (ReadTable.ofTable sers) fs = .ok d ∧ ivs = layout 0 (chunks.map (samplesIn l)) roi ∧
      (l.tokens = none → tok = none) ∧ ∀ b, l.tokens = some b → ∃ n f sz, b = some n ∧ fs.head? = some f ∧ TokenFormat f sz ∧ tok = some (n, sz) := by
  unfold setupLoader
  cases format with
  | none => simp
  | some fs =>
    obtain ⟨i1, i2⟩ := setupFormats_inv sers fs [] _ (setupInv_init sers)
    simp only [Option.some.injEq, exists_eq_left']
    cases hs : setupFormats (ReadTable.ofTable sers) fs with
    | error e =>
      rw [hs] at i1
      simp only [reduceCtorEq, exists_false, false_iff] at i1 ⊢
      exact ⟨fun h => i1 h.1, by simp⟩
    | ok d =>
      rw [hs] at i1
      have hk := i1.1 ⟨d, rfl⟩
      have hinv := i2 d hs
      simp only
      cases ht : l.tokens with
      | none =>
        have hg := generateIntervals_layout chunks roi 0 0 (by omega)
        rw [List.drop_zero] at hg
        simp only [hg]
        refine ⟨⟨fun _ => ⟨hk, by simp⟩, fun _ => ⟨_, rfl⟩⟩, ?_⟩
        intro fs' d' ivs tok h
        cases h
        refine ⟨rfl, hinv, hs, ?_, fun _ => rfl, by simp⟩
        congr 1
        apply List.map_congr_left
        intro c _
        simp [samplesIn, ht]
      | some b =>
        simp only [Option.some.injEq, forall_eq']
        match fs, hk, hinv, hs with
        | [], _, _, _ => simp
        | f :: fs, hk, hinv, hs =>
          simp only
          cases hz : tokenSize f with
          | error e =>
            simp only [reduceCtorEq, exists_false, false_iff, false_implies, implies_true, and_true]
            rintro ⟨_, _, ⟨f', fs', sz, h, htf⟩, _⟩
            cases h
            rw [(tokenSize_iff f sz).2 htf] at hz
            cases hz
          | ok sz =>
            have htf := (tokenSize_iff f sz).1 hz
            simp only
            unfold tokSetup
            by_cases hall : chunks.all fun c => c.dim == none
            · rw [if_pos hall]
              simp only [reduceCtorEq, exists_false, false_iff, false_implies, implies_true, and_true]
              rintro ⟨_, _, _, hne, hd⟩
              cases chunks with
              | nil => exact hne rfl
              | cons c cs =>
                have := List.all_eq_true.1 hall c (by simp)
                exact hd c (by simp) (by simpa using this)
            · rw [if_neg hall]
              simp only
              have hg := tokIntervals_layout (b.getD 0) chunks roi 0 0 (by omega)
              rw [List.drop_zero] at hg
              rw [hg]
              have hne : chunks ≠ [] := by rintro rfl; simp at hall
              by_cases hb : b.getD 0 = 0
              · rw [if_pos hb]
                simp only [reduceCtorEq, exists_false, false_iff, false_implies, implies_true, and_true]
                rintro ⟨_, ⟨n, rfl, hn⟩, _⟩
                simp at hb
                omega
              · rw [if_neg hb]
                by_cases hex : ∃ c ∈ chunks, c.dim = none
                · rw [if_pos hex]
                  simp only [reduceCtorEq, exists_false, false_iff, false_implies, implies_true, and_true]
                  rintro ⟨_, _, _, _, hd⟩
                  obtain ⟨c, hc, hc'⟩ := hex
                  exact hd c hc hc'
                · rw [if_neg hex]
                  have hbn : ∃ n, b = some n ∧ 0 < n := by
                    cases b with
                    | none => simp at hb
                    | some n => exact ⟨n, rfl, by simp at hb; omega⟩
                  simp only
                  refine ⟨⟨fun _ => ⟨hk, hbn, ⟨f, fs, sz, rfl, htf⟩, hne, fun x hx hx' => hex ⟨x, hx, hx'⟩⟩, fun _ => ⟨_, rfl⟩⟩, ?_⟩
                  intro fs' d' ivs tok h
                  cases h
                  refine ⟨rfl, hinv, hs, ?_, by simp, ?_⟩
                  · congr 1
                    apply List.map_congr_left
                    intro c _
                    simp [samplesIn, ht]
                  · obtain ⟨n, rfl, _⟩ := hbn
                    exact ⟨n, f, sz, rfl, rfl, htf, rfl⟩

/-- **C79.** A dataset whose index was written can be used exactly if the settings fit what the index records; `sel` are the chunks that the dataset uses. -/
theorem c79_opens_iff {V : Type} (penv : PyEnv) (available : List String) (u : Option String) (chunks : List ChunkInfo) (c : IndexConfig)
    (hn : (chunks.map (·.filename)).Nodup) (loader : Option LoaderArg) (sers : Table V) (sel : List ChunkInfo) (hsel : ∀ x ∈ sel, x ∈ chunks) (roi : List Roi)
    (hlen : sel.length = roi.length) :
    (∃ o, createCache penv available (some (indexText u chunks c)) loader sers (sel.map (·.filename)) roi = .ok o) ↔
      Fits penv available c (loader.getD .pytree) sers sel := by
  unfold createCache openConfig
  simp only [loadChunks_indexText, loadConfig_indexText, loadSubsampledChunks_ok chunks hn sel hsel]
  have h2 := loadSpec_iff penv c.dataSpec
  obtain ⟨h3, _⟩ := setupLoader_spec (loader.getD .pytree) c.dataFormat sers sel roi hlen
  have h4 := findCompressor_iff available c.compression
  have h1 := validateLoader_iff c (loader.getD .pytree)
  constructor
  · rintro ⟨o, h⟩
    cases hv : validateLoader c (loader.getD .pytree) with
    | error e => rw [hv] at h; simp at h
    | ok _ =>
      rw [hv] at h h1
      simp only at h
      cases hsp : loadSpec penv c.dataSpec with
      | error e => rw [hsp] at h; simp at h
      | ok spec =>
        rw [hsp] at h h2
        simp only at h
        cases hsl : setupLoader (loader.getD .pytree) c.dataFormat sers sel roi with
        | error e => rw [hsl] at h; simp at h
        | ok r =>
          rw [hsl] at h h3
          obtain ⟨fs, d, ivs, tok⟩ := r
          simp only at h
          cases hc : findCompressor available c.compression with
          | error e => rw [hc] at h; simp at h
          | ok comp =>
            rw [hc] at h4
            obtain ⟨g1, g2⟩ := h3.1 ⟨_, rfl⟩
            have hf : c.dataFormat ≠ none := by obtain ⟨fs, e, _⟩ := g1; rw [e]; simp
            exact ⟨(h1.1 ⟨rfl, hf⟩).1, g1, h2.1 ⟨_, rfl⟩, h4.1 ⟨_, rfl⟩, g2⟩
  · rintro ⟨f1, f2, f3, f4, f5⟩
    have hf : c.dataFormat ≠ none := by obtain ⟨fs, e, _⟩ := f2; rw [e]; simp
    rw [(h1.2 ⟨f1, hf⟩).1]
    obtain ⟨spec, hsp⟩ := h2.2 f3
    obtain ⟨⟨fs, d, ivs, tok⟩, hsl⟩ := h3.2 ⟨f2, f5⟩
    obtain ⟨comp, hc⟩ := h4.2 f4
    simp only [hsp, hsl, hc]
    exact ⟨_, rfl⟩

/-- **C79, what is opened.** The dataset has the chunks it was given with their regions, one after the other; every data format has the serializer that it
names; structure, encryption and compression are those of the index; its length is the number of samples (of blocks of tokens) of its chunks. -/
theorem c79_opened_right {V : Type} (penv : PyEnv) (available : List String) (u : Option String) (chunks : List ChunkInfo) (c : IndexConfig)
    (hn : (chunks.map (·.filename)).Nodup) (loader : Option LoaderArg) (sers : Table V) (sel : List ChunkInfo) (hsel : ∀ x ∈ sel, x ∈ chunks) (roi : List Roi)
    (hlen : sel.length = roi.length) (o : Opened V)
    (h : createCache penv available (some (indexText u chunks c)) loader sers (sel.map (·.filename)) roi = .ok o) :
    o.chunks = sel ∧ o.intervals = layout 0 (sel.map (samplesIn (loader.getD .pytree))) roi ∧
    configLength o.intervals = (sel.map (samplesIn (loader.getD .pytree))).sum ∧
    c.dataFormat = some o.formats ∧
    (∀ f ∈ o.formats, ∃ key s, Names (sers.map (·.1)) f key ∧ sers.lookup key = some s ∧ o.table.lookup f = some (s, some f)) ∧
    (∀ t, c.dataSpec = some t → ∃ s, treespecLoads penv t = .ok s ∧ o.spec = some s) ∧ (c.dataSpec = none → o.spec = none) ∧
    o.encryption = c.encryption ∧ (∀ n, o.compressor = some n ↔ c.compression = some n ∧ n ≠ "") ∧
    ∀ b, (loader.getD .pytree).tokens = some b → ∃ n f sz, b = some n ∧ o.formats.head? = some f ∧ TokenFormat f sz ∧ o.tokens = some (n, sz) := by
  unfold createCache openConfig at h
  simp only [loadChunks_indexText, loadConfig_indexText, loadSubsampledChunks_ok chunks hn sel hsel] at h
  obtain ⟨_, h3⟩ := setupLoader_spec (loader.getD .pytree) c.dataFormat sers sel roi hlen
  cases hv : validateLoader c (loader.getD .pytree) with
  | error e => rw [hv] at h; simp at h
  | ok _ =>
    rw [hv] at h
    simp only at h
    cases hsp : loadSpec penv c.dataSpec with
    | error e => rw [hsp] at h; simp at h
    | ok spec =>
      rw [hsp] at h
      simp only at h
      cases hsl : setupLoader (loader.getD .pytree) c.dataFormat sers sel roi with
      | error e => rw [hsl] at h; simp at h
      | ok r =>
        rw [hsl] at h
        obtain ⟨fs, d, ivs, tok⟩ := r
        simp only at h
        cases hc : findCompressor available c.compression with
        | error e => rw [hc] at h; simp at h
        | ok comp =>
          rw [hc] at h
          cases h
          obtain ⟨g1, g2, _, g3, _, g5⟩ := h3 fs d ivs tok hsl
          refine ⟨rfl, g3, ?_, g1, fun f hf => g2.ready f hf, ?_, ?_, rfl, ?_, g5⟩
          · simp only [g3]
            by_cases hs : sel = []
            · subst hs; rfl
            · rw [layout_last 0 _ roi (by simpa using hlen) (by simpa using hs), Nat.zero_add]
          · intro t ht
            unfold loadSpec at hsp
            rw [ht] at hsp
            simp only at hsp
            split at hsp
            · cases hsp
            · rename_i s hs
              cases hsp
              exact ⟨s, hs, rfl⟩
          · intro ht
            unfold loadSpec at hsp
            rw [ht] at hsp
            cases hsp
            rfl
          · intro n
            unfold findCompressor at hc
            cases hcc : c.compression with
            | none => rw [hcc] at hc; cases hc; simp
            | some m =>
              rw [hcc] at hc
              simp only at hc
              split at hc
              · rename_i e; cases hc; subst e
                simp only [reduceCtorEq, Option.some.injEq, false_iff, not_and, ne_eq, Decidable.not_not]
                exact fun h => h.symm
              · split at hc
                · rename_i e _; cases hc
                  simp only [Option.some.injEq]
                  exact ⟨fun h => ⟨h, by rw [← h]; exact e⟩, fun h => h.1⟩
                · cases hc

/-- **C79, the samples.** A sample that its serializers can read back from its bytes is read back by the opened dataset: the data format and the structure
that the writer has recorded have gone through the text of `index.json`. -/
theorem c79_opened_reads (penv : PyEnv) (available : List String) (u : Option String) (chunks : List ChunkInfo) (c : IndexConfig)
    (hn : (chunks.map (·.filename)).Nodup) (loader : Option LoaderArg) (sers : Table LeafTree) (sel : List ChunkInfo) (hsel : ∀ x ∈ sel, x ∈ chunks)
    (roi : List Roi) (hlen : sel.length = roi.length) (o : Opened LeafTree)
    (h : createCache penv available (some (indexText u chunks c)) loader sers (sel.map (·.filename)) roi = .ok o)
    (formats : List String) (hf : c.dataFormat = some formats) (text : String) (ht : c.dataSpec = some text) (spec : TSpec)
    (hs : treespecLoads penv text = .ok spec) (raw : Bytes) : o.read raw = readSample sers formats spec raw := by
  unfold createCache openConfig at h
  simp only [loadChunks_indexText, loadConfig_indexText, loadSubsampledChunks_ok chunks hn sel hsel] at h
  obtain ⟨_, h3⟩ := setupLoader_spec (loader.getD .pytree) c.dataFormat sers sel roi hlen
  cases hv : validateLoader c (loader.getD .pytree) with
  | error e => rw [hv] at h; simp at h
  | ok _ =>
    rw [hv] at h
    have hsp : loadSpec penv c.dataSpec = .ok (some spec) := by unfold loadSpec; rw [ht]; simp only [hs]
    simp only [hsp] at h
    cases hsl : setupLoader (loader.getD .pytree) c.dataFormat sers sel roi with
    | error e => rw [hsl] at h; simp at h
    | ok r =>
      rw [hsl] at h
      obtain ⟨fs, d, ivs, tok⟩ := r
      simp only at h
      cases hc : findCompressor available c.compression with
      | error e => rw [hc] at h; simp at h
      | ok comp =>
        rw [hc] at h
        cases h
        obtain ⟨g1, _, g2, _⟩ := h3 fs d ivs tok hsl
        rw [hf] at g1
        cases g1
        unfold Opened.read readSample
        rw [g2]
        show (match deserializeSample d formats raw with | Except.error e => Except.error e | Except.ok leaves => unflatten spec leaves) = _
        rfl

theorem roiAll_spec (tok : Option (Option Nat)) (cs : List ChunkInfo) (hne : cs ≠ []) :
    (roiAll tok cs = .ok (cs.map fun c => (0, samplesIn ⟨"", tok⟩ c)) ∧
      ∀ b, tok = some b → (∃ n, b = some n ∧ 0 < n) ∧ ∀ x ∈ cs, x.dim ≠ none) ∨ (∃ e, roiAll tok cs = .error e) ∧
      ¬ ∀ b, tok = some b → (∃ n, b = some n ∧ 0 < n) ∧ ∀ x ∈ cs, x.dim ≠ none := by
  have good : ∀ (cs : List ChunkInfo), (∀ b, tok = some b → (∃ n, b = some n ∧ 0 < n) ∧ ∀ x ∈ cs, x.dim ≠ none) →
      roiAll tok cs = .ok (cs.map fun c => (0, samplesIn ⟨"", tok⟩ c)) := by
    intro cs
    induction cs with
    | nil => intro _; rfl
    | cons c cs ih =>
      intro h
      have h' := ih (fun b hb => ⟨(h b hb).1, fun x hx => (h b hb).2 x (by simp [hx])⟩)
      unfold roiAll
      have : roiOf tok c = .ok (0, samplesIn ⟨"", tok⟩ c) := by
        unfold roiOf samplesIn
        cases tok with
        | none => rfl
        | some b =>
          obtain ⟨⟨n, rfl, hn⟩, hd⟩ := h b rfl
          cases hc : c.dim with
          | none => exact absurd hc (hd c (by simp))
          | some d => simp only; rw [if_neg (by omega)]; rfl
      rw [this, h']
      rfl
  by_cases hg : ∀ b, tok = some b → (∃ n, b = some n ∧ 0 < n) ∧ ∀ x ∈ cs, x.dim ≠ none
  · exact .inl ⟨good cs hg, hg⟩
  · right
    refine ⟨?_, hg⟩
    cases tok with
    | none => exact absurd (by simp) hg
    | some b =>
      clear good
      induction cs with
      | nil => exact absurd rfl hne
      | cons c cs ih =>
        unfold roiAll
        cases hr : roiOf (some b) c with
        | error e => exact ⟨e, rfl⟩
        | ok r =>
          have hcd : ∃ n d, b = some n ∧ 0 < n ∧ c.dim = some d := by
            unfold roiOf at hr
            cases hd : c.dim with
            | none => rw [hd] at hr; cases hr
            | some d =>
              rw [hd] at hr
              cases b with
              | none => cases hr
              | some n =>
                simp only at hr
                split at hr
                · cases hr
                · rename_i hn; exact ⟨n, d, rfl, by omega, rfl⟩
          obtain ⟨n, d, rfl, hn, hd⟩ := hcd
          have hcs : cs ≠ [] := by
            rintro rfl
            apply hg
            intro b hb
            cases hb
            exact ⟨⟨n, rfl, hn⟩, by simp [hd]⟩
          obtain ⟨e, he⟩ := ih hcs (by
            intro hall
            apply hg
            intro b hb
            cases hb
            refine ⟨⟨n, rfl, hn⟩, ?_⟩
            intro x hx
            rcases List.mem_cons.1 hx with rfl | hx
            · rw [hd]; simp
            · exact (hall _ rfl).2 x hx)
          rw [he]
          exact ⟨e, rfl⟩

/-- A ratio that is as good as 1, or a double that is not almost 1. -/
def GoodRatio (s : Nat) : Prop :=
  0 < s ∧ (Dbl.isCloseOne s = true ∨ (IsDbl s ∧ s < 2 ^ 53 * Dbl.one ∧ (s + 2 ^ 1047 ≤ Dbl.one ∨ Dbl.one + 2 ^ 1047 ≤ s)))

/-- **C79, constructing.** For a written index with fewer than `2^53` samples, the constructor of a dataset succeeds exactly if the directory exists, some chunk
is selected, and tokens come with a positive block size and their numbers; it gives files of chunks of the index with regions inside of them, and all of
each selected chunk for the ratio 1. -/
theorem c79_constructed_iff {V : Type} (d : Bool) (u : Option String) (chunks : List ChunkInfo) (c : IndexConfig) (a : OpenArgs V) (hp : Perms a.perm)
    (hs : GoodRatio a.subsample)
    (hN : (((chunks.filter fun x => a.keep x.filename).map (samplesIn ⟨"", a.loader.bind (·.tokens)⟩)).sum) < 2 ^ 53) :
    ((∃ r, datasetInit d (some (indexText u chunks c)) a = .ok r) ↔ d = true ∧ (chunks.filter fun x => a.keep x.filename) ≠ [] ∧
      ∀ b, a.loader.bind (·.tokens) = some b → (∃ n, b = some n ∧ 0 < n) ∧ ∀ x ∈ chunks.filter fun x => a.keep x.filename, x.dim ≠ none) ∧
    ∀ files roi, datasetInit d (some (indexText u chunks c)) a = .ok (files, roi) → ∃ sel, files = sel.map (·.filename) ∧
      Within sel roi (chunks.filter fun x => a.keep x.filename)
        ((chunks.filter fun x => a.keep x.filename).map fun x => (0, samplesIn ⟨"", a.loader.bind (·.tokens)⟩ x)) ∧
      (Dbl.isCloseOne a.subsample = true → sel = (chunks.filter fun x => a.keep x.filename) ∧
        roi = (chunks.filter fun x => a.keep x.filename).map fun x => (0, samplesIn ⟨"", a.loader.bind (·.tokens)⟩ x)) := by
  unfold datasetInit
  rw [if_neg (by have := hs.1; omega)]
  cases d with
  | false => simp
  | true =>
    simp only [Bool.not_true, Bool.false_eq_true, if_false, loadChunks_indexText, true_and]
    generalize hk : (chunks.filter fun x => a.keep x.filename) = kept at *
    by_cases hne : kept = []
    · rw [if_pos hne]; simp [hne]
    rw [if_neg hne]
    rcases roiAll_spec (a.loader.bind (·.tokens)) kept hne with ⟨hr, hgood⟩ | ⟨⟨e, hr⟩, hbad⟩
    · simp only [hr]
      generalize hroi : (kept.map fun x => ((0 : Nat), samplesIn ⟨"", a.loader.bind (·.tokens)⟩ x)) = roi0 at *
      have hl : kept.length = roi0.length := by rw [← hroi]; simp
      have hwf : RoiWF roi0 := by
        intro r hr'
        rw [← hroi, List.mem_map] at hr'
        obtain ⟨x, _, rfl⟩ := hr'
        exact Nat.zero_le _
      have hwhole : Within kept roi0 kept roi0 := by
        refine ⟨hl, fun x hx => ⟨x.2, hx, Nat.le_refl _, ?_, Nat.le_refl _⟩⟩
        exact hwf x.2 (List.of_mem_zip hx).2
      have hsub : ∃ sel roi, subsampleFloat a.perm kept roi0 a.subsample = .ok (sel, roi) ∧ Within sel roi kept roi0 ∧
          (Dbl.isCloseOne a.subsample = true → sel = kept ∧ roi = roi0) := by
        by_cases hc : Dbl.isCloseOne a.subsample = true
        · exact ⟨kept, roi0, c16_close a.perm kept roi0 a.subsample hs.1 hne hc, hwhole, fun _ => ⟨rfl, rfl⟩⟩
        · rcases hs.2 with h | ⟨h1, h2, h3⟩
          · exact absurd h hc
          · obtain ⟨files, regions, _, _, _, g1, _, _, _, _, _, _, _, _, _, g2⟩ :=
              c16_double a.perm hp kept roi0 a.subsample h1 hs.1 h2 h3 hne hl hwf (by
                rw [regionSamples_length _ _ hl, ← hroi, List.map_map]
                exact hN)
            exact ⟨files, regions, g1, g2, fun h => absurd h hc⟩
      obtain ⟨sel, roi, g1, g2, g3⟩ := hsub
      simp only [g1]
      refine ⟨⟨fun _ => ⟨hne, hgood⟩, fun _ => ⟨_, rfl⟩⟩, ?_⟩
      intro files roi' h
      cases h
      exact ⟨sel, rfl, g2, g3⟩
    · simp only [hr]
      simp only [reduceCtorEq, exists_false, false_iff, false_implies, implies_true, and_true]
      exact fun h => hbad h.2

/-- **The constructor does not look at the configuration**: item loader, serializers, data format, structure, encryption and compression are checked at the
first use only. -/
theorem c79_constructor_blind {V : Type} (d : Bool) (u u' : Option String) (chunks : List ChunkInfo) (c c' : IndexConfig) (a : OpenArgs V) :
    datasetInit d (some (indexText u chunks c)) a = datasetInit d (some (indexText u' chunks c')) a := by
  unfold datasetInit
  simp only [loadChunks_indexText]

/-- **A wrong item loader** is refused at the first use. -/
theorem c79_wrong_loader {V : Type} (penv : PyEnv) (available : List String) (u : Option String) (chunks : List ChunkInfo) (c : IndexConfig) (n : String)
    (hn : c.itemLoader = some n) (loader : Option LoaderArg) (hl : (loader.getD .pytree).className ≠ n) (sers : Table V) (files : List String) (roi : List Roi) :
    createCache penv available (some (indexText u chunks c)) loader sers files roi = .error .valueError := by
  unfold createCache openConfig
  simp only [loadChunks_indexText, loadConfig_indexText]
  unfold validateLoader
  rw [hn]
  simp only [if_neg hl]

/-- **C79, the whole dataset.** If the settings fit, a dataset with a ratio as good as 1 opens, and has all samples of the selected chunks in their order. -/
theorem c79_whole_opens {V : Type} (penv : PyEnv) (available : List String) (u : Option String) (chunks : List ChunkInfo) (c : IndexConfig)
    (hn : (chunks.map (·.filename)).Nodup) (a : OpenArgs V) (hp : Perms a.perm) (hs : 0 < a.subsample) (hc : Dbl.isCloseOne a.subsample = true)
    (hN : (((chunks.filter fun x => a.keep x.filename).map (samplesIn (a.loader.getD .pytree))).sum) < 2 ^ 53)
    (hne : (chunks.filter fun x => a.keep x.filename) ≠ [])
    (hfit : Fits penv available c (a.loader.getD .pytree) a.sers (chunks.filter fun x => a.keep x.filename)) :
    ∃ o, openDataset penv available true (some (indexText u chunks c)) a = .ok o ∧ o.chunks = (chunks.filter fun x => a.keep x.filename) ∧
      configLength o.intervals = ((chunks.filter fun x => a.keep x.filename).map (samplesIn (a.loader.getD .pytree))).sum ∧
      o.intervals = layout 0 ((chunks.filter fun x => a.keep x.filename).map (samplesIn (a.loader.getD .pytree)))
        ((chunks.filter fun x => a.keep x.filename).map fun x => (0, samplesIn (a.loader.getD .pytree) x)) ∧
      createCache penv available (some (indexText u chunks c)) a.loader a.sers ((chunks.filter fun x => a.keep x.filename).map (·.filename))
        ((chunks.filter fun x => a.keep x.filename).map fun x => (0, samplesIn (a.loader.getD .pytree) x)) = .ok o := by
  have htok : a.loader.bind (·.tokens) = (a.loader.getD .pytree).tokens := by cases a.loader <;> rfl
  have hsame : ∀ x, samplesIn ⟨"", a.loader.bind (·.tokens)⟩ x = samplesIn (a.loader.getD .pytree) x := by
    intro x; unfold samplesIn; rw [htok]
  have hsame' : (samplesIn ⟨"", a.loader.bind (·.tokens)⟩) = samplesIn (a.loader.getD .pytree) := funext hsame
  obtain ⟨h1, h2⟩ := c79_constructed_iff true u chunks c a hp ⟨hs, .inl hc⟩ (by rw [hsame']; exact hN)
  obtain ⟨⟨files, roi⟩, hr⟩ := h1.2 ⟨rfl, hne, fun b hb => ⟨(hfit.tokens b (htok ▸ hb)).1, (hfit.tokens b (htok ▸ hb)).2.2.2⟩⟩
  obtain ⟨sel, hf, hw, hwhole⟩ := h2 files roi hr
  obtain ⟨rfl, hroi⟩ := hwhole hc
  rw [hsame'] at hroi
  subst hroi hf
  have hmem : ∀ x ∈ chunks.filter fun x => a.keep x.filename, x ∈ chunks := fun x hx => (List.mem_filter.1 hx).1
  obtain ⟨o, ho⟩ := (c79_opens_iff penv available u chunks c hn a.loader a.sers _ hmem
    ((chunks.filter fun x => a.keep x.filename).map fun x => (0, samplesIn (a.loader.getD .pytree) x)) (by simp)).2 hfit
  obtain ⟨g1, g2, g3, _⟩ := c79_opened_right penv available u chunks c hn a.loader a.sers _ hmem
    ((chunks.filter fun x => a.keep x.filename).map fun x => (0, samplesIn (a.loader.getD .pytree) x)) (by simp) o ho
  refine ⟨o, ?_, g1, g3, g2, ho⟩
  unfold openDataset
  rw [hr]
  exact ho

theorem one_close : Dbl.isCloseOne Dbl.one = true := by decide +kernel

/-- **C79, from the samples to the samples.** Samples are written with the builtin serializers; their data format and their structure are recorded in the text
of `index.json`; a dataset that is opened with this text alone reads back every sample from its bytes. -/
theorem c79_written_read_back (env : SerEnv) (penv : PyEnv) (x : LeafTree) (xs : List LeafTree)
    (hwf : ∀ y ∈ x :: xs, y.WF) (hst : x.Storable penv)
    (hspec : ∀ y ∈ xs, (flatten Leaf.isJpeg y).2 = (flatten Leaf.isJpeg x).2)
    (hne : (flatten Leaf.isJpeg x).1 ≠ [])
    (hk : ∀ l ∈ (flatten Leaf.isJpeg x).1, (leafKind env l).isSome)
    (hkk : ∀ y ∈ xs, (flatten Leaf.isJpeg y).1.map (leafKind env) = (flatten Leaf.isJpeg x).1.map (leafKind env))
    (hf : ∀ y ∈ x :: xs, ∀ l ∈ (flatten Leaf.isJpeg y).1, LeafFits env l)
    (hb : ∀ y ∈ x :: xs, ∀ l ∈ (flatten Leaf.isJpeg y).1, ∀ e ∈ builtins env, ∀ b n, e.2.serialize l = .ok (b, n) → b.length < 2 ^ 32)
    (u : Option String) (chunks : List ChunkInfo) (hn : (chunks.map (·.filename)).Nodup) (hch : chunks ≠ [])
    (hN : (chunks.map (·.chunkSize)).sum < 2 ^ 53) (size bytesMax : Option Nat) (enc : Option EncConfig)
    (perm : Nat → Option (List Nat → List Nat)) (hp : Perms perm) :
    ∃ bytes formats spec extra text o, writeSamples (builtins env) (x :: xs) = .ok (bytes, ⟨some formats, some spec, extra⟩) ∧
      bytes.length = xs.length + 1 ∧ treespecDumps penv spec = .ok text ∧
      openDataset penv [] true (some (indexText u chunks ⟨none, size, bytesMax, some formats, some text, enc, some "PyTreeLoader"⟩))
        ⟨none, Dbl.one, perm, builtins env, fun _ => true⟩ = .ok o ∧
      o.chunks = chunks ∧ configLength o.intervals = (chunks.map (·.chunkSize)).sum ∧ o.encryption = enc ∧
      ∀ i (h : i < (x :: xs).length) (h' : i < bytes.length), o.read bytes[i] = .ok (x :: xs)[i] := by
  obtain ⟨bytes, formats, spec, extra, text, spec', h1, h2, h3, h4, h5⟩ := c13_samples_read_back_partial env penv x xs hwf hst hspec hne hk hkk hf hb
  have hall : (chunks.filter fun _ => true) = chunks := by simp
  have hknown : ∀ f ∈ formats, KnownFormat ((builtins env).map (·.1)) f := by
    have h0 := h5 0 (by simp) (by omega)
    unfold readSample at h0
    cases hsf : setupFormats (ReadTable.ofTable (builtins env)) formats with
    | error e => rw [hsf] at h0; cases h0
    | ok d => exact (setupFormats_inv _ formats [] _ (setupInv_init _)).1.1 ⟨d, hsf⟩
  have hsz : samplesIn LoaderArg.pytree = (·.chunkSize) := rfl
  obtain ⟨o, g1, g2, g3, _, g4⟩ := c79_whole_opens penv [] u chunks ⟨none, size, bytesMax, some formats, some text, enc, some "PyTreeLoader"⟩ hn
    ⟨none, Dbl.one, perm, builtins env, fun _ => true⟩ hp one_pos one_close (by simp only [hall]; exact hN) (by simp only [hall]; exact hch)
    ⟨.inl ⟨_, rfl, rfl⟩, ⟨formats, rfl, hknown⟩, fun t ht => by cases ht; exact ⟨spec', h4⟩, (by intro n hn'; cases hn'), (by intro b hb'; cases hb')⟩
  simp only [hall] at g2 g3 g4
  refine ⟨bytes, formats, spec, extra, text, o, h1, h2, h3, g1, g2, g3, ?_, ?_⟩
  · exact (c79_opened_right penv [] u chunks _ hn _ _ chunks (fun _ h => h) _ (by simp) o g4).2.2.2.2.2.2.2.1
  · intro i h h'
    rw [c79_opened_reads penv [] u chunks _ hn _ _ chunks (fun _ h => h) _ (by simp) o g4 formats rfl text rfl spec' h4]
    exact h5 i h h'

/-! An index with two chunks that meets the hypotheses, for samples of an integer and for tokens. -/

def openChunks : List ChunkInfo := [⟨"chunk-0-0.bin", 3, 48, some 12⟩, ⟨"chunk-0-1.bin", 2, 40, some 7⟩]

theorem demo_perms : Perms (fun _ => none) := by
  intro n f h
  cases h

/-- `PyTreeLoader`. -/
example : ∃ o, openDataset (V := LeafTree) ⟨fun _ => none, fun _ => false⟩ [] true
    (some (indexText none openChunks ⟨none, none, some 64, some ["int"], none, none, some "PyTreeLoader"⟩))
    ⟨none, Dbl.one, fun _ => none, builtins demoSerEnv, fun _ => true⟩ = .ok o ∧ o.chunks = openChunks ∧ configLength o.intervals = 5 := by
  obtain ⟨o, h1, h2, h3, _⟩ := c79_whole_opens ⟨fun _ => none, fun _ => false⟩ [] none openChunks
    ⟨none, none, some 64, some ["int"], none, none, some "PyTreeLoader"⟩ (by decide)
    ⟨none, Dbl.one, fun _ => none, builtins demoSerEnv, fun _ => true⟩ demo_perms one_pos (by decide +kernel) (by decide) (by decide)
    ⟨.inl ⟨_, rfl, rfl⟩, ⟨["int"], rfl, by
      intro f hf
      simp only [List.mem_singleton] at hf
      subst hf
      exact .inl ⟨by decide, by simp [builtins]⟩⟩, by simp, by simp, by intro b hb; cases hb⟩
  exact ⟨o, h1, h2, h3⟩

/-- `TokensLoader(block_size=5)` over tokens of 4 bytes: two blocks and one. -/
example : ∃ o, openDataset (V := LeafTree) ⟨fun _ => none, fun _ => false⟩ ["zstd"] true
    (some (indexText none openChunks ⟨some "zstd", none, some 64, some ["no_header_tensor:3"], none, none, some "TokensLoader"⟩))
    ⟨some (.ofTokens (some 5)), Dbl.one, fun _ => none, builtins demoSerEnv, fun _ => true⟩ = .ok o ∧ o.chunks = openChunks ∧ configLength o.intervals = 3 := by
  obtain ⟨o, h1, h2, h3, _⟩ := c79_whole_opens ⟨fun _ => none, fun _ => false⟩ ["zstd"] none openChunks
    ⟨some "zstd", none, some 64, some ["no_header_tensor:3"], none, none, some "TokensLoader"⟩ (by decide)
    ⟨some (.ofTokens (some 5)), Dbl.one, fun _ => none, builtins demoSerEnv, fun _ => true⟩ demo_perms one_pos (by decide +kernel) (by decide) (by decide)
    ⟨.inl ⟨_, rfl, rfl⟩, ⟨["no_header_tensor:3"], rfl, by
      intro f hf
      simp only [List.mem_singleton] at hf
      subst hf
      exact .inr ⟨"no_header_tensor", "3", by decide, by decide, by decide, .inl (by simp [builtins])⟩⟩, by simp, by simp, by
      intro b hb
      cases hb
      refine ⟨⟨5, rfl, by decide⟩, ⟨_, _, _, rfl, ['3'], by decide, by decide, .inl ⟨by decide, _, rfl, rfl⟩⟩, by decide, by decide⟩⟩
  exact ⟨o, h1, h2, h3⟩

/-- The hypothesis on the ratio for a half. -/
example : GoodRatio (Dbl.one / 2) := by
  refine ⟨by decide +kernel, .inr ⟨?_, by decide +kernel, .inl (by decide +kernel)⟩⟩
  exact .inr (by decide +kernel)

end LitData.Props
