import Verif.Model.ParquetIndex
import Verif.Model.Registry
import Verif.Props.Parquet
import Verif.Props.Subsample
import Verif.Props.Pipeline
import Verif.Lemmas.Serializers

/-! Property C55: indexing directories of parquet files and reading them. -/

namespace LitData.Props
open LitData LitData.Spec

/-! ### Random access with any item loader -/

/-- Serve the given indices one after the other, with any loader. -/
def lookupGets {S X : Type} (load : S → Nat → Nat → Nat → Py (X × S)) (ivs : List Interval) : S → List Nat → Py (List X)
  | _, [] => .ok []
  | st, i :: is => match chunkFromIndex ivs i with
    | .error e => .error e
    | .ok (real, k) => match ivs[k]? with
      | none => .error .indexError
      | some iv => match load st k real iv.chunkStart with
        | .error e => .error e
        | .ok (x, st) => match lookupGets load ivs st is with
          | .error e => .error e
          | .ok xs => .ok (x :: xs)

/-- If the loader reads each item of each chunk from any of its states, then any sequence of indices reads the items with these ranks among
the regions of interest. -/
theorem reads_any {S X : Type} (load : S → Nat → Nat → Nat → Py (X × S)) (chunks : List ChunkInfo) (items : List (List X)) (hsl : chunks.length = items.length)
    (roi : List (Nat × Nat)) (hlen : roi.length = chunks.length)
    (hroi : ∀ (k : Nat) (l : List X) (r : Nat × Nat), items[k]? = some l → roi[k]? = some r → r.1 ≤ r.2 ∧ r.2 ≤ l.length)
    (Inv : S → Prop) (st : S) (h0 : Inv st)
    (hstep : ∀ (st : S) (k : Nat) (l : List X) (begin j : Nat) (x : X), Inv st → items[k]? = some l → l[j]? = some x →
      ∃ st', load st k (begin + j) begin = .ok (x, st') ∧ Inv st') :
    ∃ ivs, generateIntervals (some roi) 0 0 chunks = .ok ivs ∧ ivs.length = chunks.length ∧ (roiItems items roi).length = (ivs.map Interval.size).sum ∧
      ∀ is : List Nat, (∀ i ∈ is, i < (roiItems items roi).length) →
        ∃ xs, lookupGets load ivs st is = .ok xs ∧ xs.map some = is.map fun i => (roiItems items roi)[i]? := by
  obtain ⟨ivs, h1, h2, h3⟩ := generateIntervals_some roi 0 0 chunks (by omega)
  have hiv : ∀ (j : Nat) (iv : Interval) (r : Nat × Nat), ivs[j]? = some iv → roi[j]? = some r →
      iv.roiStart = iv.chunkStart + r.1 ∧ iv.roiEnd = iv.chunkStart + r.2 := by
    intro j iv r hi hr
    have hj : j < chunks.length := by
      apply Nat.lt_of_not_le; intro h; rw [List.getElem?_eq_none (by omega)] at hi; simp at hi
    have := h3 j chunks[j] (List.getElem?_eq_getElem hj) r (by rw [Nat.zero_add]; exact hr)
    rw [hi] at this
    injection this with this
    rw [this]
    exact ⟨rfl, rfl⟩
  obtain ⟨g1, g2⟩ := roi_samples_items items roi ivs 0 (by omega) (by omega) hiv hroi
  refine ⟨ivs, h1, h2, by rw [g1, datasetSamples_range_length], ?_⟩
  intro is his
  induction is generalizing st with
  | nil => exact ⟨[], rfl, rfl⟩
  | cons i is ih =>
    have hi := his i (by simp)
    have hi' : i < (datasetSamples (List.range ivs.length) ivs).length := by
      rw [List.range_eq_range', ← g1]; exact hi
    have hlook := c15_lookup ivs i hi'
    have hsome : (datasetSamples (List.range' 0 ivs.length) ivs)[i]? =
        some (datasetSamples (List.range ivs.length) ivs)[i] := by
      rw [← List.range_eq_range', List.getElem?_eq_getElem hi']
    generalize (datasetSamples (List.range ivs.length) ivs)[i] = s at hlook hsome
    obtain ⟨iv, c, f1, f2, f3, f4, f5, f6⟩ := g2 i s hsome
    rw [Nat.sub_zero] at f2 f3
    obtain ⟨st', e5, e6⟩ := hstep st s.1 c iv.chunkStart (s.2 - iv.chunkStart) c[s.2 - iv.chunkStart] h0 f3
      (List.getElem?_eq_getElem f5)
    rw [show iv.chunkStart + (s.2 - iv.chunkStart) = s.2 by omega] at e5
    obtain ⟨xs, k1, k2⟩ := ih st' e6 (fun j hj => his j (List.mem_cons_of_mem _ hj))
    refine ⟨c[s.2 - iv.chunkStart] :: xs, ?_, ?_⟩
    · unfold lookupGets
      rw [hlook]
      simp only [f2, e5, k1]
    · rw [List.map_cons, List.map_cons, k2, f6, List.getElem?_eq_getElem f5]

/-! ### The index -/

variable {R : Type}

/-- The entry of a file in the index. -/
def pqInfo (e : PqEntry) (m : PqMeta) : ChunkInfo := ⟨basename e.name, m.numRows, e.data.length, none⟩

theorem pqTask_ok (env : PqEnv R) (kind : PqKind) (e : PqEntry) (b : Bytes) (m : PqMeta) (h1 : e.isFile = true) (h2 : pqFooter kind e.data = .ok b)
    (h3 : env.footer b = .ok m) : pqTask env kind e = .ok (basename e.name, e.data.length, m) := by
  unfold pqTask
  simp [h1, h2, h3]

/-- The metadata that the task finds in a file. -/
def HasMeta (env : PqEnv R) (kind : PqKind) (e : PqEntry) (m : PqMeta) : Prop :=
  pqTask env kind e = .ok (basename e.name, e.data.length, m)

theorem pqTask_inv {env : PqEnv R} {kind : PqKind} {e : PqEntry} {x : String × Nat × PqMeta} (h : pqTask env kind e = .ok x) :
    HasMeta env kind e x.2.2 ∧ x.1 = basename e.name ∧ x.2.1 = e.data.length := by
  unfold HasMeta
  unfold pqTask at h ⊢
  split at h
  · cases h
  · rename_i hf
    rw [if_neg hf]
    split at h
    · cases h
    · split at h
      · cases h
      · rename_i m hm
        injection h with h
        subst h
        simp_all

theorem pqIndexFrom_ok (env : PqEnv R) (kind : PqKind) (m : PqEntry → PqMeta) (ty : List String) (fmt : List String) (hfmt : fmt = [] ∨ fmt = ty)
    (es : List PqEntry) (h : ∀ e ∈ es, HasMeta env kind e (m e) ∧ (m e).columns.map (·.2) = ty) :
    pqIndexFrom env kind fmt es = .ok (es.map fun e => pqInfo e (m e), if es = [] then fmt else ty) := by
  induction es generalizing fmt with
  | nil => rfl
  | cons e es ih =>
    obtain ⟨h1, h2⟩ := h e (by simp)
    unfold pqIndexFrom
    rw [h1]
    simp only [h2]
    rw [if_neg (by rcases hfmt with h | h <;> simp [h]), ih ty (.inr rfl) (fun e he => h e (by simp [he]))]
    simp [pqInfo]

/-- **C55, what is indexed.** If the metadata of every listed file can be read and the column types agree, the index has exactly the listed files in the
order of the listing, each with its name, number of rows and size. -/
theorem c55_index (env : PqEnv R) (kind : PqKind) (dir : List PqEntry) (m : PqEntry → PqMeta) (ty : List String)
    (h : ∀ e ∈ pqListing kind dir, HasMeta env kind e (m e) ∧ (m e).columns.map (·.2) = ty) :
    ∃ fmt, indexParquet env kind dir = .ok ((pqListing kind dir).map fun e => ⟨basename e.name, (m e).numRows, e.data.length, none⟩, fmt) ∧
      (pqListing kind dir ≠ [] → fmt = ty) := by
  refine ⟨_, pqIndexFrom_ok env kind m ty [] (.inl rfl) _ h, ?_⟩
  intro hne
  rw [if_neg hne]

theorem pqIndexFrom_inv (env : PqEnv R) (kind : PqKind) (fmt : List String) (es : List PqEntry) (r : List ChunkInfo × List String)
    (h : pqIndexFrom env kind fmt es = .ok r) :
    (∀ e ∈ es, ∃ m, HasMeta env kind e m) ∧
    ((∀ e ∈ es, ∀ m, HasMeta env kind e m → m.columns ≠ []) → ∀ e ∈ es, ∀ m, HasMeta env kind e m →
      (fmt ≠ [] → m.columns.map (·.2) = fmt) ∧ m.columns.map (·.2) = r.2) := by
  induction es generalizing fmt r with
  | nil => simp
  | cons e es ih =>
    unfold pqIndexFrom at h
    cases ht : pqTask env kind e with
    | error x => rw [ht] at h; cases h
    | ok x =>
      obtain ⟨h1, h2, h3⟩ := pqTask_inv ht
      obtain ⟨name, size, m⟩ := x
      rw [ht] at h
      simp only at h h1 h2 h3
      by_cases hc : fmt ≠ [] ∧ fmt ≠ m.columns.map (·.2)
      · rw [if_pos hc] at h; cases h
      · rw [if_neg hc] at h
        cases hr : pqIndexFrom env kind (m.columns.map (·.2)) es with
        | error x => rw [hr] at h; cases h
        | ok r' =>
          rw [hr] at h
          simp only [Except.ok.injEq] at h
          subst h
          obtain ⟨i1, i2⟩ := ih _ _ hr
          have huniq : ∀ m', HasMeta env kind e m' → m' = m := by
            intro m' hm'
            unfold HasMeta at hm' h1
            rw [h1] at hm'
            simp only [Except.ok.injEq, Prod.mk.injEq, true_and] at hm'
            exact hm'.symm
          refine ⟨?_, ?_⟩
          · intro e' he'
            rcases List.mem_cons.1 he' with rfl | he'
            · exact ⟨m, h1⟩
            · exact i1 e' he'
          · intro hne e' he' m' hm'
            have hm0 := hne e (by simp) m h1
            have hfm : fmt ≠ [] → m.columns.map (·.2) = fmt := by
              intro hf
              apply Classical.byContradiction
              intro hn
              exact hc ⟨hf, fun h => hn h.symm⟩
            have hlast : m.columns.map (·.2) = r'.2 := by
              cases es with
              | nil =>
                simp only [pqIndexFrom, Except.ok.injEq] at hr
                rw [← hr]
              | cons e1 es =>
                obtain ⟨m1, hm1⟩ := i1 e1 (by simp)
                obtain ⟨a, b⟩ := i2 (fun e he => hne e (List.mem_cons_of_mem _ he)) e1 (by simp) m1 hm1
                rw [← b]
                exact (a (by simpa using hm0)).symm
            rcases List.mem_cons.1 he' with rfl | he'
            · rw [huniq m' hm']
              exact ⟨hfm, hlast⟩
            · obtain ⟨a, b⟩ := i2 (fun e he => hne e (List.mem_cons_of_mem _ he)) e' he' m' hm'
              refine ⟨fun hf => ?_, b⟩
              rw [a (by simpa using hm0)]
              exact hfm hf

/-- **C55, what is refused.** If an index is written, the metadata of every listed file was readable, and if all files have columns, their column types
agree with those of the index. -/
theorem c55_consistent (env : PqEnv R) (kind : PqKind) (dir : List PqEntry) (chunks : List ChunkInfo) (fmt : List String)
    (h : indexParquet env kind dir = .ok (chunks, fmt)) :
    (∀ e ∈ pqListing kind dir, ∃ m, HasMeta env kind e m) ∧
    ((∀ e ∈ pqListing kind dir, ∀ m, HasMeta env kind e m → m.columns ≠ []) →
      ∀ e ∈ pqListing kind dir, ∀ m, HasMeta env kind e m → m.columns.map (·.2) = fmt) := by
  obtain ⟨a, b⟩ := pqIndexFrom_inv env kind [] _ _ h
  exact ⟨a, fun hne e he m hm => (b hne e he m hm).2⟩

/-- **C55, listing.** The files indexed are the entries whose name ends in `.parquet`; in a bucket, folders are left out. -/
theorem c55_listing (kind : PqKind) (dir : List PqEntry) (e : PqEntry) :
    e ∈ pqListing kind dir ↔ e ∈ dir ∧ ".parquet".toList <:+ e.name.toList ∧ (kind = .cloud → e.isFile = true) := by
  unfold pqListing
  rw [List.mem_filter, Bool.and_eq_true]
  refine and_congr Iff.rfl (and_congr ?_ ?_)
  · exact List.isSuffixOf_iff_suffix
  · cases kind <;> simp

/-! ### The footer -/

theorem leNat_le4 (n : Nat) (h : n < 2 ^ 32) : leNat (leBytes 4 n) = n := by
  rw [leNat_leBytes]; exact Nat.mod_eq_of_lt h

/-- **C55, footer.** Of a file that ends with a footer, its length and four more bytes, exactly this end is read from remote storage. -/
theorem c55_footer (kind : PqKind) (hk : kind ≠ .local) (body foot magic : Bytes) (hm : magic.length = 4) (hf : foot.length < 2 ^ 32) :
    pqFooter kind (body ++ (foot ++ (leBytes 4 foot.length ++ magic))) = .ok (foot ++ (leBytes 4 foot.length ++ magic)) := by
  have hl : (leBytes 4 foot.length).length = 4 := rfl
  have hlen : (body ++ (foot ++ (leBytes 4 foot.length ++ magic))).length = body.length + foot.length + 8 := by
    simp only [List.length_append, hl, hm]; omega
  unfold pqFooter
  rw [if_neg hk, hlen, if_neg (by omega)]
  have hd : (body ++ (foot ++ (leBytes 4 foot.length ++ magic))).drop (body.length + foot.length + 8 - 8) = leBytes 4 foot.length ++ magic := by
    rw [← List.append_assoc, show body.length + foot.length + 8 - 8 = (body ++ foot).length by rw [List.length_append]; omega, List.drop_left]
  have ht : (leBytes 4 foot.length ++ magic).take 4 = leBytes 4 foot.length := by
    rw [List.take_append_of_le_length (by omega), List.take_of_length_le (by omega)]
  simp only [hd, ht, leNat_le4 _ hf]
  rw [if_neg (by omega), show body.length + foot.length + 8 - foot.length - 8 = body.length by omega, List.drop_left]

/-- `pyarrow` finds the metadata in the end of the file. -/
def ReadsFooter (env : PqEnv R) (data : Bytes) : Prop :=
  ∃ body foot magic, data = body ++ (foot ++ (leBytes 4 foot.length ++ magic)) ∧ magic.length = 4 ∧ foot.length < 2 ^ 32 ∧
    env.footer (foot ++ (leBytes 4 foot.length ++ magic)) = env.footer data

/-- **C55, same metadata.** The metadata of a file is the same whether it is read locally or from remote storage. -/
theorem c55_same_metadata (env : PqEnv R) (kind : PqKind) (e : PqEntry) (h : ReadsFooter env e.data) :
    pqTask env kind e = pqTask env .local e := by
  obtain ⟨body, foot, magic, h1, h2, h3, h4⟩ := h
  by_cases hk : kind = .local
  · rw [hk]
  · unfold pqTask
    have : pqFooter kind e.data = .ok (foot ++ (leBytes 4 foot.length ++ magic)) := by rw [h1]; exact c55_footer kind hk body foot magic h2 h3
    rw [this]
    simp only [pqFooter, if_true, h4]

/-- **C55, upload.** The index sent to the cloud in pieces is the index written. -/
theorem c55_uploaded (n : Nat) (hn : 0 < n) (b : Bytes) (fuel : Nat) (h : b.length ≤ fuel) : (readPieces n fuel b).flatten = b := by
  induction fuel generalizing b with
  | zero => 
    have : b = [] := List.length_eq_zero_iff.1 (by omega)
    subst this; rfl
  | succ fuel ih =>
    unfold readPieces
    split
    · rename_i h0
      cases b with
      | nil => rfl
      | cons x b =>
        cases n with
        | zero => omega
        | succ n => simp at h0
    · rename_i h0
      rw [List.flatten_cons, ih (b.drop n) (by
        rw [List.length_drop]
        have : b ≠ [] := by intro hb; subst hb; simp at h0
        have := List.length_pos_iff.2 this
        omega), List.take_append_drop]

/-! ### Reading -/

/-- Serve the given indices one after the other with one `ParquetLoader`. -/
def parquetGets (low : Bool) (fs : String → Option (ParquetFile R)) (join : String → String) (chunks : List ChunkInfo) (ivs : List Interval) :
    ParquetState R → List Nat → Py (List R)
  | _, [] => .ok []
  | st, i :: is => match parquetGet low fs join chunks ivs st i with
    | .error e => .error e
    | .ok (x, st) => match parquetGets low fs join chunks ivs st is with
      | .error e => .error e
      | .ok xs => .ok (x :: xs)

theorem parquetGets_eq (low : Bool) (fs : String → Option (ParquetFile R)) (join : String → String) (chunks : List ChunkInfo) (ivs : List Interval)
    (hl : ivs.length = chunks.length) (data : Nat → ParquetFile R)
    (hd : ∀ (k : Nat) (c : ChunkInfo), chunks[k]? = some c → fs (join c.filename) = some (data k)) (st : ParquetState R) (is : List Nat) :
    parquetGets low fs join chunks ivs st is = lookupGets (fun st k i b => parquetLoad low (some (data k)) st k i b) ivs st is := by
  induction is generalizing st with
  | nil => rfl
  | cons i is ih =>
    unfold parquetGets lookupGets parquetGet
    cases h : chunkFromIndex ivs i with
    | error e => rfl
    | ok x =>
      obtain ⟨real, k⟩ := x
      simp only [configGet]
      by_cases hk : k < chunks.length
      · have hc := List.getElem?_eq_getElem hk
        rw [hc, List.getElem?_eq_getElem (show k < ivs.length by omega)]
        simp only [hd k _ hc]
        cases parquetLoad low (some (data k)) st k real ivs[k].chunkStart with
        | error e => rfl
        | ok y => simp only [ih]
      · rw [List.getElem?_eq_none (by omega), List.getElem?_eq_none (by omega)]

/-- Loading a row keeps the invariant of the loader. -/
theorem parquetLoad_row (low : Bool) (data : Nat → ParquetFile R) (k : Nat) (hu : low = true → UniformGroups (data k)) (st : ParquetState R)
    (hi : ParquetInv data st) (begin i : Nat) (r : R) (hr : (data k).flatten[i]? = some r) :
    ∃ st', parquetLoad low (some (data k)) st k (begin + i) begin = .ok (r, st') ∧ ParquetInv data st' := by
  have hload : ∃ st', parquetLoad low (some (data k)) st k (begin + i) begin = .ok (r, st') := by
    have hf : some (data k) = fileIf data k true := rfl
    unfold parquetLoad
    rw [if_neg (by omega), Nat.add_sub_cancel_left, hf]
    cases low with
    | true =>
      obtain ⟨n, hn, h1, h2⟩ := hu rfl
      simp only [if_true]
      have hfl := flatten_uniform n hn (data k) h1 h2 i
      rw [hr] at hfl
      cases hd : data k with
      | nil => rw [hd] at hr; simp at hr
      | cons g0 gs =>
        have h0 : (data k)[0]? = some g0 := by rw [hd]; rfl
        have hg0 : g0.length = n ∨ (gs = [] ∧ i < g0.length) := by
          cases gs with
          | nil => right; rw [hd] at hr; simp at hr; exact ⟨rfl, (List.getElem?_eq_some_iff.1 hr).1⟩
          | cons g1 gs => left; exact h1 0 g0 (by rw [hd]; simp) (by rw [hd]; rfl)
        have hpos : 0 < g0.length := by omega
        obtain ⟨st', _, h4⟩ := parquetLow_spec hi k i true g0 h0 hpos (.inr rfl)
        refine ⟨st', ?_⟩
        rw [h4]
        have : ((data k)[i / g0.length]?.bind fun g => g[i % g0.length]?) = some r := by
          rcases hg0 with h | ⟨h, h'⟩
          · rw [h]; exact hfl.symm
          · rw [Nat.div_eq_of_lt h', Nat.mod_eq_of_lt h', h0]
            simp only [Option.bind_some]
            rw [hd, h] at hr
            simpa using hr
        rw [this]
    | false =>
      simp only [Bool.false_eq_true, if_false]
      unfold parquetHigh
      rw [parquet_used hi, if_pos (.inr rfl)]
      simp only [hr]
      exact ⟨_, rfl⟩
  obtain ⟨st', h⟩ := hload
  exact ⟨st', h, parquetLoad_inv (p := true) hi h⟩

/-- **C55, reading.** Let the files listed in a directory have distinct names and equal column types, and let the ones whose name matches the pattern (all,
without a pattern) be in the cache. Then the index is written, the dataset consists of the matching files, and any sequence of indices
reads the rows with these numbers among the rows of the matching files, file after file in the order of the listing; in
low-memory mode for files of uniform row groups. -/
theorem c55_rows_partial (env : PqEnv R) (kind : PqKind) (dir : List PqEntry) (m : PqEntry → PqMeta) (ty : List String)
    (h : ∀ e ∈ pqListing kind dir, HasMeta env kind e (m e) ∧ (m e).columns.map (·.2) = ty)
    (hnames : ((pqListing kind dir).map fun e => basename e.name).Nodup)
    (hrows : ∀ e ∈ pqListing kind dir, (m e).numRows = (env.groups e.data).flatten.length)
    (low : Bool) (hu : low = true → ∀ e ∈ pqListing kind dir, UniformGroups (env.groups e.data))
    (fnmatch : Option (String → Bool)) (sel : List PqEntry)
    (hsel : sel = (pqListing kind dir).filter fun e => fnmatch.all fun f => f (basename e.name)) (hne : sel ≠ [])
    (fs : String → Option (ParquetFile R)) (join : String → String) (hfs : ∀ e ∈ sel, fs (join (basename e.name)) = some (env.groups e.data)) :
    ∃ chunks fmt files ivs, indexParquet env kind dir = .ok (chunks, fmt) ∧ matchingChunks fnmatch chunks = .ok files ∧
      loadSubsampledChunks chunks (files.map (·.filename)) = .ok files ∧
      generateIntervals (some (generateRoi none files)) 0 0 files = .ok ivs ∧
      (ivs.map Interval.size).sum = (sel.flatMap fun e => (env.groups e.data).flatten).length ∧
      ∀ is : List Nat, (∀ i ∈ is, i < (sel.flatMap fun e => (env.groups e.data).flatten).length) →
        ∃ rows, parquetGets low fs join files ivs ParquetState.init is = .ok rows ∧
          rows.map some = is.map fun i => (sel.flatMap fun e => (env.groups e.data).flatten)[i]? := by
  obtain ⟨fmt, h1, _⟩ := c55_index env kind dir m ty h
  have hsub : ∀ e ∈ sel, e ∈ pqListing kind dir := by
    intro e he; rw [hsel] at he; exact (List.mem_filter.1 he).1
  -- the chunks chosen
  have hmatch : matchingChunks fnmatch ((pqListing kind dir).map fun e => pqInfo e (m e)) = .ok (sel.map fun e => pqInfo e (m e)) := by
    unfold matchingChunks
    cases fnmatch with
    | none =>
      simp only [Option.all_none] at hsel
      rw [List.filter_eq_self.2 (by simp)] at hsel
      simp only [← hsel]
      rw [if_neg (by simpa using hne)]
    | some f =>
      simp only [Option.all_some] at hsel
      have : ((pqListing kind dir).map fun e => pqInfo e (m e)).filter (fun c => f c.filename) = sel.map fun e => pqInfo e (m e) := by
        rw [hsel, List.filter_map]
        rfl
      simp only [this]
      rw [if_neg (by simpa using hne)]
  have hload := loadSubsampledChunks_ok ((pqListing kind dir).map fun e => pqInfo e (m e)) (by
    rw [List.map_map]; exact hnames) (sel.map fun e => pqInfo e (m e)) (by
    intro c hc
    obtain ⟨e, he, rfl⟩ := List.mem_map.1 hc
    exact List.mem_map.2 ⟨e, hsub e he, rfl⟩)
  let data : Nat → ParquetFile R := fun k => match sel[k]? with
    | some e => env.groups e.data
    | none => []
  have hdata : ∀ (k : Nat) (e : PqEntry), sel[k]? = some e → data k = env.groups e.data := by
    intro k e he; simp only [data, he]
  have hroi : generateRoi none (sel.map fun e => pqInfo e (m e)) = (sel.map fun e => (env.groups e.data).flatten).map fun l => (0, l.length) := by
    unfold generateRoi
    rw [List.map_map, List.map_map]
    apply List.map_congr_left
    intro e he
    simp only [Function.comp, pqInfo, hrows e (hsub e he)]
  obtain ⟨ivs, g1, g2, g3, g4⟩ := reads_any (fun st k i b => parquetLoad low (some (data k)) st k i b) (sel.map fun e => pqInfo e (m e))
    (sel.map fun e => (env.groups e.data).flatten) (by simp) ((sel.map fun e => (env.groups e.data).flatten).map fun l => (0, l.length)) (by simp) (by
      intro k l r hl hr
      rw [List.getElem?_map, hl, Option.map_some, Option.some.injEq] at hr
      subst hr
      simp) (ParquetInv data) ParquetState.init ⟨(fun _ _ h => by cases h), (fun _ _ _ h => by cases h)⟩ (by
      intro st k l begin j x hi hl hx
      rw [List.getElem?_map, Option.map_eq_some_iff] at hl
      obtain ⟨e, he, rfl⟩ := hl
      refine parquetLoad_row low data k ?_ st hi begin j x ?_
      · intro hlow
        rw [hdata k e he]
        exact hu hlow e (hsub e (List.mem_of_getElem? he))
      · rw [hdata k e he]; exact hx)
  rw [roiItems_whole, ← List.flatMap_def] at g3 g4
  refine ⟨_, fmt, _, ivs, h1, hmatch, hload, by rw [hroi]; exact g1, g3.symm, ?_⟩
  intro is his
  obtain ⟨rows, r1, r2⟩ := g4 is his
  refine ⟨rows, ?_, r2⟩
  rw [parquetGets_eq low fs join _ ivs g2 data ?_, r1]
  intro k c hc
  rw [List.getElem?_map, Option.map_eq_some_iff] at hc
  obtain ⟨e, he, rfl⟩ := hc
  rw [hdata k e he]
  exact hfs e (List.mem_of_getElem? he)

/-! ### A directory -/

/-- Two columns. -/
def demoMeta (n : Nat) : PqMeta := ⟨n, [("a", "int64"), ("b", "string")]⟩

/-- A reader for files whose footer is one byte, the number of rows, and whose rows are numbered from 100 times the first byte. -/
def demoPq : PqEnv Nat where
  footer b := .ok (demoMeta ((b.drop (b.length - 9)).headD 0).toNat)
  groups b :=
    let n := ((b.drop (b.length - 9)).headD 0).toNat
    [(List.range n).map fun i => 100 * (b.headD 0).toNat + i]

/-- A file with a first byte and a number of rows. -/
def demoPqFile (x n : UInt8) : Bytes := [x, 0] ++ ([n] ++ (leBytes 4 1 ++ [80, 65, 82, 49]))

/-- A directory with two parquet files and a text file. -/
def demoPqDir : List PqEntry :=
  [⟨"d/x.parquet", true, demoPqFile 1 2⟩, ⟨"d/readme.md", true, [1]⟩, ⟨"d/y.parquet", true, demoPqFile 2 3⟩, ⟨"d/old.parquet", false, []⟩]

example : pqListing .cloud demoPqDir = [⟨"d/x.parquet", true, demoPqFile 1 2⟩, ⟨"d/y.parquet", true, demoPqFile 2 3⟩] := by decide +kernel

/-- The hypotheses of `c55_rows_partial` hold for this directory in a bucket, with the pattern `y*`: row 2 of the dataset is the last row of `y.parquet`. -/
example : ∃ chunks fmt files ivs, indexParquet demoPq .cloud demoPqDir = .ok (chunks, fmt) ∧
    matchingChunks (some fun n => strStartsWith n "y") chunks = .ok files ∧
    loadSubsampledChunks chunks (files.map (·.filename)) = .ok files ∧ generateIntervals (some (generateRoi none files)) 0 0 files = .ok ivs ∧
    ∃ rows, parquetGets true (fun p => if p = "/c/y.parquet" then some (demoPq.groups (demoPqFile 2 3)) else none) ("/c/" ++ ·) files ivs ParquetState.init [2, 0] =
      .ok rows ∧ rows.map some = [some 202, some 200] := by
  have hl : pqListing .cloud demoPqDir = [⟨"d/x.parquet", true, demoPqFile 1 2⟩, ⟨"d/y.parquet", true, demoPqFile 2 3⟩] := by decide +kernel
  obtain ⟨chunks, fmt, files, ivs, h1, h2, h3, h4, h5, h6⟩ := c55_rows_partial demoPq .cloud demoPqDir
    (fun e => demoMeta ((e.data.drop (e.data.length - 9)).headD 0).toNat) ["int64", "string"] (by
      rw [hl]
      intro e he
      simp only [List.mem_cons, List.not_mem_nil, or_false] at he
      rcases he with rfl | rfl
      · exact ⟨by rfl, by rfl⟩
      · exact ⟨by rfl, by rfl⟩) (by rw [hl]; decide +kernel) (by
      rw [hl]
      intro e he
      simp only [List.mem_cons, List.not_mem_nil, or_false] at he
      rcases he with rfl | rfl <;> rfl) true (by
      rw [hl]
      intro _ e he
      simp only [List.mem_cons, List.not_mem_nil, or_false] at he
      rcases he with rfl | rfl
      · exact ⟨2, by decide, (fun i g hi => by simp [demoPq] at hi), by decide⟩
      · exact ⟨3, by decide, (fun i g hi => by simp [demoPq] at hi), by decide⟩) (some fun n => strStartsWith n "y")
    [⟨"d/y.parquet", true, demoPqFile 2 3⟩] (by rw [hl]; decide +kernel) (by simp)
    (fun p => if p = "/c/y.parquet" then some (demoPq.groups (demoPqFile 2 3)) else none) ("/c/" ++ ·) (by
      intro e he
      rw [List.mem_singleton.1 he]
      decide +kernel)
  refine ⟨chunks, fmt, files, ivs, h1, h2, h3, h4, ?_⟩
  obtain ⟨rows, r1, r2⟩ := h6 [2, 0] (by decide +kernel)
  exact ⟨rows, r1, by rw [r2]; decide +kernel⟩

/-! ### Where the code departs -/

/-- **C55 departs: folders.** A folder whose name ends in `.parquet` makes indexing a local directory or one on the Hugging Face Hub fail, while it is left
out in a bucket. -/
theorem c55_folder : indexParquet demoPq .local demoPqDir = .error .exception ∧ indexParquet demoPq .hf demoPqDir = .error .exception ∧
    ∃ r, indexParquet demoPq .cloud demoPqDir = .ok r := by
  refine ⟨by decide +kernel, by decide +kernel, ?_⟩
  exact ⟨_, by rfl⟩

/-- A reader that finds the given metadata. -/
def metaPq (m : Bytes → PqMeta) : PqEnv Nat := ⟨fun b => .ok (m b), fun _ => []⟩

/-- **C55 departs: column names.** Files whose columns have the same types but other names, or another order of them, are indexed together. -/
theorem c55_other_names : ∃ r, indexParquet (metaPq fun b => if b = [1] then ⟨1, [("width", "int64"), ("height", "int64")]⟩ else ⟨1, [("height", "int64"), ("width", "int64")]⟩)
    .local [⟨"a.parquet", true, [1]⟩, ⟨"b.parquet", true, [2]⟩] = .ok r := ⟨_, by rfl⟩

/-- **C55 departs: no columns.** A file without columns is accepted before files with columns, although the types differ; after them it is refused. -/
theorem c55_no_columns : indexParquet (metaPq fun b => if b = [1] then ⟨0, []⟩ else ⟨1, [("a", "string")]⟩) .local [⟨"a.parquet", true, [1]⟩, ⟨"b.parquet", true, [2]⟩] =
      .ok ([⟨"a.parquet", 0, 1, none⟩, ⟨"b.parquet", 1, 1, none⟩], ["string"]) ∧
    indexParquet (metaPq fun b => if b = [1] then ⟨0, []⟩ else ⟨1, [("a", "string")]⟩) .local [⟨"b.parquet", true, [2]⟩, ⟨"a.parquet", true, [1]⟩] =
      .error .exception := ⟨by decide +kernel, by decide +kernel⟩

/-- **C55 departs: stale index.** Once a Hugging Face dataset has been indexed, its index is used whatever the dataset has become. -/
theorem c55_hf_stale (env : PqEnv R) (old : List ChunkInfo × List String) (dir : List PqEntry) : indexHf env (some old) dir = .ok old ∧
    indexHf env none dir = indexParquet env .hf dir := ⟨rfl, rfl⟩

/-- **C55 departs: storage options.** A bucket can be indexed only without storage options; any option raises `TypeError` before a file is looked at. Local
and Hugging Face directories are indexed as if there were none. -/
theorem c55_storage_options (env : PqEnv R) (options : Option (List String)) (dir : List PqEntry) :
    (options ≠ some [] → indexParquetWith env .cloud options dir = .error .typeError) ∧
    indexParquetWith env .cloud (some []) dir = indexParquet env .cloud dir ∧
    indexParquetWith env .local options dir = indexParquet env .local dir ∧ indexParquetWith env .hf options dir = indexParquet env .hf dir := by
  refine ⟨fun h => ?_, rfl, rfl, rfl⟩
  match options, h with
  | none, _ => rfl
  | some [], h => exact absurd rfl h
  | some (_ :: _), _ => rfl

/-! ### Paths with a pattern -/

/-- **C55, patterns.** A path `dir/pattern` ending in `.parquet` is the directory and the pattern; any other path is the directory. -/
theorem c55_pattern (dir pat : List Char) (hd : dir ≠ []) (hl : dir.getLast? ≠ some '/') (hp : '/' ∉ pat) :
    parquetPattern (String.ofList (dir ++ '/' :: pat)) =
      if ".parquet".toList <:+ (dir ++ '/' :: pat) then (String.ofList dir, some (String.ofList pat)) else (String.ofList (dir ++ '/' :: pat), none) := by
  have hs : osSplit (dir ++ '/' :: pat) = (dir, pat) := by
    have hall : ∀ c ∈ pat.reverse, (c != '/') = true := by
      intro c hc
      simp only [bne_iff_ne, ne_eq]
      intro e; subst e
      exact hp (by simpa using hc)
    have e1 : (dir ++ '/' :: pat).reverse = pat.reverse ++ '/' :: dir.reverse := by simp
    have hr : rstripSlash (dir ++ ['/']) = dir := by
      unfold rstripSlash
      rw [List.reverse_append]
      have : dir.reverse.dropWhile (· == '/') = dir.reverse := by
        cases hc : dir.reverse with
        | nil => rfl
        | cons c l =>
          have : dir.getLast? = some c := by rw [← List.head?_reverse, hc]; rfl
          rw [this] at hl
          rw [List.dropWhile_cons_of_neg]
          simpa using hl
      simp [this]
    unfold osSplit
    rw [e1, List.dropWhile_append_of_pos hall, List.takeWhile_append_of_pos hall]
    simp only [List.dropWhile_cons, List.takeWhile_cons, bne_self_eq_false, Bool.false_eq_true, if_false, List.append_nil, List.reverse_reverse,
      List.reverse_cons, hr, if_neg hd]
  unfold parquetPattern strEndsWith
  have e : (String.ofList (dir ++ '/' :: pat)).toList = dir ++ '/' :: pat := String.toList_ofList
  rw [e, hs]
  by_cases h : ".parquet".toList <:+ (dir ++ '/' :: pat)
  · rw [if_pos h, if_pos (List.isSuffixOf_iff_suffix.2 h)]
  · rw [if_neg h, if_neg (fun h' => h (List.isSuffixOf_iff_suffix.1 h'))]

example : parquetPattern "s3://b/data/part-*.parquet" = ("s3://b/data", some "part-*.parquet") := by decide +kernel

end LitData.Props
