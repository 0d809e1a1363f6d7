import Verif.Lemmas.Config
import Verif.Props.ChunkFile
import Verif.Props.Writer
import Verif.Props.Sample

/-! Property C15: random access by index hits the right sample; and the whole way from samples to
`dataset[i]` (C13). -/

namespace LitData.Props
open LitData Spec

/-- **C15.** Index `i` resolves to the `i`-th sample of the regions of interest, in order. -/
theorem c15_lookup (ivs : List Interval) (i : Nat) (h : i < (datasetSamples (List.range ivs.length) ivs).length) :
    chunkFromIndex ivs i = .ok ((datasetSamples (List.range ivs.length) ivs)[i].2,
      (datasetSamples (List.range ivs.length) ivs)[i].1) := by
  have h' : i < (datasetSamples (List.range' 0 ivs.length) ivs).length := by rw [← List.range_eq_range']; exact h
  have := searchChunk_found ivs 0 0 i h'
  unfold chunkFromIndex
  rw [Nat.zero_add] at this
  rw [this]
  simp only [List.range_eq_range']

/-- **C15.** The number of valid indices is the total size of the regions of interest; every other index,
negative ones included, raises `ValueError`. -/
theorem c15_out_of_range (ivs : List Interval) (i : Int) :
    (datasetSamples (List.range ivs.length) ivs).length = (ivs.map Interval.size).sum ∧
    (i < 0 ∨ ((ivs.map Interval.size).sum : Int) ≤ i → chunkFromIndex ivs i = .error .valueError) := by
  refine ⟨by rw [List.range_eq_range']; exact datasetSamples_range_length 0 ivs, fun h => ?_⟩
  apply searchChunk_missing
  simp only [Nat.zero_add]
  simpa using h

/-- **C15.** Distinct indices resolve to distinct samples. -/
theorem c15_distinct (ivs : List Interval) (i j : Int) (p : Nat × Nat) (hi : chunkFromIndex ivs i = .ok p)
    (hj : chunkFromIndex ivs j = .ok p) : i = j := by
  have key : ∀ i : Int, chunkFromIndex ivs i = .ok p → ∃ n : Nat, i = n ∧
      (datasetSamples (List.range ivs.length) ivs)[n]? = some (p.2, p.1) := by
    intro i h
    have hr := c15_out_of_range ivs i
    by_cases ho : i < 0 ∨ ((ivs.map Interval.size).sum : Int) ≤ i
    · rw [hr.2 ho] at h; simp at h
    · have hlt : i.toNat < (datasetSamples (List.range ivs.length) ivs).length := by rw [hr.1]; omega
      have := c15_lookup ivs i.toNat hlt
      rw [show ((i.toNat : Nat) : Int) = i by omega, h] at this
      refine ⟨i.toNat, by omega, ?_⟩
      rw [List.getElem?_eq_getElem hlt]
      injection this with this
      rw [this]
  obtain ⟨n, rfl, h1⟩ := key i hi
  obtain ⟨m, rfl, h2⟩ := key j hj
  have hnd : (datasetSamples (List.range ivs.length) ivs).Nodup := by
    rw [List.range_eq_range']; exact datasetSamples_range_nodup 0 ivs
  have hn : n < (datasetSamples (List.range ivs.length) ivs).length := by
    apply Nat.lt_of_not_le; intro h; rw [List.getElem?_eq_none h] at h1; simp at h1
  rw [(List.getElem?_inj hn hnd).mp (h1.trans h2.symm)]

/-- The items of the regions of interest, chunk by chunk. -/
def roiItems {X : Type} (items : List (List X)) (roi : List (Nat × Nat)) : List X :=
  (items.zip roi).flatMap fun x => (x.1.drop x.2.1).take (x.2.2 - x.2.1)

theorem roi_samples_items {X : Type} (items : List (List X)) (roi : List (Nat × Nat)) (ivs : List Interval) (k : Nat)
    (hl : items.length = ivs.length) (hl' : roi.length = ivs.length)
    (hiv : ∀ (j : Nat) (iv : Interval) (r : Nat × Nat), ivs[j]? = some iv → roi[j]? = some r → iv.roiStart = iv.chunkStart + r.1 ∧ iv.roiEnd = iv.chunkStart + r.2)
    (hroi : ∀ (j : Nat) (c : List X) (r : Nat × Nat), items[j]? = some c → roi[j]? = some r → r.1 ≤ r.2 ∧ r.2 ≤ c.length) :
    (roiItems items roi).length = (datasetSamples (List.range' k ivs.length) ivs).length ∧
    ∀ (i : Nat) (s : Nat × Nat), (datasetSamples (List.range' k ivs.length) ivs)[i]? = some s →
      ∃ (iv : Interval) (c : List X), k ≤ s.1 ∧ ivs[s.1 - k]? = some iv ∧ items[s.1 - k]? = some c ∧ iv.chunkStart ≤ s.2 ∧
        s.2 - iv.chunkStart < c.length ∧ (roiItems items roi)[i]? = c[s.2 - iv.chunkStart]? := by
  induction ivs generalizing items roi k with
  | nil =>
    match items, roi, hl, hl' with
    | [], [], _, _ => exact ⟨rfl, by simp [datasetSamples]⟩
  | cons iv ivs ih =>
    match items, roi, hl, hl' with
    | c :: items, r :: roi, hl, hl' =>
      have e : datasetSamples (List.range' k (iv :: ivs).length) (iv :: ivs) =
          region k iv.roiStart iv.roiEnd ++ datasetSamples (List.range' (k + 1) ivs.length) ivs := by
        simp [datasetSamples, List.range'_succ]
      have e2 : roiItems (c :: items) (r :: roi) = (c.drop r.1).take (r.2 - r.1) ++ roiItems items roi := by
        simp [roiItems]
      have h0 := hiv 0 iv r rfl rfl
      have h1 := hroi 0 c r rfl rfl
      have hlr := region_length k iv.roiStart iv.roiEnd
      obtain ⟨g1, g2⟩ := ih items roi (k + 1) (by simpa using hl) (by simpa using hl')
        (fun j iv r h h' => hiv (j + 1) iv r (by simpa using h) (by simpa using h'))
        (fun j c r h h' => hroi (j + 1) c r (by simpa using h) (by simpa using h'))
      have hlt : ((c.drop r.1).take (r.2 - r.1)).length = r.2 - r.1 := by
        rw [List.length_take, List.length_drop]; omega
      refine ⟨?_, ?_⟩
      · rw [e, e2, List.length_append, List.length_append, g1, hlr, hlt]; omega
      · intro i s hs
        rw [e] at hs
        rw [e2]
        by_cases hi : i < (region k iv.roiStart iv.roiEnd).length
        · rw [List.getElem?_append_left hi, List.getElem?_eq_getElem hi, region_getElem] at hs
          injection hs with hs
          subst hs
          rw [hlr] at hi
          refine ⟨iv, c, Nat.le_refl _, by simp, by simp, by simp only; omega, by simp only; omega, ?_⟩
          rw [List.getElem?_append_left (by omega), List.getElem?_take_of_lt (by omega), List.getElem?_drop]
          congr 1
          simp only
          omega
        · rw [List.getElem?_append_right (by omega), hlr] at hs
          rw [hlr] at hi
          obtain ⟨iv', c', f1, f2, f3, f4, f5, f6⟩ := g2 _ s hs
          refine ⟨iv', c', by omega, ?_, ?_, f4, f5, ?_⟩
          · rw [show s.1 - k = (s.1 - (k + 1)) + 1 by omega]; simpa using f2
          · rw [show s.1 - k = (s.1 - (k + 1)) + 1 by omega]; simpa using f3
          · rw [← f6, List.getElem?_append_right (by omega), hlt]
            congr 1
            omega

/-- A dataset on disk with its index: chunk `k` has the plain items `items[k]`. -/
structure Stored (enc : Option Encryption) (fs : String → Option Bytes) (join : String → String) (chunks : List ChunkInfo)
    (items : List (List Bytes)) : Prop where
  len : chunks.length = items.length
  files : ∀ (k : Nat) (c : ChunkInfo) (l : List Bytes), chunks[k]? = some c → items[k]? = some l → ∃ nonce,
    fs (join c.filename) = some (writeItems enc nonce l) ∧ c.chunkSize = l.length ∧
    c.chunkBytes ≤ (writeItems enc nonce l).length ∧
    8 + 4 * l.length + ((l.mapIdx fun i x => encryptItem enc (nonce (i + 1)) x).map List.length).sum < 2 ^ 32

/-- Serve the given indices one after the other with one loader. -/
def datasetGets (fs : String → Option Bytes) (join : String → String) (enc : Option Encryption) (cfg : Option EncConfig)
    (chunks : List ChunkInfo) (ivs : List Interval) : PyTreeState → List Nat → Py (List Bytes)
  | _, [] => .ok []
  | st, i :: is => match datasetGet fs join enc cfg chunks ivs st i with
    | .error e => .error e
    | .ok (x, st) => match datasetGets fs join enc cfg chunks ivs st is with
      | .error e => .error e
      | .ok xs => .ok (x :: xs)

/-- **C15, down to the bytes.** For a dataset on disk (plain or encrypted) with regions of interest inside
the chunks, any sequence of indices reads the items with these ranks among the regions of interest. -/
theorem c15_reads (enc : Option Encryption) (hsound : ∀ e, enc = some e → Encryption.Sound e)
    (fs : String → Option Bytes) (join : String → String) (chunks : List ChunkInfo) (items : List (List Bytes))
    (hs : Stored enc fs join chunks items) (roi : List (Nat × Nat)) (hlen : roi.length = chunks.length)
    (hroi : ∀ (k : Nat) (l : List Bytes) (r : Nat × Nat), items[k]? = some l → roi[k]? = some r → r.1 ≤ r.2 ∧ r.2 ≤ l.length) :
    ∃ ivs, generateIntervals (some roi) 0 0 chunks = .ok ivs ∧ (roiItems items roi).length = (ivs.map Interval.size).sum ∧
      ∀ is : List Nat, (∀ i ∈ is, i < (roiItems items roi).length) →
        datasetGets fs join enc (enc.map Encryption.config) chunks ivs PyTreeState.init is =
          .ok (is.map fun i => (roiItems items roi).getD i []) := by
  obtain ⟨ivs, h1, h2, h3⟩ := generateIntervals_some roi 0 0 chunks (by omega)
  have hsl := hs.len
  have hiv : ∀ (j : Nat) (iv : Interval) (r : Nat × Nat), ivs[j]? = some iv → roi[j]? = some r →
      iv.roiStart = iv.chunkStart + r.1 ∧ iv.roiEnd = iv.chunkStart + r.2 := by
    intro j iv r hi hr
    have hj : j < chunks.length := by
      apply Nat.lt_of_not_le; intro h; rw [List.getElem?_eq_none (by omega)] at hi; simp at hi
    have := h3 j chunks[j] (List.getElem?_eq_getElem hj) r (by rw [Nat.zero_add]; exact hr)
    rw [hi] at this
    injection this with this
    rw [this]
    exact ⟨rfl, rfl⟩
  obtain ⟨g1, g2⟩ := roi_samples_items items roi ivs 0 (by omega) (by omega) hiv hroi
  refine ⟨ivs, h1, by rw [g1, datasetSamples_range_length], ?_⟩
  -- the view of the dataset by chunk number
  have hd : OnDisk enc (fun k => (items[k]?).getD []) (fun k => match chunks[k]? with
      | some c => join c.filename
      | none => "") fs := by
    refine ⟨?_⟩
    intro k hk
    cases hi : items[k]? with
    | none => rw [hi] at hk; simp at hk
    | some l =>
      have hkl : k < chunks.length := by
        apply Nat.lt_of_not_le; intro h; rw [List.getElem?_eq_none (by omega)] at hi; simp at hi
      obtain ⟨nonce, f1, _, _, f4⟩ := hs.files k chunks[k] l (List.getElem?_eq_getElem hkl) hi
      refine ⟨nonce, ?_, f4⟩
      simp only [List.getElem?_eq_getElem hkl, Option.getD_some]
      exact f1
  intro is his
  have h0 : LoaderOk enc (fun k => (items[k]?).getD []) (fun k => match chunks[k]? with
      | some c => join c.filename
      | none => "") fs PyTreeState.init := ⟨by simp [PyTreeState.init], by simp [PyTreeState.init]⟩
  generalize PyTreeState.init = st at h0 ⊢
  induction is generalizing st with
  | nil => rfl
  | cons i is ih =>
    have hi := his i (by simp)
    have hi' : i < (datasetSamples (List.range ivs.length) ivs).length := by
      rw [List.range_eq_range', ← g1]; exact hi
    have hlook := c15_lookup ivs i hi'
    have hsome : (datasetSamples (List.range' 0 ivs.length) ivs)[i]? =
        some (datasetSamples (List.range ivs.length) ivs)[i] := by
      rw [← List.range_eq_range', List.getElem?_eq_getElem hi']
    generalize (datasetSamples (List.range ivs.length) ivs)[i] = s at hlook hsome
    obtain ⟨iv, c, f1, f2, f3, f4, f5, f6⟩ := g2 i s hsome
    rw [Nat.sub_zero] at f2 f3
    have hk : s.1 < chunks.length := by
      apply Nat.lt_of_not_le; intro h; rw [List.getElem?_eq_none (by omega)] at f2; simp at f2
    have hci := List.getElem?_eq_getElem hk
    obtain ⟨nonce, e1, e2, e3, e4⟩ := hs.files s.1 chunks[s.1] c hci f3
    obtain ⟨st', e5, e6⟩ := serve_step enc (fun k => (items[k]?).getD []) (fun e he => ⟨fun _ n k _ => hsound e he n _, fun _ n k x _ => hsound e he n x⟩) (fun k => match chunks[k]? with
        | some c => join c.filename
        | none => "") fs hd (fun k => match chunks[k]? with
        | some c => match fs (join c.filename) with
          | some file => min c.chunkBytes file.length
          | none => 0
        | none => 0) (by
          intro k file hf
          cases hck : chunks[k]? with
          | none => exact Nat.zero_le _
          | some c' =>
            simp only [hck] at hf ⊢
            rw [hf]
            exact Nat.min_le_right _ _) st h0 ⟨s.1, s.2 - iv.chunkStart, iv.chunkStart⟩ (by
          simp only [f3, Option.getD_some]; exact f5)
    simp only [hci, e1, Nat.min_eq_left e3] at e5
    rw [show iv.chunkStart + (s.2 - iv.chunkStart) = s.2 by omega] at e5
    have hget : datasetGet fs join enc (enc.map Encryption.config) chunks ivs st (i : Int) = .ok ((roiItems items roi).getD i [], st') := by
      unfold datasetGet
      rw [hlook]
      simp only
      unfold configGet
      rw [hci, f2]
      simp only
      rw [e5]
      congr 2
      rw [List.getD_eq_getElem?_getD, f6]
      simp only [f3, Option.getD_some]
      rw [List.getElem?_eq_getElem f5, Option.getD_some]
    unfold datasetGets
    rw [hget]
    simp only
    rw [ih (fun j hj => his j (List.mem_cons_of_mem _ hj)) st' e6]
    rfl

/-- **`len(cache)` counts the chunks, not the regions of interest**: after subsampling it is larger than
the number of valid indices. -/
theorem c15_cache_length_overcounts :
    ∃ ivs, generateIntervals (some [(0, 2), (1, 2)]) 0 0 [⟨"a", 5, 0, none⟩, ⟨"b", 5, 0, none⟩] = .ok ivs ∧
      configLength ivs = 10 ∧ (ivs.map Interval.size).sum = 3 ∧ chunkFromIndex ivs 3 = .error .valueError :=
  ⟨[⟨0, 0, 2, 5⟩, ⟨5, 6, 7, 10⟩], rfl, rfl, rfl, rfl⟩

/-- Without regions of interest the length is the number of samples. -/
theorem c15_length (cs : List ChunkInfo) (ivs : List Interval) (h : generateIntervals none 0 0 cs = .ok ivs) :
    configLength ivs = (cs.map (·.chunkSize)).sum ∧ (ivs.map Interval.size).sum = (cs.map (·.chunkSize)).sum := by
  rw [generateIntervals_none] at h
  injection h with h
  have hsz : ivs.map Interval.size = cs.map (·.chunkSize) := by
    rw [← h]
    apply List.ext_getElem
    · simp
    · intro i _ _
      simp only [List.getElem_map, List.getElem_mapIdx, Interval.size]
      omega
  refine ⟨?_, by rw [hsz]⟩
  unfold configLength
  rw [← h]
  rcases List.eq_nil_or_concat cs with rfl | ⟨r, c, rfl⟩
  · rfl
  · rw [List.concat_eq_append, List.mapIdx_append, List.getLast?_append]
    simp [chunkBegin]

/-- The example of the comment in the code: intervals (0,5,10,10) and (10,10,20,20). -/
example : chunkFromIndex [⟨0, 5, 10, 10⟩, ⟨10, 10, 20, 20⟩] 4 = .ok (9, 0) ∧
    chunkFromIndex [⟨0, 5, 10, 10⟩, ⟨10, 10, 20, 20⟩] 5 = .ok (10, 1) ∧
    chunkFromIndex [⟨0, 5, 10, 10⟩, ⟨10, 10, 20, 20⟩] (-1) = .error .valueError := ⟨rfl, rfl, rfl⟩

/-- Two chunks on disk. -/
def storedItems : List (List Bytes) := [[[1, 2], [3]], [[4, 5, 6]]]

/-- Their entries in the index. -/
def storedChunks : List ChunkInfo := [⟨"a", 2, (writeItems none (fun _ => 0) [[1, 2], [3]]).length, none⟩,
  ⟨"b", 1, (writeItems none (fun _ => 0) [[4, 5, 6]]).length, none⟩]

/-- Their files. -/
def storedFiles (name : String) : Option Bytes :=
  if name = "a" then some (writeItems none (fun _ => 0) [[1, 2], [3]])
  else if name = "b" then some (writeItems none (fun _ => 0) [[4, 5, 6]]) else none

/-- The assumptions of `c15_reads` hold for them. -/
theorem storedExample : Stored none storedFiles id storedChunks storedItems := by
  refine ⟨rfl, fun k c l hc hl => ⟨fun _ => 0, ?_⟩⟩
  match k with
  | 0 => cases hc; cases hl; exact ⟨rfl, rfl, Nat.le_refl _, by decide⟩
  | 1 => cases hc; cases hl; exact ⟨rfl, rfl, Nat.le_refl _, by decide⟩
  | k + 2 => cases hc

example : datasetGets storedFiles id none none storedChunks [⟨0, 1, 2, 2⟩, ⟨2, 2, 3, 3⟩] PyTreeState.init [1, 0]
    = .ok [[4, 5, 6], [3]] := by decide +kernel

end LitData.Props
