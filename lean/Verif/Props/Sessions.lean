import Verif.Spec.Sessions
import Verif.Lemmas.Splits
import Verif.Props.Subsample

/-! Property C78: several datasets in one process do not disturb each other. -/

namespace LitData.Props
open LitData Spec

/-- One access of a dataset on disk by an item loader in any good state. -/
theorem datasetGet_step (enc : Option Encryption) (hsound : ∀ e, enc = some e → Encryption.Sound e)
    (fs : String → Option Bytes) (join : String → String) (chunks : List ChunkInfo) (items : List (List Bytes))
    (hs : Stored enc fs join chunks items) (roi : List (Nat × Nat)) (hlen : roi.length = chunks.length)
    (hroi : ∀ (k : Nat) (l : List Bytes) (r : Nat × Nat), items[k]? = some l → roi[k]? = some r → r.1 ≤ r.2 ∧ r.2 ≤ l.length) (ivs : List Interval)
    (hgen : generateIntervals (some roi) 0 0 chunks = .ok ivs) (st : PyTreeState)
    (h0 : LoaderOk enc (fun k => (items[k]?).getD []) (fun k => match chunks[k]? with
      | some c => join c.filename
      | none => "") fs st) :
    (roiItems items roi).length = (ivs.map Interval.size).sum ∧
    ∀ i, i < (roiItems items roi).length → ∃ st', datasetGet fs join enc (enc.map Encryption.config) chunks ivs st (i : Int) = .ok ((roiItems items roi).getD i [], st') ∧
      LoaderOk enc (fun k => (items[k]?).getD []) (fun k => match chunks[k]? with
      | some c => join c.filename
      | none => "") fs st' := by
  obtain ⟨ivs', h1, h2, h3⟩ := generateIntervals_some roi 0 0 chunks (by omega)
  rw [hgen] at h1
  cases h1
  have hsl := hs.len
  have hiv : ∀ (j : Nat) (iv : Interval) (r : Nat × Nat), ivs[j]? = some iv → roi[j]? = some r →
      iv.roiStart = iv.chunkStart + r.1 ∧ iv.roiEnd = iv.chunkStart + r.2 := by
    intro j iv r hi hr
    have hj : j < chunks.length := by
      apply Nat.lt_of_not_le; intro h; rw [List.getElem?_eq_none (by omega)] at hi; simp at hi
    have := h3 j chunks[j] (List.getElem?_eq_getElem hj) r (by rw [Nat.zero_add]; exact hr)
    rw [hi] at this
    injection this with this
    rw [this]
    exact ⟨rfl, rfl⟩
  obtain ⟨g1, g2⟩ := roi_samples_items items roi ivs 0 (by omega) (by omega) hiv hroi
  refine ⟨by rw [g1, datasetSamples_range_length], ?_⟩
  have hd : OnDisk enc (fun k => (items[k]?).getD []) (fun k => match chunks[k]? with
      | some c => join c.filename
      | none => "") fs := by
    refine ⟨?_⟩
    intro k hk
    cases hi : items[k]? with
    | none => rw [hi] at hk; simp at hk
    | some l =>
      have hkl : k < chunks.length := by
        apply Nat.lt_of_not_le; intro h; rw [List.getElem?_eq_none (by omega)] at hi; simp at hi
      obtain ⟨nonce, f1, _, _, f4⟩ := hs.files k chunks[k] l (List.getElem?_eq_getElem hkl) hi
      refine ⟨nonce, ?_, f4⟩
      simp only [List.getElem?_eq_getElem hkl, Option.getD_some]
      exact f1
  intro i hi
  have hi' : i < (datasetSamples (List.range ivs.length) ivs).length := by
    rw [List.range_eq_range', ← g1]; exact hi
  have hlook := c15_lookup ivs i hi'
  have hsome : (datasetSamples (List.range' 0 ivs.length) ivs)[i]? =
      some (datasetSamples (List.range ivs.length) ivs)[i] := by
    rw [← List.range_eq_range', List.getElem?_eq_getElem hi']
  generalize (datasetSamples (List.range ivs.length) ivs)[i] = s at hlook hsome
  obtain ⟨iv, c, f1, f2, f3, f4, f5, f6⟩ := g2 i s hsome
  rw [Nat.sub_zero] at f2 f3
  have hk : s.1 < chunks.length := by
    apply Nat.lt_of_not_le; intro h; rw [List.getElem?_eq_none (by omega)] at f2; simp at f2
  have hci := List.getElem?_eq_getElem hk
  obtain ⟨nonce, e1, e2, e3, e4⟩ := hs.files s.1 chunks[s.1] c hci f3
  obtain ⟨st', e5, e6⟩ := serve_step enc (fun k => (items[k]?).getD []) (fun e he => ⟨fun _ n k _ => hsound e he n _, fun _ n k x _ => hsound e he n x⟩) (fun k => match chunks[k]? with
      | some c => join c.filename
      | none => "") fs hd (fun k => match chunks[k]? with
      | some c => match fs (join c.filename) with
        | some file => min c.chunkBytes file.length
        | none => 0
      | none => 0) (by
        intro k file hf
        cases hck : chunks[k]? with
        | none => exact Nat.zero_le _
        | some c' =>
          simp only [hck] at hf ⊢
          rw [hf]
          exact Nat.min_le_right _ _) st h0 ⟨s.1, s.2 - iv.chunkStart, iv.chunkStart⟩ (by
        simp only [f3, Option.getD_some]; exact f5)
  simp only [hci, e1, Nat.min_eq_left e3] at e5
  rw [show iv.chunkStart + (s.2 - iv.chunkStart) = s.2 by omega] at e5
  refine ⟨st', ?_, e6⟩
  unfold datasetGet
  rw [hlook]
  simp only
  unfold configGet
  rw [hci, f2]
  simp only
  rw [e5]
  congr 2
  rw [List.getD_eq_getElem?_getD, f6]
  simp only [f3, Option.getD_some]
  rw [List.getElem?_eq_getElem f5, Option.getD_some]

/-- The dataset is encrypted chunk by chunk. -/
def DsObj.ChunkLevel {V : Type} (ds : DsObj V) : Prop := ∃ e, ds.enc = some e ∧ e.level = .chunk

/-- The dataset reads with this item loader, or will. -/
def DsObj.Uses {V : Type} (ds : DsObj V) (l : Nat) : Prop := ds.given = some l ∨ ∃ c, ds.cache = some c ∧ c.loader = l

/-- The dataset is what the list of its samples says: its directory is on disk with the encryption of the dataset, its files are in the index, its regions in
the files. -/
structure OnDir {V : Type} (fs : String → Option Bytes) (content : String → List Bytes) (ds : DsObj V) (r : RefDs V) : Prop where
  dir : ds.dir = r.dir
  names : (ds.dir.original.map (·.filename)).Nodup
  sound : ∀ e, ds.enc = some e → Encryption.Sound e
  cfg : ds.dir.cfg = ds.enc.map Encryption.config
  stored : Stored ds.enc fs ds.dir.join ds.dir.original (ds.dir.original.map fun c => content (ds.dir.join c.filename))
  files : ds.files = r.sel.map (·.filename)
  known : ∀ c ∈ r.sel, c ∈ ds.dir.original
  roi : ds.roi = r.roi
  len : r.sel.length = r.roi.length
  inside : ∀ x ∈ r.sel.zip r.roi, x.2.1 ≤ x.2.2 ∧ x.2.2 ≤ (content (ds.dir.join x.1.filename)).length

theorem OnDir.storedSel {V : Type} {fs : String → Option Bytes} {content : String → List Bytes} {ds : DsObj V} {r : RefDs V}
    (h : OnDir fs content ds r) : Stored ds.enc fs ds.dir.join r.sel (r.sel.map fun c => content (ds.dir.join c.filename)) := by
  refine ⟨by simp, fun k c l hk hl => ?_⟩
  rw [List.getElem?_map, hk] at hl
  injection hl with hl
  subst hl
  obtain ⟨j, hj⟩ := List.getElem?_of_mem (h.known c (List.mem_of_getElem? hk))
  exact h.stored.files j c _ hj (by simp [hj])

theorem OnDir.samples_eq {V : Type} {fs : String → Option Bytes} {content : String → List Bytes} {ds : DsObj V} {r : RefDs V}
    (h : OnDir fs content ds r) : r.samples content = roiItems (r.sel.map fun c => content (ds.dir.join c.filename)) r.roi := by
  have := roiItems_regionSamples (fun f => content (ds.dir.join f)) r.sel r.roi h.inside
  rw [this, RefDs.samples, h.dir]
  rfl

theorem OnDir.regions {V : Type} {fs : String → Option Bytes} {content : String → List Bytes} {ds : DsObj V} {r : RefDs V}
    (h : OnDir fs content ds r) (k : Nat) (l : List Bytes) (q : Nat × Nat)
    (hl : (r.sel.map fun c => content (ds.dir.join c.filename))[k]? = some l) (hq : r.roi[k]? = some q) : q.1 ≤ q.2 ∧ q.2 ≤ l.length := by
  rw [List.getElem?_map, Option.map_eq_some_iff] at hl
  obtain ⟨c, hc, rfl⟩ := hl
  exact h.inside (c, q) (List.mem_of_getElem? (i := k) (by rw [List.getElem?_zip_eq_some]; exact ⟨hc, hq⟩))

/-- The state of the item loaders is right for the datasets that use them. -/
structure SessInv {V : Type} (fs : String → Option Bytes) (content : String → List Bytes) (P : Nat → Prop) (w : World V) (rs : List (RefDs V)) : Prop where
  len : w.datasets.length = rs.length
  onDir : ∀ (d : Nat) ds r, w.datasets[d]? = some ds → rs[d]? = some r → OnDir fs content ds r
  range : ∀ (d : Nat) ds l, w.datasets[d]? = some ds → DsObj.Uses ds l → l < w.loaders.length
  cached : ∀ (d : Nat) ds r c, w.datasets[d]? = some ds → rs[d]? = some r → ds.cache = some c → c.chunks = r.sel ∧ generateIntervals (some r.roi) 0 0 r.sel = .ok c.ivs ∧
    (∀ l, ds.given = some l → c.loader = l) ∧ ∃ o, w.loaders[c.loader]? = some o ∧ o.cfg = ds.dir.cfg ∧ o.deser = ds.dir.deser
  handle : ∀ (l : Nat) o, w.loaders[l]? = some o → ∀ p, o.st.path = some p → o.st.handle = fs p
  dec : ∀ (d : Nat) ds r l o, w.datasets[d]? = some ds → rs[d]? = some r → DsObj.ChunkLevel ds → DsObj.Uses ds l → w.loaders[l]? = some o → ∀ k b, o.st.decrypted = some (k, b) →
    b = chunkBytes (((r.sel.map fun c => content (ds.dir.join c.filename))[k]?).getD [])
  share : ∀ (d e : Nat) ds es l, d ≠ e → w.datasets[d]? = some ds → w.datasets[e]? = some es → DsObj.Uses ds l → DsObj.Uses es l →
    ds.dir.cfg = es.dir.cfg ∧ ds.dir.deser = es.dir.deser ∧ ¬ DsObj.ChunkLevel ds
  splits : ∀ (d : Nat) ds r, P d → w.datasets[d]? = some ds → rs[d]? = some r → r.sel.Sublist ds.dir.original ∧ (DsObj.ChunkLevel ds → ds.given = none)
  later : ∀ d, P d → d < w.datasets.length

theorem loaderFor_spec {V : Type} (w : World V) (g : Option Nat) (hg : ∀ l, g = some l → l < w.loaders.length) :
    (w.loaderFor g).2 < (w.loaderFor g).1.length ∧ w.loaders.length ≤ (w.loaderFor g).1.length ∧
    (∀ l, l < w.loaders.length → (w.loaderFor g).1[l]? = w.loaders[l]?) ∧ (∀ l, g = some l → (w.loaderFor g).2 = l) ∧
    (g = none → (w.loaderFor g).2 = w.loaders.length) ∧
    (∀ l, w.loaders.length ≤ l → ∀ o, (w.loaderFor g).1[l]? = some o → o = LoaderObj.init) := by
  unfold World.loaderFor
  cases g with
  | some l =>
    refine ⟨hg l rfl, Nat.le_refl _, fun _ _ => rfl, fun l' h => by injection h, by simp, ?_⟩
    intro l h o ho
    rw [List.getElem?_eq_none (by exact h)] at ho
    simp at ho
  | none =>
    refine ⟨by simp, by simp, fun l h => by simp [List.getElem?_append_left h], by simp, by simp, ?_⟩
    intro l h o ho
    simp only [List.getElem?_append_right h] at ho
    cases hk : l - w.loaders.length with
    | zero => rw [hk] at ho; simp at ho; exact ho.symm
    | succ n => rw [hk] at ho; simp at ho

theorem ensureOpen_inv {V : Type} (fs : String → Option Bytes) (content : String → List Bytes) (P : Nat → Prop) (w : World V) (rs : List (RefDs V))
    (hi : SessInv fs content P w rs) (d : Nat) (ds : DsObj V) (r : RefDs V) (hd : w.datasets[d]? = some ds) (hr : rs[d]? = some r) :
    ∃ w' c, w.ensureOpen d = .ok (w', ds, c) ∧ SessInv fs content P w' rs ∧ w'.datasets[d]? = some { ds with cache := some c } := by
  have hon := hi.onDir d ds r hd hr
  unfold World.ensureOpen
  simp only [hd]
  cases hc : ds.cache with
  | some c =>
    refine ⟨w, c, rfl, hi, ?_⟩
    rw [hd]
    congr 1
    cases ds
    simp only at hc
    subst hc
    rfl
  | none =>
    have hload : loadSubsampledChunks ds.dir.original ds.files = .ok r.sel := by
      rw [hon.files]
      exact loadSubsampledChunks_ok _ hon.names _ hon.known
    obtain ⟨ivs, hgen, _, _⟩ := generateIntervals_some r.roi 0 0 r.sel (by have := hon.len; omega)
    have hgen' : generateIntervals (some ds.roi) 0 0 r.sel = .ok ivs := by rw [hon.roi]; exact hgen
    simp only [hload, hgen']
    obtain ⟨k1, k2, k3, k4, k5, k6⟩ := loaderFor_spec w ds.given (fun l h => hi.range d ds l hd (Or.inl h))
    generalize hL : (w.loaderFor ds.given).2 = L at *
    generalize hS : (w.loaderFor ds.given).1 = S at *
    refine ⟨_, _, rfl, ?_, ?_⟩
    · have hdl : d < w.datasets.length := (List.getElem?_eq_some_iff.1 hd).1
      -- the datasets afterwards
      have hget : ∀ e (es : DsObj V), (w.datasets.set d { ds with cache := some ⟨L, r.sel, ivs⟩ })[e]? = some es →
          (e = d ∧ es = { ds with cache := some ⟨L, r.sel, ivs⟩ }) ∨ (e ≠ d ∧ w.datasets[e]? = some es) := by
        intro e es he
        rw [List.getElem?_set] at he
        split at he
        · rename_i h
          injection he with he
          exact Or.inl ⟨h.symm, he.symm⟩
        · rename_i h
          exact Or.inr ⟨fun h' => h h'.symm, he⟩
      have hload : ∀ (l : Nat) (o : LoaderObj V), (S.modify L fun o => o.setup ds.dir)[l]? = some o →
          ∃ o', S[l]? = some o' ∧ o.st = o'.st ∧ (l ≠ L → o = o') ∧ (l = L → o.cfg = ds.dir.cfg ∧ o.deser = ds.dir.deser) := by
        intro l o ho
        rw [List.getElem?_modify, Option.map_eq_map, Option.map_eq_some_iff] at ho
        obtain ⟨o', h1, h2⟩ := ho
        refine ⟨o', h1, ?_, ?_, ?_⟩
        · rw [← h2]; split <;> rfl
        · intro hne; rw [← h2, if_neg (fun h => hne h.symm)]
        · intro he; rw [← h2, if_pos he.symm]; exact ⟨rfl, rfl⟩
      have hstate : ∀ (l : Nat) (o : LoaderObj V), S[l]? = some o → w.loaders[l]? = some o ∨ o = LoaderObj.init := by
        intro l o ho
        by_cases hl : l < w.loaders.length
        · left; rw [← k3 l hl]; exact ho
        · right; exact k6 l (by omega) o ho
      -- who uses the loader of this dataset
      have huse : ∀ e (es : DsObj V) l, e ≠ d → w.datasets[e]? = some es → DsObj.Uses es l → l = L → DsObj.Uses ds l := by
        intro e es l hne he hu hl
        cases hg : ds.given with
        | none =>
          have h1 := hi.range e es l he hu
          have h2 := k5 hg
          omega
        | some g => left; rw [hg]; congr 1; have := k4 g hg; omega
      have hu2 : ∀ l, DsObj.Uses { ds with cache := some ⟨L, r.sel, ivs⟩ } l → l = L := by
        intro l hu
        rcases hu with hu | ⟨c, hc1, hc2⟩
        · exact (k4 l hu).symm
        · injection hc1 with hc1; subst hc1; exact hc2.symm
      constructor
      · simp only [List.length_set]; exact hi.len
      · intro e es q he hq
        rcases hget e es he with ⟨rfl, rfl⟩ | ⟨hne, he⟩
        · rw [hr] at hq; cases hq; exact ⟨hon.dir, hon.names, hon.sound, hon.cfg, hon.stored, hon.files, hon.known, hon.roi, hon.len, hon.inside⟩
        · exact hi.onDir e es q he hq
      · intro e es l he hu
        simp only [List.length_modify]
        rcases hget e es he with ⟨rfl, rfl⟩ | ⟨hne, he⟩
        · rw [hu2 l hu]; exact k1
        · have := hi.range e es l he hu; omega
      · intro e es q c he hq hc'
        rcases hget e es he with ⟨rfl, rfl⟩ | ⟨hne, he⟩
        · rw [hr] at hq; cases hq
          simp only at hc'
          injection hc' with hc'
          subst hc'
          refine ⟨rfl, hgen, fun l hl => k4 l hl, ?_⟩
          refine ⟨_, List.getElem?_eq_getElem (by simp only [List.length_modify]; exact k1), ?_⟩
          obtain ⟨o', _, _, _, h4⟩ := hload L _ (List.getElem?_eq_getElem (by simp only [List.length_modify]; exact k1))
          exact h4 rfl
        · obtain ⟨g1, g2, g3, o, g4, g5, g6⟩ := hi.cached e es q c he hq hc'
          refine ⟨g1, g2, g3, ?_⟩
          have hcl : c.loader < w.loaders.length := hi.range e es _ he (Or.inr ⟨c, hc', rfl⟩)
          have hlt : c.loader < (S.modify L fun o => o.setup ds.dir).length := by simp only [List.length_modify]; omega
          refine ⟨_, List.getElem?_eq_getElem hlt, ?_⟩
          obtain ⟨o', h1, h2, h3, h4⟩ := hload _ _ (List.getElem?_eq_getElem hlt)
          by_cases hLc : c.loader = L
          · have hsh := hi.share d e ds es c.loader (fun h => hne h.symm) hd he (huse e es _ hne he (Or.inr ⟨c, hc', rfl⟩) hLc) (Or.inr ⟨c, hc', rfl⟩)
            obtain ⟨h5, h6⟩ := h4 hLc
            exact ⟨h5.trans hsh.1, h6.trans hsh.2.1⟩
          · rw [h3 hLc]
            rw [k3 _ hcl, g4] at h1
            cases h1
            exact ⟨g5, g6⟩
      · intro l o ho p hp
        obtain ⟨o', h1, h2, _⟩ := hload l o ho
        rw [h2] at hp ⊢
        rcases hstate l o' h1 with h | h
        · exact hi.handle l o' h p hp
        · subst h; simp [LoaderObj.init, PyTreeState.init] at hp
      · intro e es q l o he hq hcl hu ho k b hb
        obtain ⟨o', h1, h2, _⟩ := hload l o ho
        rw [h2] at hb
        rcases hstate l o' h1 with h | h
        · rcases hget e es he with ⟨rfl, rfl⟩ | ⟨hne, he⟩
          · rw [hr] at hq; cases hq
            have hl := hu2 l hu
            have hlt : l < w.loaders.length := (List.getElem?_eq_some_iff.1 h).1
            have hu' : DsObj.Uses ds l := by
              cases hg : ds.given with
              | none => have := k5 hg; omega
              | some g => left; rw [hg]; congr 1; have := k4 g hg; omega
            exact hi.dec e ds r l o' hd hr hcl hu' h k b hb
          · exact hi.dec e es q l o' he hq hcl hu h k b hb
        · subst h; simp [LoaderObj.init, PyTreeState.init] at hb
      · intro a b as bs l hab ha hb hua hub
        rcases hget a as ha with ⟨rfl, rfl⟩ | ⟨hna, ha'⟩
        · rcases hget b bs hb with ⟨rfl, rfl⟩ | ⟨hnb, hb⟩
          · exact absurd rfl hab
          · exact hi.share a b ds bs l hab hd hb (huse b bs l hnb hb hub (hu2 l hua)) hub
        · rcases hget b bs hb with ⟨rfl, rfl⟩ | ⟨hnb, hb⟩
          · exact hi.share a b as ds l hab ha' hd hua (huse a as l hna ha' hua (hu2 l hub))
          · exact hi.share a b as bs l hab ha' hb hua hub
      · intro e es q hP he hq
        rcases hget e es he with ⟨rfl, rfl⟩ | ⟨hne, he⟩
        · rw [hr] at hq; cases hq; exact hi.splits e ds r hP hd hr
        · exact hi.splits e es q hP he hq
      · intro e hP; simp only [List.length_set]; exact hi.later e hP
    · simp only
      rw [List.getElem?_set, if_pos rfl, if_pos (List.getElem?_eq_some_iff.1 hd).1]

theorem get_step {V : Type} (fs : String → Option Bytes) (content : String → List Bytes) (P : Nat → Prop) (w : World V) (rs : List (RefDs V))
    (hi : SessInv fs content P w rs) (d : Nat) (r : RefDs V) (hr : rs[d]? = some r) (i : Int) :
    (i < 0 ∨ (r.samples content).length ≤ i → w.get fs d i = .error .valueError) ∧
    ∀ n : Nat, i = n → n < (r.samples content).length →
      (∀ e, r.dir.deser ((r.samples content).getD n []) = .error e → w.get fs d i = .error e) ∧
      (∀ v, r.dir.deser ((r.samples content).getD n []) = .ok v → ∃ w', w.get fs d i = .ok (v, w') ∧ SessInv fs content P w' rs) := by
  have hdl : d < w.datasets.length := by rw [hi.len]; exact (List.getElem?_eq_some_iff.1 hr).1
  obtain ⟨w1, c, h1, hi1, hds⟩ := ensureOpen_inv fs content P w rs hi d _ r (List.getElem?_eq_getElem hdl) hr
  generalize w.datasets[d] = ds at h1 hds
  have hon := hi1.onDir d _ r hds hr
  obtain ⟨g1, g2, g3, o, g4, g5, g6⟩ := hi1.cached d _ r c hds hr rfl
  have huse : DsObj.Uses { ds with cache := some c } c.loader := Or.inr ⟨c, rfl, rfl⟩
  have hlo : LoaderOk ds.enc (fun k => ((r.sel.map fun c => content (ds.dir.join c.filename))[k]?).getD []) (fun k => match r.sel[k]? with
      | some c => ds.dir.join c.filename
      | none => "") fs o.st := by
    refine ⟨hi1.handle _ o g4, ?_⟩
    intro e k b he hlv hb
    exact hi1.dec d _ r c.loader o hds hr ⟨e, he, hlv⟩ huse g4 k b hb
  obtain ⟨s1, s2⟩ := datasetGet_step ds.enc hon.sound fs ds.dir.join r.sel _ hon.storedSel r.roi hon.len.symm hon.regions c.ivs g2 o.st hlo
  have hsam := hon.samples_eq
  have hcfg : o.cfg = ds.enc.map Encryption.config := g5.trans hon.cfg
  have hdir : ds.dir = r.dir := hon.dir
  refine ⟨?_, ?_⟩
  · intro hout
    unfold World.get
    rw [h1]
    simp only [g4]
    have hno : chunkFromIndex c.ivs i = .error .valueError := by
      apply (c15_out_of_range c.ivs i).2
      rw [hsam, s1] at hout
      exact hout
    unfold datasetGet
    rw [hno]
  · rintro n rfl hn
    rw [hsam] at hn
    obtain ⟨st', e1, e2⟩ := s2 n hn
    have hval : (roiItems (r.sel.map fun c => content (ds.dir.join c.filename)) r.roi).getD n [] = (r.samples content).getD n [] := by rw [hsam]
    rw [hval] at e1
    have hget : ∀ y, r.dir.deser ((r.samples content).getD n []) = y →
        w.get fs d (n : Int) = match y with
        | .error e => .error e
        | .ok v => .ok (v, { w1 with loaders := w1.loaders.set c.loader { o with st := st' } }) := by
      intro y hy
      unfold World.get
      rw [h1]
      simp only [g4]
      rw [hcfg, g1, e1]
      simp only
      rw [show o.deser = r.dir.deser by rw [← hdir]; exact g6, hy]
      cases y <;> rfl
    refine ⟨fun e he => by rw [hget _ he], fun v hv => ⟨_, by rw [hget _ hv], ?_⟩⟩
    have hcl : c.loader < w1.loaders.length := (List.getElem?_eq_some_iff.1 g4).1
    have hset : ∀ (l : Nat) (o' : LoaderObj V), (w1.loaders.set c.loader { o with st := st' })[l]? = some o' →
        (l = c.loader ∧ o' = { o with st := st' }) ∨ (l ≠ c.loader ∧ w1.loaders[l]? = some o') := by
      intro l o' ho
      rw [List.getElem?_set] at ho
      split at ho
      · rename_i h
        injection ho with ho
        exact Or.inl ⟨h.symm, ho.symm⟩
      · rename_i h
        exact Or.inr ⟨fun h' => h h'.symm, ho⟩
    constructor
    · exact hi1.len
    · exact hi1.onDir
    · intro e es l he hu
      simp only [List.length_set]
      exact hi1.range e es l he hu
    · intro e es q c' he hq hc'
      obtain ⟨f1, f2, f3, o', f4, f5, f6⟩ := hi1.cached e es q c' he hq hc'
      refine ⟨f1, f2, f3, ?_⟩
      simp only [List.getElem?_set]
      by_cases hcc : c.loader = c'.loader
      · rw [if_pos hcc, if_pos hcl]
        refine ⟨_, rfl, ?_⟩
        rw [← hcc, g4] at f4
        cases f4
        exact ⟨f5, f6⟩
      · rw [if_neg hcc]
        exact ⟨o', f4, f5, f6⟩
    · intro l o' ho p hp
      rcases hset l o' ho with ⟨_, rfl⟩ | ⟨_, ho⟩
      · exact e2.handle p hp
      · exact hi1.handle l o' ho p hp
    · intro e es q l o' he hq hlv hu ho k b hb
      rcases hset l o' ho with ⟨hl, rfl⟩ | ⟨_, ho⟩
      · by_cases hed : e = d
        · subst hed
          rw [hds] at he
          cases he
          rw [hr] at hq
          cases hq
          obtain ⟨x, hx1, hx2⟩ := hlv
          exact e2.decrypted x k b hx1 hx2 hb
        · exact absurd hlv (hi1.share e d es _ l hed he hds hu (hl ▸ huse)).2.2
      · exact hi1.dec e es q l o' he hq hlv hu ho k b hb
    · exact hi1.share
    · exact hi1.splits
    · exact hi1.later

theorem trainTestSplit_within (perm : List Nat → List Nat) (hp : ∀ l, (perm l).Perm l) (original sel : List ChunkInfo)
    (hn : (original.map (·.filename)).Nodup) (hsub : sel.Sublist original) (roi : List (Nat × Nat)) (hl : sel.length = roi.length)
    (hwf : RoiWF roi) (ratios : List SplitRatio) (q : Nat) (outs : List (List ChunkInfo × List Roi))
    (h : trainTestSplit perm original (sel.map (·.filename)) roi ratios q = .ok outs) : ∀ o ∈ outs, Within o.1 o.2 sel roi := by
  unfold trainTestSplit at h
  split at h
  · cases h
  split at h
  · cases h
  rename_i h2
  split at h
  · cases h
  rename_i h3
  rw [filter_sublist_names original sel hn hsub] at h
  obtain ⟨c, r, k1, k2, k3, k4, k5, k6⟩ := shuffleTogether_ok perm hp sel roi hl
  rw [k1] at h
  simp only at h
  rw [Classical.not_not, List.all_eq_true] at h2
  have hsum' : ((ratios.map fun x => x.num.toNat)).sum ≤ q := by
    have := sum_toNat (ratios.map (·.num)) (by
      simp only [List.mem_map]; rintro x ⟨y, hy, rfl⟩
      have := h2 y hy
      simp only [Bool.and_eq_true, decide_eq_true_eq] at this
      exact this.1)
    rw [List.map_map] at this
    have e : (ratios.map (Int.toNat ∘ fun x => x.num)) = ratios.map (fun x => x.num.toNat) := rfl
    rw [e] at this
    omega
  have hle : (ratios.map fun s => (roi.map roiSize).sum * s.num.toNat / q).sum ≤ (r.map roiSize).sum := by
    rw [sum_roiSize_perm k5]
    rcases Nat.eq_zero_or_pos q with rfl | hq
    · have : (ratios.map fun s => (roi.map roiSize).sum * s.num.toNat / 0).sum = 0 := by
        simp only [Nat.div_zero]
        have hz : ∀ l : List SplitRatio, (l.map fun _ => 0).sum = 0 := by
          intro l
          induction l with
          | nil => rfl
          | cons a l ih => rw [List.map_cons, List.sum_cons, ih]
        exact hz ratios
      omega
    · have := sum_div_le (roi.map roiSize).sum q hq _ hsum'
      rw [List.map_map] at this
      exact this
  intro o ho
  exact (splitLoop_within _ c r (by omega) (roiWF_perm k5 hwf) hle outs h o ho).trans_perm k6

theorem addCopies_inv {V : Type} (fs : String → Option Bytes) (content : String → List Bytes) (P : Nat → Prop) (d : Nat) (ds : DsObj V) (r : RefDs V)
    (outs : List (List ChunkInfo × List Roi)) : ∀ (w : World V) (rs : List (RefDs V)), SessInv fs content P w rs → w.datasets[d]? = some ds → rs[d]? = some r →
    (DsObj.ChunkLevel ds → ds.given = none) → (∀ o ∈ outs, Within o.1 o.2 r.sel r.roi) →
    SessInv fs content P (w.addCopies ds outs) (rs ++ outs.map fun o => ⟨r.dir, o.1, o.2⟩) := by
  induction outs with
  | nil => intro w rs hi _ _ _ _; rw [List.map_nil, List.append_nil]; exact hi
  | cons o outs ih =>
    intro w rs hi hd hr hlv hin
    unfold World.addCopies
    rw [List.map_cons, List.append_cons rs]
    have hdl := (List.getElem?_eq_some_iff.1 hd).1
    have hrl := (List.getElem?_eq_some_iff.1 hr).1
    have hon := hi.onDir d ds r hd hr
    have hw := hin o (by simp)
    -- the loader of the copy
    generalize hcp : w.copyLoader ds.given = cp
    unfold World.copyLoader at hcp
    have c1 : w.loaders.length ≤ cp.1.length := by
      rw [← hcp]; cases ds.given <;> simp
    have c2 : ∀ l, l < w.loaders.length → cp.1[l]? = w.loaders[l]? := by
      intro l hl
      rw [← hcp]
      cases ds.given with
      | none => rfl
      | some g => simp only [List.getElem?_append_left hl]
    have c3 : ∀ l, cp.2 = some l → l = w.loaders.length ∧ l < cp.1.length := by
      intro l hl
      rw [← hcp] at hl ⊢
      cases hg : ds.given with
      | none => rw [hg] at hl; cases hl
      | some g =>
        rw [hg] at hl
        injection hl with hl
        have := hi.range d ds g hd (Or.inl hg)
        simp only
        rw [List.getElem?_eq_getElem this]
        simp only [Option.map_some, Option.toList_some, List.length_append, List.length_singleton]
        omega
    have c4 : ∀ (l : Nat) (x : LoaderObj V), cp.1[l]? = some x → w.loaders[l]? = some x ∨ (w.loaders.length ≤ l ∧ x.st.path = none) := by
      intro l x hx
      by_cases hl : l < w.loaders.length
      · left; rw [← c2 l hl]; exact hx
      · right
        refine ⟨by omega, ?_⟩
        rw [← hcp] at hx
        cases hg : ds.given with
        | none => rw [hg] at hx; rw [List.getElem?_eq_none (by simp only; omega)] at hx; cases hx
        | some g =>
          rw [hg] at hx
          simp only at hx
          rw [List.getElem?_append_right (by omega)] at hx
          have hm := List.mem_of_getElem? hx
          rw [Option.mem_toList, Option.map_eq_some_iff] at hm
          obtain ⟨y, _, rfl⟩ := hm
          rfl
    have c5 : DsObj.ChunkLevel ds → cp.2 = none := by
      intro h
      rw [← hcp, hlv h]
    clear hcp
    apply ih
    · have hget : ∀ e (es : DsObj V), (w.datasets ++ [{ ds with files := o.1.map (·.filename), roi := o.2, given := cp.2, cache := none }])[e]? = some es →
          (e = w.datasets.length ∧ es = { ds with files := o.1.map (·.filename), roi := o.2, given := cp.2, cache := none }) ∨
          (e < w.datasets.length ∧ w.datasets[e]? = some es) := by
        intro e es he
        rcases Nat.lt_trichotomy e w.datasets.length with h | h | h
        · rw [List.getElem?_append_left h] at he; exact Or.inr ⟨h, he⟩
        · subst h; simp at he; exact Or.inl ⟨rfl, he.symm⟩
        · rw [List.getElem?_eq_none (by simp; omega)] at he; cases he
      have hgetr : ∀ e q, (rs ++ [(⟨r.dir, o.1, o.2⟩ : RefDs V)])[e]? = some q →
          (e = w.datasets.length ∧ q = ⟨r.dir, o.1, o.2⟩) ∨ (e < w.datasets.length ∧ rs[e]? = some q) := by
        intro e q he
        have hlen := hi.len
        rcases Nat.lt_trichotomy e rs.length with h | h | h
        · rw [List.getElem?_append_left h] at he; exact Or.inr ⟨by omega, he⟩
        · subst h; simp at he; exact Or.inl ⟨by omega, he.symm⟩
        · rw [List.getElem?_eq_none (by simp; omega)] at he; cases he
      have hu2 : ∀ l, DsObj.Uses { ds with files := o.1.map (·.filename), roi := o.2, given := cp.2, cache := none } l → cp.2 = some l := by
        intro l hu
        rcases hu with hu | ⟨c, hc, _⟩
        · exact hu
        · cases hc
      have hnew : ∀ (e : Nat) (es : DsObj V) l, w.datasets[e]? = some es → DsObj.Uses es l → cp.2 = some l → False := by
        intro e es l he hu hl
        have h1 := hi.range e es l he hu
        have h2 := (c3 l hl).1
        omega
      constructor
      · simp [hi.len]
      · intro e es q he hq
        rcases hget e es he with ⟨h, rfl⟩ | ⟨h, he⟩
        · rcases hgetr e q hq with ⟨_, rfl⟩ | ⟨h', _⟩
          · refine ⟨hon.dir, hon.names, hon.sound, hon.cfg, hon.stored, rfl, ?_, rfl, hw.1, ?_⟩
            · intro c hc
              obtain ⟨k, hk⟩ := List.getElem?_of_mem hc
              have hkl := (List.getElem?_eq_some_iff.1 hk).1
              have hkr : k < o.2.length := by rw [← hw.1]; exact hkl
              obtain ⟨r', h1, _⟩ := hw.2 (c, o.2[k]) (List.mem_of_getElem? (i := k) (by
                rw [List.getElem?_zip_eq_some]; exact ⟨hk, List.getElem?_eq_getElem hkr⟩))
              exact hon.known c (List.of_mem_zip h1).1
            · intro x hx
              obtain ⟨r', h1, h2, h3, h4⟩ := hw.2 x hx
              have := (hon.inside _ h1).2
              simp only at this ⊢
              exact ⟨h3, by omega⟩
          · omega
        · rcases hgetr e q hq with ⟨h', _⟩ | ⟨_, hq⟩
          · omega
          · exact hi.onDir e es q he hq
      · intro e es l he hu
        rcases hget e es he with ⟨h, rfl⟩ | ⟨h, he⟩
        · exact (c3 l (hu2 l hu)).2
        · have := hi.range e es l he hu
          simp only
          omega
      · intro e es q c he hq hc
        rcases hget e es he with ⟨h, rfl⟩ | ⟨h, he⟩
        · cases hc
        · rcases hgetr e q hq with ⟨h', _⟩ | ⟨_, hq⟩
          · omega
          · obtain ⟨f1, f2, f3, x, f4, f5⟩ := hi.cached e es q c he hq hc
            exact ⟨f1, f2, f3, x, by simp only; rw [c2 _ (List.getElem?_eq_some_iff.1 f4).1]; exact f4, f5⟩
      · intro l x hx p hp
        rcases c4 l x hx with h | ⟨_, h⟩
        · exact hi.handle l x h p hp
        · rw [h] at hp; cases hp
      · intro e es q l x he hq hcl hu hx k b hb
        rcases hget e es he with ⟨h, rfl⟩ | ⟨h, he⟩
        · have := hu2 l hu
          rw [c5 hcl] at this
          cases this
        · rcases hgetr e q hq with ⟨h', _⟩ | ⟨_, hq⟩
          · omega
          · have hlt := hi.range e es l he hu
            simp only at hx
            rw [c2 l hlt] at hx
            exact hi.dec e es q l x he hq hcl hu hx k b hb
      · intro a b as bs l hab ha hb hua hub
        rcases hget a as ha with ⟨h, rfl⟩ | ⟨h, ha⟩
        · rcases hget b bs hb with ⟨h', rfl⟩ | ⟨h', hb⟩
          · omega
          · exact (hnew b bs l hb hub (hu2 l hua)).elim
        · rcases hget b bs hb with ⟨h', rfl⟩ | ⟨h', hb⟩
          · exact (hnew a as l ha hua (hu2 l hub)).elim
          · exact hi.share a b as bs l hab ha hb hua hub
      · intro e es q hP he hq
        have hlt := hi.later e hP
        rcases hget e es he with ⟨h, rfl⟩ | ⟨h, he⟩
        · omega
        · rcases hgetr e q hq with ⟨h', _⟩ | ⟨_, hq⟩
          · omega
          · exact hi.splits e es q hP he hq
      · intro e hP
        have := hi.later e hP
        simp only [List.length_append]
        omega
    · simp only [List.getElem?_append_left hdl]; exact hd
    · rw [List.getElem?_append_left hrl]; exact hr
    · exact hlv
    · intro x hx; exact hin x (by simp [hx])

theorem sess_run {V : Type} (fs : String → Option Bytes) (content : String → List Bytes) (P : Nat → Prop) (ops : List SessOp)
    (hops : ∀ d perm ratios q, SessOp.split d perm ratios q ∈ ops → P d ∧ ∀ l, (perm l).Perm l) : ∀ (w : World V) (rs : List (RefDs V)),
    SessInv fs content P w rs → w.run fs ops = refRun content rs ops := by
  induction ops with
  | nil => intro w rs _; rfl
  | cons op ops ih =>
    have ih := ih (fun d perm ratios q h => hops d perm ratios q (by simp [h]))
    intro w rs hi
    cases op with
    | get d i =>
      unfold World.run refRun
      cases hr : rs[d]? with
      | none =>
        have hd : w.datasets[d]? = none := by
          rw [List.getElem?_eq_none_iff] at hr ⊢
          rw [hi.len]; exact hr
        unfold World.get World.ensureOpen
        simp only [hd]
      | some r =>
        obtain ⟨s1, s2⟩ := get_step fs content P w rs hi d r hr i
        simp only
        by_cases hout : i < 0 ∨ (r.samples content).length ≤ i
        · rw [if_pos hout, s1 hout]
        · rw [if_neg hout]
          obtain ⟨t1, t2⟩ := s2 i.toNat (by omega) (by omega)
          cases hv : r.dir.deser ((r.samples content).getD i.toNat []) with
          | error e => rw [t1 e hv]
          | ok v =>
            obtain ⟨w', h1, h2⟩ := t2 v hv
            rw [h1]
            simp only
            rw [ih w' rs h2]
    | split d perm ratios q =>
      obtain ⟨hP, hperm⟩ := hops d perm ratios q (by simp)
      unfold World.run refRun
      have hdl := hi.later d hP
      have hrl : d < rs.length := by rw [← hi.len]; exact hdl
      have hd := List.getElem?_eq_getElem hdl
      have hr := List.getElem?_eq_getElem hrl
      generalize w.datasets[d] = ds at hd
      generalize rs[d] = r at hr
      have hon := hi.onDir d ds r hd hr
      obtain ⟨hsub, hlv⟩ := hi.splits d ds r hP hd hr
      unfold World.split
      simp only [hd, hr]
      rw [hon.files, hon.roi, ← hon.dir]
      cases ht : trainTestSplit perm ds.dir.original (r.sel.map (·.filename)) r.roi ratios q with
      | error e => rfl
      | ok outs =>
        simp only
        apply ih
        rw [hon.dir]
        apply addCopies_inv fs content P d ds r outs w rs hi hd hr hlv
        exact trainTestSplit_within perm hperm ds.dir.original r.sel hon.names hsub r.roi hon.len
          (by
            intro x hx
            obtain ⟨k, hk⟩ := List.getElem?_of_mem hx
            have hkl : k < r.sel.length := by rw [hon.len]; exact (List.getElem?_eq_some_iff.1 hk).1
            exact (hon.inside (r.sel[k], x) (List.mem_of_getElem? (i := k) (by
              rw [List.getElem?_zip_eq_some]; exact ⟨List.getElem?_eq_getElem hkl, hk⟩))).1) ratios q outs ht

end LitData.Props
