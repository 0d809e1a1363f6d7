import Verif.Props.Pipeline
import Verif.Props.Sample

/-! From Python objects given to several workers to the objects returned by `dataset[i]`. -/

namespace LitData.Props
open LitData

/-- A sample that is like the reference sample `x`: it can be stored, has the same structure, and its
leaves have the same kinds. -/
structure Like (env : SerEnv) (penv : PyEnv) (x y : LeafTree) : Prop where
  wf : y.WF
  storable : y.Storable penv
  spec : (flatten Leaf.isJpeg y).2 = (flatten Leaf.isJpeg x).2
  kinds : (flatten Leaf.isJpeg y).1.map (leafKind env) = (flatten Leaf.isJpeg x).1.map (leafKind env)
  fits : ∀ l ∈ (flatten Leaf.isJpeg y).1, LeafFits env l
  small : ∀ l ∈ (flatten Leaf.isJpeg y).1, ∀ e ∈ builtins env, ∀ b n, e.2.serialize l = .ok (b, n) → b.length < 2 ^ 32

theorem kindFormats_eq (env : SerEnv) (x y : LeafTree)
    (h : (flatten Leaf.isJpeg y).1.map (leafKind env) = (flatten Leaf.isJpeg x).1.map (leafKind env)) :
    kindFormats env y = kindFormats env x := by
  have e : ∀ z, kindFormats env z = ((flatten Leaf.isJpeg z).1.map (leafKind env)).map fun k => (kindCol env (k.getD .str)).fmt := by
    intro z
    unfold kindFormats
    rw [List.map_map, List.map_map]
    rfl
  rw [e, e, h]

/-- What one worker serializes. -/
theorem worker_samples (env : SerEnv) (penv : PyEnv) (x : LeafTree)
    (hne : (flatten Leaf.isJpeg x).1 ≠ []) (hk : ∀ l ∈ (flatten Leaf.isJpeg x).1, (leafKind env l).isSome)
    (xs : List LeafTree) (hxs : ∀ y ∈ xs, Like env penv x y) (text : String) (spec' : TSpec)
    (hd : treespecDumps penv (flatten Leaf.isJpeg x).2 = .ok text) (hl : treespecLoads penv text = .ok spec') :
    ∃ bytes st, writeSamples (builtins env) xs = .ok (bytes, st) ∧ bytes.length = xs.length ∧
      (xs ≠ [] → st.format = some (kindFormats env x) ∧ st.spec = some (flatten Leaf.isJpeg x).2) ∧
      bytes.map (readSample (builtins env) (kindFormats env x) spec') = xs.map .ok := by
  cases xs with
  | nil => exact ⟨[], SerState.init, rfl, rfl, by simp, rfl⟩
  | cons y ys =>
    have hy := hxs y (by simp)
    obtain ⟨bytes, extra, text', spec'', h1, h2, h3, h4, h5⟩ := samples_read_back_formats env penv y ys
      (fun z hz => (hxs z hz).wf) hy.storable
      (fun z hz => by rw [hy.spec]; exact (hxs z (by simp [hz])).spec)
      (by
        intro e
        apply hne
        have := hy.kinds
        rw [e] at this
        simpa using this.symm)
      (by
        intro l hl
        have hm : leafKind env l ∈ (flatten Leaf.isJpeg y).1.map (leafKind env) := List.mem_map_of_mem hl
        rw [hy.kinds, List.mem_map] at hm
        obtain ⟨l', hl', e⟩ := hm
        rw [← e]
        exact hk l' hl')
      (fun z hz => by rw [hy.kinds]; exact (hxs z (by simp [hz])).kinds)
      (fun z hz => (hxs z hz).fits) (fun z hz => (hxs z hz).small)
    rw [hy.spec] at h1 h3
    rw [hd] at h3
    injection h3 with h3
    subst h3
    rw [hl] at h4
    injection h4 with h4
    subst h4
    rw [kindFormats_eq env x y hy.kinds] at h1 h5
    refine ⟨bytes, _, h1, by simpa using h2, fun _ => ⟨rfl, rfl⟩, ?_⟩
    apply List.ext_getElem
    · simp [h2]
    · intro i hi hi'
      simp only [List.length_map] at hi hi'
      simp only [List.getElem_map]
      exact h5 i hi' hi

/-- **C13, end to end.** Let at most ten workers be given samples that are all like `x`. Then every worker
can serialize its samples, with the same data format; and if they are written (plain or encrypted, with
any limits, no chunk reaching 4 GiB), put into one directory and merged, then reading any sequence of
indices of the resulting dataset gives exactly the samples with these ranks in the concatenation of the
samples of the workers. -/
theorem c13_end_to_end_partial (env : SerEnv) (penv : PyEnv) (x : LeafTree) (hx : Like env penv x x)
    (hne : (flatten Leaf.isJpeg x).1 ≠ []) (hk : ∀ l ∈ (flatten Leaf.isJpeg x).1, (leafKind env l).isSome)
    (samples : List (List LeafTree)) (hw : samples.length ≤ 10) (hs : ∀ xs ∈ samples, ∀ y ∈ xs, Like env penv x y) :
    ∃ text spec' raws, treespecDumps penv (flatten Leaf.isJpeg x).2 = .ok text ∧ treespecLoads penv text = .ok spec' ∧
      raws.length = samples.length ∧
      (∀ (r : Nat) (xs : List LeafTree) (raw : List Bytes), samples[r]? = some xs → raws[r]? = some raw →
        ∃ st, writeSamples (builtins env) xs = .ok (raw, st) ∧
          (xs ≠ [] → st.format = some (kindFormats env x) ∧ st.spec = some (flatten Leaf.isJpeg x).2)) ∧
      ∀ (cfg : WriterCfg) (enc : Option Encryption), (∀ e, enc = some e → Encryption.Sound e) →
        ∀ (first : Nat → Nat) (ns nc : Nat → Nat → Nat) (ws : List (List (Bytes × Option Nat))),
        ws.map (fun items => items.map (·.1)) = raws →
        (cfg.chunkSize = 0 ∨ ∀ (r : Nat) (items : List (Bytes × Option Nat)), ws[r]? = some items →
          ∀ y ∈ workerItems enc (ns r) items, y.data ≠ []) →
        (∀ (r : Nat) (items : List (Bytes × Option Nat)), ws[r]? = some items →
          ChunksFit cfg (first r) (workerItems enc (ns r) items)) →
        ∃ dirs : List (CacheDir (List String × String)), dirs.length = ws.length ∧
          (∀ (r : Nat) (items : List (Bytes × Option Nat)) (dd : CacheDir (List String × String)), ws[r]? = some items →
            dirs[r]? = some dd →
            workerDir cfg enc (kindFormats env x, text) (first r) (ns r) (nc r) r items = .ok dd) ∧
          ∀ d : CacheDir (List String × String), d.Perm dirs.flatten →
            ∃ d' chunks cfg' ivs, mergeNoWait none none d = (.ok (), d') ∧
              dirGet d' "index.json" = some (.index ⟨chunks, cfg'⟩) ∧
              (samples.flatten ≠ [] → cfg' = some (kindFormats env x, text)) ∧
              generateIntervals none 0 0 chunks = .ok ivs ∧ (ivs.map Interval.size).sum = samples.flatten.length ∧
              ∀ is : List Nat, (∀ i ∈ is, i < samples.flatten.length) →
                ∃ got, datasetGets (dirBytes d') id enc (enc.map Encryption.config) chunks ivs PyTreeState.init is = .ok got ∧
                  got.map (readSample (builtins env) (kindFormats env x) spec') =
                    is.map fun i => .ok (samples.flatten.getD i x) := by
  obtain ⟨text, hd, hl⟩ := treespec_roundtrip penv _ (storable_flatten penv Leaf.isJpeg x hx.storable)
  obtain ⟨raws, hrl, hr⟩ := choose_list (fun _ (xs : List LeafTree) (raw : List Bytes) =>
      ∃ st, writeSamples (builtins env) xs = .ok (raw, st) ∧ raw.length = xs.length ∧
      (xs ≠ [] → st.format = some (kindFormats env x) ∧ st.spec = some (flatten Leaf.isJpeg x).2) ∧
      raw.map (readSample (builtins env) (kindFormats env x) _) = xs.map .ok) samples 0 (by
    intro r xs h
    obtain ⟨bytes, st, h1⟩ := worker_samples env penv x hne hk xs (hs xs (List.mem_of_getElem? h)) text _ hd hl
    exact ⟨bytes, st, h1⟩)
  refine ⟨text, _, raws, hd, hl, hrl, ?_, ?_⟩
  · intro r xs raw h1 h2
    obtain ⟨st, h3, _, h4, _⟩ := hr r xs raw h1 h2
    exact ⟨st, h3, h4⟩
  · intro cfg enc hsound first ns nc ws hws hpos hfit
    have hwl : ws.length = samples.length := by rw [← hrl, ← hws, List.length_map]
    obtain ⟨dirs, h1, h2, h3⟩ := c13_workers_to_dataset_partial cfg enc hsound (kindFormats env x, text) first ns nc ws (by omega) hpos hfit
    have hflat : ws.flatten.map (·.1) = raws.flatten := by rw [List.map_flatten, hws]
    have hread : raws.flatten.map (readSample (builtins env) (kindFormats env x) (flatten Leaf.isJpeg x).2) = samples.flatten.map .ok := by
      rw [List.map_flatten, List.map_flatten]
      congr 1
      apply List.ext_getElem
      · simp [hrl]
      · intro i hi hi'
        simp only [List.length_map] at hi hi'
        simp only [List.getElem_map]
        obtain ⟨_, _, _, _, h⟩ := hr i samples[i] raws[i] (List.getElem?_eq_getElem _) (List.getElem?_eq_getElem _)
        exact h
    have hlen : ws.flatten.length = samples.flatten.length := by
      have := congrArg List.length hread
      simp only [List.length_map] at this
      rw [← this, ← hflat, List.length_map]
    refine ⟨dirs, h1, h2, ?_⟩
    intro d hdp
    obtain ⟨d', chunks, cfg', ivs, g1, g2, g3, g4, g5, g6⟩ := h3 d hdp
    refine ⟨d', chunks, cfg', ivs, g1, g2, ?_, g4, by rw [g5, hlen], ?_⟩
    · intro hn
      apply g3
      intro e
      rw [e, List.length_nil] at hlen
      exact hn (List.length_eq_zero_iff.1 hlen.symm)
    · intro is his
      refine ⟨_, g6 is (by rw [hlen]; exact his), ?_⟩
      rw [List.map_map]
      apply List.map_congr_left
      intro i hi
      have hi' := his i hi
      have hir : i < raws.flatten.length := by rw [← hflat, List.length_map, hlen]; exact hi'
      have := congrArg (fun l => l[i]?) hread
      simp only [List.getElem?_map, List.getElem?_eq_getElem hir, List.getElem?_eq_getElem hi', Option.map_some, Option.some.injEq] at this
      simp only [Function.comp_apply, hflat, List.getD_eq_getElem?_getD, List.getElem?_eq_getElem hir,
        List.getElem?_eq_getElem hi', Option.getD_some]
      exact this

/-- The samples `{"x": i, "y": [b, s]}` are all like each other. -/
theorem demoSample_like (i j : Int) (b c : Bytes) (s t : String) (hi : -(2 ^ 63 : Int) ≤ j ∧ j < 2 ^ 63)
    (hc : c.length < 2 ^ 32) (ht : (utf8 t).length < 2 ^ 32) :
    Like demoSerEnv ⟨fun _ => none, fun _ => false⟩ (demoSample i b s) (demoSample j c t) := by
  refine ⟨demoSample_wf _ _ _, by simp [demoSample, Tree.Storable, TreesStorable, Head.Storable],
    by rw [demoSample_flat, demoSample_flat], by rw [demoSample_flat, demoSample_flat]; simp [leafKind, demoSerEnv], ?_, ?_⟩
  · intro l hl
    rw [demoSample_flat] at hl
    simp only [List.mem_cons, List.not_mem_nil, or_false] at hl
    rcases hl with rfl | rfl | rfl
    · exact hi
    · simp [LeafFits]
    · simp [LeafFits, demoSerEnv]
  · have hint : ∀ (i : Int) x, int64Bytes i = .ok x → x.length = 8 := by
      intro i x h
      unfold int64Bytes at h
      split at h
      · injection h with h; rw [← h, leBytes_length]
      · simp at h
    intro l hl e hem b n hs
    rw [demoSample_flat] at hl
    simp only [List.mem_cons, List.not_mem_nil, or_false] at hl
    rcases hl with rfl | rfl | rfl <;> simp only [builtins, List.mem_cons, List.not_mem_nil, or_false] at hem <;>
      rcases hem with rfl | rfl | rfl | rfl | rfl | rfl | rfl | rfl | rfl | rfl | rfl | rfl | rfl | rfl | rfl | rfl <;>
      simp [strSer, boolSer, intSer, floatSer, videoSer, tiffSer, fileSer, pilSer, jpegSer, jpegArraySer, bytesSer,
        noHeaderNumpySer, numpySer, noHeaderTensorSer, tensorSer, pickleSer, demoSerEnv] at hs <;>
      first
      | (split at hs
         · rename_i hb; simp at hs; rw [← hs.1, hint _ _ hb]; decide
         · simp at hs)
      | (rw [← hs.1]; assumption)
      | (rw [← hs.1]; decide)
      | (rw [hs.1]; decide)

/-- Three workers, one of them idle, meet the hypotheses of `c13_end_to_end_partial`. -/
example : ∃ text spec' raws,
    treespecDumps ⟨fun _ => none, fun _ => false⟩ (flatten Leaf.isJpeg (demoSample 0 [] "")).2 = .ok text ∧
    treespecLoads ⟨fun _ => none, fun _ => false⟩ text = .ok spec' ∧ (raws : List (List Bytes)).length = 3 := by
  obtain ⟨text, spec', raws, h1, h2, h3, _⟩ := c13_end_to_end_partial demoSerEnv ⟨fun _ => none, fun _ => false⟩ (demoSample 0 [] "")
    (demoSample_like _ _ _ _ _ _ (by decide) (by decide) (by decide)) (by rw [demoSample_flat]; simp)
    (by rw [demoSample_flat]; simp [leafKind, demoSerEnv])
    [[demoSample 3 [97, 98] "q", demoSample (-1) [] ""], [], [demoSample 7 [1] "rs"]] (by decide) (by
      intro xs hxs y hy
      simp only [List.mem_cons, List.not_mem_nil, or_false] at hxs
      rcases hxs with rfl | rfl | rfl
      · simp only [List.mem_cons, List.not_mem_nil, or_false] at hy
        rcases hy with rfl | rfl <;> exact demoSample_like _ _ _ _ _ _ (by decide) (by decide) (by decide)
      · simp at hy
      · simp only [List.mem_cons, List.not_mem_nil, or_false] at hy
        subst hy
        exact demoSample_like _ _ _ _ _ _ (by decide) (by decide) (by decide))
  exact ⟨text, spec', raws, h1, h2, h3⟩

/-- Two workers writing with `chunk_size=2`, an encrypting one and its merged index. -/
example : ((workerDir ⟨0, 2⟩ (some (toyCipher .sample)) () 0 (fun i => i) (fun _ => 0) 0
      [([1, 2], none), ([3], none), ([4], none)]).bind fun a =>
    (workerDir ⟨0, 2⟩ (some (toyCipher .sample)) () 0 (fun i => 10 + i) (fun _ => 0) 1 [([5], none)]).map fun b =>
      dirGet (mergeNoWait none none (b ++ a)).2 "index.json") =
    .ok (some (.index ⟨[⟨"chunk-0-0.bin", 2, 21, none⟩, ⟨"chunk-0-1.bin", 1, 14, none⟩, ⟨"chunk-1-0.bin", 1, 14, none⟩], some ()⟩)) := by
  decide +kernel

end LitData.Props
