import Verif.Props.Sessions
import Verif.Props.Tokens

/-! Property C78: several datasets in one process do not disturb each other; C17 down to the bytes. -/

namespace LitData.Props
open LitData Spec

/-- **C78.** Any program that reads datasets by index in any order and splits some of them gets what the lists of samples say, if item loaders are given to
at most one dataset each, or only to datasets of the same format that are not encrypted chunk by chunk; and if no dataset that is encrypted chunk by chunk
is split after an item loader was given to it. Missing: the other cases, where it is false (`c78_shared_decrypted`, `c78_shared_format`, `c78_split_after_read`);
splitting a dataset whose chunks are not in the order of the index (`c17_mispairs_shuffled`). -/
theorem c78_own_samples_partial {V : Type} (fs : String → Option Bytes) (content : String → List Bytes) (n : Nat) (dss : List (DsObj V)) (rs : List (RefDs V))
    (hlen : dss.length = rs.length) (hon : ∀ (d : Nat) ds r, dss[d]? = some ds → rs[d]? = some r → OnDir fs content ds r)
    (hnew : ∀ ds ∈ dss, ds.cache = none ∧ ∀ l, ds.given = some l → l < n)
    (hshare : ∀ (d e : Nat) ds es l, d ≠ e → dss[d]? = some ds → dss[e]? = some es → ds.given = some l → es.given = some l →
      ds.dir.cfg = es.dir.cfg ∧ ds.dir.deser = es.dir.deser ∧ ¬ DsObj.ChunkLevel ds)
    (ops : List SessOp) (hops : ∀ d perm ratios q, SessOp.split d perm ratios q ∈ ops → d < dss.length ∧ (∀ l, (perm l).Perm l) ∧
      ∀ ds r, dss[d]? = some ds → rs[d]? = some r → r.sel.Sublist ds.dir.original ∧ (DsObj.ChunkLevel ds → ds.given = none)) :
    World.run fs ⟨List.replicate n LoaderObj.init, dss⟩ ops = refRun content rs ops := by
  have hinit : ∀ (l : Nat) (o : LoaderObj V), (List.replicate n LoaderObj.init)[l]? = some o → o = LoaderObj.init := by
    intro l o ho
    exact (List.mem_replicate.1 (List.mem_of_getElem? ho)).2
  apply sess_run fs content (fun d => d < dss.length ∧ ∃ perm ratios q, SessOp.split d perm ratios q ∈ ops) ops
    (fun d perm ratios q h => ⟨⟨(hops d perm ratios q h).1, perm, ratios, q, h⟩, (hops d perm ratios q h).2.1⟩)
  have huse : ∀ (d : Nat) ds l, dss[d]? = some ds → DsObj.Uses ds l → ds.given = some l := by
    intro d ds l hd hu
    rcases hu with hu | ⟨c, hc, _⟩
    · exact hu
    · rw [(hnew ds (List.mem_of_getElem? hd)).1] at hc; cases hc
  constructor
  · exact hlen
  · exact hon
  · intro d ds l hd hu
    rw [List.length_replicate]
    exact (hnew ds (List.mem_of_getElem? hd)).2 l (huse d ds l hd hu)
  · intro d ds r c hd _ hc
    rw [(hnew ds (List.mem_of_getElem? hd)).1] at hc
    cases hc
  · intro l o ho p hp
    rw [hinit l o ho] at hp
    cases hp
  · intro d ds r l o _ _ _ _ ho k b hb
    rw [hinit l o ho] at hb
    cases hb
  · intro d e ds es l hne hd he hud hue
    exact hshare d e ds es l hne hd he (huse d ds l hd hud) (huse e es l he hue)
  · rintro d ds r ⟨_, perm, ratios, q, h⟩ hd hr
    exact (hops d perm ratios q h).2.2 ds r hd hr
  · rintro d ⟨h, _⟩
    exact h

/-- Reading samples whose indices are in range. -/
theorem refRun_gets {V : Type} (content : String → List Bytes) (rs : List (RefDs V)) (f : Bytes → V) (gets : List (Nat × Nat))
    (h : ∀ g ∈ gets, ∃ r, rs[g.1]? = some r ∧ g.2 < (r.samples content).length ∧ r.dir.deser = fun b => .ok (f b)) :
    refRun content rs (gets.map fun g => .get g.1 g.2) =
      (gets.map fun g => f ((((rs[g.1]?).map fun r => r.samples content).getD []).getD g.2 []), none) := by
  induction gets with
  | nil => rfl
  | cons g gets ih =>
    obtain ⟨r, h1, h2, h3⟩ := h g (by simp)
    rw [List.map_cons, List.map_cons]
    unfold refRun
    simp only [h1]
    rw [if_neg (by omega), h3]
    simp only [Int.toNat_natCast, Option.map_some, Option.getD_some]
    rw [ih (fun x hx => h x (by simp [hx]))]

theorem range_map_getD (l : List Bytes) : (List.range l.length).map (fun i => l.getD i []) = l := by
  apply List.ext_getElem
  · simp
  · intro i h1 h2
    simp only [List.getElem_map, List.getElem_range]
    rw [List.getD_eq_getElem?_getD, List.getElem?_eq_getElem h2, Option.getD_some]

theorem map_range'_gets {β : Type} (ls : List (List Bytes)) (f : Bytes → β) (s : Nat) (look : Nat → List Bytes)
    (h : ∀ (j : Nat) l, ls[j]? = some l → look (s + j) = l) :
    ((ls.zipIdx s).flatMap fun x => (List.range x.1.length).map fun i => (x.2, i)).map (fun g => f ((look g.1).getD g.2 [])) = ls.flatten.map f := by
  induction ls generalizing s with
  | nil => rfl
  | cons l ls ih =>
    rw [List.zipIdx_cons, List.flatMap_cons, List.map_append, List.flatten_cons, List.map_append]
    congr 1
    · rw [List.map_map]
      have h0 := h 0 l rfl
      simp only [Nat.add_zero] at h0
      have : (List.range l.length).map ((fun g : Nat × Nat => f ((look g.1).getD g.2 [])) ∘ fun i => (s, i)) =
          ((List.range l.length).map fun i => l.getD i []).map f := by
        rw [List.map_map]
        apply List.map_congr_left
        intro i _
        simp only [Function.comp]
        rw [h0]
      rw [this, range_map_getD]
    · apply ih
      intro j x hx
      have := h (j + 1) x (by simpa using hx)
      rw [show s + 1 + j = s + (j + 1) by omega]
      exact this

/-- **C17, down to the bytes.** A dataset on disk, in the order of the index, is split, also after samples of it were read; then every split is read
completely. Each split has `⌊N * r⌋` samples, and what is read is, one split after the other, the beginning of a shuffled order of the samples of the dataset. -/
theorem c17_reads_partial {V : Type} (fs : String → Option Bytes) (content : String → List Bytes) (ds : DsObj V) (r : RefDs V) (hon : OnDir fs content ds r)
    (hnew : ds.cache = none ∧ ds.given = none) (hsub : r.sel.Sublist r.dir.original) (f : Bytes → V) (hf : r.dir.deser = fun b => .ok (f b))
    (before : List Nat) (hb : ∀ i ∈ before, i < (r.samples content).length)
    (perm : List Nat → List Nat) (hp : ∀ l, (perm l).Perm l) (ratios : List SplitRatio) (q : Nat) (hq : 0 < q)
    (hr : ∀ x ∈ ratios, x.isFloat = true ∧ 0 ≤ x.num ∧ x.num ≤ q) (hsum : (ratios.map (·.num)).sum ≤ q) :
    ∃ (splits : List (List Bytes)) (order : List Bytes), splits.length = ratios.length ∧ order.Perm (r.samples content) ∧ splits.flatten <+: order ∧
      splits.map List.length = ratios.map (fun x => (r.samples content).length * x.num.toNat / q) ∧
      World.run fs ⟨[], [ds]⟩ (before.map (fun i => .get 0 i) ++ .split 0 perm ratios q ::
        ((splits.zipIdx 1).flatMap fun x => (List.range x.1.length).map fun i => (x.2, i)).map fun g => .get g.1 g.2) =
        (before.map (fun i => f ((r.samples content).getD i [])) ++ splits.flatten.map f, none) := by
  have hwf : RoiWF r.roi := by
    intro x hx
    obtain ⟨k, hk⟩ := List.getElem?_of_mem hx
    have hkl : k < r.sel.length := by rw [hon.len]; exact (List.getElem?_eq_some_iff.1 hk).1
    exact (hon.inside (r.sel[k], x) (List.mem_of_getElem? (i := k) (by
      rw [List.getElem?_zip_eq_some]; exact ⟨List.getElem?_eq_getElem hkl, hk⟩))).1
  obtain ⟨outs, order, h1, h2, h3, h4, _⟩ := c17_splits_partial perm hp r.dir.original r.sel (by rw [← hon.dir]; exact hon.names) hsub r.roi hon.len hwf
    ratios q hq hr hsum
  let val : ChunkInfo × Nat → Bytes := fun s => (content (r.dir.join s.1.filename)).getD s.2 []
  have hlenS : (r.samples content).length = (regionSamples r.sel r.roi).length := by simp [RefDs.samples]
  refine ⟨outs.map fun o => (regionSamples o.1 o.2).map val, order.map val, ?_, ?_, ?_, ?_, ?_⟩
  · have := congrArg List.length h3
    rw [List.length_map, List.length_map] at this
    rw [List.length_map]
    exact this
  · exact h2.map val
  · have : (outs.map fun o => (regionSamples o.1 o.2).map val).flatten = (outs.flatMap fun o => regionSamples o.1 o.2).map val := by
      rw [List.map_flatMap, List.flatMap_def]
    rw [this]
    exact h4.map val
  · rw [List.map_map, hlenS, ← h3]
    apply List.map_congr_left
    intro o _
    simp [Function.comp]
  · generalize hg : ((outs.map fun o => (regionSamples o.1 o.2).map val).zipIdx 1).flatMap
        (fun x => (List.range x.1.length).map fun i => (x.2, i)) = gets
    have hmain := c78_own_samples_partial fs content 0 [ds] [r] rfl (by
        intro d ds' r' hd hr'
        cases d with
        | zero => simp at hd hr'; subst hd hr'; exact hon
        | succ d => simp at hd)
      (by simp only [List.mem_singleton]; rintro x rfl; exact ⟨hnew.1, by rw [hnew.2]; simp⟩)
      (by
        intro d e ds' es' l hne hd he
        cases d with
        | succ d => simp at hd
        | zero =>
          cases e with
          | succ e => simp at he
          | zero => exact absurd rfl hne)
      (before.map (fun i => .get 0 i) ++ .split 0 perm ratios q :: gets.map fun g => .get g.1 g.2) (by
        intro d perm' ratios' q' hm
        have : SessOp.split d perm' ratios' q' = .split 0 perm ratios q := by
          rcases List.mem_append.1 hm with hm | hm
          · obtain ⟨_, _, h⟩ := List.mem_map.1 hm; cases h
          · rcases List.mem_cons.1 hm with hm | hm
            · exact hm
            · obtain ⟨_, _, h⟩ := List.mem_map.1 hm; cases h
        cases this
        refine ⟨by simp, hp, ?_⟩
        intro ds' r' hd hr'
        simp at hd hr'
        subst hd hr'
        exact ⟨by rw [hon.dir]; exact hsub, fun _ => hnew.2⟩)
    rw [List.replicate_zero] at hmain
    rw [hmain]
    clear hmain
    induction before with
    | cons i before ih =>
      have := ih (fun j hj => hb j (by simp [hj]))
      rw [List.map_cons, List.cons_append, List.map_cons, List.cons_append]
      unfold refRun
      simp only [List.getElem?_cons_zero]
      have := hb i (by simp)
      rw [if_neg (by omega), hf]
      simp only [Int.toNat_natCast]
      rw [ih (fun j hj => hb j (by simp [hj]))]
    | nil =>
      rw [List.map_nil, List.nil_append]
      unfold refRun
      simp only [List.getElem?_cons_zero, h1]
      have hlook : ∀ (j : Nat) (o : List ChunkInfo × List Roi), outs[j]? = some o →
          ([r] ++ outs.map fun o => (⟨r.dir, o.1, o.2⟩ : RefDs V))[1 + j]? = some ⟨r.dir, o.1, o.2⟩ := by
        intro j o ho
        rw [List.getElem?_append_right (by simp)]
        simp [ho]
      rw [refRun_gets content _ f gets]
      · rw [List.map_nil, List.nil_append, ← hg]
        congr 1
        apply map_range'_gets (outs.map fun o => (regionSamples o.1 o.2).map val) f 1
          (fun k => ((([r] ++ outs.map fun o => (⟨r.dir, o.1, o.2⟩ : RefDs V))[k]?).map fun r => r.samples content).getD [])
        intro j l hl
        rw [List.getElem?_map, Option.map_eq_some_iff] at hl
        obtain ⟨o, ho, rfl⟩ := hl
        simp only [hlook j o ho, Option.map_some, Option.getD_some]
        rfl
      · intro g hgm
        rw [← hg, List.mem_flatMap] at hgm
        obtain ⟨x, hx, hxm⟩ := hgm
        rw [List.mem_map] at hxm
        obtain ⟨i, hi, rfl⟩ := hxm
        rw [List.mem_range] at hi
        obtain ⟨k, hk⟩ := List.getElem?_of_mem hx
        rw [List.getElem?_zipIdx, Option.map_eq_some_iff] at hk
        obtain ⟨l, hl, rfl⟩ := hk
        rw [List.getElem?_map, Option.map_eq_some_iff] at hl
        obtain ⟨o, ho, rfl⟩ := hl
        refine ⟨_, hlook k o ho, ?_, hf⟩
        exact hi

/-- A directory with two chunks `0` and `1` of the items `x` and `y`, encrypted chunk by chunk. -/
def sessDir (name : String) (x y : List Bytes) : DataDir Bytes :=
  ⟨[chunkInfoOf (some (toyCipher .chunk)) 0 "0" x, chunkInfoOf (some (toyCipher .chunk)) 0 "1" y], fun f => name ++ f, some ⟨"toy", .chunk⟩, fun b => .ok b⟩

/-- The dataset of such a directory. -/
def sessDs (name : String) (x y : List Bytes) (given : Option Nat) : DsObj Bytes :=
  ⟨sessDir name x y, some (toyCipher .chunk), ["0", "1"], [(0, x.length), (0, y.length)], given, none⟩

/-- The files of two such directories. -/
def sessFs (p : String) : Option Bytes :=
  if p = "a/0" then some (writeItems (some (toyCipher .chunk)) (fun _ => 0) [[1], [2]])
  else if p = "a/1" then some (writeItems (some (toyCipher .chunk)) (fun _ => 0) [[3]])
  else if p = "b/0" then some (writeItems (some (toyCipher .chunk)) (fun _ => 0) [[7], [8]])
  else if p = "b/1" then some (writeItems (some (toyCipher .chunk)) (fun _ => 0) [[9]])
  else none

/-- The samples in these files. -/
def sessContent (p : String) : List Bytes :=
  if p = "a/0" then [[1], [2]] else if p = "a/1" then [[3]] else if p = "b/0" then [[7], [8]] else if p = "b/1" then [[9]] else []

/-- The two datasets as lists of samples. -/
def sessRefs : List (RefDs Bytes) :=
  [⟨sessDir "a/" [[1], [2]] [[3]], (sessDir "a/" [[1], [2]] [[3]]).original, [(0, 2), (0, 1)]⟩,
   ⟨sessDir "b/" [[7], [8]] [[9]], (sessDir "b/" [[7], [8]] [[9]]).original, [(0, 2), (0, 1)]⟩]

/-- **One item loader for two datasets that are encrypted chunk by chunk**: the second dataset delivers samples of the first one, because the decrypted chunk
is remembered by its number only. -/
theorem c78_shared_decrypted :
    World.run sessFs ⟨[LoaderObj.init], [sessDs "a/" [[1], [2]] [[3]] (some 0), sessDs "b/" [[7], [8]] [[9]] (some 0)]⟩ [.get 0 0, .get 1 0, .get 1 2] =
      ([[1], [1], [9]], none) ∧ refRun sessContent sessRefs [.get 0 0, .get 1 0, .get 1 2] = ([[1], [7], [9]], none) := by
  decide +kernel

/-- **Splitting a dataset that is encrypted chunk by chunk, that an item loader was given to and that has been read**: the copy of the item loader remembers
the decrypted chunk 0, but chunk 0 of the split is another file. The split that should deliver the sample 3 delivers the sample 1. -/
theorem c78_split_after_read :
    World.run sessFs ⟨[LoaderObj.init], [sessDs "a/" [[1], [2]] [[3]] (some 0)]⟩ [.get 0 0, .split 0 List.reverse [⟨true, 1⟩, ⟨true, 2⟩] 3, .get 1 0] =
      ([[1], [1]], none) ∧
    refRun sessContent (sessRefs.take 1) [.get 0 0, .split 0 List.reverse [⟨true, 1⟩, ⟨true, 2⟩] 3, .get 1 0] = ([[1], [3]], none) := by
  decide +kernel

/-- A plain directory whose samples are deserialized by adding `n`. -/
def sessPlain (name : String) (x : List Bytes) (n : UInt8) : DsObj Bytes :=
  ⟨⟨[chunkInfoOf none 0 "0" x], fun f => name ++ f, none, fun b => .ok (b.map (· + n))⟩, none, ["0"], [(0, x.length)], some 0, none⟩

/-- **One item loader for two datasets of different formats**: once the second one is opened, samples of the first one are deserialized in the format of the
second one (the third value is 102 instead of 2). -/
theorem c78_shared_format :
    World.run (fun p => if p = "a/0" then some (writeItems none (fun _ => 0) [[1], [2]]) else if p = "b/0" then some (writeItems none (fun _ => 0) [[7]]) else none)
      ⟨[LoaderObj.init], [sessPlain "a/" [[1], [2]] 0, sessPlain "b/" [[7]] 100]⟩ [.get 0 0, .get 1 0, .get 0 1] = ([[1], [107], [102]], none) := by
  decide +kernel

theorem sess_onDir (d : Nat) (ds : DsObj Bytes) (r : RefDs Bytes)
    (hd : [sessDs "a/" [[1], [2]] [[3]] none, sessDs "b/" [[7], [8]] [[9]] none][d]? = some ds) (hr : sessRefs[d]? = some r) : OnDir sessFs sessContent ds r := by
  match d with
  | 0 =>
    simp only [List.getElem?_cons_zero, Option.some.injEq, sessRefs] at hd hr
    subst hd hr
    refine ⟨rfl, by decide +kernel, fun e he => ?_, rfl, ⟨rfl, fun k c l hk hl => ?_⟩, rfl, by decide +kernel, rfl, rfl, by decide +kernel⟩
    · cases he; exact toyCipher_sound _
    · match k with
      | 0 => simp [sessDs, sessDir] at hk hl; subst hk hl; exact ⟨fun _ => 0, by decide +kernel⟩
      | 1 => simp [sessDs, sessDir] at hk hl; subst hk hl; exact ⟨fun _ => 0, by decide +kernel⟩
      | k + 2 => simp [sessDs, sessDir] at hk
  | 1 =>
    simp only [List.getElem?_cons_zero, List.getElem?_cons_succ, Option.some.injEq, sessRefs] at hd hr
    subst hd hr
    refine ⟨rfl, by decide +kernel, fun e he => ?_, rfl, ⟨rfl, fun k c l hk hl => ?_⟩, rfl, by decide +kernel, rfl, rfl, by decide +kernel⟩
    · cases he; exact toyCipher_sound _
    · match k with
      | 0 => simp [sessDs, sessDir] at hk hl; subst hk hl; exact ⟨fun _ => 0, by decide +kernel⟩
      | 1 => simp [sessDs, sessDir] at hk hl; subst hk hl; exact ⟨fun _ => 0, by decide +kernel⟩
      | k + 2 => simp [sessDs, sessDir] at hk
  | d + 2 => simp at hd

-- the hypotheses are met by two encrypted datasets, one of which is split after it was read; also what is read
example := c78_own_samples_partial sessFs sessContent 0 [sessDs "a/" [[1], [2]] [[3]] none, sessDs "b/" [[7], [8]] [[9]] none] sessRefs rfl sess_onDir
  (by simp [sessDs]) (by
    intro d e ds es l _ hd _ hg
    match d with
    | 0 => simp at hd; subst hd; cases hg
    | 1 => simp at hd; subst hd; cases hg
    | d + 2 => simp at hd)
  [.get 0 0, .get 1 0, .split 0 List.reverse [⟨true, 1⟩, ⟨true, 2⟩] 3, .get 2 0, .get 0 1, .get 3 1, .get 3 2] (by
    intro d perm ratios q h
    simp only [List.mem_cons, reduceCtorEq, List.not_mem_nil, or_false, false_or] at h
    cases h
    refine ⟨by simp, List.reverse_perm, ?_⟩
    intro ds r hd hr
    simp [sessRefs] at hd hr
    subst hd hr
    exact ⟨List.Sublist.refl _, fun _ => rfl⟩)
example : refRun sessContent sessRefs [.get 0 0, .get 1 0, .split 0 List.reverse [⟨true, 1⟩, ⟨true, 2⟩] 3, .get 2 0, .get 0 1, .get 3 1, .get 3 2] =
    ([[1], [7], [3], [2], [2]], some .valueError) := by decide +kernel
example := c17_reads_partial sessFs sessContent (sessDs "a/" [[1], [2]] [[3]] none) _ (sess_onDir 0 _ _ rfl rfl) ⟨rfl, rfl⟩ (List.Sublist.refl _) id rfl [0, 2, 1]
  (by decide +kernel) List.reverse List.reverse_perm [⟨true, 1⟩, ⟨true, 2⟩] 3 (by decide) (by simp) (by decide)

/-- **A `TokensLoader` given to two datasets**: while chunk `k` of one of them is mapped, every block of chunk `k` of the other one, whatever its file, is
served from this map. -/
theorem c78_tokens_shared (fs : String → Option Bytes) (chunks : List ChunkInfo) (bs sz : Nat) (st st' : TokState) (index k : Nat) (path : String)
    (begin filesize : Nat) (v : TokView) (m : Nat) (hk : st.current k = some m)
    (h : tokLoadItem fs chunks bs sz st index k path begin filesize = .ok (v, st')) : v.map = m ∧ st'.maps = st.maps ∧ st'.current k = some m := by
  have hw : ∀ st1, tokWait fs st path filesize = .ok st1 → st1.current = st.current ∧ st1.maps = st.maps := by
    intro st1 h1
    unfold tokWait at h1
    simp only at h1
    (repeat' split at h1) <;> first
      | (cases h1; exact ⟨rfl, rfl⟩)
      | cases h1
  unfold tokLoadItem at h
  split at h
  · cases h
  split at h
  · cases h
  rename_i st1 h1
  obtain ⟨w1, w2⟩ := hw st1 h1
  unfold tokLoadChunk at h
  simp only [w1, hk] at h
  split at h
  · cases h
  split at h
  · split at h
    · cases h; exact ⟨rfl, w2, hk⟩
    · cases h
  · cases h

/-- **Splitting a dataset of tokens that has been read fails**: `deepcopy` raises `TypeError` once a chunk is mapped. -/
theorem c78_tokens_split_fails (fs : String → Option Bytes) (chunks : List ChunkInfo) (bs sz : Nat) (st st' : TokState) (index k : Nat) (path : String)
    (begin filesize : Nat) (v : TokView) (h : tokLoadItem fs chunks bs sz st index k path begin filesize = .ok (v, st')) (n : Nat) (hk : k < n) :
    tokDeepCopy n st' = .error .typeError := by
  have hc : (st'.current k).isSome := by
    unfold tokLoadItem at h
    split at h
    · cases h
    split at h
    · cases h
    split at h
    · cases h
    rename_i st2 _
    cases hcur : st2.current k with
    | none => rw [hcur] at h; cases h
    | some m =>
      rw [hcur] at h
      simp only at h
      split at h
      · cases h
      split at h
      · split at h
        · cases h; rw [hcur]; rfl
        · cases h
      · cases h
  unfold tokDeepCopy
  rw [if_pos]
  rw [List.any_eq_true]
  exact ⟨k, List.mem_range.2 hk, hc⟩

-- two datasets of tokens with one loader: chunk 0 of `b` is read as chunk 0 of `a`
example : ∃ v st' v' st'', tokLoadItem (fun p => if p = "a" then some (tokFile ("a", [[[1, 0], [2, 0]]])) else if p = "b" then some (tokFile ("b", [[[8, 0], [9, 0]]])) else none)
      [tokInfo ("a", [[[1, 0], [2, 0]]])] 2 2 TokState.init 0 0 "a" 0 0 = .ok (v, st') ∧
    tokLoadItem (fun p => if p = "a" then some (tokFile ("a", [[[1, 0], [2, 0]]])) else if p = "b" then some (tokFile ("b", [[[8, 0], [9, 0]]])) else none)
      [tokInfo ("b", [[[8, 0], [9, 0]]])] 2 2 st' 0 0 "b" 0 0 = .ok (v', st'') ∧ tokDeref st'' 2 v' = some [[1, 0], [2, 0]] ∧
    tokDeepCopy 1 st'' = .error .typeError :=
  ⟨⟨0, 0, 2⟩, _, ⟨0, 0, 2⟩, _, rfl, rfl, rfl, rfl⟩

end LitData.Props
