import Verif.Model.MergeDatasets
import Verif.Lemmas.Names

/-! C27: `merge_datasets`. -/

namespace LitData.Props

open LitData

variable {O : Type}

theorem renumber_eq (d : MDir) (comp : Option String) (n : Nat) (cs : List ChunkInfo) :
    renumber d comp n cs = cs.mapIdx fun k c =>
      ({ c with filename := chunkFilename comp 0 (n + k) }, ⟨d, c.filename, chunkFilename comp 0 (n + k)⟩) := by
  induction cs generalizing n with
  | nil => rfl
  | cons c cs ih =>
    rw [renumber, ih, List.mapIdx_cons]
    simp only [Nat.add_zero, Nat.add_assoc, Nat.add_comm 1]

/-- The chunks of the datasets in order, each with the directory of its dataset. -/
def sources (ins : List (MDir × MIndex O)) : List (MDir × ChunkInfo) :=
  ins.flatMap fun p => p.2.chunks.map fun c => (p.1, c)

theorem mergePlan_eq (comp : Option String) (n : Nat) (ins : List (MDir × MIndex O))
    (h : ∀ p ∈ ins, p.2.config.bind (·.compression) = comp) :
    mergePlan n ins = (sources ins).mapIdx fun k p =>
      ({ p.2 with filename := chunkFilename comp 0 (n + k) }, ⟨p.1, p.2.filename, chunkFilename comp 0 (n + k)⟩) := by
  induction ins generalizing n with
  | nil => rfl
  | cons p ins ih =>
    obtain ⟨d, i⟩ := p
    rw [mergePlan, h (d, i) (by simp), ih _ fun q hq => h q (by simp [hq]), renumber_eq]
    simp only [sources, List.flatMap_cons, List.mapIdx_append, List.length_map]
    congr 1
    · simp [List.mapIdx_eq_zipIdx_map, List.zipIdx_map]
    · congr 1
      funext k q
      rw [show n + i.chunks.length + k = n + (k + i.chunks.length) by omega]

theorem runCopies_spec (loc : MDir → String) (out : MDir) (order : List CopyInfo) (fs : MFs O)
    (hn : (order.map (·.new)).Nodup) (hl : ∀ c ∈ order, loc c.inputDir ≠ loc out)
    (hu : ∀ c ∈ order, out.url.isNone = c.inputDir.url.isNone)
    (hs : ∀ c ∈ order, fs (loc c.inputDir) c.old ≠ none) :
    (runCopies loc out order fs).1 = .ok () ∧
    (∀ c ∈ order, (runCopies loc out order fs).2 (loc out) c.new = fs (loc c.inputDir) c.old) ∧
    ∀ l f, (l ≠ loc out ∨ ∀ c ∈ order, c.new ≠ f) → (runCopies loc out order fs).2 l f = fs l f := by
  induction order generalizing fs with
  | nil => simp [runCopies]
  | cons c order ih =>
    have hn' := List.nodup_cons.1 hn
    cases hx : fs (loc c.inputDir) c.old with
    | none => exact absurd hx (hs c (by simp))
    | some x =>
      have ha : applyCopy loc out fs c = .ok (fs.put (loc out) c.new x) := by
        simp [applyCopy, hu c (by simp), hx]
      simp only [runCopies, ha]
      have hput : ∀ c' ∈ order, (fs.put (loc out) c.new x) (loc c'.inputDir) c'.old = fs (loc c'.inputDir) c'.old := by
        intro c' hc'
        have := hl c' (by simp [hc'])
        simp [MFs.put, this]
      obtain ⟨h1, h2, h3⟩ := ih (fs.put (loc out) c.new x) hn'.2 (fun c' h => hl c' (by simp [h]))
        (fun c' h => hu c' (by simp [h])) (fun c' h => by rw [hput c' h]; exact hs c' (by simp [h]))
      refine ⟨h1, ?_, ?_⟩
      · intro c' hc'
        rcases List.mem_cons.1 hc' with rfl | hc'
        · rw [h3 _ _ (Or.inr ?_)]
          · simp [MFs.put, hx]
          · intro c'' hc'' he
            exact hn'.1 (List.mem_map.2 ⟨c'', hc'', he⟩)
        · rw [h2 c' hc', hput c' hc']
      · intro l f hlf
        rw [h3 l f (hlf.imp id fun h c' hc' => h c' (by simp [hc']))]
        unfold MFs.put
        rw [if_neg]
        rintro ⟨rfl, rfl⟩
        rcases hlf with h | h
        · exact h rfl
        · exact h c (by simp) rfl

theorem runCopies_other (loc : MDir → String) (out : MDir) (order : List CopyInfo) (fs : MFs O) (l f : String)
    (h : l ≠ loc out ∨ ∀ c ∈ order, c.new ≠ f) : (runCopies loc out order fs).2 l f = fs l f := by
  induction order generalizing fs with
  | nil => rfl
  | cons c order ih =>
    have h' : l ≠ loc out ∨ ∀ c' ∈ order, c'.new ≠ f := h.imp id fun h c' hc' => h c' (by simp [hc'])
    unfold runCopies
    cases ha : applyCopy loc out fs c with
    | error e => exact ih fs h'
    | ok fs' =>
      simp only
      rw [ih fs' h']
      unfold applyCopy at ha
      split at ha
      · split at ha
        · cases ha
        · cases ha
          unfold MFs.put
          rw [if_neg]
          rintro ⟨rfl, rfl⟩
          rcases h with h | h
          · exact h rfl
          · exact h c (by simp) rfl
      · cases ha

theorem mapM_readIndex (loc : MDir → String) (fs : MFs O) (ins : List (MDir × MIndex O))
    (h : ∀ p ∈ ins, readIndexContent loc fs p.1 = .ok (some p.2)) :
    (ins.map (·.1)).mapM (readIndexContent loc fs) = .ok (ins.map fun p => some p.2) := by
  induction ins with
  | nil => rfl
  | cons p ins ih =>
    rw [List.map_cons, List.mapM_cons, h p (by simp), ih fun q hq => h q (by simp [hq])]
    rfl

theorem checkConfigs_ok (c : MConfig O) (is : List (MIndex O))
    (h : ∀ i ∈ is, ∃ b, i.config = some b ∧ c.dataFormat = b.dataFormat ∧ c.compression = b.compression) :
    checkConfigs (some c) is = .ok () := by
  induction is with
  | nil => rfl
  | cons i is ih =>
    obtain ⟨b, hb, h1, h2⟩ := h i (by simp)
    simp only [checkConfigs, hb, h1, h2]
    rw [if_neg (by simp), if_neg (by simp)]
    have := ih fun j hj => h j (by simp [hj])
    rw [← this]

theorem checkConfigs_bad (c : MConfig O) (is : List (MIndex O)) (hall : ∀ i ∈ is, i.config ≠ none)
    (i : MIndex O) (hi : i ∈ is) (b : MConfig O) (hb : i.config = some b)
    (hne : c.dataFormat ≠ b.dataFormat ∨ c.compression ≠ b.compression) :
    checkConfigs (some c) is = .error .valueError := by
  induction is with
  | nil => cases hi
  | cons j is ih =>
    cases hj : j.config with
    | none => exact absurd hj (hall j (by simp))
    | some a =>
      simp only [checkConfigs, hj]
      split
      · rfl
      · split
        · rfl
        · rcases List.mem_cons.1 hi with rfl | hi
          · rw [hb] at hj
            cases hj
            simp_all
          · exact ih (fun i' h' => hall i' (by simp [h'])) hi

theorem filterMap_some_map {α β : Type} (l : List α) (g : α → β) : (l.map fun p => some (g p)).filterMap id = l.map g := by
  induction l with
  | nil => rfl
  | cons a l ih => simp [ih]

theorem zip_map_self {α β γ : Type} (l : List α) (f : α → β) (g : α → γ) :
    (l.map f).zip (l.map g) = l.map fun a => (f a, g a) := by
  induction l with
  | nil => rfl
  | cons a l ih => simp [ih]

theorem planMerge_of_read (loc : MDir → String) (fs : MFs O) (c : MConfig O) (p : MDir × MIndex O)
    (ins : List (MDir × MIndex O)) (out : MDir) (hne : ins ≠ []) (hout : out ∉ (p :: ins).map (·.1))
    (hread : ∀ q ∈ p :: ins, readIndexContent loc fs q.1 = .ok (some q.2))
    (ho : readIndexContent loc fs out = .ok none) (hc : p.2.config = some c) :
    planMerge loc ((p :: ins).map (·.1)) out fs = (do
      checkConfigs (some c) (ins.map (·.2))
      pure (⟨some c, (mergePlan 0 (p :: ins)).map (·.1)⟩, (mergePlan 0 (p :: ins)).map (·.2))) := by
  unfold planMerge
  rw [if_neg (by cases ins <;> simp_all), if_neg hout, mapM_readIndex loc fs _ hread, ho]
  have h1 : ((p :: ins).map fun q => some q.2).any Option.isNone = false := by simp
  have h2 := filterMap_some_map (p :: ins) fun q => q.2
  have h3 : ((p :: ins).map (·.1)).zip ((p :: ins).map (·.2)) = p :: ins := by
    rw [zip_map_self]; simp
  simp only [List.map_cons] at h1 h2 h3 ⊢
  simp only [bind, Except.bind, h1, h2, h3, hc]
  rfl

/-- `dirs` names complete datasets `ins`: each directory has a readable index. -/
structure MergeInputs (loc : MDir → String) (fs : MFs O) (ins : List (MDir × MIndex O)) (out : MDir) : Prop where
  two : 2 ≤ ins.length
  named : ∀ p ∈ ins, p.1.path ≠ none ∨ p.1.url ≠ none
  index : ∀ p ∈ ins, fs (loc p.1) "index.json" = some (.index p.2)
  other : out ∉ ins.map (·.1)

theorem chunkFilename_ne_index (comp : Option String) (k : Nat) : chunkFilename comp 0 k ≠ "index.json" := by
  intro h
  have h' := congrArg String.toList h
  unfold chunkFilename at h'
  rw [String.toList_ofList] at h'
  generalize Nat.toDigits 10 0 ++ '-' :: (Nat.toDigits 10 k ++ chunkSuffix comp) = z at h'
  have h2 := congrArg List.head? h'
  rw [List.head?_append, show "chunk-".toList.head? = some 'c' by decide +kernel,
    show "index.json".toList.head? = some 'i' by decide +kernel] at h2
  simp at h2

theorem MergeInputs.read {loc : MDir → String} {fs : MFs O} {ins : List (MDir × MIndex O)} {out : MDir}
    (h : MergeInputs loc fs ins out) : ∀ p ∈ ins, readIndexContent loc fs p.1 = .ok (some p.2) := by
  intro p hp
  unfold readIndexContent
  rw [if_neg, h.index p hp]
  rintro ⟨h1, h2⟩
  rcases h.named p hp with h3 | h3
  · exact h3 h2
  · exact h3 h1

/-- **C27.** Let `ins` be two or more datasets with the same data format and compression, all local or all
remote like the output, with every chunk file present, and let the output have no index. Whatever the order
in which the threads copy, `merge_datasets` succeeds and writes an index with the configuration of the first
dataset. Its chunks are those of the inputs, in order; chunk number `k` has its own name `chunk-0-k…`, and the
file of that name has the content of the file it stands for. No other file is changed, in particular none of
the inputs. -/
theorem c27_merged (loc : MDir → String) (sched : List CopyInfo → List CopyInfo) (fs : MFs O)
    (ins : List (MDir × MIndex O)) (out : MDir) (c : MConfig O) (hsched : ∀ l, (sched l).Perm l)
    (hin : MergeInputs loc fs ins out) (hout : fs (loc out) "index.json" = none)
    (hfirst : ins.head?.map (·.2.config) = some (some c))
    (hsame : ∀ p ∈ ins, ∃ b, p.2.config = some b ∧ b.dataFormat = c.dataFormat ∧ b.compression = c.compression)
    (hkind : ∀ p ∈ ins, p.1.url.isNone = out.url.isNone)
    (hfiles : ∀ p ∈ ins, ∀ ch ∈ p.2.chunks, fs (loc p.1) ch.filename ≠ none) :
    let r := mergeDatasets loc sched (ins.map (·.1)) out fs
    let src := ins.flatMap fun p => p.2.chunks.map fun ch => (p.1, ch)
    r.1 = .ok () ∧
    (∃ m : MIndex O, r.2 (loc out) "index.json" = some (.index m) ∧ m.config = some c ∧
      m.chunks.length = src.length ∧
      ∀ k (hk : k < src.length), ∃ ch, m.chunks[k]? = some ch ∧
        ch = { (src[k]).2 with filename := chunkFilename c.compression 0 k } ∧
        r.2 (loc out) ch.filename = fs (loc (src[k]).1) (src[k]).2.filename) ∧
    (∀ l f, l ≠ loc out → r.2 l f = fs l f) ∧
    ∀ f, f ≠ "index.json" → (∀ k, k < src.length → f ≠ chunkFilename c.compression 0 k) → r.2 (loc out) f = fs (loc out) f := by
  intro r src
  have hloc : ∀ p ∈ ins, loc p.1 ≠ loc out := by
    intro p hp he
    have := hin.index p hp
    rw [he, hout] at this
    cases this
  have hro : readIndexContent loc fs out = .ok none := by
    unfold readIndexContent
    split
    · rfl
    · rw [hout]
  have hcomp : ∀ p ∈ ins, p.2.config.bind (·.compression) = c.compression := by
    intro p hp
    obtain ⟨b, hb, _, h2⟩ := hsame p hp
    simp [hb, h2]
  have hplan : planMerge loc (ins.map (·.1)) out fs =
      .ok (⟨some c, (mergePlan 0 ins).map (·.1)⟩, (mergePlan 0 ins).map (·.2)) := by
    cases ins with
    | nil => have := hin.two; simp at this
    | cons p ins =>
      have hne : ins ≠ [] := by
        rintro rfl
        have := hin.two
        simp at this
      have hc : p.2.config = some c := by simpa using hfirst
      rw [planMerge_of_read loc fs c p ins out hne hin.other hin.read hro hc, checkConfigs_ok]
      · rfl
      · intro i hi
        obtain ⟨q, hq, rfl⟩ := List.mem_map.1 hi
        obtain ⟨b, hb, h1, h2⟩ := hsame q (by simp [hq])
        exact ⟨b, hb, h1.symm, h2.symm⟩
  have hmp := mergePlan_eq c.compression 0 ins hcomp
  change mergePlan 0 ins = src.mapIdx _ at hmp
  simp only [Nat.zero_add] at hmp
  generalize hcop : (mergePlan 0 ins).map (·.2) = copies at *
  have hcopies : copies = src.mapIdx fun k p => ⟨p.1, p.2.filename, chunkFilename c.compression 0 k⟩ := by
    rw [← hcop, hmp]
    simp [List.mapIdx_eq_zipIdx_map, Function.comp_def]
  have hget : ∀ k (hk : k < src.length), (⟨(src[k]).1, (src[k]).2.filename, chunkFilename c.compression 0 k⟩ : CopyInfo) ∈ copies := by
    intro k hk
    rw [hcopies, List.mem_mapIdx]
    exact ⟨k, hk, rfl⟩
  have hmem : ∀ ci ∈ copies, ∃ k, ∃ hk : k < src.length,
      ci = ⟨(src[k]).1, (src[k]).2.filename, chunkFilename c.compression 0 k⟩ := by
    intro ci hci
    rw [hcopies, List.mem_mapIdx] at hci
    obtain ⟨k, hk, he⟩ := hci
    exact ⟨k, hk, he.symm⟩
  have hsrc : ∀ k (hk : k < src.length), ∃ p ∈ ins, (src[k]).1 = p.1 ∧ (src[k]).2 ∈ p.2.chunks := by
    intro k hk
    have : src[k] ∈ src := List.getElem_mem hk
    obtain ⟨p, hp, hq⟩ := List.mem_flatMap.1 this
    obtain ⟨ch, hch, he⟩ := List.mem_map.1 hq
    exact ⟨p, hp, by rw [← he], by rw [← he]; exact hch⟩
  have hperm := hsched copies
  have hnd : ((sched copies).map (·.new)).Nodup := by
    refine (hperm.map _).nodup_iff.2 ?_
    rw [hcopies, List.nodup_iff_pairwise_ne, List.pairwise_iff_getElem]
    intro i j hi hj hij he
    simp only [List.getElem_map, List.getElem_mapIdx] at he
    have := (chunkFilename_inj _ _ _ _ _ _ he).2
    omega
  obtain ⟨h1, h2, h3⟩ := runCopies_spec loc out (sched copies) fs hnd
    (by
      intro ci hci
      obtain ⟨k, hk, rfl⟩ := hmem ci (hperm.mem_iff.1 hci)
      obtain ⟨p, hp, he, _⟩ := hsrc k hk
      simp only [he]
      exact hloc p hp)
    (by
      intro ci hci
      obtain ⟨k, hk, rfl⟩ := hmem ci (hperm.mem_iff.1 hci)
      obtain ⟨p, hp, he, _⟩ := hsrc k hk
      simp only [he]
      exact (hkind p hp).symm)
    (by
      intro ci hci
      obtain ⟨k, hk, rfl⟩ := hmem ci (hperm.mem_iff.1 hci)
      obtain ⟨p, hp, he, hc⟩ := hsrc k hk
      simp only [he]
      exact hfiles p hp _ hc)
  have hr : r = (.ok (), (runCopies loc out (sched copies) fs).2.put (loc out) "index.json"
      (.index ⟨some c, (mergePlan 0 ins).map (·.1)⟩)) := by
    simp only [r, mergeDatasets, hplan]
    generalize runCopies loc out (sched copies) fs = z at *
    obtain ⟨z1, z2⟩ := z
    simp only at h1
    subst h1
    rfl
  rw [hr]
  refine ⟨rfl, ⟨⟨some c, (mergePlan 0 ins).map (·.1)⟩, by simp [MFs.put], rfl, by simp [hmp], ?_⟩, ?_, ?_⟩
  · intro k hk
    refine ⟨{ (src[k]).2 with filename := chunkFilename c.compression 0 k }, ?_, rfl, ?_⟩
    · simp only [hmp, List.getElem?_map, List.getElem?_mapIdx, List.getElem?_eq_getElem hk, Option.map_some]
    · simp only [MFs.put]
      rw [if_neg (by simp [chunkFilename_ne_index])]
      exact h2 _ (hperm.mem_iff.2 (hget k hk))
  · intro l f hl
    simp only [MFs.put]
    rw [if_neg (by simp [hl])]
    exact h3 l f (Or.inl hl)
  · intro f hf hk
    simp only [MFs.put]
    rw [if_neg (by simp [hf])]
    refine h3 _ f (Or.inr ?_)
    intro ci hci he
    obtain ⟨k, hk', rfl⟩ := hmem ci (hperm.mem_iff.1 hci)
    exact hk k hk' he.symm

/-- **C27, refusals.** Fewer than two directories, the output among the inputs, an input without an index, an
output with an index (also when the output is another spelling of an input directory), a data format or a
compression that differs from that of the first: each raises `ValueError`, and nothing has been written. -/
theorem c27_refused (loc : MDir → String) (sched : List CopyInfo → List CopyInfo) (fs : MFs O) (dirs : List MDir)
    (out : MDir) :
    (dirs.length < 2 → mergeDatasets loc sched dirs out fs = (.error .valueError, fs)) ∧
    (out ∈ dirs → mergeDatasets loc sched dirs out fs = (.error .valueError, fs)) ∧
    ((∀ d ∈ dirs, ∀ b, fs (loc d) "index.json" ≠ some (.data b)) →
      (∃ d ∈ dirs, fs (loc d) "index.json" = none) → mergeDatasets loc sched dirs out fs = (.error .valueError, fs)) ∧
    (∀ ins : List (MDir × MIndex O), dirs = ins.map (·.1) → MergeInputs loc fs ins out →
      (out.path ≠ none ∨ out.url ≠ none) → (∃ i, fs (loc out) "index.json" = some (.index i)) →
      mergeDatasets loc sched dirs out fs = (.error .valueError, fs)) ∧
    (∀ (p : MDir × MIndex O) (ins : List (MDir × MIndex O)) (a b : MConfig O) (q : MDir × MIndex O),
      dirs = (p :: ins).map (·.1) → MergeInputs loc fs (p :: ins) out → fs (loc out) "index.json" = none →
      (∀ x ∈ p :: ins, x.2.config ≠ none) → p.2.config = some a → q ∈ ins → q.2.config = some b →
      (a.dataFormat ≠ b.dataFormat ∨ a.compression ≠ b.compression) →
      mergeDatasets loc sched dirs out fs = (.error .valueError, fs)) := by
  have fin : planMerge loc dirs out fs = .error .valueError → mergeDatasets loc sched dirs out fs = (.error .valueError, fs) := by
    intro h
    simp only [mergeDatasets, h]
  refine ⟨fun h => fin ?_, fun h => fin ?_, fun hj h => fin ?_, ?_, ?_⟩
  · unfold planMerge; rw [if_pos (by omega)]
  · unfold planMerge
    rw [if_pos h]
    split <;> rfl
  · unfold planMerge
    split
    · rfl
    · split
      · rfl
      · have key : ∀ ds : List MDir, (∀ d ∈ ds, ∀ b, fs (loc d) "index.json" ≠ some (.data b)) →
            ∃ cs, ds.mapM (readIndexContent loc fs) = .ok cs ∧
              ((∃ d ∈ ds, fs (loc d) "index.json" = none) → cs.any Option.isNone = true) := by
          intro ds hds
          induction ds with
          | nil => exact ⟨[], rfl, by simp⟩
          | cons d ds ih =>
            obtain ⟨cs, h1, h2⟩ := ih fun d' hd' => hds d' (by simp [hd'])
            have hd : ∃ x, readIndexContent loc fs d = .ok x ∧ (fs (loc d) "index.json" = none → x = none) := by
              unfold readIndexContent
              split
              · exact ⟨none, rfl, fun _ => rfl⟩
              · cases hx : fs (loc d) "index.json" with
                | none => exact ⟨none, rfl, fun _ => rfl⟩
                | some y =>
                  cases y with
                  | index i => exact ⟨some i, rfl, by simp⟩
                  | data b => exact absurd hx (hds d (by simp) b)
            obtain ⟨x, hx, hx'⟩ := hd
            refine ⟨x :: cs, ?_, ?_⟩
            · rw [List.mapM_cons, hx, h1]; rfl
            · rintro ⟨d', hd', hn⟩
              rw [List.any_cons, Bool.or_eq_true]
              rcases List.mem_cons.1 hd' with rfl | hd'
              · exact Or.inl (by rw [hx' hn]; rfl)
              · exact Or.inr (h2 ⟨d', hd', hn⟩)
        obtain ⟨cs, h1, h2⟩ := key dirs hj
        simp only [h1, bind, Except.bind, h2 h, if_true]
        rfl
  · rintro ins rfl hin hnamed ⟨i, hi⟩
    refine fin ?_
    unfold planMerge
    rw [if_neg (by have := hin.two; simp; omega), if_neg hin.other, mapM_readIndex loc fs ins hin.read]
    have h1 : (ins.map fun q => some q.2).any Option.isNone = false := by simp
    have h2 : readIndexContent loc fs out = .ok (some i) := by
      unfold readIndexContent
      rw [if_neg (by rintro ⟨h1, h2⟩; rcases hnamed with h | h; exact h h2; exact h h1), hi]
    simp only [bind, Except.bind, h1, h2]
    rfl
  · rintro p ins a b q rfl hin ho hall ha hq hb hne
    refine fin ?_
    have hro : readIndexContent loc fs out = .ok none := by
      unfold readIndexContent
      split
      · rfl
      · rw [ho]
    have hne' : ins ≠ [] := by rintro rfl; cases hq
    rw [planMerge_of_read loc fs a p ins out hne' hin.other hin.read hro ha,
      checkConfigs_bad a (ins.map (·.2)) ?_ q.2 (List.mem_map.2 ⟨q, hq, rfl⟩) b hb hne]
    · rfl
    · intro i hi
      obtain ⟨x, hx, rfl⟩ := List.mem_map.1 hi
      exact hall x (by simp [hx])

theorem mergePlan_new {ins : List (MDir × MIndex O)} {n : Nat} : ∀ p ∈ mergePlan n ins, ∃ comp k, p.2.new = chunkFilename comp 0 k := by
  induction ins generalizing n with
  | nil => intro p hp; cases hp
  | cons q ins ih =>
    obtain ⟨d, i⟩ := q
    intro p hp
    rw [mergePlan] at hp
    rcases List.mem_append.1 hp with hp | hp
    · rw [renumber_eq, List.mem_mapIdx] at hp
      obtain ⟨k, hk, he⟩ := hp
      exact ⟨_, _, by rw [← he]⟩
    · exact ih p hp

/-- **C27, whatever happens.** The inputs, and everything else outside the output directory, are left as they
were; and if the call raises – a chunk file is missing, a local dataset is merged into a remote one – the output
has no new index, so that no incomplete dataset can be read there. -/
theorem c27_safe (loc : MDir → String) (sched : List CopyInfo → List CopyInfo) (fs : MFs O) (dirs : List MDir)
    (out : MDir) (hsched : ∀ l, (sched l).Perm l) :
    let r := mergeDatasets loc sched dirs out fs
    (∀ l f, l ≠ loc out → r.2 l f = fs l f) ∧
    (r.1 ≠ .ok () → r.2 (loc out) "index.json" = fs (loc out) "index.json") := by
  intro r
  cases hp : planMerge loc dirs out fs with
  | error e =>
    have : r = (.error e, fs) := by simp only [r, mergeDatasets, hp]
    rw [this]
    exact ⟨fun _ _ _ => rfl, fun _ => rfl⟩
  | ok x =>
    obtain ⟨index, copies⟩ := x
    have hnew : ∀ ci ∈ sched copies, ci.new ≠ "index.json" := by
      intro ci hci
      have hci := (hsched copies).mem_iff.1 hci
      have hcop : ∃ ins : List (MDir × MIndex O), copies = (mergePlan 0 ins).map (·.2) := by
        unfold planMerge at hp
        split at hp
        · cases hp
        · split at hp
          · cases hp
          · cases hm : dirs.mapM (readIndexContent loc fs) with
            | error e => rw [hm] at hp; cases hp
            | ok cs =>
              rw [hm] at hp
              simp only [bind, Except.bind] at hp
              split at hp
              · cases hp
              · split at hp
                · cases hp
                · split at hp
                  · cases hp
                  · split at hp
                    · cases hp
                    · split at hp
                      · cases hp
                      · simp only [pure, Except.pure, Except.ok.injEq, Prod.mk.injEq] at hp
                        exact ⟨_, hp.2.symm⟩
      obtain ⟨ins, rfl⟩ := hcop
      obtain ⟨p, hp, rfl⟩ := List.mem_map.1 hci
      obtain ⟨comp, k, h⟩ := mergePlan_new p hp
      rw [h]
      exact chunkFilename_ne_index comp k
    have h1 := fun l f h => runCopies_other loc out (sched copies) fs l f h
    have hr : r = (match runCopies loc out (sched copies) fs with
      | (.error e, fs') => (.error e, fs')
      | (.ok (), fs') => (.ok (), fs'.put (loc out) "index.json" (.index index))) := by
      simp only [r, mergeDatasets, hp]
      rfl
    rw [hr]
    generalize runCopies loc out (sched copies) fs = z at *
    obtain ⟨z1, z2⟩ := z
    cases z1 with
    | error e =>
      exact ⟨fun l f hl => h1 l f (Or.inl hl), fun _ => h1 _ _ (Or.inr hnew)⟩
    | ok u =>
      refine ⟨fun l f hl => ?_, fun h => absurd rfl h⟩
      simp only [MFs.put]
      rw [if_neg (by simp [hl])]
      exact h1 l f (Or.inl hl)

/-- Two local datasets; the second has other settings (`other`), an encryption for instance. -/
def mergeDemo : MFs String := fun l f =>
  if l = "/a" then
    if f = "index.json" then some (.index ⟨some ⟨["int"], none, "plain"⟩, [⟨"chunk-0-0.bin", 2, 10, none⟩, ⟨"chunk-1-0.bin", 2, 10, none⟩]⟩)
    else if f = "chunk-0-0.bin" then some (.data [1]) else if f = "chunk-1-0.bin" then some (.data [2]) else none
  else if l = "/b" then
    if f = "index.json" then some (.index ⟨some ⟨["int"], none, "encrypted"⟩, [⟨"chunk-0-0.bin", 3, 20, none⟩]⟩)
    else if f = "chunk-0-0.bin" then some (.data [3]) else none
  else none

/-- The local directory of a name. -/
def localDir (p : String) : MDir := ⟨some p, none⟩

/-- The place of a directory: its path or URL. -/
def demoLoc (d : MDir) : String := (d.path.orElse fun _ => d.url).getD ""

/-- **C27, refuted for the rest of the configuration.** Only the data format and the compression are compared:
chunks written with another encryption, item loader or nesting of the samples (`data_spec`) are merged, and
listed under the configuration of the first dataset. -/
theorem c27_other_config_ignored :
    let r := mergeDatasets demoLoc id [localDir "/a", localDir "/b"] (localDir "/o") mergeDemo
    r.1 = .ok () ∧
    r.2 "/o" "index.json" = some (.index ⟨some ⟨["int"], none, "plain"⟩,
      [⟨"chunk-0-0.bin", 2, 10, none⟩, ⟨"chunk-0-1.bin", 2, 10, none⟩, ⟨"chunk-0-2.bin", 3, 20, none⟩]⟩) ∧
    r.2 "/o" "chunk-0-2.bin" = some (.data [3]) := by decide +kernel

/-- **C27, a limit.** A dataset without any chunk has no configuration, and cannot be merged: `TypeError`. -/
theorem c27_empty_dataset_raises (fs : MFs O) (loc : MDir → String) (sched : List CopyInfo → List CopyInfo)
    (p : MDir × MIndex O) (q : MDir × MIndex O) (out : MDir) (hin : MergeInputs loc fs [p, q] out)
    (ho : fs (loc out) "index.json" = none) (h : q.2.config = none) :
    mergeDatasets loc sched [p.1, q.1] out fs = (.error .typeError, fs) := by
  have hro : readIndexContent loc fs out = .ok none := by
    unfold readIndexContent
    split
    · rfl
    · rw [ho]
  have hplan : planMerge loc [p.1, q.1] out fs = .error .typeError := by
    unfold planMerge
    have hm := mapM_readIndex loc fs [p, q] hin.read
    have ho' := hin.other
    simp only [List.map_cons, List.map_nil] at hm ho'
    rw [if_neg (by simp), if_neg ho', hm]
    simp only [bind, Except.bind, hro, Option.isSome, List.any_cons, Option.isNone, List.any_nil, Bool.or_false]
    simp only [List.filterMap_cons, id, List.filterMap_nil, checkConfigs, h]
    cases p.2.config <;> rfl
  simp only [mergeDatasets, hplan]

example : ∃ ins : List (MDir × MIndex String), ins.map (·.1) = [localDir "/a", localDir "/b"] ∧
    MergeInputs demoLoc mergeDemo ins (localDir "/o") ∧ mergeDemo (demoLoc (localDir "/o")) "index.json" = none ∧
    (∀ p ∈ ins, ∃ b, p.2.config = some b ∧ b.dataFormat = ["int"] ∧ b.compression = none) ∧
    (∀ p ∈ ins, p.1.url.isNone = (localDir "/o").url.isNone) ∧
    ∀ p ∈ ins, ∀ ch ∈ p.2.chunks, mergeDemo (demoLoc p.1) ch.filename ≠ none :=
  ⟨[(localDir "/a", ⟨some ⟨["int"], none, "plain"⟩, [⟨"chunk-0-0.bin", 2, 10, none⟩, ⟨"chunk-1-0.bin", 2, 10, none⟩]⟩),
    (localDir "/b", ⟨some ⟨["int"], none, "encrypted"⟩, [⟨"chunk-0-0.bin", 3, 20, none⟩]⟩)], rfl,
   ⟨by decide, by decide, by decide +kernel, by decide⟩, by decide +kernel,
   by simp, by decide, by decide +kernel⟩

end LitData.Props
