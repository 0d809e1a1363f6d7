import Verif.Props.AppendRun
import Verif.Props.OptimizeNodes

/-! Property C81 with several nodes: from the inputs of `optimize` on several machines to the batches of a training loop. -/

namespace LitData.Props
open LitData Spec

/-- The inputs are dealt out to the nodes and their workers, each of which handles its share in some order: what is read back are the outputs for all inputs. -/
theorem nodes_read {β α : Type} (read : Bytes → Py α) (inputs : List β) (fn : β → List (Bytes × Option Nat)) (out : β → List α)
    (hread : ∀ b ∈ inputs, (fn b).map (fun p => read p.1) = (out b).map .ok) (N W : Nat) (hN : 0 < N) (hW : 0 < W) (items : Nat → Nat → Nat)
    (shares : Nat → List (List β)) (hshares : ∀ n, n < N → mapSequentially N n W inputs = .ok (shares n))
    (hitems : ∀ n w, n < N → w < W → items n w = ((shares n).getD w []).length) :
    (∀ n, n < N → (shares n).length = W) ∧
    (∀ n w i, n < N → w < W → i < items n w → ∃ b ∈ inputs, ((shares n).getD w [])[i]? = some b) ∧
    ∀ (orders : Nat → List (List Nat)), (∀ n, n < N → (orders n).length = W) →
      (∀ (n w : Nat) (o : List Nat), n < N → (orders n)[w]? = some o → o.Perm (List.range (items n w))) →
      ∃ zs : List α, ((nodeOrder N).flatMap fun n =>
          (inRankOrder (fromRank (n * W) ((orders n).mapIdx fun w o => o.flatMap fun i => (((shares n).getD w [])[i]?).elim [] fn))).map (·.1)).map read = zs.map .ok ∧
        zs.Perm (inputs.flatMap out) := by
  obtain ⟨outsN, h1, h2, h3, _⟩ := c23_sequential N W inputs hW
  have h3 := h3 hN
  have hsh : ∀ n, n < N → outsN[n]? = some (shares n) ∧ (shares n).length = W := by
    intro n hn
    have hlt : n < outsN.length := by omega
    obtain ⟨h4, h5⟩ := h2 n outsN[n] (List.getElem?_eq_getElem hlt)
    rw [hshares n hn] at h4
    injection h4 with h4
    rw [h4]
    exact ⟨List.getElem?_eq_getElem hlt, h5⟩
  have hall : (List.range N).flatMap (fun n => (shares n).flatten) = inputs := by
    rw [← h3, List.flatMap_def, List.flatten_flatten]
    congr 1
    apply List.ext_getElem
    · simp [h1]
    · intro i a1 a2
      simp only [List.length_map, List.length_range] at a1
      have := (hsh i a1).1
      rw [List.getElem?_eq_getElem (by omega)] at this
      injection this with this
      simp [this]
  have hmem : ∀ n w i, n < N → w < W → i < items n w → ∃ b ∈ inputs, ((shares n).getD w [])[i]? = some b := by
    intro n w i hn hw hi
    rw [hitems n w hn hw] at hi
    refine ⟨_, ?_, List.getElem?_eq_getElem hi⟩
    rw [← hall, List.mem_flatMap]
    refine ⟨n, List.mem_range.2 hn, List.mem_flatten.2 ⟨(shares n).getD w [], ?_, List.getElem_mem _⟩⟩
    have := (hsh n hn).2
    rw [List.getD_eq_getElem?_getD, List.getElem?_eq_getElem (by omega), Option.getD_some]
    exact List.getElem_mem _
  refine ⟨fun n hn => (hsh n hn).2, hmem, ?_⟩
  intro orders k1 hperm
  have hsum : ((List.range N).flatMap fun n => (List.range W).flatMap fun w => (List.range (items n w)).flatMap fun i =>
      ((((shares n).getD w [])[i]?).elim [] out)) = inputs.flatMap out := by
    rw [← hall, List.flatMap_assoc, List.flatMap_def, List.flatMap_def]
    congr 1
    apply List.map_congr_left
    intro n hn
    have hn := List.mem_range.1 hn
    rw [← range_flatMap_list (shares n), (hsh n hn).2, List.flatMap_assoc, List.flatMap_def, List.flatMap_def]
    congr 1
    apply List.map_congr_left
    intro w hw
    rw [hitems n w hn (List.mem_range.1 hw), range_flatMap_get]
  have hw : ∀ n, n < N → ((orders n).mapIdx fun w o => o.flatMap fun i => (((shares n).getD w [])[i]?).elim [] fn).map (fun l => l.map fun p => read p.1) =
      ((orders n).mapIdx fun w o => o.flatMap fun i => (((shares n).getD w [])[i]?).elim [] out).map fun l => l.map Except.ok := by
    intro n hn
    apply List.ext_getElem
    · simp
    · intro i g1 g2
      simp only [List.length_map, List.length_mapIdx] at g1
      simp only [List.getElem_map, List.getElem_mapIdx, List.map_flatMap]
      have hp := hperm n i _ hn (List.getElem?_eq_getElem g1)
      have := k1 n hn
      rw [List.flatMap_def, List.flatMap_def]
      congr 1
      apply List.map_congr_left
      intro j hj'
      obtain ⟨b, hb, hbi⟩ := hmem n i j hn (by omega) (List.mem_range.1 (hp.mem_iff.1 hj'))
      simp only [hbi, Option.elim_some]
      exact hread b hb
  refine ⟨(nodeOrder N).flatMap fun n => inRankOrder (fromRank (n * W)
      ((orders n).mapIdx fun w o => o.flatMap fun i => (((shares n).getD w [])[i]?).elim [] out)), ?_, ?_⟩
  · rw [List.map_flatMap, List.map_flatMap, List.flatMap_def, List.flatMap_def]
    congr 1
    apply List.map_congr_left
    intro n hn
    have hn : n < N := List.mem_range.1 ((nodeOrder_perm N).mem_iff.1 hn)
    rw [List.map_map, ← inRankOrder_map (Except.ok), fromRank_map, ← hw n hn, ← fromRank_map, inRankOrder_map]
    rfl
  · refine ((nodeOrder_perm N).flatMap_right _).trans ?_
    rw [← hsum]
    apply range_flatMap_perm
    intro n hn
    refine (inRankOrder_perm _).trans ?_
    rw [fromRank_flatten, mapIdx_flatten _ _ [], k1 n hn]
    apply range_flatMap_perm
    intro w hw
    have hlt : w < (orders n).length := by rw [k1 n hn]; exact hw
    have := hperm n w _ hn (List.getElem?_eq_getElem hlt)
    have e : (orders n).getD w [] = (orders n)[w] := by rw [List.getD_eq_getElem?_getD, List.getElem?_eq_getElem hlt, Option.getD_some]
    rw [e]
    exact this.flatMap_right _

/-- **C81 on several nodes.** The processes of `optimize` on each of `N` nodes under any schedule, then the nodes put their indexes together in any order, then the
dataset is opened from the text of the final index and streamed in batches by any number of ranks: the batches hold exactly the outputs for all inputs. -/
theorem c81_nodes {β : Type} (wcfg : WriterCfg) (comp : Option Compressor) (hcomp : ∀ c, comp = some c → Compressor.Lossless c)
    (enc : Option Encryption) (hsound : ∀ e, enc = some e → Encryption.Sound e) (penv : PyEnv) (available : List String) (sers : Table LeafTree)
    (config : IndexConfig) (formats : List String) (stext : String) (spec : TSpec) (hc1 : config.compression = comp.map (·.name)) (hc2 : config.encryption = enc.map Encryption.config)
    (hc3 : config.dataFormat = some formats) (hc4 : config.dataSpec = some stext) (hc5 : config.itemLoader = some "PyTreeLoader")
    (hspec : treespecLoads penv stext = .ok spec) (hknown : ∀ f ∈ formats, KnownFormat (sers.map (·.1)) f)
    (hav : ∀ c, comp = some c → c.name ∈ available) (N W : Nat) (hN : 0 < N) (hW : 0 < W)
    (inputs : List β) (fn : β → List (Bytes × Option Nat)) (out : β → List LeafTree)
    (hread : ∀ b ∈ inputs, (fn b).map (fun p => readSample sers formats spec p.1) = (out b).map .ok) (hfew : (inputs.flatMap out).length < 2 ^ 53)
    (cfg : Nat → PipeCfg (WriterState × Nat) (List WItem)) (remote0 : Nat → FName → Option (List WItem)) (nonce : Nat → Nat → Nat → Nat → Nat) (nc : Nat → Nat → Nat)
    (shares : Nat → List (List β)) (hshares : ∀ n, n < N → mapSequentially N n W inputs = .ok (shares n))
    (hcfg : ∀ n, n < N → (cfg n).workers = W ∧ 0 < (cfg n).downloaders ∧ 0 < (cfg n).uploaders ∧ (cfg n).faulty = false ∧ PathsDisjoint (cfg n))
    (hitems : ∀ n w, n < N → w < W → (cfg n).items w = ((shares n).getD w []).length)
    (hj : ∀ n w, n < N → w < W → (cfg n).job w = writerJob wcfg (comp.map (·.name)) (globalRank n W w) 0 fun i =>
      some (workerItems enc (nonce n w i) ((((shares n).getD w [])[i]?).elim [] fn)))
    (hpos : wcfg.chunkSize = 0 ∨ ∀ b ∈ inputs, ∀ p ∈ fn b, ∀ k, encryptItem enc k p.1 ≠ [])
    (hfit : ∀ n w (order : List Nat), n < N → w < W → order.Perm (List.range ((cfg n).items w)) →
      ChunksFit wcfg 0 (order.flatMap fun i => workerItems enc (nonce n w i) ((((shares n).getD w [])[i]?).elim [] fn)))
    (hsome : ∀ n, n < N → ∃ b ∈ (shares n).flatten, fn b ≠ [])
    (s : Nat → PWorld (WriterState × Nat) (List WItem)) (h : ∀ n, n < N → PReach (cfg n) (remote0 n) (s n) ∧ Final (cfg n) (s n))
    (bucket : FName → Option (List WItem))
    (hb : ∀ n w k, n < N → w < W → bucket (chunkFilename (comp.map (·.name)) (n * W + w) k) = (s n).remote (chunkFilename (comp.map (·.name)) (n * W + w) k)) :
    (∀ n, n < N → (s n).main = .indexed) ∧ ∃ (orders : Nat → List (List Nat)) (infos : Nat → List (List ChunkInfo)),
      (∀ n, n < N → (orders n).length = W ∧ (infos n).length = W) ∧
      (∀ (n w : Nat) (o : List Nat) (cs : List ChunkInfo), n < N → (orders n)[w]? = some o → (infos n)[w]? = some cs →
        o.Perm (List.range ((cfg n).items w)) ∧
        workerIndex wcfg comp enc (nc (n * W + w)) (n * W + w) (o.flatMap fun i => workerItems enc (nonce n w i) ((((shares n).getD w [])[i]?).elim [] fn)) = .ok cs) ∧
      ∀ (out0 : String → Option (IndexData IndexConfig)) (cache0 : Nat → CacheDir IndexConfig), (∀ n, n < N → out0 (nodeIndexName n) = none) →
        (∀ n, n < N → WorkersDone config (fromRank (n * W) (infos n)) (cache0 n)) →
        ∀ (k : Nat) (S : NodesWorld IndexConfig), NodesReach true N none out0 cache0 k S → (∀ S', ¬ NodeStep true N none S S') →
        ∃ chunks, S.out "index.json" = some ⟨chunks, some config⟩ ∧
        ∀ (updated : Option String) (draw : Nat → Option (List Nat → List Nat)), Perms draw →
        ∃ o, openDataset penv available true (some (indexText updated chunks config)) ⟨none, Dbl.one, draw, sers, fun _ => true⟩ = .ok o ∧
          ∀ (fs : String → Option Bytes) (join : String → String), (∀ a b, join a = join b → a = b) → HoldsChunks comp enc nc (N * W) bucket fs join →
          ∀ (ranks nw bs epoch : Nat), 0 < ranks → 0 < nw → 0 < bs →
            (∀ (perm : Nat → List Nat → List Nat) (sh : Shuffler) (nn : Nat), (∀ e l, (perm e l).Perm l) → (∀ a n e k, (sh a n e k).Perm a) → epoch = 1 ∨ nn = 1 →
              ∃ pieces, fullShuffleAssign perm o.intervals ranks nn false nw bs epoch = .ok pieces ∧ pieces.length = ranks * nw ∧
                EpochGives o fs join enc o.read sh ranks nw bs epoch pieces (inputs.flatMap out)) ∧
            ∃ pieces, noShuffleAssign o.intervals ranks false nw bs = .ok pieces ∧ pieces.length = ranks * nw ∧
              EpochGives o fs join enc o.read noShuffler ranks nw bs epoch pieces (inputs.flatMap out) := by
  obtain ⟨hlen, hmem, hzs⟩ := nodes_read (readSample sers formats spec) inputs fn out hread N W hN hW (fun n => (cfg n).items) shares hshares hitems
  obtain ⟨hm, orders, infos, k1, k2, k3⟩ := c63_dataset wcfg comp hcomp enc config N W hN hW cfg remote0 (fun n w i => (((shares n).getD w [])[i]?).elim [] fn)
    nonce nc hcfg hj (by
      rcases hpos with hp | hp
      · exact Or.inl hp
      · right
        intro n w i hn hw hi x hx
        obtain ⟨b, hb, hbi⟩ := hmem n w i hn hw hi
        simp only [hbi, Option.elim_some, workerItems, List.mem_mapIdx] at hx
        obtain ⟨j, hj', rfl⟩ := hx
        exact hp b hb _ (List.getElem_mem _) _) hfit (by
      intro n hn
      obtain ⟨b, hb, hne⟩ := hsome n hn
      obtain ⟨l, hl, hb⟩ := List.mem_flatten.1 hb
      obtain ⟨w, hw, rfl⟩ := List.getElem_of_mem hl
      obtain ⟨i, hi, rfl⟩ := List.getElem_of_mem hb
      have hwW : w < W := by rw [← hlen n hn]; exact hw
      have e : (shares n).getD w [] = (shares n)[w] := by
        rw [List.getD_eq_getElem?_getD, List.getElem?_eq_getElem hw, Option.getD_some]
      refine ⟨w, i, hwW, ?_, ?_⟩
      · rw [hitems n w hn hwW, e]; exact hi
      · rw [e, List.getElem?_eq_getElem hi]; exact hne) s h bucket hb
  refine ⟨hm, orders, infos, k1, fun n w o cs hn ho hcs => ⟨(k2 n w o cs hn ho hcs).1, (k2 n w o cs hn ho hcs).2.2⟩, ?_⟩
  intro out0 cache0 hout hdone k S hS hstuck
  obtain ⟨chunks, items, m1, m2, m3, m4, m5⟩ := k3 out0 cache0 hout hdone k S hS hstuck
  obtain ⟨zs, z1, z2⟩ := hzs orders (fun n hn => (k1 n hn).1) (by
    intro n w o hn ho
    obtain ⟨e1, e2⟩ := k1 n hn
    have hlt : w < W := e1 ▸ (List.getElem?_eq_some_iff.1 ho).1
    exact (k2 n w o (infos n)[w] hn ho (List.getElem?_eq_getElem (by omega))).1)
  have hne : inputs.flatMap out ≠ [] := by
    obtain ⟨b, hb, hf⟩ := hsome 0 hN
    obtain ⟨l, hl, hb⟩ := List.mem_flatten.1 hb
    obtain ⟨w, hw, rfl⟩ := List.getElem_of_mem hl
    obtain ⟨i, hi, rfl⟩ := List.getElem_of_mem hb
    have hwW : w < W := by rw [← hlen 0 hN]; exact hw
    have e : (shares 0).getD w [] = (shares 0)[w] := by
      rw [List.getD_eq_getElem?_getD, List.getElem?_eq_getElem hw, Option.getD_some]
    obtain ⟨b', hb', eb⟩ := hmem 0 w i hN hwW (by rw [hitems 0 w hN hwW, e]; exact hi)
    rw [e, List.getElem?_eq_getElem hi, Option.some.injEq] at eb
    rw [eb] at hf
    intro e0
    have := hread b' hb'
    rw [(List.flatMap_eq_nil_iff.1 e0) b' hb'] at this
    simp only [List.map_nil, List.map_eq_nil_iff] at this
    exact hf this
  refine ⟨chunks, m1, ?_⟩
  intro updated draw hdraw
  obtain ⟨o, g1, _, g2⟩ := dataset_gives (comp.map (·.name)) enc hsound penv available sers config formats stext spec hc1 hc2 hc3 hc4 hc5 hspec hknown (by
      intro c hc
      obtain ⟨c', h1, rfl⟩ := Option.map_eq_some_iff.1 hc
      exact hav c' h1)
    chunks items m3 m4 zs (by rw [m5]; exact z1) (fun e => hne ((e ▸ z2).nil_eq.symm)) (by rw [z2.length_eq]; exact hfew) updated draw hdraw
  refine ⟨o, g1, ?_⟩
  intro fs join hjoin hholds ranks nw bs epoch hW' hnw hbs
  obtain ⟨n1, n2⟩ := m2 fs join hholds
  obtain ⟨b1, b2⟩ := g2 fs join hjoin n1 n2 ranks nw bs epoch hW' hnw hbs
  constructor
  · intro perm sh nn hpm hsh hone
    obtain ⟨pieces, p1, p2, p3⟩ := b1 perm sh nn hpm hsh hone
    exact ⟨pieces, p1, p2, p3.perm z2⟩
  · obtain ⟨pieces, p1, p2, p3⟩ := b2 false
    rw [if_neg (by simp), List.take_length] at p3
    exact ⟨pieces, p1, p2, p3.perm z2⟩

/-- The seven inputs on two nodes with two workers each, with the samples of `runFn`. -/
def nodesRunPipe (n : Nat) : PipeCfg (WriterState × Nat) (List WItem) where
  workers := 2
  downloaders := 1
  uploaders := 2
  inputDir := false
  outPath := true
  cloud := true
  faulty := false
  items := fun w => ((nodesDemoShares n).getD w []).length
  paths := fun _ _ => []
  job := fun w => writerJob ⟨2, 0⟩ (some "toy") (n * 2 + w) 0 fun i =>
    some (workerItems none (fun _ => 0) ((((nodesDemoShares n).getD w [])[i]?).elim [] runFn))

/-- The hypotheses of `c81_nodes` are met: seven inputs on two nodes, read by two ranks with two workers each in batches of two. -/
example : ∃ (text : String) (o : Opened LeafTree) (fs : String → Option Bytes) (pieces : List (List Piece)),
    openDataset ⟨fun _ => none, fun _ => false⟩ ["toy"] true (some text) ⟨none, Dbl.one, fun _ => none, builtins demoSerEnv, fun _ => true⟩ = .ok o ∧
    fullShuffleAssign (fun _ l => l.reverse) o.intervals 2 1 false 2 2 3 = .ok pieces ∧
    EpochGives o fs id none o.read (fun l _ _ _ => l.reverse) 2 2 2 3 pieces ((List.range 7).flatMap runOut) := by
  have hs := fun n => reaches_final (PReach.start (cfg := nodesRunPipe n) (remote0 := fun _ => none))
  obtain ⟨s, hs⟩ := Classical.axiomOfChoice hs
  obtain ⟨bucket, hb⟩ := bucket_exists (some "toy") 2 2 fun n => (s n).remote
  have two : ∀ n, n < 2 → n = 0 ∨ n = 1 := by omega
  obtain ⟨stext, _, hst⟩ := c11_structure_survives ⟨fun _ => none, fun _ => false⟩ .leaf trivial
  obtain ⟨_, orders, infos, _, _, h3⟩ := c81_nodes ⟨2, 0⟩ (some toyCompressor) (fun c h => by cases h; exact toyCompressor_lossless)
    none (fun _ h => by cases h) ⟨fun _ => none, fun _ => false⟩ ["toy"] (builtins demoSerEnv)
    ⟨some "toy", some 2, none, some ["bytes"], some stext, none, some "PyTreeLoader"⟩ ["bytes"] stext .leaf rfl rfl rfl rfl rfl hst
    (by
      intro f hf
      simp only [List.mem_singleton] at hf
      subst hf
      exact .inl ⟨by decide, by simp [builtins]⟩)
    (by
      intro c hc
      cases hc
      simp [toyCompressor])
    2 2 (by decide) (by decide) (List.range 7) runFn runOut (by
      intro b hb
      simp only [List.mem_range] at hb
      have : b = 0 ∨ b = 1 ∨ b = 2 ∨ b = 3 ∨ b = 4 ∨ b = 5 ∨ b = 6 := by omega
      rcases this with rfl | rfl | rfl | rfl | rfl | rfl | rfl <;> rfl)
    (by decide) nodesRunPipe (fun _ _ => none)
    (fun _ _ _ _ => 0) (fun _ _ => 0) nodesDemoShares (by decide)
    (fun n _ => ⟨rfl, Nat.one_pos, Nat.two_pos, rfl, fun _ _ _ _ _ _ _ _ _ _ hp => by simp [nodesRunPipe] at hp⟩) (fun _ _ _ _ => rfl) (fun _ _ _ _ => rfl)
    (Or.inr (by
      intro b _ p hp n
      simp only [runFn, List.mem_map] at hp
      obtain ⟨j, _, rfl⟩ := hp
      simp [encryptItem]))
    (by
      intro n w order hn hw hp
      have hpf := hp.flatMap_right fun i => workerItems none (fun _ => 0) ((((nodesDemoShares n).getD w [])[i]?).elim [] runFn)
      have hmap := (hpf.map fun x => x.data.length)
      apply chunksFit_of_total
      · left
        intro x hx
        rw [hpf.mem_iff] at hx
        have : ∀ n < 2, ∀ w < 2, ∀ x ∈ (List.range ((nodesRunPipe n).items w)).flatMap (fun i => workerItems none (fun _ => 0)
          ((((nodesDemoShares n).getD w [])[i]?).elim [] runFn)), x.data ≠ [] := by decide +kernel
        exact this n hn w hw x hx
      · rw [hpf.length_eq, hmap.sum_nat]
        have : ∀ n < 2, ∀ w < 2, 8 + 4 * ((List.range ((nodesRunPipe n).items w)).flatMap (fun i => workerItems none (fun _ => 0)
          ((((nodesDemoShares n).getD w [])[i]?).elim [] runFn))).length +
          (((List.range ((nodesRunPipe n).items w)).flatMap (fun i => workerItems none (fun _ => 0)
          ((((nodesDemoShares n).getD w [])[i]?).elim [] runFn))).map fun x => x.data.length).sum < 2 ^ 32 := by
          decide +kernel
        exact this n hn w hw)
    (by
      intro n hn
      rcases two n hn with rfl | rfl
      · exact ⟨1, by decide, by decide⟩
      · exact ⟨4, by decide, by decide⟩)
    s (fun n _ => hs n) bucket hb
  have hd := fun n => workersDone_exists (⟨some "toy", some 2, none, some ["bytes"], some stext, none, some "PyTreeLoader"⟩ : IndexConfig) (fromRank (n * 2) (infos n))
  obtain ⟨cache0, hd⟩ := Classical.axiomOfChoice hd
  obtain ⟨k, S, hS, hstuck⟩ := nodes_reach_final true 2 none (fun _ => none) cache0
  obtain ⟨fs, hfs⟩ := holdsChunks_exists (some toyCompressor) none (fun _ _ => 0) (2 * 2) bucket
  obtain ⟨chunks, _, h4⟩ := h3 (fun _ => none) cache0 (fun _ _ => rfl) (fun n _ => hd n) k S hS hstuck
  obtain ⟨o, h5, h6⟩ := h4 none (fun _ => none) demo_perms
  obtain ⟨h7, _⟩ := h6 fs id (fun _ _ h => h) hfs 2 2 2 3 (by decide) (by decide) (by decide)
  obtain ⟨pieces, p1, _, p3⟩ := h7 (fun _ l => l.reverse) (fun l _ _ _ => l.reverse) 1 (fun _ l => List.reverse_perm l) (fun l _ _ _ => List.reverse_perm l) (.inr rfl)
  exact ⟨_, o, fs, pieces, h5, p1, p3⟩

end LitData.Props
