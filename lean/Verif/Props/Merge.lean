import Verif.Lemmas.Merge

/-! Property C14: merging the index files of the workers. -/

namespace LitData.Props
open LitData

/-- All workers are done: worker `r` has written the chunks `ws[r]`, an index file is there for each
worker with chunks, and there are no other index files. -/
structure WorkersDone {C : Type} (c : C) (ws : List (List ChunkInfo)) (d : CacheDir C) : Prop where
  names : (d.map (·.1)).Nodup
  index : ∀ (r : Nat) (cs : List ChunkInfo), ws[r]? = some cs → cs ≠ [] → (rankIndexName r, .index ⟨cs, some c⟩) ∈ d
  only : ∀ e ∈ d, isIndexName e.1 = true → ∃ (r : Nat) (cs : List ChunkInfo), ws[r]? = some cs ∧ cs ≠ [] ∧ e.1 = rankIndexName r

/-- The ranks that have written chunks. -/
def busyRanks (ws : List (List ChunkInfo)) : List Nat := (List.range ws.length).filter fun r => (ws.getD r []) != []

theorem busyRanks_mem (ws : List (List ChunkInfo)) (r : Nat) :
    r ∈ busyRanks ws ↔ ∃ cs, ws[r]? = some cs ∧ cs ≠ [] := by
  unfold busyRanks
  rw [List.mem_filter, List.mem_range, List.getD_eq_getElem?_getD]
  constructor
  · rintro ⟨h1, h2⟩
    rw [List.getElem?_eq_getElem h1, Option.getD_some] at h2
    exact ⟨ws[r], List.getElem?_eq_getElem h1, by simpa using h2⟩
  · rintro ⟨cs, h1, h2⟩
    rw [h1]
    exact ⟨(List.getElem?_eq_some_iff.1 h1).1, by simpa using h2⟩

theorem range_flatMap_getD (ws : List (List ChunkInfo)) : (List.range ws.length).flatMap (fun r => ws.getD r []) = ws.flatten := by
  rw [List.flatMap_def]
  congr 1
  apply List.ext_getElem
  · simp
  · intro i h1 h2
    simp only [List.getElem_map, List.getElem_range, List.getD_eq_getElem?_getD]
    rw [List.getElem?_eq_getElem h2, Option.getD_some]

theorem busyRanks_flatMap (ws : List (List ChunkInfo)) : (busyRanks ws).flatMap (fun r => ws.getD r []) = ws.flatten := by
  rw [← range_flatMap_getD ws]
  unfold busyRanks
  generalize List.range ws.length = l
  induction l with
  | nil => rfl
  | cons a l ih =>
    rw [List.filter_cons]
    split
    · simp only [List.flatMap_cons, ih]
    · rename_i h
      have : ws.getD a [] = [] := by simpa using h
      rw [ih, List.flatMap_cons, this, List.nil_append]

/-- The index files present are those of the busy ranks. -/
theorem workersDone_names {C : Type} {c : C} {ws : List (List ChunkInfo)} {d : CacheDir C} (h : WorkersDone c ws d) :
    ((d.map (·.1)).filter isIndexName).Perm ((busyRanks ws).map rankIndexName) := by
  rw [List.perm_ext_iff_of_nodup (h.names.filter _)]
  · intro f
    rw [List.mem_filter, List.mem_map, List.mem_map]
    constructor
    · rintro ⟨⟨e, he, rfl⟩, hi⟩
      obtain ⟨r, cs, h1, h2, h3⟩ := h.only e he hi
      exact ⟨r, (busyRanks_mem ws r).2 ⟨cs, h1, h2⟩, h3.symm⟩
    · rintro ⟨r, hr, rfl⟩
      obtain ⟨cs, h1, h2⟩ := (busyRanks_mem ws r).1 hr
      exact ⟨⟨_, h.index r cs h1 h2, rfl⟩, isIndexName_rank r⟩
  · rw [List.nodup_iff_pairwise_ne, List.pairwise_map]
    refine List.Pairwise.imp ?_ (List.Pairwise.filter _ (List.nodup_iff_pairwise_ne.1 List.nodup_range))
    intro a b hab he
    exact hab (rankIndexName_inj a b he)

/-- Everything about the merge: chunks are taken in the order of the sorted file names. -/
theorem merge_run {C : Type} [DecidableEq C] (c : C) (ws : List (List ChunkInfo)) (d : CacheDir C) (h : WorkersDone c ws d)
    (existing : List ChunkInfo) (old : Option (IndexData C)) (hold : old = none ∧ existing = [] ∨ old = some ⟨existing, some c⟩)
    (rs : List Nat) (hrs : sortBy strLe ((d.map (·.1)).filter isIndexName) = rs.map rankIndexName) :
    ∃ d', mergeNoWait none old d = (.ok (), d') ∧
      dirGet d' "index.json" = some (.index ⟨existing ++ rs.flatMap (fun r => ws.getD r []),
        if rs = [] ∧ old = none then none else some c⟩) ∧
      (∀ f, isIndexName f = false → dirGet d' f = dirGet d f) ∧
      (∀ e ∈ d', isIndexName e.1 = true → e.1 = "index.json") := by
  have hmem : ∀ f, f ∈ rs.map rankIndexName ↔ f ∈ (busyRanks ws).map rankIndexName := by
    intro f
    rw [← hrs, (sortBy_perm _ _).mem_iff, (workersDone_names h).mem_iff]
  have hget : ∀ f ∈ rs.map rankIndexName, dirGet d f = some (.index ⟨(match dirGet d f with
      | some (.index i) => i.chunks
      | _ => []), some c⟩) := by
    intro f hf
    rw [hmem, List.mem_map] at hf
    obtain ⟨r, hr, rfl⟩ := hf
    obtain ⟨cs, h1, h2⟩ := (busyRanks_mem ws r).1 hr
    rw [dirGet_mem d h.names _ _ (h.index r cs h1 h2)]
  have hdat : (rs.map rankIndexName).flatMap (fun f => match dirGet d f with
      | some (.index i) => i.chunks
      | _ => []) = rs.flatMap (fun r => ws.getD r []) := by
    rw [List.flatMap_def, List.flatMap_def, List.map_map]
    congr 1
    apply List.map_congr_left
    intro r hr
    have := (hmem (rankIndexName r)).1 (List.mem_map_of_mem hr)
    rw [List.mem_map] at this
    obtain ⟨r', hr', he⟩ := this
    rw [rankIndexName_inj _ _ he] at hr'
    obtain ⟨cs, h1, h2⟩ := (busyRanks_mem ws r).1 hr'
    simp only [Function.comp_apply]
    rw [dirGet_mem d h.names _ _ (h.index r cs h1 h2)]
    simp [List.getD_eq_getElem?_getD, h1]
  have hnd : (rs.map rankIndexName).Nodup := by
    rw [← hrs]; exact (sortBy_perm _ _).nodup_iff.2 (h.names.filter _)
  have hidx : ∀ f ∈ rs.map rankIndexName, isIndexName f = true := by
    intro f hf
    rw [List.mem_map] at hf
    obtain ⟨r, _, rfl⟩ := hf
    exact isIndexName_rank r
  obtain ⟨d', h1, h2, h3⟩ := mergeLoop_ok c _ (rs.map rankIndexName) hnd d hget (old.getD ⟨[], none⟩)
    (by rcases hold with ⟨h, _⟩ | h <;> rw [h] <;> simp)
  refine ⟨dirWrite d' "index.json" _, by unfold mergeNoWait; rw [hrs, h1], ?_, ?_, ?_⟩
  · rw [dirGet_write, hdat]
    congr 3
    · rcases hold with ⟨h, h'⟩ | h <;> rw [h]
      · rw [h']; rfl
      · rfl
    · rcases hold with ⟨h, h'⟩ | h <;> rw [h] <;> simp
  · intro f hf
    rw [dirGet_write_ne _ _ _ _ (by intro e; subst e; exact absurd hf (by decide)), h2]
    intro hm
    rw [hidx f hm] at hf
    exact Bool.noConfusion hf
  · intro e he hi
    unfold dirWrite at he
    rcases List.mem_append.1 he with he | he
    · have he := (List.mem_filter.1 he).1
      obtain ⟨h4, h5⟩ := (h3 e).1 he
      exfalso
      apply h5
      rw [hmem, ← (workersDone_names h).mem_iff, List.mem_filter]
      exact ⟨List.mem_map_of_mem h4, hi⟩
    · simp only [List.mem_singleton] at he
      rw [he]

/-- **C14.** After all workers are done, for any number of workers, the merged index has the existing
chunks (append mode) followed by every chunk of every worker exactly once, the chunks of one worker
staying together in their order. The other files are left alone and no other index file remains. -/
theorem c14_merge_keeps_all {C : Type} [DecidableEq C] (c : C) (ws : List (List ChunkInfo)) (d : CacheDir C)
    (h : WorkersDone c ws d) (existing : List ChunkInfo) (old : Option (IndexData C))
    (hold : old = none ∧ existing = [] ∨ old = some ⟨existing, some c⟩) :
    ∃ (d' : CacheDir C) (cfg : Option C) (rs : List Nat), mergeNoWait none old d = (.ok (), d') ∧
      dirGet d' "index.json" = some (.index ⟨existing ++ rs.flatMap (fun r => ws.getD r []), cfg⟩) ∧
      (existing ++ rs.flatMap (fun r => ws.getD r [])).Perm (existing ++ ws.flatten) ∧
      (ws.flatten ≠ [] ∨ old ≠ none → cfg = some c) ∧
      (∀ f, isIndexName f = false → dirGet d' f = dirGet d f) ∧
      (∀ e ∈ d', isIndexName e.1 = true → e.1 = "index.json") := by
  have hp := (sortBy_perm strLe _).trans (workersDone_names h)
  -- the sorted names are names of ranks
  have hex : ∃ rs : List Nat, sortBy strLe ((d.map (·.1)).filter isIndexName) = rs.map rankIndexName := by
    have : ∀ f ∈ sortBy strLe ((d.map (·.1)).filter isIndexName), ∃ r, f = rankIndexName r := by
      intro f hf
      obtain ⟨r, _, e⟩ := List.mem_map.1 (hp.mem_iff.1 hf)
      exact ⟨r, e.symm⟩
    generalize sortBy strLe ((d.map (·.1)).filter isIndexName) = l at this
    induction l with
    | nil => exact ⟨[], rfl⟩
    | cons a l ih =>
      obtain ⟨r, hr⟩ := this a (by simp)
      obtain ⟨rs, hrs⟩ := ih (fun f hf => this f (by simp [hf]))
      exact ⟨r :: rs, by rw [hr, hrs, List.map_cons]⟩
  obtain ⟨rs, hrs⟩ := hex
  have hrp : rs.Perm (busyRanks ws) := by
    rw [hrs] at hp
    have hinj : ∀ a b : List Nat, a.map rankIndexName = b.map rankIndexName → a = b := by
      intro a
      induction a with
      | nil => intro b h; cases b <;> simp_all
      | cons x a ih =>
        intro b h
        cases b with
        | nil => simp at h
        | cons y b =>
          simp only [List.map_cons, List.cons.injEq] at h
          rw [rankIndexName_inj _ _ h.1, ih b h.2]
    rw [List.perm_ext_iff_of_nodup]
    · intro r
      have := hp.mem_iff (a := rankIndexName r)
      simp only [List.mem_map] at this
      constructor
      · intro hr
        obtain ⟨r', h1, h2⟩ := this.1 ⟨r, hr, rfl⟩
        rw [← rankIndexName_inj _ _ h2]; exact h1
      · intro hr
        obtain ⟨r', h1, h2⟩ := this.2 ⟨r, hr, rfl⟩
        rw [← rankIndexName_inj _ _ h2]; exact h1
    · have : (rs.map rankIndexName).Nodup := by
        rw [← hrs]; exact (sortBy_perm _ _).nodup_iff.2 (h.names.filter _)
      rw [List.nodup_iff_pairwise_ne, List.pairwise_map] at this
      exact List.nodup_iff_pairwise_ne.2 (this.imp fun hab e => hab (by rw [e]))
    · exact List.nodup_range.filter _
  obtain ⟨d', h1, h2, h3, h4⟩ := merge_run c ws d h existing old hold rs hrs
  refine ⟨d', _, rs, h1, h2, ?_, ?_, h3, h4⟩
  · apply List.Perm.append_left
    rw [← busyRanks_flatMap ws]
    exact hrp.flatMap_right _
  · intro hne
    rw [if_neg]
    rintro ⟨rfl, ho⟩
    rcases hne with hne | hne
    · apply hne
      rw [← busyRanks_flatMap ws, hrp.nil_eq.symm]
      rfl
    · exact hne ho

/-- The names of the index files of ranks below ten are sorted by rank. -/
theorem rankIndexName_sorted : ∀ a, a < 10 → ∀ b, b < 10 → a < b → strLe (rankIndexName a) (rankIndexName b) = true := by
  decide +kernel

/-- **C14, order.** With at most ten workers the chunks are listed worker by worker in increasing rank. -/
theorem c14_rank_order_partial {C : Type} [DecidableEq C] (c : C) (ws : List (List ChunkInfo)) (hw : ws.length ≤ 10)
    (d : CacheDir C) (h : WorkersDone c ws d) (existing : List ChunkInfo) (old : Option (IndexData C))
    (hold : old = none ∧ existing = [] ∨ old = some ⟨existing, some c⟩) :
    ∃ d' cfg, mergeNoWait none old d = (.ok (), d') ∧
      dirGet d' "index.json" = some (.index ⟨existing ++ ws.flatten, cfg⟩) ∧
      (ws.flatten ≠ [] ∨ old ≠ none → cfg = some c) ∧
      (∀ f, isIndexName f = false → dirGet d' f = dirGet d f) := by
  have hs : sortBy strLe ((d.map (·.1)).filter isIndexName) = (busyRanks ws).map rankIndexName := by
    apply sortNames_eq _ _ (workersDone_names h)
    rw [List.pairwise_map]
    unfold busyRanks
    have hlt : (List.range ws.length).Pairwise (fun a b => a < 10 ∧ b < 10 ∧ a < b) := by
      rw [List.pairwise_iff_getElem]
      intro i j hi hj hij
      rw [List.length_range] at hi hj
      simp only [List.getElem_range]
      omega
    exact (hlt.filter _).imp fun ⟨ha, hb, hab⟩ => rankIndexName_sorted _ ha _ hb hab
  obtain ⟨d', h1, h2, h3, _⟩ := merge_run c ws d h existing old hold (busyRanks ws) hs
  rw [busyRanks_flatMap] at h2
  refine ⟨d', _, h1, h2, fun hne => ?_, h3⟩
  rw [if_neg]
  rintro ⟨hb, ho⟩
  rcases hne with hne | hne
  · apply hne
    rw [← busyRanks_flatMap ws, hb]
    rfl
  · exact hne ho

/-- **C14 fails for eleven workers or more**: names are sorted as text, so all chunks of rank 10 are
listed before those of rank 2. -/
theorem c14_eleven_workers_out_of_order {C : Type} [DecidableEq C] (c : C) (ws : List (List ChunkInfo)) (c2 c10 : List ChunkInfo)
    (h2 : ws[2]? = some c2) (h10 : ws[10]? = some c10) (hne2 : c2 ≠ []) (hne10 : c10 ≠ [])
    (d : CacheDir C) (h : WorkersDone c ws d) :
    ∃ d' cfg A B D, mergeNoWait none none d = (.ok (), d') ∧
      dirGet d' "index.json" = some (.index ⟨A ++ c10 ++ (B ++ c2 ++ D), cfg⟩) := by
  have hp := (sortBy_perm strLe _).trans (workersDone_names h)
  have hex : ∃ rs : List Nat, sortBy strLe ((d.map (·.1)).filter isIndexName) = rs.map rankIndexName := by
    have : ∀ f ∈ sortBy strLe ((d.map (·.1)).filter isIndexName), ∃ r, f = rankIndexName r := by
      intro f hf
      obtain ⟨r, _, e⟩ := List.mem_map.1 (hp.mem_iff.1 hf)
      exact ⟨r, e.symm⟩
    generalize sortBy strLe ((d.map (·.1)).filter isIndexName) = l at this
    induction l with
    | nil => exact ⟨[], rfl⟩
    | cons a l ih =>
      obtain ⟨r, hr⟩ := this a (by simp)
      obtain ⟨rs, hrs⟩ := ih (fun f hf => this f (by simp [hf]))
      exact ⟨r :: rs, by rw [hr, hrs, List.map_cons]⟩
  obtain ⟨rs, hrs⟩ := hex
  have hsorted := sortNames_pairwise ((d.map (·.1)).filter isIndexName)
  have hin : ∀ r cs, ws[r]? = some cs → cs ≠ [] → r ∈ rs := by
    intro r cs h1 h2
    have : rankIndexName r ∈ rs.map rankIndexName := by
      rw [← hrs, hp.mem_iff]
      exact List.mem_map_of_mem ((busyRanks_mem ws r).2 ⟨cs, h1, h2⟩)
    obtain ⟨r', h3, h4⟩ := List.mem_map.1 this
    rw [← rankIndexName_inj _ _ h4]
    exact h3
  rw [hrs, List.pairwise_map] at hsorted
  obtain ⟨A, B, D, e⟩ := pairwise_before _ rs hsorted 10 2 (hin 10 c10 h10 hne10) (hin 2 c2 h2 hne2) (by decide) (by decide +kernel)
  obtain ⟨d', h3, h4, _⟩ := merge_run c ws d h [] none (Or.inl ⟨rfl, rfl⟩) rs hrs
  refine ⟨d', if rs = [] ∧ (none : Option (IndexData C)) = none then none else some c, A.flatMap (fun r => ws.getD r []), B.flatMap (fun r => ws.getD r []), D.flatMap (fun r => ws.getD r []), h3, ?_⟩
  rw [h4]
  congr 3
  rw [e]
  simp only [List.flatMap_append, List.flatMap_cons, List.getD_eq_getElem?_getD, h2, h10, Option.getD_some, List.nil_append,
    List.append_assoc]

/-- **C14, configurations.** If two index files have different configurations, the merge raises and no
index is written. -/
theorem c14_config_mismatch {C : Type} [DecidableEq C] (d : CacheDir C) (hn : (d.map (·.1)).Nodup)
    (hi : ∀ e ∈ d, isIndexName e.1 = true → ∃ x, e.2 = .index x) (hno : dirGet d "index.json" = none)
    (f g : String) (x y : IndexData C) (a b : C)
    (hf : (f, .index x) ∈ d) (hg : (g, .index y) ∈ d) (hfi : isIndexName f = true) (hgi : isIndexName g = true)
    (hx : x.config = some a) (hy : y.config = some b) (hab : a ≠ b) (node : Option Nat) (old : Option (IndexData C)) :
    (mergeNoWait node old d).1 = .error .exception ∧ dirGet (mergeNoWait node old d).2 "index.json" = none := by
  have hmem : ∀ e, e ∈ sortBy strLe ((d.map (·.1)).filter isIndexName) ↔ e ∈ d.map (·.1) ∧ isIndexName e = true := by
    intro e
    rw [(sortBy_perm _ _).mem_iff, List.mem_filter]
  have hnd : (sortBy strLe ((d.map (·.1)).filter isIndexName)).Nodup := (sortBy_perm _ _).nodup_iff.2 (hn.filter _)
  have hall : ∀ e ∈ sortBy strLe ((d.map (·.1)).filter isIndexName), ∃ x, dirGet d e = some (.index x) := by
    intro e he
    obtain ⟨h1, h2⟩ := (hmem e).1 he
    obtain ⟨p, hp, rfl⟩ := List.mem_map.1 h1
    obtain ⟨x, hx⟩ := hi p hp h2
    exact ⟨x, dirGet_mem d hn _ _ (by rw [← hx]; exact hp)⟩
  have hno' : "index.json" ∉ sortBy strLe ((d.map (·.1)).filter isIndexName) := by
    intro he
    obtain ⟨x, hx⟩ := hall _ he
    rw [hno] at hx
    simp at hx
  have hdir := mergeLoop_dir (sortBy strLe ((d.map (·.1)).filter isIndexName)) d (old.getD ⟨[], none⟩) "index.json" hno'
  have hcfg := mergeLoop_config (sortBy strLe ((d.map (·.1)).filter isIndexName)) hnd d
    (mergeLoop (sortBy strLe ((d.map (·.1)).filter isIndexName)) d (old.getD ⟨[], none⟩)).2 (old.getD ⟨[], none⟩)
  have herr := mergeLoop_error (sortBy strLe ((d.map (·.1)).filter isIndexName)) hnd d (old.getD ⟨[], none⟩) hall
  unfold mergeNoWait
  generalize mergeLoop (sortBy strLe ((d.map (·.1)).filter isIndexName)) d (old.getD ⟨[], none⟩) = r at hdir hcfg herr
  obtain ⟨r1, r2⟩ := r
  cases r1 with
  | error e =>
    simp only
    rw [herr e rfl]
    exact ⟨rfl, by rw [hdir, hno]⟩
  | ok i =>
    exfalso
    obtain ⟨_, h1⟩ := hcfg i rfl
    have hmf := (hmem f).2 ⟨List.mem_map_of_mem hf, hfi⟩
    have hmg := (hmem g).2 ⟨List.mem_map_of_mem hg, hgi⟩
    obtain ⟨x', hx', hx''⟩ := h1 f hmf
    obtain ⟨y', hy', hy''⟩ := h1 g hmg
    rw [dirGet_mem d hn _ _ hf] at hx'
    rw [dirGet_mem d hn _ _ hg] at hy'
    injection hx' with hx'; injection hx' with hx'
    injection hy' with hy'; injection hy' with hy'
    subst hx' hy'
    have h2 := hx'' a hx
    have h3 := hy'' b hy
    rw [h2] at h3
    injection h3 with h3
    exact hab h3

/-- **The failed merge is not harmless**: the index files read before the mismatch are already removed, so
merging again succeeds and gives an index without their chunks. -/
theorem c14_retry_loses_chunks :
    (mergeNoWait none none ([(rankIndexName 0, .index ⟨[⟨"chunk-0-0.bin", 5, 9, none⟩], some 1⟩),
        (rankIndexName 1, .index ⟨[⟨"chunk-1-0.bin", 5, 9, none⟩], some 2⟩)] : CacheDir Nat)).1 = .error .exception ∧
    dirGet (mergeNoWait none none (mergeNoWait none none ([(rankIndexName 0, .index ⟨[⟨"chunk-0-0.bin", 5, 9, none⟩], some 1⟩),
        (rankIndexName 1, .index ⟨[⟨"chunk-1-0.bin", 5, 9, none⟩], some 2⟩)] : CacheDir Nat)).2).2 "index.json" =
      some (.index ⟨[⟨"chunk-1-0.bin", 5, 9, none⟩], some 2⟩) := by decide +kernel

/-- **A node without output breaks the merge of the nodes**: its index has `config: null`, which differs
from the configuration of an earlier node. -/
theorem c14_empty_node_fails :
    (mergeNoWait none none ([(nodeIndexName 0, .index ⟨[⟨"chunk-0-0.bin", 5, 9, none⟩], some 1⟩),
        (nodeIndexName 1, .index ⟨[], none⟩)] : CacheDir Nat)).1 = .error .exception ∧
    dirGet (mergeNoWait (some 1) none ([] : CacheDir Nat)).2 (nodeIndexName 1) = some (.index ⟨[], none⟩) := by decide +kernel

/-- **`merge` waits for ever if a worker wrote no chunk**: such a worker writes no index file, and the
number of index files never reaches the number of workers. -/
theorem c14_waits_for_idle_worker {C : Type} (c : C) (ws : List (List ChunkInfo)) (d : CacheDir C) (h : WorkersDone c ws d)
    (world workers : Nat) (hw : ws.length = world * workers) (hidle : [] ∈ ws) : mergeReady world workers d = false := by
  unfold mergeReady
  rw [Bool.or_eq_false_iff]
  refine ⟨?_, ?_⟩
  · apply Bool.eq_false_iff.mpr
    intro hc
    rw [List.contains_iff_mem] at hc
    obtain ⟨e, he, h1⟩ := List.mem_map.1 hc
    obtain ⟨r, _, _, _, h2⟩ := h.only e he (by rw [h1]; decide)
    exact rankIndexName_ne_index r (by rw [← h2, h1])
  · rw [decide_eq_false_iff_not, (workersDone_names h).length_eq, List.length_map, ← hw]
    intro he
    unfold busyRanks at he
    obtain ⟨i, hi, h0⟩ := List.getElem_of_mem hidle
    have : i ∈ (List.range ws.length).filter fun r => (ws.getD r []) != [] := by
      rw [List.filter_eq_self.2 (List.length_filter_eq_length_iff.1 (by rw [he, List.length_range]))]
      exact List.mem_range.2 hi
    have := (List.mem_filter.1 this).2
    rw [List.getD_eq_getElem?_getD, List.getElem?_eq_getElem hi, h0] at this
    simp at this

/-- A cache directory of three workers, one of them without chunks. -/
def demoCache : CacheDir Nat :=
  [(rankIndexName 2, .index ⟨[⟨"chunk-2-0.bin", 5, 9, none⟩], some 1⟩), ("chunk-0-0.bin", .data [1]),
   (rankIndexName 0, .index ⟨[⟨"chunk-0-0.bin", 5, 9, none⟩, ⟨"chunk-0-1.bin", 4, 9, none⟩], some 1⟩)]

def demoWs : List (List ChunkInfo) :=
  [[⟨"chunk-0-0.bin", 5, 9, none⟩, ⟨"chunk-0-1.bin", 4, 9, none⟩], [], [⟨"chunk-2-0.bin", 5, 9, none⟩]]

example : WorkersDone 1 demoWs demoCache := by
  refine ⟨by decide +kernel, ?_, ?_⟩
  · intro r cs h h'
    match r with
    | 0 => simp only [demoWs, List.getElem?_cons_zero, Option.some.injEq] at h; subst h; simp [demoCache]
    | 1 => simp [demoWs] at h; exact absurd h h'
    | 2 => simp [demoWs] at h; subst h; simp [demoCache]
    | n + 3 => simp [demoWs] at h
  · intro e he hi
    simp only [demoCache, List.mem_cons, List.not_mem_nil, or_false] at he
    rcases he with rfl | rfl | rfl
    · exact ⟨2, _, rfl, by simp, rfl⟩
    · exact absurd hi (by decide +kernel)
    · exact ⟨0, _, rfl, by simp, rfl⟩

example : mergeReady 1 3 demoCache = false ∧
    dirGet (mergeNoWait none none demoCache).2 "index.json" = some (.index ⟨demoWs.flatten, some 1⟩) := by decide +kernel

end LitData.Props
