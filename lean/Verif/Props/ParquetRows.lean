import Verif.Props.ParquetIndex
import Verif.Props.ParquetLayout

/-!
Exactly when a directory of parquet files is read rightly in low-memory mode (C55), and how many samples each index of a dataset stands for.
-/

namespace LitData.Props

open LitData Spec

/-- Every row of every file has an index, at which the loader of the chunk is asked for it. -/
theorem index_of_row {X : Type} (chunks : List ChunkInfo) (items : List (List X)) (hsl : chunks.length = items.length) :
    ∃ ivs, generateIntervals (some (items.map fun l => (0, l.length))) 0 0 chunks = .ok ivs ∧
      ∀ (k j : Nat) (l : List X), items[k]? = some l → j < l.length → ∃ i begin, items.flatten[i]? = l[j]? ∧ i < items.flatten.length ∧
        ∀ {S Y : Type} (load : S → Nat → Nat → Nat → Py (Y × S)) (st : S),
          lookupGets load ivs st [i] = match load st k (begin + j) begin with
            | .error e => .error e
            | .ok (x, _) => .ok [x] := by
  -- the rows are replaced by their places
  obtain ⟨tags, htags⟩ : ∃ tags : List (List (Nat × Nat)), tags = items.zipIdx.map fun x => (List.range x.1.length).map fun j => (x.2, j) := ⟨_, rfl⟩
  have htl : tags.length = items.length := by simp [htags]
  have htk : ∀ (k : Nat) (l : List X), items[k]? = some l → tags[k]? = some ((List.range l.length).map fun j => (k, j)) := by
    intro k l hl
    simp only [htags, List.getElem?_map, List.getElem?_zipIdx, hl, Option.map_some, Nat.zero_add]
  have hroi : (tags.map fun (l : List (Nat × Nat)) => ((0, l.length) : Nat × Nat)) = items.map fun (l : List X) => ((0, l.length) : Nat × Nat) := by
    apply List.ext_getElem?
    intro k
    rw [List.getElem?_map, List.getElem?_map]
    cases hl : items[k]? with
    | none => rw [List.getElem?_eq_none (by rw [htl]; exact List.getElem?_eq_none_iff.1 hl)]; rfl
    | some l => rw [htk k l hl]; simp
  obtain ⟨ivs, g1, -, -, g4⟩ := reads_any (S := Unit) (X := Nat × Nat) (fun st k i b => if i < b then .error .indexError else .ok ((k, i - b), st)) chunks tags (hsl.trans htl.symm)
    (tags.map fun l => (0, l.length)) (by simp [htl, hsl]) (by
      intro k l r hl hr
      rw [List.getElem?_map, hl, Option.map_some, Option.some.injEq] at hr
      subst hr
      simp) (fun _ => True) () trivial (by
      intro st k l begin j x _ hl hx
      refine ⟨(), ?_, trivial⟩
      cases hi : items[k]? with
      | none => rw [List.getElem?_eq_none (by rw [htl]; exact List.getElem?_eq_none_iff.1 hi)] at hl; cases hl
      | some m =>
        rw [htk k m hi, Option.some.injEq] at hl
        subst hl
        rw [List.getElem?_map] at hx
        cases hr : (List.range m.length)[j]? with
        | none => rw [hr] at hx; cases hx
        | some j' =>
          rw [hr, Option.map_some, Option.some.injEq] at hx
          have hj' : j' = j := by
            have := List.getElem?_eq_some_iff.1 hr
            obtain ⟨h1, h2⟩ := this
            simpa using h2.symm
          subst hj' hx
          simp)
  rw [roiItems_whole] at g4
  refine ⟨ivs, by rw [← hroi]; exact g1, ?_⟩
  intro k j l hl hj
  have hmem : (k, j) ∈ tags.flatten := List.mem_flatten.2 ⟨_, List.mem_of_getElem? (htk k l hl), List.mem_map.2 ⟨j, List.mem_range.2 hj, rfl⟩⟩
  obtain ⟨i, hi⟩ := List.getElem?_of_mem hmem
  have hil := (List.getElem?_eq_some_iff.1 hi).1
  obtain ⟨xs, r1, r2⟩ := g4 [i] (by intro x hx; rw [List.mem_singleton.1 hx]; exact hil)
  have hxs : xs = [(k, j)] := by
    rw [List.map_cons, List.map_nil, hi] at r2
    cases xs with
    | nil => simp at r2
    | cons x xs => simp at r2; rw [r2.1, r2.2]
  subst hxs
  -- the row at that index
  have hflat : tags.flatten.map (fun x => (items[x.1]?.bind fun m => m[x.2]?)) = items.flatten.map some := by
    have : ∀ (its : List (List X)) (n : Nat), (∀ k m, its[k]? = some m → items[n + k]? = some m) →
        ((its.zipIdx n).map fun x => (List.range x.1.length).map fun j => (x.2, j)).flatten.map (fun x => (items[x.1]?.bind fun m => m[x.2]?)) = its.flatten.map some := by
      intro its
      induction its with
      | nil => intro n _; rfl
      | cons m its ih =>
        intro n hn
        rw [List.zipIdx_cons, List.map_cons, List.flatten_cons, List.map_append, List.flatten_cons, List.map_append, ih (n + 1) (by
          intro k m' hm'
          have := hn (k + 1) m' (by simpa using hm')
          rw [show n + 1 + k = n + (k + 1) by omega]
          exact this)]
        congr 1
        rw [List.map_map]
        have h0 : items[n]? = some m := by simpa using hn 0 m rfl
        apply List.ext_getElem?
        intro q
        rw [List.getElem?_map, List.getElem?_map]
        by_cases hq : q < m.length
        · rw [List.getElem?_range hq, List.getElem?_eq_getElem hq]
          simp [Function.comp, h0, hq]
        · rw [List.getElem?_eq_none (by simpa using hq), List.getElem?_eq_none (by omega)]
          rfl
    rw [htags]
    exact this items 0 (fun k m h => by simpa using h)
  have hlen : tags.flatten.length = items.flatten.length := by
    have := congrArg List.length hflat
    rwa [List.length_map, List.length_map] at this
  have hrow : items.flatten[i]? = l[j]? := by
    have := congrArg (fun l => l[i]?) hflat
    simp only [List.getElem?_map, hi, Option.map_some, hl, Option.bind_some] at this
    cases hx : items.flatten[i]? with
    | none => rw [hx] at this; cases this
    | some y => rw [hx] at this; exact (Option.some.inj this).symm
  -- where the index leads
  unfold lookupGets at r1
  cases hc : chunkFromIndex ivs i with
  | error e => rw [hc] at r1; cases r1
  | ok x =>
    obtain ⟨real, k'⟩ := x
    rw [hc] at r1
    simp only at r1
    cases hv : ivs[k']? with
    | none => rw [hv] at r1; cases r1
    | some iv =>
      rw [hv] at r1
      by_cases hlt : real < iv.chunkStart
      · simp only [if_pos hlt] at r1; cases r1
      · simp only [if_neg hlt, lookupGets, Except.ok.injEq, List.cons.injEq, Prod.mk.injEq, and_true] at r1
        obtain ⟨hk, hj'⟩ := r1
        subst hk
        refine ⟨i, iv.chunkStart, hrow, by omega, ?_⟩
        intro S Y load st
        rw [show iv.chunkStart + j = real by omega]
        unfold lookupGets
        rw [hc]
        simp only [hv, lookupGets]
        cases load st k' real iv.chunkStart with
        | error e => rfl
        | ok x => rfl

/-- A file that low-memory mode reads rightly: it has no rows, or its row groups have the size of the first one, except a last one with rows that is shorter. -/
def LowFile {R : Type} (f : ParquetFile R) : Prop := f.flatten = [] ∨ ∃ g0 gs, f = g0 :: gs ∧ 0 < g0.length ∧ LowLayout g0.length f

/-- **C55, exactly when low-memory mode is right.** Under the conditions of `c55_rows_partial` on the names, the column types and the files in the cache, and for files whose rows
differ: all sequences of indices give the rows with these numbers if and only if every matching file has row groups of the size of its first one, except a last one with rows that is
shorter. -/
theorem c55_low_iff {R : Type} (env : PqEnv R) (kind : PqKind) (dir : List PqEntry) (m : PqEntry → PqMeta) (ty : List String)
    (h : ∀ e ∈ pqListing kind dir, HasMeta env kind e (m e) ∧ (m e).columns.map (·.2) = ty)
    (hnames : ((pqListing kind dir).map fun e => basename e.name).Nodup)
    (hrows : ∀ e ∈ pqListing kind dir, (m e).numRows = (env.groups e.data).flatten.length)
    (fnmatch : Option (String → Bool)) (sel : List PqEntry)
    (hsel : sel = (pqListing kind dir).filter fun e => fnmatch.all fun f => f (basename e.name)) (hne : sel ≠ [])
    (hdiff : ∀ e ∈ sel, (env.groups e.data).flatten.Nodup)
    (fs : String → Option (ParquetFile R)) (join : String → String) (hfs : ∀ e ∈ sel, fs (join (basename e.name)) = some (env.groups e.data)) :
    ∃ chunks fmt files ivs, indexParquet env kind dir = .ok (chunks, fmt) ∧ matchingChunks fnmatch chunks = .ok files ∧
      loadSubsampledChunks chunks (files.map (·.filename)) = .ok files ∧
      generateIntervals (some (generateRoi none files)) 0 0 files = .ok ivs ∧
      ((∀ is : List Nat, (∀ i ∈ is, i < (sel.flatMap fun e => (env.groups e.data).flatten).length) →
        ∃ rows, parquetGets true fs join files ivs ParquetState.init is = .ok rows ∧
          rows.map some = is.map fun i => (sel.flatMap fun e => (env.groups e.data).flatten)[i]?) ↔
      ∀ e ∈ sel, LowFile (env.groups e.data)) := by
  obtain ⟨fmt, h1, _⟩ := c55_index env kind dir m ty h
  have hsub : ∀ e ∈ sel, e ∈ pqListing kind dir := by
    intro e he; rw [hsel] at he; exact (List.mem_filter.1 he).1
  have hmatch : matchingChunks fnmatch ((pqListing kind dir).map fun e => pqInfo e (m e)) = .ok (sel.map fun e => pqInfo e (m e)) := by
    unfold matchingChunks
    cases fnmatch with
    | none =>
      simp only [Option.all_none] at hsel
      rw [List.filter_eq_self.2 (by simp)] at hsel
      simp only [← hsel]
      rw [if_neg (by simpa using hne)]
    | some f =>
      simp only [Option.all_some] at hsel
      have : ((pqListing kind dir).map fun e => pqInfo e (m e)).filter (fun c => f c.filename) = sel.map fun e => pqInfo e (m e) := by
        rw [hsel, List.filter_map]
        rfl
      simp only [this]
      rw [if_neg (by simpa using hne)]
  have hload := loadSubsampledChunks_ok ((pqListing kind dir).map fun e => pqInfo e (m e)) (by
    rw [List.map_map]; exact hnames) (sel.map fun e => pqInfo e (m e)) (by
    intro c hc
    obtain ⟨e, he, rfl⟩ := List.mem_map.1 hc
    exact List.mem_map.2 ⟨e, hsub e he, rfl⟩)
  let data : Nat → ParquetFile R := fun k => match sel[k]? with
    | some e => env.groups e.data
    | none => []
  have hdata : ∀ (k : Nat) (e : PqEntry), sel[k]? = some e → data k = env.groups e.data := by
    intro k e he; simp only [data, he]
  have hroi : generateRoi none (sel.map fun e => pqInfo e (m e)) = (sel.map fun e => (env.groups e.data).flatten).map fun l => (0, l.length) := by
    unfold generateRoi
    rw [List.map_map, List.map_map]
    apply List.map_congr_left
    intro e he
    simp only [Function.comp, pqInfo, hrows e (hsub e he)]
  have hinit : ParquetInv data ParquetState.init := ⟨(fun _ _ h => by cases h), (fun _ _ _ h => by cases h)⟩
  have hfiles : ∀ (k : Nat) (c : ChunkInfo), (sel.map fun e => pqInfo e (m e))[k]? = some c → fs (join c.filename) = some (data k) := by
    intro k c hc
    rw [List.getElem?_map, Option.map_eq_some_iff] at hc
    obtain ⟨e, he, rfl⟩ := hc
    rw [hdata k e he]
    exact hfs e (List.mem_of_getElem? he)
  have hitems : (sel.map fun e => pqInfo e (m e)).length = (sel.map fun e => (env.groups e.data).flatten).length := by simp
  obtain ⟨ivs, i1, i2⟩ := index_of_row (sel.map fun e => pqInfo e (m e)) (sel.map fun e => (env.groups e.data).flatten) hitems
  have hil : ivs.length = (sel.map fun e => pqInfo e (m e)).length := by
    obtain ⟨ivs', a1, a2, -⟩ := generateIntervals_some ((sel.map fun e => (env.groups e.data).flatten).map fun l => (0, l.length)) 0 0
      (sel.map fun e => pqInfo e (m e)) (by simp)
    rw [i1] at a1
    cases a1
    exact a2
  refine ⟨_, fmt, _, ivs, h1, hmatch, hload, by rw [hroi]; exact i1, ?_⟩
  constructor
  · intro hall e he
    obtain ⟨k, hk⟩ := List.getElem?_of_mem he
    have hiff := low_iff_inv data k (by rw [hdata k e hk]; exact hdiff e he) ParquetState.init hinit
    rw [hdata k e hk] at hiff
    have hk' : (sel.map fun e => (env.groups e.data).flatten)[k]? = some (env.groups e.data).flatten := by rw [List.getElem?_map, hk]; rfl
    -- the place of the chunk is not what decides
    have hbegin : ∀ b b' i, parquetLoad true (some (env.groups e.data)) ParquetState.init k (b + i) b = parquetLoad true (some (env.groups e.data)) ParquetState.init k (b' + i) b' := by
      intro b b' i
      unfold parquetLoad
      rw [if_neg (show ¬ b + i < b by omega), if_neg (show ¬ b' + i < b' by omega), Nat.add_sub_cancel_left, Nat.add_sub_cancel_left]
    refine (hiff 0).1 ?_
    intro j r hr
    have hj := (List.getElem?_eq_some_iff.1 hr).1
    obtain ⟨i, begin, r1, r2, r3⟩ := i2 k j _ hk' hj
    obtain ⟨rows, q1, q2⟩ := hall [i] (by
      intro x hx
      rw [List.mem_singleton.1 hx, List.flatMap_def]
      exact r2)
    rw [parquetGets_eq true fs join _ ivs hil data hfiles, r3, hdata k e hk] at q1
    rw [List.map_cons, List.map_nil, List.flatMap_def, r1, hr] at q2
    rw [hbegin 0 begin j]
    cases hl : parquetLoad true (some (env.groups e.data)) ParquetState.init k (begin + j) begin with
    | error x => rw [hl] at q1; cases q1
    | ok x =>
      rw [hl] at q1
      obtain ⟨y, st'⟩ := x
      simp only [Except.ok.injEq] at q1
      subst q1
      simp only [List.map_cons, List.map_nil, List.cons.injEq, Option.some.injEq, and_true] at q2
      exact ⟨st', by rw [q2]⟩
  · intro hlow
    obtain ⟨ivs', g1, g2, g3, g4⟩ := reads_any (fun st k i b => parquetLoad true (some (data k)) st k i b) (sel.map fun e => pqInfo e (m e))
      (sel.map fun e => (env.groups e.data).flatten) (by simp) ((sel.map fun e => (env.groups e.data).flatten).map fun l => (0, l.length)) (by simp) (by
        intro k l r hl hr
        rw [List.getElem?_map, hl, Option.map_some, Option.some.injEq] at hr
        subst hr
        simp) (ParquetInv data) ParquetState.init hinit (by
        intro st k l begin j x hi hl hx
        rw [List.getElem?_map, Option.map_eq_some_iff] at hl
        obtain ⟨e, he, rfl⟩ := hl
        have hmem := List.mem_of_getElem? he
        have := (low_iff_inv data k (by rw [hdata k e he]; exact hdiff e hmem) st hi begin).2 (by rw [hdata k e he]; exact hlow e hmem) j x (by rw [hdata k e he]; exact hx)
        obtain ⟨st', hs⟩ := this
        exact ⟨st', hs, parquetLoad_inv (p := true) hi hs⟩)
    rw [i1] at g1
    cases g1
    rw [roiItems_whole, ← List.flatMap_def] at g4
    intro is his
    obtain ⟨rows, r1, r2⟩ := g4 is his
    exact ⟨rows, by rw [parquetGets_eq true fs join _ ivs hil data hfiles, r1], r2⟩

/-- A file with row groups of 2, 2 and 1 rows is read rightly, one with 1 and 2 rows is not. -/
example : LowFile [[1, 2], [3, 4], [5]] ∧ ¬ LowFile [[1], [2, 3]] := by
  constructor
  · exact .inr ⟨[1, 2], [[3, 4], [5]], rfl, by decide, by simp [LowLayout]⟩
  · rintro (h | ⟨g0, gs, h, _, hl⟩)
    · cases h
    · cases h
      simp [LowLayout] at hl

end LitData.Props
