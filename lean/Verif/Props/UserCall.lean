import Verif.Model.UserCall
import Verif.Lemmas.Sampler
import Verif.Props.InputFiles
import Verif.Props.FsProvider

/-! C71: the function of the user is called with its own input, in which the paths of files are replaced by those of their local copies. -/

namespace LitData.Props

open LitData

/-! What it means that one input is another with some of its texts replaced. -/

mutual
/-- The two inputs are alike: the same lists and tuples, the same numbers, and texts that are related. -/
inductive SameBut (R : PathStr → PathStr → Prop) : UserItem → UserItem → Prop
  | int (i : Int) : SameBut R (.int i) (.int i)
  | str (s t : String) : R s.toList t.toList → SameBut R (.str s) (.str t)
  | list {l m : List UserItem} : SameButAll R l m → SameBut R (.list l) (.list m)
  | tuple {l m : List UserItem} : SameButAll R l m → SameBut R (.tuple l) (.tuple m)

/-- The elements of two lists are alike, one by one. -/
inductive SameButAll (R : PathStr → PathStr → Prop) : List UserItem → List UserItem → Prop
  | nil : SameButAll R [] []
  | cons {x y : UserItem} {l m : List UserItem} : SameBut R x y → SameButAll R l m → SameButAll R (x :: l) (y :: m)
end

mutual
theorem replacePaths_same {R : PathStr → PathStr → Prop} {isPath : PathStr → Bool} {f : PathStr → PathStr} (h : ∀ s, isPath s = false → R s s) :
    ∀ x : UserItem, (∀ s ∈ x.pathLeaves isPath, isPath s = true → R s (f s)) → SameBut R x (x.replacePaths isPath f)
  | .int i, _ => .int i
  | .str s, hx => by
    simp only [UserItem.replacePaths]
    by_cases hs : isPath s.toList = true
    · rw [if_pos hs]
      refine .str _ _ ?_
      rw [String.toList_ofList]
      exact hx _ (by simp [UserItem.pathLeaves, hs]) hs
    · rw [if_neg hs]
      exact .str _ _ (h _ (by simpa using hs))
  | .list l, hx => .list (replacePathsAll_same h l hx)
  | .tuple l, hx => .tuple (replacePathsAll_same h l hx)

theorem replacePathsAll_same {R : PathStr → PathStr → Prop} {isPath : PathStr → Bool} {f : PathStr → PathStr} (h : ∀ s, isPath s = false → R s s) :
    ∀ l : List UserItem, (∀ s ∈ pathLeavesAll isPath l, isPath s = true → R s (f s)) → SameButAll R l (replacePathsAll isPath f l)
  | [], _ => .nil
  | x :: l, hx => .cons (replacePaths_same h x fun s hs => hx s (List.mem_append_left _ hs))
    (replacePathsAll_same h l fun s hs => hx s (List.mem_append_right _ hs))
end

mutual
theorem pathLeaves_eq (isPath : PathStr → Bool) : ∀ x : UserItem, x.pathLeaves isPath = x.leaves.filterMap fun o => o.filter isPath
  | .int _ => rfl
  | .str s => by
    by_cases hs : isPath s.toList = true <;> simp [UserItem.pathLeaves, UserItem.leaves, Option.filter, hs]
  | .list l => pathLeavesAll_eq isPath l
  | .tuple l => pathLeavesAll_eq isPath l

theorem pathLeavesAll_eq (isPath : PathStr → Bool) : ∀ l : List UserItem, pathLeavesAll isPath l = (leavesAll l).filterMap fun o => o.filter isPath
  | [] => rfl
  | x :: l => by rw [pathLeavesAll, leavesAll, List.filterMap_append, pathLeaves_eq, pathLeavesAll_eq]
end

theorem mem_pathLeaves {isPath : PathStr → Bool} {x : UserItem} {s : PathStr} : s ∈ x.pathLeaves isPath ↔ some s ∈ x.leaves ∧ isPath s = true := by
  rw [pathLeaves_eq, List.mem_filterMap]
  constructor
  · rintro ⟨o, ho, h⟩
    cases o with
    | none => cases h
    | some t =>
      simp only [Option.filter] at h
      split at h
      · rename_i ht; injection h with h; subst h; exact ⟨ho, ht⟩
      · cases h
  · rintro ⟨h1, h2⟩
    exact ⟨some s, h1, by simp [Option.filter, h2]⟩

/-! The inputs that the workers get. -/

/-- Without an input directory, or with a reader, the function is called with the inputs that the user gave. -/
theorem c71_inputs_kept (v : FileView) (cfg : Option InputCfg) (reader : Bool) (items : List UserItem) (h : cfg = none ∨ reader = true) :
    ∃ r, v.workerItems cfg reader items = .ok r ∧ r.map Prod.fst = items := by
  refine ⟨items.map fun x => (x, []), ?_, by simp [Function.comp_def]⟩
  rcases h with rfl | rfl
  · rfl
  · cases cfg <;> rfl

theorem collectPaths_ok (v : FileView) (cfg : InputCfg) (items : List UserItem) (r : List (UserItem × List PathStr)) :
    v.collectPaths cfg items = .ok r ↔ (∀ x ∈ items, x.pathLeaves (v.isPath cfg.inputDir) ≠ []) ∧
      r = items.map fun x => (x.replacePaths (v.isPath cfg.inputDir) (fun p => workerPath cfg (v.toPath p)), (x.pathLeaves (v.isPath cfg.inputDir)).map v.toPath) := by
  induction items generalizing r with
  | nil =>
    constructor
    · intro h
      injection h with h
      exact ⟨fun _ hx => (List.not_mem_nil hx).elim, h.symm⟩
    · rintro ⟨_, rfl⟩
      rfl
  | cons x l ih =>
    rw [FileView.collectPaths]
    cases hp : x.pathLeaves (v.isPath cfg.inputDir) with
    | nil => simp [hp]
    | cons p ps =>
      dsimp only
      cases hc : v.collectPaths cfg l with
      | error e =>
        have hn : ¬ ∀ y ∈ l, y.pathLeaves (v.isPath cfg.inputDir) ≠ [] := by
          intro hall
          have := (ih _).2 ⟨hall, rfl⟩
          rw [hc] at this; cases this
        constructor
        · intro h; cases h
        · rintro ⟨h, _⟩
          exact absurd (fun y hy => h y (List.mem_cons_of_mem _ hy)) hn
      | ok r' =>
        obtain ⟨i1, rfl⟩ := (ih r').1 hc
        constructor
        · intro h
          injection h with h
          refine ⟨fun y hy => ?_, ?_⟩
          · rcases List.mem_cons.1 hy with rfl | hy
            · rw [hp]; simp
            · exact i1 y hy
          · rw [← h, List.map_cons (l := l), hp]
        · rintro ⟨_, rfl⟩
          rw [List.map_cons (l := l), hp]; rfl

/-- With an input directory, the worker refuses its inputs with a ValueError just if one of them has no text that counts as a path. -/
theorem c71_refused (v : FileView) (cfg : InputCfg) (items : List UserItem) :
    (v.workerItems (some cfg) false items = .error .valueError ∨ ∃ r, v.workerItems (some cfg) false items = .ok r) ∧
    (v.workerItems (some cfg) false items = .error .valueError ↔ ∃ x ∈ items, ∀ s, some s ∈ x.leaves → v.isPath cfg.inputDir s = false) := by
  have h0 : ∀ l, v.collectPaths cfg l = .error .valueError ∨ ∃ r, v.collectPaths cfg l = .ok r := by
    intro l
    induction l with
    | nil => exact .inr ⟨_, rfl⟩
    | cons x l ih =>
      rw [FileView.collectPaths]
      cases x.pathLeaves (v.isPath cfg.inputDir) with
      | nil => exact .inl rfl
      | cons p ps =>
        dsimp only
        rcases ih with h | ⟨r, h⟩
        · exact .inl (by rw [h]; rfl)
        · exact .inr ⟨_, by rw [h]; rfl⟩
  have hw : v.workerItems (some cfg) false items = v.collectPaths cfg items := rfl
  rw [hw]
  refine ⟨h0 items, ?_⟩
  constructor
  · intro h
    by_cases hall : ∀ x ∈ items, x.pathLeaves (v.isPath cfg.inputDir) ≠ []
    · have := (collectPaths_ok v cfg items _).2 ⟨hall, rfl⟩
      rw [h] at this; cases this
    · simp only [ne_eq, Classical.not_forall, Classical.not_not] at hall
      obtain ⟨x, hx, he⟩ := hall
      refine ⟨x, hx, fun s hs => ?_⟩
      cases hp : v.isPath cfg.inputDir s with
      | false => rfl
      | true =>
        have := mem_pathLeaves.2 ⟨hs, hp⟩
        rw [he] at this; cases this
  · rintro ⟨x, hx, hn⟩
    rcases h0 items with h | ⟨r, h⟩
    · exact h
    · have := ((collectPaths_ok v cfg items r).1 h).1 x hx
      cases hp : x.pathLeaves (v.isPath cfg.inputDir) with
      | nil => exact absurd hp this
      | cons p ps =>
        have hm := mem_pathLeaves.1 (by rw [hp]; exact List.mem_cons_self .. : p ∈ x.pathLeaves (v.isPath cfg.inputDir))
        rw [hn p hm.1] at hm; cases hm.2

/-- **C71, what is replaced.** If the inputs are accepted there is one input for each of the user's, in their order, and each is like the one of the user but for the texts
that count as paths: each of these is replaced by where its copy is. The files that are fetched for an input are those that it names, in the order of its texts. -/
theorem c71_replaced (v : FileView) (cfg : InputCfg) (items : List UserItem) (r : List (UserItem × List PathStr)) (h : v.workerItems (some cfg) false items = .ok r) :
    r.length = items.length ∧ ∀ (i : Nat) x, items[i]? = some x → ∃ y paths, r[i]? = some (y, paths) ∧
      SameBut (fun s t => if v.isPath cfg.inputDir s = true then t = workerPath cfg (v.toPath s) else t = s) x y ∧
      paths = (x.leaves.filterMap fun o => o.filter (v.isPath cfg.inputDir)).map v.toPath := by
  obtain ⟨_, rfl⟩ := (collectPaths_ok v cfg items r).1 h
  refine ⟨by simp, fun i x hx => ?_⟩
  refine ⟨_, _, by rw [List.getElem?_map, hx]; rfl, replacePaths_same ?_ x ?_, by rw [pathLeaves_eq]⟩
  · intro s hs; simp [hs]
  · intro s _ hs; simp [hs]

/-- **C71, for a local input directory.** Outside a Studio, if the files that the inputs name are in the input directory, have copies that differ, and are fetched without interruption, then the
function gets the user's input with each name of a file replaced by a path where the same content is found, and nothing else changed. -/
theorem c71_local_partial (v : FileView) (hv : v.inStudio = false) (cfg : InputCfg) (hi : cfg.inputDir ≠ []) (hst : thisStudio.isPrefixOf cfg.inputDir = false)
    (named : List PathStr) (hin : ∀ p ∈ named, Proper cfg p) (hinj : ∀ p ∈ named, ∀ q ∈ named, localCopy cfg p = localCopy cfg q → p = q)
    (fs : InputFs) (hfs : Coherent cfg named fs) (items : List UserItem)
    (hnamed : ∀ x ∈ items, ∀ s, some s ∈ x.leaves → v.isFile s = true → v.resolve s ∈ named ∧ fs (v.resolve s) ≠ none ∧ thisStudio.isPrefixOf (v.resolve s) = false)
    (hsome : ∀ x ∈ items, ∃ s, some s ∈ x.leaves ∧ v.isFile s = true) :
    ∃ r, v.workerItems (some cfg) false items = .ok r ∧ r.length = items.length ∧
      ∀ (i : Nat) x, items[i]? = some x → ∃ y paths, r[i]? = some (y, paths) ∧ (downloadItem cfg fs paths).2 = none ∧
        SameBut (fun s t => if v.isFile s = true then (downloadItem cfg fs paths).1 t = fs (v.resolve s) else t = s) x y := by
  have hpath : ∀ s, v.isPath cfg.inputDir s = v.isFile s := fun s => by simp [FileView.isPath, hv]
  have hto : ∀ s, v.toPath s = v.resolve s := fun s => by simp [FileView.toPath, hv]
  rcases (c71_refused v cfg items).1 with h | ⟨r, h⟩
  · obtain ⟨x, hx, hn⟩ := (c71_refused v cfg items).2.1 h
    obtain ⟨s, hs, hf⟩ := hsome x hx
    have := hn s hs
    rw [hpath, hf] at this; cases this
  · have hok := (collectPaths_ok v cfg items r).1 h
    refine ⟨r, h, (c71_replaced v cfg items r h).1, fun i x hx => ?_⟩
    have hmem := List.mem_of_getElem? hx
    obtain ⟨_, rfl⟩ := hok
    refine ⟨_, _, by rw [List.getElem?_map, hx]; rfl, ?_⟩
    have hpaths : ∀ p ∈ (x.pathLeaves (v.isPath cfg.inputDir)).map v.toPath, (p ∈ named ∧ fs p ≠ none) ∧ thisStudio.isPrefixOf p = false := by
      intro p hp
      obtain ⟨s, hs, rfl⟩ := List.mem_map.1 hp
      obtain ⟨h1, h2⟩ := mem_pathLeaves.1 hs
      rw [hpath] at h2
      obtain ⟨a, b, c⟩ := hnamed x hmem s h1 h2
      rw [hto]
      exact ⟨⟨a, b⟩, c⟩
    obtain ⟨d1, d2⟩ := c49_worker_reads cfg hi hst named hin hinj fs hfs _ (fun p hp => (hpaths p hp).1) fun p hp => (hpaths p hp).2
    refine ⟨d1, replacePaths_same ?_ x ?_⟩
    · intro s hs
      rw [hpath] at hs
      simp [hs]
    · intro s hs hs'
      rw [hpath] at hs'
      rw [if_pos hs', d2 _ (List.mem_map_of_mem hs), hto]

/-! Inputs that are objects of a store. -/

theorem replace_object {d url rest : PathStr} (hd : d ≠ []) (h : ∀ a b, rest ≠ a ++ d ++ b) : pyReplace d url 0 (d ++ rest) = url ++ rest :=
  c49_copy_path ⟨d, url⟩ hd rest h

theorem isRemote_object (st : ObjStore) (bucket key : PathStr) (hb : BucketName bucket) : isRemoteFile (objectUrl st bucket key) = true := by
  unfold isRemoteFile
  rw [urlParse_object st bucket key hb]
  cases st
  · show ["s3".toList, "gs".toList].contains "s3".toList = true
    decide
  · show ["s3".toList, "gs".toList].contains "gs".toList = true
    decide

theorem objectUrl_append (st : ObjStore) (bucket key rest : PathStr) : objectUrl st bucket key ++ rest = objectUrl st bucket (key ++ rest) := by
  simp [objectUrl]

/-- A path of an input directory that stands for an object: it is in the directory, whose path does not occur in the rest of it, and the rest can be part of a URL. -/
structure ObjectPath (cfg : InputCfg) (rest : PathStr) : Prop where
  once : ∀ a b, rest ≠ a ++ cfg.inputDir ++ b
  key : UrlKey rest

theorem fetch_one (cfg : InputCfg) (hi : cfg.inputDir ≠ []) (st : ObjStore) (bucket key : PathStr) (hb : BucketName bucket) (hk : UrlKey key) (o : Objects Bytes)
    (rest : PathStr) (h : ObjectPath cfg rest) (fs : InputFs) (paths : List PathStr) :
    fetchPaths cfg (objectUrl st bucket key) o fs ((cfg.inputDir ++ rest) :: paths) = match o.get (bucket, key ++ rest) with
      | none => (fs, some .exception)
      | some content => fetchPaths cfg (objectUrl st bucket key) o (fs.put (cfg.cacheDir ++ rest) (some content)) paths := by
  rw [fetchPaths]
  rw [replace_object hi h.once, objectUrl_append, isRemote_object st bucket _ hb, if_pos rfl, (c67_store st st bucket key hb).1]
  have hdl : (Except.ok st : Py ObjStore).bind (fun st' => st'.download o (objectUrl st bucket (key ++ rest))) = match o.get (bucket, key ++ rest) with
      | none => .error .exception
      | some content => .ok content := by
    show st.download o _ = _
    unfold ObjStore.download
    rw [bucketAndPath_object st bucket _ hb (UrlKey.append.2 ⟨hk, h.key⟩)]
    simp only [bind, Except.bind]
    cases o.get (bucket, key ++ rest) <;> rfl
  rw [hdl, c49_copy_path cfg hi rest h.once]
  cases o.get (bucket, key ++ rest) <;> rfl

theorem fetchPaths_ok (cfg : InputCfg) (hi : cfg.inputDir ≠ []) (st : ObjStore) (bucket key : PathStr) (hb : BucketName bucket) (hk : UrlKey key) (o : Objects Bytes)
    (rests : List PathStr) (h : ∀ q ∈ rests, ObjectPath cfg q ∧ o.get (bucket, key ++ q) ≠ none) (fs : InputFs) :
    (fetchPaths cfg (objectUrl st bucket key) o fs (rests.map fun q => cfg.inputDir ++ q)).2 = none ∧
    ∀ q, (fetchPaths cfg (objectUrl st bucket key) o fs (rests.map fun q => cfg.inputDir ++ q)).1 (cfg.cacheDir ++ q) =
      if q ∈ rests then o.get (bucket, key ++ q) else fs (cfg.cacheDir ++ q) := by
  induction rests generalizing fs with
  | nil => exact ⟨rfl, fun q => by simp [fetchPaths]⟩
  | cons a rests ih =>
    obtain ⟨ha, hc⟩ := h a (List.mem_cons_self ..)
    rw [List.map_cons, fetch_one cfg hi st bucket key hb hk o a ha]
    cases hg : o.get (bucket, key ++ a) with
    | none => exact absurd hg hc
    | some content =>
      dsimp only
      obtain ⟨i1, i2⟩ := ih (fun q hq => h q (List.mem_cons_of_mem _ hq)) (fs.put (cfg.cacheDir ++ a) (some content))
      refine ⟨i1, fun q => ?_⟩
      rw [i2]
      by_cases hq : q ∈ rests
      · rw [if_pos hq, if_pos (List.mem_cons_of_mem _ hq)]
      · rw [if_neg hq]
        simp only [InputFs.put, List.append_cancel_left_eq, List.mem_cons, hq, or_false]
        split
        · rename_i e; rw [e, hg]
        · rfl

/-- The request for an input with files of a remote input directory: if the objects are there and what the cache already holds are copies of them, the request succeeds and
the content of each object is found at the path of its copy. -/
theorem fetchItem_ok (cfg : InputCfg) (hi : cfg.inputDir ≠ []) (st : ObjStore) (bucket key : PathStr) (hb : BucketName bucket) (hk : UrlKey key) (o : Objects Bytes)
    (rests : List PathStr) (h : ∀ q ∈ rests, ObjectPath cfg q ∧ o.get (bucket, key ++ q) ≠ none) (fs : InputFs)
    (hfs : ∀ q ∈ rests, fs (cfg.cacheDir ++ q) = none ∨ fs (cfg.cacheDir ++ q) = o.get (bucket, key ++ q)) :
    (fetchItem cfg (objectUrl st bucket key) o fs (rests.map fun q => cfg.inputDir ++ q)).2 = none ∧
    ∀ q ∈ rests, (fetchItem cfg (objectUrl st bucket key) o fs (rests.map fun q => cfg.inputDir ++ q)).1 (cfg.cacheDir ++ q) = o.get (bucket, key ++ q) := by
  unfold fetchItem
  split
  · rename_i hall
    refine ⟨rfl, fun q hq => ?_⟩
    rw [List.all_eq_true] at hall
    have := hall _ (List.mem_map_of_mem hq)
    rw [c49_copy_path cfg hi q (h q hq).1.once] at this
    rcases hfs q hq with h1 | h1
    · rw [h1] at this; cases this
    · exact h1
  · obtain ⟨h1, h2⟩ := fetchPaths_ok cfg hi st bucket key hb hk o rests h fs
    exact ⟨h1, fun q hq => by rw [h2, if_pos hq]⟩

/-- **C71, for an input directory with a URL.** In a Studio, if the texts that count as paths are paths in the input directory of objects that exist, and the cache holds nothing else at their places,
then the function gets the user's input with each of them replaced by a path where the content of the object is found, and nothing else changed. -/
theorem c71_remote_partial (v : FileView) (cfg : InputCfg) (hi : cfg.inputDir ≠ []) (hst : thisStudio.isPrefixOf cfg.inputDir = false)
    (st : ObjStore) (bucket key : PathStr) (hb : BucketName bucket) (hk : UrlKey key) (o : Objects Bytes) (fs : InputFs) (items : List UserItem)
    (hnamed : ∀ x ∈ items, ∀ s, some s ∈ x.leaves → v.isPath cfg.inputDir s = true → ∃ q, v.toPath s = cfg.inputDir ++ q ∧ ObjectPath cfg q ∧
      o.get (bucket, key ++ q) ≠ none ∧ (fs (cfg.cacheDir ++ q) = none ∨ fs (cfg.cacheDir ++ q) = o.get (bucket, key ++ q)))
    (hsome : ∀ x ∈ items, ∃ s, some s ∈ x.leaves ∧ v.isPath cfg.inputDir s = true) :
    ∃ r, v.workerItems (some cfg) false items = .ok r ∧ r.length = items.length ∧
      ∀ (i : Nat) x, items[i]? = some x → ∃ y paths, r[i]? = some (y, paths) ∧ (fetchItem cfg (objectUrl st bucket key) o fs paths).2 = none ∧
        SameBut (fun s t => if v.isPath cfg.inputDir s = true then ∃ q, v.toPath s = cfg.inputDir ++ q ∧
            (fetchItem cfg (objectUrl st bucket key) o fs paths).1 t = o.get (bucket, key ++ q) else t = s) x y := by
  rcases (c71_refused v cfg items).1 with h | ⟨r, h⟩
  · obtain ⟨x, hx, hn⟩ := (c71_refused v cfg items).2.1 h
    obtain ⟨s, hs, hf⟩ := hsome x hx
    rw [hn s hs] at hf; cases hf
  · refine ⟨r, h, (c71_replaced v cfg items r h).1, fun i x hx => ?_⟩
    have hmem := List.mem_of_getElem? hx
    obtain ⟨_, rfl⟩ := (collectPaths_ok v cfg items r).1 h
    refine ⟨_, _, by rw [List.getElem?_map, hx]; rfl, ?_⟩
    -- the paths of the request, relative to the input directory
    have hrel : (x.pathLeaves (v.isPath cfg.inputDir)).map v.toPath = ((x.pathLeaves (v.isPath cfg.inputDir)).map fun s => (v.toPath s).drop cfg.inputDir.length).map fun q => cfg.inputDir ++ q := by
      rw [List.map_map]
      refine List.map_congr_left fun s hs => ?_
      obtain ⟨h1, h2⟩ := mem_pathLeaves.1 hs
      obtain ⟨q, hq, _⟩ := hnamed x hmem s h1 h2
      simp [hq]
    have hall : ∀ q ∈ (x.pathLeaves (v.isPath cfg.inputDir)).map (fun s => (v.toPath s).drop cfg.inputDir.length),
        (ObjectPath cfg q ∧ o.get (bucket, key ++ q) ≠ none) ∧ (fs (cfg.cacheDir ++ q) = none ∨ fs (cfg.cacheDir ++ q) = o.get (bucket, key ++ q)) := by
      intro q hq
      obtain ⟨s, hs, rfl⟩ := List.mem_map.1 hq
      obtain ⟨h1, h2⟩ := mem_pathLeaves.1 hs
      obtain ⟨q, hq, a, b, c⟩ := hnamed x hmem s h1 h2
      rw [hq, List.drop_left]
      exact ⟨⟨a, b⟩, c⟩
    obtain ⟨d1, d2⟩ := fetchItem_ok cfg hi st bucket key hb hk o _ (fun q hq => (hall q hq).1) fs fun q hq => (hall q hq).2
    rw [hrel]
    refine ⟨d1, replacePaths_same ?_ x ?_⟩
    · intro s hs; simp [hs]
    · intro s hs hs'
      rw [if_pos hs']
      obtain ⟨h1, h2⟩ := mem_pathLeaves.1 hs
      obtain ⟨q, hq, a, _⟩ := hnamed x hmem s h1 h2
      refine ⟨q, hq, ?_⟩
      have hw : workerPath cfg (v.toPath s) = cfg.cacheDir ++ q := by
        unfold workerPath
        rw [hst, hq, c49_copy_path cfg hi q a.once]; rfl
      have hq' := d2 ((v.toPath s).drop cfg.inputDir.length) (List.mem_map_of_mem (f := fun s => (v.toPath s).drop cfg.inputDir.length) hs)
      rw [hw]
      rw [hq, List.drop_left] at hq'
      exact hq'

/-- An object that does not exist stops the downloader, if not all of the copies are in the cache. -/
theorem c71_missing (cfg : InputCfg) (hi : cfg.inputDir ≠ []) (st : ObjStore) (bucket key : PathStr) (hb : BucketName bucket) (hk : UrlKey key) (o : Objects Bytes)
    (rests : List PathStr) (h : ∀ q ∈ rests, ObjectPath cfg q) (fs : InputFs) (hm : ∃ q ∈ rests, o.get (bucket, key ++ q) = none)
    (hc : ∃ q ∈ rests, fs (cfg.cacheDir ++ q) = none) :
    (fetchItem cfg (objectUrl st bucket key) o fs (rests.map fun q => cfg.inputDir ++ q)).2 = some .exception := by
  unfold fetchItem
  rw [if_neg]
  · clear hc
    induction rests generalizing fs with
    | nil => obtain ⟨q, hq, _⟩ := hm; cases hq
    | cons a rests ih =>
      rw [List.map_cons, fetch_one cfg hi st bucket key hb hk o a (h a (List.mem_cons_self ..))]
      cases hg : o.get (bucket, key ++ a) with
      | none => rfl
      | some content =>
        dsimp only
        refine ih (fun q hq => h q (List.mem_cons_of_mem _ hq)) _ ?_
        obtain ⟨q, hq, hn⟩ := hm
        rcases List.mem_cons.1 hq with rfl | hq
        · rw [hg] at hn; cases hn
        · exact ⟨q, hq, hn⟩
  · intro hall
    obtain ⟨q, hq, hn⟩ := hc
    rw [List.all_eq_true] at hall
    have := hall _ (List.mem_map_of_mem hq)
    rw [c49_copy_path cfg hi q (h q hq).once, hn] at this
    cases this

/-! Where the code fails the property. -/

/-- A text that is no path to the user but happens to name a file, like a label in a directory with a file of that name, is replaced by the path of that file, and the request for the
input fails if the file is not in the input directory: copying it onto itself is an error. -/
theorem c71_label (v : FileView) (hv : v.inStudio = false) (cfg : InputCfg) (hst : thisStudio.isPrefixOf cfg.inputDir = false) (file label : String)
    (hf : v.isFile file.toList = true) (hl : v.isFile label.toList = true) (hd : ∀ a b, v.resolve label.toList ≠ a ++ cfg.inputDir ++ b) :
    v.workerItems (some cfg) false [.tuple [.str file, .str label]] =
      .ok [(.tuple [.str (String.ofList (localCopy cfg (v.resolve file.toList))), .str (String.ofList (v.resolve label.toList))], [v.resolve file.toList, v.resolve label.toList])] ∧
    ∀ fs : InputFs, fs (localCopy cfg (v.resolve file.toList)) = none → fs (v.resolve file.toList) ≠ none → fs (v.resolve label.toList) ≠ none →
      localCopy cfg (v.resolve file.toList) ≠ v.resolve label.toList → thisStudio.isPrefixOf (v.resolve label.toList) = false →
      (downloadItem cfg fs [v.resolve file.toList, v.resolve label.toList]).2 = some .exception := by
  have hcopy : localCopy cfg (v.resolve label.toList) = v.resolve label.toList := pyReplace_none _ _ _ hd
  constructor
  · simp [FileView.workerItems, FileView.collectPaths, UserItem.pathLeaves, pathLeavesAll, UserItem.replacePaths, replacePathsAll, FileView.isPath, FileView.toPath, hv, hf, hl,
      workerPath, hst, hcopy, Except.map]
  · intro fs h1 h2 h3 h4 h5
    unfold downloadItem
    rw [if_neg (by simp [h1])]
    rw [copyAll]
    cases hg : fs (v.resolve file.toList) with
    | none => exact absurd hg h2
    | some content =>
      dsimp only
      have hlast : ∀ fs' : InputFs, fs' (v.resolve label.toList) ≠ none → (copyAll cfg fs' [v.resolve label.toList]).2 = some .exception := by
        intro fs' hne
        rw [copyAll]
        cases hg' : fs' (v.resolve label.toList) with
        | none => exact absurd hg' hne
        | some c' => simp [h5, hcopy]
      split
      · exact hlast fs h3
      · split
        · rfl
        · refine hlast _ ?_
          simp only [InputFs.put]
          rw [if_neg (Ne.symm h4)]
          exact h3

/-! The extra arguments of the function that `map` calls. -/

/-- The function of `map` gets the input, `device` just if it has a parameter of this name, and `is_last` just if it has one of that name, if it is a plain function or an object with
a method `__call__`. -/
theorem c71_arguments (fn : UserFn) (h : (∃ p g, fn = .function p g) ∨ ∃ p g, fn = .object p g) (gpus : Nat) (rank : Option Nat) (items : List UserItem) (i : Nat) (x : UserItem) :
    (mapCallOf fn gpus rank items i x).item = x ∧
    ((mapCallOf fn gpus rank items i x).device.isSome = true ↔ "device" ∈ fn.params) ∧
    ((mapCallOf fn gpus rank items i x).isLast.isSome = true ↔ "is_last" ∈ fn.params) ∧
    (∀ b, (mapCallOf fn gpus rank items i x).isLast = some b → i < items.length → (b = true ↔ i + 1 = items.length)) := by
  have hs : fn.seenParams = fn.params := by rcases h with ⟨p, g, rfl⟩ | ⟨p, g, rfl⟩ <;> rfl
  unfold mapCallOf
  simp only [hs, List.contains_iff_mem]
  refine ⟨trivial, by split <;> simp [*], by split <;> simp [*], ?_⟩
  intro b hb hi
  split at hb
  · injection hb with hb
    subst hb
    simp only [decide_eq_true_eq]
    omega
  · cases hb

/-- A `functools.partial` or a method of an object never gets `device` and `is_last`, whatever its parameters are; if one of them has no default the call raises a TypeError. -/
theorem c71_partial_arguments (fn : UserFn) (h : (∃ f, fn = .bound f) ∨ ∃ p g, fn = .method p g) (gpus : Nat) (rank : Option Nat) (items : List UserItem) (i : Nat) (x : UserItem) :
    mapCallOf fn gpus rank items i x = ⟨x, none, none⟩ := by
  rcases h with ⟨f, rfl⟩ | ⟨p, g, rfl⟩ <;> rfl

/-- Exactly one of the calls of a worker that has inputs is told to be the last one. -/
theorem c71_last (fn : UserFn) (h : "is_last" ∈ fn.seenParams) (gpus : Nat) (rank : Option Nat) (items : List UserItem) (hne : items ≠ []) (x : UserItem) :
    ((List.range items.length).filter fun i => (mapCallOf fn gpus rank items i x).isLast == some true).length = 1 := by
  have hl := List.length_pos_iff.2 hne
  have he : ∀ i, ((mapCallOf fn gpus rank items i x).isLast == some true) = decide (items.length - 1 = i) := by
    intro i
    simp only [mapCallOf, List.contains_iff_mem, h, if_true]
    by_cases hh : items.length - 1 = i <;> simp [hh]
  simp only [he]
  obtain ⟨n, hn⟩ : ∃ n, items.length = n + 1 := ⟨items.length - 1, by omega⟩
  rw [hn, List.range_succ, List.filter_append]
  have h0 : (List.range n).filter (fun i => decide (n + 1 - 1 = i)) = [] := by
    rw [List.filter_eq_nil_iff]
    intro i hi
    have := List.mem_range.1 hi
    simp; omega
  rw [h0]; simp

/-- Without a GPU or a rank the device is `None`. The ranks are spread evenly over the GPUs: of `n` workers each GPU has `n / g`, or one more. -/
theorem c71_device (gpus n d : Nat) (hd : d < gpus) :
    (∀ r, ∃ k, findDevice gpus (some r) = some k ∧ k < gpus) ∧ (∀ g, findDevice g none = none) ∧ (∀ r, findDevice 0 r = none) ∧
    n / gpus ≤ ((List.range n).filter fun r => findDevice gpus (some r) == some d).length ∧
    ((List.range n).filter fun r => findDevice gpus (some r) == some d).length ≤ n / gpus + 1 := by
  have hg : 0 < gpus := by omega
  have hf : ∀ r, findDevice gpus (some r) = some (r % gpus) := fun r => by simp [findDevice, hg]
  have he : ∀ r, (findDevice gpus (some r) == some d) = (r % gpus == d) := fun r => by rw [hf]; rfl
  simp only [he, filter_mod gpus d hd, List.length_map, List.length_range]
  refine ⟨fun r => ⟨_, hf r, Nat.mod_lt _ hg⟩, fun _ => rfl, fun r => by cases r <;> rfl, ?_, ?_⟩
  · unfold LitData.visits
    exact Nat.div_le_div_right (by omega)
  · unfold LitData.visits
    rw [← Nat.add_div_right _ hg]
    exact Nat.div_le_div_right (by omega)

/-- A name has an extension just if it has a dot behind some character that is none. -/
theorem c71_extension (p : PathStr) : hasExtension p = true ↔ ∃ stem ext, baseName p = stem ++ '.' :: ext ∧ ∃ c ∈ stem, c ≠ '.' := by
  unfold hasExtension
  generalize baseName p = n
  rw [List.contains_iff_mem]
  induction n with
  | nil => simp
  | cons c n ih =>
    by_cases hc : c = '.'
    · subst hc
      rw [List.dropWhile_cons_of_pos (by decide), ih]
      constructor
      · rintro ⟨stem, ext, rfl, d, hd, hne⟩
        exact ⟨'.' :: stem, ext, rfl, d, List.mem_cons_of_mem _ hd, hne⟩
      · rintro ⟨stem, ext, he, d, hd, hne⟩
        cases stem with
        | nil => cases hd
        | cons s stem =>
          rw [List.cons_append] at he
          injection he with h1 h2
          subst h1
          rcases List.mem_cons.1 hd with rfl | hd
          · exact absurd rfl hne
          · exact ⟨stem, ext, h2, d, hd, hne⟩
    · rw [List.dropWhile_cons_of_neg (by simpa using hc)]
      constructor
      · intro h
        obtain ⟨a, b, hab⟩ := List.append_of_mem h
        cases a with
        | nil =>
          rw [List.nil_append] at hab
          injection hab with h1 _
          exact absurd h1 hc
        | cons s a =>
          refine ⟨s :: a, b, hab, s, List.mem_cons_self .., ?_⟩
          rw [List.cons_append] at hab
          injection hab with h1 _
          exact h1 ▸ hc
      · rintro ⟨stem, ext, he, _⟩
        rw [he]
        simp

/-- Which texts count as paths. Outside a Studio, the names of files. In a Studio, texts that begin with the input directory whether or not there is such a file, and texts whose absolute path names a
file, or begins with the input directory and has an extension. -/
theorem c71_counts_as_path (v : FileView) (dir s : PathStr) : v.isPath dir s = true ↔
    if v.inStudio = true then dir <+: s ∨ v.isFile (v.absolute s) = true ∨ (dir <+: v.absolute s ∧ hasExtension (v.absolute s) = true)
    else v.isFile s = true := by
  unfold FileView.isPath
  by_cases h : v.inStudio = true
  · rw [if_pos h, if_pos h]
    by_cases h1 : dir.isPrefixOf s = true
    · rw [if_pos h1]
      simp [List.isPrefixOf_iff_prefix.1 h1]
    · rw [if_neg h1]
      have h1' : ¬ dir <+: s := fun hh => h1 (List.isPrefixOf_iff_prefix.2 hh)
      dsimp only
      by_cases h2 : dir.isPrefixOf (v.absolute s) = true
      · rw [if_pos h2]
        have h2' := List.isPrefixOf_iff_prefix.1 h2
        simp only [Bool.or_eq_true, h1', h2', true_and, false_or]
        exact Or.comm
      · rw [if_neg h2]
        have h2' : ¬ dir <+: v.absolute s := fun hh => h2 (List.isPrefixOf_iff_prefix.2 hh)
        simp [h1', h2']
  · rw [if_neg h, if_neg h]

/-- A file of the Studio that is not in the input directory is left where it is. -/
theorem c71_studio_file (cfg : InputCfg) (url : PathStr) (o : Objects Bytes) (fs : InputFs) (path : PathStr) (hd : ∀ a b, path ≠ a ++ cfg.inputDir ++ b)
    (hr : isRemoteFile path = false) (hs : thisStudio <+: path) (hf : fs path ≠ none) : fetchItem cfg url o fs [path] = (fs, none) := by
  unfold fetchItem
  split
  · rfl
  · have e : pyReplace cfg.inputDir url 0 path = path := pyReplace_none _ _ _ hd
    unfold fetchPaths
    simp only [e, hr, List.isPrefixOf_iff_prefix.2 hs, if_true, Bool.false_eq_true, if_false]
    cases hp : fs path with
    | none => exact absurd hp hf
    | some b => rfl

/-- A partial of a function with a parameter `device` accepts it, and does not get it. -/
theorem c71_partial_overlooked (p : List String) (g : Bool) (h : "device" ∈ p) (gpus : Nat) (rank : Option Nat) (items : List UserItem) (i : Nat) (x : UserItem) :
    "device" ∈ (UserFn.bound (.function p g)).params ∧ (mapCallOf (.bound (.function p g)) gpus rank items i x).device = none ∧
    (mapCallOf (.function p g) gpus rank items i x).device = some (findDevice gpus rank) := by
  refine ⟨h, rfl, ?_⟩
  simp [mapCallOf, UserFn.seenParams, h]

/-! What becomes of the result. -/

/-- The result of the function of `map` is dropped: the check that it returns nothing never fails. -/
theorem c71_result_dropped {γ : Type} (result : Option γ) : mapCheck result = .ok () := rfl

theorem isGenerator_generates (fn : UserFn) : fn.isGeneratorFunction = true → fn.generates = true := by
  induction fn with
  | function _ _ => exact id
  | bound f ih => exact ih
  | method _ _ => exact id
  | object _ _ => intro h; cases h

/-- Which callables that yield values are recognised: all but a method, and a partial of an object with a method `__call__`. What is taken for a generator is one. -/
theorem c71_recognised (fn : UserFn) : (fn.checkFn = true → fn.generates = true) ∧
    (fn.generates = true → (fn.checkFn = false ↔ (∃ p, fn = .method p true) ∨ ∃ f, fn = .bound f ∧ f.isGeneratorFunction = false)) := by
  cases fn with
  | function p g => exact ⟨id, fun h => by simp only [UserFn.generates] at h; simp [UserFn.checkFn, h]⟩
  | bound f => exact ⟨isGenerator_generates f, fun _ => by simp [UserFn.checkFn]⟩
  | method p g => exact ⟨fun h => (Bool.noConfusion h), fun h => by simp only [UserFn.generates] at h; simp [UserFn.checkFn, h]⟩
  | object p g => exact ⟨id, fun h => by simp only [UserFn.generates] at h; simp [UserFn.checkFn, h]⟩

/-- A partial is recognised as a generator unless it ends in an object. -/
theorem c71_partial_recognised (f : UserFn) : f.generates = true → (f.isGeneratorFunction = false ↔ ∃ k p, f = Nat.repeat UserFn.bound k (.object p true)) := by
  intro hg
  have hobj : ∀ k p, (Nat.repeat UserFn.bound k (.object p true)).isGeneratorFunction = false := by
    intro k p
    induction k with
    | zero => rfl
    | succ k ih => exact ih
  constructor
  · intro h
    induction f with
    | function p g => simp only [UserFn.generates, UserFn.isGeneratorFunction] at hg h; rw [hg] at h; cases h
    | bound f ih =>
      obtain ⟨k, p, e⟩ := ih hg h
      exact ⟨k + 1, p, by rw [e]; rfl⟩
    | method p g => simp only [UserFn.generates, UserFn.isGeneratorFunction] at hg h; rw [hg] at h; cases h
    | object p g => exact ⟨0, p, by simp only [UserFn.generates] at hg; subst hg; rfl⟩
  · rintro ⟨k, p, rfl⟩
    exact hobj k p

/-- `optimize` stores each value that a function, a partial of a function or of a method, or an object yields or returns, but `None`. -/
theorem c71_values {γ : Type} (fn : UserFn) (h : fn.generates = true → fn.checkFn = true) (result : Option γ) (yields : List (Option γ)) (obj : γ) :
    recipeValues fn result yields obj = if fn.generates then yields.filterMap id else result.toList := by
  unfold recipeValues
  by_cases hg : fn.generates = true
  · rw [if_pos (h hg), if_pos hg]
  · rw [if_neg fun h' => hg ((c71_recognised fn).1 h'), if_neg hg, if_neg hg]

/-- A method that yields its values is not recognised: the generator object itself is taken as the one value of the input. -/
theorem c71_method_generator {γ : Type} (p : List String) (result : Option γ) (yields : List (Option γ)) (obj : γ) :
    recipeValues (.method p true) result yields obj = [obj] := rfl

/-! Concrete cases. -/

/-- Two files of an input directory, and a file of the current directory with the name of a label. -/
def callView : FileView :=
  ⟨false, fun p => p == "in/a".toList || p == "in/b".toList || p == "cat".toList, fun p => "/".toList ++ p, fun p => "/".toList ++ p⟩

/-- The input directory and the cache of the data. -/
def callCfg : InputCfg := ⟨"/in".toList, "/cache".toList⟩

/-- The files there are. -/
def callFs : InputFs := fun p =>
  if p = "/in/a".toList then some [1] else if p = "/in/b".toList then some [2] else if p = "/cat".toList then some [3] else none

/-- Two inputs with files, a number and a label. -/
def callItems : List UserItem := [.tuple [.str "in/a", .int 3, .str "dog"], .list [.str "in/b", .str "in/a"]]

example : callView.workerItems (some callCfg) false callItems =
    .ok [(.tuple [.str "/cache/a", .int 3, .str "dog"], ["/in/a".toList]), (.list [.str "/cache/b", .str "/cache/a"], ["/in/b".toList, "/in/a".toList])] := rfl

example : callView.workerItems (some callCfg) false [.str "in/a", .str "dog"] = .error .valueError := rfl

example : callView.workerItems none false [.str "dog"] = .ok [(.str "dog", [])] := rfl

theorem call_copies (p : PathStr) (hp : p ∈ ["/in/a".toList, "/in/b".toList]) :
    Proper callCfg p ∧ callFs (localCopy callCfg p) = none ∧ callFs p ≠ none ∧ thisStudio.isPrefixOf p = false := by
  rcases List.mem_cons.1 hp with rfl | hp
  · exact ⟨⟨⟨"/a".toList, by decide⟩, by decide⟩, by decide, by decide, by decide⟩
  · rcases List.mem_singleton.1 hp with rfl
    exact ⟨⟨⟨"/b".toList, by decide⟩, by decide⟩, by decide, by decide, by decide⟩

/-- The hypotheses of `c71_local_partial` for these inputs. -/
example : ∃ r, callView.workerItems (some callCfg) false callItems = .ok r ∧ r.length = callItems.length ∧
      ∀ (i : Nat) x, callItems[i]? = some x → ∃ y paths, r[i]? = some (y, paths) ∧ (downloadItem callCfg callFs paths).2 = none ∧
        SameBut (fun s t => if callView.isFile s = true then (downloadItem callCfg callFs paths).1 t = callFs (callView.resolve s) else t = s) x y := by
  refine c71_local_partial callView rfl callCfg (by decide) (by decide) ["/in/a".toList, "/in/b".toList] (fun p hp => (call_copies p hp).1) ?_ callFs ?_ callItems ?_ ?_
  · decide
  · intro p hp b hb
    rw [(call_copies p hp).2.1] at hb; cases hb
  · have hall : ∀ x ∈ callItems, ∀ s ∈ x.leaves.filterMap id, callView.isFile s = true → callView.resolve s ∈ ["/in/a".toList, "/in/b".toList] := by
      intro x hx
      rcases List.mem_cons.1 hx with rfl | hx
      · decide
      · rcases List.mem_singleton.1 hx with rfl
        decide
    intro x hx s hs hf
    have := hall x hx s (List.mem_filterMap.2 ⟨_, hs, rfl⟩) hf
    exact ⟨this, (call_copies _ this).2.2⟩
  · intro x hx
    rcases List.mem_cons.1 hx with rfl | hx
    · exact ⟨"in/a".toList, by simp [UserItem.leaves, leavesAll], by decide⟩
    · rcases List.mem_singleton.1 hx with rfl
      exact ⟨"in/b".toList, by simp [UserItem.leaves, leavesAll], by decide⟩

/-- The label `cat` is lost. -/
example : callView.workerItems (some callCfg) false [.tuple [.str "in/a", .str "cat"]] =
      .ok [(.tuple [.str "/cache/a", .str "/cat"], ["/in/a".toList, "/cat".toList])] ∧
    (downloadItem callCfg callFs ["/in/a".toList, "/cat".toList]).2 = some .exception := by
  have h := c71_label callView rfl callCfg (by decide) "in/a" "cat" (by decide) (by decide) (by
    intro a b e
    have := pyReplace_none callCfg.inputDir "".toList (callView.resolve "cat".toList)
    have hl : (callView.resolve "cat".toList).length = (a ++ callCfg.inputDir ++ b).length := by rw [e]
    have h1 : a = [] ∨ a = ['/'] := by
      match a with
      | [] => exact .inl rfl
      | [c] => injection e with e1; rw [← e1]; exact .inr rfl
      | c :: c' :: a' => simp [callView, callCfg] at hl; omega
    rcases h1 with rfl | rfl
    · injection e with _ e; injection e with e; exact absurd e (by decide)
    · injection e with _ e; injection e with e; exact absurd e (by decide))
  exact ⟨h.1, h.2 callFs (by decide) (by decide) (by decide) (by decide) (by decide)⟩

/-- A Studio with an input directory that stands for a bucket. -/
def studioView : FileView := ⟨true, fun _ => false, id, id⟩

/-- The directory of the connection and the cache. -/
def studioCfg : InputCfg := ⟨"/teamspace/s3_connections/data".toList, "/cache".toList⟩

/-- One object. -/
def studioObjects : Objects Bytes := [(("data".toList, "x/1.txt".toList), [7])]

example : studioView.workerItems (some studioCfg) false [.tuple [.str "/teamspace/s3_connections/data/1.txt", .str "dog"]] =
      .ok [(.tuple [.str "/cache/1.txt", .str "dog"], ["/teamspace/s3_connections/data/1.txt".toList])] := rfl

theorem studio_once : ∀ a b, "/1.txt".toList ≠ a ++ studioCfg.inputDir ++ b := by
  intro a b e
  have h1 : "/1.txt".toList.length = 6 := by decide
  have h2 : studioCfg.inputDir.length = 30 := by decide
  rw [e, List.length_append, List.length_append, h2] at h1
  omega

/-- The hypotheses of `fetchItem_ok`, on which `c71_remote_partial` rests. -/
example : (fetchItem studioCfg (objectUrl .s3 "data".toList "x".toList) studioObjects (fun _ => none) ["/teamspace/s3_connections/data/1.txt".toList]).1 "/cache/1.txt".toList = some [7] := by
  have h := (fetchItem_ok studioCfg (by decide) .s3 "data".toList "x".toList (by simp [BucketName]) (by simp [UrlKey]) studioObjects ["/1.txt".toList]
    (fun q hq => by
      rcases List.mem_singleton.1 hq with rfl
      exact ⟨⟨studio_once, by simp [UrlKey]⟩, by decide⟩) (fun _ => none) fun q hq => .inl rfl).2 "/1.txt".toList (List.mem_singleton.2 rfl)
  exact h

/-- The hypotheses of `c71_remote_partial`. -/
example : ∃ r, studioView.workerItems (some studioCfg) false [.tuple [.str "/teamspace/s3_connections/data/1.txt", .str "dog"]] = .ok r ∧ r.length = 1 := by
  obtain ⟨r, h1, h2, _⟩ := c71_remote_partial studioView studioCfg (by decide) (by decide) .s3 "data".toList "x".toList (by simp [BucketName]) (by simp [UrlKey]) studioObjects (fun _ => none)
    [.tuple [.str "/teamspace/s3_connections/data/1.txt", .str "dog"]]
    (fun x hx s hs hp => by
      rcases List.mem_singleton.1 hx with rfl
      simp only [UserItem.leaves, leavesAll, List.append_nil, List.mem_append, List.mem_singleton, Option.some.injEq] at hs
      rcases hs with rfl | rfl
      · exact ⟨"/1.txt".toList, by decide, ⟨studio_once, by simp [UrlKey]⟩, by decide, .inl rfl⟩
      · exact absurd hp (by decide))
    (fun x hx => by
      rcases List.mem_singleton.1 hx with rfl
      exact ⟨"/teamspace/s3_connections/data/1.txt".toList, by simp [UserItem.leaves, leavesAll], by decide⟩)
  exact ⟨r, h1, h2⟩

/-- An object that is missing. -/
example : (fetchItem studioCfg (objectUrl .s3 "data".toList "y".toList) studioObjects (fun _ => none) ["/teamspace/s3_connections/data/1.txt".toList]).2 = some .exception :=
  c71_missing studioCfg (by decide) .s3 "data".toList "y".toList (by simp [BucketName]) (by simp [UrlKey]) studioObjects ["/1.txt".toList]
    (fun q hq => by rcases List.mem_singleton.1 hq with rfl; exact ⟨studio_once, by simp [UrlKey]⟩) _ ⟨_, List.mem_singleton.2 rfl, by decide⟩ ⟨_, List.mem_singleton.2 rfl, rfl⟩

example : (mapCallOf (.function ["x", "out", "device", "is_last"] false) 4 (some 6) callItems 1 (.int 0)).device = some (some 2) ∧
    (mapCallOf (.function ["x", "out", "device", "is_last"] false) 4 (some 6) callItems 1 (.int 0)).isLast = some true ∧
    (mapCallOf (.bound (.function ["x", "out", "device"] false)) 4 (some 6) callItems 1 (.int 0)).device = none := by decide

example : ((List.range 7).filter fun r => findDevice 3 (some r) == some 0).length = 3 := by decide

example : (UserFn.bound (.method ["x"] true)).checkFn = true ∧ (UserFn.method ["x"] true).checkFn = false ∧ (UserFn.bound (.object ["x"] true)).checkFn = false := by decide

example : recipeValues (.function ["x"] true) (none : Option Nat) [some 1, none, some 2] 9 = [1, 2] := by decide

example : hasExtension "/in/a.b/c".toList = false ∧ hasExtension "/in/.hidden".toList = false ∧ hasExtension "/in/a.jpg".toList = true := by decide

-- the hypotheses of `c71_studio_file`
example := c71_studio_file ⟨"/teamspace/s3_connections/all_images".toList, "/cache".toList⟩ "s3://data/x".toList studioObjects
  (fun p => if p = (thisStudio ++ "/f".toList) then some [1] else none) (thisStudio ++ "/f".toList) (by
    intro a b e
    have h1 : (thisStudio ++ "/f".toList).length < "/teamspace/s3_connections/all_images".toList.length := by decide
    rw [e, List.length_append, List.length_append] at h1
    dsimp only at h1
    omega) (by decide) (List.prefix_append _ _) (by simp)

end LitData.Props
