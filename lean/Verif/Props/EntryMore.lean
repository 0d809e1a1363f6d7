import Verif.Props.UserCall
import Verif.Props.Entry
import Verif.Props.CheckpointStore

/-!
More about the calls of `map` and `optimize` (C70): the input directory that is guessed, the sizes of the inputs, the nodes of a job, the output directory and the
removal of checkpoints from a store.
-/

namespace LitData.Props

/-- **C70, several nodes.** On a node of a job the call does the work itself: it never starts further nodes. -/
theorem c70_node_works (env : CallEnv) (a : OptimizeArgs) (n : Nat) (hn : 0 < n) (hv : env.nodesVar = some n) (o o' : Outputs) :
    env.optimizeCall a o ≠ (.ok .launched, o') := by
  intro h
  unfold CallEnv.optimizeCall at h
  have hr : runsHere env a.toCallArgs = true := by simp [runsHere, hv, hn]
  rw [hr] at h
  simp only [Bool.not_true, Bool.false_eq_true, if_false] at h
  repeat' split at h
  all_goals cases h

/-- **C70, several nodes, for `map`.** -/
theorem c70_node_works_map (env : CallEnv) (a : CallArgs) (e : Bool) (n : Nat) (hn : 0 < n) (hv : env.nodesVar = some n) (o : Outputs) :
    env.mapCall a e o ≠ .ok .launched := by
  intro h
  unfold CallEnv.mapCall at h
  have hr : runsHere env a = true := by simp [runsHere, hv, hn]
  rw [hr] at h
  simp only [bind, Except.bind, Bool.not_true, Bool.false_eq_true, if_false] at h
  repeat' split at h
  all_goals cases h

/-- The first text of an input that names an existing file or a remote one. -/
def FirstFile (env : CallEnv) (x : UserItem) (p : PathStr) : Prop :=
  ∃ pre post, x.leaves = pre ++ some p :: post ∧ ((∃ n, env.size p = some n) ∨ (urlParse p).scheme = "s3".toList ∨ (urlParse p).scheme = "gs".toList) ∧
    ∀ q, some q ∈ pre → env.size q = none ∧ (urlParse q).scheme ≠ "s3".toList ∧ (urlParse q).scheme ≠ "gs".toList

theorem isRemoteFile_iff (p : PathStr) : isRemoteFile p = true ↔ (urlParse p).scheme = "s3".toList ∨ (urlParse p).scheme = "gs".toList := by
  unfold isRemoteFile
  rw [List.contains_iff_mem]
  simp only [List.mem_cons, List.not_mem_nil, or_false]

theorem indexedPaths_first (env : CallEnv) (x : UserItem) (p : PathStr) (h : FirstFile env x p) : ∃ rest, env.indexedPaths x = p :: rest := by
  obtain ⟨pre, post, hl, hp, hpre⟩ := h
  unfold CallEnv.indexedPaths
  rw [hl, List.filterMap_append, List.filter_append]
  have h0 : (pre.filterMap id).filter (fun p => (env.size p).isSome || isRemoteFile p) = [] := by
    rw [List.filter_eq_nil_iff]
    intro q hq
    obtain ⟨oq, ho, hoq⟩ := List.mem_filterMap.1 hq
    simp only [id] at hoq
    subst hoq
    obtain ⟨h1, h2, h3⟩ := hpre q ho
    have : isRemoteFile q = false := by
      rw [← Bool.not_eq_true, isRemoteFile_iff]
      rintro (h | h)
      · exact h2 h
      · exact h3 h
    simp [h1, this]
  rw [h0, List.nil_append, List.filterMap_cons]
  simp only [id]
  refine ⟨_, List.filter_cons_of_pos ?_⟩
  rcases hp with ⟨n, hn⟩ | hp
  · simp [hn]
  · rw [(isRemoteFile_iff p).2 hp, Bool.or_true]

theorem joinPaths_three (x y z : PathStr) (hx : '/' ∉ x) (hx0 : x ≠ []) (hy : '/' ∉ y) (hy0 : y ≠ []) (hz : '/' ∉ z) :
    joinPaths [] [x, y, z] = x ++ '/' :: y ++ '/' :: z := by
  have hne : ∀ b : PathStr, '/' ∉ b → b.head? ≠ some '/' := by
    intro b hb h
    cases b with
    | nil => cases h
    | cons c b =>
      simp only [List.head?_cons, Option.some.injEq] at h
      subst h
      exact hb (List.mem_cons_self ..)
  have hlast : ∀ b : PathStr, '/' ∉ b → b.getLast? ≠ some '/' := by
    intro b hb h
    exact hb (List.mem_of_getLast? h)
  have l1 : ('/' :: y).getLast? ≠ some '/' := by
    intro h
    cases hyl : y.getLast? with
    | none => exact hy0 (List.getLast?_eq_none_iff.1 hyl)
    | some c =>
      rw [List.getLast?_cons, hyl] at h
      simp only [Option.getD_some, Option.some.injEq] at h
      subst h
      exact hlast y hy hyl
  simp [joinPaths, joinPath, hne x hx, hne y hy, hne z hz, hlast x hx, hx0, l1]

/-- **C70, the input directory that is guessed.** The first file of the first input decides. For a remote file it is the folder that holds it. For a local one it is
the first three folders of its absolute path if the call is made in a Studio or the path lies in `/teamspace`; elsewhere there is no input directory. -/
theorem c70_guess (env : CallEnv) (x : UserItem) (y : Option UserItem) (p : PathStr) (hp : FirstFile env x p) :
    (∀ st bucket folder name, p = objectUrl st bucket (folder ++ '/' :: name) → BucketName bucket → folder ≠ [] →
      folder.getLast? ≠ some '/' → '/' ∉ name → env.inferInputDir x y = .ok (some (objectUrl st bucket folder))) ∧
    (isRemoteFile p = false → ∀ a b c rest : PathStr, env.cloud.absolute p = '/' :: a ++ '/' :: b ++ '/' :: c ++ '/' :: rest →
      '/' ∉ a → '/' ∉ b → '/' ∉ c → a ≠ [] → b ≠ [] → hasInfix "/.project".toList (env.cloud.absolute p) = false →
      (env.inStudio = true ∨ a = "teamspace".toList → env.inferInputDir x y = .ok (some ('/' :: a ++ '/' :: b ++ '/' :: c))) ∧
      (env.inStudio = false → ¬ "teamspace".toList <+: a → env.inferInputDir x y = .ok none)) := by
  obtain ⟨rest', hi⟩ := indexedPaths_first env x p hp
  unfold CallEnv.inferInputDir
  rw [hi]
  dsimp only
  constructor
  · intro st bucket folder name hpe hb hf hfl hn
    have hr : isRemoteFile p = true := by rw [hpe]; exact isRemote_object st bucket _ hb
    have he : objectUrl st bucket (folder ++ '/' :: name) = objectUrl st bucket folder ++ '/' :: name := by simp [objectUrl]
    rw [hr, if_pos rfl, hpe, he, dirname_slash _ _ (by simp [objectUrl]) (objectUrl_last st bucket folder hfl hf) hn]
  · intro hr a b c rest ha ha' hb' hc' ha0 hb0 hproj
    rw [hr]
    simp only [Bool.false_eq_true, if_false, hproj]
    have h4 : firstFour (env.cloud.absolute p) = '/' :: a ++ '/' :: b ++ '/' :: c := by
      unfold firstFour
      rw [ha]
      have : '/' :: a ++ '/' :: b ++ '/' :: c ++ '/' :: rest = [] ++ '/' :: (a ++ '/' :: (b ++ '/' :: (c ++ '/' :: rest))) := by simp
      rw [this, splitChar_append _ _ _ (by simp), splitChar_append _ _ _ ha', splitChar_append _ _ _ hb', splitChar_append _ _ _ hc']
      simp only [List.take_succ_cons, List.take_zero]
      rw [joinPaths_three a b c ha' ha0 hb' hb0 hc']
      simp
    constructor
    · intro hs
      have : (env.inStudio || startsWith "/teamspace" (env.cloud.absolute p)) = true := by
        rcases hs with hs | hs
        · rw [hs, Bool.true_or]
        · have : startsWith "/teamspace" (env.cloud.absolute p) = true := by
            rw [ha, hs]
            exact List.isPrefixOf_iff_prefix.2 ⟨'/' :: b ++ '/' :: c ++ '/' :: rest, by simp⟩
          rw [this, Bool.or_true]
      rw [this, if_pos rfl, h4]
    · intro hs hta
      have : startsWith "/teamspace" (env.cloud.absolute p) = false := by
        rw [← Bool.not_eq_true]
        intro h
        have h := List.isPrefixOf_iff_prefix.1 h
        rw [ha] at h
        have e1 : "/teamspace".toList = '/' :: "teamspace".toList := rfl
        rw [e1, List.append_assoc, List.append_assoc, List.cons_append, List.cons_prefix_cons] at h
        have h2 := h.2
        rcases List.prefix_or_prefix_of_prefix h2 (List.prefix_append a _) with h3 | h3
        · exact hta h3
        · obtain ⟨t, ht⟩ := h3
          cases t with
          | nil => rw [List.append_nil] at ht; exact hta (ht ▸ List.prefix_refl _)
          | cons d t =>
            rw [← ht] at h2
            have h4 := (List.prefix_append_right_inj a).1 h2
            simp only [List.cons_append] at h4
            rw [List.cons_prefix_cons] at h4
            have : '/' ∈ "teamspace".toList := by
              rw [← ht, ← h4.1]
              simp
            exact absurd this (by decide)
      rw [hs, this]
      rfl

/-- **C70, the sizes of the inputs.** An input counts with the sizes of all the existing files that it names, at any depth. -/
theorem c70_sizes (env : CallEnv) (x : UserItem) (h0 : ∀ q, some q ∈ x.leaves → env.size q ≠ some 0) :
    itemBytes env.fileSizes x = .ok (((x.leaves.filterMap fun l : Option PathStr => l.bind env.size).map fun n : Nat => (n : Int)).sum) := by
  have key : ∀ (l : List (Option PathStr)) (acc : Int), (∀ q, some q ∈ l → env.size q ≠ some 0) →
      (l.map fun l => l.bind env.size).foldlM (fun acc l => match l with
        | none => (.ok acc : Py Int)
        | some 0 => .error .runtimeError
        | some n => .ok (acc + (n : Int))) acc = .ok (acc + ((l.filterMap fun l : Option PathStr => l.bind env.size).map fun n : Nat => (n : Int)).sum) := by
    intro l
    induction l with
    | nil => intro acc _; simp [pure, Except.pure]
    | cons u l ih =>
      intro acc h
      have hl : ∀ q, some q ∈ l → env.size q ≠ some 0 := fun q hq => h q (List.mem_cons_of_mem _ hq)
      rw [List.map_cons, List.foldlM_cons]
      cases hu : u.bind env.size with
      | none =>
        rw [List.filterMap_cons_none (f := fun l : Option PathStr => l.bind env.size) hu]
        exact ih acc hl
      | some n =>
        rw [List.filterMap_cons_some (f := fun l : Option PathStr => l.bind env.size) hu, List.map_cons, List.sum_cons]
        cases n with
        | zero =>
          cases u with
          | none => cases hu
          | some q => exact absurd hu (h q (List.mem_cons_self ..))
        | succ n =>
          simp only [bind, Except.bind]
          rw [ih _ hl, Int.add_assoc]
  have := key x.leaves 0 h0
  rw [Int.zero_add] at this
  exact this

/-- **C70, the output directory.** Outside a job of several nodes it is the directory that is given. -/
theorem c70_output (env : CallEnv) (a : OptimizeArgs) (hv : env.nodesVar = none) (o o' : Outputs) (p : RunPlan) (h : env.optimizeCall a o = (.ok (.started p), o')) :
    resolveDir env.cloud a.output = .ok p.output := by
  obtain ⟨_, _, hout, _⟩ := optimizeCall_began env a o o' p h
  rw [← hout]
  unfold CallEnv.optimizeOutput
  cases hd : resolveDir env.cloud a.output with
  | error e => rfl
  | ok d =>
    simp only [bind, Except.bind, hv, Option.getD_none, Nat.lt_irrefl, decide_false, Bool.and_false, Bool.false_eq_true, if_false]
    repeat' split
    all_goals rfl

/-- **C70, the checkpoints of a remote output.** Removing them keeps every object of another bucket, and every object whose key does not begin with the name of their
folder: above all the dataset. -/
theorem c70_cleanup_keeps (o : Outputs) (st : ObjStore) (bucket P : PathStr) (slash : Bool) (hb : BucketName bucket) (hP : CleanKey P)
    (hk : UrlKey P) (path : Option PathStr) :
    ∃ o', o.cleanup ⟨path, some (outputOf (objectUrl st bucket P) slash)⟩ = (.ok (), o') ∧ o'.files = o.files ∧
      ∀ e ∈ o.objects, (e.1.1 ≠ bucket ∨ ¬ (P ++ "/.checkpoints".toList) <+: e.1.2) → e ∈ o'.objects := by
  have hk' : UrlKey (P ++ "/.checkpoints".toList) := UrlKey.append.2 ⟨hk, by unfold UrlKey; decide⟩
  have hfs : fsProvider (outputOf (objectUrl st bucket P) slash) = .ok st := by
    cases slash
    · have : outputOf (objectUrl st bucket P) false = objectUrl st bucket P := by simp [outputOf]
      rw [this]
      exact (c67_store st st bucket P hb).1
    · have : outputOf (objectUrl st bucket P) true = objectUrl st bucket (P ++ ['/']) := by simp [outputOf, objectUrl]
      rw [this]
      exact (c67_store st st bucket _ hb).1
  unfold Outputs.cleanup ObjStore.deleteAll
  simp only [hfs]
  rw [cleanup_url st bucket P slash hP, bucketAndPath_object st bucket _ hb hk']
  refine ⟨_, rfl, rfl, ?_⟩
  intro e he h
  refine List.mem_filter.2 ⟨he, ?_⟩
  simp only [Bool.not_eq_true', Bool.and_eq_false_iff, beq_eq_false_iff_ne, ne_eq]
  rcases h with h | h
  · exact Or.inl h
  · right
    rw [← Bool.not_eq_true, List.contains_iff_mem]
    intro hm
    obtain ⟨⟨k, v⟩, hx, hxe⟩ := List.mem_map.1 hm
    dsimp only at hxe
    subst hxe
    have hsub : (e.1.2, v) ∈ (o.objects.filter fun e => e.1.1 == bucket && (P ++ "/.checkpoints".toList).isPrefixOf e.1.2).map fun e => (e.1.2, e.2) := by
      unfold ObjStore.list at hx
      cases st
      · exact (sortBy_perm _ _).mem_iff.1 (List.mem_of_mem_take hx)
      · exact (sortBy_perm _ _).mem_iff.1 hx
    obtain ⟨e', he', hee⟩ := List.mem_map.1 hsub
    have hp := (List.mem_filter.1 he').2
    rw [Bool.and_eq_true, List.isPrefixOf_iff_prefix] at hp
    injection hee with h1 h2
    rw [h1] at hp
    exact h hp.2

/-! Concrete cases. -/

def studioEnv : CallEnv := { entryEnv with size := fun p => if p = "/teamspace/studios/this_studio/data/a.txt".toList then some 5 else none }

/-- The hypotheses of `c70_guess` for a file in a Studio, inside a tuple after a number and a text that names no file. -/
example : FirstFile studioEnv (.tuple [.int 3, .str "label", .list [.str "/teamspace/studios/this_studio/data/a.txt"]]) "/teamspace/studios/this_studio/data/a.txt".toList ∧
    studioEnv.inferInputDir (.tuple [.int 3, .str "label", .list [.str "/teamspace/studios/this_studio/data/a.txt"]]) none = .ok (some "/teamspace/studios/this_studio".toList) := by
  refine ⟨⟨[none, some "label".toList], [], rfl, .inl ⟨5, rfl⟩, ?_⟩, rfl⟩
  intro q hq
  simp only [List.mem_cons, List.not_mem_nil, or_false, Option.some.injEq, reduceCtorEq, false_or] at hq
  subst hq
  exact ⟨rfl, by decide, by decide⟩

/-- A remote file gives its folder. -/
example : entryEnv.inferInputDir (.str "s3://b/data/raw/x.jpg") none = .ok (some "s3://b/data/raw".toList) := rfl

/-- Two files of an input count, a number does not. -/
example : itemBytes { studioEnv with size := fun p => if p = "/a".toList then some 5 else if p = "/b".toList then some 7 else none }.fileSizes
    (.tuple [.str "/a", .int 3, .list [.str "/b", .str "/c"]]) = .ok 12 := rfl

/-- The checkpoints of a remote output are removed, the dataset stays. -/
example : Outputs.cleanup ⟨[], [(("b".toList, "d/.checkpoints/config.json".toList), [1]), (("b".toList, "d/index.json".toList), [2])]⟩ ⟨none, some "s3://b/d/".toList⟩ =
    (.ok (), ⟨[], [(("b".toList, "d/index.json".toList), [2])]⟩) := by rfl

end LitData.Props
