import Verif.Model.Pytree
import Verif.Lemmas.Json

/-! Flattening and rebuilding are inverse; so are storing and reading the structure. -/

namespace LitData

/-- A container of `n` children with this head can exist in Python. -/
def Head.Fits : Head → Nat → Prop
  | .dict ks, n | .odict ks, n | .ddict _ ks, n =>
    ks.length = n ∧ (ks.map Key.norm).Nodup ∧ ∀ k ∈ ks, k.hashable = true
  | .named _ a, n => n = a
  | .deque (some m), n => n ≤ m
  | _, _ => True

mutual
/-- Every container of the sample can exist in Python. -/
def Tree.WF {α : Type} : Tree α → Prop
  | .leaf _ => True
  | .node h cs => h.Fits cs.length ∧ TreesWF cs

def TreesWF {α : Type} : List (Tree α) → Prop
  | [] => True
  | c :: cs => c.WF ∧ TreesWF cs
end

theorem dictSet_new {β : Type} (d : List (Key × β)) (k : Key) (v : β) (h : k.norm ∉ d.map (fun e => e.1.norm)) :
    dictSet d k v = d ++ [(k, v)] := by
  induction d with
  | nil => rfl
  | cons e d ih =>
    obtain ⟨k', v'⟩ := e
    simp only [List.map_cons, List.mem_cons, not_or] at h
    rw [dictSet, if_neg (fun h' => h.1 h'.symm), ih h.2]
    rfl

theorem dictOf_fresh {β : Type} (ps : List (Key × β)) : ∀ (d : List (Key × β)),
    ((d ++ ps).map (fun e => e.1.norm)).Nodup → (∀ e ∈ ps, e.1.hashable = true) → dictOf d ps = .ok (d ++ ps) := by
  induction ps with
  | nil => intro d _ _; simp [dictOf]
  | cons e ps ih =>
    intro d hn hh
    obtain ⟨k, v⟩ := e
    rw [dictOf, if_pos (hh (k, v) (by simp)), dictSet_new]
    · rw [ih]
      · simp
      · simpa using hn
      · intro e he; exact hh e (List.mem_cons_of_mem _ he)
    · intro hm
      rw [List.map_append, List.nodup_append] at hn
      exact hn.2.2 _ hm k.norm (by simp) rfl

theorem dictOf_zip {β : Type} (ks : List Key) (vs : List β) (hl : ks.length = vs.length) (hn : (ks.map Key.norm).Nodup)
    (hh : ∀ k ∈ ks, k.hashable = true) : dictOf [] (ks.zip vs) = .ok (ks.zip vs) := by
  have := dictOf_fresh (ks.zip vs) [] (by
    rw [List.nil_append, show (fun e : Key × β => e.1.norm) = Key.norm ∘ Prod.fst from rfl, ← List.map_map,
      List.map_fst_zip (by omega)]
    exact hn) (by
    intro e he
    exact hh _ (List.of_mem_zip he).1)
  simpa using this

theorem build_ok {α : Type} (h : Head) (cs : List (Tree α)) (hf : h.Fits cs.length) : build h cs = .ok (.node h cs) := by
  match h with
  | .tuple => rfl
  | .list => rfl
  | .dict ks =>
    obtain ⟨h1, h2, h3⟩ := hf
    simp only [build, dictOf_zip ks cs h1 h2 h3]
    rw [List.map_fst_zip (by omega), List.map_snd_zip (by omega)]
  | .odict ks =>
    obtain ⟨h1, h2, h3⟩ := hf
    simp only [build, dictOf_zip ks cs h1 h2 h3]
    rw [List.map_fst_zip (by omega), List.map_snd_zip (by omega)]
  | .ddict f ks =>
    obtain ⟨h1, h2, h3⟩ := hf
    simp only [build, dictOf_zip ks cs h1 h2 h3]
    rw [List.map_fst_zip (by omega), List.map_snd_zip (by omega)]
  | .named c n => simp only [build, Head.Fits] at hf ⊢; rw [if_pos hf]
  | .deque none => rfl
  | .deque (some m) =>
    simp only [build, Head.Fits] at hf ⊢
    rw [show cs.length - m = 0 by omega]; rfl

mutual
theorem numLeaves_flatten {α : Type} (isJpeg : α → Bool) (t : Tree α) :
    (flatten isJpeg t).2.numLeaves = (flatten isJpeg t).1.length := by
  match t with
  | .leaf a => simp [flatten, TSpec.numLeaves]
  | .node h cs =>
    simp only [flatten]
    split
    · simp [TSpec.numLeaves]
    · simp only [TSpec.numLeaves]
      exact numLeavesList_flatten isJpeg cs

theorem numLeavesList_flatten {α : Type} (isJpeg : α → Bool) (cs : List (Tree α)) :
    numLeavesList (flattenList isJpeg cs).2 = (flattenList isJpeg cs).1.length := by
  match cs with
  | [] => simp [flattenList, numLeavesList]
  | c :: cs =>
    simp only [flattenList, numLeavesList, List.length_append]
    rw [numLeaves_flatten isJpeg c, numLeavesList_flatten isJpeg cs]
end

mutual
theorem unflatten_flatten {α : Type} (isJpeg : α → Bool) (t : Tree α) (ht : t.WF) :
    unflatten (flatten isJpeg t).2 (flatten isJpeg t).1 = .ok t := by
  match t with
  | .leaf a => simp [flatten, unflatten]
  | .node h cs =>
    simp only [flatten]
    split
    · simp [unflatten]
    · simp only [Tree.WF] at ht
      simp only [unflatten, numLeavesList_flatten, ne_eq, not_true_eq_false, if_false]
      rw [unflattenList_flatten isJpeg cs ht.2]
      exact build_ok h cs ht.1

theorem unflattenList_flatten {α : Type} (isJpeg : α → Bool) (cs : List (Tree α)) (hcs : TreesWF cs) :
    unflattenList (flattenList isJpeg cs).2 (flattenList isJpeg cs).1 = .ok cs := by
  match cs with
  | [] => simp [flattenList, unflattenList]
  | c :: cs =>
    simp only [TreesWF] at hcs
    simp only [flattenList, unflattenList]
    rw [numLeaves_flatten, List.take_left, List.drop_left, unflatten_flatten isJpeg c hcs.1,
      unflattenList_flatten isJpeg cs hcs.2]
end

theorem unflatten_wrong {α : Type} (s : TSpec) (leaves : List (Tree α)) (h : leaves.length ≠ s.numLeaves) :
    unflatten s leaves = .error .valueError := by
  cases s with
  | leaf => simp only [TSpec.numLeaves] at h; simp only [unflatten]; rw [if_pos h]
  | node hd cs => simp only [TSpec.numLeaves] at h; simp only [unflatten]; rw [if_pos h]

/-- The head can be written to JSON and read back. -/
def Head.Storable (env : PyEnv) : Head → Prop
  | .dict ks | .odict ks => ∀ k ∈ ks, ∃ a, k = .atom a
  | .ddict f ks => (∀ k ∈ ks, ∃ a, k = .atom a) ∧ ∃ m, f = some m ∧ env.importable m = true
  | .named c n => env.registered c = some n
  | _ => True

mutual
/-- The structure can be written to JSON and read back. -/
def TSpec.Storable (env : PyEnv) : TSpec → Prop
  | .leaf => True
  | .node h cs => h.Storable env ∧ SpecsStorable env cs

def SpecsStorable (env : PyEnv) : List TSpec → Prop
  | [] => True
  | c :: cs => c.Storable env ∧ SpecsStorable env cs
end

theorem atom_json (a : Atom) : Atom.ofJson a.toJson = .ok a := by cases a <;> rfl

theorem key_json (a : Atom) : Key.ofJson a.toJson = .ok (.atom a) := by cases a <;> rfl

theorem atom_json_wf (a : Atom) : a.toJson.WF := by cases a <;> simp [Atom.toJson, Json.WF]

theorem keys_json (ks : List Key) (h : ∀ k ∈ ks, ∃ a, k = .atom a) :
    ∃ js, keysToJson ks = .ok js ∧ keysOfJson js = .ok ks ∧ WFList js := by
  induction ks with
  | nil => exact ⟨[], rfl, rfl, by simp [WFList]⟩
  | cons k ks ih =>
    obtain ⟨a, rfl⟩ := h k (by simp)
    obtain ⟨js, h1, h2, h3⟩ := ih (fun k hk => h k (List.mem_cons_of_mem _ hk))
    refine ⟨a.toJson :: js, ?_, ?_, ?_⟩
    · simp only [keysToJson, Key.toJson, h1]
    · simp only [keysOfJson, key_json, h2]
    · simp only [WFList]; exact ⟨atom_json_wf a, h3⟩

theorem head_json (env : PyEnv) (h : Head) (hs : h.Storable env) :
    ∃ t c, headToJson env h = .ok (t, c) ∧ headOfJson env t c = .ok h ∧ c.WF := by
  match h with
  | .tuple => exact ⟨_, _, rfl, rfl, by simp [Json.WF]⟩
  | .list => exact ⟨_, _, rfl, rfl, by simp [Json.WF]⟩
  | .dict ks =>
    obtain ⟨js, h1, h2, h3⟩ := keys_json ks hs
    refine ⟨_, _, by simp only [headToJson, h1]; rfl, ?_, by simp [Json.WF]⟩
    simp only [headOfJson]
    rw [loads_dumps _ (by simpa [Json.WF] using h3)]
    simp [contextKeys, h2]
  | .odict ks =>
    obtain ⟨js, h1, h2, h3⟩ := keys_json ks hs
    refine ⟨_, _, by simp only [headToJson, h1]; rfl, ?_, by simp [Json.WF]⟩
    simp only [headOfJson]
    rw [loads_dumps _ (by simpa [Json.WF] using h3)]
    simp [contextKeys, h2]
  | .ddict f ks =>
    obtain ⟨hk, ⟨m, n⟩, rfl, hi⟩ := hs
    obtain ⟨js, h1, h2, h3⟩ := keys_json ks hk
    refine ⟨_, _, by simp only [headToJson, h1]; rfl, ?_, by simp [Json.WF, WFList, h3]⟩
    simp [headOfJson, hi, contextKeys, h2]
  | .named c n =>
    simp only [Head.Storable] at hs
    refine ⟨_, _, by simp only [headToJson, hs]; rfl, ?_, by simp [Json.WF]⟩
    simp [headOfJson, hs]
  | .deque none =>
    refine ⟨_, _, rfl, ?_, by simp [Json.WF]⟩
    simp only [headOfJson]
    rw [loads_dumps _ (by simp [Json.WF])]
    simp
  | .deque (some m) =>
    refine ⟨_, _, rfl, ?_, by simp [Json.WF]⟩
    simp only [headOfJson]
    rw [loads_dumps _ (by simp [Json.WF])]
    simp

mutual
theorem spec_json (env : PyEnv) (s : TSpec) (hs : s.Storable env) :
    ∃ j, specToJson env s = .ok j ∧ specOfJson env j = .ok s ∧ j.WF := by
  match s with
  | .leaf => exact ⟨_, by simp only [specToJson]; rfl, by simp [specOfJson], by simp [Json.WF, WFList]⟩
  | .node h cs =>
    simp only [TSpec.Storable] at hs
    obtain ⟨t, c, h1, h2, h3⟩ := head_json env h hs.1
    obtain ⟨js, h4, h5, h6⟩ := specs_json env cs hs.2
    refine ⟨_, by simp only [specToJson, h1, h4]; rfl, ?_, ?_⟩
    · simp only [specOfJson, h2, h5]
    · simp [Json.WF, WFList, h3, h6]

theorem specs_json (env : PyEnv) (cs : List TSpec) (hs : SpecsStorable env cs) :
    ∃ js, specsToJson env cs = .ok js ∧ specsOfJson env js = .ok cs ∧ WFList js := by
  match cs with
  | [] => exact ⟨[], by simp [specsToJson], by simp [specsOfJson], by simp [WFList]⟩
  | c :: cs =>
    simp only [SpecsStorable] at hs
    obtain ⟨j, h1, h2, h3⟩ := spec_json env c hs.1
    obtain ⟨js, h4, h5, h6⟩ := specs_json env cs hs.2
    refine ⟨j :: js, by simp only [specsToJson, h1, h4], by simp only [specsOfJson, h2, h5], ?_⟩
    simp only [WFList]; exact ⟨h3, h6⟩
end

theorem treespec_roundtrip (env : PyEnv) (s : TSpec) (hs : s.Storable env) :
    ∃ text, treespecDumps env s = .ok text ∧ treespecLoads env text = .ok s := by
  obtain ⟨j, h1, h2, h3⟩ := spec_json env s hs
  refine ⟨_, by simp only [treespecDumps, h1]; rfl, ?_⟩
  unfold treespecLoads
  rw [loads_dumps _ (by simp [Json.WF, WFList, h3])]
  exact h2

mutual
/-- Every container of the sample can be described in JSON. -/
def Tree.Storable {α : Type} (env : PyEnv) : Tree α → Prop
  | .leaf _ => True
  | .node h cs => h.Storable env ∧ TreesStorable env cs

def TreesStorable {α : Type} (env : PyEnv) : List (Tree α) → Prop
  | [] => True
  | c :: cs => c.Storable env ∧ TreesStorable env cs
end

mutual
theorem storable_flatten {α : Type} (env : PyEnv) (isJpeg : α → Bool) (t : Tree α) (h : t.Storable env) :
    (flatten isJpeg t).2.Storable env := by
  match t with
  | .leaf a => simp [flatten, TSpec.Storable]
  | .node hd cs =>
    simp only [Tree.Storable] at h
    simp only [flatten]
    split
    · simp [TSpec.Storable]
    · simp only [TSpec.Storable]
      exact ⟨h.1, storable_flattenList env isJpeg cs h.2⟩

theorem storable_flattenList {α : Type} (env : PyEnv) (isJpeg : α → Bool) (cs : List (Tree α))
    (h : TreesStorable env cs) : SpecsStorable env (flattenList isJpeg cs).2 := by
  match cs with
  | [] => simp [flattenList, SpecsStorable]
  | c :: cs =>
    simp only [TreesStorable] at h
    simp only [flattenList, SpecsStorable]
    exact ⟨storable_flatten env isJpeg c h.1, storable_flattenList env isJpeg cs h.2⟩
end

theorem isLeaf_iff (s : TSpec) : s.isLeaf = true ↔ s = .leaf := by
  cases s with
  | leaf => simp [TSpec.isLeaf, TSpec.numNodes, TSpec.numLeaves]
  | node h cs =>
    simp only [TSpec.isLeaf, Bool.and_eq_true, beq_iff_eq, TSpec.numNodes, TSpec.numLeaves, reduceCtorEq, iff_false]
    cases cs with
    | nil => simp [numNodesList, numLeavesList]
    | cons c cs =>
      simp only [numNodesList]
      have : 1 ≤ c.numNodes := by cases c <;> simp [TSpec.numNodes] 
      omega

end LitData
