import Verif.Lemmas.Pytree

/-! Property C11: nested samples are rebuilt with the same structure. -/

namespace LitData.Props
open LitData

/-- **C11.** Rebuilding the leaves with the structure gives back the sample, for every nesting of tuples,
lists, dictionaries, ordered and default dictionaries, named tuples, deques and leaves, and whichever
leaves are JPEG images. -/
theorem c11_unflatten_flatten {α : Type} (isJpeg : α → Bool) (t : Tree α) (ht : t.WF) :
    unflatten (flatten isJpeg t).2 (flatten isJpeg t).1 = .ok t := unflatten_flatten isJpeg t ht

/-- **C11.** The structure written to `index.json` and read back rebuilds the sample. -/
theorem c11_through_index_partial {α : Type} (env : PyEnv) (isJpeg : α → Bool) (t : Tree α) (ht : t.WF)
    (hs : t.Storable env) :
    ∃ text s, treespecDumps env (flatten isJpeg t).2 = .ok text ∧ treespecLoads env text = .ok s ∧
      unflatten s (flatten isJpeg t).1 = .ok t := by
  obtain ⟨text, h1, h2⟩ := treespec_roundtrip env _ (storable_flatten env isJpeg t hs)
  exact ⟨text, _, h1, h2, unflatten_flatten isJpeg t ht⟩

/-- **C11.** The structure itself survives being written and read. -/
theorem c11_structure_survives (env : PyEnv) (s : TSpec) (hs : s.Storable env) :
    ∃ text, treespecDumps env s = .ok text ∧ treespecLoads env text = .ok s := treespec_roundtrip env s hs

/-- **C11.** A wrong number of leaves raises `ValueError`. -/
theorem c11_wrong_number {α : Type} (isJpeg : α → Bool) (t : Tree α) (leaves : List (Tree α))
    (h : leaves.length ≠ (flatten isJpeg t).1.length) :
    unflatten (flatten isJpeg t).2 leaves = .error .valueError :=
  unflatten_wrong _ _ (by rw [numLeaves_flatten]; exact h)

/-- The test `is_leaf` of the code, which counts nodes and leaves, recognises exactly the leaf structure:
an empty container is not mistaken for a leaf. -/
theorem c11_is_leaf (s : TSpec) : s.isLeaf = true ↔ s = .leaf := isLeaf_iff s

/-- **Bytes as a dictionary key** cannot be stored: `TypeError` when the index is written. -/
theorem c11_bytes_key_refused (env : PyEnv) (b : Bytes) (ks : List Key) (cs : List TSpec) :
    treespecDumps env (.node (.dict (.bytes b :: ks)) cs) = .error .typeError := by
  simp [treespecDumps, specToJson, headToJson, keysToJson, Key.toJson]

/-- **A `defaultdict` without a factory** cannot be stored: `AttributeError` when the index is written. -/
theorem c11_no_factory_refused (env : PyEnv) (ks : List Key) (cs : List TSpec) :
    treespecDumps env (.node (.ddict none ks) cs) = .error .attributeError := by
  simp [treespecDumps, specToJson, headToJson]

/-- **Tuples as dictionary keys are lost.** The index is written without complaint, but the key is read
back as a list and rebuilding any sample raises `TypeError`. -/
theorem c11_tuple_key_breaks (env : PyEnv) (l : List Atom) (x : Tree Nat) :
    ∃ text s, treespecDumps env (.node (.dict [.tup l]) [.leaf]) = .ok text ∧ treespecLoads env text = .ok s ∧
      unflatten s [x] = .error .typeError := by
  have hl : ∀ l : List Atom, WFList (l.map Atom.toJson) ∧ atomsOfJson (l.map Atom.toJson) = .ok l := by
    intro l
    induction l with
    | nil => exact ⟨by simp [WFList], rfl⟩
    | cons a l ih =>
      simp only [List.map_cons, WFList, atomsOfJson, atom_json, ih.2]
      exact ⟨⟨atom_json_wf a, ih.1⟩, trivial⟩
  refine ⟨?t, .node (.dict [.lst l]) [.leaf], ?_, ?_, ?_⟩
  case t => exact dumps (.arr [.num 1, .obj ["type", "context", "children_spec"]
    [.str "builtins.dict", .str (dumps (.arr [.arr (l.map Atom.toJson)])),
     .arr [.obj ["type", "context", "children_spec"] [.null, .null, .arr []]]]])
  · simp only [treespecDumps, specToJson, headToJson, keysToJson, Key.toJson, specsToJson]
  · unfold treespecLoads
    rw [loads_dumps _ (by simp [Json.WF, WFList])]
    simp only [specOfJson, headOfJson]
    rw [loads_dumps _ (by simp [Json.WF, WFList, (hl l).1])]
    simp [contextKeys, keysOfJson, Key.ofJson, (hl l).2, specsOfJson, specOfJson]
  · simp [unflatten, unflattenList, numLeavesList, TSpec.numLeaves, build, dictOf, Key.hashable]

/-! A sample that meets the hypotheses: `{"a": [1, (2, 3)], 5: []}`. -/

def demoTree : Tree Nat :=
  .node (.dict [.atom (.str "a"), .atom (.int 5)])
    [.node .list [.leaf 1, .node .tuple [.leaf 2, .leaf 3]], .node .list []]

example : demoTree.WF := by
  simp only [demoTree, Tree.WF, TreesWF, Head.Fits, List.length_cons, List.length_nil]
  decide

example : demoTree.Storable ⟨fun _ => none, fun _ => false⟩ := by
  simp [demoTree, Tree.Storable, TreesStorable, Head.Storable]

end LitData.Props
