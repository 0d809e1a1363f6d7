import Verif.Props.Sample

/-! Property C13 for samples that are lists of JPEG images. -/

namespace LitData.Props
open LitData

/-- The list or tuple of the images in the given files. -/
def jpegs (s : Bool × List Bytes) : LeafTree := .node (if s.1 then .list else .tuple) (s.2.map fun f => .leaf (.jpeg f))

theorem isJpegArray_iff (h : Head) (cs : List LeafTree) : isJpegArray Leaf.isJpeg h cs = true ↔
    (h = .list ∨ h = .tuple) ∧ cs ≠ [] ∧ ∀ c ∈ cs, ∃ f, c = .leaf (.jpeg f) := by
  unfold isJpegArray
  rw [Bool.and_eq_true, Bool.and_eq_true, and_assoc, List.all_eq_true]
  refine and_congr ?_ (and_congr ?_ ?_)
  · cases h <;> simp
  · simp
  · refine forall_congr' fun c => imp_congr_right fun _ => ?_
    cases c with
    | leaf a => cases a <;> simp [Leaf.isJpeg]
    | node => simp

/-- A non-empty list or tuple of JPEG images is one leaf; with anything else in it, its elements are leaves of their own. -/
theorem c11_jpeg_list (h : Head) (cs : List LeafTree) :
    flatten Leaf.isJpeg (.node h cs) = ([.node h cs], .leaf) ↔
      (h = .list ∨ h = .tuple) ∧ cs ≠ [] ∧ ∀ c ∈ cs, ∃ f, c = .leaf (.jpeg f) := by
  rw [← isJpegArray_iff]
  unfold flatten
  by_cases hj : isJpegArray Leaf.isJpeg h cs = true
  · simp [hj]
  · rw [if_neg hj]
    constructor
    · intro e
      have := (Prod.mk.inj e).2
      cases this
    · intro h; exact absurd h hj

example : flatten Leaf.isJpeg (.node .tuple [.leaf (.jpeg [1]), .leaf (.jpeg [2])]) = ([.node .tuple [.leaf (.jpeg [1]), .leaf (.jpeg [2])]], .leaf) :=
  (c11_jpeg_list _ _).2 ⟨.inr rfl, by simp, by simp⟩

example : flatten Leaf.isJpeg (.node .list [.leaf (.jpeg [1]), .leaf (.int 2)]) ≠ ([.node .list [.leaf (.jpeg [1]), .leaf (.int 2)]], .leaf) := by
  rw [Ne, c11_jpeg_list]
  simp

/-- What is read for a list of images. -/
def decodedImages (dec : Bytes → Py LeafTree) : LeafTree → List LeafTree
  | .node _ cs => match jpegFiles cs with
    | some fs => match decodeAll dec fs with
      | .ok ts => [.node .list ts]
      | .error _ => []
    | none => []
  | _ => []

theorem flatten_jpegs (s : Bool × List Bytes) (hne : s.2 ≠ []) : flatten Leaf.isJpeg (jpegs s) = ([jpegs s], .leaf) := by
  unfold jpegs
  rw [c11_jpeg_list]
  refine ⟨by cases s.1 <;> simp, by simpa using hne, ?_⟩
  intro c hc
  obtain ⟨f, _, rfl⟩ := List.mem_map.1 hc
  exact ⟨f, rfl⟩

/-- **C13, lists of JPEG images.** Let every sample be a non-empty list or tuple of JPEG images, any number of them. Every sample is read as the
list of its decoded images, in order. -/
theorem c13_jpeg_lists (env : SerEnv) (x : Bool × List Bytes) (xs : List (Bool × List Bytes))
    (hne : ∀ s ∈ x :: xs, s.2 ≠ []) (hsz : ∀ s ∈ x :: xs, 4 + 4 * s.2.length + s.2.flatten.length < 2 ^ 32)
    (images : Bool × List Bytes → List LeafTree) (hd : ∀ s ∈ x :: xs, decodeAll env.decodeJpeg s.2 = .ok (images s)) :
    ∃ bytes extra, writeSamples (builtins env) ((x :: xs).map jpegs) = .ok (bytes, ⟨some ["jpeg_array"], some .leaf, extra⟩) ∧
      bytes.length = xs.length + 1 ∧
      ∀ i (h : i < (x :: xs).length) (h' : i < bytes.length),
        readSample (builtins env) ["jpeg_array"] .leaf bytes[i] = .ok (.node .list (images (x :: xs)[i])) := by
  have hz : ∀ s ∈ x :: xs, decodedImages env.decodeJpeg (jpegs s) = [.node .list (images s)] := by
    intro s hs
    unfold decodedImages jpegs
    simp only [jpegFiles_map, hd s hs]
  have hx := flatten_jpegs x (hne x (by simp))
  obtain ⟨bytes, extra, h1, h2, h3⟩ := any_serializers_formats (builtins env) [⟨"jpeg_array", jpegArraySer env, "jpeg_array"⟩] (jpegs x)
    (xs.map jpegs) (show (List.map (fun x => x.fst) (builtins demoSerEnv)).Nodup by decide) (by simp) (by
      intro c hc
      rw [List.mem_singleton.1 hc]
      exact ⟨show ¬ ':' ∈ "jpeg_array".toList by decide, .inl rfl⟩) (by
      rw [hx]
      refine ⟨⟨?_, jpegArrayBytes x.2, none, ?_, rfl⟩, trivial⟩
      · unfold jpegs
        cases x.1 <;>
        simp [builtins, strSer, boolSer, intSer, floatSer, videoSer, tiffSer, fileSer, pilSer, jpegSer, jpegArraySer, jpegFiles_map]
      · unfold jpegs
        simp only [jpegArraySer, jpegFiles_map]) (decodedImages env.decodeJpeg) (by
      intro y hy
      rw [← List.map_cons] at hy
      obtain ⟨s, hs, rfl⟩ := List.mem_map.1 hy
      rw [flatten_jpegs s (hne s hs), hz s hs]
      have hlen : ∀ f ∈ s.2, f.length ≤ s.2.flatten.length := by
        intro f hf
        exact (List.sublist_flatten_of_mem hf).length_le
      have := hsz s hs
      refine ⟨⟨jpegArrayBytes s.2, none, ?_, ?_, rfl, ?_⟩, trivial⟩
      · unfold jpegs
        simp only [jpegArraySer, jpegFiles_map]
      · show jpegArrayOf env.decodeJpeg (jpegArrayBytes s.2) = _
        rw [jpegArrayOf_bytes _ _ (hne s hs) (by omega) (fun f hf => by have := hlen f hf; omega), hd s hs]
        rfl
      · unfold jpegArrayBytes
        rw [List.length_append, List.length_append, flatMap_le32_length, le32_length, List.length_map]
        omega)
  rw [hx] at h1 h3
  refine ⟨bytes, extra, h1, by simpa using h2, ?_⟩
  intro i h h'
  have := h3 i (by simpa using h) h'
  simp only [List.map_cons, List.map_nil] at this
  rw [this]
  have hi : (jpegs x :: xs.map jpegs)[i]'(by simpa using h) = jpegs (x :: xs)[i] := by
    rw [← List.getElem_map jpegs]
    · rfl
  rw [hi, hz _ (List.getElem_mem h)]
  rfl

/-- Two images, then one, in a tuple. -/
example : ∃ bytes extra, writeSamples (builtins demoSerEnv) [jpegs (true, [[1, 2], [3]]), jpegs (false, [[4]])] =
    .ok (bytes, ⟨some ["jpeg_array"], some .leaf, extra⟩) := by
  obtain ⟨bytes, extra, h, _⟩ := c13_jpeg_lists { demoSerEnv with decodeJpeg := fun b => .ok (.leaf (.bytes b)) } (true, [[1, 2], [3]]) [(false, [[4]])]
    (by simp) (by simp) (fun s => s.2.map fun b => .leaf (.bytes b)) (by simp [decodeAll])
  exact ⟨bytes, extra, h⟩

end LitData.Props
