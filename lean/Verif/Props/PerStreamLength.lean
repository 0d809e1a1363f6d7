import Verif.Props.PerStream
import Verif.Props.LoaderSettings

/-! Property C46 after `len(dataset)` or `load_state_dict` of the loader: the iterator gets the batch size of the combined dataset (`streaming/combined.py:171-191`). -/

namespace LitData.Props
open LitData Spec

/-- **C46 fails after `len`.** Once `len` of a combined dataset has been asked, the dataset is chosen anew for each sample, whatever batch size the loader had set.
(Here for the first samples, up to the end of a dataset.) -/
theorem c46_after_length {α : Type} (c c' : CombSettings) (n : Nat) (h : combLen c = .ok (some n, c')) (rng : Nat → List Nat → List Nat → Nat) (hf : FairRng rng)
    (weights : List Nat) (streams : List (List α)) (hl : weights.length = streams.length) (hw : 0 < weights.sum) (m : Nat) :
    ∃ st out e st', combinedInit ⟨rng, .perStream, c'.batchSize⟩ weights streams none = .ok st ∧ takeFirst ⟨rng, .perStream, c'.batchSize⟩ m st = (out, e, st') ∧
      ∀ (j : Nat) x, out[j]? = some x → x.1 = rng j (List.range streams.length) weights := by
  have hb := (c65_len_resets c c' n h).1
  obtain ⟨st, out, e, st', h1, h2, h3⟩ := c46_per_stream ⟨rng, .perStream, c'.batchSize⟩ hf rfl (by rw [hb]; exact Nat.one_pos) weights streams hl hw m
  refine ⟨st, out, e, st', h1, h2, fun j x hx => ?_⟩
  refine h3 j x (List.mem_of_getElem? (i := 0) ?_)
  simpa [hb] using hx

/-- Two datasets of three and five samples behind a loader with batches of two. -/
def threeAndFive : LoaderData :=
  loaderInit 2 1 none none (.combined { all := true, datasets :=
    [(⟨fun _ l => l, [⟨0, 0, 3, 3⟩], 1, 1, 0⟩, { shuffle := false, dropLast := false }), (⟨fun _ l => l, [⟨0, 0, 5, 5⟩], 1, 1, 0⟩, { shuffle := false, dropLast := false })] })

/-- **C46 fails: the length mixes the batches.** The batches of two are from one dataset each. After `len(dataset)`, and likewise after the loader has loaded a state
with one sample, the first batch has a sample of each dataset. -/
theorem c46_length_mixes :
    ∃ c c' d, threeAndFive = .combined c ∧ combLen c = .ok (some 8, c') ∧ loaderLoadSettings [true, true] 1 (.combined c) = .ok (.combined d) ∧
      (takeAll ⟨roundRng, .perStream, c.batchSize⟩ 20 4 twoStreams).map (fun r => (r.1, r.2.1)) = some ([(0, 10), (0, 11), (1, 20), (1, 21)], none) ∧
      (takeAll ⟨roundRng, .perStream, c'.batchSize⟩ 20 4 twoStreams).map (fun r => (r.1, r.2.1)) = some ([(0, 10), (1, 20), (0, 11), (1, 21)], none) ∧
      (takeAll ⟨roundRng, .perStream, d.batchSize⟩ 20 4 twoStreams).map (fun r => (r.1, r.2.1)) = some ([(0, 10), (1, 20), (0, 11), (1, 21)], none) :=
  ⟨_, _, _, rfl, rfl, rfl, by decide +kernel, by decide +kernel, by decide +kernel⟩

example : ∃ c c', threeAndFive = .combined c ∧ combLen c = .ok (some 8, c') := ⟨_, _, rfl, rfl⟩

end LitData.Props
